import Verif.Bodies.JoinModel

/-!
# Labels of the matrices of bodies

Model of `keep_only_dofs`, `add_dofs_labels_to_matrix` and of the matrices of `join_bodies` in
`capytaine/bodies/bodies.py`, with the names of the dofs on the rows and columns of the matrices.
-/

namespace Verif.Bodies

/-- A `DataArray` with the dimensions `influenced_dof` and `radiating_dof` (`bodies/bodies.py:262-267`). Both have
the same labels. -/
structure Labelled where
  labels : List Name
  values : List (List ℝ)

/-- `array.sel(influenced_dof=a, radiating_dof=b)` for one label each. -/
def Labelled.at (M : Labelled) (a b : Name) : Option ℝ :=
  (M.labels.idxOf? a).bind fun i => (M.labels.idxOf? b).bind fun j => M.values[i]?.bind fun r => r[j]?

/-- `array.sel(influenced_dof=names, radiating_dof=names)` for labels that are all different: rows and columns in the
order of `names`. `none` for `KeyError`. -/
def Labelled.sel (M : Labelled) (names : List Name) : Option Labelled :=
  match names.mapM fun a => names.mapM fun b => M.at a b with
  | none => none
  | some v => some ⟨names, v⟩

/-- The names of the dofs of a body, in the order of the dictionary, and one of its matrices. -/
structure Tagged where
  name : Name
  dofs : List Name
  matrix : Option Labelled

/-- `keep_only_dofs` (`bodies/bodies.py:242-253`), with one matrix instead of two. The values of the dofs do not
change and are left out. -/
def Tagged.keepOnly (b : Tagged) (names : List Name) : Option Tagged :=
  let dofs := b.dofs.filter fun d => d ∈ names
  match b.matrix with
  | none => some { b with dofs := dofs }
  | some M => (M.sel names).map fun S => { b with dofs := dofs, matrix := some S }

/-- `add_dofs_labels_to_matrix` (`bodies/bodies.py:262-267`): the values, without any label they could have, with
the names of the dofs of the body. `none` for `ValueError`. -/
def addLabels (dofs : List Name) (M : Matrix2) : Option Labelled :=
  if M.rows.length = dofs.length ∧ M.cols = dofs.length then some ⟨dofs, M.rows⟩ else none

/-- `np.asarray`: the values without the labels. -/
def Labelled.bare (M : Labelled) : Matrix2 := ⟨M.labels.length, M.values⟩

/-- The names of the dofs of a joined body (`bodies/bodies.py:806-828`): the keys of a dictionary. -/
def joinDofNames (bodies : List Tagged) : List Name :=
  (bodies.flatMap fun b => b.dofs.map (newDofName b.name)).foldl (fun acc n => if n ∈ acc then acc else acc ++ [n]) []

/-- The matrix of a joined body (`bodies/bodies.py:797-802`), for bodies which all have one. -/
def joinLabelled (bodies : List Tagged) (ms : List Labelled) : Option Labelled :=
  addLabels (joinDofNames bodies) (blockDiag (ms.map Labelled.bare))

end Verif.Bodies
