import Verif.Meshes.Model
import Verif.Meshes.CacheModel
import Mathlib.Data.List.Dedup
import Mathlib.Data.List.Sort

/-!
# Connected components

Model of `clustering` and `connected_components` (`capytaine/meshes/properties.py:205-267`). The `while`
loops are recursions on a bound of the number of iterations, which is large enough for all faces.
-/

namespace Verif.Meshes

open Verif.Geometry

variable {V : Type}

/-- One row of `np.any(np.isin(faces, group), axis=1)` (`meshes/properties.py:220`). -/
def touches (group : List ℕ) (f : Face) : Bool := f.toList.any fun v => group.contains v

/-- `faces_in_group` (`meshes/properties.py:205-220`). -/
def facesInGroup (faces : List Face) (group : List ℕ) : List Bool := faces.map (touches group)

/-- Selection of rows by a mask, `faces[mask]`. -/
def masked (faces : List Face) (mask : List Bool) : List Face :=
  ((faces.zip mask).filter fun x => x.2).map fun x => x.1

/-- `np.unique(faces)`: the numbers in the array, once each, in increasing order. -/
def uniqueIds (faces : List Face) : List ℕ :=
  ((faces.flatMap Face.toList).dedup).insertionSort (· ≤ ·)

/-- The inner loop (`meshes/properties.py:244-248`): `rem` is `rem_mask`. -/
def growGroup (remaining : List Face) : ℕ → List ℕ → List Bool → List ℕ
  | 0, group, _ => group
  | n + 1, group, rem =>
    let new := facesInGroup remaining group
    if new = rem then uniqueIds (masked remaining new)
    else growGroup remaining n (uniqueIds (masked remaining new)) new

/-- The faces without vertices in the groups (`meshes/properties.py:236`, `251`). -/
def facesMask (faces : List Face) (groups : List (List ℕ)) : List Bool :=
  faces.map fun f => !groups.any fun g => touches g f

/-- The outer loop (`meshes/properties.py:237-251`). -/
def clusterLoop (faces : List Face) : ℕ → List (List ℕ) → List (List ℕ)
  | 0, groups => groups
  | n + 1, groups =>
    match masked faces (facesMask faces groups) with
    | [] => groups
    | f :: rest =>
      clusterLoop faces n (groups ++
        [growGroup (f :: rest) (rest.length + 3) f.toList ((f :: rest).map fun _ => true)])

/-- `clustering` (`meshes/properties.py:222-252`). -/
def clustering (faces : List Face) : List (List ℕ) := clusterLoop faces (faces.length + 1) []

/-- `np.argwhere(faces_in_group(mesh.faces, group))`: an array of shape `(n, 1)` whose only column is this
list (`meshes/properties.py:265`). -/
def facesOfGroup (faces : List Face) (group : List ℕ) : List ℕ :=
  (List.range faces.length).filter fun i => (faces[i]?.map (touches group)).getD false

/-- The positions of the faces of each component (`meshes/properties.py:259-265`), `none` for the
`ValueError` raised when some vertices are in several groups. -/
def componentIds (faces : List Face) : Option (List (List ℕ)) :=
  let groups := clustering faces
  if (groups.map List.length).sum ≠ groups.flatten.dedup.length then none
  else some (groups.map (facesOfGroup faces))

/-- `connected_components` (`meshes/properties.py:255-267`), without the stored panel data. -/
def Mesh.connectedComponents (m : Mesh V) : Option (List (Mesh V)) :=
  match componentIds m.faces with
  | none => none
  | some comps => comps.mapM fun ids => (m.extractFaces ids).map Prod.fst

/-- An array of panel data, with one entry per panel or with one row of entries per panel. -/
inductive PanelArray where
  | flat (entries : Table)
  | rows (entries : List Table)

/-- The panel data read on a component of a mesh whose panel data were stored or not. When they were,
`extract_faces` selects them (`meshes/meshes.py:239-241`) with the positions given by `np.argwhere`
(`meshes/properties.py:265`), an array of shape `(n, 1)`, hence one row of one entry per panel. Otherwise
they are computed on the component. -/
noncomputable def componentData (m : Mesh (V3 ℝ)) (stored : Option Table) (ids : List ℕ) :
    Option PanelArray :=
  match stored with
  | some t => (select t ids).map fun l => .rows (l.map fun x => [x])
  | none => (m.extractFaces ids).bind fun c => c.1.faceTable.map .flat

end Verif.Meshes
