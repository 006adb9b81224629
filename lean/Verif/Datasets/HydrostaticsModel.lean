import Mathlib.Data.List.Dedup

/-!
# Datasets of hydrostatics

Model of `hydrostatics_dataset` (`io/xarray.py:257-268`), called by `assemble_dataset` with `hydrostatics=True` (`xarray.py:480-486`), with the
contracts of dictionaries, `xr.concat`, `squeeze` and `xr.merge`.

Simplification: a matrix is a single value (its entries have the dofs as labels); the union of the dofs of several bodies is left out.
-/

namespace Verif.Datasets

/-- A body with the two matrices it may have (`xarray.py:262-263`). -/
structure HBody (M : Type) where
  name : String
  inertia : Option M
  stiffness : Option M

variable {M : Type}

/-- `d[key] = value`: the value of a key that is already there is replaced. -/
def dictSet (d : List (String × M)) (k : String) (v : M) : List (String × M) :=
  if d.any (fun e => e.1 = k) then d.map fun e => if e.1 = k then (k, v) else e else d ++ [(k, v)]

/-- `{body.name: getattr(body, property) for body in bodies if hasattr(body, property)}` (`xarray.py:263`). -/
def hydroDict (p : HBody M → Option M) (bodies : List (HBody M)) : List (String × M) :=
  bodies.foldl (fun d b => match p b with
    | some v => dictSet d b.name v
    | none => d) []

/-- The coordinate `body_name` of a dataset: none, a scalar, or the labels of a dimension. -/
inductive NameCoord where
  | absent
  | scalar (n : String)
  | index (l : List String)

/-- The coordinate of a matrix: the dimension is squeezed when there is one body (`xarray.py:264-266`). -/
def nameCoord (d : List (String × M)) : NameCoord := match d with
  | [] => .absent
  | [e] => .scalar e.1
  | d => .index (d.map Prod.fst)

/-- The coordinate `body_name` after `xr.merge` (`xarray.py:267`): the labels are put together, a dimension takes the place of a scalar, and
two scalars have to agree. -/
def mergeNames : NameCoord → NameCoord → Option NameCoord
  | .absent, c => some c
  | c, .absent => some c
  | .scalar n, .scalar m => if n = m then some (.scalar n) else none
  | .scalar _, .index l => some (.index l)
  | .index l, .scalar _ => some (.index l)
  | .index l, .index m => some (.index (l ++ m))

/-- The value of a matrix once a body name has been selected: a matrix without the dimension has the same value everywhere. -/
def matrixAt (d : List (String × M)) (x : String) : Option M := match d with
  | [] => none
  | [e] => some e.2
  | d => (d.find? fun e => e.1 = x).map Prod.snd

/-- A dataset of hydrostatics. -/
structure HydroDS (M : Type) where
  names : NameCoord
  inertia : String → Option M
  stiffness : String → Option M

/-- `hydrostatics_dataset` (`xarray.py:257-268`); `none` is the error of `xr.merge`. -/
def hydrostaticsDataset (bodies : List (HBody M)) : Option (HydroDS M) :=
  (mergeNames (nameCoord (hydroDict HBody.inertia bodies)) (nameCoord (hydroDict HBody.stiffness bodies))).map fun c =>
    ⟨c, matrixAt (hydroDict HBody.inertia bodies), matrixAt (hydroDict HBody.stiffness bodies)⟩

end Verif.Datasets
