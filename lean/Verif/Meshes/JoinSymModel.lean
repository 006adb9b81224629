import Verif.Meshes.SymmetricModel

/-!
# Joining symmetric meshes

Model of the methods `join_meshes` of the symmetric meshes (`capytaine/meshes/symmetric.py:87-93`, `197-205`,
`357-365`). As in `TreeModel`, objects are values: the joined mesh shares its first parts with the given meshes,
which is not followed here (see `Meshes/ShareModel`).
-/

namespace Verif.Meshes

open Verif.Geometry V3

/-- `np.allclose(x, y)` for two floats, with the default tolerances. -/
def closeFloat (x y : ℝ) : Prop := |x - y| ≤ 1e-8 + 1e-5 * |y|

/-- `np.allclose(u, v)` for two vectors. -/
def allClose (u v : V3 ℝ) : Prop := closeFloat u.x v.x ∧ closeFloat u.y v.y ∧ closeFloat u.z v.z

/-- The conditions on each mesh of the `assert` in `join_meshes`, when `t0` is the first mesh: same class and same
plane (`meshes/symmetric.py:88-91`), same class, vector and number of parts (`198-203`), same class, axis and number
of parts (`358-363`). `==` is true for the same object (`meshes/geometry.py:206-210`, `307-313`). Only for the
symmetric classes: the method of `Mesh` is in `MergeModel`. -/
def Joinable (t0 t : Tree) : Prop :=
  match t0, t with
  | .node (.reflection P) _, .node (.reflection Q) _ => P = Q ∨ P.equal Q
  | .node (.translation u) ps, .node (.translation v) qs => allClose u v ∧ ps.length = qs.length
  | .node (.axial a) ps, .node (.axial b) qs => (a = b ∨ a.equal b) ∧ ps.length = qs.length
  | _, _ => False

/-- `half` and `first_slice` (`meshes/symmetric.py:73-75`, `154-156`, `331-333`). -/
def firstPart : Tree → Option Tree
  | .node _ (h :: _) => some h
  | _ => none

open Classical in
/-- `join_meshes` of the symmetric classes (`meshes/symmetric.py:87-93`, `197-205`, `357-365`): the collection of the
first parts is repeated with the symmetry of the first mesh. `none` is an exception: `IndexError` when there is no
mesh, `AssertionError` when the symmetries differ or in the constructor. -/
noncomputable def joinSymmetric (l : List Tree) : Option Tree :=
  match l with
  | [] => none
  | .leaf _ :: _ => none
  | .node s ps :: _ =>
    if ∀ t ∈ l, Joinable (.node s ps) t then
      (l.mapM firstPart).bind fun hs => mkSymmetric Tree.copy s (.node .plain hs) (ps.length - 1)
    else none

end Verif.Meshes
