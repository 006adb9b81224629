import Verif.Meshes.ClipModel
import Verif.Meshes.HealModel

/-!
# Healing a mesh

Model of `heal_mesh` of a single mesh.
-/

namespace Verif.Meshes

open Verif.Geometry V3

/-- `heal_mesh(closed_mesh=False)` (`meshes/meshes.py:729-747`): the four steps in their order, on the arrays. See
`Mesh.mergeDuplicates` for `sort` and `atol`. `none` when an exception is raised. The values of the code are
`atol = 1e-8` (`meshes/quality.py:17`) and `rtol = 1e-5` (`meshes/quality.py:338`). The messages are left out, and so is
the cache, that each of the steps clears. With `closed_mesh=True` the result goes to `heal_normals`. -/
noncomputable def Mesh.healOpen (sort : (ℕ → ℝ) → List ℕ → List ℕ) (atol rtol : ℝ) (m : Mesh (V3 ℝ)) :
    Option (Mesh (V3 ℝ)) :=
  match m.removeUnusedVertices with
  | none => none
  | some m1 =>
    match (m1.removeDegeneratedFaces rtol).mergeDuplicates sort atol with
    | none => none
    | some x => some x.1.healTriangles

/-- `heal_mesh` (`meshes/meshes.py:729-747`) of a mesh with its cache, which is empty after the first steps: the setters of
`merge_duplicates` (`meshes/meshes.py:104-109`, `121-131`) and the decorators clear it. -/
noncomputable def Obj.healMesh {K W Q : Type} (sort : (ℕ → ℝ) → List ℕ → List ℕ) (atol rtol : ℝ) (closed : Bool)
    (o : Obj K W Q) : Option (Obj K W Q) :=
  match o.mesh.healOpen sort atol rtol with
  | none => none
  | some r =>
    let o1 := Obj.clear { o with mesh := r }
    if closed then o1.healNormals else some o1

end Verif.Meshes
