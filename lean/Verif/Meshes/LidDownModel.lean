import Verif.Meshes.Model
import Verif.Meshes.JoinSymModel
import Verif.Bodies.JoinModel

/-!
# Orientation of the lids

Model of `with_normal_vector_going_down` of `capytaine/meshes/meshes.py`, which is applied to the lid of every body. The
one of collections (`meshes/collections.py:127-130`) does it for each of its meshes: `Tree.onLeaves`.
-/

namespace Verif.Meshes

open Verif.Geometry V3

open Classical in
/-- `with_normal_vector_going_down` (`meshes/meshes.py:836-844`): all the vertical coordinates of the normals are compared
with one. Simplification: a face with an index out of range makes the code raise, here the mesh is left as it is. -/
noncomputable def Mesh.normalsDown (m : Mesh (V3 ℝ)) : Mesh (V3 ℝ) :=
  if ∀ o ∈ m.faceProps, ∃ x, o = some x ∧ closeFloat x.1.normal.z 1 then m.flipNormals else m

/-- The lid kept by the constructor of a body (`bodies/bodies.py:78-85`): an empty lid is ignored, for any other one a
turned copy is kept. Collections are turned mesh by mesh (`meshes/collections.py:127-130`). -/
noncomputable def bodyLid : Option Tree → Option Tree
  | none => none
  | some t =>
    if t.nbFaces = 0 then none else some (Tree.onLeaves Mesh.normalsDown t)

end Verif.Meshes
