import Verif.Geometry.TransformModel

/-!
# Relations between axes, planes and vectors

Model of the methods `is_orthogonal_to` and `is_parallel_to` of `capytaine/meshes/geometry.py`. The functions
`parallel_vectors` and `orthogonal_vectors`, the operator `in` and the operator `==` are in `TransformModel`.
-/

namespace Verif.Geometry

open V3

/-- What can be given to `is_orthogonal_to` and `is_parallel_to`: an axis, a plane, three coordinates, or something else
with the length it has, if any. -/
inductive Other where
  | axis (a : Axis)
  | plane (P : Plane)
  | triple (v : V3 ℝ)
  | sized (n : ℕ)
  | unsized

/-- The exceptions: that of the last line of the methods, that of `len`, and that of a missing attribute. -/
inductive RelationError where
  | notImplemented
  | typeError
  | attributeError
  deriving DecidableEq

/-- `Axis.is_orthogonal_to` (`meshes/geometry.py:212-218`). An axis has no length. -/
def Axis.isOrthogonalTo (a : Axis) : Other → Except RelationError Prop
  | .plane P => .ok (parallelVectors a.vector P.normal)
  | .triple v => .ok (orthogonalVectors a.vector v)
  | .sized _ => .error .notImplemented
  | .axis _ => .error .typeError
  | .unsized => .error .typeError

/-- `Axis.is_parallel_to` (`meshes/geometry.py:220-228`). -/
def Axis.isParallelTo (a : Axis) : Other → Except RelationError Prop
  | .plane P => .ok (orthogonalVectors a.vector P.normal)
  | .axis b => .ok (parallelVectors a.vector b.vector)
  | .triple v => .ok (parallelVectors a.vector v)
  | .sized _ => .error .notImplemented
  | .unsized => .error .typeError

/-- `Plane.is_orthogonal_to` (`meshes/geometry.py:315-323`). -/
def Plane.isOrthogonalTo (P : Plane) : Other → Except RelationError Prop
  | .axis a => .ok (parallelVectors P.normal a.vector)
  | .plane Q => .ok (orthogonalVectors P.normal Q.normal)
  | .triple v => .ok (parallelVectors P.normal v)
  | .sized _ => .error .notImplemented
  | .unsized => .error .typeError

open Classical in
/-- `axis == plane` (`meshes/geometry.py:206-210`): the class of the axis is tested instead of that of the other object,
and a plane has no attribute `vector`. `plane == axis` gives the same, since `Plane.__eq__` (`meshes/geometry.py:307-313`)
returns `NotImplemented` and Python turns to the method of the axis. -/
noncomputable def Axis.equalPlane (a : Axis) (P : Plane) : Except RelationError Prop :=
  if P.contains a.point then .error .attributeError else .ok False

end Verif.Geometry
