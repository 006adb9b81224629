import Verif.Geometry.Vec
import Mathlib.Analysis.SpecialFunctions.Trigonometric.Basic
import Mathlib.Analysis.SpecialFunctions.Trigonometric.Inverse
import Mathlib.Analysis.SpecialFunctions.Pow.Real

/-!
# Axes, planes and their motions

Model of `capytaine/meshes/geometry.py`. Floating point numbers are real numbers. The functions
called on objects here return the moved object: in the code the decorator `inplace_transformation`
(`meshes/geometry.py:21-35`) applies the same assignments to the object or to a copy of it.
-/

namespace Verif.Geometry

open V3

/-- `np.linalg.norm` of a vector. -/
noncomputable def V3.norm (v : V3 ℝ) : ℝ := Real.sqrt (dot v v)

/-- An axis: a point and a unit vector (`meshes/geometry.py:191-197`). -/
structure Axis where
  vector : V3 ℝ
  point : V3 ℝ

/-- An oriented plane: a point and a unit normal (`meshes/geometry.py:289-294`). -/
structure Plane where
  normal : V3 ℝ
  point : V3 ℝ

/-- `Axis(vector, point)` (`meshes/geometry.py:191-197`). The vector is divided by its norm.
A null vector gives NaN coordinates in the code and zeros here. -/
noncomputable def mkAxis (vector point : V3 ℝ) : Axis := ⟨(norm vector)⁻¹ • vector, point⟩

/-- `Plane(normal, point)` (`meshes/geometry.py:289-294`), see `mkAxis` about null vectors. -/
noncomputable def mkPlane (normal point : V3 ℝ) : Plane := ⟨(norm normal)⁻¹ • normal, point⟩

/-- A three by three matrix, as three lines. -/
structure M3 where
  r0 : V3 ℝ
  r1 : V3 ℝ
  r2 : V3 ℝ

/-- Product of a matrix and a vector, `M @ v`. -/
def M3.mulVec (m : M3) (v : V3 ℝ) : V3 ℝ := ⟨dot m.r0 v, dot m.r1 v, dot m.r2 v⟩

/-- Columns of a matrix as lines, `M.T`. -/
def M3.transpose (m : M3) : M3 :=
  ⟨⟨m.r0.x, m.r1.x, m.r2.x⟩, ⟨m.r0.y, m.r1.y, m.r2.y⟩, ⟨m.r0.z, m.r1.z, m.r2.z⟩⟩

/-- Product of two matrices, `A @ B`. -/
def M3.mul (a b : M3) : M3 :=
  ⟨b.transpose.mulVec a.r0, b.transpose.mulVec a.r1, b.transpose.mulVec a.r2⟩

/-- Sum of two matrices. -/
def M3.add (a b : M3) : M3 := ⟨a.r0 + b.r0, a.r1 + b.r1, a.r2 + b.r2⟩

/-- Product of a number and a matrix. -/
def M3.smul (c : ℝ) (a : M3) : M3 := ⟨c • a.r0, c • a.r1, c • a.r2⟩

/-- `np.identity(3)`. -/
def M3.one : M3 := ⟨⟨1, 0, 0⟩, ⟨0, 1, 0⟩, ⟨0, 0, 1⟩⟩

/-- The matrix `W` of `rotation_matrix` (`meshes/geometry.py:265-268`). -/
def crossMatrix (u : V3 ℝ) : M3 := ⟨⟨0, -u.z, u.y⟩, ⟨u.z, 0, -u.x⟩, ⟨-u.y, u.x, 0⟩⟩

/-- `Axis.rotation_matrix` (`meshes/geometry.py:263-269`). -/
noncomputable def Axis.rotationMatrix (a : Axis) (θ : ℝ) : M3 :=
  (M3.one.add (M3.smul (Real.sin θ) (crossMatrix a.vector))).add
    (M3.smul (2 * Real.sin (θ / 2) ^ 2) ((crossMatrix a.vector).mul (crossMatrix a.vector)))

/-- `Axis.rotate_vectors` for one vector (`meshes/geometry.py:271-273`). -/
noncomputable def Axis.rotateVector (a : Axis) (θ : ℝ) (v : V3 ℝ) : V3 ℝ :=
  (a.rotationMatrix θ).mulVec v

/-- `Axis.rotate_points` for one point (`meshes/geometry.py:275-277`). -/
noncomputable def Axis.rotatePoint (a : Axis) (θ : ℝ) (p : V3 ℝ) : V3 ℝ :=
  a.rotateVector θ (p - a.point) + a.point

/-- `Plane.c` (`meshes/geometry.py:325-328`): the norm of a number is its absolute value. -/
noncomputable def Plane.c (P : Plane) : ℝ := |dot P.normal P.point|

/-- `Plane.s` (`meshes/geometry.py:330-333`). -/
def Plane.s (P : Plane) : ℝ := dot P.normal P.point

/-- `Plane.distance_to_point` for one point (`meshes/geometry.py:364-379`). -/
def Plane.distanceToPoint (P : Plane) (p : V3 ℝ) : ℝ := dot p P.normal - dot P.point P.normal

/-- Reflection of a point as written in `Mesh.mirror` (`meshes/meshes.py:592`), `Axis.mirror`
(`meshes/geometry.py:255`), `Plane.mirror` (`meshes/geometry.py:356`) and `FloatingBody.mirror`
(`bodies/bodies.py:983-985`). -/
noncomputable def Plane.mirrorPoint (P : Plane) (p : V3 ℝ) : V3 ℝ :=
  p - (2 * (dot p P.normal - P.c)) • P.normal

/-- Reflection of a vector (`meshes/geometry.py:256,357`, `bodies/bodies.py:980`). -/
def Plane.mirrorVector (P : Plane) (v : V3 ℝ) : V3 ℝ := v - (2 * dot v P.normal) • P.normal

/-- `Axis.translate` (`meshes/geometry.py:241-244`). -/
def Axis.translate (a : Axis) (t : V3 ℝ) : Axis := { a with point := a.point + t }

/-- `Axis.rotate` (`meshes/geometry.py:246-251`). -/
noncomputable def Axis.rotate (a b : Axis) (θ : ℝ) : Axis :=
  { point := (b.rotationMatrix θ).mulVec (a.point - b.point) + b.point,
    vector := (b.rotationMatrix θ).mulVec a.vector }

/-- `Axis.mirror` (`meshes/geometry.py:253-257`). -/
noncomputable def Axis.mirror (a : Axis) (P : Plane) : Axis :=
  { point := P.mirrorPoint a.point, vector := P.mirrorVector a.vector }

/-- `Plane.translate` (`meshes/geometry.py:342-345`). -/
def Plane.translate (P : Plane) (t : V3 ℝ) : Plane := { P with point := P.point + t }

/-- `Plane.rotate` (`meshes/geometry.py:347-352`). The position of the axis is not used. -/
noncomputable def Plane.rotate (P : Plane) (b : Axis) (θ : ℝ) : Plane :=
  { point := (b.rotationMatrix θ).mulVec P.point,
    normal := (b.rotationMatrix θ).mulVec P.normal }

/-- `Plane.mirror` (`meshes/geometry.py:354-358`). -/
noncomputable def Plane.mirror (P Q : Plane) : Plane :=
  { point := Q.mirrorPoint P.point, normal := Q.mirrorVector P.normal }

/-- Result of `get_edge_intersection`. -/
inductive Intersection where
  /-- the point -/
  | point (p : V3 ℝ)
  /-- `RuntimeError('Intersection is outside the edge')` -/
  | outside

/-- `Plane.get_edge_intersection` (`meshes/geometry.py:381-404`). An edge parallel to the plane
divides by zero: infinite or NaN in the code, `t = 0` here, excluded in the theorems. -/
noncomputable def Plane.getEdgeIntersection (P : Plane) (p0 p1 : V3 ℝ) : Intersection :=
  let p0n := dot p0 P.normal
  let p1n := dot p1 P.normal
  let t := (p0n - P.s) / (p0n - p1n)
  if t < 0 ∨ t > 1 then .outside else .point ((1 - t) • p0 + t • p1)

/-- `parallel_vectors` (`meshes/geometry.py:175-176`). -/
def parallelVectors (u v : V3 ℝ) : Prop := norm (cross u v) < 1e-6

/-- `parallel_vectors_with_same_direction` (`meshes/geometry.py:179-180`). -/
def parallelSame (u v : V3 ℝ) : Prop := parallelVectors u v ∧ dot u v > 0

/-- `orthogonal_vectors` (`meshes/geometry.py:171-172`). -/
def orthogonalVectors (u v : V3 ℝ) : Prop := |dot u v| < 1e-6

/-- `e_x` (`meshes/geometry.py:12`). -/
def ex : V3 ℝ := ⟨1, 0, 0⟩
/-- `e_y` (`meshes/geometry.py:13`). -/
def ey : V3 ℝ := ⟨0, 1, 0⟩
/-- `e_z` (`meshes/geometry.py:14`). -/
def ez : V3 ℝ := ⟨0, 0, 1⟩

open Classical in
/-- The rotation chosen by `rotate_around_center_to_align_vectors` (`meshes/geometry.py:87-103`),
`none` when the object is returned as it is. A scalar product outside `[-1, 1]` makes the code
return NaN coordinates; here the angle is then `0` or `π`. -/
noncomputable def alignRotation (center v1 v2 : V3 ℝ) : Option (Axis × ℝ) :=
  if parallelSame v1 v2 then none
  else if parallelVectors v1 v2 then
    if parallelVectors v1 ex then some (mkAxis (cross v1 ey) center, Real.pi)
    else some (mkAxis (cross v1 ex) center, Real.pi)
  else some (mkAxis (cross v1 v2) center, Real.arccos (dot v1 v2))

/-- A vector attached to an object turned by `rotate_around_center_to_align_vectors`. -/
noncomputable def alignedVector (center v1 v2 v : V3 ℝ) : V3 ℝ :=
  match alignRotation center v1 v2 with
  | none => v
  | some (a, θ) => a.rotateVector θ v

/-- A point of an object turned by `rotate_around_center_to_align_vectors`. -/
noncomputable def alignedPoint (center v1 v2 p : V3 ℝ) : V3 ℝ :=
  match alignRotation center v1 v2 with
  | none => p
  | some (a, θ) => a.rotatePoint θ p

/-- `point in axis` (`meshes/geometry.py:202-207`). -/
def Axis.contains (a : Axis) (p : V3 ℝ) : Prop := parallelVectors (p - a.point) a.vector

/-- `axis == axis` for two different objects (`meshes/geometry.py:206-210`). -/
def Axis.equal (a b : Axis) : Prop := b.contains a.point ∧ parallelVectors a.vector b.vector

/-- `point in plane` (`meshes/geometry.py:299-305`). -/
def Plane.contains (P : Plane) (p : V3 ℝ) : Prop := orthogonalVectors (p - P.point) P.normal

/-- `axis in plane` (`meshes/geometry.py:299-301`). -/
def Plane.containsAxis (P : Plane) (a : Axis) : Prop :=
  P.contains a.point ∧ orthogonalVectors P.normal a.vector

/-- `plane == plane` for two different objects (`meshes/geometry.py:307-313`). -/
def Plane.equal (P Q : Plane) : Prop := P.contains Q.point ∧ parallelSame P.normal Q.normal

end Verif.Geometry
