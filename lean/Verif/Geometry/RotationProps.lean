import Verif.Geometry.TransformModel
import Mathlib.Tactic.Linarith

/-!
# C24: rotations around an axis
-/

namespace Verif.Geometry

open V3 Real

theorem dot_self_nonneg (v : V3 ℝ) : 0 ≤ dot v v := by
  unfold dot; nlinarith [sq_nonneg v.x, sq_nonneg v.y, sq_nonneg v.z]

theorem norm_sq (v : V3 ℝ) : norm v ^ 2 = dot v v := sq_sqrt (dot_self_nonneg v)

theorem norm_nonneg (v : V3 ℝ) : 0 ≤ norm v := sqrt_nonneg _

theorem norm_eq_zero {v : V3 ℝ} : norm v = 0 ↔ v = 0 := by
  constructor
  · intro h
    have h2 := norm_sq v
    rw [h] at h2
    unfold dot at h2
    ext
    · simp; nlinarith [sq_nonneg v.x, sq_nonneg v.y, sq_nonneg v.z]
    · simp; nlinarith [sq_nonneg v.x, sq_nonneg v.y, sq_nonneg v.z]
    · simp; nlinarith [sq_nonneg v.x, sq_nonneg v.y, sq_nonneg v.z]
  · rintro rfl; simp [V3.norm, dot]

/-- The vector of an axis built by the library has unit length. -/
theorem mkAxis_unit {v p : V3 ℝ} (hv : v ≠ 0) : dot (mkAxis v p).vector (mkAxis v p).vector = 1 := by
  have h : norm v ≠ 0 := fun h => hv (norm_eq_zero.1 h)
  have h2 := norm_sq v
  unfold dot at h2
  simp only [mkAxis, dot, smul_x, smul_y, smul_z]
  field_simp
  linarith

/-- The normal of a plane built by the library has unit length. -/
theorem mkPlane_unit {v p : V3 ℝ} (hv : v ≠ 0) : dot (mkPlane v p).normal (mkPlane v p).normal = 1 :=
  mkAxis_unit (p := p) hv

/-- Rodrigues' formula in vector form. -/
theorem rotateVector_eq (a : Axis) (θ : ℝ) (v : V3 ℝ) : a.rotateVector θ v =
    v + (sin θ • cross a.vector v + (1 - cos θ) • cross a.vector (cross a.vector v)) := by
  have h : 2 * sin (θ / 2) ^ 2 = 1 - cos θ := by
    have := cos_sq_add_sin_sq (θ / 2)
    have h2 := cos_two_mul (θ / 2)
    rw [show 2 * (θ / 2) = θ by ring] at h2
    linarith
  unfold Axis.rotateVector Axis.rotationMatrix
  rw [h]
  ext <;>
    simp [M3.mulVec, M3.add, M3.smul, M3.one, M3.mul, M3.transpose, crossMatrix, dot] <;> ring

theorem rotateVector_sub (a : Axis) (θ : ℝ) (v w : V3 ℝ) :
    a.rotateVector θ (v - w) = a.rotateVector θ v - a.rotateVector θ w := by
  rw [rotateVector_eq, rotateVector_eq, rotateVector_eq]
  ext <;> simp <;> ring

theorem rotateVector_add (a : Axis) (θ : ℝ) (v w : V3 ℝ) :
    a.rotateVector θ (v + w) = a.rotateVector θ v + a.rotateVector θ w := by
  rw [rotateVector_eq, rotateVector_eq, rotateVector_eq]
  ext <;> simp <;> ring

theorem rotateVector_smul (a : Axis) (θ c : ℝ) (v : V3 ℝ) :
    a.rotateVector θ (c • v) = c • a.rotateVector θ v := by
  rw [rotateVector_eq, rotateVector_eq]
  ext <;> simp <;> ring

/-- Rodrigues' formula around a unit vector. -/
theorem rotateVector_unit (a : Axis) (ha : dot a.vector a.vector = 1) (θ : ℝ) (v : V3 ℝ) :
    a.rotateVector θ v = cos θ • v + (sin θ • cross a.vector v +
      ((1 - cos θ) * dot a.vector v) • a.vector) := by
  rw [rotateVector_eq]
  unfold dot at *
  ext <;> simp
  · linear_combination (-(1 - cos θ) * v.x) * ha
  · linear_combination (-(1 - cos θ) * v.y) * ha
  · linear_combination (-(1 - cos θ) * v.z) * ha

/-- Scalar products are kept by a rotation. -/
theorem rotateVector_dot (a : Axis) (ha : dot a.vector a.vector = 1) (θ : ℝ) (v w : V3 ℝ) :
    dot (a.rotateVector θ v) (a.rotateVector θ w) = dot v w := by
  have hs := cos_sq_add_sin_sq θ
  rw [rotateVector_unit a ha, rotateVector_unit a ha]
  generalize sin θ = s at *
  generalize cos θ = c at *
  simp only [dot, add_x, add_y, add_z, smul_x, smul_y, smul_z, cross_x, cross_y, cross_z] at *
  linear_combination (norm := (simp only [dot, cross_x, cross_y, cross_z]; ring1))
      (s ^ 2 * dot v w + (1 - c) ^ 2 * dot a.vector v * dot a.vector w) * ha +
    (dot v w - dot a.vector v * dot a.vector w) * hs

/-- Vector products are turned with their factors: orientation is kept. -/
theorem rotateVector_cross (a : Axis) (ha : dot a.vector a.vector = 1) (θ : ℝ) (v w : V3 ℝ) :
    cross (a.rotateVector θ v) (a.rotateVector θ w) = a.rotateVector θ (cross v w) := by
  have hs := cos_sq_add_sin_sq θ
  rw [rotateVector_unit a ha, rotateVector_unit a ha, rotateVector_unit a ha]
  generalize sin θ = s at *
  generalize cos θ = c at *
  have hu : a.vector.x * a.vector.x + a.vector.y * a.vector.y + a.vector.z * a.vector.z = 1 := ha
  ext <;> simp [dot]
  · linear_combination (norm := (simp only [dot, cross_x, cross_y, cross_z]; ring1))
      (c * (1 - c) * (cross v w).x + s * (1 - c) * (cross a.vector (cross v w)).x)
      * hu + dot a.vector (cross v w) * a.vector.x * hs
  · linear_combination (norm := (simp only [dot, cross_x, cross_y, cross_z]; ring1))
      (c * (1 - c) * (cross v w).y + s * (1 - c) * (cross a.vector (cross v w)).y)
      * hu + dot a.vector (cross v w) * a.vector.y * hs
  · linear_combination (norm := (simp only [dot, cross_x, cross_y, cross_z]; ring1))
      (c * (1 - c) * (cross v w).z + s * (1 - c) * (cross a.vector (cross v w)).z)
      * hu + dot a.vector (cross v w) * a.vector.z * hs

/-- Successive rotations of a vector add their angles. -/
theorem rotateVector_comp (a : Axis) (ha : dot a.vector a.vector = 1) (θ φ : ℝ) (v : V3 ℝ) :
    a.rotateVector φ (a.rotateVector θ v) = a.rotateVector (θ + φ) v := by
  simp only [rotateVector_unit a ha, cos_add, sin_add]
  have hu : a.vector.x * a.vector.x + a.vector.y * a.vector.y + a.vector.z * a.vector.z = 1 := ha
  ext <;> simp [dot]
  · linear_combination (norm := (simp only [dot, cross_x, cross_y, cross_z]; ring1))
      (- sin φ * sin θ * v.x +
      (1 - cos θ) * (1 - cos φ) * dot a.vector v * a.vector.x) * hu
  · linear_combination (norm := (simp only [dot, cross_x, cross_y, cross_z]; ring1))
      (- sin φ * sin θ * v.y +
      (1 - cos θ) * (1 - cos φ) * dot a.vector v * a.vector.y) * hu
  · linear_combination (norm := (simp only [dot, cross_x, cross_y, cross_z]; ring1))
      (- sin φ * sin θ * v.z +
      (1 - cos θ) * (1 - cos φ) * dot a.vector v * a.vector.z) * hu

/-! ## Specification: the properties of a motion of space, on points only -/

/-- Squared distance of two points. -/
def dist2 (p q : V3 ℝ) : ℝ := (p.x - q.x) ^ 2 + (p.y - q.y) ^ 2 + (p.z - q.z) ^ 2

/-- Signed volume of the box with a corner `p` and neighbours `q`, `r`, `s`. -/
def boxVolume (p q r s : V3 ℝ) : ℝ := dot (cross (q - p) (r - p)) (s - p)

/-- The point of parameter `t` on an axis. -/
def Axis.at (a : Axis) (t : ℝ) : V3 ℝ := a.point + t • a.vector

theorem rotatePoint_sub (a : Axis) (θ : ℝ) (p q : V3 ℝ) :
    a.rotatePoint θ p - a.rotatePoint θ q = a.rotateVector θ (p - q) := by
  have h := rotateVector_sub a θ (p - a.point) (q - a.point)
  rw [show p - a.point - (q - a.point) = p - q by abel] at h
  unfold Axis.rotatePoint
  rw [h]
  abel

/-- **C24**: rotations keep distances. -/
theorem rotation_dist (a : Axis) (ha : dot a.vector a.vector = 1) (θ : ℝ) (p q : V3 ℝ) :
    dist2 (a.rotatePoint θ p) (a.rotatePoint θ q) = dist2 p q := by
  have h (p q : V3 ℝ) : dist2 p q = dot (p - q) (p - q) := by simp [dist2, dot]; ring
  rw [h, h, rotatePoint_sub, rotateVector_dot a ha]

/-- **C24**: rotations keep the orientation (and the volumes) of space. -/
theorem rotation_orientation (a : Axis) (ha : dot a.vector a.vector = 1) (θ : ℝ) (p q r s : V3 ℝ) :
    boxVolume (a.rotatePoint θ p) (a.rotatePoint θ q) (a.rotatePoint θ r) (a.rotatePoint θ s) =
      boxVolume p q r s := by
  unfold boxVolume
  rw [rotatePoint_sub, rotatePoint_sub, rotatePoint_sub, rotateVector_cross a ha,
    rotateVector_dot a ha]

/-- **C24**: the points of the axis do not move. -/
theorem rotation_fixes_axis (a : Axis) (θ t : ℝ) : a.rotatePoint θ (a.at t) = a.at t := by
  unfold Axis.rotatePoint Axis.at
  rw [rotateVector_eq]
  ext <;> simp <;> ring

/-- **C24**: successive rotations around one axis add their angles. -/
theorem rotation_comp (a : Axis) (ha : dot a.vector a.vector = 1) (θ φ : ℝ) (p : V3 ℝ) :
    a.rotatePoint φ (a.rotatePoint θ p) = a.rotatePoint (θ + φ) p := by
  unfold Axis.rotatePoint
  rw [add_sub_cancel_right, rotateVector_comp a ha]

/-- A rotation of angle zero does nothing. -/
theorem rotation_zero (a : Axis) (p : V3 ℝ) : a.rotatePoint 0 p = p := by
  unfold Axis.rotatePoint
  rw [rotateVector_eq]
  ext <;> simp

/-- Turning back gives the original point. -/
theorem rotation_inverse (a : Axis) (ha : dot a.vector a.vector = 1) (θ : ℝ) (p : V3 ℝ) :
    a.rotatePoint (-θ) (a.rotatePoint θ p) = p := by
  rw [rotation_comp a ha, add_neg_cancel, rotation_zero]

/-- **C24**, the sense of rotation: seen from a point `o` of the axis, with `v` orthogonal to the axis
and `w` such that `(v, w, axis)` is a direct frame, the angle is measured from `v` towards `w`. -/
theorem rotation_sense (a : Axis) (ha : dot a.vector a.vector = 1) (θ t : ℝ) (v w : V3 ℝ)
    (hv : dot a.vector v = 0) (hw : w = cross a.vector v) :
    a.rotatePoint θ (a.at t + v) = a.at t + (cos θ • v + sin θ • w) := by
  subst hw
  have h : a.rotatePoint θ (a.at t + v) = a.rotatePoint θ (a.at t) + a.rotateVector θ v := by
    have := rotatePoint_sub a θ (a.at t + v) (a.at t)
    rw [add_sub_cancel_left] at this
    rw [← this]; abel
  rw [h, rotation_fixes_axis, rotateVector_unit a ha, hv]
  congr 1
  ext <;> simp

/-- Concrete case: an oblique axis built by the library satisfies the hypothesis of the theorems, and
there is a non-zero vector orthogonal to it. -/
example : dot (mkAxis ⟨1, 2, 2⟩ ⟨1, 0, -1⟩).vector (mkAxis ⟨1, 2, 2⟩ ⟨1, 0, -1⟩).vector = 1 ∧
    dot (mkAxis ⟨1, 2, 2⟩ ⟨1, 0, -1⟩).vector ⟨0, 1, -1⟩ = 0 := by
  refine ⟨mkAxis_unit fun h => ?_, by simp [mkAxis, dot]⟩
  have := congrArg V3.x h
  simp at this

/-- Concrete case: a quarter turn around `Oz` sends `(1, 0, 0)` to `(0, 1, 0)`. -/
example : (⟨ez, 0⟩ : Axis).rotatePoint (π / 2) ⟨1, 0, 0⟩ = ⟨0, 1, 0⟩ := by
  unfold Axis.rotatePoint
  rw [rotateVector_eq]
  ext <;> simp [ez]

end Verif.Geometry
