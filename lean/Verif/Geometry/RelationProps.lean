import Verif.Geometry.RelationModel
import Verif.Geometry.AlignProps
import Verif.Geometry.PlaneProps

/-!
# C108: relations between axes, planes and vectors
-/

namespace Verif.Geometry

open V3

/-! ## Specification -/

/-- The tolerance of the relations, as a distance. -/
noncomputable def Near (p q : V3 ℝ) : Prop := norm (p - q) < 1e-6

/-- A point near a line. -/
def NearLine (a : Axis) (p : V3 ℝ) : Prop := ∃ t : ℝ, Near p (a.at t)

/-- A point near a plane. -/
def NearPlane (P : Plane) (p : V3 ℝ) : Prop := ∃ q, P.signedDist q = 0 ∧ Near p q

/-- A vector near the multiples of another one. -/
def NearParallel (v u : V3 ℝ) : Prop := ∃ t : ℝ, Near v (t • u)

/-- A vector near the vectors that are orthogonal to another one. -/
def NearOrthogonal (v u : V3 ℝ) : Prop := ∃ w, dot w u = 0 ∧ Near v w

/-- The method returns `True`. -/
def Holds : Except RelationError Prop → Prop
  | .ok p => p
  | .error _ => False

/-! ## Lemmas -/

theorem norm_lt {v : V3 ℝ} {e : ℝ} (he : 0 < e) : norm v < e ↔ dot v v < e ^ 2 := by
  rw [← norm_sq]
  constructor
  · intro h; exact pow_lt_pow_left₀ h (norm_nonneg v) two_ne_zero
  · intro h; exact lt_of_pow_lt_pow_left₀ 2 he.le h

theorem dot_comm' (u v : V3 ℝ) : dot u v = dot v u := by simp only [dot]; ring

theorem cross_dot_comm (u v : V3 ℝ) : dot (cross u v) (cross u v) = dot (cross v u) (cross v u) := by
  have h1 := lagrange u v
  have h2 := lagrange v u
  rw [dot_comm' v u] at h2
  linarith

theorem parallel_comm (u v : V3 ℝ) : parallelVectors u v ↔ parallelVectors v u := by
  unfold parallelVectors V3.norm
  rw [cross_dot_comm]

theorem orthogonal_comm (u v : V3 ℝ) : orthogonalVectors u v ↔ orthogonalVectors v u := by
  unfold orthogonalVectors
  rw [dot_comm']

theorem nearParallel_iff {u : V3 ℝ} (hu : dot u u = 1) (v : V3 ℝ) : parallelVectors v u ↔ NearParallel v u := by
  have he : (0 : ℝ) < 1e-6 := by norm_num
  have hl := lagrange v u
  rw [hu, mul_one] at hl
  have key : ∀ t : ℝ, dot (v - t • u) (v - t • u) = dot v v - 2 * t * dot v u + t ^ 2 := by
    intro t
    simp only [dot, sub_x, sub_y, sub_z, smul_x, smul_y, smul_z] at hu ⊢
    linear_combination t ^ 2 * hu
  unfold parallelVectors NearParallel Near
  rw [norm_lt he]
  simp only [norm_lt he, key]
  constructor
  · intro h
    exact ⟨dot v u, by nlinarith⟩
  · rintro ⟨t, ht⟩
    nlinarith [sq_nonneg (t - dot v u)]

theorem abs_dot_le {u : V3 ℝ} (hu : dot u u = 1) (v : V3 ℝ) : |dot v u| ≤ norm v := by
  have hl := lagrange v u
  rw [hu, mul_one] at hl
  refine abs_le_of_sq_le_sq ?_ (norm_nonneg v)
  rw [norm_sq]
  nlinarith [dot_self_nonneg (cross v u)]

theorem nearOrthogonal_iff {u : V3 ℝ} (hu : dot u u = 1) (v : V3 ℝ) : orthogonalVectors v u ↔ NearOrthogonal v u := by
  have he : (0 : ℝ) < 1e-6 := by norm_num
  unfold orthogonalVectors NearOrthogonal Near
  constructor
  · intro h
    refine ⟨v - dot v u • u, ?_, ?_⟩
    · simp only [dot, sub_x, sub_y, sub_z, smul_x, smul_y, smul_z] at hu ⊢
      linear_combination -(v.x * u.x + v.y * u.y + v.z * u.z) * hu
    · rw [norm_lt he]
      have : dot (v - (v - dot v u • u)) (v - (v - dot v u • u)) = dot v u ^ 2 := by
        simp only [dot, sub_x, sub_y, sub_z, smul_x, smul_y, smul_z] at hu ⊢
        linear_combination (v.x * u.x + v.y * u.y + v.z * u.z) ^ 2 * hu
      rw [this, ← sq_abs]
      exact pow_lt_pow_left₀ h (abs_nonneg _) two_ne_zero
  · rintro ⟨w, hw, h⟩
    have : dot v u = dot (v - w) u := by
      simp only [dot, sub_x, sub_y, sub_z] at hw ⊢
      linarith
    rw [this]
    exact (abs_dot_le hu _).trans_lt h

/-! ## Points on axes and planes -/

/-- C108: `point in axis` is true for the points at less than 1e-6 of the line. -/
theorem in_axis_iff (a : Axis) (ha : dot a.vector a.vector = 1) (p : V3 ℝ) : a.contains p ↔ NearLine a p := by
  unfold Axis.contains
  rw [nearParallel_iff ha]
  unfold NearParallel NearLine Near Axis.at
  constructor <;> rintro ⟨t, h⟩ <;> refine ⟨t, ?_⟩ <;> rwa [sub_sub] at *

/-- C108: `point in plane` is true for the points at less than 1e-6 of the plane. -/
theorem in_plane_iff (P : Plane) (hP : dot P.normal P.normal = 1) (p : V3 ℝ) : P.contains p ↔ NearPlane P p := by
  unfold Plane.contains
  rw [nearOrthogonal_iff hP]
  unfold NearOrthogonal NearPlane Near
  constructor
  · rintro ⟨w, hw, h⟩
    refine ⟨P.point + w, ?_, ?_⟩
    · simp only [Plane.signedDist, add_x, add_y, add_z, add_sub_cancel_left]
      exact hw
    · rwa [← sub_sub]
  · rintro ⟨q, hq, h⟩
    refine ⟨q - P.point, hq, ?_⟩
    rwa [sub_sub_sub_cancel_right]

/-- C108: `axis in plane`. -/
theorem axis_in_plane_iff (P : Plane) (hP : dot P.normal P.normal = 1) (a : Axis) :
    P.containsAxis a ↔ NearPlane P a.point ∧ NearOrthogonal a.vector P.normal := by
  unfold Plane.containsAxis
  rw [in_plane_iff P hP, orthogonal_comm, nearOrthogonal_iff hP]

/-! ## Directions -/

/-- C108: the relations between axes and planes, up to 1e-6 on the unit vectors. -/
theorem relations_spec (a b : Axis) (P Q : Plane) (hb : dot b.vector b.vector = 1)
    (hP : dot P.normal P.normal = 1) (hQ : dot Q.normal Q.normal = 1) :
    (Holds (a.isParallelTo (.axis b)) ↔ NearParallel a.vector b.vector) ∧
    (Holds (a.isParallelTo (.plane P)) ↔ NearOrthogonal a.vector P.normal) ∧
    (Holds (a.isOrthogonalTo (.plane P)) ↔ NearParallel a.vector P.normal) ∧
    (Holds (P.isOrthogonalTo (.axis b)) ↔ NearParallel P.normal b.vector) ∧
    (Holds (P.isOrthogonalTo (.plane Q)) ↔ NearOrthogonal P.normal Q.normal) :=
  ⟨nearParallel_iff hb _, nearOrthogonal_iff hP _, nearParallel_iff hP _, nearParallel_iff hb _, nearOrthogonal_iff hQ _⟩

/-- C108: the relations do not depend on the order of the objects. -/
theorem relations_symmetric (a b : Axis) (P Q : Plane) :
    (Holds (a.isParallelTo (.axis b)) ↔ Holds (b.isParallelTo (.axis a))) ∧
    (Holds (a.isOrthogonalTo (.plane P)) ↔ Holds (P.isOrthogonalTo (.axis a))) ∧
    (Holds (P.isOrthogonalTo (.plane Q)) ↔ Holds (Q.isOrthogonalTo (.plane P))) :=
  ⟨parallel_comm _ _, parallel_comm _ _, orthogonal_comm _ _⟩

/-- C108: an axis is not both parallel and orthogonal to a plane. -/
theorem relations_exclusive (a : Axis) (P : Plane) (ha : dot a.vector a.vector = 1) (hP : dot P.normal P.normal = 1) :
    ¬ (Holds (a.isParallelTo (.plane P)) ∧ Holds (a.isOrthogonalTo (.plane P))) := by
  rintro ⟨h1, h2⟩
  have h1 : |dot a.vector P.normal| < 1e-6 := h1
  have h2 : norm (cross a.vector P.normal) < 1e-6 := h2
  rw [norm_lt (by norm_num)] at h2
  have hl := lagrange a.vector P.normal
  rw [ha, hP] at hl
  have h3 : dot a.vector P.normal ^ 2 < (1e-6) ^ 2 := by
    rw [← sq_abs]; exact pow_lt_pow_left₀ h1 (abs_nonneg _) two_ne_zero
  norm_num at h2 h3 hl
  linarith

/-- C108 for vectors: the tolerance is on the vector itself, not on its direction. -/
theorem relations_vector (a : Axis) (P : Plane) (ha : dot a.vector a.vector = 1) (hP : dot P.normal P.normal = 1)
    (v : V3 ℝ) :
    (Holds (a.isParallelTo (.triple v)) ↔ NearParallel v a.vector) ∧
    (Holds (a.isOrthogonalTo (.triple v)) ↔ NearOrthogonal v a.vector) ∧
    (Holds (P.isOrthogonalTo (.triple v)) ↔ NearParallel v P.normal) :=
  ⟨(parallel_comm _ _).trans (nearParallel_iff ha _), (orthogonal_comm _ _).trans (nearOrthogonal_iff ha _),
    (parallel_comm _ _).trans (nearParallel_iff hP _)⟩

theorem dot_smul (u v : V3 ℝ) (c : ℝ) : dot u (c • v) = c * dot u v := by
  simp only [dot, smul_x, smul_y, smul_z]; ring

theorem cross_smul (u v : V3 ℝ) (c : ℝ) : dot (cross u (c • v)) (cross u (c • v)) = c ^ 2 * dot (cross u v) (cross u v) := by
  simp only [dot, cross_x, cross_y, cross_z, smul_x, smul_y, smul_z]; ring

/-- C108 is violated for vectors: every direction has a vector that is both parallel and orthogonal to the axis. -/
theorem small_vectors_violated (a : Axis) (v : V3 ℝ) :
    ∃ c : ℝ, 0 < c ∧ Holds (a.isParallelTo (.triple (c • v))) ∧ Holds (a.isOrthogonalTo (.triple (c • v))) := by
  set k := dot (cross a.vector v) (cross a.vector v) + |dot a.vector v| + 1 with hk
  have h0 : 0 ≤ dot (cross a.vector v) (cross a.vector v) := dot_self_nonneg _
  have h1 : 0 ≤ |dot a.vector v| := abs_nonneg _
  have hk1 : 1 ≤ k := by linarith
  have hkp : 0 < k := by linarith
  refine ⟨1e-7 / k, by positivity, ?_, ?_⟩
  · show norm (cross a.vector _) < 1e-6
    rw [norm_lt (by norm_num), cross_smul, div_pow, div_mul_eq_mul_div, div_lt_iff₀ (by positivity)]
    have : dot (cross a.vector v) (cross a.vector v) ≤ k ^ 2 := by nlinarith
    nlinarith
  · show |dot a.vector _| < 1e-6
    rw [dot_smul, abs_mul, abs_of_pos (show (0 : ℝ) < 1e-7 / k by positivity), div_mul_eq_mul_div, div_lt_iff₀ hkp]
    nlinarith

/-- C108 is violated for vectors: a vector and a multiple of it do not give the same answer. -/
theorem scaled_vector_violated (a : Axis) (v : V3 ℝ) (h : cross a.vector v ≠ 0) :
    ∃ c d : ℝ, 0 < c ∧ 0 < d ∧ Holds (a.isParallelTo (.triple (c • v))) ∧ ¬ Holds (a.isParallelTo (.triple (d • v))) := by
  obtain ⟨c, hc, h1, -⟩ := small_vectors_violated a v
  have hn : norm (cross a.vector v) ≠ 0 := fun h' => h (norm_eq_zero.mp h')
  have hp : 0 < norm (cross a.vector v) := lt_of_le_of_ne (norm_nonneg _) (Ne.symm hn)
  refine ⟨c, (norm (cross a.vector v))⁻¹, hc, by positivity, h1, ?_⟩
  show ¬ norm (cross a.vector _) < 1e-6
  rw [norm_lt (by norm_num), cross_smul, ← norm_sq, inv_pow, inv_mul_cancel₀ (by positivity)]
  norm_num

/-- C108: which calls raise an exception. An axis cannot be compared with an axis by `is_orthogonal_to`. -/
theorem relations_refused_iff (a : Axis) (P : Plane) (o : Other) :
    ((∃ e, a.isOrthogonalTo o = .error e) ↔ (∃ b, o = .axis b) ∨ (∃ n, o = .sized n) ∨ o = .unsized) ∧
    ((∃ e, a.isParallelTo o = .error e) ↔ (∃ n, o = .sized n) ∨ o = .unsized) ∧
    ((∃ e, P.isOrthogonalTo o = .error e) ↔ (∃ n, o = .sized n) ∨ o = .unsized) := by
  cases o <;> simp [Axis.isOrthogonalTo, Axis.isParallelTo, Plane.isOrthogonalTo]

/-- C108: an axis and a plane are not equal, but if the point of the axis is in the plane the comparison raises an
exception. -/
theorem axis_equals_plane (a : Axis) (P : Plane) (hP : dot P.normal P.normal = 1) :
    ¬ Holds (a.equalPlane P) ∧ ((∃ e, a.equalPlane P = .error e) ↔ NearPlane P a.point) := by
  rw [← in_plane_iff P hP]
  unfold Axis.equalPlane
  split_ifs with h <;> simp [Holds, h]

/-! ## Motions -/

/-- A motion of the library. -/
inductive Move where
  | translate (t : V3 ℝ)
  | rotate (b : Axis) (θ : ℝ)
  | mirror (Q : Plane)

/-- The axes and planes that are given have unit vectors. -/
def Move.Unit : Move → Prop
  | .translate _ => True
  | .rotate b _ => dot b.vector b.vector = 1
  | .mirror Q => dot Q.normal Q.normal = 1

/-- The moved axis. -/
noncomputable def Move.axis : Move → Axis → Axis
  | .translate t, a => a.translate t
  | .rotate b θ, a => a.rotate b θ
  | .mirror Q, a => a.mirror Q

/-- The moved plane. -/
noncomputable def Move.plane : Move → Plane → Plane
  | .translate t, P => P.translate t
  | .rotate b θ, P => P.rotate b θ
  | .mirror Q, P => P.mirror Q

theorem parallel_of_dots {u v u' v' : V3 ℝ} (h1 : dot u' u' = dot u u) (h2 : dot v' v' = dot v v) (h3 : dot u' v' = dot u v) :
    parallelVectors u' v' ↔ parallelVectors u v := by
  have hl := lagrange u v
  have hl' := lagrange u' v'
  rw [h1, h2, h3] at hl'
  have : dot (cross u' v') (cross u' v') = dot (cross u v) (cross u v) := by linarith
  unfold parallelVectors V3.norm
  rw [this]

theorem move_dots (m : Move) (hm : m.Unit) (a b : Axis) (P Q : Plane) :
    dot (m.axis a).vector (m.axis b).vector = dot a.vector b.vector ∧
    dot (m.axis a).vector (m.plane P).normal = dot a.vector P.normal ∧
    dot (m.plane P).normal (m.plane Q).normal = dot P.normal Q.normal := by
  cases m with
  | translate t => exact ⟨rfl, rfl, rfl⟩
  | rotate b θ => exact ⟨rotateVector_dot b hm θ _ _, rotateVector_dot b hm θ _ _, rotateVector_dot b hm θ _ _⟩
  | mirror R => exact ⟨mirrorVector_dot R hm _ _, mirrorVector_dot R hm _ _, mirrorVector_dot R hm _ _⟩

/-- C108: the relations are kept when both objects are moved. -/
theorem relations_moved (m : Move) (hm : m.Unit) (a b : Axis) (P Q : Plane) :
    (Holds ((m.axis a).isParallelTo (.axis (m.axis b))) ↔ Holds (a.isParallelTo (.axis b))) ∧
    (Holds ((m.axis a).isParallelTo (.plane (m.plane P))) ↔ Holds (a.isParallelTo (.plane P))) ∧
    (Holds ((m.axis a).isOrthogonalTo (.plane (m.plane P))) ↔ Holds (a.isOrthogonalTo (.plane P))) ∧
    (Holds ((m.plane P).isOrthogonalTo (.plane (m.plane Q))) ↔ Holds (P.isOrthogonalTo (.plane Q))) := by
  have haa := (move_dots m hm a a P Q).1
  have hbb := (move_dots m hm b b P Q).1
  obtain ⟨h1, h2, h3⟩ := move_dots m hm a b P Q
  have hPP := (move_dots m hm a a P P).2.2
  refine ⟨parallel_of_dots haa hbb h1, ?_, parallel_of_dots haa hPP h2, ?_⟩
  · show |dot _ _| < _ ↔ |dot _ _| < _
    rw [h2]
  · show |dot _ _| < _ ↔ |dot _ _| < _
    rw [h3]

/-! ## Equality -/

/-- C108: the meaning of `==` between two axes, and between two planes. -/
theorem equality_spec (a b : Axis) (P Q : Plane) (hb : dot b.vector b.vector = 1)
    (hP : dot P.normal P.normal = 1) (hQ : dot Q.normal Q.normal = 1) :
    (a.equal b ↔ NearLine b a.point ∧ NearParallel a.vector b.vector) ∧
    (P.equal Q ↔ NearPlane P Q.point ∧ NearParallel P.normal Q.normal ∧ 0 < dot P.normal Q.normal) := by
  unfold Axis.equal Plane.equal parallelSame
  rw [in_axis_iff b hb, nearParallel_iff hb, in_plane_iff P hP, nearParallel_iff hQ]
  exact ⟨Iff.rfl, Iff.rfl⟩

/-- C108: every axis and every plane equals itself. -/
theorem equality_refl (a : Axis) (P : Plane) (hP : dot P.normal P.normal = 1) : a.equal a ∧ P.equal P := by
  have h0 : ∀ u v : V3 ℝ, cross u v = 0 → parallelVectors u v := by
    intro u v h
    show norm _ < _
    rw [h, norm_eq_zero.mpr rfl]
    norm_num
  refine ⟨⟨h0 _ _ ?_, h0 _ _ ?_⟩, ?_, h0 _ _ ?_, ?_⟩
  · ext <;> simp
  · ext <;> simp <;> ring
  · show |dot (P.point - P.point) P.normal| < _
    simp only [dot, sub_self, zero_x, zero_y, zero_z, zero_mul, add_zero, abs_zero]
    norm_num
  · ext <;> simp <;> ring
  · rw [hP]; norm_num

/-- C108: `==` does not depend on the order for axes with the same vector and planes with the same normal. -/
theorem equality_symmetric_partial (a b : Axis) (P Q : Plane) (h : a.vector = b.vector) (hPQ : P.normal = Q.normal) :
    (a.equal b ↔ b.equal a) ∧ (P.equal Q ↔ Q.equal P) := by
  constructor
  · unfold Axis.equal Axis.contains
    rw [h]
    have : parallelVectors (a.point - b.point) b.vector ↔ parallelVectors (b.point - a.point) b.vector := by
      unfold parallelVectors V3.norm
      have : dot (cross (a.point - b.point) b.vector) (cross (a.point - b.point) b.vector) =
          dot (cross (b.point - a.point) b.vector) (cross (b.point - a.point) b.vector) := by
        simp only [dot, cross_x, cross_y, cross_z, sub_x, sub_y, sub_z]; ring
      rw [this]
    rw [this]
  · unfold Plane.equal Plane.contains
    rw [hPQ]
    have : orthogonalVectors (Q.point - P.point) Q.normal ↔ orthogonalVectors (P.point - Q.point) Q.normal := by
      show |dot _ _| < _ ↔ |dot _ _| < _
      rw [← abs_neg]
      have : -dot (Q.point - P.point) Q.normal = dot (P.point - Q.point) Q.normal := by
        simp only [dot, sub_x, sub_y, sub_z]; ring
      rw [this]
    rw [this]

/-- A unit vector at a small angle of `e_x`, of sine `2e-7 / (1 + 1e-14)`. -/
noncomputable def tilted : V3 ℝ := ⟨(1 - 1e-14) / (1 + 1e-14), 2e-7 / (1 + 1e-14), 0⟩

theorem tilted_unit : dot tilted tilted = 1 := by
  norm_num [tilted, dot]

theorem tilted_near : parallelVectors tilted ex := by
  show norm _ < _
  rw [norm_lt (by norm_num)]
  norm_num [tilted, dot, cross, ex]

/-- C108 is violated: `a == b` without `b == a`, for axes and for planes. -/
theorem equality_symmetric_violated :
    (∃ a b : Axis, dot a.vector a.vector = 1 ∧ dot b.vector b.vector = 1 ∧ a.equal b ∧ ¬ b.equal a) ∧
    ∃ P Q : Plane, dot P.normal P.normal = 1 ∧ dot Q.normal Q.normal = 1 ∧ P.equal Q ∧ ¬ Q.equal P := by
  refine ⟨⟨⟨ex, 0⟩, ⟨tilted, (100 : ℝ) • tilted⟩, by norm_num [ex, dot], tilted_unit, ⟨?_, ?_⟩, ?_⟩,
    ⟨ex, 0⟩, ⟨tilted, ⟨0, 100, 0⟩⟩, by norm_num [ex, dot], tilted_unit, ⟨?_, ?_, ?_⟩, ?_⟩
  · show norm _ < _
    rw [norm_lt (by norm_num)]
    norm_num [tilted, dot, cross]
  · exact (parallel_comm _ _).mp tilted_near
  · rintro ⟨h, -⟩
    have h : norm _ < _ := h
    rw [norm_lt (by norm_num)] at h
    norm_num [tilted, dot, cross, ex] at h
  · show |dot _ _| < _
    norm_num [dot, ex]
  · exact (parallel_comm _ _).mp tilted_near
  · norm_num [tilted, dot, ex]
  · rintro ⟨h, -⟩
    have h : |dot _ _| < _ := h
    norm_num [tilted, dot, ex, abs_lt] at h

/-- C108 is violated: `a == b` and `b == c` without `a == c`. -/
theorem equality_transitive_violated :
    (∃ a b c : Axis, dot a.vector a.vector = 1 ∧ a.vector = b.vector ∧ b.vector = c.vector ∧
      a.equal b ∧ b.equal c ∧ ¬ a.equal c) ∧
    ∃ P Q R : Plane, dot P.normal P.normal = 1 ∧ P.normal = Q.normal ∧ Q.normal = R.normal ∧
      P.equal Q ∧ Q.equal R ∧ ¬ P.equal R := by
  refine ⟨⟨⟨ex, 0⟩, ⟨ex, ⟨0, 6e-7, 0⟩⟩, ⟨ex, ⟨0, 12e-7, 0⟩⟩, by norm_num [ex, dot], rfl, rfl, ⟨?_, ?_⟩, ⟨?_, ?_⟩, ?_⟩,
    ⟨ex, 0⟩, ⟨ex, ⟨6e-7, 0, 0⟩⟩, ⟨ex, ⟨12e-7, 0, 0⟩⟩, by norm_num [ex, dot], rfl, rfl, ⟨?_, ?_, ?_⟩, ⟨?_, ?_, ?_⟩, ?_⟩
  · show norm _ < _
    rw [norm_lt (by norm_num)]
    norm_num [dot, cross, ex]
  · show norm _ < _
    rw [norm_lt (by norm_num)]
    norm_num [dot, cross, ex]
  · show norm _ < _
    rw [norm_lt (by norm_num)]
    norm_num [dot, cross, ex]
  · show norm _ < _
    rw [norm_lt (by norm_num)]
    norm_num [dot, cross, ex]
  · rintro ⟨h, -⟩
    have h : norm _ < _ := h
    rw [norm_lt (by norm_num)] at h
    norm_num [dot, cross, ex] at h
  · show |dot _ _| < _
    norm_num [dot, ex, abs_lt]
  · show norm _ < _
    rw [norm_lt (by norm_num)]
    norm_num [dot, cross, ex]
  · norm_num [dot, ex]
  · show |dot _ _| < _
    norm_num [dot, ex, abs_lt]
  · show norm _ < _
    rw [norm_lt (by norm_num)]
    norm_num [dot, cross, ex]
  · norm_num [dot, ex]
  · rintro ⟨h, -⟩
    have h : |dot _ _| < _ := h
    norm_num [dot, ex, abs_lt] at h

/-! ## Examples -/

theorem ex_unit : dot ex ex = 1 := by norm_num [ex, dot]
theorem ez_unit : dot ez ez = 1 := by norm_num [ez, dot]

/-- Concrete case of `in_axis_iff`. -/
example : (⟨ex, 0⟩ : Axis).contains ⟨5, 0, 0⟩ := by
  rw [in_axis_iff _ ex_unit]
  refine ⟨5, ?_⟩
  show norm _ < _
  rw [norm_lt (by norm_num)]
  norm_num [Axis.at, ex, dot]

/-- Concrete case of `in_plane_iff`. -/
example : (⟨ez, ⟨0, 0, 1⟩⟩ : Plane).contains ⟨5, 7, 1⟩ := by
  rw [in_plane_iff _ ez_unit]
  refine ⟨⟨5, 7, 1⟩, by norm_num [Plane.signedDist, ez], ?_⟩
  show norm _ < _
  rw [norm_lt (by norm_num)]
  norm_num [dot]

/-- Concrete case of `axis_in_plane_iff`. -/
example : (⟨ez, ⟨0, 0, 1⟩⟩ : Plane).containsAxis ⟨ex, ⟨5, 7, 1⟩⟩ := by
  rw [axis_in_plane_iff _ ez_unit]
  refine ⟨⟨⟨5, 7, 1⟩, by norm_num [Plane.signedDist, ez], ?_⟩, ex, by norm_num [ex, ez, dot], ?_⟩ <;>
  · show norm _ < _
    rw [norm_lt (by norm_num)]
    norm_num [dot]

/-- Concrete case of `relations_spec`: parallel lines, and a line parallel to a plane. -/
example : Holds ((⟨tilted, 0⟩ : Axis).isParallelTo (.axis ⟨ex, ⟨1, 2, 3⟩⟩)) ∧
    Holds ((⟨tilted, 0⟩ : Axis).isParallelTo (.plane ⟨ez, ⟨1, 2, 3⟩⟩)) ∧
    ¬ Holds ((⟨tilted, 0⟩ : Axis).isOrthogonalTo (.plane ⟨ez, ⟨1, 2, 3⟩⟩)) := by
  have h : Holds ((⟨tilted, 0⟩ : Axis).isParallelTo (.plane ⟨ez, ⟨1, 2, 3⟩⟩)) := by
    rw [(relations_spec ⟨tilted, 0⟩ ⟨ex, 0⟩ ⟨ez, ⟨1, 2, 3⟩⟩ ⟨ez, 0⟩ ex_unit ez_unit ez_unit).2.1]
    refine ⟨tilted, by norm_num [tilted, ez, dot], ?_⟩
    show norm _ < _
    rw [norm_lt (by norm_num)]
    norm_num [dot]
  exact ⟨tilted_near, h, fun h' => relations_exclusive _ _ tilted_unit ez_unit ⟨h, h'⟩⟩

/-- Concrete case of `scaled_vector_violated`. -/
example : ∃ c d : ℝ, 0 < c ∧ 0 < d ∧ Holds ((⟨ex, 0⟩ : Axis).isParallelTo (.triple (c • ez))) ∧
    ¬ Holds ((⟨ex, 0⟩ : Axis).isParallelTo (.triple (d • ez))) :=
  scaled_vector_violated _ _ (by simp [cross, ex, ez, V3.ext_iff])

/-- Concrete case of `relations_moved`: two axes turned by one radian around a vertical axis. -/
example : Holds (((⟨tilted, 0⟩ : Axis).rotate ⟨ez, 0⟩ 1).isParallelTo (.axis ((⟨ex, 0⟩ : Axis).rotate ⟨ez, 0⟩ 1))) :=
  (relations_moved (.rotate ⟨ez, 0⟩ 1) ez_unit ⟨tilted, 0⟩ ⟨ex, 0⟩ ⟨ez, 0⟩ ⟨ez, 0⟩).1.mpr tilted_near

/-- Concrete case of `equality_symmetric_partial`: a point moved along its axis. -/
example : (⟨ex, 0⟩ : Axis).equal ⟨ex, ⟨3, 0, 0⟩⟩ := by
  rw [(equality_symmetric_partial ⟨ex, 0⟩ ⟨ex, ⟨3, 0, 0⟩⟩ ⟨ez, 0⟩ ⟨ez, 0⟩ rfl rfl).1]
  rw [(equality_spec ⟨ex, ⟨3, 0, 0⟩⟩ ⟨ex, 0⟩ ⟨ez, 0⟩ ⟨ez, 0⟩ ex_unit ez_unit ez_unit).1]
  refine ⟨⟨3, ?_⟩, 1, ?_⟩ <;>
  · show norm _ < _
    rw [norm_lt (by norm_num)]
    norm_num [Axis.at, ex, dot]

/-- Concrete case of `axis_equals_plane`: the axis and the plane of the default values. -/
example : (⟨ex, 0⟩ : Axis).equalPlane ⟨ez, 0⟩ = .error .attributeError := by
  unfold Axis.equalPlane
  rw [if_pos ?_]
  rw [in_plane_iff _ ez_unit]
  refine ⟨0, by simp [Plane.signedDist], ?_⟩
  show norm _ < _
  rw [norm_lt (by norm_num)]
  norm_num [dot]

end Verif.Geometry
