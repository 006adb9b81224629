import Verif.Geometry.PlaneProps

/-!
# C65: aligning an object with a direction
-/

namespace Verif.Geometry

open V3 Real

theorem lagrange (u v : V3 ℝ) : dot (cross u v) (cross u v) + dot u v ^ 2 = dot u u * dot v v := by
  simp only [dot, cross_x, cross_y, cross_z]; ring

theorem norm_sq_cross (u v : V3 ℝ) : norm (cross u v) ^ 2 = dot u u * dot v v - dot u v ^ 2 := by
  rw [norm_sq]; linarith [lagrange u v]

/-- Half a turn around an axis orthogonal to a vector reverses it. -/
theorem half_turn (a : Axis) (ha : dot a.vector a.vector = 1) (v : V3 ℝ) (hv : dot a.vector v = 0) :
    a.rotateVector π v = -v := by
  rw [rotateVector_unit a ha, hv]
  ext <;> simp

theorem cross_ne_zero_of_not_parallel {u v : V3 ℝ} (h : ¬ parallelVectors u v) : cross u v ≠ 0 := by
  intro h0
  apply h
  unfold parallelVectors
  rw [h0, norm_eq_zero.2 rfl]
  norm_num

theorem mkAxis_cross_dot (u v p : V3 ℝ) : dot (mkAxis (cross u v) p).vector u = 0 := by
  simp only [mkAxis, dot, smul_x, smul_y, smul_z, cross_x, cross_y, cross_z]; ring

/-- Turning around the vector product by the angle of two unit vectors sends the first to the second. -/
theorem rotate_to (u v p : V3 ℝ) (hu : dot u u = 1) (hv : dot v v = 1) (h : cross u v ≠ 0) :
    (mkAxis (cross u v) p).rotateVector (arccos (dot u v)) u = v := by
  have hl := lagrange u v
  rw [hu, hv] at hl
  have hb : -1 ≤ dot u v ∧ dot u v ≤ 1 := by
    have := dot_self_nonneg (cross u v)
    constructor <;> nlinarith
  have hs : sin (arccos (dot u v)) = norm (cross u v) := by
    rw [sin_arccos, V3.norm]; congr 1; linarith
  have hn : norm (cross u v) ≠ 0 := fun h0 => h (norm_eq_zero.1 h0)
  rw [rotateVector_unit _ (mkAxis_unit h), cos_arccos hb.1 hb.2, hs, mkAxis_cross_dot]
  have hu' : u.x * u.x + u.y * u.y + u.z * u.z = 1 := hu
  ext <;> simp only [mkAxis, add_x, add_y, add_z, smul_x, smul_y, smul_z, cross_x, cross_y, cross_z, dot]
  · field_simp
    linear_combination (norm (cross u v) * v.x) * hu'
  · field_simp
    linear_combination (norm (cross u v) * v.y) * hu'
  · field_simp
    linear_combination (norm (cross u v) * v.z) * hu'

/-- **C65** for unit vectors: afterwards, the first vector is along the second one, in the same direction, up
to the tolerance `1e-6`, and exactly as soon as the two vectors were not parallel at first. Missing: vectors
of other lengths, see `align_violated`. -/
theorem align_partial (center v1 v2 : V3 ℝ) (h1 : dot v1 v1 = 1) (h2 : dot v2 v2 = 1) :
    (¬ parallelVectors v1 v2 → alignedVector center v1 v2 v1 = v2) ∧
    norm (cross (alignedVector center v1 v2 v1) v2) < 1e-6 ∧
    0 < dot (alignedVector center v1 v2 v1) v2 := by
  have hcross (v : V3 ℝ) : norm (cross v v) = 0 := norm_eq_zero.2 (by ext <;> simp <;> ring)
  unfold alignedVector alignRotation
  by_cases hs : parallelSame v1 v2
  · simp only [if_pos hs]
    exact ⟨fun h => absurd hs.1 h, hs.1, hs.2⟩
  by_cases hp : parallelVectors v1 v2
  · simp only [if_neg hs, if_pos hp]
    have hd : dot v1 v2 < 0 := by
      have hle : ¬ dot v1 v2 > 0 := fun h => hs ⟨hp, h⟩
      refine lt_of_le_of_ne (not_lt.1 hle) fun h0 => ?_
      have h3 := norm_sq_cross v1 v2
      rw [h0, h1, h2] at h3
      unfold parallelVectors at hp
      nlinarith [norm_nonneg (cross v1 v2)]
    have hneg (w : V3 ℝ) (hw : w = -v1) : norm (cross w v2) < 1e-6 ∧ 0 < dot w v2 := by
      subst hw
      constructor
      · have : norm (cross (-v1) v2) = norm (cross v1 v2) := by
          unfold V3.norm
          congr 1
          simp only [dot, cross_x, cross_y, cross_z, neg_x, neg_y, neg_z]; ring
        rw [this]; exact hp
      · have : dot (-v1) v2 = - dot v1 v2 := by simp only [dot, neg_x, neg_y, neg_z]; ring
        rw [this]; linarith
    refine ⟨fun h => absurd hp h, ?_⟩
    by_cases hx : parallelVectors v1 ex
    · simp only [if_pos hx]
      apply hneg
      refine half_turn _ (mkAxis_unit fun h0 => ?_) _ (mkAxis_cross_dot ..)
      have h3 := norm_sq_cross v1 ex
      have hx' : v1.x = 0 := by
        have := congrArg V3.z h0
        simpa [ey] using this
      unfold parallelVectors at hx
      rw [h1] at h3
      have h4 : dot v1 ex = 0 := by simp [dot, ex, hx']
      have h5 : dot ex ex = 1 := by simp [dot, ex]
      rw [h4, h5] at h3
      nlinarith [norm_nonneg (cross v1 ex)]
    · simp only [if_neg hx]
      apply hneg
      exact half_turn _ (mkAxis_unit (cross_ne_zero_of_not_parallel hx)) _ (mkAxis_cross_dot ..)
  · simp only [if_neg hs, if_neg hp]
    have h := rotate_to v1 v2 center h1 h2 (cross_ne_zero_of_not_parallel hp)
    rw [h]
    refine ⟨fun _ => rfl, ?_, by rw [h2]; norm_num⟩
    rw [hcross]; norm_num

/-- **C65**: the center does not move, whatever the vectors. -/
theorem align_fixes_center (center v1 v2 : V3 ℝ) : alignedPoint center v1 v2 center = center := by
  unfold alignedPoint
  split
  · rfl
  · rename_i a θ h
    have hp : a.point = center := by
      unfold alignRotation at h
      split at h
      · cases h
      · split at h
        · split at h <;> (injection h with h; injection h with h; rw [← h]; rfl)
        · injection h with h; injection h with h; rw [← h]; rfl
    unfold Axis.rotatePoint
    rw [hp, sub_self, rotateVector_eq]
    ext <;> simp

/-- **C65 is violated** for vectors which are not of unit length: an object whose normal is vertical, aligned
with the direction `(0, 1, 1)`, does not move. (`mesh_rectangle` and `mesh_disk` pass the normal given by the
user as the second vector, `meshes/predefined/rectangles.py:104`.) -/
theorem align_violated : ∃ v2 : V3 ℝ, ∀ center v, alignedVector center ez v2 v = v ∧
    ¬ parallelVectors ez v2 := by
  refine ⟨⟨0, 1, 1⟩, fun center v => ?_⟩
  have hp : ¬ parallelVectors ez ⟨0, 1, 1⟩ := by
    unfold parallelVectors V3.norm
    simp [dot, ez]
    norm_num
  refine ⟨?_, hp⟩
  unfold alignedVector alignRotation
  rw [if_neg fun h => hp h.1, if_neg hp]
  have : dot ez (⟨0, 1, 1⟩ : V3 ℝ) = 1 := by simp [dot, ez]
  simp only [this, arccos_one]
  rw [rotateVector_eq]
  ext <;> simp

/-- Concrete cases of `align_partial`: two oblique unit vectors, not parallel. -/
example : dot (⟨3/5, 0, 4/5⟩ : V3 ℝ) ⟨3/5, 0, 4/5⟩ = 1 ∧ dot (⟨0, 1, 0⟩ : V3 ℝ) ⟨0, 1, 0⟩ = 1 ∧
    ¬ parallelVectors ⟨3/5, 0, 4/5⟩ ⟨0, 1, 0⟩ := by
  refine ⟨by simp [dot]; norm_num, by simp [dot], ?_⟩
  unfold parallelVectors V3.norm
  simp [dot]
  norm_num

end Verif.Geometry
