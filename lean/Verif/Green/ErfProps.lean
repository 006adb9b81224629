import Verif.Green.ErfFar
import Mathlib.Analysis.Complex.ExponentialBounds

/-!
# The accuracy of the error function

The specification is the integral of the bell curve (`erf` and `erfc` of `ErfNear.lean`); the limits of the error function are proved
in order to show that the specification has the right scale.
-/

namespace Verif.Green.Erf

open Real Finset Filter Topology

theorem pi_code : √piC ≤ √π ∧ √π ≤ √piC * (1 + 1 / 10 ^ 16) ∧ 0 < √piC := by
  have h1 := pi_gt_d20
  have h2 := pi_lt_d20
  have h0 : (0 : ℝ) < piC := by unfold piC; norm_num
  refine ⟨sqrt_le_sqrt (by unfold piC; linarith), ?_, sqrt_pos.mpr h0⟩
  have h3 : π ≤ piC * (1 + 1 / 10 ^ 16) ^ 2 := by
    unfold piC
    refine le_trans h2.le ?_
    norm_num
  calc √π ≤ √(piC * (1 + 1 / 10 ^ 16) ^ 2) := sqrt_le_sqrt h3
    _ = √piC * (1 + 1 / 10 ^ 16) := by rw [sqrt_mul h0.le, sqrt_sq (by norm_num)]

theorem errorF_neg (x : ℝ) (hx : x ≠ 0) : errorF (-x) = -errorF x := by
  unfold errorF
  simp only [abs_neg, neg_mul_neg]
  split
  · ring
  · rcases lt_or_gt_of_ne hx with h | h
    · rw [if_neg (by linarith), if_pos h, neg_neg]
    · rw [if_pos (by linarith), if_neg (by linarith)]

theorem errorF_zero : errorF 0 = 0 := by
  unfold errorF
  norm_num

theorem errorF_odd (x : ℝ) : errorF (-x) = -errorF x := by
  by_cases h : x = 0
  · subst h; simp [errorF_zero]
  · exact errorF_neg x h

/-- **C126.** Below 3.5 the error function has a relative error of at most 1.4e-14. -/
theorem near_accuracy {x : ℝ} (hx : |x| < 3.5) : |errorF x - erf x| ≤ 1.4 / 10 ^ 14 * |erf x| := by
  have key : ∀ t : ℝ, 0 ≤ t → t < 3.5 → |errorF t - erf t| ≤ 1.4 / 10 ^ 14 * |erf t| := by
    intro t ht ht3
    obtain ⟨N, e, h1, h2⟩ := near_error ht ht3
    obtain ⟨p1, p2, p3⟩ := pi_code
    have hb : 0 ≤ bell t := by have := bell_mono ht; rwa [bell_zero] at this
    have hp : 0 ≤ part N t := by
      unfold part
      exact mul_nonneg (exp_pos _).le (mul_nonneg ht (total_nonneg N (sq_nonneg t)))
    have ee : errorF t = 2 / √piC * part N t := by
      unfold errorF part
      simp only [abs_of_nonneg ht, if_pos ht3, e]
      rw [show -(t * t) = -t ^ 2 by ring]
      ring
    have hπ : 0 < √π := sqrt_pos.mpr pi_pos
    have er : erf t = 2 / √π * bell t := rfl
    have hq : 1 / √piC ≤ (1 + 1 / 10 ^ 16) * (1 / √π) := by
      rw [mul_one_div, le_div_iff₀ hπ, one_div, inv_mul_le_iff₀ p3]
      linarith
    have hq' : 1 / √π ≤ 1 / √piC := one_div_le_one_div_of_le p3 p1
    have hu : errorF t ≤ (1 + 1 / 10 ^ 16) * erf t := by
      rw [ee, er]
      calc 2 / √piC * part N t = 2 * (1 / √piC) * part N t := by ring
        _ ≤ 2 * ((1 + 1 / 10 ^ 16) * (1 / √π)) * bell t := by gcongr
        _ = _ := by ring
    have hl : erf t ≤ (1 + 1.3 / 10 ^ 14) * errorF t := by
      rw [ee, er]
      calc 2 / √π * bell t = 2 * (1 / √π) * bell t := by ring
        _ ≤ 2 * (1 / √piC) * ((1 + 1.3 / 10 ^ 14) * part N t) := by
          have : bell t ≤ (1 + 1.3 / 10 ^ 14) * part N t := by linarith
          gcongr
        _ = _ := by ring
    have he0 : 0 ≤ erf t := by rw [er]; positivity
    rw [abs_of_nonneg he0, abs_le]
    norm_num at hu hl ⊢
    constructor <;> nlinarith
  rcases le_total 0 x with h | h
  · exact key x h (by rwa [abs_of_nonneg h] at hx)
  · have := key (-x) (by linarith) (by rwa [abs_of_nonpos h] at hx)
    rw [errorF_odd, erf_neg, abs_neg, neg_sub_neg, abs_sub_comm] at this
    exact this

example : |errorF 1 - erf 1| ≤ 1.4 / 10 ^ 14 * |erf 1| := near_accuracy (by norm_num)

theorem erfc_eq (x : ℝ) : erfc x = (√π - 2 * bell x) / √π := by
  have : √π ≠ 0 := (sqrt_pos.mpr pi_pos).ne'
  unfold erfc erf
  field_simp

/-- **C126.** From 3.5 the complementary error function is too large by at most 7.3e-6 of its value. -/
theorem far_accuracy {x : ℝ} (hx : 3.5 ≤ x) : erfc x ≤ erfcc x ∧ erfcc x ≤ (1 + 7.3 / 10 ^ 6) * erfc x := by
  obtain ⟨h1, h2, _, h4⟩ := far_error hx
  obtain ⟨p1, p2, p3⟩ := pi_code
  have h0 : 0 < x := by norm_num at hx; linarith
  have hπ : 0 < √π := sqrt_pos.mpr pi_pos
  have hT : 0 ≤ √π - 2 * bell x := le_trans (by positivity) h4
  have e : erfcc x = (gap 13 x + (√π - 2 * bell x)) / √piC := by
    unfold erfcc errorF
    simp only [abs_of_pos h0]
    rw [if_neg (not_lt.mpr hx), if_neg (not_lt.mpr h0.le)]
    rw [farStep_spec (mul_ne_zero h0.ne' h0.ne')]
    have : gap 13 x + (√π - 2 * bell x) = exp (-(x * x)) / x * ∑ k ∈ range (12 + 1), (-1 : ℝ) ^ k * num k / (x * x) ^ k := by
      unfold gap
      rw [sub_add_cancel, mul_sum]
      refine sum_congr rfl fun k _ => ?_
      unfold tail
      rw [show -(x * x) = -x ^ 2 by ring, show x * x = x ^ 2 by ring, ← pow_mul, pow_succ]
      field_simp
      ring
    rw [this]
    field_simp
    ring
  rw [e, erfc_eq]
  have hq : 1 / √piC ≤ (1 + 1 / 10 ^ 16) * (1 / √π) := by
    rw [mul_one_div, le_div_iff₀ hπ, one_div, inv_mul_le_iff₀ p3]
    linarith
  have hq' : 1 / √π ≤ 1 / √piC := one_div_le_one_div_of_le p3 p1
  generalize √π - 2 * bell x = T at *
  constructor
  · calc T / √π = T * (1 / √π) := by ring
      _ ≤ (gap 13 x + T) * (1 / √piC) := by
        have : T ≤ gap 13 x + T := by linarith
        gcongr
      _ = _ := by ring
  · have hs : gap 13 x + T ≤ (1 + 72 / 10 ^ 7) * T := by linarith
    calc (gap 13 x + T) / √piC = (gap 13 x + T) * (1 / √piC) := by ring
      _ ≤ ((1 + 72 / 10 ^ 7) * T) * ((1 + 1 / 10 ^ 16) * (1 / √π)) := by
        have : 0 ≤ gap 13 x + T := by linarith
        gcongr
      _ = ((1 + 72 / 10 ^ 7) * (1 + 1 / 10 ^ 16)) * (T / √π) := by ring
      _ ≤ _ := mul_le_mul_of_nonneg_right (by norm_num) (by positivity)

example : erfc 4 ≤ erfcc 4 ∧ erfcc 4 ≤ (1 + 7.3 / 10 ^ 6) * erfc 4 := far_accuracy (by norm_num)

theorem erfc_antitone : Antitone erfc := by
  intro x y h
  rw [erfc_eq, erfc_eq]
  have hπ : 0 < √π := sqrt_pos.mpr pi_pos
  have := bell_mono h
  gcongr

theorem erfc_far_small {x : ℝ} (hx : 3.5 ≤ x) : erfc x ≤ 1.2 / 10 ^ 6 := by
  refine le_trans (erfc_antitone hx) ?_
  have h1 := gap_odd (n := 1) (by decide) (x := 3.5) (by norm_num)
  have e1 : gap 1 3.5 = exp (-(3.5 : ℝ) ^ 2) / 3.5 - (√π - 2 * bell 3.5) := by
    simp [gap, tail, num]
  have h2 : exp (-(3.5 : ℝ) ^ 2) ≤ 1 / 150000 := by
    have h3 : (2.7 : ℝ) ^ 12 ≤ exp 1 ^ 12 := pow_le_pow_left₀ (by norm_num) (by have := exp_one_gt_d9; linarith) 12
    rw [← exp_nat_mul] at h3
    have h4 : exp (-(3.5 : ℝ) ^ 2) ≤ exp (-12) := exp_le_exp.mpr (by norm_num)
    have h5 : exp (-12) = 1 / exp (((12 : ℕ) : ℝ) * 1) := by rw [exp_neg, one_div]; norm_num
    rw [h5] at h4
    refine le_trans h4 (one_div_le_one_div_of_le (by norm_num) (le_trans (by norm_num) h3))
  have hs : (1.7 : ℝ) ≤ √π := by
    rw [show (1.7 : ℝ) = √(1.7 ^ 2) by rw [sqrt_sq (by norm_num)]]
    exact sqrt_le_sqrt (by have := pi_gt_d2; norm_num at this ⊢; linarith)
  rw [erfc_eq, div_le_iff₀ (by linarith)]
  have h6 : √π - 2 * bell 3.5 ≤ exp (-(3.5 : ℝ) ^ 2) / 3.5 := by linarith
  refine le_trans h6 ?_
  generalize exp (-(3.5 : ℝ) ^ 2) = w at *
  rw [div_le_iff₀ (by norm_num)]
  norm_num
  norm_num at h2 hs
  linarith

/-- The complementary error function at 3.5 is not too small. -/
theorem erfc_at : 2 / 10 ^ 8 ≤ erfc 3.5 := by
  have h4 := (far_error (x := 3.5) le_rfl).2.2.2
  have h1 : (1 : ℝ) / 3 ^ 13 ≤ exp (-(3.5 : ℝ) ^ 2) := by
    have h3 : exp 1 ^ 13 ≤ (3 : ℝ) ^ 13 := pow_le_pow_left₀ (exp_pos _).le (by have := exp_one_lt_d9; linarith) 13
    rw [← exp_nat_mul] at h3
    have h4 : exp (-13) ≤ exp (-(3.5 : ℝ) ^ 2) := exp_le_exp.mpr (by norm_num)
    have h5 : exp (-13) = 1 / exp (((13 : ℕ) : ℝ) * 1) := by rw [exp_neg, one_div]; norm_num
    rw [h5] at h4
    exact le_trans (one_div_le_one_div_of_le (exp_pos _) h3) h4
  have hs : √π ≤ 2 := by
    rw [show (2 : ℝ) = √(2 ^ 2) by rw [sqrt_sq (by norm_num)]]
    exact sqrt_le_sqrt (by have := pi_lt_d2; norm_num at this ⊢; linarith)
  rw [erfc_eq, le_div_iff₀ (sqrt_pos.mpr pi_pos)]
  refine le_trans ?_ h4
  generalize exp (-(3.5 : ℝ) ^ 2) = w at *
  norm_num at h1 ⊢
  linarith

theorem erf_le_one (x : ℝ) : |erf x| ≤ 1 := by
  have key : ∀ t : ℝ, erf t ≤ 1 := by
    intro t
    have h : bell t ≤ √π / 2 := ge_of_tendsto bell_tendsto (eventually_atTop.mpr ⟨t, fun s hs => bell_mono hs⟩)
    have hπ : 0 < √π := sqrt_pos.mpr pi_pos
    unfold erf
    rw [div_mul_eq_mul_div, div_le_one hπ]
    linarith
  rw [abs_le]
  refine ⟨?_, key x⟩
  have := key (-x)
  rw [erf_neg] at this
  linarith

/-- **C126.** The error function has an absolute error of at most 1e-11, for every real argument. -/
theorem error_accuracy (x : ℝ) : |errorF x - erf x| ≤ 1 / 10 ^ 11 := by
  by_cases hx : |x| < 3.5
  · refine le_trans (near_accuracy hx) ?_
    have := erf_le_one x
    norm_num
    linarith
  · have key : ∀ t : ℝ, 3.5 ≤ t → |errorF t - erf t| ≤ 1 / 10 ^ 11 := by
      intro t ht
      obtain ⟨h1, h2⟩ := far_accuracy ht
      have h3 := erfc_far_small ht
      have e : errorF t - erf t = -(erfcc t - erfc t) := by unfold erfcc erfc; ring
      rw [e, abs_neg, abs_of_nonneg (by linarith)]
      norm_num at h2 h3 ⊢
      linarith
    rw [not_lt] at hx
    rcases le_total 0 x with h | h
    · exact key x (by rwa [abs_of_nonneg h] at hx)
    · have := key (-x) (by rwa [abs_of_nonpos h] at hx)
      rw [errorF_odd, erf_neg, neg_sub_neg, abs_sub_comm] at this
      exact this

/-- **C126.** The complementary error function has a relative error of at most 7.3e-6, for every real argument, however small the
value is. -/
theorem complement_accuracy (x : ℝ) : |erfcc x - erfc x| ≤ 7.3 / 10 ^ 6 * erfc x := by
  have e : erfcc x - erfc x = -(errorF x - erf x) := by unfold erfcc erfc; ring
  rcases lt_or_ge x 3.5 with hx | hx
  · rw [e, abs_neg]
    by_cases h : |x| < 3.5
    · refine le_trans (near_accuracy h) ?_
      have h1 := erf_le_one x
      have h2 := le_trans erfc_at (erfc_antitone hx.le)
      norm_num at h2 ⊢
      linarith
    · have h0 : x ≤ 0 := by
        by_contra hc
        rw [not_le] at hc
        rw [abs_of_pos hc] at h
        exact h hx
      have h1 : 1 ≤ erfc x := by
        have hb := bell_mono h0
        rw [bell_zero] at hb
        have : erf x ≤ 0 := mul_nonpos_of_nonneg_of_nonpos (by positivity) hb
        unfold erfc
        linarith
      have := error_accuracy x
      norm_num at this ⊢
      linarith
  · obtain ⟨h1, h2⟩ := far_accuracy hx
    rw [abs_of_nonneg (by linarith)]
    linarith

/-- **C126.** The function used as the derivative is the derivative of the complementary error function, up to the digits of the
constant. -/
theorem derivative_accuracy (x : ℝ) :
    ∃ D : ℝ, HasDerivAt erfc D x ∧ |derfcc x - D| ≤ 1 / 10 ^ 16 * |D| := by
  obtain ⟨p1, p2, p3⟩ := pi_code
  have hπ : 0 < √π := sqrt_pos.mpr pi_pos
  refine ⟨-(2 / √π * exp (-x ^ 2)), ?_, ?_⟩
  · have h := ((bell_deriv x).const_mul (2 / √π)).const_sub 1
    exact h
  · have hq : 1 / √piC ≤ (1 + 1 / 10 ^ 16) * (1 / √π) := by
      rw [mul_one_div, le_div_iff₀ hπ, one_div, inv_mul_le_iff₀ p3]
      linarith
    have hq' : 1 / √π ≤ 1 / √piC := one_div_le_one_div_of_le p3 p1
    have ed : derfcc x - -(2 / √π * exp (-x ^ 2)) = -((1 / √piC - 1 / √π) * (2 * exp (-x ^ 2))) := by
      unfold derfcc; ring
    have h0 : 0 ≤ 2 * exp (-x ^ 2) := by positivity
    rw [ed, abs_neg, abs_neg, abs_of_nonneg (mul_nonneg (by linarith) h0), abs_of_nonneg (by positivity)]
    calc (1 / √piC - 1 / √π) * (2 * exp (-x ^ 2)) ≤ (1 / 10 ^ 16 * (1 / √π)) * (2 * exp (-x ^ 2)) :=
          mul_le_mul_of_nonneg_right (by linarith) h0
      _ = _ := by ring

/-- **C126.** The specification has the right scale. -/
theorem erf_tendsto : Tendsto erf atTop (𝓝 1) := by
  have h := bell_tendsto.const_mul (2 / √π)
  have e : 2 / √π * (√π / 2) = 1 := by
    have : √π ≠ 0 := (sqrt_pos.mpr pi_pos).ne'
    field_simp
  rw [e] at h
  exact h

/-- **C126.** The error function of the code is odd. -/
theorem error_odd (x : ℝ) : errorF (-x) = -errorF x := errorF_odd x

end Verif.Green.Erf
