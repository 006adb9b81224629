import Verif.Green.DcoefModel
import Verif.Green.LintonTail

/-!
# The accuracy of the derivatives of the expansion coefficients

The specification is the derivative of the integral (`coefficientD` of `LintonProps.lean`, which is the derivative of `coefficient` by
`coefficient_derivative`).
-/

namespace Verif.Green.Linton

open Real Filter Set MeasureTheory
open scoped Topology

/-- **C142.** The second integrand is the derivative of the first one with respect to the distance, for all modes. -/
theorem integrand_derivative (r μ t : ℝ) (no : ℕ) : HasDerivAt (fun r => f1 r μ no t) (f2 r μ no t) r := by
  unfold f1 f2
  by_cases ht : |t| < 1 / 10 ^ 8
  · simp only [if_pos ht]
    exact hasDerivAt_const r 0
  · simp only [if_neg ht]
    have t0 : t ≠ 0 := by
      rintro rfl
      norm_num at ht
    have h1 : ∀ c : ℝ, HasDerivAt (fun s : ℝ => exp (-s ^ 2 / 4 / t + c) / 4 / π / t) (-r * exp (-r ^ 2 / 4 / t + c) / 8 / π / t ^ 2) r := by
      intro c
      have h2 : HasDerivAt (fun s : ℝ => -s ^ 2 / 4 / t + c) (-(2 * r) / 4 / t) r := by
        refine ((((hasDerivAt_pow 2 r).neg.div_const 4).div_const t).add_const c).congr_deriv ?_
        norm_num
      refine (((h2.exp.div_const 4).div_const π).div_const t).congr_deriv ?_
      field_simp
      ring
    by_cases hno : no = 1
    · simp only [if_pos hno]
      exact h1 _
    · simp only [if_neg hno, sub_eq_add_neg]
      exact h1 _

/-- The integrand of the derivative. -/
noncomputable def integrandD (r μ t : ℝ) : ℝ := -r * exp (-r ^ 2 / 4 / t - μ ^ 2 * t) / 8 / π / t ^ 2

theorem f2_eq {r μ t : ℝ} {no : ℕ} (hno : no ≠ 1) (ht : 1 / 10 ^ 8 ≤ t) : f2 r μ no t = integrandD r μ t := by
  unfold f2 integrandD
  rw [if_neg (not_lt.mpr (le_trans ht (le_abs_self t))), if_neg hno]

theorem integrandD_le (r μ : ℝ) {t : ℝ} (ht : 0 < t) : |integrandD r μ t| ≤ |r| / (8 * π) * t ^ (-2 : ℝ) := by
  unfold integrandD
  have h : exp (-r ^ 2 / 4 / t - μ ^ 2 * t) ≤ 1 := by
    rw [exp_le_one_iff]
    have h1 : 0 ≤ r ^ 2 / 4 / t := by positivity
    have h2 : 0 ≤ μ ^ 2 * t := by positivity
    rw [neg_div, neg_div]
    linarith
  have hp := pi_pos
  have ht2 : 0 < t ^ 2 := by positivity
  have e1 : |-r * exp (-r ^ 2 / 4 / t - μ ^ 2 * t) / 8 / π / t ^ 2| = |r| * exp (-r ^ 2 / 4 / t - μ ^ 2 * t) / (8 * π) * (t ^ 2)⁻¹ := by
    rw [abs_div, abs_div, abs_div, abs_mul, abs_neg, abs_of_pos (exp_pos _), abs_of_pos (show (0 : ℝ) < 8 by norm_num), abs_of_pos hp,
      abs_of_pos ht2, div_div _ 8 π]
    rfl
  rw [e1, rpow_neg ht.le, rpow_two]
  refine mul_le_mul_of_nonneg_right ?_ (inv_nonneg.2 ht2.le)
  apply div_le_div_of_nonneg_right _ (mul_nonneg (by norm_num) hp.le)
  nlinarith [abs_nonneg r]

theorem stopsD {r μ t : ℝ} {no : ℕ} (hno : no ≠ 1) (ht : 1 ≤ t) (hr : 10 ^ 5 * |r| ≤ t) : |f2 r μ no t| ≤ (eps : ℝ) := by
  rw [f2_eq hno (le_trans (by norm_num) ht)]
  refine (integrandD_le r μ (by linarith)).trans ?_
  have hp := pi_gt_three
  rw [rpow_neg (by linarith), rpow_two, eps_value, div_mul_eq_mul_div, div_le_iff₀ (by positivity), ← div_eq_mul_inv,
    div_le_iff₀ (by positivity)]
  have h2 : |r| ≤ t ^ 2 / 10 ^ 5 := by
    rw [le_div_iff₀ (by norm_num)]
    nlinarith
  refine h2.trans ?_
  have : 0 ≤ t ^ 2 := sq_nonneg t
  rw [div_le_iff₀ (by norm_num)]
  nlinarith

theorem upperD_from {r μ : ℝ} {no : ℕ} (hno : no ≠ 1) (k : ℕ) (p : ℝ) (hp : 1 ≤ p) (hk : 10 ^ 5 * |r| ≤ p + 100 * k) :
    ∃ (q : ℝ) (turns : ℕ), (∀ fuel : ℕ, turns ≤ fuel → upperD r μ no fuel p = some q) ∧ |f2 r μ no q| ≤ (eps : ℝ) ∧ p ≤ q := by
  induction k generalizing p with
  | zero =>
    have h := stopsD (r := r) (μ := μ) hno (t := p) hp (by simpa using hk)
    refine ⟨p, 1, fun fuel hf => ?_, h, le_refl _⟩
    obtain ⟨f, rfl⟩ : ∃ f, fuel = f + 1 := ⟨fuel - 1, by omega⟩
    simp only [upperD]
    rw [if_neg (not_lt.mpr h)]
  | succ k ih =>
    by_cases h : |f2 r μ no p| ≤ (eps : ℝ)
    · refine ⟨p, 1, fun fuel hf => ?_, h, le_refl _⟩
      obtain ⟨f, rfl⟩ : ∃ f, fuel = f + 1 := ⟨fuel - 1, by omega⟩
      simp only [upperD]
      rw [if_neg (not_lt.mpr h)]
    · obtain ⟨q, turns, h1, h2, h3⟩ := ih (p + 100) (by linarith) (by push_cast at hk; linarith)
      refine ⟨q, turns + 1, fun fuel hf => ?_, h2, by linarith⟩
      obtain ⟨f, rfl⟩ : ∃ f, fuel = f + 1 := ⟨fuel - 1, by omega⟩
      simp only [upperD]
      rw [if_pos (not_le.mp h)]
      exact h1 f (by omega)

/-- **C142.** The search of the end of the interval ends. -/
theorem upperD_ends (r μ pa : ℝ) {no : ℕ} (hno : no ≠ 1) :
    ∃ (q : ℝ) (turns : ℕ), (∀ fuel : ℕ, turns ≤ fuel → upperD r μ no fuel (pa ^ 2 / 4 + 100) = some q) ∧ |f2 r μ no q| ≤ (eps : ℝ) ∧
      pa ^ 2 / 4 + 100 ≤ q := by
  obtain ⟨k, hk⟩ := exists_nat_ge (10 ^ 5 * |r|)
  have := sq_nonneg pa
  refine upperD_from hno k _ (by linarith) ?_
  have : (0 : ℝ) ≤ k := Nat.cast_nonneg k
  linarith

theorem integrandD_integrable (r μ : ℝ) {a : ℝ} (ha : 0 < a) : IntegrableOn (integrandD r μ) (Ioi a) := by
  have h := (integrableOn_Ioi_rpow_of_lt (by norm_num : (-2 : ℝ) < -1) ha).const_mul (|r| / (8 * π))
  refine Integrable.mono' h ?_ ?_
  · refine ContinuousOn.aestronglyMeasurable ?_ measurableSet_Ioi
    unfold integrandD
    have hn : ∀ t ∈ Ioi a, t ≠ 0 := fun t ht => (ha.trans ht).ne'
    refine ContinuousOn.div (ContinuousOn.div_const (ContinuousOn.div_const (ContinuousOn.mul continuousOn_const ?_) 8) π) (by fun_prop)
      fun t ht => pow_ne_zero 2 (hn t ht)
    exact ContinuousOn.rexp (ContinuousOn.sub (ContinuousOn.div (by fun_prop) (by fun_prop) hn) (by fun_prop))
  · refine (ae_restrict_iff' measurableSet_Ioi).mpr (Eventually.of_forall fun t ht => ?_)
    rw [Real.norm_eq_abs]
    exact integrandD_le r μ (ha.trans ht)

/-- What is left out beyond `q`. -/
theorem leftOutD_le (r μ : ℝ) {q : ℝ} (hq : 0 < q) : |∫ t in Ioi q, integrandD r μ t| ≤ |r| / (8 * π * q) := by
  have hi := (integrableOn_Ioi_rpow_of_lt (by norm_num : (-2 : ℝ) < -1) hq).const_mul (|r| / (8 * π))
  have h : ‖∫ t in Ioi q, integrandD r μ t‖ ≤ ∫ t in Ioi q, |r| / (8 * π) * t ^ (-2 : ℝ) := by
    refine norm_integral_le_of_norm_le hi ?_
    refine (ae_restrict_iff' measurableSet_Ioi).mpr (Eventually.of_forall fun t ht => ?_)
    rw [Real.norm_eq_abs]
    exact integrandD_le r μ (hq.trans ht)
  rw [Real.norm_eq_abs] at h
  refine h.trans (le_of_eq ?_)
  rw [integral_const_mul, integral_Ioi_rpow_of_lt (by norm_num) hq]
  norm_num
  rw [rpow_neg_one]
  field_simp

/-- **C142.** Close to the vertical axis, where the code returns zero. -/
theorem dcoef_axis (quad : (ℝ → ℝ) → ℝ → ℝ → ℝ) (fuel no : ℕ) (r pa a μ : ℝ) (hpa : 0 < pa) (hr : |r| < (eps : ℝ)) :
    ∃ v, dcoef quad fuel r pa a μ no = some v ∧ |v - coefficientD pa μ r| ≤ 1 / (6 * 10 ^ 6 * pa ^ 2) := by
  refine ⟨0, by rw [dcoef, if_pos hr], ?_⟩
  rw [zero_sub, abs_neg]
  have h := leftOutD_le r μ (show 0 < pa ^ 2 / 4 by positivity)
  refine (show |coefficientD pa μ r| ≤ _ from h).trans ?_
  have hp := pi_gt_three
  rw [eps_value] at hr
  rw [div_le_div_iff₀ (by positivity) (by positivity)]
  have : 0 < pa ^ 2 := by positivity
  nlinarith

/-- **C142.** Where the code sums the series. -/
theorem dcoef_series (quad : (ℝ → ℝ) → ℝ → ℝ → ℝ) (no : ℕ) (r pa a μ : ℝ) (hpa : 0 < pa) (hμ : 0 < μ) (hr : (eps : ℝ) ≤ |r|) (ha : r / a ≤ 1) :
    ∃ v turns, (∀ fuel, turns ≤ fuel → dcoef quad fuel r pa a μ no = some v) ∧
      |v - coefficientD pa μ r| ≤ (1 / 10 ^ 6 + 5.2 / 10 ^ 7 * (2 * |r| / pa ^ 2) * exp ((r / pa) ^ 2)) / (4 * π) := by
  obtain ⟨v, turns, h1, h2⟩ := derivative_accuracy r pa μ hpa hμ
  refine ⟨v, turns, fun fuel hf => ?_, h2⟩
  rw [dcoef, if_neg hr.not_gt, if_pos ha, h1 fuel hf]

/-- **C142.** Where the code uses a quadrature, of error `δ`. -/
theorem dcoef_quadrature (quad : (ℝ → ℝ) → ℝ → ℝ → ℝ) (r pa a μ δ : ℝ) (hpa : 2 / 10 ^ 4 ≤ pa) {no : ℕ} (hno : no ≠ 1) (hr : (eps : ℝ) ≤ |r|)
    (ha : 1 < r / a)
    (hquad : ∀ q : ℝ, pa ^ 2 / 4 ≤ q → |quad (f2 r μ no) (pa ^ 2 / 4) q - ∫ t in (pa ^ 2 / 4)..q, f2 r μ no t| ≤ δ) :
    ∃ v turns, (∀ fuel, turns ≤ fuel → dcoef quad fuel r pa a μ no = some v) ∧
      |v - coefficientD pa μ r| ≤ δ + |r| / (800 * π) := by
  obtain ⟨q, turns, h1, _, h3⟩ := upperD_ends r μ pa hno
  have hpa0 : 0 < pa := lt_of_lt_of_le (by norm_num) hpa
  have h8 : 1 / 10 ^ 8 ≤ pa ^ 2 / 4 := by
    have := pow_le_pow_left₀ (by norm_num) hpa 2
    norm_num at this ⊢
    linarith
  have hc : 0 < pa ^ 2 / 4 := by positivity
  have hq : pa ^ 2 / 4 ≤ q := by linarith
  refine ⟨quad (f2 r μ no) (pa ^ 2 / 4) q, turns, fun fuel hf => by
    rw [dcoef, if_neg hr.not_gt, if_neg ha.not_ge, dcoefQuad, h1 fuel hf]; rfl, ?_⟩
  have e : ∫ t in (pa ^ 2 / 4)..q, f2 r μ no t = ∫ t in (pa ^ 2 / 4)..q, integrandD r μ t := by
    refine intervalIntegral.integral_congr fun t ht => ?_
    rw [uIcc_of_le hq] at ht
    exact f2_eq hno (le_trans h8 ht.1)
  have hs : coefficientD pa μ r = (∫ t in (pa ^ 2 / 4)..q, f2 r μ no t) + ∫ t in Ioi q, integrandD r μ t := by
    rw [e, intervalIntegral.integral_interval_add_Ioi (integrandD_integrable r μ hc) (integrandD_integrable r μ (lt_of_lt_of_le hc hq))]
    rfl
  have h4 := hquad q hq
  have h5 := leftOutD_le r μ (lt_of_lt_of_le hc hq)
  have h6 : |r| / (8 * π * q) ≤ |r| / (800 * π) := by
    have hp := pi_pos
    refine div_le_div_of_nonneg_left (abs_nonneg r) (by positivity) ?_
    nlinarith
  rw [hs]
  rw [abs_le] at h4 h5 ⊢
  constructor <;> linarith [h4.1, h4.2, h5.1, h5.2]

/-- **C142.** The parameter `A` has no unit, but it is compared with the distance: with another unit of length (`PA` and the wavenumber follow), the same problem is solved
by the other method. -/
theorem dcoef_units_violated (quad : (ℝ → ℝ) → ℝ → ℝ → ℝ) (fuel no : ℕ) (r pa a μ : ℝ) (ha : 0 < a) (hr : (eps : ℝ) ≤ r) (h : r / a ≤ 1) :
    dcoef quad fuel r pa a μ no = dsam fuel r pa μ ∧ ∃ c : ℝ, 1 ≤ c ∧
      dcoef quad fuel (c * r) (c * pa) a (μ / c) no = dcoefQuad quad fuel (c * r) (c * pa) (μ / c) no := by
  have he : (0 : ℝ) < eps := by
    rw [eps_value]
    norm_num
  have hr0 : 0 < r := he.trans_le hr
  have har : 0 < a / r := by positivity
  have hl : 1 ≤ a / r + 1 := by linarith
  refine ⟨?_, a / r + 1, hl, ?_⟩
  · rw [dcoef, if_neg (not_lt.2 (hr.trans (le_abs_self r))), if_pos h]
  · have h1 : (eps : ℝ) ≤ |(a / r + 1) * r| := by
      rw [abs_of_pos (by positivity)]
      nlinarith
    rw [dcoef, if_neg h1.not_gt, if_neg]
    rw [not_le, lt_div_iff₀ ha, add_mul, div_mul_cancel₀ _ hr0.ne']
    linarith

/-- A quadrature that is exact meets the hypothesis of `dcoef_quadrature`, for a distance of two and a parameter of one. -/
example : ∃ quad : (ℝ → ℝ) → ℝ → ℝ → ℝ, (∀ q : ℝ, (1 : ℝ) ^ 2 / 4 ≤ q →
      |quad (f2 2 1 3) (1 ^ 2 / 4) q - ∫ t in ((1 : ℝ) ^ 2 / 4)..q, f2 2 1 3 t| ≤ 0) ∧ (eps : ℝ) ≤ |(2 : ℝ)| ∧ (1 : ℝ) < 2 / 1 := by
  refine ⟨fun f a b => ∫ t in a..b, f t, fun q _ => by simp, ?_, by norm_num⟩
  rw [eps_value]
  norm_num

/-- Distances for the two other cases. -/
example : |(0 : ℝ)| < (eps : ℝ) ∧ (eps : ℝ) ≤ (1 / 2 : ℝ) ∧ (1 / 2 : ℝ) / 1 ≤ 1 := by
  rw [eps_value]
  norm_num

end Verif.Green.Linton
