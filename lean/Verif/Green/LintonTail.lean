import Verif.Green.LintonTailModel
import Verif.Green.LintonProps

/-!
# The end of the interval of the expansion coefficients

The integral goes to infinity and the code cuts it where the integrand is below the tolerance. The part that is left out is not below
the tolerance.
-/

namespace Verif.Green.Linton

open Real Filter Set MeasureTheory
open scoped Topology

/-- The integrand. -/
noncomputable def integrand (r μ t : ℝ) : ℝ := exp (-r ^ 2 / 4 / t - μ ^ 2 * t) / 4 / π / t

theorem f1_eq {r μ t : ℝ} {no : ℕ} (hno : no ≠ 1) (ht : 1 / 10 ^ 8 ≤ t) : f1 r μ no t = integrand r μ t := by
  unfold f1 integrand
  rw [if_neg (not_lt.mpr (le_trans ht (le_abs_self t))), if_neg hno]

theorem integrand_nonneg (r μ : ℝ) {t : ℝ} (ht : 0 < t) : 0 ≤ integrand r μ t := by unfold integrand; positivity

theorem eps_value : (eps : ℝ) = 8796093 / 2 ^ 43 := by unfold eps; push_cast; ring

theorem integrand_le (r μ : ℝ) {t : ℝ} (ht : 0 < t) : integrand r μ t ≤ 1 / (4 * π * t) := by
  unfold integrand
  rw [div_div, div_div]
  have h : exp (-r ^ 2 / 4 / t - μ ^ 2 * t) ≤ 1 := by
    rw [exp_le_one_iff]
    have h1 : 0 ≤ r ^ 2 / 4 / t := by positivity
    have h2 : 0 ≤ μ ^ 2 * t := by positivity
    rw [neg_div, neg_div]
    linarith
  rw [mul_assoc]
  gcongr

theorem stops {r μ t : ℝ} {no : ℕ} (hno : no ≠ 1) (ht : 79600 ≤ t) : |f1 r μ no t| ≤ (eps : ℝ) := by
  rw [f1_eq hno (le_trans (by norm_num) ht), abs_of_nonneg (integrand_nonneg r μ (by linarith))]
  refine le_trans (integrand_le r μ (by linarith)) ?_
  rw [eps_value, div_le_iff₀ (by have := pi_pos; nlinarith)]
  have := pi_gt_d6
  nlinarith

theorem upper_from {r μ : ℝ} {no : ℕ} (hno : no ≠ 1) (k : ℕ) (p : ℝ) (hk : 79600 ≤ p + 100 * k) :
    ∃ (q : ℝ) (turns : ℕ), (∀ fuel : ℕ, turns ≤ fuel → upper r μ no fuel p = some q) ∧ |f1 r μ no q| ≤ (eps : ℝ) ∧
      p ≤ q ∧ q ≤ max p 79700 := by
  induction k generalizing p with
  | zero =>
    have h := stops (r := r) (μ := μ) hno (t := p) (by simpa using hk)
    refine ⟨p, 1, fun fuel hf => ?_, h, le_refl _, le_max_left _ _⟩
    obtain ⟨f, rfl⟩ : ∃ f, fuel = f + 1 := ⟨fuel - 1, by omega⟩
    simp only [upper]
    rw [if_neg (not_lt.mpr h)]
  | succ k ih =>
    by_cases h : |f1 r μ no p| ≤ (eps : ℝ)
    · refine ⟨p, 1, fun fuel hf => ?_, h, le_refl _, le_max_left _ _⟩
      obtain ⟨f, rfl⟩ : ∃ f, fuel = f + 1 := ⟨fuel - 1, by omega⟩
      simp only [upper]
      rw [if_neg (not_lt.mpr h)]
    · obtain ⟨q, turns, h1, h2, h3, h4⟩ := ih (p + 100) (by push_cast at hk; linarith)
      have hp : p < 79600 := by
        by_contra hc
        exact h (stops hno (not_lt.mp hc))
      refine ⟨q, turns + 1, fun fuel hf => ?_, h2, by linarith, le_trans h4 ?_⟩
      · obtain ⟨f, rfl⟩ : ∃ f, fuel = f + 1 := ⟨fuel - 1, by omega⟩
        simp only [upper]
        rw [if_pos (not_le.mp h)]
        exact h1 f (by omega)
      · exact max_le (le_trans (by linarith) (le_max_right _ _)) (le_max_right _ _)

/-- **C127.** The search of the end of the interval ends; the end is never far beyond 79700. -/
theorem upper_ends (r μ pa : ℝ) {no : ℕ} (hno : no ≠ 1) :
    ∃ (q : ℝ) (turns : ℕ), (∀ fuel : ℕ, turns ≤ fuel → upper r μ no fuel (pa ^ 2 / 4 + 100) = some q) ∧ |f1 r μ no q| ≤ (eps : ℝ) ∧
      pa ^ 2 / 4 + 100 ≤ q ∧ q ≤ max (pa ^ 2 / 4 + 100) 79700 :=
  upper_from hno 796 _ (by have := sq_nonneg pa; push_cast; linarith)

theorem integrand_integrable (r μ : ℝ) {a : ℝ} (ha : 0 < a) (hμ : 0 < μ) : IntegrableOn (integrand r μ) (Ioi a) := by
  have h := (coefficient_integrable 1 (2 * √a) μ (by positivity) hμ).div_const (4 * π)
  rw [mul_pow, sq_sqrt ha.le, show (2 : ℝ) ^ 2 * a / 4 = a by ring] at h
  refine Integrable.mono' h ?_ ?_
  · refine ContinuousOn.aestronglyMeasurable ?_ measurableSet_Ioi
    have hne : ∀ t ∈ Ioi a, t ≠ 0 := fun t ht => (ha.trans ht).ne'
    unfold integrand
    refine ContinuousOn.div (ContinuousOn.div_const (ContinuousOn.div_const (ContinuousOn.rexp ?_) _) _) continuousOn_id hne
    exact (continuousOn_const.div continuousOn_id hne).sub (by fun_prop)
  · refine (ae_restrict_iff' measurableSet_Ioi).mpr (Eventually.of_forall fun t ht => ?_)
    have ht0 : 0 < t := ha.trans ht
    rw [Real.norm_eq_abs, abs_of_nonneg (integrand_nonneg r μ ht0)]
    unfold integrand
    have h2 : exp (-r ^ 2 / 4 / t - μ ^ 2 * t) ≤ exp (-(μ ^ 2 * t)) := by
      rw [exp_le_exp]
      have h1 : 0 ≤ r ^ 2 / 4 / t := by positivity
      rw [neg_div, neg_div]
      linarith
    rw [pow_one]
    calc _ = exp (-r ^ 2 / 4 / t - μ ^ 2 * t) / t / (4 * π) := by ring
      _ ≤ _ := by gcongr

/-- The part that is left out. -/
noncomputable def leftOut (r μ q : ℝ) : ℝ := ∫ t in Ioi q, integrand r μ t

theorem coefficient_split (r pa μ q : ℝ) (hpa : 0 < pa) (hμ : 0 < μ) (hq : pa ^ 2 / 4 ≤ q) {no : ℕ} (hno : no ≠ 1)
    (h8 : 1 / 10 ^ 8 ≤ pa ^ 2 / 4) :
    coefficient pa μ r = (∫ t in (pa ^ 2 / 4)..q, f1 r μ no t) + leftOut r μ q := by
  have hc : 0 < pa ^ 2 / 4 := by positivity
  have e : ∫ t in (pa ^ 2 / 4)..q, f1 r μ no t = ∫ t in (pa ^ 2 / 4)..q, integrand r μ t := by
    refine intervalIntegral.integral_congr fun t ht => ?_
    rw [uIcc_of_le hq] at ht
    exact f1_eq hno (le_trans h8 ht.1)
  rw [e, leftOut, intervalIntegral.integral_interval_add_Ioi (integrand_integrable r μ hc hμ)
    (integrand_integrable r μ (lt_of_lt_of_le hc hq) hμ)]
  rfl

theorem leftOut_le (r : ℝ) {μ q : ℝ} (hμ : 0 < μ) (hq : 0 < q) :
    leftOut r μ q ≤ exp (-(μ ^ 2 * q)) / (4 * π * q * μ ^ 2) := by
  have hneg : -μ ^ 2 < 0 := by nlinarith [sq_pos_of_pos hμ]
  have hi : IntegrableOn (fun t => 1 / (4 * π * q) * exp (-μ ^ 2 * t)) (Ioi q) :=
    (integrableOn_exp_mul_Ioi hneg q).const_mul _
  have h : leftOut r μ q ≤ ∫ t in Ioi q, 1 / (4 * π * q) * exp (-μ ^ 2 * t) := by
    refine setIntegral_mono_on (integrand_integrable r μ hq hμ) hi measurableSet_Ioi fun t ht => ?_
    have ht' : q < t := ht
    have ht0 : 0 < t := hq.trans ht'
    unfold integrand
    have h2 : exp (-r ^ 2 / 4 / t - μ ^ 2 * t) ≤ exp (-μ ^ 2 * t) := by
      rw [exp_le_exp]
      have h1 : 0 ≤ r ^ 2 / 4 / t := by positivity
      rw [neg_div, neg_div]
      linarith
    calc exp (-r ^ 2 / 4 / t - μ ^ 2 * t) / 4 / π / t = 1 / (4 * π * t) * exp (-r ^ 2 / 4 / t - μ ^ 2 * t) := by
          field_simp
      _ ≤ 1 / (4 * π * q) * exp (-μ ^ 2 * t) := by
          refine mul_le_mul ?_ h2 (exp_pos _).le (by positivity)
          exact one_div_le_one_div_of_le (by positivity) (by gcongr)
  refine le_trans h (le_of_eq ?_)
  rw [integral_const_mul, integral_exp_mul_Ioi hneg]
  have : μ ^ 2 ≠ 0 := (sq_pos_of_pos hμ).ne'
  rw [neg_mul]
  field_simp

/-- **C127.** With a quadrature of error `δ`, the coefficient is right up to `δ` and the tolerance divided by the square of the wave
number of the mode. -/
theorem truncated_accuracy (quad : (ℝ → ℝ) → ℝ → ℝ → ℝ) (r pa μ δ : ℝ) (hpa : 2 / 10 ^ 4 ≤ pa) (hμ : 0 < μ) {no : ℕ} (hno : no ≠ 1)
    (hquad : ∀ q : ℝ, pa ^ 2 / 4 ≤ q → |quad (f1 r μ no) (pa ^ 2 / 4) q - ∫ t in (pa ^ 2 / 4)..q, f1 r μ no t| ≤ δ) :
    ∃ (v : ℝ) (turns : ℕ), (∀ fuel : ℕ, turns ≤ fuel → coefQuad quad fuel r pa μ no = some v) ∧
      |v - coefficient pa μ r| ≤ δ + exp (r ^ 2 / 400) / (10 ^ 6 * μ ^ 2) := by
  obtain ⟨q, turns, h1, h2, h3, _⟩ := upper_ends r μ pa hno
  have hpa0 : 0 < pa := lt_of_lt_of_le (by norm_num) hpa
  have h8 : 1 / 10 ^ 8 ≤ pa ^ 2 / 4 := by
    have := pow_le_pow_left₀ (by norm_num) hpa 2
    norm_num at this ⊢
    linarith
  have hq : pa ^ 2 / 4 ≤ q := by linarith
  have hq0 : 100 ≤ q := by have := sq_nonneg pa; linarith
  refine ⟨quad (f1 r μ no) (pa ^ 2 / 4) q, turns, fun fuel hf => by rw [coefQuad, h1 fuel hf]; rfl, ?_⟩
  rw [coefficient_split r pa μ q hpa0 hμ hq hno h8]
  have h4 := hquad q hq
  have h5 := leftOut_le r hμ (by linarith : 0 < q)
  have h6 : 0 ≤ leftOut r μ q :=
    setIntegral_nonneg measurableSet_Ioi fun t ht => integrand_nonneg r μ (lt_trans (by linarith) (mem_Ioi.mp ht))
  have h7 : exp (-(μ ^ 2 * q)) / (4 * π * q * μ ^ 2) ≤ exp (r ^ 2 / 400) / (10 ^ 6 * μ ^ 2) := by
    rw [f1_eq hno (le_trans (by norm_num) hq0), abs_of_nonneg (integrand_nonneg r μ (by linarith))] at h2
    have e1 : exp (-(μ ^ 2 * q)) / (4 * π * q) = integrand r μ q * exp (r ^ 2 / 4 / q) := by
      unfold integrand
      have : exp (-r ^ 2 / 4 / q - μ ^ 2 * q) * exp (r ^ 2 / 4 / q) = exp (-(μ ^ 2 * q)) := by
        rw [← exp_add]; congr 1; ring
      rw [← this]
      field_simp
    have e2 : exp (r ^ 2 / 4 / q) ≤ exp (r ^ 2 / 400) := by
      rw [exp_le_exp, div_div]
      exact div_le_div_of_nonneg_left (sq_nonneg r) (by norm_num) (by linarith)
    have e3 : exp (-(μ ^ 2 * q)) / (4 * π * q) ≤ 1 / 10 ^ 6 * exp (r ^ 2 / 400) := by
      rw [e1]
      refine mul_le_mul (le_trans h2 (by rw [eps_value]; norm_num)) e2 (exp_pos _).le (by norm_num)
    have e4 : exp (r ^ 2 / 400) / (10 ^ 6 * μ ^ 2) = 1 / 10 ^ 6 * exp (r ^ 2 / 400) / μ ^ 2 := by field_simp
    rw [e4, ← div_div]
    exact div_le_div_of_nonneg_right e3 (by positivity)
  rw [abs_le] at h4 ⊢
  constructor <;> linarith [h4.1, h4.2]

theorem leftOut_ge {r μ q : ℝ} (hμ : 0 < μ) (hq : 0 < q) (hq8 : q ≤ 80000) (hr : r ^ 2 ≤ 4 * 80000) (hμ8 : 80000 * μ ^ 2 ≤ 1) :
    exp (-2) / (4 * π) * log (1 / (80000 * μ ^ 2)) ≤ leftOut r μ q := by
  have hm2 : 0 < μ ^ 2 := sq_pos_of_pos hμ
  have hT : (80000 : ℝ) ≤ 1 / μ ^ 2 := by rw [le_div_iff₀ hm2]; exact hμ8
  have hint := integrand_integrable r μ hq hμ
  have h1 : ∫ t in Ioc (80000 : ℝ) (1 / μ ^ 2), integrand r μ t ≤ leftOut r μ q := by
    refine setIntegral_mono_set hint ?_ ?_
    · exact (ae_restrict_iff' measurableSet_Ioi).mpr (Eventually.of_forall fun t ht => integrand_nonneg r μ (hq.trans ht))
    · exact HasSubset.Subset.eventuallyLE (fun t ht => lt_of_le_of_lt hq8 ht.1)
  have hii : IntervalIntegrable (integrand r μ) volume 80000 (1 / μ ^ 2) := by
    rw [intervalIntegrable_iff_integrableOn_Ioc_of_le hT]
    exact hint.mono_set fun t ht => lt_of_le_of_lt hq8 ht.1
  have hiv : IntervalIntegrable (fun t : ℝ => exp (-2) / (4 * π) * t⁻¹) volume 80000 (1 / μ ^ 2) := by
    refine (ContinuousOn.intervalIntegrable ?_)
    rw [uIcc_of_le hT]
    refine continuousOn_const.mul (continuousOn_id.inv₀ fun t ht => ?_)
    have := ht.1
    simp only [id]
    linarith
  rw [← intervalIntegral.integral_of_le hT] at h1
  refine le_trans (le_trans (le_of_eq ?_) (intervalIntegral.integral_mono_on hT hiv hii fun t ht => ?_)) h1
  · rw [intervalIntegral.integral_const_mul, integral_inv_of_pos (by norm_num) (by positivity)]
    congr 2
    field_simp
  · have ht0 : 0 < t := lt_of_lt_of_le (by norm_num) ht.1
    unfold integrand
    have h2 : exp (-2) ≤ exp (-r ^ 2 / 4 / t - μ ^ 2 * t) := by
      rw [exp_le_exp]
      have a1 : r ^ 2 / 4 / t ≤ 1 := by
        rw [div_le_one ht0]
        have := ht.1
        linarith
      have a2 : μ ^ 2 * t ≤ 1 := by
        have := ht.2
        rw [le_div_iff₀ hm2] at this
        linarith
      rw [neg_div, neg_div]
      linarith
    calc exp (-2) / (4 * π) * t⁻¹ = exp (-2) / 4 / π / t := by field_simp
      _ ≤ _ := by gcongr

/-- **C127.** The tolerance is not an error bound, even with an exact quadrature: the error grows without limit when the wave number of
the mode decreases, that is when the water is deep. -/
theorem truncated_violated (r pa μ : ℝ) (hpa : 2 / 10 ^ 4 ≤ pa) (hpa2 : pa ≤ 500) (hμ : 0 < μ) (hr : r ^ 2 ≤ 4 * 80000)
    (hμ8 : 80000 * μ ^ 2 ≤ 1) {no : ℕ} (hno : no ≠ 1) :
    ∃ (v : ℝ) (turns : ℕ), (∀ fuel : ℕ, turns ≤ fuel → coefQuad (fun f a b => ∫ t in a..b, f t) fuel r pa μ no = some v) ∧
      v + exp (-2) / (4 * π) * log (1 / (80000 * μ ^ 2)) ≤ coefficient pa μ r := by
  obtain ⟨q, turns, h1, _, h3, h4⟩ := upper_ends r μ pa hno
  have hpa0 : 0 < pa := lt_of_lt_of_le (by norm_num) hpa
  have h8 : 1 / 10 ^ 8 ≤ pa ^ 2 / 4 := by
    have := pow_le_pow_left₀ (by norm_num) hpa 2
    norm_num at this ⊢
    linarith
  have hq8 : q ≤ 80000 := by
    refine le_trans h4 (max_le ?_ (by norm_num))
    nlinarith
  refine ⟨_, turns, fun fuel hf => by rw [coefQuad, h1 fuel hf]; rfl, ?_⟩
  rw [coefficient_split r pa μ q hpa0 hμ (by linarith) hno h8]
  have := leftOut_ge (r := r) hμ (by have := sq_nonneg pa; linarith : 0 < q) hq8 hr hμ8
  linarith

/-- At the wave number 0.001 (water of about two thousand metres), at ten centimetres of the axis, the error is at least
0.02, that is twenty thousand times the tolerance. -/
theorem truncated_example : ∃ (v : ℝ) (turns : ℕ),
    (∀ fuel : ℕ, turns ≤ fuel → coefQuad (fun f a b => ∫ t in a..b, f t) fuel 0.1 3 0.001 2 = some v) ∧
      v + 2 / 100 ≤ coefficient 3 0.001 0.1 := by
  obtain ⟨v, turns, h1, h2⟩ := truncated_violated 0.1 3 0.001 (by norm_num) (by norm_num) (by norm_num) (by norm_num) (by norm_num)
    (no := 2) (by norm_num)
  refine ⟨v, turns, h1, le_trans ?_ h2⟩
  have e : (1 : ℝ) / (80000 * 0.001 ^ 2) = 12.5 := by norm_num
  rw [e]
  have h3 : (2 : ℝ) ≤ log 12.5 := by
    rw [le_log_iff_exp_le (by norm_num)]
    have : exp 2 = exp 1 ^ 2 := by rw [← exp_nat_mul]; norm_num
    rw [this]
    have := exp_one_lt_d9
    have := exp_pos 1
    nlinarith
  have h4 : (1 : ℝ) / 7.4 ≤ exp (-2) := by
    rw [exp_neg, ← one_div]
    refine one_div_le_one_div_of_le (exp_pos _) ?_
    have : exp 2 = exp 1 ^ 2 := by rw [← exp_nat_mul]; norm_num
    rw [this]
    have := exp_one_lt_d9
    have := exp_pos 1
    nlinarith
  have h5 : (1 : ℝ) / 7.4 / (4 * 3.15) ≤ exp (-2) / (4 * π) := by
    have := pi_lt_d2
    have := pi_pos
    gcongr
  have h6 : (1 : ℝ) / 7.4 / (4 * 3.15) * 2 ≤ exp (-2) / (4 * π) * log 12.5 := mul_le_mul h5 h3 (by norm_num) (by positivity)
  refine le_trans ?_ (add_le_add_right h6 v)
  norm_num

/-- In shallow water the same rule is accurate: with a wave number of three per metre the error is below 2e-7. -/
example : ∃ (v : ℝ) (turns : ℕ), (∀ fuel : ℕ, turns ≤ fuel → coefQuad (fun f a b => ∫ t in a..b, f t) fuel 0.1 3 3 2 = some v) ∧
    |v - coefficient 3 3 0.1| ≤ 0 + exp (0.1 ^ 2 / 400) / (10 ^ 6 * 3 ^ 2) :=
  truncated_accuracy _ 0.1 3 3 0 (by norm_num) (by norm_num) (by norm_num) (fun q _ => by simp)

end Verif.Green.Linton
