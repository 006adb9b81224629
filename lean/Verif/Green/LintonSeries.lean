/-
Lemmas on the series of the method of Linton: the common loop, the remainder of the exponential series and the improper
integrals.
-/
import Verif.Green.LintonModel
import Verif.Green.ExpIntProps
import Mathlib.MeasureTheory.Integral.IntegralEqImproper
import Mathlib.Analysis.Calculus.ParametricIntegral

namespace Verif.Green.Linton

open Real Filter Set MeasureTheory Verif.Green.ExpInt
open scoped Nat Topology

/-! ### The loop -/

/-- The terms of the loop. -/
noncomputable def termAt (term : ℕ → ℝ → ℝ → ℝ) (n : ℕ) : ℝ := term n ((-1) ^ n) (n ! : ℝ)

theorem sumLoop_step (term : ℕ → ℝ → ℝ → ℝ) (fuel n : ℕ) (rm acc : ℝ) (h : (eps : ℝ) < |rm|) :
    sumLoop term (fuel + 1) n ((-1) ^ n) (n ! : ℝ) rm acc
      = sumLoop term fuel (n + 1) ((-1) ^ (n + 1)) ((n + 1)! : ℝ) (termAt term n) (acc + termAt term n) := by
  simp only [sumLoop, if_pos h, termAt]
  rw [Nat.factorial_succ, pow_succ]
  push_cast
  rw [mul_neg_one, mul_comm ((n : ℝ) + 1)]

/-- The loop stops with the first term below the tolerance. -/
theorem sumLoop_first (term : ℕ → ℝ → ℝ → ℝ) (d n : ℕ) (rm acc : ℝ) (h : (eps : ℝ) < |rm|)
    (hb : ∀ j, j < d → (eps : ℝ) < |termAt term (n + j)|) (hs : |termAt term (n + d)| ≤ eps) (fuel : ℕ) :
    sumLoop term (fuel + d + 2) n ((-1) ^ n) (n ! : ℝ) rm acc
      = some (acc + ∑ j ∈ Finset.range (d + 1), termAt term (n + j)) := by
  induction d generalizing n rm acc with
  | zero =>
    rw [show fuel + 0 + 2 = fuel + 1 + 1 from rfl, sumLoop_step _ _ _ _ _ h]
    simp only [sumLoop, add_zero] at hs ⊢
    rw [if_neg (not_lt.mpr hs)]
    simp
  | succ d ih =>
    rw [show fuel + (d + 1) + 2 = (fuel + d + 2) + 1 by ring, sumLoop_step _ _ _ _ _ h]
    have h0 := hb 0 (by omega)
    rw [add_zero] at h0
    rw [ih (n + 1) _ _ h0 (fun j hj => by
        have := hb (j + 1) (by omega)
        rwa [show n + (j + 1) = n + 1 + j by ring] at this) (by
        rwa [show n + (d + 1) = n + 1 + d by ring] at hs)]
    rw [Finset.sum_range_succ' _ (d + 1)]
    congr 1
    rw [add_zero, add_assoc, add_comm (∑ k ∈ Finset.range (d + 1), termAt term (n + (k + 1)))]
    congr 2
    exact Finset.sum_congr rfl fun j _ => by rw [show n + (j + 1) = n + 1 + j by ring]

/-- When the terms tend to zero, the loop ends, whatever the bound on the number of turns, provided it is large enough. -/
theorem sumLoop_ends (term : ℕ → ℝ → ℝ → ℝ) (n : ℕ) (acc : ℝ) (h : Tendsto (termAt term) atTop (𝓝 0)) :
    ∃ d, (∀ j, j < d → (eps : ℝ) < |termAt term (n + j)|) ∧ |termAt term (n + d)| ≤ eps
      ∧ ∀ fuel, d + 2 ≤ fuel → sumLoop term fuel n ((-1) ^ n) (n ! : ℝ) 100 acc
        = some (acc + ∑ j ∈ Finset.range (d + 1), termAt term (n + j)) := by
  classical
  have he : (0 : ℝ) < eps := by norm_num [eps]
  have hex : ∃ d, |termAt term (n + d)| ≤ eps := by
    obtain ⟨N, hN⟩ := Metric.tendsto_atTop.mp h eps he
    refine ⟨N, ?_⟩
    have := hN (n + N) (by omega)
    rw [Real.dist_eq, sub_zero] at this
    exact this.le
  refine ⟨Nat.find hex, fun j hj => not_le.mp (Nat.find_min hex hj), Nat.find_spec hex, fun fuel hf => ?_⟩
  obtain ⟨g, rfl⟩ := Nat.exists_eq_add_of_le hf
  rw [show Nat.find hex + 2 + g = g + Nat.find hex + 2 by ring]
  refine sumLoop_first term _ n 100 acc ?_ (fun j hj => not_le.mp (Nat.find_min hex hj)) (Nat.find_spec hex) g
  rw [abs_of_pos (by norm_num)]
  norm_num [eps]

/-! ### The exponential series -/

/-- The partial sums of the series of `exp (-u)`. -/
noncomputable def expSum (m : ℕ) (u : ℝ) : ℝ := ∑ k ∈ Finset.range (m + 1), (-u) ^ k / (k ! : ℝ)

theorem expSum_deriv (m : ℕ) (u : ℝ) : HasDerivAt (expSum (m + 1)) (-expSum m u) u := by
  induction m with
  | zero =>
    have e : expSum 1 = fun u => 1 + -u := by
      funext u; simp [expSum, Finset.sum_range_succ]
    rw [e]
    refine ((hasDerivAt_id u).neg.const_add 1).congr_deriv ?_
    simp [expSum]
  | succ m ih =>
    have e : expSum (m + 2) = fun u => expSum (m + 1) u + (-u) ^ (m + 2) / ((m + 2)! : ℝ) := by
      funext u; exact Finset.sum_range_succ _ _
    have e2 : expSum (m + 1) u = expSum m u + (-u) ^ (m + 1) / ((m + 1)! : ℝ) := Finset.sum_range_succ _ _
    show HasDerivAt (expSum (m + 2)) _ u
    rw [e]
    have h := (((hasDerivAt_id u).neg.pow (m + 2))).div_const ((m + 2)! : ℝ)
    refine (ih.add h).congr_deriv ?_
    rw [e2, Nat.factorial_succ (m + 1)]
    have : ((m + 1)! : ℝ) ≠ 0 := by positivity
    have : (m : ℝ) + 1 + 1 ≠ 0 := by positivity
    simp only [Pi.neg_apply, id_eq, show m + 2 - 1 = m + 1 from rfl]
    push_cast
    field_simp
    ring

theorem expSum_sign (m : ℕ) (u : ℝ) (hu : 0 ≤ u) : 0 ≤ (-1) ^ m * (expSum m u - exp (-u)) := by
  induction m generalizing u with
  | zero =>
    simp only [expSum, pow_zero, one_mul, Nat.zero_add, Finset.sum_range_one, Nat.factorial_zero, Nat.cast_one, div_one]
    have := exp_le_one_iff.mpr (show -u ≤ 0 by linarith)
    linarith
  | succ m ih =>
    have hd : ∀ t : ℝ, HasDerivAt (fun t => (-1) ^ (m + 1) * (expSum (m + 1) t - exp (-t)))
        ((-1) ^ m * (expSum m t - exp (-t))) t := by
      intro t
      have h1 : HasDerivAt (fun t : ℝ => exp (-t)) (-exp (-t)) t := by
        have := (hasDerivAt_id t).neg.exp
        simpa using this
      refine (((expSum_deriv m t).sub h1).const_mul _).congr_deriv ?_
      rw [pow_succ]
      ring
    have hmono : MonotoneOn (fun t => (-1) ^ (m + 1) * (expSum (m + 1) t - exp (-t))) (Ici 0) := by
      refine monotoneOn_of_deriv_nonneg (convex_Ici 0) ?_ ?_ ?_
      · exact fun t _ => (hd t).continuousAt.continuousWithinAt
      · exact fun t _ => (hd t).differentiableAt.differentiableWithinAt
      · intro t ht
        rw [interior_Ici] at ht
        rw [(hd t).deriv]
        exact ih t (le_of_lt ht)
    have := hmono self_mem_Ici hu hu
    have e0 : expSum (m + 1) 0 = 1 := by
      simp [expSum, Finset.sum_range_succ']
    simp only [e0, neg_zero, exp_zero, sub_self, mul_zero] at this
    exact this

/-- The remainder is at most the last term. -/
theorem expSum_close (m : ℕ) (u : ℝ) (hu : 0 ≤ u) : |expSum m u - exp (-u)| ≤ u ^ m / (m ! : ℝ) := by
  have h1 := expSum_sign m u hu
  have hup : (-1) ^ m * (expSum m u - exp (-u)) ≤ u ^ m / (m ! : ℝ) := by
    cases m with
    | zero =>
      simp only [expSum, pow_zero, one_mul, Nat.zero_add, Finset.sum_range_one, Nat.factorial_zero, Nat.cast_one, div_one]
      have := exp_pos (-u)
      linarith
    | succ m =>
      have h2 := expSum_sign m u hu
      have e2 : expSum (m + 1) u = expSum m u + (-u) ^ (m + 1) / ((m + 1)! : ℝ) := Finset.sum_range_succ _ _
      have e3 : (-1 : ℝ) ^ (m + 1) * (-u) ^ (m + 1) = u ^ (m + 1) := by
        rw [← mul_pow]; ring
      have : (-1) ^ (m + 1) * (expSum (m + 1) u - exp (-u))
          = -((-1) ^ m * (expSum m u - exp (-u))) + (-1) ^ (m + 1) * (-u) ^ (m + 1) / ((m + 1)! : ℝ) := by
        rw [e2, pow_succ]; ring
      rw [this, e3]
      linarith
  have e : |expSum m u - exp (-u)| = |(-1) ^ m * (expSum m u - exp (-u))| := by
    rw [abs_mul, abs_pow, abs_neg, abs_one, one_pow, one_mul]
  rw [e, abs_of_nonneg h1]
  exact hup

/-! ### The integrals -/

/-- The integral of `exp (-(x t) - ρ / t) / t ^ p` over the `t` above 1. -/
noncomputable def lam (p : ℕ) (x ρ : ℝ) : ℝ := ∫ t in Ioi (1 : ℝ), exp (-(x * t)) / t ^ p * exp (-(ρ / t))

/-- The terms of its series. -/
noncomputable def lamTerm (p : ℕ) (x ρ : ℝ) (k : ℕ) : ℝ := (-ρ) ^ k / (k ! : ℝ) * expInt (k + p) x

theorem lam_integrable (p : ℕ) (x ρ : ℝ) (hx : 0 < x) (hρ : 0 ≤ ρ) :
    IntegrableOn (fun t => exp (-(x * t)) / t ^ p * exp (-(ρ / t))) (Ioi (1 : ℝ)) := by
  refine Integrable.mono' (integrable_expInt p x hx) ?_ ?_
  · refine (ContinuousOn.aestronglyMeasurable ?_ measurableSet_Ioi)
    refine ContinuousOn.mul (ContinuousOn.div (by fun_prop) (by fun_prop) fun t ht => ?_)
      (ContinuousOn.rexp (ContinuousOn.neg (ContinuousOn.div (by fun_prop) (by fun_prop) fun t ht => ?_)))
    all_goals
      have ht : (1 : ℝ) < t := ht
      positivity
  · refine (ae_restrict_iff' measurableSet_Ioi).mpr (Eventually.of_forall fun t ht => ?_)
    have ht : (1 : ℝ) < t := ht
    rw [Real.norm_eq_abs, abs_of_nonneg (by positivity)]
    refine mul_le_of_le_one_right (by positivity) (exp_le_one_iff.mpr ?_)
    have : 0 ≤ ρ / t := by positivity
    linarith

/-- The partial sums of the series are integrals of partial sums. -/
theorem lam_sum (p : ℕ) (x ρ : ℝ) (hx : 0 < x) (m : ℕ) :
    IntegrableOn (fun t => exp (-(x * t)) / t ^ p * expSum m (ρ / t)) (Ioi (1 : ℝ))
    ∧ (∫ t in Ioi (1 : ℝ), exp (-(x * t)) / t ^ p * expSum m (ρ / t))
      = ∑ k ∈ Finset.range (m + 1), lamTerm p x ρ k := by
  have e : ∀ t ∈ Ioi (1 : ℝ), exp (-(x * t)) / t ^ p * expSum m (ρ / t)
      = ∑ k ∈ Finset.range (m + 1), (-ρ) ^ k / (k ! : ℝ) * (exp (-(x * t)) / t ^ (k + p)) := by
    intro t ht
    have ht : (1 : ℝ) < t := ht
    have ht0 : t ≠ 0 := by positivity
    unfold expSum
    rw [Finset.mul_sum]
    refine Finset.sum_congr rfl fun k _ => ?_
    rw [← neg_div, div_pow, pow_add]
    field_simp
  have hi : ∀ k ∈ Finset.range (m + 1),
      Integrable (fun t => (-ρ) ^ k / (k ! : ℝ) * (exp (-(x * t)) / t ^ (k + p))) (volume.restrict (Ioi (1 : ℝ))) :=
    fun k _ => (integrable_expInt (k + p) x hx).const_mul _
  constructor
  · refine (integrableOn_congr_fun e measurableSet_Ioi).mpr ?_
    exact integrable_finset_sum _ hi
  · rw [setIntegral_congr_fun measurableSet_Ioi e, integral_finset_sum _ hi]
    refine Finset.sum_congr rfl fun k _ => ?_
    rw [integral_const_mul]
    rfl

/-- The remainder of the series is at most its last term. -/
theorem lam_close (p : ℕ) (x ρ : ℝ) (hx : 0 < x) (hρ : 0 ≤ ρ) (m : ℕ) :
    |(∑ k ∈ Finset.range (m + 1), lamTerm p x ρ k) - lam p x ρ| ≤ |lamTerm p x ρ m| := by
  obtain ⟨h1, h2⟩ := lam_sum p x ρ hx m
  rw [← h2]
  unfold lam
  rw [← integral_sub (f := fun t => exp (-(x * t)) / t ^ p * expSum m (ρ / t))
    (g := fun t => exp (-(x * t)) / t ^ p * exp (-(ρ / t))) h1 (lam_integrable p x ρ hx hρ)]
  have hb : |lamTerm p x ρ m| = ∫ t in Ioi (1 : ℝ), ρ ^ m / (m ! : ℝ) * (exp (-(x * t)) / t ^ (m + p)) := by
    rw [integral_const_mul]
    unfold lamTerm
    rw [abs_mul, abs_div, abs_pow, abs_neg, abs_of_nonneg hρ, Nat.abs_cast, abs_of_nonneg (expInt_nonneg _ _)]
    rfl
  rw [hb, ← Real.norm_eq_abs]
  refine norm_integral_le_of_norm_le ((integrable_expInt (m + p) x hx).const_mul _) ?_
  refine (ae_restrict_iff' measurableSet_Ioi).mpr (Eventually.of_forall fun t ht => ?_)
  have ht : (1 : ℝ) < t := ht
  have ht0 : 0 < t := by linarith
  have hc := expSum_close m (ρ / t) (by positivity)
  rw [Real.norm_eq_abs, ← mul_sub, abs_mul, abs_of_nonneg (by positivity)]
  calc exp (-(x * t)) / t ^ p * |expSum m (ρ / t) - exp (-(ρ / t))|
      ≤ exp (-(x * t)) / t ^ p * ((ρ / t) ^ m / (m ! : ℝ)) := mul_le_mul_of_nonneg_left hc (by positivity)
    _ = _ := by
      rw [div_pow, pow_add]
      field_simp

/-- The terms computed by the code. -/
noncomputable def codeTerm (p : ℕ) (x ρ : ℝ) (k : ℕ) : ℝ := (-ρ) ^ k / (k ! : ℝ) * enxa (k + p) x

theorem codeTerm_close (p : ℕ) (x ρ : ℝ) (hx : 0 < x) (hρ : 0 ≤ ρ) (k : ℕ) :
    |codeTerm p x ρ k - lamTerm p x ρ k| ≤ ρ ^ k / (k ! : ℝ) * (2.6 / 10 ^ 7) := by
  unfold codeTerm lamTerm
  rw [← mul_sub, abs_mul, abs_div, abs_pow, abs_neg, abs_of_nonneg hρ, Nat.abs_cast]
  exact mul_le_mul_of_nonneg_left (any_order (k + p) x hx) (by positivity)

/-- A sum of computed terms, stopped anywhere. -/
theorem code_close (p : ℕ) (x ρ : ℝ) (hx : 0 < x) (hρ : 0 ≤ ρ) (m : ℕ) :
    |(∑ k ∈ Finset.range (m + 1), codeTerm p x ρ k) - lam p x ρ|
      ≤ |codeTerm p x ρ m| + 5.2 / 10 ^ 7 * exp ρ := by
  have h1 := lam_close p x ρ hx hρ m
  have h2 : |(∑ k ∈ Finset.range (m + 1), codeTerm p x ρ k) - ∑ k ∈ Finset.range (m + 1), lamTerm p x ρ k|
      ≤ exp ρ * (2.6 / 10 ^ 7) := by
    rw [← Finset.sum_sub_distrib]
    refine (Finset.abs_sum_le_sum_abs _ _).trans ?_
    refine (Finset.sum_le_sum fun k _ => codeTerm_close p x ρ hx hρ k).trans ?_
    rw [← Finset.sum_mul]
    exact mul_le_mul_of_nonneg_right (Real.sum_le_exp_of_nonneg hρ (m + 1)) (by norm_num)
  have h3 := codeTerm_close p x ρ hx hρ m
  have h4 : ρ ^ m / (m ! : ℝ) ≤ exp ρ := Real.pow_div_factorial_le_exp ρ hρ m
  have h5 : ρ ^ m / (m ! : ℝ) * (2.6 / 10 ^ 7) ≤ exp ρ * (2.6 / 10 ^ 7) := mul_le_mul_of_nonneg_right h4 (by norm_num)
  have h6 : |lamTerm p x ρ m| ≤ |codeTerm p x ρ m| + |codeTerm p x ρ m - lamTerm p x ρ m| := by
    have := abs_sub_abs_le_abs_sub (lamTerm p x ρ m) (codeTerm p x ρ m)
    rw [abs_sub_comm] at this
    linarith
  have h7 := abs_sub_le (∑ k ∈ Finset.range (m + 1), codeTerm p x ρ k) (∑ k ∈ Finset.range (m + 1), lamTerm p x ρ k)
    (lam p x ρ)
  norm_num at *
  linarith

theorem expInt_le (n : ℕ) (x : ℝ) (hx : 0 < x) : expInt n x ≤ 1 / x := by
  have h0 : expInt n x ≤ expInt 0 x := by
    unfold expInt
    refine setIntegral_mono_on (integrable_expInt n x hx) (integrable_expInt 0 x hx) measurableSet_Ioi fun t ht => ?_
    have ht : (1 : ℝ) < t := ht
    exact div_le_div_of_nonneg_left (exp_pos _).le (by positivity) (pow_le_pow_right₀ ht.le (by omega))
  rw [expInt_zero x hx] at h0
  refine h0.trans (div_le_div_of_nonneg_right (exp_le_one_iff.mpr (by linarith)) hx.le)

/-- The computed terms tend to zero. -/
theorem codeTerm_tendsto (p : ℕ) (x ρ : ℝ) (hx : 0 < x) (hρ : 0 ≤ ρ) :
    Tendsto (codeTerm p x ρ) atTop (𝓝 0) := by
  have h := (FloorSemiring.tendsto_pow_div_factorial_atTop ρ).mul_const (1 / x + 2.6 / 10 ^ 7)
  rw [zero_mul] at h
  refine squeeze_zero_norm (fun k => ?_) h
  rw [Real.norm_eq_abs]
  unfold codeTerm
  rw [abs_mul, abs_div, abs_pow, abs_neg, abs_of_nonneg hρ, Nat.abs_cast]
  refine mul_le_mul_of_nonneg_left ?_ (by positivity)
  have h1 : |enxa (k + p) x - expInt (k + p) x| ≤ 2.6 / 10 ^ 7 := any_order (k + p) x hx
  have h2 := expInt_le (k + p) x hx
  have h3 := expInt_nonneg (k + p) x
  have h4 := abs_sub_abs_le_abs_sub (enxa (k + p) x) (expInt (k + p) x)
  rw [abs_of_nonneg h3] at h4
  linarith

/-! ### Change of variable -/

/-- From the variable of the integrals of the code. -/
theorem integral_scale (p : ℕ) (r pa μ : ℝ) (hpa : 0 < pa) :
    (∫ t in Ioi (pa ^ 2 / 4), exp (-r ^ 2 / 4 / t - μ ^ 2 * t) / t ^ (p + 1))
      = (4 / pa ^ 2) ^ p * lam (p + 1) ((μ * pa / 2) ^ 2) ((r / pa) ^ 2) := by
  have hc : 0 < pa ^ 2 / 4 := by positivity
  have h := integral_comp_mul_left_Ioi (fun t => exp (-r ^ 2 / 4 / t - μ ^ 2 * t) / t ^ (p + 1)) 1 hc
  rw [mul_one, smul_eq_mul] at h
  have e : (∫ t in Ioi (pa ^ 2 / 4), exp (-r ^ 2 / 4 / t - μ ^ 2 * t) / t ^ (p + 1))
      = pa ^ 2 / 4 * ∫ s in Ioi (1 : ℝ), exp (-r ^ 2 / 4 / (pa ^ 2 / 4 * s) - μ ^ 2 * (pa ^ 2 / 4 * s)) / (pa ^ 2 / 4 * s) ^ (p + 1) := by
    rw [h, ← mul_assoc, mul_inv_cancel₀ hc.ne', one_mul]
  rw [e, ← integral_const_mul]
  unfold lam
  rw [← integral_const_mul]
  refine setIntegral_congr_fun measurableSet_Ioi fun s hs => ?_
  have hs : (1 : ℝ) < s := hs
  have hs0 : s ≠ 0 := by positivity
  show pa ^ 2 / 4 * (exp (-r ^ 2 / 4 / (pa ^ 2 / 4 * s) - μ ^ 2 * (pa ^ 2 / 4 * s)) / (pa ^ 2 / 4 * s) ^ (p + 1))
    = (4 / pa ^ 2) ^ p * (exp (-((μ * pa / 2) ^ 2 * s)) / s ^ (p + 1) * exp (-((r / pa) ^ 2 / s)))
  rw [div_mul_eq_mul_div (exp _), ← exp_add]
  have e2 : -r ^ 2 / 4 / (pa ^ 2 / 4 * s) - μ ^ 2 * (pa ^ 2 / 4 * s) = -((μ * pa / 2) ^ 2 * s) + -((r / pa) ^ 2 / s) := by
    field_simp
    ring
  rw [e2, mul_pow, pow_succ (pa ^ 2 / 4), show (4 / pa ^ 2 : ℝ) = (pa ^ 2 / 4)⁻¹ by rw [inv_div], inv_pow]
  field_simp

end Verif.Green.Linton
