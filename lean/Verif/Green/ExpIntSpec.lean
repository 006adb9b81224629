/-
The exponential integrals: their definition as integrals, their series with the constant of Euler, their derivatives and
the relation between successive orders.
-/
import Mathlib.NumberTheory.Harmonic.GammaDeriv
import Mathlib.Analysis.SpecialFunctions.Gamma.Deriv
import Mathlib.Analysis.SpecialFunctions.Pow.Asymptotics
import Mathlib.MeasureTheory.Integral.IntegralEqImproper
import Mathlib.Analysis.Calculus.SmoothSeries
import Mathlib.Analysis.SpecialFunctions.Exponential

namespace Verif.Green.ExpInt

open Real Filter Set MeasureTheory
open scoped Nat Topology

/-- The exponential integral of order `n`, the integral of `exp (-x t) / t ^ n` for `t` from 1 to infinity. -/
noncomputable def expInt (n : ℕ) (x : ℝ) : ℝ := ∫ t in Ioi (1 : ℝ), exp (-(x * t)) / t ^ n

/-- The entire part of the exponential integrals. -/
noncomputable def ein (x : ℝ) : ℝ := ∑' k : ℕ, x ^ (k + 1) / ((k + 1) * (k + 1)!)

/-- The exponential integral `Ei` of positive arguments. -/
noncomputable def bigEi (x : ℝ) : ℝ := eulerMascheroniConstant + log x + ein x

theorem term_le (R : ℝ) (hR : 0 ≤ R) (k : ℕ) : R ^ (k + 1) / (((k : ℝ) + 1) * (k + 1)!) ≤ R * (R ^ k / k !) := by
  rw [show R * (R ^ k / (k ! : ℝ)) = R ^ (k + 1) / (k ! : ℝ) from by rw [pow_succ]; ring]
  apply div_le_div_of_nonneg_left (by positivity) (by positivity)
  have h1 : (k ! : ℝ) ≤ (k + 1)! := by exact_mod_cast Nat.factorial_le (by omega)
  have h2 : (1 : ℝ) ≤ (k : ℝ) + 1 := by linarith [(Nat.cast_nonneg k : (0 : ℝ) ≤ k)]
  have h3 : (0 : ℝ) < (k + 1)! := by positivity
  nlinarith

theorem ein_summable (x : ℝ) : Summable fun k : ℕ => x ^ (k + 1) / (((k : ℝ) + 1) * (k + 1)!) := by
  refine Summable.of_norm_bounded ((Real.summable_pow_div_factorial |x|).mul_left |x|) fun k => ?_
  rw [norm_div, norm_pow, Real.norm_eq_abs, Real.norm_eq_abs, abs_of_pos (by positivity : (0 : ℝ) < ((k : ℝ) + 1) * (k + 1)!)]
  exact term_le |x| (abs_nonneg x) k

theorem ein_sum (x : ℝ) : HasSum (fun k : ℕ => x ^ (k + 1) / (((k : ℝ) + 1) * (k + 1)!)) (ein x) :=
  (ein_summable x).hasSum

theorem exp_sum (x : ℝ) : HasSum (fun k : ℕ => x ^ k / (k ! : ℝ)) (exp x) := by
  rw [Real.exp_eq_exp_ℝ]
  exact NormedSpace.expSeries_div_hasSum_exp x

theorem ein_deriv (x : ℝ) (hx : x ≠ 0) : HasDerivAt ein ((exp x - 1) / x) x := by
  have hb : x ∈ Metric.ball (0 : ℝ) (|x| + 1) := by
    rw [Metric.mem_ball, dist_zero_right, Real.norm_eq_abs]; linarith
  have hp : IsPreconnected (Metric.ball (0 : ℝ) (|x| + 1)) := (convex_ball 0 (|x| + 1)).isPreconnected
  have h := hasDerivAt_tsum_of_isPreconnected (g := fun (k : ℕ) (x : ℝ) => x ^ (k + 1) / (((k : ℝ) + 1) * (k + 1)!))
    (g' := fun (k : ℕ) (x : ℝ) => x ^ k / ((k + 1)! : ℝ))
    (Real.summable_pow_div_factorial (|x| + 1)) Metric.isOpen_ball hp (fun k y _ => by
      have := (hasDerivAt_pow (k + 1) y).div_const (((k : ℝ) + 1) * (k + 1)!)
      refine this.congr_deriv ?_
      rw [Nat.add_sub_cancel]
      push_cast
      have : (k : ℝ) + 1 ≠ 0 := by positivity
      have : ((k + 1)! : ℝ) ≠ 0 := by positivity
      field_simp) (fun k y hy => by
      rw [Metric.mem_ball, dist_zero_right, Real.norm_eq_abs] at hy
      rw [norm_div, norm_pow, Real.norm_eq_abs, Real.norm_eq_abs, abs_of_pos (by positivity : (0 : ℝ) < ((k + 1)! : ℝ))]
      have h1 : (k ! : ℝ) ≤ (k + 1)! := by exact_mod_cast Nat.factorial_le (by omega)
      have : (0 : ℝ) < k ! := by positivity
      gcongr) hb (ein_summable x) hb
  refine h.congr_deriv ?_
  have h1 := (hasSum_nat_add_iff' 1).mpr (exp_sum x)
  simp only [Finset.range_one, Finset.sum_singleton, pow_zero, Nat.factorial_zero, Nat.cast_one, div_one] at h1
  have h2 := h1.div_const x
  have e : (fun k : ℕ => x ^ (k + 1) / ((k + 1)! : ℝ) / x) = fun k : ℕ => x ^ k / ((k + 1)! : ℝ) := by
    funext k
    rw [pow_succ]
    field_simp
  rw [e] at h2
  exact h2.tsum_eq

theorem ein_zero : ein 0 = 0 := by
  unfold ein
  simp

theorem ein_continuous_zero : ContinuousAt ein 0 := by
  have hle : ∀ x : ℝ, |x| ≤ 1 → |ein x| ≤ |x| * exp 1 := by
    intro x hx
    have h := (exp_sum |x|).mul_left |x|
    have h1 : ‖ein x‖ ≤ |x| * exp |x| := by
      unfold ein
      refine tsum_of_norm_bounded h fun k => ?_
      rw [norm_div, norm_pow, Real.norm_eq_abs, Real.norm_eq_abs,
        abs_of_pos (by positivity : (0 : ℝ) < ((k : ℝ) + 1) * (k + 1)!)]
      exact term_le |x| (abs_nonneg x) k
    rw [Real.norm_eq_abs] at h1
    refine h1.trans (mul_le_mul_of_nonneg_left (exp_le_exp.mpr hx) (abs_nonneg x))
  rw [ContinuousAt, ein_zero]
  have h0 : Tendsto (fun x : ℝ => |x| * exp 1) (𝓝 0) (𝓝 0) := by
    have : Tendsto (fun x : ℝ => |x| * exp 1) (𝓝 0) (𝓝 (|0| * exp 1)) :=
      ((continuous_abs.mul continuous_const).tendsto 0)
    simpa using this
  refine squeeze_zero_norm' ?_ h0
  filter_upwards [Metric.ball_mem_nhds (0 : ℝ) one_pos] with x hx
  rw [Metric.mem_ball, dist_zero_right, Real.norm_eq_abs] at hx
  exact hle x hx.le

/-- The series of the exponential integral of order 1. -/
noncomputable def seriesE1 (x : ℝ) : ℝ := -eulerMascheroniConstant - log x - ein (-x)

theorem seriesE1_deriv (x : ℝ) (hx : 0 < x) : HasDerivAt seriesE1 (-(exp (-x) / x)) x := by
  have h1 := (ein_deriv (-x) (by linarith)).comp x (hasDerivAt_neg x)
  have h2 := ((hasDerivAt_const x (-eulerMascheroniConstant)).sub (hasDerivAt_log hx.ne')).sub h1
  refine h2.congr_deriv ?_
  field_simp
  ring

theorem bigEi_deriv (x : ℝ) (hx : 0 < x) : HasDerivAt bigEi (exp x / x) x := by
  have h := ((hasDerivAt_const x eulerMascheroniConstant).add (hasDerivAt_log hx.ne')).add (ein_deriv x hx.ne')
  refine h.congr_deriv ?_
  field_simp
  ring

/-- The integral of the logarithm, from the derivative of the function Gamma. -/
theorem integral_log_exp : ∫ t in Ioi (0 : ℝ), log t * exp (-t) = -eulerMascheroniConstant := by
  have h1 := Complex.hasDerivAt_GammaIntegral (s := 1) (by norm_num)
  have h2 : HasDerivAt Complex.Gamma (-(eulerMascheroniConstant : ℂ)) 1 := Complex.hasDerivAt_Gamma_one
  have h3 : Complex.GammaIntegral =ᶠ[𝓝 1] Complex.Gamma := by
    have : {s : ℂ | 0 < s.re} ∈ 𝓝 (1 : ℂ) :=
      (isOpen_lt continuous_const Complex.continuous_re).mem_nhds (by simp)
    filter_upwards [this] with s hs
    exact (Complex.Gamma_eq_integral hs).symm
  have h4 := h1.unique (h2.congr_of_eventuallyEq h3)
  have e : (∫ t : ℝ in Ioi 0, (t : ℂ) ^ ((1 : ℂ) - 1) * ((log t : ℂ) * (exp (-t) : ℂ)))
      = ((∫ t in Ioi (0 : ℝ), log t * exp (-t) : ℝ) : ℂ) := by
    rw [← integral_complex_ofReal]
    refine integral_congr_ae (Filter.Eventually.of_forall fun t => ?_)
    simp
  rw [e] at h4
  exact_mod_cast h4

theorem integrable_log_exp : IntegrableOn (fun t => log t * exp (-t)) (Ioi (0 : ℝ)) := by
  refine Integrable.of_integral_ne_zero ?_
  rw [integral_log_exp]
  have := one_half_lt_eulerMascheroniConstant
  linarith

theorem exp_log_tendsto : Tendsto (fun x : ℝ => exp (-x) * log x) atTop (𝓝 0) := by
  have h := tendsto_pow_mul_exp_neg_atTop_nhds_zero 1
  have h2 : ∀ᶠ x : ℝ in atTop, ‖exp (-x) * log x‖ ≤ x ^ 1 * exp (-x) := by
    filter_upwards [eventually_ge_atTop (1 : ℝ)] with x hx
    rw [Real.norm_eq_abs, abs_mul, abs_of_pos (exp_pos _), abs_of_nonneg (log_nonneg hx), pow_one, mul_comm]
    exact mul_le_mul_of_nonneg_right ((log_le_sub_one_of_pos (by linarith)).trans (by linarith)) (exp_pos _).le
  exact squeeze_zero_norm' h2 h

/-- The series tends to zero at infinity. -/
theorem seriesE1_tendsto : Tendsto seriesE1 atTop (𝓝 0) := by
  set f : ℝ → ℝ := fun x => -(seriesE1 x + exp (-x) * log x) with hf
  have hd : ∀ x ∈ Ioi (0 : ℝ), HasDerivAt f (log x * exp (-x)) x := by
    intro x hx
    have hx : 0 < x := hx
    have h1 : HasDerivAt (fun x : ℝ => exp (-x)) (-exp (-x)) x := by
      have := (hasDerivAt_neg x).exp
      simpa using this
    have h2 := ((seriesE1_deriv x hx).add (h1.mul (hasDerivAt_log hx.ne'))).neg
    refine h2.congr_deriv ?_
    field_simp
    ring
  have hc : ContinuousWithinAt f (Ici 0) 0 := by
    have e : ∀ x, f x = eulerMascheroniConstant + ein (-x) + (1 - exp (-x)) * log x := by
      intro x; simp only [hf, seriesE1]; ring
    have e' : f = fun x => eulerMascheroniConstant + ein (-x) + (1 - exp (-x)) * log x := funext e
    rw [e']
    have hc1 : ContinuousAt (fun x : ℝ => ein (-x)) 0 := by
      have : ContinuousAt ein (-(0 : ℝ)) := by rw [neg_zero]; exact ein_continuous_zero
      exact this.comp continuous_neg.continuousAt
    refine ContinuousWithinAt.add (continuousWithinAt_const.add hc1.continuousWithinAt) ?_
    rw [ContinuousWithinAt]
    simp only [neg_zero, exp_zero, sub_self, zero_mul]
    have hlog : Tendsto (fun x : ℝ => log x * x ^ (1 : ℝ)) (𝓝[>] 0) (𝓝 0) := tendsto_log_mul_rpow_nhdsGT_zero one_pos
    have hg : Tendsto (fun x : ℝ => (1 - exp (-x)) * log x) (𝓝[>] 0) (𝓝 0) := by
      have hz : Tendsto (fun x : ℝ => |log x * x ^ (1 : ℝ)|) (𝓝[>] 0) (𝓝 0) := by
        simpa using hlog.abs
      refine squeeze_zero_norm' ?_ hz
      filter_upwards [self_mem_nhdsWithin] with x hx
      have hx : 0 < x := hx
      rw [Real.norm_eq_abs, abs_mul, abs_mul, mul_comm, rpow_one]
      refine mul_le_mul_of_nonneg_left ?_ (abs_nonneg _)
      have h1 := add_one_le_exp (-x)
      have h2 : exp (-x) ≤ 1 := exp_le_one_iff.mpr (by linarith)
      rw [abs_of_nonneg (by linarith), abs_of_pos hx]
      linarith
    rw [show Ici (0 : ℝ) = insert 0 (Ioi 0) from (Ioi_insert).symm, nhdsWithin_insert]
    refine Tendsto.sup ?_ hg
    rw [tendsto_pure_left]
    intro s hs
    simpa using mem_of_mem_nhds hs
  have hl := tendsto_limUnder_of_hasDerivAt_of_integrableOn_Ioi hd integrable_log_exp
  have hi := integral_Ioi_of_hasDerivAt_of_tendsto hc hd integrable_log_exp hl
  have hf0 : f 0 = eulerMascheroniConstant := by
    simp [hf, seriesE1, ein_zero]
  rw [integral_log_exp, hf0] at hi
  have hm : limUnder atTop f = 0 := by linarith
  rw [hm] at hl
  have := (hl.neg).sub exp_log_tendsto
  simp only [neg_zero, sub_zero] at this
  refine this.congr fun x => ?_
  simp [hf]

/-- The integral of order 1 is given by its series. -/
theorem expInt_one (x : ℝ) (hx : 0 < x) : expInt 1 x = seriesE1 x := by
  have h1 : ∫ t in Ioi x, -(exp (-t) / t) = 0 - seriesE1 x :=
    integral_Ioi_of_hasDerivAt_of_nonpos' (fun t ht => seriesE1_deriv t (lt_of_lt_of_le hx ht))
      (fun t ht => by
        have ht : x < t := ht
        have : 0 < t := hx.trans ht
        have : 0 ≤ exp (-t) / t := by positivity
        linarith) seriesE1_tendsto
  rw [integral_neg] at h1
  have h2 := integral_comp_mul_left_Ioi (fun u : ℝ => exp (-u) / u) 1 hx
  rw [mul_one, smul_eq_mul] at h2
  unfold expInt
  have e : (∫ t in Ioi (1 : ℝ), exp (-(x * t)) / t ^ 1) = ∫ t in Ioi (1 : ℝ), x * (exp (-(x * t)) / (x * t)) := by
    refine setIntegral_congr_fun measurableSet_Ioi fun t ht => ?_
    have ht : (1 : ℝ) < t := ht
    simp only [pow_one]
    field_simp
  rw [e, integral_const_mul, h2]
  field_simp
  linarith

theorem integrable_expInt (n : ℕ) (x : ℝ) (hx : 0 < x) :
    IntegrableOn (fun t => exp (-(x * t)) / t ^ n) (Ioi (1 : ℝ)) := by
  have h : IntegrableOn (fun t => exp (-x * t)) (Ioi (1 : ℝ)) := integrableOn_exp_mul_Ioi (by linarith) 1
  refine Integrable.mono' h ?_ ?_
  · refine (ContinuousOn.aestronglyMeasurable ?_ measurableSet_Ioi)
    refine ContinuousOn.div (by fun_prop) (by fun_prop) fun t ht => ?_
    have ht : (1 : ℝ) < t := ht
    positivity
  · refine (ae_restrict_iff' measurableSet_Ioi).mpr (Eventually.of_forall fun t ht => ?_)
    have ht : (1 : ℝ) < t := ht
    rw [Real.norm_eq_abs, abs_of_nonneg (by positivity), neg_mul]
    exact div_le_self (exp_pos _).le (one_le_pow₀ ht.le)

/-- The relation between successive orders. -/
theorem expInt_succ (n : ℕ) (x : ℝ) (hx : 0 < x) : n * expInt (n + 1) x = exp (-x) - x * expInt n x := by
  have hd : ∀ t ∈ Ici (1 : ℝ), HasDerivAt (fun t : ℝ => exp (-(x * t)) / t ^ n)
      (-(x * (exp (-(x * t)) / t ^ n)) - n * (exp (-(x * t)) / t ^ (n + 1))) t := by
    intro t ht
    have ht : (1 : ℝ) ≤ t := ht
    have ht0 : t ≠ 0 := by positivity
    have h1 : HasDerivAt (fun t : ℝ => exp (-(x * t))) (-x * exp (-(x * t))) t := by
      have := ((hasDerivAt_id t).const_mul x).neg.exp
      refine this.congr_deriv ?_
      simp [mul_comm]
    have h2 := h1.div (hasDerivAt_pow n t) (pow_ne_zero n ht0)
    refine h2.congr_deriv ?_
    rcases n with _ | n
    · simp
    · rw [Nat.add_sub_cancel]
      push_cast
      field_simp
      ring
  have hi := (((integrable_expInt n x hx).const_mul x).neg).sub ((integrable_expInt (n + 1) x hx).const_mul (n : ℝ))
  have hl : Tendsto (fun t : ℝ => exp (-(x * t)) / t ^ n) atTop (𝓝 0) := by
    have h0 : Tendsto (fun t : ℝ => exp (-(x * t))) atTop (𝓝 0) :=
      tendsto_exp_neg_atTop_nhds_zero.comp (tendsto_id.const_mul_atTop hx)
    refine squeeze_zero_norm' ?_ h0
    filter_upwards [eventually_ge_atTop (1 : ℝ)] with t ht
    rw [Real.norm_eq_abs, abs_of_nonneg (by positivity)]
    exact div_le_self (exp_pos _).le (one_le_pow₀ ht)
  have h := integral_Ioi_of_hasDerivAt_of_tendsto' hd hi hl
  have hs := integral_sub (μ := volume.restrict (Ioi (1 : ℝ))) (f := fun t => -(x * (exp (-(x * t)) / t ^ n)))
    (g := fun t => n * (exp (-(x * t)) / t ^ (n + 1))) ((integrable_expInt n x hx).const_mul x).neg
    ((integrable_expInt (n + 1) x hx).const_mul (n : ℝ))
  rw [hs, integral_neg, integral_const_mul, integral_const_mul] at h
  simp only [one_pow, mul_one, div_one, zero_sub] at h
  unfold expInt
  linarith

theorem expInt_zero (x : ℝ) (hx : 0 < x) : expInt 0 x = exp (-x) / x := by
  have h := expInt_succ 0 x hx
  simp at h
  field_simp
  linarith

theorem expInt_nonneg (n : ℕ) (x : ℝ) : 0 ≤ expInt n x := by
  unfold expInt
  refine setIntegral_nonneg measurableSet_Ioi fun t ht => ?_
  have ht : (1 : ℝ) < t := ht
  positivity

theorem expInt_one_deriv (x : ℝ) (hx : 0 < x) : HasDerivAt (expInt 1) (-(exp (-x) / x)) x := by
  refine (seriesE1_deriv x hx).congr_of_eventuallyEq ?_
  filter_upwards [Ioi_mem_nhds hx] with t ht
  exact expInt_one t ht

theorem expInt_one_tendsto : Tendsto (expInt 1) atTop (𝓝 0) := by
  refine seriesE1_tendsto.congr' ?_
  filter_upwards [eventually_gt_atTop (0 : ℝ)] with t ht
  exact (expInt_one t ht).symm

end Verif.Green.ExpInt
