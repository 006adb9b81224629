/-
The expansion coefficients of the method of Linton (`Verif.Green.Linton.sam`, `dsam`, `axisCoef`, `axisFirst`, `paOf`).

The specification is the integral over the `t` above `PA ^ 2 / 4` of `exp (-R ^ 2 / (4 t) - μ ^ 2 t) / (4 π t)`, which the code
also computes by quadrature when the distance is larger (`FinGreen3D.f90:1872,1204`), and its derivative.
-/
import Verif.Green.LintonSeries

namespace Verif.Green.Linton

open Real Filter Set MeasureTheory Verif.Green.ExpInt
open scoped Nat Topology

/-- The coefficient of an evanescent mode. -/
noncomputable def coefficient (pa μ r : ℝ) : ℝ := ∫ t in Ioi (pa ^ 2 / 4), exp (-r ^ 2 / 4 / t - μ ^ 2 * t) / 4 / π / t

/-- Its derivative. -/
noncomputable def coefficientD (pa μ r : ℝ) : ℝ :=
  ∫ t in Ioi (pa ^ 2 / 4), -r * exp (-r ^ 2 / 4 / t - μ ^ 2 * t) / 8 / π / t ^ 2

theorem coefficient_eq (pa μ r : ℝ) (hpa : 0 < pa) :
    coefficient pa μ r = lam 1 ((μ * pa / 2) ^ 2) ((r / pa) ^ 2) / 4 / π := by
  have h := integral_scale 0 r pa μ hpa
  rw [pow_zero, one_mul, Nat.zero_add] at h
  rw [← h, div_div, ← integral_div]
  unfold coefficient
  refine setIntegral_congr_fun measurableSet_Ioi fun t _ => ?_
  simp only [pow_one]
  ring

theorem coefficientD_eq (pa μ r : ℝ) (hpa : 0 < pa) :
    coefficientD pa μ r = -(2 * r / pa ^ 2) * lam 2 ((μ * pa / 2) ^ 2) ((r / pa) ^ 2) / 4 / π := by
  have h := integral_scale 1 r pa μ hpa
  rw [pow_one] at h
  have e : -(2 * r / pa ^ 2) * lam 2 ((μ * pa / 2) ^ 2) ((r / pa) ^ 2) / 4 / π
      = -r / 8 / π * (4 / pa ^ 2 * lam (1 + 1) ((μ * pa / 2) ^ 2) ((r / pa) ^ 2)) := by
    ring
  rw [e, ← h, ← integral_const_mul]
  unfold coefficientD
  refine setIntegral_congr_fun measurableSet_Ioi fun t _ => ?_
  show -r * exp (-r ^ 2 / 4 / t - μ ^ 2 * t) / 8 / π / t ^ 2 = -r / 8 / π * (exp (-r ^ 2 / 4 / t - μ ^ 2 * t) / t ^ (1 + 1))
  ring

theorem sam_terms (r pa μ : ℝ) : termAt (fun n sgn facn => sgn * (r / pa) ^ (2 * n) / facn * enxa (n + 1) ((μ * pa / 2) ^ 2))
    = codeTerm 1 ((μ * pa / 2) ^ 2) ((r / pa) ^ 2) := by
  funext n
  simp only [termAt, codeTerm]
  rw [neg_pow ((r / pa) ^ 2), ← pow_mul]

/-- The series of the coefficients ends for all positive arguments, and its result is within 1e-6 (the tolerance) and the
error of the exponential integrals of the coefficient. -/
theorem coefficient_accuracy (r pa μ : ℝ) (hpa : 0 < pa) (hμ : 0 < μ) :
    ∃ v turns, (∀ fuel, turns ≤ fuel → sam fuel r pa μ = some v)
      ∧ |v - coefficient pa μ r| ≤ (1 / 10 ^ 6 + 5.2 / 10 ^ 7 * exp ((r / pa) ^ 2)) / (4 * π) := by
  have hx : 0 < (μ * pa / 2) ^ 2 := by positivity
  have hρ : 0 ≤ (r / pa) ^ 2 := by positivity
  have ht := codeTerm_tendsto 1 _ _ hx hρ
  rw [← sam_terms] at ht
  obtain ⟨d, _, hd, hrun⟩ := sumLoop_ends _ 0 0 ht
  rw [pow_zero, Nat.factorial_zero, Nat.cast_one] at hrun
  refine ⟨(∑ j ∈ Finset.range (d + 1), codeTerm 1 ((μ * pa / 2) ^ 2) ((r / pa) ^ 2) j) / 4 / π, d + 2, fun fuel hf => ?_, ?_⟩
  · unfold sam
    rw [hrun fuel hf, sam_terms]
    simp
  · rw [sam_terms, Nat.zero_add] at hd
    have h := code_close 1 _ _ hx hρ d
    have he : (eps : ℝ) ≤ 1 / 10 ^ 6 := by norm_num [eps]
    rw [coefficient_eq pa μ r hpa, div_div, div_div, ← sub_div, abs_div, abs_of_pos (show 0 < 4 * π by positivity)]
    refine div_le_div_of_nonneg_right ?_ (by positivity)
    linarith

theorem dsam_terms (r pa μ : ℝ) (k : ℕ) :
    termAt (fun n sgn facn => 2 * n * sgn * (r / pa) ^ (2 * n - 1) / facn / pa * enxa (n + 1) ((μ * pa / 2) ^ 2)) (1 + k)
      = -(2 * r / pa ^ 2) * codeTerm 2 ((μ * pa / 2) ^ 2) ((r / pa) ^ 2) k := by
  simp only [termAt, codeTerm]
  rw [neg_pow ((r / pa) ^ 2), ← pow_mul, Nat.add_comm 1 k, Nat.factorial_succ, show 2 * (k + 1) - 1 = 2 * k + 1 by omega,
    pow_succ (-1 : ℝ), pow_succ (r / pa), show k + 1 + 1 = k + 2 by ring]
  push_cast
  have : (k : ℝ) + 1 ≠ 0 := by positivity
  have : (k ! : ℝ) ≠ 0 := by positivity
  by_cases hpa : pa = 0
  · simp [hpa]
  · field_simp

/-- The series of the derivatives. -/
theorem derivative_accuracy (r pa μ : ℝ) (hpa : 0 < pa) (hμ : 0 < μ) :
    ∃ v turns, (∀ fuel, turns ≤ fuel → dsam fuel r pa μ = some v)
      ∧ |v - coefficientD pa μ r|
        ≤ (1 / 10 ^ 6 + 5.2 / 10 ^ 7 * (2 * |r| / pa ^ 2) * exp ((r / pa) ^ 2)) / (4 * π) := by
  have hx : 0 < (μ * pa / 2) ^ 2 := by positivity
  have hρ : 0 ≤ (r / pa) ^ 2 := by positivity
  have ht : Tendsto (termAt (fun n sgn facn =>
      2 * n * sgn * (r / pa) ^ (2 * n - 1) / facn / pa * enxa (n + 1) ((μ * pa / 2) ^ 2))) atTop (𝓝 0) := by
    rw [← tendsto_add_atTop_iff_nat 1]
    have h := (codeTerm_tendsto 2 _ _ hx hρ).const_mul (-(2 * r / pa ^ 2))
    rw [mul_zero] at h
    refine h.congr fun k => ?_
    rw [← dsam_terms, Nat.add_comm]
  obtain ⟨d, _, hd, hrun⟩ := sumLoop_ends _ 1 0 ht
  rw [pow_one, Nat.factorial_one, Nat.cast_one] at hrun
  refine ⟨(-(2 * r / pa ^ 2) * ∑ j ∈ Finset.range (d + 1), codeTerm 2 ((μ * pa / 2) ^ 2) ((r / pa) ^ 2) j) / 4 / π, d + 2,
    fun fuel hf => ?_, ?_⟩
  · unfold dsam
    rw [hrun fuel hf]
    simp only [dsam_terms, zero_add, ← Finset.mul_sum]
    rfl
  · rw [dsam_terms] at hd
    have h := code_close 2 _ _ hx hρ d
    have he : (eps : ℝ) ≤ 1 / 10 ^ 6 := by norm_num [eps]
    rw [coefficientD_eq pa μ r hpa, div_div, div_div, ← sub_div, abs_div, abs_of_pos (show 0 < 4 * π by positivity)]
    refine div_le_div_of_nonneg_right ?_ (by positivity)
    rw [← mul_sub, abs_mul]
    have hf : |-(2 * r / pa ^ 2)| = 2 * |r| / pa ^ 2 := by
      rw [abs_neg, abs_div, abs_mul, abs_of_pos (show (0 : ℝ) < 2 by norm_num), abs_of_pos (show 0 < pa ^ 2 by positivity)]
    rw [abs_mul] at hd
    have hm := mul_le_mul_of_nonneg_left h (abs_nonneg (-(2 * r / pa ^ 2)))
    rw [mul_add] at hm
    have hm2 : |-(2 * r / pa ^ 2)| * (5.2 / 10 ^ 7 * exp ((r / pa) ^ 2))
        = 5.2 / 10 ^ 7 * (2 * |r| / pa ^ 2) * exp ((r / pa) ^ 2) := by
      rw [hf]; ring
    rw [hm2] at hm
    linarith

theorem coefficient_integrable (p : ℕ) (pa μ : ℝ) (hpa : 0 < pa) (hμ : 0 < μ) :
    IntegrableOn (fun t => exp (-(μ ^ 2 * t)) / t ^ p) (Ioi (pa ^ 2 / 4)) := by
  have hc : 0 < pa ^ 2 / 4 := by positivity
  have h : IntegrableOn (fun t => exp (-μ ^ 2 * t) * (1 / (pa ^ 2 / 4) ^ p)) (Ioi (pa ^ 2 / 4)) :=
    (integrableOn_exp_mul_Ioi (by nlinarith [sq_pos_of_pos hμ]) _).mul_const _
  refine Integrable.mono' h ?_ ?_
  · refine (ContinuousOn.aestronglyMeasurable ?_ measurableSet_Ioi)
    refine ContinuousOn.div (by fun_prop) (by fun_prop) fun t ht => ?_
    have ht : pa ^ 2 / 4 < t := ht
    have : 0 < t := by linarith
    positivity
  · refine (ae_restrict_iff' measurableSet_Ioi).mpr (Eventually.of_forall fun t ht => ?_)
    have ht : pa ^ 2 / 4 < t := ht
    have ht0 : 0 < t := by linarith
    rw [Real.norm_eq_abs, abs_of_nonneg (by positivity), neg_mul, div_eq_mul_one_div]
    refine mul_le_mul_of_nonneg_left ?_ (exp_pos _).le
    exact one_div_le_one_div_of_le (by positivity) (pow_le_pow_left₀ hc.le ht.le p)

/-- The second integral is the derivative of the first one. -/
theorem coefficient_derivative (r pa μ : ℝ) (hpa : 0 < pa) (hμ : 0 < μ) :
    HasDerivAt (coefficient pa μ) (coefficientD pa μ r) r := by
  have hc : 0 < pa ^ 2 / 4 := by positivity
  have hcont : ∀ s : ℝ, ContinuousOn (fun t : ℝ => exp (-s ^ 2 / 4 / t - μ ^ 2 * t)) (Ioi (pa ^ 2 / 4)) := by
    intro s
    refine ContinuousOn.rexp (ContinuousOn.sub (ContinuousOn.div (by fun_prop) (by fun_prop) fun t ht => ?_) (by fun_prop))
    have ht : pa ^ 2 / 4 < t := ht
    linarith
  have hmeas : ∀ s : ℝ, AEStronglyMeasurable (fun t => exp (-s ^ 2 / 4 / t - μ ^ 2 * t) / 4 / π / t)
      (volume.restrict (Ioi (pa ^ 2 / 4))) := by
    intro s
    refine (ContinuousOn.aestronglyMeasurable ?_ measurableSet_Ioi)
    refine ContinuousOn.div (((hcont s).div_const 4).div_const π) (by fun_prop) fun t ht => ?_
    have ht : pa ^ 2 / 4 < t := ht
    linarith
  have hle : ∀ s t : ℝ, 0 < t → exp (-s ^ 2 / 4 / t - μ ^ 2 * t) ≤ exp (-(μ ^ 2 * t)) := by
    intro s t ht
    refine exp_le_exp.mpr ?_
    have : -s ^ 2 / 4 / t ≤ 0 := by
      rw [div_div]
      exact div_nonpos_of_nonpos_of_nonneg (by nlinarith [sq_nonneg s]) (by positivity)
    linarith
  have h := hasDerivAt_integral_of_dominated_loc_of_deriv_le (μ := volume.restrict (Ioi (pa ^ 2 / 4)))
    (F := fun s t => exp (-s ^ 2 / 4 / t - μ ^ 2 * t) / 4 / π / t)
    (F' := fun s t => -s * exp (-s ^ 2 / 4 / t - μ ^ 2 * t) / 8 / π / t ^ 2)
    (x₀ := r) (s := Metric.ball r 1)
    (bound := fun t => (|r| + 1) / 8 / π * (exp (-(μ ^ 2 * t)) / t ^ 2)) (Metric.ball_mem_nhds r one_pos)
    (Eventually.of_forall hmeas) ?_ ?_ ?_ ?_ ?_
  · exact h.2
  · refine Integrable.mono' ((coefficient_integrable 1 pa μ hpa hμ).const_mul (1 / 4 / π)) (hmeas r) ?_
    refine (ae_restrict_iff' measurableSet_Ioi).mpr (Eventually.of_forall fun t ht => ?_)
    have ht : pa ^ 2 / 4 < t := ht
    have ht0 : 0 < t := by linarith
    rw [Real.norm_eq_abs, abs_of_nonneg (by positivity), pow_one]
    have := mul_le_mul_of_nonneg_left (hle r t ht0) (show 0 ≤ 1 / 4 / π / t by positivity)
    calc exp (-r ^ 2 / 4 / t - μ ^ 2 * t) / 4 / π / t = 1 / 4 / π / t * exp (-r ^ 2 / 4 / t - μ ^ 2 * t) := by ring
      _ ≤ _ := this
      _ = _ := by ring
  · refine (ContinuousOn.aestronglyMeasurable ?_ measurableSet_Ioi)
    refine ContinuousOn.div ((((hcont r).const_smul (-r)).div_const 8).div_const π) (by fun_prop) fun t ht => ?_
    have ht : pa ^ 2 / 4 < t := ht
    have : 0 < t := by linarith
    positivity
  · refine (ae_restrict_iff' measurableSet_Ioi).mpr (Eventually.of_forall fun t ht s hs => ?_)
    have ht : pa ^ 2 / 4 < t := ht
    have ht0 : 0 < t := by linarith
    have hs' : |s| ≤ |r| + 1 := by
      rw [Metric.mem_ball, Real.dist_eq] at hs
      have := abs_sub_abs_le_abs_sub s r
      linarith
    rw [Real.norm_eq_abs, abs_div, abs_div, abs_div, abs_mul, abs_neg, abs_of_pos (exp_pos _),
      abs_of_pos (show (0 : ℝ) < 8 by norm_num), abs_of_pos pi_pos, abs_of_pos (show 0 < t ^ 2 by positivity)]
    have := mul_le_mul hs' (hle s t ht0) (exp_pos _).le (by positivity)
    calc |s| * exp (-s ^ 2 / 4 / t - μ ^ 2 * t) / 8 / π / t ^ 2
        ≤ (|r| + 1) * exp (-(μ ^ 2 * t)) / 8 / π / t ^ 2 := by gcongr
      _ = _ := by ring
  · exact (coefficient_integrable 2 pa μ hpa hμ).const_mul _
  · refine (ae_restrict_iff' measurableSet_Ioi).mpr (Eventually.of_forall fun t ht s hs => ?_)
    have ht : pa ^ 2 / 4 < t := ht
    have ht0 : t ≠ 0 := by linarith
    have h1 : HasDerivAt (fun s : ℝ => -s ^ 2 / 4 / t - μ ^ 2 * t) (-(2 * s) / 4 / t) s := by
      have := ((((hasDerivAt_pow 2 s).neg.div_const 4).div_const t).sub_const (μ ^ 2 * t))
      refine this.congr_deriv ?_
      norm_num
    refine (((h1.exp.div_const 4).div_const π).div_const t).congr_deriv ?_
    field_simp
    ring

/-! ### The vertical axis -/

/-- On the vertical axis. -/
theorem axis_accuracy (pa μ : ℝ) (hpa : 0 < pa) (hμ : 0 < μ) :
    |axisCoef pa μ - coefficient pa μ 0| ≤ 2.6 / 10 ^ 7 / (4 * π) := by
  have hx : 0 < (μ * pa / 2) ^ 2 := by positivity
  have e : lam 1 ((μ * pa / 2) ^ 2) ((0 / pa) ^ 2) = expInt 1 ((μ * pa / 2) ^ 2) := by
    unfold lam expInt
    simp
  rw [coefficient_eq pa μ 0 hpa, e]
  unfold axisCoef
  rw [show μ ^ 2 * (pa ^ 2 / 4) = (μ * pa / 2) ^ 2 by ring, div_div, div_div, ← sub_div, abs_div,
    abs_of_pos (show 0 < 4 * π by positivity)]
  exact div_le_div_of_nonneg_right (any_order 1 _ hx) (by positivity)

/-! ### The parameter -/

/-- The parameter does not depend on the depth, and is the value of the polynomials divided by the wave number. -/
theorem parameter_length (v wk h : ℝ) (hh : 0 < h) : paOf v wk h = parameter v / wk := by
  unfold paOf
  field_simp

/-- There is a frequency at which the parameter vanishes, whatever the depth and the wave number: all the coefficients are
then divided by zero. -/
theorem parameter_vanishes : ∃ v : ℝ, 69 < v ∧ v < 72 ∧ ∀ wk h : ℝ, paOf v wk h = 0 := by
  have hc : ContinuousOn (fun v : ℝ => -0.000069641 * v ^ 3 - 0.0017082 * v ^ 2 + 0.45566 * v + 0.80551) (Icc 69 72) := by
    fun_prop
  have h := intermediate_value_Ioo' (by norm_num : (69 : ℝ) ≤ 72) hc
  have h0 : (0 : ℝ) ∈ Ioo (-0.000069641 * (72 : ℝ) ^ 3 - 0.0017082 * (72 : ℝ) ^ 2 + 0.45566 * 72 + 0.80551)
      (-0.000069641 * (69 : ℝ) ^ 3 - 0.0017082 * (69 : ℝ) ^ 2 + 0.45566 * 69 + 0.80551) := by
    constructor <;> norm_num
  obtain ⟨v, ⟨h1, h2⟩, hv⟩ := h h0
  refine ⟨v, h1, h2, fun wk h => ?_⟩
  unfold paOf parameter
  rw [if_neg (by norm_num; linarith), if_neg (by norm_num; linarith), if_neg (by linarith)]
  simp only at hv
  rw [hv, abs_zero, zero_div, zero_mul]

/-- Beyond 110 the first coefficient on the axis is larger than the largest number in double precision. -/
theorem parameter_overflow (v wk h : ℝ) (hv : 110 ≤ v) (hwk : 0 < wk) (hh : 0 < h) :
    1.8 * 10 ^ 308 < -axisFirst (paOf v wk h) wk := by
  have hq : 60 ≤ parameter v := by
    unfold parameter
    rw [if_neg (by norm_num; linarith), if_neg (by norm_num; linarith), if_neg (by linarith), abs_of_neg]
    · nlinarith [mul_nonneg (sub_nonneg.mpr hv) (sub_nonneg.mpr hv), mul_nonneg (mul_nonneg (sub_nonneg.mpr hv) (sub_nonneg.mpr hv)) (sub_nonneg.mpr hv)]
    · nlinarith [mul_nonneg (sub_nonneg.mpr hv) (sub_nonneg.mpr hv), mul_nonneg (mul_nonneg (sub_nonneg.mpr hv) (sub_nonneg.mpr hv)) (sub_nonneg.mpr hv)]
  rw [parameter_length v wk h hh]
  unfold axisFirst
  have e : wk ^ 2 * ((parameter v / wk) ^ 2 / 4) = parameter v ^ 2 / 4 := by field_simp
  rw [e]
  have hx : 900 ≤ parameter v ^ 2 / 4 := by nlinarith
  generalize parameter v ^ 2 / 4 = x at *
  have hx0 : 0 < x := by linarith
  have h1 : exp x / x ≤ eix x := by
    unfold eix
    rw [if_neg hx0.ne', if_neg (by linarith), asy_loop]
    refine le_mul_of_one_le_right (by positivity) ?_
    unfold asy
    have := Finset.single_le_sum (f := fun k => (k ! : ℝ) / x ^ k) (fun k _ => by positivity) (Finset.mem_range.mpr (by norm_num : 0 < 20 + 1))
    simpa using this
  have h2 : x ^ 450 / (450 ! : ℝ) ≤ exp x := Real.pow_div_factorial_le_exp x hx0.le 450
  have hn : 23 * 10 ^ 308 * 450 ! ≤ 900 ^ 449 := by decide +kernel
  have hn' : (23 * 10 ^ 308 * (450 ! : ℕ) : ℝ) ≤ 900 ^ 449 := by exact_mod_cast hn
  have h3 : (900 : ℝ) ^ 449 ≤ x ^ 449 := pow_le_pow_left₀ (by norm_num) hx 449
  have hf : (0 : ℝ) < ((450 ! : ℕ) : ℝ) := by positivity
  have h4 : 23 * 10 ^ 308 ≤ exp x / x := by
    rw [le_div_iff₀ hx0]
    refine le_trans ?_ h2
    rw [le_div_iff₀ hf, pow_succ]
    calc 23 * 10 ^ 308 * x * ((450 ! : ℕ) : ℝ) = 23 * 10 ^ 308 * ((450 ! : ℕ) : ℝ) * x := by ring
      _ ≤ x ^ 449 * x := mul_le_mul_of_nonneg_right (hn'.trans h3) hx0.le
  have hpi := pi_lt_d2
  rw [neg_div, neg_div, neg_neg, div_div, lt_div_iff₀ (by positivity)]
  have h5 : 1.8 * 10 ^ 308 * (4 * π) < 23 * 10 ^ 308 := by
    have hB : (0 : ℝ) < 10 ^ 308 := by positivity
    generalize (10 : ℝ) ^ 308 = B at hB
    have : B * π < B * 3.15 := mul_lt_mul_of_pos_left hpi hB
    norm_num at this ⊢
    linarith
  exact h5.trans_le (h4.trans h1)

/-! ### The hypotheses can be met -/

example : ∃ v turns, (∀ fuel, turns ≤ fuel → sam fuel 1 2 3 = some v)
    ∧ |v - coefficient 2 3 1| ≤ (1 / 10 ^ 6 + 5.2 / 10 ^ 7 * exp ((1 / 2) ^ 2)) / (4 * π) :=
  coefficient_accuracy 1 2 3 (by norm_num) (by norm_num)

example : ∃ v turns, (∀ fuel, turns ≤ fuel → dsam fuel 1 2 3 = some v)
    ∧ |v - coefficientD 2 3 1| ≤ (1 / 10 ^ 6 + 5.2 / 10 ^ 7 * (2 * |1| / 2 ^ 2) * exp ((1 / 2) ^ 2)) / (4 * π) :=
  derivative_accuracy 1 2 3 (by norm_num) (by norm_num)

example : HasDerivAt (coefficient 2 3) (coefficientD 2 3 1) 1 := coefficient_derivative 1 2 3 (by norm_num) (by norm_num)

example : |axisCoef 2 3 - coefficient 2 3 0| ≤ 2.6 / 10 ^ 7 / (4 * π) := axis_accuracy 2 3 (by norm_num) (by norm_num)

example : 1.8 * 10 ^ 308 < -axisFirst (paOf 110 110 10) 110 :=
  parameter_overflow 110 110 10 (by norm_num) (by norm_num) (by norm_num)

end Verif.Green.Linton
