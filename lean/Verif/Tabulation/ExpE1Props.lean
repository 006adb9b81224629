import Verif.Tabulation.ExpE1Near
import Verif.Tabulation.IntegProps

/-!
# The first tabulated integral for points on the same vertical

Specification: the function `vertical` below, of the exponential integral `Ei`. It is the solution of `f' = f - 1 / z` that behaves like
minus the logarithm near zero (`vertical_spec`).
-/

namespace Verif.Tabulation.ExpE1

open Real Filter Verif.Green.PolyBound Verif.Green.ExpInt Verif.Tabulation.Integ
open scoped Topology

/-- The first integral for points on the same vertical, at the reduced height `z`. -/
noncomputable def vertical (z : ℝ) : ℝ := 2 * -(exp z * bigEi (-z))

theorem vertical_target (z : ℝ) : vertical z = 2 * target z := rfl

/-- The differential equation and the behaviour at zero, which determine the specification. -/
theorem vertical_spec (f : ℝ → ℝ) : (∀ z < 0, f z = vertical z) ↔
    (∀ z < 0, HasDerivAt f (f z - 2 / z) z) ∧ Tendsto (fun z => f z + 2 * (log (-z) + eulerMascheroniConstant)) (𝓝[<] 0) (𝓝 0) := by
  have hd : ∀ z < 0, HasDerivAt vertical (vertical z - 2 / z) z := fun z hz => by
    refine ((target_deriv hz).const_mul 2).congr_deriv ?_
    rw [vertical_target]; ring
  have hneg : ∀ᶠ z : ℝ in 𝓝[<] 0, z < 0 := eventually_mem_nhdsWithin
  have hlim : Tendsto (fun z => vertical z + 2 * (log (-z) + eulerMascheroniConstant)) (𝓝[<] 0) (𝓝 0) := by
    have e : ∀ z : ℝ, vertical z + 2 * (log (-z) + eulerMascheroniConstant)
        = 2 * ((1 - exp z) * eulerMascheroniConstant + (1 - exp z) * log (-z) - exp z * ein (-z)) := by
      intro z; unfold vertical bigEi; ring
    simp only [e]
    have c1 : Tendsto (fun z : ℝ => exp z) (𝓝[<] 0) (𝓝 1) := by
      have := (continuous_exp.tendsto 0).mono_left (nhdsWithin_le_nhds (s := Set.Iio 0))
      simpa using this
    have c2 : Tendsto (fun z : ℝ => ein (-z)) (𝓝[<] 0) (𝓝 0) := by
      have h := ein_continuous_zero
      rw [ContinuousAt, ein_zero] at h
      have hn : Tendsto (fun z : ℝ => -z) (𝓝[<] 0) (𝓝 0) := by
        have := (continuous_neg.tendsto (0 : ℝ)).mono_left (nhdsWithin_le_nhds (s := Set.Iio 0))
        simpa using this
      exact h.comp hn
    have c3 : Tendsto (fun z : ℝ => (1 - exp z) * log (-z)) (𝓝[<] 0) (𝓝 0) := by
      have h := tendsto_log_mul_self_nhdsLT_zero
      refine squeeze_zero_norm' ?_ (by simpa using h.abs)
      filter_upwards [hneg] with z hz
      rw [Real.norm_eq_abs, abs_mul, log_neg_eq_log, mul_comm]
      refine mul_le_mul_of_nonneg_left ?_ (abs_nonneg _)
      have h1 := add_one_le_exp z
      have h2 : exp z ≤ 1 := exp_le_one_iff.2 hz.le
      rw [abs_of_nonneg (by linarith), abs_of_neg hz]
      linarith
    have := (((((tendsto_const_nhds (x := (1 : ℝ))).sub c1).mul_const eulerMascheroniConstant).add c3).sub (c1.mul c2)).const_mul 2
    simpa using this
  constructor
  · intro h
    constructor
    · intro z hz
      rw [h z hz]
      exact (hd z hz).congr_of_eventuallyEq (by filter_upwards [Iio_mem_nhds hz] with t ht using h t ht)
    · refine hlim.congr' ?_
      filter_upwards [hneg] with z hz
      rw [h z hz]
  · rintro ⟨h1, h2⟩ z hz
    have hk : ∀ t < 0, HasDerivAt (fun t => exp (-t) * (f t - vertical t)) 0 t := by
      intro t ht
      have he : HasDerivAt (fun t : ℝ => exp (-t)) (-exp (-t)) t := by simpa using (hasDerivAt_neg t).exp
      refine (he.mul ((h1 t ht).sub (hd t ht))).congr_deriv ?_
      simp only [Pi.sub_apply]
      ring
    have hconst : ∀ t < 0, exp (-t) * (f t - vertical t) = exp (-z) * (f z - vertical z) := by
      intro t ht
      refine (convex_Iio (0 : ℝ)).is_const_of_fderivWithin_eq_zero (𝕜 := ℝ) (f := fun t => exp (-t) * (f t - vertical t))
        (fun s hs => (hk s hs).differentiableAt.differentiableWithinAt) (fun s hs => ?_) ht hz
      rw [fderivWithin_of_isOpen isOpen_Iio hs]
      ext
      simp [(hk s hs).deriv]
    have hl : Tendsto (fun t => exp (-t) * (f t - vertical t)) (𝓝[<] 0) (𝓝 0) := by
      have h3 := h2.sub hlim
      have c1 : Tendsto (fun z : ℝ => exp (-z)) (𝓝[<] 0) (𝓝 1) := by
        have := ((continuous_exp.comp continuous_neg).tendsto (0 : ℝ)).mono_left (nhdsWithin_le_nhds (s := Set.Iio 0))
        simpa [Function.comp_def] using this
      have h4 := c1.mul h3
      simp only [sub_zero, mul_zero] at h4
      refine h4.congr fun t => ?_
      ring
    have hc : Tendsto (fun t => exp (-t) * (f t - vertical t)) (𝓝[<] 0) (𝓝 (exp (-z) * (f z - vertical z))) := by
      refine tendsto_const_nhds.congr' ?_
      filter_upwards [hneg] with t ht
      exact (hconst t ht).symm
    have h0 := tendsto_nhds_unique hc hl
    have := (mul_eq_zero.1 h0).resolve_left (exp_pos _).ne'
    linarith

/-! ### The formulas on the real axis -/

theorem expE1_far {z : ℝ} (hz : z < -16) : (expE1 (z : ℂ)).re = ev farL (1 / z) := by
  unfold expE1
  rw [if_pos (by simpa using hz), show (1 : ℂ) / (z : ℂ) = ((1 / z : ℝ) : ℂ) by push_cast; rfl, cev_real, Complex.ofReal_re]

theorem expE1_mid {z : ℝ} (h1 : -16 ≤ z) (h2 : z ≤ -1 / 2) : (expE1 (z : ℂ)).re = midRe z := by
  unfold expE1
  rw [if_neg (by simp; linarith), if_neg (by simp), if_neg (by simp; norm_num; linarith), if_neg (by simp), chor_ratio_re]

theorem expE1_near {z : ℝ} (h1 : -1 / 2 < z) (h2 : z < 0) : (expE1 (z : ℂ)).re = nearRe z := by
  unfold expE1
  rw [if_neg (by simp; linarith), if_neg (by simp), if_pos (by simp; norm_num; linarith), cev_real, cev_real, cev_real, Complex.div_ofReal_re]
  unfold nearRe
  rw [Complex.neg_re, Complex.add_re, Complex.re_mul_ofReal, Complex.log_re, Complex.norm_real, Real.norm_eq_abs, abs_of_neg h2,
    show ((gammaL : ℚ) : ℂ) = (((gammaL : ℚ) : ℝ) : ℂ) by push_cast; rfl, Complex.re_ofReal_mul, Complex.ofReal_re]

theorem fold_i1 (p : ℝ) (z : ℝ) (n : ℕ) (l : List ℕ) (v : Vals) :
    (l.foldl (fun v k => turn p expE1 0 z n v (k + 1)) v).i1 =
      v.i1 + (l.map fun k => deltaTheta p n (k + 1)).sum * (expE1 (z : ℂ)).re := by
  induction l generalizing v with
  | nil => simp
  | cons a l ih =>
    rw [List.foldl_cons, ih, List.map_cons, List.sum_cons]
    have e : ∀ t, zetaAt 0 z t = (z : ℂ) := fun t => by apply Complex.ext <;> simp [zetaAt]
    have e2 : (Complex.I * (p : ℂ) * expZeta (z : ℂ)).re = 0 := by
      unfold expZeta
      split
      · simp
      · rw [← Complex.ofReal_exp, mul_assoc, ← Complex.ofReal_mul]
        simp
    simp only [turn, e, Complex.add_re, e2]
    ring

/-- The weights add up to `PI`. -/
theorem weights_sum {p : ℝ} {M : ℕ} (hM : 0 < M) :
    ((List.range (2 * M + 1)).map fun k => deltaTheta p (2 * M + 1) (k + 1)).sum = p := by
  rw [list_sum_range]
  have h := simpS_one hM
  have hd : ∀ k, deltaTheta p (2 * M + 1) k = p / π * deltaTheta π (2 * M + 1) k := by
    intro k
    unfold deltaTheta
    have := pi_ne_zero
    have : (0 : ℝ) < M := by positivity
    have : (((2 * M + 1 : ℕ) : ℝ) - 1) ≠ 0 := by push_cast; simp; positivity
    split
    · field_simp
    · split <;> field_simp
  unfold simpS at h
  simp only [mul_one] at h
  simp only [hd, ← Finset.mul_sum]
  rw [h]
  have := pi_ne_zero
  field_simp

/-- The first integral for points on the same vertical, whatever the number of points and the constant `PI`. -/
theorem vertical_value {p : ℝ} (hp : p ≠ 0) (z : ℝ) {nb : ℕ} (hnb : 2 ≤ nb) :
    (numericalIntegration p expE1 0 z nb).i1 = 2 * (expE1 (z : ℂ)).re := by
  obtain ⟨M, hM, hn, -⟩ := nbPoints_eq nb hnb
  simp only [numericalIntegration, hn, fold_i1, weights_sum hM, zero_add]
  field_simp

/-- Deep points: the value is too large, by at most the seventh power of the inverse of the depth. -/
theorem vertical_far {p : ℝ} (hp : p ≠ 0) {z : ℝ} (hz : z < -16) {nb : ℕ} (hnb : 2 ≤ nb) :
    vertical z ≤ (numericalIntegration p expE1 0 z nb).i1 ∧
      (numericalIntegration p expE1 0 z nb).i1 ≤ vertical z + 3000 / |z| ^ 7 := by
  rw [vertical_value hp z hnb, expE1_far hz, vertical_target, abs_of_neg (by linarith)]
  obtain ⟨a, b⟩ := far_error hz.le
  have e : 3000 / (-z) ^ 7 = 2 * (1500 / (-z) ^ 7) := by ring
  rw [e]
  constructor <;> linarith

/-- Accuracy for all the points, except between -1 and -1/2. -/
theorem vertical_accuracy {p : ℝ} (hp : p ≠ 0) {z : ℝ} (hz : z < 0) (hout : z ≤ -1 ∨ -1 / 2 < z) {nb : ℕ} (hnb : 2 ≤ nb) :
    |(numericalIntegration p expE1 0 z nb).i1 - vertical z| ≤ 3e-4 := by
  rw [vertical_value hp z hnb, vertical_target, ← mul_sub, abs_mul, abs_of_pos (two_pos)]
  suffices h : |(expE1 (z : ℂ)).re - target z| ≤ 1.5e-4 by norm_num at h ⊢; linarith
  rcases lt_or_ge z (-16) with h16 | h16
  · rw [expE1_far h16]
    obtain ⟨a, b⟩ := far_error h16.le
    rw [abs_of_nonneg a]
    have h7 : (16 : ℝ) ^ 7 ≤ (-z) ^ 7 := pow_le_pow_left₀ (by norm_num) (by linarith) 7
    have : 1500 / (-z) ^ 7 ≤ 1500 / 16 ^ 7 := div_le_div_of_nonneg_left (by norm_num) (by norm_num) h7
    refine (b.trans this).trans (by norm_num)
  rcases hout with h1 | h1
  · rw [expE1_mid h16 (by linarith)]
    rcases le_total z (-2) with h2 | h2
    · exact (mid_third h16 h2).trans (by norm_num)
    · have a := abs_le.1 (mid_second h2 h1)
      have b := abs_le.1 (corr2_le h2 h1)
      rw [abs_le]
      norm_num at a b ⊢
      constructor <;> linarith [a.1, a.2, b.1, b.2]
  · rw [expE1_near h1 hz]
    exact (near_error h1.le hz).trans (by norm_num)

/-- Accuracy for all the points. -/
theorem vertical_accuracy_all {p : ℝ} (hp : p ≠ 0) {z : ℝ} (hz : z < 0) {nb : ℕ} (hnb : 2 ≤ nb) :
    |(numericalIntegration p expE1 0 z nb).i1 - vertical z| ≤ 1.7e-3 := by
  by_cases hout : z ≤ -1 ∨ -1 / 2 < z
  · exact (vertical_accuracy hp hz hout hnb).trans (by norm_num)
  · push Not at hout
    rw [vertical_value hp z hnb, vertical_target, ← mul_sub, abs_mul, abs_of_pos (two_pos), expE1_mid (by linarith) hout.2]
    have a := abs_le.1 (mid_first hout.1.le hout.2)
    have b := abs_le.1 (corr1_le hout.1.le hout.2)
    have : |midRe z - target z| ≤ 8.2e-4 := by
      rw [abs_le]
      norm_num at a b ⊢
      constructor <;> linarith [a.1, a.2, b.1, b.2]
    norm_num at this ⊢
    linarith

theorem half_error : 5.42e-4 ≤ (expE1 ((-1 / 2 : ℝ) : ℂ)).re - target (-1 / 2) := by
  rw [expE1_mid (by norm_num) le_rfl]
  have a := abs_le.1 target_half
  have b := abs_le.1 midRe_half
  norm_num at a b ⊢
  linarith [a.1, a.2, b.1, b.2]

/-- At the height -1/2 the error is more than three times the bound of the other points, and the integral jumps there. -/
theorem vertical_accuracy_violated {p : ℝ} (hp : p ≠ 0) {nb : ℕ} (hnb : 2 ≤ nb) :
    1e-3 < |(numericalIntegration p expE1 0 (-1 / 2) nb).i1 - vertical (-1 / 2)| ∧
      ∀ d > 0, ∃ z, -1 / 2 < z ∧ z < -1 / 2 + d ∧ z < 0 ∧
        9e-4 < |(numericalIntegration p expE1 0 z nb).i1 - (numericalIntegration p expE1 0 (-1 / 2) nb).i1| := by
  have h := half_error
  constructor
  · rw [vertical_value hp _ hnb, vertical_target, ← mul_sub, abs_mul, abs_of_pos two_pos]
    have := le_abs_self ((expE1 ((-1 / 2 : ℝ) : ℂ)).re - target (-1 / 2))
    norm_num at h this ⊢
    linarith
  · intro d hd
    have hc : ContinuousAt target (-1 / 2) := (target_deriv (by norm_num)).continuousAt
    obtain ⟨e, he, hcl⟩ := Metric.continuousAt_iff.1 hc 1e-5 (by norm_num)
    have hm : 0 < min (min d e) (1 / 2) := by positivity
    have m1 : min (min d e) (1 / 2) ≤ d := (min_le_left _ _).trans (min_le_left _ _)
    have m2 : min (min d e) (1 / 2) ≤ e := (min_le_left _ _).trans (min_le_right _ _)
    have m3 : min (min d e) (1 / 2) ≤ 1 / 2 := min_le_right _ _
    generalize min (min d e) (1 / 2) = m at *
    have hz0 : -1 / 2 + m / 2 < 0 := by linarith
    refine ⟨-1 / 2 + m / 2, by linarith, by linarith, hz0, ?_⟩
    have hz := hcl (x := -1 / 2 + m / 2) (by rw [Real.dist_eq, add_sub_cancel_left, abs_of_pos (by linarith)]; linarith)
    rw [Real.dist_eq] at hz
    rw [vertical_value hp _ hnb, vertical_value hp _ hnb, ← mul_sub, abs_mul, abs_of_pos two_pos, abs_sub_comm]
    have hn := near_error (z := -1 / 2 + m / 2) (by linarith) hz0
    rw [← expE1_near (by linarith) hz0] at hn
    have hz := abs_lt.1 hz
    have hn := abs_le.1 hn
    have := le_abs_self ((expE1 ((-1 / 2 : ℝ) : ℂ)).re - (expE1 ((-1 / 2 + m / 2 : ℝ) : ℂ)).re)
    generalize (expE1 ((-1 / 2 + m / 2 : ℝ) : ℂ)).re = a at *
    generalize (expE1 ((-1 / 2 : ℝ) : ℂ)).re = b at *
    norm_num at h hz hn ⊢
    linarith [hz.1, hz.2, hn.1, hn.2]

/-- A point of each of the formulas. -/
example : (-20 : ℝ) < -16 ∧ ((-3 : ℝ) ≤ -1 ∨ (-1 / 2 : ℝ) < -3) ∧ ((-1 / 4 : ℝ) ≤ -1 ∨ (-1 / 2 : ℝ) < -1 / 4) ∧ 2 ≤ 1000 ∧
    ((piSingle : ℚ) : ℝ) ≠ 0 := by
  refine ⟨by norm_num, Or.inl (by norm_num), Or.inr (by norm_num), by norm_num, ?_⟩
  have : piSingle ≠ 0 := by decide +kernel
  exact_mod_cast this

/-! ### Conjugate arguments -/

theorem cev_conj (l : List ℚ) (z : ℂ) : cev l (starRingEnd ℂ z) = starRingEnd ℂ (cev l z) := by
  induction l with
  | nil => simp [cev]
  | cons a l ih => simp [cev, ih]

theorem chor_conj (l : List (ℚ × ℚ)) (z : ℂ) : chor (conjL l) (starRingEnd ℂ z) = starRingEnd ℂ (chor l z) := by
  have key : ∀ (l : List (ℚ × ℚ)) (a b : ℂ), b = starRingEnd ℂ a →
      (conjL l).foldl (fun acc c => acc * starRingEnd ℂ z + ((c.1 : ℂ) + (c.2 : ℂ) * Complex.I)) b
        = starRingEnd ℂ (l.foldl (fun acc c => acc * z + ((c.1 : ℂ) + (c.2 : ℂ) * Complex.I)) a) := by
    intro l
    induction l with
    | nil => intro a b h; simpa [conjL] using h
    | cons c l ih =>
      intro a b h
      simp only [conjL, List.map_cons, List.foldl_cons] at ih ⊢
      refine ih _ _ ?_
      subst h
      simp
  exact key l 0 0 (by simp)

theorem conjL_conjL (l : List (ℚ × ℚ)) : conjL (conjL l) = l := by
  simp [conjL, Function.comp_def]

/-- Away from the real axis, conjugate arguments have conjugate values. -/
theorem exp_e1_conj {z : ℂ} (hz : z.im ≠ 0) : expE1 (starRingEnd ℂ z) = starRingEnd ℂ (expE1 z) := by
  have harg : z.arg ≠ π := by
    intro h
    exact hz ((Complex.arg_eq_pi_iff.1 h).2)
  have hlog : Complex.log (starRingEnd ℂ z) = starRingEnd ℂ (Complex.log z) := Complex.log_conj z harg
  unfold expE1
  rw [Complex.conj_re, Complex.conj_im, abs_neg]
  by_cases h1 : z.re < -16
  · rw [if_pos h1, if_pos h1, ← cev_conj]
    simp
  rw [if_neg h1, if_neg h1]
  by_cases h2 : 10 < |z.im|
  · rw [if_pos h2, if_pos h2]
    unfold poles
    simp only [map_add, map_div₀, map_ratCast]
  rw [if_neg h2, if_neg h2]
  by_cases h3 : -0.5 < z.re
  · rw [if_pos h3, if_pos h3]
    simp [cev_conj, hlog]
  rw [if_neg h3, if_neg h3]
  rcases lt_or_gt_of_ne hz with h4 | h4
  · rw [if_neg (by linarith), if_pos h4, map_div₀, ← chor_conj, ← chor_conj, conjL_conjL, conjL_conjL]
  · rw [if_pos (by linarith), if_neg (by linarith), map_div₀, ← chor_conj, ← chor_conj]

example : (⟨-3, 4⟩ : ℂ).im ≠ 0 := by norm_num

end Verif.Tabulation.ExpE1
