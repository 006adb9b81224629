import Verif.Tabulation.ExpE1Model
import Mathlib.Analysis.SpecialFunctions.Gamma.Basic
import Mathlib.MeasureTheory.Integral.Bochner.Set
import Mathlib.Tactic.NormNum

/-!
# Accuracy of `exp_e1` far from the origin, off the real axis

Specification: the integral of `exp (-t) / (z + t)` over the positive numbers, that is `exp z` times the integral of `exp (-s) / s` from `z` to
infinity along a horizontal line.
-/

namespace Verif.Tabulation.ExpE1

open MeasureTheory Set
open scoped Nat

/-- The product of the exponential function and the exponential integral, off the negative real axis. -/
noncomputable def laplace (z : ℂ) : ℂ := ∫ t in Ioi (0 : ℝ), (Real.exp (-t) : ℂ) / (z + t)

theorem moment_integrable (k : ℕ) : IntegrableOn (fun t : ℝ => Real.exp (-t) * t ^ k) (Ioi 0) := by
  have h := Real.GammaIntegral_convergent (s := (k : ℝ) + 1) (by positivity)
  simpa using h

theorem moment (k : ℕ) : ∫ t in Ioi (0 : ℝ), Real.exp (-t) * t ^ k = (k ! : ℝ) := by
  have h := Real.Gamma_eq_integral (s := (k : ℝ) + 1) (by positivity)
  rw [Real.Gamma_nat_eq_factorial] at h
  simpa using h.symm

/-- Division of the geometric series. -/
theorem inverse_split {z t : ℂ} (hz : z ≠ 0) (ht : z + t ≠ 0) :
    1 / (z + t) = 1 / z - t / z ^ 2 + t ^ 2 / z ^ 3 - t ^ 3 / z ^ 4 + t ^ 4 / z ^ 5 - t ^ 5 / z ^ 6 + t ^ 6 / (z ^ 6 * (z + t)) := by
  field_simp
  ring

theorem im_le_norm_add (z : ℂ) (t : ℝ) : |z.im| ≤ ‖z + t‖ := by
  have := Complex.abs_im_le_norm (z + t)
  simpa using this

theorem add_ne (z : ℂ) (hz : z.im ≠ 0) (t : ℝ) : z + t ≠ 0 := by
  intro h
  have := congrArg Complex.im h
  simp at this
  exact hz this

/-- The sum of the first case. -/
noncomputable def farSum (z : ℂ) : ℂ := 1 / z - 1 / z ^ 2 + 2 / z ^ 3 - 6 / z ^ 4 + 24 / z ^ 5 - 120 / z ^ 6

theorem far_eq (z : ℂ) : cev farL (1 / z) = farSum z := by
  unfold farSum
  simp only [cev, farL]
  push_cast
  ring

theorem laplace_far {z : ℂ} (hz : z.im ≠ 0) : ‖laplace z - farSum z‖ ≤ 720 / (‖z‖ ^ 6 * |z.im|) := by
  have hz0 : z ≠ 0 := by rintro rfl; simp at hz
  have hi : 0 < |z.im| := abs_pos.2 hz
  have hn : 0 < ‖z‖ := norm_pos_iff.2 hz0
  have hm : ∀ k : ℕ, Integrable (fun t : ℝ => ((Real.exp (-t) * t ^ k : ℝ) : ℂ)) (volume.restrict (Ioi 0)) := fun k =>
    (moment_integrable k).ofReal
  have im : ∀ k : ℕ, ∫ t in Ioi (0 : ℝ), ((Real.exp (-t) * t ^ k : ℝ) : ℂ) = ((k ! : ℝ) : ℂ) := fun k => by
    rw [integral_complex_ofReal, moment]
  let R : ℝ → ℂ := fun t => ((Real.exp (-t) * t ^ 6 : ℝ) : ℂ) * (1 / (z ^ 6 * (z + t)))
  have hb : ∀ᵐ t ∂(volume.restrict (Ioi (0 : ℝ))), ‖R t‖ ≤ Real.exp (-t) * t ^ 6 * (1 / (‖z‖ ^ 6 * |z.im|)) := by
    refine Filter.Eventually.of_forall fun t => ?_
    have h6 : 0 ≤ Real.exp (-t) * t ^ 6 := by positivity
    simp only [R, norm_mul, Complex.norm_real, Real.norm_of_nonneg h6, norm_div, norm_one, norm_pow]
    refine mul_le_mul_of_nonneg_left ?_ h6
    exact div_le_div_of_nonneg_left zero_le_one (by positivity) (mul_le_mul_of_nonneg_left (im_le_norm_add z t) (by positivity))
  have hcont : Continuous R := by
    refine (Complex.continuous_ofReal.comp (by fun_prop)).mul (continuous_const.div (by fun_prop) fun t => ?_)
    exact mul_ne_zero (pow_ne_zero _ hz0) (add_ne z hz t)
  have hR : Integrable R (volume.restrict (Ioi 0)) :=
    ((moment_integrable 6).mul_const _).mono' hcont.aestronglyMeasurable hb
  let c : ℕ → ℂ := fun k => (-1) ^ k / z ^ (k + 1)
  have split : ∀ t : ℝ, (Real.exp (-t) : ℂ) / (z + t) = ∑ k ∈ Finset.range 6, ((Real.exp (-t) * t ^ k : ℝ) : ℂ) * c k + R t := by
    intro t
    rw [div_eq_mul_one_div, inverse_split hz0 (add_ne z hz t)]
    simp only [R, c, Finset.sum_range_succ, Finset.sum_range_zero]
    push_cast
    ring
  have hk := fun k (_ : k ∈ Finset.range 6) => (hm k).mul_const (c k)
  have e : laplace z - farSum z = ∫ t in Ioi (0 : ℝ), R t := by
    unfold laplace
    simp only [split]
    rw [integral_add (integrable_finsetSum _ hk) hR, integral_finsetSum _ hk]
    simp only [integral_mul_const, im, farSum, Nat.factorial, Finset.sum_range_succ, Finset.sum_range_zero, c]
    push_cast
    ring
  rw [e]
  refine (norm_integral_le_of_norm_le ((moment_integrable 6).mul_const _) hb).trans_eq ?_
  rw [integral_mul_const, moment]
  simp only [Nat.factorial]
  push_cast
  ring

/-- The first case, off the real axis. -/
theorem exp_e1_first {z : ℂ} (h1 : z.re < -16) (h2 : z.im ≠ 0) : ‖expE1 z - laplace z‖ ≤ 720 / (‖z‖ ^ 6 * |z.im|) := by
  unfold expE1
  rw [if_pos h1, far_eq, norm_sub_rev]
  exact laplace_far h2

/-- The moments of the three poles. -/
def poleMoment (k : ℕ) : ℚ := 0.711093 * 0.415775 ^ k + 0.278518 * 2.29428 ^ k + 0.010389 * 6.2900 ^ k

theorem poles_far {z : ℂ} (hz : z.im ≠ 0) :
    ‖poles z - ((poleMoment 0 : ℂ) / z - (poleMoment 1 : ℂ) / z ^ 2 + (poleMoment 2 : ℂ) / z ^ 3 - (poleMoment 3 : ℂ) / z ^ 4
      + (poleMoment 4 : ℂ) / z ^ 5 - (poleMoment 5 : ℂ) / z ^ 6)‖ ≤ (poleMoment 6 : ℝ) / (‖z‖ ^ 6 * |z.im|) := by
  have hz0 : z ≠ 0 := by rintro rfl; simp at hz
  have hi : 0 < |z.im| := abs_pos.2 hz
  have hn : 0 < ‖z‖ := norm_pos_iff.2 hz0
  have a1 : z + ((0.415775 : ℚ) : ℂ) ≠ 0 := by simpa using add_ne z hz ((0.415775 : ℚ) : ℝ)
  have a2 : z + ((2.29428 : ℚ) : ℂ) ≠ 0 := by simpa using add_ne z hz ((2.29428 : ℚ) : ℝ)
  have a3 : z + ((6.2900 : ℚ) : ℂ) ≠ 0 := by simpa using add_ne z hz ((6.2900 : ℚ) : ℝ)
  have b1 : |z.im| ≤ ‖z + ((0.415775 : ℚ) : ℂ)‖ := by simpa using im_le_norm_add z ((0.415775 : ℚ) : ℝ)
  have b2 : |z.im| ≤ ‖z + ((2.29428 : ℚ) : ℂ)‖ := by simpa using im_le_norm_add z ((2.29428 : ℚ) : ℝ)
  have b3 : |z.im| ≤ ‖z + ((6.2900 : ℚ) : ℂ)‖ := by simpa using im_le_norm_add z ((6.2900 : ℚ) : ℝ)
  have gen : ∀ (w x : ℚ), 0 ≤ w → |z.im| ≤ ‖z + ((x : ℚ) : ℂ)‖ →
      ‖((w : ℂ)) * ((x : ℂ) ^ 6 / (z ^ 6 * (z + x)))‖ ≤ ((w * x ^ 6 : ℚ) : ℝ) / (‖z‖ ^ 6 * |z.im|) := by
    intro w x hw hx
    have hw' : (0 : ℝ) ≤ w := by exact_mod_cast hw
    have hx6 : (0 : ℝ) ≤ (x : ℝ) ^ 6 := by positivity
    rw [norm_mul, norm_div, norm_mul, norm_pow, norm_pow]
    have e1 : ‖((w : ℚ) : ℂ)‖ = (w : ℝ) := by
      rw [← Complex.ofReal_ratCast, Complex.norm_real, Real.norm_of_nonneg hw']
    have e2 : ‖((x : ℚ) : ℂ)‖ ^ 6 = (x : ℝ) ^ 6 := by
      rw [← Complex.ofReal_ratCast, Complex.norm_real, Real.norm_eq_abs, Even.pow_abs (by decide)]
    rw [e1, e2]
    push_cast
    rw [mul_div_assoc]
    refine mul_le_mul_of_nonneg_left ?_ hw'
    exact div_le_div_of_nonneg_left hx6 (by positivity) (mul_le_mul_of_nonneg_left hx (by positivity))
  have g1 := gen 0.711093 0.415775 (by norm_num) b1
  have g2 := gen 0.278518 2.29428 (by norm_num) b2
  have g3 := gen 0.010389 6.2900 (by norm_num) b3
  have e : poles z - ((poleMoment 0 : ℂ) / z - (poleMoment 1 : ℂ) / z ^ 2 + (poleMoment 2 : ℂ) / z ^ 3 - (poleMoment 3 : ℂ) / z ^ 4
      + (poleMoment 4 : ℂ) / z ^ 5 - (poleMoment 5 : ℂ) / z ^ 6) =
      ((0.711093 : ℚ) : ℂ) * (((0.415775 : ℚ) : ℂ) ^ 6 / (z ^ 6 * (z + ((0.415775 : ℚ) : ℂ))))
      + ((0.278518 : ℚ) : ℂ) * (((2.29428 : ℚ) : ℂ) ^ 6 / (z ^ 6 * (z + ((2.29428 : ℚ) : ℂ))))
      + ((0.010389 : ℚ) : ℂ) * (((6.2900 : ℚ) : ℂ) ^ 6 / (z ^ 6 * (z + ((6.2900 : ℚ) : ℂ)))) := by
    unfold poles poleMoment
    generalize (0.711093 : ℚ) = w1
    generalize (0.278518 : ℚ) = w2
    generalize (0.010389 : ℚ) = w3
    generalize (0.415775 : ℚ) = x1 at *
    generalize (2.29428 : ℚ) = x2 at *
    generalize (6.2900 : ℚ) = x3 at *
    rw [div_eq_mul_one_div (w1 : ℂ), div_eq_mul_one_div (w2 : ℂ), div_eq_mul_one_div (w3 : ℂ), inverse_split hz0 a1, inverse_split hz0 a2,
      inverse_split hz0 a3]
    push_cast
    ring
  rw [e]
  refine (norm_add₃_le.trans (add_le_add_three g1 g2 g3)).trans_eq ?_
  unfold poleMoment
  push_cast
  ring

theorem pole_term (q : ℚ) (c : ℕ) (e : ℚ) (n : ℕ) (h : |q - c| ≤ e) {z : ℂ} (hz : 10 < ‖z‖) :
    ‖((q : ℂ) - c) / z ^ n‖ ≤ (e : ℝ) / 10 ^ n := by
  have h' : |(q : ℝ) - c| ≤ e := by exact_mod_cast h
  have e1 : ‖(q : ℂ) - c‖ = |(q : ℝ) - c| := by
    rw [← Complex.ofReal_ratCast, ← Complex.ofReal_natCast, ← Complex.ofReal_sub, Complex.norm_real, Real.norm_eq_abs]
  rw [norm_div, norm_pow, e1]
  have : (10 : ℝ) ^ n ≤ ‖z‖ ^ n := pow_le_pow_left₀ (by norm_num) hz.le n
  have h0 : (0 : ℝ) ≤ e := (abs_nonneg _).trans h'
  exact div_le_div₀ h0 h' (by positivity) this

/-- The third case. -/
theorem exp_e1_third {z : ℂ} (h1 : -16 ≤ z.re) (h2 : 10 < |z.im|) : ‖expE1 z - laplace z‖ ≤ 1.5e-4 := by
  have hi : z.im ≠ 0 := by intro h; rw [h] at h2; norm_num at h2
  have hn : 10 < ‖z‖ := h2.trans_le (Complex.abs_im_le_norm z)
  unfold expE1
  rw [if_neg (not_lt.2 h1), if_pos h2]
  have a := poles_far hi
  have b := laplace_far hi
  have t0 := pole_term (poleMoment 0) 1 1e-6 1 (by decide +kernel) hn
  have t1 := pole_term (poleMoment 1) 1 1e-5 2 (by decide +kernel) hn
  have t2 := pole_term (poleMoment 2) 2 1e-4 3 (by decide +kernel) hn
  have t3 := pole_term (poleMoment 3) 6 1e-3 4 (by decide +kernel) hn
  have t4 := pole_term (poleMoment 4) 24 1e-2 5 (by decide +kernel) hn
  have t5 := pole_term (poleMoment 5) 120 5e-2 6 (by decide +kernel) hn
  have den : (10 : ℝ) ^ 7 ≤ ‖z‖ ^ 6 * |z.im| := by
    have : (10 : ℝ) ^ 6 ≤ ‖z‖ ^ 6 := pow_le_pow_left₀ (by norm_num) hn.le 6
    calc (10 : ℝ) ^ 7 = 10 ^ 6 * 10 := by norm_num
      _ ≤ _ := mul_le_mul this h2.le (by norm_num) (by positivity)
  have q6 : (poleMoment 6 : ℝ) ≤ 690 := by
    have : poleMoment 6 ≤ 690 := by decide +kernel
    exact_mod_cast this
  have q60 : (0 : ℝ) ≤ (poleMoment 6 : ℝ) := by
    have : 0 ≤ poleMoment 6 := by decide +kernel
    exact_mod_cast this
  have a' : (poleMoment 6 : ℝ) / (‖z‖ ^ 6 * |z.im|) ≤ 690 / 10 ^ 7 := div_le_div₀ (by norm_num) q6 (by norm_num) den
  have b' : 720 / (‖z‖ ^ 6 * |z.im|) ≤ 720 / 10 ^ 7 := div_le_div_of_nonneg_left (by norm_num) (by norm_num) den
  have a := a.trans a'
  have b := b.trans b'
  rw [norm_sub_rev] at b
  let P : ℂ := (poleMoment 0 : ℂ) / z - (poleMoment 1 : ℂ) / z ^ 2 + (poleMoment 2 : ℂ) / z ^ 3 - (poleMoment 3 : ℂ) / z ^ 4
      + (poleMoment 4 : ℂ) / z ^ 5 - (poleMoment 5 : ℂ) / z ^ 6
  have c : ‖P - farSum z‖ ≤ 1e-6 := by
    have e : P - farSum z = ((poleMoment 0 : ℂ) - (1 : ℕ)) / z ^ 1 - ((poleMoment 1 : ℂ) - (1 : ℕ)) / z ^ 2
        + ((poleMoment 2 : ℂ) - (2 : ℕ)) / z ^ 3 - ((poleMoment 3 : ℂ) - (6 : ℕ)) / z ^ 4
        + ((poleMoment 4 : ℂ) - (24 : ℕ)) / z ^ 5 - ((poleMoment 5 : ℂ) - (120 : ℕ)) / z ^ 6 := by
      simp only [P, farSum]
      push_cast
      ring
    rw [e]
    have s := norm_sub_le (((poleMoment 0 : ℂ) - (1 : ℕ)) / z ^ 1 - ((poleMoment 1 : ℂ) - (1 : ℕ)) / z ^ 2
        + ((poleMoment 2 : ℂ) - (2 : ℕ)) / z ^ 3 - ((poleMoment 3 : ℂ) - (6 : ℕ)) / z ^ 4
        + ((poleMoment 4 : ℂ) - (24 : ℕ)) / z ^ 5) (((poleMoment 5 : ℂ) - (120 : ℕ)) / z ^ 6)
    have s1 := norm_add_le (((poleMoment 0 : ℂ) - (1 : ℕ)) / z ^ 1 - ((poleMoment 1 : ℂ) - (1 : ℕ)) / z ^ 2
        + ((poleMoment 2 : ℂ) - (2 : ℕ)) / z ^ 3 - ((poleMoment 3 : ℂ) - (6 : ℕ)) / z ^ 4) (((poleMoment 4 : ℂ) - (24 : ℕ)) / z ^ 5)
    have s2 := norm_sub_le (((poleMoment 0 : ℂ) - (1 : ℕ)) / z ^ 1 - ((poleMoment 1 : ℂ) - (1 : ℕ)) / z ^ 2
        + ((poleMoment 2 : ℂ) - (2 : ℕ)) / z ^ 3) (((poleMoment 3 : ℂ) - (6 : ℕ)) / z ^ 4)
    have s3 := norm_add_le (((poleMoment 0 : ℂ) - (1 : ℕ)) / z ^ 1 - ((poleMoment 1 : ℂ) - (1 : ℕ)) / z ^ 2)
      (((poleMoment 2 : ℂ) - (2 : ℕ)) / z ^ 3)
    have s4 := norm_sub_le (((poleMoment 0 : ℂ) - (1 : ℕ)) / z ^ 1) (((poleMoment 1 : ℂ) - (1 : ℕ)) / z ^ 2)
    have total := s.trans (add_le_add (s1.trans (add_le_add (s2.trans (add_le_add (s3.trans (add_le_add (s4.trans
      (add_le_add t0 t1)) t2)) t3)) t4)) t5)
    refine total.trans ?_
    push_cast
    norm_num
  have e : poles z - laplace z = (poles z - P) + (P - farSum z) + (farSum z - laplace z) := by ring
  rw [e]
  refine (norm_add₃_le.trans (add_le_add_three a c b)).trans ?_
  norm_num

example : (-16 : ℝ) ≤ (⟨-3, 12⟩ : ℂ).re ∧ 10 < |(⟨-3, 12⟩ : ℂ).im| := by norm_num

example : (⟨-20, 3⟩ : ℂ).re < -16 ∧ (⟨-20, 3⟩ : ℂ).im ≠ 0 := by norm_num

end Verif.Tabulation.ExpE1
