/-
The functions of Bessel of the second kind of order 0 and 1 as series (the functions of Neumann and Weber): the
specification for the approximations of `Verif.Green.FinBesselModel`, with their derivatives.  Nothing here depends on
the model.
-/
import Verif.Green.LwnSeries
import Verif.Green.EulerGamma

namespace Verif.Green.FinBessel

open Real Verif.Green.Lwn Verif.Green.PolyBound
open scoped Nat

/-- Bessel function of the second kind of order 0 (`x > 0`). -/
noncomputable def besselY0 (x : ℝ) : ℝ :=
  2 / π * ((log (x / 2) + eulerMascheroniConstant) * besselJ 0 x
    - ∑' k : ℕ, (-1) ^ k * harmonic k / (k ! * k !) * (x / 2) ^ (2 * k))

/-- Bessel function of the second kind of order 1 (`x > 0`). -/
noncomputable def besselY1 (x : ℝ) : ℝ :=
  2 / π * (log (x / 2) + eulerMascheroniConstant) * besselJ 1 x - 2 / (π * x)
    - 1 / π * ∑' k : ℕ, (-1) ^ k * (harmonic k + harmonic (k + 1)) / (k ! * (k + 1)!) * (x / 2) ^ (2 * k + 1)

/-- The coefficient of `x ^ (2 k)` in the second term of the function of order 0. -/
def cY0 (k : ℕ) : ℚ := -((-1) ^ k * harmonic k / (4 ^ k * (k ! : ℚ) ^ 2))

/-- The coefficient of `x ^ (2 k + 1)` in the last term of the function of order 1. -/
def cY1 (k : ℕ) : ℚ := -((-1) ^ k * (harmonic k + harmonic (k + 1)) / (4 * 4 ^ k * (k ! : ℚ) * ((k + 1)! : ℚ)))

theorem besselY0_eq (x : ℝ) : besselY0 x = 2 / π * ((log (x / 2) + eulerMascheroniConstant) * besselJ 0 x
    + ∑' k : ℕ, (cY0 k : ℝ) * x ^ (2 * k)) := by
  unfold besselY0 cY0
  rw [sub_eq_add_neg, ← tsum_neg]
  congr 2
  refine tsum_congr fun k => ?_
  push_cast
  rw [div_pow, pow_mul 2 2 k]
  norm_num
  have : (k ! : ℝ) ≠ 0 := by positivity
  field_simp

theorem besselY1_eq (x : ℝ) : besselY1 x = 2 / π * ((log (x / 2) + eulerMascheroniConstant) * besselJ 1 x - 1 / x
    + ∑' k : ℕ, (cY1 k : ℝ) * x ^ (2 * k + 1)) := by
  unfold besselY1 cY1
  have : ∑' k : ℕ, (-1) ^ k * ((harmonic k : ℝ) + harmonic (k + 1)) / (k ! * (k + 1)!) * (x / 2) ^ (2 * k + 1)
      = -2 * ∑' k : ℕ, ((-((-1) ^ k * (harmonic k + harmonic (k + 1)) / (4 * 4 ^ k * (k ! : ℚ) * ((k + 1)! : ℚ))) : ℚ)
        : ℝ) * x ^ (2 * k + 1) := by
    rw [← tsum_mul_left]
    refine tsum_congr fun k => ?_
    push_cast
    rw [div_pow, pow_succ 2 (2 * k), pow_mul 2 2 k]
    norm_num
    have : (k ! : ℝ) ≠ 0 := by positivity
    have : ((k + 1)! : ℝ) ≠ 0 := by positivity
    field_simp
    norm_num
  rw [this]
  have : π ≠ 0 := pi_ne_zero
  field_simp
  ring

theorem harmonic_nonneg (k : ℕ) : 0 ≤ harmonic k := by
  unfold harmonic
  exact Finset.sum_nonneg fun i _ => by positivity

theorem harmonic_le (k : ℕ) : harmonic k ≤ k := by
  induction k with
  | zero => simp
  | succ k ih =>
      rw [harmonic_succ]
      have : ((k + 1 : ℕ) : ℚ)⁻¹ ≤ 1 := by
        apply inv_le_one_of_one_le₀
        push_cast
        have : (0 : ℚ) ≤ k := by positivity
        linarith
      push_cast at *
      linarith

theorem cY0_small (k : ℕ) : |(cY0 k : ℝ)| ≤ 1 / k ! := by
  have h : |cY0 k| ≤ 1 / k ! := by
    unfold cY0
    rw [abs_neg, abs_div, abs_mul, abs_pow, abs_neg, abs_one, one_pow, one_mul, abs_of_nonneg (harmonic_nonneg k),
      abs_of_pos (by positivity), div_le_div_iff₀ (by positivity) (by positivity)]
    have h1 := harmonic_le k
    have h2 : (k : ℚ) ≤ 4 ^ k := by
      have : k < 4 ^ k := Nat.lt_pow_self (by norm_num)
      exact_mod_cast this.le
    have h3 : (1 : ℚ) ≤ k ! := by exact_mod_cast Nat.factorial_pos k
    calc harmonic k * k ! ≤ 4 ^ k * k ! := by gcongr; linarith
      _ ≤ 4 ^ k * (k ! * k !) := by gcongr; nlinarith
      _ = _ := by ring
  have := (Rat.cast_le (K := ℝ)).mpr h
  push_cast at this
  exact this

theorem cY1_small (k : ℕ) : |(cY1 k : ℝ)| ≤ 1 / k ! := by
  have h : |cY1 k| ≤ 1 / k ! := by
    unfold cY1
    rw [abs_neg, abs_div, abs_mul, abs_pow, abs_neg, abs_one, one_pow, one_mul,
      abs_of_nonneg (add_nonneg (harmonic_nonneg k) (harmonic_nonneg (k + 1))),
      abs_of_pos (by positivity), div_le_div_iff₀ (by positivity) (by positivity)]
    have h1 := harmonic_le k
    have h1' := harmonic_le (k + 1)
    have h2 : (k : ℚ) + 1 ≤ 4 ^ k := by
      have : k < 4 ^ k := Nat.lt_pow_self (by norm_num)
      exact_mod_cast this
    have h3 : (1 : ℚ) ≤ (k + 1)! := by exact_mod_cast Nat.factorial_pos (k + 1)
    push_cast at h1'
    calc (harmonic k + harmonic (k + 1)) * k ! ≤ 4 * 4 ^ k * k ! := by gcongr; linarith
      _ = 4 * 4 ^ k * k ! * 1 := by ring
      _ ≤ 4 * 4 ^ k * k ! * (k + 1)! := by gcongr
      _ = _ := by ring
  have := (Rat.cast_le (K := ℝ)).mpr h
  push_cast at this
  exact this

theorem deriv_summable (c : ℕ → ℝ) (hc : ∀ k, |c k| ≤ 1 / k !) (m : ℕ) (x : ℝ) :
    Summable fun k : ℕ => c k * ((2 * k + m) * x ^ (2 * k + m - 1)) := by
  refine Summable.of_norm_bounded (majorant_summable m |x| (abs_nonneg x)) fun k => ?_
  rw [norm_mul, norm_mul, norm_pow, Real.norm_eq_abs, Real.norm_eq_abs, Real.norm_eq_abs,
    abs_of_nonneg (show (0 : ℝ) ≤ 2 * k + m by positivity)]
  exact mul_le_mul_of_nonneg_right (hc k) (by positivity)

theorem log_half_deriv (x : ℝ) (hx : 0 < x) : HasDerivAt (fun x => log (x / 2)) (1 / x) x := by
  have h := ((hasDerivAt_id x).div_const 2).log (by simpa using hx.ne')
  refine h.congr_deriv ?_
  simp only [id]
  field_simp

/-- The derivative of the function of order 0. -/
theorem besselY0_deriv (x : ℝ) (hx : 0 < x) : HasDerivAt besselY0 (-besselY1 x) x := by
  have hs := series_deriv _ cY0_small 0 x
  simp only [Nat.add_zero] at hs
  have h := (((log_half_deriv x hx).add_const eulerMascheroniConstant).mul (besselJ_zero_deriv x)).add hs
  have h := h.const_mul (2 / π)
  have e : besselY0 = fun x => 2 / π * ((log (x / 2) + eulerMascheroniConstant) * besselJ 0 x
    + ∑' k : ℕ, (cY0 k : ℝ) * x ^ (2 * k)) := funext besselY0_eq
  rw [e]
  refine h.congr_deriv ?_
  rw [besselY1_eq]
  have key : 1 / x * besselJ 0 x + ∑' k : ℕ, (cY0 k : ℝ) * ((2 * k + (0 : ℕ)) * x ^ (2 * k - 1))
      = 1 / x - ∑' k : ℕ, (cY1 k : ℝ) * x ^ (2 * k + 1) := by
    have s0 := series_summable _ cJ0_small 0 x
    have s1 := deriv_summable _ cY0_small 0 x
    simp only [Nat.add_zero] at s0 s1
    rw [besselJ_zero, s0.tsum_eq_zero_add, s1.tsum_eq_zero_add]
    have t0 : Summable fun k : ℕ => (cJ0 (k + 1) : ℝ) * x ^ (2 * (k + 1)) := (summable_nat_add_iff 1).mpr s0
    have t1 : Summable fun k : ℕ => (cY0 (k + 1) : ℝ) * ((2 * ((k + 1 : ℕ) : ℝ) + (0 : ℕ)) * x ^ (2 * (k + 1) - 1)) :=
      (summable_nat_add_iff 1).mpr s1
    rw [mul_add, ← tsum_mul_left, add_assoc]
    have e0 : 1 / x * ((cJ0 0 : ℝ) * x ^ (2 * 0)) = 1 / x := by simp [cJ0]
    have e1 : (cY0 0 : ℝ) * ((2 * ((0 : ℕ) : ℝ) + (0 : ℕ)) * x ^ (2 * 0 - 1)) = 0 := by simp
    rw [e0, e1, zero_add, ← Summable.tsum_add (t0.mul_left (1 / x)) t1, sub_eq_add_neg, ← tsum_neg]
    congr 1
    refine tsum_congr fun k => ?_
    rw [show 2 * (k + 1) - 1 = 2 * k + 1 from by omega]
    unfold cJ0 cY0 cY1
    rw [harmonic_succ, Nat.factorial_succ]
    push_cast
    have : (k ! : ℝ) ≠ 0 := by positivity
    field_simp
    ring
  linear_combination (2 / π) * key

/-- The derivative of `x` times the function of order 1. -/
theorem mul_besselY1_deriv (x : ℝ) (hx : 0 < x) :
    HasDerivAt (fun x => x * besselY1 x) (x * besselY0 x) x := by
  have hs := series_deriv _ cY1_small 2 x
  have h := ((((log_half_deriv x hx).add_const eulerMascheroniConstant).mul (mul_besselJ_one_deriv x)).sub_const 1).add hs
  have h := h.const_mul (2 / π)
  have e : (fun x => 2 / π * ((log (x / 2) + eulerMascheroniConstant) * (x * besselJ 1 x) - 1
      + ∑' k : ℕ, (cY1 k : ℝ) * x ^ (2 * k + 2))) =ᶠ[nhds x] fun x => x * besselY1 x := by
    filter_upwards [isOpen_ne.mem_nhds hx.ne'] with y hy
    have hy' : y ≠ 0 := hy
    have e3 : ∑' k : ℕ, (cY1 k : ℝ) * y ^ (2 * k + 2) = y * ∑' k : ℕ, (cY1 k : ℝ) * y ^ (2 * k + 1) := by
      rw [← tsum_mul_left]
      exact tsum_congr fun k => by ring
    rw [e3, besselY1_eq]
    field_simp
  refine (HasDerivAt.congr_of_eventuallyEq h e.symm).congr_deriv ?_
  rw [besselY0_eq]
  have key : 1 / x * (x * besselJ 1 x) + ∑' k : ℕ, (cY1 k : ℝ) * ((2 * k + (2 : ℕ)) * x ^ (2 * k + 2 - 1))
      = x * ∑' k : ℕ, (cY0 k : ℝ) * x ^ (2 * k) := by
    have s0 := series_summable _ cJ1_small 1 x
    have s1 := deriv_summable _ cY1_small 2 x
    rw [show 1 / x * (x * besselJ 1 x) = besselJ 1 x by field_simp, besselJ_one, ← Summable.tsum_add s0 s1,
      ← tsum_mul_left]
    refine tsum_congr fun k => ?_
    rw [show 2 * k + 2 - 1 = 2 * k + 1 from by omega]
    unfold cJ1 cY0 cY1
    rw [harmonic_succ, Nat.factorial_succ]
    push_cast
    have : (k ! : ℝ) ≠ 0 := by positivity
    field_simp
    ring
  linear_combination (2 / π) * key

/-- The derivative of the function of order 1. -/
theorem besselY1_deriv (x : ℝ) (hx : 0 < x) : HasDerivAt besselY1 (besselY0 x - besselY1 x / x) x := by
  have h := (mul_besselY1_deriv x hx).mul (hasDerivAt_inv hx.ne')
  have e : (fun y => besselY1 y) =ᶠ[nhds x] (fun y => y * besselY1 y) * Inv.inv := by
    filter_upwards [isOpen_ne.mem_nhds hx.ne'] with y hy
    have hy' : y ≠ 0 := hy
    simp only [Pi.mul_apply]
    field_simp
  refine (h.congr_of_eventuallyEq e).congr_deriv ?_
  field_simp
  ring

end Verif.Green.FinBessel
