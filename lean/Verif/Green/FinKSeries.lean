/-
The modified functions of Bessel of order 0 and 1 as series: the specification for the approximations of
`Verif.Green.FinKModel`, with their derivatives and their Wronskian.  Nothing here depends on the model.
-/
import Verif.Green.FinBesselSeries
import Mathlib.Analysis.Calculus.Deriv.MeanValue

namespace Verif.Green.FinK

open Real Verif.Green.Lwn Verif.Green.PolyBound Verif.Green.FinBessel
open scoped Nat

/-- Modified Bessel function of the first kind of order `n`. -/
noncomputable def besselI (n : ℕ) (x : ℝ) : ℝ :=
  ∑' k : ℕ, 1 / (k ! * (k + n)!) * (x / 2) ^ (2 * k + n)

/-- Modified Bessel function of the second kind of order 0 (`x > 0`). -/
noncomputable def besselK0 (x : ℝ) : ℝ :=
  -(log (x / 2) + eulerMascheroniConstant) * besselI 0 x
    + ∑' k : ℕ, harmonic k / (k ! * k !) * (x / 2) ^ (2 * k)

/-- Modified Bessel function of the second kind of order 1 (`x > 0`). -/
noncomputable def besselK1 (x : ℝ) : ℝ :=
  1 / x + (log (x / 2) + eulerMascheroniConstant) * besselI 1 x
    - 1 / 2 * ∑' k : ℕ, (harmonic k + harmonic (k + 1)) / (k ! * (k + 1)!) * (x / 2) ^ (2 * k + 1)

/-- The coefficient of `x ^ (2 k)` in the function of the first kind of order 0. -/
def cI0 (k : ℕ) : ℚ := 1 / (4 ^ k * (k ! : ℚ) ^ 2)

/-- The coefficient of `x ^ (2 k + 1)` in the function of the first kind of order 1. -/
def cI1 (k : ℕ) : ℚ := 1 / (2 * 4 ^ k * (k ! : ℚ) * ((k + 1)! : ℚ))

/-- The coefficient of `x ^ (2 k)` in the second term of the function of the second kind of order 0. -/
def cK0 (k : ℕ) : ℚ := harmonic k / (4 ^ k * (k ! : ℚ) ^ 2)

/-- The coefficient of `x ^ (2 k + 1)` in the last term of the function of the second kind of order 1. -/
def cK1 (k : ℕ) : ℚ := -((harmonic k + harmonic (k + 1)) / (4 * 4 ^ k * (k ! : ℚ) * ((k + 1)! : ℚ)))

theorem besselI_zero (x : ℝ) : besselI 0 x = ∑' k : ℕ, (cI0 k : ℝ) * x ^ (2 * k) := by
  unfold besselI cI0
  refine tsum_congr fun k => ?_
  push_cast
  rw [Nat.add_zero, Nat.add_zero, div_pow, pow_mul 2 2 k]
  norm_num
  have : (k ! : ℝ) ≠ 0 := by positivity
  field_simp

theorem besselI_one (x : ℝ) : besselI 1 x = ∑' k : ℕ, (cI1 k : ℝ) * x ^ (2 * k + 1) := by
  unfold besselI cI1
  refine tsum_congr fun k => ?_
  push_cast
  rw [div_pow, pow_succ 2 (2 * k), pow_mul 2 2 k]
  norm_num
  have : (k ! : ℝ) ≠ 0 := by positivity
  have : ((k + 1)! : ℝ) ≠ 0 := by positivity
  field_simp

theorem besselK0_eq (x : ℝ) : besselK0 x = -(log (x / 2) + eulerMascheroniConstant) * besselI 0 x
    + ∑' k : ℕ, (cK0 k : ℝ) * x ^ (2 * k) := by
  unfold besselK0 cK0
  congr 1
  refine tsum_congr fun k => ?_
  push_cast
  rw [div_pow, pow_mul 2 2 k]
  norm_num
  have : (k ! : ℝ) ≠ 0 := by positivity
  field_simp

theorem besselK1_eq (x : ℝ) : besselK1 x = 1 / x + (log (x / 2) + eulerMascheroniConstant) * besselI 1 x
    + ∑' k : ℕ, (cK1 k : ℝ) * x ^ (2 * k + 1) := by
  unfold besselK1 cK1
  rw [sub_eq_add_neg, ← tsum_mul_left, ← tsum_neg]
  congr 1
  refine tsum_congr fun k => ?_
  push_cast
  rw [div_pow, pow_succ 2 (2 * k), pow_mul 2 2 k]
  norm_num
  have : (k ! : ℝ) ≠ 0 := by positivity
  have : ((k + 1)! : ℝ) ≠ 0 := by positivity
  field_simp
  norm_num
  ring

theorem cI0_small (k : ℕ) : |(cI0 k : ℝ)| ≤ 1 / k ! := by
  have h := cJ0_small k
  have e : |(cI0 k : ℝ)| = |(cJ0 k : ℝ)| := by
    unfold cI0 cJ0
    push_cast
    rw [abs_div, abs_div, abs_pow, abs_neg, abs_one, one_pow]
  rw [e]; exact h

theorem cI1_small (k : ℕ) : |(cI1 k : ℝ)| ≤ 1 / k ! := by
  have h := cJ1_small k
  have e : |(cI1 k : ℝ)| = |(cJ1 k : ℝ)| := by
    unfold cI1 cJ1
    push_cast
    rw [abs_div, abs_div, abs_pow, abs_neg, abs_one, one_pow]
  rw [e]; exact h

theorem cK0_small (k : ℕ) : |(cK0 k : ℝ)| ≤ 1 / k ! := by
  have h := cY0_small k
  have e : |(cK0 k : ℝ)| = |(cY0 k : ℝ)| := by
    unfold cK0 cY0
    push_cast
    rw [abs_neg, abs_div, abs_div, abs_mul ((-1) ^ k), abs_pow (-1), abs_neg, abs_one, one_pow, one_mul]
  rw [e]; exact h

theorem cK1_small (k : ℕ) : |(cK1 k : ℝ)| ≤ 1 / k ! := by
  have h := cY1_small k
  have e : |(cK1 k : ℝ)| = |(cY1 k : ℝ)| := by
    unfold cK1 cY1
    push_cast
    rw [abs_neg, abs_neg, abs_div, abs_div, abs_mul ((-1) ^ k), abs_pow (-1), abs_neg, abs_one, one_pow, one_mul]
  rw [e]; exact h

theorem besselI_zero_deriv (x : ℝ) : HasDerivAt (besselI 0) (besselI 1 x) x := by
  have h := series_deriv _ cI0_small 0 x
  simp only [Nat.add_zero] at h
  have e1 : besselI 0 = fun x => ∑' k : ℕ, (cI0 k : ℝ) * x ^ (2 * k) := funext besselI_zero
  rw [e1]
  refine h.congr_deriv ?_
  rw [besselI_one]
  have hs := deriv_summable _ cI0_small 0 x
  simp only [Nat.add_zero] at hs
  rw [hs.tsum_eq_zero_add]
  have e0 : (cI0 0 : ℝ) * ((2 * ((0 : ℕ) : ℝ) + (0 : ℕ)) * x ^ (2 * 0 - 1)) = 0 := by simp
  rw [e0, zero_add]
  refine tsum_congr fun k => ?_
  rw [show 2 * (k + 1) - 1 = 2 * k + 1 from by omega]
  unfold cI0 cI1
  rw [Nat.factorial_succ]
  push_cast
  have : (k ! : ℝ) ≠ 0 := by positivity
  field_simp
  ring

theorem mul_besselI_one_deriv (x : ℝ) : HasDerivAt (fun x => x * besselI 1 x) (x * besselI 0 x) x := by
  have h := series_deriv _ cI1_small 2 x
  have e : (fun x => x * besselI 1 x) = fun x => ∑' k : ℕ, (cI1 k : ℝ) * x ^ (2 * k + 2) := by
    funext y
    rw [besselI_one, ← tsum_mul_left]
    exact tsum_congr fun k => by ring
  rw [e]
  refine h.congr_deriv ?_
  rw [besselI_zero, ← tsum_mul_left]
  refine tsum_congr fun k => ?_
  rw [show 2 * k + 2 - 1 = 2 * k + 1 from by omega]
  unfold cI0 cI1
  rw [Nat.factorial_succ]
  push_cast
  have : (k ! : ℝ) ≠ 0 := by positivity
  field_simp
  ring

theorem besselI_one_deriv (x : ℝ) (hx : 0 < x) : HasDerivAt (besselI 1) (besselI 0 x - besselI 1 x / x) x := by
  have h := (mul_besselI_one_deriv x).mul (hasDerivAt_inv hx.ne')
  have e : (fun y => besselI 1 y) =ᶠ[nhds x] (fun y => y * besselI 1 y) * Inv.inv := by
    filter_upwards [isOpen_ne.mem_nhds hx.ne'] with y hy
    have hy' : y ≠ 0 := hy
    simp only [Pi.mul_apply]
    field_simp
  refine (h.congr_of_eventuallyEq e).congr_deriv ?_
  field_simp
  ring

/-- The derivative of the function of order 0. -/
theorem besselK0_deriv (x : ℝ) (hx : 0 < x) : HasDerivAt besselK0 (-besselK1 x) x := by
  have hs := series_deriv _ cK0_small 0 x
  simp only [Nat.add_zero] at hs
  have h := (((log_half_deriv x hx).add_const eulerMascheroniConstant).neg.mul (besselI_zero_deriv x)).add hs
  have e : besselK0 = fun x => -(log (x / 2) + eulerMascheroniConstant) * besselI 0 x
    + ∑' k : ℕ, (cK0 k : ℝ) * x ^ (2 * k) := funext besselK0_eq
  rw [e]
  refine h.congr_deriv ?_
  rw [besselK1_eq]
  have key : -(1 / x) * besselI 0 x + ∑' k : ℕ, (cK0 k : ℝ) * ((2 * k + (0 : ℕ)) * x ^ (2 * k - 1))
      = -(1 / x) - ∑' k : ℕ, (cK1 k : ℝ) * x ^ (2 * k + 1) := by
    have s0 := series_summable _ cI0_small 0 x
    have s1 := deriv_summable _ cK0_small 0 x
    simp only [Nat.add_zero] at s0 s1
    rw [besselI_zero, s0.tsum_eq_zero_add, s1.tsum_eq_zero_add]
    have t0 : Summable fun k : ℕ => (cI0 (k + 1) : ℝ) * x ^ (2 * (k + 1)) := (summable_nat_add_iff 1).mpr s0
    have t1 : Summable fun k : ℕ => (cK0 (k + 1) : ℝ) * ((2 * ((k + 1 : ℕ) : ℝ) + (0 : ℕ)) * x ^ (2 * (k + 1) - 1)) :=
      (summable_nat_add_iff 1).mpr s1
    rw [mul_add, ← tsum_mul_left, add_assoc]
    have e0 : -(1 / x) * ((cI0 0 : ℝ) * x ^ (2 * 0)) = -(1 / x) := by simp [cI0]
    have e1 : (cK0 0 : ℝ) * ((2 * ((0 : ℕ) : ℝ) + (0 : ℕ)) * x ^ (2 * 0 - 1)) = 0 := by simp
    rw [e0, e1, zero_add, ← Summable.tsum_add (t0.mul_left (-(1 / x))) t1, sub_eq_add_neg, ← tsum_neg]
    congr 1
    refine tsum_congr fun k => ?_
    rw [show 2 * (k + 1) - 1 = 2 * k + 1 from by omega]
    unfold cI0 cK0 cK1
    rw [harmonic_succ, Nat.factorial_succ]
    push_cast
    have : (k ! : ℝ) ≠ 0 := by positivity
    field_simp
    ring
  simp only [Pi.neg_apply]
  linear_combination key

/-- The derivative of `x` times the function of order 1. -/
theorem mul_besselK1_deriv (x : ℝ) (hx : 0 < x) :
    HasDerivAt (fun x => x * besselK1 x) (-(x * besselK0 x)) x := by
  have hs := series_deriv _ cK1_small 2 x
  have h := ((((log_half_deriv x hx).add_const eulerMascheroniConstant).mul (mul_besselI_one_deriv x)).add_const 1).add hs
  have e : (fun x => ((log (x / 2) + eulerMascheroniConstant) * (x * besselI 1 x) + 1
      + ∑' k : ℕ, (cK1 k : ℝ) * x ^ (2 * k + 2))) =ᶠ[nhds x] fun x => x * besselK1 x := by
    filter_upwards [isOpen_ne.mem_nhds hx.ne'] with y hy
    have hy' : y ≠ 0 := hy
    have e3 : ∑' k : ℕ, (cK1 k : ℝ) * y ^ (2 * k + 2) = y * ∑' k : ℕ, (cK1 k : ℝ) * y ^ (2 * k + 1) := by
      rw [← tsum_mul_left]
      exact tsum_congr fun k => by ring
    rw [e3, besselK1_eq]
    field_simp
    ring
  refine (HasDerivAt.congr_of_eventuallyEq h e.symm).congr_deriv ?_
  rw [besselK0_eq]
  have key : 1 / x * (x * besselI 1 x) + ∑' k : ℕ, (cK1 k : ℝ) * ((2 * k + (2 : ℕ)) * x ^ (2 * k + 2 - 1))
      = -(x * ∑' k : ℕ, (cK0 k : ℝ) * x ^ (2 * k)) := by
    have s0 := series_summable _ cI1_small 1 x
    have s1 := deriv_summable _ cK1_small 2 x
    rw [show 1 / x * (x * besselI 1 x) = besselI 1 x by field_simp, besselI_one, ← Summable.tsum_add s0 s1,
      ← tsum_mul_left, ← tsum_neg]
    refine tsum_congr fun k => ?_
    rw [show 2 * k + 2 - 1 = 2 * k + 1 from by omega]
    unfold cI1 cK0 cK1
    rw [harmonic_succ, Nat.factorial_succ]
    push_cast
    have : (k ! : ℝ) ≠ 0 := by positivity
    field_simp
    ring
  linear_combination key

/-- The derivative of the function of order 1. -/
theorem besselK1_deriv (x : ℝ) (hx : 0 < x) : HasDerivAt besselK1 (-besselK0 x - besselK1 x / x) x := by
  have h := (mul_besselK1_deriv x hx).mul (hasDerivAt_inv hx.ne')
  have e : (fun y => besselK1 y) =ᶠ[nhds x] (fun y => y * besselK1 y) * Inv.inv := by
    filter_upwards [isOpen_ne.mem_nhds hx.ne'] with y hy
    have hy' : y ≠ 0 := hy
    simp only [Pi.mul_apply]
    field_simp
  refine (h.congr_of_eventuallyEq e).congr_deriv ?_
  field_simp
  ring

theorem besselI0_at : besselI 0 0 = 1 := by
  rw [besselI_zero, tsum_eq_single 0]
  · simp [cI0]
  · intro k hk
    simp [hk]

/-- The determinant of Wronski: the four functions have the usual normalisation. -/
theorem wronskian (x : ℝ) (hx : 0 < x) :
    besselI 0 x * besselK1 x + besselI 1 x * besselK0 x = 1 / x := by
  let S0 : ℝ → ℝ := fun x => ∑' k : ℕ, (cK0 k : ℝ) * x ^ (2 * k)
  let S1 : ℝ → ℝ := fun x => ∑' k : ℕ, (cK1 k : ℝ) * x ^ (2 * k + 1)
  let W : ℝ → ℝ := fun x => x * besselI 1 x * S0 x + besselI 0 x + x * besselI 0 x * S1 x
  have eW : ∀ y, 0 < y → W y = y * (besselI 0 y * besselK1 y + besselI 1 y * besselK0 y) := by
    intro y hy
    simp only [W, S0, S1]
    rw [besselK0_eq, besselK1_eq]
    field_simp
    ring
  have d0 : ∀ y, HasDerivAt S0 (∑' k : ℕ, (cK0 k : ℝ) * ((2 * k + (0 : ℕ)) * y ^ (2 * k + 0 - 1))) y := fun y => by
    simpa using series_deriv _ cK0_small 0 y
  have d1 : ∀ y, HasDerivAt S1 (∑' k : ℕ, (cK1 k : ℝ) * ((2 * k + (1 : ℕ)) * y ^ (2 * k + 1 - 1))) y := fun y =>
    series_deriv _ cK1_small 1 y
  have hJ1c : Continuous fun y : ℝ => y * besselI 1 y :=
    continuous_iff_continuousAt.mpr fun y => (mul_besselI_one_deriv y).continuousAt
  have hJ0c : Continuous (besselI 0) :=
    continuous_iff_continuousAt.mpr fun y => (besselI_zero_deriv y).continuousAt
  have hS0c : Continuous S0 := continuous_iff_continuousAt.mpr fun y => (d0 y).continuousAt
  have hS1c : Continuous S1 := continuous_iff_continuousAt.mpr fun y => (d1 y).continuousAt
  have hWc : Continuous W :=
    ((hJ1c.mul hS0c).add hJ0c).add ((continuous_id.mul hJ0c).mul hS1c)
  have hW' : ∀ y, 0 < y → HasDerivAt W 0 y := by
    intro y hy
    have h := ((mul_besselI_one_deriv y).mul (besselK0_deriv y hy)).add
      ((besselI_zero_deriv y).mul (mul_besselK1_deriv y hy))
    have e : W =ᶠ[nhds y] fun z => z * besselI 1 z * besselK0 z + besselI 0 z * (z * besselK1 z) := by
      filter_upwards [isOpen_Ioi.mem_nhds hy] with z hz
      rw [eW z hz]
      ring
    refine (h.congr_of_eventuallyEq e).congr_deriv ?_
    ring
  have hconst : W x = W 0 := by
    obtain ⟨z, _, hz⟩ := exists_hasDerivAt_eq_slope W (fun _ => 0) hx hWc.continuousOn fun y hy => hW' y hy.1
    rw [eq_comm, div_eq_zero_iff] at hz
    rcases hz with h | h <;> linarith
  have h0 : W 0 = 1 := by
    simp only [W]
    rw [besselI0_at]
    ring
  have := eW x hx
  rw [hconst, h0] at this
  field_simp
  linarith

end Verif.Green.FinK
