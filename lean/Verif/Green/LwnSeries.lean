/-
The functions of Bessel and Struve of order 0 and 1 as power series: the specification for the
approximations of `Verif.Green.LwnModel`, with their derivatives.  Nothing here depends on the model.
-/
import Mathlib.Analysis.Calculus.SmoothSeries
import Mathlib.Analysis.SpecialFunctions.Gamma.Basic
import Mathlib.Analysis.SpecialFunctions.Exp
import Mathlib.Analysis.SpecificLimits.Normed
import Mathlib.Analysis.SpecialFunctions.Gaussian.GaussianIntegral
import Mathlib.Data.Nat.Factorial.DoubleFactorial
import Verif.Green.PolyBound

namespace Verif.Green.Lwn

open Real
open scoped Nat

/-- Bessel function of the first kind of order `n`. -/
noncomputable def besselJ (n : ℕ) (x : ℝ) : ℝ :=
  ∑' k : ℕ, (-1) ^ k / (k ! * (k + n)!) * (x / 2) ^ (2 * k + n)

/-- Struve function of order `n`. -/
noncomputable def struveH (n : ℕ) (x : ℝ) : ℝ :=
  ∑' k : ℕ, (-1) ^ k / (Gamma (k + 3 / 2) * Gamma (k + n + 3 / 2)) * (x / 2) ^ (2 * k + n + 1)

/-! ### Coefficients -/

/-- The coefficient of `x ^ (2 k)` in the Bessel function of order 0. -/
def cJ0 (k : ℕ) : ℚ := (-1) ^ k / (4 ^ k * (k ! : ℚ) ^ 2)

/-- The coefficient of `x ^ (2 k + 1)` in the Bessel function of order 1. -/
def cJ1 (k : ℕ) : ℚ := (-1) ^ k / (2 * 4 ^ k * (k ! : ℚ) * ((k + 1)! : ℚ))

/-- The coefficient of `x ^ (2 k + 1)` in `π / 2` times the Struve function of order 0. -/
def cH0 (k : ℕ) : ℚ := (-1) ^ k / ((2 * k + 1)‼ : ℚ) ^ 2

/-- The coefficient of `x ^ (2 k + 2)` in `π / 2` times the Struve function of order 1. -/
def cH1 (k : ℕ) : ℚ := (-1) ^ k / (((2 * k + 1)‼ : ℚ) * ((2 * k + 3)‼ : ℚ))

theorem besselJ_zero (x : ℝ) : besselJ 0 x = ∑' k : ℕ, (cJ0 k : ℝ) * x ^ (2 * k) := by
  unfold besselJ cJ0
  refine tsum_congr fun k => ?_
  push_cast
  rw [Nat.add_zero, Nat.add_zero, div_pow, pow_mul 2 2 k]
  norm_num
  have : (k ! : ℝ) ≠ 0 := by positivity
  field_simp

theorem besselJ_one (x : ℝ) : besselJ 1 x = ∑' k : ℕ, (cJ1 k : ℝ) * x ^ (2 * k + 1) := by
  unfold besselJ cJ1
  refine tsum_congr fun k => ?_
  push_cast
  rw [div_pow, pow_succ 2 (2 * k), pow_mul 2 2 k]
  norm_num
  have : (k ! : ℝ) ≠ 0 := by positivity
  have : ((k + 1)! : ℝ) ≠ 0 := by positivity
  field_simp

theorem gamma_half (k : ℕ) : Gamma (k + 3 / 2) = (2 * k + 1)‼ * √π / 2 ^ (k + 1) := by
  rw [← Real.Gamma_nat_add_one_add_half k]
  congr 1; ring

theorem struveH_zero (x : ℝ) : struveH 0 x = 2 / π * ∑' k : ℕ, (cH0 k : ℝ) * x ^ (2 * k + 1) := by
  unfold struveH cH0
  rw [← tsum_mul_left]
  refine tsum_congr fun k => ?_
  push_cast
  rw [add_zero, gamma_half, Nat.add_zero, div_pow]
  have h1 : ((2 * k + 1)‼ : ℝ) ≠ 0 := by
    have := Nat.doubleFactorial_pos (2 * k + 1); positivity
  have h2 : √π * √π = π := mul_self_sqrt pi_pos.le
  have h3 : √π ≠ 0 := by have := sqrt_pos.mpr pi_pos; positivity
  have h4 : (2 : ℝ) ^ (2 * k + 1) = 2 ^ k * 2 ^ k * 2 := by rw [pow_succ, two_mul, pow_add]
  have h5 : (2 : ℝ) ^ (k + 1) = 2 ^ k * 2 := pow_succ _ _
  rw [h4, h5]
  field_simp
  rw [sq √π, h2]
  ring

theorem struveH_one (x : ℝ) : struveH 1 x = 2 / π * ∑' k : ℕ, (cH1 k : ℝ) * x ^ (2 * k + 2) := by
  unfold struveH cH1
  rw [← tsum_mul_left]
  refine tsum_congr fun k => ?_
  push_cast
  have e := gamma_half (k + 1)
  push_cast at e
  rw [gamma_half, e, div_pow]
  have h1 : ((2 * k + 1)‼ : ℝ) ≠ 0 := by
    have := Nat.doubleFactorial_pos (2 * k + 1); positivity
  have h1' : ((2 * k + 3)‼ : ℝ) ≠ 0 := by
    have := Nat.doubleFactorial_pos (2 * k + 3); positivity
  have h2 : √π * √π = π := mul_self_sqrt pi_pos.le
  have h3 : √π ≠ 0 := by have := sqrt_pos.mpr pi_pos; positivity
  have h4 : (2 : ℝ) ^ (2 * k + 1 + 1) = 2 ^ k * 2 ^ k * 4 := by
    rw [pow_succ, pow_succ, two_mul, pow_add]; ring
  have h5 : (2 : ℝ) ^ (k + 1) = 2 ^ k * 2 := pow_succ _ _
  have h6 : (2 : ℝ) ^ (k + 1 + 1) = 2 ^ k * 4 := by rw [pow_succ, pow_succ]; ring
  rw [show 2 * (k + 1) + 1 = 2 * k + 3 from by ring, h4, h5, h6]
  field_simp
  rw [sq √π, h2]
  ring

/-! ### Size of the coefficients -/

theorem fact_le_dfact (k : ℕ) : k ! ≤ (2 * k + 1)‼ := by
  induction k with
  | zero => simp
  | succ k ih =>
    rw [Nat.factorial_succ, show 2 * (k + 1) + 1 = (2 * k + 1) + 2 from by ring,
      Nat.doubleFactorial_add_two]
    exact Nat.mul_le_mul (by omega) ih

theorem dfact_one_le (k : ℕ) : (1 : ℝ) ≤ (2 * k + 1)‼ := by
  exact_mod_cast Nat.doubleFactorial_pos (2 * k + 1)

theorem fact_one_le (k : ℕ) : (1 : ℝ) ≤ k ! := by exact_mod_cast Nat.factorial_pos k

theorem small_of_den (d : ℝ) (k : ℕ) (c : ℝ) (hc : |c| = 1 / d) (hd : (k ! : ℝ) ≤ d) :
    |c| ≤ 1 / k ! := by
  rw [hc]
  exact one_div_le_one_div_of_le (by positivity) hd

theorem cJ0_small (k : ℕ) : |(cJ0 k : ℝ)| ≤ 1 / k ! := by
  refine small_of_den (4 ^ k * (k ! : ℝ) ^ 2) k _ ?_ ?_
  · unfold cJ0; push_cast
    rw [abs_div, abs_pow, abs_neg, abs_one, one_pow, abs_of_pos (by positivity)]
  · have := fact_one_le k
    have h4 : (1 : ℝ) ≤ 4 ^ k := one_le_pow₀ (by norm_num)
    calc (k ! : ℝ) = 1 * (k ! * 1) := by ring
      _ ≤ 4 ^ k * (k ! * k !) := by gcongr
      _ = _ := by ring

theorem cJ1_small (k : ℕ) : |(cJ1 k : ℝ)| ≤ 1 / k ! := by
  refine small_of_den (2 * 4 ^ k * (k ! : ℝ) * ((k + 1)! : ℝ)) k _ ?_ ?_
  · unfold cJ1; push_cast
    rw [abs_div, abs_pow, abs_neg, abs_one, one_pow, abs_of_pos (by positivity)]
  · have := fact_one_le (k + 1)
    have h4 : (1 : ℝ) ≤ 4 ^ k := one_le_pow₀ (by norm_num)
    calc (k ! : ℝ) = 1 * 1 * k ! * 1 := by ring
      _ ≤ 2 * 4 ^ k * k ! * (k + 1)! := by gcongr; norm_num

theorem cH0_small (k : ℕ) : |(cH0 k : ℝ)| ≤ 1 / k ! := by
  have := dfact_one_le k
  refine small_of_den (((2 * k + 1)‼ : ℝ) ^ 2) k _ ?_ ?_
  · unfold cH0; push_cast
    rw [abs_div, abs_pow, abs_neg, abs_one, one_pow, abs_of_pos (by positivity)]
  · have h : (k ! : ℝ) ≤ (2 * k + 1)‼ := by exact_mod_cast fact_le_dfact k
    nlinarith

theorem cH1_small (k : ℕ) : |(cH1 k : ℝ)| ≤ 1 / k ! := by
  have := dfact_one_le k
  have h' := dfact_one_le (k + 1)
  rw [show 2 * (k + 1) + 1 = 2 * k + 3 from by ring] at h'
  refine small_of_den (((2 * k + 1)‼ : ℝ) * ((2 * k + 3)‼ : ℝ)) k _ ?_ ?_
  · unfold cH1; push_cast
    rw [abs_div, abs_pow, abs_neg, abs_one, one_pow, abs_of_pos (by positivity)]
  · have h : (k ! : ℝ) ≤ (2 * k + 1)‼ := by exact_mod_cast fact_le_dfact k
    nlinarith

/-! ### Derivatives term by term -/

theorem majorant_summable (m : ℕ) (R : ℝ) (hR : 0 ≤ R) :
    Summable fun k : ℕ => 1 / (k ! : ℝ) * ((2 * k + m) * R ^ (2 * k + m - 1)) := by
  have h0 : Summable fun k : ℕ => ((2 : ℝ) * (R + 1) ^ 2) ^ k / k ! :=
    Real.summable_pow_div_factorial _
  refine Summable.of_nonneg_of_le (fun k => by positivity) (fun k => ?_)
    (h0.mul_left ((m + 2) * (R + 1) ^ m))
  have h1 : ((2 : ℝ) * k + m) ≤ (m + 2) * 2 ^ k := by
    have : (k : ℝ) + 1 ≤ 2 ^ k := by exact_mod_cast Nat.lt_two_pow_self
    have hm : (0 : ℝ) ≤ m := by positivity
    have hk : (0 : ℝ) ≤ k := by positivity
    nlinarith
  have h2 : R ^ (2 * k + m - 1) ≤ (R + 1) ^ (2 * k + m) :=
    calc R ^ (2 * k + m - 1) ≤ (R + 1) ^ (2 * k + m - 1) := by gcongr; linarith
      _ ≤ _ := pow_le_pow_right₀ (by linarith) (by omega)
  calc 1 / (k ! : ℝ) * ((2 * k + m) * R ^ (2 * k + m - 1))
      ≤ 1 / (k ! : ℝ) * ((m + 2) * 2 ^ k * (R + 1) ^ (2 * k + m)) := by gcongr
    _ = _ := by rw [mul_pow, ← pow_mul, pow_add]; ring

theorem series_summable (c : ℕ → ℝ) (hc : ∀ k, |c k| ≤ 1 / k !) (m : ℕ) (x : ℝ) :
    Summable fun k : ℕ => c k * x ^ (2 * k + m) := by
  have h0 := (Real.summable_pow_div_factorial (x ^ 2)).mul_left (|x| ^ m)
  refine Summable.of_norm_bounded h0 fun k => ?_
  rw [norm_mul, norm_pow, Real.norm_eq_abs, Real.norm_eq_abs, pow_add, pow_mul, sq_abs]
  calc |c k| * ((x ^ 2) ^ k * |x| ^ m) ≤ 1 / k ! * ((x ^ 2) ^ k * |x| ^ m) := by
        gcongr; exact hc k
    _ = _ := by ring

theorem series_deriv (c : ℕ → ℝ) (hc : ∀ k, |c k| ≤ 1 / k !) (m : ℕ) (x : ℝ) :
    HasDerivAt (fun x => ∑' k : ℕ, c k * x ^ (2 * k + m))
      (∑' k : ℕ, c k * ((2 * k + m) * x ^ (2 * k + m - 1))) x := by
  have hx : x ∈ Metric.ball (0 : ℝ) (|x| + 1) := by
    rw [Metric.mem_ball, dist_zero_right, Real.norm_eq_abs]; linarith
  have hp : IsPreconnected (Metric.ball (0 : ℝ) (|x| + 1)) := (convex_ball 0 (|x| + 1)).isPreconnected
  refine hasDerivAt_tsum_of_isPreconnected (g := fun (k : ℕ) (x : ℝ) => c k * x ^ (2 * k + m))
    (g' := fun (k : ℕ) (x : ℝ) => c k * ((2 * k + m) * x ^ (2 * k + m - 1)))
    (majorant_summable m (|x| + 1) (by positivity)) Metric.isOpen_ball hp ?_ ?_ hx
    (series_summable c hc m x) hx
  · intro k y _
    have := (hasDerivAt_pow (2 * k + m) y).const_mul (c k)
    push_cast at this
    exact this
  · intro k y hy
    rw [Metric.mem_ball, dist_zero_right, Real.norm_eq_abs] at hy
    rw [norm_mul, norm_mul, norm_pow, Real.norm_eq_abs, Real.norm_eq_abs, Real.norm_eq_abs,
      abs_of_nonneg (show (0 : ℝ) ≤ 2 * k + m by positivity)]
    gcongr
    exact hc k

theorem besselJ_zero_deriv (x : ℝ) : HasDerivAt (besselJ 0) (-besselJ 1 x) x := by
  have h := series_deriv _ cJ0_small 0 x
  simp only [Nat.add_zero] at h
  have e1 : besselJ 0 = fun x => ∑' k : ℕ, (cJ0 k : ℝ) * x ^ (2 * k) := funext besselJ_zero
  rw [e1]
  refine h.congr_deriv (Eq.symm ?_)
  rw [besselJ_one, ← tsum_neg]
  have hs : Summable fun k : ℕ => (cJ0 k : ℝ) * ((2 * k + (0 : ℕ)) * x ^ (2 * k - 1)) := by
    refine Summable.of_norm_bounded (majorant_summable 0 |x| (abs_nonneg x)) fun k => ?_
    rw [norm_mul, norm_mul, norm_pow, Real.norm_eq_abs, Real.norm_eq_abs, Real.norm_eq_abs,
      abs_of_nonneg (show (0 : ℝ) ≤ 2 * k + (0 : ℕ) by positivity)]
    exact mul_le_mul_of_nonneg_right (cJ0_small k) (by positivity)
  rw [hs.tsum_eq_zero_add]
  simp only [Nat.cast_zero, mul_zero, add_zero, zero_mul, zero_add]
  refine tsum_congr fun k => ?_
  rw [show 2 * (k + 1) - 1 = 2 * k + 1 from by omega]
  unfold cJ0 cJ1
  push_cast
  rw [Nat.factorial_succ, pow_succ, pow_succ]
  push_cast
  have : (k ! : ℝ) ≠ 0 := by positivity
  field_simp
  ring

theorem mul_besselJ_one_deriv (x : ℝ) :
    HasDerivAt (fun x => x * besselJ 1 x) (x * besselJ 0 x) x := by
  have h := series_deriv _ cJ1_small 2 x
  have e1 : (fun x => x * besselJ 1 x) = fun x => ∑' k : ℕ, (cJ1 k : ℝ) * x ^ (2 * k + 2) := by
    funext x
    rw [besselJ_one, ← tsum_mul_left]
    exact tsum_congr fun k => by ring
  rw [e1]
  refine h.congr_deriv (Eq.symm ?_)
  rw [besselJ_zero, ← tsum_mul_left]
  refine tsum_congr fun k => ?_
  rw [show 2 * k + 2 - 1 = 2 * k + 1 from by omega]
  unfold cJ0 cJ1
  push_cast
  rw [Nat.factorial_succ]
  push_cast
  have : (k ! : ℝ) ≠ 0 := by positivity
  field_simp
  ring

theorem struveH_zero_deriv (x : ℝ) : HasDerivAt (struveH 0) (2 / π - struveH 1 x) x := by
  have h := (series_deriv _ cH0_small 1 x).const_mul (2 / π)
  have e1 : struveH 0 = fun x => 2 / π * ∑' k : ℕ, (cH0 k : ℝ) * x ^ (2 * k + 1) :=
    funext struveH_zero
  rw [e1]
  refine h.congr_deriv (Eq.symm ?_)
  have hs : Summable fun k : ℕ => (cH0 k : ℝ) * ((2 * k + (1 : ℕ)) * x ^ (2 * k + 1 - 1)) := by
    refine Summable.of_norm_bounded (majorant_summable 1 |x| (abs_nonneg x)) fun k => ?_
    rw [norm_mul, norm_mul, norm_pow, Real.norm_eq_abs, Real.norm_eq_abs, Real.norm_eq_abs,
      abs_of_nonneg (show (0 : ℝ) ≤ 2 * k + (1 : ℕ) by positivity)]
    gcongr
    exact cH0_small k
  rw [struveH_one, hs.tsum_eq_zero_add, mul_add, sub_eq_add_neg, ← mul_neg, ← tsum_neg]
  congr 1
  · simp [cH0]
  · congr 1
    refine tsum_congr fun k => ?_
    rw [show 2 * (k + 1) + 1 - 1 = 2 * k + 2 from by omega]
    unfold cH0 cH1
    push_cast
    rw [show 2 * (k + 1) + 1 = (2 * k + 1) + 2 from by ring, show 2 * k + 3 = (2 * k + 1) + 2 from rfl,
      Nat.doubleFactorial_add_two, pow_succ]
    push_cast
    have : ((2 * k + 1)‼ : ℝ) ≠ 0 := by have := dfact_one_le k; positivity
    field_simp
    ring

theorem mul_struveH_one_deriv (x : ℝ) :
    HasDerivAt (fun x => x * struveH 1 x) (x * struveH 0 x) x := by
  have h := (series_deriv _ cH1_small 3 x).const_mul (2 / π)
  have e1 : (fun x => x * struveH 1 x)
      = fun x => 2 / π * ∑' k : ℕ, (cH1 k : ℝ) * x ^ (2 * k + 3) := by
    funext x
    rw [struveH_one, mul_left_comm, ← tsum_mul_left]
    congr 1
    exact tsum_congr fun k => by ring
  rw [e1]
  refine h.congr_deriv (Eq.symm ?_)
  rw [struveH_zero, mul_left_comm, ← tsum_mul_left]
  congr 1
  refine tsum_congr fun k => ?_
  rw [show 2 * k + 3 - 1 = 2 * k + 2 from by omega]
  unfold cH0 cH1
  push_cast
  rw [show 2 * k + 3 = (2 * k + 1) + 2 from rfl, Nat.doubleFactorial_add_two]
  push_cast
  have : ((2 * k + 1)‼ : ℝ) ≠ 0 := by have := dfact_one_le k; positivity
  field_simp
  ring

theorem besselJ_one_deriv (x : ℝ) (hx : x ≠ 0) :
    HasDerivAt (besselJ 1) (besselJ 0 x - besselJ 1 x / x) x := by
  have h := (mul_besselJ_one_deriv x).mul (hasDerivAt_inv hx)
  have e : (fun y => besselJ 1 y) =ᶠ[nhds x] (fun y => y * besselJ 1 y) * Inv.inv := by
    filter_upwards [isOpen_ne.mem_nhds hx] with y hy
    have hy' : y ≠ 0 := hy
    simp only [Pi.mul_apply]
    field_simp
  refine (h.congr_of_eventuallyEq e).congr_deriv ?_
  field_simp
  ring

theorem struveH_one_deriv (x : ℝ) (hx : x ≠ 0) :
    HasDerivAt (struveH 1) (struveH 0 x - struveH 1 x / x) x := by
  have h := (mul_struveH_one_deriv x).mul (hasDerivAt_inv hx)
  have e : (fun y => struveH 1 y) =ᶠ[nhds x] (fun y => y * struveH 1 y) * Inv.inv := by
    filter_upwards [isOpen_ne.mem_nhds hx] with y hy
    have hy' : y ≠ 0 := hy
    simp only [Pi.mul_apply]
    field_simp
  refine (h.congr_of_eventuallyEq e).congr_deriv ?_
  field_simp
  ring

/-! ### Truncation for `x` between 0 and 3 -/

theorem tail_bound (c : ℕ → ℚ) (K : ℕ) (hc : ∀ k, K ≤ k → |c (k + 1)| ≤ |c k| / 2) (v : ℝ)
    (hv : |v| ≤ 1) (hs : Summable fun k => (c k : ℝ) * v ^ k) :
    |(∑' k, (c k : ℝ) * v ^ k) - ∑ k ∈ Finset.range K, (c k : ℝ) * v ^ k| ≤ 2 * |c K| := by
  have hk : ∀ j, |(c (j + K) : ℝ)| ≤ |(c K : ℝ)| * (1 / 2) ^ j := by
    intro j
    induction j with
    | zero => simp
    | succ j ih =>
      have h1 := hc (j + K) (by omega)
      have h2 : |(c (j + K + 1) : ℝ)| ≤ |(c (j + K) : ℝ)| / 2 := by exact_mod_cast h1
      rw [show j + 1 + K = j + K + 1 from by ring, pow_succ]
      linarith
  rw [← hs.sum_add_tsum_nat_add K, add_sub_cancel_left]
  have hg : HasSum (fun j : ℕ => |(c K : ℝ)| * (1 / 2) ^ j) (|(c K : ℝ)| * 2) := by
    have := (hasSum_geometric_two).mul_left |(c K : ℝ)|
    exact this
  have := tsum_of_norm_bounded hg (f := fun j => (c (j + K) : ℝ) * v ^ (j + K)) (fun j => by
    rw [norm_mul, norm_pow, Real.norm_eq_abs, Real.norm_eq_abs]
    calc |(c (j + K) : ℝ)| * |v| ^ (j + K) ≤ |(c (j + K) : ℝ)| * 1 := by
          gcongr; exact pow_le_one₀ (abs_nonneg v) hv
      _ ≤ _ := by rw [mul_one]; exact hk j)
  rw [Real.norm_eq_abs] at this
  push_cast
  linarith

open PolyBound in
theorem ev_append (l : List ℚ) (a : ℚ) (y : ℝ) : ev (l ++ [a]) y = ev l y + a * y ^ l.length := by
  induction l with
  | nil => simp [ev]
  | cons b l ih => simp only [List.cons_append, ev, ih, List.length_cons, pow_succ]; ring

open PolyBound in
theorem ev_range (c : ℕ → ℚ) (K : ℕ) (y : ℝ) :
    ev ((List.range K).map c) y = ∑ k ∈ Finset.range K, (c k : ℝ) * y ^ k := by
  induction K with
  | zero => simp [ev]
  | succ K ih =>
    rw [List.range_succ, List.map_append, List.map_singleton, ev_append, ih, Finset.sum_range_succ]
    simp

/-- The coefficients of the powers of `(x / 3) ^ 2`. -/
def nine (c : ℕ → ℚ) (k : ℕ) : ℚ := c k * 9 ^ k

theorem nine_series (c : ℕ → ℚ) (m : ℕ) (x : ℝ) :
    ∑' k : ℕ, (c k : ℝ) * x ^ (2 * k + m) = x ^ m * ∑' k : ℕ, (nine c k : ℝ) * ((x / 3) ^ 2) ^ k := by
  rw [← tsum_mul_left]
  refine tsum_congr fun k => ?_
  unfold nine
  push_cast
  rw [← pow_mul, div_pow, pow_mul 3 2 k, pow_add]
  norm_num
  field_simp

theorem nine_summable (c : ℕ → ℚ) (hc : ∀ k, |(c k : ℝ)| ≤ 1 / k !) (x : ℝ) :
    Summable fun k : ℕ => (nine c k : ℝ) * ((x / 3) ^ 2) ^ k := by
  have := series_summable _ hc 0 x
  refine this.congr fun k => ?_
  unfold nine
  push_cast
  rw [← pow_mul, div_pow, pow_mul 3 2 k, Nat.add_zero]
  norm_num
  field_simp

open PolyBound in
/-- Between 0 and 3 the series is the polynomial made of its first `K` terms, up to `2 |c K|`. -/
theorem truncate (c : ℕ → ℚ) (hc : ∀ k, |(c k : ℝ)| ≤ 1 / k !) (m K : ℕ)
    (hr : ∀ k, K ≤ k → |nine c (k + 1)| ≤ |nine c k| / 2) (x : ℝ) (h0 : 0 ≤ x) (h3 : x ≤ 3) :
    |(∑' k : ℕ, (c k : ℝ) * x ^ (2 * k + m))
        - x ^ m * ev ((List.range K).map (nine c)) ((x / 3) ^ 2)| ≤ x ^ m * (2 * |nine c K|) := by
  have hv : |(x / 3) ^ 2| ≤ 1 := by
    rw [abs_of_nonneg (by positivity)]
    exact pow_le_one₀ (by positivity) (by linarith)
  rw [nine_series, ev_range, ← mul_sub, abs_mul, abs_of_nonneg (pow_nonneg h0 m)]
  exact mul_le_mul_of_nonneg_left (tail_bound _ K hr _ hv (nine_summable c hc x)) (pow_nonneg h0 m)

end Verif.Green.Lwn
