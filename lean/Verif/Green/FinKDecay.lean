/-
The modified function of Bessel of the second kind is positive and small against the one of the first kind: the series
define the function which decays.  Nothing here depends on the model.
-/
import Verif.Green.FinKSeries
import Mathlib.Analysis.Calculus.Deriv.MeanValue
import Mathlib.Analysis.SpecificLimits.Basic

namespace Verif.Green.FinK

open Real Filter Topology Verif.Green.Lwn Verif.Green.PolyBound Verif.Green.FinBessel
open scoped Nat

/-- The terms of the function of the first kind of order 0. -/
noncomputable def term0 (x : ℝ) (k : ℕ) : ℝ := (cI0 k : ℝ) * x ^ (2 * k)

theorem term0_pos (x : ℝ) (hx : 0 < x) (k : ℕ) : 0 < term0 x k := by
  unfold term0 cI0
  push_cast
  positivity

theorem term0_succ (x : ℝ) (k : ℕ) : term0 x (k + 1) * ((k : ℝ) + 1) ^ 2 = (x / 2) ^ 2 * term0 x k := by
  unfold term0 cI0
  rw [Nat.factorial_succ]
  push_cast
  have : (k ! : ℝ) ≠ 0 := by positivity
  field_simp
  ring

theorem term0_sum (x : ℝ) : HasSum (term0 x) (besselI 0 x) := by
  have h := series_summable _ cI0_small 0 x
  simp only [Nat.add_zero] at h
  rw [besselI_zero]
  exact h.hasSum

theorem term0_sum_sq (x : ℝ) : HasSum (fun k : ℕ => term0 x k * (k : ℝ) ^ 2) ((x / 2) ^ 2 * besselI 0 x) := by
  have h := (term0_sum x).mul_left ((x / 2) ^ 2)
  refine (hasSum_nat_add_iff' 1).mp ?_
  simp only [Finset.range_one, Finset.sum_singleton]
  norm_num
  have e : (fun k : ℕ => term0 x (k + 1) * ((k : ℝ) + 1) ^ 2) = fun k => (x / 2) ^ 2 * term0 x k :=
    funext fun k => term0_succ x k
  rw [e]
  exact h

theorem term0_sum_inv (x : ℝ) (hx : 0 < x) :
    HasSum (fun k : ℕ => term0 x k / ((k : ℝ) + 1) ^ 2) ((besselI 0 x - 1) / (x / 2) ^ 2) := by
  have h := ((hasSum_nat_add_iff' 1).mpr (term0_sum x)).div_const ((x / 2) ^ 2)
  simp only [Finset.range_one, Finset.sum_singleton] at h
  have e0 : term0 x 0 = 1 := by simp [term0, cI0]
  rw [e0] at h
  have e : (fun k : ℕ => term0 x k / ((k : ℝ) + 1) ^ 2) = fun k => term0 x (k + 1) / (x / 2) ^ 2 := by
    funext k
    have := term0_succ x k
    rw [div_eq_div_iff (by positivity) (by positivity)]
    linarith
  rw [e]
  exact h

theorem harmonic_sum (x : ℝ) : HasSum (fun k : ℕ => term0 x k * harmonic k) (∑' k : ℕ, (cK0 k : ℝ) * x ^ (2 * k)) := by
  have h := series_summable _ cK0_small 0 x
  simp only [Nat.add_zero] at h
  convert h.hasSum using 2 with k
  unfold term0 cI0 cK0
  push_cast
  ring

theorem besselI0_pos (x : ℝ) (hx : 0 < x) : 1 ≤ besselI 0 x := by
  have h := sum_le_hasSum (Finset.range 1) (fun k _ => (term0_pos x hx k).le) (term0_sum x)
  simpa [term0, cI0] using h

theorem log_le_square (a b : ℝ) (ha : 0 < a) (hb : 0 < b) : log a ≤ log b + (a ^ 2 / b ^ 2 - 1) / 2 := by
  have h := log_le_sub_one_of_pos (show 0 < a ^ 2 / b ^ 2 by positivity)
  rw [log_div (by positivity) (by positivity), log_pow, log_pow] at h
  push_cast at h
  linarith

theorem harmonic_upper (k : ℕ) : (harmonic k : ℝ) ≤ log (k + 1) + eulerMascheroniConstant := by
  have h := eulerMascheroniSeq_lt_eulerMascheroniConstant k
  unfold eulerMascheroniSeq at h
  linarith

theorem harmonic_lower (k : ℕ) : log (k + 1) + eulerMascheroniConstant - 1 / (k + 1) ≤ harmonic k := by
  have h := eulerMascheroniConstant_lt_eulerMascheroniSeq' (k + 1)
  unfold eulerMascheroniSeq' at h
  rw [if_neg (by omega), harmonic_succ] at h
  push_cast at h
  rw [inv_eq_one_div] at h
  linarith

theorem ratio_upper (x : ℝ) (hx : 0 < x) : besselK0 x ≤ 2 / x * besselI 0 x := by
  set y := x / 2 with hy
  have hy0 : 0 < y := by positivity
  have hm := hasSum_le (fun k => ?_) (harmonic_sum x)
    (((term0_sum x).mul_left (log (y + 1) + eulerMascheroniConstant - 1 / 2 + 1 / (2 * (y + 1)))).add
      ((term0_sum_sq x).mul_left ((1 + 1 / y) / (2 * (y + 1) ^ 2))))
  · rw [besselK0_eq, ← hy]
    have h1 : log (y + 1) ≤ log y + 1 / y := by
      have h := log_le_sub_one_of_pos (show 0 < (y + 1) / y by positivity)
      rw [log_div (by positivity) (by positivity)] at h
      have : (y + 1) / y - 1 = 1 / y := by field_simp; ring
      linarith
    have hI := besselI0_pos x hx
    have e : (1 + 1 / y) / (2 * (y + 1) ^ 2) * ((x / 2) ^ 2 * besselI 0 x)
        = (1 / 2 - 1 / (2 * (y + 1))) * besselI 0 x := by
      rw [← hy]; field_simp; ring
    rw [e] at hm
    have e2 : 2 / x = 1 / y := by rw [hy]; field_simp
    rw [e2]
    have := mul_le_mul_of_nonneg_right h1 (by linarith : (0 : ℝ) ≤ besselI 0 x)
    nlinarith
  · have ht := term0_pos x hx k
    have h1 := harmonic_upper k
    have h2 := log_le_square ((k : ℝ) + 1) (y + 1) (by positivity) (by positivity)
    have h3 : ((k : ℝ) + 1) ^ 2 ≤ k ^ 2 * (1 + 1 / y) + y + 1 := by
      have : 0 ≤ ((k : ℝ) - y) ^ 2 / y := by positivity
      have e : ((k : ℝ) - y) ^ 2 / y = k ^ 2 * (1 / y) - 2 * k + y := by field_simp; ring
      rw [e] at this
      linarith
    have h4 : ((k : ℝ) + 1) ^ 2 / (y + 1) ^ 2 ≤ (k ^ 2 * (1 + 1 / y) + y + 1) / (y + 1) ^ 2 := by gcongr
    have e : (k ^ 2 * (1 + 1 / y) + y + 1) / (y + 1) ^ 2 = k ^ 2 * ((1 + 1 / y) / (y + 1) ^ 2) + 1 / (y + 1) := by
      field_simp
      ring
    have h5 : (harmonic k : ℝ) ≤ log (y + 1) + eulerMascheroniConstant - 1 / 2 + 1 / (2 * (y + 1))
        + (1 + 1 / y) / (2 * (y + 1) ^ 2) * k ^ 2 := by
      have e6 : 1 / (2 * (y + 1)) = 1 / (y + 1) / 2 := by field_simp
      have e7 : (1 + 1 / y) / (2 * (y + 1) ^ 2) = (1 + 1 / y) / (y + 1) ^ 2 / 2 := by field_simp
      rw [e6, e7]
      linarith
    have := mul_le_mul_of_nonneg_left h5 ht.le
    linarith

theorem ratio_lower (x : ℝ) (hx : 0 < x) : -(2 / x * besselI 0 x) ≤ besselK0 x := by
  set y := x / 2 with hy
  have hy0 : 0 < y := by positivity
  have hm := hasSum_le (fun k => ?_)
    (((term0_sum x).mul_left (log y + eulerMascheroniConstant + 1 / 2 - 1 / (2 * y))).sub
      ((term0_sum_inv x hx).mul_left (y ^ 2 / 2 + y / 2))) (harmonic_sum x)
  · rw [besselK0_eq, ← hy]
    have hI := besselI0_pos x hx
    have e : (y ^ 2 / 2 + y / 2) * ((besselI 0 x - 1) / (x / 2) ^ 2) = (1 / 2 + 1 / (2 * y)) * (besselI 0 x - 1) := by
      rw [← hy]; field_simp
    rw [e] at hm
    have e2 : 2 / x = 1 / y := by rw [hy]; field_simp
    rw [e2]
    have e3 : 1 / (2 * y) = 1 / y / 2 := by field_simp
    rw [e3] at hm
    have : 0 < 1 / y := by positivity
    nlinarith
  · have ht := term0_pos x hx k
    have h1 := harmonic_lower k
    have h2 := log_le_square y ((k : ℝ) + 1) (by positivity) (by positivity)
    have h3 : 1 / ((k : ℝ) + 1) ≤ 1 / (2 * y) + y / 2 / ((k : ℝ) + 1) ^ 2 := by
      have : 0 ≤ ((k : ℝ) + 1 - y) ^ 2 / (2 * y * ((k : ℝ) + 1) ^ 2) := by positivity
      have e : ((k : ℝ) + 1 - y) ^ 2 / (2 * y * ((k : ℝ) + 1) ^ 2)
          = 1 / (2 * y) + y / 2 / ((k : ℝ) + 1) ^ 2 - 1 / ((k : ℝ) + 1) := by field_simp; ring
      rw [e] at this
      linarith
    have h5 : log y + eulerMascheroniConstant + 1 / 2 - 1 / (2 * y)
        - (y ^ 2 / 2 + y / 2) / ((k : ℝ) + 1) ^ 2 ≤ harmonic k := by
      have e : (y ^ 2 / 2 + y / 2) / ((k : ℝ) + 1) ^ 2 = y ^ 2 / ((k : ℝ) + 1) ^ 2 / 2 + y / 2 / ((k : ℝ) + 1) ^ 2 := by
        ring
      rw [e]
      linarith
    have := mul_le_mul_of_nonneg_left h5 ht.le
    calc _ = term0 x k * (log y + eulerMascheroniConstant + 1 / 2 - 1 / (2 * y)
        - (y ^ 2 / 2 + y / 2) / ((k : ℝ) + 1) ^ 2) := by ring
      _ ≤ _ := this

/-- The quotient of the function of the second kind by the one of the first kind. -/
noncomputable def quot (x : ℝ) : ℝ := besselK0 x / besselI 0 x

theorem quot_tendsto : Tendsto quot atTop (𝓝 0) := by
  have h2 : Tendsto (fun x : ℝ => 2 / x) atTop (𝓝 0) := tendsto_const_nhds.div_atTop tendsto_id
  have h1 : Tendsto (fun x : ℝ => -(2 / x)) atTop (𝓝 0) := by simpa using h2.neg
  refine tendsto_of_tendsto_of_tendsto_of_le_of_le' h1 h2 ?_ ?_
  · filter_upwards [eventually_gt_atTop 0] with x hx
    unfold quot
    rw [le_div_iff₀ (by linarith [besselI0_pos x hx])]
    linarith [ratio_lower x hx]
  · filter_upwards [eventually_gt_atTop 0] with x hx
    unfold quot
    rw [div_le_iff₀ (by linarith [besselI0_pos x hx])]
    exact ratio_upper x hx

theorem quot_deriv (x : ℝ) (hx : 0 < x) : HasDerivAt quot (-(1 / (x * besselI 0 x ^ 2))) x := by
  have hI := besselI0_pos x hx
  have h := (besselK0_deriv x hx).div (besselI_zero_deriv x) (by linarith)
  refine h.congr_deriv ?_
  have w := wronskian x hx
  have : besselI 0 x ≠ 0 := by linarith
  have e : -besselK1 x * besselI 0 x - besselK0 x * besselI 1 x = -(1 / x) := by linarith
  rw [e]
  field_simp

theorem nonneg_of_decreasing (f f' : ℝ → ℝ) (a : ℝ) (hd : ∀ x, a < x → HasDerivAt f (f' x) x)
    (hn : ∀ x, a < x → f' x ≤ 0) (hl : Tendsto f atTop (𝓝 0)) (x : ℝ) (hx : a < x) : 0 ≤ f x := by
  have hanti : AntitoneOn f (Set.Ici x) := by
    refine antitoneOn_of_deriv_nonpos (convex_Ici x) ?_ ?_ ?_
    · exact fun y hy => (hd y (lt_of_lt_of_le hx hy)).continuousAt.continuousWithinAt
    · rw [interior_Ici]
      exact fun y hy => (hd y (hx.trans hy)).differentiableAt.differentiableWithinAt
    · rw [interior_Ici]
      intro y hy
      rw [(hd y (hx.trans hy)).deriv]
      exact hn y (hx.trans hy)
  refine le_of_tendsto hl ?_
  filter_upwards [eventually_ge_atTop x] with y hy
  exact hanti Set.self_mem_Ici hy hy

/-- An approximation of the quotient is as accurate as its derivative. -/
theorem quot_close (g g' : ℝ → ℝ) (a ε : ℝ) (ha : 0 ≤ a) (hd : ∀ x, a < x → HasDerivAt g (g' x) x)
    (hn : ∀ x, a < x → |g' x + 1 / (x * besselI 0 x ^ 2)| ≤ ε * (1 / (x * besselI 0 x ^ 2)))
    (hl : Tendsto g atTop (𝓝 0)) (x : ℝ) (hx : a < x) : |g x - quot x| ≤ ε * quot x := by
  have h1 := nonneg_of_decreasing (fun x => (1 + ε) * quot x - g x)
    (fun x => (1 + ε) * -(1 / (x * besselI 0 x ^ 2)) - g' x) a
    (fun y hy => ((quot_deriv y (lt_of_le_of_lt ha hy)).const_mul (1 + ε)).sub (hd y hy))
    (fun y hy => by
      have := abs_le.mp (hn y hy)
      linarith)
    (by simpa using (quot_tendsto.const_mul (1 + ε)).sub hl) x hx
  have h2 := nonneg_of_decreasing (fun x => g x - (1 - ε) * quot x)
    (fun x => g' x - (1 - ε) * -(1 / (x * besselI 0 x ^ 2))) a
    (fun y hy => (hd y hy).sub ((quot_deriv y (lt_of_le_of_lt ha hy)).const_mul (1 - ε)))
    (fun y hy => by
      have := abs_le.mp (hn y hy)
      linarith)
    (by simpa using hl.sub (quot_tendsto.const_mul (1 - ε))) x hx
  rw [abs_le]
  constructor <;> linarith

theorem quot_nonneg (x : ℝ) (hx : 0 < x) : 0 ≤ quot x :=
  nonneg_of_decreasing quot _ 0 (fun y hy => quot_deriv y hy) (fun y hy => by
    have : 0 ≤ 1 / (y * besselI 0 y ^ 2) := by positivity
    linarith) quot_tendsto x hx

/-- The function of the second kind is not negative. -/
theorem besselK0_nonneg (x : ℝ) (hx : 0 < x) : 0 ≤ besselK0 x := by
  have h := quot_nonneg x hx
  unfold quot at h
  have hI := besselI0_pos x hx
  by_contra hc
  have : besselK0 x / besselI 0 x < 0 := div_neg_of_neg_of_pos (not_le.mp hc) (by linarith)
  linarith

theorem besselI1_pos (x : ℝ) (hx : 0 < x) : 0 < besselI 1 x := by
  have h := series_summable _ cI1_small 1 x
  rw [besselI_one]
  refine h.tsum_pos (fun k => ?_) 0 ?_
  · unfold cI1; push_cast; positivity
  · unfold cI1; push_cast; positivity

theorem besselK1_le (x : ℝ) (hx : 0 < x) : besselK1 x ≤ 1 / x := by
  have w := wronskian x hx
  have h0 := besselK0_nonneg x hx
  have h1 := besselI1_pos x hx
  have hI := besselI0_pos x hx
  have : 0 ≤ besselI 1 x * besselK0 x := by positivity
  by_contra hc
  have hc' : 1 / x < besselK1 x := not_le.mp hc
  have hx' : 0 < 1 / x := by positivity
  nlinarith

end Verif.Green.FinK
