import Verif.Green.ErfNear
import Mathlib.MeasureTheory.Integral.IntegralEqImproper

/-! # The asymptotic expansion of the error function -/

namespace Verif.Green.Erf

open Real Finset Filter Topology

/-- The numerators of the expansion. -/
def num (n : ℕ) : ℚ := ∏ j ∈ range n, ((j : ℚ) + 1 / 2)

theorem num_pos (n : ℕ) : (0 : ℝ) < (num n : ℝ) := by
  have : (0 : ℚ) < num n := prod_pos fun j _ => by positivity
  exact_mod_cast this

theorem num_succ (n : ℕ) : (num (n + 1) : ℝ) = num n * (n + 1 / 2) := by
  rw [num, prod_range_succ, ← num]
  push_cast
  ring

theorem farStep_spec {y : ℝ} (hy : y ≠ 0) (n : ℕ) :
    (List.range n).foldl (farStep y) (1, 1) =
      ((-1) ^ n * num n / y ^ n, ∑ k ∈ range (n + 1), (-1 : ℝ) ^ k * num k / y ^ k) := by
  induction n with
  | zero => simp [num]
  | succ n ih =>
    rw [List.range_succ, List.foldl_append, ih]
    simp only [List.foldl_cons, List.foldl_nil, farStep]
    have e : -((-1 : ℝ) ^ n * num n / y ^ n) * (((n + 1 : ℕ) : ℝ) - 0.5) / y = (-1) ^ (n + 1) * num (n + 1) / y ^ (n + 1) := by
      rw [num_succ, pow_succ, pow_succ]
      push_cast
      field_simp
      norm_num
      ring
    rw [e, sum_range_succ _ (n + 1)]

/-- The terms of the expansion with their exponential. -/
noncomputable def tail (k : ℕ) (x : ℝ) : ℝ := (-1) ^ k * num k * (exp (-x ^ 2) / x ^ (2 * k + 1))

/-- The terms of the derivative. -/
noncomputable def dtail (k : ℕ) (x : ℝ) : ℝ := 2 * ((-1) ^ k * num k) * (exp (-x ^ 2) / x ^ (2 * k))

theorem tail_deriv (k : ℕ) {x : ℝ} (hx : x ≠ 0) : HasDerivAt (tail k) (-dtail k x + dtail (k + 1) x) x := by
  have h := ((exp_deriv x).div (hasDerivAt_pow (2 * k + 1) x) (pow_ne_zero _ hx)).const_mul ((-1 : ℝ) ^ k * num k)
  refine h.congr_deriv ?_
  unfold dtail
  rw [num_succ]
  simp only [add_tsub_cancel_right]
  push_cast
  rw [show 2 * (k + 1) = 2 * k + 2 by ring, pow_succ x (2 * k), pow_add x (2 * k) 2, pow_succ (-1 : ℝ) k]
  have h1 : x ^ (2 * k) ≠ 0 := pow_ne_zero _ hx
  field_simp
  ring

/-- The difference between the first terms of the expansion and the integral. -/
noncomputable def gap (n : ℕ) (x : ℝ) : ℝ := ∑ k ∈ range n, tail k x - (√π - 2 * bell x)

theorem gap_deriv (n : ℕ) {x : ℝ} (hx : x ≠ 0) : HasDerivAt (gap n) (dtail n x) x := by
  induction n with
  | zero =>
    have e : gap 0 = fun t => 2 * bell t - √π := by funext t; simp [gap]
    rw [e]
    refine (((bell_deriv x).const_mul 2).sub_const _).congr_deriv ?_
    simp [dtail, num]
  | succ n ih =>
    have e : gap (n + 1) = fun t => gap n t + tail n t := by
      funext t; unfold gap; rw [sum_range_succ]; ring
    rw [e]
    refine (ih.add (tail_deriv n hx)).congr_deriv ?_
    ring

theorem exp_tendsto : Tendsto (fun x : ℝ => exp (-x ^ 2)) atTop (𝓝 0) :=
  tendsto_exp_atBot.comp (tendsto_neg_atTop_atBot.comp (tendsto_pow_atTop (by norm_num)))

theorem bell_tendsto : Tendsto bell atTop (𝓝 (√π / 2)) := by
  have hi : MeasureTheory.Integrable fun x : ℝ => exp (-1 * x ^ 2) := integrable_exp_neg_mul_sq one_pos
  have h := MeasureTheory.intervalIntegral_tendsto_integral_Ioi (μ := MeasureTheory.volume) (0 : ℝ) hi.integrableOn tendsto_id
  rw [integral_gaussian_Ioi 1, div_one] at h
  have e : bell = fun x => ∫ t in (0 : ℝ)..x, exp (-t ^ 2) := rfl
  rw [e]
  simpa using h

theorem gap_tendsto (n : ℕ) : Tendsto (gap n) atTop (𝓝 0) := by
  have h1 : Tendsto (fun x => ∑ k ∈ range n, tail k x) atTop (𝓝 (∑ k ∈ range n, (0 : ℝ))) := by
    refine tendsto_finsetSum _ fun k _ => ?_
    have := (exp_tendsto.div_atTop (tendsto_pow_atTop (n := 2 * k + 1) (by omega))).const_mul ((-1 : ℝ) ^ k * num k)
    rw [mul_zero] at this
    exact this
  have h2 := h1.sub ((tendsto_const_nhds (x := √π)).sub (bell_tendsto.const_mul 2))
  have e : ∑ k ∈ range n, (0 : ℝ) - (√π - 2 * (√π / 2)) = 0 := by simp; ring
  rw [e] at h2
  exact h2

theorem dtail_pos (k : ℕ) {x : ℝ} (hx : 0 < x) : 0 < num k * (exp (-x ^ 2) / x ^ (2 * k)) := by
  have := num_pos k
  positivity

/-- An even number of terms is not enough. -/
theorem gap_even {n : ℕ} (hn : Even n) {x : ℝ} (hx : 0 < x) : gap n x ≤ 0 := by
  have hm : MonotoneOn (gap n) (Set.Ici x) := by
    refine monotoneOn_of_deriv_nonneg (convex_Ici x) (fun t ht => (gap_deriv n (lt_of_lt_of_le hx ht).ne').continuousAt.continuousWithinAt)
      (fun t ht => ?_) fun t ht => ?_
    · rw [interior_Ici] at ht
      exact (gap_deriv n (hx.trans ht).ne').differentiableAt.differentiableWithinAt
    · rw [interior_Ici] at ht
      rw [(gap_deriv n (hx.trans ht).ne').deriv, dtail, hn.neg_one_pow]
      have := dtail_pos n (hx.trans ht)
      linarith
  exact ge_of_tendsto (gap_tendsto n) (eventually_atTop.mpr ⟨x, fun t ht => hm (Set.mem_Ici.mpr le_rfl) ht ht⟩)

/-- An odd number of terms is too much. -/
theorem gap_odd {n : ℕ} (hn : Odd n) {x : ℝ} (hx : 0 < x) : 0 ≤ gap n x := by
  have hm : AntitoneOn (gap n) (Set.Ici x) := by
    refine antitoneOn_of_deriv_nonpos (convex_Ici x) (fun t ht => (gap_deriv n (lt_of_lt_of_le hx ht).ne').continuousAt.continuousWithinAt)
      (fun t ht => ?_) fun t ht => ?_
    · rw [interior_Ici] at ht
      exact (gap_deriv n (hx.trans ht).ne').differentiableAt.differentiableWithinAt
    · rw [interior_Ici] at ht
      rw [(gap_deriv n (hx.trans ht).ne').deriv, dtail, hn.neg_one_pow]
      have := dtail_pos n (hx.trans ht)
      linarith
  exact le_of_tendsto (gap_tendsto n) (eventually_atTop.mpr ⟨x, fun t ht => hm (Set.mem_Ici.mpr le_rfl) ht ht⟩)

theorem num_ratio : num 13 ≤ 69 / 10 ^ 7 * (49 / 4) ^ 13 := by decide +kernel

/-- The thirteen terms of the code. -/
theorem far_error {x : ℝ} (hx : 3.5 ≤ x) :
    0 ≤ gap 13 x ∧ gap 13 x ≤ 72 / 10 ^ 7 * (√π - 2 * bell x) ∧ gap 13 x ≤ 69 / 10 ^ 7 * (exp (-x ^ 2) / x) ∧
      95 / 100 * (exp (-x ^ 2) / x) ≤ √π - 2 * bell x := by
  norm_num at hx
  have h0 : 0 < x := by linarith
  have hy : 49 / 4 ≤ x ^ 2 := by nlinarith
  have he : 0 < exp (-x ^ 2) / x := div_pos (exp_pos _) h0
  have h1 := gap_odd (n := 13) (by decide) h0
  have h14 := gap_even (n := 14) (by decide) h0
  have h2 := gap_even (n := 2) (by decide) h0
  have e14 : gap 14 x = gap 13 x - num 13 / (x ^ 2) ^ 13 * (exp (-x ^ 2) / x) := by
    unfold gap
    rw [sum_range_succ _ 13, tail, ← pow_mul]
    field_simp
    ring
  have hq : (num 13 : ℝ) / (x ^ 2) ^ 13 ≤ 69 / 10 ^ 7 := by
    have hr := (Rat.cast_le (K := ℝ)).mpr num_ratio
    push_cast at hr
    rw [div_le_iff₀ (by positivity)]
    refine le_trans hr (mul_le_mul_of_nonneg_left (pow_le_pow_left₀ (by norm_num) hy 13) (by norm_num))
  have h3 : gap 13 x ≤ 69 / 10 ^ 7 * (exp (-x ^ 2) / x) := by
    have := mul_le_mul_of_nonneg_right hq he.le
    linarith
  have h4 : (1 - 1 / (2 * x ^ 2)) * (exp (-x ^ 2) / x) ≤ √π - 2 * bell x := by
    have e2 : gap 2 x = (1 - 1 / (2 * x ^ 2)) * (exp (-x ^ 2) / x) - (√π - 2 * bell x) := by
      unfold gap
      rw [sum_range_succ, sum_range_one, tail, tail]
      simp only [num, prod_range_zero, prod_range_one]
      push_cast
      field_simp
      ring
    linarith
  have h5 : (959 / 1000 : ℝ) ≤ 1 - 1 / (2 * x ^ 2) := by
    have : 1 / (2 * x ^ 2) ≤ 1 / (2 * (49 / 4)) := one_div_le_one_div_of_le (by norm_num) (by linarith)
    norm_num at this ⊢
    linarith
  have h6 : 959 / 1000 * (exp (-x ^ 2) / x) ≤ √π - 2 * bell x := le_trans (mul_le_mul_of_nonneg_right h5 he.le) h4
  generalize exp (-x ^ 2) / x = w at *
  refine ⟨h1, le_trans h3 ?_, h3, by linarith⟩
  norm_num
  linarith

end Verif.Green.Erf
