import Verif.Tabulation.IntegModel
import Verif.Blocks.Fourier
import Mathlib.Analysis.SpecialFunctions.Integrals.Basic
import Mathlib.Analysis.Complex.Exponential
import Mathlib.Tactic.LinearCombination

/-!
# Exactness of the rule of Simpson on trigonometric polynomials
-/

namespace Verif.Tabulation.Integ

open Finset Real Verif.Blocks

/-- A rule as a sum. -/
noncomputable def simpS (pi : ℝ) (n : ℕ) (f : ℝ → ℝ) : ℝ :=
  ∑ k ∈ range n, deltaTheta pi n (k + 1) * f (theta pi n (k + 1))

/-- The points of a rule with `N` intervals. -/
noncomputable def node (N k : ℕ) : ℝ := -π / 2 + π * k / N

theorem theta_node (N k : ℕ) : theta π (N + 1) (k + 1) = node N k := by
  simp [theta, node]

theorem sum_two_mul (g : ℕ → ℝ) (M : ℕ) (a b : ℝ) :
    ∑ k ∈ range (2 * M), (if k % 2 = 0 then a else b) * g k =
      b * ∑ k ∈ range (2 * M), g k + (a - b) * ∑ k ∈ range M, g (2 * k) := by
  induction M with
  | zero => simp
  | succ M ih =>
    rw [show 2 * (M + 1) = 2 * M + 1 + 1 from by ring, sum_range_succ, sum_range_succ, ih, sum_range_succ, sum_range_succ,
      sum_range_succ]
    simp only [show 2 * M % 2 = 0 from by omega, show (2 * M + 1) % 2 = 1 from by omega]
    norm_num
    ring

theorem simpS_split {M : ℕ} (hM : 0 < M) (f : ℝ → ℝ) (hf : f (-π / 2) = f (π / 2)) :
    simpS π (2 * M + 1) f =
      π / (3 * (2 * M)) * (4 * ∑ k ∈ range (2 * M), f (node (2 * M) k) - 2 * ∑ k ∈ range M, f (node M k)) := by
  have hM' : (M : ℝ) ≠ 0 := by positivity
  have hcast : (((2 * M + 1 : ℕ) : ℝ) - 1) = 2 * M := by push_cast; ring
  have hstep : ∀ k ∈ range (2 * M), deltaTheta π (2 * M + 1) (k + 1) * f (theta π (2 * M + 1) (k + 1)) =
      (if k % 2 = 0 then 2 * π / (3 * (2 * M)) else 4 * π / (3 * (2 * M))) * f (node (2 * M) k) -
        (if k = 0 then π / (3 * (2 * M)) * f (node (2 * M) 0) else 0) := by
    intro k hk
    have hk' := mem_range.1 hk
    rw [theta_node]
    unfold deltaTheta
    rw [hcast]
    rcases Nat.eq_zero_or_pos k with h0 | h0
    · subst h0
      simp
      ring
    · have h1 : ¬ (k + 1 = 1 ∨ k + 1 = 2 * M + 1) := by omega
      rw [if_neg h1]
      rcases Nat.mod_two_eq_zero_or_one k with h | h
      · simp [h, h0.ne', show (k + 1) % 2 = 1 from by omega]
      · simp [h, h0.ne', show (k + 1) % 2 = 0 from by omega]
  unfold simpS
  rw [sum_range_succ, sum_congr rfl hstep, sum_sub_distrib, sum_two_mul]
  have hlast : deltaTheta π (2 * M + 1) (2 * M + 1) * f (theta π (2 * M + 1) (2 * M + 1)) =
      π / (3 * (2 * M)) * f (π / 2) := by
    rw [theta_node]
    unfold deltaTheta node
    rw [hcast, if_pos (Or.inr rfl)]
    congr 2
    push_cast
    field_simp
    ring
  have hfirst : f (node (2 * M) 0) = f (-π / 2) := by simp [node]
  have hev : ∀ k, node (2 * M) (2 * k) = node M k := by
    intro k
    unfold node
    push_cast
    congr 1
    field_simp
  rw [hlast, sum_ite_eq' (range (2 * M)) 0 (fun _ => π / (3 * (2 * M)) * f (node (2 * M) 0)), if_pos (mem_range.2 (by omega)), hfirst,
    hf]
  simp only [hev]
  ring

/-- The cosines of the angles `2 π m j / N`. -/
theorem sum_cos {N : ℕ} (hN : 0 < N) (m : ℤ) (hm : |m| < N) :
    ∑ j ∈ range N, cos (m * (2 * π * j / N)) = if m = 0 then (N : ℝ) else 0 := by
  have h := congrArg Complex.re (sum_W hN m)
  rw [Complex.re_sum] at h
  have hre : ∀ j : ℕ, (W N (m * j)).re = cos (m * (2 * π * j / N)) := by
    intro j
    unfold W
    have : -(2 * (π : ℂ) * Complex.I * ((m * j : ℤ) : ℂ) / N) = ((-(m * (2 * π * j / N)) : ℝ) : ℂ) * Complex.I := by
      push_cast
      ring
    rw [this, Complex.exp_ofReal_mul_I_re, cos_neg]
  simp only [hre] at h
  rw [h]
  by_cases h0 : m = 0
  · simp [h0]
  · have : ¬ (N : ℤ) ∣ m := by
      intro hd
      have := Int.le_of_dvd (abs_pos.2 h0) ((dvd_abs _ _).2 hd)
      omega
    simp [h0, this]

theorem cos_sq_node {N : ℕ} (j : ℕ) : cos (node N j) ^ 2 = (1 - cos (2 * π * j / N)) / 2 := by
  have h : 2 * π * j / N = 2 * node N j + π := by unfold node; ring
  rw [h, cos_add_pi, cos_two_mul]
  ring

theorem integral_cos_mode (m : ℤ) :
    ∫ t in (-π / 2)..(π / 2), cos (m * (2 * t + π)) = if m = 0 then π else 0 := by
  split
  · rename_i h
    simp [h]
    ring
  · rename_i h
    have hm : (m : ℝ) ≠ 0 := by exact_mod_cast h
    have hd : ∀ t ∈ Set.uIcc (-π / 2) (π / 2),
        HasDerivAt (fun t => sin (m * (2 * t + π)) / (2 * m)) (cos (m * (2 * t + π))) t := by
      intro t _
      have h1 : HasDerivAt (fun t : ℝ => (m : ℝ) * (2 * t + π)) (m * (2 * 1)) t :=
        (((hasDerivAt_id t).const_mul 2).add_const π).const_mul (m : ℝ)
      refine (h1.sin.div_const (2 * (m : ℝ))).congr_deriv ?_
      field_simp
    rw [intervalIntegral.integral_eq_sub_of_hasDerivAt hd (by apply Continuous.intervalIntegrable; fun_prop)]
    have e1 : (m : ℝ) * (2 * (π / 2) + π) = ((2 * m : ℤ) : ℝ) * π := by push_cast; ring
    have e2 : (m : ℝ) * (2 * (-π / 2) + π) = 0 := by ring
    rw [e1, e2, sin_int_mul_pi]
    simp

/-- The rule with equal weights is exact for small even powers of the cosine. -/
theorem equal_weights_mode {N : ℕ} (hN : 0 < N) (k : ℕ) : ∀ m : ℤ, |m| + k < N →
    π * ∑ j ∈ range N, cos (node N j) ^ (2 * k) * cos (m * (2 * π * j / N)) =
      N * ∫ t in (-π / 2)..(π / 2), cos t ^ (2 * k) * cos (m * (2 * t + π)) := by
  induction k with
  | zero =>
    intro m hm
    simp only [mul_zero, pow_zero, one_mul]
    rw [sum_cos hN m (by omega), integral_cos_mode]
    split <;> ring
  | succ k ih =>
    intro m hm
    have h0 := ih m (by push_cast at hm; omega)
    have h1 := ih (m + 1) (by push_cast at hm; have := abs_add_le m 1; simp at this; omega)
    have h2 := ih (m - 1) (by push_cast at hm; have := abs_sub m 1; simp at this; omega)
    have key : ∀ c a b d : ℝ, c ^ 2 = (1 - cos d) / 2 → b = cos (a * d) →
        c ^ (2 * (k + 1)) * b = 1 / 2 * (c ^ (2 * k) * cos (a * d)) - 1 / 4 * (c ^ (2 * k) * cos ((a + 1) * d)) -
          1 / 4 * (c ^ (2 * k) * cos ((a - 1) * d)) := by
      intro c a b d hc hb
      rw [show 2 * (k + 1) = 2 * k + 2 from by ring, pow_add, hc, hb, add_mul, sub_mul, one_mul, cos_add, cos_sub]
      ring
    have hs : ∑ j ∈ range N, cos (node N j) ^ (2 * (k + 1)) * cos (m * (2 * π * j / N)) =
        1 / 2 * ∑ j ∈ range N, cos (node N j) ^ (2 * k) * cos (m * (2 * π * j / N)) -
        1 / 4 * ∑ j ∈ range N, cos (node N j) ^ (2 * k) * cos ((m + 1 : ℤ) * (2 * π * j / N)) -
        1 / 4 * ∑ j ∈ range N, cos (node N j) ^ (2 * k) * cos ((m - 1 : ℤ) * (2 * π * j / N)) := by
      rw [mul_sum, mul_sum, mul_sum, ← sum_sub_distrib, ← sum_sub_distrib]
      refine sum_congr rfl fun j _ => ?_
      push_cast
      exact key _ _ _ _ (cos_sq_node j) rfl
    have hi : ∫ t in (-π / 2)..(π / 2), cos t ^ (2 * (k + 1)) * cos (m * (2 * t + π)) =
        1 / 2 * (∫ t in (-π / 2)..(π / 2), cos t ^ (2 * k) * cos (m * (2 * t + π))) -
        1 / 4 * (∫ t in (-π / 2)..(π / 2), cos t ^ (2 * k) * cos ((m + 1 : ℤ) * (2 * t + π))) -
        1 / 4 * (∫ t in (-π / 2)..(π / 2), cos t ^ (2 * k) * cos ((m - 1 : ℤ) * (2 * t + π))) := by
      rw [← intervalIntegral.integral_const_mul, ← intervalIntegral.integral_const_mul, ← intervalIntegral.integral_const_mul,
        ← intervalIntegral.integral_sub (by apply Continuous.intervalIntegrable; fun_prop)
          (by apply Continuous.intervalIntegrable; fun_prop),
        ← intervalIntegral.integral_sub (by apply Continuous.intervalIntegrable; fun_prop)
          (by apply Continuous.intervalIntegrable; fun_prop)]
      refine intervalIntegral.integral_congr fun t _ => ?_
      push_cast
      refine key _ _ _ _ ?_ rfl
      rw [cos_add_pi, cos_two_mul]
      ring
    rw [hs, hi]
    linear_combination 1 / 2 * h0 - 1 / 4 * h1 - 1 / 4 * h2

theorem equal_weights_pow {N : ℕ} {k : ℕ} (hk : k < N) :
    π * ∑ j ∈ range N, cos (node N j) ^ (2 * k) = N * ∫ t in (-π / 2)..(π / 2), cos t ^ (2 * k) := by
  have h := equal_weights_mode (N := N) (by omega) k 0 (by simpa using hk)
  simpa using h

/-- The rule of Simpson is exact for small even powers of the cosine. -/
theorem simpS_pow {M k : ℕ} (hk : k < M) :
    simpS π (2 * M + 1) (fun t => cos t ^ (2 * k)) = ∫ t in (-π / 2)..(π / 2), cos t ^ (2 * k) := by
  have hM : 0 < M := by omega
  have hM' : (M : ℝ) ≠ 0 := by positivity
  rw [simpS_split hM _ (by simp only [neg_div, cos_neg])]
  have h1 := equal_weights_pow (N := 2 * M) (k := k) (by omega)
  have h2 := equal_weights_pow hk
  have : π / (3 * (2 * M)) * (4 * ∑ j ∈ range (2 * M), cos (node (2 * M) j) ^ (2 * k) - 2 * ∑ j ∈ range M, cos (node M j) ^ (2 * k)) =
    1 / (3 * (2 * M)) * (4 * (π * ∑ j ∈ range (2 * M), cos (node (2 * M) j) ^ (2 * k)) -
      2 * (π * ∑ j ∈ range M, cos (node M j) ^ (2 * k))) := by ring
  rw [this, h1, h2]
  push_cast
  field_simp
  ring

theorem simpS_add (p : ℝ) (n : ℕ) (f g : ℝ → ℝ) : simpS p n (fun t => f t + g t) = simpS p n f + simpS p n g := by
  simp [simpS, mul_add, sum_add_distrib]

theorem simpS_mul (p : ℝ) (n : ℕ) (c : ℝ) (f : ℝ → ℝ) : simpS p n (fun t => c * f t) = c * simpS p n f := by
  unfold simpS
  rw [mul_sum]
  exact sum_congr rfl fun k _ => by ring

theorem simpS_sum {ι : Type} (p : ℝ) (n : ℕ) (s : Finset ι) (f : ι → ℝ → ℝ) :
    simpS p n (fun t => ∑ i ∈ s, f i t) = ∑ i ∈ s, simpS p n (f i) := by
  unfold simpS
  rw [sum_comm]
  exact sum_congr rfl fun k _ => by rw [mul_sum]

theorem delta_nonneg {p : ℝ} (hp : 0 ≤ p) {n : ℕ} (hn : 1 ≤ n) (k : ℕ) : 0 ≤ deltaTheta p n k := by
  have : 0 ≤ (n : ℝ) - 1 := by
    have : (1 : ℝ) ≤ n := by exact_mod_cast hn
    linarith
  unfold deltaTheta
  split
  · positivity
  · split <;> positivity

theorem simpS_one {M : ℕ} (hM : 0 < M) : simpS π (2 * M + 1) (fun _ => 1) = π := by
  have h := simpS_pow (k := 0) hM
  simp only [mul_zero, pow_zero, intervalIntegral.integral_const, smul_eq_mul, mul_one] at h
  rw [h]
  ring

theorem simpS_le {M : ℕ} (hM : 0 < M) {f : ℝ → ℝ} {c : ℝ} (hf : ∀ t, |f t| ≤ c) : |simpS π (2 * M + 1) f| ≤ π * c := by
  have h1 : |simpS π (2 * M + 1) f| ≤ simpS π (2 * M + 1) (fun _ => c) := by
    unfold simpS
    refine (abs_sum_le_sum_abs _ _).trans (sum_le_sum fun k _ => ?_)
    have hd := delta_nonneg pi_pos.le (n := 2 * M + 1) (by omega) (k + 1)
    rw [abs_mul, abs_of_nonneg hd]
    exact mul_le_mul_of_nonneg_left (hf _) hd
  have h2 : simpS π (2 * M + 1) (fun _ => c) = π * c := by
    have := simpS_mul π (2 * M + 1) c (fun _ => 1)
    simp only [mul_one] at this
    rw [this, simpS_one hM]
    ring
  rwa [h2] at h1

end Verif.Tabulation.Integ
