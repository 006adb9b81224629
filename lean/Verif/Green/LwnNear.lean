/-
The approximations of the functions of Bessel and Struve between 0 and 3.
-/
import Mathlib.Analysis.Real.Pi.Bounds
import Verif.Green.LwnModel
import Verif.Green.LwnSeries

namespace Verif.Green.Lwn

open Real Verif.Green.PolyBound
open scoped Nat

theorem horner_ev (l : List ℚ) (y : ℝ) : horner l y = ev l y := by
  induction l with
  | nil => rfl
  | cons a l ih => simp only [horner, ev, ih]; ring

/-! ### Ratios of successive coefficients -/

theorem half_of_ratio (a b q : ℚ) (h : b = -(a * q)) (h0 : 0 ≤ q) (hq : q ≤ 1 / 2) : |b| ≤ |a| / 2 := by
  rw [h, abs_neg, abs_mul, abs_of_nonneg h0]
  have := abs_nonneg a
  nlinarith

theorem ratio_J0 (k : ℕ) (hk : 12 ≤ k) : |nine cJ0 (k + 1)| ≤ |nine cJ0 k| / 2 := by
  have h12 : (12 : ℚ) ≤ k := by exact_mod_cast hk
  refine half_of_ratio _ _ (9 / (4 * ((k : ℚ) + 1) ^ 2)) ?_ (by positivity) ?_
  · unfold nine cJ0
    rw [Nat.factorial_succ]
    push_cast
    have : (k ! : ℚ) ≠ 0 := by positivity
    field_simp
    ring
  · rw [div_le_div_iff₀ (by positivity) (by norm_num)]
    nlinarith

theorem ratio_J1 (k : ℕ) (hk : 12 ≤ k) : |nine cJ1 (k + 1)| ≤ |nine cJ1 k| / 2 := by
  have h12 : (12 : ℚ) ≤ k := by exact_mod_cast hk
  refine half_of_ratio _ _ (9 / (4 * ((k : ℚ) + 1) * ((k : ℚ) + 2))) ?_ (by positivity) ?_
  · unfold nine cJ1
    rw [Nat.factorial_succ (k + 1), Nat.factorial_succ k]
    push_cast
    have : (k ! : ℚ) ≠ 0 := by positivity
    field_simp
    ring
  · rw [div_le_div_iff₀ (by positivity) (by norm_num)]
    nlinarith

theorem ratio_H0 (k : ℕ) (hk : 12 ≤ k) : |nine cH0 (k + 1)| ≤ |nine cH0 k| / 2 := by
  have h12 : (12 : ℚ) ≤ k := by exact_mod_cast hk
  refine half_of_ratio _ _ (9 / (2 * (k : ℚ) + 3) ^ 2) ?_ (by positivity) ?_
  · unfold nine cH0
    rw [show 2 * (k + 1) + 1 = (2 * k + 1) + 2 from by ring, Nat.doubleFactorial_add_two]
    push_cast
    have : ((2 * k + 1)‼ : ℚ) ≠ 0 := by
      have := Nat.doubleFactorial_pos (2 * k + 1); positivity
    field_simp
    ring
  · rw [div_le_div_iff₀ (by positivity) (by norm_num)]
    nlinarith

theorem ratio_H1 (k : ℕ) (hk : 12 ≤ k) : |nine cH1 (k + 1)| ≤ |nine cH1 k| / 2 := by
  have h12 : (12 : ℚ) ≤ k := by exact_mod_cast hk
  refine half_of_ratio _ _ (9 / ((2 * (k : ℚ) + 3) * (2 * (k : ℚ) + 5))) ?_ (by positivity) ?_
  · unfold nine cH1
    rw [show 2 * (k + 1) + 3 = (2 * k + 3) + 2 from by ring,
      show 2 * (k + 1) + 1 = (2 * k + 1) + 2 from by ring, Nat.doubleFactorial_add_two (2 * k + 3),
      show 2 * k + 3 = (2 * k + 1) + 2 from by ring, Nat.doubleFactorial_add_two (2 * k + 1)]
    push_cast
    have : ((2 * k + 1)‼ : ℚ) ≠ 0 := by
      have := Nat.doubleFactorial_pos (2 * k + 1); positivity
    field_simp
    ring
  · rw [div_le_div_iff₀ (by positivity) (by norm_num)]
    nlinarith

/-! ### Comparison with the first terms of the series -/

/-- The first twelve terms of the series. -/
def first (c : ℕ → ℚ) : List ℚ := (List.range 12).map (nine c)

theorem unit_sq (x : ℝ) (h0 : 0 ≤ x) (h3 : x ≤ 3) : 0 ≤ (x / 3) ^ 2 ∧ (x / 3) ^ 2 ≤ 1 :=
  ⟨by positivity, pow_le_one₀ (by positivity) (by linarith)⟩

theorem near_of_check (c : ℕ → ℚ) (hc : ∀ k, |(c k : ℝ)| ≤ 1 / k !) (m : ℕ)
    (hr : ∀ k, 12 ≤ k → |nine c (k + 1)| ≤ |nine c k| / 2) (l : List ℚ) (e f : ℚ) (n : ℕ)
    (t1 : nonneg (psub [e] (psub l (first c))) n (1 / 2) (1 / 2) = true)
    (t2 : nonneg (padd [e] (psub l (first c))) n (1 / 2) (1 / 2) = true)
    (t3 : decide (e + 2 * |nine c 12| ≤ f) = true) (x : ℝ) (h0 : 0 ≤ x) (h3 : x ≤ 3) :
    |x ^ m * ev l ((x / 3) ^ 2) - ∑' k : ℕ, (c k : ℝ) * x ^ (2 * k + m)| ≤ x ^ m * f := by
  have h1 := truncate c hc m 12 hr x h0 h3
  obtain ⟨u0, u1⟩ := unit_sq x h0 h3
  have h2 := abs_le_unit _ _ n t1 t2 ((x / 3) ^ 2) u0 u1
  rw [ev_psub] at h2
  have e1 : ev [e] ((x / 3) ^ 2) = e := by simp [ev]
  rw [e1] at h2
  have h4 : (e : ℝ) + 2 * |nine c 12| ≤ f := by exact_mod_cast of_decide_eq_true t3
  have hx := pow_nonneg h0 m
  have h5 : |x ^ m * ev l ((x / 3) ^ 2) - x ^ m * ev (first c) ((x / 3) ^ 2)| ≤ x ^ m * e := by
    rw [← mul_sub, abs_mul, abs_of_nonneg hx]
    exact mul_le_mul_of_nonneg_left h2 hx
  rw [abs_le] at *
  have h6 := mul_le_mul_of_nonneg_left h4 hx
  constructor
  · have := h1.2; have := h5.1; unfold first at *; nlinarith
  · have := h1.1; have := h5.2; unfold first at *; nlinarith

/-- Bessel function of order 0. -/
theorem j0_near (x : ℝ) (h0 : 0 ≤ x) (h3 : x ≤ 3) :
    |horner j0Near ((x / 3) ^ 2) - besselJ 0 x| ≤ 2 / 10 ^ 9 := by
  have := near_of_check cJ0 cJ0_small 0 ratio_J0 j0Near (195 / 10 ^ 11) (2 / 10 ^ 9) 9
    (by decide +kernel) (by decide +kernel) (by decide +kernel) x h0 h3
  rw [horner_ev, besselJ_zero]
  simpa using this

/-- Bessel function of order 1. -/
theorem j1_near (x : ℝ) (h0 : 0 ≤ x) (h3 : x ≤ 3) :
    |horner j1Near ((x / 3) ^ 2) * x - besselJ 1 x| ≤ 12 / 10 ^ 10 * x := by
  have := near_of_check cJ1 cJ1_small 1 ratio_J1 j1Near (118 / 10 ^ 11) (12 / 10 ^ 10) 9
    (by decide +kernel) (by decide +kernel) (by decide +kernel) x h0 h3
  rw [horner_ev, besselJ_one, mul_comm, mul_comm _ x]
  simpa using this

theorem struve_of_check (P S T p q e x : ℝ) (hx : 0 ≤ x) (hp : 0 < p) (h : |x * (P * q) - S| ≤ x * e)
    (hq : |p - q| * |P| ≤ T) : |x * P - 1 / p * S| ≤ x * ((e + T) / p) := by
  have h1 : |x * (P * p) - S| ≤ x * (e + T) := by
    have e1 : x * (P * p) - S = (x * (P * q) - S) + x * ((p - q) * P) := by ring
    rw [e1, mul_add]
    refine (abs_add_le _ _).trans (add_le_add h ?_)
    rw [abs_mul, abs_mul, abs_of_nonneg hx]
    exact mul_le_mul_of_nonneg_left hq hx
  have e2 : x * P - 1 / p * S = (x * (P * p) - S) / p := by field_simp
  rw [e2, abs_div, abs_of_pos hp, div_le_iff₀ hp]
  refine h1.trans (le_of_eq ?_)
  field_simp

/-- A value of `π / 2`. -/
def halfPi : ℚ := 1.57079632679489661923

theorem halfPi_close : |π / 2 - (halfPi : ℝ)| ≤ 1 / 10 ^ 19 := by
  have h1 := pi_gt_d20
  have h2 := pi_lt_d20
  unfold halfPi
  rw [abs_le]
  push_cast
  constructor <;> norm_num at * <;> linarith

/-- Struve function of order 0. -/
theorem h0_near (x : ℝ) (h0 : 0 ≤ x) (h3 : x ≤ 3) :
    |horner h0Near ((x / 3) ^ 2) * (x / 3) - struveH 0 x| ≤ 154 / 10 ^ 9 * (x / 3) := by
  have h1 := near_of_check cH0 cH0_small 1 ratio_H0 (pscale (halfPi / 3) h0Near) (803 / 10 ^ 10)
    (804 / 10 ^ 10) 9 (by decide +kernel) (by decide +kernel) (by decide +kernel) x h0 h3
  rw [ev_pscale, pow_one] at h1
  obtain ⟨u0, u1⟩ := unit_sq x h0 h3
  have hP := abs_le_unit h0Near [10] 3 (by decide +kernel) (by decide +kernel) ((x / 3) ^ 2) u0 u1
  rw [struveH_zero, horner_ev]
  set P := ev h0Near ((x / 3) ^ 2) with hPd
  set S := ∑' k : ℕ, (cH0 k : ℝ) * x ^ (2 * k + 1) with hS
  have h2 := struve_of_check (P / 3) S (1 / 10 ^ 17) (π / 2) halfPi (804 / 10 ^ 10) x h0
    (by positivity) (by push_cast at h1; convert h1 using 3; ring) (by
      have e : |P / 3| ≤ 10 := by
        have e1 : ev [10] ((x / 3) ^ 2) = 10 := by simp [ev]
        rw [e1] at hP
        rw [abs_div, abs_of_pos (by norm_num : (0 : ℝ) < 3)]
        linarith [abs_nonneg P]
      calc |π / 2 - (halfPi : ℝ)| * |P / 3| ≤ 1 / 10 ^ 19 * 10 :=
            mul_le_mul halfPi_close e (abs_nonneg _) (by positivity)
        _ ≤ _ := by norm_num)
  have e2 : P * (x / 3) - 2 / π * S = x * (P / 3) - 1 / (π / 2) * S := by field_simp
  rw [e2]
  refine h2.trans ?_
  rw [show (154 : ℝ) / 10 ^ 9 * (x / 3) = x * (154 / 10 ^ 9 / 3) by ring]
  refine mul_le_mul_of_nonneg_left ?_ h0
  rw [div_le_iff₀ (by positivity)]
  have := pi_gt_d2
  norm_num at *
  linarith

/-- Struve function of order 1. -/
theorem h1_near (x : ℝ) (h0 : 0 ≤ x) (h3 : x ≤ 3) :
    |horner h1Near ((x / 3) ^ 2) * (x / 3) ^ 2 - struveH 1 x| ≤ 313 / 10 ^ 10 * (x / 3) ^ 2 := by
  have h1 := near_of_check cH1 cH1_small 2 ratio_H1 (pscale (halfPi / 9) h1Near) (5445 / 10 ^ 12)
    (5446 / 10 ^ 12) 9 (by decide +kernel) (by decide +kernel) (by decide +kernel) x h0 h3
  rw [ev_pscale] at h1
  obtain ⟨u0, u1⟩ := unit_sq x h0 h3
  have hP := abs_le_unit h1Near [10] 3 (by decide +kernel) (by decide +kernel) ((x / 3) ^ 2) u0 u1
  rw [struveH_one, horner_ev]
  set P := ev h1Near ((x / 3) ^ 2) with hPd
  set S := ∑' k : ℕ, (cH1 k : ℝ) * x ^ (2 * k + 2) with hS
  have h2 := struve_of_check (P / 9) S (1 / 10 ^ 17) (π / 2) halfPi (5446 / 10 ^ 12) (x ^ 2)
    (by positivity) (by positivity) (by push_cast at h1; convert h1 using 3; ring) (by
      have e : |P / 9| ≤ 10 := by
        have e1 : ev [10] ((x / 3) ^ 2) = 10 := by simp [ev]
        rw [e1] at hP
        rw [abs_div, abs_of_pos (by norm_num : (0 : ℝ) < 9)]
        linarith [abs_nonneg P]
      calc |π / 2 - (halfPi : ℝ)| * |P / 9| ≤ 1 / 10 ^ 19 * 10 :=
            mul_le_mul halfPi_close e (abs_nonneg _) (by positivity)
        _ ≤ _ := by norm_num)
  have e2 : P * (x / 3) ^ 2 - 2 / π * S = x ^ 2 * (P / 9) - 1 / (π / 2) * S := by field_simp; ring
  rw [e2]
  refine h2.trans ?_
  rw [show (313 : ℝ) / 10 ^ 10 * (x / 3) ^ 2 = x ^ 2 * (313 / 10 ^ 10 / 9) by ring]
  refine mul_le_mul_of_nonneg_left ?_ (by positivity)
  rw [div_le_iff₀ (by positivity)]
  have := pi_gt_d2
  norm_num at *
  linarith

end Verif.Green.Lwn
