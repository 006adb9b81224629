import Verif.Green.QuadModel
import Mathlib.Analysis.SpecialFunctions.Integrals.Basic
import Mathlib.MeasureTheory.Integral.IntervalIntegral.Basic

/-! # The rule of fifteen points on one interval -/

namespace Verif.Green.Quad

open intervalIntegral Finset

/-- The rule on the interval from `-1` to `1`. -/
noncomputable def rule (g : ℝ → ℝ) : ℝ := ∑ i ∈ range 15, ((wk.getD i 0 : ℚ) : ℝ) * g ((xk.getD i 0 : ℚ) : ℝ)

theorem shared : ∀ i ∈ List.range 15, (i + 1) % 2 = 0 → xg.getD ((i + 1) / 2 - 1) 0 = xk.getD i 0 := by decide +kernel

theorem foldl_add (F : ℕ → ℝ) (n : ℕ) : (List.range n).foldl (fun acc i => acc + F i) 0 = ∑ i ∈ range n, F i := by
  induction n with
  | zero => simp
  | succ n ih => simp [List.range_succ, ih, sum_range_succ]

theorem kronrod_eq (f : ℝ → ℝ) (A B : ℝ) :
    kronrod f A B = (B - A) / 2 * rule (fun x => f ((A + B) / 2 + (B - A) / 2 * x)) := by
  unfold kronrod
  have e : (fun (acc : ℝ) (i : ℕ) =>
      if (i + 1) % 2 = 0 then acc + ((wk.getD i 0 : ℚ) : ℝ) * (B - A) / 2 * stored f A B ((i + 1) / 2 - 1)
      else acc + ((wk.getD i 0 : ℚ) : ℝ) * (B - A) / 2 * f (1 / 2 * (B + A + (B - A) * ((xk.getD i 0 : ℚ) : ℝ)))) =
      fun acc i => acc + (if (i + 1) % 2 = 0 then ((wk.getD i 0 : ℚ) : ℝ) * (B - A) / 2 * stored f A B ((i + 1) / 2 - 1)
        else ((wk.getD i 0 : ℚ) : ℝ) * (B - A) / 2 * f (1 / 2 * (B + A + (B - A) * ((xk.getD i 0 : ℚ) : ℝ)))) := by
    funext acc i
    split <;> rfl
  rw [e, foldl_add, rule, mul_sum]
  refine sum_congr rfl fun i hi => ?_
  have hx : (A + B) / 2 + (B - A) / 2 * ((xk.getD i 0 : ℚ) : ℝ) = 1 / 2 * (B + A + (B - A) * ((xk.getD i 0 : ℚ) : ℝ)) := by ring
  rw [hx]
  split
  · rename_i h
    rw [stored, shared i (List.mem_range.mpr (mem_range.mp hi)) h]
    ring
  · ring

/-- The moments of the interval. -/
def moment (k : ℕ) : ℚ := (1 - (-1) ^ (k + 1)) / (k + 1)

theorem moments_close : ∀ k ∈ List.range 24,
    |∑ i ∈ range 15, wk.getD i 0 * (xk.getD i 0) ^ k - moment k| ≤ 1 / 10 ^ 14 := by decide +kernel

theorem weights_sum : ∑ i ∈ range 15, |wk.getD i 0| ≤ 2 := by decide +kernel

theorem nodes_inside : ∀ i ∈ List.range 15, -1 ≤ xk.getD i 0 ∧ xk.getD i 0 ≤ 1 := by decide +kernel

theorem moment_integral (k : ℕ) : ∫ x in (-1 : ℝ)..1, x ^ k = (moment k : ℝ) := by
  rw [integral_pow]
  unfold moment
  push_cast
  simp

theorem rule_pow {k : ℕ} (hk : k < 24) : |rule (fun x => x ^ k) - ∫ x in (-1 : ℝ)..1, x ^ k| ≤ 1 / 10 ^ 14 := by
  have h := (Rat.cast_le (K := ℝ)).mpr (moments_close k (List.mem_range.mpr hk))
  rw [moment_integral, rule]
  push_cast at h
  exact h

/-- The error of the rule on the interval from `-1` to `1`. -/
noncomputable def defect (g : ℝ → ℝ) : ℝ := rule g - ∫ x in (-1 : ℝ)..1, g x

theorem defect_sum {n : ℕ} (c : ℕ → ℝ) (hn : n ≤ 24) :
    |defect (fun x => ∑ k ∈ range n, c k * x ^ k)| ≤ (∑ k ∈ range n, |c k|) / 10 ^ 14 := by
  have e : defect (fun x => ∑ k ∈ range n, c k * x ^ k) =
      ∑ k ∈ range n, c k * (rule (fun x => x ^ k) - ∫ x in (-1 : ℝ)..1, x ^ k) := by
    unfold defect
    rw [intervalIntegral.integral_finset_sum]
    · simp only [integral_const_mul, mul_sub, sum_sub_distrib]
      congr 1
      unfold rule
      simp only [mul_sum]
      rw [sum_comm]
      refine sum_congr rfl fun k _ => sum_congr rfl fun i _ => by ring
    · intro k _
      exact (continuous_const.mul (continuous_pow k)).intervalIntegrable _ _
  rw [e, sum_div]
  refine le_trans (abs_sum_le_sum_abs _ _) (sum_le_sum fun k hk => ?_)
  rw [abs_mul, div_eq_mul_inv]
  refine mul_le_mul_of_nonneg_left ?_ (abs_nonneg _)
  have := rule_pow (k := k) (by have := mem_range.mp hk; omega)
  simpa [one_div] using this

/-- A polynomial of degree at most 23. -/
noncomputable def poly (a : ℕ → ℝ) (t : ℝ) : ℝ := ∑ j ∈ range 24, a j * t ^ j

/-- The size of a polynomial on the interval of half-length `ρ` around zero. -/
noncomputable def size (a : ℕ → ℝ) (ρ : ℝ) : ℝ := ∑ j ∈ range 24, |a j| * ρ ^ j

theorem continuous_poly (a : ℕ → ℝ) : Continuous (poly a) := by
  unfold poly
  fun_prop

theorem defect_pow {j : ℕ} (hj : j < 24) (m h : ℝ) :
    |defect (fun x => (m + h * x) ^ j)| ≤ (|m| + |h|) ^ j / 10 ^ 14 := by
  have e : (fun x : ℝ => (m + h * x) ^ j) = fun x => ∑ k ∈ range (j + 1), (h ^ k * m ^ (j - k) * (j.choose k)) * x ^ k := by
    funext x
    rw [add_comm, add_pow]
    refine sum_congr rfl fun k _ => ?_
    rw [mul_pow]; ring
  rw [e]
  refine le_trans (defect_sum _ (by omega)) (le_of_eq ?_)
  congr 1
  rw [add_comm |m|, add_pow]
  refine sum_congr rfl fun k _ => ?_
  rw [abs_mul, abs_mul, abs_pow, abs_pow, Nat.abs_cast]

theorem defect_poly (a : ℕ → ℝ) (m h : ℝ) : |defect (fun x => poly a (m + h * x))| ≤ size a (|m| + |h|) / 10 ^ 14 := by
  have e : defect (fun x => poly a (m + h * x)) = ∑ j ∈ range 24, a j * defect (fun x => (m + h * x) ^ j) := by
    unfold defect poly
    rw [intervalIntegral.integral_finset_sum]
    · simp only [integral_const_mul, mul_sub, sum_sub_distrib]
      congr 1
      unfold rule
      simp only [mul_sum]
      rw [sum_comm]
      refine sum_congr rfl fun k _ => sum_congr rfl fun i _ => by ring
    · intro k _
      exact Continuous.intervalIntegrable (by fun_prop) _ _
  rw [e, size, sum_div]
  refine le_trans (abs_sum_le_sum_abs _ _) (sum_le_sum fun j hj => ?_)
  rw [abs_mul, mul_div_assoc]
  exact mul_le_mul_of_nonneg_left (defect_pow (mem_range.mp hj) m h) (abs_nonneg _)

theorem defect_near {g p : ℝ → ℝ} {η : ℝ} (hg : Continuous g) (hp : Continuous p)
    (h : ∀ x ∈ Set.Icc (-1 : ℝ) 1, |g x - p x| ≤ η) : |defect g| ≤ |defect p| + 4 * η := by
  have h0 : 0 ≤ η := le_trans (abs_nonneg _) (h 0 ⟨by norm_num, by norm_num⟩)
  have e : defect g = defect p + (rule g - rule p) - ∫ x in (-1 : ℝ)..1, (g x - p x) := by
    unfold defect
    rw [integral_sub (hg.intervalIntegrable _ _) (hp.intervalIntegrable _ _)]
    ring
  have h1 : |rule g - rule p| ≤ 2 * η := by
    unfold rule
    rw [← sum_sub_distrib]
    have hw := (Rat.cast_le (K := ℝ)).mpr weights_sum
    push_cast at hw
    refine le_trans (abs_sum_le_sum_abs _ _) (le_trans ?_ (mul_le_mul_of_nonneg_right hw h0))
    rw [sum_mul]
    refine sum_le_sum fun i hi => ?_
    rw [← mul_sub, abs_mul]
    refine mul_le_mul_of_nonneg_left (h _ ?_) (abs_nonneg _)
    have hn := nodes_inside i (List.mem_range.mpr (mem_range.mp hi))
    exact ⟨by exact_mod_cast hn.1, by exact_mod_cast hn.2⟩
  have h2 : |∫ x in (-1 : ℝ)..1, (g x - p x)| ≤ 2 * η := by
    have := norm_integral_le_of_norm_le_const (a := -1) (b := 1) (f := fun x => g x - p x) (C := η) ?_
    · rw [Real.norm_eq_abs] at this
      refine le_trans this (le_of_eq ?_)
      norm_num
      ring
    · intro x hx
      rw [Set.uIoc_of_le (by norm_num)] at hx
      exact h x ⟨hx.1.le, hx.2⟩
  rw [e]
  refine le_trans (abs_sub _ _) ?_
  have := abs_add_le (defect p) (rule g - rule p)
  linarith

/-- The error of the rule on an interval. -/
theorem kronrod_error {f : ℝ → ℝ} (hf : Continuous f) (a : ℕ → ℝ) {A B ρ η : ℝ} (hA : |A| ≤ ρ) (hB : |B| ≤ ρ)
    (h : ∀ t ∈ Set.uIcc A B, |f t - poly a t| ≤ η) :
    |kronrod f A B - ∫ t in A..B, f t| ≤ |B - A| / 2 * (size a ρ / 10 ^ 14 + 4 * η) := by
  have hsub : ∫ t in A..B, f t = (B - A) / 2 * ∫ x in (-1 : ℝ)..1, f ((A + B) / 2 + (B - A) / 2 * x) := by
    rw [mul_integral_comp_add_mul]
    congr 1 <;> ring
  have hk : kronrod f A B - ∫ t in A..B, f t = (B - A) / 2 * defect (fun x => f ((A + B) / 2 + (B - A) / 2 * x)) := by
    rw [kronrod_eq, hsub, defect]
    ring
  have hmh : |(A + B) / 2| + |(B - A) / 2| ≤ ρ := by
    have a1 := abs_le.mp hA
    have a2 := abs_le.mp hB
    rcases abs_cases ((A + B) / 2) with ⟨e1, _⟩ | ⟨e1, _⟩ <;> rcases abs_cases ((B - A) / 2) with ⟨e2, _⟩ | ⟨e2, _⟩ <;>
      rw [e1, e2] <;> linarith
  have hs : size a (|(A + B) / 2| + |(B - A) / 2|) ≤ size a ρ := by
    unfold size
    refine sum_le_sum fun j _ => mul_le_mul_of_nonneg_left (pow_le_pow_left₀ (by positivity) hmh j) (abs_nonneg _)
  have hd := defect_near (g := fun x => f ((A + B) / 2 + (B - A) / 2 * x)) (p := fun x => poly a ((A + B) / 2 + (B - A) / 2 * x))
    (η := η) (hf.comp (by fun_prop)) ((continuous_poly a).comp (by fun_prop)) ?_
  · rw [hk, abs_mul, abs_div, abs_two]
    refine mul_le_mul_of_nonneg_left (le_trans hd ?_) (by positivity)
    have := defect_poly a ((A + B) / 2) ((B - A) / 2)
    have : size a (|(A + B) / 2| + |(B - A) / 2|) / 10 ^ 14 ≤ size a ρ / 10 ^ 14 := by gcongr
    linarith
  · intro x hx
    refine h _ ?_
    rw [Set.mem_uIcc]
    rcases le_total A B with hab | hab
    · left; constructor <;> nlinarith [hx.1, hx.2]
    · right; constructor <;> nlinarith [hx.1, hx.2]

end Verif.Green.Quad
