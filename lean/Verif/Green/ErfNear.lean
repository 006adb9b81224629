import Verif.Green.ErfModel
import Mathlib.Analysis.SpecialFunctions.Gaussian.GaussianIntegral
import Mathlib.MeasureTheory.Integral.IntervalIntegral.FundThmCalculus
import Mathlib.Analysis.Calculus.Deriv.MeanValue
import Mathlib.Analysis.Real.Pi.Bounds

/-! # The series of the error function -/

namespace Verif.Green.Erf

open Real Finset intervalIntegral

/-- The integral of the bell curve. -/
noncomputable def bell (x : ℝ) : ℝ := ∫ t in (0 : ℝ)..x, exp (-t ^ 2)

/-- The error function. -/
noncomputable def erf (x : ℝ) : ℝ := 2 / √π * bell x

/-- The complementary error function. -/
noncomputable def erfc (x : ℝ) : ℝ := 1 - erf x

theorem bell_deriv (x : ℝ) : HasDerivAt bell (exp (-x ^ 2)) x := by
  have hc : Continuous fun t : ℝ => exp (-t ^ 2) := by fun_prop
  exact integral_hasDerivAt_right (hc.intervalIntegrable _ _) (hc.stronglyMeasurableAtFilter _ _) hc.continuousAt

theorem bell_zero : bell 0 = 0 := by simp [bell]

theorem bell_neg (x : ℝ) : bell (-x) = -bell x := by
  have h := integral_comp_neg (a := 0) (b := x) (fun t : ℝ => exp (-t ^ 2))
  unfold bell
  rw [integral_symm, neg_inj]
  simp only [neg_sq, neg_zero] at h
  exact h.symm

theorem bell_mono : Monotone bell :=
  monotone_of_deriv_nonneg (fun x => (bell_deriv x).differentiableAt) fun x => by
    rw [(bell_deriv x).deriv]; exact (exp_pos _).le

theorem erf_neg (x : ℝ) : erf (-x) = -erf x := by rw [erf, erf, bell_neg, mul_neg]

/-- The denominators of the series. -/
def den (n : ℕ) : ℚ := ∏ j ∈ range n, ((j : ℚ) + 3 / 2)

theorem den_pos (n : ℕ) : (0 : ℝ) < (den n : ℝ) := by
  have : (0 : ℚ) < den n := prod_pos fun j _ => by positivity
  exact_mod_cast this

theorem den_succ (n : ℕ) : (den (n + 1) : ℝ) = den n * (n + 3 / 2) := by
  rw [den, prod_range_succ, ← den]
  push_cast
  ring

/-- The terms of the series. -/
noncomputable def term (n : ℕ) (y : ℝ) : ℝ := y ^ n / den n

/-- The sums of the series. -/
noncomputable def total (n : ℕ) (y : ℝ) : ℝ := ∑ k ∈ range (n + 1), term k y

theorem term_succ (n : ℕ) (y : ℝ) : term (n + 1) y = term n y * y / (n + 3 / 2) := by
  unfold term
  rw [den_succ, pow_succ]
  have := den_pos n
  field_simp

theorem term_nonneg (n : ℕ) {y : ℝ} (hy : 0 ≤ y) : 0 ≤ term n y := div_nonneg (pow_nonneg hy n) (den_pos n).le

theorem total_succ (n : ℕ) (y : ℝ) : total (n + 1) y = total n y + term (n + 1) y := by
  rw [total, sum_range_succ, ← total]

theorem total_nonneg (n : ℕ) {y : ℝ} (hy : 0 ≤ y) : 0 ≤ total n y := sum_nonneg fun k _ => term_nonneg k hy

theorem nearLoop_spec {y : ℝ} (hy : 0 ≤ y) (m n : ℕ) :
    ∃ N : ℕ, n ≤ N ∧ N ≤ n + m ∧ nearLoop y m (n + 1) (term n y) (total n y) = total N y ∧
      (N = n + m ∨ term N y ≤ total N y * epsC) := by
  induction m generalizing n with
  | zero => exact ⟨n, le_refl _, le_refl _, rfl, Or.inl rfl⟩
  | succ m ih =>
    have e1 : term n y * y / (((n + 1 : ℕ) : ℝ) + 0.5) = term (n + 1) y := by
      rw [term_succ]; push_cast; congr 1; norm_num; ring
    simp only [nearLoop]
    rw [e1, ← total_succ, abs_of_nonneg (term_nonneg _ hy), abs_of_nonneg (total_nonneg _ hy)]
    split
    · rename_i h
      exact ⟨n + 1, by omega, by omega, rfl, Or.inr h⟩
    · obtain ⟨N, h1, h2, h3, h4⟩ := ih (n + 1)
      exact ⟨N, by omega, by omega, h3, h4.imp (fun h => by omega) id⟩

/-- The primitive given by the first terms. -/
noncomputable def part (n : ℕ) (x : ℝ) : ℝ := exp (-x ^ 2) * (x * total n (x ^ 2))

theorem exp_deriv (x : ℝ) : HasDerivAt (fun t : ℝ => exp (-t ^ 2)) (exp (-x ^ 2) * (-(2 * x))) x := by
  have h := ((hasDerivAt_pow 2 x).neg).exp
  refine h.congr_deriv ?_
  simp

theorem part_deriv (n : ℕ) (x : ℝ) :
    HasDerivAt (part n) (exp (-x ^ 2) * (1 - 2 * x ^ (2 * n + 2) / den n)) x := by
  induction n with
  | zero =>
    have e : part 0 = fun t : ℝ => exp (-t ^ 2) * t := by
      funext t; simp [part, total, term, den]
    rw [e]
    refine ((exp_deriv x).mul (hasDerivAt_id x)).congr_deriv ?_
    simp only [den, prod_range_zero, id]
    push_cast
    ring
  | succ n ih =>
    have e : part (n + 1) = fun t : ℝ => part n t + exp (-t ^ 2) * (t ^ (2 * n + 3) / den (n + 1)) := by
      funext t
      unfold part
      rw [total_succ, term]
      ring
    rw [e]
    have h2 := (exp_deriv x).mul ((hasDerivAt_pow (2 * n + 3) x).div_const (den (n + 1) : ℝ))
    refine (ih.add h2).congr_deriv ?_
    have hp := den_pos n
    rw [den_succ]
    simp only [Nat.add_succ_sub_one]
    push_cast
    have h3 : (n : ℝ) + 3 / 2 ≠ 0 := by positivity
    have h4 : (den n : ℝ) ≠ 0 := hp.ne'
    have h5 : (2 * (n : ℝ) + 3) / (den n * (n + 3 / 2)) = 2 / den n := by
      field_simp
    have e2 : (2 * (n : ℝ) + 3) * x ^ (2 * n + 2) / (den n * (n + 3 / 2)) = 2 / den n * x ^ (2 * n + 2) := by
      rw [← h5]; ring
    rw [e2]
    ring

/-- The rest of the series. -/
theorem part_error {n : ℕ} {x : ℝ} (hx : 0 ≤ x) (hn : x ^ 2 < n + 3 / 2) :
    part n x ≤ bell x ∧ bell x - part n x ≤ x ^ 2 / (n + 3 / 2 - x ^ 2) * (exp (-x ^ 2) * (x * term n (x ^ 2))) := by
  have hd : ∀ t : ℝ, HasDerivAt (fun s => bell s - part n s) (exp (-t ^ 2) * (2 * t ^ (2 * n + 2) / den n)) t := by
    intro t
    refine ((bell_deriv t).sub (part_deriv n t)).congr_deriv ?_
    ring
  have hp := den_pos n
  have hev : ∀ t : ℝ, 0 ≤ t ^ (2 * n + 2) := fun t => by
    rw [show 2 * n + 2 = 2 * (n + 1) by ring, pow_mul]; positivity
  have p0 : part n 0 = 0 := by simp [part]
  constructor
  · have hm : Monotone fun s => bell s - part n s :=
      monotone_of_deriv_nonneg (fun t => (hd t).differentiableAt) fun t => by
        rw [(hd t).deriv]
        exact mul_nonneg (exp_pos _).le (div_nonneg (mul_nonneg (by norm_num) (hev t)) hp.le)
    have := hm hx
    simp only [bell_zero, p0, sub_zero] at this
    linarith
  · have hk : 0 < n + 3 / 2 - x ^ 2 := by linarith
    have he : ∀ t : ℝ, HasDerivAt
        (fun s => 1 / (n + 3 / 2 - x ^ 2) * (exp (-s ^ 2) * (s ^ (2 * n + 3) / den n)) - (bell s - part n s))
        (exp (-t ^ 2) * t ^ (2 * n + 2) / den n * (1 / (n + 3 / 2 - x ^ 2) * (2 * (n + 3 / 2 - t ^ 2)) - 2)) t := by
      intro t
      have h1 := (((exp_deriv t).mul ((hasDerivAt_pow (2 * n + 3) t).div_const (den n : ℝ))).const_mul
        (1 / (n + 3 / 2 - x ^ 2))).sub (hd t)
      refine h1.congr_deriv ?_
      simp only [Nat.add_succ_sub_one]
      push_cast
      ring
    have hm : MonotoneOn
        (fun s => 1 / (n + 3 / 2 - x ^ 2) * (exp (-s ^ 2) * (s ^ (2 * n + 3) / den n)) - (bell s - part n s)) (Set.Icc 0 x) := by
      refine monotoneOn_of_deriv_nonneg (convex_Icc 0 x) (fun t _ => (he t).continuousAt.continuousWithinAt)
        (fun t _ => (he t).differentiableAt.differentiableWithinAt) fun t ht => ?_
      rw [interior_Icc] at ht
      rw [(he t).deriv]
      refine mul_nonneg (div_nonneg (mul_nonneg (exp_pos _).le (hev t)) hp.le) ?_
      have ht2 : t ^ 2 ≤ x ^ 2 := pow_le_pow_left₀ ht.1.le ht.2.le 2
      rw [sub_nonneg, one_div, inv_mul_eq_div, le_div_iff₀ hk]
      linarith
    have := hm ⟨le_refl 0, hx⟩ ⟨hx, le_refl x⟩ hx
    simp only [bell_zero, p0, sub_zero] at this
    have e : 1 / (n + 3 / 2 - x ^ 2) * (exp (-x ^ 2) * (x ^ (2 * n + 3) / den n)) =
        x ^ 2 / (n + 3 / 2 - x ^ 2) * (exp (-x ^ 2) * (x * term n (x ^ 2))) := by
      unfold term
      rw [← pow_mul]
      ring
    rw [e] at this
    have z : (1 : ℝ) / (n + 3 / 2 - x ^ 2) * (exp (-0 ^ 2) * (0 ^ (2 * n + 3) / den n)) = 0 := by simp
    rw [z] at this
    linarith

/-- The terms grow as long as the square is larger than the order. -/
theorem term_grows {n : ℕ} {y : ℝ} (hy : 0 ≤ y) (h : (n : ℝ) + 1 / 2 ≤ y) : ∀ k ≤ n, term k y ≤ term n y := by
  induction n with
  | zero => intro k hk; have : k = 0 := by omega
            rw [this]
  | succ n ih =>
    intro k hk
    rcases Nat.lt_or_ge k (n + 1) with g | g
    · refine le_trans (ih (by push_cast at h; linarith) k (by omega)) ?_
      rw [term_succ, le_div_iff₀ (by positivity)]
      push_cast at h
      exact mul_le_mul_of_nonneg_left (by linarith) (term_nonneg n hy)
    · rw [show k = n + 1 by omega]

theorem last_ratio : (49 / 4 : ℚ) ^ 38 * den 12 ≤ 2 / 10 ^ 15 * den 50 := by decide +kernel

/-- The sum found by the loop is close to the whole series. -/
theorem near_error {x : ℝ} (hx : 0 ≤ x) (hx3 : x < 3.5) :
    ∃ N : ℕ, nearLoop (x * x) 50 1 1 1 = total N (x ^ 2) ∧ part N x ≤ bell x ∧ bell x - part N x ≤ 1.3 / 10 ^ 14 * part N x := by
  have hy : 0 ≤ x ^ 2 := sq_nonneg x
  have hy3 : x ^ 2 ≤ 49 / 4 := by norm_num at hx3; nlinarith
  obtain ⟨N, -, hN, e, hs⟩ := nearLoop_spec hy 50 0
  rw [show term 0 (x ^ 2) = 1 by simp [term, den], show total 0 (x ^ 2) = 1 by simp [total, term, den]] at e
  have hcore : x ^ 2 < N + 3 / 2 ∧ x ^ 2 / (N + 3 / 2 - x ^ 2) * term N (x ^ 2) ≤ 1.3 / 10 ^ 14 * total N (x ^ 2) := by
    rcases hs with hs | hs
    · have hN' : N = 50 := by omega
      subst hN'
      have h0 : x ^ 2 < ((50 : ℕ) : ℝ) + 3 / 2 := by norm_num; linarith
      refine ⟨h0, ?_⟩
      have h1 : x ^ 2 / (((50 : ℕ) : ℝ) + 3 / 2 - x ^ 2) ≤ 1 := by
        rw [div_le_one (by linarith)]
        norm_num
        linarith
      have hr := (Rat.cast_le (K := ℝ)).mpr last_ratio
      push_cast at hr
      have h2 : term 50 (x ^ 2) ≤ 2 / 10 ^ 15 * term 12 (x ^ 2) := by
        unfold term
        have d1 := den_pos 12
        have d2 := den_pos 50
        rw [div_le_iff₀ d2, show (x ^ 2) ^ 50 = (x ^ 2) ^ 38 * (x ^ 2) ^ 12 by ring]
        have h3 : (x ^ 2) ^ 38 ≤ (49 / 4 : ℝ) ^ 38 := pow_le_pow_left₀ hy hy3 38
        have h4 : (x ^ 2) ^ 38 ≤ 2 / 10 ^ 15 * den 50 / den 12 := by
          rw [le_div_iff₀ d1]
          exact le_trans (mul_le_mul_of_nonneg_right h3 d1.le) hr
        refine le_trans (mul_le_mul_of_nonneg_right h4 (pow_nonneg hy 12)) (le_of_eq ?_)
        ring
      have h5 : term 12 (x ^ 2) ≤ total 50 (x ^ 2) :=
        single_le_sum (f := fun k => term k (x ^ 2)) (fun k _ => term_nonneg k hy) (by simp)
      have h6 := term_nonneg 50 hy
      have h7 := term_nonneg 12 hy
      calc _ ≤ 1 * term 50 (x ^ 2) := mul_le_mul_of_nonneg_right h1 h6
        _ ≤ _ := by rw [one_mul]; norm_num at h2 ⊢; linarith
    · have hpos : 0 < total N (x ^ 2) := by
        refine lt_of_lt_of_le (by norm_num : (0 : ℝ) < 1) ?_
        have h00 : term 0 (x ^ 2) = 1 := by simp [term, den]
        rw [← h00]
        exact single_le_sum (f := fun k => term k (x ^ 2)) (s := range (N + 1)) (fun k _ => term_nonneg k hy) (by simp)
      have hlt : x ^ 2 < (N : ℝ) + 1 / 2 := by
        by_contra hc
        rw [not_lt] at hc
        have hg := term_grows hy hc
        have hsum : total N (x ^ 2) ≤ (N + 1) * term N (x ^ 2) := by
          unfold total
          refine le_trans (sum_le_card_nsmul _ _ (term N (x ^ 2)) fun k hk => hg k (by have := mem_range.mp hk; omega)) ?_
          simp
        have hN50 : (N : ℝ) ≤ 50 := by exact_mod_cast (by omega : N ≤ 50)
        have ht : 0 < term N (x ^ 2) := by
          by_contra h0
          have : term N (x ^ 2) = 0 := le_antisymm (not_lt.mp h0) (term_nonneg N hy)
          rw [this] at hsum
          linarith
        unfold epsC at hs
        have : term N (x ^ 2) ≤ 51 * term N (x ^ 2) * (1 / 10 ^ 15) := by
          refine le_trans hs (mul_le_mul_of_nonneg_right (le_trans hsum ?_) (by norm_num))
          exact mul_le_mul_of_nonneg_right (by linarith) ht.le
        norm_num at this
        linarith
      refine ⟨by linarith, ?_⟩
      have h1 : x ^ 2 / ((N : ℝ) + 3 / 2 - x ^ 2) ≤ 49 / 4 := by
        rw [div_le_iff₀ (by linarith)]
        nlinarith
      unfold epsC at hs
      calc _ ≤ 49 / 4 * (total N (x ^ 2) * (1 / 10 ^ 15)) :=
            mul_le_mul h1 hs (term_nonneg N hy) (by norm_num)
        _ ≤ _ := by norm_num; linarith
  obtain ⟨h1, h2⟩ := part_error hx hcore.1
  refine ⟨N, by rw [← e]; congr 1; ring, h1, le_trans h2 ?_⟩
  unfold part
  have h3 : 0 ≤ exp (-x ^ 2) * x := mul_nonneg (exp_pos _).le hx
  calc _ = exp (-x ^ 2) * x * (x ^ 2 / (N + 3 / 2 - x ^ 2) * term N (x ^ 2)) := by ring
    _ ≤ exp (-x ^ 2) * x * (1.3 / 10 ^ 14 * total N (x ^ 2)) := mul_le_mul_of_nonneg_left hcore.2 h3
    _ = _ := by ring

end Verif.Green.Erf
