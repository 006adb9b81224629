import Verif.Green.QuadLemmas

/-!
# What the adaptive quadrature computes

The recursion ends, its result is a sum of rules on a partition of the interval, and its error is at most the error of the best
polynomial of degree 23. The tolerance asked for is not an error bound.
-/

namespace Verif.Green.Quad

open intervalIntegral Finset

/-- **C125.** For a positive tolerance the recursion ends: once the pieces are shorter than the tolerance, a larger bound on the depth
gives the same value. -/
theorem adaptive_ends (f : ℝ → ℝ) {eps : ℝ} (d d' : ℕ) (A B : ℝ) (h : |A - B| ≤ eps * 2 ^ d) (hd : d ≤ d') :
    aquad f eps d' A B = aquad f eps d A B := by
  induction d generalizing d' A B with
  | zero =>
    cases d' with
    | zero => rfl
    | succ d' =>
      simp only [aquad]
      rw [if_neg (fun g => absurd h (not_le.mpr (by simpa using g.2)))]
  | succ d ih =>
    cases d' with
    | zero => omega
    | succ d' =>
      simp only [aquad]
      split
      · have e1 : |A - (A + B) / 2| ≤ eps * 2 ^ d := by
          rw [show A - (A + B) / 2 = (A - B) / 2 by ring, abs_div, abs_two]
          rw [pow_succ] at h
          linarith
        have e2 : |(A + B) / 2 - B| ≤ eps * 2 ^ d := by
          rw [show (A + B) / 2 - B = (A - B) / 2 by ring, abs_div, abs_two]
          rw [pow_succ] at h
          linarith
        rw [ih d' A _ e1 (by omega), ih d' _ B e2 (by omega)]
      · rfl

/-- **C125.** There is always such a depth. -/
theorem adaptive_terminates (f : ℝ → ℝ) {eps : ℝ} (he : 0 < eps) (A B : ℝ) :
    ∃ d : ℕ, ∀ d' : ℕ, d ≤ d' → aquad f eps d' A B = aquad f eps d A B := by
  obtain ⟨d, hd⟩ := pow_unbounded_of_one_lt (|A - B| / eps) (by norm_num : (1 : ℝ) < 2)
  refine ⟨d, fun d' h => adaptive_ends f d d' A B ?_ h⟩
  rw [div_lt_iff₀ he] at hd
  linarith

example : ∃ d : ℕ, ∀ d' : ℕ, d ≤ d' → aquad Real.exp (1 / 10 ^ 6) d' 0 5 = aquad Real.exp (1 / 10 ^ 6) d 0 5 :=
  adaptive_terminates _ (by norm_num) 0 5

/-- The interval cut in halves, again and again; a piece is kept as it is when the test accepts it. -/
inductive Adapted (f : ℝ → ℝ) (eps : ℝ) : ℝ → ℝ → List (ℝ × ℝ) → Prop where
  | keep {A B : ℝ} : err f A B ≤ eps ∨ |A - B| ≤ eps → Adapted f eps A B [(A, B)]
  | cut {A B : ℝ} {l r : List (ℝ × ℝ)} : eps < err f A B → eps < |A - B| →
      Adapted f eps A ((A + B) / 2) l → Adapted f eps ((A + B) / 2) B r → Adapted f eps A B (l ++ r)

/-- **C125.** The value is the sum of the rules of fifteen points on the pieces of a partition of the interval in which every
piece passes the test or is shorter than the tolerance, and only the pieces which fail are cut. -/
theorem adaptive_partition (f : ℝ → ℝ) {eps : ℝ} (d : ℕ) (A B : ℝ) (h : |A - B| ≤ eps * 2 ^ d) :
    ∃ l : List (ℝ × ℝ), Adapted f eps A B l ∧ aquad f eps d A B = (l.map fun p => kronrod f p.1 p.2).sum := by
  induction d generalizing A B with
  | zero => exact ⟨[(A, B)], .keep (Or.inr (by simpa using h)), by simp [aquad]⟩
  | succ d ih =>
    simp only [aquad]
    split
    · rename_i g
      have e1 : |A - (A + B) / 2| ≤ eps * 2 ^ d := by
        rw [show A - (A + B) / 2 = (A - B) / 2 by ring, abs_div, abs_two]
        rw [pow_succ] at h
        linarith
      have e2 : |(A + B) / 2 - B| ≤ eps * 2 ^ d := by
        rw [show (A + B) / 2 - B = (A - B) / 2 by ring, abs_div, abs_two]
        rw [pow_succ] at h
        linarith
      obtain ⟨l, hl, el⟩ := ih _ _ e1
      obtain ⟨r, hr, er⟩ := ih _ _ e2
      exact ⟨l ++ r, .cut g.1 g.2 hl hr, by rw [el, er]; simp⟩
    · rename_i g
      refine ⟨[(A, B)], .keep ?_, by simp⟩
      by_contra hn
      rw [not_or, not_le, not_le] at hn
      exact g hn

example : ∃ l : List (ℝ × ℝ), Adapted Real.exp (1 / 10 ^ 6) 0 1 l ∧
    aquad Real.exp (1 / 10 ^ 6) 20 0 1 = (l.map fun p => kronrod Real.exp p.1 p.2).sum :=
  adaptive_partition _ 20 0 1 (by norm_num)

/-- **C125.** The test accepts a piece when the two rules agree within the power two thirds of the tolerance over two hundred. -/
theorem accepted_iff (f : ℝ → ℝ) {eps : ℝ} (he : 0 ≤ eps) (A B : ℝ) :
    err f A B ≤ eps ↔ |kronrod f A B - gauss f A B| ≤ eps ^ (2 / 3 : ℝ) / 200 := by
  unfold err
  have h0 : (0 : ℝ) ≤ 200 * |kronrod f A B - gauss f A B| := by positivity
  have h1 : (eps ^ (2 / 3 : ℝ)) ^ (1.5 : ℝ) = eps := by
    rw [← Real.rpow_mul he]
    norm_num
  have h2 : 0 ≤ eps ^ (2 / 3 : ℝ) := Real.rpow_nonneg he _
  constructor
  · intro h
    rw [← h1] at h
    have := (Real.rpow_le_rpow_iff h0 h2 (by norm_num : (0 : ℝ) < 1.5)).mp h
    rw [le_div_iff₀ (by norm_num)]
    linarith
  · intro h
    rw [le_div_iff₀ (by norm_num)] at h
    have := (Real.rpow_le_rpow_iff h0 h2 (by norm_num : (0 : ℝ) < 1.5)).mpr (by linarith)
    rwa [h1] at this

/-- With the tolerance of the code, the literal `1.E-6` in single precision, the two rules agree within 5e-7. -/
theorem accepted_code (f : ℝ → ℝ) (A B : ℝ) (h : err f A B ≤ 8796093 / 2 ^ 43) : |kronrod f A B - gauss f A B| ≤ 5 / 10 ^ 7 := by
  have h1 : err f A B ≤ 1 / 10 ^ 6 := le_trans h (by norm_num)
  rw [accepted_iff f (by norm_num) A B] at h1
  have : ((1 : ℝ) / 10 ^ 6) ^ (2 / 3 : ℝ) = 1 / 10 ^ 4 := by
    rw [show (1 : ℝ) / 10 ^ 6 = (1 / 100) ^ (3 : ℝ) by norm_num, ← Real.rpow_mul (by norm_num)]
    norm_num
  rw [this] at h1
  norm_num at h1 ⊢
  exact h1

/-- **C125.** The error of the adaptive quadrature of a continuous function, for every tolerance and depth: at most twice the length of
the interval times the distance to a polynomial of degree at most 23, and 5e-15 times the size of the polynomial. -/
theorem adaptive_error {f : ℝ → ℝ} (hf : Continuous f) (a : ℕ → ℝ) (eps : ℝ) (d : ℕ) {A B ρ η : ℝ} (hA : |A| ≤ ρ) (hB : |B| ≤ ρ)
    (h : ∀ t ∈ Set.uIcc A B, |f t - poly a t| ≤ η) :
    |aquad f eps d A B - ∫ t in A..B, f t| ≤ |B - A| / 2 * (size a ρ / 10 ^ 14 + 4 * η) := by
  induction d generalizing A B with
  | zero => exact kronrod_error hf a hA hB h
  | succ d ih =>
    simp only [aquad]
    split
    · have hm : |(A + B) / 2| ≤ ρ := by
        have a1 := abs_le.mp hA
        have a2 := abs_le.mp hB
        exact abs_le.mpr ⟨by linarith, by linarith⟩
      have m1 : Set.uIcc A ((A + B) / 2) ⊆ Set.uIcc A B := by
        refine Set.uIcc_subset_uIcc Set.left_mem_uIcc ?_
        rw [Set.mem_uIcc]
        rcases le_total A B with g | g
        · left; constructor <;> linarith
        · right; constructor <;> linarith
      have m2 : Set.uIcc ((A + B) / 2) B ⊆ Set.uIcc A B := by
        refine Set.uIcc_subset_uIcc ?_ Set.right_mem_uIcc
        rw [Set.mem_uIcc]
        rcases le_total A B with g | g
        · left; constructor <;> linarith
        · right; constructor <;> linarith
      have h1 := ih hA hm (fun t ht => h t (m1 ht))
      have h2 := ih hm hB (fun t ht => h t (m2 ht))
      have hi := integral_add_adjacent_intervals (hf.intervalIntegrable (μ := MeasureTheory.volume) A ((A + B) / 2))
        (hf.intervalIntegrable (μ := MeasureTheory.volume) ((A + B) / 2) B)
      have l1 : |(A + B) / 2 - A| = |B - A| / 2 := by
        rw [show (A + B) / 2 - A = (B - A) / 2 by ring, abs_div, abs_two]
      have l2 : |B - (A + B) / 2| = |B - A| / 2 := by
        rw [show B - (A + B) / 2 = (B - A) / 2 by ring, abs_div, abs_two]
      rw [l1] at h1
      rw [l2] at h2
      rw [← hi, add_sub_add_comm]
      refine le_trans (abs_add_le _ _) (le_trans (add_le_add h1 h2) (le_of_eq (by ring)))
    · exact kronrod_error hf a hA hB h

/-- **C125.** A polynomial of degree at most 23 is integrated up to the rounding of the tables. -/
theorem adaptive_polynomial (a : ℕ → ℝ) (eps : ℝ) (d : ℕ) {A B ρ : ℝ} (hA : |A| ≤ ρ) (hB : |B| ≤ ρ) :
    |aquad (poly a) eps d A B - ∫ t in A..B, poly a t| ≤ |B - A| / 2 * (size a ρ / 10 ^ 14) := by
  have := adaptive_error (continuous_poly a) a eps d hA hB (η := 0) (fun t _ => by simp)
  simpa using this

example : |aquad (poly (fun _ => 1)) (1 / 10 ^ 6) 30 0 1 - ∫ t in (0 : ℝ)..1, poly (fun _ => 1) t| ≤ 12 / 10 ^ 14 := by
  refine le_trans (adaptive_polynomial (fun _ => 1) (1 / 10 ^ 6) 30 (ρ := 1) (by norm_num) (by norm_num)) (le_of_eq ?_)
  norm_num [size]

/-- A function that vanishes at the fifteen points of the interval from `-1` to `1`. -/
noncomputable def hidden (M t : ℝ) : ℝ := M * ∏ i ∈ range 15, (t - ((xk.getD i 0 : ℚ) : ℝ)) ^ 2

theorem continuous_hidden (M : ℝ) : Continuous (hidden M) := by
  unfold hidden
  fun_prop

theorem hidden_nonneg {M : ℝ} (hM : 0 ≤ M) (t : ℝ) : 0 ≤ hidden M t :=
  mul_nonneg hM (prod_nonneg fun _ _ => sq_nonneg _)

theorem hidden_node (M : ℝ) {i : ℕ} (hi : i < 15) : hidden M ((xk.getD i 0 : ℚ) : ℝ) = 0 := by
  unfold hidden
  rw [prod_eq_zero (mem_range.mpr hi) (by simp), mul_zero]

theorem nodes_gauss : ∀ i ∈ List.range 7, xg.getD i 0 = xk.getD (2 * i + 1) 0 := by decide +kernel

theorem nodes_away : ∀ i ∈ List.range 15, xk.getD i 0 ≤ 0 ∨ 2 / 10 ≤ xk.getD i 0 := by decide +kernel

theorem hidden_rules (M : ℝ) : kronrod (hidden M) (-1) 1 = 0 ∧ gauss (hidden M) (-1) 1 = 0 := by
  constructor
  · rw [kronrod_eq, rule]
    rw [sum_eq_zero, mul_zero]
    intro i hi
    have : ((-1 : ℝ) + 1) / 2 + (1 - -1) / 2 * ((xk.getD i 0 : ℚ) : ℝ) = ((xk.getD i 0 : ℚ) : ℝ) := by ring
    rw [this, hidden_node M (mem_range.mp hi), mul_zero]
  · unfold gauss
    rw [foldl_add, sum_eq_zero]
    intro i hi
    have e : (1 : ℝ) / 2 * (1 + -1 + (1 - -1) * ((xg.getD i 0 : ℚ) : ℝ)) = ((xk.getD (2 * i + 1) 0 : ℚ) : ℝ) := by
      rw [nodes_gauss i (List.mem_range.mpr (mem_range.mp hi))]
      ring
    rw [stored, e, hidden_node M (by have := mem_range.mp hi; omega), mul_zero]

theorem hidden_integral {M : ℝ} (hM : 0 ≤ M) : M / (10 * 20 ^ 30) ≤ ∫ t in (-1 : ℝ)..1, hidden M t := by
  have h1 : ∫ t in (0.05 : ℝ)..0.15, hidden M t ≤ ∫ t in (-1 : ℝ)..1, hidden M t :=
    integral_mono_interval (by norm_num) (by norm_num) (by norm_num)
      (Filter.Eventually.of_forall fun t => hidden_nonneg hM t) ((continuous_hidden M).intervalIntegrable _ _)
  have h2 : ∫ _ in (0.05 : ℝ)..0.15, M / 20 ^ 30 ≤ ∫ t in (0.05 : ℝ)..0.15, hidden M t := by
    refine integral_mono_on (by norm_num) (continuous_const.intervalIntegrable _ _) ((continuous_hidden M).intervalIntegrable _ _) ?_
    intro t ht
    unfold hidden
    rw [div_eq_mul_inv]
    refine mul_le_mul_of_nonneg_left ?_ hM
    have : ∏ _i ∈ range 15, ((1 : ℝ) / 400) ≤ ∏ i ∈ range 15, (t - ((xk.getD i 0 : ℚ) : ℝ)) ^ 2 := by
      refine prod_le_prod (fun _ _ => by norm_num) fun i hi => ?_
      have hn := nodes_away i (List.mem_range.mpr (mem_range.mp hi))
      rcases hn with g | g
      · have g' : ((xk.getD i 0 : ℚ) : ℝ) ≤ 0 := by exact_mod_cast g
        have : (1 : ℝ) / 20 ≤ t - ((xk.getD i 0 : ℚ) : ℝ) := by have := ht.1; norm_num at this; linarith
        nlinarith
      · have g' : (2 : ℝ) / 10 ≤ ((xk.getD i 0 : ℚ) : ℝ) := by
          have := (Rat.cast_le (K := ℝ)).mpr g
          push_cast at this
          exact this
        have : (1 : ℝ) / 20 ≤ ((xk.getD i 0 : ℚ) : ℝ) - t := by have := ht.2; norm_num at this; linarith
        nlinarith
    refine le_trans (le_of_eq ?_) this
    rw [prod_const, card_range]
    norm_num
  refine le_trans (le_of_eq ?_) (le_trans h2 h1)
  rw [integral_const, smul_eq_mul]
  norm_num
  ring

/-- **C125.** The tolerance is not an error bound: for every tolerance and every bound there is a positive smooth function (a
polynomial of degree thirty) for which the value is zero and the integral larger than the bound. -/
theorem adaptive_violated {eps : ℝ} (he : 0 ≤ eps) (K : ℝ) :
    ∃ f : ℝ → ℝ, Continuous f ∧ (∀ t, 0 ≤ f t) ∧ (∀ d : ℕ, aquad f eps d (-1) 1 = 0) ∧ K ≤ ∫ t in (-1 : ℝ)..1, f t := by
  refine ⟨hidden (|K| * (10 * 20 ^ 30)), continuous_hidden _, hidden_nonneg (by positivity), fun d => ?_, ?_⟩
  · have h := hidden_rules (|K| * (10 * 20 ^ 30))
    have e0 : err (hidden (|K| * (10 * 20 ^ 30))) (-1) 1 = 0 := by
      rw [err, h.1, h.2, sub_zero, abs_zero, mul_zero, Real.zero_rpow (by norm_num)]
    cases d with
    | zero => exact h.1
    | succ d =>
      simp only [aquad]
      rw [if_neg (fun g => absurd g.1 (by rw [e0]; exact not_lt.mpr he)), h.1]
  · refine le_trans ?_ (hidden_integral (by positivity))
    rw [mul_div_assoc, div_self (by positivity), mul_one]
    exact le_abs_self K

end Verif.Green.Quad
