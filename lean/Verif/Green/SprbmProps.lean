import Verif.Green.SprbmModel
import Verif.Green.LiscProps
import Mathlib.Analysis.Complex.Polynomial.Basic

/-!
# C117: the roots of a polynomial in the Fortran code
-/

namespace Verif.Green.Sprbm

open Polynomial Verif.Green.Lisc

/-! ## Specification -/

/-- The polynomial with given coefficients. -/
noncomputable def ofList : List ℝ → ℝ[X]
  | [] => 0
  | a :: l => C a + X * ofList l

/-- A quadratic factor. -/
noncomputable def quad (q : ℝ × ℝ) : ℝ[X] := X ^ 2 + C q.2 * X + C q.1

/-- The factors that `SPQFB` finds are factors. -/
def FactorsRight (spqfb : List ℝ → ℝ × ℝ → Option (ℝ × ℝ)) : Prop :=
  ∀ p g q, 3 ≤ p.length → p.getLast? = some 1 → spqfb p g = some q → quad q ∣ ofList p

/-- `SPQFB` always finds a factor. -/
def NeverFails (spqfb : List ℝ → ℝ × ℝ → Option (ℝ × ℝ)) : Prop :=
  ∀ p g, 3 ≤ p.length → p.getLast? = some 1 → spqfb p g ≠ none

/-! ## Lemmas -/

theorem ofList_append (l m : List ℝ) : ofList (l ++ m) = ofList l + X ^ l.length * ofList m := by
  induction l with
  | nil => simp [ofList]
  | cons a l ih => rw [List.cons_append, ofList, ofList, ih, List.length_cons, pow_succ]; ring

theorem ofList_value (c : List ℝ) (z : ℂ) : polyValue (c.map Complex.ofReal) z = (ofList c).eval₂ Complex.ofRealHom z := by
  unfold polyValue
  induction c with
  | nil => simp [ofList]
  | cons a c ih =>
    rw [List.map_cons, List.length_cons, Finset.sum_range_succ', ofList]
    simp only [List.getD_cons_succ, List.getD_cons_zero, pow_succ, pow_zero, mul_one, eval₂_add, eval₂_C, eval₂_mul, eval₂_X]
    rw [← ih, Finset.mul_sum, add_comm]
    congr 1
    exact Finset.sum_congr rfl fun i _ => by ring

theorem ofList_eq_zero {l : List ℝ} (h : ∀ x ∈ l, x = 0) : ofList l = 0 := by
  induction l with
  | nil => rfl
  | cons a l ih => rw [ofList, ih fun x hx => h x (List.mem_cons_of_mem _ hx), h a (by simp)]; simp

theorem ofList_map (l : List ℝ) (a : ℝ) : ofList (l.map fun x => x / a) = C a⁻¹ * ofList l := by
  induction l with
  | nil => simp [ofList]
  | cons b l ih => rw [List.map_cons, ofList, ofList, ih, div_eq_mul_inv, C_mul]; ring

/-- The last two values of `H`. -/
def ends (q1 q2 : ℝ) : ℝ → ℝ → List ℝ → ℝ × ℝ
  | b, a, [] => (b, a)
  | b, a, x :: xs => ends q1 q2 a (-q1 * b - q2 * a + x) xs

theorem horner_length (q1 q2 b a : ℝ) (xs : List ℝ) : (horner q1 q2 b a xs).length = xs.length := by
  induction xs generalizing b a with
  | nil => rfl
  | cons x xs ih => simp [horner, ih]

theorem horner_spec (q1 q2 b a : ℝ) (xs : List ℝ) :
    X ^ 2 * ofList xs.reverse = quad (q1, q2) * ofList (horner q1 q2 b a xs).reverse + C q2 * C a * X ^ (xs.length + 1) -
      C q2 * X * C (ends q1 q2 b a xs).2 + C q1 * C b * X ^ (xs.length + 1) + C q1 * C a * X ^ xs.length -
      C q1 * C (ends q1 q2 b a xs).2 - C q1 * C (ends q1 q2 b a xs).1 * X := by
  induction xs generalizing b a with
  | nil =>
    simp only [List.reverse_nil, horner, ends, ofList, List.length_nil]
    ring
  | cons x xs ih =>
    simp only [List.reverse_cons, horner, ends, ofList_append, List.length_reverse, horner_length, List.length_cons, ofList]
    rw [mul_add, ih a (-q1 * b - q2 * a + x)]
    simp only [C_add, C_sub, C_mul, C_neg, quad]
    ring

/-- The division by a quadratic factor. -/
theorem deflate_spec {q : ℝ × ℝ} {p : List ℝ} (hp : 3 ≤ p.length) (hq : quad q ∣ ofList p) :
    ofList p = quad q * ofList (deflate q.1 q.2 p) := by
  obtain ⟨c0, c1, t, rfl⟩ : ∃ c0 c1 t, p = c0 :: c1 :: t := by
    match p, hp with
    | c0 :: c1 :: t, _ => exact ⟨c0, c1, t, rfl⟩
  have htop : (c0 :: c1 :: t).reverse.take ((c0 :: c1 :: t).length - 2) = t.reverse := by
    simp
  have h1 := horner_spec q.1 q.2 0 0 t.reverse
  rw [List.reverse_reverse] at h1
  have hd : deflate q.1 q.2 (c0 :: c1 :: t) = (horner q.1 q.2 0 0 t.reverse).reverse := by
    unfold deflate
    rw [htop]
  rw [hd]
  have h2 : ofList (c0 :: c1 :: t) = quad q * ofList (horner q.1 q.2 0 0 t.reverse).reverse +
      (C (c1 - q.2 * (ends q.1 q.2 0 0 t.reverse).2 - q.1 * (ends q.1 q.2 0 0 t.reverse).1) * X +
        C (c0 - q.1 * (ends q.1 q.2 0 0 t.reverse).2)) := by
    rw [ofList, ofList]
    simp only [C_sub, C_mul]
    simp only [C_0] at h1
    linear_combination h1
  have h3 : quad q ∣ C (c1 - q.2 * (ends q.1 q.2 0 0 t.reverse).2 - q.1 * (ends q.1 q.2 0 0 t.reverse).1) * X +
        C (c0 - q.1 * (ends q.1 q.2 0 0 t.reverse).2) := by
    rw [h2] at hq
    exact (dvd_add_right (dvd_mul_right _ _)).1 hq
  have hdeg : (quad q).degree = 2 := by
    have := degree_quadratic (R := ℝ) (a := 1) (b := q.2) (c := q.1) one_ne_zero
    rwa [C_1, one_mul] at this
  have h4 := eq_zero_of_dvd_of_degree_lt h3 (by
    rw [hdeg]
    exact degree_linear_lt)
  rw [h2, h4, add_zero]

theorem deflate_length (q1 q2 : ℝ) (p : List ℝ) : (deflate q1 q2 p).length = p.length - 2 := by
  simp [deflate, horner_length]

theorem deflate_last {q1 q2 : ℝ} {p : List ℝ} (hp : 3 ≤ p.length) (hl : p.getLast? = some 1) :
    (deflate q1 q2 p).getLast? = some 1 := by
  unfold deflate
  rw [List.getLast?_reverse]
  rw [← List.head?_reverse] at hl
  have hlen : 3 ≤ p.reverse.length := by simpa using hp
  match h : p.reverse, hl, hlen with
  | x :: xs, hl, hlen =>
    simp only [List.head?_cons, Option.some.injEq] at hl
    obtain ⟨n, hn⟩ : ∃ n, p.length - 2 = n + 1 := ⟨p.length - 3, by omega⟩
    rw [hn, List.take_succ_cons]
    simp [horner, hl]

theorem quadRoots_spec (q : ℝ × ℝ) (z : ℂ) :
    (quad q).eval₂ Complex.ofRealHom z = ((quadRoots q.1 q.2).map fun r => z - r).prod := by
  obtain ⟨q1, q2⟩ := q
  have e : (quad (q1, q2)).eval₂ Complex.ofRealHom z = z ^ 2 + q2 * z + q1 := by
    simp [quad, eval₂_add, eval₂_mul]
  rw [e]
  unfold quadRoots
  simp only
  split_ifs with h1 h2
  · have hs : Real.sqrt |-0.5 * q2 * (-0.5 * q2) - q1| ^ 2 = q1 - (-0.5 * q2) * (-0.5 * q2) := by
      rw [Real.sq_sqrt (abs_nonneg _), abs_of_nonpos h1]
      ring
    set b := Real.sqrt |-0.5 * q2 * (-0.5 * q2) - q1|
    have e1 : (⟨-0.5 * q2, b⟩ : ℂ) = ((-0.5 * q2 : ℝ) : ℂ) + b * Complex.I := by
      apply Complex.ext <;> simp
    have e2 : (⟨-0.5 * q2, -b⟩ : ℂ) = ((-0.5 * q2 : ℝ) : ℂ) - b * Complex.I := by
      apply Complex.ext <;> simp
    simp only [List.map_cons, List.map_nil, List.prod_cons, List.prod_nil, mul_one, e1, e2]
    have hc : (b : ℂ) ^ 2 = (q1 : ℂ) - (-0.5 * q2) * (-0.5 * q2) := by
      have := congrArg Complex.ofReal hs
      push_cast at this
      convert this using 2
    push_cast
    norm_num at hc ⊢
    linear_combination (z ^ 2 * 0 - 1) * hc + ((b : ℂ) ^ 2) * Complex.I_sq
  all_goals
    push Not at h1
    have hs : Real.sqrt |-0.5 * q2 * (-0.5 * q2) - q1| ^ 2 = (-0.5 * q2) * (-0.5 * q2) - q1 := by
      rw [Real.sq_sqrt (abs_nonneg _), abs_of_pos h1]
    have hb : 0 < Real.sqrt |-0.5 * q2 * (-0.5 * q2) - q1| := Real.sqrt_pos.2 (abs_pos.2 h1.ne')
    set b := Real.sqrt |-0.5 * q2 * (-0.5 * q2) - q1|
  · have hne : -0.5 * q2 + b ≠ 0 := by linarith [h2]
    have e1 : (⟨q1 / (-0.5 * q2 + b), 0⟩ : ℂ) = ((-0.5 * q2 - b : ℝ) : ℂ) := by
      apply Complex.ext
      · show q1 / (-0.5 * q2 + b) = (-0.5 * q2 - b)
        rw [div_eq_iff hne]
        linear_combination hs
      · rfl
    have e2 : (⟨-0.5 * q2 + b, 0⟩ : ℂ) = ((-0.5 * q2 + b : ℝ) : ℂ) := rfl
    simp only [List.map_cons, List.map_nil, List.prod_cons, List.prod_nil, mul_one, e1, e2]
    have hc := congrArg Complex.ofReal hs
    push_cast at hc ⊢
    norm_num at hc ⊢
    linear_combination hc
  · have hne : -0.5 * q2 + -b ≠ 0 := by push Not at h2; linarith [h2]
    have e1 : (⟨q1 / (-0.5 * q2 + -b), 0⟩ : ℂ) = ((-0.5 * q2 + b : ℝ) : ℂ) := by
      apply Complex.ext
      · show q1 / (-0.5 * q2 + -b) = (-0.5 * q2 + b)
        rw [div_eq_iff hne]
        linear_combination hs
      · rfl
    have e2 : (⟨-0.5 * q2 + -b, 0⟩ : ℂ) = ((-0.5 * q2 + -b : ℝ) : ℂ) := rfl
    simp only [List.map_cons, List.map_nil, List.prod_cons, List.prod_nil, mul_one, e1, e2]
    have hc := congrArg Complex.ofReal hs
    push_cast at hc ⊢
    norm_num at hc ⊢
    linear_combination hc

theorem signs_some {f : ℝ × ℝ → Option (ℝ × ℝ)} {g r : ℝ × ℝ} (h : signs f g = some r) : ∃ g', f g' = some r := by
  unfold signs at h
  rw [Option.orElse_eq_some] at h
  rcases h with h | ⟨-, h⟩
  · exact ⟨_, h⟩
  · split_ifs at h
    rw [Option.orElse_eq_some] at h
    rcases h with h | ⟨-, h⟩
    · exact ⟨_, h⟩
    · rw [Option.orElse_eq_some] at h
      rcases h with h | ⟨-, h⟩
      · exact ⟨_, h⟩
      · exact ⟨_, h⟩

theorem search_some {f : ℝ × ℝ → Option (ℝ × ℝ)} {n : ℕ} {g r : ℝ × ℝ} (h : search f n g = some r) : ∃ g', f g' = some r := by
  induction n generalizing g with
  | zero => cases h
  | succ n ih =>
    rw [search, Option.orElse_eq_some] at h
    rcases h with h | ⟨-, h⟩
    · exact signs_some h
    · exact ih h

theorem signs_ne {f : ℝ × ℝ → Option (ℝ × ℝ)} (h : ∀ g, f g ≠ none) {n : ℕ} (g : ℝ × ℝ) : search f (n + 1) g ≠ none := by
  obtain ⟨r, hr⟩ := Option.ne_none_iff_exists'.1 (h g)
  rw [search, signs, hr]
  simp

theorem rootLoop_spec {spqfb : List ℝ → ℝ × ℝ → Option (ℝ × ℝ)} (hf : FactorsRight spqfb) {fuel : ℕ} {g : ℝ × ℝ} {p : List ℝ}
    (hl : p.getLast? = some 1) (hn : p.length ≤ fuel) :
    (rootLoop spqfb fuel g p).1.length + (rootLoop spqfb fuel g p).2 = p.length - 1 ∧
    ((rootLoop spqfb fuel g p).2 = 0 → ∀ z : ℂ,
      (ofList p).eval₂ Complex.ofRealHom z = ((rootLoop spqfb fuel g p).1.map fun r => z - r).prod) := by
  have hpos : 0 < p.length := List.length_pos_of_ne_nil (by rintro rfl; cases hl)
  induction fuel generalizing g p with
  | zero => omega
  | succ fuel ih =>
    rw [rootLoop]
    split_ifs with h1 h2
    · match p, h1, hl with
      | [a], _, hl =>
        simp only [List.getLast?_singleton, Option.some.injEq] at hl
        simp [ofList, hl]
    · match p, h2, hl with
      | [a, b], _, hl =>
        have : b = 1 := by simpa using hl
        subst this
        refine ⟨rfl, fun _ z => ?_⟩
        have e : (⟨-a, 0⟩ : ℂ) = -(a : ℂ) := by apply Complex.ext <;> simp
        simp [ofList, e, add_comm]
    · split
      · rename_i h3
        exact ⟨by simp, fun h4 => by simp only at h4; omega⟩
      · rename_i r h3
        obtain ⟨g', h4⟩ := search_some h3
        have hd := hf p g' r (by omega) hl h4
        obtain ⟨i1, i2⟩ := ih (g := r) (p := deflate r.1 r.2 p) (deflate_last (by omega) hl)
          (by rw [deflate_length]; omega) (by rw [deflate_length]; omega)
        rw [deflate_length] at i1
        have hq2 : (quadRoots r.1 r.2).length = 2 := by
          unfold quadRoots
          simp only
          split_ifs <;> rfl
        refine ⟨?_, fun h0 z => ?_⟩
        · simp only [List.length_append, hq2]
          omega
        · simp only [List.map_append, List.prod_append]
          rw [deflate_spec (by omega) hd, eval₂_mul, quadRoots_spec, i2 h0]

theorem rootLoop_total {spqfb : List ℝ → ℝ × ℝ → Option (ℝ × ℝ)} (hf : NeverFails spqfb) {fuel : ℕ} {g : ℝ × ℝ} {p : List ℝ}
    (hl : p.getLast? = some 1) (hn : p.length ≤ fuel) : (rootLoop spqfb fuel g p).2 = 0 := by
  have hpos : 0 < p.length := List.length_pos_of_ne_nil (by rintro rfl; cases hl)
  induction fuel generalizing g p with
  | zero => omega
  | succ fuel ih =>
    rw [rootLoop]
    split_ifs with h1 h2
    · rfl
    · rfl
    · split
      · rename_i h3
        exact absurd h3 (signs_ne (fun g => hf p g (by omega) hl) g)
      · rename_i r h3
        exact ih (deflate_last (by omega) hl) (by rw [deflate_length]; omega) (by rw [deflate_length]; omega)

theorem ofList_coeff (c : List ℝ) (i : ℕ) : (ofList c).coeff i = c.getD i 0 := by
  induction c generalizing i with
  | nil => simp [ofList]
  | cons a c ih =>
    rw [ofList]
    cases i with
    | zero => simp
    | succ i => simp [coeff_X_mul, ih, coeff_C]

theorem zeros_takeWhile (l : List ℝ) : l.takeWhile (fun x => decide (x = 0)) =
    List.replicate (l.takeWhile fun x => decide (x = 0)).length 0 := by
  induction l with
  | nil => rfl
  | cons a l ih =>
    by_cases h : a = 0
    · rw [List.takeWhile_cons_of_pos (by simpa using h), List.length_cons, List.replicate_succ, ← ih, h]
    · rw [List.takeWhile_cons_of_neg (by simpa using h)]
      rfl

theorem trimmed_spec (c : List ℝ) : ∃ k, c = trimmed c ++ List.replicate k 0 ∧ (trimmed c).getLast? ≠ some 0 := by
  classical
  refine ⟨(c.reverse.takeWhile fun x => x = 0).length, ?_, ?_⟩
  · unfold trimmed
    have h1 := List.takeWhile_append_dropWhile (p := fun x : ℝ => decide (x = 0)) (l := c.reverse)
    have h2 := zeros_takeWhile c.reverse
    have h3 := congrArg List.reverse h1
    rw [List.reverse_append, List.reverse_reverse] at h3
    conv_lhs => rw [← h3, h2]
    rw [List.reverse_replicate]
  · unfold trimmed
    rw [List.getLast?_reverse]
    intro h0
    have := List.head?_dropWhile_not (fun x : ℝ => decide (x = 0)) c.reverse
    rw [h0] at this
    simp at this

theorem trimmed_poly (c : List ℝ) : ofList (trimmed c) = ofList c := by
  obtain ⟨k, h, -⟩ := trimmed_spec c
  conv_rhs => rw [h]
  rw [ofList_append, ofList_eq_zero (l := List.replicate k 0) (fun x hx => List.eq_of_mem_replicate hx), mul_zero, add_zero]

theorem lead {t : List ℝ} (ht : t.getLast? ≠ some 0) (hne : t ≠ []) :
    (ofList t).natDegree = t.length - 1 ∧ (ofList t).leadingCoeff = t.getLastD 0 ∧ t.getLastD 0 ≠ 0 := by
  have hpos := List.length_pos_of_ne_nil hne
  have hlast : t.getLast? = some (t.getD (t.length - 1) 0) := by
    rw [List.getLast?_eq_getElem?, List.getD_eq_getElem?_getD, List.getElem?_eq_getElem (by omega)]
    rfl
  have hD : t.getLastD 0 = t.getD (t.length - 1) 0 := by
    rw [List.getLastD_eq_getLast?, hlast]
    rfl
  have h0 : t.getD (t.length - 1) 0 ≠ 0 := fun h => ht (by rw [hlast, h])
  have hdeg : (ofList t).natDegree = t.length - 1 := by
    refine natDegree_eq_of_le_of_coeff_ne_zero ?_ (by rwa [ofList_coeff])
    rw [natDegree_le_iff_coeff_eq_zero]
    intro i hi
    rw [ofList_coeff, List.getD_eq_getElem?_getD, List.getElem?_eq_none (by omega)]
    rfl
  refine ⟨hdeg, ?_, by rwa [hD]⟩
  rw [leadingCoeff, hdeg, ofList_coeff, hD]

/-- What the program does before the loop. -/
theorem sprbm_eq (spqfb : List ℝ → ℝ × ℝ → Option (ℝ × ℝ)) (c : List ℝ) (hd : (ofList c).natDegree ≠ 0) :
    ∃ (k : ℕ) (p : List ℝ), C (ofList c).leadingCoeff * (X ^ k * ofList p) = ofList c ∧ p.getLast? = some 1 ∧
      k + (p.length - 1) = (ofList c).natDegree ∧
      ((∃ x ∈ p, (10 : ℝ) ^ 27 ≤ |x|) ↔ ∃ i, 10 ^ 27 * |(ofList c).leadingCoeff| ≤ |(ofList c).coeff i|) ∧
      sprbm spqfb c = if ∃ x ∈ p, 10 ^ 27 ≤ |x| then .stop
        else .roots (List.replicate k 0 ++ (rootLoop spqfb p.length (0, 0) p).1) (rootLoop spqfb p.length (0, 0) p).2 := by
  classical
  obtain ⟨-, -, hlast⟩ := trimmed_spec c
  have hp := trimmed_poly c
  set t := trimmed c with ht
  have hne : t ≠ [] := by
    intro h
    rw [h] at hp
    rw [← hp] at hd
    exact hd (by simp [ofList])
  obtain ⟨h1, h2, h3⟩ := lead hlast hne
  rw [hp] at h1 h2
  have hlen : 2 ≤ t.length := by omega
  set z := (t.takeWhile fun x => decide (x = 0)).length with hz
  have hpre : t.take z = List.replicate z 0 := by
    have h4 : t.take z = t.takeWhile fun x => decide (x = 0) :=
      (List.prefix_iff_eq_take.1 (List.takeWhile_prefix _)).symm
    rw [h4]
    exact zeros_takeWhile t
  have hzt : z < t.length := by
    by_contra hge
    have h5 : t = List.replicate z 0 := by rw [← hpre, List.take_of_length_le (by omega)]
    have h6 : ∀ x ∈ t, x = 0 := by
      rw [h5]
      exact fun x hx => List.eq_of_mem_replicate hx
    have : t.getLastD 0 ∈ t := by
      rw [List.getLastD_eq_getLast?, List.getLast?_eq_some_getLast hne]
      exact List.getLast_mem hne
    exact h3 (h6 _ this)
  have hsplit : ofList t = X ^ z * ofList (t.drop z) := by
    conv_lhs => rw [← List.take_append_drop z t]
    rw [ofList_append, hpre, ofList_eq_zero (fun x hx => List.eq_of_mem_replicate hx), zero_add, List.length_replicate]
  refine ⟨z, (t.drop z).map fun x => x / t.getLastD 0, ?_, ?_, ?_, ?_, ?_⟩
  · rw [ofList_map, h2, ← hp, hsplit]
    have : C (t.getLastD 0) * C (t.getLastD 0)⁻¹ = 1 := by rw [← C_mul, mul_inv_cancel₀ h3, C_1]
    linear_combination (X ^ z * ofList (t.drop z)) * this
  · rw [List.getLast?_map, List.getLast?_drop, if_neg (by omega), List.getLast?_eq_some_getLast hne]
    have : t.getLastD 0 = t.getLast hne := by
      rw [List.getLastD_eq_getLast?, List.getLast?_eq_some_getLast hne]
      rfl
    rw [this] at h3 ⊢
    simp [h3]
  · simp only [List.length_map, List.length_drop]
    omega
  · have habs : 0 < |t.getLastD 0| := abs_pos.2 h3
    rw [h2]
    constructor
    · rintro ⟨x, hx, hx2⟩
      obtain ⟨y, hy, rfl⟩ := List.mem_map.1 hx
      obtain ⟨i, hi, rfl⟩ := List.getElem_of_mem (List.mem_of_mem_drop hy)
      refine ⟨i, ?_⟩
      rw [← hp, ofList_coeff, List.getD_eq_getElem?_getD, List.getElem?_eq_getElem hi, Option.getD_some]
      rwa [abs_div, le_div_iff₀ habs] at hx2
    · rintro ⟨i, hi⟩
      rw [← hp, ofList_coeff] at hi
      have hx0 : t.getD i 0 ≠ 0 := by
        intro h0
        rw [h0, abs_zero] at hi
        have : 0 < 10 ^ 27 * |t.getLastD 0| := by positivity
        linarith
      have hit : i < t.length := by
        by_contra hge
        exact hx0 (by rw [List.getD_eq_getElem?_getD, List.getElem?_eq_none (by omega)]; rfl)
      have hiz : z ≤ i := by
        by_contra hlt
        apply hx0
        have : (t.take z)[i]? = t[i]? := by rw [List.getElem?_take, if_pos (by omega)]
        rw [List.getD_eq_getElem?_getD, ← this, hpre, List.getElem?_replicate, if_pos (by omega)]
        rfl
      refine ⟨t.getD i 0 / t.getLastD 0, List.mem_map.2 ⟨t.getD i 0, ?_, rfl⟩, ?_⟩
      · rw [List.mem_iff_getElem?]
        refine ⟨i - z, ?_⟩
        rw [List.getElem?_drop, show z + (i - z) = i by omega, List.getElem?_eq_getElem hit, List.getD_eq_getElem?_getD,
          List.getElem?_eq_getElem hit]
        rfl
      · rwa [abs_div, le_div_iff₀ habs]
  · unfold sprbm
    simp only
    rw [← ht, if_neg (by omega)]

/-! ## Theorems -/

/-- C117: the program ends exactly for a constant, or when a coefficient is too large with respect to the first one. -/
theorem sprbm_stop_iff (spqfb : List ℝ → ℝ × ℝ → Option (ℝ × ℝ)) (c : List ℝ) :
    sprbm spqfb c = .stop ↔
      (ofList c).natDegree = 0 ∨ ∃ i, 10 ^ 27 * |(ofList c).leadingCoeff| ≤ |(ofList c).coeff i| := by
  by_cases hd : (ofList c).natDegree = 0
  · simp only [hd, true_or, iff_true]
    obtain ⟨-, -, hlast⟩ := trimmed_spec c
    unfold sprbm
    simp only
    rw [if_pos]
    by_cases hne : trimmed c = []
    · simp [hne]
    · have := (lead hlast hne).1
      rw [trimmed_poly, hd] at this
      omega
  · obtain ⟨k, p, -, -, -, h4, h5⟩ := sprbm_eq spqfb c hd
    rw [h5, ← h4]
    simp only [hd, false_or]
    split_ifs with h <;> simp [h]

/-- C117: there are as many roots, written or not, as the degree. -/
theorem sprbm_count {spqfb : List ℝ → ℝ × ℝ → Option (ℝ × ℝ)} (hf : FactorsRight spqfb) {c : List ℝ} {l : List ℂ} {m : ℕ}
    (h : sprbm spqfb c = .roots l m) : l.length + m = (ofList c).natDegree := by
  have hd : (ofList c).natDegree ≠ 0 := fun h0 => by
    rw [(sprbm_stop_iff spqfb c).2 (Or.inl h0)] at h
    cases h
  obtain ⟨k, p, -, h2, h3, -, h5⟩ := sprbm_eq spqfb c hd
  rw [h5] at h
  split_ifs at h with h6
  cases h
  have := (rootLoop_spec hf (g := (0, 0)) h2 le_rfl).1
  simp only [List.length_append, List.length_replicate]
  omega

/-- C117: when all the roots are written, they are the roots with their multiplicities. -/
theorem sprbm_roots {spqfb : List ℝ → ℝ × ℝ → Option (ℝ × ℝ)} (hf : FactorsRight spqfb) {c : List ℝ} {l : List ℂ}
    (h : sprbm spqfb c = .roots l 0) (z : ℂ) :
    polyValue (c.map Complex.ofReal) z = (ofList c).leadingCoeff * (l.map fun r => z - r).prod := by
  have hd : (ofList c).natDegree ≠ 0 := fun h0 => by
    rw [(sprbm_stop_iff spqfb c).2 (Or.inl h0)] at h
    cases h
  obtain ⟨k, p, h1, h2, -, -, h5⟩ := sprbm_eq spqfb c hd
  rw [h5] at h
  split_ifs at h with h6
  obtain ⟨h7, h8⟩ := Outcome.roots.inj h
  subst h7
  rw [ofList_value, ← h1]
  rw [eval₂_mul, eval₂_mul, eval₂_C, eval₂_pow, eval₂_X, (rootLoop_spec hf (g := (0, 0)) h2 le_rfl).2 h8, h1]
  simp

/-- C117: when a factor is always found, all the roots are written. -/
theorem sprbm_complete {spqfb : List ℝ → ℝ × ℝ → Option (ℝ × ℝ)} (hf : NeverFails spqfb) {c : List ℝ}
    (h : sprbm spqfb c ≠ .stop) : ∃ l, sprbm spqfb c = .roots l 0 := by
  have hd : (ofList c).natDegree ≠ 0 := fun h0 => h ((sprbm_stop_iff spqfb c).2 (Or.inl h0))
  obtain ⟨k, p, -, h2, -, -, h5⟩ := sprbm_eq spqfb c hd
  rw [h5] at h ⊢
  split_ifs at h ⊢ with h6
  · exact absurd rfl h
  · exact ⟨_, by rw [rootLoop_total hf h2 le_rfl]⟩

/-- C117: when no factor is found, the program goes on with roots that were never written. -/
theorem sprbm_missing_violated : ∃ spqfb c, FactorsRight spqfb ∧ sprbm spqfb c = .roots [] 3 := by
  refine ⟨fun _ _ => none, [1, 0, 0, 1], fun p g q _ _ h => by simp at h, ?_⟩
  have hs : ∀ n g, search (fun _ : ℝ × ℝ => (none : Option (ℝ × ℝ))) n g = none := by
    intro n
    induction n with
    | zero => intro g; rfl
    | succ n ih => intro g; rw [search, ih]; simp [signs]
  have ht : trimmed [1, 0, 0, 1] = [1, 0, 0, 1] := by simp [trimmed]
  unfold sprbm
  simp only [ht]
  norm_num [rootLoop, hs]

/-- The roots that `SPRBM` gives to `EXPORS`. -/
noncomputable def given (spqfb : List ℝ → ℝ × ℝ → Option (ℝ × ℝ)) (c : List ℝ) : List ℂ :=
  match sprbm spqfb c with
  | .roots l _ => l
  | .stop => []

/-- C117: the contract used for C116 follows from the one of `SPQFB`. -/
theorem given_right {spqfb : List ℝ → ℝ × ℝ → Option (ℝ × ℝ)} (hf : FactorsRight spqfb) (hn : NeverFails spqfb) :
    RootsRight (given spqfb) := by
  intro c hlen hlast hsmall z
  have hne : c ≠ [] := by
    rintro rfl
    cases hlast
  have hD : c.getLastD 0 = 1 := by
    rw [List.getLastD_eq_getLast?, hlast]
    rfl
  obtain ⟨h1, h2, -⟩ := lead (t := c) (by rw [hlast]; simp) hne
  rw [hD] at h2
  have hns : sprbm spqfb c ≠ .stop := by
    rw [Ne, sprbm_stop_iff, not_or]
    refine ⟨by omega, ?_⟩
    rintro ⟨i, hi⟩
    rw [h2, abs_one, mul_one, ofList_coeff] at hi
    by_cases hil : i < c.length
    · have := hsmall (c.getD i 0) (getD_mem hil)
      linarith
    · rw [List.getD_eq_getElem?_getD, List.getElem?_eq_none (by omega)] at hi
      norm_num at hi
  obtain ⟨l, hl⟩ := sprbm_complete hn hns
  rw [sprbm_roots hf hl, h2]
  unfold given
  rw [hl]
  simp

/-- C117: a sum of four slow exponentials is found with the roots of `SPRBM`. -/
theorem lisc_sprbm {spqfb : List ℝ → ℝ × ℝ → Option (ℝ × ℝ)} (hf : FactorsRight spqfb) (hn : NeverFails spqfb) {S : Finset ℝ}
    (h4 : S.card = 4) {c : ℝ → ℝ} (hc : ∀ r ∈ S, c r ≠ 0) (hr : ∀ r ∈ S, -0.75 ≤ r ∧ r ≤ 0) :
    ∃ lam : List ℝ, lisc (given spqfb) (sumOfExp S c) = some (lam, lam.map c) ∧ lam.Perm S.toList :=
  lisc_exact (given_right hf hn) h4 hc hr

/-! ## The hypotheses can be met -/

theorem factor_exists {p : ℝ[X]} (hp : 2 ≤ p.natDegree) : ∃ q, quad q ∣ p := by
  have hroot : ∀ r : ℝ[X], 1 ≤ r.natDegree → ∃ z : ℂ, aeval z r = 0 := by
    intro r hr
    obtain ⟨z, hz⟩ := IsAlgClosed.exists_aeval_eq_zero ℂ r (by
      intro h0
      have := natDegree_eq_of_degree_eq_some (n := 0) (by simpa using h0)
      omega)
    exact ⟨z, hz⟩
  have hcomplex : ∀ (r : ℝ[X]) (z : ℂ), aeval z r = 0 → z.im ≠ 0 → ∃ q, quad q ∣ r := by
    intro r z hz him
    refine ⟨(‖z‖ ^ 2, -(2 * z.re)), ?_⟩
    have := quadratic_dvd_of_aeval_eq_zero_im_ne_zero r hz him
    rwa [quad, C_neg, neg_mul, ← sub_eq_add_neg]
  have hreal : ∀ (r : ℝ[X]) (z : ℂ), aeval z r = 0 → z.im = 0 → (X - C z.re) ∣ r := by
    intro r z hz him
    rw [dvd_iff_isRoot, IsRoot.def]
    have hzr : z = ((z.re : ℝ) : ℂ) := by apply Complex.ext <;> simp [him]
    rw [hzr] at hz
    have := aeval_algebraMap_apply ℂ z.re r
    rw [show (algebraMap ℝ ℂ) z.re = ((z.re : ℝ) : ℂ) from rfl, hz] at this
    simpa using this.symm
  obtain ⟨z, hz⟩ := hroot p (by omega)
  by_cases him : z.im = 0
  · obtain ⟨s, rfl⟩ := hreal p z hz him
    have hs0 : s ≠ 0 := by
      rintro rfl
      simp at hp
    rw [natDegree_mul (X_sub_C_ne_zero _) hs0, natDegree_X_sub_C] at hp
    obtain ⟨w, hw⟩ := hroot s (by omega)
    by_cases hwim : w.im = 0
    · obtain ⟨u, rfl⟩ := hreal s w hw hwim
      refine ⟨(z.re * w.re, -(z.re + w.re)), u, ?_⟩
      simp only [quad, C_mul, C_neg, C_add]
      ring
    · obtain ⟨q, hq⟩ := hcomplex s w hw hwim
      exact ⟨q, hq.mul_left _⟩
  · exact hcomplex p z hz him

/-- The contracts of `SPQFB` can be met. -/
theorem spqfb_exists : ∃ spqfb, FactorsRight spqfb ∧ NeverFails spqfb := by
  classical
  refine ⟨fun p _ => if h : ∃ q, quad q ∣ ofList p then some h.choose else none, ?_, ?_⟩
  · intro p g q _ _ h
    simp only at h
    split_ifs at h with h1
    cases h
    exact h1.choose_spec
  · intro p g hp hl
    simp only
    rw [dif_pos]
    · simp
    · apply factor_exists
      have hne : p ≠ [] := by
        rintro rfl
        cases hl
      rw [(lead (by rw [hl]; simp) hne).1]
      omega

/-- A polynomial with a root at zero, a real root and two conjugate roots. -/
example : ∃ spqfb l, FactorsRight spqfb ∧ NeverFails spqfb ∧ sprbm spqfb [0, -1, 1, -1, 1] = .roots l 0 ∧ l.length = 4 := by
  obtain ⟨spqfb, h1, h2⟩ := spqfb_exists
  have hl := lead (t := [0, -1, 1, -1, 1]) (by simp) (by simp)
  obtain ⟨l, hl'⟩ := sprbm_complete (c := [0, -1, 1, -1, 1]) h2 (by
    rw [Ne, sprbm_stop_iff, not_or]
    refine ⟨by rw [hl.1]; simp, ?_⟩
    rintro ⟨i, hi⟩
    rw [hl.2.1, ofList_coeff] at hi
    rcases i with _ | _ | _ | _ | _ | i <;> norm_num at hi)
  have := sprbm_count h1 hl'
  rw [hl.1] at this
  exact ⟨spqfb, l, h1, h2, hl', by simpa using this⟩

end Verif.Green.Sprbm
