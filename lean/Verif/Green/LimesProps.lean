import Verif.Green.LimesLemmas
import Mathlib.Tactic.NormNum
import Mathlib.Tactic.LinearCombination
import Mathlib.Data.Rat.Defs
import Mathlib.Algebra.Order.Ring.Rat

/-!
# What the extrapolation finds

The sums of the series of the finite depth Green function behave more and more like `L + c q ^ n`. For such sums the extrapolation
gives the limit `L` itself, whatever the number of sums.
-/

namespace Verif.Green.Limes

variable {K : Type*} [Field K] [LinearOrder K] [IsStrictOrderedRing K]

/-- The bound on the number of turns plays no role. -/
theorem mainLoop_fuel (N : ℕ) (f g k : ℕ) (s a : ℕ → K) (b : Best K) (hf : N + 1 < 2 * (k + f)) (hg : N + 1 < 2 * (k + g)) :
    mainLoop N f k s a b = mainLoop N g k s a b := by
  induction f generalizing g k s a b with
  | zero =>
    cases g with
    | zero => rfl
    | succ g => simp only [mainLoop]; rw [if_pos (by omega)]
  | succ f ih =>
    cases g with
    | zero => simp only [mainLoop]; rw [if_pos (by omega)]
    | succ g =>
      simp only [mainLoop]
      split
      · rfl
      · split
        · rfl
        · split
          · rfl
          · exact ih g (k + 1) _ _ _ (by omega) (by omega)

/-- When the entries stay under the largest one met, what is kept does not change. -/
theorem mainLoop_quiet {N : ℕ} {M : K} (P : ℕ → (ℕ → K) → (ℕ → K) → Prop)
    (hP : ∀ (k : ℕ) (s a a' s' : ℕ → K), 1 ≤ k → P k s a → 2 * k ≤ N →
      (∀ j : ℕ, j + 2 * k ≤ N + 1 → a' j = cross (a (j + 1)) (s j) (s (j + 1))) →
      (∀ j : ℕ, j + 2 * k ≤ N → s' j = cross (s (j + 1)) (a' j) (a' (j + 1))) →
      (∀ j : ℕ, j + 2 * k ≤ N → |a' j| ≤ M) ∧ P (k + 1) s' a') :
    ∀ (f k : ℕ) (s a : ℕ → K) (b : Best K), 1 ≤ k → P k s a → M ≤ b.aMax → mainLoop N f k s a b = b := by
  intro f
  induction f with
  | zero => intros; rfl
  | succ f ih =>
    intro k s a b hk h hM
    simp only [mainLoop]
    split
    · rfl
    · split
      · rfl
      · rename_i h1 h2
        have ha : ∀ j : ℕ, j + 2 * k ≤ N + 1 →
            auxRow (N + 2 - 2 * k) s a j = cross (a (j + 1)) (s j) (s (j + 1)) := by
          intro j hj
          rw [auxRow_eq, if_pos (by omega)]
        have hb := (hP k s a _ (fun j => cross (s (j + 1)) (auxRow (N + 2 - 2 * k) s a j) (auxRow (N + 2 - 2 * k) s a (j + 1)))
          hk h (by omega) ha (fun _ _ => rfl)).1
        have q := seqRow_quiet (k := k) (n := N + 1 - 2 * k) (a := auxRow (N + 2 - 2 * k) s a) (s := s) (b := b)
          (fun j hj => le_trans (hb j (by omega)) hM)
        obtain ⟨q1, q2, q3⟩ := q
        rw [q2, q1]
        simp only [Bool.false_eq_true, if_false]
        refine ih (k + 1) _ _ b (by omega) ?_ hM
        refine (hP k s a _ _ hk h (by omega) ha ?_).2
        intro j hj
        rw [q3 j, if_pos (by omega)]

/-- The three shapes of the rows of the table for a geometric sequence, at the turn `k`. -/
def Shape (N : ℕ) (L c q : K) (k : ℕ) (s a : ℕ → K) : Prop :=
  ∃ C : K, C ≠ 0 ∧
    ((|C| = |c * q ^ (k - 1)| ∧ ∀ j : ℕ, j + 2 * k ≤ N + 2 → s j = L + C * q ^ j ∧ a j = 0) ∨
     (2 ≤ k ∧ |C| = |c * q ^ (k - 2)| ∧ ∀ j : ℕ, j + 2 * k ≤ N + 2 → s j = L ∧ a j = 1 / (C * (q - 1) * q ^ j)) ∨
     (3 ≤ k ∧ |C| = |c * q ^ (k - 3)| ∧ ∀ j : ℕ, j + 2 * k ≤ N + 2 →
        s j = L - C * q ^ (j + 2) ∧ a j = 1 / (C * (q - 1) * q ^ (j + 1))))

theorem abs_entry {C c q : K} {m n : ℕ} (h : |C| = |c * q ^ m|) : |1 / (C * (q - 1) * q ^ n)| = |1 / (c * (q - 1) * q ^ (m + n))| := by
  rw [abs_div, abs_div, abs_mul, abs_mul C, h, ← abs_mul, ← abs_mul]
  congr 2
  ring

theorem shape_step {N : ℕ} {L c q M : K} (hq : q ≠ 0) (hq1 : q ≠ 1)
    (hM : ∀ m : ℕ, m + 2 ≤ N → |1 / (c * (q - 1) * q ^ m)| ≤ M) (h0 : 0 ≤ M)
    (k : ℕ) (s a a' s' : ℕ → K) (hk : 1 ≤ k) (h : Shape N L c q k s a) (hN : 2 * k ≤ N)
    (ha : ∀ j : ℕ, j + 2 * k ≤ N + 1 → a' j = cross (a (j + 1)) (s j) (s (j + 1)))
    (hs : ∀ j : ℕ, j + 2 * k ≤ N → s' j = cross (s (j + 1)) (a' j) (a' (j + 1))) :
    (∀ j : ℕ, j + 2 * k ≤ N → |a' j| ≤ M) ∧ Shape N L c q (k + 1) s' a' := by
  have q1 : q - 1 ≠ 0 := sub_ne_zero.mpr hq1
  have q1' : 1 - q ≠ 0 := sub_ne_zero.mpr (Ne.symm hq1)
  have qn : ∀ n : ℕ, q ^ n ≠ 0 := fun n => pow_ne_zero n hq
  obtain ⟨C, hC, ⟨hn, h⟩ | ⟨hk2, hn, h⟩ | ⟨hk3, hn, h⟩⟩ := h
  · have ea : ∀ j : ℕ, j + 2 * k ≤ N + 1 → a' j = 1 / (C * (q - 1) * q ^ j) := by
      intro j hj
      have d : s (j + 1) - s j = C * (q - 1) * q ^ j := by rw [(h (j + 1) (by omega)).1, (h j (by omega)).1]; ring
      have d0 : C * (q - 1) * q ^ j ≠ 0 := mul_ne_zero (mul_ne_zero hC q1) (qn j)
      rw [ha j hj, cross, if_pos (sub_ne_zero.mp (d ▸ d0)), d, (h (j + 1) (by omega)).2, zero_add]
    have es : ∀ j : ℕ, j + 2 * k ≤ N → s' j = L := by
      intro j hj
      have d : a' (j + 1) - a' j = -1 / (C * q ^ (j + 1)) := by
        rw [ea (j + 1) (by omega), ea j (by omega)]
        have := qn j
        field_simp
        ring
      have d0 : (-1 : K) / (C * q ^ (j + 1)) ≠ 0 := div_ne_zero (by norm_num) (mul_ne_zero hC (qn _))
      rw [hs j hj, cross, if_pos (sub_ne_zero.mp (d ▸ d0)), d, (h (j + 1) (by omega)).1]
      have := qn (j + 1)
      field_simp
      ring
    refine ⟨fun j hj => ?_, C, hC, Or.inr (Or.inl ⟨by omega, ?_, fun j hj => ⟨es j (by omega), ea j (by omega)⟩⟩)⟩
    · rw [ea j (by omega), abs_entry hn]
      exact hM _ (by omega)
    · rw [hn]; congr 3
  · have ea : ∀ j : ℕ, j + 2 * k ≤ N + 1 → a' j = 1 / (C * (q - 1) * q ^ (j + 1)) := by
      intro j hj
      rw [ha j hj, cross, if_neg (by rw [(h (j + 1) (by omega)).1, (h j (by omega)).1]; simp), (h (j + 1) (by omega)).2]
    have es : ∀ j : ℕ, j + 2 * k ≤ N → s' j = L - C * q ^ (j + 2) := by
      intro j hj
      have d : a' (j + 1) - a' j = -1 / (C * q ^ (j + 2)) := by
        rw [ea (j + 1) (by omega), ea j (by omega)]
        have := qn j
        field_simp
        ring
      have d0 : (-1 : K) / (C * q ^ (j + 2)) ≠ 0 := div_ne_zero (by norm_num) (mul_ne_zero hC (qn _))
      rw [hs j hj, cross, if_pos (sub_ne_zero.mp (d ▸ d0)), d, (h (j + 1) (by omega)).1]
      have := qn (j + 2)
      field_simp
      ring
    refine ⟨fun j hj => ?_, C, hC, Or.inr (Or.inr ⟨by omega, ?_, fun j hj => ⟨es j (by omega), ea j (by omega)⟩⟩)⟩
    · rw [ea j (by omega), abs_entry hn]
      exact hM _ (by omega)
    · rw [hn]; congr 3
  · have ea : ∀ j : ℕ, j + 2 * k ≤ N + 1 → a' j = 0 := by
      intro j hj
      have d : s (j + 1) - s j = -(C * (q - 1) * q ^ (j + 2)) := by rw [(h (j + 1) (by omega)).1, (h j (by omega)).1]; ring
      have d0 : -(C * (q - 1) * q ^ (j + 2)) ≠ 0 := neg_ne_zero.mpr (mul_ne_zero (mul_ne_zero hC q1) (qn _))
      rw [ha j hj, cross, if_pos (sub_ne_zero.mp (d ▸ d0)), d, (h (j + 1) (by omega)).2]
      have := qn (j + 2)
      field_simp
      ring
    have es : ∀ j : ℕ, j + 2 * k ≤ N → s' j = L + -C * q ^ 3 * q ^ j := by
      intro j hj
      rw [hs j hj, cross, if_neg (by rw [ea j (by omega), ea (j + 1) (by omega)]; simp), (h (j + 1) (by omega)).1]
      ring
    refine ⟨fun j hj => ?_, -C * q ^ 3, mul_ne_zero (neg_ne_zero.mpr hC) (qn 3),
      Or.inl ⟨?_, fun j hj => ⟨es j (by omega), ea j (by omega)⟩⟩⟩
    · rw [ea j (by omega), abs_zero]; exact h0
    · rw [abs_mul, abs_neg, hn, ← abs_mul, mul_assoc, ← pow_add]
      congr 3
      omega

/-- **C124.** A sum and a decreasing (or increasing) power: the limit is found exactly, from three sums or more. -/
theorem geometric {N : ℕ} (hN : 2 ≤ N) {L c q : K} (hc : c ≠ 0) (hq : q ≠ 0) (hq1 : q ≠ 1) :
    ∃ b : Best K, limes N (fun n => L + c * q ^ n) = some b ∧ b.value = L := by
  refine ⟨_, by rw [limes, if_neg (by omega)], ?_⟩
  generalize hS : (fun n : ℕ => L + c * q ^ n) = S
  generalize hA : (fun _ : ℕ => (0 : K)) = A
  simp only [mainLoop]
  rw [if_neg (by omega), if_neg (by omega)]
  have sh : Shape N L c q 1 S A := ⟨c, hc, Or.inl ⟨by simp, fun j _ => by rw [← hS, ← hA]; exact ⟨rfl, rfl⟩⟩⟩
  have ha : ∀ j : ℕ, j + 2 * 1 ≤ N + 1 → auxRow (N + 2 - 2 * 1) S A j = cross (A (j + 1)) (S j) (S (j + 1)) := by
    intro j hj
    rw [auxRow_eq, if_pos (by omega)]
  have q1 : q - 1 ≠ 0 := sub_ne_zero.mpr hq1
  have qn : ∀ n : ℕ, q ^ n ≠ 0 := fun n => pow_ne_zero n hq
  have ea : ∀ j : ℕ, j + 2 * 1 ≤ N + 1 → auxRow (N + 2 - 2 * 1) S A j = 1 / (c * (q - 1) * q ^ j) := by
    intro j hj
    have d : S (j + 1) - S j = c * (q - 1) * q ^ j := by rw [← hS]; ring
    have d0 : c * (q - 1) * q ^ j ≠ 0 := mul_ne_zero (mul_ne_zero hc q1) (qn j)
    rw [ha j hj, cross, if_pos (sub_ne_zero.mp (d ▸ d0)), d, ← hA, zero_add]
  have es : ∀ j : ℕ, j + 2 * 1 ≤ N →
      cross (S (j + 1)) (auxRow (N + 2 - 2 * 1) S A j) (auxRow (N + 2 - 2 * 1) S A (j + 1)) = L := by
    intro j hj
    have d : auxRow (N + 2 - 2 * 1) S A (j + 1) - auxRow (N + 2 - 2 * 1) S A j = -1 / (c * q ^ (j + 1)) := by
      rw [ea (j + 1) (by omega), ea j (by omega)]
      have := qn j
      field_simp
      ring
    have d0 : (-1 : K) / (c * q ^ (j + 1)) ≠ 0 := div_ne_zero (by norm_num) (mul_ne_zero hc (qn _))
    rw [cross, if_pos (sub_ne_zero.mp (d ▸ d0)), d, ← hS]
    have := qn (j + 1)
    field_simp
    ring
  generalize auxRow (N + 2 - 2 * 1) S A = a' at *
  have sp := seqRow_spec 1 (N + 1 - 2 * 1) a' S (start N S)
  generalize seqRow 1 (N + 1 - 2 * 1) a' S (start N S) = st at *
  have hv : st.best.value = L ∧ 0 ≤ st.best.aMax := by
    rcases sp.kept with ⟨h1, h2⟩ | ⟨j, hj, _, h2⟩
    · have := sp.largest h2 0 (by omega)
      rw [ea 0 (by omega), h1] at this
      exact absurd this (not_le.mpr (abs_pos.mpr (one_div_ne_zero (mul_ne_zero (mul_ne_zero hc q1) (qn 0)))))
    · rw [h2]; exact ⟨es j (by omega), abs_nonneg _⟩
  by_cases hd : st.done = true
  · rw [if_pos hd]; exact hv.1
  · rw [if_neg hd]
    have hd' : st.done = false := by simpa using hd
    have hM : ∀ m : ℕ, m + 2 ≤ N → |1 / (c * (q - 1) * q ^ m)| ≤ st.best.aMax := by
      intro m hm
      rw [← ea m (by omega)]
      exact sp.largest hd' m (by omega)
    rw [mainLoop_quiet (M := st.best.aMax) (Shape N L c q) (shape_step hq hq1 hM hv.2) N 2 st.s a' st.best (by omega) ?_ (le_refl _)]
    · exact hv.1
    · refine (shape_step hq hq1 hM hv.2 1 S A a' st.s (by omega) sh (by omega) ha ?_).2
      intro j hj
      rw [sp.row hd' j, if_pos (by omega)]

example : ∃ b : Best ℚ, limes 9 (fun n => 5 + 3 * (1 / 2) ^ n) = some b ∧ b.value = 5 :=
  geometric (by norm_num) (by norm_num) (by norm_num) (by norm_num)

/-- **C124.** Sums that never change: the value is that one. -/
theorem constant {N : ℕ} (hN : 2 ≤ N) (L : K) : limes N (fun _ => L) = some ⟨0, L, N, 0, 0⟩ := by
  rw [limes, if_neg (by omega)]
  rw [mainLoop_quiet (M := 0) (fun k s a => ∀ j : ℕ, j + 2 * k ≤ N + 2 → s j = L ∧ a j = 0) ?_ (N + 1) 1 _ _ _ (le_refl _)
    (fun _ _ => ⟨rfl, rfl⟩) (le_refl _)]
  · simp [start]
  · intro k s a a' s' hk h hN ha hs
    have ea : ∀ j : ℕ, j + 2 * k ≤ N + 1 → a' j = 0 := by
      intro j hj
      rw [ha j hj, cross, if_neg (by rw [(h (j + 1) (by omega)).1, (h j (by omega)).1]; simp), (h (j + 1) (by omega)).2]
    refine ⟨fun j hj => by rw [ea j (by omega), abs_zero], fun j hj => ⟨?_, ea j (by omega)⟩⟩
    rw [hs j (by omega), cross, if_neg (by rw [ea j (by omega), ea (j + 1) (by omega)]; simp), (h (j + 1) (by omega)).1]

example : limes 4 (fun _ => (7 : ℚ)) = some ⟨0, 7, 4, 0, 0⟩ := constant (by norm_num) 7

/-- **C124.** Sums that reach their limit at the second one: the value found is the first sum, however large the difference and
however many sums are equal to the limit. The estimate of the error is right, but `EIGENE` and `PIDCOCK` do not read it. -/
theorem reached_violated {N : ℕ} (hN : 2 ≤ N) (L : K) {c : K} (hc : c ≠ 0) :
    limes N (fun n => if n = 0 then L + c else L) = some ⟨|1 / c|, L + c, 1, 1, |c|⟩ := by
  rw [limes, if_neg (by omega)]
  congr 1
  generalize hS : (fun n : ℕ => if n = 0 then L + c else L) = S
  generalize hA : (fun _ : ℕ => (0 : K)) = A
  let P : ℕ → (ℕ → K) → (ℕ → K) → Prop := fun k s a => ∀ j : ℕ, j + 2 * k ≤ N + 2 →
    s j = (if j = 0 then L + c else L) ∧ (1 ≤ j → a j = 0)
  have hP : ∀ (k : ℕ) (s a a' s' : ℕ → K), 1 ≤ k → P k s a → 2 * k ≤ N →
      (∀ j : ℕ, j + 2 * k ≤ N + 1 → a' j = cross (a (j + 1)) (s j) (s (j + 1))) →
      (∀ j : ℕ, j + 2 * k ≤ N → s' j = cross (s (j + 1)) (a' j) (a' (j + 1))) →
      (∀ j : ℕ, j + 2 * k ≤ N + 1 → a' j = if j = 0 then -1 / c else 0) ∧ P (k + 1) s' a' := by
    intro k s a a' s' hk h hkN ha hs
    have ea : ∀ j : ℕ, j + 2 * k ≤ N + 1 → a' j = if j = 0 then -1 / c else 0 := by
      intro j hj
      rw [ha j hj, (h j (by omega)).1, (h (j + 1) (by omega)).1, (h (j + 1) (by omega)).2 (by omega), if_neg (Nat.succ_ne_zero j), cross]
      by_cases h0 : j = 0
      · subst h0
        rw [if_pos rfl, if_pos rfl, if_pos (by simpa using hc), show L - (L + c) = -c by ring, zero_add, neg_div, div_neg]
      · rw [if_neg h0, if_neg (by simp), if_neg h0]
    refine ⟨ea, fun j hj => ⟨?_, fun h1 => by rw [ea j (by omega), if_neg (by omega)]⟩⟩
    rw [hs j (by omega), ea j (by omega), ea (j + 1) (by omega), (h (j + 1) (by omega)).1, if_neg (Nat.succ_ne_zero j), if_neg (Nat.succ_ne_zero j), cross]
    by_cases h0 : j = 0
    · subst h0
      rw [if_pos rfl, if_pos rfl, if_pos (by rw [ne_eq, eq_comm]; exact div_ne_zero (by norm_num) hc)]
      field_simp
      ring
    · rw [if_neg h0, if_neg (by simp), if_neg h0]
  simp only [mainLoop]
  rw [if_neg (by omega), if_neg (by omega)]
  have p1 : P 1 S A := fun j _ => ⟨by rw [← hS], fun _ => by rw [← hA]⟩
  have ha : ∀ j : ℕ, j + 2 * 1 ≤ N + 1 → auxRow (N + 2 - 2 * 1) S A j = cross (A (j + 1)) (S j) (S (j + 1)) := by
    intro j hj
    rw [auxRow_eq, if_pos (by omega)]
  generalize auxRow (N + 2 - 2 * 1) S A = a' at *
  have h1 := hP 1 S A a' (fun j => cross (S (j + 1)) (a' j) (a' (j + 1))) (le_refl _) p1 (by omega) ha (fun _ _ => rfl)
  obtain ⟨ea, ep⟩ := h1
  have sp := seqRow_spec 1 (N + 1 - 2 * 1) a' S (start N S)
  -- only the first turn keeps something
  have hb : (seqRow 1 (N + 1 - 2 * 1) a' S (start N S)).best = ⟨|1 / c|, L + c, 1, 1, |c|⟩ := by
    generalize seqRow 1 (N + 1 - 2 * 1) a' S (start N S) = st at *
    rcases sp.kept with ⟨g1, g2⟩ | ⟨j, hj, g1, g2⟩
    · have := sp.largest g2 0 (by omega)
      rw [ea 0 (by omega), g1, if_pos rfl] at this
      exact absurd this (not_le.mpr (abs_pos.mpr (div_ne_zero (by norm_num) hc)))
    · have j0 : j = 0 := by
        by_contra h0
        rw [ea j (by omega), if_neg h0] at g1
        simp [start] at g1
      subst j0
      have e0 : cross (S (0 + 1)) (a' 0) (a' (0 + 1)) = L + c := by
        have := (ep 0 (by omega)).1
        simpa using this
      have e1 : |a' 0| = |1 / c| := by
        rw [ea 0 (by omega), if_pos rfl, neg_div, abs_neg]
      rw [g2, e0, e1]
      congr 1
      rw [abs_div, abs_one, one_div_one_div]
  split
  · exact hb
  · rename_i hd
    have hd' : (seqRow 1 (N + 1 - 2 * 1) a' S (start N S)).done = false := by simpa using hd
    rw [mainLoop_quiet (M := |1 / c|) P ?_ N 2 _ a' _ (by omega) ?_ (by rw [hb]), hb]
    · intro k s a a'' s' hk h hkN ha hs
      obtain ⟨g1, g2⟩ := hP k s a a'' s' hk h hkN ha hs
      refine ⟨fun j hj => ?_, g2⟩
      rw [g1 j (by omega)]
      split
      · rw [neg_div, abs_neg]
      · rw [abs_zero]; exact abs_nonneg _
    · refine (hP 1 S A a' _ (le_refl _) p1 (by omega) ha ?_).2
      intro j hj
      rw [sp.row hd' j, if_pos (by omega)]

/-- One hundred sums equal to one after a first sum equal to zero: the guess is zero. -/
example : limes 100 (fun n => if n = 0 then (1 : ℚ) + (-1) else 1) = some ⟨|1 / (-1)|, 1 + (-1), 1, 1, |(-1)|⟩ :=
  reached_violated (by norm_num) 1 (by norm_num)

/-- What is kept, when the sums are multiplied by `α` and moved by `β`. -/
def Best.affine (α β : K) (b : Best K) : Best K := ⟨b.aMax / |α|, α * b.value + β, b.num, b.den, |α| * b.err⟩

theorem cross_aux {α : K} (hα : α ≠ 0) (β x y y' : K) : cross (x / α) (α * y + β) (α * y' + β) = cross x y y' / α := by
  unfold cross
  by_cases h : y' = y
  · subst h; simp
  · have h1 : α * y' + β ≠ α * y + β := fun e => h (mul_left_cancel₀ hα (add_right_cancel e))
    have h2 : y' - y ≠ 0 := sub_ne_zero.mpr h
    rw [if_pos h1, if_pos h, show α * y' + β - (α * y + β) = α * (y' - y) by ring]
    field_simp

theorem cross_seq {α : K} (hα : α ≠ 0) (β x y y' : K) : cross (α * x + β) (y / α) (y' / α) = α * cross x y y' + β := by
  unfold cross
  by_cases h : y' = y
  · subst h; simp
  · have h1 : y' / α ≠ y / α := fun e => h ((div_left_inj' hα).mp e)
    have h2 : y' - y ≠ 0 := sub_ne_zero.mpr h
    rw [if_pos h1, if_pos h, ← sub_div]
    field_simp
    ring

theorem seqStep_affine {α : K} (hα : α ≠ 0) (β : K) (k : ℕ) (a : ℕ → K) (st st' : RowState K) (i : ℕ)
    (h : (∀ j, st'.s j = α * st.s j + β) ∧ st'.best = st.best.affine α β ∧ st'.done = st.done) :
    (∀ j, (seqStep k (fun j => a j / α) st' i).s j = α * (seqStep k a st i).s j + β) ∧
      (seqStep k (fun j => a j / α) st' i).best = (seqStep k a st i).best.affine α β ∧
      (seqStep k (fun j => a j / α) st' i).done = (seqStep k a st i).done := by
  obtain ⟨h1, h2, h3⟩ := h
  unfold seqStep
  rw [h3]
  by_cases hd : st.done = true
  · rw [if_pos hd, if_pos hd]; exact ⟨h1, h2, h3⟩
  · rw [if_neg hd, if_neg hd]
    dsimp only
    have hα' : 0 < |α| := abs_pos.mpr hα
    have hs : ∀ j, setAt st'.s i (if a (i + 1) / α ≠ a i / α then st'.s (i + 1) + 1 / (a (i + 1) / α - a i / α) else st'.s (i + 1)) j =
        α * setAt st.s i (if a (i + 1) ≠ a i then st.s (i + 1) + 1 / (a (i + 1) - a i) else st.s (i + 1)) j + β := by
      intro j
      unfold setAt
      by_cases hj : j = i
      · rw [if_pos hj, if_pos hj, h1 (i + 1)]
        exact cross_seq hα β _ _ _
      · rw [if_neg hj, if_neg hj, h1 j]
    generalize setAt st'.s i (if a (i + 1) / α ≠ a i / α then st'.s (i + 1) + 1 / (a (i + 1) / α - a i / α) else st'.s (i + 1)) = t' at *
    generalize setAt st.s i (if a (i + 1) ≠ a i then st.s (i + 1) + 1 / (a (i + 1) - a i) else st.s (i + 1)) = t at *
    have hm : st'.best.aMax = st.best.aMax / |α| := by rw [h2]; rfl
    have hiff : |a i / α| > st'.best.aMax ↔ |a i| > st.best.aMax := by
      rw [hm, abs_div, gt_iff_lt, gt_iff_lt, div_lt_div_iff_of_pos_right hα']
    by_cases hb : |a i| > st.best.aMax
    · rw [if_pos hb, if_pos (hiff.mpr hb)]
      refine ⟨hs, ?_, ?_⟩
      · simp only [Best.affine, hs i, abs_div]
        congr 1
        rw [one_div_div]
        ring
      · have : t' (i + 1) = t' i ↔ t (i + 1) = t i := by
          rw [hs i, hs (i + 1)]
          constructor
          · intro e; exact mul_left_cancel₀ hα (add_right_cancel e)
          · intro e; rw [e]
        by_cases e : t (i + 1) = t i
        · simp only [if_pos e, if_pos (this.mpr e)]
        · simp only [if_neg e, if_neg (fun g => e (this.mp g))]
    · rw [if_neg hb, if_neg (fun g => hb (hiff.mp g))]
      exact ⟨hs, h2, rfl⟩

theorem seqRow_affine {α : K} (hα : α ≠ 0) (β : K) (k n : ℕ) (a s s' : ℕ → K) (b : Best K) (h : ∀ j, s' j = α * s j + β) :
    (∀ j, (seqRow k n (fun j => a j / α) s' (b.affine α β)).s j = α * (seqRow k n a s b).s j + β) ∧
      (seqRow k n (fun j => a j / α) s' (b.affine α β)).best = (seqRow k n a s b).best.affine α β ∧
      (seqRow k n (fun j => a j / α) s' (b.affine α β)).done = (seqRow k n a s b).done := by
  unfold seqRow
  induction n with
  | zero => exact ⟨h, rfl, rfl⟩
  | succ n ih =>
    simp only [List.range_succ, List.foldl_append, List.foldl_cons, List.foldl_nil]
    exact seqStep_affine hα β k a _ _ n ih

theorem mainLoop_affine {α : K} (hα : α ≠ 0) (β : K) (N f : ℕ) :
    ∀ (k : ℕ) (a s s' : ℕ → K) (b : Best K), (∀ j, s' j = α * s j + β) →
      mainLoop N f k s' (fun j => a j / α) (b.affine α β) = (mainLoop N f k s a b).affine α β := by
  induction f with
  | zero => intros; rfl
  | succ f ih =>
    intro k a s s' b h
    simp only [mainLoop]
    split
    · rfl
    · split
      · rfl
      · have e : auxRow (N + 2 - 2 * k) s' (fun j => a j / α) = fun j => auxRow (N + 2 - 2 * k) s a j / α := by
          funext j
          rw [auxRow_eq, auxRow_eq]
          split
          · rw [h j, h (j + 1)]; exact cross_aux hα β _ _ _
          · rfl
        rw [e]
        obtain ⟨h1, h2, h3⟩ := seqRow_affine hα β k (N + 1 - 2 * k) (auxRow (N + 2 - 2 * k) s a) s s' b h
        rw [h3, h2]
        split
        · rfl
        · exact ih _ _ _ _ _ h1

/-- **C124.** For every sequence: multiplying the sums by `α` and adding `β` does the same to the value found, the error is
multiplied by `|α|` and the degrees are the same. -/
theorem affine {α : K} (hα : α ≠ 0) (β : K) (N : ℕ) (s : ℕ → K) :
    limes N (fun n => α * s n + β) = (limes N s).map (Best.affine α β) := by
  unfold limes
  split
  · rfl
  · rw [Option.map_some]
    congr 1
    have hs : start N (fun n => α * s n + β) = (start N s).affine α β := by
      simp only [start, Best.affine, zero_div]
      congr 1
      rw [← abs_mul]
      congr 1
      ring
    rw [hs, ← mainLoop_affine hα β N (N + 1) 1 (fun _ => 0) s _ (start N s) (fun _ => rfl)]
    simp only [zero_div]

example : (limes 2 (fun n : ℕ => 3 * (n : ℚ) ^ 2 + 1)).map Best.num = (limes 2 (fun n : ℕ => (n : ℚ) ^ 2)).map Best.num := by
  rw [affine (by norm_num) 1 2 (fun n : ℕ => (n : ℚ) ^ 2), Option.map_map]
  rfl

/-- **C124.** Three sums: the value is the one of the formula of Aitken. -/
theorem three_sums (s : ℕ → K) (h1 : s 1 ≠ s 0) (h2 : s 2 ≠ s 1) (h : s 2 - s 1 ≠ s 1 - s 0) :
    ∃ b : Best K, limes 2 s = some b ∧ b.value = (s 0 * s 2 - s 1 ^ 2) / (s 0 + s 2 - 2 * s 1) ∧ b.err = |s 1 - s 0| := by
  have d1 : s 1 - s 0 ≠ 0 := sub_ne_zero.mpr h1
  have d2 : s 2 - s 1 ≠ 0 := sub_ne_zero.mpr h2
  have d3 : s 0 + s 2 - 2 * s 1 ≠ 0 := fun e => h (by linear_combination e)
  have e0 : auxRow 2 s (fun _ => 0) 0 = 1 / (s 1 - s 0) := by rw [auxRow_eq]; simp [cross, h1]
  have e1 : auxRow 2 s (fun _ => 0) 1 = 1 / (s 2 - s 1) := by rw [auxRow_eq]; simp [cross, h2]
  have hd : 1 / (s 2 - s 1) - 1 / (s 1 - s 0) = -(s 0 + s 2 - 2 * s 1) / ((s 2 - s 1) * (s 1 - s 0)) := by
    field_simp
    ring
  have hd0 : 1 / (s 2 - s 1) ≠ 1 / (s 1 - s 0) := by
    rw [ne_eq, ← sub_eq_zero, hd]
    exact div_ne_zero (neg_ne_zero.mpr d3) (mul_ne_zero d2 d1)
  have hv : cross (s 1) (1 / (s 1 - s 0)) (1 / (s 2 - s 1)) = (s 0 * s 2 - s 1 ^ 2) / (s 0 + s 2 - 2 * s 1) := by
    rw [cross, if_pos hd0, hd, one_div_div, eq_div_iff d3, div_neg, add_mul, neg_mul, div_mul_cancel₀ _ d3]
    ring
  have hp : 0 < |1 / (s 1 - s 0)| := abs_pos.mpr (one_div_ne_zero d1)
  have sp := seqRow_spec 1 1 (auxRow 2 s (fun _ => 0)) s (start 2 s)
  refine ⟨_, by rw [limes, if_neg (by omega)], ?_⟩
  have hloop : mainLoop 2 (2 + 1) 1 s (fun _ => 0) (start 2 s) = (seqRow 1 1 (auxRow 2 s (fun _ => 0)) s (start 2 s)).best := by
    simp [mainLoop]
  rw [hloop]
  rcases sp.kept with ⟨g1, g2⟩ | ⟨j, hj, _, g2⟩
  · have := sp.largest g2 0 (by omega)
    rw [e0, g1] at this
    exact absurd this (not_le.mpr hp)
  · have : j = 0 := by omega
    subst this
    rw [g2]
    refine ⟨?_, ?_⟩
    · show cross (s 1) (auxRow 2 s (fun _ => 0) 0) (auxRow 2 s (fun _ => 0) 1) = _
      rw [e0, e1, hv]
    · show 1 / |auxRow 2 s (fun _ => 0) 0| = _
      rw [e0, abs_div, abs_one, one_div_one_div]

example : ∃ b : Best ℚ, limes 2 (fun n : ℕ => (n : ℚ) ^ 2) = some b ∧ b.value = -1 / 2 := by
  obtain ⟨b, h1, h2, _⟩ := three_sums (fun n : ℕ => (n : ℚ) ^ 2) (by norm_num) (by norm_num) (by norm_num)
  exact ⟨b, h1, by rw [h2]; norm_num⟩

omit [IsStrictOrderedRing K] in
/-- **C124.** Fewer than three sums stop the program. -/
theorem too_few {N : ℕ} (s : ℕ → K) : limes N s = none ↔ N < 2 := by
  unfold limes
  split <;> simp_all

/-- **C124.** The number of turns allowed in the model plays no role. -/
theorem turns {N : ℕ} (hN : 2 ≤ N) (s : ℕ → K) (f : ℕ) (hf : N + 1 ≤ f) :
    limes N s = some (mainLoop N f 1 s (fun _ => 0) (start N s)) := by
  rw [limes, if_neg (by omega), mainLoop_fuel N (N + 1) f 1 s _ _ (by omega) (by omega)]

example : limes 3 (fun n => (n : ℚ)) = some (mainLoop 3 100 1 (fun n => (n : ℚ)) (fun _ => 0) (start 3 (fun n => (n : ℚ)))) :=
  turns (by norm_num) _ 100 (by norm_num)

end Verif.Green.Limes
