import Verif.Green.LimesModel
import Mathlib.Tactic.Ring
import Mathlib.Tactic.FieldSimp
import Mathlib.Tactic.Linarith

/-! # The two rows of the extrapolation in closed form -/

namespace Verif.Green.Limes

variable {K : Type*} [Field K] [LinearOrder K] [IsStrictOrderedRing K]

/-- The cross rule: the neighbour plus the inverse of the difference, or the neighbour when the difference vanishes. -/
def cross (x y y' : K) : K := if y' ≠ y then x + 1 / (y' - y) else x

theorem auxRow_eq (n : ℕ) (s a : ℕ → K) (j : ℕ) :
    auxRow n s a j = if j < n then cross (a (j + 1)) (s j) (s (j + 1)) else a j := by
  induction n generalizing j with
  | zero => simp [auxRow]
  | succ n ih =>
    have e : auxRow (n + 1) s a = auxStep s (auxRow n s a) n := by
      simp [auxRow, List.range_succ]
    rw [e]
    unfold auxStep setAt
    by_cases h : j = n
    · subst h
      have h1 := ih (j + 1)
      rw [if_neg (by omega)] at h1
      simp [cross, h1]
    · rw [if_neg h, ih j]
      by_cases h2 : j < n
      · rw [if_pos h2, if_pos (by omega)]
      · rw [if_neg h2, if_neg (by omega)]

/-- What is known of the loop on the row of the sums after `n` turns. -/
structure RowSpec (k n : ℕ) (a s : ℕ → K) (b : Best K) (st : RowState K) : Prop where
  row : st.done = false → ∀ j, st.s j = if j < n then cross (s (j + 1)) (a j) (a (j + 1)) else s j
  largest : st.done = false → ∀ j < n, |a j| ≤ st.best.aMax
  kept : (st.best = b ∧ st.done = false) ∨
    ∃ j < n, b.aMax < |a j| ∧ st.best = ⟨|a j|, cross (s (j + 1)) (a j) (a (j + 1)), j + k, k, 1 / |a j|⟩
  grows : b.aMax ≤ st.best.aMax

theorem seqRow_spec (k n : ℕ) (a s : ℕ → K) (b : Best K) : RowSpec k n a s b (seqRow k n a s b) := by
  induction n with
  | zero => exact ⟨fun _ j => by simp [seqRow], fun _ j hj => absurd hj (by omega), Or.inl ⟨rfl, rfl⟩, le_refl _⟩
  | succ n ih =>
    have e : seqRow k (n + 1) a s b = seqStep k a (seqRow k n a s b) n := by
      simp [seqRow, List.range_succ]
    rw [e]
    generalize hst : seqRow k n a s b = st at *
    unfold seqStep
    by_cases hd : st.done = true
    · rw [if_pos hd]
      refine ⟨fun h => by simp [hd] at h, fun h => by simp [hd] at h, ?_, ih.grows⟩
      rcases ih.kept with ⟨_, h⟩ | ⟨j, hj, h⟩
      · simp [hd] at h
      · exact Or.inr ⟨j, by omega, h⟩
    · have hd' : st.done = false := by simpa using hd
      have hrow := ih.row hd'
      have hn1 : st.s (n + 1) = s (n + 1) := by rw [hrow (n + 1), if_neg (by omega)]
      have hs : ∀ j, setAt st.s n (if a (n + 1) ≠ a n then st.s (n + 1) + 1 / (a (n + 1) - a n) else st.s (n + 1)) j =
          if j < n + 1 then cross (s (j + 1)) (a j) (a (j + 1)) else s j := by
        intro j
        unfold setAt
        by_cases h : j = n
        · subst h
          simp [cross, hn1]
        · rw [if_neg h, hrow j]
          by_cases h2 : j < n
          · rw [if_pos h2, if_pos (by omega)]
          · rw [if_neg h2, if_neg (by omega)]
      rw [if_neg hd]
      dsimp only
      have hv := hs n
      rw [if_pos (Nat.lt_succ_self n)] at hv
      by_cases hb : |a n| > st.best.aMax
      · rw [if_pos hb]
        refine ⟨fun _ => hs, fun _ j hj => ?_, Or.inr ⟨n, by omega, lt_of_le_of_lt ih.grows hb, ?_⟩, le_trans ih.grows hb.le⟩
        · by_cases h : j = n
          · subst h; exact le_refl _
          · exact le_trans (ih.largest hd' j (by omega)) hb.le
        · simp only [hv]
      · rw [if_neg hb]
        refine ⟨fun _ => hs, fun _ j hj => ?_, ?_, ih.grows⟩
        · by_cases h : j = n
          · subst h; exact not_lt.mp hb
          · exact ih.largest hd' j (by omega)
        · rcases ih.kept with ⟨h, _⟩ | ⟨j, hj, h⟩
          · exact Or.inl ⟨h, rfl⟩
          · exact Or.inr ⟨j, by omega, h⟩

/-- When no entry is larger than what is kept, nothing is kept and the row is the one of the cross rule. -/
theorem seqRow_quiet {k n : ℕ} {a s : ℕ → K} {b : Best K} (h : ∀ j < n, |a j| ≤ b.aMax) :
    (seqRow k n a s b).best = b ∧ (seqRow k n a s b).done = false ∧
      ∀ j, (seqRow k n a s b).s j = if j < n then cross (s (j + 1)) (a j) (a (j + 1)) else s j := by
  have sp := seqRow_spec k n a s b
  rcases sp.kept with ⟨h1, h2⟩ | ⟨j, hj, h1, _⟩
  · exact ⟨h1, h2, sp.row h2⟩
  · exact absurd h1 (not_lt.mpr (h j hj))

end Verif.Green.Limes
