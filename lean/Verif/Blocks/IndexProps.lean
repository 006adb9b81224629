import Verif.Blocks.IndexModel
import Mathlib.Data.Nat.Dist

/-!
# C15: every block position is described by exactly one stored block
-/

namespace Verif.Blocks

theorem mem_diagonal (n fuel i j a b : Nat) :
    (a, b) ∈ diagonal n fuel i j ↔ i ≤ a ∧ a < i + fuel ∧ a < n ∧ b < n ∧ a + j = b + i := by
  induction fuel generalizing i j with
  | zero => simp [diagonal]; omega
  | succ fuel ih =>
    simp only [diagonal]
    split
    · simp only [List.mem_cons, Prod.mk.injEq, ih]; omega
    · simp only [List.not_mem_nil, false_iff]; omega

theorem mem_toeplitzIndices {n k : Nat} {l : List (Nat × Nat)} (h : toeplitzIndices n k = some l)
    (a b : Nat) :
    (a, b) ∈ l ↔ a < n ∧ b < n ∧
      ((k < n ∧ b = a + k) ∨ (n ≤ k ∧ a = b + (2 * n - 1 - k))) := by
  unfold toeplitzIndices at h
  split at h
  · cases h; rw [mem_diagonal]; omega
  · split at h
    · cases h; rw [mem_diagonal]; omega
    · cases h

theorem toeplitzIndices_isSome {n k : Nat} (h : k < 2 * n) : ∃ l, toeplitzIndices n k = some l := by
  unfold toeplitzIndices
  split
  · exact ⟨_, rfl⟩
  · rw [if_pos (by omega)]; exact ⟨_, rfl⟩

/-! ## Specification: which stored block is documented at position `(i, j)` -/

/-- Documented stored block at block position `(i, j)` of a matrix of `n × n` blocks:
Toeplitz matrices are constant along diagonals and store the first row then the first column
backwards; symmetric ones store the first row; circulant ones are periodic in `j - i`; symmetric
circulant ones depend on the distance on the circle. -/
def specBlock (c : Kind) (n i j : Nat) : Nat :=
  match c with
  | .toeplitz => if i ≤ j then j - i else 2 * n - 1 - (i - j)
  | .symToeplitz => Nat.dist i j
  | .circulant => if i ≤ j then j - i else n - (i - j)
  | .evenSymCirculant => min (Nat.dist i j) (n - Nat.dist i j)
  | .oddSymCirculant => min (Nat.dist i j) (n - Nat.dist i j)

/-- Number of stored blocks of a full matrix with `n` block rows (`n` even for the even class, odd
for the odd one). -/
def specStored (c : Kind) (n : Nat) : Nat :=
  match c with
  | .toeplitz => 2 * n - 1
  | .symToeplitz => n
  | .circulant => n
  | .evenSymCirculant => n / 2 + 1
  | .oddSymCirculant => (n + 1) / 2

/-- Admissible sizes. -/
def Admissible (c : Kind) (n : Nat) : Prop :=
  1 ≤ n ∧ (c = .evenSymCirculant → n % 2 = 0) ∧ (c = .oddSymCirculant → n % 2 = 1)

example : Admissible .toeplitz 5 ∧ Admissible .evenSymCirculant 6 ∧ Admissible .oddSymCirculant 7 := by
  simp [Admissible]

theorem blockIndices_isSome (c : Kind) (n k : Nat) (hn : Admissible c n) (hk : k < specStored c n) :
    ∃ l, blockIndices c n k = some l := by
  obtain ⟨h1, h2, h3⟩ := hn
  cases c <;> simp only [specStored] at hk
  · exact toeplitzIndices_isSome (by omega)
  · simp only [blockIndices]
    rw [if_neg (by omega)]
    split
    · exact toeplitzIndices_isSome (by omega)
    · obtain ⟨l, hl⟩ := toeplitzIndices_isSome (n := n) (k := k) (by omega)
      obtain ⟨l', hl'⟩ := toeplitzIndices_isSome (n := n) (k := 2 * n - k - 1) (by omega)
      rw [hl, hl']; exact ⟨_, rfl⟩
  · simp only [blockIndices]
    rw [if_neg (by omega)]
    split
    · exact toeplitzIndices_isSome (by omega)
    · obtain ⟨l, hl⟩ := toeplitzIndices_isSome (n := n) (k := k) (by omega)
      obtain ⟨l', hl'⟩ := toeplitzIndices_isSome (n := n) (k := n + k - 1) (by omega)
      rw [hl, hl']; exact ⟨_, rfl⟩
  all_goals
    simp only [blockIndices]
    simp only [reduceCtorEq, false_implies, true_implies] at h2 h3
    rw [if_neg (by omega)]
    split
    · exact toeplitzIndices_isSome (by omega)
    · obtain ⟨l, hl⟩ := toeplitzIndices_isSome (n := n) (k := k) (by omega)
      obtain ⟨l', hl'⟩ := toeplitzIndices_isSome (n := n) (k := n + k - 1) (by omega)
      obtain ⟨l2, hl2⟩ := toeplitzIndices_isSome (n := n) (k := n - k) (by omega)
      obtain ⟨l3, hl3⟩ := toeplitzIndices_isSome (n := n) (k := 2 * n - k - 1) (by omega)
      rw [hl, hl', hl2, hl3]; exact ⟨_, rfl⟩

theorem union_some {a b : Option (List (Nat × Nat))} {l : List (Nat × Nat)}
    (h : union a b = some l) : ∃ x y, a = some x ∧ b = some y ∧ l = x ++ y := by
  cases a <;> cases b <;> simp [union] at h
  exact ⟨_, _, rfl, rfl, h.symm⟩

/-- The positions listed for a stored block are exactly those where it is documented. -/
theorem mem_blockIndices (c : Kind) (n k : Nat) (hn : Admissible c n) (hk : k < specStored c n)
    (l : List (Nat × Nat)) (hl : blockIndices c n k = some l) (i j : Nat) :
    (i, j) ∈ l ↔ i < n ∧ j < n ∧ k = specBlock c n i j := by
  obtain ⟨h1, h2, h3⟩ := hn
  cases c <;> simp only [specStored] at hk <;> simp only [blockIndices] at hl <;>
    simp only [specBlock, Nat.dist]
  · rw [mem_toeplitzIndices hl]
    split <;> omega
  · rw [if_neg (by omega)] at hl
    split at hl
    · rw [mem_toeplitzIndices hl]; omega
    · obtain ⟨x, y, hx, hy, rfl⟩ := union_some hl
      rw [List.mem_append, mem_toeplitzIndices hx, mem_toeplitzIndices hy]
      omega
  · rw [if_neg (by omega)] at hl
    split at hl
    · rw [mem_toeplitzIndices hl]
      split <;> omega
    · obtain ⟨x, y, hx, hy, rfl⟩ := union_some hl
      rw [List.mem_append, mem_toeplitzIndices hx, mem_toeplitzIndices hy]
      split <;> omega
  all_goals
    simp only [reduceCtorEq, false_implies, true_implies] at h2 h3
    rw [if_neg (by omega)] at hl
    split at hl
    · rw [mem_toeplitzIndices hl]; omega
    · obtain ⟨x, y, hx, hy, rfl⟩ := union_some hl
      obtain ⟨x1, x2, hx1, hx2, rfl⟩ := union_some hx
      obtain ⟨y1, y2, hy1, hy2, rfl⟩ := union_some hy
      simp only [List.mem_append]
      rw [mem_toeplitzIndices hx1, mem_toeplitzIndices hx2, mem_toeplitzIndices hy1,
        mem_toeplitzIndices hy2]
      omega

/-- **C15.** For every class and every admissible size, the number of block rows deduced from the
storage is the right one, and each stored block is placed exactly at the documented positions. -/
theorem block_positions (c : Kind) (n : Nat) (hn : Admissible c n) :
    nbBlocks c (specStored c n) = some n ∧
    ∀ k, k < specStored c n → ∃ l, blockIndices c n k = some l ∧
      ∀ i j, (i, j) ∈ l ↔ i < n ∧ j < n ∧ k = specBlock c n i j := by
  refine ⟨?_, fun k hk => ?_⟩
  · obtain ⟨h1, h2, h3⟩ := hn
    cases c
    · have e : (2 * n - 1) % 2 = 1 := by omega
      have e' : (2 * n - 1 + 1) / 2 = n := by omega
      show (if (2 * n - 1) % 2 = 1 then some ((2 * n - 1 + 1) / 2) else none) = some n
      rw [if_pos e, e']
    · rfl
    · rfl
    · simp only [true_implies] at h2
      show some ((n / 2 + 1 - 1) * 2) = some n
      congr 1; omega
    · simp only [true_implies] at h3
      show some ((n + 1) / 2 * 2 - 1) = some n
      congr 1; omega
  · obtain ⟨l, hl⟩ := blockIndices_isSome c n k hn hk
    exact ⟨l, hl, mem_blockIndices c n k hn hk l hl⟩

theorem specBlock_lt (c : Kind) (n i j : Nat) (hn : Admissible c n) (hi : i < n) (hj : j < n) :
    specBlock c n i j < specStored c n := by
  obtain ⟨h1, h2, h3⟩ := hn
  cases c <;> simp only [specBlock, specStored, Nat.dist] <;>
    simp only [reduceCtorEq, false_implies, true_implies] at h2 h3
  · split <;> omega
  · omega
  · split <;> omega
  · omega
  · omega

/-- **C15, full matrix.** `all_blocks` has, at each position inside the matrix, the documented
stored block: no position is left empty and none is described twice. -/
theorem all_blocks_eq_spec (c : Kind) (n : Nat) (hn : Admissible c n) (i j : Nat) (hi : i < n)
    (hj : j < n) : allBlocks c (specStored c n) i j = some (some (specBlock c n i j)) := by
  have hb := (block_positions c n hn).1
  simp only [allBlocks, hb]
  have key : ∀ s, s ≤ specStored c n → allBlocksAux c n i j s =
      some (if specBlock c n i j < s then some (specBlock c n i j) else none) := by
    intro s
    induction s with
    | zero => intro _; simp [allBlocksAux]
    | succ s ih =>
      intro hs
      obtain ⟨l, hl, hm⟩ := (block_positions c n hn).2 s (by omega)
      simp only [allBlocksAux, ih (by omega), hl]
      congr 1
      by_cases he : s = specBlock c n i j
      · rw [if_pos ((hm i j).2 ⟨hi, hj, he⟩), if_pos (by omega), he]
      · rw [if_neg (fun h => he ((hm i j).1 h).2.2)]
        by_cases hlt : specBlock c n i j < s
        · rw [if_pos hlt, if_pos (by omega)]
        · rw [if_neg hlt, if_neg (by omega)]
  rw [key _ (Nat.le_refl _), if_pos (specBlock_lt c n i j hn hi hj)]

/-- **C15, exactly once**: each position belongs to the index set of one and only one stored
block. -/
theorem exactly_one_stored_block (c : Kind) (n : Nat) (hn : Admissible c n) (i j : Nat)
    (hi : i < n) (hj : j < n) :
    ∃ k, (k < specStored c n ∧ ∃ l, blockIndices c n k = some l ∧ (i, j) ∈ l) ∧
      ∀ k', (k' < specStored c n ∧ ∃ l, blockIndices c n k' = some l ∧ (i, j) ∈ l) → k' = k := by
  refine ⟨specBlock c n i j, ⟨specBlock_lt c n i j hn hi hj, ?_⟩, ?_⟩
  · obtain ⟨l, hl, hm⟩ := (block_positions c n hn).2 _ (specBlock_lt c n i j hn hi hj)
    exact ⟨l, hl, (hm i j).2 ⟨hi, hj, rfl⟩⟩
  · rintro k' ⟨hk, l, hl, hmem⟩
    exact ((mem_blockIndices c n k' hn hk l hl i j).1 hmem).2.2

/-- **C15, structure**: along diagonals all classes are constant, and all but the plain Toeplitz and
circulant ones are symmetric; circulant ones are periodic. -/
theorem spec_structure (c : Kind) (n i j : Nat) :
    specBlock c n (i + 1) (j + 1) = specBlock c n i j ∧
    (c ≠ .toeplitz → c ≠ .circulant → specBlock c n i j = specBlock c n j i) ∧
    (c = .circulant → i + 1 < n → specBlock c n i (n - 1) = specBlock c n (i + 1) 0) := by
  refine ⟨?_, ?_, ?_⟩
  · cases c <;> simp only [specBlock, Nat.dist]
    · split <;> split <;> omega
    · omega
    · split <;> split <;> omega
    · omega
    · omega
  · intro h1 h2
    cases c <;> simp_all [specBlock, Nat.dist_comm]
  · intro h hi
    subst h
    simp only [specBlock]
    rw [if_pos (by omega), if_neg (by omega)]
    omega

/-- A symmetric Toeplitz matrix with one block builds an even circulant super-matrix with no block
at all (`block_toeplitz.py:163-169, 272-275`): its number of block rows is 0, and the positions of
the stored block raise. Products of such a matrix with vectors therefore fail. -/
theorem one_block_super_matrix_empty :
    nbBlocks .symToeplitz 1 = some 1 ∧ nbBlocks .evenSymCirculant 1 = some 0 ∧
      blockIndices .evenSymCirculant 0 0 = none := by decide

/-- **C16, embedding.** The top left part of the circulant super-matrix of a Toeplitz matrix
(`block_toeplitz.py:109-116`: same stored blocks seen as a circulant matrix with `2n-1` rows) is
the Toeplitz matrix. -/
theorem toeplitz_embeds_in_circulant (n i j : Nat) :
    specStored .circulant (2 * n - 1) = specStored .toeplitz n ∧
    specBlock .circulant (2 * n - 1) i j = specBlock .toeplitz n i j := by
  refine ⟨rfl, ?_⟩
  simp only [specBlock]

/-- **C16, embedding.** Same for a symmetric Toeplitz matrix with at least two blocks, in the even
symmetric circulant matrix with `2(n-1)` rows (`block_toeplitz.py:162-169`). -/
theorem sym_toeplitz_embeds_in_circulant (n i j : Nat) (hn : 2 ≤ n) (hi : i < n) (hj : j < n) :
    specStored .evenSymCirculant (2 * (n - 1)) = specStored .symToeplitz n ∧
    specBlock .evenSymCirculant (2 * (n - 1)) i j = specBlock .symToeplitz n i j := by
  simp only [specStored, specBlock, Nat.dist]
  omega

end Verif.Blocks
