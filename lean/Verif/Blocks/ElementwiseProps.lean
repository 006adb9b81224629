import Mathlib.Tactic.SplitIfs
import Verif.Blocks.SolveModel

/-!
# Elementwise operations and cutting (C19, C20)
-/

namespace Verif.Blocks

open Finset

variable {R : Type}

/-! ## Matrices of the same structure -/

/-- Same classes and same sizes at every level of nesting. -/
def HMat.Same : HMat R → HMat R → Prop
  | .dense h w _, .dense h' w' _ => h = h' ∧ w = w'
  | .gen hs ws b, .gen hs' ws' b' => hs = hs' ∧ ws = ws' ∧
      ∀ i j, i < hs.length → j < ws.length → (b i j).Same (b' i j)
  | .str k p q s b, .str k' p' q' s' b' => k = k' ∧ p = p' ∧ q = q' ∧ s = s' ∧
      ∀ i, i < s → (b i).Same (b' i)
  | _, _ => False

theorem HMat.Same.refl (A : HMat R) : A.Same A := by
  induction A with
  | dense h w a => exact ⟨rfl, rfl⟩
  | gen hs ws b ih => exact ⟨rfl, rfl, fun i j _ _ => ih i j⟩
  | str k p q s b ih => exact ⟨rfl, rfl, rfl, rfl, fun i _ => ih i⟩

theorem HMat.Same.symm {A B : HMat R} (h : A.Same B) : B.Same A := by
  induction A generalizing B with
  | dense h w a =>
    cases B with
    | dense h' w' a' => exact ⟨h.1.symm, h.2.symm⟩
    | _ => exact h.elim
  | gen hs ws b ih =>
    cases B with
    | gen hs' ws' b' =>
      obtain ⟨rfl, rfl, h3⟩ := h
      exact ⟨rfl, rfl, fun i j hi hj => ih i j (h3 i j hi hj)⟩
    | _ => exact h.elim
  | str k p q s b ih =>
    cases B with
    | str k' p' q' s' b' =>
      obtain ⟨rfl, rfl, rfl, rfl, h3⟩ := h
      exact ⟨rfl, rfl, rfl, rfl, fun i hi => ih i (h3 i hi)⟩
    | _ => exact h.elim

theorem HMat.Same.trans {A B C : HMat R} (h : A.Same B) (g : B.Same C) : A.Same C := by
  induction A generalizing B C with
  | dense h w a =>
    cases B with
    | dense h' w' a' =>
      cases C with
      | dense h'' w'' a'' => exact ⟨h.1.trans g.1, h.2.trans g.2⟩
      | _ => exact g.elim
    | _ => exact h.elim
  | gen hs ws b ih =>
    cases B with
    | gen hs' ws' b' =>
      cases C with
      | gen hs'' ws'' b'' =>
        obtain ⟨rfl, rfl, h3⟩ := h
        obtain ⟨rfl, rfl, g3⟩ := g
        exact ⟨rfl, rfl, fun i j hi hj => ih i j (h3 i j hi hj) (g3 i j hi hj)⟩
      | _ => exact g.elim
    | _ => exact h.elim
  | str k p q s b ih =>
    cases B with
    | str k' p' q' s' b' =>
      cases C with
      | str k'' p'' q'' s'' b'' =>
        obtain ⟨rfl, rfl, rfl, rfl, h3⟩ := h
        obtain ⟨rfl, rfl, rfl, rfl, g3⟩ := g
        exact ⟨rfl, rfl, rfl, rfl, fun i hi => ih i (h3 i hi) (g3 i hi)⟩
      | _ => exact g.elim
    | _ => exact h.elim

theorem HMat.Same.shape {A B : HMat R} (h : A.Same B) : A.shape = B.shape := by
  cases A <;> cases B <;> first
    | exact h.elim
    | (obtain ⟨rfl, rfl, rfl, rfl, _⟩ := h; rfl)
    | (obtain ⟨rfl, rfl, _⟩ := h; rfl)
    | (obtain ⟨rfl, rfl⟩ := h; rfl)

theorem HMat.Same.wf {A B : HMat R} (h : A.Same B) (hA : A.WF) : B.WF := by
  induction A generalizing B with
  | dense h w a =>
    cases B with
    | dense h' w' a' => trivial
    | _ => exact h.elim
  | gen hs ws b ih =>
    cases B with
    | gen hs' ws' b' =>
      obtain ⟨rfl, rfl, h3⟩ := h
      intro i j hi hj
      exact ⟨ih i j (h3 i j hi hj) (hA i j hi hj).1, (h3 i j hi hj).shape ▸ (hA i j hi hj).2⟩
    | _ => exact h.elim
  | str k p q s b ih =>
    cases B with
    | str k' p' q' s' b' =>
      obtain ⟨rfl, rfl, rfl, rfl, h3⟩ := h
      exact ⟨hA.1, fun i hi => ⟨ih i (h3 i hi) (hA.2 i hi).1, (h3 i hi).shape ▸ (hA.2 i hi).2⟩⟩
    | _ => exact h.elim

theorem isInstance_self (k : Kind) : isInstance k k = true := by cases k <;> rfl

/-- Number of the stored block read for an entry inside a structured matrix. -/
theorem str_index_lt {k : Kind} {p q s : ℕ} {b : ℕ → HMat R} (hM : (HMat.str k p q s b).WF) {r c : ℕ}
    (hr : r < (HMat.str k p q s b).shape.1) (hc : c < (HMat.str k p q s b).shape.2) :
    specBlock k ((nbBlocks k s).getD 0) (r / p) (c / q) < s ∧ r % p < p ∧ c % q < q := by
  obtain ⟨⟨n, hn, hs⟩, _⟩ := hM
  have hnb : (nbBlocks k s).getD 0 = n := by
    rw [hs, (block_positions k n hn).1]; rfl
  simp only [HMat.shape, hnb] at hr hc
  have hp : 0 < p := Nat.pos_of_ne_zero (by rintro rfl; omega)
  have hq : 0 < q := Nat.pos_of_ne_zero (by rintro rfl; omega)
  refine ⟨?_, Nat.mod_lt _ hp, Nat.mod_lt _ hq⟩
  rw [hnb, hs]
  apply specBlock_lt k n _ _ hn
  · rwa [Nat.div_lt_iff_lt_mul hp, Nat.mul_comm]
  · rwa [Nat.div_lt_iff_lt_mul hq, Nat.mul_comm]

/-- **C19, equal classes.** Adding, subtracting, multiplying or dividing entry by entry two matrices
with the same structure succeeds, and the result is a consistent matrix with the same structure, each
entry of which is the operation on the entries. -/
theorem elementwise_same (op : R → R → R) (A B : HMat R) (hA : A.WF) (hAB : A.Same B) :
    ∃ C, A.binop op B = some C ∧ C.WF ∧ C.Same A ∧
      ∀ r c, r < A.shape.1 → c < A.shape.2 → C.entry r c = op (A.entry r c) (B.entry r c) := by
  suffices h : ∃ C, A.binop op B = some C ∧ C.Same A ∧
      ∀ r c, r < A.shape.1 → c < A.shape.2 → C.entry r c = op (A.entry r c) (B.entry r c) by
    obtain ⟨C, h1, h2, h3⟩ := h
    exact ⟨C, h1, h2.symm.wf hA, h2, h3⟩
  induction A generalizing B with
  | dense h w a =>
    cases B with
    | dense h' w' a' =>
      obtain ⟨rfl, rfl⟩ := hAB
      refine ⟨.dense h w fun r c => op (a r c) (a' r c), ?_, ⟨rfl, rfl⟩, fun _ _ _ _ => rfl⟩
      simp [HMat.binop]
    | _ => exact hAB.elim
  | gen hs ws b ih =>
    cases B with
    | gen hs' ws' b' =>
      obtain ⟨rfl, rfl, h3⟩ := hAB
      have key : ∀ i j, i < hs.length → j < ws.length → ∃ C, (b i j).binop op (b' i j) = some C ∧
          C.Same (b i j) ∧ ∀ r c, r < hs.getD i 0 → c < ws.getD j 0 →
            C.entry r c = op ((b i j).entry r c) ((b' i j).entry r c) := by
        intro i j hi hj
        obtain ⟨C, c1, c2, c3⟩ := ih i j (b' i j) (hA i j hi hj).1 (h3 i j hi hj)
        rw [(hA i j hi hj).2] at c3
        exact ⟨C, c1, c2, c3⟩
      refine ⟨.gen hs ws fun i j => ((b i j).binop op (b' i j)).getD (b i j), ?_, ?_, ?_⟩
      · rw [HMat.binop, if_pos]
        refine ⟨rfl, rfl, ?_⟩
        simp only [List.all_eq_true, List.mem_range]
        intro i hi j hj
        obtain ⟨C, hC, _⟩ := key i j hi hj
        rw [hC]; rfl
      · refine ⟨rfl, rfl, fun i j hi hj => ?_⟩
        obtain ⟨C, hC, hS, _⟩ := key i j hi hj
        simpa only [hC, Option.getD_some] using hS
      · intro r c hr hc
        obtain ⟨l1, l2, l3⟩ := locate_spec hs r hr
        obtain ⟨m1, m2, m3⟩ := locate_spec ws c hc
        obtain ⟨C, hC, _, hE⟩ := key _ _ l1 m1
        simp only [HMat.entry, hC, Option.getD_some]
        exact hE _ _ l3 m3
    | _ => exact hAB.elim
  | str k p q s b ih =>
    cases B with
    | str k' p' q' s' b' =>
      obtain ⟨rfl, rfl, rfl, rfl, h3⟩ := hAB
      have key : ∀ i, i < s → ∃ C, (b i).binop op (b' i) = some C ∧
          C.Same (b i) ∧ ∀ r c, r < p → c < q →
            C.entry r c = op ((b i).entry r c) ((b' i).entry r c) := by
        intro i hi
        obtain ⟨C, c1, c2, c3⟩ := ih i (b' i) (hA.2 i hi).1 (h3 i hi)
        rw [(hA.2 i hi).2] at c3
        exact ⟨C, c1, c2, c3⟩
      refine ⟨.str k p q s fun i => ((b i).binop op (b' i)).getD (b i), ?_, ?_, ?_⟩
      · rw [HMat.binop, if_pos, Nat.min_self]
        refine ⟨isInstance_self k, rfl, ?_⟩
        simp only [List.all_eq_true, List.mem_range, Nat.min_self]
        intro i hi
        obtain ⟨C, hC, _⟩ := key i hi
        rw [hC]; rfl
      · refine ⟨rfl, rfl, rfl, rfl, fun i hi => ?_⟩
        obtain ⟨C, hC, hS, _⟩ := key i hi
        simpa only [hC, Option.getD_some] using hS
      · intro r c hr hc
        obtain ⟨i1, i2, i3⟩ := str_index_lt hA hr hc
        obtain ⟨C, hC, _, hE⟩ := key _ i1
        simp only [HMat.entry, hC, Option.getD_some]
        exact hE _ _ i2 i3
    | _ => exact hAB.elim

/-- A symmetric Toeplitz matrix of two circulant blocks, and another one of the same structure. -/
def sampleMatrix (x : ℚ) : HMat ℚ :=
  .str .symToeplitz 3 3 2 fun i => .str .circulant 1 1 3 fun j => .dense 1 1 fun _ _ => x + 10 * i + j

theorem sampleMatrix_wf (x : ℚ) : (sampleMatrix x).WF :=
  ⟨⟨2, by simp [Admissible], rfl⟩, fun _ _ => ⟨⟨⟨3, by simp [Admissible], rfl⟩, fun _ _ => ⟨trivial, rfl⟩⟩, rfl⟩⟩

example : (sampleMatrix 1).WF ∧ (sampleMatrix 1).Same (sampleMatrix 5) :=
  ⟨sampleMatrix_wf 1, rfl, rfl, rfl, rfl, fun _ _ => ⟨rfl, rfl, rfl, rfl, fun _ _ => ⟨rfl, rfl⟩⟩⟩

/-- **C19, scalars.** Operations with a number keep the structure and act on each entry. -/
theorem scalar_operation (op : R → R) (A : HMat R) (hA : A.WF) :
    (A.unop op).WF ∧ (A.unop op).Same A ∧ ∀ r c, (A.unop op).entry r c = op (A.entry r c) := by
  have h : (A.unop op).Same A := by
    induction A with
    | dense h w a => exact ⟨rfl, rfl⟩
    | gen hs ws b ih => exact ⟨rfl, rfl, fun i j hi hj => ih i j (hA i j hi hj).1⟩
    | str k p q s b ih => exact ⟨rfl, rfl, rfl, rfl, fun i hi => ih i (hA.2 i hi).1⟩
  refine ⟨h.symm.wf hA, h, ?_⟩
  clear h hA
  induction A with
  | dense h w a => intro r c; rfl
  | gen hs ws b ih => intro r c; exact ih _ _ _ _
  | str k p q s b ih => intro r c; exact ih _ _ _

example : ((sampleMatrix 1).unop (fun x => 3 * x)).entry 0 1 = 6 := by
  norm_num [sampleMatrix, HMat.unop, HMat.entry, nbBlocks, specBlock, Nat.dist]

/-- **C19 is violated** for different classes: the sum of a block Toeplitz matrix and of a block
circulant matrix with the same shape is a matrix of a smaller shape. -/
theorem elementwise_mixed_violated :
    ∃ A B C : HMat ℚ, A.WF ∧ B.WF ∧ A.shape = B.shape ∧ A.binop (· + ·) B = some C ∧
      C.shape ≠ A.shape := by
  refine ⟨.str .toeplitz 1 1 5 fun i => .dense 1 1 fun _ _ => i,
    .str .circulant 1 1 3 fun i => .dense 1 1 fun _ _ => i,
    .str .toeplitz 1 1 3 fun i => .dense 1 1 fun _ _ => i + i, ?_, ?_, rfl, ?_, ?_⟩
  · exact ⟨⟨3, by simp [Admissible], rfl⟩, fun _ _ => ⟨trivial, rfl⟩⟩
  · exact ⟨⟨3, by simp [Admissible], rfl⟩, fun _ _ => ⟨trivial, rfl⟩⟩
  · rw [HMat.binop, if_pos]
    · simp [HMat.binop]
    refine ⟨rfl, rfl, ?_⟩
    simp [HMat.binop]
  · decide

/-- **C19 is violated** also inside the family of circulant matrices: a circulant matrix plus an even
symmetric circulant one, both of four blocks per line, has only three blocks per line. -/
theorem elementwise_circulant_violated :
    ∃ A B C : HMat ℚ, A.WF ∧ B.WF ∧ A.shape = B.shape ∧ A.binop (· + ·) B = some C ∧
      C.shape = (3, 3) ∧ A.shape = (4, 4) := by
  refine ⟨.str .circulant 1 1 4 fun i => .dense 1 1 fun _ _ => i,
    .str .evenSymCirculant 1 1 3 fun i => .dense 1 1 fun _ _ => i,
    .str .circulant 1 1 3 fun i => .dense 1 1 fun _ _ => i + i, ?_, ?_, rfl, ?_, rfl, rfl⟩
  · exact ⟨⟨4, by simp [Admissible], rfl⟩, fun _ _ => ⟨trivial, rfl⟩⟩
  · exact ⟨⟨4, by simp [Admissible], rfl⟩, fun _ _ => ⟨trivial, rfl⟩⟩
  · rw [HMat.binop, if_pos]
    · simp [HMat.binop]
    refine ⟨rfl, rfl, ?_⟩
    simp [HMat.binop]

/-- **C19**: matrices of two structured classes are only combined when the pattern of the second class
is a particular case of the pattern of the first one: places that share a stored block in the first
matrix also share one in the second matrix. Otherwise the operation is refused. -/
theorem elementwise_classes (op : R → R → R) (k k' : Kind) (p q s p' q' s' : ℕ) (b b' : ℕ → HMat R)
    (C : HMat R) (h : (HMat.str k p q s b).binop op (.str k' p' q' s' b') = some C)
    (n i j i2 j2 : ℕ) (hi : i < n) (hj : j < n) (hi2 : i2 < n) (hj2 : j2 < n)
    (hsame : specBlock k n i j = specBlock k n i2 j2) :
    specBlock k' n i j = specBlock k' n i2 j2 := by
  have hk : isInstance k k' = true := by
    rw [HMat.binop] at h
    split at h
    · rename_i hc; exact hc.1
    · cases h
  clear h
  cases k <;> cases k' <;> first
    | (exfalso; simp only [isInstance] at hk; cases hk; done)
    | (simp only [specBlock, Nat.dist] at *
       try split_ifs at hsame ⊢
       all_goals omega)

/-- Concrete case: two places on one diagonal of a Toeplitz matrix and of a circulant matrix. -/
example : specBlock .toeplitz 4 1 0 = specBlock .toeplitz 4 3 2 ∧
    specBlock .circulant 4 1 0 = specBlock .circulant 4 3 2 := by decide

/-! ## Filled and identity matrices -/

/-- `full_like`: same structure, every entry is the value. -/
theorem full_like_entry (v : R) (A : HMat R) (hA : A.WF) :
    (A.fullLike v).Same A ∧ ∀ r c, (A.fullLike v).entry r c = v :=
  ⟨(scalar_operation _ A hA).2.1, (scalar_operation (fun _ => v) A hA).2.2⟩

/-- Matrices in which all blocks are square at each level: the lines and the columns are cut at the
same places. -/
def HMat.SquareBlocks : HMat R → Prop
  | .dense h w _ => h = w
  | .gen hs ws b => hs = ws ∧ ∀ i, i < hs.length → (b i i).SquareBlocks
  | .str _ p q _ b => p = q ∧ (b 0).SquareBlocks

theorem specBlock_eq_zero {k : Kind} {n i j : ℕ} (hn : Admissible k n) (hi : i < n) (hj : j < n) :
    specBlock k n i j = 0 ↔ i = j := by
  have := hn.1
  cases k <;> simp only [specBlock, Nat.dist] <;> (try split) <;> omega

/-- `identity_like`: same structure, and the entries of the identity matrix, when blocks are
square. -/
theorem identity_like_entry [Zero R] [One R] (A : HMat R) (hA : A.WF) (hs : A.SquareBlocks) :
    A.identityLike.Same A ∧ ∀ r c, r < A.shape.1 → c < A.shape.2 →
      A.identityLike.entry r c = if r = c then 1 else 0 := by
  induction A with
  | dense h w a => exact ⟨⟨rfl, rfl⟩, fun _ _ _ _ => rfl⟩
  | gen hs ws b ih =>
    obtain ⟨rfl, h2⟩ := hs
    refine ⟨⟨rfl, rfl, fun i j hi hj => ?_⟩, ?_⟩
    · by_cases e : i = j
      · subst e
        simpa using (ih i i (hA i i hi hj).1 (h2 i hi)).1
      · simpa [e] using (full_like_entry 0 (b i j) (hA i j hi hj).1).1
    · intro r c hr hc
      obtain ⟨l1, l2, l3⟩ := locate_spec hs r hr
      obtain ⟨m1, m2, m3⟩ := locate_spec hs c hc
      simp only [HMat.identityLike, HMat.entry]
      by_cases e : (locate hs r).1 = (locate hs c).1
      · rw [e] at l3 ⊢
        rw [if_pos rfl]
        have hwf := hA _ _ m1 m1
        rw [(ih _ _ hwf.1 (h2 _ m1)).2 _ _ (by rw [hwf.2]; exact l3) (by rw [hwf.2]; exact m3)]
        have : (locate hs r).2 = (locate hs c).2 ↔ r = c := by
          rw [e] at l2; omega
        simp only [this]
      · rw [if_neg e, (full_like_entry 0 _ (hA _ _ l1 m1).1).2, if_neg]
        rintro rfl
        exact e rfl
  | str k p q s b ih =>
    obtain ⟨rfl, h2⟩ := hs
    have h0 : 0 < s := by
      obtain ⟨⟨n, hn, rfl⟩, _⟩ := hA
      have := hn.1
      cases k <;> simp only [specStored] <;> omega
    refine ⟨⟨rfl, rfl, rfl, rfl, fun i hi => ?_⟩, ?_⟩
    · by_cases e : 0 = i
      · subst e
        simpa using (ih 0 (hA.2 0 hi).1 h2).1
      · simpa [e] using (full_like_entry 0 (b i) (hA.2 i hi).1).1
    · intro r c hr hc
      obtain ⟨i1, i2, i3⟩ := str_index_lt hA hr hc
      obtain ⟨⟨n, hn, hs⟩, hb⟩ := hA
      have hnb : (nbBlocks k s).getD 0 = n := by
        rw [hs, (block_positions k n hn).1]; rfl
      simp only [HMat.shape, hnb] at hr hc
      have hp : 0 < p := by omega
      have hr' : r / p < n := by rwa [Nat.div_lt_iff_lt_mul hp, Nat.mul_comm]
      have hc' : c / p < n := by rwa [Nat.div_lt_iff_lt_mul hp, Nat.mul_comm]
      simp only [HMat.identityLike, HMat.entry]
      by_cases e : r / p = c / p
      · have z := (specBlock_eq_zero hn hr' hc').2 e
        rw [hnb, z, if_pos rfl, (ih 0 (hb 0 h0).1 h2).2 _ _ (by rw [(hb 0 h0).2]; exact i2)
          (by rw [(hb 0 h0).2]; exact i3)]
        have : r % p = c % p ↔ r = c := by
          constructor
          · intro h; rw [← Nat.div_add_mod r p, ← Nat.div_add_mod c p, e, h]
          · rintro rfl; rfl
        simp only [this]
      · have z := (specBlock_eq_zero hn hr' hc').not.2 e
        rw [if_neg (Ne.symm (by rwa [hnb])), (full_like_entry 0 _ (hb _ i1).1).2, if_neg]
        rintro rfl
        exact e rfl

example : (sampleMatrix 1).SquareBlocks := ⟨rfl, rfl, rfl⟩

/-! ## Cutting -/

/-- **C20, partial.** Cutting a square array at the same places for lines and columns, then reading
the full matrix back, gives the same array. Missing: different cuts, see `cut_matrix_violated`. -/
theorem cut_matrix_full_partial (F F0 : Arr R) (xs : List ℕ) (r c : ℕ) (hr : r < xs.sum)
    (hc : c < xs.sum) :
    (cutMatrix F xs xs).WF ∧ (cutMatrix F xs xs).shape = (xs.sum, xs.sum) ∧
      (cutMatrix F xs xs).fullMatrix F0 r c = F r c := by
  have hwf : (cutMatrix F xs xs).WF := by
    intro i j hi hj
    refine ⟨trivial, ?_⟩
    simp [HMat.shape]
  refine ⟨hwf, by simp [cutMatrix, HMat.shape], ?_⟩
  rw [full_matrix_eq_entry _ hwf F0 r c (by simpa [cutMatrix, HMat.shape] using hr)
    (by simpa [cutMatrix, HMat.shape] using hc)]
  simp only [cutMatrix, HMat.entry, getSlice, List.take_length]
  rw [offset_locate xs r hr, offset_locate xs c hc]

example : (cutMatrix (fun r c => r + 10 * c) [1, 2] [1, 2]).entry 2 1 = 12 := by rfl

/-- A second case that works: only one column of blocks, as used by matrix products
(`block.py:345`). -/
theorem cut_matrix_one_column (F F0 : Arr R) (xs : List ℕ) (w r c : ℕ) (hr : r < xs.sum)
    (hc : c < w) : (cutMatrix F xs [w]).fullMatrix F0 r c = F r c := by
  have hx : 0 < xs.length := by
    cases xs with
    | nil => simp at hr
    | cons _ _ => simp
  have ht : [w].take xs.length = [w] := by
    rw [List.take_of_length_le]; exact hx
  have hwf : (cutMatrix F xs [w]).WF := by
    intro i j hi hj
    refine ⟨trivial, ?_⟩
    simp [HMat.shape, ht]
  rw [full_matrix_eq_entry _ hwf F0 r c (by simpa [cutMatrix, HMat.shape] using hr)
    (by simpa [cutMatrix, HMat.shape, ht] using hc)]
  simp only [cutMatrix, HMat.entry, getSlice, ht]
  rw [offset_locate xs r hr]
  have : locate [w] c = (0, c) := by rw [locate, if_pos hc]
  rw [this]
  simp [offset]

/-- **C20 is violated**: cutting a 3 × 3 array in lines of heights 1 and 2 and columns of widths 2
and 1, the last column block reads from the wrong place. -/
theorem cut_matrix_violated :
    let F : Arr ℕ := fun r c => 10 * r + c
    (cutMatrix F [1, 2] [2, 1]).WF ∧ (cutMatrix F [1, 2] [2, 1]).shape = (3, 3) ∧
      ∀ F0, (cutMatrix F [1, 2] [2, 1]).fullMatrix F0 0 2 = 1 ∧ F 0 2 = 2 := by
  intro F
  have hwf : (cutMatrix F [1, 2] [2, 1]).WF := by
    intro i j hi hj
    refine ⟨trivial, ?_⟩
    simp [HMat.shape]
  refine ⟨hwf, rfl, fun F0 => ⟨?_, rfl⟩⟩
  rw [full_matrix_eq_entry _ hwf F0 0 2 (by decide) (by decide)]
  rfl

end Verif.Blocks
