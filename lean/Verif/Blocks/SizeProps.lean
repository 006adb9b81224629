import Verif.Blocks.SizeModel
import Verif.Blocks.ProductProps
import Mathlib.Tactic.IntervalCases

/-!
# Which vectors the products accept (C129)

The product of a matrix by a vector should be refused when the vector does not have as many entries as the matrix has columns.
-/

namespace Verif.Blocks

/-- The generic matrices, which are not built from a symmetry. -/
def HMat.generic {R : Type} : HMat R → Prop
  | .gen _ _ _ => True
  | _ => False

/-- Every generic matrix has a line and a column of blocks, as the constructor needs (`block.py:53`). -/
def HMat.NonEmpty {R : Type} : HMat R → Prop
  | .dense _ _ _ => True
  | .gen hs ws b => 0 < hs.length ∧ 0 < ws.length ∧ ∀ i j, i < hs.length → j < ws.length → (b i j).NonEmpty
  | .str _ _ _ stored b => ∀ i, i < stored → (b i).NonEmpty

theorem offset_add_le (ws : List ℕ) (j : ℕ) (hj : j < ws.length) : offset ws j + ws.getD j 0 ≤ ws.sum := by
  unfold offset
  have h : (ws.take j).sum + (ws.drop j).sum = ws.sum := by rw [← List.sum_append, List.take_append_drop]
  have h2 : (ws.drop j).sum = ws.getD j 0 + (ws.drop (j + 1)).sum := by
    rw [List.drop_eq_getElem_cons hj, List.sum_cons]
    simp [List.getD, hj]
  omega

theorem sliceLen_full {ws : List ℕ} {n j : ℕ} (hn : ws.sum ≤ n) (hj : j < ws.length) :
    sliceLen n (offset ws j) (ws.getD j 0) = ws.getD j 0 := by
  have := offset_add_le ws j hj
  unfold sliceLen
  omega

theorem super_size (k : Kind) (stored n : ℕ) (hn : Admissible k n) (hs : stored = specStored k n) (h1 : k = .symToeplitz → 2 ≤ stored) :
    (nbBlocks k stored).getD 0 = n ∧ n ≤ (nbBlocks (superKind k) stored).getD 0 := by
  have hnb : (nbBlocks k stored).getD 0 = n := by rw [hs, (block_positions k n hn).1]; rfl
  obtain ⟨n', _, hnb', _, hle, _⟩ := super_spec k n hn fun h => by
    have := h1 h
    subst h
    rw [hs] at this
    exact this
  exact ⟨hnb, by rw [hs, hnb']; exact hle⟩

/-- **C129.** Which lengths are accepted. A structured matrix, like an array, accepts its number of columns only. A generic matrix
accepts all the longer vectors too. -/
theorem fits_iff {R : Type} (M : HMat R) (hM : M.WF) (hS : M.NoSingleSym) (hE : M.NonEmpty) (n : ℕ) :
    M.fits n ↔ n = M.shape.2 ∨ (M.generic ∧ M.shape.2 < n) := by
  induction M generalizing n with
  | dense h w a => simp [HMat.fits, HMat.shape, HMat.generic]
  | gen hs ws b ih =>
    simp only [HMat.fits, HMat.shape, HMat.generic, true_and]
    have hw : ∀ i j, i < hs.length → j < ws.length → (b i j).shape.2 = ws.getD j 0 := fun i j hi hj => by rw [(hM i j hi hj).2]
    constructor
    · intro h
      by_contra hc
      have hlt : n < ws.sum := by omega
      obtain ⟨l1, l2, l3⟩ := locate_spec ws n hlt
      have hb := h 0 hE.1 _ l1
      have hb := (ih 0 _ (hM 0 _ hE.1 l1).1 (hS 0 _ hE.1 l1) (hE.2.2 0 _ hE.1 l1) _).mp hb
      rw [hw 0 _ hE.1 l1] at hb
      have : sliceLen n (offset ws (locate ws n).1) (ws.getD (locate ws n).1 0) = (locate ws n).2 := by
        unfold sliceLen
        omega
      rw [this] at hb
      omega
    · intro h i hi j hj
      rw [sliceLen_full (by omega) hj]
      exact (ih i j (hM i j hi hj).1 (hS i j hi hj) (hE.2.2 i j hi hj) _).mpr (Or.inl (hw i j hi hj).symm)
  | str k p q stored b ih =>
    obtain ⟨⟨m, hm, hs⟩, hb⟩ := hM
    obtain ⟨e1, e2⟩ := super_size k stored m hm hs hS.1
    simp only [HMat.fits, HMat.shape, HMat.generic, false_and, or_false, e1]
    have hle : q * m ≤ q * (nbBlocks (superKind k) stored).getD 0 := Nat.mul_le_mul_left q e2
    rw [Nat.mul_comm ((nbBlocks (superKind k) stored).getD 0) q]
    constructor
    · rintro ⟨h, _⟩
      omega
    · intro h
      refine ⟨by omega, fun i hi => (ih i (hb i hi).1 (hS.2 i hi) (hE i hi) _).mpr (Or.inl ?_)⟩
      rw [(hb i hi).2]

/-- **C129.** The same for the products on the other side, with the number of lines. -/
theorem fitsR_iff {R : Type} (M : HMat R) (hM : M.WF) (hS : M.NoSingleSym) (hE : M.NonEmpty) (n : ℕ) :
    M.fitsR n ↔ n = M.shape.1 ∨ (M.generic ∧ M.shape.1 < n) := by
  induction M generalizing n with
  | dense h w a => simp [HMat.fitsR, HMat.shape, HMat.generic]
  | gen hs ws b ih =>
    simp only [HMat.fitsR, HMat.shape, HMat.generic, true_and]
    have hw : ∀ i j, i < hs.length → j < ws.length → (b i j).shape.1 = hs.getD i 0 := fun i j hi hj => by rw [(hM i j hi hj).2]
    constructor
    · intro h
      by_contra hc
      have hlt : n < hs.sum := by omega
      obtain ⟨l1, l2, l3⟩ := locate_spec hs n hlt
      have hb := h 0 hE.2.1 _ l1
      have hb := (ih _ 0 (hM _ 0 l1 hE.2.1).1 (hS _ 0 l1 hE.2.1) (hE.2.2 _ 0 l1 hE.2.1) _).mp hb
      rw [hw _ 0 l1 hE.2.1] at hb
      have : sliceLen n (offset hs (locate hs n).1) (hs.getD (locate hs n).1 0) = (locate hs n).2 := by
        unfold sliceLen
        omega
      rw [this] at hb
      omega
    · intro h j hj i hi
      rw [sliceLen_full (by omega) hi]
      exact (ih i j (hM i j hi hj).1 (hS i j hi hj) (hE.2.2 i j hi hj) _).mpr (Or.inl (hw i j hi hj).symm)
  | str k p q stored b ih =>
    obtain ⟨⟨m, hm, hs⟩, hb⟩ := hM
    obtain ⟨e1, e2⟩ := super_size k stored m hm hs hS.1
    simp only [HMat.fitsR, HMat.shape, HMat.generic, false_and, or_false, e1]
    have hle : p * m ≤ p * (nbBlocks (superKind k) stored).getD 0 := Nat.mul_le_mul_left p e2
    rw [Nat.mul_comm ((nbBlocks (superKind k) stored).getD 0) p]
    constructor
    · rintro ⟨h, _⟩
      omega
    · intro h
      refine ⟨by omega, fun i hi => (ih i (hb i hi).1 (hS.2 i hi) (hE i hi) _).mpr (Or.inl ?_)⟩
      rw [(hb i hi).2]

/-- **C129.** What a generic matrix does with a vector that is too long: it is accepted, and the entries that are too many have no
effect. -/
theorem longer_ignored (M : HMat ℂ) (hM : M.WF) (hS : M.NoSingleSym) (hE : M.NonEmpty) (hg : M.generic) (n : ℕ) (hn : M.shape.2 < n)
    (x y : ℕ → ℂ) (hxy : ∀ c, c < M.shape.2 → x c = y c) : M.fits n ∧ ∀ r, r < M.shape.1 → M.matvec x r = M.matvec y r := by
  refine ⟨(fits_iff M hM hS hE n).mpr (Or.inr ⟨hg, hn⟩), fun r hr => ?_⟩
  rw [matvec_eq_dense M hM hS x r hr, matvec_eq_dense M hM hS y r hr]
  exact Finset.sum_congr rfl fun c hc => by rw [hxy c (Finset.mem_range.mp hc)]

/-- **C129 does not hold.** Two matrices with the same entries, one cut in two blocks and the other circulant: a vector of three entries
is multiplied by the first one and refused by the second one. -/
theorem size_violated : ∃ M N : HMat ℂ, M.WF ∧ N.WF ∧ M.shape = (2, 2) ∧ N.shape = (2, 2) ∧
    (∀ r c, r < 2 → c < 2 → M.entry r c = N.entry r c) ∧ M.fits 3 ∧ ¬ N.fits 3 := by
  have hN : (HMat.str .circulant 1 1 2 fun k => .dense 1 1 fun _ _ => ((k : ℕ) : ℂ)).WF :=
    ⟨⟨2, by simp [Admissible], rfl⟩, fun i _ => ⟨trivial, rfl⟩⟩
  have hM : (HMat.gen [1, 1] [1, 1] fun i j => .dense 1 1 fun _ _ => if i = j then (0 : ℂ) else 1).WF := by
    intro i j hi hj
    refine ⟨trivial, ?_⟩
    simp only [List.length_cons, List.length_nil] at hi hj
    interval_cases i <;> interval_cases j <;> rfl
  refine ⟨_, _, hM, hN, rfl, rfl, ?_, ?_, ?_⟩
  · intro r c hr hc
    interval_cases r <;> interval_cases c <;> simp [HMat.entry, locate, nbBlocks, specBlock]
  · refine (fits_iff _ hM ?_ ?_ 3).mpr (Or.inr ⟨trivial, by simp [HMat.shape]⟩)
    · intro i j _ _; trivial
    · exact ⟨by simp, by simp, fun i j _ _ => trivial⟩
  · rw [fits_iff _ hN ⟨by simp, fun i _ => trivial⟩ (fun i _ => trivial)]
    simp [HMat.shape, HMat.generic, nbBlocks]

/-- The hypotheses are met by a symmetric Toeplitz matrix of circulant matrices, which accepts six entries only. -/
example : ∀ n, (HMat.str .symToeplitz 3 3 2 fun k => .str .circulant 1 1 3 fun l =>
    .dense 1 1 fun _ _ => (10 * k + l : ℂ)).fits n ↔ n = 6 := by
  intro n
  rw [fits_iff]
  · simp [HMat.shape, HMat.generic, nbBlocks]
  · exact ⟨⟨2, by simp [Admissible], rfl⟩, fun i _ => ⟨⟨⟨3, by simp [Admissible], rfl⟩, fun j _ => ⟨trivial, rfl⟩⟩, rfl⟩⟩
  · exact ⟨fun _ => by decide, fun i _ => ⟨by simp, fun j _ => trivial⟩⟩
  · exact fun i _ => fun j _ => trivial

end Verif.Blocks
