import Verif.Blocks.MatmatModel
import Verif.Blocks.ProductProps
import Verif.Blocks.ElementwiseProps

/-!
# Proofs about products of two matrices, conversions and iterative solvers (C104)
-/

namespace Verif.Blocks

open Finset

/-! ## Places of the blocks -/

theorem placeOf_eq {k : Kind} {n s : ℕ} (hn : Admissible k n) (hs : s = specStored k n) {i j : ℕ}
    (hi : i < n) (hj : j < n) : placeOf k s i j = specBlock k n i j := by
  rw [placeOf, hs, all_blocks_eq_spec k n hn i j hi hj]; rfl

theorem locate_replicate (n p r : ℕ) (hr : r < n * p) :
    locate (List.replicate n p) r = (r / p, r % p) := by
  induction n generalizing r with
  | zero => omega
  | succ n ih =>
    have hp : 0 < p := Nat.pos_of_ne_zero (by rintro rfl; omega)
    rw [List.replicate_succ, locate]
    split
    · rename_i h
      rw [Nat.div_eq_of_lt h, Nat.mod_eq_of_lt h]
    · rename_i h
      rw [Nat.succ_mul] at hr
      rw [ih (r - p) (by omega)]
      have h1 : (r - p) / p + 1 = r / p := by
        exact (Nat.div_eq_sub_div hp (by omega : p ≤ r)).symm
      have h2 : (r - p) % p = r % p := by
        rw [Nat.mod_eq_sub_mod (by omega : r ≥ p)]
      rw [h1, h2]

/-- A structured matrix and the block matrix with all its blocks stand for the same matrix. -/
theorem spread {R : Type} {k : Kind} {p q s : ℕ} {b : ℕ → HMat R} (hM : (HMat.str k p q s b).WF) :
    (HMat.gen (HMat.str k p q s b).blockShapes.1 (HMat.str k p q s b).blockShapes.2
      (HMat.str k p q s b).blockAt).WF ∧
    (HMat.gen (HMat.str k p q s b).blockShapes.1 (HMat.str k p q s b).blockShapes.2
      (HMat.str k p q s b).blockAt).shape = (HMat.str k p q s b).shape ∧
    ∀ r c, r < (HMat.str k p q s b).shape.1 → c < (HMat.str k p q s b).shape.2 →
      (HMat.gen (HMat.str k p q s b).blockShapes.1 (HMat.str k p q s b).blockShapes.2
        (HMat.str k p q s b).blockAt).entry r c = (HMat.str k p q s b).entry r c := by
  obtain ⟨⟨n, hn, hs⟩, hb⟩ := hM
  have hnb : (nbBlocks k s).getD 0 = n := by rw [hs, (block_positions k n hn).1]; rfl
  refine ⟨?_, ?_, ?_⟩
  · intro i j hi hj
    simp only [HMat.blockShapes, hnb, List.length_replicate] at hi hj
    simp only [HMat.blockShapes, HMat.blockAt, hnb, placeOf_eq hn hs hi hj]
    have h := hb (specBlock k n i j) (by rw [hs]; exact specBlock_lt k n i j hn hi hj)
    refine ⟨h.1, ?_⟩
    rw [h.2]
    simp [hi, hj]
  · simp [HMat.blockShapes, HMat.shape, hnb, Nat.mul_comm]
  · intro r c hr hc
    simp only [HMat.shape, hnb] at hr hc
    have hp : 0 < p := Nat.pos_of_ne_zero (by rintro rfl; omega)
    have hq : 0 < q := Nat.pos_of_ne_zero (by rintro rfl; omega)
    have hi : r / p < n := by rwa [Nat.div_lt_iff_lt_mul hp, Nat.mul_comm]
    have hj : c / q < n := by rwa [Nat.div_lt_iff_lt_mul hq, Nat.mul_comm]
    simp only [HMat.blockShapes, HMat.blockAt, HMat.entry, hnb]
    rw [locate_replicate n p r (by rwa [Nat.mul_comm]), locate_replicate n q c (by rwa [Nat.mul_comm])]
    simp only [placeOf_eq hn hs hi hj]

/-! ## `no_toeplitz` -/

/-- **C104**: the conversion to a usual block matrix gives a consistent matrix with the same entries. -/
theorem no_toeplitz_same {R : Type} (M : HMat R) (hM : M.WF) :
    M.noToeplitz.WF ∧ M.noToeplitz.shape = M.shape ∧
      ∀ r c, r < M.shape.1 → c < M.shape.2 → M.noToeplitz.entry r c = M.entry r c := by
  induction M with
  | dense h w a => exact ⟨trivial, rfl, fun _ _ _ _ => rfl⟩
  | gen hs ws b ih =>
    refine ⟨?_, rfl, ?_⟩
    · intro i j hi hj
      obtain ⟨h1, h2, -⟩ := ih i j (hM i j hi hj).1
      exact ⟨h1, h2.trans (hM i j hi hj).2⟩
    · intro r c hr hc
      obtain ⟨a1, a2, a3⟩ := locate_spec hs r hr
      obtain ⟨b1, b2, b3⟩ := locate_spec ws c hc
      have hw := hM _ _ a1 b1
      exact (ih _ _ hw.1).2.2 _ _ (by rw [hw.2]; exact a3) (by rw [hw.2]; exact b3)
  | str k p q s b ih =>
    have hsp := spread hM
    obtain ⟨⟨n, hn, hs⟩, hb⟩ := hM
    have hnb : (nbBlocks k s).getD 0 = n := by rw [hs, (block_positions k n hn).1]; rfl
    have hplace : ∀ i j, i < n → j < n → placeOf k s i j < s := fun i j hi hj => by
      rw [placeOf_eq hn hs hi hj, hs]; exact specBlock_lt k n i j hn hi hj
    refine ⟨?_, hsp.2.1, ?_⟩
    · intro i j hi hj
      rw [hnb, List.length_replicate] at hi hj
      have hk := hplace i j hi hj
      obtain ⟨h1, h2, -⟩ := ih (placeOf k s i j) (hb _ hk).1
      refine ⟨h1, h2.trans ?_⟩
      rw [(hb _ hk).2, hnb]
      simp [hi, hj]
    · intro r c hr hc
      rw [← hsp.2.2 r c hr hc]
      have hr' := hr
      have hc' := hc
      rw [← hsp.2.1] at hr' hc'
      simp only [HMat.shape, HMat.blockShapes, hnb] at hr' hc'
      obtain ⟨a1, a2, a3⟩ := locate_spec _ r hr'
      obtain ⟨b1, b2, b3⟩ := locate_spec _ c hc'
      simp only [HMat.noToeplitz, HMat.entry, HMat.blockShapes, HMat.blockAt, hnb]
      rw [List.length_replicate] at a1 b1
      have hk := hplace _ _ a1 b1
      refine (ih _ (hb _ hk).1).2.2 _ _ ?_ ?_
      · rw [(hb _ hk).2]
        simpa [List.getD_eq_getElem?_getD, a1] using a3
      · rw [(hb _ hk).2]
        simpa [List.getD_eq_getElem?_getD, b1] using b3

/-- Nothing of the structure is left. -/
def HMat.Plain {R : Type} : HMat R → Prop
  | .dense .. => True
  | .gen hs ws b => ∀ i j, i < hs.length → j < ws.length → (b i j).Plain
  | .str .. => False

/-- **C104**: the conversion leaves no Toeplitz or circulant matrix at any level. -/
theorem no_toeplitz_plain {R : Type} (M : HMat R) : M.noToeplitz.Plain := by
  induction M with
  | dense h w a => trivial
  | gen hs ws b ih => exact fun i j _ _ => ih i j
  | str k p q s b ih => exact fun i j _ _ => ih _

/-! ## `all`, `any` and the storage -/

/-- Every stored block is somewhere in the matrix. -/
theorem stored_block_used {k : Kind} {n m : ℕ} (hn : Admissible k n) (hm : m < specStored k n) :
    ∃ i j, i < n ∧ j < n ∧ specBlock k n i j = m := by
  obtain ⟨h1, h2, h3⟩ := hn
  cases k <;> simp only [specStored] at hm
  · rcases Nat.lt_or_ge m n with h | h
    · exact ⟨0, m, by omega, h, by simp [specBlock]⟩
    · refine ⟨2 * n - 1 - m, 0, by omega, by omega, ?_⟩
      simp only [specBlock]
      rw [if_neg (by omega)]
      omega
  · exact ⟨0, m, by omega, hm, by simp [specBlock, Nat.dist]⟩
  · exact ⟨0, m, by omega, hm, by simp [specBlock]⟩
  · have := h2 rfl
    refine ⟨0, m, by omega, by omega, ?_⟩
    simp only [specBlock, Nat.dist]
    omega
  · have := h3 rfl
    refine ⟨0, m, by omega, by omega, ?_⟩
    simp only [specBlock, Nat.dist]
    omega

/-- The places of the entries of a stored block. -/
theorem str_entry_place {R : Type} {k : Kind} {p q s n : ℕ} {b : ℕ → HMat R} (hn : Admissible k n)
    (hs : s = specStored k n) {i j r c : ℕ} (hi : i < n) (hj : j < n) (hr : r < p) (hc : c < q) :
    i * p + r < (HMat.str k p q s b).shape.1 ∧ j * q + c < (HMat.str k p q s b).shape.2 ∧
      (HMat.str k p q s b).entry (i * p + r) (j * q + c) = (b (specBlock k n i j)).entry r c := by
  have hnb : (nbBlocks k s).getD 0 = n := by rw [hs, (block_positions k n hn).1]; rfl
  have l : ∀ {i p r : ℕ}, i < n → r < p → i * p + r < p * n := by
    intro i p r hi hr
    have := Nat.mul_le_mul_right p (Nat.succ_le_of_lt hi)
    rw [Nat.succ_mul, Nat.mul_comm n p] at this
    omega
  refine ⟨by simpa only [HMat.shape, hnb] using l hi hr, by simpa only [HMat.shape, hnb] using l hj hc, ?_⟩
  have d : ∀ {i p r : ℕ}, r < p → (i * p + r) / p = i ∧ (i * p + r) % p = r := by
    intro i p r hr
    rw [Nat.mul_comm, Nat.mul_add_div (by omega), Nat.div_eq_of_lt hr, Nat.mul_add_mod,
      Nat.mod_eq_of_lt hr]
    simp
  simp only [HMat.entry, hnb, (d hr).1, (d hr).2, (d hc).1, (d hc).2]

/-- A property of the stored blocks is a property of all the entries. -/
theorem stored_iff_entries (Q : Bool → Prop) (f : HMat Bool → Prop)
    (hd : ∀ h w a, f (.dense h w a) ↔ ∀ r c, r < h → c < w → Q (a r c))
    (hg : ∀ hs ws b, f (.gen hs ws b) ↔ ∀ i j, i < hs.length → j < ws.length → f (b i j))
    (hst : ∀ k p q s b, f (.str k p q s b) ↔ ∀ m < s, f (b m)) (M : HMat Bool) (hM : M.WF) :
    f M ↔ ∀ r c, r < M.shape.1 → c < M.shape.2 → Q (M.entry r c) := by
  induction M with
  | dense h w a => exact hd h w a
  | gen hs ws b ih =>
    rw [hg]
    constructor
    · intro h r c hr hc
      obtain ⟨a1, a2, a3⟩ := locate_spec hs r hr
      obtain ⟨b1, b2, b3⟩ := locate_spec ws c hc
      have hw := hM _ _ a1 b1
      exact ((ih _ _ hw.1).1 (h _ _ a1 b1)) _ _ (by rw [hw.2]; exact a3) (by rw [hw.2]; exact b3)
    · intro h i j hi hj
      have hw := hM i j hi hj
      refine (ih i j hw.1).2 fun r c hr hc => ?_
      rw [hw.2] at hr hc
      have := h (offset hs i + r) (offset ws j + c)
        (by have := offset_add_lt hs i hi; simp only [HMat.shape]; omega)
        (by have := offset_add_lt ws j hj; simp only [HMat.shape]; omega)
      simp only [HMat.entry] at this
      rwa [locate_offset hs i r hi hr, locate_offset ws j c hj hc] at this
  | str k p q s b ih =>
    rw [hst]
    have hM' := hM
    obtain ⟨⟨n, hn, hs⟩, hb⟩ := hM'
    constructor
    · intro h r c hr hc
      obtain ⟨h1, h2, h3⟩ := str_index_lt hM hr hc
      have hw := hb _ h1
      exact ((ih _ hw.1).1 (h _ h1)) _ _ (by rw [hw.2]; exact h2) (by rw [hw.2]; exact h3)
    · intro h m hm
      have hw := hb m hm
      refine (ih m hw.1).2 fun r c hr hc => ?_
      rw [hw.2] at hr hc
      obtain ⟨i, j, hi, hj, e⟩ := stored_block_used hn (hs ▸ hm)
      obtain ⟨a1, a2, a3⟩ := str_entry_place (b := b) hn hs hi hj hr hc
      have := h _ _ a1 a2
      rwa [a3, e] at this

/-- **C104**: `all` is about all the entries of the matrix, although only the stored blocks are read. -/
theorem all_iff (M : HMat Bool) (hM : M.WF) :
    M.all = true ↔ ∀ r c, r < M.shape.1 → c < M.shape.2 → M.entry r c = true := by
  refine stored_iff_entries (fun x => x = true) (fun M => M.all = true) ?_ ?_ ?_ M hM
  · intro h w a; simp only [HMat.all, List.all_eq_true, List.mem_range]
    exact ⟨fun k r c hr hc => k r hr c hc, fun k r hr c hc => k r c hr hc⟩
  · intro hs ws b; simp only [HMat.all, List.all_eq_true, List.mem_range]
    exact ⟨fun k r c hr hc => k r hr c hc, fun k r hr c hc => k r c hr hc⟩
  · intro k p q s b; simp only [HMat.all, List.all_eq_true, List.mem_range]

/-- **C104**: `any` is about all the entries of the matrix. -/
theorem any_iff (M : HMat Bool) (hM : M.WF) :
    M.any = true ↔ ∃ r c, r < M.shape.1 ∧ c < M.shape.2 ∧ M.entry r c = true := by
  have h := stored_iff_entries (fun x => x = false) (fun M => M.any = false) ?_ ?_ ?_ M hM
  · constructor
    · intro ha
      by_contra hc
      push Not at hc
      have := h.2 fun r c hr hcc => by simpa using hc r c hr hcc
      rw [this] at ha; cases ha
    · rintro ⟨r, c, hr, hc, e⟩
      by_contra ha
      have := h.1 (by simpa using ha) r c hr hc
      rw [this] at e; cases e
  · intro h w a; simp only [HMat.any, List.any_eq_false, List.mem_range, Bool.not_eq_true]
    exact ⟨fun k r c hr hc => k r hr c hc, fun k r hr c hc => k r c hr hc⟩
  · intro hs ws b; simp only [HMat.any, List.any_eq_false, List.mem_range, Bool.not_eq_true]
    exact ⟨fun k r c hr hc => k r hr c hc, fun k r hr c hc => k r c hr hc⟩
  · intro k p q s b; simp only [HMat.any, List.any_eq_false, List.mem_range, Bool.not_eq_true]

theorem sum_getD (l : List ℕ) : ∑ i ∈ range l.length, l.getD i 0 = l.sum := by
  induction l with
  | nil => simp
  | cons a l ih =>
    rw [List.length_cons, sum_range_succ', List.sum_cons, ← ih]
    simp [Nat.add_comm]

theorem specStored_le {k : Kind} {n : ℕ} (hn : Admissible k n) : specStored k n ≤ n * n := by
  obtain ⟨h1, h2, h3⟩ := hn
  have hsq : n ≤ n * n := Nat.le_mul_of_pos_left n h1
  have h2n : 2 * n - 1 ≤ n * n := by
    rcases Nat.lt_or_ge n 2 with h | h
    · have : n = 1 := by omega
      subst this; decide
    · have : 2 * n ≤ n * n := Nat.mul_le_mul_right n h
      omega
  cases k <;> simp only [specStored]
  · exact h2n
  · exact hsq
  · exact hsq
  · have := h2 rfl
    have : n / 2 + 1 ≤ n := by omega
    omega
  · have : (n + 1) / 2 ≤ n := by omega
    omega

/-- **C104**: no more numbers are stored than the matrix has entries, and as many for a matrix without
structure. -/
theorem stored_size_le {R : Type} (M : HMat R) (hM : M.WF) :
    M.storedSize ≤ M.shape.1 * M.shape.2 ∧ (M.Plain → M.storedSize = M.shape.1 * M.shape.2) := by
  induction M with
  | dense h w a => exact ⟨le_rfl, fun _ => rfl⟩
  | gen hs ws b ih =>
    have e : hs.sum * ws.sum =
        ∑ i ∈ range hs.length, ∑ j ∈ range ws.length, hs.getD i 0 * ws.getD j 0 := by
      rw [← sum_getD hs, ← sum_getD ws, Finset.sum_mul_sum]
    constructor
    · simp only [HMat.storedSize, HMat.shape]
      rw [e]
      refine sum_le_sum fun i hi => sum_le_sum fun j hj => ?_
      have hw := hM i j (mem_range.1 hi) (mem_range.1 hj)
      have := (ih i j hw.1).1
      rwa [hw.2] at this
    · intro hp
      simp only [HMat.storedSize, HMat.shape]
      rw [e]
      refine sum_congr rfl fun i hi => sum_congr rfl fun j hj => ?_
      have hw := hM i j (mem_range.1 hi) (mem_range.1 hj)
      have := (ih i j hw.1).2 (hp i j (mem_range.1 hi) (mem_range.1 hj))
      rwa [hw.2] at this
  | str k p q s b ih =>
    refine ⟨?_, fun h => h.elim⟩
    obtain ⟨⟨n, hn, hs⟩, hb⟩ := hM
    have hnb : (nbBlocks k s).getD 0 = n := by rw [hs, (block_positions k n hn).1]; rfl
    simp only [HMat.storedSize, HMat.shape, hnb]
    calc ∑ m ∈ range s, (b m).storedSize ≤ ∑ m ∈ range s, p * q :=
          sum_le_sum fun m hm => by
            have hw := hb m (mem_range.1 hm)
            have := (ih m hw.1).1
            rwa [hw.2] at this
      _ = s * (p * q) := by simp
      _ ≤ n * n * (p * q) := Nat.mul_le_mul_right _ (hs ▸ specStored_le hn)
      _ = p * n * (q * n) := by ring

/-! ## Products -/

/-- A block matrix, of any class. -/
def HMat.IsBlock {R : Type} : HMat R → Prop
  | .dense .. => False
  | _ => True

/-- The blocks of a block matrix are consistent and make up its entries. -/
theorem blocks_spec {R : Type} (M : HMat R) (hM : M.WF) (hB : M.IsBlock) :
    M.shape = (M.blockShapes.1.sum, M.blockShapes.2.sum) ∧
    (∀ i j, i < M.blockShapes.1.length → j < M.blockShapes.2.length →
      (M.blockAt i j).WF ∧ (M.blockAt i j).shape = (M.blockShapes.1.getD i 0, M.blockShapes.2.getD j 0)) ∧
    ∀ r c, r < M.shape.1 → c < M.shape.2 →
      M.entry r c = (M.blockAt (locate M.blockShapes.1 r).1 (locate M.blockShapes.2 c).1).entry
        (locate M.blockShapes.1 r).2 (locate M.blockShapes.2 c).2 := by
  cases M with
  | dense h w a => exact hB.elim
  | gen hs ws b => exact ⟨rfl, hM, fun _ _ _ _ => rfl⟩
  | str k p q s b =>
    obtain ⟨h1, h2, h3⟩ := spread hM
    exact ⟨h2.symm, h1, fun r c hr hc => (h3 r c hr hc).symm⟩

theorem matmul_block (F0 : Arr ℂ) (M X : HMat ℂ) (hB : M.IsBlock) :
    M.matmul F0 X = timesBlocks F0 M.blockShapes.1 M.blockShapes.2
      (fun i j X => (M.blockAt i j).matmul F0 X) M.matvec X := by
  cases M with
  | dense h w a => exact hB.elim
  | gen hs ws b => rfl
  | str k p q s b => rfl

theorem addAll_arrays (H W m : ℕ) (g : ℕ → Option Res) (Y : ℕ → Arr ℂ)
    (hg : ∀ j < m, ∃ h w X, g j = some (.array h w X) ∧ ∀ r c, r < H → c < W → X r c = Y j r c) :
    ∃ S, addAll ((List.range m).map g) = some S ∧
      ∀ r c, r < H → c < W → S r c = ∑ j ∈ range m, Y j r c := by
  induction m generalizing g Y with
  | zero => exact ⟨fun _ _ => 0, rfl, fun r c _ _ => by simp⟩
  | succ m ih =>
    obtain ⟨S, hS, hS'⟩ := ih (fun j => g (j + 1)) (fun j => Y (j + 1)) fun j hj => hg (j + 1) (by omega)
    obtain ⟨h, w, X, hX, hX'⟩ := hg 0 (by omega)
    refine ⟨fun r c => X r c + S r c, ?_, fun r c hr hc => ?_⟩
    · have e : (List.range (m + 1)).map g = g 0 :: (List.range m).map fun j => g (j + 1) := by
        rw [List.range_succ_eq_map, List.map_cons, List.map_map]; rfl
      simp only [e, addAll, hX, hS]
    · rw [sum_range_succ', ← hX' r c hr hc, ← hS' r c hr hc, add_comm]

/-- Something other than an array makes the sum fail. -/
theorem addAll_none (m : ℕ) (g : ℕ → Option Res) (j : ℕ) (hj : j < m)
    (hg : ∀ h w X, g j ≠ some (.array h w X)) : addAll ((List.range m).map g) = none := by
  induction m generalizing g j with
  | zero => omega
  | succ m ih =>
    have e : (List.range (m + 1)).map g = g 0 :: (List.range m).map fun j => g (j + 1) := by
      rw [List.range_succ_eq_map, List.map_cons, List.map_map]; rfl
    simp only [e, addAll]
    cases j with
    | zero =>
      split
      · rename_i h _; exact (hg _ _ _ h).elim
      · rfl
    | succ j =>
      rw [ih (fun j => g (j + 1)) j (by omega) hg]
      split
      · rename_i h; cases h
      · rfl

/-- Product by an array with several columns, from the products of the blocks. -/
theorem timesBlocks_array (F0 : Arr ℂ) (hs ws : List ℕ) (f : ℕ → ℕ → HMat ℂ → Option Res)
    (mv : (ℕ → ℂ) → ℕ → ℂ) (e : ℕ → ℕ → Arr ℂ) (w : ℕ) (hw : w ≠ 1) (a : Arr ℂ)
    (hf : ∀ i j, i < hs.length → j < ws.length → ∀ a' : Arr ℂ, ∃ h w' X,
      f i j (.dense (ws.getD j 0) w a') = some (.array h w' X) ∧
      ∀ r c, r < hs.getD i 0 → c < w → X r c = ∑ k ∈ range (ws.getD j 0), e i j r k * a' k c) :
    ∃ X, timesBlocks F0 hs ws f mv (.dense ws.sum w a) = some (.array hs.sum w X) ∧
      ∀ r c, r < hs.sum → c < w → X r c = ∑ k ∈ range ws.sum,
        e (locate hs r).1 (locate ws k).1 (locate hs r).2 (locate ws k).2 * a k c := by
  have hrow : ∀ i, i < hs.length → ∃ S,
      addAll ((List.range ws.length).map fun j =>
        f i j (.dense (ws.getD j 0) w fun r c => a (offset ws j + r) c)) = some S ∧
      ∀ r c, r < hs.getD i 0 → c < w → S r c = ∑ j ∈ range ws.length,
        ∑ k ∈ range (ws.getD j 0), e i j r k * a (offset ws j + k) c := fun i hi =>
    addAll_arrays _ _ _ _ _ fun j hj => hf i j hi hj _
  have hall : ((List.range hs.length).all fun i => (addAll ((List.range ws.length).map fun j =>
      f i j (.dense (ws.getD j 0) w fun r c => a (offset ws j + r) c))).isSome) = true := by
    rw [List.all_eq_true]
    intro i hi
    obtain ⟨S, hS, -⟩ := hrow i (List.mem_range.1 hi)
    rw [hS]; rfl
  refine ⟨_, by simp only [timesBlocks, if_neg hw, if_true, hall]; rfl, fun r c hr hc => ?_⟩
  rw [full_matrix_eq_entry]
  · obtain ⟨l1, l2, l3⟩ := locate_spec hs r hr
    simp only [HMat.entry, locate, if_pos hc]
    obtain ⟨S, hS, hS'⟩ := hrow _ l1
    rw [hS, Option.getD_some, hS' _ _ l3 hc,
      ← sum_locate ws fun j k => e (locate hs r).1 j (locate hs r).2 k * a (offset ws j + k) c]
    exact sum_congr rfl fun k hk => by rw [offset_locate ws k (mem_range.1 hk)]
  · intro i j hi hj
    have : j = 0 := by simpa using hj
    subst this
    exact ⟨trivial, rfl⟩
  · exact hr
  · simpa [HMat.shape] using hc

/-- **C104**: the product of a matrix, of any class and any depth, by an array with as many lines as the matrix
has columns and with several columns is the product of the full matrices. -/
theorem matmat_array (F0 : Arr ℂ) (M : HMat ℂ) (hM : M.WF) (w : ℕ) (hw : w ≠ 1) (a : Arr ℂ) :
    ∃ X, M.matmul F0 (.dense M.shape.2 w a) = some (.array M.shape.1 w X) ∧
      ∀ r c, r < M.shape.1 → c < w → X r c = ∑ k ∈ range M.shape.2, M.entry r k * a k c := by
  have key : ∀ M : HMat ℂ, M.WF → M.IsBlock →
      (∀ i j, i < M.blockShapes.1.length → j < M.blockShapes.2.length → ∀ a : Arr ℂ, ∃ X,
        (M.blockAt i j).matmul F0 (.dense (M.blockAt i j).shape.2 w a) =
          some (.array (M.blockAt i j).shape.1 w X) ∧
        ∀ r c, r < (M.blockAt i j).shape.1 → c < w →
          X r c = ∑ k ∈ range (M.blockAt i j).shape.2, (M.blockAt i j).entry r k * a k c) →
      ∀ a : Arr ℂ, ∃ X, M.matmul F0 (.dense M.shape.2 w a) = some (.array M.shape.1 w X) ∧
        ∀ r c, r < M.shape.1 → c < w → X r c = ∑ k ∈ range M.shape.2, M.entry r k * a k c := by
    intro M hM hB ih a
    obtain ⟨h1, h2, h3⟩ := blocks_spec M hM hB
    obtain ⟨X, hX, hX'⟩ := timesBlocks_array F0 M.blockShapes.1 M.blockShapes.2
      (fun i j X => (M.blockAt i j).matmul F0 X) M.matvec (fun i j => (M.blockAt i j).entry) w hw a
      fun i j hi hj a' => by
        obtain ⟨X, hX, hX'⟩ := ih i j hi hj a'
        rw [(h2 i j hi hj).2] at hX hX'
        exact ⟨_, _, X, hX, hX'⟩
    refine ⟨X, by rw [matmul_block F0 M _ hB, h1, hX], fun r c hr hc => ?_⟩
    rw [hX' r c (by rw [h1] at hr; exact hr) hc, h1]
    exact sum_congr rfl fun k hk => by
      rw [h3 r k hr (by rw [h1]; exact mem_range.1 hk)]
  induction M generalizing a with
  | dense h w' a' => exact ⟨_, by simp only [HMat.matmul, HMat.shape, if_true]; rfl, fun r c _ _ => rfl⟩
  | gen hs ws b ih => exact key _ hM trivial (fun i j hi hj a => ih i j (hM i j hi hj).1 a) a
  | str k p q s b ih =>
    refine key _ hM trivial (fun i j hi hj a => ih _ ?_ a) a
    exact ((blocks_spec _ hM trivial).2.1 i j hi hj).1

/-- **C104**: the product of a block matrix by an array with one column is a vector and not a column, whose
entries are those of the product of the full matrices. -/
theorem matmat_column (F0 : Arr ℂ) (M : HMat ℂ) (hM : M.WF) (hS : M.NoSingleSym) (hB : M.IsBlock) (a : Arr ℂ) :
    ∃ v, M.matmul F0 (.dense M.shape.2 1 a) = some (.vec M.shape.1 v) ∧
      ∀ r, r < M.shape.1 → v r = ∑ k ∈ range M.shape.2, M.entry r k * a k 0 := by
  refine ⟨M.matvec fun c => a c 0, ?_, fun r hr => matvec_eq_dense M hM hS _ r hr⟩
  rw [matmul_block F0 M _ hB, timesBlocks, if_pos rfl, (blocks_spec M hM hB).1]

/-- **C104**: the product with a matrix of the wrong size raises no exception and gives nothing. -/
theorem matmat_mismatch_violated (F0 : Arr ℂ) (M : HMat ℂ) (hM : M.WF) (hB : M.IsBlock) (h w : ℕ) (a : Arr ℂ)
    (hw : w ≠ 1) (hh : h ≠ M.shape.2) : M.matmul F0 (.dense h w a) = some .nothing := by
  rw [matmul_block F0 M _ hB, timesBlocks, if_neg hw, if_neg]
  rw [(blocks_spec M hM hB).1] at hh
  exact Ne.symm hh

/-- **C104**: nor does the product of two block matrices that are not cut at the same places, even when their
sizes agree. -/
theorem matmat_cut_violated (F0 : Arr ℂ) (M N : HMat ℂ) (hB : M.IsBlock) (hN : N.IsBlock) (hw : N.shape.2 ≠ 1)
    (hc : M.blockShapes.2 ≠ N.blockShapes.1) : M.matmul F0 N = some .nothing := by
  rw [matmul_block F0 M _ hB]
  cases N with
  | dense h w a => exact hN.elim
  | gen hs ws b => rw [timesBlocks, if_neg hw, if_neg hc]; intro _ _ _ e; cases e
  | str k p q s b => rw [timesBlocks, if_neg hw, if_neg hc]; intro _ _ _ e; cases e

/-- **C104**: a block matrix of one column cannot be on the right of a product. -/
theorem matmat_block_column_refused (F0 : Arr ℂ) (M N : HMat ℂ) (hN : N.IsBlock)
    (hw : N.shape.2 = 1) : M.matmul F0 N = none := by
  cases N with
  | dense h w a => exact hN.elim
  | gen hs ws b =>
    cases M with
    | dense h w a => rfl
    | gen hs' ws' b' => rw [HMat.matmul, timesBlocks, if_pos hw]; intro _ _ _ e; cases e
    | str k' p' q' s' b' => rw [HMat.matmul, timesBlocks, if_pos hw]; intro _ _ _ e; cases e
  | str k p q s b =>
    cases M with
    | dense h w a => rfl
    | gen hs' ws' b' => rw [HMat.matmul, timesBlocks, if_pos hw]; intro _ _ _ e; cases e
    | str k' p' q' s' b' => rw [HMat.matmul, timesBlocks, if_pos hw]; intro _ _ _ e; cases e

theorem timesBlocks_block (F0 : Arr ℂ) (hs ws : List ℕ) (f : ℕ → ℕ → HMat ℂ → Option Res)
    (mv : (ℕ → ℂ) → ℕ → ℂ) (N : HMat ℂ) (hN : N.IsBlock) (hw : N.shape.2 ≠ 1) (hc : ws = N.blockShapes.1) :
    timesBlocks F0 hs ws f mv N =
      if (List.range hs.length).all fun i => (List.range N.blockShapes.2.length).all fun l =>
        (addAll ((List.range ws.length).map fun j => f i j (N.blockAt j l))).isSome then
        some (.block hs N.blockShapes.2 fun i l =>
          (addAll ((List.range ws.length).map fun j => f i j (N.blockAt j l))).getD F0)
      else none := by
  cases N with
  | dense h w a => exact hN.elim
  | gen hs' ws' b => rw [timesBlocks, if_neg hw, if_pos hc]; intro _ _ _ e; cases e
  | str k p q s b => rw [timesBlocks, if_neg hw, if_pos hc]; intro _ _ _ e; cases e

/-- The blocks are arrays. -/
def HMat.OneLevel {R : Type} (M : HMat R) : Prop :=
  ∀ i j, i < M.blockShapes.1.length → j < M.blockShapes.2.length → ¬ (M.blockAt i j).IsBlock

theorem eq_dense {R : Type} {M : HMat R} (h : ¬ M.IsBlock) : M = .dense M.shape.1 M.shape.2 M.entry := by
  cases M with
  | dense h w a => rfl
  | gen hs ws b => exact (h trivial).elim
  | str k p q s b => exact (h trivial).elim

/-- **C104**: the product of two block matrices cut at the same places is, when the blocks of the second are arrays
(and those of the first also, if one of those has one column), a block matrix with the entries of the
product of the full matrices. -/
theorem matmat_blocks (F0 : Arr ℂ) (M N : HMat ℂ) (hM : M.WF) (hN : N.WF) (hB : M.IsBlock) (hB' : N.IsBlock)
    (hw : N.shape.2 ≠ 1) (hc : M.blockShapes.2 = N.blockShapes.1) (h1 : N.OneLevel)
    (h2 : M.OneLevel ∨ ∀ w ∈ N.blockShapes.2, w ≠ 1) :
    ∃ B, M.matmul F0 N = some (.block M.blockShapes.1 N.blockShapes.2 B) ∧
      ∀ r c, r < M.shape.1 → c < N.shape.2 →
        B (locate M.blockShapes.1 r).1 (locate N.blockShapes.2 c).1
          (locate M.blockShapes.1 r).2 (locate N.blockShapes.2 c).2 =
        ∑ k ∈ range M.shape.2, M.entry r k * N.entry k c := by
  obtain ⟨m1, m2, m3⟩ := blocks_spec M hM hB
  obtain ⟨n1, n2, n3⟩ := blocks_spec N hN hB'
  have hcell : ∀ i l, i < M.blockShapes.1.length → l < N.blockShapes.2.length → ∃ S,
      addAll ((List.range M.blockShapes.2.length).map fun j =>
        (M.blockAt i j).matmul F0 (N.blockAt j l)) = some S ∧
      ∀ r c, r < M.blockShapes.1.getD i 0 → c < N.blockShapes.2.getD l 0 →
        S r c = ∑ j ∈ range M.blockShapes.2.length, ∑ k ∈ range (M.blockShapes.2.getD j 0),
          (M.blockAt i j).entry r k * (N.blockAt j l).entry k c := fun i l hi hl =>
    addAll_arrays _ _ _ _ _ fun j hj => by
      have hj' : j < N.blockShapes.1.length := hc ▸ hj
      obtain ⟨a1, a2⟩ := m2 i j hi hj
      obtain ⟨b1, b2⟩ := n2 j l hj' hl
      have e := eq_dense (h1 j l hj' hl)
      rw [b2] at e
      have e2 : N.blockShapes.1.getD j 0 = (M.blockAt i j).shape.2 := by rw [a2, hc]
      rw [e2] at e
      rcases h2 with h2 | h2
      · have e' := eq_dense (h2 i j hi hj)
        refine ⟨(M.blockAt i j).shape.1, N.blockShapes.2.getD l 0,
          fun r c => ∑ k ∈ range (M.blockAt i j).shape.2,
            (M.blockAt i j).entry r k * (N.blockAt j l).entry k c, ?_, fun r c hr hc' => ?_⟩
        · rw [e]
          conv_lhs => rw [e']
          simp only [HMat.matmul, HMat.shape, if_true, HMat.entry]
        · simp only [a2]
      · have hl' : N.blockShapes.2.getD l 0 ≠ 1 := h2 _ (by
          rw [List.getD_eq_getElem?_getD, List.getElem?_eq_getElem hl]; exact List.getElem_mem hl)
        obtain ⟨X, hX, hX'⟩ := matmat_array F0 (M.blockAt i j) a1 _ hl' (N.blockAt j l).entry
        refine ⟨_, _, X, by rw [← hX, ← e], fun r c hr hc' => ?_⟩
        rw [hX' r c (by rw [a2]; exact hr) hc', a2]
  have hall : ((List.range M.blockShapes.1.length).all fun i =>
      (List.range N.blockShapes.2.length).all fun l =>
        (addAll ((List.range M.blockShapes.2.length).map fun j =>
          (M.blockAt i j).matmul F0 (N.blockAt j l))).isSome) = true := by
    rw [List.all_eq_true]
    intro i hi
    rw [List.all_eq_true]
    intro l hl
    obtain ⟨S, hS, -⟩ := hcell i l (List.mem_range.1 hi) (List.mem_range.1 hl)
    rw [hS]; rfl
  refine ⟨_, by rw [matmul_block F0 M _ hB, timesBlocks_block _ _ _ _ _ N hB' hw hc, if_pos hall],
    fun r c hr hcc => ?_⟩
  have hr' := hr
  have hc' := hcc
  rw [m1] at hr'
  rw [n1] at hc'
  obtain ⟨l1, l2, l3⟩ := locate_spec _ r hr'
  obtain ⟨k1, k2, k3⟩ := locate_spec _ c hc'
  obtain ⟨S, hS, hS'⟩ := hcell _ _ l1 k1
  rw [hS, Option.getD_some, hS' _ _ l3 k3, ← sum_locate M.blockShapes.2 fun j k =>
    (M.blockAt (locate M.blockShapes.1 r).1 j).entry (locate M.blockShapes.1 r).2 k *
      (N.blockAt j (locate N.blockShapes.2 c).1).entry k (locate N.blockShapes.2 c).2, m1]
  refine sum_congr rfl fun k hk => ?_
  have hk' := mem_range.1 hk
  rw [m3 r k hr (by rw [m1]; exact hk'), n3 k c (by rw [n1, ← hc]; exact hk') hcc, ← hc]

/-- **C104**: the product of two block matrices with blocks which are themselves block matrices is never
computed: the sum of products starts from the integer zero, to which a block matrix cannot be added. -/
theorem matmat_nested_violated (F0 : Arr ℂ) (M N : HMat ℂ) (hB : M.IsBlock) (hB' : N.IsBlock)
    (hc : M.blockShapes.2 = N.blockShapes.1) {i j l : ℕ} (hi : i < M.blockShapes.1.length)
    (hj : j < M.blockShapes.2.length) (hl : l < N.blockShapes.2.length) (h1 : (M.blockAt i j).IsBlock)
    (h2 : (N.blockAt j l).IsBlock) : M.matmul F0 N = none := by
  by_cases hw : N.shape.2 = 1
  · exact matmat_block_column_refused F0 M N hB' hw
  rw [matmul_block F0 M _ hB, timesBlocks_block _ _ _ _ _ N hB' hw hc, if_neg]
  rw [List.all_eq_true]
  intro h
  have h := h i (List.mem_range.2 hi)
  rw [List.all_eq_true] at h
  have h := h l (List.mem_range.2 hl)
  rw [addAll_none _ _ j hj] at h
  · cases h
  · intro x y X e
    rw [matmul_block F0 _ _ h1] at e
    by_cases hw : (N.blockAt j l).shape.2 = 1
    · rw [← matmul_block F0 _ _ h1, matmat_block_column_refused F0 _ _ h2 hw] at e
      cases e
    · by_cases hc : (M.blockAt i j).blockShapes.2 = (N.blockAt j l).blockShapes.1
      · rw [timesBlocks_block _ _ _ _ _ _ h2 hw hc] at e
        split at e <;> cases e
      · rw [← matmul_block F0 _ _ h1, matmat_cut_violated F0 _ _ h1 h2 hw hc] at e
        cases e

/-! ## Types of numbers -/

/-- All the arrays have the same type, and there is at least one block at each level. -/
def TMat.Uniform (t : Ty) : TMat → Prop
  | .dense t' => t' = t
  | .gen n m b => 0 < n ∧ 0 < m ∧ ∀ i j, (b i j).Uniform t
  | .str _ s b => 0 < s ∧ ∀ m, (b m).Uniform t

/-- A block matrix without structure. -/
def TMat.NoStructure : TMat → Prop
  | .gen .. => True
  | _ => False

theorem uniform_dtype {t : Ty} (M : TMat) (h : M.Uniform t) : M.dtype = t := by
  induction M with
  | dense t' => exact h
  | gen n m b ih => exact ih 0 0 (h.2.2 0 0)
  | str k s b ih => exact ih 0 (h.2 0)

open Classical in
/-- **C104**: the product of a matrix of one type with a vector has the type of the product, except for block
matrices without structure which hold complex numbers: they refuse the vectors of real numbers. -/
theorem matvec_type {t : Ty} (M : TMat) (h : M.Uniform t) (x : Ty) :
    M.matvecType x =
      if M.NoStructure ∧ t = .complex ∧ x = .real then none else some (t.join x) := by
  cases M with
  | dense t' => cases h; rw [if_neg fun h => h.1]; rfl
  | str k s b => rw [TMat.matvecType, uniform_dtype (b 0) (h.2 0), if_neg fun h => h.1]
  | gen n m b =>
    obtain ⟨hn, hm, hb⟩ := h
    have sub : ∀ (M : TMat), M.Uniform t → (t = .complex ∧ x = .real →
        M.matvecType x = none ∨ M.matvecType x = some .complex) ∧
        (¬ (t = .complex ∧ x = .real) → M.matvecType x = some (t.join x)) := by
      intro M
      induction M with
      | dense t' =>
        intro h; cases h
        exact ⟨by rintro ⟨rfl, rfl⟩; right; rfl, fun _ => rfl⟩
      | str k s b ih =>
        intro h
        rw [TMat.matvecType, uniform_dtype (b 0) (h.2 0)]
        exact ⟨by rintro ⟨rfl, rfl⟩; right; rfl, fun _ => rfl⟩
      | gen n m b ih =>
        intro h
        obtain ⟨hn, hm, hb⟩ := h
        constructor
        · rintro ⟨rfl, rfl⟩
          left
          rw [TMat.matvecType, if_neg]
          rw [List.all_eq_true]
          intro h
          have h := h 0 (List.mem_range.2 hn)
          rw [List.all_eq_true] at h
          have h := h 0 (List.mem_range.2 hm)
          rcases (ih 0 0 (hb 0 0)).1 ⟨rfl, rfl⟩ with e | e <;> rw [e] at h <;> simp at h
        · intro hne
          have : x = t.join x := by
            cases t <;> cases x <;> simp [Ty.join] at hne ⊢
          rw [TMat.matvecType, if_pos, ← this]
          rw [List.all_eq_true]
          intro i _
          rw [List.all_eq_true]
          intro j _
          rw [(ih i j (hb i j)).2 hne]
          cases t <;> cases x <;> simp [Ty.join] at hne ⊢
    have := sub (.gen n m b) ⟨hn, hm, hb⟩
    split
    · rename_i hne
      rw [TMat.matvecType, if_neg]
      rw [List.all_eq_true]
      intro h
      have h := h 0 (List.mem_range.2 hn)
      rw [List.all_eq_true] at h
      have h := h 0 (List.mem_range.2 hm)
      obtain ⟨-, rfl, rfl⟩ := hne
      rcases (sub _ (hb 0 0)).1 ⟨rfl, rfl⟩ with e | e <;> rw [e] at h <;> simp at h
    · rename_i hne
      exact this.2 fun h => hne ⟨trivial, h⟩

/-! ## Iterative solvers -/

/-- The contract of GMRES: with the code zero, the vector solves the system up to the tolerance. -/
def GmresContract (gmres : HMat ℂ → (ℕ → ℂ) → Gmres) (small : HMat ℂ → (ℕ → ℂ) → (ℕ → ℂ) → Prop) : Prop :=
  ∀ A b, (gmres A b).info = 0 → small A b (gmres A b).x

/-- The residual is below `ε` on each line. -/
noncomputable def ResidualBelow (ε : ℝ) (A : HMat ℂ) (b x : ℕ → ℂ) : Prop :=
  ∀ r < A.shape.1, ‖b r - ∑ c ∈ range A.shape.2, A.entry r c * x c‖ ≤ ε

/-- **C104**: a positive code is an exception, any other gives the vector. -/
theorem gmres_refused_iff (gmres : HMat ℂ → (ℕ → ℂ) → Gmres) (A : HMat ℂ) (b : ℕ → ℂ) :
    (solveGmres gmres A b = none ↔ 0 < (gmres A b).info) ∧
      ∀ x, solveGmres gmres A b = some x → x = (gmres A b).x := by
  unfold solveGmres
  split
  · rename_i h; exact ⟨by simpa using h, fun x e => by cases e⟩
  · rename_i h; exact ⟨by simpa using h, fun x e => by cases e; rfl⟩

/-- **C104**: the vector returned solves the system, when the code is not negative. -/
theorem gmres_solves (gmres : HMat ℂ → (ℕ → ℂ) → Gmres) (ε : ℝ) (hg : GmresContract gmres (ResidualBelow ε))
    (A : HMat ℂ) (b x : ℕ → ℂ) (h0 : 0 ≤ (gmres A b).info) (h : solveGmres gmres A b = some x) :
    ResidualBelow ε A b x := by
  unfold solveGmres at h
  split at h
  · cases h
  · cases h
    exact hg A b (by omega)

/-- **C104**: with a negative code a vector that does not solve the system is returned. -/
theorem gmres_breakdown_violated : ∃ gmres : HMat ℂ → (ℕ → ℂ) → Gmres,
    GmresContract gmres (ResidualBelow (1/2)) ∧ ∃ A b x, solveGmres gmres A b = some x ∧
      ¬ ResidualBelow (1/2) A b x := by
  refine ⟨fun _ _ => ⟨fun _ => 0, -1⟩, fun A b h => by simp at h,
    .dense 1 1 fun _ _ => 1, fun _ => 1, fun _ => 0, rfl, ?_⟩
  intro h
  have := h 0 (by decide)
  simp [HMat.shape] at this
  norm_num at this

/-- **C104**: without Fourier transforms the system solved is the one that was given, and there is a warning unless
the solver has converged. -/
theorem gmres_no_fft_solves (gmres : HMat ℂ → (ℕ → ℂ) → Gmres) (ε : ℝ)
    (hg : GmresContract gmres (ResidualBelow ε)) (A : HMat ℂ) (hA : A.WF) (b : ℕ → ℂ) :
    ((gmresNoFft gmres A b).2 = true ↔ (gmres A.noToeplitz b).info ≠ 0) ∧
      ((gmresNoFft gmres A b).2 = false → ResidualBelow ε A b (gmresNoFft gmres A b).1) := by
  refine ⟨by simp [gmresNoFft], fun h r hr => ?_⟩
  obtain ⟨-, h2, h3⟩ := no_toeplitz_same A hA
  have := hg A.noToeplitz b (by simpa [gmresNoFft] using h) r (by rw [h2]; exact hr)
  rw [h2] at this
  refine le_of_eq_of_le (congrArg norm (congrArg (b r - ·) (sum_congr rfl fun c hc => ?_))) this
  rw [h3 r c hr (mem_range.1 hc)]
  rfl

/-! ## Examples -/

/-- A symmetric block Toeplitz matrix of three lines of blocks of one entry. -/
def exToeplitz : HMat ℂ := .str .symToeplitz 1 1 3 fun m => .dense 1 1 fun _ _ => (m : ℂ)

theorem exToeplitz_wf : exToeplitz.WF :=
  ⟨⟨3, ⟨by decide, by decide, by decide⟩, rfl⟩, fun _ _ => ⟨trivial, rfl⟩⟩

example : exToeplitz.NoSingleSym ∧ exToeplitz.IsBlock ∧ exToeplitz.OneLevel ∧ exToeplitz.shape = (3, 3) ∧
    exToeplitz.blockShapes = ([1, 1, 1], [1, 1, 1]) := by
  refine ⟨?_, trivial, fun i j _ _ h => h, rfl, rfl⟩
  exact ⟨fun _ => by decide, fun _ _ => trivial⟩

/-- The square of this matrix is computed. -/
example (F0 : Arr ℂ) : ∃ B, exToeplitz.matmul F0 exToeplitz = some (.block [1, 1, 1] [1, 1, 1] B) := by
  obtain ⟨B, h, -⟩ := matmat_blocks F0 exToeplitz exToeplitz exToeplitz_wf exToeplitz_wf trivial trivial
    (by decide) rfl (fun i j _ _ h => h) (Or.inl fun i j _ _ h => h)
  exact ⟨B, h⟩

/-- A block matrix with one block which is a block matrix: its square is refused. -/
example (F0 : Arr ℂ) : (HMat.gen [3] [3] fun _ _ => exToeplitz).matmul F0
    (HMat.gen [3] [3] fun _ _ => exToeplitz) = none :=
  matmat_nested_violated F0 _ _ trivial trivial rfl (i := 0) (j := 0) (l := 0) (by decide) (by decide)
    (by decide) trivial trivial

example : (HMat.str Kind.symToeplitz 1 1 3 fun m => HMat.dense 1 1 fun _ _ => decide (m < 2)).WF :=
  ⟨⟨3, ⟨by decide, by decide, by decide⟩, rfl⟩, fun _ _ => ⟨trivial, rfl⟩⟩

example : exToeplitz.storedSize = 3 := by simp [exToeplitz, HMat.storedSize]

/-- A real vector is refused by a block matrix of complex numbers and accepted by a circulant one. -/
example : (TMat.gen 1 1 fun _ _ => .dense .complex).Uniform .complex ∧
    (TMat.gen 1 1 fun _ _ => .dense .complex).matvecType .real = none ∧
    (TMat.str .circulant 1 fun _ => .dense .complex).matvecType .real = some .complex := by
  refine ⟨⟨by decide, by decide, fun _ _ => rfl⟩, by decide, by decide⟩

example : GmresContract (fun _ _ => ⟨fun _ => 0, 1⟩) (ResidualBelow 0) := fun A b h => by simp at h


end Verif.Blocks
