import Verif.Blocks.FullModel
import Verif.Blocks.IndexProps

/-!
# The full matrix of a hierarchical matrix (C15, C16)
-/

namespace Verif.Blocks

/-! ## Specification -/

/-- Block line containing line `r`, and line inside that block, for lines of the given heights. -/
def locate : List Nat → Nat → Nat × Nat
  | [], r => (0, r)
  | h :: hs, r => if r < h then (0, r) else ((locate hs (r - h)).1 + 1, (locate hs (r - h)).2)

/-- The entry that a hierarchical matrix stands for. -/
def HMat.entry {R : Type} : HMat R → Nat → Nat → R
  | .dense _ _ a, r, c => a r c
  | .gen hs ws b, r, c => (b (locate hs r).1 (locate ws c).1).entry (locate hs r).2 (locate ws c).2
  | .str k p q stored b, r, c =>
    (b (specBlock k ((nbBlocks k stored).getD 0) (r / p) (c / q))).entry (r % p) (c % q)

/-- Consistency of a hierarchical matrix, as checked by `block.py:86-102` and
`block_toeplitz.py:42-46`: blocks have the shape of their place, and the numbers of stored blocks
are admissible. -/
def HMat.WF {R : Type} : HMat R → Prop
  | .dense _ _ _ => True
  | .gen hs ws b => ∀ i j, i < hs.length → j < ws.length →
      (b i j).WF ∧ (b i j).shape = (hs.getD i 0, ws.getD j 0)
  | .str k p q stored b => (∃ n, Admissible k n ∧ stored = specStored k n) ∧
      ∀ i, i < stored → (b i).WF ∧ (b i).shape = (p, q)

/-! ## Lemmas -/

theorem locate_spec (hs : List Nat) (r : Nat) (hr : r < hs.sum) :
    (locate hs r).1 < hs.length ∧ r = offset hs (locate hs r).1 + (locate hs r).2 ∧
      (locate hs r).2 < hs.getD (locate hs r).1 0 := by
  induction hs generalizing r with
  | nil => simp at hr
  | cons h hs ih =>
    simp only [locate]
    split
    · rename_i hlt
      refine ⟨by simp, by simp [offset], by simpa using hlt⟩
    · rename_i hge
      have hr' : r - h < hs.sum := by simp only [List.sum_cons] at hr; omega
      obtain ⟨h1, h2, h3⟩ := ih (r - h) hr'
      refine ⟨by simpa using h1, ?_, by simpa using h3⟩
      simp only [offset, List.take_succ_cons, List.sum_cons] at h2 ⊢
      omega

theorem offset_add_lt (hs : List Nat) (i : Nat) (hi : i < hs.length) :
    offset hs i + hs.getD i 0 ≤ hs.sum := by
  induction hs generalizing i with
  | nil => simp at hi
  | cons h hs ih =>
    cases i with
    | zero => simp [offset]
    | succ i =>
      have := ih i (by simpa using hi)
      simp only [offset, List.take_succ_cons, List.sum_cons, List.getD_cons_succ] at this ⊢
      omega

theorem locate_offset (hs : List Nat) (i t : Nat) (hi : i < hs.length) (ht : t < hs.getD i 0) :
    locate hs (offset hs i + t) = (i, t) := by
  induction hs generalizing i with
  | nil => simp at hi
  | cons h hs ih =>
    cases i with
    | zero =>
      simp only [offset, List.take_zero, List.sum_nil, Nat.zero_add, locate]
      rw [if_pos (by simpa using ht)]
    | succ i =>
      have := ih i (by simpa using hi) (by simpa using ht)
      have e : offset (h :: hs) (i + 1) + t = h + (offset hs i + t) := by
        simp only [offset, List.take_succ_cons, List.sum_cons]; omega
      rw [e, locate, if_neg (by omega), Nat.add_sub_cancel_left, this]

/-- The region of shape `s` at `(x, y)`. -/
def inFrame (x y : Nat) (s : Nat × Nat) (r c : Nat) : Prop :=
  x ≤ r ∧ r < x + s.1 ∧ y ≤ c ∧ c < y + s.2

instance (x y : Nat) (s : Nat × Nat) (r c : Nat) : Decidable (inFrame x y s r c) := by
  unfold inFrame; infer_instance

/-- `PutOK M`: putting `M` somewhere writes its entries there and nothing else. -/
def PutOK {R : Type} (M : HMat R) : Prop :=
  ∀ x y (F : Arr R) r c, M.put x y F r c =
    if inFrame x y M.shape r c then M.entry (r - x) (c - y) else F r c

/-- A fold of writes where each write sets some region to a target array `T` and leaves the rest:
the result is `T` on the union of the regions. -/
theorem foldl_writes {R α : Type} (T : Arr R) (reg : α → Nat → Nat → Prop)
    (step : Arr R → α → Arr R) (l : List α)
    (h1 : ∀ F a, a ∈ l → ∀ r c, reg a r c → step F a r c = T r c)
    (h2 : ∀ F a, a ∈ l → ∀ r c, ¬ reg a r c → step F a r c = F r c) (F : Arr R) (r c : Nat) :
    ((∃ a ∈ l, reg a r c) → l.foldl step F r c = T r c) ∧
    ((¬ ∃ a ∈ l, reg a r c) → l.foldl step F r c = F r c) := by
  induction l generalizing F with
  | nil => simp
  | cons a l ih =>
    have h1' : ∀ F a, a ∈ l → ∀ r c, reg a r c → step F a r c = T r c :=
      fun F a ha => h1 F a (List.mem_cons_of_mem _ ha)
    have h2' : ∀ F a, a ∈ l → ∀ r c, ¬ reg a r c → step F a r c = F r c :=
      fun F a ha => h2 F a (List.mem_cons_of_mem _ ha)
    obtain ⟨ih1, ih2⟩ := ih h1' h2' (step F a)
    simp only [List.foldl_cons]
    constructor
    · rintro ⟨a', ha', hr⟩
      by_cases hl : ∃ a ∈ l, reg a r c
      · exact ih1 hl
      · rw [ih2 hl]
        rcases List.mem_cons.1 ha' with rfl | ha'
        · exact h1 F _ (by simp) r c hr
        · exact absurd ⟨a', ha', hr⟩ hl
    · intro hn
      rw [ih2 (fun ⟨a', ha', hr⟩ => hn ⟨a', List.mem_cons_of_mem _ ha', hr⟩)]
      exact h2 F a (by simp) r c (fun hr => hn ⟨a, by simp, hr⟩)

theorem setSlice_apply {R : Type} (F : Arr R) (x y h w : Nat) (a : Arr R) (r c : Nat) :
    setSlice F x y h w a r c = if inFrame x y (h, w) r c then a (r - x) (c - y) else F r c := by
  simp only [setSlice, inFrame]

theorem putOK_dense {R : Type} (h w : Nat) (a : Arr R) : PutOK (.dense h w a) := by
  intro x y F r c
  rw [HMat.put, setSlice_apply]
  rfl

theorem putOK_gen {R : Type} (hs ws : List Nat) (b : Nat → Nat → HMat R)
    (hwf : (HMat.gen hs ws b).WF)
    (ih : ∀ i j, i < hs.length → j < ws.length → PutOK (b i j)) : PutOK (.gen hs ws b) := by
  intro x y F r c
  let T : Arr R := fun r c => (HMat.gen hs ws b).entry (r - x) (c - y)
  -- one block
  have block : ∀ i j, i < hs.length → j < ws.length → ∀ (F : Arr R) r c,
      (b i j).put (x + offset hs i) (y + offset ws j) F r c =
        if inFrame (x + offset hs i) (y + offset ws j) (hs.getD i 0, ws.getD j 0) r c
        then T r c else F r c := by
    intro i j hi hj F r c
    rw [ih i j hi hj, (hwf i j hi hj).2]
    by_cases hf : inFrame (x + offset hs i) (y + offset ws j) (hs.getD i 0, ws.getD j 0) r c
    · rw [if_pos hf, if_pos hf]
      obtain ⟨h1, h2, h3, h4⟩ := hf
      have e1 : locate hs (r - x) = (i, r - (x + offset hs i)) := by
        rw [show r - x = offset hs i + (r - (x + offset hs i)) by omega]
        exact locate_offset hs i _ hi (by simp only at h2; omega)
      have e2 : locate ws (c - y) = (j, c - (y + offset ws j)) := by
        rw [show c - y = offset ws j + (c - (y + offset ws j)) by omega]
        exact locate_offset ws j _ hj (by simp only at h4; omega)
      simp only [T, HMat.entry, e1, e2]
    · rw [if_neg hf, if_neg hf]
  -- one line
  let regL : Nat → Nat → Nat → Nat → Prop := fun i j r c =>
    inFrame (x + offset hs i) (y + offset ws j) (hs.getD i 0, ws.getD j 0) r c
  have line : ∀ i, i < hs.length → ∀ (F : Arr R) r c,
      ((∃ j ∈ List.range ws.length, regL i j r c) →
        (List.range ws.length).foldl (fun F j =>
          (b i j).put (x + offset hs i) (y + offset ws j) F) F r c = T r c) ∧
      ((¬ ∃ j ∈ List.range ws.length, regL i j r c) →
        (List.range ws.length).foldl (fun F j =>
          (b i j).put (x + offset hs i) (y + offset ws j) F) F r c = F r c) := by
    intro i hi F r c
    apply foldl_writes T (regL i)
    · intro F j hj r c hr
      rw [block i j hi (List.mem_range.1 hj), if_pos hr]
    · intro F j hj r c hr
      rw [block i j hi (List.mem_range.1 hj), if_neg hr]
  have all := foldl_writes T (fun i r c => ∃ j ∈ List.range ws.length, regL i j r c)
    (fun F i => (List.range ws.length).foldl (fun F j =>
          (b i j).put (x + offset hs i) (y + offset ws j) F) F) (List.range hs.length)
    (fun F i hi r c hr => (line i (List.mem_range.1 hi) F r c).1 hr)
    (fun F i hi r c hr => (line i (List.mem_range.1 hi) F r c).2 hr) F r c
  have cover : (∃ i ∈ List.range hs.length, ∃ j ∈ List.range ws.length, regL i j r c) ↔
      inFrame x y (HMat.gen hs ws b).shape r c := by
    constructor
    · rintro ⟨i, hi, j, hj, h1, h2, h3, h4⟩
      have hi' := offset_add_lt hs i (List.mem_range.1 hi)
      have hj' := offset_add_lt ws j (List.mem_range.1 hj)
      simp only [HMat.shape, inFrame] at h2 h4 ⊢
      omega
    · rintro ⟨h1, h2, h3, h4⟩
      simp only [HMat.shape] at h2 h4
      obtain ⟨a1, a2, a3⟩ := locate_spec hs (r - x) (by omega)
      obtain ⟨b1, b2, b3⟩ := locate_spec ws (c - y) (by omega)
      refine ⟨_, List.mem_range.2 a1, _, List.mem_range.2 b1, ?_⟩
      simp only [regL, inFrame]
      omega
  simp only [HMat.put]
  by_cases hin : inFrame x y (HMat.gen hs ws b).shape r c
  · rw [if_pos hin]; exact all.1 (cover.2 hin)
  · rw [if_neg hin]; exact all.2 (fun h => hin (cover.1 h))

theorem mem_positions {c : Kind} {n p q k x y : Nat} (hn : Admissible c n)
    (hk : k < specStored c n) (pos : Nat × Nat) :
    pos ∈ positions c n p q k x y ↔
      ∃ i j, i < n ∧ j < n ∧ k = specBlock c n i j ∧ pos = (x + i * p, y + j * q) := by
  obtain ⟨l, hl⟩ := blockIndices_isSome c n k hn hk
  simp only [positions, hl, Option.getD_some, List.mem_mergeSort, List.mem_map, Prod.exists]
  constructor
  · rintro ⟨i, j, hm, rfl⟩
    obtain ⟨h1, h2, h3⟩ := (mem_blockIndices c n k hn hk l hl i j).1 hm
    exact ⟨i, j, h1, h2, h3, rfl⟩
  · rintro ⟨i, j, h1, h2, h3, rfl⟩
    exact ⟨i, j, (mem_blockIndices c n k hn hk l hl i j).2 ⟨h1, h2, h3⟩, rfl⟩

/-- Two frames of the same shape on a regular grid are equal or disjoint. -/
theorem grid_unique {p i i' r x : Nat} (h1 : x + i * p ≤ r) (h2 : r < x + i * p + p)
    (h3 : x + i' * p ≤ r) (h4 : r < x + i' * p + p) : i = i' := by
  rcases Nat.lt_trichotomy i i' with h | h | h
  · have := Nat.mul_le_mul_right p (Nat.succ_le_of_lt h)
    rw [Nat.succ_mul] at this; omega
  · exact h
  · have := Nat.mul_le_mul_right p (Nat.succ_le_of_lt h)
    rw [Nat.succ_mul] at this; omega

theorem grid_div_mod {p i r x : Nat} (h1 : x + i * p ≤ r) (h2 : r < x + i * p + p) :
    (r - x) / p = i ∧ (r - x) % p = r - (x + i * p) := by
  have e : r - x = (r - (x + i * p)) + i * p := by omega
  have hp : 0 < p := by omega
  have hlt : r - (x + i * p) < p := by omega
  refine ⟨?_, ?_⟩
  · rw [e, Nat.add_mul_div_right _ _ hp, Nat.div_eq_of_lt hlt, Nat.zero_add]
  · rw [e, Nat.add_mul_mod_self_right, Nat.mod_eq_of_lt hlt]

theorem putOK_str {R : Type} (k : Kind) (p q stored : Nat) (b : Nat → HMat R)
    (hwf : (HMat.str k p q stored b).WF) (ih : ∀ i, i < stored → PutOK (b i)) :
    PutOK (.str k p q stored b) := by
  obtain ⟨⟨n, hn, hs⟩, hb⟩ := hwf
  have hnb : (nbBlocks k stored).getD 0 = n := by
    rw [hs, (block_positions k n hn).1]; rfl
  intro x y F r c
  let T : Arr R := fun r c => (HMat.str k p q stored b).entry (r - x) (c - y)
  -- the value at a position of the block `m`
  have value : ∀ m, m < stored → ∀ i j, i < n → j < n → m = specBlock k n i j → ∀ r c,
      inFrame (x + i * p) (y + j * q) (p, q) r c →
      (b m).entry (r - (x + i * p)) (c - (y + j * q)) = T r c := by
    intro m hm i j hi hj hmk r c ⟨h1, h2, h3, h4⟩
    obtain ⟨d1, d2⟩ := grid_div_mod (p := p) (i := i) (r := r) (x := x) h1 h2
    obtain ⟨d3, d4⟩ := grid_div_mod (p := q) (i := j) (r := c) (x := y) h3 h4
    simp only [T, HMat.entry, hnb, d1, d2, d3, d4, ← hmk]
  let reg : Nat → Nat → Nat → Prop := fun m r c =>
    ∃ i j, i < n ∧ j < n ∧ m = specBlock k n i j ∧ inFrame (x + i * p) (y + j * q) (p, q) r c
  let step : Arr R → Nat → Arr R := fun F m =>
    match positions k n p q m x y with
      | [] => F
      | first :: rest =>
        if (b m).isBlock then
          let F1 := (b m).put first.1 first.2 F
          rest.foldl (fun F pos =>
            setSlice F pos.1 pos.2 (b m).shape.1 (b m).shape.2 (getSlice F first.1 first.2)) F1
        else
          (first :: rest).foldl (fun F pos => (b m).put pos.1 pos.2 F) F
  have stepOK : ∀ (F : Arr R) m, m < stored → ∀ r c,
      (reg m r c → step F m r c = T r c) ∧ (¬ reg m r c → step F m r c = F r c) := by
    intro F m hm r c
    have hmem := fun pos => mem_positions (p := p) (q := q) (x := x) (y := y) hn (hs ▸ hm) pos
    have hreg : ∀ r c, reg m r c ↔
        ∃ pos ∈ positions k n p q m x y, inFrame pos.1 pos.2 (p, q) r c := by
      intro r c
      constructor
      · rintro ⟨i, j, hi, hj, hk, hf⟩
        exact ⟨_, (hmem _).2 ⟨i, j, hi, hj, hk, rfl⟩, hf⟩
      · rintro ⟨pos, hp, hf⟩
        obtain ⟨i, j, hi, hj, hk, rfl⟩ := (hmem pos).1 hp
        exact ⟨i, j, hi, hj, hk, hf⟩
    -- putting the block at one of its positions
    have putAt : ∀ pos ∈ positions k n p q m x y, ∀ (F : Arr R) r c,
        (inFrame pos.1 pos.2 (p, q) r c → (b m).put pos.1 pos.2 F r c = T r c) ∧
        (¬ inFrame pos.1 pos.2 (p, q) r c → (b m).put pos.1 pos.2 F r c = F r c) := by
      intro pos hp F r c
      obtain ⟨i, j, hi, hj, hk, rfl⟩ := (hmem pos).1 hp
      rw [ih m hm, (hb m hm).2]
      constructor
      · intro hf
        rw [if_pos hf]
        exact value m hm i j hi hj hk r c hf
      · intro hf; rw [if_neg hf]
    rw [hreg r c]
    show (_ → (match positions k n p q m x y with
      | [] => F
      | first :: rest => _) r c = T r c) ∧ (_ → (match positions k n p q m x y with
      | [] => F
      | first :: rest => _) r c = F r c)
    cases hpos : positions k n p q m x y with
    | nil => simp
    | cons first rest =>
      simp only
      rw [hpos] at putAt hmem
      split
      · -- nested block matrix
        rename_i hblock
        rw [(hb m hm).2]
        simp only
        let inv : Arr R → Prop := fun G => ∀ r c, inFrame first.1 first.2 (p, q) r c → G r c = T r c
        have hF1 : inv ((b m).put first.1 first.2 F) := fun r c hf =>
          (putAt first (by simp) F r c).1 hf
        have copy : ∀ (G : Arr R), inv G → ∀ pos ∈ first :: rest, ∀ r c,
            (inFrame pos.1 pos.2 (p, q) r c →
              setSlice G pos.1 pos.2 p q (getSlice G first.1 first.2) r c = T r c) ∧
            (¬ inFrame pos.1 pos.2 (p, q) r c →
              setSlice G pos.1 pos.2 p q (getSlice G first.1 first.2) r c = G r c) := by
          intro G hG pos hp r c
          constructor
          · intro hf
            rw [setSlice_apply, if_pos hf]
            simp only [getSlice]
            obtain ⟨i, j, hi, hj, hk, rfl⟩ := (hmem pos).1 hp
            obtain ⟨i0, j0, hi0, hj0, hk0, rfl⟩ := (hmem first).1 (by simp)
            have hv := value m hm i j hi hj hk r c hf
            obtain ⟨f1, f2, f3, f4⟩ := hf
            simp only at f1 f2 f3 f4
            have hf0 : inFrame (x + i0 * p) (y + j0 * q) (p, q)
                (x + i0 * p + (r - (x + i * p))) (y + j0 * q + (c - (y + j * q))) := by
              simp only [inFrame]; omega
            rw [hG _ _ hf0, ← value m hm i0 j0 hi0 hj0 hk0 _ _ hf0, ← hv]
            simp only [Nat.add_sub_cancel_left]
          · intro hf
            rw [setSlice_apply, if_neg hf]
        have fold : ∀ (l : List (Nat × Nat)), (∀ pos ∈ l, pos ∈ first :: rest) →
            ∀ (G : Arr R), inv G → ∀ r c,
            ((∃ pos ∈ l, inFrame pos.1 pos.2 (p, q) r c) → l.foldl (fun F pos =>
              setSlice F pos.1 pos.2 p q (getSlice F first.1 first.2)) G r c = T r c) ∧
            ((¬ ∃ pos ∈ l, inFrame pos.1 pos.2 (p, q) r c) → l.foldl (fun F pos =>
              setSlice F pos.1 pos.2 p q (getSlice F first.1 first.2)) G r c = G r c) := by
          intro l
          induction l with
          | nil => intro _ G _ r c; simp
          | cons pos l ihl =>
            intro hl G hG r c
            have hc := copy G hG pos (hl pos (by simp))
            have hG' : inv (setSlice G pos.1 pos.2 p q (getSlice G first.1 first.2)) := by
              intro r c hf
              by_cases hin : inFrame pos.1 pos.2 (p, q) r c
              · exact (hc r c).1 hin
              · rw [(hc r c).2 hin]; exact hG r c hf
            obtain ⟨i1, i2⟩ := ihl (fun a ha => hl a (List.mem_cons_of_mem _ ha)) _ hG' r c
            simp only [List.foldl_cons]
            constructor
            · rintro ⟨pos', hp', hf⟩
              by_cases hin : ∃ pos ∈ l, inFrame pos.1 pos.2 (p, q) r c
              · exact i1 hin
              · rw [i2 hin]
                rcases List.mem_cons.1 hp' with rfl | hp'
                · exact (hc r c).1 hf
                · exact absurd ⟨pos', hp', hf⟩ hin
            · intro hno
              rw [i2 (fun ⟨a, ha, hf⟩ => hno ⟨a, List.mem_cons_of_mem _ ha, hf⟩)]
              exact (hc r c).2 (fun hf => hno ⟨pos, by simp, hf⟩)
        obtain ⟨f1, f2⟩ := fold rest (fun a ha => List.mem_cons_of_mem _ ha) _ hF1 r c
        constructor
        · rintro ⟨pos, hp, hf⟩
          by_cases hin : ∃ pos ∈ rest, inFrame pos.1 pos.2 (p, q) r c
          · exact f1 hin
          · rw [f2 hin]
            rcases List.mem_cons.1 hp with rfl | hp
            · exact hF1 r c hf
            · exact absurd ⟨pos, hp, hf⟩ hin
        · intro hno
          rw [f2 (fun ⟨a, ha, hf⟩ => hno ⟨a, List.mem_cons_of_mem _ ha, hf⟩)]
          exact (putAt first (by simp) F r c).2 (fun hf => hno ⟨first, by simp, hf⟩)
      · exact foldl_writes T (fun pos r c => inFrame pos.1 pos.2 (p, q) r c)
          (fun F pos => (b m).put pos.1 pos.2 F) (first :: rest)
          (fun F pos hp r c hf => (putAt pos hp F r c).1 hf)
          (fun F pos hp r c hf => (putAt pos hp F r c).2 hf) F r c
  have all := foldl_writes T reg step (List.range stored)
    (fun F m hm r c => (stepOK F m (List.mem_range.1 hm) r c).1)
    (fun F m hm r c => (stepOK F m (List.mem_range.1 hm) r c).2) F r c
  have cover : (∃ m ∈ List.range stored, reg m r c) ↔
      inFrame x y (HMat.str k p q stored b).shape r c := by
    simp only [HMat.shape, hnb]
    constructor
    · rintro ⟨m, _, i, j, hi, hj, _, h1, h2, h3, h4⟩
      have e1 := Nat.mul_le_mul_right p (Nat.succ_le_of_lt hi)
      have e2 := Nat.mul_le_mul_right q (Nat.succ_le_of_lt hj)
      rw [Nat.succ_mul] at e1 e2
      simp only [inFrame] at h2 h4 ⊢
      rw [Nat.mul_comm p n, Nat.mul_comm q n]
      omega
    · rintro ⟨h1, h2, h3, h4⟩
      simp only at h2 h4
      have hp : 0 < p := by
        rcases Nat.eq_zero_or_pos p with h | h
        · subst h; omega
        · exact h
      have hq : 0 < q := by
        rcases Nat.eq_zero_or_pos q with h | h
        · subst h; omega
        · exact h
      have hi : (r - x) / p < n := by
        rw [Nat.div_lt_iff_lt_mul hp, Nat.mul_comm]; omega
      have hj : (c - y) / q < n := by
        rw [Nat.div_lt_iff_lt_mul hq, Nat.mul_comm]; omega
      refine ⟨specBlock k n ((r - x) / p) ((c - y) / q),
        List.mem_range.2 (hs ▸ specBlock_lt k n _ _ hn hi hj), _, _, hi, hj, rfl, ?_⟩
      have e1 := Nat.div_add_mod (r - x) p
      have e2 := Nat.mod_lt (r - x) hp
      have e3 := Nat.div_add_mod (c - y) q
      have e4 := Nat.mod_lt (c - y) hq
      rw [Nat.mul_comm] at e1 e3
      simp only [inFrame]
      omega
  simp only [HMat.put, hnb]
  by_cases hin : inFrame x y (HMat.str k p q stored b).shape r c
  · rw [if_pos hin]; exact all.1 (cover.2 hin)
  · rw [if_neg hin]; exact all.2 (fun h => hin (cover.1 h))

theorem putOK {R : Type} (M : HMat R) : M.WF → PutOK M := by
  induction M with
  | dense h w a => exact fun _ => putOK_dense h w a
  | gen hs ws b ih =>
    exact fun hwf => putOK_gen hs ws b hwf (fun i j hi hj => ih i j (hwf i j hi hj).1)
  | str c p q stored b ih =>
    exact fun hwf => putOK_str c p q stored b hwf (fun i hi => ih i (hwf.2 i hi).1)

/-! ## Property -/

/-- **C15, hierarchical matrices.** For every consistent hierarchical matrix (any nesting of generic
and structured block matrices), `full_matrix` has exactly the documented entry at every position
inside the shape: all positions are written, whatever the uninitialised memory `F0`. -/
theorem full_matrix_eq_entry {R : Type} (M : HMat R) (hM : M.WF) (F0 : Arr R) (r c : Nat)
    (hr : r < M.shape.1) (hc : c < M.shape.2) : M.fullMatrix F0 r c = M.entry r c := by
  have := putOK M hM 0 0 F0 r c
  rw [if_pos ⟨Nat.zero_le _, by omega, Nat.zero_le _, by omega⟩] at this
  simpa [HMat.fullMatrix] using this

/-- A 2 × 2 symmetric Toeplitz matrix whose blocks are circulant matrices of 3 × 3 scalars. -/
example : (HMat.str .symToeplitz 3 3 2 fun k => .str .circulant 1 1 3 fun l =>
    .dense 1 1 fun _ _ => (10 * k + l : Nat)).WF := by
  refine ⟨⟨2, by simp [Admissible], rfl⟩, fun i hi => ⟨⟨⟨3, by simp [Admissible], rfl⟩, ?_⟩, ?_⟩⟩
  · intro j hj; exact ⟨trivial, rfl⟩
  · rfl

end Verif.Blocks
