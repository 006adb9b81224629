import Verif.Blocks.ProductLemmas

/-!
# Products with hierarchical matrices (C16, C18)
-/

namespace Verif.Blocks

open Finset

/-- No symmetric Toeplitz matrix with a single block appears in the matrix. For these the product
raises (`one_block_super_matrix_empty`). -/
def HMat.NoSingleSym {R : Type} : HMat R → Prop
  | .dense _ _ _ => True
  | .gen hs ws b => ∀ i j, i < hs.length → j < ws.length → (b i j).NoSingleSym
  | .str k _ _ stored b => (k = .symToeplitz → 2 ≤ stored) ∧ ∀ i, i < stored → (b i).NoSingleSym

/-- The super-matrix of a structured matrix contains it in its top left corner. -/
theorem super_spec (k : Kind) (n : ℕ) (hn : Admissible k n) (h1 : k = .symToeplitz → 2 ≤ n) :
    ∃ n', Admissible (superKind k) n' ∧ nbBlocks (superKind k) (specStored k n) = some n' ∧
      specStored k n = specStored (superKind k) n' ∧ n ≤ n' ∧
      ∀ i j, i < n → j < n → specBlock (superKind k) n' i j = specBlock k n i j := by
  have hn1 := hn.1
  cases k with
  | toeplitz =>
    refine ⟨2 * n - 1, ⟨by omega, by simp [superKind], by simp [superKind]⟩, rfl, rfl, by omega, ?_⟩
    intro i j _ _
    exact (toeplitz_embeds_in_circulant n i j).2
  | symToeplitz =>
    have h2 := h1 rfl
    have hs : specStored .evenSymCirculant (2 * (n - 1)) = n := by
      simp only [specStored]; omega
    have had : Admissible .evenSymCirculant (2 * (n - 1)) :=
      ⟨by omega, by intro _; omega, by simp⟩
    refine ⟨2 * (n - 1), had, ?_, hs.symm, by omega, ?_⟩
    · have := (block_positions _ _ had).1
      rw [hs] at this
      exact this
    · intro i j hi hj
      exact (sym_toeplitz_embeds_in_circulant n i j h2 hi hj).2
  | circulant => exact ⟨n, hn, (block_positions _ n hn).1, rfl, le_refl _, fun _ _ _ _ => rfl⟩
  | evenSymCirculant => exact ⟨n, hn, (block_positions _ n hn).1, rfl, le_refl _, fun _ _ _ _ => rfl⟩
  | oddSymCirculant => exact ⟨n, hn, (block_positions _ n hn).1, rfl, le_refl _, fun _ _ _ _ => rfl⟩

theorem superKind_idem (k : Kind) : superKind (superKind k) = superKind k := by
  cases k <;> rfl

theorem sum_truncate {n n' : ℕ} (h : n ≤ n') (f : ℕ → ℂ) (hf : ∀ l, n ≤ l → l < n' → f l = 0) :
    ∑ l ∈ range n', f l = ∑ l ∈ range n, f l := by
  symm
  apply sum_subset (range_mono h)
  intro l hl hl'
  exact hf l (by simpa using hl') (mem_range.1 hl)

/-- **C16.** The product of a hierarchical matrix with a vector, through block products and discrete
Fourier transforms on circulant embeddings, is the product with the full matrix. -/
theorem matvec_eq_dense (M : HMat ℂ) (hM : M.WF) (hS : M.NoSingleSym) (x : ℕ → ℂ) (r : ℕ)
    (hr : r < M.shape.1) :
    M.matvec x r = ∑ c ∈ range M.shape.2, M.entry r c * x c := by
  induction M generalizing x r with
  | dense h w a => rfl
  | gen hs ws b ih =>
    simp only [HMat.shape] at hr
    simp only [HMat.matvec, HMat.shape]
    rw [foldl_addSlice_outer, zero_add]
    have := sum_line hs r hr (fun i t =>
      ∑ j ∈ range ws.length, (b i j).matvec (fun c => x (offset ws j + c)) t)
    rw [this]
    obtain ⟨l1, l2, l3⟩ := locate_spec hs r hr
    have e : ∀ c ∈ range ws.sum, (HMat.gen hs ws b).entry r c * x c =
        (fun j t => (b (locate hs r).1 j).entry (locate hs r).2 t * x (offset ws j + t))
          (locate ws c).1 (locate ws c).2 := by
      intro c hc
      simp only [HMat.entry, offset_locate ws c (mem_range.1 hc)]
    rw [sum_congr rfl e, sum_locate ws
      (fun j t => (b (locate hs r).1 j).entry (locate hs r).2 t * x (offset ws j + t))]
    apply sum_congr rfl
    intro j hj
    have hwf := hM _ j l1 (mem_range.1 hj)
    rw [ih _ j hwf.1 (hS _ j l1 (mem_range.1 hj)) _ _ (by rw [hwf.2]; exact l3), hwf.2]
  | str k p q stored b ih =>
    obtain ⟨⟨n, hn, hs⟩, hb⟩ := hM
    have hnb : (nbBlocks k stored).getD 0 = n := by
      rw [hs, (block_positions k n hn).1]; rfl
    have h1 : k = .symToeplitz → 2 ≤ n := by
      intro h; have := hS.1 h; subst h; rw [hs] at this; exact this
    obtain ⟨n', hn', hnb', hst, hle, hemb⟩ := super_spec k n hn h1
    have hnb'' : (nbBlocks (superKind k) stored).getD 0 = n' := by rw [hs, hnb']; rfl
    simp only [HMat.shape, hnb] at hr ⊢
    simp only [HMat.matvec, hnb, hnb'']
    have hp : 0 < p := Nat.pos_of_ne_zero (by rintro rfl; omega)
    have hi : r / p < n := by rwa [Nat.div_lt_iff_lt_mul hp, Nat.mul_comm]
    rw [circMatvec_eq (superKind_idem k) hn' (hs.trans hst) _ _
      (lt_of_lt_of_le hr (Nat.mul_le_mul_left p hle))]
    rw [sum_truncate hle]
    · have e : ∀ c ∈ range (q * n), (HMat.str k p q stored b).entry r c * x c =
          (fun l t => (b (specBlock k n (r / p) l)).entry (r % p) t * x (l * q + t))
            (c / q) (c % q) := by
        intro c _
        simp only [HMat.entry, hnb]
        rw [Nat.mul_comm (c / q) q, Nat.div_add_mod]
      rw [sum_congr rfl e, sum_grid n q
        (fun l t => (b (specBlock k n (r / p) l)).entry (r % p) t * x (l * q + t))]
      apply sum_congr rfl
      intro l hl
      have hl' := mem_range.1 hl
      apply sum_congr rfl
      intro t ht
      have ht' := mem_range.1 ht
      rw [hemb _ _ hi hl', pad, if_pos]
      have := Nat.mul_le_mul_right q (Nat.succ_le_of_lt hl')
      rw [Nat.succ_mul, Nat.mul_comm n q] at this
      omega
    · intro l hl _
      apply sum_eq_zero
      intro t _
      rw [pad, if_neg, mul_zero]
      have := Nat.mul_le_mul_right q hl
      rw [Nat.mul_comm n q] at this
      omega

/-- The hypotheses are met by a nested example: a symmetric Toeplitz matrix of circulant matrices. -/
example : (HMat.str .symToeplitz 3 3 2 fun k => .str .circulant 1 1 3 fun l =>
    .dense 1 1 fun _ _ => (10 * k + l : ℂ)).NoSingleSym := by
  refine ⟨fun _ => by decide, fun i _ => ⟨by simp, fun j _ => trivial⟩⟩

/-- **C16, combined.** The product agrees with the product computed on `full_matrix()`. -/
theorem matvec_eq_full_matrix (M : HMat ℂ) (hM : M.WF) (hS : M.NoSingleSym) (F0 : Arr ℂ)
    (x : ℕ → ℂ) (r : ℕ) (hr : r < M.shape.1) :
    M.matvec x r = ∑ c ∈ range M.shape.2, M.fullMatrix F0 r c * x c := by
  rw [matvec_eq_dense M hM hS x r hr]
  apply sum_congr rfl
  intro c hc
  rw [full_matrix_eq_entry M hM F0 r c hr (mem_range.1 hc)]

/-- **C18, exact statement for structured matrices.** For every structured class, `rmatvec` multiplies
the matrix on the left by the *conjugate* of the vector. -/
theorem rmatvec_str_eq_conj (k : Kind) (p q stored : ℕ) (b : ℕ → HMat ℂ)
    (hM : (HMat.str k p q stored b).WF) (hS : (HMat.str k p q stored b).NoSingleSym) (x : ℕ → ℂ)
    (c : ℕ) (hc : c < (HMat.str k p q stored b).shape.2) :
    (HMat.str k p q stored b).rmatvec x c =
      ∑ r ∈ range (HMat.str k p q stored b).shape.1,
        (starRingEnd ℂ) (x r) * (HMat.str k p q stored b).entry r c := by
  obtain ⟨⟨n, hn, hs⟩, hb⟩ := hM
  have hnb : (nbBlocks k stored).getD 0 = n := by
    rw [hs, (block_positions k n hn).1]; rfl
  have h1 : k = .symToeplitz → 2 ≤ n := by
    intro h; have := hS.1 h; subst h; rw [hs] at this; exact this
  obtain ⟨n', hn', hnb', hst, hle, hemb⟩ := super_spec k n hn h1
  have hnb'' : (nbBlocks (superKind k) stored).getD 0 = n' := by rw [hs, hnb']; rfl
  simp only [HMat.shape, hnb] at hc ⊢
  simp only [HMat.rmatvec, hnb, hnb'']
  have hq : 0 < q := Nat.pos_of_ne_zero (by rintro rfl; omega)
  have hj : c / q < n := by rwa [Nat.div_lt_iff_lt_mul hq, Nat.mul_comm]
  rw [circRmatvec_eq (superKind_idem k) hn' (hs.trans hst) _ _
    (lt_of_lt_of_le hc (Nat.mul_le_mul_left q hle))]
  rw [sum_truncate hle]
  · have e : ∀ r ∈ range (p * n), (starRingEnd ℂ) (x r) * (HMat.str k p q stored b).entry r c =
        (fun l t => (starRingEnd ℂ) (x (l * p + t)) *
          (b (specBlock k n l (c / q))).entry t (c % q)) (r / p) (r % p) := by
      intro r _
      simp only [HMat.entry, hnb]
      rw [Nat.mul_comm (r / p) p, Nat.div_add_mod]
    rw [sum_congr rfl e, sum_grid n p (fun l t => (starRingEnd ℂ) (x (l * p + t)) *
          (b (specBlock k n l (c / q))).entry t (c % q))]
    apply sum_congr rfl
    intro l hl
    have hl' := mem_range.1 hl
    apply sum_congr rfl
    intro t ht
    have ht' := mem_range.1 ht
    rw [hemb _ _ hl' hj, pad, if_pos]
    have := Nat.mul_le_mul_right p (Nat.succ_le_of_lt hl')
    rw [Nat.succ_mul, Nat.mul_comm n p] at this
    omega
  · intro l hl _
    apply sum_eq_zero
    intro t _
    rw [pad, if_neg, map_zero, zero_mul]
    have := Nat.mul_le_mul_right p hl
    rw [Nat.mul_comm n p] at this
    omega

/-- **C18, partial.** For vectors of real numbers, `rmatvec` is the product `x A` with the full matrix,
for all hierarchical matrices. Missing: complex vectors, for which generic and structured matrices
disagree, see `rmatvec_violated`. -/
theorem rmatvec_real_eq_dense_partial (M : HMat ℂ) (hM : M.WF) (hS : M.NoSingleSym) (x : ℕ → ℂ)
    (hx : ∀ r, (starRingEnd ℂ) (x r) = x r) (c : ℕ) (hc : c < M.shape.2) :
    M.rmatvec x c = ∑ r ∈ range M.shape.1, x r * M.entry r c := by
  induction M generalizing x c with
  | dense h w a => rfl
  | gen hs ws b ih =>
    simp only [HMat.shape] at hc
    simp only [HMat.rmatvec, HMat.shape]
    rw [foldl_addSlice_outer, zero_add]
    have := sum_line ws c hc (fun j t =>
      ∑ i ∈ range hs.length, (b i j).rmatvec (fun r => x (offset hs i + r)) t)
    rw [this]
    obtain ⟨l1, l2, l3⟩ := locate_spec ws c hc
    have e : ∀ r ∈ range hs.sum, x r * (HMat.gen hs ws b).entry r c =
        (fun i t => x (offset hs i + t) * (b i (locate ws c).1).entry t (locate ws c).2)
          (locate hs r).1 (locate hs r).2 := by
      intro r hr
      simp only [HMat.entry, offset_locate hs r (mem_range.1 hr)]
    rw [sum_congr rfl e, sum_locate hs
      (fun i t => x (offset hs i + t) * (b i (locate ws c).1).entry t (locate ws c).2)]
    apply sum_congr rfl
    intro i hi
    have hwf := hM i _ (mem_range.1 hi) l1
    rw [ih i _ hwf.1 (hS i _ (mem_range.1 hi) l1) _ (fun r => hx _) _ (by rw [hwf.2]; exact l3),
      hwf.2]
  | str k p q stored b ih =>
    rw [rmatvec_str_eq_conj k p q stored b hM hS x c hc]
    simp only [hx]

example : ∀ r, (starRingEnd ℂ) ((fun r : ℕ => ((r : ℝ) : ℂ)) r) = (fun r : ℕ => ((r : ℝ) : ℂ)) r := by
  intro r; exact Complex.conj_ofReal _

/-- **C18 is violated**: the matrix `[1]` stored as a generic block matrix and as a circulant matrix
represents the same full matrix, but `rmatvec` on the vector `[i]` gives `i` and `-i`. -/
theorem rmatvec_violated :
    let one : HMat ℂ := .dense 1 1 fun _ _ => 1
    let g : HMat ℂ := .gen [1] [1] fun _ _ => one
    let s : HMat ℂ := .str .circulant 1 1 1 fun _ => one
    g.WF ∧ s.WF ∧ g.shape = s.shape ∧ (∀ r c, r < 1 → c < 1 → g.entry r c = s.entry r c) ∧
    g.rmatvec (fun _ => Complex.I) 0 ≠ s.rmatvec (fun _ => Complex.I) 0 := by
  intro one g s
  have hs : s.WF := ⟨⟨1, by simp [Admissible], rfl⟩, fun i _ => ⟨trivial, rfl⟩⟩
  have hg : g.WF := by
    intro i j hi hj
    simp only [List.length_singleton, Nat.lt_one_iff] at hi hj
    subst hi; subst hj
    exact ⟨trivial, rfl⟩
  refine ⟨hg, hs, rfl, ?_, ?_⟩
  · intro r c hr hc; rfl
  · have h2 := rmatvec_str_eq_conj .circulant 1 1 1 (fun _ => one) hs
      ⟨by simp, fun _ _ => trivial⟩ (fun _ => Complex.I) 0 (by decide)
    rw [h2]
    have h1 : g.rmatvec (fun _ => Complex.I) 0 = Complex.I := by
      simp [g, one, HMat.rmatvec, addSlice, offset, vecMul]
    rw [h1]
    have h3 : (HMat.str Kind.circulant 1 1 1 fun _ => one).shape.1 = 1 := rfl
    rw [h3, sum_range_one]
    simp only [HMat.entry, one, Complex.conj_I]
    intro h
    have := congrArg Complex.im h
    simp at this
    norm_num at this

end Verif.Blocks
