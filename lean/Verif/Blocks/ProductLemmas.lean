import Verif.Blocks.ProductModel

namespace Verif.Blocks

open Finset

/-- Sum over the positions of a segmented range. -/
theorem sum_locate (ws : List ℕ) (g : ℕ → ℕ → ℂ) :
    ∑ c ∈ range ws.sum, g (locate ws c).1 (locate ws c).2 =
      ∑ j ∈ range ws.length, ∑ t ∈ range (ws.getD j 0), g j t := by
  induction ws generalizing g with
  | nil => simp
  | cons w ws ih =>
    rw [List.sum_cons, sum_range_add, List.length_cons, sum_range_succ']
    rw [add_comm]
    congr 1
    · have := ih (fun j t => g (j + 1) t)
      simp only [List.getD_cons_succ]
      rw [← this]
      apply sum_congr rfl
      intro c _
      simp [locate]
    · simp only [List.getD_cons_zero]
      apply sum_congr rfl
      intro t ht
      rw [locate, if_pos (mem_range.1 ht)]

theorem offset_locate (ws : List ℕ) (c : ℕ) (hc : c < ws.sum) :
    offset ws (locate ws c).1 + (locate ws c).2 = c := ((locate_spec ws c hc).2.1).symm

/-- Inner loop of the generic product. -/
theorem foldl_addSlice (m pos len : ℕ) (v : ℕ → ℕ → ℂ) (acc : ℕ → ℂ) (r : ℕ) :
    (List.range m).foldl (fun acc j => addSlice acc pos len (v j)) acc r =
      acc r + if pos ≤ r ∧ r < pos + len then ∑ j ∈ range m, v j (r - pos) else 0 := by
  induction m with
  | zero => simp
  | succ m ih =>
    rw [List.range_succ, List.foldl_append, List.foldl_cons, List.foldl_nil, addSlice]
    split
    · rename_i h
      rw [ih, if_pos h, sum_range_succ, add_assoc]
    · rename_i h
      rw [ih, if_neg h]

/-- Both loops of the generic product. -/
theorem foldl_addSlice_outer (m m' : ℕ) (pos len : ℕ → ℕ) (v : ℕ → ℕ → ℕ → ℂ) (acc : ℕ → ℂ)
    (r : ℕ) :
    (List.range m).foldl (fun acc i =>
      (List.range m').foldl (fun acc j => addSlice acc (pos i) (len i) (v i j)) acc) acc r =
    acc r + ∑ i ∈ range m, if pos i ≤ r ∧ r < pos i + len i then
      ∑ j ∈ range m', v i j (r - pos i) else 0 := by
  induction m with
  | zero => simp
  | succ m ih =>
    rw [List.range_succ, List.foldl_append, List.foldl_cons, List.foldl_nil, foldl_addSlice, ih,
      sum_range_succ, add_assoc]

/-- Only the line containing `r` contributes. -/
theorem sum_line (hs : List ℕ) (r : ℕ) (hr : r < hs.sum) (f : ℕ → ℕ → ℂ) :
    (∑ i ∈ range hs.length, if offset hs i ≤ r ∧ r < offset hs i + hs.getD i 0 then
      f i (r - offset hs i) else 0) = f (locate hs r).1 (locate hs r).2 := by
  obtain ⟨h1, h2, h3⟩ := locate_spec hs r hr
  have : ∀ i ∈ range hs.length, (if offset hs i ≤ r ∧ r < offset hs i + hs.getD i 0 then
      f i (r - offset hs i) else 0) = if i = (locate hs r).1 then
        f (locate hs r).1 (locate hs r).2 else 0 := by
    intro i hi
    by_cases he : i = (locate hs r).1
    · rw [if_pos he, he, if_pos (by omega)]
      congr 1
      omega
    · rw [if_neg he, if_neg]
      rintro ⟨g1, g2⟩
      have := locate_offset hs i (r - offset hs i) (mem_range.1 hi) (by omega)
      rw [show offset hs i + (r - offset hs i) = r by omega] at this
      exact he (by rw [this])
  rw [sum_congr rfl this, sum_ite_eq', if_pos (mem_range.2 h1)]

/-- Sum over lines and columns of a grid of blocks. -/
theorem sum_grid (n q : ℕ) (g : ℕ → ℕ → ℂ) :
    ∑ c ∈ range (q * n), g (c / q) (c % q) = ∑ l ∈ range n, ∑ t ∈ range q, g l t := by
  induction n with
  | zero => simp
  | succ n ih =>
    rw [Nat.mul_succ, sum_range_add, ih, sum_range_succ]
    congr 1
    apply sum_congr rfl
    intro t ht
    have ht' := mem_range.1 ht
    have hq : 0 < q := by omega
    rw [Nat.mul_add_div hq, Nat.div_eq_of_lt ht', Nat.add_zero, Nat.mul_add_mod,
      Nat.mod_eq_of_lt ht']

/-- A Fourier product in the other order, used by `rmatvec`. -/
theorem dft_idft_mul {n : ℕ} (y a : ℕ → ℂ) {l : ℕ} (hl : l < n) :
    dft n (fun j => idft n y j * dft n a j) l = ∑ i ∈ range n, y i * a ((i + n - l) % n) := by
  have hn : 0 < n := by omega
  have hn' : (n : ℂ) ≠ 0 := by exact_mod_cast hn.ne'
  have e : ∀ j, idft n y j * dft n a j * W n (j * l) =
      (∑ i ∈ range n, ∑ s ∈ range n, y i * a s * W n (((s : ℤ) + l - i) * j)) / n := by
    intro j
    rw [idft, dft, div_mul_eq_mul_div, sum_mul_sum, div_mul_eq_mul_div]
    congr 1
    rw [sum_mul]
    apply sum_congr rfl
    intro i _
    rw [sum_mul]
    apply sum_congr rfl
    intro s _
    rw [show ((s : ℤ) + l - i) * j = (-(j * i) + s * j) + j * l by ring, W_add, W_add]
    ring
  rw [dft, sum_congr rfl (fun j _ => e j), ← sum_div, div_eq_iff hn', sum_comm, sum_mul]
  apply sum_congr rfl
  intro i hi
  have hi' := mem_range.1 hi
  rw [sum_comm]
  have : ∀ s ∈ range n, ∑ j ∈ range n, y i * a s * W n (((s : ℤ) + l - i) * j) =
      if s = (i + n - l) % n then y i * a ((i + n - l) % n) * n else 0 := by
    intro s hs
    have hs' := mem_range.1 hs
    rw [← mul_sum, sum_W hn]
    have hdiv : (n : ℤ) ∣ (s : ℤ) + l - i ↔ s = (i + n - l) % n := by
      have hmod : (i + n - l) % n = if l ≤ i then i - l else i + n - l := by
        split
        · rw [show i + n - l = (i - l) + n by omega, Nat.add_mod_right,
            Nat.mod_eq_of_lt (show i - l < n by omega)]
        · exact Nat.mod_eq_of_lt (by omega)
      rw [hmod]
      constructor
      · rintro ⟨t, ht⟩
        have h1 : t < 2 := by
          by_contra h
          have : (n : ℤ) * 2 ≤ n * t := by
            apply mul_le_mul_of_nonneg_left <;> omega
          omega
        have h2 : -1 < t := by
          by_contra h
          have : (n : ℤ) * t ≤ n * (-1) := by
            apply mul_le_mul_of_nonneg_left <;> omega
          omega
        have : t = 0 ∨ t = 1 := by omega
        rcases this with rfl | rfl
        · split <;> omega
        · split <;> omega
      · intro h
        split at h
        · exact ⟨0, by omega⟩
        · exact ⟨1, by omega⟩
    by_cases h : s = (i + n - l) % n
    · rw [if_pos (hdiv.2 h), if_pos h, h]
    · rw [if_neg (fun h' => h (hdiv.1 h')), if_neg h, mul_zero]
  rw [sum_congr rfl this, sum_ite_eq', if_pos (mem_range.2 (Nat.mod_lt _ hn))]

theorem specBlock_circ {k : Kind} (hk : superKind k = k) {n : ℕ} (hn : Admissible k n) {i l : ℕ}
    (hi : i < n) (hl : l < n) : specBlock k n ((i + n - l) % n) 0 = specBlock k n i l := by
  have hmod : (i + n - l) % n = if l ≤ i then i - l else i + n - l := by
    split
    · rw [show i + n - l = (i - l) + n by omega, Nat.add_mod_right,
        Nat.mod_eq_of_lt (show i - l < n by omega)]
    · exact Nat.mod_eq_of_lt (by omega)
  rw [hmod]
  cases k <;> simp only [superKind, reduceCtorEq] at hk <;> simp only [specBlock, Nat.dist]
  · split <;> split <;> split <;> omega
  · split <;> omega
  · split <;> omega

theorem firstColumn_eq {k : Kind} {n stored : ℕ} (hn : Admissible k n)
    (hs : stored = specStored k n) (e : ℕ → Arr ℂ) {i : ℕ} (hi : i < n) :
    firstColumn k stored e i = e (specBlock k n i 0) := by
  rw [firstColumn, hs, all_blocks_eq_spec k n hn i 0 hi hn.1]
  rfl

/-- Circulant product. -/
theorem circMatvec_eq {k : Kind} (hk : superKind k = k) {n stored p q : ℕ} (hn : Admissible k n)
    (hs : stored = specStored k n) (e : ℕ → Arr ℂ) (x : ℕ → ℂ) {r : ℕ} (hr : r < p * n) :
    circMatvec k stored n p q e x r =
      ∑ l ∈ range n, ∑ c ∈ range q, e (specBlock k n (r / p) l) (r % p) c * x (l * q + c) := by
  have hn0 : 0 < n := hn.1
  have hp : 0 < p := Nat.pos_of_ne_zero (by rintro rfl; omega)
  have hi : r / p < n := by rwa [Nat.div_lt_iff_lt_mul hp, Nat.mul_comm]
  rw [circMatvec]
  have step : ∀ j, mulVec q (blockDiag k stored n e j)
      (fun c => dft n (fun i => x (i * q + c)) j) (r % p) =
      dft n (fun i => ∑ c ∈ range q, ∑ l ∈ range n,
        firstColumn k stored e ((i + n - l) % n) (r % p) c * x (l * q + c)) j := by
    intro j
    rw [dft_sum]
    simp only [mulVec, blockDiag]
    apply sum_congr rfl
    intro c _
    exact (dft_conv hn0 (fun i => firstColumn k stored e i (r % p) c) (fun l => x (l * q + c)) j).symm
  rw [idft_congr step, idft_dft _ hi, sum_comm]
  apply sum_congr rfl
  intro l hl
  apply sum_congr rfl
  intro c _
  rw [firstColumn_eq hn hs e (Nat.mod_lt _ hn0), specBlock_circ hk hn hi (mem_range.1 hl)]

/-- Circulant product on the left: note the conjugate. -/
theorem circRmatvec_eq {k : Kind} (hk : superKind k = k) {n stored p q : ℕ} (hn : Admissible k n)
    (hs : stored = specStored k n) (e : ℕ → Arr ℂ) (x : ℕ → ℂ) {c : ℕ} (hc : c < q * n) :
    circRmatvec k stored n p q e x c =
      ∑ i ∈ range n, ∑ r ∈ range p,
        (starRingEnd ℂ) (x (i * p + r)) * e (specBlock k n i (c / q)) r (c % q) := by
  have hn0 : 0 < n := hn.1
  have hq : 0 < q := Nat.pos_of_ne_zero (by rintro rfl; omega)
  have hl : c / q < n := by rwa [Nat.div_lt_iff_lt_mul hq, Nat.mul_comm]
  rw [circRmatvec]
  simp only [vecMul, blockDiag]
  rw [dft_sum, sum_comm]
  apply sum_congr rfl
  intro r _
  rw [dft_idft_mul _ _ hl]
  apply sum_congr rfl
  intro i hi
  rw [firstColumn_eq hn hs e (Nat.mod_lt _ hn0), specBlock_circ hk hn (mem_range.1 hi) hl]

end Verif.Blocks
