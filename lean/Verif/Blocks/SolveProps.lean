import Verif.Blocks.ElementwiseProps

/-!
# Fast solvers of structured systems (C17)
-/

namespace Verif.Blocks

open Finset

/-! ## Specification -/

/-- `x` solves the system of matrix `e` with `h` lines and `w` columns. -/
def Solves (h w : ℕ) (e : Arr ℂ) (x b : ℕ → ℂ) : Prop :=
  ∀ r, r < h → ∑ c ∈ range w, e r c * x c = b r

/-- Contract of `np.linalg.solve`: a value that is returned solves the system. -/
def SolverSound (sd : ℕ → ℕ → Arr ℂ → (ℕ → ℂ) → Option (ℕ → ℂ)) : Prop :=
  ∀ h w a b x, sd h w a b = some x → Solves h w a x b

/-- The system has no non-zero solution for a zero right hand side. -/
def Injective (h w : ℕ) (e : Arr ℂ) : Prop :=
  ∀ y, Solves h w e y (fun _ => 0) → ∀ c, c < w → y c = 0

/-- Contract of `np.linalg.solve`: an invertible square system is always solved. -/
def SolverComplete (sd : ℕ → ℕ → Arr ℂ → (ℕ → ℂ) → Option (ℕ → ℂ)) : Prop :=
  ∀ n a b, Injective n n a → (sd n n a b).isSome

/-- All the stored blocks of a structured matrix have the same structure. -/
def HMat.Homog {R : Type} : HMat R → Prop
  | .dense _ _ _ => True
  | .gen hs ws b => ∀ i j, i < hs.length → j < ws.length → (b i j).Homog
  | .str _ _ _ s b => ∀ i, i < s → (b i).Homog ∧ (b 0).Same (b i)

/-- Nesting of structured matrices is at most `d`. -/
def HMat.DepthLe {R : Type} : HMat R → ℕ → Prop
  | .dense _ _ _, d => 1 ≤ d
  | .gen _ _ _, d => 1 ≤ d
  | .str _ _ _ s b, d => ∃ d', d = d' + 1 ∧ 1 ≤ d' ∧ ∀ i, i < s → (b i).DepthLe d'

/-! ## Lemmas -/

theorem HMat.Same.homog {R : Type} {A B : HMat R} (h : A.Same B) (hA : A.Homog) : B.Homog := by
  induction A generalizing B with
  | dense h w a =>
    cases B with
    | dense h' w' a' => trivial
    | _ => exact h.elim
  | gen hs ws b ih =>
    cases B with
    | gen hs' ws' b' =>
      obtain ⟨rfl, rfl, h3⟩ := h
      intro i j hi hj
      exact ih i j (h3 i j hi hj) (hA i j hi hj)
    | _ => exact h.elim
  | str k p q s b ih =>
    cases B with
    | str k' p' q' s' b' =>
      obtain ⟨rfl, rfl, rfl, rfl, h3⟩ := h
      intro i hi
      refine ⟨ih i (h3 i hi) (hA i hi).1, ?_⟩
      have h0 : 0 < s := by omega
      exact ((h3 0 h0).symm.trans (hA i hi).2).trans (h3 i hi)
    | _ => exact h.elim

theorem HMat.Same.depthLe {R : Type} {A B : HMat R} (h : A.Same B) {d : ℕ} (hA : A.DepthLe d) :
    B.DepthLe d := by
  induction A generalizing B d with
  | dense h w a =>
    cases B with
    | dense h' w' a' => exact hA
    | _ => exact h.elim
  | gen hs ws b ih =>
    cases B with
    | gen hs' ws' b' => exact hA
    | _ => exact h.elim
  | str k p q s b ih =>
    cases B with
    | str k' p' q' s' b' =>
      obtain ⟨rfl, rfl, rfl, rfl, h3⟩ := h
      obtain ⟨d', h1, h2, h4⟩ := hA
      exact ⟨d', h1, h2, fun i hi => ih i (h3 i hi) (h4 i hi)⟩
    | _ => exact h.elim

/-- The Fourier transform of a list of matrices acts entry by entry. -/
theorem fftOfList_spec (n j : ℕ) (T : HMat ℂ) (e : ℕ → HMat ℂ) (hT : T.WF)
    (he : ∀ i, i < n → T.Same (e i)) :
    (fftOfList n j T e).Same T ∧ ∀ r c, r < T.shape.1 → c < T.shape.2 →
      (fftOfList n j T e).entry r c = dft n (fun i => (e i).entry r c) j := by
  induction T generalizing e with
  | dense h w a => exact ⟨⟨rfl, rfl⟩, fun _ _ _ _ => rfl⟩
  | gen hs ws b ih =>
    have hst : ∀ i, i < n → ∃ b', e i = .gen hs ws b' ∧
        ∀ i' j', i' < hs.length → j' < ws.length → (b i' j').Same (b' i' j') := by
      intro i hi
      have := he i hi
      generalize e i = E at this
      cases E with
      | gen hs' ws' b' => obtain ⟨rfl, rfl, h3⟩ := this; exact ⟨b', rfl, h3⟩
      | _ => exact this.elim
    have key : ∀ i' j', i' < hs.length → j' < ws.length → _ := fun i' j' hi hj =>
      ih i' j' (fun i => (e i).stored i' j') (hT i' j' hi hj).1 (by
        intro i hin
        obtain ⟨b', hb, hs'⟩ := hst i hin
        rw [hb]
        exact hs' i' j' hi hj)
    refine ⟨⟨rfl, rfl, fun i' j' hi hj => (key i' j' hi hj).1⟩, ?_⟩
    intro r c hr hc
    obtain ⟨l1, l2, l3⟩ := locate_spec hs r hr
    obtain ⟨m1, m2, m3⟩ := locate_spec ws c hc
    have hwf := hT _ _ l1 m1
    simp only [fftOfList, HMat.entry]
    rw [(key _ _ l1 m1).2 _ _ (by rw [hwf.2]; exact l3) (by rw [hwf.2]; exact m3)]
    unfold dft
    apply sum_congr rfl
    intro i hi
    obtain ⟨b', hb, _⟩ := hst i (mem_range.1 hi)
    simp only [hb]
    rfl
  | str k p q s b ih =>
    have hst : ∀ i, i < n → ∃ b', e i = .str k p q s b' ∧
        ∀ i', i' < s → (b i').Same (b' i') := by
      intro i hi
      have := he i hi
      generalize e i = E at this
      cases E with
      | str k' p' q' s' b' =>
        obtain ⟨rfl, rfl, rfl, rfl, h3⟩ := this; exact ⟨b', rfl, h3⟩
      | _ => exact this.elim
    have key : ∀ i', i' < s → _ := fun i' hi =>
      ih i' (fun i => (e i).stored 0 i') (hT.2 i' hi).1 (by
        intro i hin
        obtain ⟨b', hb, hs'⟩ := hst i hin
        rw [hb]
        exact hs' i' hi)
    refine ⟨⟨rfl, rfl, rfl, rfl, fun i' hi => (key i' hi).1⟩, ?_⟩
    intro r c hr hc
    obtain ⟨i1, i2, i3⟩ := str_index_lt hT hr hc
    have hwf := hT.2 _ i1
    simp only [fftOfList, HMat.entry]
    rw [(key _ i1).2 _ _ (by rw [hwf.2]; exact i2) (by rw [hwf.2]; exact i3)]
    unfold dft
    apply sum_congr rfl
    intro i hi
    obtain ⟨b', hb, _⟩ := hst i (mem_range.1 hi)
    simp only [hb]
    rfl

theorem idft_congr' {n : ℕ} {X Y : ℕ → ℂ} (h : ∀ j, j < n → X j = Y j) (k : ℕ) :
    idft n X k = idft n Y k := by
  unfold idft
  congr 1
  exact sum_congr rfl fun j hj => by rw [h j (mem_range.1 hj)]

theorem solves_congr {h w : ℕ} {e e' : Arr ℂ} {x b : ℕ → ℂ}
    (he : ∀ r c, r < h → c < w → e r c = e' r c) : Solves h w e x b ↔ Solves h w e' x b := by
  constructor <;> intro H r hr <;> rw [← H r hr] <;> apply sum_congr rfl <;> intro c hc
  · rw [he r c hr (mem_range.1 hc)]
  · rw [he r c hr (mem_range.1 hc)]

theorem isCirculant_super {k : Kind} (h : isCirculant k = true) : superKind k = k := by
  cases k <;> simp_all [isCirculant, isInstance, superKind]

theorem firstColumnIndex_eq {k : Kind} {n s : ℕ} (hn : Admissible k n) (hs : s = specStored k n)
    {i : ℕ} (hi : i < n) : firstColumnIndex k s i = specBlock k n i 0 := by
  rw [firstColumnIndex, hs, all_blocks_eq_spec k n hn i 0 hi hn.1]
  rfl

/-- The product with a structured matrix, over the grid of blocks. -/
theorem str_sum {k : Kind} {p q s n : ℕ} {b : ℕ → HMat ℂ} (hnb : (nbBlocks k s).getD 0 = n)
    (x : ℕ → ℂ) (r : ℕ) :
    ∑ c ∈ range (q * n), (HMat.str k p q s b).entry r c * x c =
      ∑ l ∈ range n, ∑ t ∈ range q, (b (specBlock k n (r / p) l)).entry (r % p) t * x (l * q + t) := by
  rw [← sum_grid n q (fun l t => (b (specBlock k n (r / p) l)).entry (r % p) t * x (l * q + t))]
  apply sum_congr rfl
  intro c _
  simp only [HMat.entry, hnb]
  rw [Nat.mul_comm (c / q) q, Nat.div_add_mod]

/-- Solving the blocks of the diagonalisation solves the circulant system. -/
theorem circulant_solution {k : Kind} (hk : superKind k = k) {n s p q : ℕ} (hn : Admissible k n)
    (hs : s = specStored k n) (e : ℕ → Arr ℂ) (X : ℕ → ℕ → ℂ) (rhs : ℕ → ℂ)
    (hX : ∀ j, j < n → Solves p q (blockDiag k s n e j) (X j)
      (fun r => dft n (fun i => rhs (i * p + r)) j)) {r : ℕ} (hr : r < p * n) :
    ∑ l ∈ range n, ∑ t ∈ range q, e (specBlock k n (r / p) l) (r % p) t *
      (fun c => idft n (fun j => X j (c % q)) (c / q)) (l * q + t) = rhs r := by
  have hn0 : 0 < n := hn.1
  have hp : 0 < p := Nat.pos_of_ne_zero (by rintro rfl; omega)
  have hi : r / p < n := by rwa [Nat.div_lt_iff_lt_mul hp, Nat.mul_comm]
  refine (circMatvec_eq hk hn hs e (fun c => idft n (fun j => X j (c % q)) (c / q)) hr).symm.trans ?_
  rw [circMatvec]
  have step : ∀ j, j < n → mulVec q (blockDiag k s n e j)
      (fun c => dft n (fun i => (fun c => idft n (fun j => X j (c % q)) (c / q)) (i * q + c)) j)
        (r % p) = dft n (fun i => rhs (i * p + r % p)) j := by
    intro j hj
    refine Eq.trans ?_ (hX j hj (r % p) (Nat.mod_lt _ hp))
    simp only [mulVec]
    apply sum_congr rfl
    intro c hc
    have hc' := mem_range.1 hc
    have hq : 0 < q := by omega
    congr 1
    rw [← dft_idft (fun j => X j c) hj]
    unfold dft
    apply sum_congr rfl
    intro i _
    have e1 : (i * q + c) % q = c := by
      rw [Nat.mul_comm, Nat.mul_add_mod, Nat.mod_eq_of_lt hc']
    have e2 : (i * q + c) / q = i := by
      rw [Nat.mul_comm, Nat.mul_add_div hq, Nat.div_eq_of_lt hc', Nat.add_zero]
    simp only [e1, e2]
  rw [idft_congr' step, idft_dft _ hi, Nat.mul_comm, Nat.div_add_mod]

/-! ## Property -/

/-- **C17.** Whatever the nesting of structured matrices, the value returned by the direct solver
satisfies the full linear system. -/
theorem solve_directly_sound (sd) (hsd : SolverSound sd) (F0 : Arr ℂ) (fuel : ℕ) (M : HMat ℂ)
    (hM : M.WF) (hH : M.Homog) (rhs x : ℕ → ℂ) (hx : solveDirectly sd F0 fuel M rhs = some x) :
    Solves M.shape.1 M.shape.2 M.entry x rhs := by
  induction fuel generalizing M rhs x with
  | zero => simp [solveDirectly] at hx
  | succ fuel ih =>
    cases M with
    | dense h w a => exact hsd h w a rhs x hx
    | gen hs ws b =>
      rw [solveDirectly] at hx
      exact (solves_congr (fun r c hr hc => full_matrix_eq_entry _ hM F0 r c hr hc)).1
        (hsd _ _ _ _ _ hx)
    | str k p q s b =>
      obtain ⟨n, hn, hs⟩ := hM.1
      have hnb : (nbBlocks k s).getD 0 = n := by
        rw [hs, (block_positions k n hn).1]; rfl
      have hlt : ∀ i j, i < n → j < n → specBlock k n i j < s := by
        intro i j hi hj; rw [hs]; exact specBlock_lt k n i j hn hi hj
      rw [solveDirectly] at hx
      simp only [hnb] at hx
      split at hx
      · rename_i hc
        split at hx
        · rename_i hall
          simp only [List.all_eq_true, List.mem_range] at hall
          simp only [Option.some.injEq] at hx
          intro r hr
          simp only [HMat.shape, hnb] at hr ⊢
          rw [str_sum hnb, ← hx]
          apply circulant_solution (isCirculant_super hc) hn hs (fun m => (b m).entry) _ rhs ?_ hr
          intro j hj
          have hcol : ∀ i, i < n → firstColumnIndex k s i < s := by
            intro i hi; rw [firstColumnIndex_eq hn hs hi]; exact hlt i 0 hi hn.1
          have h0 := hcol 0 hn.1
          have hsame : ∀ i, i < n →
              (b (firstColumnIndex k s 0)).Same (b (firstColumnIndex k s i)) := fun i hi =>
            (hH _ h0).2.symm.trans (hH _ (hcol i hi)).2
          have hfft := fftOfList_spec n j (b (firstColumnIndex k s 0))
            (fun i => b (firstColumnIndex k s i)) (hM.2 _ h0).1 hsame
          obtain ⟨xj, hxj⟩ := Option.isSome_iff_exists.1 (hall j hj)
          have := ih _ (hfft.1.symm.wf (hM.2 _ h0).1) (hfft.1.symm.homog (hH _ h0).1) _ _ hxj
          rw [hfft.1.shape, (hM.2 _ h0).2] at this
          rw [hxj, Option.getD_some]
          refine (solves_congr ?_).1 this
          intro r c hr hc
          rw [hfft.2 r c (by rw [(hM.2 _ h0).2]; exact hr) (by rw [(hM.2 _ h0).2]; exact hc)]
          rfl
        · exact absurd hx (by simp)
      · split at hx
        · rename_i hc h2
          obtain ⟨rfl, rfl⟩ := h2
          have hs2 : s = 2 := hs
          subst hs2
          have hsame : (b 0).Same (b 1) := (hH 1 (by omega)).2
          obtain ⟨aP, p1, p2, p3, p4⟩ := elementwise_same (· + ·) (b 0) (b 1) (hM.2 0 (by omega)).1 hsame
          obtain ⟨aM, m1, m2, m3, m4⟩ := elementwise_same (· - ·) (b 0) (b 1) (hM.2 0 (by omega)).1 hsame
          have hsh := (hM.2 0 (by omega)).2
          rw [hsh] at p4 m4
          rw [p1, m1] at hx
          simp only [Option.bind_some] at hx
          cases hxp : solveDirectly sd F0 fuel aP (fun r => rhs r + rhs (p + r)) with
          | none => rw [hxp] at hx; simp at hx
          | some xP =>
          cases hxm : solveDirectly sd F0 fuel aM (fun r => rhs r - rhs (p + r)) with
          | none => rw [hxp, hxm] at hx; simp at hx
          | some xM =>
          rw [hxp, hxm] at hx
          simp only [Option.bind_some, Option.some.injEq, p3.shape, hsh] at hx
          have sP := ih aP p2 (p3.symm.homog (hH 0 (by omega)).1) _ _ hxp
          have sM := ih aM m2 (m3.symm.homog (hH 0 (by omega)).1) _ _ hxm
          rw [p3.shape, hsh, solves_congr p4] at sP
          rw [m3.shape, hsh, solves_congr m4] at sM
          intro r hr
          simp only [HMat.shape, hnb] at hr ⊢
          have hp : 0 < p := by omega
          rw [str_sum hnb, sum_range_succ, sum_range_one, ← hx]
          have e0 : ∀ t ∈ range q, (b (specBlock .symToeplitz 2 (r / p) 0)).entry (r % p) t *
              ((if 0 * q + t < q then xP (0 * q + t) + xM (0 * q + t)
              else xP (0 * q + t - q) - xM (0 * q + t - q)) / 2) =
              (b (specBlock .symToeplitz 2 (r / p) 0)).entry (r % p) t * ((xP t + xM t) / 2) := by
            intro t ht
            rw [zero_mul, zero_add, if_pos (mem_range.1 ht)]
          have e1 : ∀ t ∈ range q, (b (specBlock .symToeplitz 2 (r / p) 1)).entry (r % p) t *
              ((if 1 * q + t < q then xP (1 * q + t) + xM (1 * q + t)
              else xP (1 * q + t - q) - xM (1 * q + t - q)) / 2) =
              (b (specBlock .symToeplitz 2 (r / p) 1)).entry (r % p) t * ((xP t - xM t) / 2) := by
            intro t ht
            rw [one_mul, if_neg (by omega), Nat.add_sub_cancel_left]
          rw [sum_congr rfl e0, sum_congr rfl e1, ← sum_add_distrib]
          have hm : r % p < p := Nat.mod_lt _ hp
          have sP' : _ = rhs (r % p) + rhs (p + r % p) := sP (r % p) hm
          have sM' : _ = rhs (r % p) - rhs (p + r % p) := sM (r % p) hm
          have hdiv : r / p < 2 := by rwa [Nat.div_lt_iff_lt_mul hp, Nat.mul_comm]
          have hcases : r / p = 0 ∨ r / p = 1 :=
            Nat.le_one_iff_eq_zero_or_eq_one.1 (Nat.lt_succ_iff.1 hdiv)
          have hrr : p * (r / p) + r % p = r := Nat.div_add_mod r p
          rcases hcases with h | h
          · have hr0 : r = r % p := by rw [h] at hrr; omega
            rw [h]
            have : specBlock Kind.symToeplitz 2 0 0 = 0 ∧ specBlock Kind.symToeplitz 2 0 1 = 1 := by decide
            rw [this.1, this.2]
            have eq : rhs r = (rhs (r % p) + rhs (p + r % p) + (rhs (r % p) - rhs (p + r % p))) / 2 := by
              rw [← hr0]; ring
            rw [eq, ← sP', ← sM', ← sum_add_distrib, sum_div]
            apply sum_congr rfl
            intro t _
            ring
          · have hr1 : r = p + r % p := by rw [h] at hrr; omega
            rw [h]
            have : specBlock Kind.symToeplitz 2 1 0 = 1 ∧ specBlock Kind.symToeplitz 2 1 1 = 0 := by decide
            rw [this.1, this.2]
            have eq : rhs r = (rhs (r % p) + rhs (p + r % p) - (rhs (r % p) - rhs (p + r % p))) / 2 := by
              rw [← hr1]; ring
            rw [eq, ← sP', ← sM', ← sum_sub_distrib, sum_div]
            apply sum_congr rfl
            intro t _
            ring
        · have := hsd _ _ _ _ _ hx
          simp only [HMat.shape, hnb]
          refine (solves_congr (fun r c hr hc => full_matrix_eq_entry _ hM F0 r c ?_ ?_)).1 this
          · simpa only [HMat.shape, hnb] using hr
          · simpa only [HMat.shape, hnb] using hc

/-- A two-level example meeting the structural hypotheses: reflection symmetry of a rotational one. -/
def sampleSystem : HMat ℂ :=
  .str .symToeplitz 3 3 2 fun i => .str .circulant 1 1 3 fun j =>
    .dense 1 1 fun _ _ => if i = 0 ∧ j = 0 then 1 else 0

example : sampleSystem.WF ∧ sampleSystem.Homog ∧ sampleSystem.DepthLe 3 := by
  refine ⟨⟨⟨2, by simp [Admissible], rfl⟩, fun _ _ => ⟨⟨⟨3, by simp [Admissible], rfl⟩,
    fun _ _ => ⟨trivial, rfl⟩⟩, rfl⟩⟩, fun i _ => ⟨fun j _ => ⟨trivial, rfl, rfl⟩,
      rfl, rfl, rfl, rfl, fun _ _ => ⟨rfl, rfl⟩⟩, 2, rfl, by decide, fun _ _ => ⟨1, rfl, by decide,
        fun _ _ => le_refl _⟩⟩

theorem injective_congr {h w : ℕ} {e e' : Arr ℂ} (he : ∀ r c, r < h → c < w → e r c = e' r c) :
    Injective h w e ↔ Injective h w e' := by
  unfold Injective
  simp only [solves_congr he]

/-- The blocks of the diagonalisation of an invertible circulant matrix are invertible. -/
theorem circulant_blocks_injective {k : Kind} (hk : superKind k = k) {n s p q : ℕ}
    (hn : Admissible k n) (hs : s = specStored k n) (b : ℕ → HMat ℂ)
    (hnb : (nbBlocks k s).getD 0 = n)
    (hinj : Injective (p * n) (q * n) (HMat.str k p q s b).entry) {j : ℕ} (hj : j < n) :
    Injective p q (blockDiag k s n (fun m => (b m).entry) j) := by
  intro y hy
  let X : ℕ → ℕ → ℂ := fun j' => if j' = j then y else fun _ => 0
  have hz : ∀ j', dft n (fun _ => (0 : ℂ)) j' = 0 := by intro j'; simp [dft]
  have h := hinj (fun c => idft n (fun j => X j (c % q)) (c / q)) (by
    intro r hr
    rw [str_sum hnb]
    apply circulant_solution hk hn hs (fun m => (b m).entry) X (fun _ => 0) ?_ hr
    intro j' hj' r hr
    rw [hz]
    simp only [X]
    split
    · rename_i h; subst h; exact hy r hr
    · simp)
  intro t ht
  have hq : 0 < q := by omega
  have : y t = dft n (idft n (fun j => X j t)) j := by
    rw [dft_idft _ hj]; simp [X]
  rw [this]
  have e : ∀ i ∈ range n, idft n (fun j => X j t) i * W n (i * j) = 0 := by
    intro i hi
    have hi' := mem_range.1 hi
    have := h (i * q + t) (by
      have := Nat.mul_le_mul_right q (Nat.succ_le_of_lt hi')
      rw [Nat.succ_mul, Nat.mul_comm n q] at this
      omega)
    have e1 : (i * q + t) % q = t := by
      rw [Nat.mul_comm, Nat.mul_add_mod, Nat.mod_eq_of_lt ht]
    have e2 : (i * q + t) / q = i := by
      rw [Nat.mul_comm, Nat.mul_add_div hq, Nat.div_eq_of_lt ht, Nat.add_zero]
    simp only [e1, e2] at this
    rw [this, zero_mul]
  rw [dft, sum_congr rfl e, sum_const_zero]

/-- `A + B` and `A - B` are invertible when the symmetric two by two matrix is. -/
theorem symmetric_blocks_injective {p q : ℕ} (b : ℕ → HMat ℂ)
    (hinj : Injective (p * 2) (q * 2) (HMat.str .symToeplitz p q 2 b).entry) :
    Injective p q (fun r c => (b 0).entry r c + (b 1).entry r c) ∧
      Injective p q (fun r c => (b 0).entry r c - (b 1).entry r c) := by
  have s00 : specBlock Kind.symToeplitz 2 0 0 = 0 := by decide
  have s01 : specBlock Kind.symToeplitz 2 0 1 = 1 := by decide
  have s10 : specBlock Kind.symToeplitz 2 1 0 = 1 := by decide
  have s11 : specBlock Kind.symToeplitz 2 1 1 = 0 := by decide
  have hnb : (nbBlocks Kind.symToeplitz 2).getD 0 = 2 := rfl
  have main : ∀ (σ : ℂ), σ * σ = 1 → ∀ y : ℕ → ℂ,
      Solves p q (fun r c => (b 0).entry r c + σ * (b 1).entry r c) y (fun _ => 0) →
      ∀ c, c < q → y c = 0 := by
    intro σ hσ y hy c hc
    have h := hinj (fun c => if c < q then y c else σ * y (c - q)) (by
      intro r hr
      have hp : 0 < p := by omega
      rw [str_sum hnb, sum_range_succ, sum_range_one, ← sum_add_distrib]
      have hm : r % p < p := Nat.mod_lt _ hp
      have hdiv : r / p < 2 := by rwa [Nat.div_lt_iff_lt_mul hp, Nat.mul_comm]
      have e : ∀ t ∈ range q,
          (b (specBlock Kind.symToeplitz 2 (r / p) 0)).entry (r % p) t *
            (if 0 * q + t < q then y (0 * q + t) else σ * y (0 * q + t - q)) +
          (b (specBlock Kind.symToeplitz 2 (r / p) 1)).entry (r % p) t *
            (if 1 * q + t < q then y (1 * q + t) else σ * y (1 * q + t - q)) =
          (b (specBlock Kind.symToeplitz 2 (r / p) 0)).entry (r % p) t * y t +
          (b (specBlock Kind.symToeplitz 2 (r / p) 1)).entry (r % p) t * (σ * y t) := by
        intro t ht
        have ht' := mem_range.1 ht
        rw [zero_mul, zero_add, if_pos ht', one_mul, if_neg (by omega), Nat.add_sub_cancel_left]
      rw [sum_congr rfl e]
      have hy' : _ = (0 : ℂ) := hy (r % p) hm
      rcases Nat.le_one_iff_eq_zero_or_eq_one.1 (Nat.lt_succ_iff.1 hdiv) with h | h
      · rw [h, s00, s01, ← hy']
        apply sum_congr rfl
        intro t _
        ring
      · rw [h, s10, s11]
        refine Eq.trans ?_ ((congrArg (fun z => σ * z) hy').trans (mul_zero σ))
        simp only [mul_sum]
        apply sum_congr rfl
        intro t _
        linear_combination (-(b 1).entry (r % p) t * y t) * hσ)
    have := h c (by omega)
    simpa [hc] using this
  constructor
  · intro y hy c hc
    exact main 1 (by ring) y (by simpa using hy) c hc
  · intro y hy c hc
    exact main (-1) (by ring) y (by simpa [sub_eq_add_neg] using hy) c hc

/-- **C17, completeness.** If the full matrix is invertible, the direct solver returns a value: none
of the systems that it solves on the way is singular. -/
theorem solve_directly_complete (sd) (hsd : SolverComplete sd) (F0 : Arr ℂ) (fuel : ℕ) (M : HMat ℂ)
    (hM : M.WF) (hH : M.Homog) (hd : M.DepthLe fuel) (hsq : M.shape.1 = M.shape.2)
    (hinj : Injective M.shape.1 M.shape.2 M.entry) (rhs : ℕ → ℂ) :
    (solveDirectly sd F0 fuel M rhs).isSome := by
  induction fuel generalizing M rhs with
  | zero =>
    cases M with
    | str k p q s b => obtain ⟨d', h, _⟩ := hd; omega
    | _ => exact absurd hd (by simp [HMat.DepthLe])
  | succ fuel ih =>
    cases M with
    | dense h w a =>
      obtain rfl : h = w := hsq
      exact hsd _ _ _ hinj
    | gen hs ws b =>
      rw [solveDirectly]
      have hsq' : hs.sum = ws.sum := hsq
      rw [← hsq']
      apply hsd
      refine (injective_congr fun r c hr hc => ?_).1 (by simpa only [HMat.shape, ← hsq'] using hinj)
      exact (full_matrix_eq_entry _ hM F0 r c hr (by rw [← hsq]; exact hc)).symm
    | str k p q s b =>
      obtain ⟨n, hn, hs⟩ := hM.1
      have hn1 := hn.1
      have hnb : (nbBlocks k s).getD 0 = n := by
        rw [hs, (block_positions k n hn).1]; rfl
      have hlt : ∀ i j, i < n → j < n → specBlock k n i j < s := by
        intro i j hi hj; rw [hs]; exact specBlock_lt k n i j hn hi hj
      simp only [HMat.shape, hnb] at hsq hinj
      obtain rfl : p = q := Nat.eq_of_mul_eq_mul_right hn1 hsq
      obtain ⟨d', hd1, _, hd2⟩ := hd
      obtain rfl : fuel = d' := by omega
      rw [solveDirectly]
      simp only [hnb]
      split
      · rename_i hc
        have hcol : ∀ i, i < n → firstColumnIndex k s i < s := by
          intro i hi; rw [firstColumnIndex_eq hn hs hi]; exact hlt i 0 hi hn.1
        have h0 := hcol 0 hn.1
        have hsame : ∀ i, i < n →
            (b (firstColumnIndex k s 0)).Same (b (firstColumnIndex k s i)) := fun i hi =>
          (hH _ h0).2.symm.trans (hH _ (hcol i hi)).2
        rw [if_pos]
        · rfl
        simp only [List.all_eq_true, List.mem_range]
        intro j hj
        have hfft := fftOfList_spec n j (b (firstColumnIndex k s 0))
          (fun i => b (firstColumnIndex k s i)) (hM.2 _ h0).1 hsame
        have hsh : (fftOfList n j (b (firstColumnIndex k s 0))
          (fun i => b (firstColumnIndex k s i))).shape = (p, p) := by
          rw [hfft.1.shape, (hM.2 _ h0).2]
        apply ih _ (hfft.1.symm.wf (hM.2 _ h0).1) (hfft.1.symm.homog (hH _ h0).1)
          (hfft.1.symm.depthLe (hd2 _ h0)) (by rw [hsh])
        rw [hsh]
        refine (injective_congr fun r c hr hc => ?_).1
          (circulant_blocks_injective (isCirculant_super hc) hn hs b hnb hinj hj)
        rw [hfft.2 r c (by rw [(hM.2 _ h0).2]; exact hr) (by rw [(hM.2 _ h0).2]; exact hc)]
        rfl
      · split
        · rename_i hc h2
          obtain ⟨rfl, rfl⟩ := h2
          have hs2 : s = 2 := hs
          subst hs2
          have hsame : (b 0).Same (b 1) := (hH 1 (by omega)).2
          obtain ⟨aP, p1, p2, p3, p4⟩ := elementwise_same (· + ·) (b 0) (b 1) (hM.2 0 (by omega)).1 hsame
          obtain ⟨aM, m1, m2, m3, m4⟩ := elementwise_same (· - ·) (b 0) (b 1) (hM.2 0 (by omega)).1 hsame
          have hsh := (hM.2 0 (by omega)).2
          rw [hsh] at p4 m4
          have hi := symmetric_blocks_injective b hinj
          have d0 := hd2 0 (by omega)
          have hP := ih aP p2 (p3.symm.homog (hH 0 (by omega)).1) (p3.symm.depthLe d0)
            (by rw [p3.shape, hsh]) (by rw [p3.shape, hsh, injective_congr p4]; exact hi.1)
            (fun r => rhs r + rhs (p + r))
          have hMi := ih aM m2 (m3.symm.homog (hH 0 (by omega)).1) (m3.symm.depthLe d0)
            (by rw [m3.shape, hsh]) (by rw [m3.shape, hsh, injective_congr m4]; exact hi.2)
            (fun r => rhs r - rhs (p + r))
          obtain ⟨xP, hxP⟩ := Option.isSome_iff_exists.1 hP
          obtain ⟨xM, hxM⟩ := Option.isSome_iff_exists.1 hMi
          rw [p1, m1]
          simp only [Option.bind_some]
          rw [hxP, hxM]
          rfl
        · apply hsd
          refine (injective_congr fun r c hr hc => ?_).1 hinj
          exact (full_matrix_eq_entry _ hM F0 r c (by simpa only [HMat.shape, hnb] using hr)
            (by simpa only [HMat.shape, hnb] using hc)).symm

/-- The example system is the identity, so it is invertible. -/
example : Injective sampleSystem.shape.1 sampleSystem.shape.2 sampleSystem.entry := by
  intro y hy c hc
  have h6 : sampleSystem.shape = (6, 6) := rfl
  rw [h6] at hy hc
  have := hy c hc
  have hc6 : c = 0 ∨ c = 1 ∨ c = 2 ∨ c = 3 ∨ c = 4 ∨ c = 5 := by
    simp only at hc; omega
  rcases hc6 with rfl | rfl | rfl | rfl | rfl | rfl <;>
    simpa [sampleSystem, HMat.entry, sum_range_succ, nbBlocks, specBlock, Nat.dist] using this

end Verif.Blocks
