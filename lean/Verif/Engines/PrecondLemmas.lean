import Verif.Engines.PrecondModel
import Mathlib.Algebra.BigOperators.Fin
import Mathlib.LinearAlgebra.Matrix.ToLin
import Mathlib.Tactic.Ring
import Mathlib.Tactic.Abel
import Mathlib.Tactic.FinCases
import Mathlib.Tactic.Linarith

/-!
# Lemmas about the preconditioner
-/

namespace Verif.Engines

/-! ## Abstract block Jacobi step -/

section Abstract

variable {F V W : Type} [Field F] [AddCommGroup V] [Module F V] [AddCommGroup W] [Module F W]

/-- One step of the method, for linear maps: `K` is the matrix used in the residual. -/
def absStep (A K : V →ₗ[F] V) (R : V →ₗ[F] W) (T : W →ₗ[F] V) (di : V → V) (ci : W → W) (b x : V) : V :=
  di (b - K x) + T (ci (R b - R (A (di (b - K x)))))

variable {A D : V →ₗ[F] V} {R : V →ₗ[F] W} {T : W →ₗ[F] V} {di : V → V} {ci : W → W}

theorem inv_add {V : Type} [AddCommGroup V] [Module F V] {D : V →ₗ[F] V} {di : V → V}
    (hD : ∀ q y, D y = q ↔ y = di q) (a b : V) : di a + di b = di (a + b) := by
  rw [← hD, map_add, (hD _ _).2 rfl, (hD _ _).2 rfl]

/-- The equation of the preconditioned system. -/
theorem abs_equation {K : V →ₗ[F] V} (hD : ∀ q y, D y = q ↔ y = di q)
    (hC : ∀ q y, R (A (T y)) = q ↔ y = ci q) (b x : V) :
    x - absStep A K R T di ci 0 x = absStep A K R T di ci b 0 ↔
      x = di (b - K x) + T (ci (R b - R (A (di (b - K x))))) := by
  have hC' : ∀ q y, (R ∘ₗ A ∘ₗ T) y = q ↔ y = ci q := fun q y => hC q y
  have h1 : di (0 - K x) + di (b - K 0) = di (b - K x) := by
    rw [inv_add hD]; simp [sub_eq_neg_add]
  have h2 : ci (R 0 - R (A (di (0 - K x)))) + ci (R b - R (A (di (b - K 0)))) =
      ci (R b - R (A (di (b - K x)))) := by
    rw [inv_add hC', ← h1]; simp only [map_add, map_zero]; congr 1; abel
  unfold absStep
  have key : di (b - K x) + T (ci (R b - R (A (di (b - K x))))) =
      di (b - K 0) + T (ci (R b - R (A (di (b - K 0))))) + (di (0 - K x) + T (ci (R 0 - R (A (di (0 - K x)))))) := by
    rw [← h2, ← h1, map_add]; abel
  rw [sub_eq_iff_eq_add, key]

/-- With the diagonal removed from the residual. -/
theorem abs_complete (hD : ∀ q y, D y = q ↔ y = di q) (hC : ∀ q y, R (A (T y)) = q ↔ y = ci q) {b x : V}
    (h : A x = b) : x - absStep A (A - D) R T di ci 0 x = absStep A (A - D) R T di ci b 0 := by
  rw [abs_equation hD hC]
  have h1 : x = di (b - (A - D) x) := by
    rw [← hD, ← h]; simp
  rw [← h1, h, sub_self, ← (hC 0 0).1 (by simp)]
  simp

theorem abs_sound_iff (hD : ∀ q y, D y = q ↔ y = di q) (hC : ∀ q y, R (A (T y)) = q ↔ y = ci q) :
    (∀ b x, x - absStep A (A - D) R T di ci 0 x = absStep A (A - D) R T di ci b 0 → A x = b) ↔
      ∀ c, R (D (T c)) = 0 → c = 0 := by
  have hinj : ∀ c, R (A (T c)) = 0 → c = 0 := fun c hc => by
    rw [(hC 0 c).1 hc, ← (hC 0 0).1 (by simp)]
  constructor
  · intro h c hc
    have hp : di (-D (T c) - (A - D) 0) = -T c := by
      rw [eq_comm, ← hD]; simp
    have := h (-D (T c)) 0 ((abs_equation hD hC _ _).2 (by
      rw [hp, map_neg, map_neg, map_neg, hc, neg_zero, zero_sub, neg_neg, ← (hC _ c).1 rfl]
      simp))
    rw [map_zero, zero_eq_neg] at this
    have hT : T c = 0 := by
      rw [(hD 0 _).1 this, ← (hD 0 0).1 (by simp)]
    exact hinj c (by simp [hT])
  · intro h b x hx
    rw [abs_equation hD hC] at hx
    generalize hc : ci (R b - R (A (di (b - (A - D) x)))) = c at hx
    generalize hp : di (b - (A - D) x) = p at hx hc
    have h1 : D p = b - (A - D) x := (hD _ _).2 hp.symm
    have h2 : R (A (T c)) = R b - R (A p) := (hC _ _).2 hc.symm
    have h3 : A x = b + D (T c) := by
      have : D x = D p + D (T c) := by conv_lhs => rw [hx]
                                       rw [map_add]
      rw [h1, LinearMap.sub_apply] at this
      have h4 : A x = A x - D x + D x := by abel
      rw [h4]; nth_rewrite 2 [this]; abel
    have h4 : R (A x) = R b := by
      have : R (A x) = R (A p) + R (A (T c)) := by conv_lhs => rw [hx]
                                                   rw [map_add, map_add]
      rw [this, h2]; abel
    have h5 : c = 0 := h c (by
      rw [h3, map_add] at h4
      simpa using h4)
    rw [h3, h5]; simp

/-- With the whole matrix in the residual. -/
theorem abs_lost_iff (hD : ∀ q y, D y = q ↔ y = di q) (hC : ∀ q y, R (A (T y)) = q ↔ y = ci q) {b x : V}
    (h : A x = b) : x - absStep A A R T di ci 0 x = absStep A A R T di ci b 0 ↔ ∃ c, x = T c := by
  rw [abs_equation hD hC, h, sub_self, ← (hD 0 0).1 (by simp)]
  simp only [map_zero, sub_zero, zero_add]
  constructor
  · intro hx
    exact ⟨_, hx⟩
  · rintro ⟨c, hc⟩
    rw [← (hC (R b) c).1 (by rw [← hc, h]), hc]

end Abstract

/-! ## Slices -/

open DiagTree

theorem locate_spec (s : List ℕ) (r : ℕ) (h : r < s.sum) : (locate s r).1 < s.length ∧
    (locate s r).2 < s.getD (locate s r).1 0 ∧ startOf s (locate s r).1 + (locate s r).2 = r := by
  induction s generalizing r with
  | nil => simp at h
  | cons n s ih =>
    rw [locate]
    split_ifs with hr
    · simp [startOf, hr]
    · obtain ⟨h1, h2, h3⟩ := ih (r - n) (by simp at h; omega)
      refine ⟨by simpa using h1, by simpa using h2, ?_⟩
      simp only [startOf, List.take_succ_cons, List.sum_cons] at h3 ⊢
      omega

theorem locate_start (s : List ℕ) (k i : ℕ) (hi : i < s.getD k 0) : locate s (startOf s k + i) = (k, i) := by
  induction s generalizing k with
  | nil => simp at hi
  | cons n s ih =>
    cases k with
    | zero => simp at hi; simp [startOf, locate, hi]
    | succ k =>
      simp only [List.getD_cons_succ] at hi
      have hs : startOf (n :: s) (k + 1) + i = n + (startOf s k + i) := by simp [startOf, add_assoc]
      rw [hs, locate, if_neg (by omega), Nat.add_sub_cancel_left, ih k hi]

theorem start_lt (s : List ℕ) (k i : ℕ) (hi : i < s.getD k 0) : startOf s k + i < s.sum := by
  induction s generalizing k with
  | nil => simp at hi
  | cons n s ih =>
    cases k with
    | zero => simp at hi; simp [startOf]; omega
    | succ k =>
      simp only [List.getD_cons_succ] at hi
      have := ih k hi
      simp only [startOf, List.take_succ_cons, List.sum_cons] at this ⊢
      omega

theorem start_succ (s : List ℕ) (k : ℕ) : startOf s (k + 1) = startOf s k + s.getD k 0 := by
  induction s generalizing k with
  | nil => simp [startOf]
  | cons n s ih =>
    cases k with
    | zero => simp [startOf]
    | succ k =>
      have := ih k
      simp only [startOf, List.take_succ_cons, List.sum_cons, List.getD_cons_succ] at this ⊢
      omega

theorem forall_slices {s : List ℕ} {P : ℕ → Prop} :
    (∀ r < s.sum, P r) ↔ ∀ k < s.length, ∀ i < s.getD k 0, P (startOf s k + i) := by
  constructor
  · intro h k _ i hi
    exact h _ (start_lt s k i hi)
  · intro h r hr
    obtain ⟨h1, h2, h3⟩ := locate_spec s r hr
    rw [← h3]; exact h _ h1 _ h2

theorem sum_slices {M : Type} [AddCommMonoid M] (s : List ℕ) (f : ℕ → M) :
    ∑ r ∈ Finset.range s.sum, f r =
      ∑ k ∈ Finset.range s.length, ∑ i ∈ Finset.range (s.getD k 0), f (startOf s k + i) := by
  induction s generalizing f with
  | nil => simp
  | cons n s ih =>
    rw [List.sum_cons, Finset.sum_range_add, ih, List.length_cons, Finset.sum_range_succ', add_comm]
    simp [startOf, add_assoc]

theorem start_mono (s : List ℕ) {j k : ℕ} (h : j ≤ k) : startOf s j ≤ startOf s k := by
  induction k, h using Nat.le_induction with
  | base => exact le_rfl
  | succ k _ ih => rw [start_succ]; omega

variable {F : Type} [Field F]

theorem restriction_start (s : List ℕ) (j k i : ℕ) (hi : i < s.getD k 0) :
    restriction (F := F) s j (startOf s k + i) = if j = k then 1 else 0 := by
  unfold restriction
  congr 1
  rw [eq_iff_iff]
  constructor
  · rintro ⟨h1, h2⟩
    rcases lt_trichotomy j k with h | h | h
    · have := start_mono s (show j + 1 ≤ k by omega); omega
    · exact h
    · have := start_mono s (show k + 1 ≤ j by omega)
      rw [start_succ] at this; omega
  · rintro rfl
    rw [start_succ]; omega

/-! ## The matrix of the diagonal blocks -/

/-- The entries of the diagonal blocks, and zero elsewhere. -/
def flatDiag (l : List (ℕ × (ℕ → ℕ → F))) (r c : ℕ) : F :=
  if (locate (l.map Prod.fst) r).1 = (locate (l.map Prod.fst) c).1 then
    (l.getD (locate (l.map Prod.fst) r).1 (0, fun _ _ => 0)).2 (locate (l.map Prod.fst) r).2 (locate (l.map Prod.fst) c).2
  else 0

theorem flat_start (l : List (ℕ × (ℕ → ℕ → F))) {k k' i j : ℕ} (hi : i < (l.map Prod.fst).getD k 0)
    (hj : j < (l.map Prod.fst).getD k' 0) :
    flatDiag l (startOf (l.map Prod.fst) k + i) (startOf (l.map Prod.fst) k' + j) =
      if k = k' then (l.getD k (0, fun _ _ => 0)).2 i j else 0 := by
  unfold flatDiag
  rw [locate_start _ _ _ hi, locate_start _ _ _ hj]

theorem flat_mul (l : List (ℕ × (ℕ → ℕ → F))) (y : ℕ → F) {k i : ℕ} (hi : i < (l.map Prod.fst).getD k 0) :
    matVec (l.map Prod.fst).sum (flatDiag l) y (startOf (l.map Prod.fst) k + i) =
      matVec ((l.map Prod.fst).getD k 0) (l.getD k (0, fun _ _ => 0)).2
        (fun j => y (startOf (l.map Prod.fst) k + j)) i := by
  have hk : k < (l.map Prod.fst).length := by
    by_contra h
    rw [List.getD_eq_getElem?_getD, List.getElem?_eq_none (by omega), Option.getD_none] at hi
    omega
  unfold matVec
  rw [sum_slices, Finset.sum_eq_single_of_mem k (Finset.mem_range.2 hk)]
  · refine Finset.sum_congr rfl fun j hj => ?_
    rw [flat_start l hi (Finset.mem_range.1 hj), if_pos rfl]
  · intro k' _ hne
    refine Finset.sum_eq_zero fun j hj => ?_
    rw [flat_start l hi (Finset.mem_range.1 hj), if_neg (Ne.symm hne), zero_mul]

/-- A function that returns the only solution of a system. -/
def IsSolver (n : ℕ) (m : ℕ → ℕ → F) (s : (ℕ → F) → ℕ → F) : Prop :=
  ∀ q y, (∀ r < n, matVec n m y r = q r) ↔ ∀ r < n, y r = s q r

/-- The solution computed block by block. -/
def flatSolve (shapes : List ℕ) (s : ℕ → (ℕ → F) → ℕ → F) (q : ℕ → F) (r : ℕ) : F :=
  s (locate shapes r).1 (fun i => q (startOf shapes (locate shapes r).1 + i)) (locate shapes r).2

theorem flat_solver (l : List (ℕ × (ℕ → ℕ → F))) (s : ℕ → (ℕ → F) → ℕ → F)
    (h : ∀ k < l.length, IsSolver (l.getD k (0, fun _ _ => 0)).1 (l.getD k (0, fun _ _ => 0)).2 (s k)) :
    IsSolver (l.map Prod.fst).sum (flatDiag l) (flatSolve (l.map Prod.fst) s) := by
  intro q y
  rw [forall_slices, forall_slices]
  refine forall_congr' fun k => forall_congr' fun hk => ?_
  have hg : (l.map Prod.fst).getD k 0 = (l.getD k (0, fun _ _ => 0)).1 := by
    simp only [List.getD_eq_getElem?_getD, List.getElem?_map]
    cases l[k]? <;> rfl
  have h1 := h k (by simpa using hk) (fun i => q (startOf (l.map Prod.fst) k + i))
    (fun i => y (startOf (l.map Prod.fst) k + i))
  rw [← hg] at h1
  constructor
  · intro h2 i hi
    unfold flatSolve
    rw [locate_start _ _ _ hi]
    exact h1.1 (fun j hj => by rw [← h2 j hj, flat_mul l y hj]) i hi
  · intro h2 i hi
    rw [flat_mul l y hi]
    refine h1.2 (fun j hj => ?_) i hi
    have := h2 j hj
    unfold flatSolve at this
    rw [locate_start _ _ _ hj] at this
    exact this

/-! ## Binary trees -/

namespace DiagTree

variable {F : Type}

/-- Every collection has two parts. -/
def Binary : DiagTree F → Prop
  | leaf _ _ => True
  | node _ k sub _ => k = 2 ∧ ∀ i, (sub i).Binary

/-- Every mesh has at least `m` panels, and no collection is empty. -/
def Filled (m : ℕ) : DiagTree F → Prop
  | leaf n _ => m ≤ n
  | node _ k sub _ => 0 < k ∧ ∀ i, (sub i).Filled m

/-- Every collection that contains a mesh directly has its blocks stored. -/
def Stored : DiagTree F → Prop
  | leaf _ _ => True
  | node st _ sub _ => ∀ i, (match sub i with | leaf _ _ => st = true | node _ _ _ _ => True) ∧ (sub i).Stored

/-- No collection that contains a mesh directly has its blocks stored. -/
def Lost : DiagTree F → Prop
  | leaf _ _ => True
  | node st _ sub _ => ∀ i, (match sub i with | leaf _ _ => st = false | node _ _ _ _ => True) ∧ (sub i).Lost

theorem size_two (st : Bool) (sub : Fin 2 → DiagTree F) (off : ℕ → ℕ → ℕ → ℕ → F) :
    (node st 2 sub off).size = (sub 0).size + (sub 1).size := by
  rw [size, Fin.sum_univ_two]

theorem leaves_two (st : Bool) (sub : Fin 2 → DiagTree F) (off : ℕ → ℕ → ℕ → ℕ → F) :
    (node st 2 sub off).leaves = (sub 0).leaves ++ (sub 1).leaves := by
  rw [leaves, show List.finRange 2 = [0, 1] from rfl]; simp

theorem paths_two (st : Bool) (sub : Fin 2 → DiagTree F) (off : ℕ → ℕ → ℕ → ℕ → F) :
    (node st 2 sub off).paths = (sub 0).paths.map (0 :: ·) ++ (sub 1).paths.map (1 :: ·) := by
  rw [paths, show List.finRange 2 = [0, 1] from rfl]; simp

theorem size_pos {t : DiagTree F} (hb : t.Binary) (hf : t.Filled 1) : 0 < t.size := by
  induction t with
  | leaf n a => exact hf
  | node st k sub off ih =>
    obtain ⟨rfl, hb⟩ := hb
    rw [size_two]
    have := ih 0 (hb 0) (hf.2 0)
    omega

theorem shapes_sum {t : DiagTree F} (hb : t.Binary) : (t.leaves.map Prod.fst).sum = t.size := by
  induction t with
  | leaf n a => simp [leaves, size]
  | node st k sub off ih =>
    obtain ⟨rfl, hb⟩ := hb
    rw [leaves_two, size_two, List.map_append, List.sum_append, ih 0 (hb 0), ih 1 (hb 1)]

theorem paths_length {t : DiagTree F} (hb : t.Binary) : t.paths.length = t.leaves.length := by
  induction t with
  | leaf n a => simp [leaves, paths]
  | node st k sub off ih =>
    obtain ⟨rfl, hb⟩ := hb
    simp [leaves_two, paths_two, ih 0 (hb 0), ih 1 (hb 1)]

theorem entry_two [Zero F] (st : Bool) (sub : Fin 2 → DiagTree F) (off : ℕ → ℕ → ℕ → ℕ → F) {r c : ℕ}
    (hr : r < (sub 0).size + (sub 1).size) (hc : c < (sub 0).size + (sub 1).size) :
    (node st 2 sub off).entry r c =
      if r < (sub 0).size then
        if c < (sub 0).size then (sub 0).entry r c else off 0 1 r (c - (sub 0).size)
      else if c < (sub 0).size then off 1 0 (r - (sub 0).size) c
      else (sub 1).entry (r - (sub 0).size) (c - (sub 0).size) := by
  have hl : ∀ x, x < (sub 0).size + (sub 1).size → locate (List.ofFn fun i => (sub i).size) x =
      if x < (sub 0).size then (0, x) else (1, x - (sub 0).size) := by
    intro x hx
    have : List.ofFn (fun i => (sub i).size) = [(sub 0).size, (sub 1).size] := by simp [List.ofFn_succ]
    rw [this, locate, locate]
    by_cases h : x < (sub 0).size
    · rw [if_pos h, if_pos h]
    · rw [if_neg h, if_neg h, if_pos (by omega)]
  rw [entry]
  simp only [hl r hr, hl c hc]
  by_cases h1 : r < (sub 0).size <;> by_cases h2 : c < (sub 0).size <;> simp [h1, h2]

end DiagTree

theorem locate_append_left (s s' : List ℕ) {r : ℕ} (h : r < s.sum) : locate (s ++ s') r = locate s r := by
  induction s generalizing r with
  | nil => simp at h
  | cons n s ih =>
    rw [List.cons_append, locate, locate]
    split_ifs with hr
    · rfl
    · rw [ih (by simp at h; omega)]

theorem locate_append_right (s s' : List ℕ) (r : ℕ) :
    locate (s ++ s') (s.sum + r) = (s.length + (locate s' r).1, (locate s' r).2) := by
  induction s with
  | nil => simp
  | cons n s ih =>
    rw [List.cons_append, locate, List.sum_cons, if_neg (by omega), add_assoc, Nat.add_sub_cancel_left, ih]
    simp; omega

theorem flat_append_left (l l' : List (ℕ × (ℕ → ℕ → F))) {r c : ℕ} (hr : r < (l.map Prod.fst).sum)
    (hc : c < (l.map Prod.fst).sum) : flatDiag (l ++ l') r c = flatDiag l r c := by
  have := (locate_spec _ r hr).1
  rw [List.length_map] at this
  unfold flatDiag
  rw [List.map_append, locate_append_left _ _ hr, locate_append_left _ _ hc,
    List.getD_eq_getElem?_getD, List.getElem?_append_left this, ← List.getD_eq_getElem?_getD]

theorem flat_append_right (l l' : List (ℕ × (ℕ → ℕ → F))) (r c : ℕ) :
    flatDiag (l ++ l') ((l.map Prod.fst).sum + r) ((l.map Prod.fst).sum + c) = flatDiag l' r c := by
  unfold flatDiag
  rw [List.map_append, locate_append_right, locate_append_right]
  simp only [List.getD_eq_getElem?_getD, List.length_map, Nat.add_left_cancel_iff]
  rw [List.getElem?_append_right (by omega), Nat.add_sub_cancel_left]

theorem flat_append_off (l l' : List (ℕ × (ℕ → ℕ → F))) {r : ℕ} (hr : r < (l.map Prod.fst).sum) (c : ℕ) :
    flatDiag (l ++ l') r ((l.map Prod.fst).sum + c) = 0 ∧ flatDiag (l ++ l') ((l.map Prod.fst).sum + c) r = 0 := by
  have := (locate_spec _ r hr).1
  unfold flatDiag
  rw [List.map_append, locate_append_right, locate_append_left _ _ hr]
  constructor <;> rw [if_neg (by simp only; omega)]

/-- The matrix without the diagonal blocks, for a mesh too. -/
def allZeroed : DiagTree F → DiagTree F
  | .leaf n _ => .leaf n fun _ _ => 0
  | .node st k sub off => (DiagTree.node st k sub off).zeroed

theorem zeroed_stored (st : Bool) (k : ℕ) (sub : Fin k → DiagTree F) (off : ℕ → ℕ → ℕ → ℕ → F)
    (hs : (node st k sub off).Stored) : (node st k sub off).zeroed = node st k (fun i => allZeroed (sub i)) off := by
  rw [zeroed]
  congr 1
  funext i
  have := (hs i).1
  cases h : sub i with
  | leaf n a => rw [h] at this; simp only at this; simp [isLeaf, this, allZeroed, size]
  | node st' k' sub' off' => simp [isLeaf, allZeroed]

theorem allZeroed_size {t : DiagTree F} (hs : t.Stored) : (allZeroed t).size = t.size := by
  induction t with
  | leaf n a => simp [allZeroed, size]
  | node st k sub off ih =>
    rw [allZeroed, zeroed_stored _ _ _ _ hs, size, size]
    exact Finset.sum_congr rfl fun i _ => ih i (hs i).2

theorem entry_split {t : DiagTree F} (hb : t.Binary) (hs : t.Stored) {r c : ℕ} (hr : r < t.size) (hc : c < t.size) :
    t.entry r c = flatDiag t.leaves r c + (allZeroed t).entry r c := by
  induction t generalizing r c with
  | leaf n a =>
    simp only [size] at hr hc
    simp [leaves, flatDiag, allZeroed, entry, locate, hr, hc]
  | node st k sub off ih =>
    obtain ⟨rfl, hb⟩ := hb
    rw [size_two] at hr hc
    have z0 := allZeroed_size (hs 0).2
    have z1 := allZeroed_size (hs 1).2
    have e0 := shapes_sum (hb 0)
    rw [allZeroed, zeroed_stored _ _ _ _ hs, entry_two _ _ _ hr hc,
      entry_two _ _ _ (by simpa only [z0, z1] using hr) (by simpa only [z0, z1] using hc), leaves_two]
    simp only [z0]
    by_cases h1 : r < (sub 0).size <;> by_cases h2 : c < (sub 0).size
    · rw [if_pos h1, if_pos h2, if_pos h1, if_pos h2, flat_append_left _ _ (by omega) (by omega), ih 0 (hb 0) (hs 0).2 h1 h2]
    · rw [if_pos h1, if_neg h2, if_pos h1, if_neg h2]
      obtain ⟨c, rfl⟩ := Nat.exists_eq_add_of_le (not_lt.1 h2)
      have := (flat_append_off (sub 0).leaves (sub 1).leaves (r := r) (by omega) c).1
      rw [e0] at this
      rw [this, zero_add]
    · rw [if_neg h1, if_pos h2, if_neg h1, if_pos h2]
      obtain ⟨r, rfl⟩ := Nat.exists_eq_add_of_le (not_lt.1 h1)
      have := (flat_append_off (sub 0).leaves (sub 1).leaves (r := c) (by omega) r).2
      rw [e0] at this
      rw [this, zero_add]
    · rw [if_neg h1, if_neg h2, if_neg h1, if_neg h2]
      obtain ⟨r, rfl⟩ := Nat.exists_eq_add_of_le (not_lt.1 h1)
      obtain ⟨c, rfl⟩ := Nat.exists_eq_add_of_le (not_lt.1 h2)
      rw [Nat.add_sub_cancel_left, Nat.add_sub_cancel_left, ih 1 (hb 1) (hs 1).2 (by omega) (by omega)]
      congr 1
      rw [← e0, flat_append_right]

theorem zeroed_lost {t : DiagTree F} (hl : t.Lost) : t.zeroed = t := by
  induction t with
  | leaf n a => rfl
  | node st k sub off ih =>
    rw [zeroed]
    congr 1
    funext i
    have := (hl i).1
    cases h : sub i with
    | leaf n a => rw [h] at this; simp only at this; simp [isLeaf, this, zeroed]
    | node st' k' sub' off' =>
      rw [← h, if_neg (by simp [h, isLeaf]), ih i (hl i).2]

/-! ## The product by the restriction -/

/-- A row vector times the matrix. -/
def rowMul (t : DiagTree F) (f : ℕ → F) (c : ℕ) : F := ∑ r ∈ Finset.range t.size, f r * t.entry r c

theorem vecMat_range (n m : ℕ) (f : ℕ → F) (M : ℕ → ℕ → F) :
    vecMat ((List.range n).map f) n m M = some ((List.range m).map fun c => ∑ r ∈ Finset.range n, f r * M r c) := by
  unfold vecMat
  rw [if_pos (by simp)]
  congr 1
  refine List.map_congr_left fun c _ => Finset.sum_congr rfl fun r hr => ?_
  rw [List.getD_eq_getElem?_getD, List.getElem?_map, List.getElem?_range (Finset.mem_range.1 hr)]
  rfl

theorem setSlice_range (va : List F) (lo n : ℕ) (g : ℕ → F) :
    setSlice va lo (lo + n) ((List.range n).map g) = some (va.take lo ++ (List.range n).map g ++ va.drop (lo + n)) := by
  unfold setSlice
  rw [if_pos (by simp)]

/-- The rest of the loop after the blocks outside of the diagonal. -/
def raNext (rest : List ℕ) (child : DiagTree F) (v va : List F) (lo hi : ℕ) : Option (List F) :=
  if rest = [] then
    match vecMat v child.size child.size child.entry with
    | none => none
    | some w => setSlice va lo hi w
  else raLoop rest child v va lo hi

theorem rowMul_two (st : Bool) (sub : Fin 2 → DiagTree F) (off : ℕ → ℕ → ℕ → ℕ → F) (f : ℕ → F) {c : ℕ}
    (hc : c < (sub 0).size + (sub 1).size) : rowMul (node st 2 sub off) f c =
      if c < (sub 0).size then rowMul (sub 0) f c +
        ∑ r ∈ Finset.range (sub 1).size, f ((sub 0).size + r) * off 1 0 r c
      else (∑ r ∈ Finset.range (sub 0).size, f r * off 0 1 r (c - (sub 0).size)) +
        rowMul (sub 1) (fun r => f ((sub 0).size + r)) (c - (sub 0).size) := by
  unfold rowMul
  rw [size_two, Finset.sum_range_add]
  have h0 : ∀ r ∈ Finset.range (sub 0).size, f r * (node st 2 sub off).entry r c =
      f r * if c < (sub 0).size then (sub 0).entry r c else off 0 1 r (c - (sub 0).size) := by
    intro r hr
    have hr := Finset.mem_range.1 hr
    rw [entry_two _ _ _ (by omega) hc, if_pos hr]
  have h1 : ∀ r ∈ Finset.range (sub 1).size, f ((sub 0).size + r) * (node st 2 sub off).entry ((sub 0).size + r) c =
      f ((sub 0).size + r) * if c < (sub 0).size then off 1 0 r c else (sub 1).entry r (c - (sub 0).size) := by
    intro r hr
    have hr := Finset.mem_range.1 hr
    rw [entry_two _ _ _ (by omega) hc, if_neg (by omega), Nat.add_sub_cancel_left]
  rw [Finset.sum_congr rfl h0, Finset.sum_congr rfl h1]
  by_cases h : c < (sub 0).size
  · simp only [if_pos h]
  · simp only [if_neg h]

theorem restriction_append_left (s s' : List ℕ) {i : ℕ} (hi : i < s.length) (r : ℕ) :
    restriction (F := F) (s ++ s') i r = restriction s i r := by
  unfold restriction startOf
  rw [List.take_append_of_le_length (by omega), List.take_append_of_le_length (by omega)]

theorem restriction_append_right (s s' : List ℕ) (i r : ℕ) :
    restriction (F := F) (s ++ s') (s.length + i) (s.sum + r) = restriction s' i r := by
  unfold restriction startOf
  rw [add_assoc, List.take_length_add_append, List.take_length_add_append, List.sum_append, List.sum_append]
  congr 1
  rw [eq_iff_iff]
  omega

theorem restriction_left_zero (s s' : List ℕ) (i : ℕ) {r : ℕ} (hr : r < s.sum) :
    restriction (F := F) (s ++ s') (s.length + i) r = 0 := by
  unfold restriction startOf
  rw [if_neg]
  rw [List.take_length_add_append, List.sum_append]
  omega

theorem restriction_right_zero (s : List ℕ) {i : ℕ} {r : ℕ} (hr : s.sum ≤ r) :
    restriction (F := F) s i r = 0 := by
  unfold restriction
  rw [if_neg]
  have : startOf s (i + 1) ≤ s.sum := by
    unfold startOf
    conv_rhs => rw [← List.take_append_drop (i + 1) s, List.sum_append]
    omega
  omega

theorem splice_left (va : List F) (g w : ℕ → F) (lo hi n0 n1 : ℕ) (h : lo + (n0 + n1) = hi) (hva : hi ≤ va.length) :
    (va.take (hi - n1) ++ (List.range n1).map w ++ va.drop hi).take lo ++ (List.range n0).map g ++
      (va.take (hi - n1) ++ (List.range n1).map w ++ va.drop hi).drop (hi - n1) =
    va.take lo ++ ((List.range n0).map g ++ (List.range n1).map w) ++ va.drop hi := by
  have hl : (va.take (hi - n1)).length = hi - n1 := by simp; omega
  rw [List.append_assoc (va.take (hi - n1)), List.take_append_of_le_length (by omega), List.take_take,
    Nat.min_eq_left (by omega), List.drop_append_of_le_length (by omega)]
  rw [List.drop_eq_nil_of_le (as := va.take (hi - n1)) (by omega)]
  simp

theorem splice_right (va : List F) (g w : ℕ → F) (lo hi n0 n1 : ℕ) (h : lo + (n0 + n1) = hi) (hva : hi ≤ va.length) :
    (va.take lo ++ (List.range n0).map w ++ va.drop (lo + n0)).take (lo + n0) ++ (List.range n1).map g ++
      (va.take lo ++ (List.range n0).map w ++ va.drop (lo + n0)).drop hi =
    va.take lo ++ ((List.range n0).map w ++ (List.range n1).map g) ++ va.drop hi := by
  have hl : (va.take lo ++ (List.range n0).map w).length = lo + n0 := by simp; omega
  rw [List.take_append_of_le_length (by omega), List.take_of_length_le (by omega)]
  obtain ⟨d, rfl⟩ : ∃ d, hi = (va.take lo ++ (List.range n0).map w).length + d := ⟨hi - (lo + n0), by omega⟩
  rw [List.drop_length_add_append, List.drop_drop, hl]
  simp

theorem range_split (n m : ℕ) (g : ℕ → F) :
    (List.range (n + m)).map g = (List.range n).map g ++ (List.range m).map fun i => g (n + i) := by
  rw [List.range_add, List.map_append, List.map_map]
  rfl

theorem ra_row {t : DiagTree F} (hb : t.Binary) (hfl : t.Filled 1) (i : ℕ) (p : List ℕ) (hp : t.paths[i]? = some p) (f : ℕ → F)
    (hf : ∀ r < t.size, f r = restriction (t.leaves.map Prod.fst) i r) (va : List F) (lo hi : ℕ)
    (h : lo + t.size = hi) (hva : hi ≤ va.length) :
    raNext p t ((List.range t.size).map f) va lo hi =
      some (va.take lo ++ (List.range t.size).map (rowMul t f) ++ va.drop hi) := by
  induction t generalizing i p f va lo hi with
  | leaf n a =>
    have : p = [] := by
      rw [paths] at hp
      cases i with
      | zero => simpa using hp.symm
      | succ i => simp at hp
    subst this h
    unfold raNext
    rw [if_pos rfl, vecMat_range]
    simp only
    rw [setSlice_range]
    rfl
  | node st k sub off ih =>
    obtain ⟨rfl, hb⟩ := hb
    rw [size_two] at hf h
    rw [leaves_two, List.map_append] at hf
    rw [paths_two] at hp
    have e0 := shapes_sum (hb 0)
    have l0 := paths_length (hb 0)
    by_cases hi0 : i < (sub 0).paths.length
    · rw [List.getElem?_append_left (by simpa using hi0), List.getElem?_map] at hp
      obtain ⟨q, hq, rfl⟩ := Option.map_eq_some_iff.1 hp
      have hf0 : ∀ r < (sub 0).size, f r = restriction ((sub 0).leaves.map Prod.fst) i r := by
        intro r hr
        rw [hf r (by omega), restriction_append_left _ _ (by simpa [← l0] using hi0)]
      have hf1 : ∀ r < (sub 1).size, f ((sub 0).size + r) = 0 := by
        intro r hr
        rw [hf _ (by omega), restriction_append_left _ _ (by simpa [← l0] using hi0),
          restriction_right_zero _ (by omega)]
      have hv : ((List.range (node st 2 sub off).size).map f).take (sub 0).size = (List.range (sub 0).size).map f := by
        rw [size_two, ← List.map_take, List.take_range, Nat.min_eq_left (by omega)]
      unfold raNext
      rw [if_neg (by simp), raLoop, dif_pos (by omega), dif_pos (by omega), if_pos rfl]
      simp only [Fin.mk_zero, Fin.mk_one]
      rw [hv, vecMat_range]
      simp only [List.length_map, List.length_range]
      have hh : hi - (sub 1).size + (sub 1).size = hi := by omega
      have hs := setSlice_range va (hi - (sub 1).size) (sub 1).size
        (fun c => ∑ r ∈ Finset.range (sub 0).size, f r * off 0 1 r c)
      rw [hh] at hs
      rw [hs]
      simp only
      have := ih 0 (hb 0) (hfl.2 0) i q hq f hf0 (va.take (hi - (sub 1).size) ++ (List.range (sub 1).size).map
        (fun c => ∑ r ∈ Finset.range (sub 0).size, f r * off 0 1 r c) ++ va.drop hi) lo (hi - (sub 1).size) (by omega)
        (by simp; omega)
      refine Eq.trans this ?_
      rw [size_two, splice_left va _ _ lo hi (sub 0).size (sub 1).size h hva, range_split]
      congr 3
      apply congrArg₂
      · refine List.map_congr_left fun c hc => ?_
        have hc := List.mem_range.1 hc
        rw [rowMul_two _ _ _ _ (by omega), if_pos hc, Finset.sum_eq_zero, add_zero]
        intro r hr
        rw [hf1 r (Finset.mem_range.1 hr), zero_mul]
      · refine List.map_congr_left fun c hc => ?_
        have hc := List.mem_range.1 hc
        rw [rowMul_two _ _ _ _ (by omega), if_neg (by omega), Nat.add_sub_cancel_left, rowMul,
          Finset.sum_eq_zero (s := Finset.range (sub 1).size), add_zero]
        intro r hr
        rw [hf1 r (Finset.mem_range.1 hr), zero_mul]
    · obtain ⟨j, rfl⟩ := Nat.exists_eq_add_of_le (not_lt.1 hi0)
      rw [List.getElem?_append_right (by simp), List.getElem?_map, List.length_map, Nat.add_sub_cancel_left] at hp
      obtain ⟨q, hq, rfl⟩ := Option.map_eq_some_iff.1 hp
      rw [l0] at hf
      have hf0 : ∀ r < (sub 0).size, f r = 0 := by
        intro r hr
        have := restriction_left_zero (F := F) ((sub 0).leaves.map Prod.fst) ((sub 1).leaves.map Prod.fst) j (r := r)
          (by omega)
        rw [List.length_map] at this
        rw [hf r (by omega), this]
      have hf1 : ∀ r < (sub 1).size, f ((sub 0).size + r) = restriction ((sub 1).leaves.map Prod.fst) j r := by
        intro r hr
        have := restriction_append_right (F := F) ((sub 0).leaves.map Prod.fst) ((sub 1).leaves.map Prod.fst) j r
        rw [List.length_map, e0] at this
        rw [hf _ (by omega), this]
      have hv : lastOf ((List.range (node st 2 sub off).size).map f) (sub 1).size =
          (List.range (sub 1).size).map fun r => f ((sub 0).size + r) := by
        rw [size_two, range_split]
        unfold lastOf
        split_ifs with hz
        · exact absurd hz (size_pos (hb 1) (hfl.2 1)).ne'
        · simp
      unfold raNext
      rw [if_neg (by simp), raLoop, dif_pos (by omega), dif_pos (by omega), if_neg (by omega)]
      simp only [Fin.mk_zero, Fin.mk_one]
      rw [hv, vecMat_range]
      simp only [List.length_map, List.length_range]
      rw [setSlice_range]
      simp only
      have := ih 1 (hb 1) (hfl.2 1) j q hq (fun r => f ((sub 0).size + r)) hf1 (va.take lo ++ (List.range (sub 0).size).map
        (fun c => ∑ r ∈ Finset.range (sub 1).size, f ((sub 0).size + r) * off 1 0 r c) ++ va.drop (lo + (sub 0).size))
        (lo + (sub 0).size) hi (by omega) (by simp; omega)
      refine Eq.trans this ?_
      rw [size_two, splice_right va _ _ lo hi (sub 0).size (sub 1).size h hva, range_split]
      congr 3
      apply congrArg₂
      · refine List.map_congr_left fun c hc => ?_
        have hc := List.mem_range.1 hc
        rw [rowMul_two _ _ _ _ (by omega), if_pos hc, rowMul, Finset.sum_eq_zero (s := Finset.range (sub 0).size), zero_add]
        intro r hr
        rw [hf0 r (Finset.mem_range.1 hr), zero_mul]
      · refine List.map_congr_left fun c hc => ?_
        have hc := List.mem_range.1 hc
        rw [rowMul_two _ _ _ _ (by omega), if_neg (by omega), Nat.add_sub_cancel_left,
          Finset.sum_eq_zero (s := Finset.range (sub 0).size), zero_add]
        intro r hr
        rw [hf0 r (Finset.mem_range.1 hr), zero_mul]



theorem option_mapM_some {α β : Type} (f : α → Option β) (g : α → β) (l : List α) (h : ∀ x ∈ l, f x = some (g x)) :
    l.mapM f = some (l.map g) := by
  induction l with
  | nil => rfl
  | cons a l ih =>
    rw [List.mapM_cons, h a (by simp), ih fun x hx => h x (by simp [hx])]
    rfl

theorem option_mapM_ne {α β : Type} (f : α → Option β) (l : List α) {r : List β} (h : l.mapM f = some r) :
    ∀ x ∈ l, f x ≠ none := by
  induction l generalizing r with
  | nil => simp
  | cons a l ih =>
    rw [List.mapM_cons] at h
    cases ha : f a with
    | none => rw [ha] at h; cases h
    | some y =>
      cases hl : l.mapM f with
      | none => rw [ha, hl] at h; cases h
      | some ys =>
        intro x hx
        rcases List.mem_cons.1 hx with rfl | hx
        · rw [ha]; simp
        · exact ih hl x hx

/-- The product of the restriction and the matrix, row by row. -/
def productRows (t : DiagTree F) : List (List F) :=
  (List.range t.leaves.length).map fun i =>
    (List.range t.size).map (rowMul t (restriction (t.leaves.map Prod.fst) i))

theorem build_binary (st : Bool) (k : ℕ) (sub : Fin k → DiagTree F) (off : ℕ → ℕ → ℕ → ℕ → F)
    (hb : (node st k sub off).Binary) (hf : (node st k sub off).Filled 1) :
    buildPrecond (node st k sub off) = some ⟨(node st k sub off).size, (node st k sub off).zeroed.entry,
      (node st k sub off).leaves, productRows (node st k sub off)⟩ := by
  have hne : ∀ p ∈ (node st k sub off).paths, p ≠ [] := by
    intro p hp
    rw [paths] at hp
    simp only [List.mem_flatMap, List.mem_map] at hp
    obtain ⟨i, _, q, _, rfl⟩ := hp
    simp
  unfold buildPrecond
  simp only
  rw [option_mapM_some _ (fun p : List ℕ × ℕ => (List.range (node st k sub off).size).map
    (rowMul (node st k sub off) (restriction ((node st k sub off).leaves.map Prod.fst) p.2)))]
  · simp only [Option.some.injEq, Precond.mk.injEq, true_and]
    unfold productRows
    rw [← paths_length hb]
    apply List.ext_getElem
    · simp
    · intro i h1 h2
      simp
  · rintro ⟨p, i⟩ hp
    have hp' : (node st k sub off).paths[i]? = some p := List.mk_mem_zipIdx_iff_getElem?.1 hp
    have := ra_row hb hf i p hp' (restriction ((node st k sub off).leaves.map Prod.fst) i) (fun _ _ => rfl)
      (List.replicate (node st k sub off).size 0) 0 (node st k sub off).size (by omega) (by simp)
    unfold raNext at this
    rw [if_neg (hne p (List.mem_of_getElem? hp'))] at this
    rw [this]
    simp

/-! ## The trees for which the matrices are built -/

/-- The collections along a path have two parts. -/
def OnPath : List ℕ → DiagTree F → Prop
  | _, .leaf _ _ => True
  | [], .node _ _ _ _ => True
  | j :: rest, .node _ k sub _ => k = 2 ∧ ∀ h : j < k, OnPath rest (sub ⟨j, h⟩)

theorem filled_size_pos {m : ℕ} {t : DiagTree F} (h : t.Filled (m + 1)) : m + 1 ≤ t.size := by
  induction t with
  | leaf n a => exact h
  | node st k sub off ih =>
    obtain ⟨hk, h⟩ := h
    rw [size]
    exact (ih ⟨0, hk⟩ (h _)).trans (Finset.single_le_sum (f := fun i => (sub i).size) (fun _ _ => Nat.zero_le _)
      (Finset.mem_univ _))

theorem two_sizes {k : ℕ} (sub : Fin k → DiagTree F) (h : ∀ i, 0 < (sub i).size) {i j : Fin k} (hij : i ≠ j) :
    (sub i).size + (sub j).size ≤ ∑ l, (sub l).size ∧
      ((sub i).size + (sub j).size = ∑ l, (sub l).size → k = 2) := by
  have hs : ∑ l ∈ ({i, j} : Finset (Fin k)), (sub l).size = (sub i).size + (sub j).size := Finset.sum_pair hij
  refine ⟨hs ▸ Finset.sum_le_sum_of_subset (Finset.subset_univ _), fun he => ?_⟩
  by_contra hk
  have hc : ({i, j} : Finset (Fin k)) ≠ Finset.univ := by
    intro hc
    have := congrArg Finset.card hc
    rw [Finset.card_pair hij, Finset.card_univ, Fintype.card_fin] at this
    omega
  obtain ⟨l, hl⟩ : ∃ l, l ∉ ({i, j} : Finset (Fin k)) := by
    by_contra hn
    push Not at hn
    exact hc (Finset.eq_univ_iff_forall.2 hn)
  have := Finset.sum_lt_sum_of_subset (f := fun l => (sub l).size) (Finset.subset_univ ({i, j} : Finset (Fin k)))
    (Finset.mem_univ l) hl (h l) (fun _ _ _ => Nat.zero_le _)
  rw [hs] at this
  omega

theorem vecMat_length {v w : List F} {n m : ℕ} {M : ℕ → ℕ → F} (h : vecMat v n m M = some w) :
    v.length = n ∧ w.length = m := by
  unfold vecMat at h
  split_ifs at h with hv
  cases h
  exact ⟨hv, by simp⟩

theorem setSlice_length {va va' w : List F} {lo hi : ℕ} (h : setSlice va lo hi w = some va') (hlo : lo ≤ hi)
    (hhi : hi ≤ va.length) : va'.length = va.length := by
  unfold setSlice at h
  split_ifs at h <;> cases h <;> simp <;> omega

theorem lastOf_length (v : List F) {n : ℕ} (hn : 0 < n) (h : n ≤ v.length) : (lastOf v n).length = n := by
  unfold lastOf
  rw [if_neg (by omega), List.length_drop]
  omega

theorem ra_needs {t : DiagTree F} (hf : t.Filled 2) (p : List ℕ) (hp : p ∈ t.paths) (v va : List F) (lo hi : ℕ)
    (hv : v.length = t.size) (hs : lo + t.size ≤ hi) (hva : hi ≤ va.length) (h : raNext p t v va lo hi ≠ none) :
    lo + t.size = hi ∧ OnPath p t := by
  induction t generalizing p v va lo hi with
  | leaf n a =>
    have : p = [] := by simpa [paths] using hp
    subst this
    unfold raNext at h
    rw [if_pos rfl] at h
    refine ⟨?_, trivial⟩
    cases hw : vecMat v (leaf n a).size (leaf n a).size (leaf n a).entry with
    | none => rw [hw] at h; exact absurd rfl h
    | some w =>
      rw [hw] at h
      simp only at h
      have hl := (vecMat_length hw).2
      unfold setSlice at h
      have : 2 ≤ n := hf
      simp only [size] at *
      split_ifs at h with h1 h2
      · omega
      · omega
      · exact absurd rfl h
  | node st k sub off ih =>
    rw [paths] at hp
    simp only [List.mem_flatMap, List.mem_map] at hp
    obtain ⟨⟨j, hj⟩, -, q, hq, rfl⟩ := hp
    obtain ⟨hk, hf⟩ := hf
    have hpos : ∀ i, 0 < (sub i).size := fun i => lt_of_lt_of_le (by omega) (filled_size_pos (hf i))
    unfold raNext at h
    rw [if_neg (by simp), raLoop, dif_pos hj] at h
    by_cases h2 : 1 < k
    · rw [dif_pos h2] at h
      simp only at h
      by_cases h0 : j = 0
      · subst h0
        rw [if_pos rfl] at h
        have hne : (⟨0, hj⟩ : Fin k) ≠ ⟨1, h2⟩ := by simp
        obtain ⟨hle, heq⟩ := two_sizes sub hpos hne
        rw [← size.eq_2 st k sub off] at hle heq
        cases hw : vecMat (v.take (sub ⟨0, hj⟩).size) (sub ⟨0, hj⟩).size (sub ⟨1, h2⟩).size (off 0 1) with
        | none => rw [hw] at h; exact absurd rfl h
        | some w =>
          rw [hw] at h
          simp only at h
          have hl := (vecMat_length hw).2
          cases hset : setSlice va (hi - w.length) hi w with
          | none => rw [hset] at h; exact absurd rfl h
          | some va' =>
            rw [hset] at h
            have hlen := setSlice_length hset (by omega) hva
            obtain ⟨h3, h4⟩ := ih ⟨0, hj⟩ (hf _) q hq _ va' lo (hi - w.length) (by simp; omega) (by omega) (by omega) h
            have : (node st k sub off).size = (sub ⟨0, hj⟩).size + (sub ⟨1, h2⟩).size := by omega
            exact ⟨by omega, heq this.symm, fun _ => h4⟩
      · rw [if_neg h0] at h
        have hne : (⟨0, hk⟩ : Fin k) ≠ ⟨j, hj⟩ := by simp; omega
        obtain ⟨hle, heq⟩ := two_sizes sub hpos hne
        rw [← size.eq_2 st k sub off] at hle heq
        cases hw : vecMat (lastOf v (sub ⟨j, hj⟩).size) (sub ⟨1, h2⟩).size (sub ⟨0, hk⟩).size (off 1 0) with
        | none => rw [hw] at h; exact absurd rfl h
        | some w =>
          rw [hw] at h
          simp only at h
          have hl := (vecMat_length hw).2
          cases hset : setSlice va lo (lo + w.length) w with
          | none => rw [hset] at h; exact absurd rfl h
          | some va' =>
            rw [hset] at h
            have hlen := setSlice_length hset (by omega) (by omega)
            obtain ⟨h3, h4⟩ := ih ⟨j, hj⟩ (hf _) q hq _ va' (lo + w.length) hi
              (lastOf_length v (hpos _) (by omega)) (by omega) (by omega) h
            have : (node st k sub off).size = (sub ⟨0, hk⟩).size + (sub ⟨j, hj⟩).size := by omega
            exact ⟨by omega, heq this.symm, fun _ => h4⟩
    · rw [dif_neg h2] at h
      exact absurd rfl h

theorem paths_ne {m : ℕ} {t : DiagTree F} (h : t.Filled m) : ∃ p, p ∈ t.paths := by
  induction t with
  | leaf n a => exact ⟨[], by simp [paths]⟩
  | node st k sub off ih =>
    obtain ⟨hk, h⟩ := h
    obtain ⟨p, hp⟩ := ih ⟨0, hk⟩ (h _)
    refine ⟨0 :: p, ?_⟩
    rw [paths]
    simp only [List.mem_flatMap, List.mem_map]
    exact ⟨⟨0, hk⟩, List.mem_finRange _, p, hp, rfl⟩

theorem binary_of_paths {m : ℕ} {t : DiagTree F} (h : t.Filled m) (hp : ∀ p ∈ t.paths, OnPath p t) : t.Binary := by
  induction t with
  | leaf n a => trivial
  | node st k sub off ih =>
    obtain ⟨hk, h⟩ := h
    have hc : ∀ i, ∀ q ∈ (sub i).paths, k = 2 ∧ OnPath q (sub i) := by
      intro i q hq
      have := hp ((i : ℕ) :: q) (by
        rw [paths]
        simp only [List.mem_flatMap, List.mem_map]
        exact ⟨i, List.mem_finRange _, q, hq, rfl⟩)
      exact ⟨this.1, this.2 i.2⟩
    obtain ⟨q, hq⟩ := paths_ne (h ⟨0, hk⟩)
    exact ⟨(hc _ q hq).1, fun i => ih i (h i) fun q hq => (hc i q hq).2⟩


end Verif.Engines
