import Mathlib.Data.Finset.Lattice.Fold
import Verif.Blocks.ArithModel
import Verif.Blocks.ElementwiseProps

/-!
# Arithmetic expressions on hierarchical matrices (C119)
-/

namespace Verif.Blocks.Arith

open Verif.Blocks

variable {R : Type}

/-! ## Specification -/

/-- The expression ends with this result, whatever limit of recursion above some number. -/
def Ends (E : Outside R) (op : Op) (A B : Mat R) (r : Res R) : Prop := ∃ f, ∀ g, f ≤ g → eval E g op A B = some r

/-- The expression exceeds every limit of recursion. -/
def NeverEnds (E : Outside R) (op : Op) (A B : Mat R) : Prop := ∀ f, eval E f op A B = none

/-- The stored blocks of the two matrices that are combined have the same class, or the class of one is a subclass of
the other and the numbers of blocks are equal, at every level. -/
def Meets : Mat R → Mat R → Prop
  | .blk c m n b, .blk c' m' n' b' =>
    (c = c' ∨ (c.isinstance c' = true ∨ c'.isinstance c = true) ∧ nb c m n = nb c' m' n') ∧
      ∀ i j, i < min m m' → j < min n n' → Meets (b i j) (b' i j)
  | _, _ => True

/-- Some stored block, at any level, satisfies the property. -/
def SomeLeaf (P : Mat R → Prop) : Mat R → Prop
  | .blk _ m n b => ∃ i j, i < m ∧ j < n ∧ SomeLeaf P (b i j)
  | M => P M

/-- A low rank block. -/
def IsLow : Mat R → Prop
  | .low _ _ _ _ => True
  | _ => False

/-- A low rank block of real numbers. -/
def IsRealLow : Mat R → Prop
  | .low z _ _ _ => z = false
  | _ => False

/-- The matrix stores at least a block at every level, in one line for the structured classes, and it is consistent. -/
def Proper : Mat R → Prop
  | .blk c m n b => 0 < m ∧ 0 < n ∧ (c ≠ .generic → m = 1) ∧ ∀ i j, i < m → j < n → Proper (b i j)
  | _ => True

/-! ## The fuel -/

theorem firstFailure_mono {ι : Type} (l : List ι) (g g' : ι → Option (Res R))
    (h : ∀ p r, g p = some r → g' p = some r) (hn : firstFailure (l.map g) ≠ some none) :
    firstFailure (l.map g') = firstFailure (l.map g) := by
  induction l with
  | nil => rfl
  | cons p l ih =>
    simp only [List.map_cons] at hn ⊢
    cases hg : g p with
    | none => rw [hg] at hn; exact (hn rfl).elim
    | some r =>
      rw [hg] at hn
      rw [h p r hg]
      cases r with
      | err e => rfl
      | ok M => exact ih hn

theorem firstFailure_none {ι : Type} (l : List ι) (g : ι → Option (Res R)) :
    firstFailure (l.map g) = none ↔ ∀ p ∈ l, ∃ M, g p = some (.ok M) := by
  induction l with
  | nil => simp [firstFailure]
  | cons p l ih =>
    simp only [List.map_cons, List.mem_cons, forall_eq_or_imp]
    rw [← ih]
    cases hg : g p with
    | none => simp [firstFailure]
    | some r => cases r <;> simp [firstFailure]

theorem firstFailure_some {ι : Type} (l : List ι) (g : ι → Option (Res R)) (h : ∀ p ∈ l, ∃ r, g p = some r) :
    firstFailure (l.map g) ≠ some none := by
  induction l with
  | nil => simp [firstFailure]
  | cons p l ih =>
    obtain ⟨r, hr⟩ := h p (by simp)
    have := ih fun q hq => h q (by simp [hq])
    simp only [List.map_cons, hr]
    cases r with
    | err e => simp [firstFailure]
    | ok M => exact this

theorem firstFailure_err {ι : Type} (l : List ι) (g : ι → Option (Res R)) (e : Err)
    (h : ∀ p ∈ l, (∃ M, g p = some (.ok M)) ∨ g p = some (.err e)) (hx : ∃ p ∈ l, g p = some (.err e)) :
    firstFailure (l.map g) = some (some e) := by
  induction l with
  | nil => simp at hx
  | cons p l ih =>
    simp only [List.map_cons]
    rcases h p (by simp) with ⟨M, hM⟩ | hM
    · rw [hM]
      refine ih (fun q hq => h q (by simp [hq])) ?_
      obtain ⟨q, hq, he⟩ := hx
      rcases List.mem_cons.1 hq with rfl | hq
      · rw [hM] at he; simp at he
      · exact ⟨q, hq, he⟩
    · rw [hM]; rfl

theorem combine_mono (c : Cls) (m n : ℕ) (g g' : ℕ → ℕ → Option (Res R)) (d : ℕ → ℕ → Mat R)
    (h : ∀ i j r, g i j = some r → g' i j = some r) (r : Res R) (hr : combine c m n g d = some r) :
    combine c m n g' d = some r := by
  unfold combine at hr ⊢
  have hn : firstFailure ((List.range m ×ˢ List.range n).map fun p => g p.1 p.2) ≠ some none := by
    intro hf
    rw [hf] at hr
    simp at hr
  rw [firstFailure_mono _ _ (fun p => g' p.1 p.2) (fun p r => h p.1 p.2 r) hn]
  split at hr
  · simp at hr
  · exact hr
  · rename_i heq
    have hv : ∀ i j, i < m ∧ j < n → value (d i j) (g' i j) = value (d i j) (g i j) := by
      rintro i j ⟨hi, hj⟩
      obtain ⟨M, hM⟩ := (firstFailure_none _ _).1 heq (i, j) (by simp [hi, hj])
      dsimp only at hM
      rw [h i j _ hM, hM]
    have : (fun i j => if i < m ∧ j < n then value (d i j) (g' i j) else d i j)
        = fun i j => if i < m ∧ j < n then value (d i j) (g i j) else d i j := by
      funext i j
      split
      · rename_i hij; exact hv i j hij
      · rfl
    rw [this]
    exact hr

theorem eval_blk (E : Outside R) (f : ℕ) (op : Op) (c c' : Cls) (m n m' n' : ℕ) (b b' : ℕ → ℕ → Mat R) :
    eval E (f + 1) op (.blk c m n b) (.blk c' m' n' b') =
      if accepts (.blk c m n b) (.blk c' m' n' b') then
        combine c (min m m') (min n n') (fun i j => eval E f op (b i j) (b' i j)) b
      else if c = c' then some (.err .type)
      else match op with
        | .add => eval E f .add (.blk c' m' n' b') (.blk c m n b)
        | .mul => eval E f .mul (.blk c' m' n' b') (.blk c m n b)
        | .sub => some (.err .type)
        | .div =>
          if accepts (.blk c' m' n' b') (.blk c m n b) then
            combine c' (min m' m) (min n' n) (fun i j => eval E f .div (b i j) (b' i j)) b'
          else some (.err .type) := by
  cases op <;> rfl

theorem eval_succ (E : Outside R) (f : ℕ) (op : Op) (A B : Mat R) (r : Res R) (h : eval E f op A B = some r) :
    eval E (f + 1) op A B = some r := by
  induction f generalizing op A B r with
  | zero => simp [eval] at h
  | succ f ih =>
    cases A with
    | arr h w a => cases B <;> exact h
    | low z hh w a =>
      cases B with
      | arr h' w' a' => cases op <;> first | exact h | exact ih _ _ _ _ h
      | low z' h' w' a' => cases op <;> first | exact h | exact ih _ _ _ _ h
      | blk c m n b => cases op <;> first | exact h | exact ih _ _ _ _ h
    | blk c m n b =>
      cases B with
      | arr h' w' a' => exact h
      | low z' h' w' a' => exact h
      | blk c' m' n' b' =>
        rw [eval_blk] at h ⊢
        split
        · rename_i ha
          rw [if_pos ha] at h
          exact combine_mono _ _ _ _ _ _ (fun i j r => ih _ _ _ r) _ h
        · rename_i ha
          rw [if_neg ha] at h
          split
          · rename_i hc; rw [if_pos hc] at h; exact h
          · rename_i hc
            rw [if_neg hc] at h
            cases op with
            | add => exact ih _ _ _ _ h
            | mul => exact ih _ _ _ _ h
            | sub => exact h
            | div =>
              dsimp only at h ⊢
              split
              · rename_i hb
                rw [if_pos hb] at h
                exact combine_mono _ _ _ _ _ _ (fun i j r => ih _ _ _ r) _ h
              · rename_i hb; rw [if_neg hb] at h; exact h

theorem ends_of_eval {E : Outside R} {f : ℕ} {op : Op} {A B : Mat R} {r : Res R} (h : eval E f op A B = some r) :
    Ends E op A B r := by
  refine ⟨f, fun g hg => ?_⟩
  induction g, hg using Nat.le_induction with
  | base => exact h
  | succ g _ ih => exact eval_succ E g op A B r ih

theorem ends_iff (E : Outside R) (op : Op) (A B : Mat R) (r : Res R) :
    Ends E op A B r ↔ ∃ f, eval E f op A B = some r :=
  ⟨fun ⟨f, h⟩ => ⟨f, h f le_rfl⟩, fun ⟨_, h⟩ => ends_of_eval h⟩

/-- Combinations of blocks that all end. -/
theorem combine_ends (c : Cls) (m n : ℕ) (g : ℕ → ℕ → ℕ → Option (Res R)) (d : ℕ → ℕ → Mat R)
    (hg : ∀ i j, i < m → j < n → ∃ f r, ∀ k, f ≤ k → g k i j = some r) :
    ∃ f r, combine c m n (g f) d = some r := by
  have hc : ∀ p : ℕ × ℕ, ∃ f, p ∈ List.range m ×ˢ List.range n → ∃ r, ∀ k, f ≤ k → g k p.1 p.2 = some r := by
    rintro ⟨i, j⟩
    by_cases hp : i < m ∧ j < n
    · obtain ⟨f, r, h⟩ := hg i j hp.1 hp.2
      exact ⟨f, fun _ => ⟨r, h⟩⟩
    · refine ⟨0, fun h => ?_⟩
      simp at h
      exact (hp h).elim
  choose F hF using hc
  refine ⟨(List.range m ×ˢ List.range n).toFinset.sup F, ?_⟩
  have hs : firstFailure ((List.range m ×ˢ List.range n).map fun p =>
      g ((List.range m ×ˢ List.range n).toFinset.sup F) p.1 p.2) ≠ some none := by
    apply firstFailure_some
    intro p hp
    obtain ⟨r, hr⟩ := hF p hp
    exact ⟨r, hr _ (Finset.le_sup (f := F) (by simpa using hp))⟩
  unfold combine
  split
  · rename_i h; exact (hs h).elim
  · exact ⟨_, rfl⟩
  · split
    · exact ⟨_, rfl⟩
    · exact ⟨_, rfl⟩

theorem isinstance_antisymm {c c' : Cls} (h : c.isinstance c' = true) (h' : c'.isinstance c = true) : c = c' := by
  cases c with
  | generic => cases c' with
    | generic => rfl
    | structured k => simp [Cls.isinstance] at h'
  | structured k => cases c' with
    | generic => simp [Cls.isinstance] at h
    | structured k' => cases k <;> cases k' <;> simp [Cls.isinstance, isInstance] at h h' ⊢

/-! ## Theorems -/

/-- **C119, sums and products that never end.** Two block matrices of different classes, neither of which is a
subclass of the other or whose numbers of blocks differ: their sum and their product by entries exceed every limit of
recursion instead of being refused; their difference and their quotient are refused with `TypeError`. -/
theorem incompatible_classes (E : Outside R) (c c' : Cls) (m n m' n' : ℕ) (b b' : ℕ → ℕ → Mat R) (hc : c ≠ c')
    (h : nb c m n ≠ nb c' m' n' ∨ c.isinstance c' = false ∧ c'.isinstance c = false) :
    NeverEnds E .add (.blk c m n b) (.blk c' m' n' b') ∧ NeverEnds E .mul (.blk c m n b) (.blk c' m' n' b') ∧
      Ends E .sub (.blk c m n b) (.blk c' m' n' b') (.err .type) ∧
      Ends E .div (.blk c m n b) (.blk c' m' n' b') (.err .type) := by
  have h1 : accepts (.blk c m n b) (.blk c' m' n' b') = false := by
    rcases h with h | h
    · simp [accepts, h]
    · simp [accepts, h.1]
  have h2 : accepts (.blk c' m' n' b') (.blk c m n b) = false := by
    rcases h with h | h
    · simp [accepts, Ne.symm h]
    · simp [accepts, h.2]
  have key : ∀ f, (eval E f .add (.blk c m n b) (.blk c' m' n' b') = none ∧
      eval E f .add (.blk c' m' n' b') (.blk c m n b) = none) ∧
      eval E f .mul (.blk c m n b) (.blk c' m' n' b') = none ∧
      eval E f .mul (.blk c' m' n' b') (.blk c m n b) = none := by
    intro f
    induction f with
    | zero => simp [eval]
    | succ f ih =>
      rw [eval_blk, eval_blk, eval_blk, eval_blk]
      simp only [h1, h2, hc, Ne.symm hc, Bool.false_eq_true, if_false]
      exact ⟨⟨ih.1.2, ih.1.1⟩, ih.2.2, ih.2.1⟩
  refine ⟨fun f => (key f).1.1, fun f => (key f).2.1, ends_of_eval (f := 1) ?_, ends_of_eval (f := 1) ?_⟩
  · rw [eval_blk]; simp only [h1, hc, Bool.false_eq_true, if_false]
  · rw [eval_blk]; simp only [h1, h2, hc, Bool.false_eq_true, if_false]

/-- **C119, same class.** Two block matrices of the same class and of different numbers of blocks are refused with
`TypeError` by the four operators. -/
theorem same_class_refused (E : Outside R) (op : Op) (c : Cls) (m n m' n' : ℕ) (b b' : ℕ → ℕ → Mat R)
    (h : nb c m n ≠ nb c m' n') : Ends E op (.blk c m n b) (.blk c m' n' b') (.err .type) := by
  apply ends_of_eval (f := 1)
  rw [eval_blk]
  simp [accepts, h]

/-- **C119, order of the terms.** For two block matrices of different classes, `A + B` and `B + A` are the same
computation, and so are the products by entries. -/
theorem sum_commutes (E : Outside R) (op : Op) (hop : op = .add ∨ op = .mul) (c c' : Cls) (m n m' n' : ℕ)
    (b b' : ℕ → ℕ → Mat R) (hc : c ≠ c') (r : Res R) :
    Ends E op (.blk c m n b) (.blk c' m' n' b') r ↔ Ends E op (.blk c' m' n' b') (.blk c m n b) r := by
  have one : ∀ (c c' : Cls) (m n m' n' : ℕ) (b b' : ℕ → ℕ → Mat R), c ≠ c' →
      accepts (.blk c m n b) (.blk c' m' n' b') = false →
      (Ends E op (.blk c m n b) (.blk c' m' n' b') r ↔ Ends E op (.blk c' m' n' b') (.blk c m n b) r) := by
    intro c c' m n m' n' b b' hc h
    have step : ∀ f, eval E (f + 1) op (.blk c m n b) (.blk c' m' n' b')
        = eval E f op (.blk c' m' n' b') (.blk c m n b) := by
      intro f
      rw [eval_blk]
      rcases hop with rfl | rfl <;> simp only [h, hc, Bool.false_eq_true, if_false]
    rw [ends_iff, ends_iff]
    constructor
    · rintro ⟨f, hf⟩
      cases f with
      | zero => simp [eval] at hf
      | succ f => exact ⟨f, (step f) ▸ hf⟩
    · rintro ⟨f, hf⟩
      exact ⟨f + 1, (step f).trans hf⟩
  by_cases h : accepts (.blk c m n b) (.blk c' m' n' b') = true
  · have h' : accepts (.blk c' m' n' b') (.blk c m n b) = false := by
      by_contra hne
      rw [Bool.not_eq_false] at hne
      simp only [accepts, Bool.and_eq_true] at h hne
      exact hc (isinstance_antisymm h.1 hne.1)
    exact (one c' c m' n' m n b' b (Ne.symm hc) h').symm
  · exact one c c' m n m' n' b b' hc (by simpa using h)

/-- **C119, differences.** Between two block matrices of different classes, the difference is refused with `TypeError`
unless the right operand is in a subclass of the left one, whatever the sum gives. -/
theorem difference_one_sided (E : Outside R) (c c' : Cls) (m n m' n' : ℕ) (b b' : ℕ → ℕ → Mat R) (hc : c ≠ c')
    (h : c.isinstance c' = false) : Ends E .sub (.blk c m n b) (.blk c' m' n' b') (.err .type) := by
  apply ends_of_eval (f := 1)
  rw [eval_blk]
  simp [accepts, h, hc]

/-- **C119, differences and quotients end.** Every difference and every quotient ends, with a value or with an
exception. -/
theorem difference_ends (E : Outside R) (op : Op) (hop : op = .sub ∨ op = .div) (A B : Mat R) :
    ∃ r, Ends E op A B r := by
  induction A generalizing B with
  | arr h w a => exact ⟨_, ends_of_eval (f := 1) (by cases B <;> rfl)⟩
  | low z h w a =>
    rcases hop with rfl | rfl
    · cases B with
      | arr h' w' a' => exact ⟨_, ends_of_eval (f := 2) rfl⟩
      | low z' h' w' a' => exact ⟨_, ends_of_eval (f := 2) rfl⟩
      | blk c m n b => exact ⟨_, ends_of_eval (f := 3) rfl⟩
    · cases B with
      | arr h' w' a' => exact ⟨_, ends_of_eval (f := 1) rfl⟩
      | low z' h' w' a' => exact ⟨_, ends_of_eval (f := 1) rfl⟩
      | blk c m n b => exact ⟨_, ends_of_eval (f := 1) rfl⟩
  | blk c m n b ih =>
    cases B with
    | arr h' w' a' => exact ⟨_, ends_of_eval (f := 1) rfl⟩
    | low z' h' w' a' => exact ⟨_, ends_of_eval (f := 1) rfl⟩
    | blk c' m' n' b' =>
      have hb : ∀ i j, ∃ f r, ∀ k, f ≤ k → eval E k op (b i j) (b' i j) = some r := by
        intro i j
        obtain ⟨r, f, hf⟩ := ih i j (b' i j)
        exact ⟨f, r, hf⟩
      by_cases ha : accepts (.blk c m n b) (.blk c' m' n' b') = true
      · obtain ⟨f, r, hr⟩ := combine_ends c (min m m') (min n n') (fun f i j => eval E f op (b i j) (b' i j)) b
          fun i j _ _ => hb i j
        refine ⟨r, ends_of_eval (f := f + 1) ?_⟩
        rw [eval_blk, if_pos ha]
        exact hr
      · by_cases hc : c = c'
        · refine ⟨_, ends_of_eval (f := 1) (r := .err .type) ?_⟩
          rw [eval_blk, if_neg ha, if_pos hc]
        · rcases hop with rfl | rfl
          · refine ⟨_, ends_of_eval (f := 1) (r := .err .type) ?_⟩
            rw [eval_blk, if_neg ha, if_neg hc]
          · by_cases ha' : accepts (.blk c' m' n' b') (.blk c m n b) = true
            · obtain ⟨f, r, hr⟩ := combine_ends c' (min m' m) (min n' n)
                (fun f i j => eval E f .div (b i j) (b' i j)) b' fun i j _ _ => hb i j
              refine ⟨r, ends_of_eval (f := f + 1) ?_⟩
              rw [eval_blk, if_neg ha, if_neg hc]
              simp only [ha', if_true]
              exact hr
            · refine ⟨_, ends_of_eval (f := 1) (r := .err .type) ?_⟩
              rw [eval_blk, if_neg ha, if_neg hc]
              simp only [ha', Bool.false_eq_true, if_false]

/-- **C119, sums that end.** A sum, or a product by entries, ends as soon as the blocks that are combined have equal
classes, or related classes with the same number of blocks, at every level. -/
theorem sum_ends (E : Outside R) (op : Op) (hop : op = .add ∨ op = .mul) (A B : Mat R) (h : Meets A B) :
    (∃ r, Ends E op A B r) ∧ ∃ r, Ends E op B A r := by
  induction A generalizing B with
  | arr hh w a =>
    refine ⟨⟨E.numpy op (.arr hh w a) B, ends_of_eval (f := 1) (by cases B <;> rfl)⟩, ?_⟩
    cases B with
    | arr h' w' a' => exact ⟨_, ends_of_eval (f := 1) rfl⟩
    | low z' h' w' a' => rcases hop with rfl | rfl <;> exact ⟨_, ends_of_eval (f := 1) rfl⟩
    | blk c m n b => exact ⟨_, ends_of_eval (f := 1) rfl⟩
  | low z hh w a =>
    rcases hop with rfl | rfl
    · cases B with
      | arr h' w' a' => exact ⟨⟨_, ends_of_eval (f := 1) rfl⟩, ⟨_, ends_of_eval (f := 1) rfl⟩⟩
      | low z' h' w' a' => exact ⟨⟨_, ends_of_eval (f := 1) rfl⟩, ⟨_, ends_of_eval (f := 1) rfl⟩⟩
      | blk c m n b => exact ⟨⟨_, ends_of_eval (f := 2) rfl⟩, ⟨_, ends_of_eval (f := 1) rfl⟩⟩
    · cases B with
      | arr h' w' a' => exact ⟨⟨_, ends_of_eval (f := 1) rfl⟩, ⟨_, ends_of_eval (f := 1) rfl⟩⟩
      | low z' h' w' a' => exact ⟨⟨_, ends_of_eval (f := 1) rfl⟩, ⟨_, ends_of_eval (f := 1) rfl⟩⟩
      | blk c m n b => exact ⟨⟨_, ends_of_eval (f := 2) rfl⟩, ⟨_, ends_of_eval (f := 1) rfl⟩⟩
  | blk c m n b ih =>
    cases B with
    | arr h' w' a' => exact ⟨⟨_, ends_of_eval (f := 1) rfl⟩, ⟨_, ends_of_eval (f := 1) rfl⟩⟩
    | low z' h' w' a' =>
      rcases hop with rfl | rfl <;> exact ⟨⟨_, ends_of_eval (f := 1) rfl⟩, ⟨_, ends_of_eval (f := 2) rfl⟩⟩
    | blk c' m' n' b' =>
      rw [Meets] at h
      have yes : accepts (.blk c m n b) (.blk c' m' n' b') = true →
          ∃ r, Ends E op (.blk c m n b) (.blk c' m' n' b') r := by
        intro ha
        obtain ⟨f, r, hr⟩ := combine_ends c (min m m') (min n n') (fun f i j => eval E f op (b i j) (b' i j)) b
          fun i j hi hj => by
            obtain ⟨⟨r, f, hf⟩, _⟩ := ih i j (b' i j) (h.2 i j hi hj)
            exact ⟨f, r, hf⟩
        refine ⟨r, ends_of_eval (f := f + 1) ?_⟩
        rw [eval_blk, if_pos ha]
        exact hr
      have yes' : accepts (.blk c' m' n' b') (.blk c m n b) = true →
          ∃ r, Ends E op (.blk c' m' n' b') (.blk c m n b) r := by
        intro ha
        obtain ⟨f, r, hr⟩ := combine_ends c' (min m' m) (min n' n) (fun f i j => eval E f op (b' i j) (b i j)) b'
          fun i j hi hj => by
            obtain ⟨_, r, f, hf⟩ := ih i j (b' i j) (h.2 i j (by omega) (by omega))
            exact ⟨f, r, hf⟩
        refine ⟨r, ends_of_eval (f := f + 1) ?_⟩
        rw [eval_blk, if_pos ha]
        exact hr
      by_cases hc : c = c'
      · subst hc
        by_cases hn : nb c m n = nb c m' n'
        · have hi : c.isinstance c = true := by
            cases c with
            | generic => rfl
            | structured k => exact isInstance_self k
          exact ⟨yes (by simp [accepts, hi, hn]), yes' (by simp [accepts, hi, hn])⟩
        · exact ⟨⟨_, same_class_refused E op c m n m' n' b b' hn⟩,
            ⟨_, same_class_refused E op c m' n' m n b' b (Ne.symm hn)⟩⟩
      · rcases h.1 with h0 | ⟨h0 | h0, hn⟩
        · exact (hc h0).elim
        · obtain ⟨r, hr⟩ := yes (by simp [accepts, h0, hn])
          exact ⟨⟨r, hr⟩, ⟨r, (sum_commutes E op hop c c' m n m' n' b b' hc r).1 hr⟩⟩
        · obtain ⟨r, hr⟩ := yes' (by simp [accepts, h0, hn])
          exact ⟨⟨r, (sum_commutes E op hop c c' m n m' n' b b' hc r).2 hr⟩, ⟨r, hr⟩⟩

/-- **C119, low rank matrices.** A low rank matrix and a block matrix are refused with `TypeError` by the four
operators, in both orders. -/
theorem low_and_block (E : Outside R) (op : Op) (c : Cls) (m n : ℕ) (b : ℕ → ℕ → Mat R) (z : Bool) (h w : ℕ)
    (a : ℕ → ℕ → R) : Ends E op (.blk c m n b) (.low z h w a) (.err .type) ∧
      Ends E op (.low z h w a) (.blk c m n b) (.err .type) := by
  refine ⟨ends_of_eval (f := 1) rfl, ?_⟩
  cases op with
  | add => exact ends_of_eval (f := 2) rfl
  | mul => exact ends_of_eval (f := 2) rfl
  | sub => exact ends_of_eval (f := 3) rfl
  | div => exact ends_of_eval (f := 1) rfl

/-! ## Numbers -/

/-- The second matrix is the first one with the function applied to every number stored. -/
def Mapped (f : R → R) : Mat R → Mat R → Prop
  | .arr h w a, .arr h' w' a' => h' = h ∧ w' = w ∧ ∀ r c, a' r c = f (a r c)
  | .low z h w a, .low z' h' w' a' => z' = z ∧ h' = h ∧ w' = w ∧ ∀ r c, a' r c = f (a r c)
  | .blk c m n b, .blk c' m' n' b' => c' = c ∧ m' = m ∧ n' = n ∧ ∀ i j, i < m → j < n → Mapped f (b i j) (b' i j)
  | _, _ => False

theorem unary_leaf (leaf : Mat R → Res R) (f : R → R) (P : Mat R → Prop) (e : Err)
    (hgood : ∀ M, (∀ c m n b, M ≠ .blk c m n b) → ¬P M → ∃ N, leaf M = .ok N ∧ Mapped f M N)
    (hbad : ∀ M, (∀ c m n b, M ≠ .blk c m n b) → P M → leaf M = .err e) (M : Mat R) :
    (¬SomeLeaf P M → ∃ N, unary leaf M = .ok N ∧ Mapped f M N) ∧ (SomeLeaf P M → unary leaf M = .err e) := by
  induction M with
  | arr h w a => exact ⟨fun hp => hgood _ (by simp) hp, fun hp => hbad _ (by simp) hp⟩
  | low z h w a => exact ⟨fun hp => hgood _ (by simp) hp, fun hp => hbad _ (by simp) hp⟩
  | blk c m n b ih =>
    constructor
    · intro hp
      have hb : ∀ i j, i < m → j < n → ∃ N, unary leaf (b i j) = .ok N ∧ Mapped f (b i j) N :=
        fun i j hi hj => (ih i j).1 fun hx => hp ⟨i, j, hi, hj, hx⟩
      have hn : firstFailure ((List.range m ×ˢ List.range n).map fun p => some (unary leaf (b p.1 p.2))) = none := by
        rw [firstFailure_none]
        rintro ⟨i, j⟩ hij
        simp at hij
        obtain ⟨N, hN, _⟩ := hb i j hij.1 hij.2
        exact ⟨N, by simp only [hN]⟩
      refine ⟨.blk c m n fun i j => if i < m ∧ j < n then value (b i j) (some (unary leaf (b i j))) else b i j,
        by rw [unary, hn], rfl, rfl, rfl, fun i j hi hj => ?_⟩
      obtain ⟨N, hN, hm⟩ := hb i j hi hj
      simp only [hi, hj, and_self, if_true, hN, value]
      exact hm
    · rintro ⟨i, j, hi, hj, hx⟩
      have hf : firstFailure ((List.range m ×ˢ List.range n).map fun p => some (unary leaf (b p.1 p.2)))
          = some (some e) := by
        apply firstFailure_err
        · rintro ⟨k, l⟩ hkl
          by_cases hy : SomeLeaf P (b k l)
          · exact Or.inr (by simp only [(ih k l).2 hy])
          · obtain ⟨N, hN, _⟩ := (ih k l).1 hy
            exact Or.inl ⟨N, by simp only [hN]⟩
        · exact ⟨(i, j), by simp [hi, hj], by simp only [(ih i j).2 hx]⟩
      rw [unary, hf]

theorem Mapped.entry {f : R → R} {M N : Mat R} (h : Mapped f M N) (hp : Proper M) (hw : M.toH.WF) :
    N.toH.shape = M.toH.shape ∧ ∀ r c, r < M.toH.shape.1 → c < M.toH.shape.2 →
      N.toH.entry r c = f (M.toH.entry r c) := by
  induction M generalizing N with
  | arr hh w a =>
    cases N with
    | arr h' w' a' => obtain ⟨rfl, rfl, ha⟩ := h; exact ⟨rfl, fun r c _ _ => ha r c⟩
    | _ => exact h.elim
  | low z hh w a =>
    cases N with
    | low z' h' w' a' => obtain ⟨rfl, rfl, rfl, ha⟩ := h; exact ⟨rfl, fun r c _ _ => ha r c⟩
    | _ => exact h.elim
  | blk c m n b ih =>
    cases N with
    | arr h' w' a' => exact h.elim
    | low z' h' w' a' => exact h.elim
    | blk c' m' n' b' =>
      obtain ⟨rfl, rfl, rfl, hb⟩ := h
      obtain ⟨hm, hn, h1, hq⟩ := hp
      cases c' with
      | generic =>
        rw [Mat.toH] at hw
        have hw' : ∀ i j, i < m' → j < n' → (b i j).toH.WF ∧
            (b i j).toH.shape = ((b i 0).toH.shape.1, (b 0 j).toH.shape.2) := by
          intro i j hi hj
          have := hw i j (by simpa using hi) (by simpa using hj)
          simpa [List.getD_eq_getElem?_getD, hi, hj] using this
        have hsh : ∀ i j, i < m' → j < n' → (b' i j).toH.shape = (b i j).toH.shape :=
          fun i j hi hj => (ih i j (hb i j hi hj) (hq i j hi hj) (hw' i j hi hj).1).1
        have e1 : ((List.range m').map fun i => (b' i 0).toH.shape.1)
            = (List.range m').map fun i => (b i 0).toH.shape.1 :=
          List.map_congr_left fun i hi => by rw [hsh i 0 (by simpa using hi) hn]
        have e2 : ((List.range n').map fun j => (b' 0 j).toH.shape.2)
            = (List.range n').map fun j => (b 0 j).toH.shape.2 :=
          List.map_congr_left fun j hj => by rw [hsh 0 j hm (by simpa using hj)]
        refine ⟨?_, fun r c hr hc => ?_⟩
        · show (List.sum _, List.sum _) = (List.sum _, List.sum _)
          rw [e1, e2]
        replace hr : r < ((List.range m').map fun i => (b i 0).toH.shape.1).sum := hr
        replace hc : c < ((List.range n').map fun j => (b 0 j).toH.shape.2).sum := hc
        obtain ⟨l1, _, l3⟩ := locate_spec _ r hr
        obtain ⟨k1, _, k3⟩ := locate_spec _ c hc
        simp only [Mat.toH, HMat.entry, e1, e2]
        have l1' : (locate ((List.range m').map fun i => (b i 0).toH.shape.1) r).1 < m' := by simpa using l1
        have k1' : (locate ((List.range n').map fun j => (b 0 j).toH.shape.2) c).1 < n' := by simpa using k1
        refine (ih _ _ (hb _ _ l1' k1') (hq _ _ l1' k1') (hw' _ _ l1' k1').1).2 _ _ ?_ ?_
        · rw [(hw' _ _ l1' k1').2]
          simpa [List.getD_eq_getElem?_getD, l1'] using l3
        · rw [(hw' _ _ l1' k1').2]
          simpa [List.getD_eq_getElem?_getD, k1'] using k3
      | structured k =>
        rw [Mat.toH] at hw
        have hsh : ∀ j, j < n' → (b' 0 j).toH.shape = (b 0 j).toH.shape :=
          fun j hj => (ih 0 j (hb 0 j hm hj) (hq 0 j hm hj) (hw.2 j hj).1).1
        refine ⟨?_, fun r c hr hc => ?_⟩
        · show (_ * _, _ * _) = (_ * _, _ * _)
          rw [hsh 0 hn]
        rw [Mat.toH] at hr hc
        obtain ⟨i1, i2, i3⟩ := str_index_lt hw hr hc
        simp only [Mat.toH, HMat.entry, hsh 0 hn]
        refine (ih 0 _ (hb 0 _ hm i1) (hq 0 _ hm i1) (hw.2 _ i1).1).2 _ _ ?_ ?_
        · rw [(hw.2 _ i1).2]; exact i2
        · rw [(hw.2 _ i1).2]; exact i3

/-- What a number does to a matrix: the result has the same shape and each entry is transformed. -/
def Entrywise (f : R → R) (M N : Mat R) : Prop :=
  N.toH.shape = M.toH.shape ∧ ∀ r c, r < M.toH.shape.1 → c < M.toH.shape.2 → N.toH.entry r c = f (M.toH.entry r c)

/-- **C119, products with a number.** The product of a matrix and a number of Python, in any order, is the product of
every entry when no block is of low rank, and is refused with `TypeError` otherwise; the same for the quotient of a
number by a matrix. -/
theorem scale_iff (f : R → R) (M : Mat R) (hp : Proper M) (hw : M.toH.WF) :
    (¬SomeLeaf IsLow M → ∃ N, scale f M = .ok N ∧ Entrywise f M N) ∧ (SomeLeaf IsLow M → scale f M = .err .type) ∧
      (¬SomeLeaf IsLow M → ∃ N, inverse f M = .ok N ∧ Entrywise f M N) ∧
      (SomeLeaf IsLow M → inverse f M = .err .type) := by
  have key : (¬SomeLeaf IsLow M → ∃ N, scale f M = .ok N ∧ Mapped f M N) ∧ (SomeLeaf IsLow M → scale f M = .err .type) := by
    apply unary_leaf
    · intro M hM hl
      cases M with
      | arr h w a => exact ⟨_, rfl, rfl, rfl, fun _ _ => rfl⟩
      | low z h w a => exact (hl trivial).elim
      | blk c m n b => exact (hM c m n b rfl).elim
    · intro M hM hl
      cases M with
      | arr h w a => exact hl.elim
      | low z h w a => rfl
      | blk c m n b => exact hl.elim
  have one : ¬SomeLeaf IsLow M → ∃ N, scale f M = .ok N ∧ Entrywise f M N := fun h => by
    obtain ⟨N, hN, hm⟩ := key.1 h
    exact ⟨N, hN, hm.entry hp hw⟩
  exact ⟨one, key.2, one, key.2⟩

/-- **C119, quotients by a number.** The quotient by a number divides every entry, low rank blocks included; it is
refused with `AssertionError` exactly when the number is complex and some block is a real low rank matrix. -/
theorem divide_iff (complex : Bool) (f : R → R) (M : Mat R) (hp : Proper M) (hw : M.toH.WF) :
    (complex = false ∨ ¬SomeLeaf IsRealLow M → ∃ N, divide complex f M = .ok N ∧ Entrywise f M N) ∧
      (complex = true ∧ SomeLeaf IsRealLow M → divide complex f M = .err .assertion) := by
  cases complex with
  | false =>
    refine ⟨fun _ => ?_, fun h => (Bool.false_ne_true h.1).elim⟩
    have := (unary_leaf (fun
      | .arr h w a => .ok (.arr h w fun r c => f (a r c))
      | .low z h w a => if false && !z then .err .assertion else .ok (.low z h w fun r c => f (a r c))
      | M => .ok M) f (fun _ => False) .type (fun M hM _ => by
        cases M with
        | arr h w a => exact ⟨_, rfl, rfl, rfl, fun _ _ => rfl⟩
        | low z h w a => exact ⟨_, rfl, rfl, rfl, rfl, fun _ _ => rfl⟩
        | blk c m n b => exact (hM c m n b rfl).elim) (fun _ _ h => h.elim) M).1 (by
          have hf : ∀ M : Mat R, ¬SomeLeaf (fun _ => False) M := by
            intro M
            induction M with
            | arr h w a => exact id
            | low z h w a => exact id
            | blk c m n b ih => rintro ⟨i, j, _, _, h⟩; exact ih i j h
          exact hf M)
    obtain ⟨N, hN, hm⟩ := this
    exact ⟨N, hN, hm.entry hp hw⟩
  | true =>
    have key : (¬SomeLeaf IsRealLow M → ∃ N, divide true f M = .ok N ∧ Mapped f M N) ∧
        (SomeLeaf IsRealLow M → divide true f M = .err .assertion) := by
      apply unary_leaf
      · intro M hM hl
        cases M with
        | arr h w a => exact ⟨_, rfl, rfl, rfl, fun _ _ => rfl⟩
        | low z h w a =>
          cases z with
          | false => exact (hl rfl).elim
          | true => exact ⟨_, rfl, rfl, rfl, rfl, fun _ _ => rfl⟩
        | blk c m n b => exact (hM c m n b rfl).elim
      · intro M hM hl
        cases M with
        | arr h w a => exact hl.elim
        | low z h w a => cases z with
          | false => rfl
          | true => exact (Bool.false_ne_true hl.symm).elim
        | blk c m n b => exact hl.elim
    refine ⟨fun h => ?_, fun h => key.2 h.2⟩
    rcases h with h | h
    · exact (Bool.false_ne_true h.symm).elim
    · obtain ⟨N, hN, hm⟩ := key.1 h
      exact ⟨N, hN, hm.entry hp hw⟩

/-- **C119, sums with a number.** No sum or difference of a matrix and a number of Python gives a value; the
difference of a number and a matrix fails with `AttributeError`, the three others with `TypeError`. -/
theorem shift_errors : shift true .sub = .attribute ∧ shift true .add = .type ∧ shift false .add = .type ∧
    shift false .sub = .type := ⟨rfl, rfl, rfl, rfl⟩

/-! ## Concrete cases -/

/-- A symmetric Toeplitz matrix with two blocks. -/
def exToeplitz (x : ℚ) : Mat ℚ := .blk (.structured .symToeplitz) 1 2 fun _ j => .arr 1 1 fun _ _ => x + j

/-- A generic matrix of the same shape. -/
def exGeneric (x : ℚ) : Mat ℚ := .blk .generic 2 2 fun i j => .arr 1 1 fun _ _ => x + 2 * i + j

/-- A circulant matrix of the same shape. -/
def exCirculant (x : ℚ) : Mat ℚ := .blk (.structured .circulant) 1 2 fun _ j => .arr 1 1 fun _ _ => x + j

/-- A matrix with a low rank block outside its diagonal. -/
def exLow (x : ℚ) : Mat ℚ :=
  .blk (.structured .symToeplitz) 1 2 fun _ j => if j = 0 then .arr 1 1 fun _ _ => x else .low false 1 1 fun _ _ => x

/-- `numpy` on arrays of the same shape. -/
def exOutside : Outside ℚ where
  numpy op A B := match op, A, B with
    | .add, .arr h w a, .arr _ _ a' => .ok (.arr h w fun r c => a r c + a' r c)
    | .sub, .arr h w a, .arr _ _ a' => .ok (.arr h w fun r c => a r c - a' r c)
    | .mul, .arr h w a, .arr _ _ a' => .ok (.arr h w fun r c => a r c * a' r c)
    | .div, .arr h w a, .arr _ _ a' => .ok (.arr h w fun r c => a r c / a' r c)
    | _, _, _ => .err .numpy
  lowAdd A _ := .ok A
  neg x := -x

/-- **C119 is violated.** The sum of a symmetric Toeplitz and a circulant matrix of the same shape is not computed
and does not end; the difference of a symmetric Toeplitz matrix and a generic one is refused while their sum, the
opposite difference and the quotient give a value; a matrix with a low rank block can be divided by a number and not
multiplied. -/
theorem arithmetic_violated :
    (NeverEnds exOutside .add (exToeplitz 1) (exCirculant 2) ∧
      (exToeplitz 1).toH.shape = (exCirculant 2).toH.shape) ∧
      (Ends exOutside .sub (exToeplitz 1) (exGeneric 2) (.err .type) ∧
        (∃ M, Ends exOutside .add (exToeplitz 1) (exGeneric 2) (.ok M)) ∧
        (∃ M, Ends exOutside .sub (exGeneric 2) (exToeplitz 1) (.ok M)) ∧
        ∃ M, Ends exOutside .div (exToeplitz 1) (exGeneric 2) (.ok M)) ∧
      scale (fun x => 2 * x) (exLow 1) = .err .type ∧ ∃ M, divide false (fun x => x / 2) (exLow 1) = .ok M := by
  refine ⟨⟨(incompatible_classes _ _ _ _ _ _ _ _ _ (by decide) (Or.inr (by decide))).1, rfl⟩,
    ⟨difference_one_sided _ _ _ _ _ _ _ _ _ (by decide) (by decide), ⟨_, ends_of_eval (f := 3) rfl⟩,
      ⟨_, ends_of_eval (f := 2) rfl⟩, ⟨_, ends_of_eval (f := 2) rfl⟩⟩, rfl, ⟨_, rfl⟩⟩

example : nb (.structured .symToeplitz) 1 2 ≠ nb (.structured .symToeplitz) 1 3 := by decide
example : Meets (exToeplitz 1) (exGeneric 2) ∧ Meets (exLow 1) (exLow 2) :=
  ⟨⟨Or.inr ⟨Or.inr rfl, rfl⟩, fun _ _ _ _ => trivial⟩, ⟨Or.inl rfl, fun i j _ _ => by
    show Meets (if j = 0 then _ else _) (if j = 0 then _ else _)
    split <;> trivial⟩⟩

theorem exLow_proper (x : ℚ) : Proper (exLow x) := ⟨one_pos, two_pos, fun _ => rfl, fun i j _ _ => by
  show Proper (if j = 0 then _ else _)
  split <;> trivial⟩

theorem exLow_wf (x : ℚ) : (exLow x).toH.WF := by
  refine ⟨⟨2, by simp [Admissible], rfl⟩, fun i _ => ?_⟩
  show (Mat.toH (if i = 0 then _ else _)).WF ∧ (Mat.toH (if i = 0 then _ else _)).shape = _
  split <;> exact ⟨trivial, rfl⟩

example : Proper (exLow 1) ∧ (exLow 1).toH.WF ∧ SomeLeaf IsLow (exLow 1) ∧ SomeLeaf IsRealLow (exLow 1) :=
  ⟨exLow_proper 1, exLow_wf 1, ⟨0, 1, one_pos, by decide, trivial⟩, ⟨0, 1, one_pos, by decide, rfl⟩⟩

example : ¬SomeLeaf IsLow (exToeplitz 1) := by rintro ⟨i, j, _, _, h⟩; exact h

end Verif.Blocks.Arith
