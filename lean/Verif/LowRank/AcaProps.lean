import Verif.LowRank.Model
import Mathlib.Tactic.Linarith
import Mathlib.Tactic.FieldSimp
import Mathlib.Tactic.Ring
import Mathlib.Tactic.LinearCombination
import Mathlib.Tactic.NormNum
import Mathlib.LinearAlgebra.Matrix.Rank

/-!
# Adaptive cross approximation (C22)
-/

namespace Verif.LowRank

variable {N m n : ℕ}

/-! ## Lists -/

theorem argmax_lt (l : List ℝ) (k : ℕ) (h : argmax l = some k) : k < l.length := by
  induction l generalizing k with
  | nil => cases h
  | cons x xs ih =>
    rw [argmax] at h
    cases ha : argmax xs with
    | none =>
      rw [ha] at h
      cases h
      simp
    | some q =>
      rw [ha] at h
      simp only at h
      split at h
      · cases h
        simp
      · cases h
        have := ih q ha
        simp only [List.length_cons]
        omega

/-- The specification of `argmax`. -/
theorem argmax_max (l : List ℝ) (k : ℕ) (h : argmax l = some k) : ∀ x ∈ l, x ≤ l.getD k 0 := by
  induction l generalizing k with
  | nil => cases h
  | cons x xs ih =>
    rw [argmax] at h
    cases ha : argmax xs with
    | none =>
      rw [ha] at h
      cases h
      cases xs with
      | nil => simp
      | cons y ys =>
        rw [argmax] at ha
        split at ha
        · cases ha
        · split at ha <;> cases ha
    | some q =>
      rw [ha] at h
      simp only at h
      have hq := ih q ha
      split at h
      · rename_i hle
        cases h
        intro y hy
        rcases List.mem_cons.mp hy with rfl | hy
        · simp
        · simpa using (hq y hy).trans hle
      · rename_i hle
        cases h
        intro y hy
        rcases List.mem_cons.mp hy with rfl | hy
        · simpa using (not_le.mp hle).le
        · simpa using hq y hy

theorem argmax_some {l : List ℝ} (h : l ≠ []) : ∃ k, argmax l = some k := by
  cases l with
  | nil => exact absurd rfl h
  | cons x xs =>
    rw [argmax]
    cases argmax xs with
    | none => exact ⟨0, rfl⟩
    | some q =>
      simp only
      split <;> exact ⟨_, rfl⟩

theorem pop_spec {A : Type} {l : List A} {k : ℕ} {a : A} {r : List A} (h : pop l k = some (a, r)) :
    l[k]? = some a ∧ r = l.eraseIdx k ∧ (a :: r).Perm l := by
  rw [pop] at h
  split at h
  · cases h
  · rename_i b hb
    cases h
    obtain ⟨hk, rfl⟩ := List.getElem?_eq_some_iff.mp hb
    exact ⟨hb, rfl, List.getElem_cons_eraseIdx_perm hk⟩

theorem pop_some {A : Type} {l : List A} {k : ℕ} (h : k < l.length) : ∃ a r, pop l k = some (a, r) := by
  rw [pop, List.getElem?_eq_getElem h]
  exact ⟨_, _, rfl⟩

/-! ## Factors -/

theorem entry_take_succ (F : Factors m n) (q : ℕ) (u : Fin m → ℂ) (v : Fin n → ℂ) (hu : F.left[q]? = some u)
    (hv : F.right[q]? = some v) (i : Fin m) (j : Fin n) :
    (F.take (q + 1)).entry i j = (F.take q).entry i j + u i * v j := by
  have hl : q < F.left.length := (List.getElem?_eq_some_iff.mp hu).1
  have hr : q < F.right.length := (List.getElem?_eq_some_iff.mp hv).1
  simp only [Factors.entry, Factors.take, List.take_add_one, hu, hv, Option.toList_some]
  rw [List.zipWith_append (by rw [List.length_take, List.length_take]; omega), List.sum_append]
  simp

theorem entry_extend (A : Fin m → Fin n → ℂ) (F : Factors m n) (hF : F.left.length = F.right.length) (i : Fin m)
    (j : Fin n) (a : Fin m) (b : Fin n) :
    (F.extend A i j).entry a b = F.entry a b + newCol A F i j a * newRow A F i b := by
  simp only [Factors.entry, Factors.extend]
  rw [List.zipWith_append hF, List.sum_append]
  simp

theorem take_take_le (F : Factors m n) {p q : ℕ} (h : p ≤ q) : (F.take q).take p = F.take p := by
  simp only [Factors.take, List.take_take, Nat.min_eq_left h]

theorem take_all (F : Factors m n) (h : F.right.length = F.left.length) : F.take F.left.length = F := by
  obtain ⟨l, r⟩ := F
  simp only [Factors.take] at h ⊢
  rw [List.take_length, ← h, List.take_length]

theorem take_extend (A : Fin m → Fin n → ℂ) (F : Factors m n) (hF : F.left.length = F.right.length) (i : Fin m)
    (j : Fin n) (q : ℕ) (hq : q ≤ F.left.length) : (F.extend A i j).take q = F.take q := by
  simp only [Factors.take, Factors.extend, List.take_append_of_le_length hq,
    List.take_append_of_le_length (hF ▸ hq)]

/-- How the factors are made from the rows and columns that are read. -/
structure Crosses (A : Fin m → Fin n → ℂ) (F : Factors m n) (is : List (Fin m)) (js : List (Fin n)) : Prop where
  left_len : F.left.length ≤ is.length
  right_len : F.right.length = F.left.length
  len : js.length = is.length
  row : ∀ (q : ℕ) i, q < F.left.length → is[q]? = some i → F.right[q]? = some (newRow A (F.take q) i)
  col : ∀ (q : ℕ) i j, q < F.left.length → is[q]? = some i → js[q]? = some j →
    F.left[q]? = some (newCol A (F.take q) i j)

theorem Crosses.take {A : Fin m → Fin n → ℂ} {F : Factors m n} {is : List (Fin m)} {js : List (Fin n)}
    (h : Crosses A F is js) (l : ℕ) : Crosses A (F.take l) is js := by
  have hlen : (F.take l).left.length = min l F.left.length := by simp [Factors.take]
  refine ⟨by rw [hlen]; exact (Nat.min_le_right _ _).trans h.left_len, ?_, h.len, ?_, ?_⟩
  · simp [Factors.take, h.right_len]
  · intro q i hq hi
    rw [hlen] at hq
    rw [take_take_le F (by omega)]
    simp only [Factors.take, List.getElem?_take, if_pos (show q < l by omega)]
    exact h.row q i (by omega) hi
  · intro q i j hq hi hj
    rw [hlen] at hq
    rw [take_take_le F (by omega)]
    simp only [Factors.take, List.getElem?_take, if_pos (show q < l by omega)]
    exact h.col q i j (by omega) hi hj

theorem crosses_extend {A : Fin m → Fin n → ℂ} {F : Factors m n} {is : List (Fin m)} {js : List (Fin n)}
    (h : Crosses A F is js) (hl : F.left.length = is.length) (i : Fin m) (j : Fin n) :
    Crosses A (F.extend A i j) (is ++ [i]) (js ++ [j]) := by
  have hx : (F.extend A i j).left.length = F.left.length + 1 := by simp [Factors.extend]
  refine ⟨by rw [hx, hl]; simp, by simp [Factors.extend, h.right_len], by simp [h.len], ?_, ?_⟩
  · intro q i' hq hi
    rw [hx] at hq
    rw [take_extend A F h.right_len.symm i j q (by omega)]
    rcases Nat.lt_or_ge q F.left.length with hlt | hge
    · rw [List.getElem?_append_left (by omega)] at hi
      simp only [Factors.extend]
      rw [List.getElem?_append_left (by rw [h.right_len]; exact hlt)]
      exact h.row q i' hlt hi
    · have hq' : q = F.left.length := by omega
      subst hq'
      rw [List.getElem?_append_right (by omega), ← hl, Nat.sub_self] at hi
      simp only [List.getElem?_cons_zero, Option.some.injEq] at hi
      subst hi
      have ht := take_all F h.right_len
      rw [ht]
      simp only [Factors.extend]
      rw [List.getElem?_append_right (by rw [h.right_len]), h.right_len, Nat.sub_self]
      rfl
  · intro q i' j' hq hi hj
    rw [hx] at hq
    rw [take_extend A F h.right_len.symm i j q (by omega)]
    rcases Nat.lt_or_ge q F.left.length with hlt | hge
    · rw [List.getElem?_append_left (by omega)] at hi
      rw [List.getElem?_append_left (by rw [h.len]; omega)] at hj
      simp only [Factors.extend]
      rw [List.getElem?_append_left hlt]
      exact h.col q i' j' hlt hi hj
    · have hq' : q = F.left.length := by omega
      subst hq'
      rw [List.getElem?_append_right (by omega), ← hl, Nat.sub_self] at hi
      rw [List.getElem?_append_right (by rw [h.len]; omega), h.len, ← hl, Nat.sub_self] at hj
      simp only [List.getElem?_cons_zero, Option.some.injEq] at hi hj
      subst hi hj
      have ht := take_all F h.right_len
      rw [ht]
      simp only [Factors.extend]
      rw [List.getElem?_append_right (by omega), Nat.sub_self]
      rfl

/-- What a pivot of a cross must be to divide by it. -/
def GoodPivots (A : Fin m → Fin n → ℂ) (F : Factors m n) (is : List (Fin m)) (js : List (Fin n)) : Prop :=
  ∀ (q : ℕ) i j, q < F.left.length → is[q]? = some i → js[q]? = some j → 1e-12 ≤ ‖A i j - (F.take q).entry i j‖

theorem safePivot_good {p : ℂ} (h : 1e-12 ≤ ‖p‖) : safePivot p = p ∧ p ≠ 0 := by
  constructor
  · rw [safePivot, if_neg (not_lt.mpr h)]
  · rintro rfl
    norm_num at h

/-- The residual after one more cross. -/
theorem residual_succ {A : Fin m → Fin n → ℂ} {F : Factors m n} {is : List (Fin m)} {js : List (Fin n)}
    (h : Crosses A F is js) (hp : GoodPivots A F is js) (q : ℕ) (hq : q < F.left.length) (i : Fin m) (j : Fin n)
    (hi : is[q]? = some i) (hj : js[q]? = some j) (a : Fin m) (b : Fin n) :
    (A i j - (F.take q).entry i j) ≠ 0 ∧
    A a b - (F.take (q + 1)).entry a b = (A a b - (F.take q).entry a b) -
      (A a j - (F.take q).entry a j) / (A i j - (F.take q).entry i j) * (A i b - (F.take q).entry i b) := by
  obtain ⟨h1, h2⟩ := safePivot_good (hp q i j hq hi hj)
  refine ⟨h2, ?_⟩
  rw [entry_take_succ F q _ _ (h.col q i j hq hi hj) (h.row q i hq hi), newCol, newRow, h1]
  ring

theorem residual_zero {A : Fin m → Fin n → ℂ} {F : Factors m n} {is : List (Fin m)} {js : List (Fin n)}
    (h : Crosses A F is js) (hp : GoodPivots A F is js) (q : ℕ) (hq : q ≤ F.left.length) :
    ∀ p i j, p < q → is[p]? = some i → js[p]? = some j →
      (∀ b, A i b - (F.take q).entry i b = 0) ∧ ∀ a, A a j - (F.take q).entry a j = 0 := by
  induction q with
  | zero => intro p _ _ hp; omega
  | succ q ih =>
    intro p i j hpq hi hj
    have hql : q < is.length := by have := h.left_len; omega
    have hi' := List.getElem?_eq_getElem hql
    have hj' := List.getElem?_eq_getElem (show q < js.length by rw [h.len]; omega)
    rcases Nat.lt_or_ge p q with hlt | hge
    · obtain ⟨z1, z2⟩ := ih (by omega) p i j hlt hi hj
      constructor
      · intro b
        obtain ⟨-, e⟩ := residual_succ h hp q (by omega) _ _ hi' hj' i b
        rw [e, z1 b, z1]
        ring
      · intro a
        obtain ⟨-, e⟩ := residual_succ h hp q (by omega) _ _ hi' hj' a j
        rw [e, z2 a, z2]
        ring
    · have : p = q := by omega
      subst this
      constructor
      · intro b
        obtain ⟨e0, e⟩ := residual_succ h hp p (by omega) i j hi hj i b
        rw [e]
        field_simp
        ring
      · intro a
        obtain ⟨e0, e⟩ := residual_succ h hp p (by omega) i j hi hj a j
        rw [e]
        field_simp
        ring

/-! ## Invariant of the loop -/

/-- What is true after `l` turns. -/
structure Inv (A : Fin N → Fin m → Fin n → ℂ) (l : ℕ) (s : Aca N m n) : Prop where
  crosses : ∀ k, Crosses (A k) (s.factors k) s.readRows s.readCols
  len : ∀ k, (s.factors k).left.length = l
  readLen : s.readRows.length = l
  rows : (s.readRows ++ s.rows).Perm (List.finRange m)
  cols : (s.readCols ++ s.cols).Perm (List.finRange n)

theorem inv_start (A : Fin N → Fin m → Fin n → ℂ) : Inv A 0 (start N m n) :=
  ⟨fun _ => ⟨le_rfl, rfl, rfl, by simp [start], by simp [start]⟩, fun _ => rfl, rfl, by simp [start], by simp [start]⟩

theorem step_spec {A : Fin N → Fin m → Fin n → ℂ} {main : Fin N} {s s' : Aca N m n} {inc : ℝ}
    (h : step A main s = some (s', inc)) :
    ∃ (i : Fin m) (j : Fin n) (rows : List (Fin m)) (cols : List (Fin n)),
      (∃ p, pickRow (s.factors main) s.rows = some p ∧ pop s.rows p = some (i, rows)) ∧
      (∃ p, pickCol (newRow (A main) (s.factors main) i) s.cols = some p ∧ pop s.cols p = some (j, cols)) ∧
      inc = incrementNorm (newCol (A main) (s.factors main) i j) (newRow (A main) (s.factors main) i) ∧
      s' = { factors := fun k => (s.factors k).extend (A k) i j, rows := rows, cols := cols,
             total := s.total + (inc + 2 * (crossedTerms (s.factors main) (newCol (A main) (s.factors main) i j)
               (newRow (A main) (s.factors main) i)).re),
             readRows := s.readRows ++ [i], readCols := s.readCols ++ [j] } := by
  rw [step] at h
  split at h
  · cases h
  · rename_i i rows h1
    split at h
    · cases h
    · rename_i j cols h2
      obtain ⟨p, hp, hp'⟩ := Option.bind_eq_some_iff.mp h1
      obtain ⟨q, hq, hq'⟩ := Option.bind_eq_some_iff.mp h2
      cases h
      exact ⟨i, j, rows, cols, ⟨p, hp, hp'⟩, ⟨q, hq, hq'⟩, rfl, rfl⟩

theorem perm_move {A : Type} {r l l' t : List A} {a : A} (h : (r ++ l).Perm t) (hp : (a :: l').Perm l) :
    ((r ++ [a]) ++ l').Perm t := by
  refine List.Perm.trans ?_ h
  rw [List.append_assoc]
  exact hp.append_left r

theorem inv_step {A : Fin N → Fin m → Fin n → ℂ} {main : Fin N} {s s' : Aca N m n} {inc : ℝ} {l : ℕ}
    (hi : Inv A l s) (h : step A main s = some (s', inc)) : Inv A (l + 1) s' := by
  obtain ⟨i, j, rows, cols, ⟨p, -, hp⟩, ⟨q, -, hq⟩, -, rfl⟩ := step_spec h
  refine ⟨fun k => crosses_extend (hi.crosses k) (by rw [hi.len, hi.readLen]) i j, fun k => ?_, ?_, ?_, ?_⟩
  · simp [Factors.extend, hi.len]
  · simp [hi.readLen]
  · exact perm_move hi.rows (pop_spec hp).2.2
  · exact perm_move hi.cols (pop_spec hq).2.2

/-- What is true of the result. -/
structure Result (A : Fin N → Fin m → Fin n → ℂ) (maxRank : ℕ) (F : Fin N → Factors m n) (is : List (Fin m))
    (js : List (Fin n)) : Prop where
  crosses : ∀ k, Crosses (A k) (F k) is js
  rank : ∀ k, (F k).left.length ≤ maxRank
  reads : is.length ≤ maxRank
  rows : is.Nodup
  cols : js.Nodup

theorem nodup_reads {A : Fin N → Fin m → Fin n → ℂ} {l : ℕ} {s : Aca N m n} (h : Inv A l s) :
    s.readRows.Nodup ∧ s.readCols.Nodup := by
  have h1 := h.rows.nodup_iff.mpr (List.nodup_finRange m)
  have h2 := h.cols.nodup_iff.mpr (List.nodup_finRange n)
  exact ⟨(List.nodup_append.mp h1).1, (List.nodup_append.mp h2).1⟩

theorem loop_result {A : Fin N → Fin m → Fin n → ℂ} {main : Fin N} {tol : ℝ} (fuel l : ℕ) (s : Aca N m n)
    (hi : Inv A l s) {F : Fin N → Factors m n} {is : List (Fin m)} {js : List (Fin n)}
    (h : loop A main tol fuel l s = .done F is js) : Result A (l + fuel) F is js := by
  induction fuel generalizing l s with
  | zero =>
    rw [loop] at h
    split at h
    · split at h <;> cases h
    · cases h
      exact ⟨hi.crosses, fun k => by rw [hi.len]; omega, by rw [hi.readLen]; omega, (nodup_reads hi).1, (nodup_reads hi).2⟩
  | succ fuel ih =>
    rw [loop] at h
    split at h
    · cases h
    · rename_i s' inc hs
      have hi' := inv_step hi hs
      split at h
      · cases h
        refine ⟨fun k => (hi'.crosses k).take _, fun k => ?_, by rw [hi'.readLen]; omega, (nodup_reads hi').1, (nodup_reads hi').2⟩
        have : ((s'.factors k).take (if l = 0 then 1 else l)).left.length ≤ (s'.factors k).left.length := by
          simp only [Factors.take, List.length_take]
          exact Nat.min_le_right _ _
        rw [hi'.len] at this
        omega
      · have := ih (l + 1) s' hi' h
        rw [show l + (fuel + 1) = l + 1 + fuel by omega]
        exact this

theorem aca_result {A : Fin N → Fin m → Fin n → ℂ} {main : Fin N} {maxRank : Option ℕ} {tol : ℝ}
    {F : Fin N → Factors m n} {is : List (Fin m)} {js : List (Fin n)}
    (h : multiAca A main maxRank tol = .done F is js) : Result A (maxRank.getD (min m n / 2)) F is js := by
  have := loop_result _ 0 _ (inv_start A) h
  rwa [Nat.zero_add] at this

/-! ## Theorems -/

/-- C22: no row nor column is read twice, the rank of each result is at most the maximal rank, and at most one row and
one column more than this rank have been read, unless an exception is raised. -/
theorem aca_reads (A : Fin N → Fin m → Fin n → ℂ) (main : Fin N) (maxRank : Option ℕ) (tol : ℝ)
    (F : Fin N → Factors m n) (is : List (Fin m)) (js : List (Fin n))
    (h : multiAca A main maxRank tol = .done F is js) :
    is.Nodup ∧ js.Nodup ∧ js.length = is.length ∧ is.length ≤ maxRank.getD (min m n / 2) ∧
    ∀ k, (F k).right.length = (F k).left.length ∧ (F k).left.length ≤ is.length := by
  have hr := aca_result h
  exact ⟨hr.rows, hr.cols, (hr.crosses main).len, hr.reads,
    fun k => ⟨(hr.crosses k).right_len, (hr.crosses k).left_len⟩⟩

/-- C22 for one of the matrices, when none of its pivots is replaced: the result coincides with the matrix on the rows and
columns that have been used. -/
theorem aca_interpolates_partial (A : Fin N → Fin m → Fin n → ℂ) (main : Fin N) (maxRank : Option ℕ) (tol : ℝ)
    (F : Fin N → Factors m n) (is : List (Fin m)) (js : List (Fin n))
    (h : multiAca A main maxRank tol = .done F is js) (k : Fin N)
    (hp : ∀ (q : ℕ) i j, q < (F k).left.length → is[q]? = some i → js[q]? = some j →
      1e-12 ≤ ‖A k i j - ((F k).take q).entry i j‖) :
    (∀ (q : ℕ) i, q < (F k).left.length → is[q]? = some i → ∀ j, (F k).entry i j = A k i j) ∧
    ∀ (q : ℕ) j, q < (F k).left.length → js[q]? = some j → ∀ i, (F k).entry i j = A k i j := by
  have hr := (aca_result h).crosses k
  have hz := residual_zero hr hp _ le_rfl
  have ht : (F k).take (F k).left.length = F k := take_all _ hr.right_len
  rw [ht] at hz
  constructor
  · intro q i hq hi j
    have hj := List.getElem?_eq_getElem (show q < js.length by rw [hr.len]; have := hr.left_len; omega)
    exact (sub_eq_zero.mp ((hz q i _ hq hi hj).1 j)).symm
  · intro q j hq hj i
    have hi := List.getElem?_eq_getElem (show q < is.length by have := hr.left_len; omega)
    exact (sub_eq_zero.mp ((hz q _ j hq hi hj).2 i)).symm

/-- A product of numbers: the pivots are good, and a single cross gives the whole matrix. -/
def table : Fin 1 → Fin 2 → Fin 2 → ℂ := fun _ i j => (i + 1) * (j + 1)

theorem table_large (k : Fin 1) (i j : Fin 2) : 1e-12 ≤ ‖table k i j‖ := by
  fin_cases i <;> fin_cases j <;> norm_num [table]

theorem table_pivots (F : Fin 1 → Factors 2 2) (is js : List (Fin 2))
    (h : multiAca table 0 (some 1) 0 = .done F is js) (k : Fin 1) (q : ℕ) (i j : Fin 2) (hq : q < (F k).left.length) :
    1e-12 ≤ ‖table k i j - ((F k).take q).entry i j‖ := by
  obtain ⟨-, -, -, h1, h2⟩ := aca_reads _ _ _ _ _ _ _ h
  have h3 := (h2 k).2
  simp only [Option.getD_some] at h1
  have : q = 0 := by omega
  subst this
  simp only [Factors.take, Factors.entry, List.take_zero, List.zipWith_nil_left, List.sum_nil, sub_zero]
  exact table_large k i j

/-- The rows of the residual. -/
theorem residual_rank {A : Fin m → Fin n → ℂ} {F : Factors m n} {is : List (Fin m)} {js : List (Fin n)}
    (h : Crosses A F is js) (hp : GoodPivots A F is js) (q : ℕ) (hq : q ≤ F.left.length) :
    Module.finrank ℂ (Submodule.span ℂ (Set.range fun a : Fin m => fun b => A a b - (F.take q).entry a b)) + q ≤
      Module.finrank ℂ (Submodule.span ℂ (Set.range A)) := by
  induction q with
  | zero =>
    have : (fun a : Fin m => fun b => A a b - (F.take 0).entry a b) = A := by
      funext a b
      simp [Factors.take, Factors.entry]
    rw [this, Nat.add_zero]
  | succ q ih =>
    have ih := ih (by omega)
    have hql : q < is.length := by have := h.left_len; omega
    have hjl : q < js.length := by rw [h.len]; omega
    have hi' := List.getElem?_eq_getElem hql
    have hj' := List.getElem?_eq_getElem hjl
    have hstep := fun a b => (residual_succ h hp q (by omega) _ _ hi' hj' a b).2
    have hne := (residual_succ h hp q (by omega) _ _ hi' hj' is[q] js[q]).1
    have hlt : Submodule.span ℂ (Set.range fun a : Fin m => fun b => A a b - (F.take (q + 1)).entry a b) <
        Submodule.span ℂ (Set.range fun a : Fin m => fun b => A a b - (F.take q).entry a b) := by
      refine lt_of_le_of_ne ?_ ?_
      · rw [Submodule.span_le]
        rintro _ ⟨a, rfl⟩
        have he : (fun b => A a b - (F.take (q + 1)).entry a b) = (fun b => A a b - (F.take q).entry a b) -
            ((A a js[q] - (F.take q).entry a js[q]) / (A is[q] js[q] - (F.take q).entry is[q] js[q])) •
              fun b => A is[q] b - (F.take q).entry is[q] b := by
          funext b
          rw [hstep a b]
          rfl
        show (fun b => A a b - (F.take (q + 1)).entry a b) ∈ _
        rw [he]
        exact Submodule.sub_mem _ (Submodule.subset_span ⟨a, rfl⟩)
          (Submodule.smul_mem _ _ (Submodule.subset_span ⟨is[q], rfl⟩))
      · intro heq
        have hmem : (fun b => A is[q] b - (F.take q).entry is[q] b) ∈
            Submodule.span ℂ (Set.range fun a : Fin m => fun b => A a b - (F.take (q + 1)).entry a b) := by
          rw [heq]
          exact Submodule.subset_span ⟨is[q], rfl⟩
        have hker : Submodule.span ℂ (Set.range fun a : Fin m => fun b => A a b - (F.take (q + 1)).entry a b) ≤
            LinearMap.ker (LinearMap.proj (R := ℂ) (φ := fun _ : Fin n => ℂ) js[q]) := by
          rw [Submodule.span_le]
          rintro _ ⟨a, rfl⟩
          exact (residual_zero h hp (q + 1) (by omega) q _ _ (by omega) hi' hj').2 a
        exact hne (hker hmem)
    have := Submodule.finrank_lt_finrank_of_lt hlt
    omega

/-- C22: a matrix whose rank is at most the one of the result is found exactly, when none of the pivots is replaced. -/
theorem aca_exact_partial (A : Fin N → Fin m → Fin n → ℂ) (main : Fin N) (maxRank : Option ℕ) (tol : ℝ)
    (F : Fin N → Factors m n) (is : List (Fin m)) (js : List (Fin n))
    (h : multiAca A main maxRank tol = .done F is js) (k : Fin N)
    (hp : ∀ (q : ℕ) i j, q < (F k).left.length → is[q]? = some i → js[q]? = some j →
      1e-12 ≤ ‖A k i j - ((F k).take q).entry i j‖)
    (hrank : (Matrix.of (A k)).rank ≤ (F k).left.length) (i : Fin m) (j : Fin n) : (F k).entry i j = A k i j := by
  have hr := (aca_result h).crosses k
  have ht : (F k).take (F k).left.length = F k := take_all _ hr.right_len
  have h1 := residual_rank hr hp _ le_rfl
  have h2 : (Matrix.of (A k)).rank = Module.finrank ℂ (Submodule.span ℂ (Set.range (A k))) := by
    rw [Matrix.rank_eq_finrank_span_row]
    rfl
  rw [ht] at h1
  have h3 : Module.finrank ℂ (Submodule.span ℂ (Set.range fun a : Fin m => fun b => A k a b - (F k).entry a b)) = 0 := by
    omega
  rw [Submodule.finrank_eq_zero, Submodule.span_eq_bot] at h3
  have h4 := congrFun (h3 _ ⟨i, rfl⟩) j
  exact (sub_eq_zero.mp h4).symm

/-! ## Norms -/

/-- The square of the Frobenius norm of an array. -/
noncomputable def frobenius (f : Fin m → Fin n → ℂ) : ℝ := ∑ i, ∑ j, Complex.normSq (f i j)

theorem inner_self {k : ℕ} (u : Fin k → ℂ) : inner u u = ((∑ a, Complex.normSq (u a) : ℝ) : ℂ) := by
  rw [inner, Complex.ofReal_sum]
  exact Finset.sum_congr rfl fun a _ => by rw [mul_comm, Complex.mul_conj]

theorem incrementNorm_eq (u : Fin m → ℂ) (v : Fin n → ℂ) : incrementNorm u v = frobenius fun i j => u i * v j := by
  rw [incrementNorm, inner_self, inner_self, ← Complex.ofReal_mul, Complex.ofReal_re, frobenius, Finset.sum_mul_sum]
  simp only [Complex.normSq_mul]

theorem crossedTerms_eq (F : Factors m n) (u : Fin m → ℂ) (v : Fin n → ℂ) :
    crossedTerms F u v = ∑ i, ∑ j, (starRingEnd ℂ) (u i * v j) * F.entry i j := by
  obtain ⟨l, r⟩ := F
  simp only [crossedTerms, Factors.entry]
  induction l generalizing r with
  | nil => simp
  | cons a l ih =>
    cases r with
    | nil => simp
    | cons b r =>
      simp only [List.zipWith_cons_cons, List.sum_cons, mul_add, Finset.sum_add_distrib]
      rw [ih r]
      congr 1
      rw [inner, inner, Finset.sum_mul_sum]
      refine Finset.sum_congr rfl fun i _ => Finset.sum_congr rfl fun j _ => ?_
      rw [map_mul]
      ring

theorem frobenius_add (f g : Fin m → Fin n → ℂ) :
    (frobenius fun i j => f i j + g i j) = frobenius f + (frobenius g + 2 * (∑ i, ∑ j, (starRingEnd ℂ) (g i j) * f i j).re) := by
  simp only [frobenius, Complex.normSq_add, Complex.re_sum, Finset.mul_sum, Finset.sum_add_distrib]
  rw [add_assoc]
  congr 2
  refine Finset.sum_congr rfl fun i _ => Finset.sum_congr rfl fun j _ => ?_
  rw [mul_comm (f i j)]

theorem total_step {A : Fin N → Fin m → Fin n → ℂ} {main : Fin N} {s s' : Aca N m n} {inc : ℝ} {l : ℕ}
    (hi : Inv A l s) (ht : s.total = frobenius (s.factors main).entry) (h : step A main s = some (s', inc)) :
    s'.total = frobenius (s'.factors main).entry ∧
    inc = frobenius fun a b => (s'.factors main).entry a b - (s.factors main).entry a b := by
  obtain ⟨i, j, rows, cols, -, -, rfl, rfl⟩ := step_spec h
  have hlen := ((hi.crosses main).right_len).symm
  have he : ((s.factors main).extend (A main) i j).entry = fun a b => (s.factors main).entry a b +
      newCol (A main) (s.factors main) i j a * newRow (A main) (s.factors main) i b := by
    funext a b
    exact entry_extend _ _ hlen i j a b
  constructor
  · simp only
    rw [he, frobenius_add, ht, crossedTerms_eq, incrementNorm_eq]
  · simp only
    rw [he, incrementNorm_eq]
    simp only [add_sub_cancel_left]

theorem take_length_extend (A : Fin m → Fin n → ℂ) (F : Factors m n) (hF : F.right.length = F.left.length) (i : Fin m)
    (j : Fin n) : (F.extend A i j).take F.left.length = F := by
  rw [take_extend A F hF.symm i j _ le_rfl, take_all F hF]

theorem loop_tolerance {A : Fin N → Fin m → Fin n → ℂ} {main : Fin N} {tol : ℝ} (htol : 0 < tol) (fuel l : ℕ)
    (s : Aca N m n) (hi : Inv A l s) (ht : s.total = frobenius (s.factors main).entry)
    {F : Fin N → Factors m n} {is : List (Fin m)} {js : List (Fin n)}
    (h : loop A main tol fuel l s = .done F is js) :
    ∃ i j, is.getLast? = some i ∧ js.getLast? = some j ∧
      ((l = 0 ∧ is.length = 1 ∧ ∀ k, F k = (Factors.extend (A k) ⟨[], []⟩ i j) ∧
          frobenius (F main).entry ≤ tol ^ 2 * frobenius (F main).entry) ∨
        (∀ k, (F k).left.length + 1 = is.length) ∧
        (frobenius fun a b => ((F main).extend (A main) i j).entry a b - (F main).entry a b) ≤
          tol ^ 2 * frobenius ((F main).extend (A main) i j).entry) := by
  induction fuel generalizing l s with
  | zero =>
    rw [loop, if_pos htol] at h
    split at h <;> cases h
  | succ fuel ih =>
    rw [loop] at h
    split at h
    · cases h
    · rename_i s' inc hs
      have hi' := inv_step hi hs
      obtain ⟨ht', hinc⟩ := total_step hi ht hs
      split at h
      · rename_i hle
        rw [ht', hinc] at hle
        obtain ⟨i, j, rows, cols, -, -, -, rfl⟩ := step_spec hs
        cases h
        refine ⟨i, j, by simp, by simp, ?_⟩
        rcases Nat.eq_zero_or_pos l with rfl | hl
        · left
          have hnil : ∀ k, s.factors k = ⟨[], []⟩ := by
            intro k
            have h1 := hi.len k
            have h2 := (hi.crosses k).right_len
            rw [h1] at h2
            generalize s.factors k = F at h1 h2
            obtain ⟨a, b⟩ := F
            have h1 : a = [] := List.length_eq_zero_iff.mp h1
            have h2 : b = [] := List.length_eq_zero_iff.mp h2
            rw [h1, h2]
          have hk : ∀ k, ((s.factors k).extend (A k) i j).take 1 = Factors.extend (A k) ⟨[], []⟩ i j := by
            intro k
            rw [hnil k]
            rfl
          refine ⟨rfl, by simp [hi.readLen], fun k => ⟨?_, ?_⟩⟩
          · simp only [if_true]
            exact hk k
          · simp only [if_true]
            rw [hk main]
            simp only [hnil main] at hle
            have hz : ∀ a b, (⟨[], []⟩ : Factors m n).entry a b = 0 := fun _ _ => by simp [Factors.entry]
            simp only [hz, sub_zero] at hle
            exact hle
        · right
          have hne : l ≠ 0 := by omega
          have hk : ∀ k, ((s.factors k).extend (A k) i j).take l = s.factors k := by
            intro k
            have := take_length_extend (A k) (s.factors k) (hi.crosses k).right_len i j
            rwa [hi.len k] at this
          refine ⟨fun k => ?_, ?_⟩
          · simp only [if_neg hne]
            rw [hk k, hi.len k, List.length_append, hi.readLen]
            rfl
          · simp only [if_neg hne]
            rw [hk main]
            exact hle
      · obtain ⟨i, j, h1, h2, h3⟩ := ih (l + 1) s' hi' ht' h
        refine ⟨i, j, h1, h2, ?_⟩
        rcases h3 with ⟨h0, -⟩ | h3
        · omega
        · exact Or.inr h3

/-- C22: with a positive tolerance, the result is returned only when one more cross would change the main matrix by
at most the tolerance, relative to the Frobenius norm of the approximation. When it happens from the first cross, the
first cross is returned. -/
theorem aca_tolerance (A : Fin N → Fin m → Fin n → ℂ) (main : Fin N) (maxRank : Option ℕ) (tol : ℝ) (htol : 0 < tol)
    (F : Fin N → Factors m n) (is : List (Fin m)) (js : List (Fin n))
    (h : multiAca A main maxRank tol = .done F is js) :
    ∃ i j, is.getLast? = some i ∧ js.getLast? = some j ∧
      ((is.length = 1 ∧ ∀ k, F k = (Factors.extend (A k) ⟨[], []⟩ i j) ∧
          frobenius (F main).entry ≤ tol ^ 2 * frobenius (F main).entry) ∨
        (∀ k, (F k).left.length + 1 = is.length) ∧
        (frobenius fun a b => ((F main).extend (A main) i j).entry a b - (F main).entry a b) ≤
          tol ^ 2 * frobenius ((F main).extend (A main) i j).entry) := by
  obtain ⟨i, j, h1, h2, h3⟩ := loop_tolerance htol _ 0 _ (inv_start A) (by simp [start, frobenius, Factors.entry]) h
  refine ⟨i, j, h1, h2, ?_⟩
  rcases h3 with ⟨-, h3⟩ | h3
  · exact Or.inl h3
  · exact Or.inr h3

/-! ## Choice of the pivots -/

/-- The specification of the choice of rows and columns: the first row is the row 0, the others are those where the last
column found is the largest, and the columns are those where the residual of the row is the largest. -/
def Pivoted (A : Fin m → Fin n → ℂ) (F : Factors m n) (is : List (Fin m)) (js : List (Fin n)) : Prop :=
  ∀ (q : ℕ) i j, is[q]? = some i → js[q]? = some j →
    (∀ j', j' ∉ js.take q → ‖A i j' - (F.take q).entry i j'‖ ≤ ‖A i j - (F.take q).entry i j‖) ∧
    (q = 0 → i.val = 0) ∧
    ∀ p u, q = p + 1 → F.left[p]? = some u → ∀ i', i' ∉ is.take q → ‖u i'‖ ≤ ‖u i‖

theorem argmax_map {A : Type} {l : List A} {f : A → ℝ} {k : ℕ} {a : A} (h : argmax (l.map f) = some k) (ha : l[k]? = some a)
    (b : A) (hb : b ∈ l) : f b ≤ f a := by
  have h1 := argmax_max _ _ h (f b) (List.mem_map_of_mem hb)
  have h2 : (l.map f)[k]? = some (f a) := by rw [List.getElem?_map, ha]; rfl
  rw [List.getD_eq_getElem?_getD, h2] at h1
  exact h1

theorem pivoted_step {A : Fin N → Fin m → Fin n → ℂ} {main : Fin N} {s s' : Aca N m n} {inc : ℝ} {l : ℕ}
    (hi : Inv A l s) (hp : Pivoted (A main) (s.factors main) s.readRows s.readCols)
    (hfirst : l = 0 → s.rows = List.finRange m)
    (h : step A main s = some (s', inc)) : Pivoted (A main) (s'.factors main) s'.readRows s'.readCols := by
  obtain ⟨i, j, rows, cols, ⟨p, hpr, hp'⟩, ⟨p2, hpc, hp2⟩, -, rfl⟩ := step_spec h
  have hc := hi.crosses main
  have hlen := hi.len main
  have hrl := hi.readLen
  have hcl : s.readCols.length = l := by rw [hc.len, hrl]
  intro q a b ha hb
  simp only at ha hb ⊢
  rcases Nat.lt_or_ge q l with hlt | hge
  · rw [List.getElem?_append_left (by omega)] at ha hb
    obtain ⟨h1, h2, h3⟩ := hp q a b ha hb
    rw [take_extend _ _ hc.right_len.symm i j q (by omega), List.take_append_of_le_length (by omega),
      List.take_append_of_le_length (by omega)]
    refine ⟨h1, h2, fun p u hp hu => h3 p u hp ?_⟩
    simp only [Factors.extend] at hu
    rwa [List.getElem?_append_left (by omega)] at hu
  · have hq : q = l := by
      have := (List.getElem?_eq_some_iff.mp ha).1
      simp only [List.length_append, List.length_singleton] at this
      omega
    subst hq
    rw [List.getElem?_append_right (by omega), hrl, Nat.sub_self] at ha
    rw [List.getElem?_append_right (by omega), hcl, Nat.sub_self] at hb
    simp only [List.getElem?_cons_zero, Option.some.injEq] at ha hb
    subst ha hb
    have ht : (Factors.extend (A main) (s.factors main) i j).take q = s.factors main := by
      have := take_length_extend (A main) (s.factors main) hc.right_len i j
      rwa [hlen] at this
    rw [ht, List.take_left' hrl, List.take_left' hcl]
    refine ⟨?_, ?_, ?_⟩
    · intro j' hj'
      have hmem : j' ∈ s.cols := by
        have := hi.cols.mem_iff.mpr (List.mem_finRange j')
        rcases List.mem_append.mp this with h | h
        · exact absurd h hj'
        · exact h
      exact argmax_map (f := fun j => ‖newRow (A main) (s.factors main) i j‖) hpc (pop_spec hp2).1 j' hmem
    · rintro rfl
      rw [pickRow, List.length_eq_zero_iff.mp hlen] at hpr
      simp only [List.getLast?_nil, Option.some.injEq] at hpr
      subst hpr
      have := (pop_spec hp').1
      rw [hfirst rfl] at this
      obtain ⟨h1, h2⟩ := List.getElem?_eq_some_iff.mp this
      rw [← h2]
      simp
    · intro p' u hpq hu i' hi'
      simp only [Factors.extend] at hu
      rw [List.getElem?_append_left (by omega)] at hu
      have hlast : (s.factors main).left.getLast? = some u := by
        rw [List.getLast?_eq_getElem?, hlen, hpq]
        exact hu
      rw [pickRow, hlast] at hpr
      have hmem : i' ∈ s.rows := by
        have := hi.rows.mem_iff.mpr (List.mem_finRange i')
        rcases List.mem_append.mp this with h | h
        · exact absurd h hi'
        · exact h
      exact argmax_map (f := fun i => ‖u i‖) hpr (pop_spec hp').1 i' hmem

theorem pivoted_take {A : Fin m → Fin n → ℂ} {F : Factors m n} {is : List (Fin m)} {js : List (Fin n)}
    (h : Pivoted A F is js) (l : ℕ) (hl : is.length ≤ l + 1) : Pivoted A (F.take l) is js := by
  intro q i j hi hj
  have hq := (List.getElem?_eq_some_iff.mp hi).1
  obtain ⟨h1, h2, h3⟩ := h q i j hi hj
  rw [take_take_le F (by omega)]
  refine ⟨h1, h2, fun p u hp hu => h3 p u hp ?_⟩
  simp only [Factors.take, List.getElem?_take] at hu
  split at hu
  · exact hu
  · cases hu

theorem loop_pivoted {A : Fin N → Fin m → Fin n → ℂ} {main : Fin N} {tol : ℝ} (fuel l : ℕ) (s : Aca N m n)
    (hi : Inv A l s) (hp : Pivoted (A main) (s.factors main) s.readRows s.readCols)
    (hfirst : l = 0 → s.rows = List.finRange m) {F : Fin N → Factors m n} {is : List (Fin m)} {js : List (Fin n)}
    (h : loop A main tol fuel l s = .done F is js) : Pivoted (A main) (F main) is js := by
  induction fuel generalizing l s with
  | zero =>
    rw [loop] at h
    split at h
    · split at h <;> cases h
    · cases h
      exact hp
  | succ fuel ih =>
    rw [loop] at h
    split at h
    · cases h
    · rename_i s' inc hs
      have hi' := inv_step hi hs
      have hp' := pivoted_step hi hp hfirst hs
      split at h
      · cases h
        refine pivoted_take hp' _ ?_
        rw [hi'.readLen]
        split <;> omega
      · exact ih (l + 1) s' hi' hp' (by omega) h

/-- C22: rows and columns are chosen by partial pivoting on the main matrix. -/
theorem aca_pivots (A : Fin N → Fin m → Fin n → ℂ) (main : Fin N) (maxRank : Option ℕ) (tol : ℝ)
    (F : Fin N → Factors m n) (is : List (Fin m)) (js : List (Fin n))
    (h : multiAca A main maxRank tol = .done F is js) : Pivoted (A main) (F main) is js :=
  loop_pivoted _ 0 _ (inv_start A) (by intro q i j hi; simp [start] at hi) (fun _ => rfl) h

/-! ## Exceptions -/

theorem step_some {A : Fin N → Fin m → Fin n → ℂ} {main : Fin N} {s : Aca N m n} {l : ℕ} (hi : Inv A l s) (hm : l < m)
    (hn : l < n) : ∃ r, step A main s = some r := by
  have h1 : s.rows.length = m - l := by
    have := hi.rows.length_eq
    rw [List.length_append, hi.readLen, List.length_finRange] at this
    omega
  have h2 : s.cols.length = n - l := by
    have := hi.cols.length_eq
    rw [List.length_append, (hi.crosses main).len, hi.readLen, List.length_finRange] at this
    omega
  have hr : ∃ p, pickRow (s.factors main) s.rows = some p ∧ p < s.rows.length := by
    rw [pickRow]
    split
    · exact ⟨0, rfl, by omega⟩
    · rename_i u hu
      obtain ⟨p, hp⟩ := argmax_some (l := s.rows.map fun i => ‖u i‖) (by
        intro h0
        have := congrArg List.length h0
        simp only [List.length_map, List.length_nil] at this
        omega)
      exact ⟨p, hp, by simpa using argmax_lt _ _ hp⟩
  obtain ⟨p, hp, hpl⟩ := hr
  obtain ⟨i, rows, hpop⟩ := pop_some hpl
  obtain ⟨q, hq⟩ := argmax_some (l := s.cols.map fun j => ‖newRow (A main) (s.factors main) i j‖) (by
    intro h0
    have := congrArg List.length h0
    simp only [List.length_map, List.length_nil] at this
    omega)
  have hql : q < s.cols.length := by simpa using argmax_lt _ _ hq
  obtain ⟨j, cols, hpop'⟩ := pop_some hql
  rw [step, hp, Option.bind_some, hpop]
  simp only
  rw [pickCol, hq, Option.bind_some, hpop']
  exact ⟨_, rfl⟩

theorem loop_no_error {A : Fin N → Fin m → Fin n → ℂ} {main : Fin N} {tol : ℝ} (fuel l : ℕ) (s : Aca N m n)
    (hi : Inv A l s) (hl : 0 < l + fuel) (hm : l + fuel ≤ min m n) : loop A main tol fuel l s ≠ .error := by
  induction fuel generalizing l s with
  | zero =>
    rw [loop]
    split
    · rw [if_neg (by omega)]
      simp
    · simp
  | succ fuel ih =>
    obtain ⟨⟨s', inc⟩, hs⟩ := step_some (main := main) hi (by omega) (by omega)
    rw [loop, hs]
    simp only
    split
    · simp
    · exact ih (l + 1) s' (inv_step hi hs) (by omega) (by omega)

/-- C22: with a positive maximal rank which is not larger than the sizes, the only exception is the one which says that
there was no convergence, and only with a positive tolerance. -/
theorem aca_ends (A : Fin N → Fin m → Fin n → ℂ) (main : Fin N) (r : ℕ) (tol : ℝ) (h0 : 0 < r) (hr : r ≤ min m n) :
    (∃ F is js, multiAca A main (some r) tol = .done F is js) ∨ 0 < tol ∧ multiAca A main (some r) tol = .noConvergence := by
  have h := loop_no_error (A := A) (main := main) (tol := tol) r 0 _ (inv_start A) (by omega) (by omega)
  have hnc : ∀ fuel l s, loop A main tol fuel l s = .noConvergence → 0 < tol := by
    intro fuel
    induction fuel with
    | zero =>
      intro l s h
      rw [loop] at h
      split at h
      · assumption
      · cases h
    | succ fuel ih =>
      intro l s h
      rw [loop] at h
      split at h
      · cases h
      · split at h
        · cases h
        · exact ih _ _ h
  rw [multiAca, Option.getD_some]
  cases hc : loop A main tol r 0 (start N m n) with
  | done F is js => exact Or.inl ⟨F, is, js, rfl⟩
  | noConvergence => exact Or.inr ⟨hnc _ _ _ hc, rfl⟩
  | error => exact absurd hc h

/-- The hypotheses of `aca_interpolates_partial` hold for a table of products. -/
example : ∃ F is js, multiAca table 0 (some 1) 0 = .done F is js ∧ ∀ (q : ℕ) i j, q < (F 0).left.length →
    is[q]? = some i → js[q]? = some j → 1e-12 ≤ ‖table 0 i j - ((F 0).take q).entry i j‖ := by
  rcases aca_ends table 0 1 0 (by omega) (by omega) with ⟨F, is, js, h⟩ | ⟨h, -⟩
  · exact ⟨F, is, js, h, fun q i j hq _ _ => table_pivots F is js h 0 q i j hq⟩
  · exact absurd h (lt_irrefl _)

/-- The hypotheses of `aca_exact_partial` hold for a table of products, which is found exactly. -/
example : ∃ F is js, multiAca table 0 (some 1) 0 = .done F is js ∧ (Matrix.of (table 0)).rank ≤ (F 0).left.length ∧
    ∀ i j, (F 0).entry i j = table 0 i j := by
  have hrank : (Matrix.of (table 0)).rank ≤ 1 := by
    have : Matrix.of (table 0) = Matrix.vecMulVec (fun i : Fin 2 => (i + 1 : ℂ)) (fun j : Fin 2 => (j + 1 : ℂ)) := rfl
    rw [this]
    exact Matrix.rank_vecMulVec_le _ _
  rcases aca_ends table 0 1 0 (by omega) (by omega) with ⟨F, is, js, h⟩ | ⟨h, -⟩
  · have hlen : (F 0).left.length = 1 := by
      have h' := h
      rw [multiAca, Option.getD_some] at h'
      obtain ⟨⟨s', inc⟩, hs⟩ := step_some (A := table) (main := 0) (inv_start table) (by omega) (by omega)
      have hi := (inv_step (inv_start table) hs).len 0
      rw [loop, hs] at h'
      simp only at h'
      split at h'
      · cases h'
        simp [Factors.take, hi]
      · rw [loop, if_neg (lt_irrefl _)] at h'
        cases h'
        exact hi
    refine ⟨F, is, js, h, by rw [hlen]; exact hrank, ?_⟩
    exact aca_exact_partial table 0 (some 1) 0 F is js h 0 (fun q i j hq _ _ => table_pivots F is js h 0 q i j hq)
      (by rw [hlen]; exact hrank)
  · exact absurd h (lt_irrefl _)

/-- The default maximal rank of matrices with a single row or column raises an exception which is not the one that is
caught (`UnboundLocalError` instead of `NoConvergenceOfACA`). -/
theorem aca_default_violated (A : Fin N → Fin m → Fin n → ℂ) (main : Fin N) (tol : ℝ) (htol : 0 < tol)
    (h : min m n < 2) : multiAca A main none tol = .error := by
  rw [multiAca, Option.getD_none, show min m n / 2 = 0 by omega, loop, if_pos htol, if_pos rfl]

/-! ## What goes wrong with small pivots -/

/-- A main matrix whose first row is zero is approximated by zero, with no warning, whatever the other rows and whatever the
tolerance. -/
theorem aca_zero_row_violated (A : Fin N → Fin (m + 1) → Fin (n + 1) → ℂ) (main : Fin N) (r : ℕ) (tol : ℝ)
    (hrow : ∀ j, A main 0 j = 0) :
    ∃ F is js, multiAca A main (some (r + 1)) tol = .done F is js ∧ is = [0] ∧ (F main).left.length = 1 ∧
      ∀ i j, (F main).entry i j = 0 := by
  obtain ⟨⟨s', inc⟩, hs⟩ := step_some (A := A) (main := main) (inv_start A) (by omega) (by omega)
  have hi' := inv_step (inv_start A) hs
  obtain ⟨ht', hinc⟩ := total_step (inv_start A) (by simp [start, frobenius, Factors.entry]) hs
  obtain ⟨i, j, rows, cols, ⟨p, hp, hp'⟩, -, -, rfl⟩ := step_spec hs
  have hi0 : i = 0 := by
    simp only [pickRow, start, List.getLast?_nil, Option.some.injEq] at hp
    subst hp
    have := (pop_spec hp').1
    simp only [start, List.finRange_succ, List.getElem?_cons_zero, Option.some.injEq] at this
    exact this.symm
  subst hi0
  have hz : ∀ a b, (Factors.extend (A main) ⟨[], []⟩ 0 j).entry a b = 0 := by
    intro a b
    simp [Factors.entry, Factors.extend, newRow, hrow b]
  rw [multiAca, Option.getD_some, loop, hs]
  simp only
  have hz' : frobenius (fun a b => (Factors.extend (A main) ((start N (m + 1) (n + 1)).factors main) 0 j).entry a b -
      ((start N (m + 1) (n + 1)).factors main).entry a b) = 0 := by
    simp only [start, frobenius]
    refine Finset.sum_eq_zero fun a _ => Finset.sum_eq_zero fun b _ => ?_
    rw [hz a b]
    simp [Factors.entry]
  have hz2 : frobenius (Factors.extend (A main) ((start N (m + 1) (n + 1)).factors main) 0 j).entry = 0 := by
    simp only [start, frobenius]
    refine Finset.sum_eq_zero fun a _ => Finset.sum_eq_zero fun b _ => ?_
    rw [hz a b]
    simp
  simp only at ht' hinc
  rw [hz'] at hinc
  rw [hz2] at ht'
  rw [ht', hinc, mul_zero, if_pos le_rfl]
  refine ⟨_, _, _, rfl, rfl, ?_, fun a b => ?_⟩
  · simp [start, Factors.take, Factors.extend]
  · simp only [if_true]
    exact hz a b

/-- The matrices whose first row is zero make the result differ from the matrix on the column that has been read. -/
example : ∃ (F : Fin 1 → Factors 2 1) (is : List (Fin 2)) (js : List (Fin 1)),
    multiAca (fun _ (i : Fin 2) (_ : Fin 1) => if i = 0 then 0 else 1) 0 (some 1) 0.1 = .done F is js ∧
    ∃ j ∈ js, ∃ i, (F 0).entry i j ≠ (if i = 0 then 0 else 1 : ℂ) := by
  obtain ⟨F, is, js, h1, h2, -, h3⟩ := aca_zero_row_violated (m := 1) (n := 0)
    (fun (_ : Fin 1) (i : Fin 2) (_ : Fin 1) => if i = 0 then 0 else 1) 0 0 0.1 (fun _ => rfl)
  have hlen := (aca_reads _ _ _ _ _ _ _ h1).2.2.1
  rw [h2] at hlen
  obtain ⟨j, rfl⟩ := List.length_eq_one_iff.mp hlen
  refine ⟨F, is, [j], h1, j, by simp, 1, ?_⟩
  rw [h3]
  simp

/-- A matrix whose only coefficient is smaller than the threshold on pivots is not found: the result is `x² / 1e-12`. -/
theorem aca_tiny_violated (x : ℂ) (h0 : x ≠ 0) (hx : ‖x‖ < 1e-12) (tol : ℝ) :
    multiAca (fun _ (_ : Fin 1) (_ : Fin 1) => x) (0 : Fin 1) (some 1) tol = .noConvergence ∨
    ∃ F is js, multiAca (fun _ (_ : Fin 1) (_ : Fin 1) => x) (0 : Fin 1) (some 1) tol = .done F is js ∧
      (F 0).left.length = 1 ∧ (F 0).entry 0 0 = x / 1e-12 * x ∧ (F 0).entry 0 0 ≠ x := by
  have hne : x / 1e-12 * x ≠ x := by
    intro h
    have h1 : x / 1e-12 = 1 := by
      have := mul_right_cancel₀ h0 (h.trans (one_mul x).symm)
      exact this
    have h2 : x = 1e-12 := by
      have h3 : (1e-12 : ℂ) ≠ 0 := by norm_num
      field_simp at h1
      exact h1
    rw [h2] at hx
    norm_num at hx
  have hs : ∃ inc tot, step (fun _ (_ : Fin 1) (_ : Fin 1) => x) (0 : Fin 1) (start 1 1 1) =
      some (⟨fun _ => Factors.extend (fun _ _ => x) ⟨[], []⟩ 0 0, [], [], tot, [0], [0]⟩, inc) := by
    obtain ⟨⟨s', inc⟩, hs⟩ := step_some (A := fun _ (_ : Fin 1) (_ : Fin 1) => x) (main := (0 : Fin 1))
      (inv_start _) (by omega) (by omega)
    obtain ⟨i, j, rows, cols, ⟨p, -, hp⟩, ⟨q, -, hq⟩, -, hs'⟩ := step_spec hs
    refine ⟨inc, s'.total, hs.trans ?_⟩
    subst hs'
    have hi : i = 0 := Subsingleton.elim _ _
    have hj : j = 0 := Subsingleton.elim _ _
    have h1 := (pop_spec hp).2.2.length_eq
    have h2 := (pop_spec hq).2.2.length_eq
    simp only [start, List.length_cons, List.length_finRange] at h1 h2
    have h1 : rows = [] := List.length_eq_zero_iff.mp (by omega)
    have h2 : cols = [] := List.length_eq_zero_iff.mp (by omega)
    subst hi hj h1 h2
    rfl
  obtain ⟨inc, tot, hs⟩ := hs
  have hent : (Factors.extend (fun (_ : Fin 1) (_ : Fin 1) => x) ⟨[], []⟩ 0 0).entry 0 0 = x / 1e-12 * x := by
    simp [Factors.entry, Factors.extend, newRow, newCol, safePivot, hx]
  rw [multiAca, Option.getD_some, loop, hs]
  simp only
  split
  · right
    refine ⟨_, _, _, rfl, by simp [Factors.take, Factors.extend], ?_, ?_⟩
    · exact hent
    · rw [← hent] at hne
      exact hne
  · rw [loop]
    split
    · left
      simp
    · right
      refine ⟨_, _, _, rfl, by simp [Factors.extend], hent, ?_⟩
      rw [← hent] at hne
      exact hne

/-- The case of a tiny coefficient. -/
example : (1e-13 : ℂ) ≠ 0 ∧ ‖(1e-13 : ℂ)‖ < 1e-12 := by norm_num

end Verif.LowRank
