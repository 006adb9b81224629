import Verif.Problems.BatchModel
import Verif.Blocks.LUProps
import Mathlib.Data.List.Forall2
import Mathlib.Data.List.Perm.Basic

/-!
# Batches of problems (C11, C12)
-/

namespace Verif.Problems

open Verif.Frequency (PyFloat)

/-! ## Specification -/

/-- What the batch should hold for a problem, given what the resolution of the problem alone gives:
the result, or a failed result that names the problem and the exception and has one NaN per dof. -/
def expected {P R E : Type} (dofs : P → List String) (alone : P → Except E R) (p : P) :
    BatchResult P R E :=
  match alone p with
  | .ok r => .ok p r
  | .error e => .failed p e ((dofs p).map fun d => (d, PyFloat.nan))

/-- The caches of the solver are in order (`Inv`), the resolution keeps them in order, and when they are
in order the problems in `Good` get the result that they would get alone. -/
def Transparent {S P R E : Type} (Inv : S → Prop) (Good : P → Prop) (alone : P → Except E R)
    (solve : S → P → S × Except E R) : Prop :=
  ∀ s p, Inv s → Inv (solve s p).1 ∧ (Good p → (solve s p).2 = alone p)

/-! ## Sequential resolution -/

theorem solveList_spec {S P R E : Type} {dofs : P → List String} {Inv : S → Prop} {Good : P → Prop}
    {alone : P → Except E R} {solve : S → P → S × Except E R} (ht : Transparent Inv Good alone solve)
    (s : S) (hs : Inv s) (ps : List P) :
    Inv (solveList dofs solve s ps).1 ∧
    List.Forall₂ (fun p r => BatchResult.problem r = p ∧ (Good p → r = expected dofs alone p)) ps
      (solveList dofs solve s ps).2 := by
  induction ps generalizing s with
  | nil => exact ⟨hs, .nil⟩
  | cons p ps ih =>
    obtain ⟨h1, h2⟩ := ht s p hs
    have hinv : Inv (solveAndCatch dofs solve s p).1 := by
      unfold solveAndCatch
      cases h : solve s p with
      | mk s' o => rw [h] at h1; cases o <;> exact h1
    refine ⟨(ih _ hinv).1, .cons ⟨?_, ?_⟩ (ih _ hinv).2⟩
    · unfold solveAndCatch makeFailed
      cases h : solve s p with
      | mk s' o => cases o <;> rfl
    · intro hg
      have := h2 hg
      unfold solveAndCatch expected makeFailed
      rw [← this]
      cases h : solve s p with
      | mk s' o => cases o <;> rfl

/-- **C12, sequential.** Whatever the order in which the problems are treated and whatever the failures
among them, there is exactly one result for each problem, naming it; and each problem of `Good` has the
expected one: its result when solved alone, or a failed result with its exception and one NaN per
dof. -/
theorem sequential_batch {S P R E : Type} (dofs : P → List String) (Inv : S → Prop) (Good : P → Prop)
    (alone : P → Except E R) (solve : S → P → S × Except E R) (ht : Transparent Inv Good alone solve)
    (sort : List P → List P) (hsort : ∀ l, (sort l).Perm l) (s : S) (hs : Inv s) (ps : List P) :
    ∃ order, order.Perm ps ∧
      List.Forall₂ (fun p r => BatchResult.problem r = p ∧ (Good p → r = expected dofs alone p)) order
        (solveAllSeq dofs solve sort s ps).2 :=
  ⟨sort ps, hsort ps, (solveList_spec ht s hs (sort ps)).2⟩

theorem forall₂_expected {P R E : Type} {dofs : P → List String} {alone : P → Except E R}
    {Good : P → Prop} {ps : List P} {rs : List (BatchResult P R E)}
    (h : List.Forall₂ (fun p r => BatchResult.problem r = p ∧ (Good p → r = expected dofs alone p)) ps rs)
    (hg : ∀ p ∈ ps, Good p) : rs = ps.map (expected dofs alone) := by
  induction h with
  | nil => rfl
  | cons h1 _ ih =>
    rw [List.map_cons, h1.2 (hg _ (by simp)), ih (fun p hp => hg p (by simp [hp]))]

/-- **C11, sequential.** The collection of results is that of the problems solved alone. -/
theorem sequential_results {S P R E : Type} (dofs : P → List String) (Inv : S → Prop)
    (alone : P → Except E R) (solve : S → P → S × Except E R)
    (ht : Transparent Inv (fun _ => True) alone solve) (sort : List P → List P)
    (hsort : ∀ l, (sort l).Perm l) (s : S) (hs : Inv s) (ps : List P) :
    (solveAllSeq dofs solve sort s ps).2.Perm (ps.map (expected dofs alone)) := by
  rw [solveAllSeq, forall₂_expected (solveList_spec ht s hs (sort ps)).2 (fun _ _ => trivial)]
  exact (hsort ps).map _

/-! ## Parallel resolution -/

/-- Sorting the elements by their keys. -/
theorem flatMap_filter_perm {P K : Type} [DecidableEq K] (key : P → Option K) (ks : List K)
    (hnd : ks.Nodup) (ps : List P) (hk : ∀ p ∈ ps, ∃ k ∈ ks, key p = some k) :
    (ks.flatMap fun k => ps.filter fun p => key p == some k).Perm ps := by
  induction ks generalizing ps with
  | nil =>
    cases ps with
    | nil => exact .nil
    | cons p _ => obtain ⟨k, h, _⟩ := hk p (by simp); cases h
  | cons k ks ih =>
    rw [List.flatMap_cons]
    have hrest := ih hnd.of_cons (ps.filter fun p => !(key p == some k)) (by
      intro p hp
      rw [List.mem_filter] at hp
      obtain ⟨k', hk', he⟩ := hk p hp.1
      rw [List.mem_cons] at hk'
      rcases hk' with rfl | hk'
      · simp [he] at hp
      · exact ⟨k', hk', he⟩)
    have hsame : (ks.flatMap fun k' => (ps.filter fun p => !(key p == some k)).filter
        fun p => key p == some k') = ks.flatMap fun k' => ps.filter fun p => key p == some k' := by
      rw [List.flatMap_def, List.flatMap_def]
      congr 1
      apply List.map_congr_left
      intro k' hk'
      rw [List.filter_filter]
      apply List.filter_congr
      intro p _
      have hne : k' ≠ k := by rintro rfl; exact (List.nodup_cons.1 hnd).1 hk'
      by_cases h : key p = some k'
      · simp [h, hne]
      · simp [h]
    rw [hsame] at hrest
    exact (hrest.append_left _).trans (List.filter_append_perm (fun p => key p == some k) ps)

/-- **C12, parallel.** With several jobs, when no key is NaN, there is exactly one result for each
problem, naming it; each problem of `Good` has the expected one. This holds for every order of the
groups, every order of completion and every assignment of the groups to workers (whose caches are in
order). -/
theorem parallel_batch_partial {S P R E K : Type} [DecidableEq K] (dofs : P → List String)
    (Inv : S → Prop) (Good : P → Prop)
    (alone : P → Except E R) (solve : S → P → S × Except E R) (ht : Transparent Inv Good alone solve)
    (sort : List P → List P) (hsort : ∀ l, (sort l).Perm l) (key : P → Option K)
    (arrange : List K → List K) (harr : ∀ l, (arrange l).Perm l) (worker : ℕ → S)
    (hw : ∀ i, Inv (worker i))
    (collect : List (List (BatchResult P R E)) → List (List (BatchResult P R E)))
    (hcol : ∀ l, (collect l).Perm l) (ps : List P) (hne : ps ≠ [])
    (hnan : ∀ p ∈ ps, key p ≠ none) :
    ∃ results, solveAllPar dofs solve sort key arrange worker collect ps = some results ∧
      ∃ order results', order.Perm ps ∧ results.Perm results' ∧
        List.Forall₂ (fun p r => BatchResult.problem r = p ∧ (Good p → r = expected dofs alone p)) order
          results' := by
  unfold solveAllPar groupForParallel
  rw [if_neg (by simpa using hne)]
  simp only [Option.map_some]
  refine ⟨_, rfl, ?_⟩
  set groups := (arrange (ps.filterMap key).dedup).map fun k => ps.filter fun p => key p == some k
    with hgroups
  have hperm : groups.flatten.Perm ps := by
    rw [hgroups, ← List.flatMap_def]
    apply flatMap_filter_perm
    · exact (harr _).nodup_iff.2 (List.nodup_dedup _)
    · intro p hp
      cases hk : key p with
      | none => exact absurd hk (hnan p hp)
      | some k =>
        refine ⟨k, (harr _).mem_iff.2 ?_, rfl⟩
        rw [List.mem_dedup, List.mem_filterMap]
        exact ⟨p, hp, hk⟩
  have hseq : ∀ (f : ℕ → S) (hf : ∀ i, Inv (f i)) (gs : List (List P)), ∃ order, order.Perm gs.flatten ∧
      List.Forall₂ (fun p r => BatchResult.problem r = p ∧ (Good p → r = expected dofs alone p)) order
        (gs.mapIdx fun i g => (solveAllSeq dofs solve sort (f i) g).2).flatten := by
    intro f hf gs
    induction gs generalizing f with
    | nil => exact ⟨[], .nil, .nil⟩
    | cons g gs ih =>
      obtain ⟨o1, p1, q1⟩ := sequential_batch dofs Inv Good alone solve ht sort hsort (f 0) (hf 0) g
      obtain ⟨o2, p2, q2⟩ := ih (fun i => f (i + 1)) (fun i => hf (i + 1))
      refine ⟨o1 ++ o2, ?_, ?_⟩
      · rw [List.flatten_cons]; exact p1.append p2
      · rw [List.mapIdx_cons, List.flatten_cons]
        exact List.rel_append q1 q2
  obtain ⟨order, ho1, ho2⟩ := hseq worker hw groups
  exact ⟨order, _, ho1.trans hperm, (hcol _).flatten, ho2⟩

/-- **C11, partial.** With several jobs, when there is at least one problem and no key is NaN, the
collection of results is that of the problems solved alone, hence also that of the sequential
resolution, whatever the schedule. -/
theorem parallel_results_partial {S P R E K : Type} [DecidableEq K] (dofs : P → List String)
    (Inv : S → Prop)
    (alone : P → Except E R) (solve : S → P → S × Except E R)
    (ht : Transparent Inv (fun _ => True) alone solve)
    (sort : List P → List P) (hsort : ∀ l, (sort l).Perm l) (key : P → Option K)
    (arrange : List K → List K) (harr : ∀ l, (arrange l).Perm l) (worker : ℕ → S)
    (hw : ∀ i, Inv (worker i))
    (collect : List (List (BatchResult P R E)) → List (List (BatchResult P R E)))
    (hcol : ∀ l, (collect l).Perm l) (ps : List P) (hne : ps ≠ [])
    (hnan : ∀ p ∈ ps, key p ≠ none) (s : S) (hs : Inv s) :
    ∃ results, solveAllPar dofs solve sort key arrange worker collect ps = some results ∧
      results.Perm (ps.map (expected dofs alone)) ∧
      results.Perm (solveAllSeq dofs solve sort s ps).2 := by
  obtain ⟨results, h1, order, results', h2, h3, h4⟩ := parallel_batch_partial dofs Inv (fun _ => True)
    alone solve ht sort hsort key arrange harr worker hw collect hcol ps hne hnan
  have h5 : results.Perm (ps.map (expected dofs alone)) := by
    rw [forall₂_expected h4 (fun _ _ => trivial)] at h3
    exact h3.trans (h2.map _)
  exact ⟨results, h1, h5, h5.trans
    (sequential_results dofs Inv alone solve ht sort hsort s hs ps).symm⟩

/-! ### A solver with a cache, for the examples -/

/-- The last problem solved and its outcome are remembered. Odd problems fail. -/
def toySolve (s : Option (ℕ × Except String ℕ)) (p : ℕ) :
    Option (ℕ × Except String ℕ) × Except String ℕ :=
  match s with
  | some (q, r) => if q = p then (s, r) else (some (p, toyAlone p), toyAlone p)
  | none => (some (p, toyAlone p), toyAlone p)
where
  /-- The resolution without cache. -/
  toyAlone (p : ℕ) : Except String ℕ := if p % 2 = 0 then .ok (p * p) else .error "odd"

/-- The hypothesis of the theorems is met. -/
theorem toy_transparent : Transparent
    (fun s => ∀ q r, s = some (q, r) → r = toySolve.toyAlone q) (fun _ => True) toySolve.toyAlone
    toySolve := by
  intro s p hs
  unfold toySolve
  cases s with
  | none => simp
  | some a =>
    obtain ⟨q, r⟩ := a
    have hr := hs q r rfl
    by_cases h : q = p
    · subst h; simp [hr]
    · simp [h]

/-- The other hypotheses are met, with two groups treated in reverse order. -/
example : (∀ l : List ℕ, (l.reverse).Perm l) ∧ ([1, 2, 3, 4] : List ℕ) ≠ [] ∧
    (∀ p ∈ [1, 2, 3, 4], (fun p : ℕ => some (p / 2)) p ≠ none) ∧
    ∀ q r, (none : Option (ℕ × Except String ℕ)) = some (q, r) → r = toySolve.toyAlone q :=
  ⟨List.reverse_perm, by simp, by simp, by simp⟩

/-! ### Violations -/

/-- **C11 is violated** when a parameter of a problem is NaN: with several jobs the problem is dropped,
there is no result for it, not even a failed one. -/
theorem nan_key_violated : ∃ results : List (BatchResult ℕ ℕ String),
    solveAllPar (fun _ => ["Heave"]) toySolve id (fun p => if p = 1 then none else some 0) id
      (fun _ => none) id [1, 2] = some results ∧
    (solveAllSeq (fun _ => ["Heave"]) toySolve id none [1, 2]).2.length = 2 ∧
    results.length = 1 := ⟨_, rfl, rfl, rfl⟩

/-- **C11 is violated** for the empty list of problems: with several jobs, an exception is raised instead
of returning no results. -/
theorem empty_batch_violated {S P R E K : Type} [DecidableEq K] (dofs : P → List String)
    (solve : S → P → S × Except E R) (sort : List P → List P) (hsort : ∀ l, (sort l).Perm l)
    (key : P → Option K) (arrange : List K → List K) (worker : ℕ → S) (collect) (s : S) :
    solveAllPar dofs solve sort key arrange worker collect [] = none ∧
    (solveAllSeq dofs solve sort s []).2 = [] := by
  refine ⟨rfl, ?_⟩
  have : sort [] = [] := (hsort []).eq_nil
  rw [solveAllSeq, this]
  rfl

/-! ## The default linear solver in a batch -/

open Verif.Blocks

/-- A problem, for the linear solver: the matrix object and the right hand side. The state is that of the
solver with cached decomposition, which is shared by the whole batch. -/
noncomputable def luProblem {D : Type} (lf : ℕ → ℕ → Arr ℂ → Option D)
    (ls : D → ℕ → (ℕ → ℂ) → Option (ℕ → ℂ)) (fuel : ℕ) (h : Heap) (st : LUState D)
    (p : ℕ × (ℕ → ℂ)) : LUState D × Except String (ℕ → ℂ) :=
  match luSolve lf ls fuel h st p.1 p.2 with
  | (st', some x) => (st', .ok x)
  | (st', none) => (st', .error "failed")

/-- The resolution of a problem without cache. -/
noncomputable def luAlone {D : Type} (lf : ℕ → ℕ → Arr ℂ → Option D)
    (ls : D → ℕ → (ℕ → ℂ) → Option (ℕ → ℂ)) (fuel : ℕ) (h : Heap) (p : ℕ × (ℕ → ℂ)) :
    Except String (ℕ → ℂ) :=
  match solveUncached lf ls fuel (h p.1) p.2 with
  | some x => .ok x
  | none => .error "failed"

/-- **C12, the default solver.** In a batch solved with the default linear solver, whatever the
failures, the problems whose matrix can be factorised are not affected by the other ones: the
hypothesis of `sequential_batch` and `parallel_batch_partial` is met. -/
theorem lu_transparent {D : Type} (lf : ℕ → ℕ → Arr ℂ → Option D)
    (ls : D → ℕ → (ℕ → ℂ) → Option (ℕ → ℂ)) (fuel : ℕ) (h : Heap) :
    Transparent (fun st : LUState D => ∀ obj d, luDecomp lf fuel (h obj) = some d →
        st.matrix = some obj → st.decomp = some d)
      (fun p => (luDecomp lf fuel (h p.1)).isSome = true)
      (luAlone lf ls fuel h) (luProblem lf ls fuel h) := by
  intro st p hst
  constructor
  · intro obj d hd hm
    have := (luRun_invariant lf ls fuel obj [.solve p.1 p.2] (by intro o M; simp) h d hd st
      (hst obj d hd)).2
    simp only [List.foldl_cons, List.foldl_nil, luStep] at this
    have he : (luProblem lf ls fuel h st p).1 = (luSolve lf ls fuel h st p.1 p.2).1 := by
      unfold luProblem
      split <;> rename_i h' <;> rw [h']
    rw [he] at hm ⊢
    exact this hm
  · intro hg
    obtain ⟨d, hd⟩ := Option.isSome_iff_exists.1 hg
    have he : (luSolve lf ls fuel h st p.1 p.2).2 = solveUncached lf ls fuel (h p.1) p.2 := by
      simp only [luSolve, cachedLuDecomp, solveUncached, hd, Option.bind_some]
      by_cases hc : st.matrix = some p.1
      · simp only [hc, if_true, hst p.1 d hd hc]
      · simp only [hc, if_false]
    unfold luProblem luAlone
    rw [← he]
    cases hl : luSolve lf ls fuel h st p.1 p.2 with
    | mk st' o => cases o <;> rfl

/-- A new solver meets the condition on states. -/
example (obj : ℕ) (d : Dec ℂ) (_ : luDecomp lf1 1 (heap1 obj) = some d) :
    (⟨none, none⟩ : LUState ℂ).matrix = some obj → (⟨none, none⟩ : LUState ℂ).decomp = some d := by
  intro h; cases h

/-- **C12 is violated** by the default solver: in a batch of three problems, the last two with the same
matrix that cannot be factorised, the second problem fails but the third one silently gets the solution
of the first one. -/
theorem batch_contaminated_violated : ∃ x : ℕ → ℂ,
    (solveAllSeq (fun _ => ["Heave"]) (luProblem lf1 ls1 1 heap1) id ⟨none, none⟩
      [(0, fun _ => 1), (1, fun _ => 1), (1, fun _ => 1)]).2 =
      [.ok (0, fun _ => 1) x, .failed (1, fun _ => 1) "failed" [("Heave", .nan)],
        .ok (1, fun _ => 1) x] ∧
    luAlone lf1 ls1 1 heap1 (1, fun _ => 1) = .error "failed" := by
  refine ⟨fun _ => 1 / 2, ?_, ?_⟩
  · simp [solveAllSeq, solveList, solveAndCatch, luProblem, luSolve, cachedLuDecomp, heap1_zero,
      heap1_one, solveWithDecomp, ls1, makeFailed]
  · simp [luAlone, solveUncached, heap1_one]

end Verif.Problems
