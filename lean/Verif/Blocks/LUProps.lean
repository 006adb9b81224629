import Verif.Blocks.LUModel

/-!
# The cached LU solver (C04)
-/

namespace Verif.Blocks

open Finset

/-- Contract of `sl.lu_factor` and `sl.lu_solve`: a decomposition of a matrix gives solutions of
systems with this matrix. -/
def LUSound {D : Type} (lf : ℕ → ℕ → Arr ℂ → Option D)
    (ls : D → ℕ → (ℕ → ℂ) → Option (ℕ → ℂ)) : Prop :=
  ∀ n w a d b x, lf n w a = some d → ls d n b = some x → Solves n w a x b

/-- Solving with the decomposition of a matrix solves the system of this matrix. -/
theorem solve_with_decomp_sound {D : Type} (lf : ℕ → ℕ → Arr ℂ → Option D) (ls)
    (hlu : LUSound lf ls) (fuel : ℕ) (M : HMat ℂ) (hM : M.WF) (hH : M.Homog)
    (hsq : M.shape.1 = M.shape.2) (d : Dec D)
    (hd : luDecomp lf fuel M = some d) (rhs x : ℕ → ℂ)
    (hx : solveWithDecomp ls d M.shape.1 rhs = some x) :
    Solves M.shape.1 M.shape.2 M.entry x rhs := by
  induction fuel generalizing M d rhs x with
  | zero => simp [luDecomp] at hd
  | succ fuel ih =>
    cases M with
    | dense h w a =>
      rw [luDecomp] at hd
      cases hf : lf h w a with
      | none => rw [hf] at hd; simp at hd
      | some d' =>
        rw [hf] at hd
        simp only [Option.map_some, Option.some.injEq] at hd
        subst hd
        exact hlu h w a d' rhs x hf hx
    | gen hs ws b => simp [luDecomp] at hd
    | str k p q s b =>
      obtain ⟨n, hn, hs⟩ := hM.1
      have hnb : (nbBlocks k s).getD 0 = n := by
        rw [hs, (block_positions k n hn).1]; rfl
      rw [luDecomp] at hd
      split at hd
      · rename_i hc
        obtain ⟨hk, hn2⟩ := hc
        have h2 : n = 2 := by rw [← hnb, hn2]; rfl
        subst h2
        have hs2 : s = 2 := by
          rw [hs]
          have had := hn.2.2
          clear hs hM hH hsq hd hx hn2 hnb hn
          revert hk had
          cases k <;> simp [isInstance, specStored]
        subst hs2
        simp only [HMat.shape, hnb] at hsq hx ⊢
        obtain rfl : p = q := by omega
        have hspec : specBlock k 2 0 0 = 0 ∧ specBlock k 2 0 1 = 1 ∧ specBlock k 2 1 0 = 1 ∧
            specBlock k 2 1 1 = 0 := by
          clear hs hM hH hx hd hn2 hnb hn
          revert hk
          cases k <;> simp [isInstance, specBlock, Nat.dist]
        have hsame : (b 0).Same (b 1) := (hH 1 (by omega)).2
        obtain ⟨aP, p1, p2, p3, p4⟩ := elementwise_same (· + ·) (b 0) (b 1) (hM.2 0 (by omega)).1 hsame
        obtain ⟨aM, m1, m2, m3, m4⟩ := elementwise_same (· - ·) (b 0) (b 1) (hM.2 0 (by omega)).1 hsame
        have hsh := (hM.2 0 (by omega)).2
        rw [hsh] at p4 m4
        rw [p1, m1] at hd
        simp only [Option.bind_some] at hd
        cases hdp : luDecomp lf fuel aP with
        | none => rw [hdp] at hd; simp at hd
        | some dP =>
        cases hdm : luDecomp lf fuel aM with
        | none => rw [hdp, hdm] at hd; simp at hd
        | some dM =>
        rw [hdp, hdm] at hd
        simp only [Option.bind_some, Option.some.injEq] at hd
        subst hd
        rw [solveWithDecomp] at hx
        have hhalf : p * 2 / 2 = p := by omega
        rw [hhalf] at hx
        cases hxp : solveWithDecomp ls dP p (fun r => rhs r + rhs (p + r)) with
        | none => rw [hxp] at hx; simp at hx
        | some xP =>
        cases hxm : solveWithDecomp ls dM p (fun r => rhs r - rhs (p + r)) with
        | none => rw [hxp, hxm] at hx; simp at hx
        | some xM =>
        rw [hxp, hxm] at hx
        simp only [Option.bind_some, Option.some.injEq] at hx
        have hPs : aP.shape = (p, p) := by rw [p3.shape, hsh]
        have hMs : aM.shape = (p, p) := by rw [m3.shape, hsh]
        have sP := ih aP p2 (p3.symm.homog (hH 0 (by omega)).1) (by rw [hPs]) _ hdp
          (fun r => rhs r + rhs (p + r)) xP (by rw [hPs]; exact hxp)
        have sM := ih aM m2 (m3.symm.homog (hH 0 (by omega)).1) (by rw [hMs]) _ hdm
          (fun r => rhs r - rhs (p + r)) xM (by rw [hMs]; exact hxm)
        rw [hPs, solves_congr p4] at sP
        rw [hMs, solves_congr m4] at sM
        intro r hr
        have hp : 0 < p := by omega
        have hm : r % p < p := Nat.mod_lt _ hp
        have sP' : _ = rhs (r % p) + rhs (p + r % p) := sP (r % p) hm
        have sM' : _ = rhs (r % p) - rhs (p + r % p) := sM (r % p) hm
        rw [str_sum hnb, sum_range_succ, sum_range_one, ← hx]
        have e0 : ∀ t ∈ range p, (b (specBlock k 2 (r / p) 0)).entry (r % p) t *
            ((if 0 * p + t < p then xP (0 * p + t) + xM (0 * p + t)
            else xP (0 * p + t - p) - xM (0 * p + t - p)) / 2) =
            (b (specBlock k 2 (r / p) 0)).entry (r % p) t * ((xP t + xM t) / 2) := by
          intro t ht
          rw [zero_mul, zero_add, if_pos (mem_range.1 ht)]
        have e1 : ∀ t ∈ range p, (b (specBlock k 2 (r / p) 1)).entry (r % p) t *
            ((if 1 * p + t < p then xP (1 * p + t) + xM (1 * p + t)
            else xP (1 * p + t - p) - xM (1 * p + t - p)) / 2) =
            (b (specBlock k 2 (r / p) 1)).entry (r % p) t * ((xP t - xM t) / 2) := by
          intro t ht
          rw [one_mul, if_neg (by omega), Nat.add_sub_cancel_left]
        rw [sum_congr rfl e0, sum_congr rfl e1, ← sum_add_distrib]
        have hdiv : r / p < 2 := by rwa [Nat.div_lt_iff_lt_mul hp, Nat.mul_comm]
        have hrr : p * (r / p) + r % p = r := Nat.div_add_mod r p
        rcases Nat.le_one_iff_eq_zero_or_eq_one.1 (Nat.lt_succ_iff.1 hdiv) with h | h
        · have hr0 : r = r % p := by rw [h] at hrr; omega
          rw [h, hspec.1, hspec.2.1]
          have eq : rhs r = (rhs (r % p) + rhs (p + r % p) + (rhs (r % p) - rhs (p + r % p))) / 2 := by
            rw [← hr0]; ring
          rw [eq, ← sP', ← sM', ← sum_add_distrib, sum_div]
          apply sum_congr rfl
          intro t _
          ring
        · have hr1 : r = p + r % p := by rw [h] at hrr; omega
          rw [h, hspec.2.2.1, hspec.2.2.2]
          have eq : rhs r = (rhs (r % p) + rhs (p + r % p) - (rhs (r % p) - rhs (p + r % p))) / 2 := by
            rw [← hr1]; ring
          rw [eq, ← sP', ← sM', ← sum_sub_distrib, sum_div]
          apply sum_congr rfl
          intro t _
          ring
      · simp at hd

/-- What a solver without cache returns. -/
noncomputable def solveUncached {D : Type} (lf : ℕ → ℕ → Arr ℂ → Option D)
    (ls : D → ℕ → (ℕ → ℂ) → Option (ℕ → ℂ)) (fuel : ℕ) (M : HMat ℂ) (rhs : ℕ → ℂ) :
    Option (ℕ → ℂ) :=
  (luDecomp lf fuel M).bind fun d => solveWithDecomp ls d M.shape.1 rhs

/-- No event of the history changes the object in place. -/
def NeverMutated (obj : ℕ) (ops : List LUOp) : Prop :=
  ∀ o M, LUOp.mutate o M ∈ ops → o ≠ obj

theorem luRun_invariant {D : Type} (lf : ℕ → ℕ → Arr ℂ → Option D) (ls) (fuel : ℕ) (obj : ℕ)
    (ops : List LUOp) (hm : NeverMutated obj ops) (h : Heap) (d : Dec D)
    (hd : luDecomp lf fuel (h obj) = some d) (st : LUState D)
    (hst : st.matrix = some obj → st.decomp = some d) :
    (ops.foldl (luStep lf ls fuel) (h, st)).1 obj = h obj ∧
    ((ops.foldl (luStep lf ls fuel) (h, st)).2.matrix = some obj →
      (ops.foldl (luStep lf ls fuel) (h, st)).2.decomp = some d) := by
  induction ops generalizing h st with
  | nil => exact ⟨rfl, hst⟩
  | cons op ops ih =>
    have hm' : NeverMutated obj ops := fun o M hmem => hm o M (List.mem_cons_of_mem _ hmem)
    rw [List.foldl_cons]
    cases op with
    | mutate o M =>
      have hne : o ≠ obj := hm o M (by simp)
      have he : h obj = (if obj = o then M else h obj) := by
        rw [if_neg (Ne.symm hne)]
      have := ih hm' (fun o' => if o' = o then M else h o') (by rw [← he]; exact hd) st hst
      exact ⟨this.1.trans he.symm, this.2⟩
    | solve o rhs =>
      apply ih hm' h hd
      intro hmat
      simp only [luSolve, cachedLuDecomp] at hmat ⊢
      by_cases hc : st.matrix = some o
      · simp only [hc, if_true] at hmat ⊢
        cases hdec : st.decomp with
        | none => simp only [hdec] at hmat ⊢; exact absurd (hst (hc ▸ hmat)) (by simp [hdec])
        | some d' => simp only [hdec] at hmat ⊢; rw [← hdec]; exact hst (hc ▸ hmat)
      · simp only [hc, if_false] at hmat ⊢
        cases hl : luDecomp lf fuel (h o) with
        | none =>
          simp only [hl, Option.some.injEq] at hmat
          subst hmat
          rw [hl] at hd
          cases hd
        | some d' =>
          simp only [hl, Option.some.injEq] at hmat ⊢
          subst hmat
          rw [hl] at hd
          exact Option.some.inj hd

/-- **C04, partial.** After every history of solves (which may fail), and of changes in place of
other matrices, a solve for an object whose matrix can be factorised returns what a solver without
cache returns. Missing: matrices that cannot be factorised, for which a second attempt returns the
solution of another system (`lu_cache_violated`), and matrices changed in place
(`lu_cache_mutation_violated`). -/
theorem lu_cache_transparent_partial {D : Type} (lf : ℕ → ℕ → Arr ℂ → Option D) (ls) (fuel : ℕ)
    (h : Heap) (ops : List LUOp) (obj : ℕ) (rhs : ℕ → ℂ) (hm : NeverMutated obj ops)
    (hd : (luDecomp lf fuel (h obj)).isSome) :
    (luSolve lf ls fuel (luRun lf ls fuel h ops).1 (luRun lf ls fuel h ops).2 obj rhs).2 =
      solveUncached lf ls fuel (h obj) rhs := by
  obtain ⟨d, hd⟩ := Option.isSome_iff_exists.1 hd
  obtain ⟨i1, i2⟩ := luRun_invariant lf ls fuel obj ops hm h d hd ⟨none, none⟩ (by simp)
  change (luRun lf ls fuel h ops).1 obj = h obj at i1
  change (luRun lf ls fuel h ops).2.matrix = some obj → (luRun lf ls fuel h ops).2.decomp = some d at i2
  simp only [luSolve, cachedLuDecomp, solveUncached, hd, Option.bind_some]
  by_cases hc : (luRun lf ls fuel h ops).2.matrix = some obj
  · simp only [hc, if_true, i2 hc, i1]
  · simp only [hc, if_false, i1, hd]

/-- **C04, partial.** Consequence: the value returned solves the system of the matrix passed in the
call. -/
theorem lu_cache_solves_partial {D : Type} (lf : ℕ → ℕ → Arr ℂ → Option D) (ls)
    (hlu : LUSound lf ls) (fuel : ℕ) (h : Heap) (ops : List LUOp) (obj : ℕ) (rhs x : ℕ → ℂ)
    (hm : NeverMutated obj ops) (hd : (luDecomp lf fuel (h obj)).isSome) (hM : (h obj).WF)
    (hH : (h obj).Homog) (hsq : (h obj).shape.1 = (h obj).shape.2)
    (hx : (luSolve lf ls fuel (luRun lf ls fuel h ops).1 (luRun lf ls fuel h ops).2 obj rhs).2 =
      some x) : Solves (h obj).shape.1 (h obj).shape.2 (h obj).entry x rhs := by
  rw [lu_cache_transparent_partial lf ls fuel h ops obj rhs hm hd, solveUncached] at hx
  obtain ⟨d, hd⟩ := Option.isSome_iff_exists.1 hd
  rw [hd, Option.bind_some] at hx
  exact solve_with_decomp_sound lf ls hlu fuel _ hM hH hsq d hd rhs x hx

/-! ### Concrete factorisation of one by one matrices, for the examples -/

open Classical in
/-- Factorisation of a matrix of size one; fails when the entry is zero. -/
noncomputable def lf1 : ℕ → ℕ → Arr ℂ → Option ℂ := fun h w a =>
  if h = 1 ∧ w = 1 ∧ a 0 0 ≠ 0 then some (a 0 0) else none

/-- Solution with such a factor. -/
noncomputable def ls1 : ℂ → ℕ → (ℕ → ℂ) → Option (ℕ → ℂ) := fun d _ b => some fun _ => b 0 / d

theorem lu1_sound : LUSound lf1 ls1 := by
  intro n w a d b x hf hs
  unfold lf1 at hf
  split at hf
  · rename_i h
    obtain ⟨rfl, rfl, h0⟩ := h
    simp only [Option.some.injEq] at hf
    simp only [ls1, Option.some.injEq] at hs
    intro r hr
    obtain rfl : r = 0 := by omega
    rw [sum_range_one, ← hs, ← hf]
    field_simp
  · cases hf

/-- Two objects: the matrix `[2]`, and the matrix `[0]`, that cannot be factorised. -/
noncomputable def heap1 : Heap := fun o => .dense 1 1 fun _ _ => if o = 0 then 2 else 0

theorem heap1_zero : luDecomp lf1 1 (heap1 0) = some (.leaf 2) := by
  simp [luDecomp, heap1, lf1]

theorem heap1_one : luDecomp lf1 1 (heap1 1) = none := by
  simp [luDecomp, heap1, lf1]

/-- The hypotheses are met after a history with failures, for the object 0. -/
example : NeverMutated 0 [.solve 1 0, .solve 1 0, .mutate 1 (.dense 1 1 fun _ _ => 3), .solve 0 0] ∧
    (luDecomp lf1 1 (heap1 0)).isSome ∧ (heap1 0).WF ∧ (heap1 0).Homog ∧
    (heap1 0).shape.1 = (heap1 0).shape.2 :=
  ⟨by intro o M; simp; rintro rfl _; decide, by rw [heap1_zero]; rfl, trivial, trivial, rfl⟩

/-- **C04 is violated**: solving for `[2]`, then twice for the matrix `[0]`: the first attempt raises,
the second one returns a value, namely the solution of the system of the matrix `[2]`. -/
theorem lu_cache_violated : ∃ x : ℕ → ℂ,
    (luSolve lf1 ls1 1 heap1 (luRun lf1 ls1 1 heap1 [.solve 0 (fun _ => 1)]).2 1
      (fun _ => 1)).2 = none ∧
    (luSolve lf1 ls1 1 (luRun lf1 ls1 1 heap1 [.solve 0 (fun _ => 1), .solve 1 (fun _ => 1)]).1
      (luRun lf1 ls1 1 heap1 [.solve 0 (fun _ => 1), .solve 1 (fun _ => 1)]).2 1
      (fun _ => 1)).2 = some x ∧
    ¬ Solves (heap1 1).shape.1 (heap1 1).shape.2 (heap1 1).entry x (fun _ => 1) := by
  refine ⟨fun _ => 1 / 2, ?_, ?_, ?_⟩
  · simp [luRun, luStep, luSolve, cachedLuDecomp, heap1_zero, heap1_one]
  · simp [luRun, luStep, luSolve, cachedLuDecomp, heap1_zero, heap1_one, solveWithDecomp, ls1]
  · intro h
    have := h 0 (by decide)
    simp [heap1, HMat.shape, HMat.entry] at this

/-- **C04 is violated** by changes in place: the decomposition is looked up by the identity of the
object. -/
theorem lu_cache_mutation_violated : ∃ x : ℕ → ℂ,
    let ops := [LUOp.solve 0 (fun _ => 1), .mutate 0 (.dense 1 1 fun _ _ => 4)]
    (luSolve lf1 ls1 1 (luRun lf1 ls1 1 heap1 ops).1 (luRun lf1 ls1 1 heap1 ops).2 0
      (fun _ => 1)).2 = some x ∧
    ¬ Solves 1 1 ((luRun lf1 ls1 1 heap1 ops).1 0).entry x (fun _ => 1) := by
  refine ⟨fun _ => 1 / 2, ?_, ?_⟩
  · simp [luRun, luStep, luSolve, cachedLuDecomp, heap1_zero, solveWithDecomp, ls1]
  · intro h
    have := h 0 (by decide)
    simp [luRun, luStep, HMat.entry] at this
    norm_num at this

end Verif.Blocks
