import Verif.Green.AssemblyModel
import Mathlib.Data.List.Perm.Basic
import Mathlib.Algebra.BigOperators.Fin
import Mathlib.Tactic.Ring

/-!
# C47: the parallel assembly is deterministic and complete

The entries that the loop must give are written below without its conditionals nor its variables: a sum over the terms of the
Green function.
-/

namespace Verif.Green

open Verif.Geometry V3

/-! ## Specification -/

/-- The terms of the Green function that are integrated with the second coefficient. -/
def specReflections (p : Inputs) (i j : ℕ) : List (ℂ × V3 ℂ) :=
  match p.depth with
  | none => [p.reflected i j ⟨-1, 0⟩]
  | some h =>
    (match p.method with
      | .legacy => p.onePoint i j ⟨-1, 0⟩
      | _ => p.reflected i j ⟨-1, 0⟩) ::
    match p.method with
      | .finGreen3D => []
      | _ => [p.reflected i j ⟨-1, -2 * h⟩, p.onePoint i j ⟨1, -2 * h⟩, p.onePoint i j ⟨1, 2 * h⟩,
          p.onePoint i j ⟨-1, -4 * h⟩]

/-- The solid angle: half of the space, or the whole of it for a panel of the free surface. -/
noncomputable def specAngle (p : Inputs) (i j : ℕ) : ℂ :=
  open Classical in if i = j ∧ p.sameBody = true then (if |p.heights j| < 1e-8 then 1 else 1 / 2) else 0

/-- The value of `S`. -/
noncomputable def specS (p : Inputs) (i j : ℕ) : ℂ :=
  p.coeff 0 * (p.rankine i j).1 + p.coeff 1 * ((specReflections p i j).map fun t => t.1).sum + p.coeff 2 * (p.wave i j).1

/-- The vertical term integrated exactly by one of the variants. -/
def specVertical (p : Inputs) (i j : ℕ) : V3 ℂ :=
  match p.singularities with
  | .lowFreqWithRankinePart => ⟨0, 0, 2 * p.wavenumber * ((specReflections p i j).map fun t => t.1).headD 0⟩
  | _ => 0

/-- The gradient. -/
noncomputable def specGradient (p : Inputs) (i j : ℕ) : V3 ℂ :=
  specAngle p i j • (if p.adjoint then p.normals i else p.normals j) + p.coeff 0 • (p.rankine i j).2 +
    p.coeff 1 • ((specReflections p i j).map fun t => t.2).foldr (· + ·) 0 + p.coeff 2 • ((p.wave i j).2 + specVertical p i j)

/-- The number of layers of `K`. -/
def specLayers (p : Inputs) : ℕ := if p.early then 1 else 3

/-- The value of `K`. -/
noncomputable def specK (p : Inputs) (i j c : ℕ) : ℂ :=
  if p.early then dot (if p.adjoint then p.normals i else p.normals j) (specGradient p i j)
  else match c with
    | 0 => (specGradient p i j).x
    | 1 => (specGradient p i j).y
    | _ => (specGradient p i j).z

/-! ## What a sequence of instructions writes -/

/-- The writes of a sequence of instructions, with their values. -/
def writes (l : Locals) : List Op → List (ℕ × ℕ × Option ℕ × ℂ)
  | [] => []
  | .set f :: r => writes (f l) r
  | .writeS i j f :: r => (i, j, none, f l) :: writes l r
  | .writeK i j c f :: r => (i, j, some c, f l) :: writes l r

/-- The private variables after a sequence of instructions. -/
def after (l : Locals) : List Op → Locals
  | [] => l
  | op :: r => after (assign op l) r

theorem writes_append (l : Locals) (a b : List Op) : writes l (a ++ b) = writes l a ++ writes (after l a) b := by
  induction a generalizing l with
  | nil => rfl
  | cons op r ih =>
    cases op <;> simp [writes, after, assign, ih]

theorem after_append (l : Locals) (a b : List Op) : after l (a ++ b) = after (after l a) b := by
  induction a generalizing l with
  | nil => rfl
  | cons op r ih => simp [after, ih]

/-- Sequences which only assign private variables. -/
def Pure (a : List Op) : Prop := ∀ op ∈ a, ∃ f, op = Op.set f

theorem Pure.writes {a : List Op} (h : Pure a) (l : Locals) : writes l a = [] := by
  induction a generalizing l with
  | nil => rfl
  | cons op r ih =>
    obtain ⟨f, rfl⟩ := h op (by simp)
    exact ih (fun o ho => h o (by simp [ho])) _

theorem Pure.append {a b : List Op} (ha : Pure a) (hb : Pure b) : Pure (a ++ b) := by
  intro op hop
  rcases List.mem_append.1 hop with h | h
  · exact ha op h
  · exact hb op h

theorem pure_addRankine (c : ℂ) (r : ℂ × V3 ℂ) : Pure (addRankine c r) := by
  intro op hop
  simp [addRankine] at hop
  rcases hop with rfl | rfl | rfl <;> exact ⟨_, rfl⟩

theorem pure_nil : Pure [] := by intro op h; simp at h

theorem pure_set (f : Locals → Locals) {r : List Op} (h : Pure r) : Pure (Op.set f :: r) := by
  intro op hop
  rcases List.mem_cons.1 hop with rfl | h'
  · exact ⟨_, rfl⟩
  · exact h op h'

theorem pure_depth (p : Inputs) (i j : ℕ) : Pure (depthOps p i j) := by
  unfold depthOps
  cases p.depth with
  | none => exact pure_nil
  | some h =>
    simp only
    split_ifs
    · exact pure_nil
    · exact (((pure_addRankine _ _).append (pure_addRankine _ _)).append (pure_addRankine _ _)).append (pure_addRankine _ _)

theorem pure_body (p : Inputs) (i j : ℕ) :
    Pure ([.set fun l => { l with G := 0 }, .set fun l => { l with nablaG := 0 }] ++ diagonalOps p i j ++ rankineOps p i j ++
      reflectedOps p i j ++ waveOps p i j) := by
  refine Pure.append (Pure.append (Pure.append (Pure.append (pure_set _ (pure_set _ pure_nil)) ?_) ?_) ?_) ?_
  · unfold diagonalOps
    split_ifs <;> first | exact pure_nil | exact pure_set _ (pure_set _ pure_nil)
  · unfold rankineOps
    split_ifs
    · exact pure_addRankine _ _
    · exact pure_nil
  · unfold reflectedOps
    split_ifs
    · exact ((pure_addRankine _ _).append (pure_set _ pure_nil)).append (pure_depth p i j)
    · exact ((pure_addRankine _ _).append pure_nil).append (pure_depth p i j)
    · exact pure_nil
  · unfold waveOps
    split_ifs
    · exact pure_set _ (pure_set _ (pure_set _ pure_nil))
    · exact pure_nil

/-! ## The value of an entry -/

theorem after_addRankine (l : Locals) (c : ℂ) (r : ℂ × V3 ℂ) :
    after l (addRankine c r) = { l with GRankine := r.1, nablaGRankine := r.2, G := l.G + c * r.1, nablaG := l.nablaG + c • r.2 } := by
  simp [addRankine, after, assign]

/-- The sum so far, whatever the other variables hold. -/
def Sum (l : Locals) (g : ℂ) (n : V3 ℂ) : Prop := l.G = g ∧ l.nablaG = n

theorem sum_add {l : Locals} {g : ℂ} {n : V3 ℂ} (h : Sum l g n) (c : ℂ) (r : ℂ × V3 ℂ) :
    Sum (after l (addRankine c r)) (g + c * r.1) (n + c • r.2) := by
  rw [after_addRankine]
  exact ⟨by simp [h.1], by simp [h.2]⟩

theorem v3_zero_smul (v : V3 ℂ) : (0 : ℂ) • v = 0 := by ext <;> simp

theorem v3_add_zero (v : V3 ℂ) : v + 0 = v := by ext <;> simp

theorem v3_zero_add (v : V3 ℂ) : 0 + v = v := by ext <;> simp

theorem sum_diagonal {l : Locals} (h : Sum l 0 0) (p : Inputs) (i j : ℕ) :
    Sum (after l (diagonalOps p i j)) 0 (specAngle p i j • (if p.adjoint then p.normals i else p.normals j)) := by
  unfold diagonalOps specAngle
  by_cases h1 : i = j ∧ p.sameBody = true
  · rw [if_pos h1, if_pos h1]
    refine ⟨by simp [after, assign, h.1], ?_⟩
    simp only [after, assign, h.2, Inputs.normal, v3_zero_add]
  · rw [if_neg h1, if_neg h1, v3_zero_smul]
    exact h

theorem sum_rankine {l : Locals} {g : ℂ} {n : V3 ℂ} (h : Sum l g n) (p : Inputs) (i j : ℕ) :
    Sum (after l (rankineOps p i j)) (g + p.coeff 0 * (p.rankine i j).1) (n + p.coeff 0 • (p.rankine i j).2) := by
  unfold rankineOps
  by_cases h1 : p.coeff 0 ≠ 0
  · rw [if_pos h1]
    exact sum_add h _ _
  · rw [if_neg h1]
    push Not at h1
    rw [h1, v3_zero_smul, zero_mul, add_zero, v3_add_zero]
    exact h

theorem sum_wave {l : Locals} {g : ℂ} {n : V3 ℂ} (h : Sum l g n) (p : Inputs) (i j : ℕ) :
    Sum (after l (waveOps p i j)) (g + p.coeff 2 * (p.wave i j).1) (n + p.coeff 2 • (p.wave i j).2) := by
  unfold waveOps
  by_cases h1 : p.coeff 2 ≠ 0
  · rw [if_pos h1]
    exact ⟨by simp [after, assign, h.1], by simp [after, assign, h.2]⟩
  · rw [if_neg h1]
    push Not at h1
    rw [h1, v3_zero_smul, zero_mul, add_zero, v3_add_zero]
    exact h

theorem surface_eq (p : Inputs) (i j : ℕ) : (specReflections p i j).head? = some (p.surface i j) := by
  unfold specReflections Inputs.surface
  cases hd : p.depth with
  | none => simp
  | some h => cases hm : p.method <;> simp

theorem sum_reflected {l : Locals} {g : ℂ} {n : V3 ℂ} (h : Sum l g n) (p : Inputs) (i j : ℕ) :
    Sum (after l (reflectedOps p i j)) (g + p.coeff 1 * ((specReflections p i j).map fun t => t.1).sum)
      (n + p.coeff 1 • ((specReflections p i j).map fun t => t.2).foldr (· + ·) 0 + p.coeff 2 • specVertical p i j) := by
  unfold reflectedOps
  by_cases h1 : p.coeff 1 ≠ 0 ∨ (p.singularities = .lowFreqWithRankinePart ∧ p.coeff 2 ≠ 0)
  · rw [if_pos h1]
    rw [after_append, after_append]
    have hs := sum_add h (p.coeff 1) (p.surface i j)
    -- the vertical term
    have hv : Sum (after (after l (addRankine (p.coeff 1) (p.surface i j)))
        (if p.singularities = .lowFreqWithRankinePart then
          [.set fun l => { l with nablaG := ⟨l.nablaG.x, l.nablaG.y, l.nablaG.z + p.coeff 2 * 2 * p.wavenumber * l.GRankine⟩ }]
         else [])) (g + p.coeff 1 * (p.surface i j).1)
        (n + p.coeff 1 • (p.surface i j).2 + p.coeff 2 • specVertical p i j) := by
      have hh := surface_eq p i j
      cases hr : specReflections p i j with
      | nil => rw [hr] at hh; simp at hh
      | cons a b =>
        rw [hr] at hh
        simp only [List.head?_cons, Option.some.injEq] at hh
        subst hh
        unfold specVertical
        rw [hr]
        cases hg : p.singularities with
        | lowFreqWithRankinePart =>
          rw [if_pos rfl]
          refine ⟨?_, ?_⟩
          · simp only [after, assign]
            exact hs.1
          · simp only [after, assign]
            rw [hs.2, after_addRankine]
            ext <;> simp
            ring
        | highFreq =>
          rw [if_neg (by decide)]
          refine ⟨hs.1, ?_⟩
          simp only [after]
          rw [hs.2]
          ext <;> simp
        | lowFreq =>
          rw [if_neg (by decide)]
          refine ⟨hs.1, ?_⟩
          simp only [after]
          rw [hs.2]
          ext <;> simp
    generalize after (after l (addRankine (p.coeff 1) (p.surface i j))) _ = l' at *
    generalize specVertical p i j = w at *
    unfold depthOps specReflections
    unfold Inputs.surface at hv
    cases hd : p.depth with
    | none =>
      rw [hd] at hv
      simp only [ne_eq, not_true_eq_false, false_and, if_false] at hv
      refine ⟨?_, ?_⟩
      · simp only [after, List.map_cons, List.map_nil, List.sum_cons, List.sum_nil]
        rw [hv.1]; ring
      · simp only [after, List.map_cons, List.map_nil, List.foldr]
        rw [hv.2]; ext <;> simp
    | some d =>
      rw [hd] at hv
      cases hm : p.method with
      | finGreen3D =>
        rw [hm] at hv
        simp at hv
        simp only [if_true]
        refine ⟨?_, ?_⟩
        · simp only [after, List.map_cons, List.map_nil, List.sum_cons, List.sum_nil]
          rw [hv.1]; ring
        · simp only [after, List.map_cons, List.map_nil, List.foldr]
          rw [hv.2]; ext <;> simp
      | legacy =>
        rw [hm] at hv
        simp only [reduceCtorEq, if_false, after_append]
        simp at hv
        have h4 := sum_add (sum_add (sum_add (sum_add hv (p.coeff 1) (p.reflected i j ⟨-1, -2 * d⟩)) (p.coeff 1)
          (p.onePoint i j ⟨1, -2 * d⟩)) (p.coeff 1) (p.onePoint i j ⟨1, 2 * d⟩)) (p.coeff 1) (p.onePoint i j ⟨-1, -4 * d⟩)
        refine ⟨?_, ?_⟩
        · rw [h4.1]
          simp
          ring
        · rw [h4.2]
          ext <;> simp <;> ring
      | newer =>
        rw [hm] at hv
        simp only [reduceCtorEq, if_false, after_append]
        simp at hv
        have h4 := sum_add (sum_add (sum_add (sum_add hv (p.coeff 1) (p.reflected i j ⟨-1, -2 * d⟩)) (p.coeff 1)
          (p.onePoint i j ⟨1, -2 * d⟩)) (p.coeff 1) (p.onePoint i j ⟨1, 2 * d⟩)) (p.coeff 1) (p.onePoint i j ⟨-1, -4 * d⟩)
        refine ⟨?_, ?_⟩
        · rw [h4.1]
          simp
          ring
        · rw [h4.2]
          ext <;> simp <;> ring
  · rw [if_neg h1]
    push Not at h1
    obtain ⟨h2, h3⟩ := h1
    have hw : p.coeff 2 • specVertical p i j = 0 := by
      by_cases hg : p.singularities = .lowFreqWithRankinePart
      · rw [h3 hg, v3_zero_smul]
      · unfold specVertical
        cases hs : p.singularities with
        | lowFreqWithRankinePart => exact absurd hs hg
        | highFreq => ext <;> simp
        | lowFreq => ext <;> simp
    rw [hw, h2, v3_zero_smul, zero_mul, add_zero, v3_add_zero, v3_add_zero]
    exact h

/-- What is written for one entry, whatever the thread did before. -/
theorem writes_entry (l : Locals) (p : Inputs) (i j : ℕ) :
    writes l (entryOps p i j) = (i, j, none, specS p i j) ::
      (List.range (specLayers p)).map fun c => (i, j, some c, specK p i j c) := by
  unfold entryOps
  rw [writes_append, (pure_body p i j).writes, List.nil_append]
  simp only [after_append]
  have h0 : Sum (after l [.set fun l => { l with G := 0 }, .set fun l => { l with nablaG := 0 }]) 0 0 := ⟨rfl, rfl⟩
  have h := sum_wave (sum_reflected (sum_rankine (sum_diagonal h0 p i j) p i j) p i j) p i j
  generalize after (after _ _) _ = m at *
  have hS : m.G = specS p i j := by rw [h.1]; unfold specS; ring
  have hK : m.nablaG = specGradient p i j := by
    rw [h.2]
    unfold specGradient
    ext <;> simp <;> ring
  unfold writeOps specLayers specK
  cases he : p.early with
  | true =>
    simp only [if_true, writes, hS, hK]
    rfl
  | false =>
    simp only [Bool.false_eq_true, if_false, writes, hS, hK]
    rfl

/-- The writes that are asked for. -/
def Target (p : Inputs) (w : ℕ × ℕ × Option ℕ × ℂ) : Prop :=
  w.1 < p.n1 ∧ w.2.1 < p.n2 ∧
    match w.2.2.1 with
    | none => w.2.2.2 = specS p w.1 w.2.1
    | some c => c < specLayers p ∧ w.2.2.2 = specK p w.1 w.2.1 c

theorem writes_rows (p : Inputs) (j : ℕ) (rows : List ℕ) (l : Locals) :
    writes l (rows.flatMap fun i => entryOps p i j) = rows.flatMap fun i => (i, j, none, specS p i j) ::
      (List.range (specLayers p)).map fun c => (i, j, some c, specK p i j c) := by
  induction rows generalizing l with
  | nil => rfl
  | cons a r ih => rw [List.flatMap_cons, writes_append, writes_entry, ih, List.flatMap_cons]

theorem mem_writes_column {p : Inputs} {j : ℕ} (hj : j < p.n2) (l : Locals) (w : ℕ × ℕ × Option ℕ × ℂ) :
    w ∈ writes l (columnOps p j) ↔ w.2.1 = j ∧ Target p w := by
  obtain ⟨a, b, c, v⟩ := w
  unfold columnOps
  rw [writes_rows]
  simp only [List.mem_flatMap, List.mem_range, List.mem_cons, List.mem_map, Target, Prod.mk.injEq]
  constructor
  · rintro ⟨i, hi, ⟨rfl, rfl, rfl, rfl⟩ | ⟨d, hd, rfl, rfl, rfl, rfl⟩⟩
    · exact ⟨rfl, hi, hj, rfl⟩
    · exact ⟨rfl, hi, hj, hd, rfl⟩
  · rintro ⟨rfl, ha, _, hv⟩
    refine ⟨a, ha, ?_⟩
    cases c with
    | none => exact Or.inl ⟨rfl, rfl, rfl, hv⟩
    | some d => exact Or.inr ⟨d, hv.1, rfl, rfl, rfl, hv.2.symm⟩

/-! ## The invariant of the threads -/

/-- The value held at a place of the matrices. -/
def held {T : ℕ} (s : State T) (a b : ℕ) : Option ℕ → Option ℂ
  | none => s.S a b
  | some c => s.K a b c

/-- The pending writes of a thread. -/
def pending {T : ℕ} (s : State T) (t : Fin T) : List (ℕ × ℕ × Option ℕ × ℂ) := writes (s.threads t).locals (s.threads t).todo

structure Inv (p : Inputs) {T : ℕ} (s : State T) : Prop where
  sound : ∀ a b c v, held s a b c = some v → Target p (a, b, c, v)
  future : ∀ t, ∀ w ∈ pending s t, Target p w
  covered : ∀ w, Target p w → held s w.1 w.2.1 w.2.2.1 = some w.2.2.2 ∨ w.2.1 ∈ s.pool ∨ ∃ t, w ∈ pending s t
  pool : s.pool.Nodup ∧ ∀ j ∈ s.pool, j < p.n2
  taken : ∀ t, ∀ w ∈ pending s t, w.2.1 ∉ s.pool
  apart : ∀ t u, t ≠ u → ∀ w ∈ pending s t, ∀ x ∈ pending s u, w.2.1 ≠ x.2.1

theorem inv_start (p : Inputs) {T : ℕ} (garbage : Fin T → Locals) : Inv p (start p garbage) where
  sound := by
    intro a b c v h
    cases c <;> simp [held, start] at h
  future := by intro t w h; simp [pending, start, writes] at h
  covered := by
    intro w h
    exact Or.inr (Or.inl (List.mem_range.2 h.2.1))
  pool := ⟨List.nodup_range, fun j hj => List.mem_range.1 hj⟩
  taken := by intro t w h; simp [pending, start, writes] at h
  apart := by intro t u _ w h; simp [pending, start, writes] at h

theorem target_unique {p : Inputs} {a b : ℕ} {c : Option ℕ} {v v' : ℂ} (h : Target p (a, b, c, v)) (h' : Target p (a, b, c, v')) :
    v = v' := by
  cases c with
  | none => exact h.2.2.trans h'.2.2.symm
  | some d => exact h.2.2.2.trans h'.2.2.2.symm

/-- The writes of an instruction followed by others. -/
theorem mem_writes_cons (l : Locals) (op : Op) (r : List Op) (w : ℕ × ℕ × Option ℕ × ℂ) :
    w ∈ writes l (op :: r) ↔ w ∈ writes l [op] ∨ w ∈ writes (assign op l) r := by
  cases op <;> simp [writes, assign]

theorem held_exec {T : ℕ} (s : State T) (op : Op) (l : Locals) (th : Fin T → Thread) (a b : ℕ) (c : Option ℕ) (v : ℂ) :
    held { s with S := writeInS op l s.S, K := writeInK op l s.K, threads := th } a b c = some v ↔
      (a, b, c, v) ∈ writes l [op] ∨ ((∀ x, (a, b, c, x) ∉ writes l [op]) ∧ held s a b c = some v) := by
  cases op with
  | set f => cases c <;> simp [held, writeInS, writeInK, writes]
  | writeS i j f =>
    cases c with
    | none =>
      simp only [held, writeInS, writes, List.mem_singleton, Prod.mk.injEq, true_and]
      by_cases h : a = i ∧ b = j
      · rw [if_pos h]
        simp [h]
        tauto
      · rw [if_neg h]
        constructor
        · intro h'
          exact Or.inr ⟨fun x hx => h ⟨hx.1, hx.2.1⟩, h'⟩
        · rintro (h' | h')
          · exact absurd ⟨h'.1, h'.2.1⟩ h
          · exact h'.2
    | some d => simp [held, writeInK, writes]
  | writeK i j k f =>
    cases c with
    | none => simp [held, writeInS, writes]
    | some d =>
      simp only [held, writeInK, writes, List.mem_singleton, Prod.mk.injEq, Option.some.injEq]
      by_cases h : a = i ∧ b = j ∧ d = k
      · rw [if_pos h]
        simp [h]
        tauto
      · rw [if_neg h]
        constructor
        · intro h'
          exact Or.inr ⟨fun x hx => h ⟨hx.1, hx.2.1, hx.2.2.1⟩, h'⟩
        · rintro (h' | h')
          · exact absurd ⟨h'.1, h'.2.1, h'.2.2.1⟩ h
          · exact h'.2

theorem inv_step {p : Inputs} {T : ℕ} {s s' : State T} (h : Inv p s) (hs : Step p s s') : Inv p s' := by
  cases hs with
  | take t j hj ht =>
    have hlt := h.pool.2 j hj
    have hp : ∀ u, pending { s with
        pool := s.pool.erase j
        threads := fun u => if u = t then ⟨(s.threads t).locals, columnOps p j⟩ else s.threads u } u =
        if u = t then writes (s.threads t).locals (columnOps p j) else pending s u := by
      intro u
      unfold pending
      by_cases hu : u = t
      · simp [hu]
      · simp [hu]
    have hnil : pending s t = [] := by unfold pending; rw [ht]; rfl
    constructor
    · exact h.sound
    · intro u w hw
      rw [hp] at hw
      by_cases hu : u = t
      · rw [if_pos hu] at hw
        exact ((mem_writes_column hlt _ _).1 hw).2
      · rw [if_neg hu] at hw
        exact h.future u w hw
    · intro w hw
      rcases h.covered w hw with h1 | h1 | ⟨u, hu⟩
      · exact Or.inl h1
      · by_cases hwj : w.2.1 = j
        · refine Or.inr (Or.inr ⟨t, ?_⟩)
          rw [hp, if_pos rfl]
          exact (mem_writes_column hlt _ _).2 ⟨hwj, hw⟩
        · exact Or.inr (Or.inl ((List.mem_erase_of_ne hwj).2 h1))
      · refine Or.inr (Or.inr ⟨u, ?_⟩)
        rw [hp, if_neg]
        · exact hu
        · rintro rfl
          rw [hnil] at hu
          simp at hu
    · exact ⟨h.pool.1.erase j, fun k hk => h.pool.2 k (List.mem_of_mem_erase hk)⟩
    · intro u w hw hin
      rw [hp] at hw
      by_cases hu : u = t
      · rw [if_pos hu] at hw
        have := ((mem_writes_column hlt _ _).1 hw).1
        rw [this] at hin
        exact h.pool.1.not_mem_erase hin
      · rw [if_neg hu] at hw
        exact h.taken u w hw (List.mem_of_mem_erase hin)
    · intro u v huv w hw x hx
      rw [hp] at hw hx
      by_cases hu : u = t
      · rw [if_pos hu] at hw
        have hw' := ((mem_writes_column hlt _ _).1 hw).1
        rw [if_neg (fun hv => huv (hu.trans hv.symm))] at hx
        intro e
        rw [hw'] at e
        exact h.taken v x hx (e ▸ hj)
      · rw [if_neg hu] at hw
        by_cases hv : v = t
        · rw [if_pos hv] at hx
          have hx' := ((mem_writes_column hlt _ _).1 hx).1
          intro e
          rw [hx'] at e
          exact h.taken u w hw (e ▸ hj)
        · rw [if_neg hv] at hx
          exact h.apart u v huv w hw x hx
  | exec t op rest ht =>
    have hp : ∀ u, pending { s with
        S := writeInS op (s.threads t).locals s.S
        K := writeInK op (s.threads t).locals s.K
        threads := fun u => if u = t then ⟨assign op (s.threads t).locals, rest⟩ else s.threads u } u =
        if u = t then writes (assign op (s.threads t).locals) rest else pending s u := by
      intro u
      unfold pending
      by_cases hu : u = t
      · simp [hu]
      · simp [hu]
    have hin : ∀ w, w ∈ pending s t ↔ w ∈ writes (s.threads t).locals [op] ∨ w ∈ writes (assign op (s.threads t).locals) rest := by
      intro w
      unfold pending
      rw [ht, mem_writes_cons]
    have hsub : ∀ u w, w ∈ (if u = t then writes (assign op (s.threads t).locals) rest else pending s u) → w ∈ pending s u := by
      intro u w hw
      by_cases hu : u = t
      · rw [if_pos hu] at hw
        rw [hu]
        exact (hin w).2 (Or.inr hw)
      · rw [if_neg hu] at hw
        exact hw
    constructor
    · intro a b c v hv
      rw [held_exec] at hv
      rcases hv with h1 | h1
      · exact h.future t _ ((hin _).2 (Or.inl h1))
      · exact h.sound _ _ _ _ h1.2
    · intro u w hw
      rw [hp] at hw
      exact h.future u w (hsub u w hw)
    · intro w hw
      obtain ⟨a, b, c, v⟩ := w
      rw [held_exec]
      rcases h.covered _ hw with h1 | h1 | ⟨u, hu⟩
      · by_cases hx : ∃ x, (a, b, c, x) ∈ writes (s.threads t).locals [op]
        · obtain ⟨x, hx⟩ := hx
          have := target_unique (h.future t _ ((hin _).2 (Or.inl hx))) hw
          subst this
          exact Or.inl (Or.inl hx)
        · push Not at hx
          exact Or.inl (Or.inr ⟨hx, h1⟩)
      · exact Or.inr (Or.inl h1)
      · by_cases ht' : u = t
        · subst ht'
          rcases (hin _).1 hu with h1 | h1
          · exact Or.inl (Or.inl h1)
          · refine Or.inr (Or.inr ⟨u, ?_⟩)
            rw [hp, if_pos rfl]
            exact h1
        · refine Or.inr (Or.inr ⟨u, ?_⟩)
          rw [hp, if_neg ht']
          exact hu
    · exact h.pool
    · intro u w hw
      rw [hp] at hw
      exact h.taken u w (hsub u w hw)
    · intro u v huv w hw x hx
      rw [hp] at hw hx
      exact h.apart u v huv w (hsub u w hw) x (hsub v x hx)

theorem inv_steps {p : Inputs} {T : ℕ} {s s' : State T} (h : Inv p s) (hs : Steps p s s') : Inv p s' := by
  induction hs with
  | refl => exact h
  | tail _ hstep ih => exact inv_step ih hstep

/-! ## The theorems -/

/-- Whatever the number of threads, the order in which they take the columns and the interleaving of their instructions, the
matrices at the end of the loop hold the specified values everywhere, and nothing is written outside. -/
theorem assembly_deterministic {p : Inputs} {T : ℕ} (garbage : Fin T → Locals) {s : State T} (hs : Steps p (start p garbage) s)
    (hf : Finished s) :
    (∀ i j, s.S i j = if i < p.n1 ∧ j < p.n2 then some (specS p i j) else none) ∧
    ∀ i j c, s.K i j c = if i < p.n1 ∧ j < p.n2 ∧ c < specLayers p then some (specK p i j c) else none := by
  have h := inv_steps (inv_start p garbage) hs
  have hall : ∀ w, Target p w → held s w.1 w.2.1 w.2.2.1 = some w.2.2.2 := by
    intro w hw
    rcases h.covered w hw with h1 | h1 | ⟨t, h1⟩
    · exact h1
    · rw [hf.1] at h1; simp at h1
    · unfold pending at h1; rw [hf.2] at h1; simp [writes] at h1
  constructor
  · intro i j
    by_cases hij : i < p.n1 ∧ j < p.n2
    · rw [if_pos hij]
      exact hall (i, j, none, specS p i j) ⟨hij.1, hij.2, rfl⟩
    · rw [if_neg hij]
      cases hv : s.S i j with
      | none => rfl
      | some v =>
        have := h.sound i j none v hv
        exact absurd ⟨this.1, this.2.1⟩ hij
  · intro i j c
    by_cases hij : i < p.n1 ∧ j < p.n2 ∧ c < specLayers p
    · rw [if_pos hij]
      exact hall (i, j, some c, specK p i j c) ⟨hij.1, hij.2.1, hij.2.2, rfl⟩
    · rw [if_neg hij]
      cases hv : s.K i j c with
      | none => rfl
      | some v =>
        have := h.sound i j (some c) v hv
        exact absurd ⟨this.1, this.2.1, this.2.2.1⟩ hij

/-- At any time, what is already written is already right, and two threads never have to write at the same place. -/
theorem assembly_race_free {p : Inputs} {T : ℕ} (garbage : Fin T → Locals) {s : State T} (hs : Steps p (start p garbage) s) :
    (∀ i j v, s.S i j = some v → i < p.n1 ∧ j < p.n2 ∧ v = specS p i j) ∧
    (∀ i j c v, s.K i j c = some v → i < p.n1 ∧ j < p.n2 ∧ c < specLayers p ∧ v = specK p i j c) ∧
    ∀ t u, t ≠ u → ∀ w ∈ pending s t, ∀ x ∈ pending s u, ¬ (w.1 = x.1 ∧ w.2.1 = x.2.1) := by
  have h := inv_steps (inv_start p garbage) hs
  exact ⟨fun i j v hv => h.sound i j none v hv, fun i j c v hv => h.sound i j (some c) v hv,
    fun t u htu w hw x hx e => h.apart t u htu w hw x hx e.2⟩

/-- With at least one thread, the loop does not stop before the end. -/
theorem assembly_progress {p : Inputs} {T : ℕ} (hT : 0 < T) (s : State T) (hf : ¬ Finished s) : ∃ s', Step p s s' := by
  by_cases h : ∀ t, (s.threads t).todo = []
  · have hp : s.pool ≠ [] := fun e => hf ⟨e, h⟩
    obtain ⟨j, hj⟩ := List.exists_mem_of_ne_nil _ hp
    exact ⟨_, Step.take s ⟨0, hT⟩ j hj (h _)⟩
  · push Not at h
    obtain ⟨t, ht⟩ := h
    obtain ⟨op, rest, e⟩ := List.exists_cons_of_ne_nil ht
    exact ⟨_, Step.exec s t op rest e⟩

/-- The number of steps that remain. -/
noncomputable def remaining (p : Inputs) {T : ℕ} (s : State T) : ℕ :=
  (s.pool.map fun j => (columnOps p j).length + 1).sum + ∑ t, (s.threads t).todo.length

/-- Each step brings the loop closer to the end: it stops after `remaining` steps exactly. -/
theorem assembly_terminates {p : Inputs} {T : ℕ} {s s' : State T} (hs : Step p s s') : remaining p s = remaining p s' + 1 := by
  cases hs with
  | take t j hj ht =>
    unfold remaining
    simp only
    have h1 : (s.pool.map fun j => (columnOps p j).length + 1).sum =
        (columnOps p j).length + 1 + ((s.pool.erase j).map fun j => (columnOps p j).length + 1).sum := by
      rw [((List.perm_cons_erase hj).map _).sum_eq]
      simp
    have h2 : ∑ u, (if u = t then (⟨(s.threads t).locals, columnOps p j⟩ : Thread) else s.threads u).todo.length =
        (columnOps p j).length + ∑ u, (s.threads u).todo.length := by
      rw [← Finset.add_sum_erase _ _ (Finset.mem_univ t), ← Finset.add_sum_erase _ _ (Finset.mem_univ t), ht]
      simp only [if_true, List.length_nil, zero_add]
      congr 1
      apply Finset.sum_congr rfl
      intro u hu
      rw [if_neg (Finset.ne_of_mem_erase hu)]
    rw [h1, h2]
    ring
  | exec t op rest ht =>
    unfold remaining
    simp only
    have h2 : ∑ u, (s.threads u).todo.length =
        ∑ u, (if u = t then (⟨assign op (s.threads t).locals, rest⟩ : Thread) else s.threads u).todo.length + 1 := by
      rw [← Finset.add_sum_erase _ _ (Finset.mem_univ t), ← Finset.add_sum_erase _ _ (Finset.mem_univ t), ht]
      simp only [if_true, List.length_cons]
      have : ∑ u ∈ Finset.univ.erase t, (s.threads u).todo.length = ∑ u ∈ Finset.univ.erase t,
          (if u = t then (⟨assign op (s.threads t).locals, rest⟩ : Thread) else s.threads u).todo.length := by
        apply Finset.sum_congr rfl
        intro u hu
        rw [if_neg (Finset.ne_of_mem_erase hu)]
      rw [this]
      ring
    rw [h2]
    ring

/-- There are executions that reach the end, whatever the inputs and the (positive) number of threads. -/
theorem assembly_ends {p : Inputs} {T : ℕ} (hT : 0 < T) (s : State T) : ∃ s', Steps p s s' ∧ Finished s' := by
  generalize hn : remaining p s = n
  induction n generalizing s with
  | zero =>
    by_cases hf : Finished s
    · exact ⟨s, .refl s, hf⟩
    · obtain ⟨s', hs⟩ := assembly_progress (p := p) hT s hf
      have := assembly_terminates hs
      omega
  | succ n ih =>
    by_cases hf : Finished s
    · exact ⟨s, .refl s, hf⟩
    · obtain ⟨s', hs⟩ := assembly_progress (p := p) hT s hf
      have := assembly_terminates hs
      obtain ⟨s'', h1, h2⟩ := ih s' (by omega)
      refine ⟨s'', ?_, h2⟩
      clear h2 ih
      induction h1 with
      | refl => exact .tail (.refl s) hs
      | tail _ hb ihb => exact .tail ihb hb

/-- Two executions of the loop on the same inputs give the same matrices. -/
theorem assembly_same {p : Inputs} {T U : ℕ} (g : Fin T → Locals) (g' : Fin U → Locals) {s : State T} {s' : State U}
    (h : Steps p (start p g) s) (hf : Finished s) (h' : Steps p (start p g') s') (hf' : Finished s') :
    s.S = s'.S ∧ s.K = s'.K := by
  have a := assembly_deterministic g h hf
  have b := assembly_deterministic g' h' hf'
  exact ⟨funext fun i => funext fun j => (a.1 i j).trans (b.1 i j).symm,
    funext fun i => funext fun j => funext fun c => (a.2 i j c).trans (b.2 i j c).symm⟩

/-- Two threads on a matrix of two rows and two columns: an execution to its end exists, so that the theorems above apply to it. -/
example (p : Inputs) (h1 : p.n1 = 2) (h2 : p.n2 = 2) (g : Fin 2 → Locals) :
    ∃ s : State 2, Steps p (start p g) s ∧ Finished s ∧ s.S 1 0 = some (specS p 1 0) ∧ s.S 2 0 = none := by
  obtain ⟨s, hs, hf⟩ := assembly_ends (p := p) (T := 2) (by norm_num) (start p g)
  have := (assembly_deterministic g hs hf).1
  refine ⟨s, hs, hf, ?_, ?_⟩
  · rw [this, if_pos (by rw [h1, h2]; norm_num)]
  · rw [this, if_neg (by rw [h1]; norm_num)]

end Verif.Green
