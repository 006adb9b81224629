import Verif.Tools.TimerModel
import Mathlib.Tactic.Linarith
import Mathlib.Tactic.NormNum
import Mathlib.Algebra.Order.BigOperators.Group.List
import Mathlib.Tactic.FieldSimp

/-!
# Timers count completed uses (C55)

The specification is the list of the uses of the timers that a program completes, each with the time when it began and the time
when it ended, computed without timers.
-/

namespace Verif.Tools

/-! ## Specification -/

/-- A completed use of a timer: its name, the time when it began and the time when it ended. -/
abbrev Use := String × ℝ × ℝ

/-- The uses completed by a program started at a time, in the order in which they end, with the time at the end and whether an
exception is raised. Each use knows when it began. -/
def run : Prog → ℝ → List Use × ℝ × Bool
  | .spend dt, t => ([], t + dt, false)
  | .raise, t => ([], t, true)
  | .seq a b, t =>
    if (run a t).2.2 then run a t
    else ((run a t).1 ++ (run b (run a t).2.1).1, (run b (run a t).2.1).2)
  | .catch_ a b, t =>
    if (run a t).2.2 then ((run a t).1 ++ (run b (run a t).2.1).1, (run b (run a t).2.1).2)
    else run a t
  | .use n p, t => ((run p t).1 ++ [(n, t, (run p t).2.1)], (run p t).2)
  | .fork p, t => run p t

/-- The completed uses of one timer. -/
def usesOf (n : String) (p : Prog) (t : ℝ) : List Use := (run p t).1.filter fun u => u.1 = n

/-- The program stays in one process. -/
def Prog.Local : Prog → Prop
  | .spend _ => True
  | .raise => True
  | .seq a b => a.Local ∧ b.Local
  | .catch_ a b => a.Local ∧ b.Local
  | .use _ p => p.Local
  | .fork _ => False

/-- The program uses the timer somewhere. -/
def Prog.Mentions (n : String) : Prog → Prop
  | .spend _ => False
  | .raise => False
  | .seq a b => a.Mentions n ∨ b.Mentions n
  | .catch_ a b => a.Mentions n ∨ b.Mentions n
  | .use m p => m = n ∨ p.Mentions n
  | .fork p => p.Mentions n

/-- The timer is never used inside a use of itself. -/
def Prog.Flat (n : String) : Prog → Prop
  | .spend _ => True
  | .raise => True
  | .seq a b => a.Flat n ∧ b.Flat n
  | .catch_ a b => a.Flat n ∧ b.Flat n
  | .use m p => p.Flat n ∧ (m = n → ¬ p.Mentions n)
  | .fork p => p.Flat n

/-- The clock does not go back. -/
def Prog.Forward : Prog → Prop
  | .spend dt => 0 ≤ dt
  | .raise => True
  | .seq a b => a.Forward ∧ b.Forward
  | .catch_ a b => a.Forward ∧ b.Forward
  | .use _ p => p.Forward
  | .fork p => p.Forward

/-! ## Lemmas -/

/-- The timers do not change the course of the program. -/
theorem exec_run (p : Prog) : ∀ w : World, (exec p w).1.now = (run p w.now).2.1 ∧ (exec p w).2 = (run p w.now).2.2 := by
  induction p with
  | spend dt => intro w; exact ⟨rfl, rfl⟩
  | raise => intro w; exact ⟨rfl, rfl⟩
  | seq a b iha ihb =>
    intro w
    have ha := iha w
    have hb := ihb (exec a w).1
    rw [ha.1] at hb
    simp only [exec, run]
    rw [ha.2]
    split_ifs
    · exact ha
    · exact hb
  | catch_ a b iha ihb =>
    intro w
    have ha := iha w
    have hb := ihb (exec a w).1
    rw [ha.1] at hb
    simp only [exec, run]
    rw [ha.2]
    split_ifs
    · exact hb
    · exact ha
  | use n p ih =>
    intro w
    simp only [exec, run]
    exact ih _
  | fork p ih =>
    intro w
    simp only [exec, run]
    exact ih w

theorem usesOf_seq (n : String) (a b : Prog) (t : ℝ) : usesOf n (.seq a b) t =
    if (run a t).2.2 then usesOf n a t else usesOf n a t ++ usesOf n b (run a t).2.1 := by
  simp only [usesOf, run]
  split_ifs <;> simp

theorem usesOf_catch (n : String) (a b : Prog) (t : ℝ) : usesOf n (.catch_ a b) t =
    if (run a t).2.2 then usesOf n a t ++ usesOf n b (run a t).2.1 else usesOf n a t := by
  simp only [usesOf, run]
  split_ifs <;> simp

theorem usesOf_use (n m : String) (p : Prog) (t : ℝ) : usesOf n (.use m p) t =
    if m = n then usesOf n p t ++ [(m, t, (run p t).2.1)] else usesOf n p t := by
  simp only [usesOf, run, List.filter_append]
  split_ifs with h <;> simp [h]

/-- A timer that is not mentioned does not change. -/
theorem unmentioned (n : String) (p : Prog) (h : ¬ p.Mentions n) :
    (∀ w, (exec p w).1.timers n = w.timers n) ∧ ∀ t, usesOf n p t = [] := by
  induction p with
  | spend dt => exact ⟨fun _ => rfl, fun _ => rfl⟩
  | raise => exact ⟨fun _ => rfl, fun _ => rfl⟩
  | seq a b iha ihb =>
    simp only [Prog.Mentions, not_or] at h
    obtain ⟨ha, ha'⟩ := iha h.1
    obtain ⟨hb, hb'⟩ := ihb h.2
    refine ⟨fun w => ?_, fun t => ?_⟩
    · simp only [exec]
      split_ifs
      · exact ha w
      · rw [hb, ha]
    · rw [usesOf_seq, ha', hb']
      simp
  | catch_ a b iha ihb =>
    simp only [Prog.Mentions, not_or] at h
    obtain ⟨ha, ha'⟩ := iha h.1
    obtain ⟨hb, hb'⟩ := ihb h.2
    refine ⟨fun w => ?_, fun t => ?_⟩
    · simp only [exec]
      split_ifs
      · rw [hb, ha]
      · exact ha w
    · rw [usesOf_catch, ha', hb']
      simp
  | use m p ih =>
    simp only [Prog.Mentions, not_or] at h
    obtain ⟨hp, hp'⟩ := ih h.2
    refine ⟨fun w => ?_, fun t => ?_⟩
    · simp only [exec]
      rw [Function.update_of_ne (Ne.symm h.1), hp]
      exact Function.update_of_ne (Ne.symm h.1) _ _
    · rw [usesOf_use, if_neg h.1, hp']
  | fork p ih =>
    obtain ⟨hp, hp'⟩ := ih h
    exact ⟨fun w => rfl, fun t => hp' t⟩

/-- A timer that has started stays started, and its time of start only moves forward. -/
theorem start_spec (n : String) (p : Prog) (hf : p.Forward) : ∀ w : World, w.now ≤ (exec p w).1.now ∧
    ∀ s, (w.timers n).start = some s → s ≤ w.now →
      ∃ s', ((exec p w).1.timers n).start = some s' ∧ s ≤ s' ∧ s' ≤ (exec p w).1.now := by
  induction p with
  | spend dt =>
    intro w
    have h0 : 0 ≤ dt := hf
    refine ⟨by simp only [exec]; linarith, fun s hs hle => ⟨s, hs, le_refl _, ?_⟩⟩
    simp only [exec]
    linarith
  | raise =>
    intro w
    exact ⟨le_refl _, fun s hs hle => ⟨s, hs, le_refl _, hle⟩⟩
  | seq a b iha ihb =>
    intro w
    have ha := iha hf.1 w
    have hb := ihb hf.2 (exec a w).1
    simp only [exec]
    split_ifs
    · exact ha
    · refine ⟨le_trans ha.1 hb.1, fun s hs hle => ?_⟩
      obtain ⟨s1, h1, h2, h3⟩ := ha.2 s hs hle
      obtain ⟨s2, h4, h5, h6⟩ := hb.2 s1 h1 h3
      exact ⟨s2, h4, le_trans h2 h5, h6⟩
  | catch_ a b iha ihb =>
    intro w
    have ha := iha hf.1 w
    have hb := ihb hf.2 (exec a w).1
    simp only [exec]
    split_ifs
    · refine ⟨le_trans ha.1 hb.1, fun s hs hle => ?_⟩
      obtain ⟨s1, h1, h2, h3⟩ := ha.2 s hs hle
      obtain ⟨s2, h4, h5, h6⟩ := hb.2 s1 h1 h3
      exact ⟨s2, h4, le_trans h2 h5, h6⟩
    · exact ha
  | use m p ih =>
    intro w
    have h := ih hf { w with timers := Function.update w.timers m ((w.timers m).enter w.now) }
    simp only [exec]
    refine ⟨h.1, fun s hs hle => ?_⟩
    have hexit : ∀ (t : Timer) (x : ℝ), (t.exit x).start = t.start := by
      intro t x
      unfold Timer.exit
      split <;> simp_all
    by_cases e : m = n
    · subst e
      obtain ⟨s', h1, h2, h3⟩ := h.2 w.now (by simp [Timer.enter]) (le_refl _)
      refine ⟨s', ?_, le_trans hle h2, h3⟩
      rw [Function.update_self, hexit]
      exact h1
    · obtain ⟨s', h1, h2, h3⟩ := h.2 s (by simpa [Function.update_of_ne (Ne.symm e)] using hs) hle
      refine ⟨s', ?_, h2, h3⟩
      rw [Function.update_of_ne (Ne.symm e)]
      exact h1
  | fork p ih =>
    intro w
    have h := ih hf w
    simp only [exec]
    exact ⟨h.1, fun s hs hle => ⟨s, hs, le_refl _, le_trans hle h.1⟩⟩

/-- A timer that has started stays started. -/
theorem started (n : String) (p : Prog) : ∀ w : World, ((w.timers n).start).isSome → (((exec p w).1.timers n).start).isSome := by
  have hexit : ∀ (t : Timer) (x : ℝ), (t.exit x).start = t.start := by
    intro t x
    unfold Timer.exit
    split <;> simp_all
  induction p with
  | spend dt => intro w h; exact h
  | raise => intro w h; exact h
  | seq a b iha ihb =>
    intro w h
    simp only [exec]
    split_ifs
    · exact iha w h
    · exact ihb _ (iha w h)
  | catch_ a b iha ihb =>
    intro w h
    simp only [exec]
    split_ifs
    · exact ihb _ (iha w h)
    · exact iha w h
  | use m p ih =>
    intro w h
    simp only [exec]
    by_cases e : m = n
    · subst e
      rw [Function.update_self, hexit]
      exact ih _ (by simp [Timer.enter])
    · rw [Function.update_of_ne (Ne.symm e)]
      exact ih _ (by simpa [Function.update_of_ne (Ne.symm e)] using h)
  | fork p ih => intro w h; exact h

/-! ## Theorems -/

/-- **C55.** Whatever exceptions are raised and however the uses are nested, a program that stays in one process adds to a timer
exactly one duration per completed use, and keeps the durations that were there. -/
theorem timer_count (n : String) (p : Prog) (hl : p.Local) : ∀ w : World,
    ∃ L, ((exec p w).1.timers n).timings = (w.timers n).timings ++ L ∧ L.length = (usesOf n p w.now).length := by
  induction p with
  | spend dt => intro w; exact ⟨[], by simp [exec], rfl⟩
  | raise => intro w; exact ⟨[], by simp [exec], rfl⟩
  | seq a b iha ihb =>
    intro w
    obtain ⟨La, h1, h2⟩ := iha hl.1 w
    obtain ⟨Lb, h3, h4⟩ := ihb hl.2 (exec a w).1
    rw [usesOf_seq]
    simp only [exec]
    rw [← (exec_run a w).2]
    split_ifs
    · exact ⟨La, h1, h2⟩
    · refine ⟨La ++ Lb, by rw [h3, h1, List.append_assoc], ?_⟩
      rw [List.length_append, List.length_append, h2, h4, (exec_run a w).1]
  | catch_ a b iha ihb =>
    intro w
    obtain ⟨La, h1, h2⟩ := iha hl.1 w
    obtain ⟨Lb, h3, h4⟩ := ihb hl.2 (exec a w).1
    rw [usesOf_catch]
    simp only [exec]
    rw [← (exec_run a w).2]
    split_ifs
    · refine ⟨La ++ Lb, by rw [h3, h1, List.append_assoc], ?_⟩
      rw [List.length_append, List.length_append, h2, h4, (exec_run a w).1]
    · exact ⟨La, h1, h2⟩
  | use m p ih =>
    intro w
    obtain ⟨L, h1, h2⟩ := ih hl { w with timers := Function.update w.timers m ((w.timers m).enter w.now) }
    rw [usesOf_use]
    simp only [exec]
    by_cases e : m = n
    · subst e
      have hs := started m p { w with timers := Function.update w.timers m ((w.timers m).enter w.now) } (by simp [Timer.enter])
      obtain ⟨s, hs⟩ := Option.isSome_iff_exists.1 hs
      refine ⟨L ++ [(exec p { w with timers := Function.update w.timers m ((w.timers m).enter w.now) }).1.now - s], ?_, ?_⟩
      · rw [Function.update_self]
        simp only [Timer.exit, hs, h1]
        simp [Timer.enter]
      · simp [h2]
    · refine ⟨L, ?_, by simpa [e] using h2⟩
      rw [Function.update_of_ne (Ne.symm e), h1]
      simp [Function.update_of_ne (Ne.symm e)]
  | fork p ih => exact hl.elim

/-- **C55.** When a timer is not used inside itself, the durations that are added are the ones of the completed uses, in order. -/
theorem timer_exact (n : String) (p : Prog) (hl : p.Local) (hf : p.Flat n) : ∀ w : World,
    ((exec p w).1.timers n).timings = (w.timers n).timings ++ (usesOf n p w.now).map fun u => u.2.2 - u.2.1 := by
  induction p with
  | spend dt => intro w; simp [exec, usesOf, run]
  | raise => intro w; simp [exec, usesOf, run]
  | seq a b iha ihb =>
    intro w
    rw [usesOf_seq]
    simp only [exec]
    rw [← (exec_run a w).2]
    split_ifs
    · exact iha hl.1 hf.1 w
    · rw [ihb hl.2 hf.2, iha hl.1 hf.1, List.map_append, List.append_assoc, (exec_run a w).1]
  | catch_ a b iha ihb =>
    intro w
    rw [usesOf_catch]
    simp only [exec]
    rw [← (exec_run a w).2]
    split_ifs
    · rw [ihb hl.2 hf.2, iha hl.1 hf.1, List.map_append, List.append_assoc, (exec_run a w).1]
    · exact iha hl.1 hf.1 w
  | use m p ih =>
    intro w
    rw [usesOf_use]
    simp only [exec]
    by_cases e : m = n
    · subst e
      obtain ⟨h1, h2⟩ := unmentioned m p (hf.2 rfl)
      rw [Function.update_self, h1, h2]
      simp only [Function.update_self]
      have := (exec_run p { w with timers := Function.update w.timers m ((w.timers m).enter w.now) }).1
      simp only [Timer.exit, Timer.enter] at this ⊢
      rw [this]
      simp
    · rw [Function.update_of_ne (Ne.symm e), ih hl hf.1]
      simp [Function.update_of_ne (Ne.symm e), e]
  | fork p ih => exact hl.elim

/-- **C55.** In all cases, the durations that are added are not negative and not longer than the uses. -/
theorem timer_bound (n : String) (p : Prog) (hl : p.Local) (hf : p.Forward) : ∀ w : World,
    ∃ L, ((exec p w).1.timers n).timings = (w.timers n).timings ++ L ∧
      List.Forall₂ (fun d u => 0 ≤ d ∧ d ≤ u.2.2 - u.2.1) L (usesOf n p w.now) := by
  induction p with
  | spend dt => intro w; exact ⟨[], by simp [exec], .nil⟩
  | raise => intro w; exact ⟨[], by simp [exec], .nil⟩
  | seq a b iha ihb =>
    intro w
    obtain ⟨La, h1, h2⟩ := iha hl.1 hf.1 w
    obtain ⟨Lb, h3, h4⟩ := ihb hl.2 hf.2 (exec a w).1
    rw [usesOf_seq]
    simp only [exec]
    rw [← (exec_run a w).2]
    split_ifs
    · exact ⟨La, h1, h2⟩
    · refine ⟨La ++ Lb, by rw [h3, h1, List.append_assoc], ?_⟩
      rw [(exec_run a w).1] at h4
      exact List.rel_append h2 h4
  | catch_ a b iha ihb =>
    intro w
    obtain ⟨La, h1, h2⟩ := iha hl.1 hf.1 w
    obtain ⟨Lb, h3, h4⟩ := ihb hl.2 hf.2 (exec a w).1
    rw [usesOf_catch]
    simp only [exec]
    rw [← (exec_run a w).2]
    split_ifs
    · refine ⟨La ++ Lb, by rw [h3, h1, List.append_assoc], ?_⟩
      rw [(exec_run a w).1] at h4
      exact List.rel_append h2 h4
    · exact ⟨La, h1, h2⟩
  | use m p ih =>
    intro w
    obtain ⟨L, h1, h2⟩ := ih hl hf { w with timers := Function.update w.timers m ((w.timers m).enter w.now) }
    rw [usesOf_use]
    simp only [exec]
    by_cases e : m = n
    · subst e
      obtain ⟨s, hs, h3, h4⟩ := (start_spec m p hf { w with timers := Function.update w.timers m ((w.timers m).enter w.now) }).2
        w.now (by simp [Timer.enter]) (le_refl _)
      refine ⟨L ++ [(exec p { w with timers := Function.update w.timers m ((w.timers m).enter w.now) }).1.now - s], ?_, ?_⟩
      · rw [Function.update_self]
        simp only [Timer.exit, hs, h1]
        simp [Timer.enter]
      · rw [if_pos rfl]
        refine List.rel_append h2 (.cons ⟨by linarith, ?_⟩ .nil)
        rw [(exec_run p _).1]
        simp only
        linarith
    · refine ⟨L, ?_, by simpa [e] using h2⟩
      rw [Function.update_of_ne (Ne.symm e), h1]
      simp [Function.update_of_ne (Ne.symm e)]
  | fork p ih => exact hl.elim

/-- The total of a timer is its mean times its number of durations, and the mean is undefined only without durations. -/
theorem timer_mean (t : Timer) : (t.mean = none ↔ t.timings = []) ∧ ∀ m, t.mean = some m → m * t.timings.length = t.timings.sum := by
  unfold Timer.mean Timer.nbTimings Timer.total
  constructor
  · simp
  · intro m hm
    split_ifs at hm with h
    obtain rfl := Option.some.inj hm
    have : (t.timings.length : ℝ) ≠ 0 := Nat.cast_ne_zero.2 h
    field_simp

/-- **C55.** Solving a list of problems one after the other adds one duration per problem to the timer of the resolutions, whether
they succeed or not. -/
theorem solve_all_count (ps : List Prog) (hl : ∀ p ∈ ps, p.Local) (hm : ∀ p ∈ ps, ¬ p.Mentions "Solve total") (w : World) :
    (((exec (solveAll ps) w).1.timers "Solve total").nbTimings = (w.timers "Solve total").nbTimings + ps.length) ∧
      (exec (solveAll ps) w).2 = false := by
  have hloc : (solveAll ps).Local := by
    clear hm
    induction ps with
    | nil => trivial
    | cons p ps ih => exact ⟨⟨hl p (List.mem_cons_self), trivial⟩, ih fun q hq => hl q (List.mem_cons_of_mem _ hq)⟩
  have hcount : ∀ t, (usesOf "Solve total" (solveAll ps) t).length = ps.length ∧ (run (solveAll ps) t).2.2 = false := by
    clear hloc hl
    induction ps with
    | nil => intro t; exact ⟨rfl, rfl⟩
    | cons p ps ih =>
      intro t
      have ih := ih fun q hq => hm q (List.mem_cons_of_mem _ hq)
      have hp := (unmentioned "Solve total" p (hm p (List.mem_cons_self))).2
      have hc : (run (.catch_ (.use "Solve total" p) (.spend 0)) t).2.2 = false ∧
          (usesOf "Solve total" (.catch_ (.use "Solve total" p) (.spend 0)) t).length = 1 := by
        rw [usesOf_catch, usesOf_use, hp]
        simp only [run, usesOf]
        split_ifs <;> simp_all
      refine ⟨?_, ?_⟩
      · rw [solveAll, usesOf_seq, hc.1]
        simp only [Bool.false_eq_true, if_false, List.length_append, hc.2, (ih _).1, List.length_cons]
        omega
      · rw [solveAll]
        have key : ∀ (a b : Prog) (t : ℝ), (run a t).2.2 = false → (∀ t, (run b t).2.2 = false) →
            (run (.seq a b) t).2.2 = false := by
          intro a b t ha hb
          simp only [run]
          split_ifs
          · exact ha
          · exact hb _
        exact key _ _ t hc.1 fun t => (ih t).2
  obtain ⟨L, h1, h2⟩ := timer_count "Solve total" _ hloc w
  constructor
  · rw [Timer.nbTimings, Timer.nbTimings, h1, List.length_append, h2, (hcount _).1]
  · rw [(exec_run _ _).2]
    exact (hcount _).2

/-! ## Cases -/

/-- The resolution of a problem, with a failure in the linear solver. -/
def failingSolve : Prog :=
  .seq (.use "  Green function" (.spend 2)) (.seq (.use "  Linear solver" (.seq (.spend 1) .raise)) (.spend 5))

example : failingSolve.Local ∧ failingSolve.Forward ∧ failingSolve.Flat "  Linear solver" ∧ ¬ failingSolve.Mentions "Solve total" := by
  refine ⟨by simp [failingSolve, Prog.Local], by simp [failingSolve, Prog.Forward], by simp [failingSolve, Prog.Flat, Prog.Mentions],
    by simp [failingSolve, Prog.Mentions]⟩

/-- The failure is counted with its duration. -/
example (w : World) (h : (w.timers "  Linear solver").timings = []) :
    ((exec failingSolve w).1.timers "  Linear solver").timings = [1] := by
  rw [timer_exact _ _ (by simp [failingSolve, Prog.Local]) (by simp [failingSolve, Prog.Flat, Prog.Mentions]), h]
  simp [failingSolve, usesOf, run]

/-- Three problems, two of which fail. -/
example (w : World) : ((exec (solveAll [failingSolve, .spend 3, .raise]) w).1.timers "Solve total").nbTimings =
    (w.timers "Solve total").nbTimings + 3 :=
  (solve_all_count _ (by simp [failingSolve, Prog.Local]) (by simp [failingSolve, Prog.Mentions]) w).1

/-- **C55 is violated** for a timer used inside itself, for example by a wrapped function that is recursive: the time before the
inner use is forgotten. -/
theorem nested_timer_violated : ∃ (p : Prog) (n : String), p.Local ∧ p.Forward ∧ ∀ w : World,
    ((exec p w).1.timers n).timings ≠ (w.timers n).timings ++ (usesOf n p w.now).map fun u => u.2.2 - u.2.1 := by
  refine ⟨.use "f" (.seq (.spend 4) (.use "f" (.spend 1))), "f", by simp [Prog.Local], by simp [Prog.Forward], fun w => ?_⟩
  simp only [exec, usesOf, run, Timer.enter, Timer.exit, Function.update_self, ne_eq]
  simp only [Bool.false_eq_true, if_false, Function.update_self]
  intro h
  rw [List.append_assoc] at h
  have h2 := List.append_cancel_left h
  simp at h2
  linarith

/-- **C55 is violated** by a parallel resolution: the uses are in other processes and the timers of the solver do not see them. -/
theorem parallel_timer_violated : ∃ (p : Prog) (n : String), p.Forward ∧ p.Flat n ∧ ∀ w : World,
    (usesOf n p w.now).length = 2 ∧ ((exec p w).1.timers n).timings = (w.timers n).timings := by
  refine ⟨.seq (.fork (solveAll [.spend 1])) (.fork (solveAll [.spend 2])), "Solve total",
    by simp [Prog.Forward, solveAll], by simp [Prog.Flat, Prog.Mentions, solveAll], fun w => ⟨?_, ?_⟩⟩
  · simp [usesOf, run, solveAll]
  · simp [exec, solveAll]

end Verif.Tools
