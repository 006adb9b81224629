import Mathlib.Data.Real.Basic
import Mathlib.Data.List.Basic
import Mathlib.Logic.Function.Basic

/-!
# Timers

Model of `capytaine/tools/timer.py` and of its use in `capytaine/bem/solver.py`.

A program is a tree of uses of named timers. It spends time, raises and catches exceptions. The clock never goes back: each step
spends a time that is not negative, and reading the clock takes no time.
-/

namespace Verif.Tools

/-- The object of `capytaine/tools/timer.py:29-33,54`. The time of start does not exist before the first use. -/
structure Timer where
  timings : List ℝ
  start : Option ℝ

/-- `nb_timings`, `capytaine/tools/timer.py:38-40`. -/
def Timer.nbTimings (t : Timer) : Nat := t.timings.length

/-- `total`, `capytaine/tools/timer.py:42-44`. -/
def Timer.total (t : Timer) : ℝ := t.timings.sum

open Classical in
/-- `mean`, `capytaine/tools/timer.py:46-51`. `none` is NaN. -/
noncomputable def Timer.mean (t : Timer) : Option ℝ :=
  if t.nbTimings = 0 then none else some (t.total / t.nbTimings)

/-- `__enter__`, `capytaine/tools/timer.py:53-54`. -/
def Timer.enter (now : ℝ) (t : Timer) : Timer := { t with start := some now }

/-- `__exit__`, `capytaine/tools/timer.py:56-57`. It returns nothing, so that an exception is raised again. It fails when the timer
never started, which does not happen in a `with` block: the timer is then left as it is. -/
def Timer.exit (now : ℝ) (t : Timer) : Timer :=
  match t.start with
  | some s => { t with timings := t.timings ++ [now - s] }
  | none => t

/-- The programs that use timers: `with timer:` blocks as in `capytaine/bem/solver.py:129,136,144,151,374,387` and functions wrapped
by `wraps_function` (`capytaine/tools/timer.py:59-64`, `capytaine/bem/solver.py:60`), computations that take some time, exceptions,
`try` blocks as in `capytaine/bem/solver.py:179-183`, and calls in another process as in `capytaine/bem/solver.py:240`, which
work on a copy of the timers (the default of joblib). -/
inductive Prog where
  | spend (dt : ℝ)
  | raise
  | seq (a b : Prog)
  | catch_ (a b : Prog)
  | use (name : String) (body : Prog)
  | fork (body : Prog)

/-- The clock and the timers of the process, `capytaine/bem/solver.py:58`. -/
structure World where
  now : ℝ
  timers : String → Timer

/-- Execution. The flag tells if an exception is on its way. `with` is `capytaine/tools/timer.py:53-57`, wrapping a function is
`capytaine/tools/timer.py:59-64`, catching is `capytaine/bem/solver.py:179-183`, and the copy of the timers in another process is
`capytaine/bem/solver.py:240`. -/
def exec : Prog → World → World × Bool
  | .spend dt, w => ({ w with now := w.now + dt }, false)
  | .raise, w => (w, true)
  | .seq a b, w =>
    if (exec a w).2 then exec a w else exec b (exec a w).1
  | .catch_ a b, w =>
    if (exec a w).2 then exec b (exec a w).1 else exec a w
  | .use n p, w =>
    let w1 : World := { w with timers := Function.update w.timers n ((w.timers n).enter w.now) }
    let r := exec p w1
    ({ r.1 with timers := Function.update r.1.timers n ((r.1.timers n).exit r.1.now) }, r.2)
  | .fork p, w => ({ w with now := (exec p w).1.now }, (exec p w).2)

/-- `solve_all` without parallelism, `capytaine/bem/solver.py:229-233,176-184`: each resolution is wrapped by the timer, its
exceptions are caught. -/
def solveAll : List Prog → Prog
  | [] => .spend 0
  | p :: ps => .seq (.catch_ (.use "Solve total" p) (.spend 0)) (solveAll ps)

end Verif.Tools
