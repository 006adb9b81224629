import Verif.Frequency.SymModel
import Mathlib.Data.List.Dedup

/-!
# Resolution of batches of problems

Model of `BEMSolver.solve_all` and `_solve_and_catch_errors` (`capytaine/bem/solver.py:176-247`), of
`_group_for_parallel_resolution` (`capytaine/bem/problems_and_results.py:248-257`) and of the
containers of failed results (`problems_and_results.py:510-514`, `537-541`, `579-583`).

`P`, `R`, `E` are the types of problems, results and exceptions, `S` the type of the states of a
solver: its caches, which `solve` reads and changes. The checks of wavelengths, the progress bar and the
messages are left out.
-/

namespace Verif.Problems

open Verif.Frequency (PyFloat)

/-- What a batch holds for each problem: a result, or a failed result with the problem, the exception
and the forces. -/
inductive BatchResult (P R E : Type) where
  | ok (problem : P) (result : R)
  | failed (problem : P) (exception : E) (forces : List (String × PyFloat))

/-- `result.problem`. -/
def BatchResult.problem {P R E : Type} : BatchResult P R E → P
  | .ok p _ => p
  | .failed p _ _ => p

/-- `make_failed_results_container` and `Failed...Result.__init__`,
`problems_and_results.py:331-332`, `510-514`: `forces = {dof: np.nan for dof in influenced_dofs}`. -/
def makeFailed {P R E : Type} (dofs : P → List String) (p : P) (e : E) : BatchResult P R E :=
  .failed p e ((dofs p).map fun d => (d, .nan))

/-- `_solve_and_catch_errors`, `solver.py:176-184`. -/
def solveAndCatch {S P R E : Type} (dofs : P → List String) (solve : S → P → S × Except E R) (s : S)
    (p : P) : S × BatchResult P R E :=
  match solve s p with
  | (s', .ok r) => (s', .ok p r)
  | (s', .error e) => (s', makeFailed dofs p e)

/-- The list comprehension of `solver.py:230`: the problems are solved one after the other by the same
solver. -/
def solveList {S P R E : Type} (dofs : P → List String) (solve : S → P → S × Except E R) :
    S → List P → S × List (BatchResult P R E)
  | s, [] => (s, [])
  | s, p :: ps =>
    ((solveList dofs solve (solveAndCatch dofs solve s p).1 ps).1,
      (solveAndCatch dofs solve s p).2 :: (solveList dofs solve (solveAndCatch dofs solve s p).1 ps).2)

/-- `solve_all` with `n_jobs == 1`, `solver.py:226-230`. `sort` stands for `sorted`, which arranges the
problems in some order. -/
def solveAllSeq {S P R E : Type} (dofs : P → List String) (solve : S → P → S × Except E R)
    (sort : List P → List P) (s : S) (ps : List P) : S × List (BatchResult P R E) :=
  solveList dofs solve s (sort ps)

/-- `_group_for_parallel_resolution`, `problems_and_results.py:254-256`. `key p` is the tuple of the
columns `body_name, water_depth, omega, rho, g`; it is `none` when one of them is NaN: `groupby` drops
these rows. `arrange` is the order of the groups. With no problem, the data frame has no column and
`groupby` raises `KeyError`. -/
def groupForParallel {P K : Type} [DecidableEq K] (key : P → Option K) (arrange : List K → List K)
    (ps : List P) : Option (List (List P)) :=
  if ps.isEmpty then none
  else some ((arrange (ps.filterMap key).dedup).map fun k => ps.filter fun p => key p == some k)

/-- `solve_all` with `n_jobs != 1`, `solver.py:231-243`. Each group is solved by a copy of the solver in
some worker; `worker i` is the state of this copy when it starts the group number `i`. `collect` is the
order in which the groups of results are collected. `none` is an exception. -/
def solveAllPar {S P R E K : Type} [DecidableEq K] (dofs : P → List String)
    (solve : S → P → S × Except E R) (sort : List P → List P) (key : P → Option K)
    (arrange : List K → List K) (worker : ℕ → S)
    (collect : List (List (BatchResult P R E)) → List (List (BatchResult P R E))) (ps : List P) :
    Option (List (BatchResult P R E)) :=
  (groupForParallel key arrange ps).map fun groups =>
    (collect (groups.mapIdx fun i g => (solveAllSeq dofs solve sort (worker i) g).2)).flatten

end Verif.Problems
