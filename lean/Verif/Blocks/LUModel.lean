import Verif.Blocks.SolveProps

/-!
# The solver with a cached LU decomposition

Model of `LUSolverWithCache`, `capytaine/matrices/linear_solvers.py:61-112`. One instance is shared by
all engines of the class `BasicMatrixEngine` (`capytaine/bem/engines.py:62-65`).
-/

namespace Verif.Blocks

open Finset

/-- Decompositions, `linear_solvers.py:79-88`: a tuple returned by `sl.lu_factor`, or a list of two
decompositions. -/
inductive Dec (D : Type) where
  | leaf (d : D)
  | pair (plus minus : Dec D)

/-- `lu_decomp`, `linear_solvers.py:79-88`. `lf h w a` stands for `sl.lu_factor(a)`, `none` for an
exception (for instance an array containing NaN). The recursion is bounded by a fuel. -/
def luDecomp {D : Type} (lf : ℕ → ℕ → Arr ℂ → Option D) : ℕ → HMat ℂ → Option (Dec D)
  | 0, _ => none
  | _ + 1, .dense h w a => (lf h w a).map .leaf
  | _ + 1, .gen _ _ _ => none
  | fuel + 1, .str k _ _ s b =>
    if isInstance .symToeplitz k = true ∧ nbBlocks k s = some 2 then
      ((b 0).binop (· + ·) (b 1)).bind fun aPlus =>
      ((b 0).binop (· - ·) (b 1)).bind fun aMinus =>
      (luDecomp lf fuel aPlus).bind fun dPlus =>
      (luDecomp lf fuel aMinus).bind fun dMinus => some (.pair dPlus dMinus)
    else none

/-- `solve_with_decomp`, `linear_solvers.py:99-112`, for a right hand side of length `len`.
`ls d len b` stands for `sl.lu_solve(d, b)`. -/
noncomputable def solveWithDecomp {D : Type} (ls : D → ℕ → (ℕ → ℂ) → Option (ℕ → ℂ)) :
    Dec D → ℕ → (ℕ → ℂ) → Option (ℕ → ℂ)
  | .leaf d, len, b => ls d len b
  | .pair dp dm, len, b =>
    (solveWithDecomp ls dp (len / 2) (fun r => b r + b (len / 2 + r))).bind fun xPlus =>
    (solveWithDecomp ls dm (len / 2) (fun r => b r - b (len / 2 + r))).bind fun xMinus =>
    some fun c => (if c < len / 2 then xPlus c + xMinus c
      else xPlus (c - len / 2) - xMinus (c - len / 2)) / 2

/-- The two attributes of the solver, `linear_solvers.py:71-73`. Matrices are referred to by the
identity of the object. -/
structure LUState (D : Type) where
  matrix : Option ℕ
  decomp : Option (Dec D)

/-- Memory: contents of the matrix objects. -/
abbrev Heap := ℕ → HMat ℂ

/-- Events of a history: a call to `solve` for a matrix object, or a change of a matrix object in
place by some other part of the program. -/
inductive LUOp where
  | solve (obj : ℕ) (rhs : ℕ → ℂ)
  | mutate (obj : ℕ) (M : HMat ℂ)

/-- `cached_lu_decomp`, `linear_solvers.py:90-97`. The attribute `cached_matrix` is set (line 92)
before the decomposition is computed (line 94). Returns the new state and whether the factorisation
raised. -/
def cachedLuDecomp {D : Type} (lf : ℕ → ℕ → Arr ℂ → Option D) (fuel : ℕ) (h : Heap) (st : LUState D)
    (obj : ℕ) : LUState D × Option (Option (Dec D)) :=
  if st.matrix = some obj then (st, some st.decomp)
  else
    match luDecomp lf fuel (h obj) with
    | none => (⟨some obj, st.decomp⟩, none)
    | some d => (⟨some obj, some d⟩, some (some d))

/-- `solve`, `linear_solvers.py:75-77`. The cached decomposition `None` leads to
`NotImplementedError` (line 112). -/
noncomputable def luSolve {D : Type} (lf : ℕ → ℕ → Arr ℂ → Option D)
    (ls : D → ℕ → (ℕ → ℂ) → Option (ℕ → ℂ)) (fuel : ℕ) (h : Heap) (st : LUState D) (obj : ℕ)
    (rhs : ℕ → ℂ) : LUState D × Option (ℕ → ℂ) :=
  match cachedLuDecomp lf fuel h st obj with
  | (st', some (some d)) => (st', solveWithDecomp ls d (h obj).shape.1 rhs)
  | (st', _) => (st', none)

/-- One event. -/
noncomputable def luStep {D : Type} (lf : ℕ → ℕ → Arr ℂ → Option D)
    (ls : D → ℕ → (ℕ → ℂ) → Option (ℕ → ℂ)) (fuel : ℕ) : Heap × LUState D → LUOp → Heap × LUState D
  | (h, st), .solve obj rhs => (h, (luSolve lf ls fuel h st obj rhs).1)
  | (h, st), .mutate obj M => (fun o => if o = obj then M else h o, st)

/-- A history, starting from a new solver. -/
noncomputable def luRun {D : Type} (lf : ℕ → ℕ → Arr ℂ → Option D)
    (ls : D → ℕ → (ℕ → ℂ) → Option (ℕ → ℂ)) (fuel : ℕ) (h : Heap) (ops : List LUOp) :
    Heap × LUState D :=
  ops.foldl (luStep lf ls fuel) (h, ⟨none, none⟩)

end Verif.Blocks
