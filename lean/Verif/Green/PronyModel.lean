import Mathlib.Analysis.SpecialFunctions.Exp
import Mathlib.Analysis.SpecialFunctions.Complex.Log
import Mathlib.Data.List.Dedup
import Mathlib.Data.List.Sort

/-!
# The decomposition in exponentials (C84)

Model of `tools/prony_decomposition.py`, and of its use by the Green function of finite depth
(`green_functions/delhommeau.py:255-305`). The arrays are lists. The functions of `numpy` and `scipy` are in `PronyTools`, with
their contracts in the properties.
-/

namespace Verif.Green

/-- The functions called by the decomposition: `np.linalg.lstsq`, `polynomial.polyroots` and `curve_fit` for the given rates
(`tools/prony_decomposition.py:41`, `48`, `63`). The last one may raise an exception. -/
structure PronyTools where
  lstsq : List (List ℝ) → List ℝ → List ℝ
  polyroots : List ℝ → List ℂ
  curveFit : List ℝ → List ℝ → List ℝ → Option (List ℝ)

/-- `scipy.linalg.toeplitz(c, r)`. -/
def toeplitzOf (c r : List ℝ) : List (List ℝ) :=
  (List.range c.length).map fun k => (List.range r.length).map fun j =>
    if j ≤ k then c.getD (k - j) 0 else r.getD (j - k) 0

/-- The matrix `A` (`tools/prony_decomposition.py:40`), for `1 ≤ m`: `F[m-1:-1]` and `F[:m][::-1]`. -/
def pronyMatrix (F : List ℝ) (m : ℕ) : List (List ℝ) := toeplitzOf (F.drop (m - 1)).dropLast (F.take m).reverse

/-- `coeffs` (`tools/prony_decomposition.py:44-47`): the ones, then the loop. -/
noncomputable def pronyCoeffs (P : List ℝ) (m : ℕ) : List ℝ :=
  (List.range m).foldl (fun c i => c.set (m - i - 1) (-P.getD i 0)) (List.replicate (m + 1) 1)

open Classical in
/-- The rates (`tools/prony_decomposition.py:50-56`). The logarithm of zero is minus infinity for `numpy` and zero here: both
are out of the range of the last filter. `np.unique` sorts and removes the repetitions. -/
noncomputable def pronyRates (roots : List ℂ) (dx : ℝ) : List ℝ :=
  let roots := roots.filter fun z => z.im ≠ 0 ∨ 0 ≤ z.re
  let lamda := roots.map fun z => (Complex.log z / dx).re
  (lamda.dedup.mergeSort (· ≤ ·)).filter fun l => -20 < l ∧ l < 0

/-- `exponential_decomposition` (`tools/prony_decomposition.py:18-65`). -/
noncomputable def exponentialDecomposition (T : PronyTools) (X F : List ℝ) (m : ℕ) : Option (List ℝ × List ℝ) :=
  let P := T.lstsq (pronyMatrix F m) (F.drop m)
  let lamda := pronyRates (T.polyroots (pronyCoeffs P m)) (X.getD 1 0 - X.getD 0 0)
  match T.curveFit lamda X F with
  | none => none
  | some a => some (a, lamda)

/-- `np.sum(a * np.exp(lamda * x), axis=0)` at one point (`tools/prony_decomposition.py:59-62`, `91-92`). -/
noncomputable def expSum (a lamda : List ℝ) (x : ℝ) : ℝ := ((a.zip lamda).map fun e => e.1 * Real.exp (e.2 * x)).sum

/-- `error_exponential_decomposition` (`tools/prony_decomposition.py:68-94`). -/
noncomputable def pronyError (X F a lamda : List ℝ) : ℝ :=
  ((X.zip F).map fun e => (expSum a lamda e.1 - e.2) ^ 2).sum / X.length

/-- `np.linspace(x_min, x_max, n + 1)`. -/
noncomputable def linspaceTo (lo hi : ℝ) (n : ℕ) : List ℝ := (List.range (n + 1)).map fun i : ℕ => lo + i * ((hi - lo) / n)

/-- How the search can fail. -/
inductive PronyFailure
  | noConvergence
  | other
  | unbound

open Classical in
/-- `find_best_exponential_decomposition` (`tools/prony_decomposition.py:101-131`). -/
noncomputable def findBest (T : PronyTools) (f : ℝ → ℝ) (lo hi tol : ℝ) :
    List ℕ → Except PronyFailure (List ℝ × List ℝ)
  | [] => .error .noConvergence
  | n :: ns =>
    let X := linspaceTo lo hi (4 * n)
    match exponentialDecomposition T X (X.map f) n with
    | none => .error .other
    | some (a, lamda) =>
      let X := linspaceTo lo hi (8 * n)
      if pronyError X (X.map f) a lamda < tol then .ok (a, lamda) else findBest T f lo hi tol ns

/-- The method `"python"` of the Green function (`green_functions/delhommeau.py:287-298`): the sizes are 4, 6, ..., 30. After
the warning the variables are not assigned. The result has the rates in the first row. -/
noncomputable def greenDecomposition (T : PronyTools) (f : ℝ → ℝ) : Except PronyFailure (List ℝ × List ℝ) :=
  match findBest T f (-0.1) 20 1e-4 ((List.range 14).map fun i : ℕ => 4 + 2 * i) with
  | .ok (a, lamda) => .ok (lamda, a)
  | .error .noConvergence => .error .unbound
  | .error e => .error e

end Verif.Green
