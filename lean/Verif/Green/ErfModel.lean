import Mathlib.Analysis.SpecialFunctions.Exp
import Mathlib.Analysis.SpecialFunctions.Sqrt

/-!
# The error function of the finite depth Green function

Model of `ERROR`, `ERFCC` and `DERFCC` of `capytaine/green_functions/FinGreen3D/FinGreen3D.f90:2745-2776, 2274-2281, 2256-2266`. The
numbers are real; the constants are the ones of the code.
-/

namespace Verif.Green.Erf

/-- `PI` (`FinGreen3D.f90:2752`, `2261`). -/
noncomputable def piC : ℝ := 3.141592653589793

/-- `EPS` (`FinGreen3D.f90:2751`). -/
noncomputable def epsC : ℝ := 1 / 10 ^ 15

/-- The loop of the series (`FinGreen3D.f90:2757-2761`) from the turn `k`, with the number of turns that are left. -/
noncomputable def nearLoop (x2 : ℝ) : ℕ → ℕ → ℝ → ℝ → ℝ
  | 0, _, _, er => er
  | n + 1, k, r, er =>
    let r' := r * x2 / (k + 0.5)
    let er' := er + r'
    if |r'| ≤ |er'| * epsC then er' else nearLoop x2 n (k + 1) r' er'

/-- One turn of the loop of the asymptotic expansion (`FinGreen3D.f90:2768-2769`), for the pair of `R` and `ER`. -/
noncomputable def farStep (x2 : ℝ) (s : ℝ × ℝ) (i : ℕ) : ℝ × ℝ :=
  let r := -s.1 * ((i + 1 : ℕ) - 0.5) / x2
  (r, s.2 + r)

/-- `ERROR` (`FinGreen3D.f90:2745-2776`). -/
noncomputable def errorF (x : ℝ) : ℝ :=
  let x2 := x * x
  if |x| < 3.5 then
    let er := nearLoop x2 50 1 1 1
    2 / √piC * x * Real.exp (-x2) * er
  else
    let er := ((List.range 12).foldl (farStep x2) (1, 1)).2
    let e := 1 - Real.exp (-x2) / (|x| * √piC) * er
    if x < 0 then -e else e

/-- `ERFCC` (`FinGreen3D.f90:2274-2281`). -/
noncomputable def erfcc (x : ℝ) : ℝ := 1 - errorF x

/-- `DERFCC` (`FinGreen3D.f90:2256-2266`). -/
noncomputable def derfcc (x : ℝ) : ℝ := -2 / √piC * Real.exp (-x ^ 2)

end Verif.Green.Erf
