/-
The expansion coefficients of the method of Linton in the library FinGreen3D
(`capytaine/green_functions/FinGreen3D/FinGreen3D.f90`, functions `SA0`, `SAM` and `DSAM`, part of `COEF`, and
the choice of the parameter `A` in `LINTON`).

Simplifications: the arithmetic is exact, DLOG and DEXP are the true functions, PI is the true number, and the powers with the
real exponent 2.D0*N are powers with a natural exponent. The loops of unknown length have a bound on the number of turns, and
return nothing when it is reached. `DSA0` is left out.
-/
import Verif.Green.ExpIntModel

namespace Verif.Green.Linton

open Real Verif.Green.ExpInt

/-- The tolerance: the literal `1.E-6` is rounded to single precision.
`FinGreen3D.f90:1374,1558,1641`. -/
def eps : ℚ := 8796093 / 2 ^ 43

open Classical in
/-- The loop which the series have in common: the term is computed from `N`, `SGN` and `FACN` and added, until it is
below the tolerance.
`FinGreen3D.f90:1384-1406`, `1568-1580`, `1651-1663`. -/
noncomputable def sumLoop (term : ℕ → ℝ → ℝ → ℝ) : (fuel n : ℕ) → (sgn facn rm acc : ℝ) → Option ℝ
  | 0, _, _, _, _, _ => none
  | fuel + 1, n, sgn, facn, rm, acc =>
    if eps < |rm| then
      let rm' := term n sgn facn
      sumLoop term fuel (n + 1) (-sgn) (facn * ((n + 1 : ℕ) : ℝ)) rm' (acc + rm')
    else some acc

/-- The coefficients of the evanescent modes.
`FinGreen3D.f90:1551-1585`. -/
noncomputable def sam (fuel : ℕ) (r pa wvn : ℝ) : Option ℝ :=
  (sumLoop (fun n sgn facn => sgn * (r / pa) ^ (2 * n) / facn * enxa (n + 1) ((wvn * pa / 2) ^ 2))
    fuel 0 1 1 100 0).map fun s => s / 4 / π

/-- Their derivatives.
`FinGreen3D.f90:1634-1668`. -/
noncomputable def dsam (fuel : ℕ) (r pa wvn : ℝ) : Option ℝ :=
  (sumLoop (fun n sgn facn => 2 * n * sgn * (r / pa) ^ (2 * n - 1) / facn / pa * enxa (n + 1) ((wvn * pa / 2) ^ 2))
    fuel 1 (-1) 1 100 0).map fun s => s / 4 / π

/-- The sum `PSI`.
`FinGreen3D.f90:1388-1391`. -/
noncomputable def psi (n : ℕ) : ℝ := (List.range n).foldl (fun s p => s + 1 / ((p + 1 : ℕ) : ℝ)) 0

/-- The coefficient of the propagating mode.
`FinGreen3D.f90:1367-1411`. -/
noncomputable def sa0 (fuel : ℕ) (r pa wk : ℝ) : Option ℝ :=
  (sumLoop (fun n sgn facn =>
      sgn * (r / pa) ^ (2 * n) / facn / n - (wk * pa / 2) ^ (2 * n) / facn * enxa (n + 1) ((r / pa) ^ 2)
        - 2 * sgn / facn ^ 2 * (wk * r / 2) ^ (2 * n) * (log (wk * r / 2) + ga - psi n))
    fuel 1 (-1) 1 100 (-ga - 2 * log (wk * pa / 2))).map fun s => s / 4 / π

open Classical in
/-- The parameter `A` times the wave number times the depth, as a function of `V`.
`FinGreen3D.f90:729-738`. -/
noncomputable def parameter (v : ℝ) : ℝ :=
  |if v < 0.02 then 3324.2 * v ^ 3 - 258.89 * v ^ 2 + 8.3958 * v + 1.3208
   else if v < 0.1 then -30.303 * v ^ 3 - 2.8138 * v ^ 2 + 2.7740 * v + 0.05052
   else if v < 1 then 1.5699 * v ^ 3 - 2.5075 * v ^ 2 + 1.8316 * v + 0.1077
   else -0.000069641 * v ^ 3 - 0.0017082 * v ^ 2 + 0.45566 * v + 0.80551|

/-- The parameter `PA`.
`FinGreen3D.f90:738,747`. -/
noncomputable def paOf (v wk h : ℝ) : ℝ := parameter v / (wk * h) * h

/-- The coefficients of the evanescent modes close to the vertical axis.
`FinGreen3D.f90:1162,1188-1191`. -/
noncomputable def axisCoef (pa wvn : ℝ) : ℝ := e1xa (wvn ^ 2 * (pa ^ 2 / 4)) / 4 / π

/-- The coefficient of the propagating mode close to the vertical axis.
`FinGreen3D.f90:1162,1166-1169`. -/
noncomputable def axisFirst (pa wk : ℝ) : ℝ := -eix (wk ^ 2 * (pa ^ 2 / 4)) / 4 / π

end Verif.Green.Linton
