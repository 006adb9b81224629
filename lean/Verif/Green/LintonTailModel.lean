import Verif.Green.LintonModel

/-!
# The expansion coefficients of the method of Linton by quadrature

Model of the branch of `COEF` for larger distances (`capytaine/green_functions/FinGreen3D/FinGreen3D.f90:1197-1206`), of its integrand
`F1` (lines 1852-1880) and of the choice of the end of the interval. The quadrature is a parameter: `AQUAD` is modelled in
`QuadModel.lean`. The arithmetic is exact and `PI` is the true number.
-/

namespace Verif.Green.Linton

open Real

open Classical in
/-- `F1` (`FinGreen3D.f90:1852-1880`). -/
noncomputable def f1 (r wvn : ℝ) (no : ℕ) (t : ℝ) : ℝ :=
  if |t| < 1 / 10 ^ 8 then 0
  else if no = 1 then exp (-r ^ 2 / 4 / t + wvn ^ 2 * t) / 4 / π / t
  else exp (-r ^ 2 / 4 / t - wvn ^ 2 * t) / 4 / π / t

open Classical in
/-- The loop that chooses the end of the interval (`FinGreen3D.f90:1200-1202`), with a bound on the number of turns. -/
noncomputable def upper (r wvn : ℝ) (no : ℕ) : ℕ → ℝ → Option ℝ
  | 0, _ => none
  | fuel + 1, p => if (eps : ℝ) < |f1 r wvn no p| then upper r wvn no fuel (p + 100) else some p

/-- The coefficient of the mode `no`, two or more, by quadrature (`FinGreen3D.f90:1199-1204`). -/
noncomputable def coefQuad (quad : (ℝ → ℝ) → ℝ → ℝ → ℝ) (fuel : ℕ) (r pa wvn : ℝ) (no : ℕ) : Option ℝ :=
  (upper r wvn no fuel (pa ^ 2 / 4 + 100)).map fun p => quad (f1 r wvn no) (pa ^ 2 / 4) p

end Verif.Green.Linton
