import Verif.Green.LintonTailModel

/-!
# The derivatives of the expansion coefficients of the method of Linton

Model of `DCOEF` for the evanescent modes (`capytaine/green_functions/FinGreen3D/FinGreen3D.f90:1260-1318`) and of its integrand `F2` (lines 1926-1954). The
quadrature is a parameter: `AQUAD` is modelled in `QuadModel.lean`. The arithmetic is exact and `PI` is the true number.
-/

namespace Verif.Green.Linton

open Real

open Classical in
/-- `F2` (`FinGreen3D.f90:1926-1954`). -/
noncomputable def f2 (r wvn : ℝ) (no : ℕ) (t : ℝ) : ℝ :=
  if |t| < 1 / 10 ^ 8 then 0
  else if no = 1 then -r * exp (-r ^ 2 / 4 / t + wvn ^ 2 * t) / 8 / π / t ^ 2
  else -r * exp (-r ^ 2 / 4 / t - wvn ^ 2 * t) / 8 / π / t ^ 2

open Classical in
/-- The loop that chooses the end of the interval (`FinGreen3D.f90:1307-1309`), with a bound on the number of turns. -/
noncomputable def upperD (r wvn : ℝ) (no : ℕ) : ℕ → ℝ → Option ℝ
  | 0, _ => none
  | fuel + 1, p => if (eps : ℝ) < |f2 r wvn no p| then upperD r wvn no fuel (p + 100) else some p

/-- The derivative by quadrature (`FinGreen3D.f90:1306-1311`). -/
noncomputable def dcoefQuad (quad : (ℝ → ℝ) → ℝ → ℝ → ℝ) (fuel : ℕ) (r pa wvn : ℝ) (no : ℕ) : Option ℝ :=
  (upperD r wvn no fuel (pa ^ 2 / 4 + 100)).map fun p => quad (f2 r wvn no) (pa ^ 2 / 4) p

open Classical in
/-- `DCOF(I)` for `I` two or more (`FinGreen3D.f90:1294-1315`). -/
noncomputable def dcoef (quad : (ℝ → ℝ) → ℝ → ℝ → ℝ) (fuel : ℕ) (r pa a wvn : ℝ) (no : ℕ) : Option ℝ :=
  if |r| < (eps : ℝ) then some 0
  else if r / a ≤ 1 then dsam fuel r pa wvn
  else dcoefQuad quad fuel r pa wvn no

end Verif.Green.Linton
