import Verif.Green.LintonModel

/-!
# The derivative of the first expansion coefficient of the method of Linton

Model of `DSA0` (`capytaine/green_functions/FinGreen3D/FinGreen3D.f90:1460-1502`). The arithmetic is exact and `PI` is the true number;
`GA` is the constant of the code.
-/

namespace Verif.Green.Linton

open Real Verif.Green.ExpInt

/-- The derivative of the coefficient of the propagating mode.
`FinGreen3D.f90:1460-1502`. -/
noncomputable def dsa0 (fuel : ℕ) (r pa wk : ℝ) : Option ℝ :=
  (sumLoop (fun n sgn facn =>
      2 * sgn * (r / pa) ^ (2 * n - 1) / facn / pa + (wk * pa / 2) ^ (2 * n) / facn * enxa n ((r / pa) ^ 2) * 2 * r / pa ^ 2
        - 2 * sgn * n * wk / facn ^ 2 * (wk * r / 2) ^ (2 * n - 1) * (log (wk * r / 2) + ga - psi n)
        - 2 * sgn / facn ^ 2 * (wk * r / 2) ^ (2 * n) / r)
    fuel 1 (-1) 1 100 0).map fun s => s / 4 / π

end Verif.Green.Linton
