import Mathlib.Analysis.SpecialFunctions.Trigonometric.Basic
import Mathlib.Analysis.SpecialFunctions.Sqrt

/-!
# The quadrature that fills the tables of the default Green function

Model of `numerical_integration`, `asymptotic_approximations` and `construct_tabulation`
(`capytaine/green_functions/libDelhommeau/src/Delhommeau_integrals.f90:32-187`) and of the constant `PI`
(`libDelhommeau/src/constants.f90:15`).

Simplifications: the arithmetic is exact, except that `PI` is a parameter; `exp_e1` (lines 93-140), which is in single precision, is
a parameter too.
-/

namespace Verif.Tabulation.Integ

open Complex

/-- The literal of `PI` (`constants.f90:15`). -/
def piLiteral : ℚ := 3141592653588979 / 10 ^ 15

/-- The value of `PI`. The literal `3.141592653588979` has no kind, so it is a number of single precision, whatever the kind of the
parameter (`constants.f90:15`): a multiple of `2⁻²²`, between 2 and 4. -/
def piSingle : ℚ := 13176795 / 2 ^ 22

/-- The five elementary integrals (`Delhommeau_integrals.f90:41`; `constants.f90:20`). -/
structure Vals where
  i1 : ℝ
  i2 : ℝ
  i3 : ℝ
  i4 : ℝ
  i5 : ℝ

/-- The number of points (`Delhommeau_integrals.f90:51-56`). -/
def nbPoints (nb : ℕ) : ℕ := if nb % 2 = 0 then nb + 1 else nb

/-- `theta` (`Delhommeau_integrals.f90:59`), with `k` from 1. -/
noncomputable def theta (pi : ℝ) (n k : ℕ) : ℝ := -pi / 2 + pi * ((k : ℝ) - 1) / ((n : ℝ) - 1)

/-- `delta_theta` (`Delhommeau_integrals.f90:62-69`). -/
noncomputable def deltaTheta (pi : ℝ) (n k : ℕ) : ℝ :=
  if k = 1 ∨ k = n then pi / (3 * ((n : ℝ) - 1))
  else if k % 2 = 0 then 4 * pi / (3 * ((n : ℝ) - 1))
  else 2 * pi / (3 * ((n : ℝ) - 1))

/-- `zeta` (`Delhommeau_integrals.f90:71-72`). -/
noncomputable def zetaAt (r z th : ℝ) : ℂ := ⟨z, r * Real.cos th⟩

open Classical in
/-- `exp_zeta` (`Delhommeau_integrals.f90:73-77`). -/
noncomputable def expZeta (zeta : ℂ) : ℂ := if zeta.re ≤ -30 then 0 else exp zeta

/-- One turn of the loop (`Delhommeau_integrals.f90:59-83`). -/
noncomputable def turn (pi : ℝ) (expE1 : ℂ → ℂ) (r z : ℝ) (n : ℕ) (v : Vals) (k : ℕ) : Vals :=
  let th := theta pi n k
  let d := deltaTheta pi n k
  let zeta := zetaAt r z th
  let jzeta := expE1 zeta + I * pi * expZeta zeta
  { i1 := v.i1 + d * jzeta.re
    i2 := v.i2 + d * (jzeta - 1 / zeta).re
    i3 := v.i3 + d * (expZeta zeta).re
    i4 := v.i4 - d * Real.cos th * (jzeta - 1 / zeta).im
    i5 := v.i5 - d * Real.cos th * (expZeta zeta).im }

/-- `numerical_integration` (`Delhommeau_integrals.f90:32-89`). -/
noncomputable def numericalIntegration (pi : ℝ) (expE1 : ℂ → ℂ) (r z : ℝ) (nb : ℕ) : Vals :=
  let n := nbPoints nb
  let v := (List.range n).foldl (fun v k => turn pi expE1 r z n v (k + 1)) ⟨0, 0, 0, 0, 0⟩
  ⟨2 * (v.i1 / pi), 2 * (v.i2 / pi), 2 * v.i3, 2 * (v.i4 / pi), 2 * v.i5⟩

/-- `asymptotic_approximations` (`Delhommeau_integrals.f90:146-169`). -/
noncomputable def asymptotic (pi r z : ℝ) : Vals :=
  let r1 := Real.sqrt (r ^ 2 + z ^ 2)
  let e := Real.exp z * Real.sqrt (2 * pi / r)
  let c := Real.cos (r - pi / 4)
  let s := Real.sin (r - pi / 4)
  ⟨2 * (-e * s + z / r1 ^ 3 - 1 / r1), 2 * (-e * s + z / r1 ^ 3), 2 * (e * c),
    2 * (-e * (c - s / (2 * r)) + r / r1 ^ 3), 2 * (-e * (s + c / (2 * r)))⟩

/-- `construct_tabulation` (`Delhommeau_integrals.f90:173-187`). -/
noncomputable def constructTabulation (pi : ℝ) (expE1 : ℂ → ℂ) (rs zs : List ℝ) (nb : ℕ) : List (List Vals) :=
  rs.map fun r => zs.map fun z => numericalIntegration pi expE1 r z nb

end Verif.Tabulation.Integ
