import Mathlib.Analysis.SpecialFunctions.Trigonometric.Basic
import Mathlib.Analysis.SpecialFunctions.Sqrt
import Mathlib.Analysis.SpecialFunctions.Exp
import Mathlib.Algebra.BigOperators.Intervals

/-!
# The error functions in Linton's method

Model of the sums of error functions and of the integrands of `LINTON` (`capytaine/green_functions/FinGreen3D/FinGreen3D.f90:748-759, 798-823`) and of
`CHI`, `DCHI`, `RCHI`, `G1`, `G2`, `G3` (`2206-2216`, `2223-2233`, `2181-2199`, `2001-2026`, `2073-2099`, `2146-2174`). `LINTON` computes the finite depth
Green function when the horizontal distance is below 0.0005 times the depth, in particular for a panel and itself.

Simplifications: exact arithmetic; `ERFCC` and `DERFCC` (see `ErfModel.lean`) are the parameters `e` and `e'`; the number `PI` is exact; the
threshold `1.E-6` is taken without its rounding to single precision. The indices start at zero.
-/

namespace Verif.Green.LintonErr

open Finset Real

/-- `CHI` (`FinGreen3D.f90:2206-2216`). -/
def chi (zf zp h : ℝ) : ℕ → ℝ
  | 0 => -zp - zf
  | 1 => 2 * h - zp + zf
  | 2 => 2 * h + zp - zf
  | _ => 4 * h + zp + zf

/-- `DCHI` (`FinGreen3D.f90:2223-2233`). -/
def dchi : ℕ → ℝ
  | 0 => -1
  | 1 => 1
  | 2 => -1
  | _ => 1

/-- `RO` in `RCHI` (`FinGreen3D.f90:2192`). -/
noncomputable def ro (r zf zp h : ℝ) (i : ℕ) : ℝ := √(r ^ 2 + chi zf zp h i ^ 2)

/-- `DROR` in `RCHI` (`FinGreen3D.f90:2193`). -/
noncomputable def droR (r zf zp h : ℝ) (i : ℕ) : ℝ := r / √(r ^ 2 + chi zf zp h i ^ 2)

/-- `DROZ` in `RCHI` (`FinGreen3D.f90:2194`). -/
noncomputable def droZ (r zf zp h : ℝ) (i : ℕ) : ℝ := chi zf zp h i * (-1) ^ (i + 1) / √(r ^ 2 + chi zf zp h i ^ 2)

/-- `SR` (`FinGreen3D.f90:748`). -/
noncomputable def sr (r zf zp : ℝ) : ℝ := √(r ^ 2 + (zf - zp) ^ 2)

/-- `SR1` (`FinGreen3D.f90:749`). -/
noncomputable def sr1 (r zf zp h : ℝ) : ℝ := √(r ^ 2 + (2 * h + zf + zp) ^ 2)

/-- `SR2` (`FinGreen3D.f90:750`). -/
noncomputable def sr2 (r zf zp : ℝ) : ℝ := √(r ^ 2 + (zf + zp) ^ 2)

variable (e e' : ℝ → ℝ)

/-- `ERRSUM(1)` for points at a distance of at most `eps` (`FinGreen3D.f90:802,819`). -/
noncomputable def other1 (pa r zf zp h : ℝ) : ℝ :=
  ∑ i ∈ range 4, e (ro r zf zp h i / pa) / (4 * π * ro r zf zp h i) +
    e (sr1 r zf zp h / pa) / (4 * π * sr1 r zf zp h) - 1 / (4 * π * sr2 r zf zp)

/-- `ERRSUM(2)` for points at a distance of at most `eps` (`FinGreen3D.f90:756,758,803,820`). -/
noncomputable def other2 (pa r zf zp h : ℝ) : ℝ :=
  ∑ i ∈ range 4, (e' (ro r zf zp h i / pa) / pa * droR r zf zp h i * ro r zf zp h i - droR r zf zp h i * e (ro r zf zp h i / pa)) /
      (4 * π * ro r zf zp h i ^ 2) -
    e (sr1 r zf zp h / pa) / (4 * π * sr1 r zf zp h ^ 2) * (r / sr1 r zf zp h) +
    e' (sr1 r zf zp h / pa) / (4 * π * sr1 r zf zp h * pa) * (r / sr1 r zf zp h) + r / sr2 r zf zp / (4 * π * sr2 r zf zp ^ 2)

/-- `ERRSUM(3)` for points at a distance of at most `eps` (`FinGreen3D.f90:757,759,804,821`). -/
noncomputable def other3 (pa r zf zp h : ℝ) : ℝ :=
  ∑ i ∈ range 4, (e' (ro r zf zp h i / pa) / pa * droZ r zf zp h i * ro r zf zp h i - droZ r zf zp h i * e (ro r zf zp h i / pa)) /
      (4 * π * ro r zf zp h i ^ 2) -
    e (sr1 r zf zp h / pa) / (4 * π * sr1 r zf zp h ^ 2) * ((2 * h + zf + zp) / sr1 r zf zp h) +
    e' (sr1 r zf zp h / pa) / (4 * π * sr1 r zf zp h * pa) * ((2 * h + zf + zp) / sr1 r zf zp h) +
    (zf + zp) / sr2 r zf zp / (4 * π * sr2 r zf zp ^ 2)

/-- What is added to `ERRSUM(1)` for points farther apart (`FinGreen3D.f90:811`). -/
noncomputable def near1 (pa r zf zp : ℝ) : ℝ := (e (sr r zf zp / pa) - 1) / (4 * π * sr r zf zp)

/-- What is added to `ERRSUM(2)` for points farther apart (`FinGreen3D.f90:754,812`). -/
noncomputable def near2 (pa r zf zp : ℝ) : ℝ :=
  -((e (sr r zf zp / pa) - 1) / (4 * π * sr r zf zp ^ 2) * (r / sr r zf zp)) +
    e' (sr r zf zp / pa) / (4 * π * sr r zf zp * pa) * (r / sr r zf zp)

/-- What is added to `ERRSUM(3)` for points farther apart (`FinGreen3D.f90:755,814`). -/
noncomputable def near3 (pa r zf zp : ℝ) : ℝ :=
  -((e (sr r zf zp / pa) - 1) / (4 * π * sr r zf zp ^ 2) * ((zf - zp) / sr r zf zp)) +
    e' (sr r zf zp / pa) / (4 * π * sr r zf zp * pa) * ((zf - zp) / sr r zf zp)

/-- `ERRSUM(1)` (`FinGreen3D.f90:798-823`); the threshold `eps` is `epsC` in the code. -/
noncomputable def errSum1 (eps pa r zf zp h : ℝ) : ℝ :=
  if eps < |sr r zf zp| then other1 e pa r zf zp h + near1 e pa r zf zp else other1 e pa r zf zp h

/-- `ERRSUM(2)` (`FinGreen3D.f90:798-823`). -/
noncomputable def errSum2 (eps pa r zf zp h : ℝ) : ℝ :=
  if eps < |sr r zf zp| then other2 e e' pa r zf zp h + near2 e e' pa r zf zp else other2 e e' pa r zf zp h

/-- `ERRSUM(3)` (`FinGreen3D.f90:798-823`). -/
noncomputable def errSum3 (eps pa r zf zp h : ℝ) : ℝ :=
  if eps < |sr r zf zp| then other3 e e' pa r zf zp h + near3 e e' pa r zf zp else other3 e e' pa r zf zp h

/-- The threshold (`FinGreen3D.f90:809`). -/
noncomputable def epsC : ℝ := 1 / 10 ^ 6

/-- The sum in `G1` and `G2` (`FinGreen3D.f90:2016-2019`, `2089-2092`). -/
noncomputable def gSum (v zf zp h t : ℝ) : ℝ :=
  ∑ i ∈ range 4, exp (-v * chi zf zp h i) * e (chi zf zp h i / 2 / t - v * t)

/-- `G1` (`FinGreen3D.f90:2001-2026`). -/
noncomputable def g1 (v r zf zp h t : ℝ) : ℝ :=
  if |t| < 1 / 10 ^ 8 then 0 else exp (v ^ 2 * t ^ 2 - r ^ 2 / 4 / t ^ 2) * gSum e v zf zp h t / t

/-- `G2` (`FinGreen3D.f90:2073-2099`). -/
noncomputable def g2 (v r zf zp h t : ℝ) : ℝ :=
  if |t| < 1 / 10 ^ 8 then 0 else r / 2 / t ^ 3 * exp (v ^ 2 * t ^ 2 - r ^ 2 / 4 / t ^ 2) * gSum e v zf zp h t

/-- `G3` (`FinGreen3D.f90:2146-2174`). -/
noncomputable def g3 (v r zf zp h t : ℝ) : ℝ :=
  if |t| < 1 / 10 ^ 8 then 0 else
    exp (v ^ 2 * t ^ 2 - r ^ 2 / 4 / t ^ 2) *
      (∑ i ∈ range 4, (-(v * dchi i * exp (-v * chi zf zp h i) * e (chi zf zp h i / 2 / t - v * t)) +
        exp (-v * chi zf zp h i) * e' (chi zf zp h i / 2 / t - v * t) * dchi i / 2 / t)) / t

end Verif.Green.LintonErr
