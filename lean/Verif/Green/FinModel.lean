import Verif.Geometry.Vec
import Mathlib.Analysis.SpecialFunctions.Trigonometric.DerivHyp
import Mathlib.Analysis.SpecialFunctions.Sqrt

/-!
# The finite depth Green function FinGreen3D

Model of `green_functions/libDelhommeau/src/FinGreen3D.f90` and of `integral_of_wave_part_fingreen3D` in
`green_functions/libDelhommeau/src/Green_wave.f90`. The two copies of `FinGreen3D.f90` are the same.

Simplifications: numbers are exact; the approximations of the Bessel functions are parameters. The series used at half a depth
and more is modelled in full. For the three other methods, the part of the waves (the one with `J0` and `Y0`) is modelled, and
the real numbers that are added to it are a parameter.
-/

namespace Verif.Green.Fin

open Verif.Geometry Real

/-- `JY01B` and `IK01A` (`FinGreen3D.f90:3221-3341`, `3346-3420`). -/
structure Bessel where
  j0 : ℝ → ℝ
  j1 : ℝ → ℝ
  y0 : ℝ → ℝ
  y1 : ℝ → ℝ
  k0 : ℝ → ℝ
  k1 : ℝ → ℝ

/-- The three values given by the routines, `GRN(1:3)`: the function, its derivative along the horizontal distance and its
vertical derivative (`FinGreen3D.f90:71-75`). -/
@[ext] structure Grn (A : Type) where
  g : A
  gr : A
  gz : A

/-- `NM0` (`FinGreen3D.f90:314`, `436`, `571`). -/
noncomputable def norm0 (k h : ℝ) : ℝ := h / 2 * (1 + sinh (2 * k * h) / (2 * k * h))

/-- The part of the waves (`FinGreen3D.f90:314-324`, `436-446`). -/
noncomputable def propagating (B : Bessel) (k h r zf zp : ℝ) : Grn ℂ :=
  let p0 : ℝ := π / norm0 k h * cosh (k * (zf + h)) * cosh (k * (zp + h))
  let dp0 : ℝ := π / norm0 k h * sinh (k * (zf + h)) * cosh (k * (zp + h))
  ⟨p0 * (Complex.I * B.j0 (k * r) - B.y0 (k * r)), -k * p0 * (Complex.I * B.j1 (k * r) - B.y1 (k * r)),
    k * dp0 * (Complex.I * B.j0 (k * r) - B.y0 (k * r))⟩

/-- `PM` (`FinGreen3D.f90:333`, `459`). -/
noncomputable def modeCoef (k h : ℝ) : ℝ := 4 / (1 + sin (2 * k * h) / (2 * k * h)) / h

/-- `RM` (`FinGreen3D.f90:335-339`, `461-465`). -/
noncomputable def mode (B : Bessel) (h r zf zp k : ℝ) : Grn ℝ :=
  ⟨modeCoef k h * B.k0 (k * r) * cos (k * (zf + h)) * cos (k * (zp + h)),
    -modeCoef k h * k * B.k1 (k * r) * cos (k * (zf + h)) * cos (k * (zp + h)),
    -modeCoef k h * k * B.k0 (k * r) * sin (k * (zf + h)) * cos (k * (zp + h))⟩

/-- The sum of the value so far and of real numbers (`FinGreen3D.f90:341-343`). -/
noncomputable def Grn.plus (a : Grn ℂ) (b : Grn ℝ) : Grn ℂ := ⟨a.g + b.g, a.gr + b.gr, a.gz + b.gz⟩

/-- The test that ends the loop (`FinGreen3D.f90:345`). -/
def Grn.small (t : Grn ℝ) : Prop := |t.g| < 1 / 10 ^ 6 ∧ |t.gr| < 1 / 10 ^ 6 ∧ |t.gz| < 1 / 10 ^ 6

open Classical in
/-- The loop on the modes (`FinGreen3D.f90:329-349`). -/
noncomputable def addModes (term : ℝ → Grn ℝ) : Grn ℂ → List ℝ → Grn ℂ
  | acc, [] => acc
  | acc, k :: ks => if (term k).small then acc.plus (term k) else addModes term (acc.plus (term k)) ks

/-- The roots of the modes, `WVN(2)` to `WVN(10)` (`FinGreen3D.f90:312`, `329-331`). -/
def eigenRoots (wvn : ℕ → ℝ) : List ℝ := (List.range 9).map fun i => wvn (i + 2)

/-- `SR` and `SR1` (`FinGreen3D.f90:353-354`). -/
noncomputable def dist (r d : ℝ) : ℝ := sqrt (r ^ 2 + d ^ 2)

/-- The singular terms are removed (`FinGreen3D.f90:353-363`). -/
noncomputable def removeSingular (t : Grn ℂ) (r zf zp : ℝ) : Grn ℂ :=
  let s := dist r (zf - zp)
  let s1 := dist r (zf + zp)
  ⟨t.g - ((1 / s + 1 / s1 : ℝ) : ℂ), t.gr + ((r / s / s ^ 2 + r / s1 / s1 ^ 2 : ℝ) : ℂ),
    t.gz + (((zf - zp) / s / s ^ 2 + (zf + zp) / s1 / s1 ^ 2 : ℝ) : ℂ)⟩

/-- `EIGEN` (`FinGreen3D.f90:297-366`). -/
noncomputable def eigen (B : Bessel) (wvn : ℕ → ℝ) (h r zf zp : ℝ) : Grn ℂ :=
  removeSingular (addModes (mode B h r zf zp) (propagating B (wvn 1) h r zf zp) (eigenRoots wvn)) r zf zp

/-- `EIGENE` (`FinGreen3D.f90:417-498`): `rest` is the limit given by the algorithm, with the singular terms removed. -/
noncomputable def eigene (B : Bessel) (rest : Grn ℝ) (k h r zf zp : ℝ) : Grn ℂ := (propagating B k h r zf zp).plus rest

/-- `PIDCOCK` (`FinGreen3D.f90:550-650`), where `DP0` has the wavenumber as a factor; `rest` is all that is added to the part of
the waves. -/
noncomputable def pidcock (B : Bessel) (rest : Grn ℝ) (k h r zf zp : ℝ) : Grn ℂ :=
  let p0 : ℝ := π / norm0 k h * cosh (k * (zf + h)) * cosh (k * (zp + h))
  let dp0 : ℝ := k * π / norm0 k h * sinh (k * (zf + h)) * cosh (k * (zp + h))
  Grn.plus ⟨p0 * (Complex.I * B.j0 (k * r) - B.y0 (k * r)), -k * p0 * (Complex.I * B.j1 (k * r) - B.y1 (k * r)),
    dp0 * (Complex.I * B.j0 (k * r) - B.y0 (k * r))⟩ rest

/-- `AC` in `PIDCOCK` (`FinGreen3D.f90:603`). -/
noncomputable def pidcockCoef (V k h : ℝ) : ℝ := (k ^ 2 + V ^ 2) / ((k ^ 2 + V ^ 2) * h - V)

/-- `NM` (`FinGreen3D.f90:2241-2249`). -/
noncomputable def normC (h : ℝ) (km : ℂ) : ℂ := h / 2 * (1 + Complex.sin (2 * km * h) / (2 * km * h))

/-- `LINTON` (`FinGreen3D.f90:702-849`): `rest` is the sum before the last part (`FinGreen3D.f90:829-831`), which is real. -/
noncomputable def linton (B : Bessel) (rest : Grn ℝ) (k h r zf zp : ℝ) : Grn ℂ :=
  let n := normC h (-Complex.I * k)
  ⟨-4 * π * (rest.g - Complex.I / 4 / n * B.j0 (k * r) * cosh (k * (zf + h)) * cosh (k * (zp + h))),
    -4 * π * (rest.gr + Complex.I * k / 4 / n * B.j1 (k * r) * cosh (k * (zf + h)) * cosh (k * (zp + h))),
    -4 * π * (rest.gz - Complex.I * k / 4 / n * B.j0 (k * r) * sinh (k * (zf + h)) * cosh (k * (zp + h)))⟩

/-- `fingreen3d_routine` (`FinGreen3D.f90:71-117`); `rest` is what is added by the three other methods, for the points. -/
noncomputable def fingreen (B : Bessel) (rest : ℝ → ℝ → ℝ → Grn ℝ) (wvn : ℕ → ℝ) (h r zf zp : ℝ) : Grn ℂ :=
  let fg :=
    if |r / h| < 5 / 10000 then linton B (rest r zf zp) (wvn 1) h r zf zp
    else if |r / h| < 5 / 100 then pidcock B (rest r zf zp) (wvn 1) h r zf zp
    else if |r / h| < 5 / 10 then eigene B (rest r zf zp) (wvn 1) h r zf zp
    else eigen B wvn h r zf zp
  ⟨fg.g, if r ≠ 0 then fg.gr else 0, fg.gz⟩

/-- `r` (`Green_wave.f90:616`). -/
noncomputable def horizontal (x ξ : V3 ℝ) : ℝ := sqrt ((x.x - ξ.x) ^ 2 + (x.y - ξ.y) ^ 2)

/-- `16*epsilon(r)` in double precision (`Green_wave.f90:632`). -/
noncomputable def tiny : ℝ := 16 / 2 ^ 52

/-- One step of the loop on the quadrature points (`Green_wave.f90:614-648`), where `F` is `fingreen3d_routine`; `first` is
`derivative_with_respect_to_first_variable`. -/
noncomputable def finPoint (F : ℝ → ℝ → ℝ → Grn ℂ) (first : Bool) (x ξ : V3 ℝ) : ℂ × V3 ℂ :=
  let r := horizontal x ξ
  let t := if first then F r ξ.z x.z else F r x.z ξ.z
  let drdx1 : ℝ := if |r| > tiny then (if first then (x.x - ξ.x) / r else -(x.x - ξ.x) / r) else 0
  let drdx2 : ℝ := if |r| > tiny then (if first then (x.y - ξ.y) / r else -(x.y - ξ.y) / r) else 0
  (t.g, ⟨drdx1 * t.gr, drdx2 * t.gr, t.gz⟩)

/-- `integral_of_wave_part_fingreen3D` (`Green_wave.f90:581-652`), for the quadrature points of a panel with their weights. -/
noncomputable def finIntegral (F : ℝ → ℝ → ℝ → Grn ℂ) (first : Bool) (x : V3 ℝ) (quad : List (V3 ℝ × ℝ)) : ℂ × V3 ℂ :=
  quad.foldl (fun acc q =>
    let t := finPoint F first x q.1
    (acc.1 + t.1 * q.2, ⟨acc.2.x + t.2.x * q.2, acc.2.y + t.2.y * q.2, acc.2.z + t.2.z * q.2⟩)) (0, ⟨0, 0, 0⟩)

end Verif.Green.Fin
