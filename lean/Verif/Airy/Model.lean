import Verif.Frequency.FreqModel
import Mathlib.Analysis.SpecialFunctions.ExpDeriv
import Mathlib.Analysis.SpecialFunctions.Trigonometric.Deriv

/-!
# Incoming Airy waves

Model of `capytaine/bem/airy_waves.py`. Points are given one by one (the code is vectorised;
`_normalize_points` is modelled separately). Real and complex numbers are exact.
-/

namespace Verif.Airy

open Verif.Frequency

/-- The attributes of the problem read by the functions of `airy_waves.py`. -/
structure Pb where
  k : ℝ
  h : Input
  g : ℝ
  omega : ℝ
  rho : ℝ
  waveDirection : ℝ
  encounterDirection : ℝ

open Classical in
/-- The test `0 <= k*h < 20`, `airy_waves.py:31` and `:68`. For `h = inf`, `k*h` is infinite for
positive `k`, minus infinity for negative `k` and NaN for `k = 0`: the test is false. -/
def Pb.shallow (pb : Pb) : Prop :=
  match pb.h with
  | none => False
  | some h => 0 ≤ pb.k * h ∧ pb.k * h < 20

/-- Value of `pb.water_depth` in the branch where it is finite. -/
noncomputable def Pb.hFin (pb : Pb) : ℝ := pb.h.untopD 0

open Classical in
/-- `cih`, `airy_waves.py:31-36` and `:68-73`. -/
noncomputable def cih (pb : Pb) (z : ℝ) : ℝ :=
  if pb.shallow then Real.cosh (pb.k * (z + pb.hFin)) / Real.cosh (pb.k * pb.hFin)
  else Real.exp (pb.k * z)

open Classical in
/-- `sih`, `airy_waves.py:68-73`. -/
noncomputable def sih (pb : Pb) (z : ℝ) : ℝ :=
  if pb.shallow then Real.sinh (pb.k * (z + pb.hFin)) / Real.cosh (pb.k * pb.hFin)
  else Real.exp (pb.k * z)

/-- `wbar`, `airy_waves.py:29` and `:66`: note the encounter direction. -/
noncomputable def wbar (pb : Pb) (x y : ℝ) : ℝ :=
  x * Real.cos pb.encounterDirection + y * Real.sin pb.encounterDirection

/-- `airy_waves_potential`, `airy_waves.py:8-39`. -/
noncomputable def potential (pb : Pb) (x y z : ℝ) : ℂ :=
  -Complex.I * pb.g / pb.omega * cih pb z * Complex.exp (Complex.I * pb.k * wbar pb x y)

/-- Factor of the three components of `airy_waves_velocity`, `airy_waves.py:75-76`. -/
noncomputable def velocityFactor (pb : Pb) (x y : ℝ) : ℂ :=
  pb.g * pb.k / pb.omega * Complex.exp (Complex.I * pb.k * wbar pb x y)

/-- `airy_waves_velocity`, `airy_waves.py:42-79`: note the wave direction in the components. -/
noncomputable def velocity (pb : Pb) (x y z : ℝ) : ℂ × ℂ × ℂ :=
  (velocityFactor pb x y * (Real.cos pb.waveDirection * cih pb z),
   velocityFactor pb x y * (Real.sin pb.waveDirection * cih pb z),
   velocityFactor pb x y * (-Complex.I * sih pb z))

/-- `airy_waves_pressure`, `airy_waves.py:82-83`. -/
noncomputable def pressure (pb : Pb) (x y z : ℝ) : ℂ :=
  Complex.I * pb.omega * pb.rho * potential pb x y z

/-- `airy_waves_free_surface_elevation`, `airy_waves.py:90-108`, for a point given by its two
horizontal coordinates (`_normalize_free_surface_points` adds `z = 0`). -/
noncomputable def elevation (pb : Pb) (x y : ℝ) : ℂ :=
  Complex.I * pb.omega / pb.g * potential pb x y 0

end Verif.Airy
