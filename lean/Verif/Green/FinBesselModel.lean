/-
The functions of Bessel of the finite depth Green function of the library FinGreen3D
(`capytaine/green_functions/FinGreen3D/FinGreen3D.f90`).

Simplifications: the arithmetic is exact, so that the constant PI of the code (3.141592653589793D0) is `π`, and the
functions DLOG, DSQRT, DCOS and DSIN are the true ones.  The decimal constants are the decimal numbers, except the one
constant which the code writes without exponent letter D (see `y0Near`).
-/
import Mathlib.Analysis.SpecialFunctions.Trigonometric.Basic
import Mathlib.Analysis.SpecialFunctions.Log.Basic
import Mathlib.Analysis.SpecialFunctions.Sqrt
import Verif.Green.LwnModel

namespace Verif.Green.FinBessel

open Real Verif.Green.Lwn

/-- The polynomial of `BJ0`, lowest degree first.
`FinGreen3D.f90:3361-3362` (again `3437-3438` and `3507-3508`). -/
def j0Near : List ℚ :=
  [1, -3.9999998721, 3.9999973021, -1.7777560599, 0.4443584263, -0.0709253492, 0.0076771853, -0.0005014415]

/-- The polynomial of `BJ1`, without the factor `T`.
`FinGreen3D.f90:3363-3364` (again `3439-3440` and `3571-3572`). -/
def j1Near : List ℚ :=
  [1.9999999998, -3.9999999710, 2.6666660544, -0.8888839649, 0.1777582922, -0.0236616773, 0.0022069155, -0.0001289769]

/-- The coefficient `1.0766115157` of `BY0` is written without `D0` and so is a number of single precision: the
multiple of `2 ^ (-23)` nearest to it.
`FinGreen3D.f90:3366` (again `3510`). -/
def y0Single : ℚ := 9031272 / 2 ^ 23

/-- The polynomial of `BY0`.
`FinGreen3D.f90:3365-3366` (again `3509-3510`). -/
def y0Near : List ℚ :=
  [0.3674669052, y0Single, -2.3498519931, 1.4216421221, -0.4261737419, 0.0772975809, -0.0094855882, 0.000859977,
    -0.0000567433]

/-- The polynomial of `BY1`, without the division by `X`.
`FinGreen3D.f90:3368-3369` (again `3573-3574`). -/
def y1Near : List ℚ :=
  [-0.6366197726, 0.3932562018, 6.8529236342, -7.3980241381, 3.1261399273, -0.7268945577, 0.107657606, -0.0108175626,
    0.0006535773]

/-- The polynomial `P0`.
`FinGreen3D.f90:3375` (again `3445` and `3516`). -/
def p0Far : List ℚ := [0.999999997, -0.004394275, 0.000434725, -0.000122226, 0.000043506, -0.000009285]

/-- The polynomial `Q0`, without the factor `T`.
`FinGreen3D.f90:3376` (again `3446` and `3517`). -/
def q0Far : List ℚ := [-0.031249995, 0.001144106, -0.000218024, 0.000085844, -0.000035614, 0.000008099]

/-- The polynomial `P1`.
`FinGreen3D.f90:3380` (again `3449` and `3580`). -/
def p1Far : List ℚ := [1.000000004, 0.007323931, -0.000559487, 0.000145575, -0.000050363, 0.000010632]

/-- The polynomial `Q1`, without the factor `T`.
`FinGreen3D.f90:3381` (again `3450` and `3581`). -/
def q1Far : List ℚ := [0.093749994, -0.001601836, 0.000266891, -0.000099941, 0.000040658, -0.000009173]

/-- The four results of `JY01B`.
`FinGreen3D.f90:3346`. -/
structure Bessels where
  j0 : ℝ
  j1 : ℝ
  y0 : ℝ
  y1 : ℝ

/-- The branch `X.LE.4.0D0`.
`FinGreen3D.f90:3359-3370`. -/
noncomputable def nearBranch (x : ℝ) : Bessels :=
  let t := x / 4
  let t2 := t * t
  let bj0 := horner j0Near t2
  let bj1 := t * horner j1Near t2
  { j0 := bj0
    j1 := bj1
    y0 := 2 / π * log (x / 2) * bj0 + horner y0Near t2
    y1 := 2 / π * log (x / 2) * bj1 + horner y1Near t2 / x }

/-- The last branch.
`FinGreen3D.f90:3372-3384`. -/
noncomputable def farBranch (x : ℝ) : Bessels :=
  let t := 4 / x
  let t2 := t * t
  let a0 := √(2 / (π * x))
  let p0 := horner p0Far t2
  let q0 := t * horner q0Far t2
  let ta0 := x - 0.25 * π
  let p1 := horner p1Far t2
  let q1 := t * horner q1Far t2
  let ta1 := x - 0.75 * π
  { j0 := a0 * (p0 * cos ta0 - q0 * sin ta0)
    j1 := a0 * (p1 * cos ta1 - q1 * sin ta1)
    y0 := a0 * (p0 * sin ta0 + q0 * cos ta0)
    y1 := a0 * (p1 * sin ta1 + q1 * cos ta1) }

open Classical in
/-- The functions of order 0 and 1 at `x` (not negative: the callers give a wavenumber times a distance).
`FinGreen3D.f90:3346-3388`. -/
noncomputable def jy01b (x : ℝ) : Bessels :=
  if x = 0 then { j0 := 1, j1 := 0, y0 := -10 ^ 300, y1 := -10 ^ 300 }
  else if x ≤ 4 then nearBranch x
  else farBranch x

open Classical in
/-- The functions of the first kind alone.
`FinGreen3D.f90:3424-3456`. -/
noncomputable def jy01bj (x : ℝ) : ℝ × ℝ :=
  if x = 0 then (1, 0)
  else if x ≤ 4 then
    let t := x / 4
    let t2 := t * t
    (horner j0Near t2, t * horner j1Near t2)
  else
    let t := 4 / x
    let t2 := t * t
    let a0 := √(2 / (π * x))
    (a0 * (horner p0Far t2 * cos (x - 0.25 * π) - t * horner q0Far t2 * sin (x - 0.25 * π)),
      a0 * (horner p1Far t2 * cos (x - 0.75 * π) - t * horner q1Far t2 * sin (x - 0.75 * π)))

open Classical in
/-- The function of the second kind of order 0 alone.
`FinGreen3D.f90:3494-3523`. -/
noncomputable def jy01by0 (x : ℝ) : ℝ :=
  if x = 0 then -10 ^ 300
  else if x ≤ 4 then
    let t := x / 4
    let t2 := t * t
    2 / π * log (x / 2) * horner j0Near t2 + horner y0Near t2
  else
    let t := 4 / x
    let t2 := t * t
    √(2 / (π * x)) * (horner p0Far t2 * sin (x - 0.25 * π) + t * horner q0Far t2 * cos (x - 0.25 * π))

open Classical in
/-- The function of the second kind of order 1 alone.
`FinGreen3D.f90:3558-3587`. -/
noncomputable def jy01by1 (x : ℝ) : ℝ :=
  if x = 0 then -10 ^ 300
  else if x ≤ 4 then
    let t := x / 4
    let t2 := t * t
    2 / π * log (x / 2) * (t * horner j1Near t2) + horner y1Near t2 / x
  else
    let t := 4 / x
    let t2 := t * t
    √(2 / (π * x)) * (horner p1Far t2 * sin (x - 0.75 * π) + t * horner q1Far t2 * cos (x - 0.75 * π))

end Verif.Green.FinBessel
