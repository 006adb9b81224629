/-
The modified functions of Bessel of the evanescent modes of the finite depth Green function of the library FinGreen3D
(`capytaine/green_functions/FinGreen3D/FinGreen3D.f90`, subroutine `IK01A`).

Simplifications: the arithmetic is exact, so that the constant PI of the code (3.141592653589793D0) is `π`, and the
functions DLOG, DSQRT and DEXP are the true ones.  The decimal constants are the decimal numbers.  The local variable
`WW` of the code is read before anything is stored in it: its first content is the argument `ww`.
-/
import Mathlib.Analysis.SpecialFunctions.Trigonometric.Basic
import Mathlib.Analysis.SpecialFunctions.Log.Basic
import Mathlib.Analysis.SpecialFunctions.Sqrt

namespace Verif.Green.FinK

open Real

/-- The constant `EL`.
`FinGreen3D.f90:3229`. -/
def el : ℚ := 0.5772156649015329

/-- The coefficients `A`.
`FinGreen3D.f90:3254-3259`. -/
def aFar : List ℚ :=
  [0.125, 0.0703125, 0.0732421875, 0.11215209960938, 0.22710800170898, 0.57250142097473, 1.7277275025845,
    6.0740420012735, 24.380529699556, 110.01714026925, 551.33589612202, 3038.0905109224]

/-- The coefficients `B`.
`FinGreen3D.f90:3260-3265`. -/
def bFar : List ℚ :=
  [-0.375, -0.1171875, -0.1025390625, -0.14419555664063, -0.27757644653320, -0.67659258842468, -1.9935317337513,
    -6.8839142681099, -27.248827311269, -121.59789187654, -603.84407670507, -3302.2722944809]

/-- The coefficients `A1`.
`FinGreen3D.f90:3296-3299`. -/
def a1Far : List ℚ :=
  [0.125, 0.2109375, 1.0986328125, 11.775970458984, 214.61706161499, 5951.1522710323, 233476.45606175,
    12312234.987631]

open Classical in
/-- The loops of the functions of the first kind; `n` is the number of turns left, `d K` the divisor `K*K` or
`K*(K+1)`, `r` and `s` the contents of `R` and of the sum.
`FinGreen3D.f90:3240-3244` and `3247-3251`. -/
noncomputable def iLoop (d : ℕ → ℕ) (x2 : ℝ) : (n k : ℕ) → (r s : ℝ) → ℝ
  | 0, _, _, s => s
  | n + 1, k, r, s =>
    let r' := 0.25 * r * x2 / d k
    let s' := s + r'
    if |r' / s'| < 1 / 10 ^ 15 then s' else iLoop d x2 n (k + 1) r' s'

/-- The loops of the asymptotic expansions: `1` and the terms of the first `n` coefficients.
`FinGreen3D.f90:3270-3274`, `3276-3279` and `3302-3305`. -/
noncomputable def expansion (l : List ℚ) (n : ℕ) (y : ℝ) : ℝ :=
  (List.range n).foldl (fun s k => s + (l.getD k 0 : ℚ) * y ^ (k + 1)) 1

open Classical in
/-- The number of terms `K0`.
`FinGreen3D.f90:3266-3268`. -/
noncomputable def termsFar (x : ℝ) : ℕ :=
  if 50 ≤ x then 7 else if 35 ≤ x then 9 else 12

open Classical in
/-- The functions of the first kind, `BI0` and `BI1` (the argument is positive).
`FinGreen3D.f90:3237-3281`. -/
noncomputable def firstKind (x : ℝ) : ℝ × ℝ :=
  if x ≤ 18 then
    (iLoop (fun k => k * k) (x * x) 50 1 1 1, 0.5 * x * iLoop (fun k => k * (k + 1)) (x * x) 50 1 1 1)
  else
    let ca := exp x / √(2 * π * x)
    (ca * expansion aFar (termsFar x) (1 / x), ca * expansion bFar (termsFar x) (1 / x))

open Classical in
/-- The loop of the function of order 0 of the second kind; `w`, `r`, `b` and `ww` are the contents of `W0`, `R`,
`BK0` and `WW`.  A division by zero gives an infinite or undefined number, for which the comparison is false.
`FinGreen3D.f90:3287-3293`. -/
noncomputable def kLoop (x2 ct : ℝ) : (n k : ℕ) → (w r b ww : ℝ) → ℝ
  | 0, _, _, _, b, _ => b
  | n + 1, k, w, r, b, ww =>
    let w' := w + 1 / k
    let r' := 0.25 * r / (k * k) * x2
    let b' := b + r' * (w' + ct)
    if b' ≠ 0 ∧ |(b' - ww) / b'| < 1 / 10 ^ 15 then b' else kLoop x2 ct n (k + 1) w' r' b' b'

/-- The function of order 0 of the second kind for arguments up to 9.
`FinGreen3D.f90:3283-3294`. -/
noncomputable def kNear (ww x : ℝ) : ℝ :=
  let ct := -(log (x / 2) + el)
  kLoop (x * x) ct 50 1 0 1 0 ww + ct

open Classical in
/-- `BK0` and `BK1`; `ww` is the content of the memory of `WW` at the call.
`FinGreen3D.f90:3221-3311`. -/
noncomputable def ik01a (ww x : ℝ) : ℝ × ℝ :=
  if x = 0 then (10 ^ 300, 10 ^ 300)
  else
    let bi := firstKind x
    let bk0 := if x ≤ 9 then kNear ww x else 0.5 / x * expansion a1Far 8 (1 / (x * x)) / bi.1
    (bk0, (1 / x - bi.2 * bk0) / bi.1)

end Verif.Green.FinK
