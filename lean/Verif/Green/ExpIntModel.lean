/-
The exponential integrals of the finite depth Green function of the library FinGreen3D
(`capytaine/green_functions/FinGreen3D/FinGreen3D.f90`, subroutines `ENXA`, `E1XA` and `EIX`).

Simplifications: the arithmetic is exact, DLOG and DEXP are the true functions and the decimal constants are the decimal
numbers.
-/
import Mathlib.Analysis.SpecialFunctions.Log.Basic
import Verif.Green.LwnModel

namespace Verif.Green.ExpInt

open Real Verif.Green.Lwn

/-- The polynomial of `E1XA` for arguments up to 1, lowest degree first, without the logarithm.
`FinGreen3D.f90:2889`. -/
def e1Near : List ℚ := [-0.57721566, 0.99999193, -0.24991055, 0.05519968, -0.00976004, 0.00107857]

/-- The polynomial `ES1`.
`FinGreen3D.f90:2891`. -/
def es1 : List ℚ := [0.2677737343, 8.6347608925, 18.059016973, 8.5733287401, 1]

/-- The polynomial `ES2`.
`FinGreen3D.f90:2892`. -/
def es2 : List ℚ := [3.9584969228, 21.0996530827, 25.6329561486, 9.5733223454, 1]

open Classical in
/-- The integral of order 1.
`FinGreen3D.f90:2881-2896`. -/
noncomputable def e1xa (x : ℝ) : ℝ :=
  if x = 0 then 10 ^ 300
  else if x ≤ 1 then -log x + horner e1Near x
  else exp (-x) / x * horner es1 x / horner es2 x

/-- The integral of order `n`: the loop for K from 2 to N, `e` being the content of `E1`.
`FinGreen3D.f90:2818-2840`. -/
noncomputable def enxa : ℕ → ℝ → ℝ
  | 0, x => exp (-x) / x
  | n + 1, x => (List.range n).foldl (fun e i => (exp (-x) - x * e) / ((i + 2 : ℕ) - 1)) (e1xa x)

/-- The constant `GA`.
`FinGreen3D.f90:2953`. -/
def ga : ℚ := 0.5772156649015328

open Classical in
/-- The loop of the series; `n` is the number of turns left, `r` and `s` the contents of `R` and `EI`.
`FinGreen3D.f90:2948-2952`. -/
noncomputable def eiLoop (x : ℝ) : (n k : ℕ) → (r s : ℝ) → ℝ
  | 0, _, _, s => s
  | n + 1, k, r, s =>
    let r' := r * k * x / (k + 1) ^ 2
    let s' := s + r'
    if |r' / s'| ≤ 1 / 10 ^ 15 then s' else eiLoop x n (k + 1) r' s'

open Classical in
/-- The integral `Ei` (the argument is the square of a positive number).
`FinGreen3D.f90:2937-2965`. -/
noncomputable def eix (x : ℝ) : ℝ :=
  if x = 0 then -10 ^ 300
  else if x ≤ 40 then ga + log x + x * eiLoop x 100 1 1 1
  else
    exp x / x * ((List.range 20).foldl (fun (a : ℝ × ℝ) i =>
      let r := a.1 * ((i + 1 : ℕ) : ℝ) / x
      (r, a.2 + r)) (1, 1)).2

end Verif.Green.ExpInt
