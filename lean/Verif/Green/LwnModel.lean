/-
Model of the infinite depth Green function of Liang, Wu and Noblesse, as used by the Green function
`LiangWuNoblesseGF` of `capytaine/green_functions/hams.py`:

* `capytaine/green_functions/LiangWuNoblesse/LiangWuNoblesseWaveTerm.f90` (called `lwn` below): the wave
  term with its approximations of the functions of Bessel and Struve, and the local term;
* `capytaine/green_functions/libDelhommeau/src/Green_wave.f90:226-332`: the branch of
  `WAVE_PART_INFINITE_DEPTH` that uses them.

Simplification: real numbers instead of double precision numbers.  A division by zero and the logarithm of
zero give 0 here and an infinity or a NaN in Fortran; the theorems say where they are met.
-/
import Mathlib.Analysis.SpecialFunctions.Trigonometric.Basic
import Mathlib.Analysis.SpecialFunctions.Log.Basic
import Mathlib.Analysis.SpecialFunctions.Sqrt
import Mathlib.Analysis.Complex.Trigonometric
import Mathlib.Data.Complex.Basic

namespace Verif.Green.Lwn

open Real

/-- Nested sums such as `P0+(P1+(P2+P3*yy)*yy)*yy` (`lwn:492`, `lwn:497`, `lwn:500`, and the assignments
one after the other of `lwn:196-204`).  The functions `BesselY0` and `BesselY1` write the powers instead
(`lwn:571-577`, `lwn:579-591`), which is the same number. -/
noncomputable def horner : List ℚ → ℝ → ℝ
  | [], _ => 0
  | a :: l, y => (a : ℝ) + horner l y * y

/-- `P0` to `P6` of `BesselJ0` (`lwn:476-479`). -/
def j0Near : List ℚ :=
  [0.999999999, -2.249999879, 1.265623060, -0.316394552, 0.044460948, -0.003954479, 0.000212950]

/-- `R0` to `R5` of `BesselJ0` (`lwn:481-483`). -/
def j0Amp : List ℚ := [0.79788454, -0.00553897, 0.00099336, -0.00044346, 0.00020445, -0.00004959]

/-- `S1` to `S5` of `BesselJ0` (`lwn:485-487`). -/
def j0Phase : List ℚ := [-0.04166592, 0.00239399, -0.00073984, 0.00031099, -0.00007605]

/-- `BesselJ0` (`lwn:462-506`). -/
noncomputable def besselJ0 (x : ℝ) : ℝ :=
  if x ≤ 3 then horner j0Near ((x / 3) ^ 2)
  else
    horner j0Amp ((3 / x) ^ 2) * cos (x - 0.25 * π + horner j0Phase ((3 / x) ^ 2) * (3 / x)) / √x

/-- `P0` to `P6` of `BesselJ1` (`lwn:524-527`). -/
def j1Near : List ℚ :=
  [0.500000000, -0.562499992, 0.210937377, -0.039550040, 0.004447331, -0.000330547, 0.000015525]

/-- `R0` to `R5` of `BesselJ1` (`lwn:529-531`). -/
def j1Amp : List ℚ := [0.79788459, 0.01662008, -0.00187002, 0.00068519, -0.00029440, 0.00006952]

/-- `S1` to `S5` of `BesselJ1` (`lwn:533-535`). -/
def j1Phase : List ℚ := [0.12499895, -0.00605240, 0.00135825, -0.00049616, 0.00011531]

/-- `BesselJ1` (`lwn:509-555`). -/
noncomputable def besselJ1 (x : ℝ) : ℝ :=
  if x ≤ 3 then horner j1Near ((x / 3) ^ 2) * x
  else
    horner j1Amp ((3 / x) ^ 2) * cos (x - 0.75 * π + horner j1Phase ((3 / x) ^ 2) * (3 / x)) / √x

/-- The coefficients of the powers of `x / 3` in `BesselY0` (`lwn:571-577`). -/
def y0Near : List ℚ :=
  [0.367466907, 0.605593797, -0.743505078, 0.253005481, -0.042619616, 0.004285691, -0.000250716]

/-- The coefficients of `f0` in `BesselY0` (`lwn:579-584`). -/
def y0Amp : List ℚ := [0.79788454, -0.00553897, 0.00099336, -0.00044346, 0.00020445, -0.00004959]

/-- The coefficients of `theta0` in `BesselY0` (`lwn:586-591`). -/
def y0Phase : List ℚ := [-0.04166592, 0.00239399, -0.00073984, 0.00031099, -0.00007605]

/-- `BesselY0` (`lwn:558-598`).  The first branch is never used by the other functions. -/
noncomputable def besselY0 (x : ℝ) : ℝ :=
  if x ≤ 3 then 2 / π * log (x / 2) * besselJ0 x + horner y0Near ((x / 3) ^ 2)
  else
    horner y0Amp ((3 / x) ^ 2) * sin (x - 0.25 * π + horner y0Phase ((3 / x) ^ 2) * (3 / x)) / √x

/-- The coefficients of the powers of `x / 3` in `BesselY1` (`lwn:614-619`). -/
def y1Near : List ℚ := [0.07373571, 0.72276433, -0.43885620, 0.10418264, -0.01340825, 0.00094249]

/-- The coefficients of `f1` in `BesselY1` (`lwn:621-626`). -/
def y1Amp : List ℚ := [0.79788459, 0.01662008, -0.00187002, 0.00068519, -0.00029440, 0.00006952]

/-- The coefficients of `theta1` in `BesselY1` (`lwn:628-633`). -/
def y1Phase : List ℚ := [0.12499895, -0.00605240, 0.00135825, -0.00049616, 0.00011531]

/-- `BesselY1` (`lwn:601-640`).  The first branch is never used by the other functions. -/
noncomputable def besselY1 (x : ℝ) : ℝ :=
  if x ≤ 3 then 2 / π * (log (x / 2) * besselJ1 x - 1 / x) + horner y1Near ((x / 3) ^ 2) * (x / 3)
  else
    horner y1Amp ((3 / x) ^ 2) * sin (x - 3 * π / 4 + horner y1Phase ((3 / x) ^ 2) * (3 / x)) / √x

/-- `P0` to `P5` of `StruveH0` (`lwn:664-669`). -/
def h0Near : List ℚ :=
  [1.909859164, -1.909855001, 0.687514637, -0.126164557, 0.013828813, -0.000876918]

/-- `a0` to `a3` of `StruveH0` (`lwn:679-682`). -/
def h0Num : List ℚ := [0.99999906, 4.77228920, 3.85542044, 0.32303607]

/-- The 1 of `lwn:689` and `b1` to `b3` of `StruveH0` (`lwn:684-686`). -/
def h0Den : List ℚ := [1, 4.88331068, 4.28957333, 0.52120508]

/-- `StruveH0` (`lwn:644-696`). -/
noncomputable def struveH0 (x : ℝ) : ℝ :=
  if x ≤ 3 then horner h0Near ((x / 3) ^ 2) * (x / 3)
  else 2 * horner h0Num ((3 / x) ^ 2) / (π * x * horner h0Den ((3 / x) ^ 2)) + besselY0 x

/-- `P1` to `P6` of `StruveH1` (`lwn:719-724`). -/
def h1Near : List ℚ :=
  [1.909859286, -1.145914713, 0.294656958, -0.042070508, 0.003785727, -0.000207183]

/-- `a0` to `a3` of `StruveH1` (`lwn:732-735`). -/
def h1Num : List ℚ := [1.00000004, 3.92205313, 2.64893033, 0.27450895]

/-- The 1 of `lwn:742` and `b1` to `b3` of `StruveH1` (`lwn:737-739`). -/
def h1Den : List ℚ := [1, 3.81095112, 2.26216956, 0.10885141]

/-- `StruveH1` (`lwn:699-749`). -/
noncomputable def struveH1 (x : ℝ) : ℝ :=
  if x ≤ 3 then horner h1Near ((x / 3) ^ 2) * (x / 3) ^ 2
  else 2 * horner h1Num ((3 / x) ^ 2) / (π * horner h1Den ((3 / x) ^ 2)) + besselY1 x

/-- The wave term `GF_Func_W` (`lwn:158-175`). -/
noncomputable def waveW (h v : ℝ) : ℂ :=
  2 * π * ((struveH0 h : ℂ) - Complex.I * besselJ0 h) * (exp v : ℝ)

/-- The horizontal derivative of the wave term, `GF_Func_Wh` (`lwn:353-370`). -/
noncomputable def waveWh (h v : ℝ) : ℂ :=
  2 * π * ((2 / π : ℝ) - (struveH1 h : ℂ) + Complex.I * besselJ1 h) * (exp v : ℝ)

/-- `GF_FuncA` (`lwn:178-207`). -/
def polyA : List ℚ :=
  [1.21, -13.328, 215.896, -1763.96, 8418.94, -24314.21, 42002.57, -41592.9, 21859.0, -4838.6]

/-- `GF_FuncB` (`lwn:210-239`). -/
def polyB : List ℚ :=
  [0.938, 5.737, -67.92, 796.534, -4780.77, 17137.74, -36618.81, 44894.06, -29030.24, 7671.22]

/-- `GF_FuncC` (`lwn:242-268`). -/
def polyC : List ℚ := [1.268, -9.747, 209.653, -1397.89, 5155.67, -9844.35, 9136.4, -3272.62]

/-- `GF_FuncD` (`lwn:271-300`). -/
def polyD : List ℚ :=
  [0.632, -40.97, 667.16, -6072.07, 31127.39, -96293.05, 181856.75, -205690.43, 128170.2, -33744.6]

/-- `GF_Func_Lp` (`lwn:131-155`). -/
noncomputable def localLp (alpha beta rho : ℝ) : ℝ :=
  rho * (1 - rho) ^ 3 *
    ((1 - beta) * horner polyA rho - beta * horner polyB rho
      - alpha * horner polyC rho / (1 + 6 * alpha * rho * (1 - rho))
      + beta * (1 - beta) * horner polyD rho)

/-- The Euler constant of the module (`lwn:81`). -/
def gama : ℚ := 0.5772156649

/-- `GF_Func_L0` (`lwn:108-128`). -/
noncomputable def localL0 (v d alpha beta rho : ℝ) : ℝ :=
  2 * (exp v * (log (0.5 * (d - v)) + gama - 2 * d * d) + d * d - v) / (1 + d ^ 3)
    + 2 * localLp alpha beta rho

/-- `GF_dFuncA` (`lwn:373-402`). -/
def dPolyA : List ℚ :=
  [2.948, -24.53, 249.69, -754.85, -1187.71, 16370.75, -48811.41, 68220.87, -46688.0, 12622.25]

/-- `GF_dFuncB` (`lwn:405-434`). -/
def dPolyB : List ℚ :=
  [1.11, 2.894, -76.765, 1565.35, -11336.19, 44270.15, -97014.11, 118879.26, -76209.82, 19923.28]

/-- `GF_dFuncC` (`lwn:437-459`). -/
def dPolyC : List ℚ := [14.19, -148.24, 847.8, -2318.58, 3168.35, -1590.27]

/-- `GF_Func_Lsp` (`lwn:328-350`). -/
noncomputable def localLsp (alpha beta rho : ℝ) : ℝ :=
  rho * (1 - rho) ^ 3 *
    (beta * horner dPolyA rho - (1 - alpha) * horner dPolyB rho
      + beta * (1 - beta) * rho * (1 - 2 * rho) * horner dPolyC rho)

/-- `GF_Func_Ls` (`lwn:303-325`). -/
noncomputable def localLs (h v d alpha beta rho : ℝ) : ℝ :=
  2 * ((beta + h) / (d - v) - 2 * beta + 2 * exp v * d - h) / (1 + d ^ 3)
    - 4 * (exp (-d) * (1 - beta) * (1 + d / (1 + d ^ 3))) + 2 * localLsp alpha beta rho

/-- `HavelockGF` (`lwn:87-104`): the Green function without its two sources, and its horizontal
derivative. -/
noncomputable def havelock (h v : ℝ) : ℂ × ℂ :=
  let d := √(h * h + v * v)
  let alpha := -v / d
  let beta := h / d
  let rho := d / (1 + d)
  ((localL0 v d alpha beta rho : ℂ) + waveW h v, (localLs h v d alpha beta rho : ℂ) + waveWh h v)

/-- `WAVE_PART_INFINITE_DEPTH` (`Green_wave.f90:226-332`) with the grid shape `LIANG_WU_NOBLESSE`
(lines 259-281 and 329-330), between the points `(x1, x2, x3)` and `(y1, y2, y3)`.  `16*EPSILON(r)` is
`16 * 2 ^ (-52)`. -/
noncomputable def wavePart (k : ℝ) (x y : ℝ × ℝ × ℝ) : ℂ × ℂ × ℂ × ℂ :=
  let r := k * √((x.1 - y.1) ^ 2 + (x.2.1 - y.2.1) ^ 2)
  let z := k * (x.2.2 + y.2.2)
  let r1 := √(r ^ 2 + z ^ 2)
  let drdx1 := if |r| > 16 * 2 ^ (-52 : ℤ) then k ^ 2 * (x.1 - y.1) / r else 0
  let drdx2 := if |r| > 16 * 2 ^ (-52 : ℤ) then k ^ 2 * (x.2.1 - y.2.1) / r else 0
  let G := - (havelock r z).1
  let dGdr := - (havelock r z).2
  (k * G, k * (drdx1 * dGdr), k * (drdx2 * dGdr), k * (k * (G + ((2 / r1 : ℝ) : ℂ))))

end Verif.Green.Lwn
