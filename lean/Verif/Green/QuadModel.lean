import Mathlib.Analysis.SpecialFunctions.Pow.Real

/-!
# The adaptive quadrature of the finite depth Green function

Model of `GK_INTEG` and `AQUAD` of `capytaine/green_functions/FinGreen3D/FinGreen3D.f90:2558-2623, 2686-2702`, and of their copies
`GK_INTEGF` and `AQUADF` (lines 2348-2412 and 2475-2491), which have the same tables and only another integrand. The integrand is any
function. The numbers are real.
-/

namespace Verif.Green.Quad

/-- `XGQ` (`FinGreen3D.f90:2570-2573`, `2360-2363`), from the index zero. -/
def xg : List ℚ := [-0.949107912342759, -0.741531185599394, -0.405845151377397, 0.000000000000000, 0.405845151377397,
  0.741531185599394, 0.949107912342759]

/-- `WGQ` (`FinGreen3D.f90:2577-2580`, `2367-2370`). -/
def wg : List ℚ := [0.129484966168870, 0.279705391489277, 0.381830050505119, 0.417959183673469, 0.381830050505119,
  0.279705391489277, 0.129484966168870]

/-- `XKQ` (`FinGreen3D.f90:2584-2591`, `2374-2381`). -/
def xk : List ℚ := [-0.991455371120813, -0.949107912342759, -0.864864423359769, -0.741531185599394, -0.586087235467691,
  -0.405845151377397, -0.207784955007898, 0.000000000000000, 0.207784955007898, 0.405845151377397, 0.586087235467691,
  0.741531185599394, 0.864864423359769, 0.949107912342759, 0.991455371120813]

/-- `WKQ` (`FinGreen3D.f90:2596-2603`, `2386-2393`). -/
def wk : List ℚ := [0.022935322010529, 0.063092092629979, 0.104790010322250, 0.140653259715525, 0.169004726639267,
  0.190350578064785, 0.204432940075298, 0.209482141084728, 0.204432940075298, 0.190350578064785, 0.169004726639267,
  0.140653259715525, 0.104790010322250, 0.063092092629979, 0.022935322010529]

/-- The values stored in `STF` (`FinGreen3D.f90:2607`, `2397`), from the index zero. -/
noncomputable def stored (f : ℝ → ℝ) (A B : ℝ) (i : ℕ) : ℝ := f (1 / 2 * (B + A + (B - A) * (xg.getD i 0 : ℚ)))

/-- `G_INT` (`FinGreen3D.f90:2605-2609`, `2395-2399`). -/
noncomputable def gauss (f : ℝ → ℝ) (A B : ℝ) : ℝ :=
  (List.range 7).foldl (fun acc i => acc + (wg.getD i 0 : ℚ) * (B - A) / 2 * stored f A B i) 0

/-- `GK_INT` (`FinGreen3D.f90:2611-2618`, `2401-2408`); the code counts from one, so that its even numbers are `i + 1`. -/
noncomputable def kronrod (f : ℝ → ℝ) (A B : ℝ) : ℝ :=
  (List.range 15).foldl (fun acc i =>
    if (i + 1) % 2 = 0 then acc + (wk.getD i 0 : ℚ) * (B - A) / 2 * stored f A B ((i + 1) / 2 - 1)
    else acc + (wk.getD i 0 : ℚ) * (B - A) / 2 * f (1 / 2 * (B + A + (B - A) * (xk.getD i 0 : ℚ)))) 0

/-- `ERR` (`FinGreen3D.f90:2620`, `2409`). -/
noncomputable def err (f : ℝ → ℝ) (A B : ℝ) : ℝ := (200 * |kronrod f A B - gauss f A B|) ^ (1.5 : ℝ)

open Classical in
/-- `AQUAD` (`FinGreen3D.f90:2692-2699`, `2481-2488`), with a bound on the depth of the recursion, beyond which the interval is
not divided. -/
noncomputable def aquad (f : ℝ → ℝ) (eps : ℝ) : ℕ → ℝ → ℝ → ℝ
  | 0, A, B => kronrod f A B
  | d + 1, A, B =>
    if err f A B > eps ∧ |A - B| > eps then aquad f eps d A ((A + B) / 2) + aquad f eps d ((A + B) / 2) B
    else kronrod f A B

end Verif.Green.Quad
