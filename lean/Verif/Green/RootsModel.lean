import Mathlib.Analysis.SpecialFunctions.Trigonometric.ArctanDeriv
import Mathlib.Analysis.Complex.Trigonometric

/-!
# Roots of the dispersion relation for the finite depth Green function of HAMS

Model of `FinGreen3D` in `capytaine/green_functions/hams.py` and of the call to the Fortran routine in
`capytaine/green_functions/libDelhommeau/src/Green_wave.f90`. Numbers are exact. The search of a root by
`scipy.optimize.brentq` is a parameter, with its contract in the proofs; its tolerance is left out.
-/

namespace Verif.Green

open Real

/-- `omega2_h_over_g` (`hams.py:113`). -/
noncomputable def omega2h (k h : ℝ) : ℝ := k * tanh (k * h) * h

/-- The function whose roots are searched (`hams.py:115`). -/
noncomputable def rootFun (K y : ℝ) : ℝ := K + y * tan y

/-- The distance of the brackets to the ends of the intervals, `1e-10` (`hams.py:115`). -/
noncomputable def bracketGap : ℝ := 1 / 10 ^ 10

/-- The lower end of the bracket of a root (`hams.py:115`). -/
noncomputable def bracketLow (i : ℕ) : ℝ := (2 * i + 1) * π / 2 + bracketGap

/-- The upper end of the bracket of a root (`hams.py:115`). -/
noncomputable def bracketHigh (i : ℕ) : ℝ := (2 * i + 2) * π / 2 - bracketGap

/-- `root(i_root)` (`hams.py:114-115`); `none` is the `ValueError` of `brentq`. -/
noncomputable def root (brentq : (ℝ → ℝ) → ℝ → ℝ → Option ℝ) (k h : ℝ) (i : ℕ) : Option ℝ :=
  (brentq (rootFun (omega2h k h)) (bracketLow i) (bracketHigh i)).map fun y => y / h

/-- `compute_dispersion_relation_roots` (`hams.py:112-116`). -/
noncomputable def dispersionRoots (brentq : (ℝ → ℝ) → ℝ → ℝ → Option ℝ) (nk : ℕ) (k h : ℝ) : Option (List ℝ) :=
  ((List.range (nk - 1)).mapM (root brentq k h)).map fun l => k :: l

/-- The number of roots read by the Fortran routine, whatever the number given (`Green_wave.f90:599`, `620`,
`623`). -/
def fortranRoots : ℕ := 200

/-- The roots seen by the Fortran routine: the first ones of the array, which is read beyond its end, given here as
`none`, when it is too short (`Green_wave.f90:599`, `620`; `FinGreen3D.f90:71-74`). -/
def rootsRead (roots : List ℝ) : Option (List ℝ) :=
  if roots.length < fortranRoots then none else some (roots.take fortranRoots)

end Verif.Green
