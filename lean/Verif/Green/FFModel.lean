import Mathlib.Analysis.SpecialFunctions.Trigonometric.DerivHyp

/-!
# The function decomposed in exponentials for a finite depth (C114)

Model of `FF` in `green_functions/libDelhommeau/src/old_Prony_decomposition.f90`, over the real numbers (the code is in single
precision).
-/

namespace Verif.Green.FF

open Real

/-- `COEF` (`old_Prony_decomposition.f90:38`). -/
noncomputable def coef (k0 m0 : ℝ) : ℝ := (m0 + k0) ^ 2 / (m0 ^ 2 - k0 ^ 2 + k0)

/-- `TOL` (`old_Prony_decomposition.f90:40`). -/
noncomputable def tol (m0 : ℝ) : ℝ := max 0.1 (0.1 * m0)

/-- The expression of lines 42, 47 and 49 of `old_Prony_decomposition.f90`. -/
noncomputable def direct (k0 m0 k : ℝ) : ℝ :=
  (k + k0) * exp k / (k * sinh k - k0 * cosh k) - coef k0 m0 / (k - m0) - 2

/-- `E` (`old_Prony_decomposition.f90:48`). -/
noncomputable def middle (k0 m0 : ℝ) : ℝ :=
  coef k0 m0 / (m0 + k0) * (m0 + k0 + 1) - (coef k0 m0 / (m0 + k0)) ^ 2 * m0 - 2

/-- The interpolation (`old_Prony_decomposition.f90:44-52`). -/
noncomputable def interpolated (k0 m0 k : ℝ) : ℝ :=
  let a := m0 - tol m0
  let b := m0
  let c := m0 + tol m0
  let d := direct k0 m0 a
  let e := middle k0 m0
  let f := direct k0 m0 c
  d * (k - b) * (k - c) / ((a - b) * (a - c)) + e * (k - c) * (k - a) / ((b - c) * (b - a)) +
    f * (k - a) * (k - b) / ((c - a) * (c - b))

open Classical in
/-- `FF` (`old_Prony_decomposition.f90:29-54`). -/
noncomputable def ff (k k0 m0 : ℝ) : ℝ := if |k - m0| > tol m0 then direct k0 m0 k else interpolated k0 m0 k

/-- The call of `FF` for a dimensionless wavenumber (`delhommeau.py:282`, `291`, `301`). -/
noncomputable def decomposed (m0 k : ℝ) : ℝ := ff k (m0 * tanh m0) m0

/-- The range in which the function is tabulated: `A` and `B` (`old_Prony_decomposition.f90:63-65`), and `x_min` and `x_max`
(`delhommeau.py:294`). -/
def range : Set ℝ := Set.Icc (-0.1) 20

end Verif.Green.FF
