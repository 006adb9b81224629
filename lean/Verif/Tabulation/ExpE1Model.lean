import Mathlib.Analysis.SpecialFunctions.Complex.Log

/-!
# The approximations of the exponential integral in the tables

Model of `exp_e1` (`capytaine/green_functions/libDelhommeau/src/Delhommeau_integrals.f90:93-140`): the product of the exponential function and of
the exponential integral of order 1, by four formulas. The code works in single precision; here the arithmetic is exact.
-/

namespace Verif.Tabulation.ExpE1

/-- Nested products, the constant coefficient first (the style of `Delhommeau_integrals.f90:105,109-114`). -/
noncomputable def cev : List ℚ → ℂ → ℂ
  | [], _ => 0
  | a :: l, z => (a : ℂ) + z * cev l z

/-- Nested products, the leading coefficient first, with complex coefficients (the style of `Delhommeau_integrals.f90:117-135`). -/
noncomputable def chor (l : List (ℚ × ℚ)) (z : ℂ) : ℂ := l.foldl (fun acc c => acc * z + ((c.1 : ℂ) + (c.2 : ℂ) * Complex.I)) 0

/-- The coefficients of the first case (`Delhommeau_integrals.f90:105`). -/
def farL : List ℚ := [0, 1, -1, 2, -6, 24, -120]

/-- The factor of the logarithm of the second case (`Delhommeau_integrals.f90:109-110`). -/
def nearP : List ℚ := [1, 0.23721365, 0.0206543, 0.000763297, 0.0000097087007]

/-- The literal for the constant of Euler (`Delhommeau_integrals.f90:110`). -/
def gammaL : ℚ := 0.5772156649

/-- The factor of the constant of Euler of the second case (`Delhommeau_integrals.f90:110-112`). -/
def nearQ : List ℚ := [0.99999207, -1.49545886, 0.041806426, -0.03000591, 0.0019387339, -0.00051801555]

/-- The denominator of the second case (`Delhommeau_integrals.f90:112-114`). -/
def nearR : List ℚ := [1, -0.76273617, 0.28388363, -0.066786033, 0.012982719, -0.0008700861, 0.0002989204]

/-- The numerator of the fourth case (`Delhommeau_integrals.f90:127-130`). -/
def midN : List (ℚ × ℚ) :=
  [(1, -0.0000013935496), (15.82958, 20.14222), (-70.52863, 227.9511), (-985.4221, 226.6272), (-1202.318, -1580.907),
    (953.2441, -1342.447), (417.3716, 196.6665), (-9.881266, 24.24952)]

/-- The denominator of the fourth case (`Delhommeau_integrals.f90:131-135`). -/
def midD : List (ℚ × ℚ) :=
  [(1, 0), (16.83184, 20.14481), (-55.66969, 248.1167), (-1068.640, 434.4707), (-2082.250, -1522.471), (383.3455, -2730.378),
    (1216.791, -351.7189), (115.3926, 161.2647), (-3.777369, 4.510900)]

/-- The coefficients for a negative imaginary part (`Delhommeau_integrals.f90:117-125`). -/
def conjL (l : List (ℚ × ℚ)) : List (ℚ × ℚ) := l.map fun c => (c.1, -c.2)

/-- The third case (`Delhommeau_integrals.f90:107`). -/
noncomputable def poles (z : ℂ) : ℂ :=
  ((0.711093 : ℚ) : ℂ) / (z + ((0.415775 : ℚ) : ℂ)) + ((0.278518 : ℚ) : ℂ) / (z + ((2.29428 : ℚ) : ℂ)) +
    ((0.010389 : ℚ) : ℂ) / (z + ((6.2900 : ℚ) : ℂ))

open Classical in
/-- `exp_e1` (`Delhommeau_integrals.f90:102-138`). -/
noncomputable def expE1 (z : ℂ) : ℂ :=
  if z.re < -16 then cev farL (1 / z)
  else if 10 < |z.im| then poles z
  else if -0.5 < z.re then -(Complex.log z * cev nearP z + (gammaL : ℂ) * cev nearQ z) / cev nearR z
  else if z.im < 0 then chor (conjL midN) z / chor (conjL midD) z
  else chor midN z / chor midD z

end Verif.Tabulation.ExpE1
