import Mathlib.Analysis.SpecialFunctions.Sqrt
import Mathlib.Algebra.BigOperators.Intervals

/-!
# The image sources of FinGreen3D

Model of `IMGS`, `DGSR`, `DGSZ` and `RS` (`capytaine/green_functions/FinGreen3D/FinGreen3D.f90:896-929`, `974-1007`, `1051-1084`, `1091-1099`): the sum of the
sources reflected in the free surface and the bottom, which `PIDCOCK` uses when the ratio of the horizontal distance and the depth is between
0.0005 and 0.05 (lines 92-96, 629-633).

Simplifications: exact arithmetic; the powers have real exponents that are natural numbers, and are powers by natural numbers here, also for
a negative base, for which Fortran leaves them undefined.
-/

namespace Verif.Green.Image

open Finset

/-- The columns of `AMN` (`FinGreen3D.f90:903-908`, `981-986`, `1058-1063`): the array is filled column by column. -/
def amnCols : List (List ℚ) :=
  [[0, -0.02525711, 0.00086546, -0.00004063, 0.00000193],
   [0.05051418, -0.00692380, 0.00073292, -0.00006636, 0.00000398],
   [0.00230838, -0.00097875, 0.00020597, -0.00003333, 0.00000524],
   [0.00012934, -0.00010879, 0.00003965, -0.00000891, 0],
   [0.00000913, -0.00001270, 0.00000466, 0, 0]]

/-- `AMN(M,N)`. -/
noncomputable def amn (m n : ℕ) : ℝ := (((amnCols.getD n []).getD m 0 : ℚ) : ℝ)

/-- `RS` (`FinGreen3D.f90:1091-1099`). -/
noncomputable def rs (r z : ℝ) : ℝ := Real.sqrt (r ^ 2 + z ^ 2)

/-- The shift `2 L` for the three turns of the loops on `L` (`FinGreen3D.f90:915`, `993`, `1070`). -/
noncomputable def shift (l : ℕ) : ℝ := 2 * ((l : ℝ) - 1)

/-- `IMGS` in terms of `T1`, `T2`, `T3` (`FinGreen3D.f90:914-926`). -/
noncomputable def imgsOf (t1 t2 t3 : ℝ) : ℝ :=
  ∑ l ∈ range 3, (1 / rs t1 (t2 + shift l) + 1 / rs t1 (t3 + shift l)) - 2 +
    ∑ m ∈ range 5, ∑ n ∈ range 5, amn m n * t1 ^ (2 * m) * (t2 ^ (2 * n) + t3 ^ (2 * n))

/-- `IMGS` (`FinGreen3D.f90:896-929`). -/
noncomputable def imgs (r zf zp h : ℝ) : ℝ := imgsOf (r / h) ((zf - zp) / h) ((zf + zp + 2 * h) / h) / h

/-- `DGSR` in terms of `T1`, `T2`, `T3` (`FinGreen3D.f90:992-1004`): the index `m` is `M - 1`. -/
noncomputable def dgsrOf (t1 t2 t3 : ℝ) : ℝ :=
  -∑ l ∈ range 3, (t1 / rs t1 (t2 + shift l) ^ 3 + t1 / rs t1 (t3 + shift l) ^ 3) +
    ∑ m ∈ range 4, ∑ n ∈ range 5, 2 * ((m : ℝ) + 1) * amn (m + 1) n * t1 ^ (2 * m + 1) * (t2 ^ (2 * n) + t3 ^ (2 * n))

/-- `DGSR` (`FinGreen3D.f90:974-1007`). -/
noncomputable def dgsr (r zf zp h : ℝ) : ℝ := dgsrOf (r / h) ((zf - zp) / h) ((zf + zp + 2 * h) / h) / h ^ 2

/-- `DGSZ` in terms of `T1`, `T2`, `T3` (`FinGreen3D.f90:1069-1081`): the index `n` is `N - 1`. -/
noncomputable def dgszOf (t1 t2 t3 : ℝ) : ℝ :=
  -∑ l ∈ range 3, ((t2 + shift l) / rs t1 (t2 + shift l) ^ 3 + (t3 + shift l) / rs t1 (t3 + shift l) ^ 3) +
    ∑ m ∈ range 5, ∑ n ∈ range 4, 2 * ((n : ℝ) + 1) * amn m (n + 1) * t1 ^ (2 * m) * (t2 ^ (2 * n + 1) + t3 ^ (2 * n + 1))

/-- `DGSZ` (`FinGreen3D.f90:1051-1084`). -/
noncomputable def dgsz (r zf zp h : ℝ) : ℝ := dgszOf (r / h) ((zf - zp) / h) ((zf + zp + 2 * h) / h) / h ^ 2

end Verif.Green.Image
