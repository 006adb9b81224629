import Mathlib.Analysis.SpecialFunctions.Log.Base
import Mathlib.Analysis.SpecialFunctions.Pow.Real
import Mathlib.Algebra.Order.Floor.Ring

/-!
# Tables of the Green function

Model of the grids and of the interpolation in `green_functions/libDelhommeau/src/Delhommeau_integrals.f90`. Numbers are
exact. Indices start at 1 as in Fortran. A single one of the five tabulated values is considered.
-/

namespace Verif.Tabulation

/-- Fortran `int`: towards zero. -/
noncomputable def fint (x : ℝ) : ℤ := if 0 ≤ x then ⌊x⌋ else ⌈x⌉

/-- Fortran `nint`: the nearest integer, away from zero for halves. -/
noncomputable def nint (x : ℝ) : ℤ := if 0 ≤ x then ⌊x + 1 / 2⌋ else ⌈x - 1 / 2⌉

/-- `log10`. -/
noncomputable def log10 (x : ℝ) : ℝ := Real.logb 10 x

/-- `10**x`. -/
noncomputable def pow10 (x : ℝ) : ℝ := (10 : ℝ) ^ x

/-- `LEGACY_GRID` and `SCALED_NEMOH3_GRID` (`constants.f90`). -/
inductive Grid where
  | legacy
  | scaled

/-- `index_of_1` (`Delhommeau_integrals.f90:215`, `307`): both expressions have the same value in exact arithmetic. -/
noncomputable def indexOf1 (nr : ℕ) : ℤ := nint ((nr : ℝ) / 676 * 81)

/-- `default_r_spacing(nr, rmax, method)(i)` (`Delhommeau_integrals.f90:191-226`). -/
noncomputable def rSpacing (nr : ℕ) (rmax : ℝ) (m : Grid) (i : ℕ) : ℝ :=
  match m with
  | .legacy => if i = 1 then 0 else min (pow10 (((i : ℝ) - 1) / 5 - 6)) (|(i : ℝ) - 32| / 3 + 4 / 3)
  | .scaled =>
    if (i : ℤ) < indexOf1 nr then pow10 (-10 * (1 - ((i : ℝ) - 1) / ((indexOf1 nr : ℝ) - 1)))
    else (rmax - 1) / ((nr : ℝ) - indexOf1 nr) * ((i : ℝ) - indexOf1 nr) + 1

/-- `default_z_spacing(nz, zmin, method)(j)` (`Delhommeau_integrals.f90:230-253`). -/
noncomputable def zSpacing (nz : ℕ) (zmin : ℝ) (m : Grid) (j : ℕ) : ℝ :=
  match m with
  | .legacy => if nz = 46 ∧ j = 46 then -16 else -min (pow10 ((j : ℝ) / 5 - 6)) (pow10 ((j : ℝ) / 8 - 4.5))
  | .scaled => -min (pow10 ((log10 |zmin| + 10) / nz * j - 10)) |zmin|

/-- `nearest_r_index` (`Delhommeau_integrals.f90:284-318`) for a table of `nr` values `range`. -/
noncomputable def nearestR (nr : ℕ) (range : ℕ → ℝ) (m : Grid) (r : ℝ) : ℤ :=
  match m with
  | .legacy =>
    if r < 1e-6 then 1 else if r < 1 then fint (5 * (log10 r + 6) + 1) else fint (3 * r + 28)
  | .scaled =>
    if r < 1e-10 then 1
    else if r < 1 then nint ((log10 r / 10 + 1) * ((indexOf1 nr : ℝ) - 1) + 1)
    else nint ((r - 1) * ((nr : ℝ) - indexOf1 nr) / (range nr - 1) + indexOf1 nr)

/-- `nearest_z_index` (`Delhommeau_integrals.f90:321-346`). -/
noncomputable def nearestZ (nz : ℕ) (range : ℕ → ℝ) (m : Grid) (z : ℝ) : ℤ :=
  match m with
  | .legacy => if |z| > 1e-2 then fint (8 * (log10 |z| + 4.5)) else fint (5 * (log10 |z| + 6))
  | .scaled => nint ((log10 |z| + 10) / ((log10 |range nz| + 10) / nz))

/-- `max(2, min(n-1, index))` (`Delhommeau_integrals.f90:272-273`): the middle of the three indices that are read. -/
def middle (n : ℕ) (index : ℤ) : ℕ := (max 2 (min ((n : ℤ) - 1) index)).toNat

/-- `pl2` (`Delhommeau_integrals.f90:379-383`). -/
noncomputable def pl2 (u1 u2 u3 x : ℝ) : ℝ := ((x - u1) * (x - u2)) / ((u3 - u1) * (u3 - u2))

/-- The coefficients `xl` (`Delhommeau_integrals.f90:366-368`) of the nodes around the index `i`. -/
noncomputable def weights (range : ℕ → ℝ) (i : ℕ) (x : ℝ) : List ℝ :=
  [pl2 (range i) (range (i + 1)) (range (i - 1)) x, pl2 (range (i + 1)) (range (i - 1)) (range i) x,
    pl2 (range (i - 1)) (range i) (range (i + 1)) x]

/-- The indices that are read: `i-1:i+1` (`Delhommeau_integrals.f90:276-277`). -/
def stencil (i : ℕ) : List ℕ := [i - 1, i, i + 1]

/-- `dot_product(xl, matmul(tabulation, zl))` (`Delhommeau_integrals.f90:373-375`). -/
noncomputable def lagrange (rr zr : ℕ → ℝ) (i j : ℕ) (tab : ℕ → ℕ → ℝ) (r z : ℝ) : ℝ :=
  (List.zipWith (fun x k => x * (List.zipWith (fun y l => tab k l * y) (weights zr j z) (stencil j)).sum)
    (weights rr i r) (stencil i)).sum

/-- `pick_in_default_tabulation` (`Delhommeau_integrals.f90:257-280`). -/
noncomputable def pick (nr nz : ℕ) (rr zr : ℕ → ℝ) (m : Grid) (tab : ℕ → ℕ → ℝ) (r z : ℝ) : ℝ :=
  lagrange rr zr (middle nr (nearestR nr rr m r)) (middle nz (nearestZ nz zr m z)) tab r z

/-- The three ways to compute the integrals (`Green_wave.f90:287-301`). -/
inductive Source where
  | integration
  | table
  | asymptotic

open Classical in
/-- The choice between them (`Green_wave.f90:287-301`). -/
noncomputable def source (nr nz : ℕ) (rr zr : ℕ → ℝ) (r z : ℝ) : Source :=
  if nz ≤ 1 ∨ nr ≤ 1 then .integration
  else if |z| < |zr nz| ∧ r < rr nr then .table
  else .asymptotic

end Verif.Tabulation
