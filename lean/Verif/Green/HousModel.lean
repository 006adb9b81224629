import Mathlib.Analysis.Real.Sqrt
import Mathlib.Algebra.BigOperators.Intervals
import Mathlib.Data.Sign.Defs

/-!
# The least squares solver of the Fortran code (C115)

Model of `HOUSRS` in `green_functions/libDelhommeau/src/old_Prony_decomposition.f90`, over the real numbers (the code is in
single precision). Arrays are functions of indices that start from zero, and the right hand side is the column `ncc`.
-/

namespace Verif.Green.Hous

/-- `E0` (`old_Prony_decomposition.f90:311-316`). -/
noncomputable def columnNorm (nl k : ℕ) (a : ℕ → ℕ → ℝ) : ℝ := Real.sqrt (∑ i ∈ Finset.Ico k nl, a i k ^ 2)

open Classical in
/-- `AR` (`old_Prony_decomposition.f90:322-326`). -/
noncomputable def pivot (nl k : ℕ) (a : ℕ → ℕ → ℝ) : ℝ :=
  if a k k = 0 then -columnNorm nl k a else -(if 0 ≤ a k k then 1 else -1) * columnNorm nl k a

/-- `ETA` (`old_Prony_decomposition.f90:328`). -/
noncomputable def eta (nl k : ℕ) (a : ℕ → ℕ → ℝ) : ℝ := pivot nl k a * (pivot nl k a - a k k)

/-- `BA` after its loop, for the column `j` (`old_Prony_decomposition.f90:330-333`). -/
noncomputable def product (nl k : ℕ) (a : ℕ → ℕ → ℝ) (j : ℕ) : ℝ :=
  (a k k - pivot nl k a) * a k j + ∑ i ∈ Finset.Ico (k + 1) nl, a i k * a i j

open Classical in
/-- One step of the first loop (`old_Prony_decomposition.f90:310-344`). The loop on `J` reads the column `K` and changes the
column `J` only, then the column `K` is set. -/
noncomputable def houseStep (nl ncc : ℕ) (a : ℕ → ℕ → ℝ) (k : ℕ) : ℕ → ℕ → ℝ := fun i j =>
  if k < j ∧ j ≤ ncc then
    if i = k then a k j + product nl k a j / pivot nl k a
    else if k < i ∧ i < nl then a i j - a i k * product nl k a j / eta nl k a
    else a i j
  else if j = k then
    if i = k then pivot nl k a
    else if k < i ∧ i < nl then 0
    else a i j
  else a i j

/-- The first loop (`old_Prony_decomposition.f90:310-344`). -/
noncomputable def triangle (nl ncc : ℕ) (a : ℕ → ℕ → ℝ) : ℕ → ℕ → ℝ := (List.range ncc).foldl (houseStep nl ncc) a

/-- The second loop (`old_Prony_decomposition.f90:346-354`), from the last line; `c` is the right hand side. -/
noncomputable def backSub (a : ℕ → ℕ → ℝ) (ncc : ℕ) : ℕ → (ℕ → ℝ) → ℕ → ℝ
  | 0, c => c
  | m + 1, c => backSub a ncc m (Function.update c m ((c m - ∑ i ∈ Finset.Ico (m + 1) ncc, a m i * c i) / a m m))

open Classical in
/-- `HOUSRS` (`old_Prony_decomposition.f90:290-357`): the solution left in the last column, or the stop of the program. -/
noncomputable def housrs (a : ℕ → ℕ → ℝ) (nl ncc : ℕ) : Option (ℕ → ℝ) :=
  if ncc > nl then none
  else some (backSub (triangle nl ncc a) ncc ncc fun i => triangle nl ncc a i ncc)

end Verif.Green.Hous
