import Verif.Green.HousModel
import Mathlib.Analysis.SpecialFunctions.Complex.Log

/-!
# The decomposition in exponentials of the Fortran code (C116)

Model of `MCAS`, `EXPORS` and `LISC` in `green_functions/libDelhommeau/src/old_Prony_decomposition.f90`, over the real numbers
(the code is in single precision). `SPRBM`, which finds the roots of a polynomial, is a parameter. Arrays with several useful
sizes are functions of an index that starts from zero; the rates and amplitudes are lists.
-/

namespace Verif.Green.Lisc

open Verif.Green.Hous

open Classical in
/-- The system of `MCAS` (`old_Prony_decomposition.f90:253-275`), with its right hand side in the last column. -/
noncomputable def fitSystem (lam : List ℝ) (xt yt : ℕ → ℝ) (npp : ℕ) : ℕ → ℕ → ℝ := fun i j =>
  if j < lam.length then
    ∑ l ∈ Finset.range npp,
      if (lam.getD i 0 + lam.getD j 0) * xt l ≥ -30 then Real.exp ((lam.getD i 0 + lam.getD j 0) * xt l) else 0
  else ∑ l ∈ Finset.range npp, if lam.getD i 0 * xt l ≥ -30 then Real.exp (lam.getD i 0 * xt l) * yt l else 0

/-- `MCAS` (`old_Prony_decomposition.f90:240-286`). Without rate, `HOUSRS` reads the line and the column zero of its array,
which do not exist: no result here. -/
noncomputable def mcas (lam : List ℝ) (xt yt : ℕ → ℝ) (npp : ℕ) : Option (List ℝ) :=
  if lam.length = 0 then none
  else (housrs (fitSystem lam xt yt npp) lam.length lam.length).map fun a => (List.range lam.length).map a

/-- The system of `EXPORS` (`old_Prony_decomposition.f90:165-172`). -/
noncomputable def predictSystem (yt : ℕ → ℝ) (nm : ℕ) : ℕ → ℕ → ℝ := fun i j =>
  if j < nm then yt (nm - 1 - j + i) else -yt (nm + i)

/-- `SC` (`old_Prony_decomposition.f90:178-183`). -/
noncomputable def polynomialOf (s : ℕ → ℝ) (nm : ℕ) : List ℝ := (List.range nm).map (fun p => s (nm - 1 - p)) ++ [1]

open Classical in
/-- The choice of the rates (`old_Prony_decomposition.f90:195-217`). After the last root the code reads one more element of the
array, which has no effect. -/
noncomputable def merged : List ℂ → List ℝ
  | [] => []
  | [z] => [z.re]
  | z :: w :: rest =>
    if z.im = 0 then z.re :: merged (w :: rest)
    else if |z.re - w.re| - 1 / 10 ^ 5 ≤ 0 then z.re :: merged rest
    else z.re :: merged (w :: rest)

open Classical in
/-- The second choice (`old_Prony_decomposition.f90:220-226`). -/
noncomputable def kept (l : List ℝ) : List ℝ := l.filter fun r => r > -20 ∧ r ≤ 0

/-- `EXPORS` (`old_Prony_decomposition.f90:139-236`): the rates and the amplitudes. -/
noncomputable def expors (sprbm : List ℝ → List ℂ) (xt yt : ℕ → ℝ) (nm : ℕ) : Option (List ℝ × List ℝ) :=
  let npp := 4 * nm + 1
  let h := (xt (npp - 1) - xt 0) / ((4 * nm : ℕ) : ℝ)
  match housrs (predictSystem yt nm) (npp - nm) nm with
  | none => none
  | some s =>
    let com := (sprbm (polynomialOf s nm)).map fun z => Complex.log z / h
    let lam := kept (merged com)
    (mcas lam xt yt npp).map fun ar => (lam, ar)

/-- The points of the tabulation (`old_Prony_decomposition.f90:64-65`, `95`). -/
noncomputable def tabulated (nk i : ℕ) : ℝ := -0.1 + (20 - -0.1) * i / ((4 * nk : ℕ) : ℝ)

/-- `TT` (`old_Prony_decomposition.f90:113-116`). -/
noncomputable def expValue (lam ar : List ℝ) (x : ℝ) : ℝ :=
  (List.range lam.length).foldl (fun t j => t + ar.getD j 0 * Real.exp (lam.getD j 0 * x)) 0

/-- `ISOR` (`old_Prony_decomposition.f90:104-120`). -/
def TooFar (f : ℝ → ℝ) (lam ar : List ℝ) : Prop :=
  ∃ i < 8 * lam.length + 1, |f (i * 20 / ((8 * lam.length : ℕ) : ℝ)) - expValue lam ar (i * 20 / ((8 * lam.length : ℕ) : ℝ))| >
    1 / 10 ^ 2

open Classical in
/-- `LISC` from the label 62 (`old_Prony_decomposition.f90:91-133`), where `f` is `FF` for the given frequency. The last
argument bounds the number of jumps. -/
noncomputable def liscFrom (sprbm : List ℝ → List ℂ) (f : ℝ → ℝ) : ℕ → ℕ → Option (List ℝ × List ℝ)
  | 0, _ => none
  | fuel + 1, nk =>
    match expors sprbm (tabulated nk) (fun i => f (tabulated nk i)) nk with
    | none => none
    | some r => if TooFar f r.1 r.2 ∧ nk ≤ 31 - 2 then liscFrom sprbm f fuel (nk + 2) else some r

/-- `LISC` (`old_Prony_decomposition.f90:57-135`). -/
noncomputable def lisc (sprbm : List ℝ → List ℂ) (f : ℝ → ℝ) : Option (List ℝ × List ℝ) := liscFrom sprbm f 14 4

end Verif.Green.Lisc
