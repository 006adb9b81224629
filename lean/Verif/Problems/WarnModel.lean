import Verif.Problems.Model
import Verif.Problems.BatchModel

/-!
# Warnings of the solver before the resolution

Model of `_check_wavelength_and_mesh_resolution` and `_check_wavelength_and_irregular_frequencies`
(`capytaine/bem/solver.py:249-305`), of `minimal_computable_wavelength` (`capytaine/bodies/bodies.py:1118-1124`)
and of the beginning of `solve_all` (`capytaine/bem/solver.py:213-215`, `229-230`). Of the messages only the
numbers and the recommendation are kept.
-/

namespace Verif.Problems

open Verif.Frequency

/-- What the checks read in a problem: the frequencies with and without the forward speed, the radiuses of the
panels of the hull and of the lid if any, and the estimate of the first irregular frequency
(`bodies/bodies.py:1126-1162`, see `Verif.Bodies.IrregularModel`). The problem is assumed to have a body. -/
structure Checked where
  freq : Frequencies
  enc : Encounter
  hull : List ℝ
  lid : Option (List ℝ)
  irregular : Input

/-- `pb.__getattribute__(freq_type)`, for one of the four names of parameters. -/
def Checked.value (p : Checked) : FreqType → Quantity
  | .omega => p.freq.omega
  | .period => p.freq.period
  | .wavenumber => p.freq.wavenumber
  | .wavelength => p.freq.wavelength

/-- `faces_radiuses.max()`: raises `ValueError` for an empty array. -/
noncomputable def maxRadius : List ℝ → Option ℝ
  | [] => none
  | r :: rs => some (rs.foldl max r)

/-- `minimal_computable_wavelength` (`bodies/bodies.py:1118-1124`). -/
noncomputable def Checked.minimalWavelength (p : Checked) : Option ℝ :=
  match p.lid with
  | some lid => (maxRadius p.hull).bind fun a => (maxRadius lid).map fun b => max (8 * a) (8 * b)
  | none => (maxRadius p.hull).map fun a => 8 * a

open Classical in
/-- `0.0 < pb.wavelength < pb.body.minimal_computable_wavelength` (`bem/solver.py:255`): the second comparison
is made only if the first one holds. -/
noncomputable def Checked.tooCoarse (p : Checked) : Option Bool :=
  if ((0 : ℝ) : Input) < p.freq.wavelength.toFloat then
    p.minimalWavelength.map fun m : ℝ => decide (p.freq.wavelength.toFloat < (m : Input))
  else some false

/-- The list comprehension of `bem/solver.py:254-255`. -/
noncomputable def riskyProblems : List Checked → Option (List Checked)
  | [] => some []
  | p :: ps =>
    match p.tooCoarse with
    | none => none
    | some b => (riskyProblems ps).map fun l => if b then p :: l else l

/-- The messages: for one problem, the parameter given by the user and the radius shown; for several, their
number and the range of a parameter. -/
inductive Message where
  | one (t : FreqType) (value : Quantity) (radius : ℝ)
  | many (n : ℕ) (t : FreqType) (lo hi : Input)

/-- `_check_wavelength_and_mesh_resolution` (`bem/solver.py:249-275`): `none` is an exception, `some none` is no
message. -/
noncomputable def checkResolution (ps : List Checked) : Option (Option Message) :=
  match riskyProblems ps with
  | none => none
  | some [] => some none
  | some [p] => (maxRadius p.hull).map fun r => some (.one p.freq.provided (p.value p.freq.provided) r)
  | some (p :: q :: l) =>
    let v (x : Checked) : Input := (x.value p.freq.provided).toFloat
    some (some (.many (l.length + 2) p.freq.provided ((q :: l).foldl (fun a x => min a (v x)) (v p))
      ((q :: l).foldl (fun a x => max a (v x)) (v p))))

/-- The recommendations of the other warning (`bem/solver.py:286-289`). -/
inductive Advice where
  | setLid
  | raiseLid
  deriving DecidableEq

open Classical in
/-- The problems at risk of irregular frequencies (`bem/solver.py:281-282`). -/
noncomputable def irregularProblems (ps : List Checked) : List Checked :=
  ps.filter fun p => p.irregular < p.freq.omega.toFloat ∧ p.freq.omega.toFloat < ⊤

/-- The recommendation of `_check_wavelength_and_irregular_frequencies` (`bem/solver.py:277-305`), if any. The
computation of the estimates is assumed not to raise. -/
noncomputable def irregularAdvice (ps : List Checked) : Option Advice :=
  if (irregularProblems ps).length ≥ 1 then
    if ps.any fun p => p.lid.isNone then some .setLid else some .raiseLid
  else none

/-- The argument of `solve_all`: a list, or an iterator, which gives its elements once. -/
inductive Source (P : Type) where
  | list (l : List P)
  | iterator (l : List P)

/-- A loop on the argument: the elements seen, and what is left for the next loop. -/
def Source.loop {P : Type} : Source P → List P × Source P
  | .list l => (l, .list l)
  | .iterator l => (l, .iterator [])

/-- `solve_all` with `n_jobs == 1` (`bem/solver.py:213-215`, `229-230`, `233`): the two checks, outside of the
function which catches the errors, then the resolution. `none` is an exception. -/
noncomputable def solveAllChecked {S P R E : Type} (checked : P → Checked) (dofs : P → List String)
    (solve : S → P → S × Except E R) (sort : List P → List P) (s : S) (check : Bool) (src : Source P) :
    Option (List (BatchResult P R E)) :=
  if check then
    match checkResolution (src.loop.1.map checked) with
    | none => none
    | some _ => some (solveAllSeq dofs solve sort s src.loop.2.loop.2.loop.1).2
  else some (solveAllSeq dofs solve sort s src.loop.1).2

end Verif.Problems
