import Mathlib.Analysis.SpecialFunctions.Trigonometric.DerivHyp
import Mathlib.Analysis.SpecialFunctions.Sqrt
import Mathlib.Analysis.Real.Pi.Bounds
import Mathlib.Order.WithBot

/-!
# Frequencies, depth and encounter frequency

Model of `LinearPotentialFlowProblem.__init__` and `_get_frequencies`
(`capytaine/bem/problems_and_results.py:58-154`) and of `_get_water_depth`
(`capytaine/tools/deprecation_handling.py:7-20`).
-/

namespace Verif.Frequency

open Real

/-- A number given by the user: a finite real number, or `np.inf` (`⊤`). Simplification: `-np.inf`
and NaN are left out. -/
abbrev Input := WithTop ℝ

/-- A frequency parameter of a problem: an ordinary number or the symbols zero and infinity
(`SymbolicMultiplication("0")`, `SymbolicMultiplication("∞")`). -/
inductive Quantity where
  | real (x : ℝ)
  | zero
  | infty

/-- `float(q)`. -/
def Quantity.toFloat : Quantity → Input
  | .real x => x
  | .zero => (0 : ℝ)
  | .infty => ⊤

/-- Names of the parameters, `provided_freq_type`. -/
inductive FreqType where
  | omega
  | period
  | wavenumber
  | wavelength
  deriving DecidableEq

/-- The five values returned by `_get_frequencies`. -/
structure Frequencies where
  omega : Quantity
  period : Quantity
  wavenumber : Quantity
  wavelength : Quantity
  provided : FreqType

/-- `np.tanh(k*h)` for a depth that may be infinite: `np.tanh(±inf) = ±1`. -/
noncomputable def tanhDepth (k : ℝ) : Input → ℝ
  | none => SignType.sign k
  | some h => Real.tanh (k * h)

/-- Errors of this part of the code. -/
inductive FreqError where
  | tooMany
  | noConvergence
  deriving DecidableEq

open Classical in
/-- Branches of `_get_frequencies` for a value given for one of the parameters,
`problems_and_results.py:115-152`. `newton ω² h` stands for the call to `scipy.optimize.newton` with
`x0=1.0`, `none` for its `RuntimeError`. -/
noncomputable def frequenciesFrom (newton : ℝ → ℝ → Option ℝ) (g : ℝ) (depth : Input) (t : FreqType)
    (v : Input) : Except FreqError Frequencies :=
  if (v = (0 : ℝ) ∧ (t = .omega ∨ t = .wavenumber)) ∨ (v = ⊤ ∧ (t = .period ∨ t = .wavelength)) then
    .ok ⟨.zero, .infty, .zero, .infty, t⟩
  else if (v = (0 : ℝ) ∧ (t = .period ∨ t = .wavelength)) ∨ (v = ⊤ ∧ (t = .omega ∨ t = .wavenumber)) then
    .ok ⟨.infty, .zero, .infty, .zero, t⟩
  else
    let x := v.untopD 0
    match t with
    | .omega | .period =>
      let omega := if t = .omega then x else 2 * π / x
      let period := if t = .omega then 2 * π / x else x
      match depth with
      | none => .ok ⟨.real omega, .real period, .real (omega ^ 2 / g), .real (2 * π / (omega ^ 2 / g)), t⟩
      | some h =>
        match newton (omega ^ 2 / g) h with
        | none => .error .noConvergence
        | some k => .ok ⟨.real omega, .real period, .real k, .real (2 * π / k), t⟩
    | .wavenumber | .wavelength =>
      let k := if t = .wavenumber then x else 2 * π / x
      let wavelength := if t = .wavenumber then 2 * π / x else x
      let omega := √(g * k * tanhDepth k depth)
      .ok ⟨.real omega, .real (2 * π / omega), .real k, .real wavelength, t⟩

/-- `_get_frequencies`, `problems_and_results.py:101-154`. At most one argument may be given
(lines 103-107); without any, `omega = 1` (lines 109-111, default parameters
`problems_and_results.py:18-20`). -/
noncomputable def getFrequencies (newton : ℝ → ℝ → Option ℝ) (g : ℝ) (depth : Input)
    (omega period wavenumber wavelength : Option Input) : Except FreqError Frequencies :=
  if 4 - [omega, period, wavenumber, wavelength].count none > 1 then .error .tooMany
  else
    match omega, period, wavenumber, wavelength with
    | some v, _, _, _ => frequenciesFrom newton g depth .omega v
    | none, some v, _, _ => frequenciesFrom newton g depth .period v
    | none, none, some v, _ => frequenciesFrom newton g depth .wavenumber v
    | none, none, none, some v => frequenciesFrom newton g depth .wavelength v
    | none, none, none, none => frequenciesFrom newton g depth .omega ((1 : ℝ) : Input)

/-- Encounter values of a problem, `problems_and_results.py:84-98`. -/
structure Encounter where
  omega : Quantity
  period : Quantity
  wavenumber : Quantity
  wavelength : Quantity
  direction : ℝ

open Classical in
/-- The block of `__init__` on forward speed, `problems_and_results.py:84-98`. Zero and infinite
frequencies with forward speed have been refused before (`_check_data`, lines 187-190): `none`. -/
noncomputable def encounter (newton : ℝ → ℝ → Option ℝ) (g : ℝ) (depth : Input) (f : Frequencies)
    (speed direction : ℝ) : Option (Except FreqError Encounter) :=
  if speed ≠ 0 then
    match f.omega, f.wavenumber with
    | .real w, .real k =>
      let dopplered := w - k * speed * cos direction
      match getFrequencies newton g depth (some ((|dopplered| : ℝ) : Input)) none none none with
      | .error e => some (.error e)
      | .ok fe => some (.ok ⟨fe.omega, fe.period, fe.wavenumber, fe.wavelength,
          if dopplered ≥ 0 then direction else direction + π⟩)
    | _, _ => none
  else
    some (.ok ⟨f.omega, f.period, f.wavenumber, f.wavelength, direction⟩)

/-- Outcome of the checks on the free surface and the depth. -/
inductive DepthError where
  | notPositive
  | both
  | freeSurface
  | bottomWithoutFreeSurface
  deriving DecidableEq

/-- `float(free_surface - sea_bottom)`; `none` stands for a sea bottom at `-np.inf`. -/
def depthOf : Input → Option ℝ → Input
  | none, _ => ⊤
  | some _, none => ⊤
  | some f, some z => ((f - z : ℝ) : Input)

open Classical in
/-- `_get_water_depth`, `deprecation_handling.py:7-20`; the default depth is infinite
(`problems_and_results.py:18-20`). -/
noncomputable def getWaterDepth (freeSurface : Input) (waterDepth : Option Input)
    (seaBottom : Option (Option ℝ)) : Except DepthError Input :=
  match waterDepth, seaBottom with
  | none, none => .ok ⊤
  | some d, none => if d ≤ (0 : ℝ) then .error .notPositive else .ok d
  | none, some z => .ok (depthOf freeSurface z)
  | some _, some _ => .error .both

open Classical in
/-- The tests on the free surface and on the depth in `_check_data`,
`problems_and_results.py:159-163` and `170-177`, after `_get_water_depth`. -/
noncomputable def acceptedDepth (freeSurface : Input) (waterDepth : Option Input)
    (seaBottom : Option (Option ℝ)) : Except DepthError Input :=
  match getWaterDepth freeSurface waterDepth seaBottom with
  | .error e => .error e
  | .ok d =>
    if ¬ (freeSurface = (0 : ℝ) ∨ freeSurface = ⊤) then .error .freeSurface
    else if freeSurface = ⊤ ∧ d ≠ ⊤ then .error .bottomWithoutFreeSurface
    else if d < (0 : ℝ) then .error .notPositive
    else .ok d

end Verif.Frequency
