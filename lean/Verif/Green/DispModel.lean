import Mathlib.Analysis.SpecialFunctions.Complex.Log
import Mathlib.Analysis.SpecialFunctions.Sqrt

/-!
# The roots of the dispersion relation in FinGreen3D

Model of `DISPERSION` (`capytaine/green_functions/FinGreen3D/FinGreen3D.f90:156-242`) and of `compute_dispersion_roots`
(`capytaine/green_functions/libDelhommeau/src/Green_wave.f90:560-579`).

Simplifications: exact arithmetic, so the literals `1.E-10` and `0.0305` of single precision are the decimal numbers, and `PI` is `π`; the
loops are given a number of turns and have no value when it is exhausted.
-/

namespace Verif.Green.Disp

open Real

/-- The acceleration of gravity of `DISPERSION` (`FinGreen3D.f90:173`). -/
noncomputable def gravityF : ℝ := 9.807

/-- The acceleration of gravity of `compute_dispersion_roots` (`Green_wave.f90:568`). -/
noncomputable def gravityC : ℝ := 9.81

/-- `omega` (`Green_wave.f90:568`). -/
noncomputable def omegaOf (k : ℝ) : ℝ := sqrt (k * gravityC)

/-- `X` (`FinGreen3D.f90:184`). -/
noncomputable def reduced (w h : ℝ) : ℝ := w * w * h / gravityF

open Classical in
/-- The first approximation (`FinGreen3D.f90:185-190`). -/
noncomputable def start (x : ℝ) : ℝ :=
  if 0 < x ∧ x ≤ 2 then sqrt x * (0.9994 + 0.1701 * x + 0.0305 * x * x)
  else x + 2 * (x * exp (-2 * x)) - 6 * (x * exp (-2 * x)) * (x * exp (-2 * x))

/-- `FUN` of the first loop (`FinGreen3D.f90:200`). -/
noncomputable def fun1 (x t : ℝ) : ℝ := log ((t + x) / (t - x)) / 2 - t

/-- `DFUN` of the first loop (`FinGreen3D.f90:199,201`). -/
noncomputable def dfun1 (x t : ℝ) : ℝ := -x / (t * t - x * x) - 1

/-- `D2FUN` of the first loop (`FinGreen3D.f90:199,202`). -/
noncomputable def d2fun1 (x t : ℝ) : ℝ := 2 * x * t / ((t * t - x * x) * (t * t - x * x))

/-- One step of the iterations (`FinGreen3D.f90:203,233`). -/
noncomputable def move (t f d d2 : ℝ) : ℝ := t - f / d * (1 + f / d * (d2 / d) / 2)

open Classical in
/-- The loops (`FinGreen3D.f90:197-206,226-236`). -/
noncomputable def iterate (f d d2 : ℝ → ℝ) : ℕ → ℝ → Option ℝ
  | 0, _ => none
  | n + 1, t =>
    let y := move t (f t) (d t) (d2 t)
    if 1 / 10 ^ 10 < |y - t| then iterate f d d2 n y else some y

open Classical in
/-- The first root (`FinGreen3D.f90:192-208`). -/
noncomputable def firstRoot (n : ℕ) (w h : ℝ) : Option ℝ :=
  let x := reduced w h
  if |start x - x| < 1 / 10 ^ 10 then some (x / h)
  else (iterate (fun1 x) (dfun1 x) (d2fun1 x) n (start x)).map (· / h)

/-- `Y` of the second loop (`FinGreen3D.f90:228`); `i` counts the evanescent modes from 1. -/
noncomputable def modeY (i : ℕ) (t : ℝ) : ℝ := i * π - t

/-- `FUN` of the second loop (`FinGreen3D.f90:230`). `ATAN2` is the argument of a complex number. -/
noncomputable def fun2 (x : ℝ) (i : ℕ) (t : ℝ) : ℝ := Complex.arg ⟨modeY i t, x⟩ - t

/-- `DFUN` of the second loop (`FinGreen3D.f90:229,231`). -/
noncomputable def dfun2 (x : ℝ) (i : ℕ) (t : ℝ) : ℝ := x / (modeY i t * modeY i t + x * x) - 1

/-- `D2FUN` of the second loop (`FinGreen3D.f90:229,232`). -/
noncomputable def d2fun2 (x : ℝ) (i : ℕ) (t : ℝ) : ℝ :=
  2 * x * t / ((modeY i t * modeY i t + x * x) * (modeY i t * modeY i t + x * x))

/-- The first approximation of the first evanescent mode (`FinGreen3D.f90:217-218`). -/
noncomputable def start2 (x : ℝ) : ℝ :=
  let u := 3 * x / (7 + 3 * x)
  0.0159 + 0.1032 * u + 4.3152 * u * u - 2.8768 * u * u * u

/-- The loop on the evanescent modes (`FinGreen3D.f90:223-240`), from the mode `i`, for `m` modes. -/
noncomputable def modes (n : ℕ) (x h : ℝ) : ℕ → ℕ → ℝ → Option (List ℝ)
  | 0, _, _ => some []
  | m + 1, i, t =>
    (iterate (fun2 x i) (dfun2 x i) (d2fun2 x i) n t).bind fun t' =>
    (modes n x h m (i + 1) (t' - π * x / (x * x + π * (i + 1) * (π * i - t')))).map fun l => modeY i t' / h :: l

/-- `DISPERSION` (`FinGreen3D.f90:156-242`), for `nrt ≥ 1` roots. -/
noncomputable def dispersion (n nrt : ℕ) (w h : ℝ) : Option (List ℝ) :=
  (firstRoot n w h).bind fun k => (modes n (reduced w h) h (nrt - 1) 1 (start2 (reduced w h))).map fun l => k :: l

/-- `compute_dispersion_roots` (`Green_wave.f90:560-579`), with FinGreen3D compiled. -/
noncomputable def dispersionRoots (n nk : ℕ) (k h : ℝ) : Option (List ℝ) := dispersion n nk (omegaOf k) h

end Verif.Green.Disp
