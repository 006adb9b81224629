import Mathlib.Data.Real.Basic
import Mathlib.Order.WithBot
import Mathlib.Data.List.Perm.Basic

/-!
# Expansion of a test matrix

Model of `io/xarray.py:45-160` (`problems_from_dataset`).

Simplifications: the entries of the test matrix are coordinates, each along its own dimension (scalar coordinates are
dimensions of size one, `xarray.py:35-42`); the warnings are not modelled; numbers are exact and `np.inf` is `⊤`. Building a
problem and sorting are parameters: a constructor which can raise, and a function which permutes the list.
-/

namespace Verif.Datasets

/-- The ways to give a frequency. -/
inductive FreqType where
  | omega
  | period
  | wavelength
  | wavenumber
  deriving DecidableEq

/-- The coordinates of a test matrix (`xarray.py:79-119`). -/
structure TestMatrix where
  freq : FreqType → Option (List (WithTop ℝ))
  depth : Option (List (WithTop ℝ))
  rho : Option (List ℝ)
  g : Option (List ℝ)
  speed : Option (List ℝ)
  direction : Option (List ℝ)
  dof : Option (List String)
  body : Option (List String)

/-- The arguments with which a problem is built (`xarray.py:127-129`, `144-157`). -/
inductive Pb where
  | diffraction (body : String) (ft : FreqType) (f : WithTop ℝ) (dir : ℝ) (h : WithTop ℝ) (U ρ g : ℝ)
  | radiation (body : String) (ft : FreqType) (f : WithTop ℝ) (dof : String) (dir : ℝ) (h : WithTop ℝ) (U ρ g : ℝ)

/-- What can be raised. -/
inductive ExpandError (E : Type) where
  | sameNames
  | nothingToSolve
  | severalFrequencies
  | unknownBody
  | limitFrequency
  | constructor (e : E)

/-- The default values (`problems_and_results.py:18-20`). -/
noncomputable def defaultOmega : WithTop ℝ := ((1 : ℝ) : WithTop ℝ)

/-- The frequency keys that are present (`xarray.py:91`). -/
def TestMatrix.keys (t : TestMatrix) : List FreqType :=
  [FreqType.omega, .period, .wavelength, .wavenumber].filter fun k => (t.freq k).isSome

/-- `freq_type` and `freq_range` (`xarray.py:97-102`). -/
noncomputable def TestMatrix.range (t : TestMatrix) : FreqType × List (WithTop ℝ) :=
  match t.keys with
  | [] => (.omega, [defaultOmega])
  | k :: _ => (k, (t.freq k).getD [])

/-- `water_depth_range` (`xarray.py:104`). -/
def TestMatrix.depths (t : TestMatrix) : List (WithTop ℝ) := t.depth.getD [⊤]

/-- `rho_range` (`xarray.py:105`). -/
def TestMatrix.rhos (t : TestMatrix) : List ℝ := t.rho.getD [1000]

/-- `g_range` (`xarray.py:106`). -/
noncomputable def TestMatrix.gs (t : TestMatrix) : List ℝ := t.g.getD [9.81]

/-- `forward_speed_range` (`xarray.py:107`). -/
def TestMatrix.speeds (t : TestMatrix) : List ℝ := t.speed.getD [0]

/-- The names in `body_range` (`xarray.py:113-119`). -/
def TestMatrix.bodies {B : Type} (t : TestMatrix) (bodies : List (String × B)) : List String :=
  match t.body with
  | some names => (bodies.map (·.1)).filter fun n => decide (n ∈ names)
  | none => bodies.map (·.1)

/-- The combinations of the parameters that follow the frequency and the direction or dof in `itertools.product`
(`xarray.py:123-124`, `140-141`). -/
noncomputable def TestMatrix.rest {B : Type} (t : TestMatrix) (bodies : List (String × B)) : List (WithTop ℝ × String × ℝ × ℝ × ℝ) :=
  t.depths.flatMap fun h => (t.bodies bodies).flatMap fun b => t.speeds.flatMap fun U => t.rhos.flatMap fun ρ => t.gs.map fun g =>
    (h, b, U, ρ, g)

/-- A problem is built and appended (`problems.append(...)`). -/
def build {B E P : Type} (mk : B → Pb → Except E P) (bodies : List (String × B)) (name : String) (q : Pb) :
    Except (ExpandError E) (List P) :=
  match bodies.lookup name with
  | none => .error .unknownBody
  | some b => match mk b q with
    | .error e => .error (.constructor e)
    | .ok p => .ok [p]

/-- A loop which stops at the first exception. -/
def loop {α E P : Type} (f : α → Except E (List P)) : List α → Except E (List P)
  | [] => .ok []
  | a :: r => match f a with
    | .error e => .error e
    | .ok ps => match loop f r with
      | .error e => .error e
      | .ok qs => .ok (ps ++ qs)

open Classical in
/-- The loop on diffraction problems (`xarray.py:122-137`). -/
noncomputable def diffractions {B E P : Type} (mk : B → Pb → Except E P) (t : TestMatrix) (bodies : List (String × B)) (dirs : List ℝ) :
    Except (ExpandError E) (List P) :=
  loop (fun (x : WithTop ℝ × ℝ × WithTop ℝ × String × ℝ × ℝ × ℝ) => match x with
    | (f, dir, h, b, U, ρ, g) =>
      if f ≠ 0 ∧ f ≠ ⊤ then build mk bodies b (.diffraction b t.range.1 f dir h U ρ g)
      else if t.dof.isSome then .ok []
      else .error .limitFrequency)
    (t.range.2.flatMap fun f => dirs.flatMap fun dir => (t.rest bodies).map fun r => (f, dir, r))

open Classical in
/-- The loop on radiation problems (`xarray.py:139-158`). When no direction is given, `wave_direction_range` becomes `[0.0]` at the
first non-zero speed. -/
noncomputable def radiations {B E P : Type} (mk : B → Pb → Except E P) (t : TestMatrix) (bodies : List (String × B)) (dofs : List String) :
    Except (ExpandError E) (List P) :=
  loop (fun (x : WithTop ℝ × String × WithTop ℝ × String × ℝ × ℝ × ℝ) => match x with
    | (f, dof, h, b, U, ρ, g) =>
      if U = 0 then build mk bodies b (.radiation b t.range.1 f dof 0 h U ρ g)
      else loop (fun dir => build mk bodies b (.radiation b t.range.1 f dof dir h U ρ g)) (t.direction.getD [0]))
    (t.range.2.flatMap fun f => dofs.flatMap fun dof => (t.rest bodies).map fun r => (f, dof, r))

open Classical in
/-- `problems_from_dataset` (`xarray.py:45-160`). -/
noncomputable def problemsFromDataset {B E P : Type} (mk : B → Pb → Except E P) (sort : List P → List P) (t : TestMatrix)
    (bodies : List (String × B)) : Except (ExpandError E) (List P) :=
  if ¬ (bodies.map (·.1)).Nodup then .error .sameNames
  else if t.dof = none ∧ t.direction = none then .error .nothingToSolve
  else if t.keys.length > 1 then .error .severalFrequencies
  else if ¬ ∀ n ∈ t.body.getD [], n ∈ bodies.map (·.1) then .error .unknownBody
  else match (match t.direction with | some dirs => diffractions mk t bodies dirs | none => .ok []) with
    | .error e => .error e
    | .ok ds => match (match t.dof with | some dofs => radiations mk t bodies dofs | none => .ok []) with
      | .error e => .error e
      | .ok rs => .ok (sort (ds ++ rs))

end Verif.Datasets
