import Mathlib.Data.Complex.Basic
import Mathlib.Analysis.Complex.Norm
import Mathlib.Analysis.SpecialFunctions.Complex.Arg

/-!
# Result files in the format of Nemoh

Model of `write_dataset_as_tecplot_files`, `export_hydrostatics` and of the end of `run_cal_file`
(`capytaine/io/legacy.py:225-328`).  A directory is a function from the names of its files to their
content; a file is a list of lines and a line is a list of words.  The formats of the numbers are
parameters.  A file is opened before its first line is computed, so that an exception leaves the
words written before it (Python closes the file when it leaves the `with` block).
-/

namespace Verif.Files.Legacy

/-- A word of a file, either a fixed text or a formatted number (`io/legacy.py:231-258`,
`265-267`).  The spaces between the words are left out. -/
inductive Word (N : Type) where
  | text (s : String)
  | num (n : N)
  deriving DecidableEq

/-- A file as the list of its lines (`io/legacy.py:229-258`). -/
abbrev File (N : Type) := List (List (Word N))

/-- The content of a directory, `none` for the names that are not there
(`io/legacy.py:229`, `302-312`). -/
abbrev Dir (N : Type) := String → Option (File N)

/-- What remains of the words of a list of lines that are computed one after the other, with `none`
for the first word whose computation raises an exception, and whether all of them have been written
(`io/legacy.py:232-242`, `249-258`). -/
def emit {N : Type} : List (List (Option (Word N))) → File N × Bool
  | [] => ([], true)
  | l :: ls =>
    if l.all Option.isSome then ((l.filterMap id) :: (emit ls).1, (emit ls).2)
    else ([(l.takeWhile Option.isSome).filterMap id], false)

/-- The part of a dataset used by the writer (`io/legacy.py:228-258`): the labels of the
coordinates, whether `omega` is a dimension (it is only a coordinate when the problems are given by
their period or wavelength), whether the variables have no other dimension, and the variables by
position (frequency, then radiating dof or direction, then influenced dof). -/
structure Results where
  omega : List ℝ
  radiating : List String
  influenced : List String
  directions : List ℝ
  byOmega : Bool
  scalar : Bool
  addedMass : Option (ℕ → ℕ → ℕ → ℝ)
  damping : Option (ℕ → ℕ → ℕ → ℝ)
  froudeKrylov : Option (ℕ → ℕ → ℕ → ℂ)
  diffraction : Option (ℕ → ℕ → ℕ → ℂ)
  excitation : Option (ℕ → ℕ → ℕ → ℂ)

/-- The position of a label for `sel`, which gives a single number when the label is there once
(`io/legacy.py:237`, `253`). -/
def pos {α : Type} [DecidableEq α] (labels : List α) (x : α) : Option ℕ :=
  if labels.count x = 1 then some (labels.idxOf x) else none

/-- `data[v].sel(omega=o, …=b, influenced_dof=c).values` as a number (`io/legacy.py:237-239`,
`253`).  `none` is an exception of `sel`, or of the format when the result is an array. -/
noncomputable def Results.sel {α V : Type} [DecidableEq α] (r : Results) (labels : List α)
    (v : Option (ℕ → ℕ → ℕ → V)) (o : ℝ) (b : α) (c : String) : Option V :=
  if r.byOmega && r.scalar then
    match v, pos r.omega o, pos labels b, pos r.influenced c with
    | some v, some i, some j, some k => some (v i j k)
    | _, _, _, _ => none
  else none

/-- A line of the radiation file (`io/legacy.py:235-242`). -/
noncomputable def Results.radiationRow {N : Type} (e : ℝ → N) (r : Results) (d : String) (o : ℝ) :
    List (Option (Word N)) :=
  some (.num (e o)) :: r.influenced.flatMap fun c =>
    [(r.sel r.radiating r.addedMass o d c).map fun x : ℝ => .num (e x),
     (r.sel r.radiating r.damping o d c).map fun x : ℝ => .num (e x)]

/-- The lines of the radiation file (`io/legacy.py:230-242`). -/
noncomputable def Results.radiationLines {N : Type} (e : ℝ → N) (r : Results) :
    List (List (Option (Word N))) :=
  List.replicate (r.radiating.length + 1) [some (.text "...")] ++
    r.radiating.flatMap fun d => [some (.text d)] :: r.omega.map fun o => r.radiationRow e d o

/-- A line of the excitation file (`io/legacy.py:251-258`). -/
noncomputable def Results.excitationRow {N : Type} (e : ℝ → N) (r : Results) (b o : ℝ) :
    List (Option (Word N)) :=
  some (.num (e o)) :: r.influenced.flatMap fun c =>
    [(r.sel r.directions r.excitation o b c).map fun z : ℂ => .num (e ‖z‖),
     (r.sel r.directions r.excitation o b c).map fun z : ℂ => .num (e z.arg)]

/-- The lines of the excitation file (`io/legacy.py:247-258`); the direction is written with the
default format of numbers. -/
noncomputable def Results.excitationLines {N : Type} (e s : ℝ → N) (r : Results) :
    List (List (Option (Word N))) :=
  List.replicate (r.influenced.length + 1) [some (.text "...")] ++
    r.directions.flatMap fun b =>
      [some (.text "angle="), some (.num (s b))] :: r.omega.map fun o => r.excitationRow e b o

/-- The outcome of a call: the directory and the dataset after it, and whether it has returned
without an exception (`io/legacy.py:225-258`). -/
structure Outcome (N : Type) where
  dir : Dir N
  data : Results
  ok : Bool

/-- The second half of `write_dataset_as_tecplot_files` (`io/legacy.py:244-258`). -/
noncomputable def writeExcitation {N : Type} (e s : ℝ → N) (dir : Dir N) (r : Results) :
    Outcome N :=
  match r.diffraction, r.froudeKrylov with
  | none, _ => ⟨dir, r, true⟩
  | some _, none => ⟨dir, r, false⟩
  | some d, some f =>
    let r' := { r with excitation := some fun i j k => f i j k + d i j k }
    let w := emit (r'.excitationLines e s)
    ⟨Function.update dir "ExcitationForce.tec" (some w.1), r', w.2⟩

/-- `write_dataset_as_tecplot_files` (`io/legacy.py:225-258`). -/
noncomputable def writeTecplot {N : Type} (e s : ℝ → N) (dir : Dir N) (r : Results) : Outcome N :=
  match r.addedMass with
  | none => writeExcitation e s dir r
  | some _ =>
    let w := emit (r.radiationLines e)
    let dir' := Function.update dir "RadiationCoefficients.tec" (some w.1)
    if w.2 then writeExcitation e s dir' r else ⟨dir', r, false⟩

/-- `run_cal_file` after the assembly of the dataset (`io/legacy.py:321-328`): the directory is
created or, with a warning, used as it is. -/
noncomputable def runCalEnd {N : Type} (e s : ℝ → N) (results : Option (Dir N)) (r : Results) :
    Outcome N × Bool :=
  match results with
  | none => (writeTecplot e s (fun _ => none) r, false)
  | some d => (writeTecplot e s d r, true)

/-- The attributes of a body used by `export_hydrostatics` (`io/legacy.py:261-270`), `none` for a
center of mass that is not set and for a missing `hydrostatic_stiffness`. -/
structure HBody where
  buoyancy : ℕ → ℝ
  mass : Option (ℕ → ℝ)
  volume : ℝ
  stiffness : Option (List (List ℝ))

/-- The lines of `Hydrostatics.dat` (`io/legacy.py:264-268`). -/
noncomputable def HBody.lines {N : Type} (f4 e6 : ℝ → N) (b : HBody) :
    List (List (Option (Word N))) :=
  ((List.range 3).map fun j =>
    [some (.text "XF ="), some (.num (f4 (b.buoyancy j))), some (.text "- XG ="),
      b.mass.map fun m : ℕ → ℝ => .num (f4 (m j))]) ++
    [[some (.text "Displacement ="), some (.num (e6 b.volume))]]

/-- What is left in `Hydrostatics.dat` (`io/legacy.py:263-268`): a line is written at once, after
all its numbers have been computed, so that nothing is left of a line that fails. -/
noncomputable def HBody.file {N : Type} (f4 e6 : ℝ → N) (b : HBody) : File N × Bool :=
  if b.mass.isSome then ((b.lines f4 e6).map (·.filterMap id), true) else ([], false)

/-- `_hydrostatics_writer` (`io/legacy.py:261-270`). -/
noncomputable def writeBody {N : Type} (f4 e6 : ℝ → N) (hname kname : String) (dir : Dir N)
    (b : HBody) : Dir N × Bool :=
  let dir' := Function.update dir hname (some (b.file f4 e6).1)
  if (b.file f4 e6).2 then
    match b.stiffness with
    | none => (dir', false)
    | some k => (Function.update dir' kname (some (k.map (·.map fun x : ℝ => .num (e6 x)))), true)
  else (dir', false)

/-- The loop on several bodies (`io/legacy.py:309-312`), from the number `i`; it stops at the first
exception. -/
noncomputable def writeBodies {N : Type} (f4 e6 : ℝ → N) : ℕ → Dir N → List HBody → Dir N × Bool
  | _, dir, [] => (dir, true)
  | i, dir, b :: bs =>
    let w := writeBody f4 e6 ("Hydrostatics_" ++ toString i ++ ".dat")
      ("KH_" ++ toString i ++ ".dat") dir b
    if w.2 then writeBodies f4 e6 (i + 1) w.1 bs else w

/-- `export_hydrostatics` on a list of bodies (`io/legacy.py:273-312`); a body that is not in a list
is treated as a list of one body (`io/legacy.py:296-297`).  The last component tells whether the
warning is given. -/
noncomputable def exportHydrostatics {N : Type} (f4 e6 : ℝ → N) (old : Option (Dir N))
    (bodies : List HBody) : (Dir N × Bool) × Bool :=
  let dir : Dir N := old.getD fun _ => none
  (match bodies with
    | [b] => writeBody f4 e6 "Hydrostatics.dat" "KH.dat" dir b
    | bs => writeBodies f4 e6 0 dir bs, old.isSome)

end Verif.Files.Legacy
