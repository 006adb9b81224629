import Verif.Datasets.ExpandModel
import Mathlib.Data.List.Dedup

/-!
# Assembly of a dataset from results

Model of `io/xarray.py:218-254` (`_squeeze_dimensions`, `_dataset_from_dataframe`) and `312-491` (`assemble_dataset`), with the
contracts of pandas and xarray it relies on (`drop_duplicates`, `set_index`, `to_xarray`, `squeeze`, `merge`).

Simplifications: numbers are exact; a missing value (NaN) is `none`; the order of the labels along a dimension is not modelled, as
values are read by their labels; the attributes, the options `mesh` and `hydrostatics` and the import of bemio data are left out.
-/

namespace Verif.Datasets

/-- The columns of the data frame that serve as coordinates (`problems_and_results.py:233-246`, `443-446`, `529-534`;
`theta` in `xarray.py:284`). -/
inductive Col where
  | g
  | rho
  | bodyName
  | waterDepth
  | speed
  | direction
  | freq (k : FreqType)
  | radiatingDof
  | influencedDof
  | theta
  deriving DecidableEq

/-- A cell of these columns. -/
inductive Cell where
  | num (x : WithTop ℝ)
  | str (s : String)

/-- The columns that hold values (`problems_and_results.py:236-244`, `529-534`, `571-576`; `xarray.py:298`, `307` for the last
two). -/
inductive Var where
  | addedMass
  | damping
  | diffractionForce
  | froudeKrylov
  | excitation
  | freq (k : FreqType)
  | encounterOmega
  | encounterDirection
  | kochin
  | kochinDiffraction
  deriving DecidableEq

/-- `kind` (`problems_and_results.py:533`, `575`). -/
inductive Kind where
  | radiation
  | diffraction
  deriving DecidableEq

/-- A row of the data frame. -/
structure Rec (V : Type) where
  kind : Kind
  freeSurface : WithTop ℝ
  cell : Col → Cell
  value : Var → V

/-- A variable of a dataset: the dimensions along which it varies and its value at labels. -/
structure Arr (V : Type) where
  dims : List Col
  val : (Col → Cell) → Option V

/-- A dataset: the labels of its dimensions, its scalar coordinates and its variables. -/
structure DS (V : Type) where
  index : Col → Option (List Cell)
  scalar : Col → Option Cell
  var : Var → Option (Arr V)

/-- `xr.Dataset()`. -/
def DS.empty {V : Type} : DS V := ⟨fun _ => none, fun _ => none, fun _ => none⟩

open Classical in
/-- `df.drop_duplicates(columns)` keeps the first of the rows with the same cells in these columns (`xarray.py:250`). -/
noncomputable def dropDuplicates {V : Type} (cols : List Col) : List (Rec V) → List (Rec V)
  | [] => []
  | r :: rs => r :: (dropDuplicates cols rs).filter fun s => decide (¬ ∀ c ∈ cols, s.cell c = r.cell c)

open Classical in
/-- The labels along the dimension made from a column (`xarray.py:251-252`). -/
noncomputable def labels {V : Type} (c : Col) (rs : List (Rec V)) : List Cell := (rs.map fun r => r.cell c).dedup

/-- The scalar coordinate left by a squeezed dimension (`xarray.py:218-225`). -/
noncomputable def squeezed {V : Type} (dims opt : List Col) (rs : List (Rec V)) (c : Col) : Option Cell :=
  if c ∈ opt ∧ c ∉ dims then match labels c rs with
    | [x] => some x
    | _ => none
  else none

/-- The labels of a column that stays a dimension. -/
noncomputable def kept {V : Type} (dims opt : List Col) (rs : List (Rec V)) (c : Col) : Option (List Cell) :=
  if c ∈ opt ++ dims ∧ squeezed dims opt rs c = none then some (labels c rs) else none

open Classical in
/-- The cell of the array at labels: the row with these labels, or NaN (`to_xarray`, `xarray.py:250-252`). -/
noncomputable def lookupRow {V : Type} (dims opt : List Col) (rs : List (Rec V)) (v : Var) (a : Col → Cell) : Option V :=
  ((dropDuplicates (opt ++ dims) rs).find? fun r => decide (∀ c ∈ opt ++ dims, r.cell c = (squeezed dims opt rs c).getD (a c))).map
    fun r => r.value v

/-- `_dataset_from_dataframe` (`xarray.py:228-254`). -/
noncomputable def fromFrame {V : Type} (vars : List Var) (dims opt : List Col) (rs : List (Rec V)) : DS V where
  index := kept dims opt rs
  scalar := squeezed dims opt rs
  var v := if v ∈ vars then
      some ⟨(opt ++ dims).filter fun c => (kept dims opt rs c).isSome, lookupRow dims opt rs v⟩
    else none

/-- The union of the labels of two indexes (`join="outer"`). -/
def outer (l m : Option (List Cell)) : Option (List Cell) := match l, m with
  | none, none => none
  | some l, none => some l
  | none, some m => some m
  | some l, some m => some (l ++ m)

open Classical in
/-- `xr.merge([dataset, cases])` (`xarray.py:376`, `390`): the dimensions are joined by the union of their labels, an index takes the
place of a scalar coordinate of the same name, and different scalar coordinates are refused. Labels that a variable lacks hold NaN,
as `lookupRow` gives. -/
noncomputable def merge {V : Type} (d e : DS V) : Option (DS V) :=
  if ∃ c x y, d.index c = none ∧ e.index c = none ∧ d.scalar c = some x ∧ e.scalar c = some y ∧ x ≠ y then none
  else some
    { index := fun c => outer (d.index c) (e.index c)
      scalar := fun c => if outer (d.index c) (e.index c) = none then (d.scalar c).or (e.scalar c) else none
      var := fun v => (e.var v).or (d.var v) }

/-- `dataset.coords[name] = array` (`xarray.py:401-455`): the labels of the dataset are kept, a dimension that it lacks is added. -/
noncomputable def addCoord {V : Type} (d : DS V) (v : Var) (e : DS V) : DS V where
  index c := (d.index c).or (e.index c)
  scalar c := if ((d.index c).or (e.index c)).isSome then none else (d.scalar c).or (e.scalar c)
  var w := if w = v then e.var v else d.var w

/-- A sum, NaN if one of the terms is. -/
def addVals {V : Type} [Add V] : Option V → Option V → Option V
  | some p, some q => some (p + q)
  | _, _ => none

/-- `dataset['Froude_Krylov_force'] + dataset['diffraction_force']` (`xarray.py:391`). -/
noncomputable def addExcitation {V : Type} [Add V] (d : DS V) : DS V :=
  { d with var := fun v => if v = .excitation then (match d.var .froudeKrylov, d.var .diffractionForce with
      | some x, some y => some ⟨x.dims, fun a => addVals (x.val a) (y.val a)⟩
      | _, _ => none) else d.var v }

/-- `optional_dims` (`xarray.py:361`). -/
def envCols : List Col := [.g, .rho, .bodyName, .waterDepth, .speed]

/-- The columns on which another frequency depends besides the main one (`xarray.py:399`, `410`, `421`, `432`). -/
def freqOpt (main k : FreqType) : List Col :=
  match main, k with
  | .omega, .period => []
  | .period, .omega => []
  | .wavelength, .wavenumber => []
  | .wavenumber, .wavelength => []
  | _, _ => [.g, .waterDepth]

/-- The frequency of a given type as a coordinate, unless it is the main one (`xarray.py:393-436`). -/
noncomputable def addFreq {V : Type} (main : FreqType) (rs : List (Rec V)) (d : DS V) (k : FreqType) : DS V :=
  if k = main then d else addCoord d (.freq k) (fromFrame [.freq k] [.freq main] (freqOpt main k) rs)

open Classical in
/-- The coordinates added with forward speed (`xarray.py:438-457`). -/
noncomputable def addEncounter {V : Type} (main : FreqType) (rs : List (Rec V)) (d : DS V) : DS V :=
  if ∀ r ∈ rs, r.cell .speed = .num 0 then d
  else addCoord
    (addCoord d .encounterOmega (fromFrame [.encounterOmega] [.speed, .direction, .freq main] [.g, .waterDepth] rs))
    .encounterDirection (fromFrame [.encounterDirection] [.speed, .direction, .freq main] [] rs)

/-- `main_freq_type`: the most common of the provided types, the first one if several are (`xarray.py:347`). -/
def mainFreq (l : List FreqType) : Option FreqType := l.find? fun k => decide (∀ k' ∈ l, l.count k' ≤ l.count k)

/-- The radiation results (`xarray.py:366-376`). -/
noncomputable def radiationPart {V : Type} (main : FreqType) (rs : List (Rec V)) : DS V :=
  fromFrame [.addedMass, .damping] [.freq main, .radiatingDof, .influencedDof] (envCols ++ [.direction]) rs

/-- The diffraction results (`xarray.py:379-390`). -/
noncomputable def diffractionPart {V : Type} (main : FreqType) (rs : List (Rec V)) : DS V :=
  fromFrame [.diffractionForce, .froudeKrylov] [.freq main, .direction, .influencedDof] envCols rs

/-- The rows of a kind. -/
def ofKind {V : Type} (k : Kind) (rs : List (Rec V)) : List (Rec V) := rs.filter fun r => r.kind = k

open Classical in
/-- The cases without a free surface are ignored (`xarray.py:349-353`). -/
noncomputable def withSurface {V : Type} (rs : List (Rec V)) : List (Rec V) := rs.filter fun r => decide (r.freeSurface = 0)

/-- The radiation and diffraction results in a dataset (`xarray.py:363-391`). -/
noncomputable def results {V : Type} [Add V] (main : FreqType) (rs : List (Rec V)) : Option (DS V) :=
  (if ofKind .radiation rs = [] then some DS.empty else merge DS.empty (radiationPart main (ofKind .radiation rs))).bind fun d =>
    if ofKind .diffraction rs = [] then some d
    else (merge d (diffractionPart main (ofKind .diffraction rs))).map addExcitation

/-- `assemble_dataset` with its default options (`xarray.py:312-491`); `none` is an exception, for instance without any row, when the data
frame has no columns (`xarray.py:200-206`). -/
noncomputable def assemble {V : Type} [Add V] (main : FreqType) (rs : List (Rec V)) : Option (DS V) :=
  if rs.isEmpty then none
  else (results main (withSurface rs)).map fun d =>
    addEncounter main (withSurface rs)
      ([FreqType.omega, .period, .wavenumber, .wavelength].foldl (addFreq main (withSurface rs)) d)

end Verif.Datasets
