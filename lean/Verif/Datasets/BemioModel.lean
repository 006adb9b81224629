import Mathlib.Data.Rat.Defs
import Mathlib.Algebra.Order.Field.Rat
import Mathlib.Data.List.Sort

/-!
# Tables built from bemio objects (C51)

Model of `dataframe_from_bemio` (`io/bemio.py:12-153`). The wavenumber, the wavelength and the period of a row are
functions of its frequency and are left out, as well as the constant columns. The directions stay in degrees. The numbers
are rational. The arrays have the shapes given by the lists of frequencies and of directions, except the second dimension
of the added mass, which is a field of the body. `none` stands for any exception.
-/

namespace Verif.Datasets

/-- A body of a `bemio` object: the fields read by `dataframe_from_bemio`. The arrays are functions of the indices. -/
structure BemBody where
  /-- `name`. -/
  name : String
  /-- `bem_code`. -/
  code : String
  /-- `rho` and `g`. -/
  rho : ℚ
  g : ℚ
  /-- `w`. -/
  w : List ℚ
  /-- `wave_dir`. -/
  dirs : List ℚ
  /-- `ex.re` and `ex.im`, with the indices of the dof, of the direction and of the frequency. -/
  exRe : ℕ → ℕ → ℕ → ℚ
  exIm : ℕ → ℕ → ℕ → ℚ
  /-- `ex.fk`, when the attribute exists. -/
  fk : Option ((ℕ → ℕ → ℕ → ℚ) × (ℕ → ℕ → ℕ → ℚ))
  /-- `am.all` and `rd.all`, with the indices of the radiating dof, of the influenced dof and of the frequency. -/
  am : ℕ → ℕ → ℕ → ℚ
  rd : ℕ → ℕ → ℕ → ℚ
  /-- The second dimension of `am.all` and of `rd.all`. -/
  cols : ℕ

/-- A row of the first table (`io/bemio.py:46-97`), after `explode` on the influenced dofs (`io/bemio.py:140`). -/
structure ForceRow where
  body : String
  rho : ℚ
  g : ℚ
  omega : ℚ
  dir : ℚ
  dof : ℕ
  re : ℚ
  im : ℚ
  fkRe : ℚ
  fkIm : ℚ

/-- A row of the second table (`io/bemio.py:101-136`), after `explode` on the influenced dofs (`io/bemio.py:141`). -/
structure CoefRow where
  body : String
  rho : ℚ
  g : ℚ
  omega : ℚ
  radiating : ℕ
  influenced : ℕ
  addedMass : ℚ
  damping : ℚ

/-- A value multiplied by a factor if `from_wamit` (`io/bemio.py:74-79`, `84-89`, `116-118`). -/
def scaled (wamit : Bool) (k x : ℚ) : ℚ := if wamit then x * k else x

/-- The rows of a frequency and a direction (`io/bemio.py:45-97`): `omega` is the frequency in the sorted list, and `o` its
index. -/
def forceRows (b : BemBody) (rho g : ℚ) (wamit : Bool) (omega : ℚ) (o : ℕ) (dir : ℚ) (d : ℕ) : List ForceRow :=
  (List.range 6).map fun k =>
    { body := b.name, rho := rho, g := g, omega := omega, dir := dir, dof := k
      re := scaled wamit (rho * g) (b.exRe k d o), im := scaled wamit (rho * g) (b.exIm k d o)
      fkRe := match b.fk with
        | some f => scaled wamit (rho * g) (f.1 k d o)
        | none => 0
      fkIm := match b.fk with
        | some f => scaled wamit (rho * g) (f.2 k d o)
        | none => 0 }

/-- The rows of a frequency and a radiating dof (`io/bemio.py:100-136`). -/
def coefRows (b : BemBody) (rho g : ℚ) (wamit : Bool) (omega : ℚ) (o : ℕ) (r : ℕ) : List CoefRow :=
  (List.range 6).map fun k =>
    { body := b.name, rho := rho, g := g, omega := omega, radiating := r, influenced := k
      addedMass := scaled wamit rho (b.am r k o), damping := scaled wamit (rho * omega) (b.rd r k o) }

/-- The variables of the function: `difr_dict`, `rad_dict`, and `from_wamit` once it is assigned. -/
structure BemState where
  force : List ForceRow
  coef : List CoefRow
  wamit : Option Bool

/-- An iteration on the bodies (`io/bemio.py:30-136`). Reading `from_wamit` before any assignment raises
`UnboundLocalError`. -/
def bemioBody (rho g : ℚ) (s : BemState) (b : BemBody) : Option BemState :=
  let wamit := if b.code = "WAMIT" then some true else s.wamit
  let sorted := (b.w.mergeSort (· ≤ ·)).zipIdx
  match wamit with
  | none => if sorted = [] then some ⟨[], [], none⟩ else none
  | some fw => some
    { force := sorted.flatMap fun p => b.dirs.zipIdx.flatMap fun q => forceRows b rho g fw p.1 p.2 q.1 q.2
      coef := sorted.flatMap fun p => (List.range 6).flatMap fun r => coefRows b rho g fw p.1 p.2 r
      wamit := some fw }

/-- `dataframe_from_bemio` (`io/bemio.py:12-153`) for the list of bodies of a `bemio` object: the two parts of the table.
`explode` (`io/bemio.py:139-142`) raises `KeyError` for an empty table, and `ValueError` when the number of influenced dofs
is not six. -/
def dataframeFromBemio (bodies : List BemBody) : Option (List ForceRow × List CoefRow) :=
  match bodies with
  | [] => none
  | b0 :: _ =>
    match bodies.foldlM (bemioBody b0.rho b0.g) ⟨[], [], none⟩ with
    | none => none
    | some s =>
      if s.force = [] ∨ s.coef = [] ∨ (bodies.getLast?.map BemBody.cols) ≠ some 6 then none
      else some (s.force, s.coef)

end Verif.Datasets
