import Verif.Green.RankineModel
import Mathlib.Data.Complex.Basic
import Mathlib.Analysis.Real.Pi.Bounds

/-!
# Assembly of the matrices

Model of `BUILD_MATRICES` (`green_functions/libDelhommeau/src/matrices.f90:18-351`): the instructions executed for each
entry, and the threads of the loop `!$OMP PARALLEL DO SCHEDULE(DYNAMIC)`.

Simplifications: numbers are exact; the integrals over panels are given; what is written in the matrices is the last value
given to each entry, and an entry that has not been written has no value (the arrays come from `np.empty`).
-/

namespace Verif.Green

open Verif.Geometry V3

/-- `gf_singularities` (`constants.f90:38-40`). -/
inductive Singularities where
  | highFreq
  | lowFreq
  | lowFreqWithRankinePart
  deriving DecidableEq

/-- `finite_depth_method` (`constants.f90:33-35`). -/
inductive FiniteDepth where
  | legacy
  | newer
  | finGreen3D
  deriving DecidableEq

/-- The inputs of `BUILD_MATRICES`. The columns of `K` are one (`early_dot_product`) or three. The integrals of the Rankine and
wave terms over the panels are given for each pair of panels. `depth` is `none` when it is infinite. -/
structure Inputs where
  n1 : ℕ
  n2 : ℕ
  sameBody : Bool
  adjoint : Bool
  early : Bool
  singularities : Singularities
  method : FiniteDepth
  depth : Option ℝ
  wavenumber : ℂ
  coeffs : Fin 3 → ℂ
  heights : ℕ → ℝ
  normals : ℕ → V3 ℂ
  rankine : ℕ → ℕ → ℂ × V3 ℂ
  reflected : ℕ → ℕ → Reflection → ℂ × V3 ℂ
  onePoint : ℕ → ℕ → Reflection → ℂ × V3 ℂ
  wave : ℕ → ℕ → ℂ × V3 ℂ

/-- The private variables of a thread (`matrices.f90:96-97`). -/
structure Locals where
  G : ℂ
  nablaG : V3 ℂ
  GRankine : ℂ
  nablaGRankine : V3 ℂ
  diagonal : ℂ
  GWave : ℂ
  nablaGWave : V3 ℂ

/-- An instruction: an assignment to private variables or a write in one of the matrices. -/
inductive Op where
  | set (f : Locals → Locals)
  | writeS (i j : ℕ) (f : Locals → ℂ)
  | writeK (i j c : ℕ) (f : Locals → ℂ)

/-- A call followed by the two accumulations with the coefficient `c`, for instance `matrices.f90:127-139`. -/
def addRankine (c : ℂ) (r : ℂ × V3 ℂ) : List Op :=
  [.set fun l => { l with GRankine := r.1, nablaGRankine := r.2 },
    .set fun l => { l with G := l.G + c * l.GRankine },
    .set fun l => { l with nablaG := l.nablaG + c • l.nablaGRankine }]

/-- The normal vector used in the scalar products (`matrices.f90:115-119`, `273-277`). -/
def Inputs.normal (p : Inputs) (i j : ℕ) : V3 ℂ := if p.adjoint then p.normals i else p.normals j

/-- The coordinates of a vector. -/
def coord (v : V3 ℂ) : ℕ → ℂ
  | 0 => v.x
  | 1 => v.y
  | _ => v.z

/-- The coefficients divided by `-4 PI` (`matrices.f90:93`), with the exact value of π. -/
noncomputable def Inputs.coeff (p : Inputs) (a : Fin 3) : ℂ := p.coeffs a / (-4 * (Real.pi : ℂ))

open Classical in
/-- Diagonal term (`matrices.f90:107-120`). -/
noncomputable def diagonalOps (p : Inputs) (i j : ℕ) : List Op :=
  if i = j ∧ p.sameBody = true then
    [.set fun l => { l with diagonal := if |p.heights j| < 1e-8 then 1 else 1 / 2 },
      .set fun l => { l with nablaG := l.nablaG + l.diagonal • p.normal i j }]
  else []

open Classical in
/-- Rankine part (`matrices.f90:125-140`). -/
noncomputable def rankineOps (p : Inputs) (i j : ℕ) : List Op :=
  if p.coeff 0 ≠ 0 then addRankine (p.coeff 0) (p.rankine i j) else []

/-- Supplementary Rankine parts in finite depth (`matrices.f90:184-236`). -/
noncomputable def depthOps (p : Inputs) (i j : ℕ) : List Op :=
  match p.depth with
  | none => []
  | some h =>
    if p.method = .finGreen3D then []
    else addRankine (p.coeff 1) (p.reflected i j ⟨-1, -2 * h⟩) ++ addRankine (p.coeff 1) (p.onePoint i j ⟨1, -2 * h⟩) ++
      addRankine (p.coeff 1) (p.onePoint i j ⟨1, 2 * h⟩) ++ addRankine (p.coeff 1) (p.onePoint i j ⟨-1, -4 * h⟩)

/-- The reflection through the free surface, from one point or exact (`matrices.f90:149-173`). -/
def Inputs.surface (p : Inputs) (i j : ℕ) : ℂ × V3 ℂ :=
  if p.depth ≠ none ∧ p.method = .legacy then p.onePoint i j ⟨-1, 0⟩ else p.reflected i j ⟨-1, 0⟩

open Classical in
/-- Reflected Rankine part (`matrices.f90:146-238`). -/
noncomputable def reflectedOps (p : Inputs) (i j : ℕ) : List Op :=
  if p.coeff 1 ≠ 0 ∨ (p.singularities = .lowFreqWithRankinePart ∧ p.coeff 2 ≠ 0) then
    addRankine (p.coeff 1) (p.surface i j) ++
    (if p.singularities = .lowFreqWithRankinePart then
      [.set fun l => { l with nablaG := ⟨l.nablaG.x, l.nablaG.y, l.nablaG.z + p.coeff 2 * 2 * p.wavenumber * l.GRankine⟩ }]
     else []) ++ depthOps p i j
  else []

open Classical in
/-- Wave part (`matrices.f90:243-265`). -/
noncomputable def waveOps (p : Inputs) (i j : ℕ) : List Op :=
  if p.coeff 2 ≠ 0 then
    [.set fun l => { l with GWave := (p.wave i j).1, nablaGWave := (p.wave i j).2 },
      .set fun l => { l with G := l.G + p.coeff 2 * l.GWave },
      .set fun l => { l with nablaG := l.nablaG + p.coeff 2 • l.nablaGWave }]
  else []

/-- Writing the entries (`matrices.f90:270-280`). -/
noncomputable def writeOps (p : Inputs) (i j : ℕ) : List Op :=
  .writeS i j (fun l => l.G) ::
    if p.early then [.writeK i j 0 fun l => dot (p.normal i j) l.nablaG]
    else [.writeK i j 0 fun l => coord l.nablaG 0, .writeK i j 1 fun l => coord l.nablaG 1,
      .writeK i j 2 fun l => coord l.nablaG 2]

/-- The instructions for one entry (`matrices.f90:101-280`). -/
noncomputable def entryOps (p : Inputs) (i j : ℕ) : List Op :=
  [.set fun l => { l with G := 0 }, .set fun l => { l with nablaG := 0 }] ++ diagonalOps p i j ++ rankineOps p i j ++
    reflectedOps p i j ++ waveOps p i j ++ writeOps p i j

/-- The instructions for one column (`matrices.f90:99-282`). -/
noncomputable def columnOps (p : Inputs) (j : ℕ) : List Op := (List.range p.n1).flatMap fun i => entryOps p i j

/-- A thread: its private variables and what remains of its current column. -/
structure Thread where
  locals : Locals
  todo : List Op

/-- The state of the computation by `T` threads: the matrices, the columns that no thread has taken, the threads. -/
structure State (T : ℕ) where
  S : ℕ → ℕ → Option ℂ
  K : ℕ → ℕ → ℕ → Option ℂ
  pool : List ℕ
  threads : Fin T → Thread

/-- The effect of an instruction on the matrices. -/
def writeInS (op : Op) (l : Locals) (S : ℕ → ℕ → Option ℂ) : ℕ → ℕ → Option ℂ :=
  match op with
  | .writeS i j f => fun a b => if a = i ∧ b = j then some (f l) else S a b
  | _ => S

/-- The same for `K`. -/
def writeInK (op : Op) (l : Locals) (K : ℕ → ℕ → ℕ → Option ℂ) : ℕ → ℕ → ℕ → Option ℂ :=
  match op with
  | .writeK i j c f => fun a b d => if a = i ∧ b = j ∧ d = c then some (f l) else K a b d
  | _ => K

/-- The effect of an instruction on the private variables. -/
def assign (op : Op) (l : Locals) : Locals :=
  match op with
  | .set f => f l
  | _ => l

/-- One step of one thread: an idle thread takes any of the remaining columns, a busy thread executes its next instruction
(`!$OMP PARALLEL DO SCHEDULE(DYNAMIC)`, `matrices.f90:95-98`). -/
inductive Step (p : Inputs) {T : ℕ} : State T → State T → Prop
  | take (s : State T) (t : Fin T) (j : ℕ) (hj : j ∈ s.pool) (ht : (s.threads t).todo = []) :
      Step p s { s with
        pool := s.pool.erase j
        threads := fun u => if u = t then ⟨(s.threads t).locals, columnOps p j⟩ else s.threads u }
  | exec (s : State T) (t : Fin T) (op : Op) (rest : List Op) (ht : (s.threads t).todo = op :: rest) :
      Step p s { s with
        S := writeInS op (s.threads t).locals s.S
        K := writeInK op (s.threads t).locals s.K
        threads := fun u => if u = t then ⟨assign op (s.threads t).locals, rest⟩ else s.threads u }

/-- Any number of steps. -/
inductive Steps (p : Inputs) {T : ℕ} : State T → State T → Prop
  | refl (s : State T) : Steps p s s
  | tail {a b c : State T} (h : Steps p a b) (hs : Step p b c) : Steps p a c

/-- The start of the loop: nothing is written, the private variables have any values. -/
def start (p : Inputs) {T : ℕ} (garbage : Fin T → Locals) : State T where
  S _ _ := none
  K _ _ _ := none
  pool := List.range p.n2
  threads t := ⟨garbage t, []⟩

/-- The end of the loop. -/
def Finished {T : ℕ} (s : State T) : Prop := s.pool = [] ∧ ∀ t, (s.threads t).todo = []

end Verif.Green
