import Verif.Datasets.AssembleModel

/-!
# Filling a dataset

Model of `bem/solver.py:307-346` (`BEMSolver.fill_dataset`): a test matrix is expanded, the problems are solved and the results are
assembled.

Simplifications: solving is a parameter which gives the values of each problem and influenced dof (a failed problem gives NaN, which is
one of the values); the Kochin functions are left out.
-/

namespace Verif.Datasets

/-- The frequency type with which a problem has been given (`provided_freq_type`, `problems_and_results.py:79`, `110-113`). -/
def Pb.ft : Pb → FreqType
  | .diffraction _ ft .. => ft
  | .radiation _ ft .. => ft

/-- The frequency that has been given. -/
def Pb.f : Pb → WithTop ℝ
  | .diffraction _ _ f .. => f
  | .radiation _ _ f .. => f

/-- The row of a problem and an influenced dof (`problems_and_results.py:233-246`, `443-446`, `526-534`, `569-576`). -/
noncomputable def pbRow {B V : Type} (conv : Pb → FreqType → WithTop ℝ) (value : B → Pb → String → Var → V) (b : B) (q : Pb) (dof : String) :
    Rec V :=
  match q with
  | .diffraction body _ _ dir h U ρ g =>
    { kind := .diffraction
      freeSurface := 0
      cell := fun c => match c with
        | .g => .num g
        | .rho => .num ρ
        | .bodyName => .str body
        | .waterDepth => .num h
        | .speed => .num U
        | .direction => .num dir
        | .freq k => .num (conv q k)
        | .radiatingDof => .str ""
        | .influencedDof => .str dof
        | .theta => .str ""
      value := value b q dof }
  | .radiation body _ _ rdof dir h U ρ g =>
    { kind := .radiation
      freeSurface := 0
      cell := fun c => match c with
        | .g => .num g
        | .rho => .num ρ
        | .bodyName => .str body
        | .waterDepth => .num h
        | .speed => .num U
        | .direction => .num dir
        | .freq k => .num (conv q k)
        | .radiatingDof => .str rdof
        | .influencedDof => .str dof
        | .theta => .str ""
      value := value b q dof }

/-- Building a problem: its body and its arguments, unless the constructor refuses them. -/
def mkPb {B E : Type} (check : B → Pb → Except E Unit) (b : B) (q : Pb) : Except E (B × Pb) := match check b q with
  | .error e => .error e
  | .ok _ => .ok (b, q)

/-- The records of the results of a list of problems (`xarray.py:200`). -/
noncomputable def recordsOf {B V : Type} (dofs : B → List String) (conv : Pb → FreqType → WithTop ℝ) (value : B → Pb → String → Var → V)
    (ps : List (B × Pb)) : List (Rec V) :=
  ps.flatMap fun p => (dofs p.1).map (pbRow conv value p.1 p.2)

/-- `fill_dataset` (`solver.py:307-346`); `none` is an exception. -/
noncomputable def fillDataset {B E V : Type} [Add V] (check : B → Pb → Except E Unit) (sort : List (B × Pb) → List (B × Pb))
    (dofs : B → List String) (conv : Pb → FreqType → WithTop ℝ) (value : B → Pb → String → Var → V) (t : TestMatrix)
    (bodies : List (String × B)) : Option (DS V) :=
  match problemsFromDataset (mkPb check) sort t bodies with
  | .error _ => none
  | .ok ps => (mainFreq (ps.map fun p => p.2.ft)).bind fun main => assemble main (recordsOf dofs conv value ps)

end Verif.Datasets
