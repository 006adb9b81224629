import Verif.Airy.Model
import Verif.Frequency.SymModel
import Verif.Geometry.Vec
import Mathlib.Algebra.BigOperators.Group.Finset.Basic

/-!
# Problems, resolution and results

Model of `capytaine/bem/problems_and_results.py` and of `BEMSolver.solve`
(`capytaine/bem/solver.py:92-174`).

Vectors over the panels are functions on `ℕ`, null beyond the number of panels; the panels of the lid
come after those of the hull. The clipping of bodies that are not immersed
(`problems_and_results.py:193-214`) is left out: bodies are assumed to be inside the domain. The
warnings are left out.
-/

namespace Verif.Frequency

/-- Apply a function of vectors below the symbols. -/
def SV.map {V W : Type} (f : V → W) : SV V → SV W
  | .num v => .num (f v)
  | .sym s v => .sym s (SV.map f v)

/-- Product of a symbolic number and a symbolic vector (`__mul__` and `__rmul__`,
`tools/symbolic_multiplication.py:45-49`). -/
def SV.smulVec : SV ℂ → SV (ℕ → ℂ) → SV (ℕ → ℂ)
  | .num x, b => SV.map (fun v i => x * v i) b
  | .sym s v, b => .sym s (SV.smulVec v b)

end Verif.Frequency

namespace Verif.Problems

open Verif.Frequency Verif.Geometry

/-- `FloatingBody`: `oid` is the identity of the object (the class defines no `__eq__`), `n` and `lid`
are the numbers of panels of the hull and of the lid (a lid without panels is replaced by `None`,
`bodies/bodies.py:79-82`), `dofs` the dictionary of dofs. -/
structure Body where
  oid : ℕ
  name : String
  n : ℕ
  lid : ℕ
  center : ℕ → V3 ℝ
  normal : ℕ → V3 ℝ
  area : ℕ → ℝ
  dofs : List (String × (ℕ → V3 ℝ))

/-- Arguments of the constructors of problems, `problems_and_results.py:58-67`. -/
structure Args where
  freeSurface : Input
  waterDepth : Option Input
  seaBottom : Option (Option ℝ)
  omega : Option Input
  period : Option Input
  wavenumber : Option Input
  wavelength : Option Input
  speed : ℝ
  rho : ℝ
  g : ℝ
  direction : ℝ

/-- Exceptions of the constructors. -/
inductive PbError where
  | depth (e : DepthError)
  | freq (e : FreqError)
  | symbolicWithSpeed
  | emptyMesh
  | symbolicDiffraction
  | noDofs
  | unknownDof
  | dofWithSpeed
  | lidWithSymbol
  deriving DecidableEq

/-- Attributes set by `LinearPotentialFlowProblem.__init__`, `problems_and_results.py:69-98`. -/
structure Base where
  body : Body
  freeSurface : Input
  depth : Input
  freq : Frequencies
  enc : Encounter
  speed : ℝ
  rho : ℝ
  g : ℝ
  direction : ℝ

/-- The test `float(q) in {0, np.inf}`, `problems_and_results.py:179`, `355`: frequencies that
`_get_frequencies` has made symbolic. -/
def symbolic : Quantity → Bool
  | .real _ => false
  | _ => true

open Classical in
/-- `LinearPotentialFlowProblem.__init__`, `problems_and_results.py:58-98` with `_check_data`,
`156-227`. -/
noncomputable def base (newton : ℝ → ℝ → Option ℝ) (a : Args) (body : Body) : Except PbError Base :=
  match acceptedDepth a.freeSurface a.waterDepth a.seaBottom with
  | .error e => .error (.depth e)
  | .ok depth =>
  match getFrequencies newton a.g depth a.omega a.period a.wavenumber a.wavelength with
  | .error e => .error (.freq e)
  | .ok f =>
  if a.speed ≠ 0 ∧ symbolic f.omega = true then .error .symbolicWithSpeed
  else if body.n = 0 then .error .emptyMesh
  else
  match encounter newton a.g depth f a.speed a.direction with
  | none => .error .symbolicWithSpeed
  | some (.error e) => .error (.freq e)
  | some (.ok enc) => .ok ⟨body, a.freeSurface, depth, f, enc, a.speed, a.rho, a.g, a.direction⟩

/-- The class of a problem. -/
inductive Kind where
  | generic
  | diffraction
  | radiation (dof : String)
  deriving DecidableEq

/-- Vectors of complex numbers, possibly multiplied by symbols. -/
abbrev SVec := SV (ℕ → ℂ)

/-- A problem. -/
structure Problem where
  base : Base
  kind : Kind
  bc : SVec

/-- The value of a real quantity; symbols do not occur where it is used. -/
def realValue : Quantity → ℝ
  | .real x => x
  | _ => 0

/-- The attributes of a problem used by `airy_waves.py`. -/
noncomputable def Base.airy (b : Base) : Airy.Pb :=
  { k := realValue b.freq.wavenumber, h := b.depth, g := b.g, omega := realValue b.freq.omega,
    rho := b.rho, waveDirection := b.direction, encounterDirection := b.enc.direction }

/-- Boundary condition of `DiffractionProblem`, `problems_and_results.py:360-368`. -/
noncomputable def diffractionBC (b : Base) : ℕ → ℂ := fun i =>
  if i < b.body.n then
    let c := b.body.center i
    let n := b.body.normal i
    let v := Airy.velocity b.airy c.x c.y c.z
    (-(v.1 * n.x + v.2.1 * n.y + v.2.2 * n.z) : ℂ)
  else 0

/-- `DiffractionProblem.__init__`, `problems_and_results.py:340-371`. -/
noncomputable def mkDiffraction (newton : ℝ → ℝ → Option ℝ) (a : Args) (body : Body) :
    Except PbError Problem :=
  match base newton a body with
  | .error e => .error e
  | .ok b =>
    if symbolic b.freq.omega = true then .error .symbolicDiffraction
    else .ok ⟨b, .diffraction, .num (diffractionBC b)⟩

/-- `LinearPotentialFlowProblem(boundary_condition=...)` with a vector of the right size
(`problems_and_results.py:216-227`). -/
noncomputable def mkGeneric (newton : ℝ → ℝ → Option ℝ) (a : Args) (body : Body) (bc : ℕ → ℂ) :
    Except PbError Problem :=
  match base newton a body with
  | .error e => .error e
  | .ok b => .ok ⟨b, .generic, .num bc⟩

/-- A quantity as a symbolic number: `SymbolicMultiplication("0")` has the value `1.0`. -/
def quantitySV {F : Type} [One F] (r : ℝ → F) : Quantity → SV F
  | .real x => .num (r x)
  | .zero => .sym .zero (.num 1)
  | .infty => .sym .infty (.num 1)

/-- Lower case of the name of a dof. -/
def lower (s : String) : List Char := s.toList.map Char.toLower

/-- `ddofdx_dot_n`, `problems_and_results.py:422-433`. -/
noncomputable def ddofdxDotN (name : String) (b : Body) : Option (ℕ → ℂ) :=
  if lower name = "pitch".toList then some fun i => ((b.normal i).z : ℂ)
  else if lower name = "yaw".toList then some fun i => ((-(b.normal i).y : ℝ) : ℂ)
  else if lower name ∈ ["surge".toList, "sway".toList, "heave".toList, "roll".toList] then some fun _ => 0
  else none

/-- `np.sum(dof * normals, axis=1)`, on the hull. -/
noncomputable def dofDotN (b : Body) (dof : ℕ → V3 ℝ) : ℕ → ℂ := fun i =>
  if i < b.n then (((dof i).dot (b.normal i) : ℝ) : ℂ) else 0

/-- `_concretize`, `tools/symbolic_multiplication.py:90-97`, for a vector under one symbol `"0"`. The
case of the symbol `"∞"` does not occur: encounter frequencies with forward speed are finite. -/
noncomputable def concretize : SVec → (ℕ → ℂ)
  | .num v => v
  | .sym _ _ => fun _ => 0

open Classical in
/-- Boundary condition of `RadiationProblem`, `problems_and_results.py:417-437`. With a lid,
`np.concatenate` is applied (line 437), which raises `TypeError` for a symbolic vector
(`__array_function__`, `tools/symbolic_multiplication.py:26-30`). -/
noncomputable def radiationBC (b : Base) (name : String) (dof : ℕ → V3 ℝ) : Except PbError SVec :=
  let bc : SVec := (SV.numMul (-Complex.I) (quantitySV (fun x => (x : ℂ)) b.enc.omega)).smulVec
    (.num (dofDotN b.body dof))
  let withSpeed : Except PbError SVec :=
    if b.speed ≠ 0 then
      match ddofdxDotN name b.body with
      | none => .error .dofWithSpeed
      | some d => .ok (.num fun i => concretize bc i + if i < b.body.n then b.speed * d i else 0)
    else .ok bc
  match withSpeed with
  | .error e => .error e
  | .ok (.num v) => .ok (.num v)
  | .ok (.sym s v) => if b.body.lid = 0 then .ok (.sym s v) else .error .lidWithSymbol

/-- `RadiationProblem.__init__`, `problems_and_results.py:386-437`. -/
noncomputable def mkRadiation (newton : ℝ → ℝ → Option ℝ) (a : Args) (body : Body)
    (radiatingDof : Option String) : Except PbError Problem :=
  match base newton a body with
  | .error e => .error e
  | .ok b =>
    match body.dofs with
    | [] => .error .noDofs
    | (first, _) :: _ =>
      let name := radiatingDof.getD first
      match body.dofs.lookup name with
      | none => .error .unknownDof
      | some dof =>
        match radiationBC b name dof with
        | .error e => .error e
        | .ok bc => .ok ⟨b, .radiation name, bc⟩

/-- The dof of a radiation problem, last component of `_astuple`. -/
def Kind.dof? : Kind → Option String
  | .radiation d => some d
  | _ => none

/-- `_astuple`, `problems_and_results.py:299-302` and `440-441`; the body is compared by
identity. -/
noncomputable def Problem.astuple (p : Problem) :
    ℕ × Input × Input × Input × Input × Input × Input × ℝ × ℝ × ℝ × Option String :=
  (p.base.body.oid, p.base.freeSurface, p.base.depth, p.base.freq.omega.toFloat,
    p.base.freq.period.toFloat, p.base.freq.wavenumber.toFloat, p.base.freq.wavelength.toFloat,
    p.base.speed, p.base.rho, p.base.g, p.kind.dof?)

/-- `p == q`, `problems_and_results.py:304-308`. -/
def Problem.pyEq (p q : Problem) : Prop := p.astuple = q.astuple

/-! ## Resolution -/

/-- Matrix times vector, over `N` panels. -/
noncomputable def matVec (N : ℕ) (A : ℕ → ℕ → ℂ) (x : ℕ → ℂ) : ℕ → ℂ := fun i =>
  if i < N then ∑ j ∈ Finset.range N, A i j * x j else 0

/-- `supporting_symbolic_multiplication`, `tools/symbolic_multiplication.py:112-125`, for a solver
that may raise: the function is applied below one symbol. The vectors below two symbols do not occur
in boundary conditions; they would raise. -/
def wrappedSolve (f : (ℕ → ℂ) → Option (ℕ → ℂ)) : SVec → Option SVec
  | .num v => (f v).map .num
  | .sym s (.num v) => (f v).map fun x => .sym s (.num x)
  | .sym _ (.sym _ _) => none

/-- Number of panels of `body.mesh_including_lid`. -/
def Body.total (b : Body) : ℕ := b.n + b.lid

/-- `integrate_pressure`, `bodies/bodies.py:232-240`, for one dof. -/
noncomputable def force (b : Body) (dof : ℕ → V3 ℝ) (pressure : ℕ → ℂ) : ℂ :=
  ∑ i ∈ Finset.range b.n, pressure i * (((-((dof i).dot (b.normal i)) : ℝ) : ℂ)) * (b.area i : ℂ)

/-- `omega` in `solve`, `solver.py:121-124`. -/
noncomputable def solveOmega (b : Base) [Decidable (b.speed ≠ 0)] : Quantity :=
  if b.speed ≠ 0 then b.enc.omega else b.freq.omega

/-- The values computed by the resolution. -/
structure Solution where
  sources : Option SVec
  potential : SVec
  pressure : SVec
  forces : List (String × SV ℂ)

open Classical in
/-- `solve` by the indirect method, `solver.py:146-174`: `S` is the single layer matrix, `lin` the
linear solver applied to the matrix `K`, `grad` the first component of the gradient of the potential
computed from the sources (`solver.py:379-405`), which is a matrix product. -/
noncomputable def solveIndirect (S : ℕ → ℕ → ℂ) (lin : (ℕ → ℂ) → Option (ℕ → ℂ)) (grad : ℕ → ℕ → ℂ)
    (p : Problem) : Option Solution :=
  let b := p.base
  let N := b.body.total
  match wrappedSolve lin p.bc with
  | none => none
  | some sources =>
    let potential := SV.map (matVec N S) sources
    let pressure := ((SV.numMul Complex.I (quantitySV (fun x => (x : ℂ)) (solveOmega b))).mul
      (.num (b.rho : ℂ))).smulVec potential
    let pressure :=
      if b.speed ≠ 0 then
        .num fun i => concretize pressure i +
          (b.rho : ℂ) * b.speed * matVec N grad (concretize sources) i
      else pressure
    some ⟨some sources, potential, pressure,
      b.body.dofs.map fun d => (d.1, SV.map (force b.body d.2) pressure)⟩

open Classical in
/-- `solve` by the direct method, `solver.py:127-145`. -/
noncomputable def solveDirect (S : ℕ → ℕ → ℂ) (lin : (ℕ → ℂ) → Option (ℕ → ℂ)) (p : Problem) :
    Option Solution :=
  let b := p.base
  let N := b.body.total
  if b.speed ≠ 0 then none
  else
    match wrappedSolve lin (SV.map (matVec N S) p.bc) with
    | none => none
    | some potential =>
      let pressure := ((SV.numMul Complex.I (quantitySV (fun x => (x : ℂ)) (solveOmega b))).mul
        (.num (b.rho : ℂ))).smulVec potential
      some ⟨none, potential, pressure,
        b.body.dofs.map fun d => (d.1, SV.map (force b.body d.2) pressure)⟩

/-! ## Results -/

/-- `added_mass` for one force, `problems_and_results.py:553-555`. -/
noncomputable def addedMass (force : SV ℂ) (encOmega : Quantity) : PyFloat :=
  ((SV.map Complex.re force).div
    ((quantitySV id encOmega).mul (quantitySV id encOmega))).toFloat

open Classical in
/-- `radiation_damping` for one force, `problems_and_results.py:557-562`. -/
noncomputable def radiationDamping (force : SV ℂ) (encOmega : Quantity) (speed : ℝ) : PyFloat :=
  if symbolic encOmega = true ∧ speed = 0 then .fin 0
  else ((SV.map Complex.im force).div (quantitySV id encOmega)).toFloat

end Verif.Problems
