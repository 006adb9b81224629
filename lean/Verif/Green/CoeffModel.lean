import Verif.Green.WaveModel
import Mathlib.Order.WithBot

/-!
# Selection of the coefficients

Model of the beginning of the methods `evaluate` of `green_functions/delhommeau.py:307-374` and `green_functions/hams.py`, and of
the tests on the fluid domain made by the problems (`bem/problems_and_results.py:156-186`).

Simplifications: the meshes are not empty; the Prony decomposition and the roots of the dispersion relation are found; the
precision is one of the two supported ones. `np.inf` is `⊤`.
-/

namespace Verif.Green

open Verif.Geometry V3

/-- The classes of Green functions. -/
inductive GreenFunction where
  | delhommeau (g : Singularities)
  | liangWu
  | finGreen3D
  | hams

/-- The position of the free surface, the depth, the wavenumber, and whether the source mesh has a panel on the free surface
(`delhommeau.py:366`). -/
structure Request where
  freeSurface : WithTop ℝ
  depth : WithTop ℝ
  wavenumber : WithTop ℝ
  surfacePanels : Bool

/-- What can be raised. -/
inductive Failure where
  | notImplemented
  | unboundLocal
  | valueError
  | nan
  deriving DecidableEq

/-- What is given to `BUILD_MATRICES`: the coefficients and the depth. -/
structure Call where
  coeffs : ℝ × ℝ × ℝ
  depth : WithTop ℝ

open Classical in
/-- `Delhommeau.evaluate` (`delhommeau.py:337-390`). The product of the coefficient zero with an infinite wavenumber is a NaN
(`matrices.f90:177-179`), which is found at the end (`delhommeau.py:388-390`). -/
noncomputable def delhommeauCall (g : Singularities) (q : Request) : Except Failure Call := do
  let c ← (if q.freeSurface = ⊤ then .ok (1, 0, 0)
    else if q.depth = ⊤ then
      .ok (if q.wavenumber = 0 then (1, 1, 0)
        else if q.wavenumber = ⊤ then (1, -1, 0)
        else if g = .highFreq then (1, -1, 1) else (1, 1, 1))
    else if q.wavenumber = 0 ∨ q.wavenumber = ⊤ then .error .notImplemented
    else .ok (1, 1, 1) : Except Failure (ℝ × ℝ × ℝ))
  if q.surfacePanels = true ∧ g ≠ .lowFreq then .error .notImplemented
  else if (c.2.1 ≠ 0 ∨ (g = .lowFreqWithRankinePart ∧ c.2.2 ≠ 0)) ∧ g = .lowFreqWithRankinePart ∧ q.wavenumber = ⊤ then .error .nan
  else .ok ⟨c, q.depth⟩

open Classical in
/-- `LiangWuNoblesseGF.evaluate` (`hams.py:38-66`): the depth is infinite for the matrices. -/
noncomputable def liangWuCall (q : Request) : Except Failure Call :=
  if q.freeSurface = ⊤ then .ok ⟨(1, 0, 0), ⊤⟩
  else if q.freeSurface = 0 ∧ q.depth < ⊤ then .error .notImplemented
  else if q.wavenumber = 0 then .ok ⟨(1, 1, 0), ⊤⟩
  else if q.wavenumber = ⊤ then .ok ⟨(1, -1, 0), ⊤⟩
  else .ok ⟨(1, 1, 1), ⊤⟩

open Classical in
/-- `FinGreen3D.evaluate` (`hams.py:119-149`): in the other cases `coeffs` is not defined. -/
noncomputable def finGreenCall (q : Request) : Except Failure Call :=
  if q.freeSurface = ⊤ ∨ q.depth = ⊤ then .error .notImplemented
  else if q.freeSurface = 0 ∧ q.depth < ⊤ then
    if q.wavenumber = 0 then .error .notImplemented
    else if q.wavenumber = ⊤ then .error .notImplemented
    else .ok ⟨(1, 1, 1), q.depth⟩
  else .error .unboundLocal

open Classical in
/-- `evaluate`, with the choice of `HAMS_GF` (`hams.py:176-180`). -/
noncomputable def call (gf : GreenFunction) (q : Request) : Except Failure Call :=
  match gf with
  | .delhommeau g => delhommeauCall g q
  | .liangWu => liangWuCall q
  | .finGreen3D => finGreenCall q
  | .hams => if q.depth = ⊤ then liangWuCall q else finGreenCall q

open Classical in
/-- The tests of the problems (`problems_and_results.py:159-177`). -/
noncomputable def checkData (q : Request) : Option Failure :=
  if ¬ (q.freeSurface = 0 ∨ q.freeSurface = ⊤) then some .notImplemented
  else if q.freeSurface = ⊤ ∧ q.depth ≠ ⊤ then some .notImplemented
  else if q.depth < 0 then some .valueError
  else none

/-- A problem solved with a Green function. -/
noncomputable def problemCall (gf : GreenFunction) (q : Request) : Except Failure Call :=
  match checkData q with
  | some e => .error e
  | none => call gf q

/-- The inputs of the assembly for `Delhommeau` and two sets of panels: the field points, the panels with their quadrature
points, and the normal vectors for the scalar products (`delhommeau.py:372-386`). -/
noncomputable def delhommeauInputs (euler : ℝ) (T : Tables) (g : Singularities) (m : FiniteDepth) (prony : List (ℝ × ℝ))
    (h : Option ℝ) (k : ℝ) (coeffs : ℝ × ℝ × ℝ) (n1 n2 : ℕ) (points : ℕ → V3 ℝ) (panels : ℕ → Face) (quads : ℕ → List (V3 ℝ × ℝ))
    (normals : ℕ → V3 ℝ) (same adjoint early : Bool) : Inputs where
  n1 := n1
  n2 := n2
  sameBody := same
  adjoint := adjoint
  early := early
  singularities := g
  method := m
  depth := h
  wavenumber := k
  coeffs := ![(coeffs.1 : ℂ), (coeffs.2.1 : ℂ), (coeffs.2.2 : ℂ)]
  heights j := (panels j).center.z
  normals i := toC (normals i)
  rankine i j := ((rankine (points i) (panels j) adjoint).1, toC (rankine (points i) (panels j) adjoint).2)
  reflected i j c := ((rankineReflected (points i) (panels j) adjoint c).1, toC (rankineReflected (points i) (panels j) adjoint c).2)
  onePoint i j c := ((onePointReflected (points i) (panels j).center (panels j).area adjoint c).1,
    toC (onePointReflected (points i) (panels j).center (panels j).area adjoint c).2)
  wave i j := match h with
    | none => waveInfinite euler T g k (points i) ⟨(panels j).center, (panels j).area, quads j⟩ adjoint
    | some h => waveFinite euler T k h prony (points i) (panels j) (quads j) adjoint

end Verif.Green
