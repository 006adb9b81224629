import Verif.Geometry.Vec
import Mathlib.Data.Complex.Basic
import Mathlib.Algebra.BigOperators.Group.List.Basic

/-!
# Post-processing at points and on meshes

Model of `capytaine/tools/lists_of_points.py` and of the methods of `BEMSolver` in `capytaine/bem/solver.py:349-565` that evaluate the
potential, the velocity, the pressure and the elevation of the free surface after a resolution.

A numpy array is its shape and the list of its elements in C order. The matrices of the Green function are parameters: a coefficient
for each wavenumber, point and panel. The engines give the same matrices (C21).
-/

namespace Verif.PostPro

open Verif.Geometry

/-- A numpy array: shape, and elements in C order. Arguments and results of `capytaine/tools/lists_of_points.py:7-38`. -/
structure ND (α : Type) where
  shape : List Nat
  flat : List α

/-- The position of an index in C order, for the reshapes of `capytaine/tools/lists_of_points.py:24,32` and
`capytaine/bem/solver.py:377,391`. -/
def ravel : List Nat → List Nat → Nat
  | _ :: s, i :: idx => i * s.prod + ravel s idx
  | _, _ => 0

/-- `a[idx]`. -/
def ND.get? {α : Type} (a : ND α) (idx : List Nat) : Option α := a.flat[ravel a.shape idx]?

/-- `a.reshape(shape)`, `capytaine/bem/solver.py:377`: the elements stay in order, their number has to agree. -/
def ND.reshape {α : Type} (a : ND α) (shape : List Nat) : Option (ND α) :=
  if shape.prod = a.flat.length then some ⟨shape, a.flat⟩ else none

variable {Panel : Type}

/-- What a user gives as points: an array or a mesh (also a body or a free surface, which stand for their mesh),
`capytaine/tools/lists_of_points.py:7-20`. -/
inductive Points (Panel : Type) where
  | mesh (panels : List Panel)
  | array (a : ND ℝ)

/-- What is given to the Green function: a mesh, or an array with one point per row, `capytaine/tools/lists_of_points.py:38`. -/
inductive Target (Panel : Type) where
  | mesh (panels : List Panel)
  | rows (n d : Nat) (coord : Nat → Nat → ℝ)

/-- `_normalize_points` with `keep_mesh=True`, `capytaine/tools/lists_of_points.py:7-38`. `none` is an error: no dimension, or no
number of columns for the reshape of an empty array. The coordinates of a row are read in the array of elements. -/
def normalizePoints : Points Panel → Option (Target Panel × List Nat)
  | .mesh panels => some (.mesh panels, [panels.length])
  | .array ⟨[], _⟩ => none
  | .array ⟨[d], flat⟩ => some (.rows 1 d fun _ c => flat.getD c 0, [1])
  | .array ⟨[n, d], flat⟩ => some (.rows n d fun i c => flat.getD (i * d + c) 0, [n])
  | .array ⟨d :: s, flat⟩ =>
    if d = 0 then none else some (.rows s.prod d fun j c => flat.getD (c * s.prod + j) 0, s)

/-- `_normalize_free_surface_points` with `keep_mesh=True`, `capytaine/tools/lists_of_points.py:40-52`: a third coordinate equal to
zero is added to points with two coordinates. -/
def normalizeFreeSurfacePoints (p : Points Panel) : Option (Target Panel × List Nat) :=
  match normalizePoints p with
  | some (.rows n 2 coord, s) => some (.rows n 3 fun i c => if c = 2 then 0 else coord i c, s)
  | r => r

/-- The points given back to `_normalize_points` by `compute_potential` when it is called with normalised points,
`capytaine/bem/solver.py:464-471`: a mesh, or an array with two dimensions. -/
def Target.toPoints : Target Panel → Points Panel
  | .mesh panels => .mesh panels
  | .rows n d coord => .array ⟨[n, d], (List.range n).flatMap fun i => (List.range d).map fun c => coord i c⟩

/-- The collocation points, `capytaine/green_functions/abstract_green_function.py:15-40`: the centers of the panels, or an array with
three columns. -/
def collocation (center : Panel → V3 ℝ) : Target Panel → Option (List (V3 ℝ))
  | .mesh panels => some (panels.map center)
  | .rows n d coord => if d = 3 then some ((List.range n).map fun i => ⟨coord i 0, coord i 1, coord i 2⟩) else none

/-- The Green function, as coefficients for a wavenumber, a point and a panel: `green_function.evaluate` in
`capytaine/bem/solver.py:375,388`. The position of the free surface and the depth are the ones of the result. -/
structure Kernel (Panel : Type) where
  center : Panel → V3 ℝ
  S : ℝ → V3 ℝ → Panel → ℂ
  grad : ℝ → V3 ℝ → Panel → V3 ℂ

/-- The result of a resolution, `capytaine/bem/problems_and_results.py:466-497`. The sources are `None` with the direct method or
`keep_details=False` (`capytaine/bem/solver.py:142,168`). Without forward speed the encounter values are the ones of the problem,
`capytaine/bem/problems_and_results.py:93-98`. The frequencies are real numbers. -/
structure Res (Panel : Type) where
  hull : List Panel
  lid : List Panel
  sources : Option (List ℂ)
  omega : ℝ
  encounterOmega : ℝ
  wavenumber : ℝ
  encounterWavenumber : ℝ
  speed : ℝ
  rho : ℝ
  g : ℝ
  still : speed = 0 → encounterOmega = omega ∧ encounterWavenumber = wavenumber

/-- `mesh_including_lid`, `capytaine/bem/solver.py:375`. -/
def Res.panels (r : Res Panel) : List Panel := r.hull ++ r.lid

/-- One row of a product of a matrix and the sources, `capytaine/bem/solver.py:376,390`. -/
def rowProduct (f : Panel → ℂ) (panels : List Panel) (sources : List ℂ) : ℂ :=
  (List.zipWith (fun p s => f p * s) panels sources).sum

/-- `S @ sources`, `capytaine/bem/solver.py:376,518,530`: the sizes have to agree. -/
def potentialRows (K : Kernel Panel) (r : Res Panel) (k : ℝ) (pts : List (V3 ℝ)) : Option (List ℂ) :=
  match r.sources with
  | none => none
  | some σ =>
    if σ.length = r.panels.length then some (pts.map fun p => rowProduct (K.S k p) r.panels σ) else none

/-- `compute_potential`, `capytaine/bem/solver.py:349-377`. -/
def computePotential (K : Kernel Panel) (r : Res Panel) (points : Points Panel) : Option (ND ℂ) :=
  match normalizePoints points with
  | none => none
  | some (t, shape) =>
    match collocation K.center t with
    | none => none
    | some pts =>
      match potentialRows K r r.encounterWavenumber pts with
      | none => none
      | some phi => (ND.mk [phi.length] phi).reshape shape

/-- Rows of `np.einsum('ijk,j->ik', gradG, sources)`, one after the other, `capytaine/bem/solver.py:390`. -/
def gradientRows (K : Kernel Panel) (r : Res Panel) (k : ℝ) (pts : List (V3 ℝ)) : Option (List ℂ) :=
  match r.sources with
  | none => none
  | some σ =>
    if σ.length = r.panels.length then
      some (pts.flatMap fun p => [rowProduct (fun q => (K.grad k p q).x) r.panels σ,
        rowProduct (fun q => (K.grad k p q).y) r.panels σ, rowProduct (fun q => (K.grad k p q).z) r.panels σ])
    else none

/-- `_compute_potential_gradient`, `capytaine/bem/solver.py:379-391`. -/
def computeGradient (K : Kernel Panel) (r : Res Panel) (points : Points Panel) : Option (ND ℂ) :=
  match normalizePoints points with
  | none => none
  | some (t, shape) =>
    match collocation K.center t with
    | none => none
    | some pts =>
      match gradientRows K r r.encounterWavenumber pts with
      | none => none
      | some v => (ND.mk [v.length / 3, 3] v).reshape (shape ++ [3])

/-- The component of the gradient along x, `nabla_phi[..., 0]`, `capytaine/bem/solver.py:439,469`: one element out of three. -/
def firstComponent (v : ND ℂ) : ND ℂ :=
  ⟨v.shape.dropLast, (List.range (v.flat.length / 3)).map fun i => v.flat.getD (3 * i) 0⟩

open Classical in
/-- `compute_velocity`, `capytaine/bem/solver.py:393-415`: the speed of the body is removed from the first component. -/
noncomputable def computeVelocity (K : Kernel Panel) (r : Res Panel) (points : Points Panel) : Option (ND ℂ) :=
  (computeGradient K r points).map fun v =>
    if r.speed ≠ 0 then
      ⟨v.shape, (List.range v.flat.length).map fun i =>
        if i % 3 = 0 then v.flat.getD i 0 - (r.speed : ℂ) else v.flat.getD i 0⟩
    else v

/-- Sum of two arrays of the same shape, `pressure += ...`, `capytaine/bem/solver.py:439,469`. -/
def ND.zip {α : Type} (f : α → α → α) (a b : ND α) : Option (ND α) :=
  if a.shape = b.shape then some ⟨a.shape, List.zipWith f a.flat b.flat⟩ else none

open Classical in
/-- `compute_pressure`, `capytaine/bem/solver.py:417-442`. -/
noncomputable def computePressure (K : Kernel Panel) (r : Res Panel) (points : Points Panel) : Option (ND ℂ) :=
  match computePotential K r points with
  | none => none
  | some phi =>
    if r.speed ≠ 0 then
      match computeGradient K r points with
      | none => none
      | some v => ND.zip (· + ·) ⟨phi.shape, phi.flat.map fun x => Complex.I * r.encounterOmega * r.rho * x⟩
          ⟨(firstComponent v).shape, (firstComponent v).flat.map fun x => r.rho * r.speed * x⟩
    else some ⟨phi.shape, phi.flat.map fun x => Complex.I * r.omega * r.rho * x⟩

open Classical in
/-- `compute_free_surface_elevation`, `capytaine/bem/solver.py:445-473`. -/
noncomputable def computeElevation (K : Kernel Panel) (r : Res Panel) (points : Points Panel) : Option (ND ℂ) :=
  match normalizeFreeSurfacePoints points with
  | none => none
  | some (t, shape) =>
    match computePotential K r t.toPoints with
    | none => none
    | some phi =>
      if r.speed ≠ 0 then
        match computeGradient K r t.toPoints with
        | none => none
        | some v =>
          match ND.zip (· + ·) ⟨phi.shape, phi.flat.map fun x => -1 / r.g * (-Complex.I * r.encounterOmega) * x⟩
            ⟨(firstComponent v).shape, (firstComponent v).flat.map fun x => -1 / r.g * r.speed * x⟩ with
          | none => none
          | some e => e.reshape shape
      else (ND.mk phi.shape (phi.flat.map fun x => -1 / r.g * (-Complex.I * r.omega) * x)).reshape shape

end Verif.PostPro
