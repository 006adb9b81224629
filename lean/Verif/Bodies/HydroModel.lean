import Verif.Meshes.IntegralModel

/-!
# Hydrostatics of bodies

Model of the hydrostatic stiffness and of the inertia matrix of `capytaine/bodies/bodies.py:353-683` and of
`compute_hydrostatics` (`bodies/bodies.py:686-755`), on the arrays of panel data of the mesh. Real numbers
replace floats; a division by zero gives zero instead of not-a-number or infinity.
-/

namespace Verif.Bodies

open Verif.Geometry Verif.Meshes V3

/-- The exceptions of these functions. -/
inductive HydroError
  | value
  | notImplemented
  | attribute
  | key
  deriving DecidableEq

/-- The attributes of a `FloatingBody` used by the hydrostatics (`bodies/bodies.py:64-121`): the panel data of
the mesh, the dofs as one vector per panel (the constructor checks their shape), and the attributes that may
be missing. -/
structure HydroBody where
  table : Table
  dofs : List (String × List (V3 ℝ))
  mass : Option ℝ
  centerOfMass : Option (V3 ℝ)
  rotationCenter : Option (V3 ℝ)

/-- `np.isclose` with its default tolerances. -/
def isClose (a b : ℝ) : Prop := |a - b| ≤ 1e-8 + 1e-5 * |b|

/-- `isClose` for the three coordinates. -/
def isClose3 (u v : V3 ℝ) : Prop := isClose u.x v.x ∧ isClose u.y v.y ∧ isClose u.z v.z

/-- The two guesses of the rotation center from the motion of one panel: `(xc1, yc1, zc1)` and
`(xc2, yc2, zc2)` (`bodies/bodies.py:363-368`). -/
def centerGuesses (x : Panel × ℝ) (roll pitch yaw : V3 ℝ) : V3 ℝ × V3 ℝ :=
  (⟨pitch.z + x.1.center.x, yaw.x + x.1.center.y, -pitch.x + x.1.center.z⟩,
    ⟨-yaw.y + x.1.center.x, -roll.z + x.1.center.y, roll.y + x.1.center.z⟩)

/-- The guesses for all the panels. -/
def allGuesses (t : Table) (roll pitch yaw : List (V3 ℝ)) : List (V3 ℝ × V3 ℝ) :=
  (t.zip (roll.zip (pitch.zip yaw))).map fun x => centerGuesses x.1 x.2.1 x.2.2.1 x.2.2.2

open Classical in
/-- The assertions and the result of `bodies/bodies.py:370-380`. A mesh without panels raises an `IndexError`,
caught like the others. -/
noncomputable def checkGuesses : List (V3 ℝ × V3 ℝ) → Except HydroError (V3 ℝ)
  | [] => .error .value
  | e :: l =>
    if (∀ x ∈ e :: l, isClose3 x.1 e.1) ∧ ∀ x ∈ e :: l, isClose3 x.1 x.2 then .ok e.1 else .error .value

/-- `_infer_rotation_center` (`bodies/bodies.py:353-387`). -/
noncomputable def HydroBody.inferCenter (b : HydroBody) : Except HydroError (V3 ℝ) :=
  match b.rotationCenter with
  | some c => .ok c
  | none =>
    match b.dofs.lookup "Roll", b.dofs.lookup "Pitch", b.dofs.lookup "Yaw" with
    | some roll, some pitch, some yaw => checkGuesses (allGuesses b.table roll pitch yaw)
    | _, _, _ => .error .value

/-- `rigid_dof_names` (`bodies/bodies.py:442`, `643`). -/
def rigidNames : List String := ["Surge", "Sway", "Heave", "Roll", "Pitch", "Yaw"]

/-- The formulas for rigid bodies (`bodies/bodies.py:452-476`), from the rotation center `c`, the center of
mass `G` and `mrho = mass/rho`. -/
noncomputable def rigidStiffness (t : Table) (c G : V3 ℝ) (mrho : ℝ) (i j : String) : ℝ :=
  if (i, j) = ("Heave", "Heave") then waterplaneArea t
  else if (i, j) = ("Heave", "Roll") ∨ (i, j) = ("Roll", "Heave") then
    -waterplaneIntegral t fun p => p.center.y - c.y
  else if (i, j) = ("Heave", "Pitch") ∨ (i, j) = ("Pitch", "Heave") then
    waterplaneIntegral t fun p => p.center.x - c.x
  else if (i, j) = ("Roll", "Roll") then
    -waterplaneIntegral t (fun p => (p.center.y - c.y) ^ 2) + volume t * ((centerOfBuoyancy t).z - c.z)
      - mrho * (G.z - c.z)
  else if (i, j) = ("Roll", "Pitch") ∨ (i, j) = ("Pitch", "Roll") then
    waterplaneIntegral t fun p => (p.center.x - c.x) * (p.center.y - c.y)
  else if (i, j) = ("Roll", "Yaw") then
    -volume t * ((centerOfBuoyancy t).x - c.x) + mrho * (G.x - c.x)
  else if (i, j) = ("Pitch", "Pitch") then
    -waterplaneIntegral t (fun p => (p.center.x - c.x) ^ 2) + volume t * ((centerOfBuoyancy t).z - c.z)
      - mrho * (G.z - c.z)
  else if (i, j) = ("Pitch", "Yaw") then
    -volume t * ((centerOfBuoyancy t).y - c.y) + mrho * (G.y - c.y)
  else 0

/-- Newman's formula for the other dofs (`bodies/bodies.py:486-492`), with one value of the divergence per
panel. -/
noncomputable def newmanStiffness (t : Table) (infl rad : List (V3 ℝ)) (div : List ℝ) : ℝ :=
  ((t.zip (infl.zip (rad.zip div))).map fun x =>
    -dot x.1.1.normal x.2.2.1 * (x.2.1.z + x.1.1.center.z * x.2.2.2) * x.1.1.area).sum

/-- `np.isclose(self.mass, self.disp_mass(rho=rho), rtol=1e-4)` (`bodies/bodies.py:478`). -/
def balanced (m d : ℝ) : Prop := |m - d| ≤ 1e-8 + 1e-4 * |d|

open Classical in
/-- `each_hydrostatic_stiffness` (`bodies/bodies.py:389-501`). -/
noncomputable def HydroBody.eachStiffness (b : HydroBody) (rho g : ℝ) (div : List ℝ) (i j : String) :
    Except HydroError ℝ :=
  if i ∈ rigidNames ∧ j ∈ rigidNames then
    match b.centerOfMass with
    | none => .error .value
    | some G =>
      match b.inferCenter with
      | .error e => .error e
      | .ok c => .ok (rho * g * rigidStiffness b.table c G (b.mass.getD (dispMass rho b.table) / rho) i j)
  else if (∃ m, b.mass = some m ∧ ¬balanced m (dispMass rho b.table)) then .error .notImplemented
  else
    match b.dofs.lookup i, b.dofs.lookup j with
    | some u, some v => .ok (rho * g * newmanStiffness b.table u v div)
    | _, _ => .error .key

/-- `divergence_dof` (`bodies/bodies.py:548-559`): the names are compared in lower case. A missing divergence is
a divergence of zero. -/
def divergenceOf (divergence : Option (List (String × List ℝ))) (n : ℕ) (name : String) : List ℝ :=
  if name.toLower ∈ ["surge", "sway", "heave", "roll", "pitch", "yaw"] then .replicate n 0
  else
    match divergence with
    | none => .replicate n 0
    | some d => (d.lookup name).getD (.replicate n 0)

/-- A labelled matrix: `none` where there is no value, or not-a-number. -/
structure LabelledMatrix where
  influenced : List String
  radiating : List String
  entry : String → String → Option ℝ

/-- `compute_hydrostatic_stiffness` (`bodies/bodies.py:503-573`): the first exception in the order of the two
loops, or the matrix of all the entries, the rows and columns in the order of the dofs. The merging of the one
by one arrays by `xarray` is not modelled further. -/
noncomputable def HydroBody.stiffness (b : HydroBody) (rho g : ℝ) (divergence : Option (List (String × List ℝ))) :
    Except HydroError LabelledMatrix :=
  let names := b.dofs.map (·.1)
  if names = [] then .error .attribute
  else
    let pairs := names.flatMap fun j => names.map fun i => (i, j)
    match pairs.mapM fun x => (b.eachStiffness rho g (divergenceOf divergence b.table.length x.1) x.1 x.2).map
        fun v => (x, v) with
    | .error e => .error e
    | .ok l => .ok ⟨names, names, fun i j => l.lookup (i, j)⟩

/-- The six rigid dofs, in the order of `rigid_dof_names`. -/
inductive Rigid
  | surge
  | sway
  | heave
  | roll
  | pitch
  | yaw
  deriving DecidableEq

/-- The label of a rigid dof (`bodies/bodies.py:643`). -/
def Rigid.name : Rigid → String
  | .surge => "Surge"
  | .sway => "Sway"
  | .heave => "Heave"
  | .roll => "Roll"
  | .pitch => "Pitch"
  | .yaw => "Yaw"

/-- The dof with the given label. -/
def Rigid.ofName (s : String) : Option Rigid :=
  if s = "Surge" then some .surge
  else if s = "Sway" then some .sway
  else if s = "Heave" then some .heave
  else if s = "Roll" then some .roll
  else if s = "Pitch" then some .pitch
  else if s = "Yaw" then some .yaw
  else none

/-- `integrals[axis, k]` (`bodies/bodies.py:600-607`): `axis` selects a coordinate and `q` is one of the six
products of two coordinates, both relative to the rotation center. -/
noncomputable def momentIntegral (t : Table) (c : V3 ℝ) (axis : V3 ℝ → ℝ) (q : V3 ℝ → ℝ) : ℝ :=
  (t.map fun x => axis x.1.normal * axis (x.1.center - c) * q (x.1.center - c) * x.1.area).sum

/-- `inertias[0]`, `inertias[1]`, `inertias[2]` (`bodies/bodies.py:610-616`). -/
noncomputable def inertiaDiag (t : Table) (c : V3 ℝ) : V3 ℝ :=
  let I := momentIntegral t c
  let xx := fun r : V3 ℝ => r.x ^ 2
  let yy := fun r : V3 ℝ => r.y ^ 2
  let zz := fun r : V3 ℝ => r.z ^ 2
  ⟨(I V3.x yy + I V3.x zz + I V3.y yy / 3 + I V3.y zz + I V3.z yy + I V3.z zz / 3) / 3,
    (I V3.x xx / 3 + I V3.x zz + I V3.y xx + I V3.y zz + I V3.z xx + I V3.z zz / 3) / 3,
    (I V3.x xx / 3 + I V3.x yy + I V3.y xx + I V3.y yy / 3 + I V3.z xx + I V3.z yy) / 3⟩

/-- `inertias[3]` (`bodies/bodies.py:617`). -/
noncomputable def inertiaXY (t : Table) (c : V3 ℝ) : ℝ := momentIntegral t c V3.z fun r => r.x * r.y

/-- `inertias[4]` (`bodies/bodies.py:618`). -/
noncomputable def inertiaYZ (t : Table) (c : V3 ℝ) : ℝ := momentIntegral t c V3.x fun r => r.y * r.z

/-- `inertias[5]` (`bodies/bodies.py:619`). -/
noncomputable def inertiaZX (t : Table) (c : V3 ℝ) : ℝ := momentIntegral t c V3.y fun r => r.z * r.x

/-- `volumic_inertia_matrix` (`bodies/bodies.py:622-637`), row by row. -/
noncomputable def volumicInertia (t : Table) (c G : V3 ℝ) : Rigid → Rigid → ℝ
  | .surge, .surge => volume t
  | .surge, .pitch => volume t * (G - c).z
  | .surge, .yaw => -volume t * (G - c).y
  | .sway, .sway => volume t
  | .sway, .roll => -volume t * (G - c).z
  | .sway, .yaw => volume t * (G - c).x
  | .heave, .heave => volume t
  | .heave, .roll => volume t * (G - c).y
  | .heave, .pitch => -volume t * (G - c).x
  | .roll, .sway => -volume t * (G - c).z
  | .roll, .heave => volume t * (G - c).y
  | .roll, .roll => (inertiaDiag t c).x
  | .roll, .pitch => -inertiaXY t c
  | .roll, .yaw => -inertiaZX t c
  | .pitch, .surge => volume t * (G - c).z
  | .pitch, .heave => -volume t * (G - c).x
  | .pitch, .roll => -inertiaXY t c
  | .pitch, .pitch => (inertiaDiag t c).y
  | .pitch, .yaw => -inertiaYZ t c
  | .yaw, .surge => -volume t * (G - c).y
  | .yaw, .sway => volume t * (G - c).x
  | .yaw, .roll => -inertiaZX t c
  | .yaw, .pitch => -inertiaYZ t c
  | .yaw, .yaw => (inertiaDiag t c).z
  | _, _ => 0

/-- `density` (`bodies/bodies.py:639`). -/
noncomputable def HydroBody.density (b : HydroBody) (rho : ℝ) : ℝ :=
  match b.mass with
  | none => rho
  | some m => m / volume b.table

/-- The matrix of the six rigid dofs, extended by not-a-number to the other labels by the outer join of
`xr.merge` (`bodies/bodies.py:643-659`). -/
noncomputable def HydroBody.inertiaEntry (b : HydroBody) (rho : ℝ) (c G : V3 ℝ) (i j : String) : Option ℝ :=
  match Rigid.ofName i, Rigid.ofName j with
  | some r, some s => some (b.density rho * volumicInertia b.table c G r s)
  | _, _ => none

/-- `compute_rigid_body_inertia` (`bodies/bodies.py:575-683`). The order of the labels of `"all_dofs"` is the one
of the join of `xarray`, here the rigid dofs first. -/
noncomputable def HydroBody.inertia (b : HydroBody) (rho : ℝ) (outputType : String) : Except HydroError LabelledMatrix :=
  match b.centerOfMass with
  | none => .error .value
  | some G =>
    match b.inferCenter with
    | .error e => .error e
    | .ok c =>
      let names := b.dofs.map (·.1)
      if outputType = "body_dofs" then .ok ⟨names, names, b.inertiaEntry rho c G⟩
      else if outputType = "rigid_dofs" then .ok ⟨rigidNames, rigidNames, b.inertiaEntry rho c G⟩
      else if outputType = "all_dofs" then
        let all := rigidNames ++ names.filter (· ∉ rigidNames)
        .ok ⟨all, all, b.inertiaEntry rho c G⟩
      else .error .value

/-- The part of the result of `compute_hydrostatics` studied here. -/
structure Hydrostatics where
  dispMass : ℝ
  stiffness : LabelledMatrix
  inertia : Option LabelledMatrix

/-- `compute_hydrostatics` (`bodies/bodies.py:686-755`), where `imm` is the immersed part of the body `b`. The
stiffness is computed for `imm` and the inertia for `b`. -/
noncomputable def computeHydrostatics (b imm : HydroBody) (rho g : ℝ)
    (divergence : Option (List (String × List ℝ))) : Except HydroError Hydrostatics :=
  match b.centerOfMass with
  | none => .error .value
  | some _ =>
    match imm.stiffness rho g divergence with
    | .error e => .error e
    | .ok K =>
      if b.dofs.any fun d => d.1.toLower ∈ ["surge", "sway", "heave", "roll", "pitch", "yaw"] then
        match b.inertia rho "body_dofs" with
        | .error e => .error e
        | .ok M => .ok ⟨Meshes.dispMass rho imm.table, K, some M⟩
      else .ok ⟨Meshes.dispMass rho imm.table, K, none⟩

end Verif.Bodies
