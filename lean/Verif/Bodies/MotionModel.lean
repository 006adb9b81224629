import Verif.Meshes.Model

/-!
# Motions of bodies

Model of `mirror`, `translate` and `rotate` of `capytaine/bodies/bodies.py:974-1008`.
-/

namespace Verif.Bodies

open Verif.Geometry Verif.Meshes V3

/-- The attributes of a `FloatingBody` that are moved with it (`bodies/bodies.py:64-121`): the mesh of the
hull, the lid, the dofs as one vector per panel, and the three reference points, which may be missing or
`None`. -/
structure RigidBody where
  mesh : Mesh (V3 ℝ)
  lid : Option (Mesh (V3 ℝ))
  dofs : List (String × List (V3 ℝ))
  geometricCenter : Option (V3 ℝ)
  rotationCenter : Option (V3 ℝ)
  centerOfMass : Option (V3 ℝ)

/-- `translate` (`bodies/bodies.py:989-997`). -/
def RigidBody.translate (b : RigidBody) (t : V3 ℝ) : RigidBody :=
  { mesh := b.mesh.translate t, lid := b.lid.map (·.translate t), dofs := b.dofs,
    geometricCenter := b.geometricCenter.map (· + t), rotationCenter := b.rotationCenter.map (· + t),
    centerOfMass := b.centerOfMass.map (· + t) }

/-- `rotate` (`bodies/bodies.py:999-1009`). -/
noncomputable def RigidBody.rotate (b : RigidBody) (a : Axis) (θ : ℝ) : RigidBody :=
  { mesh := b.mesh.rotate a θ, lid := b.lid.map (·.rotate a θ),
    dofs := b.dofs.map fun d => (d.1, d.2.map (a.rotateVector θ)),
    geometricCenter := b.geometricCenter.map (a.rotatePoint θ),
    rotationCenter := b.rotationCenter.map (a.rotatePoint θ),
    centerOfMass := b.centerOfMass.map (a.rotatePoint θ) }

/-- `mirror` (`bodies/bodies.py:974-987`). -/
noncomputable def RigidBody.mirror (b : RigidBody) (P : Plane) : RigidBody :=
  { mesh := b.mesh.mirror P, lid := b.lid.map (·.mirror P),
    dofs := b.dofs.map fun d => (d.1, d.2.map P.mirrorVector),
    geometricCenter := b.geometricCenter.map P.mirrorPoint,
    rotationCenter := b.rotationCenter.map P.mirrorPoint,
    centerOfMass := b.centerOfMass.map P.mirrorPoint }

/-- `np.sum(dof * mesh.faces_normals, axis=1)` for one panel, as used in the boundary conditions
(`bem/problems_and_results.py:417`) and the integration of the pressure (`bodies/bodies.py:236`). -/
noncomputable def RigidBody.normalAmplitude (b : RigidBody) (name : String) (i : ℕ) : Option ℝ :=
  match b.dofs.lookup name, b.mesh.panelAt i with
  | some d, some p => d[i]?.map fun v => dot v p.normal
  | _, _ => none

/-- `add_rotation_dof(axis)` (`bodies/bodies.py:184-222`): the value on the panels. -/
noncomputable def RigidBody.rotationDof (b : RigidBody) (point direction : V3 ℝ) (i : ℕ) : Option (V3 ℝ) :=
  (b.mesh.panelAt i).map fun p => cross (point - p.center) direction

end Verif.Bodies
