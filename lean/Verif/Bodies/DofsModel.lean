import Verif.Bodies.JoinModel
import Verif.Bodies.MotionModel
import Verif.Files.TextModel

/-!
# Adding dofs to a body

Model of `add_translation_dof`, `add_rotation_dof`, `add_all_rigid_body_dofs` (`capytaine/bodies/bodies.py:153-230`), of the
dofs given to the constructor (`capytaine/bodies/bodies.py:103-115`), and of the sharing of the dictionaries of dofs
between bodies. The real numbers are exact. `none` stands for an exception. A name is changed to lower case for the ASCII
letters only: no other letter has the lower case of a letter of the names of the rigid dofs. Directions always have three
components.
-/

namespace Verif.Bodies

open Verif.Geometry Verif.Meshes V3

/-! ## One body -/

/-- The dictionary `dofs`, in insertion order: one vector per panel. -/
abbrev DofDict := List (Name × List (V3 ℝ))

/-- `name.lower()` (`bodies/bodies.py:167`, `196`). -/
def lowerName (n : Name) : Name := n.map Char.toLower

/-- `TRANSLATION_DOFS_DIRECTIONS` (`bodies/bodies.py:25`). -/
def translationDirections : List (Name × V3 ℝ) :=
  [("surge".toList, ⟨1, 0, 0⟩), ("sway".toList, ⟨0, 1, 0⟩), ("heave".toList, ⟨0, 0, 1⟩)]

/-- `ROTATION_DOFS_AXIS` (`bodies/bodies.py:26`). -/
def rotationDirections : List (Name × V3 ℝ) :=
  [("roll".toList, ⟨1, 0, 0⟩), ("pitch".toList, ⟨0, 1, 0⟩), ("yaw".toList, ⟨0, 0, 1⟩)]

/-- The default names (`bodies/bodies.py:173`, `215`). -/
def defaultTranslationName (n : ℕ) : Name := "dof_".toList ++ Files.showNat n ++ "_translation".toList

/-- See `defaultTranslationName`. -/
def defaultRotationName (n : ℕ) : Name := "dof_".toList ++ Files.showNat n ++ "_rotation".toList

/-- What the new dofs depend on: `mesh.faces_centers` and the reference points, which may be missing or `None`. -/
structure DofFrame where
  centers : List (V3 ℝ)
  rotationCenter : Option (V3 ℝ)
  centerOfMass : Option (V3 ℝ)
  geometricCenter : Option (V3 ℝ)

/-- The direction of a translation, given or found from the name (`bodies/bodies.py:166-170`). -/
def directionOf (direction : Option (V3 ℝ)) (name : Option Name) : Option (V3 ℝ) :=
  match direction with
  | some d => some d
  | none => name.bind fun n => translationDirections.lookup (lowerName n)

/-- `add_translation_dof` (`bodies/bodies.py:153-180`). -/
noncomputable def addTranslation (b : DofFrame) (dofs : DofDict) (direction : Option (V3 ℝ)) (name : Option Name)
    (amplitude : ℝ) : Option DofDict :=
  (directionOf direction name).map fun d =>
    setItem dofs (name.getD (defaultTranslationName dofs.length), b.centers.map fun _ => amplitude • d)

/-- The point of the axis when it is not given (`bodies/bodies.py:198-205`). -/
def DofFrame.axisPoint (b : DofFrame) : V3 ℝ :=
  match b.rotationCenter with
  | some p => p
  | none =>
    match b.centerOfMass with
    | some p => p
    | none =>
      match b.geometricCenter with
      | some p => p
      | none => ⟨0, 0, 0⟩

/-- The point and the direction of the axis (`bodies/bodies.py:195-212`). -/
def axisOf (b : DofFrame) (axis : Option (V3 ℝ × V3 ℝ)) (name : Option Name) : Option (V3 ℝ × V3 ℝ) :=
  match axis with
  | some a => some a
  | none => name.bind fun n => (rotationDirections.lookup (lowerName n)).map fun d => (b.axisPoint, d)

/-- `add_rotation_dof` (`bodies/bodies.py:182-221`). The case without panels (`bodies/bodies.py:217-218`) gives an array without
rows as the other one. -/
noncomputable def addRotation (b : DofFrame) (dofs : DofDict) (axis : Option (V3 ℝ × V3 ℝ)) (name : Option Name)
    (amplitude : ℝ) : Option DofDict :=
  (axisOf b axis name).map fun a =>
    setItem dofs (name.getD (defaultRotationName dofs.length), b.centers.map fun c => amplitude • cross (a.1 - c) a.2)

/-- `add_all_rigid_body_dofs` (`bodies/bodies.py:223-230`). -/
noncomputable def addAllRigid (b : DofFrame) (dofs : DofDict) : Option DofDict :=
  (addTranslation b dofs none (some "Surge".toList) 1).bind fun dofs =>
  (addTranslation b dofs none (some "Sway".toList) 1).bind fun dofs =>
  (addTranslation b dofs none (some "Heave".toList) 1).bind fun dofs =>
  (addRotation b dofs none (some "Roll".toList) 1).bind fun dofs =>
  (addRotation b dofs none (some "Pitch".toList) 1).bind fun dofs =>
  addRotation b dofs none (some "Yaw".toList) 1

/-! ## Several bodies -/

/-- A body in a program: `dofs` is a reference to a dictionary. -/
structure DofOwner where
  frame : DofFrame
  ref : ℕ

/-- The dictionaries and the bodies of a program. -/
structure DofStore where
  dicts : List DofDict
  bodies : List DofOwner

/-- The argument `dofs` of the constructor (`bodies/bodies.py:103-111`). -/
inductive DofsArg where
  | nothing
  | rigid (rotationCenter : Option (V3 ℝ))
  | given (ref : ℕ)

/-- `_check_dofs_shape_consistency` (`bodies/bodies.py:269-274`). -/
def DofFrame.Accepts (b : DofFrame) (dofs : DofDict) : Prop := ∀ d ∈ dofs, d.2.length = b.centers.length

open Classical in
/-- The constructor (`bodies/bodies.py:103-115`). A new body has no rotation center: it may come from the placeholder. -/
noncomputable def DofStore.newBody (s : DofStore) (centers : List (V3 ℝ)) (centerOfMass : Option (V3 ℝ)) :
    DofsArg → Option DofStore
  | .nothing => some ⟨s.dicts ++ [[]], s.bodies ++ [⟨⟨centers, none, centerOfMass, none⟩, s.dicts.length⟩]⟩
  | .rigid rc =>
    (addAllRigid ⟨centers, rc, centerOfMass, none⟩ []).map fun d =>
      ⟨s.dicts ++ [d], s.bodies ++ [⟨⟨centers, rc, centerOfMass, none⟩, s.dicts.length⟩]⟩
  | .given r =>
    (s.dicts[r]?).bind fun d =>
      if DofFrame.Accepts ⟨centers, none, centerOfMass, none⟩ d then
        some ⟨s.dicts, s.bodies ++ [⟨⟨centers, none, centerOfMass, none⟩, r⟩]⟩
      else none

/-- The dofs of a body. -/
def DofStore.dofsOf (s : DofStore) (i : ℕ) : Option DofDict := (s.bodies[i]?).bind fun b => s.dicts[b.ref]?

/-- A change of the dictionary of a body in place. -/
def DofStore.change (s : DofStore) (i : ℕ) (f : DofFrame → DofDict → Option DofDict) : Option DofStore :=
  (s.bodies[i]?).bind fun b => (s.dicts[b.ref]?).bind fun d => (f b.frame d).map fun d' =>
    { s with dicts := s.dicts.set b.ref d' }

/-- The steps of a program on bodies. -/
inductive DofOp where
  /-- A dictionary made by the user. -/
  | newDict (d : DofDict)
  /-- The constructor. -/
  | newBody (centers : List (V3 ℝ)) (centerOfMass : Option (V3 ℝ)) (dofs : DofsArg)
  | translation (i : ℕ) (direction : Option (V3 ℝ)) (name : Option Name) (amplitude : ℝ)
  | rotation (i : ℕ) (axis : Option (V3 ℝ × V3 ℝ)) (name : Option Name) (amplitude : ℝ)
  | allRigid (i : ℕ)
  /-- `keep_only_dofs` in place, without matrices. -/
  | keepOnly (i : ℕ) (names : List Name)
  /-- `copy`, or the first part of any method with `inplace=False`. -/
  | copy (i : ℕ)
  /-- `sliced_by_plane`, with the centers of the panels of the new mesh. -/
  | slice (i : ℕ) (centers : List (V3 ℝ))
  /-- The dofs in `mirror` in place. The changes of the mesh and of the points are left out. -/
  | mirrorDofs (i : ℕ) (plane : Plane)
  /-- Assign a reference point. -/
  | setCenterOfMass (i : ℕ) (p : Option (V3 ℝ))

/-- The loop of `keep_only_dofs` (`bodies/bodies.py:244-246`). -/
def keepNames (names : List Name) (dofs : DofDict) : DofDict := dofs.filter fun d => d.1 ∈ names

open Classical in
/-- One step of a program. -/
noncomputable def DofStore.step (s : DofStore) : DofOp → Option DofStore
  | .newDict d => some { s with dicts := s.dicts ++ [d] }
  | .newBody c g a => s.newBody c g a
  | .translation i d n x => s.change i fun b dofs => addTranslation b dofs d n x
  | .rotation i a n x => s.change i fun b dofs => addRotation b dofs a n x
  | .allRigid i => s.change i addAllRigid
  | .keepOnly i names => s.change i fun _ dofs => some (keepNames names dofs)
  -- bodies/bodies.py:838-840: a deep copy
  | .copy i => (s.bodies[i]?).bind fun b => (s.dicts[b.ref]?).bind fun d =>
      if b.frame.Accepts d then some ⟨s.dicts ++ [d], s.bodies ++ [⟨b.frame, s.dicts.length⟩]⟩ else none
  -- bodies/bodies.py:910-916: the dictionary is given to the constructor; the center of mass is not
  | .slice i centers => (s.bodies[i]?).bind fun b => s.newBody centers none (.given b.ref)
  -- bodies/bodies.py:979-980
  | .mirrorDofs i P => s.change i fun _ dofs => some (dofs.map fun d => (d.1, d.2.map P.mirrorVector))
  | .setCenterOfMass i p => (s.bodies[i]?).map fun b =>
      { s with bodies := s.bodies.set i ⟨{ b.frame with centerOfMass := p }, b.ref⟩ }

/-- A program: it stops at the first exception. -/
noncomputable def DofStore.run (s : DofStore) : List DofOp → Option DofStore
  | [] => some s
  | op :: ops => (s.step op).bind fun s' => s'.run ops

end Verif.Bodies
