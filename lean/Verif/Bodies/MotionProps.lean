import Verif.Bodies.MotionModel
import Verif.Meshes.MotionProps

/-!
# C69: moving a body
-/

namespace Verif.Bodies

open Verif.Geometry Verif.Meshes V3

theorem lookup_map (g : List (V3 ℝ) → List (V3 ℝ)) (name : String) (l : List (String × List (V3 ℝ))) :
    (l.map fun d => (d.1, g d.2)).lookup name = (l.lookup name).map g := by
  induction l with
  | nil => rfl
  | cons d l ih =>
    rw [List.map_cons, List.lookup_cons, List.lookup_cons, ih]
    cases name == d.1 <;> rfl

theorem panelAt_none (m : Mesh (V3 ℝ)) (f : V3 ℝ → V3 ℝ) (i : ℕ) (h : m.panelAt i = none) :
    (⟨m.vertices.map f, m.faces⟩ : Mesh (V3 ℝ)).panelAt i = none := by
  rw [panelAt_eq] at h ⊢
  cases hF : m.faces[i]? with
  | none => simp only; rfl
  | some F =>
    rw [hF] at h
    simp only [Option.bind_some, Option.map_eq_none_iff] at h ⊢
    rw [corners_map, h]; rfl

theorem panelAt_mirror_none (m : Mesh (V3 ℝ)) (P : Plane) (i : ℕ) (h : m.panelAt i = none) :
    (m.mirror P).panelAt i = none := by
  rw [panelAt_eq] at h ⊢
  have e : (m.mirror P).faces[i]? = (m.faces[i]?).map Face.flip := by
    simp [Mesh.mirror, Mesh.flipNormals]
  cases hF : m.faces[i]? with
  | none => rw [e, hF]; rfl
  | some F =>
    rw [hF] at h
    rw [e, hF]
    simp only [Option.bind_some, Option.map_eq_none_iff, Option.map_some] at h ⊢
    change corners (m.vertices.map P.mirrorPoint) F.flip = none
    rw [corners_flip, corners_map, h]; rfl

/-- The scalar product of the moved dof and the moved normal. -/
theorem amplitude_moved {f L : V3 ℝ → V3 ℝ} (h : Isometry f L 1) {p q : Panel} (hm : MovedPanel f L p q)
    (v : V3 ℝ) : dot (L v) q.normal = dot v p.normal := by
  rcases hm with ⟨rfl, rfl⟩ | ⟨_, rfl⟩
  · simp [Panel.null, dot]
  · exact h.dot _ _

/-- **C69**: translating a body does not change the normal component of its dofs. -/
theorem translate_amplitude (b : RigidBody) (t : V3 ℝ) (name : String) (i : ℕ) :
    (b.translate t).normalAmplitude name i = b.normalAmplitude name i := by
  unfold RigidBody.normalAmplitude RigidBody.translate
  simp only
  cases hp : b.mesh.panelAt i with
  | none =>
    have : (b.mesh.translate t).panelAt i = none := panelAt_none _ _ _ hp
    rw [this]
  | some p =>
    obtain ⟨q, hq, hm⟩ := translate_panels b.mesh t i p hp
    rw [hq]
    cases b.dofs.lookup name with
    | none => rfl
    | some d =>
      simp only
      congr 1
      funext v
      exact amplitude_moved (isometry_translate t) hm v

/-- **C69**: rotating a body does not change the normal component of its dofs. -/
theorem rotate_amplitude (b : RigidBody) (a : Axis) (ha : dot a.vector a.vector = 1) (θ : ℝ)
    (name : String) (i : ℕ) : (b.rotate a θ).normalAmplitude name i = b.normalAmplitude name i := by
  unfold RigidBody.normalAmplitude RigidBody.rotate
  simp only [lookup_map]
  cases hp : b.mesh.panelAt i with
  | none =>
    have : (b.mesh.rotate a θ).panelAt i = none := panelAt_none _ _ _ hp
    rw [this]
    cases b.dofs.lookup name <;> rfl
  | some p =>
    obtain ⟨q, hq, hm⟩ := rotate_panels b.mesh a ha θ i p hp
    rw [hq]
    cases b.dofs.lookup name with
    | none => rfl
    | some d =>
      simp only [Option.map_some, List.getElem?_map, Option.map_map]
      congr 1
      funext v
      exact amplitude_moved (isometry_rotate a ha θ) hm v

/-- **C69**: mirroring a body does not change the normal component of its dofs. -/
theorem mirror_amplitude (b : RigidBody) (P : Plane) (hP : dot P.normal P.normal = 1)
    (name : String) (i : ℕ) : (b.mirror P).normalAmplitude name i = b.normalAmplitude name i := by
  unfold RigidBody.normalAmplitude RigidBody.mirror
  simp only [lookup_map]
  cases hp : b.mesh.panelAt i with
  | none =>
    rw [panelAt_mirror_none _ _ _ hp]
    cases b.dofs.lookup name <;> rfl
  | some p =>
    obtain ⟨q, hq, hm⟩ := mirror_normals b.mesh P hP i p hp
    rw [hq]
    cases b.dofs.lookup name with
    | none => rfl
    | some d =>
      simp only [Option.map_some, List.getElem?_map, Option.map_map]
      congr 1
      funext v
      change dot (P.mirrorVector v) q.normal = _
      rw [hm]
      exact mirrorVector_dot P hP _ _

/-- **C69**: translating a body then adding a rotation dof around the moved axis gives the same motion as
adding the dof first. -/
theorem translate_rotationDof (b : RigidBody) (t point direction : V3 ℝ) (i : ℕ) (p : Panel)
    (hp : b.mesh.panelAt i = some p) (hpos : 0 < p.area) :
    (b.translate t).rotationDof (point + t) direction i = b.rotationDof point direction i := by
  obtain ⟨q, hq, hm⟩ := translate_panels b.mesh t i p hp
  unfold RigidBody.rotationDof RigidBody.translate
  simp only
  rw [hq, hp]
  rcases hm with ⟨rfl, _⟩ | ⟨_, rfl⟩
  · exact absurd hpos (lt_irrefl _)
  · simp only [Option.map_some, Option.some.injEq, Panel.moved]
    congr 1
    abel

/-- **C69**: rotating a body then adding a rotation dof around the moved axis gives the rotated dof. -/
theorem rotate_rotationDof (b : RigidBody) (a : Axis) (ha : dot a.vector a.vector = 1) (θ : ℝ)
    (point direction : V3 ℝ) (i : ℕ) (p : Panel) (hp : b.mesh.panelAt i = some p) (hpos : 0 < p.area) :
    (b.rotate a θ).rotationDof (a.rotatePoint θ point) (a.rotateVector θ direction) i =
      (b.rotationDof point direction i).map (a.rotateVector θ) := by
  obtain ⟨q, hq, hm⟩ := rotate_panels b.mesh a ha θ i p hp
  unfold RigidBody.rotationDof RigidBody.rotate
  simp only
  rw [hq, hp]
  rcases hm with ⟨rfl, _⟩ | ⟨_, rfl⟩
  · exact absurd hpos (lt_irrefl _)
  · simp only [Option.map_some, Option.some.injEq, Panel.moved]
    rw [(isometry_rotate a ha θ).sub, (isometry_rotate a ha θ).cross, one_smul']

/-- **C69** for planar convex panels: mirroring a body then adding a rotation dof around the mirrored axis,
turned in the other direction, gives the mirrored dof. Missing: warped quadrangles, whose centers are
moved by the reversal of the panel. -/
theorem mirror_rotationDof_partial (b : RigidBody) (hb : b.mesh.ConvexPanels) (P : Plane)
    (hP : dot P.normal P.normal = 1) (point direction : V3 ℝ) (i : ℕ) (p : Panel)
    (hp : b.mesh.panelAt i = some p) (hpos : 0 < p.area) :
    (b.mirror P).rotationDof (P.mirrorPoint point) (-P.mirrorVector direction) i =
      (b.rotationDof point direction i).map P.mirrorVector := by
  obtain ⟨q, hq, hm⟩ := mirror_panels_partial b.mesh hb P hP i p hp
  unfold RigidBody.rotationDof RigidBody.mirror
  simp only
  rw [hq, hp]
  rcases hm with ⟨rfl, _⟩ | ⟨_, rfl⟩
  · exact absurd hpos (lt_irrefl _)
  · simp only [Option.map_some, Option.some.injEq, Panel.moved]
    rw [(isometry_mirror P hP).sub, show -P.mirrorVector direction = (-1 : ℝ) • P.mirrorVector direction by
      ext <;> simp, ← (isometry_mirror P hP).smul, (isometry_mirror P hP).cross,
      ← (isometry_mirror P hP).smul]
    congr 1
    ext <;> simp <;> ring

/-! ## Reference points and lid -/

/-- Specification: the names of the points attached to a body: vertices of the hull, vertices of the lid,
and reference points. -/
inductive Attached where
  | hull (k : ℕ)
  | lid (k : ℕ)
  | geometricCenter
  | rotationCenter
  | centerOfMass

/-- The position of a point attached to the body, if it exists. -/
def RigidBody.position (b : RigidBody) : Attached → Option (V3 ℝ)
  | .hull k => b.mesh.vertices[k]?
  | .lid k => b.lid.bind fun l => l.vertices[k]?
  | .geometricCenter => b.geometricCenter
  | .rotationCenter => b.rotationCenter
  | .centerOfMass => b.centerOfMass

/-- Specification: all the points attached to the body have moved as one solid: those that exist are the
same, distances are kept, and the volumes of tetrahedra are multiplied by `s`. -/
def MovedAsSolid (s : ℝ) (b b' : RigidBody) : Prop :=
  (∀ x, (b'.position x).isSome = (b.position x).isSome) ∧
  (∀ x y p q p' q', b.position x = some p → b.position y = some q → b'.position x = some p' →
    b'.position y = some q' → dist2 p' q' = dist2 p q) ∧
  ∀ x y z w p q r t p' q' r' t', b.position x = some p → b.position y = some q → b.position z = some r →
    b.position w = some t → b'.position x = some p' → b'.position y = some q' → b'.position z = some r' →
    b'.position w = some t' → boxVolume p' q' r' t' = s * boxVolume p q r t

theorem moved_as_solid {f L : V3 ℝ → V3 ℝ} {s : ℝ} (h : Isometry f L s) {b b' : RigidBody}
    (hf : ∀ x, b'.position x = (b.position x).map f) : MovedAsSolid s b b' := by
  refine ⟨fun x => by rw [hf]; cases b.position x <;> rfl, ?_, ?_⟩
  · intro x y p q p' q' hp hq hp' hq'
    rw [hf, hp] at hp'
    rw [hf, hq] at hq'
    rw [← Option.some.inj hp', ← Option.some.inj hq']
    have e : ∀ u v : V3 ℝ, dist2 u v = dot (u - v) (u - v) := by
      intro u v; simp [dist2, dot]; ring
    rw [e, e, h.sub, h.dot]
  · intro x y z w p q r t p' q' r' t' hp hq hr ht hp' hq' hr' ht'
    rw [hf, hp] at hp'
    rw [hf, hq] at hq'
    rw [hf, hr] at hr'
    rw [hf, ht] at ht'
    rw [← Option.some.inj hp', ← Option.some.inj hq', ← Option.some.inj hr', ← Option.some.inj ht']
    unfold boxVolume
    rw [h.sub, h.sub, h.sub, h.cross]
    have e : ∀ u v : V3 ℝ, dot (s • u) v = s * dot u v := by intro u v; simp [dot]; ring
    rw [e, h.dot]

/-- **C69**: hull, lid and reference points are translated together: as one solid, and by the given
vector. -/
theorem translate_solid (b : RigidBody) (t : V3 ℝ) : MovedAsSolid 1 b (b.translate t) ∧
    ∀ x p, b.position x = some p → (b.translate t).position x = some (p + t) := by
  have hf : ∀ x, (b.translate t).position x = (b.position x).map (· + t) := by
    intro x
    cases x with
    | lid k => cases hl : b.lid <;> simp [RigidBody.position, RigidBody.translate, Mesh.translate, hl]
    | _ => simp [RigidBody.position, RigidBody.translate, Mesh.translate]
  exact ⟨moved_as_solid (isometry_translate t) hf, fun x p hp => by rw [hf, hp]; rfl⟩

/-- **C69**: hull, lid and reference points are rotated together. Points on the axis stay in place. -/
theorem rotate_solid (b : RigidBody) (a : Axis) (ha : dot a.vector a.vector = 1) (θ : ℝ) :
    MovedAsSolid 1 b (b.rotate a θ) ∧
    ∀ x (t : ℝ), b.position x = some (a.at t) → (b.rotate a θ).position x = some (a.at t) := by
  have hf : ∀ x, (b.rotate a θ).position x = (b.position x).map (a.rotatePoint θ) := by
    intro x
    cases x with
    | lid k => cases hl : b.lid <;> simp [RigidBody.position, RigidBody.rotate, Mesh.rotate, hl]
    | _ => simp [RigidBody.position, RigidBody.rotate, Mesh.rotate]
  refine ⟨moved_as_solid (isometry_rotate a ha θ) hf, fun x t hx => ?_⟩
  rw [hf, hx, Option.map_some, rotation_fixes_axis]

/-- **C69**: hull, lid and reference points are reflected together. -/
theorem mirror_solid (b : RigidBody) (P : Plane) (hP : dot P.normal P.normal = 1) :
    MovedAsSolid (-1) b (b.mirror P) := by
  refine moved_as_solid (isometry_mirror P hP) fun x => ?_
  cases x with
  | lid k =>
    cases hl : b.lid <;> simp [RigidBody.position, RigidBody.mirror, Mesh.mirror, Mesh.flipNormals, hl]
  | _ => simp [RigidBody.position, RigidBody.mirror, Mesh.mirror, Mesh.flipNormals]

/-- A body made of one square panel below the free surface, with one dof. -/
noncomputable def squareBody : RigidBody :=
  { mesh := ⟨[⟨0, 0, -1⟩, ⟨1, 0, -1⟩, ⟨1, 1, -1⟩, ⟨0, 1, -1⟩], [⟨0, 1, 2, 3⟩]⟩, lid := some ⟨[⟨0, 0, 0⟩, ⟨1, 0, 0⟩, ⟨1, 1, 0⟩], [⟨0, 2, 1, 0⟩]⟩,
    dofs := [("Heave", [⟨0, 0, 1⟩])], geometricCenter := some ⟨1 / 2, 1 / 2, -1⟩, rotationCenter := none,
    centerOfMass := none }

/-- Concrete case of the theorems above: the panel of this body has a positive area. -/
example : ∃ p, squareBody.mesh.panelAt 0 = some p ∧ 0 < p.area := by
  refine ⟨_, rfl, ?_⟩
  change 0 < (quadPanel ⟨0, 0, -1⟩ ⟨1, 0, -1⟩ ⟨1, 1, -1⟩ ⟨0, 1, -1⟩).area
  have k : Kept (cross ((⟨1, 1, -1⟩ : V3 ℝ) - ⟨0, 0, -1⟩) (⟨0, 1, -1⟩ - ⟨1, 0, -1⟩)) := by
    unfold Kept V3.norm
    apply Real.le_sqrt_of_sq_le
    simp [dot]; norm_num
  rw [quad_kept k]
  exact quad_area_pos k

/-- Its points are not degenerate: the theorems on solids compare true distances and volumes. -/
example : ∃ p q r t, squareBody.position (.hull 0) = some p ∧ squareBody.position (.hull 1) = some q ∧
    squareBody.position (.lid 2) = some r ∧ squareBody.position .geometricCenter = some t ∧
    boxVolume p q r t ≠ 0 := by
  refine ⟨_, _, _, _, rfl, rfl, rfl, rfl, ?_⟩
  simp [boxVolume, dot]

end Verif.Bodies
