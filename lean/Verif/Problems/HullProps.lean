import Verif.Problems.LinearProps
import Verif.Geometry.RotationProps
import Mathlib.Analysis.SpecialFunctions.ExpDeriv
import Mathlib.Analysis.SpecialFunctions.Trigonometric.Deriv

/-!
# Boundary conditions on the hull (C66), forces (C67) and rigid motions (C68)
-/

namespace Verif.Problems

open Verif.Frequency Verif.Geometry Finset V3

/-! ## C66: boundary conditions -/

/-- Specification: the real signal of complex amplitude `A` at the frequency `ω`. -/
noncomputable def signal (ω : ℝ) (A : ℂ) (t : ℝ) : ℝ := (A * Complex.exp (-Complex.I * ω * t)).re

theorem base_fields (newton) (a : Args) (body : Body) (b : Base) (h : base newton a body = .ok b) :
    b.body = body ∧ b.speed = a.speed := by
  unfold base at h
  split at h
  · cases h
  · split at h
    · cases h
    · split at h
      · cases h
      · split at h
        · cases h
        · split at h
          · cases h
          · cases h
          · rw [← Except.ok.inj h]; exact ⟨rfl, rfl⟩

/-- **C66, diffraction.** On the panels of the hull, the normal velocity of the incoming wave plus the
boundary condition vanishes; on the panels of the lid the boundary condition is zero. -/
theorem diffraction_hull (newton) (a : Args) (body : Body) (p : Problem)
    (h : mkDiffraction newton a body = .ok p) :
    ∃ bc : ℕ → ℂ, p.bc = .num bc ∧
      (∀ i, i < body.n →
        bc i + ((Airy.velocity p.base.airy (body.center i).x (body.center i).y (body.center i).z).1 *
            (body.normal i).x +
          (Airy.velocity p.base.airy (body.center i).x (body.center i).y (body.center i).z).2.1 *
            (body.normal i).y +
          (Airy.velocity p.base.airy (body.center i).x (body.center i).y (body.center i).z).2.2 *
            (body.normal i).z) = 0) ∧
      ∀ i, body.n ≤ i → bc i = 0 := by
  unfold mkDiffraction at h
  cases hb : base newton a body with
  | error e => rw [hb] at h; cases h
  | ok b =>
    rw [hb] at h
    have hbody : b.body = body := (base_fields newton a body b hb).1
    simp only at h
    split at h
    · cases h
    · rw [← Except.ok.inj h]
      refine ⟨_, rfl, fun i hi => ?_, fun i hi => ?_⟩
      · unfold diffractionBC
        rw [hbody, if_pos hi]
        ring
      · unfold diffractionBC
        rw [hbody, if_neg (by omega)]

/-- Concrete case of `diffraction_hull`. -/
example (newton) : ∃ p, mkDiffraction newton (unitArgs 0 0) panelBody = .ok p :=
  ⟨_, mkDiffraction_ok newton _ _ _
    (unit_base newton 0 0 1 panelBody (by simp [panelBody]) (by simp) one_pos) rfl⟩

/-- **C66, radiation without forward speed.** The boundary condition is the amplitude of the normal
velocity of the panels, when the displacement of the panels is the dof times `cos (ω t)`, and zero on
the lid. -/
theorem radiation_hull (newton) (a : Args) (hspeed : a.speed = 0) (body : Body) (name : String)
    (dof : ℕ → V3 ℝ) (hdof : body.dofs.lookup name = some dof) (p : Problem)
    (h : mkRadiation newton a body (some name) = .ok p) (ω : ℝ) (hω : p.base.enc.omega = .real ω) :
    ∃ bc : ℕ → ℂ, p.bc = .num bc ∧
      (∀ i, i < body.n → ∀ t : ℝ,
        HasDerivAt (fun t => signal ω ((dot (dof i) (body.normal i) : ℝ) : ℂ) t) (signal ω (bc i) t) t) ∧
      ∀ i, body.n ≤ i → bc i = 0 := by
  unfold mkRadiation at h
  cases hb : base newton a body with
  | error e => rw [hb] at h; cases h
  | ok b =>
    rw [hb] at h
    have hbody : b.body = body := (base_fields newton a body b hb).1
    have hs : b.speed = 0 := by rw [(base_fields newton a body b hb).2, hspeed]
    simp only at h
    split at h
    · cases h
    · simp only [Option.getD_some, hdof] at h
      cases hr : radiationBC b name dof with
      | error e => rw [hr] at h; cases h
      | ok bc =>
        rw [hr] at h
        rw [← Except.ok.inj h] at hω ⊢
        have hq : bc = .num fun i => -Complex.I * ω * dofDotN body dof i := by
          unfold radiationBC at hr
          have hω' : b.enc.omega = .real ω := hω
          simp only [hs, ne_eq, not_true_eq_false, if_false, hω', quantitySV, SV.numMul, SV.smulVec,
            SV.map, hbody] at hr
          exact (Except.ok.inj hr).symm
        refine ⟨_, hq, fun i hi t => ?_, fun i hi => ?_⟩
        · unfold signal
          have e : dofDotN body dof i = ((dot (dof i) (body.normal i) : ℝ) : ℂ) := by
            unfold dofDotN; rw [if_pos hi]
          rw [e]
          have hl : HasDerivAt (fun t : ℝ => -Complex.I * ω * (t : ℂ)) (-Complex.I * ω) t := by
            simpa using (Complex.ofRealCLM.hasDerivAt (x := t)).const_mul (-Complex.I * (ω : ℂ))
          have hd := (hl.cexp).const_mul (((dot (dof i) (body.normal i) : ℝ) : ℂ))
          have := (Complex.reCLM.hasFDerivAt.comp_hasDerivAt t hd)
          refine this.congr_deriv ?_
          simp only [Complex.reCLM_apply]
          congr 1
          ring
        · beta_reduce
          unfold dofDotN
          rw [if_neg (by omega), mul_zero]

/-- Concrete case of `radiation_hull`. -/
example (newton) : ∃ p, mkRadiation newton (unitArgs 0 0) panelBody (some "Surge") = .ok p ∧
    panelBody.dofs.lookup "Surge" = some (fun _ => ⟨1, 0, 0⟩) ∧ p.base.enc.omega = .real 1 := by
  refine ⟨⟨unitBase panelBody 0 0 1, .radiation "Surge",
    .num fun i => (-Complex.I * ((1 : ℝ) : ℂ)) * dofDotN panelBody (fun _ => ⟨1, 0, 0⟩) i⟩, ?_, rfl, rfl⟩
  unfold mkRadiation
  rw [unit_base newton 0 0 1 panelBody (by simp [panelBody]) (by simp) one_pos]
  have hl : panelBody.dofs.lookup "Surge" = some fun _ => ⟨1, 0, 0⟩ := rfl
  have hd : panelBody.dofs = [("Surge", fun _ => ⟨1, 0, 0⟩)] := rfl
  simp only [hd, Option.getD_some]
  simp only [← hd, hl]
  simp [radiationBC, unitBase, quantitySV, SV.numMul, SV.smulVec, SV.map]

/-! ## C68: rigid motions -/

/-- `add_translation_dof`, `bodies/bodies.py:153-182`. -/
def translationDof (amplitude : ℝ) (direction : V3 ℝ) : ℕ → V3 ℝ := fun _ => amplitude • direction

/-- `add_rotation_dof`, `bodies/bodies.py:184-222`: `point` and `direction` are those of the axis or
those found from the name of the dof. -/
def rotationDof (b : Body) (amplitude : ℝ) (point direction : V3 ℝ) : ℕ → V3 ℝ := fun i =>
  amplitude • cross (point - b.center i) direction

/-- `TRANSLATION_DOFS_DIRECTIONS`, `bodies/bodies.py:25`. -/
def translationDirection (name : String) : Option (V3 ℝ) :=
  if lower name = "surge".toList then some ⟨1, 0, 0⟩
  else if lower name = "sway".toList then some ⟨0, 1, 0⟩
  else if lower name = "heave".toList then some ⟨0, 0, 1⟩
  else none

/-- `ROTATION_DOFS_AXIS`, `bodies/bodies.py:26`. -/
def rotationDirection (name : String) : Option (V3 ℝ) :=
  if lower name = "roll".toList then some ⟨1, 0, 0⟩
  else if lower name = "pitch".toList then some ⟨0, 1, 0⟩
  else if lower name = "yaw".toList then some ⟨0, 0, 1⟩
  else none

/-- **C68**: a rotation dof is the velocity of the centers of the panels when the body is rotated around
the axis at unit angular velocity: the three coordinates of the rotated center have the dof as
derivatives. -/
theorem rotation_dof_derivative (b : Body) (ax : Axis) (hax : dot ax.vector ax.vector = 1) (i : ℕ) :
    HasDerivAt (fun θ => (ax.rotatePoint θ (b.center i)).x) (rotationDof b 1 ax.point ax.vector i).x 0 ∧
    HasDerivAt (fun θ => (ax.rotatePoint θ (b.center i)).y) (rotationDof b 1 ax.point ax.vector i).y 0 ∧
    HasDerivAt (fun θ => (ax.rotatePoint θ (b.center i)).z) (rotationDof b 1 ax.point ax.vector i).z 0 := by
  have hx : ∀ θ, ax.rotatePoint θ (b.center i) = Real.cos θ • (b.center i - ax.point) +
      Real.sin θ • cross ax.vector (b.center i - ax.point) +
      ((1 - Real.cos θ) * dot ax.vector (b.center i - ax.point)) • ax.vector + ax.point := by
    intro θ
    unfold Axis.rotatePoint
    rw [rotateVector_unit ax hax]
    abel
  have hs : HasDerivAt Real.sin 1 0 := by simpa using Real.hasDerivAt_sin 0
  have hc : HasDerivAt Real.cos 0 0 := by simpa using Real.hasDerivAt_cos 0
  have key : ∀ A B C D : ℝ, HasDerivAt (fun θ => Real.cos θ * A + Real.sin θ * B +
      (1 - Real.cos θ) * C + D) B 0 := by
    intro A B C D
    have := (((hc.mul_const A).add (hs.mul_const B)).add ((hc.const_sub 1).mul_const C)).add_const D
    exact this.congr_deriv (by ring)
  refine ⟨?_, ?_, ?_⟩
  · have := key (b.center i - ax.point).x (cross ax.vector (b.center i - ax.point)).x
      (dot ax.vector (b.center i - ax.point) * ax.vector.x) ax.point.x
    refine (this.congr_deriv ?_).congr_of_eventuallyEq (.of_forall fun θ => ?_)
    · simp [rotationDof]; ring
    · simp [hx θ]; ring
  · have := key (b.center i - ax.point).y (cross ax.vector (b.center i - ax.point)).y
      (dot ax.vector (b.center i - ax.point) * ax.vector.y) ax.point.y
    refine (this.congr_deriv ?_).congr_of_eventuallyEq (.of_forall fun θ => ?_)
    · simp [rotationDof]; ring
    · simp [hx θ]; ring
  · have := key (b.center i - ax.point).z (cross ax.vector (b.center i - ax.point)).z
      (dot ax.vector (b.center i - ax.point) * ax.vector.z) ax.point.z
    refine (this.congr_deriv ?_).congr_of_eventuallyEq (.of_forall fun θ => ?_)
    · simp [rotationDof]; ring
    · simp [hx θ]; ring

/-- Concrete case of `rotation_dof_derivative`: the axis `Oz`. -/
example : dot (⟨⟨0, 0, 1⟩, 0⟩ : Axis).vector (⟨⟨0, 0, 1⟩, 0⟩ : Axis).vector = 1 := by simp [dot]

/-- The displacement field of one of the six rigid dofs, found from its name, around `point`. -/
def rigidField (name : String) (point x : V3 ℝ) : Option (V3 ℝ) :=
  match translationDirection name with
  | some d => some d
  | none => (rotationDirection name).map fun d => cross d (x - point)

/-- The motion stored for a dof whose direction is found from its name is the field above at the centers
of the panels. -/
theorem rotationDof_field (b : Body) (name : String) (point d : V3 ℝ)
    (ht : translationDirection name = none) (hd : rotationDirection name = some d) (i : ℕ) :
    rigidField name point (b.center i) = some (rotationDof b 1 point d i) := by
  unfold rigidField
  rw [ht, hd]
  simp only [Option.map_some, Option.some.injEq]
  unfold rotationDof
  ext <;> simp <;> ring

/-- **C66, radiation with forward speed.** For the six rigid dofs, the boundary condition is the normal
component of `- i ω ξ - U ∂ξ/∂x`, where `ξ` is the displacement field of the body: this is the velocity
of the hull in the fluid seen from the moving frame. -/
theorem radiation_speed_hull (b : Base) (hs : b.speed ≠ 0) (ω : ℝ) (hω : b.enc.omega = .real ω)
    (name : String) (point : V3 ℝ) (dof : ℕ → V3 ℝ)
    (hdof : ∀ i, rigidField name point (b.body.center i) = some (dof i)) (ddx : ℕ → V3 ℝ)
    (hddx : ∀ i, ∀ ξ : ℝ → V3 ℝ,
      (∀ s, rigidField name point ⟨(b.body.center i).x + s, (b.body.center i).y, (b.body.center i).z⟩ =
        some (ξ s)) →
      HasDerivAt (fun s => (ξ s).x) (ddx i).x 0 ∧ HasDerivAt (fun s => (ξ s).y) (ddx i).y 0 ∧
      HasDerivAt (fun s => (ξ s).z) (ddx i).z 0) :
    ∃ bc : ℕ → ℂ, radiationBC b name dof = .ok (.num bc) ∧
      (∀ i, i < b.body.n → bc i = -Complex.I * ω * (dot (dof i) (b.body.normal i) : ℝ)
        - b.speed * (dot (ddx i) (b.body.normal i) : ℝ)) ∧
      ∀ i, b.body.n ≤ i → bc i = 0 := by
  -- the derivative of the field in closed form
  have hD : ∃ d, ddofdxDotN name b.body = some d ∧ ∀ i, d i = ((-(dot (ddx i) (b.body.normal i)) : ℝ) : ℂ) := by
    have aff : ∀ i (A B : V3 ℝ), (∀ s : ℝ, rigidField name point
        ⟨(b.body.center i).x + s, (b.body.center i).y, (b.body.center i).z⟩ = some (A + s • B)) → ddx i = B := by
      intro i A B h
      obtain ⟨h1, h2, h3⟩ := hddx i (fun s => A + s • B) h
      have l : ∀ u v : ℝ, HasDerivAt (fun s : ℝ => u + s * v) v 0 := by
        intro u v
        simpa using ((hasDerivAt_id (0 : ℝ)).mul_const v).const_add u
      ext
      · exact h1.unique (by simpa using l A.x B.x)
      · exact h2.unique (by simpa using l A.y B.y)
      · exact h3.unique (by simpa using l A.z B.z)
    have hsome := hdof 0
    by_cases n1 : lower name = "surge".toList
    · have t : translationDirection name = some ⟨1, 0, 0⟩ := by
        unfold translationDirection; rw [if_pos n1]
      have : ∀ i, ddx i = 0 := fun i => aff i ⟨1, 0, 0⟩ 0 (fun s => by simp [rigidField, t, V3.ext_iff])
      refine ⟨fun _ => 0, ?_, fun i => by rw [this i]; simp [dot]⟩
      unfold ddofdxDotN
      rw [n1, if_neg (by decide), if_neg (by decide), if_pos (by decide)]
    by_cases n2 : lower name = "sway".toList
    · have t : translationDirection name = some ⟨0, 1, 0⟩ := by
        unfold translationDirection; rw [n2, if_neg (by decide), if_pos rfl]
      have : ∀ i, ddx i = 0 := fun i => aff i ⟨0, 1, 0⟩ 0 (fun s => by simp [rigidField, t, V3.ext_iff])
      refine ⟨fun _ => 0, ?_, fun i => by rw [this i]; simp [dot]⟩
      unfold ddofdxDotN
      rw [n2, if_neg (by decide), if_neg (by decide), if_pos (by decide)]
    by_cases n3 : lower name = "heave".toList
    · have t : translationDirection name = some ⟨0, 0, 1⟩ := by
        unfold translationDirection; rw [n3, if_neg (by decide), if_neg (by decide), if_pos rfl]
      have : ∀ i, ddx i = 0 := fun i => aff i ⟨0, 0, 1⟩ 0 (fun s => by simp [rigidField, t, V3.ext_iff])
      refine ⟨fun _ => 0, ?_, fun i => by rw [this i]; simp [dot]⟩
      unfold ddofdxDotN
      rw [n3, if_neg (by decide), if_neg (by decide), if_pos (by decide)]
    have t : translationDirection name = none := by
      unfold translationDirection; rw [if_neg n1, if_neg n2, if_neg n3]
    by_cases n4 : lower name = "roll".toList
    · have r : rotationDirection name = some ⟨1, 0, 0⟩ := by
        unfold rotationDirection; rw [if_pos n4]
      have : ∀ i, ddx i = 0 := fun i =>
        aff i (cross ⟨1, 0, 0⟩ (b.body.center i - point)) 0 (fun s => by simp [rigidField, t, r, V3.ext_iff])
      refine ⟨fun _ => 0, ?_, fun i => by rw [this i]; simp [dot]⟩
      unfold ddofdxDotN
      rw [n4, if_neg (by decide), if_neg (by decide), if_pos (by decide)]
    by_cases n5 : lower name = "pitch".toList
    · have r : rotationDirection name = some ⟨0, 1, 0⟩ := by
        unfold rotationDirection; rw [n5, if_neg (by decide), if_pos rfl]
      have : ∀ i, ddx i = ⟨0, 0, -1⟩ := fun i =>
        aff i (cross ⟨0, 1, 0⟩ (b.body.center i - point)) ⟨0, 0, -1⟩
          (fun s => by simp [rigidField, t, r, V3.ext_iff]; try ring)
      refine ⟨fun i => ((b.body.normal i).z : ℂ), ?_, fun i => by rw [this i]; simp [dot]⟩
      unfold ddofdxDotN
      rw [n5, if_pos rfl]
    by_cases n6 : lower name = "yaw".toList
    · have r : rotationDirection name = some ⟨0, 0, 1⟩ := by
        unfold rotationDirection; rw [n6, if_neg (by decide), if_neg (by decide), if_pos rfl]
      have : ∀ i, ddx i = ⟨0, 1, 0⟩ := fun i =>
        aff i (cross ⟨0, 0, 1⟩ (b.body.center i - point)) ⟨0, 1, 0⟩
          (fun s => by simp [rigidField, t, r, V3.ext_iff]; try ring)
      refine ⟨fun i => ((-(b.body.normal i).y : ℝ) : ℂ), ?_, fun i => by rw [this i]; simp [dot]⟩
      unfold ddofdxDotN
      rw [n6, if_neg (by decide), if_pos rfl]
    · have r : rotationDirection name = none := by
        unfold rotationDirection; rw [if_neg n4, if_neg n5, if_neg n6]
      simp [rigidField, t, r] at hsome
  obtain ⟨d, hd, hd'⟩ := hD
  unfold radiationBC
  simp only [hd, hω, quantitySV, SV.numMul, SV.smulVec, SV.map, ne_eq, hs, not_false_eq_true, if_true, concretize]
  refine ⟨_, rfl, fun i hi => ?_, fun i hi => ?_⟩
  · beta_reduce
    rw [if_pos hi, hd' i]
    unfold dofDotN
    rw [if_pos hi]
    push_cast
    ring
  · beta_reduce
    unfold dofDotN
    rw [if_neg (by omega), if_neg (by omega), mul_zero, add_zero]

/-- Concrete case of `radiation_speed_hull`: the pitch of a panel. -/
example : (unitBase pitchBody (1 / 2) 0 (1 / 2)).enc.omega = .real (1 / 2) ∧
    (∀ i, rigidField "Pitch" ⟨1, 0, 0⟩ (pitchBody.center i) = some ⟨0, 0, 1⟩) ∧
    ∀ i, ∀ ξ : ℝ → V3 ℝ,
      (∀ s, rigidField "Pitch" ⟨1, 0, 0⟩ ⟨(pitchBody.center i).x + s, (pitchBody.center i).y,
        (pitchBody.center i).z⟩ = some (ξ s)) →
      HasDerivAt (fun s => (ξ s).x) 0 0 ∧ HasDerivAt (fun s => (ξ s).y) 0 0 ∧
      HasDerivAt (fun s => (ξ s).z) (-1) 0 := by
  have t : translationDirection "Pitch" = none := by
    unfold translationDirection; rw [if_neg (by decide), if_neg (by decide), if_neg (by decide)]
  have r : rotationDirection "Pitch" = some ⟨0, 1, 0⟩ := by
    unfold rotationDirection; rw [if_neg (by decide), if_pos (by decide)]
  refine ⟨rfl, fun i => ?_, fun i ξ h => ?_⟩
  · simp [rigidField, t, r, pitchBody, V3.ext_iff]
  · have : ∀ s, ξ s = ⟨0, 0, 1 - s⟩ := fun s => by
      have := h s
      simp [rigidField, t, r, pitchBody, V3.ext_iff] at this
      ext
      · exact this.1.symm
      · exact this.2.1.symm
      · rw [← this.2.2]
    simp only [this]
    exact ⟨hasDerivAt_const _ _, hasDerivAt_const _ _, by simpa using (hasDerivAt_id (0 : ℝ)).const_sub 1⟩

/-! ## C67: forces -/

/-- Specification: the resultant of the pressure of the fluid on the hull, one component. The normal
vectors point towards the fluid, the pressure pushes against them. -/
noncomputable def resultant (b : Body) (p : ℕ → ℂ) (c : V3 ℝ → ℝ) : ℂ :=
  ∑ i ∈ range b.n, p i * (c ((b.area i) • (-(b.normal i))) : ℂ)

/-- Specification: the moment of the pressure around an axis. -/
noncomputable def moment (b : Body) (p : ℕ → ℂ) (point direction : V3 ℝ) : ℂ :=
  ∑ i ∈ range b.n, p i *
    (dot direction (cross (b.center i - point) ((b.area i) • (-(b.normal i)))) : ℝ)

/-- **C67**: the force on a translation dof is the component of the resultant of the pressure. -/
theorem force_translation (b : Body) (amplitude : ℝ) (d : V3 ℝ) (p : ℕ → ℂ) :
    force b (translationDof amplitude d) p = amplitude * (d.x * resultant b p V3.x +
      d.y * resultant b p V3.y + d.z * resultant b p V3.z) := by
  unfold force resultant translationDof
  simp only [mul_sum, ← sum_add_distrib]
  refine sum_congr rfl fun i _ => ?_
  simp [dot]
  ring

/-- **C67**: the force on a rotation dof is the moment of the pressure around the axis. -/
theorem force_rotation (b : Body) (amplitude : ℝ) (point d : V3 ℝ) (p : ℕ → ℂ) :
    force b (rotationDof b amplitude point d) p = amplitude * moment b p point d := by
  unfold force moment rotationDof
  rw [mul_sum]
  refine sum_congr rfl fun i _ => ?_
  simp [dot]
  ring

/-- A panel below the surface, pushed upwards by a positive pressure. -/
example : force pitchBody (translationDof 1 ⟨0, 0, 1⟩) (fun _ => 1) = -1 := by
  simp [force, pitchBody, translationDof, dot]

end Verif.Problems
