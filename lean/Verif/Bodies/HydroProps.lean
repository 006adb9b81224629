import Verif.Bodies.HydroModel
import Verif.Meshes.HydroProps

/-!
# The hydrostatic stiffness is the restoring force of pressure and weight (C59)

The specification is the linearised generalised force of the hydrostatic pressure and of the weight in the six
rigid motions, integrated exactly over the triangles of the hull.
-/

namespace Verif.Bodies

open Verif.Geometry Verif.Meshes V3

/-! ## Specification -/

/-- Velocity of the rotation center in each rigid motion. -/
def Rigid.lin : Rigid → V3 ℝ
  | .surge => ⟨1, 0, 0⟩
  | .sway => ⟨0, 1, 0⟩
  | .heave => ⟨0, 0, 1⟩
  | _ => ⟨0, 0, 0⟩

/-- Rotation vector of each rigid motion. -/
def Rigid.rot : Rigid → V3 ℝ
  | .roll => ⟨1, 0, 0⟩
  | .pitch => ⟨0, 1, 0⟩
  | .yaw => ⟨0, 0, 1⟩
  | _ => ⟨0, 0, 0⟩

/-- Velocity at a point of a rigid motion around `c`. -/
def Rigid.motion (c : V3 ℝ) (r : Rigid) (p : V3 ℝ) : V3 ℝ := r.lin + cross r.rot (p - c)

/-- Gradient of the vertical velocity of a rigid motion. -/
def Rigid.slope (r : Rigid) : V3 ℝ := ⟨-r.rot.y, r.rot.x, 0⟩

/-- `slope` is the gradient of the vertical velocity. -/
theorem slope_spec (c : V3 ℝ) (r : Rigid) (p q : V3 ℝ) :
    (r.motion c q).z - (r.motion c p).z = dot r.slope (q - p) := by
  cases r <;> simp [Rigid.motion, Rigid.slope, Rigid.lin, Rigid.rot, dot]

/-- Exact flux through a triangle of a vector field which is quadratic in the coordinates: the rule with the
three midpoints of the sides. -/
noncomputable def triFlux (t : Tri) (F : V3 ℝ → V3 ℝ) : ℝ :=
  (dot (Tri.vec t) (F ((1 / 2 : ℝ) • (t.1 + t.2.1))) + dot (Tri.vec t) (F ((1 / 2 : ℝ) • (t.2.1 + t.2.2))) +
    dot (Tri.vec t) (F ((1 / 2 : ℝ) • (t.2.2 + t.1)))) / 6

/-- Restoring force of the hydrostatic pressure in the motion `i` for a unit displacement in the motion `j`,
over `rho * g`, for a hull made of triangles with normals to the water. -/
noncomputable def pressureRestoring (hull : List Tri) (c : V3 ℝ) (i j : Rigid) : ℝ :=
  -(hull.map fun t => triFlux t fun p => (i.motion c p).z • j.motion c p).sum

/-- Restoring force of a weight at `G` in the motion `i` for a unit displacement in the motion `j`, over `g`:
the vertical velocity in the motion `i` changes with the displacement of `G` in the motion `j`. -/
noncomputable def weightRestoring (mass : ℝ) (c G : V3 ℝ) (i j : Rigid) : ℝ :=
  mass * dot i.slope (j.motion c G)

/-- Exact integral over a flat waterplane of the product of two vertical velocities. -/
noncomputable def waterplaneMoment (lid : List Tri) (c : V3 ℝ) (i j : Rigid) : ℝ :=
  (lid.map fun t => triFlux t fun p => ⟨0, 0, (i.motion c p).z * (j.motion c p).z⟩).sum

/-! ## The restoring force of a closed hull -/

theorem sum_linear (ts : List Tri) (β τ ω : V3 ℝ) :
    (ts.map fun t => dot β ((dot t.1 (cross t.2.1 t.2.2) / 6) • τ +
      cross ω ((dot t.1 (cross t.2.1 t.2.2) / 6) • ((1 / 4 : ℝ) • (t.1 + t.2.1 + t.2.2))))).sum =
    dot β (enclosed 0 ts • τ + cross ω (enclosedMoment ts)) := by
  induction ts with
  | nil => simp [enclosed, enclosedMoment, dot]
  | cons t ts ih =>
    have e1 : enclosed 0 (t :: ts) = dot t.1 (cross t.2.1 t.2.2) / 6 + enclosed 0 ts := by
      simp [enclosed]
    have e2 : enclosedMoment (t :: ts) = (dot t.1 (cross t.2.1 t.2.2) / 6) • ((1 / 4 : ℝ) • (t.1 + t.2.1 + t.2.2))
        + enclosedMoment ts := by
      simp [enclosedMoment]
    rw [List.map_cons, List.sum_cons, ih, e1, e2]
    generalize dot t.1 (cross t.2.1 t.2.2) / 6 = v
    generalize (1 / 4 : ℝ) • (t.1 + t.2.1 + t.2.2) = w
    generalize enclosed 0 ts = V
    generalize enclosedMoment ts = M
    simp [dot]; ring

/-- Divergence theorem for the products of an affine function and a rigid motion, which are divergence free. -/
theorem closed_flux {ts : List Tri} (hc : ClosedSurface ts) (α : ℝ) (β τ ω : V3 ℝ) :
    (ts.map fun t => triFlux t fun p => (α + dot β p) • (τ + cross ω p)).sum =
      dot β (enclosed 0 ts • τ + cross ω (enclosedMoment ts)) := by
  rw [← sum_linear, ← sub_eq_zero, ← sum_sub_map]
  refine closed_sum hc _ (fun p q => triFlux (0, p, q) fun p => (α + dot β p) • (τ + cross ω p)) (fun t => ?_)
    (fun p q => ?_)
  · obtain ⟨a, b, d⟩ := t
    simp only [triFlux, Tri.vec, dot, add_x, add_y, add_z, smul_x, smul_y, smul_z, cross_x, cross_y, cross_z,
      sub_x, sub_y, sub_z, zero_x, zero_y, zero_z]
    ring
  · simp only [triFlux, Tri.vec, dot, add_x, add_y, add_z, smul_x, smul_y, smul_z, cross_x, cross_y, cross_z,
      sub_x, sub_y, sub_z, zero_x, zero_y, zero_z]
    ring

/-- The moment of the enclosed volume with respect to `c`, as displaced by a rigid motion. -/
noncomputable def volumeMotion (ts : List Tri) (c : V3 ℝ) (j : Rigid) : V3 ℝ :=
  enclosed 0 ts • j.lin + cross j.rot (enclosedMoment ts - enclosed 0 ts • c)

/-- **C59**: the documented formula. For a hull closed by a flat waterplane, the restoring force of the pressure
is the moment of the waterplane minus a buoyancy force applied at the center of the volume. -/
theorem pressure_restoring (hull lid : List Tri) (hc : ClosedSurface (hull ++ lid))
    (hlid : ∀ l ∈ lid, l.1.z = 0 ∧ l.2.1.z = 0 ∧ l.2.2.z = 0) (c : V3 ℝ) (i j : Rigid) :
    pressureRestoring hull c i j = waterplaneMoment lid c i j - dot i.slope (volumeMotion (hull ++ lid) c j) := by
  have h := closed_flux hc (i.lin.z - dot i.slope c) i.slope (j.lin - cross j.rot c) j.rot
  have e : (fun p : V3 ℝ => (i.motion c p).z • j.motion c p) =
      fun p => ((i.lin.z - dot i.slope c) + dot i.slope p) • ((j.lin - cross j.rot c) + cross j.rot p) := by
    funext p
    ext <;> simp [Rigid.motion, Rigid.slope, dot] <;> ring
  have hl : (lid.map fun t => triFlux t fun p => (i.motion c p).z • j.motion c p) =
      lid.map fun t => triFlux t fun p => ⟨0, 0, (i.motion c p).z * (j.motion c p).z⟩ := by
    refine List.map_congr_left fun t ht => ?_
    obtain ⟨h1, h2, h3⟩ := hlid t ht
    have hx : (Tri.vec t).x = 0 := by simp [Tri.vec, h1, h2, h3]
    have hy : (Tri.vec t).y = 0 := by simp [Tri.vec, h1, h2, h3]
    simp [triFlux, dot, hx, hy]
  rw [← e, List.map_append, List.sum_append, hl] at h
  have hv : dot i.slope (enclosed 0 (hull ++ lid) • (j.lin - cross j.rot c) +
      cross j.rot (enclosedMoment (hull ++ lid))) = dot i.slope (volumeMotion (hull ++ lid) c j) := by
    simp [volumeMotion, dot]; ring
  rw [hv] at h
  unfold pressureRestoring waterplaneMoment
  linarith

/-! ## What the code computes -/

theorem ofName_name (r : Rigid) : Rigid.ofName r.name = some r := by cases r <;> decide

theorem name_mem (r : Rigid) : r.name ∈ rigidNames := by cases r <;> decide

theorem name_of_mem {s : String} (h : s ∈ rigidNames) : ∃ r : Rigid, r.name = s := by
  simp only [rigidNames, List.mem_cons, List.not_mem_nil, or_false] at h
  rcases h with rfl | rfl | rfl | rfl | rfl | rfl
  exacts [⟨.surge, rfl⟩, ⟨.sway, rfl⟩, ⟨.heave, rfl⟩, ⟨.roll, rfl⟩, ⟨.pitch, rfl⟩, ⟨.yaw, rfl⟩]

/-- The formula of the documentation with the integrals evaluated with one point per panel. -/
noncomputable def quadratureRestoring (t : Table) (c G : V3 ℝ) (mrho : ℝ) (i j : Rigid) : ℝ :=
  -waterplaneIntegral t (fun p => (i.motion c p.center).z * (j.motion c p.center).z)
    - volume t * dot i.slope (j.motion c (centerOfBuoyancy t)) + mrho * dot i.slope (j.motion c G)

theorem waterplane_congr {t : Table} {f g : Panel → ℝ} (h : ∀ p, f p = g p) :
    waterplaneIntegral t f = waterplaneIntegral t g := by rw [show f = g from funext h]

theorem waterplane_zero (t : Table) : waterplaneIntegral t (fun _ => 0) = 0 := by
  unfold waterplaneIntegral
  simp only [mul_zero]
  have := integral_mul t 0 (fun _ => 1)
  simpa using this

theorem waterplane_neg (t : Table) (f : Panel → ℝ) :
    waterplaneIntegral t (fun p => -f p) = -waterplaneIntegral t f := by
  have := integral_mul t (-1) (fun p => p.normal.z * f p)
  unfold waterplaneIntegral
  rw [neg_one_mul] at this
  rw [← this]
  congr 1; funext p; ring

/-- All the entries but two are the ones of the formula. -/
theorem rigid_stiffness (t : Table) (c G : V3 ℝ) (mrho : ℝ) (i j : Rigid)
    (h : volume t = mrho ∨ ¬(i = .roll ∧ j = .sway ∨ i = .pitch ∧ j = .surge)) :
    rigidStiffness t c G mrho i.name j.name = quadratureRestoring t c G mrho i j := by
  have z := waterplane_zero t
  cases i <;> cases j <;>
    simp [rigidStiffness, Rigid.name, quadratureRestoring, Rigid.motion, Rigid.lin, Rigid.rot, Rigid.slope, dot, z,
      waterplaneArea] <;>
    first
      | (simp at h; linarith)
      | ring1
      | (rw [← waterplane_neg]; exact waterplane_congr fun p => by ring)
      | (rw [waterplane_congr (g := fun p => (p.center.y - c.y) * (p.center.y - c.y)) fun p => by ring]; ring1)
      | (rw [waterplane_congr (g := fun p => (c.x - p.center.x) * (c.x - p.center.x)) fun p => by ring]; ring1)

/-- **C59**: the rigid formulas of the code are the documented restoring force, integrated with one point per
panel, in all the pairs of motions if and only if the body is in vertical equilibrium. Otherwise the moments of
the horizontal translations are missing. -/
theorem rigid_stiffness_iff (t : Table) (c G : V3 ℝ) (mrho : ℝ) :
    (∀ i j : Rigid, rigidStiffness t c G mrho i.name j.name = quadratureRestoring t c G mrho i j) ↔
      volume t = mrho := by
  refine ⟨fun h => ?_, fun h i j => rigid_stiffness t c G mrho i j (.inl h)⟩
  have := h .roll .sway
  simp [rigidStiffness, Rigid.name, quadratureRestoring, Rigid.motion, Rigid.lin, Rigid.rot, Rigid.slope, dot,
    waterplane_zero] at this
  linarith

/-! ## Exactness -/

/-- The integral over the hull of the vertical normal times an affine function is the one over the waterplane. -/
theorem hull_affine (m : Mesh (V3 ℝ)) (hm : m.Sound) (lid : List Tri) (hc : ClosedSurface (m.pieces ++ lid))
    (t : Table) (ht : m.faceTable = some t) (a b d : ℝ) :
    -waterplaneIntegral t (fun p => a + b * p.center.x + d * p.center.y) =
      (lid.map fun l => triFlux l fun p => ⟨0, 0, a + b * p.x + d * p.y⟩).sum := by
  have e0 : waterplaneIntegral t (fun p => a + b * p.center.x + d * p.center.y) =
      a * surfaceIntegral t (fun p => p.normal.z) + (b * surfaceIntegral t (fun p => p.normal.z * p.center.x) +
        d * surfaceIntegral t (fun p => p.normal.z * p.center.y)) := by
    unfold waterplaneIntegral
    rw [← integral_mul, ← integral_mul, ← integral_mul, ← integral_add, ← integral_add]
    congr 1; funext p; ring
  rw [e0, normal_integral hm ht (fun n => n.z) (fun a n => by simp),
    linear_integral hm ht (fun n v => n.z * v.x) (fun a n v => by simp; ring)
      (fun n v v' => by simp; ring) (fun n a v => by simp; ring),
    linear_integral hm ht (fun n v => n.z * v.y) (fun a n v => by simp; ring)
      (fun n v v' => by simp; ring) (fun n a v => by simp; ring)]
  have h1 := closed_sum hc (fun t => ((1 / 2 : ℝ) • Tri.vec t).z) (fun p q => (1 / 2) * (cross p q).z)
    (fun t => by simp [Tri.vec]; ring) (fun p q => by simp; ring)
  have h2 := closed_sum hc (fun t => ((1 / 2 : ℝ) • Tri.vec t).z * ((1 / 3 : ℝ) • (t.1 + t.2.1 + t.2.2)).x)
    (fun p q => (1 / 6) * (q.y - p.y) * (p.x ^ 2 + p.x * q.x + q.x ^ 2))
    (fun t => by simp [Tri.vec]; ring) (fun p q => by ring)
  have h3 := closed_sum hc (fun t => ((1 / 2 : ℝ) • Tri.vec t).z * ((1 / 3 : ℝ) • (t.1 + t.2.1 + t.2.2)).y)
    (fun p q => -(1 / 6) * (q.x - p.x) * (p.y ^ 2 + p.y * q.y + q.y ^ 2))
    (fun t => by simp [Tri.vec]; ring) (fun p q => by ring)
  rw [List.map_append, List.sum_append] at h1 h2 h3
  have e1 : (lid.map fun l => triFlux l fun p => ⟨0, 0, a + b * p.x + d * p.y⟩).sum =
      a * (lid.map fun t => ((1 / 2 : ℝ) • Tri.vec t).z).sum +
      (b * (lid.map fun t => ((1 / 2 : ℝ) • Tri.vec t).z * ((1 / 3 : ℝ) • (t.1 + t.2.1 + t.2.2)).x).sum +
      d * (lid.map fun t => ((1 / 2 : ℝ) • Tri.vec t).z * ((1 / 3 : ℝ) • (t.1 + t.2.1 + t.2.2)).y).sum) := by
    clear h1 h2 h3 hc
    induction lid with
    | nil => simp
    | cons l ls ih =>
      simp only [List.map_cons, List.sum_cons, ih]
      simp [triFlux, dot]; ring
  rw [e1]
  linear_combination (-a) * h1 - b * h2 - d * h3

/-- Rotations around a horizontal axis. -/
def Rigid.Tilts (r : Rigid) : Prop := r = .roll ∨ r = .pitch

/-- The waterplane part is exact as soon as one of the two motions does not tilt the body. -/
theorem waterplane_exact (m : Mesh (V3 ℝ)) (hm : m.Sound) (lid : List Tri) (hc : ClosedSurface (m.pieces ++ lid))
    (t : Table) (ht : m.faceTable = some t) (c : V3 ℝ) (i j : Rigid) (h : ¬(i.Tilts ∧ j.Tilts)) :
    -waterplaneIntegral t (fun p => (i.motion c p.center).z * (j.motion c p.center).z) =
      waterplaneMoment lid c i j := by
  have key : ∃ a b d, ∀ p : V3 ℝ, (i.motion c p).z * (j.motion c p).z = a + b * p.x + d * p.y := by
    have hw : ∀ (r : Rigid) (p : V3 ℝ), (r.motion c p).z =
        (r.lin.z - r.rot.x * c.y + r.rot.y * c.x) + (-r.rot.y) * p.x + r.rot.x * p.y := by
      intro r p; simp [Rigid.motion]; ring
    have hz : ∀ r : Rigid, ¬r.Tilts → r.rot.x = 0 ∧ r.rot.y = 0 := by
      intro r hr
      cases r <;> simp [Rigid.Tilts, Rigid.rot] at hr ⊢
    by_cases hi : i.Tilts
    · obtain ⟨h1, h2⟩ := hz j fun hj => h ⟨hi, hj⟩
      refine ⟨(i.lin.z - i.rot.x * c.y + i.rot.y * c.x) * j.lin.z, (-i.rot.y) * j.lin.z, i.rot.x * j.lin.z, fun p => ?_⟩
      rw [hw i, hw j, h1, h2]; ring
    · obtain ⟨h1, h2⟩ := hz i hi
      refine ⟨(j.lin.z - j.rot.x * c.y + j.rot.y * c.x) * i.lin.z, (-j.rot.y) * i.lin.z, j.rot.x * i.lin.z, fun p => ?_⟩
      rw [hw i, hw j, h1, h2]; ring
  obtain ⟨a, b, d, hk⟩ := key
  unfold waterplaneMoment
  simp only [hk]
  exact hull_affine m hm lid hc t ht a b d

/-- **C59**: for a hull closed by a flat waterplane and in vertical equilibrium, the stiffness is the exact
restoring force of pressure and weight, except for the moments due to rotations: there, the second moments of the
waterplane and the center of buoyancy, evaluated with one point per panel, have to be exact for this mesh. -/
theorem stiffness_restoring_partial (m : Mesh (V3 ℝ)) (hm : m.Sound) (lid : List Tri)
    (hlid : ∀ l ∈ lid, l.1.z = 0 ∧ l.2.1.z = 0 ∧ l.2.2.z = 0) (hc : ClosedSurface (m.pieces ++ lid))
    (t : Table) (ht : m.faceTable = some t) (c G : V3 ℝ) (mrho : ℝ) (hV : volume t = mrho) (i j : Rigid)
    (hQ : i.Tilts → j.Tilts →
      -waterplaneIntegral t (fun p => (i.motion c p.center).z * (j.motion c p.center).z) = waterplaneMoment lid c i j)
    (hB : i.Tilts → j.rot ≠ ⟨0, 0, 0⟩ → volume t • centerOfBuoyancy t = enclosedMoment (m.pieces ++ lid)) :
    rigidStiffness t c G mrho i.name j.name =
      pressureRestoring m.pieces c i j + weightRestoring mrho c G i j := by
  rw [rigid_stiffness t c G mrho i j (.inl hV), pressure_restoring m.pieces lid hc hlid c i j]
  have h1 : -waterplaneIntegral t (fun p => (i.motion c p.center).z * (j.motion c p.center).z) =
      waterplaneMoment lid c i j := by
    by_cases h : i.Tilts ∧ j.Tilts
    · exact hQ h.1 h.2
    · exact waterplane_exact m hm lid hc t ht c i j h
  have h2 : volume t * dot i.slope (j.motion c (centerOfBuoyancy t)) =
      dot i.slope (volumeMotion (m.pieces ++ lid) c j) := by
    have hv := (hull_volumes m hm lid hlid hc t ht 0).2.2.2
    by_cases hi : i.Tilts
    · by_cases hj : j.rot = ⟨0, 0, 0⟩
      · simp [volumeMotion, Rigid.motion, hj, ← hv, dot]; ring
      · rw [volumeMotion, ← hv, ← hB hi hj]
        simp [Rigid.motion, dot]; ring
    · have : i.slope = ⟨0, 0, 0⟩ := by
        cases i <;> simp [Rigid.Tilts, Rigid.slope, Rigid.rot] at hi ⊢
      rw [this]; simp [dot]
  unfold quadratureRestoring weightRestoring
  rw [h1, h2]

/-! ## Symmetry of the stiffness -/

/-- The stiffness of a pair of rigid dofs. -/
theorem each_rigid (b : HydroBody) (rho g : ℝ) (div : List ℝ) (G c : V3 ℝ) (hG : b.centerOfMass = some G)
    (hc : b.inferCenter = .ok c) (i j : Rigid) :
    b.eachStiffness rho g div i.name j.name =
      .ok (rho * g * rigidStiffness b.table c G (b.mass.getD (dispMass rho b.table) / rho) i.name j.name) := by
  unfold HydroBody.eachStiffness
  rw [if_pos ⟨name_mem i, name_mem j⟩, hG]
  simp only [hc]

/-- **C59**: the stiffness of the rigid dofs is symmetric if and only if the weight and the buoyancy have the same
moments around the two horizontal axes. -/
theorem stiffness_symmetric_iff (b : HydroBody) (rho g : ℝ) (hrho : rho ≠ 0) (hg : g ≠ 0) (G c : V3 ℝ)
    (hG : b.centerOfMass = some G) (hc : b.inferCenter = .ok c) :
    (∀ (i j : Rigid) (d d' : List ℝ),
      b.eachStiffness rho g d i.name j.name = b.eachStiffness rho g d' j.name i.name) ↔
    (rho * volume b.table) * ((centerOfBuoyancy b.table).x - c.x) =
      b.mass.getD (dispMass rho b.table) * (G.x - c.x) ∧
    (rho * volume b.table) * ((centerOfBuoyancy b.table).y - c.y) =
      b.mass.getD (dispMass rho b.table) * (G.y - c.y) := by
  simp only [each_rigid b rho g _ G c hG hc]
  generalize b.mass.getD (dispMass rho b.table) = M
  constructor
  · intro h
    have h1 := Except.ok.inj (h .roll .yaw [] [])
    have h2 := Except.ok.inj (h .pitch .yaw [] [])
    simp [rigidStiffness, Rigid.name, hrho, hg] at h1 h2
    field_simp at h1 h2
    constructor <;> linarith
  · rintro ⟨h1, h2⟩ i j _ _
    congr 2
    cases i <;> cases j <;> simp [rigidStiffness, Rigid.name] <;> field_simp <;> linarith

/-- **C59**: a body whose center of mass is on the vertical of its center of buoyancy and which has no given mass
has a symmetric stiffness. -/
theorem stiffness_symmetric (b : HydroBody) (rho g : ℝ) (G c : V3 ℝ)
    (hG : b.centerOfMass = some G) (hc : b.inferCenter = .ok c) (hm : b.mass = none)
    (hx : (centerOfBuoyancy b.table).x = G.x) (hy : (centerOfBuoyancy b.table).y = G.y)
    (i j : Rigid) (d d' : List ℝ) :
    b.eachStiffness rho g d i.name j.name = b.eachStiffness rho g d' j.name i.name := by
  by_cases hrho : rho = 0
  · rw [each_rigid b rho g _ G c hG hc, each_rigid b rho g _ G c hG hc]; simp [hrho]
  by_cases hg : g = 0
  · rw [each_rigid b rho g _ G c hG hc, each_rigid b rho g _ G c hG hc]; simp [hg]
  exact (stiffness_symmetric_iff b rho g hrho hg G c hG hc).2 (by simp [hm, hx, hy, dispMass]) i j d d'

/-! ## Change of the rotation center -/

/-- The six motions. -/
def Rigid.all : List Rigid := [.surge, .sway, .heave, .roll, .pitch, .yaw]

/-- The coefficients of the motions around `c + d` in the motions around `c`. -/
def Rigid.shift (d : V3 ℝ) : Rigid → Rigid → ℝ
  | .roll, .sway => d.z
  | .roll, .heave => -d.y
  | .pitch, .surge => -d.z
  | .pitch, .heave => d.x
  | .yaw, .surge => d.y
  | .yaw, .sway => -d.x
  | r, s => if r = s then 1 else 0

/-- These are the coefficients. -/
theorem shift_spec (c d p : V3 ℝ) (r : Rigid) :
    r.motion (c + d) p = (Rigid.all.map fun s => Rigid.shift d r s • s.motion c p).sum := by
  cases r <;> ext <;> simp [Rigid.all, Rigid.shift, Rigid.motion, Rigid.lin, Rigid.rot] <;> ring

/-- **C59**: in vertical equilibrium, the stiffness around another rotation center is the one of the same quadratic
form in the new motions. -/
theorem stiffness_center (t : Table) (c d G : V3 ℝ) (mrho : ℝ) (hV : volume t = mrho) (i j : Rigid) :
    rigidStiffness t (c + d) G mrho i.name j.name =
      (Rigid.all.map fun k => (Rigid.all.map fun l =>
        Rigid.shift d i k * Rigid.shift d j l * rigidStiffness t c G mrho k.name l.name).sum).sum := by
  have hlin : ∀ a b e f : ℝ, ∀ p q r : Panel → ℝ,
      waterplaneIntegral t (fun x => a + b * p x + e * q x + f * r x) =
        a * waterplaneIntegral t (fun _ => 1) + b * waterplaneIntegral t p + e * waterplaneIntegral t q +
          f * waterplaneIntegral t r := by
    intro a b e f p q r
    unfold waterplaneIntegral
    rw [← integral_mul, ← integral_mul, ← integral_mul, ← integral_mul, ← integral_add, ← integral_add, ← integral_add]
    congr 1; funext x; ring
  have hx : waterplaneIntegral t (fun p => p.center.x - (c.x + d.x)) =
      waterplaneIntegral t (fun p => p.center.x - c.x) - d.x * waterplaneIntegral t (fun _ => 1) := by
    rw [waterplane_congr (g := fun p => (-d.x) + 1 * (p.center.x - c.x) + 0 * 0 + 0 * 0) fun p => by ring,
      hlin (-d.x) 1 0 0 (fun p => p.center.x - c.x) (fun _ => 0) (fun _ => 0)]
    ring
  have hy : waterplaneIntegral t (fun p => p.center.y - (c.y + d.y)) =
      waterplaneIntegral t (fun p => p.center.y - c.y) - d.y * waterplaneIntegral t (fun _ => 1) := by
    rw [waterplane_congr (g := fun p => (-d.y) + 1 * (p.center.y - c.y) + 0 * 0 + 0 * 0) fun p => by ring,
      hlin (-d.y) 1 0 0 (fun p => p.center.y - c.y) (fun _ => 0) (fun _ => 0)]
    ring
  have hxx : waterplaneIntegral t (fun p => (p.center.x - (c.x + d.x)) ^ 2) =
      waterplaneIntegral t (fun p => (p.center.x - c.x) ^ 2) - 2 * d.x * waterplaneIntegral t (fun p => p.center.x - c.x)
        + d.x ^ 2 * waterplaneIntegral t (fun _ => 1) := by
    rw [waterplane_congr (g := fun p => d.x ^ 2 + 1 * (p.center.x - c.x) ^ 2 + (-2 * d.x) * (p.center.x - c.x) + 0 * 0)
      fun p => by ring, hlin _ _ _ _ (fun p => (p.center.x - c.x) ^ 2) (fun p => p.center.x - c.x) (fun _ => 0)]
    ring
  have hyy : waterplaneIntegral t (fun p => (p.center.y - (c.y + d.y)) ^ 2) =
      waterplaneIntegral t (fun p => (p.center.y - c.y) ^ 2) - 2 * d.y * waterplaneIntegral t (fun p => p.center.y - c.y)
        + d.y ^ 2 * waterplaneIntegral t (fun _ => 1) := by
    rw [waterplane_congr (g := fun p => d.y ^ 2 + 1 * (p.center.y - c.y) ^ 2 + (-2 * d.y) * (p.center.y - c.y) + 0 * 0)
      fun p => by ring, hlin _ _ _ _ (fun p => (p.center.y - c.y) ^ 2) (fun p => p.center.y - c.y) (fun _ => 0)]
    ring
  have hxy : waterplaneIntegral t (fun p => (p.center.x - (c.x + d.x)) * (p.center.y - (c.y + d.y))) =
      waterplaneIntegral t (fun p => (p.center.x - c.x) * (p.center.y - c.y)) -
        d.x * waterplaneIntegral t (fun p => p.center.y - c.y) -
        d.y * waterplaneIntegral t (fun p => p.center.x - c.x)
        + d.x * d.y * waterplaneIntegral t (fun _ => 1) := by
    rw [waterplane_congr (g := fun p => d.x * d.y + 1 * ((p.center.x - c.x) * (p.center.y - c.y)) +
        (-d.x) * (p.center.y - c.y) + (-d.y) * (p.center.x - c.x))
      fun p => by ring, hlin _ _ _ _ (fun p => (p.center.x - c.x) * (p.center.y - c.y)) (fun p => p.center.y - c.y)
        (fun p => p.center.x - c.x)]
    ring
  subst hV
  cases i <;> cases j <;>
    simp [Rigid.all, Rigid.shift, rigidStiffness, Rigid.name, hx, hy, hxx, hyy, hxy, waterplaneArea] <;> ring

end Verif.Bodies
