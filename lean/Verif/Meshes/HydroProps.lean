import Verif.Meshes.ReadProps

/-!
# C72: wet surface, waterplane and center of buoyancy
-/

namespace Verif.Meshes

open Verif.Geometry V3

/-! ## Moved meshes -/

theorem table_moved {m : Mesh (V3 ℝ)} {f L : V3 ℝ → V3 ℝ} (h : Isometry f L 1) {t : Table}
    (ht : m.faceTable = some t) : ∃ t', (m.move f).faceTable = some t' ∧
      List.Forall₂ (fun x y => MovedPanel f L x.1 y.1) t t' := by
  have hs := faceTable_spec ht
  suffices H : ∀ (fs : List Face) (t : Table), fs.map (faceProperties m.vertices) = t.map some →
      ∃ t' : Table, fs.map (faceProperties (m.vertices.map f)) = t'.map some ∧
        List.Forall₂ (fun x y => MovedPanel f L x.1 y.1) t t' by
    obtain ⟨t', h1, h2⟩ := H m.faces t hs
    exact ⟨t', faceTable_of h1, h2⟩
  intro fs
  induction fs with
  | nil =>
    intro t h
    cases t with
    | nil => exact ⟨[], rfl, .nil⟩
    | cons => cases h
  | cons F fs ih =>
    intro t hF
    cases t with
    | nil => cases hF
    | cons x t =>
      simp only [List.map_cons, List.cons.injEq] at hF
      obtain ⟨t', h1, h2⟩ := ih t hF.2
      have hx := hF.1
      unfold faceProperties at hx
      obtain ⟨c, hc, hx⟩ := Option.map_eq_some_iff.1 hx
      have hcf : corners (m.vertices.map f) F = some (f c.1, f c.2.1, f c.2.2.1, f c.2.2.2) := by
        rw [corners_map, hc]; rfl
      refine ⟨(panelOf F.isTriangle (f c.1, f c.2.1, f c.2.2.1, f c.2.2.2),
        radiusOf (panelOf F.isTriangle (f c.1, f c.2.1, f c.2.2.1, f c.2.2.2)).center
          (f c.1, f c.2.1, f c.2.2.1, f c.2.2.2)) :: t', ?_, .cons ?_ h2⟩
      · rw [List.map_cons, List.map_cons, h1]
        congr 1
        unfold faceProperties
        rw [hcf]; rfl
      · rw [← hx]; exact panelOf_moved h _ c

theorem integral_moved {f L : V3 ℝ → V3 ℝ} {t t' : Table}
    (h : List.Forall₂ (fun x y => MovedPanel f L x.1 y.1) t t') (q : Panel → ℝ) :
    surfaceIntegral t' q = surfaceIntegral t fun p => q (p.moved f L) := by
  unfold surfaceIntegral
  induction h with
  | nil => rfl
  | cons h1 _ ih =>
    rw [List.map_cons, List.map_cons, List.sum_cons, List.sum_cons, ih]
    congr 1
    rcases h1 with ⟨h1, h2⟩ | ⟨_, h2⟩
    · rw [h1, h2]; simp [Panel.null]
    · rw [h2]; rfl

theorem integral_add (t : Table) (q r : Panel → ℝ) :
    surfaceIntegral t (fun p => q p + r p) = surfaceIntegral t q + surfaceIntegral t r := by
  unfold surfaceIntegral
  induction t with
  | nil => simp
  | cons x t ih => simp only [List.map_cons, List.sum_cons, ih]; ring

theorem integral_mul (t : Table) (c : ℝ) (q : Panel → ℝ) :
    surfaceIntegral t (fun p => c * q p) = c * surfaceIntegral t q := by
  unfold surfaceIntegral
  induction t with
  | nil => simp
  | cons x t ih => simp only [List.map_cons, List.sum_cons, ih]; ring

/-- **C72**: the wet surface is not changed by translations and rotations. -/
theorem wet_surface_moved (m : Mesh (V3 ℝ)) {f L : V3 ℝ → V3 ℝ} (h : Isometry f L 1) (t t' : Table)
    (ht : m.faceTable = some t) (ht' : (m.move f).faceTable = some t') :
    wetSurfaceArea t' = wetSurfaceArea t := by
  obtain ⟨t1, h1, h2⟩ := table_moved h ht
  rw [ht'] at h1
  injection h1 with h1
  subst h1
  unfold wetSurfaceArea
  rw [integral_moved h2]

/-- **C72**: the waterplane area is not changed by the motions that keep the vertical direction, and the
waterplane center moves with the mesh. `c` is any vertical coordinate. -/
theorem waterplane_moved (m : Mesh (V3 ℝ)) {f L : V3 ℝ → V3 ℝ} (h : Isometry f L 1)
    (hz : ∀ v, (L v).z = v.z) (t t' : Table)
    (ht : m.faceTable = some t) (ht' : (m.move f).faceTable = some t') :
    waterplaneArea t' = waterplaneArea t ∧
    (waterplaneCenter t = none → waterplaneCenter t' = none) ∧
    ∀ x y, waterplaneCenter t = some (x, y) → ∀ z : ℝ, ∃ x' y', waterplaneCenter t' = some (x', y') ∧
      x' = (f ⟨x, y, z⟩).x ∧ y' = (f ⟨x, y, z⟩).y := by
  obtain ⟨t1, h1, h2⟩ := table_moved h ht
  rw [ht'] at h1
  injection h1 with h1
  subst h1
  have hA : waterplaneArea t' = waterplaneArea t := by
    unfold waterplaneArea waterplaneIntegral
    rw [integral_moved h2]
    simp only [Panel.moved, hz]
  have hez : ∀ v, V3.dot (L ⟨0, 0, 1⟩) (L v) = v.z := fun v => by rw [h.dot]; simp [dot]
  have hkz : L ⟨0, 0, 1⟩ = ⟨0, 0, 1⟩ := by
    have a1 := hz ⟨0, 0, 1⟩
    have a2 := h.dot ⟨0, 0, 1⟩ ⟨0, 0, 1⟩
    simp only [dot] at a1 a2
    rw [a1] at a2
    have a3 : (L ⟨0, 0, 1⟩).x = 0 := by nlinarith [sq_nonneg (L ⟨0, 0, 1⟩).x, sq_nonneg (L ⟨0, 0, 1⟩).y]
    have a4 : (L ⟨0, 0, 1⟩).y = 0 := by nlinarith [sq_nonneg (L ⟨0, 0, 1⟩).x, sq_nonneg (L ⟨0, 0, 1⟩).y]
    ext
    · exact a3
    · exact a4
    · exact a1
  have hL : ∀ v : V3 ℝ, L v = v.x • L ⟨1, 0, 0⟩ + v.y • L ⟨0, 1, 0⟩ + v.z • ⟨0, 0, 1⟩ := by
    intro v
    have : v = v.x • (⟨1, 0, 0⟩ : V3 ℝ) + v.y • ⟨0, 1, 0⟩ + v.z • ⟨0, 0, 1⟩ := by ext <;> simp
    conv_lhs => rw [this]
    rw [h.add, h.add, h.smul, h.smul, h.smul, hkz]
  have hfx : ∀ v : V3 ℝ, (f v).x = v.x * (L ⟨1, 0, 0⟩).x + v.y * (L ⟨0, 1, 0⟩).x + (f 0).x := by
    intro v; rw [h.point v, hL v]; simp
  have hfy : ∀ v : V3 ℝ, (f v).y = v.x * (L ⟨1, 0, 0⟩).y + v.y * (L ⟨0, 1, 0⟩).y + (f 0).y := by
    intro v; rw [h.point v, hL v]; simp
  have hx : waterplaneIntegral t' (fun p => p.center.x) =
      (L ⟨1, 0, 0⟩).x * waterplaneIntegral t (fun p => p.center.x) +
      (L ⟨0, 1, 0⟩).x * waterplaneIntegral t (fun p => p.center.y) +
      (f 0).x * waterplaneIntegral t (fun _ => 1) := by
    unfold waterplaneIntegral
    rw [integral_moved h2, ← integral_mul, ← integral_mul, ← integral_mul, ← integral_add, ← integral_add]
    congr 1
    funext p
    simp only [Panel.moved, hz, hfx p.center]
    ring
  have hy : waterplaneIntegral t' (fun p => p.center.y) =
      (L ⟨1, 0, 0⟩).y * waterplaneIntegral t (fun p => p.center.x) +
      (L ⟨0, 1, 0⟩).y * waterplaneIntegral t (fun p => p.center.y) +
      (f 0).y * waterplaneIntegral t (fun _ => 1) := by
    unfold waterplaneIntegral
    rw [integral_moved h2, ← integral_mul, ← integral_mul, ← integral_mul, ← integral_add, ← integral_add]
    congr 1
    funext p
    simp only [Panel.moved, hz, hfy p.center]
    ring
  refine ⟨hA, ?_, ?_⟩
  · unfold waterplaneCenter
    rw [hA]
    split
    · exact fun h => h
    · intro h; cases h
  · intro x y hxy z
    unfold waterplaneCenter at hxy ⊢
    rw [hA]
    split at hxy
    · cases hxy
    · rename_i hne
      simp only [Option.some.injEq, Prod.mk.injEq] at hxy
      rw [if_neg hne]
      have hA0 : waterplaneArea t ≠ 0 := by
        intro h0; rw [h0] at hne; norm_num at hne
      have hone : waterplaneIntegral t (fun _ => 1) = - waterplaneArea t := by
        unfold waterplaneArea; ring
      refine ⟨_, _, rfl, ?_, ?_⟩
      · rw [hfx, ← hxy.1, ← hxy.2, hx, hone]
        field_simp
        ring
      · rw [hfy, ← hxy.1, ← hxy.2, hy, hone]
        field_simp
        ring

/-- **C72**: the center of buoyancy of a closed mesh follows the translations of the mesh. -/
theorem center_of_buoyancy_translate (m : Mesh (V3 ℝ)) (hm : m.Sound) (hc : ClosedSurface m.pieces) (v : V3 ℝ)
    (t t' : Table) (ht : m.faceTable = some t) (ht' : (m.translate v).faceTable = some t')
    (hV : volume t ≠ 0) : centerOfBuoyancy t' = centerOfBuoyancy t + v := by
  have hiso := isometry_translate v
  have hvol := volume_translate m hm hc v t t' ht ht'
  obtain ⟨t1, h1, h2⟩ := table_moved hiso ht
  have h1' : (m.translate v).faceTable = some t1 := h1
  rw [ht'] at h1'
  injection h1' with h1'
  subst h1'
  obtain ⟨ax, ay, az⟩ := closed_area_vector m hm hc t ht
  obtain ⟨vx, vy, vz, vv⟩ := closed_volumes m hm hc t ht 0
  have hx : surfaceIntegral t (fun p => p.normal.x * p.center.x) = volume t := by rw [vv, ← vx]; rfl
  have hy : surfaceIntegral t (fun p => p.normal.y * p.center.y) = volume t := by rw [vv, ← vy]; rfl
  have hz : surfaceIntegral t (fun p => p.normal.z * p.center.z) = volume t := by rw [vv, ← vz]; rfl
  have ex : surfaceIntegral t' (fun p => p.normal.x * p.center.x ^ 2) =
      surfaceIntegral t (fun p => p.normal.x * p.center.x ^ 2) + 2 * v.x * volume t := by
    rw [integral_moved h2]
    have e : (fun p : Panel => (p.moved (· + v) id).normal.x * (p.moved (· + v) id).center.x ^ 2) =
        fun p => p.normal.x * p.center.x ^ 2 + ((2 * v.x) * (p.normal.x * p.center.x) + v.x ^ 2 * p.normal.x) := by
      funext p; simp only [Panel.moved, id, add_x]; ring
    rw [e, integral_add, integral_add, integral_mul, integral_mul, hx, ax]; ring
  have ey : surfaceIntegral t' (fun p => p.normal.y * p.center.y ^ 2) =
      surfaceIntegral t (fun p => p.normal.y * p.center.y ^ 2) + 2 * v.y * volume t := by
    rw [integral_moved h2]
    have e : (fun p : Panel => (p.moved (· + v) id).normal.y * (p.moved (· + v) id).center.y ^ 2) =
        fun p => p.normal.y * p.center.y ^ 2 + ((2 * v.y) * (p.normal.y * p.center.y) + v.y ^ 2 * p.normal.y) := by
      funext p; simp only [Panel.moved, id, add_y]; ring
    rw [e, integral_add, integral_add, integral_mul, integral_mul, hy, ay]; ring
  have ez : surfaceIntegral t' (fun p => p.normal.z * p.center.z ^ 2) =
      surfaceIntegral t (fun p => p.normal.z * p.center.z ^ 2) + 2 * v.z * volume t := by
    rw [integral_moved h2]
    have e : (fun p : Panel => (p.moved (· + v) id).normal.z * (p.moved (· + v) id).center.z ^ 2) =
        fun p => p.normal.z * p.center.z ^ 2 + ((2 * v.z) * (p.normal.z * p.center.z) + v.z ^ 2 * p.normal.z) := by
      funext p; simp only [Panel.moved, id, add_z]; ring
    rw [e, integral_add, integral_add, integral_mul, integral_mul, hz, az]; ring
  unfold centerOfBuoyancy
  rw [hvol, ex, ey, ez]
  ext <;> simp only [add_x, add_y, add_z] <;> field_simp

/-! ## Hulls closed by a flat waterplane -/

/-- **C72**: when a hull and a flat waterplane at `z = 0` make a closed surface, the three formulas for the
volume on the hull alone give the volume enclosed by both. -/
theorem hull_volumes (m : Mesh (V3 ℝ)) (hm : m.Sound) (lid : List Tri)
    (hlid : ∀ l ∈ lid, l.1.z = 0 ∧ l.2.1.z = 0 ∧ l.2.2.z = 0)
    (hc : ClosedSurface (m.pieces ++ lid)) (t : Table) (ht : m.faceTable = some t) (o : V3 ℝ) :
    (volumes t).x = enclosed o (m.pieces ++ lid) ∧ (volumes t).y = enclosed o (m.pieces ++ lid) ∧
    (volumes t).z = enclosed o (m.pieces ++ lid) ∧ volume t = enclosed o (m.pieces ++ lid) := by
  rw [enclosed_apex hc o]
  have hext : ∀ g : Tri → ℝ, (∀ l ∈ lid, g l = 0) → (m.pieces.map g).sum = ((m.pieces ++ lid).map g).sum := by
    intro g hg
    rw [List.map_append, List.sum_append]
    have : (lid.map g).sum = 0 := List.sum_eq_zero (by
      intro x hx
      obtain ⟨l, hl, rfl⟩ := List.mem_map.1 hx
      exact hg l hl)
    rw [this, add_zero]
  have hx : (volumes t).x = enclosed 0 (m.pieces ++ lid) := by
    show surfaceIntegral t (fun p => p.normal.x * p.center.x) = _
    rw [linear_integral hm ht (fun n v => n.x * v.x) (fun a n v => by simp; ring)
      (fun n v v' => by simp; ring) (fun n a v => by simp; ring)]
    rw [hext _ (fun l hl => by
      obtain ⟨h1, h2, h3⟩ := hlid l hl
      simp [Tri.vec, h1, h2, h3]), ← sub_eq_zero]
    unfold enclosed
    rw [← sum_sub_map]
    refine closed_sum hc _ (fun p q => (1 / 18) *
      ((q.z - p.z) * (2 * p.x * p.y + 2 * q.x * q.y + p.x * q.y + q.x * p.y) -
        (q.y - p.y) * (2 * p.x * p.z + 2 * q.x * q.z + p.x * q.z + q.x * p.z))) (fun t => ?_) (fun p q => ?_)
    · simp [Tri.vec, dot]; ring
    · ring
  have hy : (volumes t).y = enclosed 0 (m.pieces ++ lid) := by
    show surfaceIntegral t (fun p => p.normal.y * p.center.y) = _
    rw [linear_integral hm ht (fun n v => n.y * v.y) (fun a n v => by simp; ring)
      (fun n v v' => by simp; ring) (fun n a v => by simp; ring)]
    rw [hext _ (fun l hl => by
      obtain ⟨h1, h2, h3⟩ := hlid l hl
      simp [Tri.vec, h1, h2, h3]), ← sub_eq_zero]
    unfold enclosed
    rw [← sum_sub_map]
    refine closed_sum hc _ (fun p q => (1 / 18) *
      ((q.x - p.x) * (2 * p.y * p.z + 2 * q.y * q.z + p.y * q.z + q.y * p.z) -
        (q.z - p.z) * (2 * p.y * p.x + 2 * q.y * q.x + p.y * q.x + q.y * p.x))) (fun t => ?_) (fun p q => ?_)
    · simp [Tri.vec, dot]; ring
    · ring
  have hz : (volumes t).z = enclosed 0 (m.pieces ++ lid) := by
    show surfaceIntegral t (fun p => p.normal.z * p.center.z) = _
    rw [linear_integral hm ht (fun n v => n.z * v.z) (fun a n v => by simp; ring)
      (fun n v v' => by simp; ring) (fun n a v => by simp; ring)]
    rw [hext _ (fun l hl => by
      obtain ⟨h1, h2, h3⟩ := hlid l hl
      simp [h1, h2, h3]), ← sub_eq_zero]
    unfold enclosed
    rw [← sum_sub_map]
    refine closed_sum hc _ (fun p q => (1 / 18) *
      ((q.y - p.y) * (2 * p.z * p.x + 2 * q.z * q.x + p.z * q.x + q.z * p.x) -
        (q.x - p.x) * (2 * p.z * p.y + 2 * q.z * q.y + p.z * q.y + q.z * p.y))) (fun t => ?_) (fun p q => ?_)
    · simp [Tri.vec, dot]; ring
    · ring
  refine ⟨hx, hy, hz, ?_⟩
  unfold volume
  rw [hx, hy, hz]; ring

/-- Oriented area of a triangle seen from above. -/
noncomputable def Tri.flatArea (t : Tri) : ℝ := (Tri.vec t).z / 2

/-- Centroid of a triangle. -/
noncomputable def Tri.centroid (t : Tri) : V3 ℝ := (1 / 3 : ℝ) • (t.1 + t.2.1 + t.2.2)

/-- **C72**: when a hull and a waterplane make a closed surface, `waterplane_area` on the hull alone is the area of the
waterplane and the numerators of `waterplane_center` are its first moments. -/
theorem hull_waterplane (m : Mesh (V3 ℝ)) (hm : m.Sound) (lid : List Tri)
    (hc : ClosedSurface (m.pieces ++ lid)) (t : Table) (ht : m.faceTable = some t) :
    waterplaneArea t = (lid.map Tri.flatArea).sum ∧
    ∀ x y, waterplaneCenter t = some (x, y) →
      x * (lid.map Tri.flatArea).sum = (lid.map fun l => l.flatArea * l.centroid.x).sum ∧
      y * (lid.map Tri.flatArea).sum = (lid.map fun l => l.flatArea * l.centroid.y).sum := by
  have hA : waterplaneArea t = (lid.map Tri.flatArea).sum := by
    unfold waterplaneArea waterplaneIntegral
    simp only [mul_one]
    rw [normal_integral hm ht (fun n => n.z) (fun a n => by simp)]
    have := closed_sum hc (fun t => ((1 / 2 : ℝ) • Tri.vec t).z) (fun p q => (1 / 2) * (cross p q).z)
      (fun t => by simp [Tri.vec]; ring) (fun p q => by simp; ring)
    rw [List.map_append, List.sum_append] at this
    have e : lid.map Tri.flatArea = lid.map (fun t => ((1 / 2 : ℝ) • Tri.vec t).z) :=
      List.map_congr_left fun l _ => by simp [Tri.flatArea]; ring
    rw [e]
    linarith
  have hX : - waterplaneIntegral t (fun p => p.center.x) = (lid.map fun l => l.flatArea * l.centroid.x).sum := by
    unfold waterplaneIntegral
    rw [linear_integral hm ht (fun n v => n.z * v.x) (fun a n v => by simp; ring)
      (fun n v v' => by simp; ring) (fun n a v => by simp; ring)]
    have := closed_sum hc (fun t => ((1 / 2 : ℝ) • Tri.vec t).z * ((1 / 3 : ℝ) • (t.1 + t.2.1 + t.2.2)).x)
      (fun p q => (1 / 6) * (q.y - p.y) * (p.x ^ 2 + p.x * q.x + q.x ^ 2))
      (fun t => by simp [Tri.vec]; ring) (fun p q => by ring)
    rw [List.map_append, List.sum_append] at this
    have e : (lid.map fun l => l.flatArea * l.centroid.x) =
        lid.map (fun t => ((1 / 2 : ℝ) • Tri.vec t).z * ((1 / 3 : ℝ) • (t.1 + t.2.1 + t.2.2)).x) :=
      List.map_congr_left fun l _ => by
        simp only [Tri.flatArea, Tri.centroid, smul_x, smul_y, smul_z]; ring
    rw [e]
    linarith
  have hY : - waterplaneIntegral t (fun p => p.center.y) = (lid.map fun l => l.flatArea * l.centroid.y).sum := by
    unfold waterplaneIntegral
    rw [linear_integral hm ht (fun n v => n.z * v.y) (fun a n v => by simp; ring)
      (fun n v v' => by simp; ring) (fun n a v => by simp; ring)]
    have := closed_sum hc (fun t => ((1 / 2 : ℝ) • Tri.vec t).z * ((1 / 3 : ℝ) • (t.1 + t.2.1 + t.2.2)).y)
      (fun p q => -(1 / 6) * (q.x - p.x) * (p.y ^ 2 + p.y * q.y + q.y ^ 2))
      (fun t => by simp [Tri.vec]; ring) (fun p q => by ring)
    rw [List.map_append, List.sum_append] at this
    have e : (lid.map fun l => l.flatArea * l.centroid.y) =
        lid.map (fun t => ((1 / 2 : ℝ) • Tri.vec t).z * ((1 / 3 : ℝ) • (t.1 + t.2.1 + t.2.2)).y) :=
      List.map_congr_left fun l _ => by
        simp only [Tri.flatArea, Tri.centroid, smul_x, smul_y, smul_z]; ring
    rw [e]
    linarith
  refine ⟨hA, fun x y hxy => ?_⟩
  unfold waterplaneCenter at hxy
  split at hxy
  · cases hxy
  · rename_i hne
    have hA0 : waterplaneArea t ≠ 0 := by
      intro h0; rw [h0] at hne; norm_num at hne
    simp only [Option.some.injEq, Prod.mk.injEq] at hxy
    rw [← hA, ← hX, ← hY, ← hxy.1, ← hxy.2]
    constructor <;> field_simp

/-! ## Center of buoyancy -/

/-- First moment of the volume enclosed by triangles: sum over the tetrahedra with apex at the origin. -/
noncomputable def enclosedMoment (ts : List Tri) : V3 ℝ :=
  (ts.map fun t => (dot t.1 (cross t.2.1 t.2.2) / 6) • ((1 / 4 : ℝ) • (t.1 + t.2.1 + t.2.2))).sum

theorem second_moment_x {m : Mesh (V3 ℝ)} (hm : m.Sound) (hc : ClosedSurface m.pieces) {t : Table}
    (ht : m.faceTable = some t)
    (ha : ∀ F ∈ m.faces, ∀ c, corners m.vertices F = some c →
      (c.2.1.x = c.1.x ∧ c.2.2.1.x = c.1.x ∧ c.2.2.2.x = c.1.x) ∨
      ∀ t ∈ piecesOf F.isTriangle c, (Tri.vec t).x = 0) :
    surfaceIntegral t (fun p => p.normal.x * p.center.x ^ 2) = 2 * (enclosedMoment m.pieces).x := by
  have h1 : surfaceIntegral t (fun p => p.normal.x * p.center.x ^ 2) =
      (m.pieces.map fun t : Tri => (Tri.vec t).x / 2 * ((t.1.x ^ 2 + t.2.1.x ^ 2 + t.2.2.x ^ 2 +
        t.1.x * t.2.1.x + t.2.1.x * t.2.2.x + t.2.2.x * t.1.x) / 6)).sum := by
    refine table_sum ht (fun p => p.normal.x * p.center.x ^ 2 * p.area) _ fun F hF c hcor => ?_
    have hS := panel_area_vector hm hF hcor (fun n => n.x) (fun a n => by simp)
    have hC := panel_vector hm hF hcor (fun n v => n.x * v.x) (fun a n v => by simp; ring)
      (fun n v v' => by simp; ring) (fun n a v => by simp; ring)
    generalize panelOf F.isTriangle c = P at hS hC ⊢
    rcases ha F hF c hcor with ⟨e1, e2, e3⟩ | h0
    · have hX : P.normal.x * P.center.x * P.area = c.1.x * (P.normal.x * P.area) := by
        rw [hC, hS]
        unfold piecesOf
        cases F.isTriangle <;> simp [e1, e2, e3] <;> ring
      have : P.normal.x * P.center.x ^ 2 * P.area = c.1.x ^ 2 * (P.normal.x * P.area) := by
        have : P.normal.x * P.center.x ^ 2 * P.area = P.center.x * (P.normal.x * P.center.x * P.area) := by ring
        rw [this, hX]
        have : P.center.x * (c.1.x * (P.normal.x * P.area)) =
            c.1.x * (P.normal.x * P.center.x * P.area) := by ring
        rw [this, hX]; ring
      rw [this, hS]
      unfold piecesOf
      cases F.isTriangle <;> simp [e1, e2, e3] <;> ring
    · have hS0 : P.normal.x * P.area = 0 := by
        rw [hS]
        refine List.sum_eq_zero fun x hx => ?_
        obtain ⟨t, ht, rfl⟩ := List.mem_map.1 hx
        simp [h0 t ht]
      have : P.normal.x * P.center.x ^ 2 * P.area = P.center.x ^ 2 * (P.normal.x * P.area) := by ring
      rw [this, hS0, mul_zero]
      refine (List.sum_eq_zero fun x hx => ?_).symm
      obtain ⟨t, ht, rfl⟩ := List.mem_map.1 hx
      simp [h0 t ht]
  have h2 : (enclosedMoment m.pieces).x = (m.pieces.map fun t : Tri =>
      (dot t.1 (cross t.2.1 t.2.2) / 6) * ((1 / 4) * (t.1.x + t.2.1.x + t.2.2.x))).sum := by
    unfold enclosedMoment
    generalize m.pieces = ts
    induction ts with
    | nil => rfl
    | cons t ts ih => simp only [List.map_cons, List.sum_cons, add_x, ih, smul_x]
  have h3 : 2 * (enclosedMoment m.pieces).x = (m.pieces.map fun t : Tri =>
      2 * ((dot t.1 (cross t.2.1 t.2.2) / 6) * ((1 / 4) * (t.1.x + t.2.1.x + t.2.2.x)))).sum := by
    rw [h2]
    generalize m.pieces = ts
    induction ts with
    | nil => simp
    | cons t ts ih => simp only [List.map_cons, List.sum_cons, mul_add, ih] at *; rw [← ih]
  rw [h1, h3, ← sub_eq_zero, ← sum_sub_map]
  refine closed_sum hc _ (fun p q => (1 / 48) * ((q.z - p.z) *
      (3 * p.x ^ 2 * p.y + 2 * p.x * q.x * p.y + q.x ^ 2 * p.y + p.x ^ 2 * q.y + 2 * p.x * q.x * q.y +
        3 * q.x ^ 2 * q.y) -
      (q.y - p.y) * (3 * p.x ^ 2 * p.z + 2 * p.x * q.x * p.z + q.x ^ 2 * p.z + p.x ^ 2 * q.z + 2 * p.x * q.x * q.z +
        3 * q.x ^ 2 * q.z))) (fun t => ?_) (fun p q => ?_)
  · simp [Tri.vec, dot]; ring
  · ring

theorem second_moment_y {m : Mesh (V3 ℝ)} (hm : m.Sound) (hc : ClosedSurface m.pieces) {t : Table}
    (ht : m.faceTable = some t)
    (ha : ∀ F ∈ m.faces, ∀ c, corners m.vertices F = some c →
      (c.2.1.y = c.1.y ∧ c.2.2.1.y = c.1.y ∧ c.2.2.2.y = c.1.y) ∨
      ∀ t ∈ piecesOf F.isTriangle c, (Tri.vec t).y = 0) :
    surfaceIntegral t (fun p => p.normal.y * p.center.y ^ 2) = 2 * (enclosedMoment m.pieces).y := by
  have h1 : surfaceIntegral t (fun p => p.normal.y * p.center.y ^ 2) =
      (m.pieces.map fun t : Tri => (Tri.vec t).y / 2 * ((t.1.y ^ 2 + t.2.1.y ^ 2 + t.2.2.y ^ 2 +
        t.1.y * t.2.1.y + t.2.1.y * t.2.2.y + t.2.2.y * t.1.y) / 6)).sum := by
    refine table_sum ht (fun p => p.normal.y * p.center.y ^ 2 * p.area) _ fun F hF c hcor => ?_
    have hS := panel_area_vector hm hF hcor (fun n => n.y) (fun a n => by simp)
    have hC := panel_vector hm hF hcor (fun n v => n.y * v.y) (fun a n v => by simp; ring)
      (fun n v v' => by simp; ring) (fun n a v => by simp; ring)
    generalize panelOf F.isTriangle c = P at hS hC ⊢
    rcases ha F hF c hcor with ⟨e1, e2, e3⟩ | h0
    · have hX : P.normal.y * P.center.y * P.area = c.1.y * (P.normal.y * P.area) := by
        rw [hC, hS]
        unfold piecesOf
        cases F.isTriangle <;> simp [e1, e2, e3] <;> ring
      have : P.normal.y * P.center.y ^ 2 * P.area = c.1.y ^ 2 * (P.normal.y * P.area) := by
        have : P.normal.y * P.center.y ^ 2 * P.area = P.center.y * (P.normal.y * P.center.y * P.area) := by ring
        rw [this, hX]
        have : P.center.y * (c.1.y * (P.normal.y * P.area)) =
            c.1.y * (P.normal.y * P.center.y * P.area) := by ring
        rw [this, hX]; ring
      rw [this, hS]
      unfold piecesOf
      cases F.isTriangle <;> simp [e1, e2, e3] <;> ring
    · have hS0 : P.normal.y * P.area = 0 := by
        rw [hS]
        refine List.sum_eq_zero fun x hx => ?_
        obtain ⟨t, ht, rfl⟩ := List.mem_map.1 hx
        simp [h0 t ht]
      have : P.normal.y * P.center.y ^ 2 * P.area = P.center.y ^ 2 * (P.normal.y * P.area) := by ring
      rw [this, hS0, mul_zero]
      refine (List.sum_eq_zero fun x hx => ?_).symm
      obtain ⟨t, ht, rfl⟩ := List.mem_map.1 hx
      simp [h0 t ht]
  have h2 : (enclosedMoment m.pieces).y = (m.pieces.map fun t : Tri =>
      (dot t.1 (cross t.2.1 t.2.2) / 6) * ((1 / 4) * (t.1.y + t.2.1.y + t.2.2.y))).sum := by
    unfold enclosedMoment
    generalize m.pieces = ts
    induction ts with
    | nil => rfl
    | cons t ts ih => simp only [List.map_cons, List.sum_cons, add_y, ih, smul_y]
  have h3 : 2 * (enclosedMoment m.pieces).y = (m.pieces.map fun t : Tri =>
      2 * ((dot t.1 (cross t.2.1 t.2.2) / 6) * ((1 / 4) * (t.1.y + t.2.1.y + t.2.2.y)))).sum := by
    rw [h2]
    generalize m.pieces = ts
    induction ts with
    | nil => simp
    | cons t ts ih => simp only [List.map_cons, List.sum_cons, mul_add, ih] at *; rw [← ih]
  rw [h1, h3, ← sub_eq_zero, ← sum_sub_map]
  refine closed_sum hc _ (fun p q => (1 / 48) * ((q.x - p.x) *
      (3 * p.y ^ 2 * p.z + 2 * p.y * q.y * p.z + q.y ^ 2 * p.z + p.y ^ 2 * q.z + 2 * p.y * q.y * q.z +
        3 * q.y ^ 2 * q.z) -
      (q.z - p.z) * (3 * p.y ^ 2 * p.x + 2 * p.y * q.y * p.x + q.y ^ 2 * p.x + p.y ^ 2 * q.x + 2 * p.y * q.y * q.x +
        3 * q.y ^ 2 * q.x))) (fun t => ?_) (fun p q => ?_)
  · simp [Tri.vec, dot]; ring
  · ring

theorem second_moment_z {m : Mesh (V3 ℝ)} (hm : m.Sound) (hc : ClosedSurface m.pieces) {t : Table}
    (ht : m.faceTable = some t)
    (ha : ∀ F ∈ m.faces, ∀ c, corners m.vertices F = some c →
      (c.2.1.z = c.1.z ∧ c.2.2.1.z = c.1.z ∧ c.2.2.2.z = c.1.z) ∨
      ∀ t ∈ piecesOf F.isTriangle c, (Tri.vec t).z = 0) :
    surfaceIntegral t (fun p => p.normal.z * p.center.z ^ 2) = 2 * (enclosedMoment m.pieces).z := by
  have h1 : surfaceIntegral t (fun p => p.normal.z * p.center.z ^ 2) =
      (m.pieces.map fun t : Tri => (Tri.vec t).z / 2 * ((t.1.z ^ 2 + t.2.1.z ^ 2 + t.2.2.z ^ 2 +
        t.1.z * t.2.1.z + t.2.1.z * t.2.2.z + t.2.2.z * t.1.z) / 6)).sum := by
    refine table_sum ht (fun p => p.normal.z * p.center.z ^ 2 * p.area) _ fun F hF c hcor => ?_
    have hS := panel_area_vector hm hF hcor (fun n => n.z) (fun a n => by simp)
    have hC := panel_vector hm hF hcor (fun n v => n.z * v.z) (fun a n v => by simp; ring)
      (fun n v v' => by simp; ring) (fun n a v => by simp; ring)
    generalize panelOf F.isTriangle c = P at hS hC ⊢
    rcases ha F hF c hcor with ⟨e1, e2, e3⟩ | h0
    · have hX : P.normal.z * P.center.z * P.area = c.1.z * (P.normal.z * P.area) := by
        rw [hC, hS]
        unfold piecesOf
        cases F.isTriangle <;> simp [e1, e2, e3] <;> ring
      have : P.normal.z * P.center.z ^ 2 * P.area = c.1.z ^ 2 * (P.normal.z * P.area) := by
        have : P.normal.z * P.center.z ^ 2 * P.area = P.center.z * (P.normal.z * P.center.z * P.area) := by ring
        rw [this, hX]
        have : P.center.z * (c.1.z * (P.normal.z * P.area)) =
            c.1.z * (P.normal.z * P.center.z * P.area) := by ring
        rw [this, hX]; ring
      rw [this, hS]
      unfold piecesOf
      cases F.isTriangle <;> simp [e1, e2, e3] <;> ring
    · have hS0 : P.normal.z * P.area = 0 := by
        rw [hS]
        refine List.sum_eq_zero fun x hx => ?_
        obtain ⟨t, ht, rfl⟩ := List.mem_map.1 hx
        simp [h0 t ht]
      have : P.normal.z * P.center.z ^ 2 * P.area = P.center.z ^ 2 * (P.normal.z * P.area) := by ring
      rw [this, hS0, mul_zero]
      refine (List.sum_eq_zero fun x hx => ?_).symm
      obtain ⟨t, ht, rfl⟩ := List.mem_map.1 hx
      simp [h0 t ht]
  have h2 : (enclosedMoment m.pieces).z = (m.pieces.map fun t : Tri =>
      (dot t.1 (cross t.2.1 t.2.2) / 6) * ((1 / 4) * (t.1.z + t.2.1.z + t.2.2.z))).sum := by
    unfold enclosedMoment
    generalize m.pieces = ts
    induction ts with
    | nil => rfl
    | cons t ts ih => simp only [List.map_cons, List.sum_cons, add_z, ih, smul_z]
  have h3 : 2 * (enclosedMoment m.pieces).z = (m.pieces.map fun t : Tri =>
      2 * ((dot t.1 (cross t.2.1 t.2.2) / 6) * ((1 / 4) * (t.1.z + t.2.1.z + t.2.2.z)))).sum := by
    rw [h2]
    generalize m.pieces = ts
    induction ts with
    | nil => simp
    | cons t ts ih => simp only [List.map_cons, List.sum_cons, mul_add, ih] at *; rw [← ih]
  rw [h1, h3, ← sub_eq_zero, ← sum_sub_map]
  refine closed_sum hc _ (fun p q => (1 / 48) * ((q.y - p.y) *
      (3 * p.z ^ 2 * p.x + 2 * p.z * q.z * p.x + q.z ^ 2 * p.x + p.z ^ 2 * q.x + 2 * p.z * q.z * q.x +
        3 * q.z ^ 2 * q.x) -
      (q.x - p.x) * (3 * p.z ^ 2 * p.y + 2 * p.z * q.z * p.y + q.z ^ 2 * p.y + p.z ^ 2 * q.y + 2 * p.z * q.z * q.y +
        3 * q.z ^ 2 * q.y))) (fun t => ?_) (fun p q => ?_)
  · simp [Tri.vec, dot]; ring
  · ring

/-- **C72**: on a closed mesh whose panels are all perpendicular or parallel to each of the axes, the center of
buoyancy is the centroid of the enclosed volume. What is missing for the full property: inclined panels. -/
theorem center_of_buoyancy_partial (m : Mesh (V3 ℝ)) (hm : m.Sound) (hc : ClosedSurface m.pieces) (t : Table)
    (ht : m.faceTable = some t)
    (hx : ∀ F ∈ m.faces, ∀ c, corners m.vertices F = some c →
      (c.2.1.x = c.1.x ∧ c.2.2.1.x = c.1.x ∧ c.2.2.2.x = c.1.x) ∨
      ∀ t ∈ piecesOf F.isTriangle c, (Tri.vec t).x = 0)
    (hy : ∀ F ∈ m.faces, ∀ c, corners m.vertices F = some c →
      (c.2.1.y = c.1.y ∧ c.2.2.1.y = c.1.y ∧ c.2.2.2.y = c.1.y) ∨
      ∀ t ∈ piecesOf F.isTriangle c, (Tri.vec t).y = 0)
    (hz : ∀ F ∈ m.faces, ∀ c, corners m.vertices F = some c →
      (c.2.1.z = c.1.z ∧ c.2.2.1.z = c.1.z ∧ c.2.2.2.z = c.1.z) ∨
      ∀ t ∈ piecesOf F.isTriangle c, (Tri.vec t).z = 0) :
    centerOfBuoyancy t = (1 / enclosed 0 m.pieces) • enclosedMoment m.pieces := by
  unfold centerOfBuoyancy
  rw [second_moment_x hm hc ht hx, second_moment_y hm hc ht hy, second_moment_z hm hc ht hz,
    (closed_volumes m hm hc t ht 0).2.2.2]
  by_cases h0 : enclosed 0 m.pieces = 0
  · rw [h0]; ext <;> simp
  · ext <;> simp <;> field_simp

/-- **C72** does not hold for inclined panels: the center of buoyancy of the unit tetrahedron should be at
`(1/4, 1/4, 1/4)`. -/
theorem center_of_buoyancy_violated : ∃ t, tetra.faceTable = some t ∧
    (1 / enclosed 0 tetra.pieces) • enclosedMoment tetra.pieces = ⟨1 / 4, 1 / 4, 1 / 4⟩ ∧
    (centerOfBuoyancy t).x = 1 / 6 := by
  obtain ⟨t, ht⟩ := table_exists tetra_valid
  refine ⟨t, ht, ?_, ?_⟩
  · rw [tetra_pieces]
    ext <;> simp [enclosed, enclosedMoment, dot] <;> norm_num
  · have h1 : surfaceIntegral t (fun p => p.normal.x * p.center.x ^ 2) =
        (tetra.pieces.map fun t : Tri => (Tri.vec t).x / 2 * ((t.1.x + t.2.1.x + t.2.2.x) / 3) ^ 2).sum := by
      refine table_sum ht (fun p => p.normal.x * p.center.x ^ 2 * p.area) _ fun F hF c hcor => ?_
      have htri : F.isTriangle = true := by
        simp only [tetra, List.mem_cons, List.not_mem_nil, or_false] at hF
        rcases hF with rfl | rfl | rfl | rfl <;> rfl
      have hk := tetra_sound.kept F hF c hcor
      rw [htri, if_pos rfl] at hk
      have hpos := kept_pos hk
      rw [htri]
      show (trianglePanel _ _ _).normal.x * (trianglePanel _ _ _).center.x ^ 2 * (trianglePanel _ _ _).area = _
      rw [triangle_kept hk]
      simp only [piecesOf, if_true, List.map_cons, List.map_nil, List.sum_cons, List.sum_nil, add_zero, Tri.vec,
        smul_x, add_x]
      field_simp
    unfold centerOfBuoyancy
    simp only
    rw [h1, tetra_volume ht, tetra_pieces]
    simp [Tri.vec]
    norm_num

/-! ## Concrete cases -/

/-- Half of an octant: a hull with three triangles under the waterplane. -/
def keel : Mesh (V3 ℝ) where
  vertices := [⟨0, 0, 0⟩, ⟨1, 0, 0⟩, ⟨0, 1, 0⟩, ⟨0, 0, -1⟩]
  faces := [⟨1, 3, 2, 1⟩, ⟨0, 3, 1, 0⟩, ⟨0, 2, 3, 0⟩]

theorem keel_sound : keel.Sound where
  valid := by
    intro F hF i hi
    simp only [keel, List.mem_cons, List.not_mem_nil, or_false] at hF
    rcases hF with rfl | rfl | rfl <;> simp [Face.toList] at hi <;> simp [keel] <;> omega
  convex := by
    intro F hF
    simp only [keel, List.mem_cons, List.not_mem_nil, or_false] at hF
    left
    rcases hF with rfl | rfl | rfl <;> rfl
  kept := by
    intro F hF c hc
    simp only [keel, List.mem_cons, List.not_mem_nil, or_false] at hF
    rcases hF with rfl | rfl | rfl <;> simp [corners, keel] at hc <;> subst hc <;>
      simp only [Face.isTriangle, beq_self_eq_true, if_true] <;> unfold Kept V3.norm <;>
      apply Real.le_sqrt_of_sq_le <;> simp [dot] <;> norm_num

/-- The waterplane of this hull. -/
def keelLid : List Tri := [(⟨0, 0, 0⟩, ⟨1, 0, 0⟩, ⟨0, 1, 0⟩)]

theorem keel_closed : ClosedSurface (keel.pieces ++ keelLid) := by
  have h : ClosedSurface ([(1, 3, 2), (0, 3, 1), (0, 2, 3), (0, 1, 2)] : List (ℕ × ℕ × ℕ)) := by
    unfold ClosedSurface; decide
  exact closed_move h fun i => keel.vertices.getD i 0

/-- Concrete case of `hull_volumes` and `hull_waterplane`. -/
example : ∃ t, keel.faceTable = some t ∧ volume t = 1 / 6 ∧ waterplaneArea t = 1 / 2 := by
  obtain ⟨t, ht⟩ := table_exists keel_sound.valid
  refine ⟨t, ht, ?_, ?_⟩
  · rw [(hull_volumes keel keel_sound keelLid (by simp [keelLid]) keel_closed t ht 0).2.2.2]
    rw [show keel.pieces ++ keelLid = [(⟨1, 0, 0⟩, ⟨0, 0, -1⟩, ⟨0, 1, 0⟩), (⟨0, 0, 0⟩, ⟨0, 0, -1⟩, ⟨1, 0, 0⟩),
      (⟨0, 0, 0⟩, ⟨0, 1, 0⟩, ⟨0, 0, -1⟩), (⟨0, 0, 0⟩, ⟨1, 0, 0⟩, ⟨0, 1, 0⟩)] from rfl]
    simp [enclosed, dot]
  · rw [(hull_waterplane keel keel_sound keelLid keel_closed t ht).1]
    simp [keelLid, Tri.flatArea, Tri.vec]

theorem convex_parallelogram {p0 p1 p2 p3 : V3 ℝ} (h : p0 + p2 = p1 + p3) : ConvexQuad p0 p1 p2 p3 := by
  have h1 := congrArg V3.x h
  have h2 := congrArg V3.y h
  have h3 := congrArg V3.z h
  simp only [add_x, add_y, add_z] at h1 h2 h3
  refine ⟨(1 / 2 : ℝ) • (p0 + p2), p2 - p0, p3 - p1, 1 / 2, 1 / 2, 1 / 2, 1 / 2, by norm_num, by norm_num,
    by norm_num, by norm_num, ?_, ?_, ?_, ?_⟩ <;> ext <;> simp <;> linarith

/-- The unit cube, with outward normals. -/
def cube : Mesh (V3 ℝ) where
  vertices := [⟨0, 0, 0⟩, ⟨1, 0, 0⟩, ⟨1, 1, 0⟩, ⟨0, 1, 0⟩, ⟨0, 0, 1⟩, ⟨1, 0, 1⟩, ⟨1, 1, 1⟩, ⟨0, 1, 1⟩]
  faces := [⟨0, 3, 2, 1⟩, ⟨4, 5, 6, 7⟩, ⟨0, 1, 5, 4⟩, ⟨1, 2, 6, 5⟩, ⟨2, 3, 7, 6⟩, ⟨3, 0, 4, 7⟩]

theorem cube_sound : cube.Sound where
  valid := by
    intro F hF i hi
    simp only [cube, List.mem_cons, List.not_mem_nil, or_false] at hF
    rcases hF with rfl | rfl | rfl | rfl | rfl | rfl <;> simp [Face.toList] at hi <;> simp [cube] <;> omega
  convex := by
    intro F hF
    simp only [cube, List.mem_cons, List.not_mem_nil, or_false] at hF
    refine .inr fun c hc => convex_parallelogram ?_
    rcases hF with rfl | rfl | rfl | rfl | rfl | rfl <;> simp [corners, cube] at hc <;> subst hc <;>
      ext <;> simp
  kept := by
    intro F hF c hc
    simp only [cube, List.mem_cons, List.not_mem_nil, or_false] at hF
    rcases hF with rfl | rfl | rfl | rfl | rfl | rfl <;> simp [corners, cube] at hc <;> subst hc <;>
      simp [Face.isTriangle] <;> unfold Kept V3.norm <;>
      apply Real.le_sqrt_of_sq_le <;> simp [dot] <;> norm_num

theorem cube_closed : ClosedSurface cube.pieces :=
  closed_of_index cube cube_sound.valid (by unfold ClosedSurface; decide)

/-- Concrete case of `center_of_buoyancy_partial` and `center_of_buoyancy_translate`: the cube. -/
example : ∃ t, cube.faceTable = some t ∧ volume t = 1 ∧ centerOfBuoyancy t = ⟨1 / 2, 1 / 2, 1 / 2⟩ := by
  obtain ⟨t, ht⟩ := table_exists cube_sound.valid
  have hp : cube.pieces = [(⟨0, 0, 0⟩, ⟨0, 1, 0⟩, ⟨1, 1, 0⟩), (⟨0, 0, 0⟩, ⟨1, 1, 0⟩, ⟨1, 0, 0⟩),
    (⟨0, 0, 1⟩, ⟨1, 0, 1⟩, ⟨1, 1, 1⟩), (⟨0, 0, 1⟩, ⟨1, 1, 1⟩, ⟨0, 1, 1⟩),
    (⟨0, 0, 0⟩, ⟨1, 0, 0⟩, ⟨1, 0, 1⟩), (⟨0, 0, 0⟩, ⟨1, 0, 1⟩, ⟨0, 0, 1⟩),
    (⟨1, 0, 0⟩, ⟨1, 1, 0⟩, ⟨1, 1, 1⟩), (⟨1, 0, 0⟩, ⟨1, 1, 1⟩, ⟨1, 0, 1⟩),
    (⟨1, 1, 0⟩, ⟨0, 1, 0⟩, ⟨0, 1, 1⟩), (⟨1, 1, 0⟩, ⟨0, 1, 1⟩, ⟨1, 1, 1⟩),
    (⟨0, 1, 0⟩, ⟨0, 0, 0⟩, ⟨0, 0, 1⟩), (⟨0, 1, 0⟩, ⟨0, 0, 1⟩, ⟨0, 1, 1⟩)] := rfl
  refine ⟨t, ht, ?_, ?_⟩
  · rw [(closed_volumes cube cube_sound cube_closed t ht 0).2.2.2, hp]
    simp [enclosed, dot]; norm_num
  · rw [center_of_buoyancy_partial cube cube_sound cube_closed t ht, hp]
    · ext <;> simp [enclosed, enclosedMoment, dot] <;> norm_num
    all_goals
      intro F hF c hc
      simp only [cube, List.mem_cons, List.not_mem_nil, or_false] at hF
      rcases hF with rfl | rfl | rfl | rfl | rfl | rfl <;> simp [corners, cube] at hc <;> subst hc <;>
        simp [piecesOf, Face.isTriangle, Tri.vec]

/-- Concrete case of `waterplane_moved`: a horizontal translation and a quarter turn around the vertical axis
keep the vertical direction. -/
example : (∀ v : V3 ℝ, (id v).z = v.z) ∧ Isometry (fun p : V3 ℝ => ⟨-p.y, p.x, p.z⟩) (fun p => ⟨-p.y, p.x, p.z⟩) 1 := by
  refine ⟨fun _ => rfl, ⟨?_, ?_, ?_, ?_, ?_, .inl rfl⟩⟩
  · intro p; ext <;> simp
  · intro v w; ext <;> simp; ring
  · intro c v; ext <;> simp
  · intro v w; simp [dot]; ring
  · intro v w; ext <;> simp <;> ring

end Verif.Meshes
