import Verif.Meshes.BoxProps
import Verif.Meshes.RevolutionProps

/-!
# C56: horizontal cylinders and free surfaces
-/

namespace Verif.Meshes

open Verif.Geometry V3

/-! ## Panels taken in the other direction -/

theorem trapezoid_move {f L : V3 ℝ → V3 ℝ} {s b1 b2 h : ℝ} (hf : Isometry f L s) {c : V3 ℝ × V3 ℝ × V3 ℝ × V3 ℝ}
    (hc : Trapezoid b1 b2 h c) : Trapezoid b1 b2 h (f c.1, f c.2.1, f c.2.2.1, f c.2.2.2) := by
  obtain ⟨M, H, u, hu, huH, rfl, rfl⟩ := hc
  refine ⟨f M, L H, L u, by rw [hf.dot, hu], by rw [hf.dot, huH], hf.norm H, ?_⟩
  have e : ∀ (v : V3 ℝ) (a : ℝ), f (v - a • u) = f v - a • L u := by
    intro v a
    have h1 := hf.sub (v - a • u) v
    rw [show v - a • u - v = (-a) • u by ext <;> simp, hf.smul] at h1
    have h2 := sub_eq_iff_eq_add.1 h1
    rw [h2]
    ext <;> simp <;> ring
  have e' : ∀ (v : V3 ℝ) (a : ℝ), f (v + a • u) = f v + a • L u := by
    intro v a
    have h1 := hf.sub (v + a • u) v
    rw [show v + a • u - v = a • u by ext <;> simp, hf.smul] at h1
    have h2 := sub_eq_iff_eq_add.1 h1
    rw [h2]
    ext <;> simp <;> ring
  have e'' : f (M + H) = f M + L H := by
    have h1 := hf.sub (M + H) M
    rw [show M + H - M = H by ext <;> simp] at h1
    have h2 := sub_eq_iff_eq_add.1 h1
    rw [h2]
    ext <;> simp <;> ring
  simp only [e, e', e'']

theorem trapezoid_back {b1 b2 h : ℝ} {c : V3 ℝ × V3 ℝ × V3 ℝ × V3 ℝ} (hc : Trapezoid b1 b2 h c) :
    Trapezoid b2 b1 h (c.2.2.2, c.2.2.1, c.2.1, c.1) := by
  obtain ⟨M, H, u, hu, huH, rfl, rfl⟩ := hc
  refine ⟨M + H, (-1 : ℝ) • H, u, hu, ?_, by rw [norm_smul]; simp, ?_⟩
  · simp only [dot, smul_x, smul_y, smul_z] at huH ⊢
    linarith
  · simp only [Prod.mk.injEq]
    refine ⟨trivial, trivial, ?_, ?_⟩ <;> ext <;> simp

theorem shapes_flipNormals (m : Mesh (V3 ℝ)) :
    m.flipNormals.shapes = m.shapes.map fun s => (s.1, s.2.map fun c => (c.2.2.2, c.2.2.1, c.2.1, c.1)) := by
  unfold Mesh.shapes Mesh.flipNormals
  simp only [List.map_map]
  refine List.map_congr_left fun F _ => ?_
  simp only [Function.comp, flip_isTriangle, corners_flip]

/-- The nodes of a disk seen from the other side. -/
theorem shapes_mirror_grid (R n : ℕ) (P : ℕ → ℕ → V3 ℝ) (Q : Plane) : ((gridMesh R n P).mirror Q).shapes =
    (List.range R).flatMap fun i => (List.range n).map fun j =>
      (false, some (Q.mirrorPoint (P (i + 1) j), Q.mirrorPoint (P (i + 1) (j + 1)), Q.mirrorPoint (P i (j + 1)), Q.mirrorPoint (P i j))) := by
  have : (gridMesh R n P).mirror Q = ((gridMesh R n P).move Q.mirrorPoint).flipNormals := rfl
  rw [this, shapes_flipNormals, gridMesh_move, grid_shapes, List.map_flatMap]
  refine List.flatMap_congr fun i _ => ?_
  rw [List.map_map]
  rfl

/-! ## The wall of a horizontal cylinder -/

theorem wall_shapes (R n : ℕ) (P : ℕ → ℕ → V3 ℝ) :
    Mesh.shapes ⟨gridNodes (R + 1) (n + 1) P, gridFaces (fun i j => cell n j i) n R⟩ =
      (List.range n).flatMap fun i => (List.range R).map fun j => (false, some (quadAt P j i)) := by
  unfold Mesh.shapes gridFaces
  rw [List.map_flatMap]
  refine List.flatMap_congr fun i hi => ?_
  rw [List.map_map]
  refine List.map_congr_left fun j hj => ?_
  rw [List.mem_range] at hi hj
  simp only [Function.comp, cell_isTriangle]
  congr 1
  unfold corners cell quadAt
  simp only
  rw [gridNodes_get P (by omega) (by omega), gridNodes_get P (by omega) (by omega), gridNodes_get P (by omega) (by omega),
    gridNodes_get P (by omega) (by omega)]

theorem wall_valid (R n : ℕ) (P : ℕ → ℕ → V3 ℝ) :
    Mesh.Valid ⟨gridNodes (R + 1) (n + 1) P, gridFaces (fun i j => cell n j i) n R⟩ := by
  intro f hf k hk
  simp only [gridFaces, List.mem_flatMap, List.mem_map, List.mem_range] at hf
  obtain ⟨i, hi, j, hj, rfl⟩ := hf
  rw [cell_toList] at hk
  simp only [gridNodes_length]
  simp only [List.mem_cons, List.not_mem_nil, or_false] at hk
  rcases hk with rfl | rfl | rfl | rfl <;> exact nodeNumber_lt (by omega) (by omega)

theorem wall_trapezoid (l R T : ℝ) (n nx i j : ℕ) :
    Trapezoid (2 * R * Real.sin (halfAngle T n)) (2 * R * Real.sin (halfAngle T n)) |l / nx| (quadAt (wallNode l R T n nx) j i) := by
  obtain ⟨h1, h2⟩ := linspace_mid T n i
  set t := linspace 0 T n i + halfAngle T n with ht
  set δ := halfAngle T n
  have hs := Real.sin_sq_add_cos_sq t
  have h := ring_trapezoid (E := ⟨0, Real.sin t, -Real.cos t⟩) (U := ⟨0, Real.cos t, Real.sin t⟩)
    (A := ⟨linspace (-l / 2) (l / 2) nx j, 0, 0⟩) (B := ⟨linspace (-l / 2) (l / 2) nx (j + 1), 0, 0⟩)
    (by simp only [dot]; linarith) (by simp only [dot]; ring) (by simp [dot]) R R (Real.cos δ) (Real.sin δ)
  have hh : norm (((R - R) * Real.cos δ) • (⟨0, Real.sin t, -Real.cos t⟩ : V3 ℝ) +
      (⟨linspace (-l / 2) (l / 2) nx (j + 1), 0, 0⟩ - ⟨linspace (-l / 2) (l / 2) nx j, 0, 0⟩)) = |l / nx| := by
    rw [linspace_succ, ← Real.sqrt_sq_eq_abs]
    unfold V3.norm
    congr 1
    simp [dot]
    ring
  rw [hh] at h
  convert h using 1
  simp only [quadAt, wallNode, h1, h2, Real.sin_sub, Real.sin_add, Real.cos_sub, Real.cos_add, Prod.mk.injEq]
  refine ⟨?_, ?_, ?_, ?_⟩ <;> ext <;> simp <;> first | ring1 | (left; ring1)

theorem radius_of_panels {m : Mesh (V3 ℝ)} {r : ℝ} (h : ∀ s ∈ m.shapes, ∃ c, s = (false, some c) ∧
    ((quadPanel c.1 c.2.1 c.2.2.1 c.2.2.2).area ≠ 0 → radiusOf (quadPanel c.1 c.2.1 c.2.2.1 c.2.2.2).center c ≤ r)) :
    m.RadiusAtMost r := by
  intro p ρ hp ha
  obtain ⟨s, hs, c, hc, rfl, rfl⟩ := faceProps_mem.1 hp
  obtain ⟨c', rfl, hc'⟩ := h s hs
  simp only [Option.some.injEq] at hc
  subst hc
  exact hc' ha

theorem wall_radius {l R T r : ℝ} {n nx : ℕ} (hR : 0 < R) (hT0 : 0 ≤ T) (hT : T ≤ 2 * Real.pi) (hn : 0 < n)
    (hd : halfDiagonal (2 * Real.pi * R / n) (l / nx) ≤ r) : (openCylinder l R T n nx).RadiusAtMost r := by
  refine radius_of_panels fun s hs => ?_
  unfold openCylinder at hs
  rw [wall_shapes] at hs
  simp only [List.mem_flatMap, List.mem_map, List.mem_range] at hs
  obtain ⟨i, hi, j, hj, rfl⟩ := hs
  refine ⟨_, rfl, fun ha => ?_⟩
  obtain ⟨hδ0, hδ1⟩ := halfAngle_bounds hT0 hT hn
  have hsn := Real.sin_nonneg_of_nonneg_of_le_pi hδ0 hδ1
  rw [rectangle_radius_eq (by positivity) (wall_trapezoid l R T n nx i j) ha]
  refine le_trans ?_ hd
  have hn' : (0 : ℝ) < n := by exact_mod_cast hn
  have hB : 2 * R * Real.sin (halfAngle T n) ≤ 2 * Real.pi * R / n := by
    refine (chord_le hR.le le_rfl hδ0).trans ?_
    unfold halfAngle
    rw [show 2 * R * (T / n / 2) = T * R / n by ring]
    gcongr
  unfold halfDiagonal
  rw [sq_abs]
  have : 0 ≤ 2 * R * Real.sin (halfAngle T n) := by positivity
  gcongr

/-- Moving and flipping keep the bound on the panels of a disk. -/
theorem disk_back_radius {R T r : ℝ} {nr n : ℕ} (hR : 0 < R) (hT0 : 0 ≤ T) (hT : T ≤ 2 * Real.pi) (hr : 0 ≤ r) (hn : 0 < n)
    (hd : halfDiagonal (R / nr) (2 * Real.pi * R / n) ≤ r) {f L : V3 ℝ → V3 ℝ} (hf : Isometry f L 1) (Q : Plane)
    (hQ : dot Q.normal Q.normal = 1) :
    (((gridMesh nr n (diskNode R T nr n)).move f).mirror Q).RadiusAtMost (4 / 3 * r) := by
  rw [gridMesh_move]
  refine radius_of_panels fun s hs => ?_
  rw [shapes_mirror_grid] at hs
  simp only [List.mem_flatMap, List.mem_map, List.mem_range] at hs
  obtain ⟨i, hi, j, hj, rfl⟩ := hs
  refine ⟨_, rfl, fun ha => ?_⟩
  obtain ⟨hδ0, hδ1⟩ := halfAngle_bounds hT0 hT hn
  have hs := Real.sin_nonneg_of_nonneg_of_le_pi hδ0 hδ1
  have e1 := linspace_nonneg hR.le nr i
  have e2 := linspace_nonneg hR.le nr (i + 1)
  have ht := trapezoid_radius (by positivity) (by positivity)
    (trapezoid_back (trapezoid_move (isometry_mirror Q hQ) (trapezoid_move hf (disk_trapezoid R T nr n i j)))) ha
  refine ht.trans_le ?_
  refine flat_ring_radius (dr := R / nr) hT0 hT hn hr e2 (linspace_le hR.le (by omega)) e1 (linspace_le hR.le (by omega)) ?_ hd
  rw [sq_abs, mul_pow]
  have hc := Real.cos_sq_le_one (halfAngle T n)
  nlinarith [sq_nonneg (R / (nr : ℝ))]

theorem shapeSum_back {w : V3 ℝ → V3 ℝ → ℤ} (hw : Antisymm w) (a b c d : V3 ℝ) :
    shapeSum w (false, some (d, c, b, a)) = -shapeSum w (false, some (a, b, c, d)) := by
  simp only [shapeSum]
  rw [hw d c, hw c b, hw b a, hw a d]
  ring

theorem yOz_unit : dot yOzPlane.normal yOzPlane.normal = 1 := by
  simp [yOzPlane, mkPlane, ex, dot, V3.norm]

/-- A horizontal cylinder is a wall, and an end with its reflection. -/
theorem pipe_parts {l R : ℝ} {center : V3 ℝ} {res : ℕ × ℕ × ℕ} {r : Option ℝ} {T : ℝ} {m : Mesh (V3 ℝ)}
    (h : meshHorizontalCylinder l R center res r T = some m) :
    0 < l ∧ 0 < R ∧ ∃ n, cylinderResolution l R res r = some n ∧
      ((n.1 = 0 ∧ m = (openCylinder l R T n.2.1 n.2.2).translate center) ∨
       (0 < n.1 ∧ ∃ side m', meshDisk R ⟨-l / 2, 0, 0⟩ ⟨-1, 0, 0⟩ (n.1, n.2.1) none T = some side ∧ m = Mesh.translate m' center ∧
         (Tree.node .plain (([openCylinder l R T n.2.1 n.2.2, side, side.mirror yOzPlane] : List (Mesh (V3 ℝ))).map .leaf)).assembled = some m')) := by
  unfold meshHorizontalCylinder at h
  split_ifs at h with hp
  refine ⟨hp.1, hp.2, ?_⟩
  split at h
  · exact absurd h (by simp)
  rename_i n hn
  refine ⟨n, hn, ?_⟩
  simp only at h
  split_ifs at h with h1
  · right
    split at h
    · exact absurd h (by simp)
    rename_i side hs
    obtain ⟨m', hm', rfl⟩ := Option.map_eq_some_iff.1 h
    exact ⟨h1, side, m', hs, rfl, hm'⟩
  · left
    injection h with h
    exact ⟨by omega, h.symm⟩

theorem wall_faces (l R T : ℝ) (n nx : ℕ) : (openCylinder l R T n nx).Valid ∧ (openCylinder l R T n nx).faces.length = nx * n := by
  refine ⟨wall_valid _ _ _, ?_⟩
  unfold openCylinder
  simp only [gridFaces_length]
  ring

theorem mirror_valid {m : Mesh (V3 ℝ)} (h : m.Valid) (Q : Plane) : (m.mirror Q).Valid := by
  intro f hf i hi
  simp only [Mesh.mirror, Mesh.flipNormals, List.mem_map] at hf
  obtain ⟨g, hg, rfl⟩ := hf
  have := h g hg i (by
    simp only [Face.flip, Face.toList, List.mem_cons, List.not_mem_nil, or_false] at hi ⊢
    tauto)
  simpa [Mesh.mirror, Mesh.flipNormals] using this

theorem translate_valid {m : Mesh (V3 ℝ)} (h : m.Valid) (c : V3 ℝ) : (m.translate c).Valid := by
  intro f hf i hi
  have := h f hf i hi
  simpa [Mesh.translate] using this

/-- **C56**: a horizontal cylinder has the documented number of panels, and they refer to existing vertices. Without the
ends it keeps the panels of its wall. -/
theorem horizontal_cylinder_panels {l R : ℝ} {center : V3 ℝ} {res : ℕ × ℕ × ℕ} {r : Option ℝ} {T : ℝ} {m : Mesh (V3 ℝ)}
    (h : meshHorizontalCylinder l R center res r T = some m) : m.Valid ∧ ∃ n, cylinderResolution l R res r = some n ∧
      m.faces.length = (2 * n.1 + n.2.2) * n.2.1 ∧ (r = none → n = res) := by
  obtain ⟨hl, hR, n, hn, h⟩ := pipe_parts h
  have hres : r = none → n = res := by
    rintro rfl
    simp only [cylinderResolution, Option.some.injEq] at hn
    exact hn.symm
  obtain ⟨w1, w2⟩ := wall_faces l R T n.2.1 n.2.2
  rcases h with ⟨h0, rfl⟩ | ⟨h0, side, m', hs, rfl, ha⟩
  · refine ⟨translate_valid w1 _, n, hn, ?_, hres⟩
    rw [h0, show (Mesh.translate (openCylinder l R T n.2.1 n.2.2) center).faces = (openCylinder l R T n.2.1 n.2.2).faces from rfl, w2]
    ring
  · obtain ⟨d1, d2, d3⟩ := disk_panels hs
    have hv : ∀ x ∈ [openCylinder l R T n.2.1 n.2.2, side, side.mirror yOzPlane], x.Valid := by
      intro x hx
      simp only [List.mem_cons, List.not_mem_nil, or_false] at hx
      rcases hx with rfl | rfl | rfl
      · exact w1
      · exact d2
      · exact mirror_valid d2 _
    obtain ⟨-, e2, e3⟩ := assembled_leaves hv ha
    refine ⟨translate_valid e2 _, n, hn, ?_, hres⟩
    rw [show (Mesh.translate m' center).faces = m'.faces from rfl, e3]
    simp only [List.map_cons, List.map_nil, List.sum_cons, List.sum_nil, w2, d3 rfl, Mesh.mirror, Mesh.flipNormals, List.length_map]
    ring

/-- **C56** for the horizontal cylinders: the panels have a radius at most four thirds of the requested one. Missing:
the factor, the triangles of the ends are too large as for the disks, see `disk_radius_violated`. -/
theorem horizontal_cylinder_radius_partial {l R r T : ℝ} {center : V3 ℝ} {res : ℕ × ℕ × ℕ} {m : Mesh (V3 ℝ)} (hT0 : 0 ≤ T)
    (hT : T ≤ 2 * Real.pi) (hr : 0 < r) (h : meshHorizontalCylinder l R center res (some r) T = some m) :
    m.RadiusAtMost (4 / 3 * r) := by
  obtain ⟨hl, hR, n, hn, h⟩ := pipe_parts h
  obtain ⟨n1, n2, n3, d1, d2⟩ := cylinder_resolution hl hR hr hn
  obtain ⟨w1, w2⟩ := wall_faces l R T n.2.1 n.2.2
  have hwall : (openCylinder l R T n.2.1 n.2.2).RadiusAtMost (4 / 3 * r) := by
    intro p ρ hp ha
    have := wall_radius hR hT0 hT n2 d2 p ρ hp ha
    linarith
  rcases h with ⟨h0, rfl⟩ | ⟨h0, side, m', hs, rfl, ha⟩
  · omega
  · obtain ⟨_, v2, _⟩ := disk_panels hs
    have hs' := hs
    unfold meshDisk at hs'
    split_ifs at hs' with hp
    obtain ⟨f, L, hf, e⟩ := alignNormal_move hs'
    simp only [diskResolution] at e
    have e2 : side = (gridMesh n.1 n.2.1 (diskNode R T n.1 n.2.1)).move (fun p => f (p + ⟨-l / 2, 0, 0⟩)) := by
      rw [e]
      simp [Mesh.move, Mesh.translate]
    have hfi : Isometry (fun p => f (p + ⟨-l / 2, 0, 0⟩)) L 1 := by
      refine ⟨fun p => ?_, hf.add, hf.smul, hf.dot, hf.cross, hf.sign⟩
      have h1 := hf.sub (p + ⟨-l / 2, 0, 0⟩) (0 + ⟨-l / 2, 0, 0⟩)
      rw [show p + ⟨-l / 2, 0, 0⟩ - (0 + ⟨-l / 2, 0, 0⟩) = p by ext <;> simp] at h1
      rw [← h1]
      abel
    have hv : ∀ x ∈ [openCylinder l R T n.2.1 n.2.2, side, side.mirror yOzPlane], x.Valid ∧ x.RadiusAtMost (4 / 3 * r) := by
      intro x hx
      simp only [List.mem_cons, List.not_mem_nil, or_false] at hx
      rcases hx with rfl | rfl | rfl
      · exact ⟨w1, hwall⟩
      · refine ⟨v2, ?_⟩
        rw [e2]
        exact radius_move hfi (disk_grid_radius hR hT0 hT hr.le n2 d1)
      · refine ⟨mirror_valid v2 _, ?_⟩
        rw [e2]
        exact disk_back_radius hR hT0 hT hr.le n2 d1 hfi _ yOz_unit
    obtain ⟨e1, _, _⟩ := assembled_leaves (fun x hx => (hv x hx).1) ha
    exact radius_move (isometry_translate center) (radius_of_shapes e1 fun x hx => (hv x hx).2)

/-- The first panel of a disk is turned towards `-x`. -/
theorem disk_normal (R T : ℝ) {nr n : ℕ} (hk : 1e-12 ≤ (R / nr) ^ 2 * Real.sin (T / n)) (hr : 0 < nr) (hn : 0 < n) (center : V3 ℝ) :
    ∃ p, ((gridMesh nr n (diskNode R T nr n)).translate center).panelAt 0 = some p ∧ p.normal = ⟨-1, 0, 0⟩ := by
  have e := (grid_well_formed nr n (diskNode R T nr n)).2.2.2 0 hr 0 hn
  rw [show (0 : ℕ) + 0 * n = 0 by omega] at e
  have e' : ((gridMesh nr n (diskNode R T nr n)).translate center).shapes[0]? =
      some (false, some ((quadAt (diskNode R T nr n) 0 0).1 + center, (quadAt (diskNode R T nr n) 0 0).2.1 + center,
        (quadAt (diskNode R T nr n) 0 0).2.2.1 + center, (quadAt (diskNode R T nr n) 0 0).2.2.2 + center)) := by
    rw [show (gridMesh nr n (diskNode R T nr n)).translate center =
      (gridMesh nr n (diskNode R T nr n)).move (fun p => p + center) from rfl, shapes_move, List.getElem?_map, e]
    rfl
  refine ⟨_, panelAt_of_shape e', ?_⟩
  simp only [panelOf]
  rw [if_neg (by simp)]
  unfold quadPanel
  simp only [quadAt, diskNode, linspace_succ, linspace_first, zero_add, sub_zero]
  set ρ := R / (nr : ℝ)
  have hc : cross ((⟨0, ρ * Real.sin (T / n), -ρ * Real.cos (T / n)⟩ : V3 ℝ) + center - (⟨0, 0 * Real.sin 0, -0 * Real.cos 0⟩ + center))
      (⟨0, ρ * Real.sin 0, -ρ * Real.cos 0⟩ + center - (⟨0, 0 * Real.sin (T / n), -0 * Real.cos (T / n)⟩ + center)) =
        ⟨-(ρ ^ 2 * Real.sin (T / n)), 0, 0⟩ := by
    ext <;> simp <;> ring
  rw [hc]
  set s := ρ ^ 2 * Real.sin (T / n) with hs
  have hn : norm (⟨-s, 0, 0⟩ : V3 ℝ) = s := by
    unfold V3.norm
    rw [show dot (⟨-s, 0, 0⟩ : V3 ℝ) ⟨-s, 0, 0⟩ = s ^ 2 by simp [dot]; ring, Real.sqrt_sq (by linarith)]
  rw [hn, if_neg (by rw [abs_of_nonneg (by linarith)]; linarith)]
  have hs0 : s ≠ 0 := by intro h; rw [h] at hk; norm_num at hk
  simp only
  ext <;> simp [hs0]

/-- The end of a horizontal cylinder is not turned. -/
theorem disk_end {R T : ℝ} {nr n : ℕ} (hk : 1e-12 ≤ (R / nr) ^ 2 * Real.sin (T / n)) (hR : 0 < R) (hr : 0 < nr) (hn : 0 < n) (c : V3 ℝ) :
    meshDisk R c ⟨-1, 0, 0⟩ (nr, n) none T = some (gridMesh nr n fun i j => diskNode R T nr n i j + c) := by
  unfold meshDisk
  rw [if_pos ⟨hR, hr, hn⟩]
  simp only [diskResolution]
  obtain ⟨p, hp, hpn⟩ := disk_normal R T hk hr hn c
  unfold Mesh.alignNormal
  rw [hp, Option.map_some, hpn]
  congr 1
  have := gridMesh_move nr n (diskNode R T nr n) (fun q => q + c)
  rw [← this]
  simp only [Mesh.move, Mesh.translate, List.map_map]
  congr 1
  refine List.map_congr_left fun q _ => ?_
  exact align_left c q

theorem mirror_yOz (p : V3 ℝ) : yOzPlane.mirrorPoint p = ⟨-p.x, p.y, p.z⟩ := by
  ext <;> simp [yOzPlane, mkPlane, Plane.mirrorPoint, Plane.c, ex, dot, V3.norm] <;> ring

/-- **C56**: a horizontal cylinder with its two ends is a closed surface, as soon as the triangles at the center of the ends
are not so small that the computation of the normals takes them for flat. -/
theorem horizontal_cylinder_closed {l R : ℝ} {center : V3 ℝ} {res : ℕ × ℕ × ℕ} {r : Option ℝ} {m : Mesh (V3 ℝ)}
    {nr n nx : ℕ} (hres : cylinderResolution l R res r = some (nr, n, nx)) (hr : 0 < nr) (hnx : 0 < nx)
    (hk : 1e-12 ≤ (R / nr) ^ 2 * Real.sin (2 * Real.pi / n))
    (h : meshHorizontalCylinder l R center res r (2 * Real.pi) = some m) : ClosedSurface m.pieces := by
  obtain ⟨hl, hR, n', hn', h⟩ := pipe_parts h
  rw [hres] at hn'
  injection hn' with hn'
  subst hn'
  simp only at h
  rcases h with ⟨h0, _⟩ | ⟨h0, side, m', hs, rfl, ha⟩
  · omega
  have hn : 0 < n := by
    rcases Nat.eq_zero_or_pos n with rfl | hn
    · norm_num at hk
    · exact hn
  rw [disk_end hk hR hr hn] at hs
  injection hs with hs
  subst hs
  have hv : ∀ x ∈ [openCylinder l R (2 * Real.pi) n nx, gridMesh nr n (fun i j => diskNode R (2 * Real.pi) nr n i j + ⟨-l / 2, 0, 0⟩),
      (gridMesh nr n fun i j => diskNode R (2 * Real.pi) nr n i j + ⟨-l / 2, 0, 0⟩).mirror yOzPlane], x.Valid := by
    intro x hx
    simp only [List.mem_cons, List.not_mem_nil, or_false] at hx
    have hg := (grid_well_formed nr n fun i j => diskNode R (2 * Real.pi) nr n i j + ⟨-l / 2, 0, 0⟩).2.2.1
    rcases hx with rfl | rfl | rfl
    · exact (wall_faces _ _ _ _ _).1
    · exact hg
    · exact mirror_valid hg _
  obtain ⟨e1, _, _⟩ := assembled_leaves hv ha
  have hc : ClosedSurface m'.pieces := by
    refine closed_of_shapes _ fun w hw => ?_
    rw [e1]
    simp only [List.flatMap_cons, List.flatMap_nil, List.append_nil, List.map_append, List.sum_append]
    rw [openCylinder, wall_shapes, grid_shapes, shapes_mirror_grid, sum_grid, sum_grid, sum_grid, Finset.sum_comm, grid_border hw,
      grid_border hw]
    have hflip : ∀ i j, shapeSum w (false, some (yOzPlane.mirrorPoint (diskNode R (2 * Real.pi) nr n (i + 1) j + ⟨-l / 2, 0, 0⟩),
        yOzPlane.mirrorPoint (diskNode R (2 * Real.pi) nr n (i + 1) (j + 1) + ⟨-l / 2, 0, 0⟩),
        yOzPlane.mirrorPoint (diskNode R (2 * Real.pi) nr n i (j + 1) + ⟨-l / 2, 0, 0⟩),
        yOzPlane.mirrorPoint (diskNode R (2 * Real.pi) nr n i j + ⟨-l / 2, 0, 0⟩))) =
        -shapeSum w (false, some (quadAt (fun i j => diskNode R (2 * Real.pi) nr n i j + ⟨l / 2, 0, 0⟩) i j)) := by
      intro i j
      have e : ∀ i j, yOzPlane.mirrorPoint (diskNode R (2 * Real.pi) nr n i j + ⟨-l / 2, 0, 0⟩) =
          diskNode R (2 * Real.pi) nr n i j + ⟨l / 2, 0, 0⟩ := by
        intro i j
        rw [mirror_yOz]
        ext <;> simp [diskNode]
        ring
      simp only [e, quadAt]
      exact shapeSum_back hw _ _ _ _
    simp only [hflip, Finset.sum_neg_distrib]
    rw [grid_border hw]
    have seam : ∀ i x, diskNode R (2 * Real.pi) nr n i n + x = diskNode R (2 * Real.pi) nr n i 0 + x := by
      intro i x
      simp [diskNode, linspace_last hn, linspace_first]
    have seam' : ∀ i, wallNode l R (2 * Real.pi) n nx i n = wallNode l R (2 * Real.pi) n nx i 0 := by
      intro i
      simp [wallNode, linspace_last hn, linspace_first]
    have zero : ∀ x : V3 ℝ, lineSum w (fun j => diskNode R (2 * Real.pi) nr n 0 j + x) n = 0 := fun x =>
      lineSum_const hw _ n x fun k _ => by ext <;> simp [diskNode, linspace_first]
    have c1 : ∀ j, wallNode l R (2 * Real.pi) n nx 0 j = diskNode R (2 * Real.pi) nr n nr j + ⟨-l / 2, 0, 0⟩ := by
      intro j
      ext <;> simp [diskNode, wallNode, linspace_first, linspace_last hr]
    have c2 : ∀ j, wallNode l R (2 * Real.pi) n nx nx j = diskNode R (2 * Real.pi) nr n nr j + ⟨l / 2, 0, 0⟩ := by
      intro j
      ext <;> simp [diskNode, wallNode, linspace_last hnx, linspace_last hr]
    simp only [zero, seam, seam', c1, c2]
    ring
  rw [show m'.translate center = m'.move (fun p => p + center) from rfl, pieces_move]
  exact closed_move hc (fun p => p + center)

/-! ## Free surfaces -/

/-- The sum of the areas of the panels. -/
noncomputable def Mesh.totalArea (m : Mesh (V3 ℝ)) : ℝ :=
  (m.faceProps.map fun o => (o.map fun p => p.1.area).getD 0).sum

/-- A panel of a free surface. -/
theorem free_surface_panel {x0 x1 y0 y1 : ℝ} {nx ny : ℕ} (hx : x0 < x1) (hy : y0 < y1)
    (hk : 1e-12 ≤ 2 * ((y1 - y0) / ny) * ((x1 - x0) / nx)) (i j : ℕ) :
    (panelOf false (quadAt (fun i j => (⟨linspace x0 x1 nx i, linspace y0 y1 ny j, 0⟩ : V3 ℝ)) i j)).area =
      (x1 - x0) / nx * ((y1 - y0) / ny) ∧
    (panelOf false (quadAt (fun i j => (⟨linspace x0 x1 nx i, linspace y0 y1 ny j, 0⟩ : V3 ℝ)) i j)).normal = ⟨0, 0, -1⟩ := by
  set dx := (x1 - x0) / (nx : ℝ) with hdx
  set dy := (y1 - y0) / (ny : ℝ) with hdy
  have h1 : 0 ≤ dx := div_nonneg (by linarith) (Nat.cast_nonneg _)
  have h2 : 0 ≤ dy := div_nonneg (by linarith) (Nat.cast_nonneg _)
  simp only [panelOf]
  rw [if_neg (by simp)]
  have ht : Trapezoid dy dy dx (quadAt (fun i j => (⟨linspace x0 x1 nx i, linspace y0 y1 ny j, 0⟩ : V3 ℝ)) i j) := by
    refine ⟨⟨linspace x0 x1 nx i, linspace y0 y1 ny j + dy / 2, 0⟩, ⟨dx, 0, 0⟩, ⟨0, 1, 0⟩, by simp [dot], by simp [dot], ?_, ?_⟩
    · unfold V3.norm
      rw [show dot (⟨dx, 0, 0⟩ : V3 ℝ) ⟨dx, 0, 0⟩ = dx ^ 2 by simp [dot]; ring, Real.sqrt_sq h1]
    · simp only [quadAt, linspace_succ, ← hdx, ← hdy, Prod.mk.injEq]
      refine ⟨?_, ?_, ?_, ?_⟩ <;> ext <;> simp <;> ring
  constructor
  · rw [trapezoid_area h2 h2 ht (by linarith)]
    ring
  · unfold quadPanel
    simp only [quadAt, linspace_succ, ← hdx, ← hdy]
    set a := linspace x0 x1 nx i
    set b := linspace y0 y1 ny j
    have hc : cross ((⟨a + dx, b + dy, 0⟩ : V3 ℝ) - ⟨a, b, 0⟩) (⟨a + dx, b, 0⟩ - ⟨a, b + dy, 0⟩) = ⟨0, 0, -(2 * dy * dx)⟩ := by
      ext <;> simp
      ring
    rw [hc]
    set s := 2 * dy * dx with hs
    have hn : norm (⟨0, 0, -s⟩ : V3 ℝ) = s := by
      unfold V3.norm
      rw [show dot (⟨0, 0, -s⟩ : V3 ℝ) ⟨0, 0, -s⟩ = s ^ 2 by simp [dot]; ring, Real.sqrt_sq (by linarith)]
    rw [hn, if_neg (by rw [abs_of_nonneg (by linarith)]; linarith)]
    have hs0 : s ≠ 0 := by intro h; rw [h] at hk; norm_num at hk
    simp only
    ext <;> simp [hs0]

/-- **C56**: the mesh of a free surface has `nx * ny` panels, that refer to existing vertices of the plane `z = 0`. When the
ranges are increasing and the panels are large enough for the computation of the normals, the areas of the panels add up to
the area of the free surface and all the normals go down. -/
theorem free_surface_panels (x0 x1 y0 y1 : ℝ) (nx ny : ℕ) :
    let m := freeSurfaceMesh x0 x1 nx y0 y1 ny
    m.Valid ∧ m.faces.length = nx * ny ∧ (∀ v ∈ m.vertices, v.z = 0 ∧ min x0 x1 ≤ v.x ∧ v.x ≤ max x0 x1 ∧ min y0 y1 ≤ v.y ∧ v.y ≤ max y0 y1) ∧
    (x0 < x1 → y0 < y1 → 1e-12 ≤ 2 * ((y1 - y0) / ny) * ((x1 - x0) / nx) →
      m.totalArea = freeSurfaceArea x0 x1 y0 y1 ∧ ∀ p ρ, some (p, ρ) ∈ m.faceProps → p.normal = ⟨0, 0, -1⟩) := by
  refine ⟨(grid_well_formed _ _ _).2.2.1, (grid_well_formed _ _ _).1, ?_, ?_⟩
  · intro v hv
    simp only [freeSurfaceMesh, gridMesh, gridNodes, List.mem_flatMap, List.mem_map, List.mem_range] at hv
    obtain ⟨i, hi, j, hj, rfl⟩ := hv
    have key : ∀ (a b : ℝ) (n k : ℕ), k < n + 1 → min a b ≤ linspace a b n k ∧ linspace a b n k ≤ max a b := by
      intro a b n k hk
      unfold linspace
      rcases Nat.eq_zero_or_pos n with rfl | hn
      · simp
      have hn' : (0 : ℝ) < n := by exact_mod_cast hn
      have h0 : 0 ≤ (k : ℝ) / n := by positivity
      have h1 : (k : ℝ) / n ≤ 1 := by
        rw [div_le_one hn']
        exact_mod_cast Nat.lt_succ_iff.1 hk
      rw [show a + (k : ℝ) * ((b - a) / n) = (1 - (k : ℝ) / n) * a + (k : ℝ) / n * b by ring]
      generalize (k : ℝ) / n = u at h0 h1
      have p1 := min_le_left a b
      have p2 := min_le_right a b
      have p3 := le_max_left a b
      have p4 := le_max_right a b
      constructor <;> nlinarith
    obtain ⟨k1, k2⟩ := key x0 x1 nx i hi
    obtain ⟨k3, k4⟩ := key y0 y1 ny j hj
    exact ⟨rfl, k1, k2, k3, k4⟩
  · intro hx hy hk
    constructor
    · unfold Mesh.totalArea freeSurfaceMesh
      rw [faceProps_shapes, grid_shapes, List.map_map, sum_grid]
      simp only [Function.comp, Option.map_some, Option.getD_some, (free_surface_panel hx hy hk _ _).1, Finset.sum_const, Finset.card_range,
        nsmul_eq_mul]
      have e1 : (nx : ℝ) ≠ 0 := by
        intro h
        rw [h] at hk
        norm_num at hk
      have e2 : (ny : ℝ) ≠ 0 := by
        intro h
        rw [h] at hk
        norm_num at hk
      rw [freeSurfaceArea, abs_of_pos (by linarith), abs_of_pos (by linarith)]
      field_simp
    · intro p ρ hp
      obtain ⟨s, hs, c, hc, rfl, -⟩ := faceProps_mem.1 hp
      unfold freeSurfaceMesh at hs
      rw [grid_shapes] at hs
      simp only [List.mem_flatMap, List.mem_map, List.mem_range] at hs
      obtain ⟨i, _, j, _, rfl⟩ := hs
      simp only [Option.some.injEq] at hc
      subst hc
      exact (free_surface_panel hx hy hk i j).2

/-- The default range of a free surface with two panels along `x` and three along `y`. -/
example : (freeSurfaceMesh (-50) 50 2 (-50) 50 3).totalArea = 10000 := by
  rw [((free_surface_panels (-50) 50 (-50) 50 2 3).2.2.2 (by norm_num) (by norm_num) (by norm_num)).1]
  norm_num [freeSurfaceArea]

/-! ## Concrete cases -/

theorem disk_exists {R T : ℝ} {res : ℕ × ℕ} (c v : V3 ℝ) (hR : 0 < R) (h1 : 0 < res.1) (h2 : 0 < res.2) :
    ∃ m, meshDisk R c v res none T = some m := by
  unfold meshDisk
  rw [if_pos ⟨hR, h1, h2⟩]
  exact align_grid h1 h2 _ _ _ _

theorem assembled_exists (m : Mesh (V3 ℝ)) (ms : List (Mesh (V3 ℝ))) (hv : ∀ x ∈ m :: ms, x.Valid) :
    ∃ m', (Tree.node .plain ((m :: ms).map .leaf)).assembled = some m' := by
  have hin : (Tree.node .plain ((m :: ms).map .leaf)).Inhabited := by
    simp only [Tree.Inhabited, allInhabited_iff]
    refine ⟨by simp, ?_⟩
    intro s hs
    obtain ⟨x, _, rfl⟩ := List.mem_map.1 hs
    simp [Tree.Inhabited]
  have hl : ∀ x ∈ (Tree.node .plain ((m :: ms).map .leaf)).leaves, x.Valid := by
    simp only [Tree.leaves, leavesAll_eq]
    intro x hx
    obtain ⟨t, ht, hx⟩ := List.mem_flatMap.1 hx
    obtain ⟨y, hy, rfl⟩ := List.mem_map.1 ht
    simp only [Tree.leaves, List.mem_singleton] at hx
    subst hx
    exact hv _ hy
  obtain ⟨m', h, _⟩ := collection_concatenates _ hin hl
  exact ⟨m', h⟩

/-- A cylinder with four panels around, two along its length and one ring on each end can be built, and is closed. -/
example : ∃ m, meshHorizontalCylinder 2 1 0 (1, 4, 2) none (2 * Real.pi) = some m ∧ ClosedSurface m.pieces ∧ m.faces.length = 16 := by
  obtain ⟨side, hs⟩ := disk_exists (R := 1) (T := 2 * Real.pi) (res := (1, 4)) ⟨-2 / 2, 0, 0⟩ ⟨-1, 0, 0⟩ (by norm_num) (by norm_num) (by norm_num)
  have hd := (disk_panels hs).2.1
  obtain ⟨m', hm'⟩ := assembled_exists (openCylinder 2 1 (2 * Real.pi) 4 2) [side, side.mirror yOzPlane] (by
    intro x hx
    simp only [List.mem_cons, List.not_mem_nil, or_false] at hx
    rcases hx with rfl | rfl | rfl
    · exact (wall_faces _ _ _ _ _).1
    · exact hd
    · exact mirror_valid hd _)
  have h : meshHorizontalCylinder 2 1 0 (1, 4, 2) none (2 * Real.pi) = some (m'.translate 0) := by
    unfold meshHorizontalCylinder
    rw [if_pos ⟨by norm_num, by norm_num⟩]
    simp only [cylinderResolution, hs]
    rw [if_pos (by norm_num)]
    simp only [List.map_cons, List.map_nil] at hm'
    rw [hm']
    rfl
  refine ⟨_, h, horizontal_cylinder_closed rfl (by norm_num) (by norm_num) ?_ h, ?_⟩
  · rw [show (2 * Real.pi / ((4 : ℕ) : ℝ)) = Real.pi / 2 by push_cast; ring, Real.sin_pi_div_two]
    norm_num
  · obtain ⟨_, n, h1, h2, h3⟩ := horizontal_cylinder_panels h
    rw [h2, h3 rfl]
    norm_num

/-- The parallelepipeds that have sides can be built. -/
theorem box_exists {size : ℝ × ℝ × ℝ} {n : ℕ × ℕ × ℕ} (center : V3 ℝ) (hs : 0 < size.1 ∧ 0 < size.2.1 ∧ 0 < size.2.2)
    (hn : 0 < n.1 ∧ 0 < n.2.1 ∧ 0 < n.2.2) (hk : BoxKept size n) : ∃ m, meshParallelepiped size center n none [] = some m := by
  have hm := mapM_of_some (boxSide_grid hs hn hk) [.left, .right, .front, .back, .top, .bottom]
  obtain ⟨m', hm'⟩ := assembled_exists
    (gridMesh (sideResolution n .left).1 (sideResolution n .left).2 (boxNode size n .left))
    ([BoxSide.right, .front, .back, .top, .bottom].map
      fun s => gridMesh (sideResolution n s).1 (sideResolution n s).2 (boxNode size n s)) (by
      intro x hx
      rw [List.mem_cons, List.mem_map] at hx
      rcases hx with rfl | ⟨s, _, rfl⟩ <;> exact (grid_well_formed _ _ _).2.2.1)
  refine ⟨m'.translate center, ?_⟩
  unfold meshParallelepiped
  rw [if_pos ⟨hs, hn⟩]
  have hb : ([BoxSide.left, .right, .front, .back, .top, .bottom].filter fun s => s ∉ []) =
    [BoxSide.left, .right, .front, .back, .top, .bottom] := rfl
  simp only [boxResolution, hb, hm]
  simp only [List.map_cons, List.map_nil] at hm' ⊢
  rw [hm']
  rfl

/-- A parallelepiped with two panels along each direction can be built, and is closed. -/
example : ∃ m, meshParallelepiped (1, 2, 3) 0 (2, 2, 2) none [] = some m ∧ ClosedSurface m.pieces ∧ m.faces.length = 24 := by
  have hk : BoxKept (1, 2, 3) (2, 2, 2) := by
    unfold BoxKept
    norm_num
  obtain ⟨m, h⟩ := box_exists 0 (by norm_num) (by norm_num) hk
  have hr : boxResolution (1, 2, 3) (2, 2, 2) none = (2, 2, 2) := rfl
  have hc := (box_panels h).2.2 rfl rfl
  refine ⟨m, h, box_closed (r := none) (fun x hx => by simp at hx) ?_ h, ?_⟩
  · rw [hr]
    exact hk
  · rw [hc]
    norm_num

/-- A rectangle of one panel is refined to respect a smaller radius. -/
example : ∃ m, meshRectangle (2, 1) 0 (1, 1) (some 0.5) ⟨0, 0, 1⟩ = some m ∧ m.RadiusAtMost 0.5 := by
  have hn := (rectangle_resolution (w := 2) (h := 1) (r := 0.5) (res := (1, 1)) (by norm_num) (by norm_num) (by norm_num) (by norm_num)
    (by norm_num)).1
  dsimp only at hn
  obtain ⟨m, hm⟩ := align_grid hn.1 hn.2.1 (rectangleNode 2 1 (rectangleResolution 2 1 (1, 1) (some 0.5)).1 (rectangleResolution 2 1 (1, 1) (some 0.5)).2)
    0 0 ⟨0, 0, 1⟩
  have h : meshRectangle (2, 1) 0 (1, 1) (some 0.5) ⟨0, 0, 1⟩ = some m := by
    unfold meshRectangle
    rw [if_pos (by norm_num)]
    exact hm
  exact ⟨m, h, rectangle_radius (by norm_num) h⟩

/-- A disk of one ring is refined to respect a smaller radius. -/
example : ∃ m, meshDisk 1 0 ⟨0, 0, 1⟩ (1, 3) (some 0.1) (2 * Real.pi) = some m ∧ m.RadiusAtMost (4 / 3 * 0.1) := by
  have hn := disk_resolution (R := 1) (r := 0.1) (res := (1, 3)) (by norm_num) (by norm_num) (by norm_num) (by norm_num)
  dsimp only at hn
  obtain ⟨m, hm⟩ := align_grid hn.1 hn.2.1 (diskNode 1 (2 * Real.pi) (diskResolution 1 (1, 3) (some 0.1)).1 (diskResolution 1 (1, 3) (some 0.1)).2)
    0 0 ⟨0, 0, 1⟩
  have h : meshDisk 1 0 ⟨0, 0, 1⟩ (1, 3) (some 0.1) (2 * Real.pi) = some m := by
    unfold meshDisk
    rw [if_pos (by norm_num)]
    exact hm
  exact ⟨m, h, disk_radius_partial (by positivity) le_rfl (by norm_num) h⟩

/-- A vertical cylinder always has a mesh when the maximal radius is given with a positive resolution. -/
example : ∃ m, meshVerticalCylinder 2 1 0 (1, 3, 1) (some 0.1) (2 * Real.pi) = some m ∧ m.RadiusAtMost (4 / 3 * 0.1) := by
  have h : ∃ n, cylinderResolution 2 1 (1, 3, 1) (some 0.1) = some n := by
    simp only [cylinderResolution]
    rw [if_neg (by norm_num)]
    split_ifs <;> exact ⟨_, rfl⟩
  obtain ⟨n, hn⟩ := h
  have h : ∃ m, meshVerticalCylinder 2 1 0 (1, 3, 1) (some 0.1) (2 * Real.pi) = some m := by
    unfold meshVerticalCylinder
    rw [if_pos (by norm_num), hn]
    exact ⟨_, rfl⟩
  obtain ⟨m, h⟩ := h
  exact ⟨m, h, vertical_cylinder_radius_partial (by positivity) le_rfl (by norm_num) h⟩

/-- A sphere with three panels along the meridians and four around. -/
example : ∃ m, meshSphere 1 0 (3, 4) none = some m ∧ ClosedSurface m.pieces ∧ m.faces.length = 12 := by
  obtain ⟨t, ht⟩ : ∃ t, fromProfile (meridian 1 3) ozAxis 4 = some t := by
    unfold fromProfile mkSymmetric
    rw [if_pos ⟨by trivial, by norm_num⟩]
    exact ⟨_, rfl⟩
  obtain ⟨m', hm', _⟩ := revolution_panels oz_unit ht
  have h : meshSphere 1 0 (3, 4) none = some (m'.translate 0) := by
    unfold meshSphere
    simp only [sphereResolution, ht, hm']
    rfl
  obtain ⟨h1, _, h3⟩ := sphere_closed h
  exact ⟨_, h, h1, h3⟩

end Verif.Meshes
