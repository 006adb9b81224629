import Mathlib.Analysis.SpecialFunctions.Trigonometric.Bounds
import Mathlib.Analysis.Real.Pi.Bounds
import Verif.Meshes.RadiusProps

/-!
# C56: disks, cylinders and surfaces of revolution

Number of panels, existing vertices, maximal radius and closed surfaces.
-/

namespace Verif.Meshes

open Verif.Geometry V3

/-! ## Panels between two rings -/

/-- The panel between two arcs of circle around the same axis is an isosceles trapezoid. -/
theorem ring_trapezoid {E U A B : V3 ℝ} (hU : dot U U = 1) (hEU : dot U E = 0) (hAB : dot U (B - A) = 0) (ρ ρ' c s : ℝ) :
    Trapezoid (2 * ρ * s) (2 * ρ' * s) (norm (((ρ' - ρ) * c) • E + (B - A)))
      (A + ρ • (c • E - s • U), A + ρ • (c • E + s • U), B + ρ' • (c • E + s • U), B + ρ' • (c • E - s • U)) := by
  refine ⟨A + (ρ * c) • E, ((ρ' - ρ) * c) • E + (B - A), U, hU, ?_, rfl, ?_⟩
  · have : dot U (((ρ' - ρ) * c) • E + (B - A)) = ((ρ' - ρ) * c) * dot U E + dot U (B - A) := by
      simp only [dot, add_x, add_y, add_z, smul_x, smul_y, smul_z]; ring
    rw [this, hEU, hAB]; ring
  · simp only [Prod.mk.injEq]
    refine ⟨?_, ?_, ?_, ?_⟩ <;> ext <;> simp <;> ring

theorem ring_height_sq {E D : V3 ℝ} (hE : dot E E = 1) (hED : dot E D = 0) (a : ℝ) :
    norm (a • E + D) ^ 2 = a ^ 2 + dot D D := by
  rw [norm_sq]
  simp only [dot, add_x, add_y, add_z, smul_x, smul_y, smul_z] at *
  linear_combination (a ^ 2) * hE + (2 * a) * hED

/-- Half the angle of a panel. -/
noncomputable def halfAngle (thetaMax : ℝ) (n : ℕ) : ℝ := thetaMax / n / 2

theorem halfAngle_bounds {thetaMax : ℝ} {n : ℕ} (h0 : 0 ≤ thetaMax) (h1 : thetaMax ≤ 2 * Real.pi) (hn : 0 < n) :
    0 ≤ halfAngle thetaMax n ∧ halfAngle thetaMax n ≤ Real.pi := by
  unfold halfAngle
  have hn' : (1 : ℝ) ≤ n := by exact_mod_cast hn
  refine ⟨by positivity, ?_⟩
  have : thetaMax / n ≤ thetaMax := div_le_self h0 hn'
  linarith

theorem linspace_mid (thetaMax : ℝ) (n j : ℕ) :
    linspace 0 thetaMax n j = (linspace 0 thetaMax n j + halfAngle thetaMax n) - halfAngle thetaMax n ∧
    linspace 0 thetaMax n (j + 1) = (linspace 0 thetaMax n j + halfAngle thetaMax n) + halfAngle thetaMax n := by
  rw [linspace_succ]
  unfold halfAngle
  constructor <;> ring

theorem linspace_nonneg {b : ℝ} (hb : 0 ≤ b) (n k : ℕ) : 0 ≤ linspace 0 b n k := by
  unfold linspace
  have : 0 ≤ (k : ℝ) * ((b - 0) / n) := by
    rw [sub_zero]; positivity
  linarith

theorem linspace_le {b : ℝ} (hb : 0 ≤ b) {n k : ℕ} (hk : k ≤ n) : linspace 0 b n k ≤ b := by
  unfold linspace
  rcases Nat.eq_zero_or_pos n with rfl | hn
  · simp; exact hb
  · have h1 : (k : ℝ) ≤ n := by exact_mod_cast hk
    have hn' : (0 : ℝ) < n := by exact_mod_cast hn
    rw [zero_add, sub_zero, mul_div_assoc', div_le_iff₀ hn']
    nlinarith

theorem linspace_last {a b : ℝ} {n : ℕ} (hn : 0 < n) : linspace a b n n = b := by
  unfold linspace
  have hn' : (n : ℝ) ≠ 0 := by exact_mod_cast hn.ne'
  field_simp
  ring

theorem linspace_first (a b : ℝ) (n : ℕ) : linspace a b n 0 = a := by simp [linspace]

/-- The bases of the panels around an axis are at most the length of the arc. -/
theorem chord_le {ρ R δ : ℝ} (h0 : 0 ≤ ρ) (h1 : ρ ≤ R) (hδ : 0 ≤ δ) : 2 * ρ * Real.sin δ ≤ 2 * R * δ := by
  have hs : Real.sin δ ≤ δ := by
    rcases hδ.eq_or_lt with h | h
    · rw [← h, Real.sin_zero]
    · exact (Real.sin_lt h).le
  nlinarith [mul_nonneg h0 hδ, mul_le_mul_of_nonneg_left hs h0, mul_le_mul_of_nonneg_right h1 hδ]

/-! ## Disks -/

theorem disk_trapezoid (R T : ℝ) (nr n i j : ℕ) :
    Trapezoid (2 * linspace 0 R nr i * Real.sin (halfAngle T n)) (2 * linspace 0 R nr (i + 1) * Real.sin (halfAngle T n))
      (|R / nr * Real.cos (halfAngle T n)|) (quadAt (diskNode R T nr n) i j) := by
  obtain ⟨h1, h2⟩ := linspace_mid T n j
  set t := linspace 0 T n j + halfAngle T n with ht
  set δ := halfAngle T n
  have hs := Real.sin_sq_add_cos_sq t
  have h := ring_trapezoid (E := ⟨0, Real.sin t, -Real.cos t⟩) (U := ⟨0, Real.cos t, Real.sin t⟩) (A := 0) (B := 0)
    (by simp only [dot]; linarith) (by simp only [dot]; ring) (by simp [dot]) (linspace 0 R nr i) (linspace 0 R nr (i + 1))
    (Real.cos δ) (Real.sin δ)
  have hh : norm (((linspace 0 R nr (i + 1) - linspace 0 R nr i) * Real.cos δ) • (⟨0, Real.sin t, -Real.cos t⟩ : V3 ℝ) + (0 - 0)) =
      |R / nr * Real.cos δ| := by
    have := ring_height_sq (E := ⟨0, Real.sin t, -Real.cos t⟩) (D := (0 - 0 : V3 ℝ)) (by simp only [dot]; linarith)
      (by simp [dot]) ((linspace 0 R nr (i + 1) - linspace 0 R nr i) * Real.cos δ)
    rw [← Real.sqrt_sq (norm_nonneg _), this, ← Real.sqrt_sq_eq_abs]
    congr 1
    rw [linspace_succ]
    simp [dot]
  rw [hh] at h
  convert h using 1
  simp only [quadAt, diskNode, h1, h2, Real.sin_sub, Real.sin_add, Real.cos_sub, Real.cos_add, Prod.mk.injEq]
  refine ⟨?_, ?_, ?_, ?_⟩ <;> ext <;> simp <;> first | ring1 | (left; ring1)

/-- Bound of the radius of the panels between two rings in a plane. -/
theorem flat_ring_radius {T R dr r ρ ρ' h : ℝ} {n : ℕ} (hT0 : 0 ≤ T) (hT : T ≤ 2 * Real.pi) (hn : 0 < n) (hr : 0 ≤ r) (h0 : 0 ≤ ρ)
    (h1 : ρ ≤ R) (h0' : 0 ≤ ρ') (h1' : ρ' ≤ R) (hh : h ^ 2 ≤ dr ^ 2) (hd : halfDiagonal dr (2 * Real.pi * R / n) ≤ r) :
    max (√((2 * ρ * Real.sin (halfAngle T n) / 2) ^ 2 + ((2 * ρ * Real.sin (halfAngle T n) + 2 * (2 * ρ' * Real.sin (halfAngle T n))) /
        (3 * (2 * ρ * Real.sin (halfAngle T n) + 2 * ρ' * Real.sin (halfAngle T n)))) ^ 2 * h ^ 2))
      (√((2 * ρ' * Real.sin (halfAngle T n) / 2) ^ 2 + ((2 * (2 * ρ * Real.sin (halfAngle T n)) + 2 * ρ' * Real.sin (halfAngle T n)) /
        (3 * (2 * ρ * Real.sin (halfAngle T n) + 2 * ρ' * Real.sin (halfAngle T n)))) ^ 2 * h ^ 2)) ≤ 4 / 3 * r := by
  obtain ⟨hδ0, hδ1⟩ := halfAngle_bounds hT0 hT hn
  have hs := Real.sin_nonneg_of_nonneg_of_le_pi hδ0 hδ1
  have hR : 0 ≤ R := h0.trans h1
  have hn' : (0 : ℝ) < n := by exact_mod_cast hn
  have hB : 2 * R * halfAngle T n ≤ 2 * Real.pi * R / n := by
    unfold halfAngle
    rw [show 2 * R * (T / n / 2) = T * R / n by ring]
    gcongr
  refine trapezoid_le (B := 2 * Real.pi * R / n) (by positivity) (by positivity) ((chord_le h0 h1 hδ0).trans hB)
    ((chord_le h0' h1' hδ0).trans hB) (by linarith) ?_
  have hsq := halfDiagonal_sq dr (2 * Real.pi * R / n)
  have : halfDiagonal dr (2 * Real.pi * R / n) ^ 2 ≤ r ^ 2 := by
    have := halfDiagonal_nonneg dr (2 * Real.pi * R / n)
    gcongr
  nlinarith [sq_nonneg (2 * Real.pi * R / n), sq_nonneg dr]

theorem disk_grid_radius {R T r : ℝ} {nr n : ℕ} (hR : 0 < R) (hT0 : 0 ≤ T) (hT : T ≤ 2 * Real.pi) (hr : 0 ≤ r) (hn : 0 < n)
    (hd : halfDiagonal (R / nr) (2 * Real.pi * R / n) ≤ r) : (gridMesh nr n (diskNode R T nr n)).RadiusAtMost (4 / 3 * r) := by
  refine radius_of_trapezoids fun i hi j _ ha => ?_
  obtain ⟨hδ0, hδ1⟩ := halfAngle_bounds hT0 hT hn
  have hs := Real.sin_nonneg_of_nonneg_of_le_pi hδ0 hδ1
  have e1 := linspace_nonneg hR.le nr i
  have e2 := linspace_nonneg hR.le nr (i + 1)
  rw [trapezoid_radius (by positivity) (by positivity) (disk_trapezoid R T nr n i j) ha]
  refine flat_ring_radius (dr := R / nr) hT0 hT hn hr e1 (linspace_le hR.le (by omega)) e2 (linspace_le hR.le (by omega)) ?_ hd
  rw [sq_abs, mul_pow]
  have hc := Real.cos_sq_le_one (halfAngle T n)
  nlinarith [sq_nonneg (R / (nr : ℝ))]

/-- **C56** for the disks: the panels have a radius at most four thirds of the requested one. Missing: the factor, see
`disk_radius_violated`. -/
theorem disk_radius_partial {R T r : ℝ} {center normal : V3 ℝ} {res : ℕ × ℕ} {m : Mesh (V3 ℝ)} (hT0 : 0 ≤ T)
    (hT : T ≤ 2 * Real.pi) (hr : 0 < r) (h : meshDisk R center normal res (some r) T = some m) : m.RadiusAtMost (4 / 3 * r) := by
  unfold meshDisk at h
  split_ifs at h with hp
  obtain ⟨hR, h1, h2⟩ := hp
  obtain ⟨n1, n2, hn⟩ := disk_resolution hR hr h1 h2
  obtain ⟨f, L, hf, rfl⟩ := alignNormal_move h
  exact radius_move hf (radius_move (isometry_translate center) (disk_grid_radius hR hT0 hT hr.le n2 hn))

/-- **C56**: a disk has the requested number of panels, and they refer to existing vertices. -/
theorem disk_panels {R T : ℝ} {center normal : V3 ℝ} {res : ℕ × ℕ} {r : Option ℝ} {m : Mesh (V3 ℝ)}
    (h : meshDisk R center normal res r T = some m) :
    m.faces.length = (diskResolution R res r).1 * (diskResolution R res r).2 ∧ m.Valid ∧
      (r = none → m.faces.length = res.1 * res.2) := by
  unfold meshDisk at h
  split_ifs at h with hp
  obtain ⟨f, L, hf, rfl⟩ := alignNormal_move h
  have hw := grid_well_formed (diskResolution R res r).1 (diskResolution R res r).2
    (diskNode R T (diskResolution R res r).1 (diskResolution R res r).2)
  refine ⟨hw.1, ?_, ?_⟩
  · intro F hF i hi
    have := hw.2.2.1 F hF i hi
    simpa [Mesh.move, Mesh.translate] using this
  · rintro rfl
    exact hw.1

/-! ## Vertical cylinders -/

/-- The ring number `i` of a closed vertical cylinder: the bottom from its center, the wall, and the top to its center. -/
noncomputable def ringAt (l R : ℝ) (nr nz i : ℕ) : ℝ × ℝ :=
  if i ≤ nr then (linspace 0 R nr i, -l / 2)
  else if i ≤ nr + 1 + nz then (R, linspace (-l / 2) (l / 2) nz (i - (nr + 1)))
  else (linspace 0 R nr (2 * nr + nz + 2 - i), l / 2)

theorem rings_eq (l R : ℝ) {nr : ℕ} (nz : ℕ) (hr : 0 < nr) :
    cylinderRings l R nr nz = (List.range (nz + 2 * (nr + 1) + 1)).map (ringAt l R nr nz) := by
  unfold cylinderRings
  rw [if_pos hr]
  rw [show nz + 2 * (nr + 1) + 1 = (nr + 1) + (nz + 1) + (nr + 1) by omega, List.range_add (n := nr + 1 + (nz + 1)),
    List.range_add (n := nr + 1) (m := nz + 1), List.map_append, List.map_append, List.map_map, List.map_map]
  congr 1
  · congr 1
    · refine List.map_congr_left fun i hi => ?_
      rw [List.mem_range] at hi
      rw [ringAt, if_pos (by omega)]
    · refine List.map_congr_left fun i hi => ?_
      rw [List.mem_range] at hi
      simp only [Function.comp]
      rw [ringAt, if_neg (by omega), if_pos (by omega), show nr + 1 + i - (nr + 1) = i by omega]
  · refine List.ext_getElem (by simp) fun k h1 h2 => ?_
    simp at h1
    simp only [List.getElem_map, List.getElem_reverse, List.getElem_range, List.length_range, Function.comp]
    rw [ringAt, if_neg (by omega), if_neg (by omega),
      show 2 * nr + nz + 2 - (nr + 1 + (nz + 1) + k) = nr + 1 - 1 - k by omega]

/-- The node `j` of a ring. -/
noncomputable def ringNode (T : ℝ) (n : ℕ) (ring : ℝ × ℝ) (j : ℕ) : V3 ℝ :=
  ⟨ring.1 * Real.sin (linspace 0 T n j), ring.1 * Real.cos (linspace 0 T n j), ring.2⟩

theorem rings_nodes (T : ℝ) (n N : ℕ) (f : ℕ → ℝ × ℝ) :
    ((List.range N).map f).flatMap (ringNodes T n) = gridNodes N (n + 1) fun i j => ringNode T n (f i) j := by
  rw [List.flatMap_map]
  rfl

/-- A grid with the other orientation. -/
theorem back_shapes (N n : ℕ) (P : ℕ → ℕ → V3 ℝ) :
    Mesh.shapes ⟨gridNodes (N + 1) (n + 1) P, gridFaces (cellBack n) N n⟩ =
      (List.range N).flatMap fun i => (List.range n).map fun j => (false, some (quadAt (fun a b => P b a) j i)) := by
  unfold Mesh.shapes gridFaces
  rw [List.map_flatMap]
  refine List.flatMap_congr fun i hi => ?_
  rw [List.map_map]
  refine List.map_congr_left fun j hj => ?_
  rw [List.mem_range] at hi hj
  simp only [Function.comp, cellBack_isTriangle]
  congr 1
  unfold corners cellBack quadAt
  simp only
  rw [gridNodes_get P (by omega) (by omega), gridNodes_get P (by omega) (by omega), gridNodes_get P (by omega) (by omega),
    gridNodes_get P (by omega) (by omega)]

theorem back_valid (N n : ℕ) (P : ℕ → ℕ → V3 ℝ) : Mesh.Valid ⟨gridNodes (N + 1) (n + 1) P, gridFaces (cellBack n) N n⟩ := by
  intro f hf k hk
  simp only [gridFaces, List.mem_flatMap, List.mem_map, List.mem_range] at hf
  obtain ⟨i, hi, j, hj, rfl⟩ := hf
  rw [cellBack_toList] at hk
  simp only [gridNodes_length]
  simp only [List.mem_cons, List.not_mem_nil, or_false] at hk
  rcases hk with rfl | rfl | rfl | rfl <;> exact nodeNumber_lt (by omega) (by omega)

/-- A vertical cylinder is a grid of rings. -/
theorem cylinder_grid (l R T : ℝ) (nr n nz : ℕ) : ∃ N f, verticalCylinder l R T nr n nz =
      ⟨gridNodes (N + 1) (n + 1) fun i j => ringNode T n (f i) j, gridFaces (cellBack n) N n⟩ ∧
    (0 < nr → N = nz + 2 * (nr + 1) ∧ f = ringAt l R nr nz) ∧
    (nr = 0 → N = nz ∧ f = fun i => (R, linspace (-l / 2) (l / 2) nz i)) := by
  unfold verticalCylinder
  rcases Nat.eq_zero_or_pos nr with rfl | hr
  · refine ⟨nz, fun i => (R, linspace (-l / 2) (l / 2) nz i), ?_, fun h => absurd h (lt_irrefl _), fun _ => ⟨rfl, rfl⟩⟩
    rw [show cylinderRings l R 0 nz = (List.range (nz + 1)).map (fun i => (R, linspace (-l / 2) (l / 2) nz i)) by
      simp [cylinderRings], rings_nodes]
    simp
  · refine ⟨nz + 2 * (nr + 1), ringAt l R nr nz, ?_, fun _ => ⟨rfl, rfl⟩, fun h => absurd h hr.ne'⟩
    rw [rings_eq l R nz hr, rings_nodes]
    simp [hr]

theorem ring_zero (T : ℝ) (n : ℕ) (z : ℝ) (j : ℕ) : ringNode T n (0, z) j = ⟨0, 0, z⟩ := by
  simp [ringNode]

/-- A seam closed: the last angle is a full turn. -/
theorem ring_seam {n : ℕ} (hn : 0 < n) (ring : ℝ × ℝ) : ringNode (2 * Real.pi) n ring n = ringNode (2 * Real.pi) n ring 0 := by
  simp [ringNode, linspace_last hn, linspace_first]

/-- **C56**: a vertical cylinder with ends is a closed surface: each side is followed as many times in one direction
as in the other. -/
theorem vertical_cylinder_closed (l R : ℝ) (nr n nz : ℕ) (hr : 0 < nr) :
    ClosedSurface (verticalCylinder l R (2 * Real.pi) nr n nz).pieces := by
  rcases Nat.eq_zero_or_pos n with rfl | hn
  · have : (verticalCylinder l R (2 * Real.pi) nr 0 nz).pieces = [] := by
      simp [verticalCylinder, gridFaces, Mesh.pieces]
    rw [this]
    exact List.Perm.refl _
  obtain ⟨N, f, he, h1, _⟩ := cylinder_grid l R (2 * Real.pi) nr n nz
  obtain ⟨rfl, rfl⟩ := h1 hr
  rw [he]
  refine closed_of_shapes _ fun w hw => ?_
  rw [back_shapes, sum_grid, Finset.sum_comm, grid_border hw]
  have hs : ∀ i, ringNode (2 * Real.pi) n (ringAt l R nr nz i) n = ringNode (2 * Real.pi) n (ringAt l R nr nz i) 0 :=
    fun i => ring_seam hn _
  have h0 : ringAt l R nr nz 0 = (0, -l / 2) := by simp [ringAt, linspace_first]
  have hN : ringAt l R nr nz (nz + 2 * (nr + 1)) = (0, l / 2) := by
    rw [ringAt, if_neg (by omega), if_neg (by omega), show 2 * nr + nz + 2 - (nz + 2 * (nr + 1)) = 0 by omega, linspace_first]
  rw [lineSum_congr w (p := fun j => ringNode (2 * Real.pi) n (ringAt l R nr nz j) n)
      (q := fun j => ringNode (2 * Real.pi) n (ringAt l R nr nz j) 0) (fun k _ => hs k),
    lineSum_const hw (fun j => ringNode (2 * Real.pi) n (ringAt l R nr nz 0) j) n ⟨0, 0, -l / 2⟩ (fun k _ => by rw [h0, ring_zero]),
    lineSum_const hw (fun j => ringNode (2 * Real.pi) n (ringAt l R nr nz (nz + 2 * (nr + 1))) j) n ⟨0, 0, l / 2⟩
      (fun k _ => by rw [hN, ring_zero])]
  ring

/-! ## Disks that are too coarse -/

/-- A trapezoid is kept as a panel. -/
theorem trapezoid_area {b1 b2 h : ℝ} {c : V3 ℝ × V3 ℝ × V3 ℝ × V3 ℝ} (hb1 : 0 ≤ b1) (hb2 : 0 ≤ b2) (hc : Trapezoid b1 b2 h c)
    (hk : 1e-12 ≤ (b1 + b2) * h) : (quadPanel c.1 c.2.1 c.2.2.1 c.2.2.2).area = (b1 + b2) * h / 2 := by
  obtain ⟨M, H, u, hu, huH, rfl, rfl⟩ := hc
  unfold quadPanel
  simp only
  have e0 : cross (M + H + (b2 / 2) • u - (M - (b1 / 2) • u)) (M + H - (b2 / 2) • u - (M + (b1 / 2) • u)) =
      (b1 + b2) • cross u H := by ext <;> simp <;> ring
  have e1 : cross (M + (b1 / 2) • u - (M - (b1 / 2) • u)) (M + H + (b2 / 2) • u - (M - (b1 / 2) • u)) = b1 • cross u H := by
    ext <;> simp <;> ring
  have e2 : cross (M + H - (b2 / 2) • u - (M - (b1 / 2) • u)) (M + H + (b2 / 2) • u - (M - (b1 / 2) • u)) =
      (-b2) • cross u H := by ext <;> simp <;> ring
  rw [e0, e1, e2, norm_smul, norm_smul, norm_smul, norm_cross_unit hu huH, abs_neg, abs_of_nonneg hb1, abs_of_nonneg hb2,
    abs_of_nonneg (add_nonneg hb1 hb2), if_neg]
  · simp only
    ring
  · rw [abs_of_nonneg (mul_nonneg (add_nonneg hb1 hb2) (norm_nonneg _))]
    exact not_lt.2 hk

/-- The motions do not hide the panels that are too large. -/
theorem radius_move_converse {m : Mesh (V3 ℝ)} {f L : V3 ℝ → V3 ℝ} (h : Isometry f L 1) {r : ℝ} (hm : (m.move f).RadiusAtMost r) :
    m.RadiusAtMost r := by
  intro p ρ hp ha
  obtain ⟨s, hs, c, hc, rfl, rfl⟩ := faceProps_mem.1 hp
  have hmv := panelOf_moved h s.1 c
  have hs2 : (s.1, s.2.map fun c => (f c.1, f c.2.1, f c.2.2.1, f c.2.2.2)) ∈ (m.move f).shapes := by
    rw [shapes_move]
    exact List.mem_map_of_mem hs
  have hmem := faceProps_mem.2 ⟨_, hs2, _, by rw [hc]; rfl, rfl, rfl⟩
  have hr := hm _ _ hmem
  simp only at hr
  rcases hmv with ⟨h1, _⟩ | ⟨h1, h2⟩
  · rw [h1] at ha
    exact absurd rfl ha
  · rw [h2] at hr
    have := hr (by simpa [Panel.moved] using ha)
    unfold radiusOf at this ⊢
    simpa only [Panel.moved, h.sub, h.norm] using this

theorem panelAt_of_shape {m : Mesh (V3 ℝ)} {i : ℕ} {b : Bool} {c} (h : m.shapes[i]? = some (b, some c)) :
    m.panelAt i = some (panelOf b c) := by
  unfold Mesh.panelAt
  rw [faceProps_shapes, List.getElem?_map, h]
  rfl

/-- A grid that has been moved can be aligned. -/
theorem align_grid {R n : ℕ} (hR : 0 < R) (hn : 0 < n) (P : ℕ → ℕ → V3 ℝ) (v c nrm : V3 ℝ) :
    ∃ m, ((gridMesh R n P).translate v).alignNormal c nrm = some m := by
  have h := (grid_well_formed R n P).2.2.2 0 hR 0 hn
  have h' : ((gridMesh R n P).translate v).panelAt 0 = some (panelOf false
      ((quadAt P 0 0).1 + v, (quadAt P 0 0).2.1 + v, (quadAt P 0 0).2.2.1 + v, (quadAt P 0 0).2.2.2 + v)) := by
    refine panelAt_of_shape ?_
    have := shapes_move (gridMesh R n P) (fun p => p + v)
    rw [show (gridMesh R n P).translate v = (gridMesh R n P).move (fun p => p + v) from rfl, this, List.getElem?_map]
    rw [show (0 : ℕ) + 0 * n = 0 by omega] at h
    rw [h]
    rfl
  unfold Mesh.alignNormal
  rw [h']
  exact ⟨_, rfl⟩

/-- **C56** does not hold for the disks: with 12 panels around a disk of radius 1 and a single ring, the resolution
is kept for a maximal radius of 0.6, but the triangles have a radius greater than 0.64. -/
theorem disk_radius_violated (center normal : V3 ℝ) : ∃ m,
    meshDisk 1 center normal (1, 12) (some 0.6) (2 * Real.pi) = some m ∧ ¬ m.RadiusAtMost 0.64 := by
  have hres : diskResolution 1 (1, 12) (some 0.6) = (1, 12) := by
    unfold diskResolution
    simp only
    rw [if_neg]
    push Not
    unfold halfDiagonal
    rw [div_le_iff₀ (by norm_num), Real.sqrt_le_left (by norm_num)]
    have := Real.pi_lt_d2
    have := Real.pi_pos
    norm_num
    nlinarith
  obtain ⟨m, hm⟩ := align_grid (R := 1) (n := 12) (by norm_num) (by norm_num) (diskNode 1 (2 * Real.pi) 1 12) center center normal
  refine ⟨m, ?_, ?_⟩
  · unfold meshDisk
    rw [if_pos (by norm_num), hres]
    exact hm
  · intro hr
    obtain ⟨f, L, hf, rfl⟩ := alignNormal_move hm
    have h1 := radius_move_converse (isometry_translate center) (radius_move_converse hf hr)
    have ht := disk_trapezoid 1 (2 * Real.pi) 1 12 0 0
    have hδ : halfAngle (2 * Real.pi) 12 = Real.pi / 12 := by unfold halfAngle; push_cast; ring
    rw [hδ, linspace_first, show linspace 0 1 1 (0 + 1) = 1 by simp [linspace]] at ht
    have hp := Real.pi_pos
    have hp3 := Real.pi_gt_three
    have hp4 := Real.pi_lt_d2
    have hcos : 0.965 ≤ Real.cos (Real.pi / 12) := by
      have := Real.one_sub_sq_div_two_le_cos (x := Real.pi / 12)
      nlinarith
    have hsin : 0.2 ≤ Real.sin (Real.pi / 12) := by
      have := Real.sin_gt_sub_cube (x := Real.pi / 12) (by positivity)
      have h3 : (Real.pi / 12) ^ 3 ≤ 0.27 ^ 3 := by
        gcongr
        linarith
      norm_num at h3 ⊢
      linarith
    rw [show |1 / ((1 : ℕ) : ℝ) * Real.cos (Real.pi / 12)| = Real.cos (Real.pi / 12) by
      rw [abs_of_nonneg] <;> norm_num
      linarith] at ht
    have hb1 : (0 : ℝ) ≤ 2 * 0 * Real.sin (Real.pi / 12) := by norm_num
    have hb2 : (0 : ℝ) ≤ 2 * 1 * Real.sin (Real.pi / 12) := by linarith
    have ha : (quadPanel (quadAt (diskNode 1 (2 * Real.pi) 1 12) 0 0).1 (quadAt (diskNode 1 (2 * Real.pi) 1 12) 0 0).2.1
        (quadAt (diskNode 1 (2 * Real.pi) 1 12) 0 0).2.2.1 (quadAt (diskNode 1 (2 * Real.pi) 1 12) 0 0).2.2.2).area ≠ 0 := by
      rw [trapezoid_area hb1 hb2 ht (by nlinarith)]
      have : 0 < Real.sin (Real.pi / 12) := by linarith
      have : 0 < Real.cos (Real.pi / 12) := by linarith
      positivity
    have hs := (grid_well_formed 1 12 (diskNode 1 (2 * Real.pi) 1 12)).2.2.2 0 (by norm_num) 0 (by norm_num)
    have h2 := h1 _ _ (faceProps_mem.2 ⟨_, List.mem_of_getElem? hs, _, rfl, rfl, rfl⟩) ha
    have h3 := trapezoid_radius hb1 hb2 ht ha
    simp only [panelOf] at h2
    rw [if_neg (by simp), h3] at h2
    have h4 := (le_max_left _ _).trans h2
    rw [Real.sqrt_le_left (by norm_num)] at h4
    have h5 : (2 * 0 * Real.sin (Real.pi / 12) + 2 * (2 * 1 * Real.sin (Real.pi / 12))) /
        (3 * (2 * 0 * Real.sin (Real.pi / 12) + 2 * 1 * Real.sin (Real.pi / 12))) = 2 / 3 := by
      have : Real.sin (Real.pi / 12) ≠ 0 := by linarith
      field_simp
      ring
    rw [h5] at h4
    nlinarith

/-! ## Panels of a vertical cylinder -/

/-- The panel between two rings, starting from the second one. -/
theorem ring_cell_trapezoid (T : ℝ) (n j : ℕ) (a b : ℝ × ℝ) :
    Trapezoid (2 * b.1 * Real.sin (halfAngle T n)) (2 * a.1 * Real.sin (halfAngle T n))
      (√((a.1 - b.1) ^ 2 * Real.cos (halfAngle T n) ^ 2 + (a.2 - b.2) ^ 2))
      (ringNode T n b j, ringNode T n b (j + 1), ringNode T n a (j + 1), ringNode T n a j) := by
  obtain ⟨h1, h2⟩ := linspace_mid T n j
  set t := linspace 0 T n j + halfAngle T n with ht
  set δ := halfAngle T n
  have hs := Real.sin_sq_add_cos_sq t
  have h := ring_trapezoid (E := ⟨Real.sin t, Real.cos t, 0⟩) (U := ⟨Real.cos t, -Real.sin t, 0⟩) (A := ⟨0, 0, b.2⟩) (B := ⟨0, 0, a.2⟩)
    (by simp only [dot]; linarith) (by simp only [dot]; ring) (by simp [dot]) b.1 a.1 (Real.cos δ) (Real.sin δ)
  have hh : norm (((a.1 - b.1) * Real.cos δ) • (⟨Real.sin t, Real.cos t, 0⟩ : V3 ℝ) + (⟨0, 0, a.2⟩ - ⟨0, 0, b.2⟩)) =
      √((a.1 - b.1) ^ 2 * Real.cos δ ^ 2 + (a.2 - b.2) ^ 2) := by
    have := ring_height_sq (E := ⟨Real.sin t, Real.cos t, 0⟩) (D := (⟨0, 0, a.2⟩ - ⟨0, 0, b.2⟩ : V3 ℝ)) (by simp only [dot]; linarith)
      (by simp [dot]) ((a.1 - b.1) * Real.cos δ)
    rw [← Real.sqrt_sq (norm_nonneg _), this]
    congr 1
    simp [dot]
    ring
  rw [hh] at h
  convert h using 1
  simp only [ringNode, h1, h2, Real.sin_sub, Real.sin_add, Real.cos_sub, Real.cos_add, Prod.mk.injEq]
  refine ⟨?_, ?_, ?_, ?_⟩ <;> ext <;> simp <;> first | ring1 | (left; ring1)

theorem ring_cell_radius {T R D r : ℝ} {n : ℕ} {a b : ℝ × ℝ} (hT0 : 0 ≤ T) (hT : T ≤ 2 * Real.pi) (hn : 0 < n) (hr : 0 ≤ r) (j : ℕ)
    (ha0 : 0 ≤ a.1) (ha : a.1 ≤ R) (hb0 : 0 ≤ b.1) (hb : b.1 ≤ R) (hD : (a.1 - b.1) ^ 2 + (a.2 - b.2) ^ 2 ≤ D ^ 2)
    (hd : halfDiagonal D (2 * Real.pi * R / n) ≤ r)
    (hk : (quadPanel (ringNode T n a j) (ringNode T n b j) (ringNode T n b (j + 1)) (ringNode T n a (j + 1))).area ≠ 0) :
    radiusOf (quadPanel (ringNode T n a j) (ringNode T n b j) (ringNode T n b (j + 1)) (ringNode T n a (j + 1))).center
      (ringNode T n a j, ringNode T n b j, ringNode T n b (j + 1), ringNode T n a (j + 1)) ≤ 4 / 3 * r := by
  obtain ⟨hδ0, hδ1⟩ := halfAngle_bounds hT0 hT hn
  have hs := Real.sin_nonneg_of_nonneg_of_le_pi hδ0 hδ1
  have h := trapezoid_radius_rolled (by positivity) (by positivity) (ring_cell_trapezoid T n j a b) hk
  simp only at h
  rw [h]
  refine flat_ring_radius hT0 hT hn hr hb0 hb ha0 ha ?_ hd
  rw [Real.sq_sqrt (by positivity)]
  have hc := Real.cos_sq_le_one (halfAngle T n)
  nlinarith [sq_nonneg (a.1 - b.1)]

/-- Two successive rings of a closed cylinder. -/
theorem ring_step {l R : ℝ} {nr nz : ℕ} (hr : 0 < nr) (hz : 0 < nz) (i : ℕ) (hi : i < nz + 2 * (nr + 1)) :
    let a := ringAt l R nr nz i
    let b := ringAt l R nr nz (i + 1)
    (i < nr → b.1 - a.1 = R / nr ∧ b.2 = a.2) ∧ (i = nr → b = a) ∧
    (nr < i → i ≤ nr + nz → b.1 = a.1 ∧ b.2 - a.2 = l / nz) ∧ (i = nr + nz + 1 → b = a) ∧
    (nr + nz + 1 < i → a.1 - b.1 = R / nr ∧ b.2 = a.2) := by
  intro a b
  refine ⟨fun h => ?_, fun h => ?_, fun h h' => ?_, fun h => ?_, fun h => ?_⟩
  · have ha : a = (linspace 0 R nr i, -l / 2) := by simp only [a, ringAt]; rw [if_pos (by omega)]
    have hb : b = (linspace 0 R nr (i + 1), -l / 2) := by simp only [b, ringAt]; rw [if_pos (by omega)]
    rw [ha, hb]
    simp [linspace_succ]
  · have ha : a = (linspace 0 R nr i, -l / 2) := by simp only [a, ringAt]; rw [if_pos (by omega)]
    have hb : b = (R, linspace (-l / 2) (l / 2) nz (i + 1 - (nr + 1))) := by
      simp only [b, ringAt]; rw [if_neg (by omega), if_pos (by omega)]
    rw [ha, hb, h, linspace_last hr, Nat.sub_self, linspace_first]
  · have ha : a = (R, linspace (-l / 2) (l / 2) nz (i - (nr + 1))) := by
      simp only [a, ringAt]; rw [if_neg (by omega), if_pos (by omega)]
    have hb : b = (R, linspace (-l / 2) (l / 2) nz (i - (nr + 1) + 1)) := by
      simp only [b, ringAt]; rw [if_neg (by omega), if_pos (by omega), show i + 1 - (nr + 1) = i - (nr + 1) + 1 by omega]
    rw [ha, hb]
    simp only [linspace_succ, true_and]
    ring
  · have ha : a = (R, linspace (-l / 2) (l / 2) nz (i - (nr + 1))) := by
      simp only [a, ringAt]; rw [if_neg (by omega), if_pos (by omega)]
    have hb : b = (linspace 0 R nr (2 * nr + nz + 2 - (i + 1)), l / 2) := by
      simp only [b, ringAt]; rw [if_neg (by omega), if_neg (by omega)]
    rw [ha, hb, show i - (nr + 1) = nz by omega, show 2 * nr + nz + 2 - (i + 1) = nr by omega, linspace_last hr, linspace_last hz]
  · have ha : a = (linspace 0 R nr (2 * nr + nz + 2 - (i + 1) + 1), l / 2) := by
      simp only [a, ringAt]
      rw [if_neg (by omega), if_neg (by omega), show 2 * nr + nz + 2 - (i + 1) + 1 = 2 * nr + nz + 2 - i by omega]
    have hb : b = (linspace 0 R nr (2 * nr + nz + 2 - (i + 1)), l / 2) := by
      simp only [b, ringAt]; rw [if_neg (by omega), if_neg (by omega)]
    rw [ha, hb]
    simp [linspace_succ]

theorem ringAt_bounds {l R : ℝ} (hR : 0 ≤ R) (nr nz i : ℕ) (hi : i ≤ nz + 2 * (nr + 1)) :
    0 ≤ (ringAt l R nr nz i).1 ∧ (ringAt l R nr nz i).1 ≤ R := by
  unfold ringAt
  split_ifs with h1 h2
  · exact ⟨linspace_nonneg hR _ _, linspace_le hR h1⟩
  · exact ⟨hR, le_refl _⟩
  · exact ⟨linspace_nonneg hR _ _, linspace_le hR (by omega)⟩

/-- **C56** for the vertical cylinders: the panels have a radius at most four thirds of the requested one. Missing:
the factor, the triangles of the ends are too large as for the disks, see `disk_radius_violated`. -/
theorem vertical_cylinder_radius_partial {l R r T : ℝ} {center : V3 ℝ} {res : ℕ × ℕ × ℕ} {m : Mesh (V3 ℝ)} (hT0 : 0 ≤ T)
    (hT : T ≤ 2 * Real.pi) (hr : 0 < r) (h : meshVerticalCylinder l R center res (some r) T = some m) :
    m.RadiusAtMost (4 / 3 * r) := by
  unfold meshVerticalCylinder at h
  split_ifs at h with hp
  obtain ⟨hl, hR⟩ := hp
  obtain ⟨⟨nr, n, nz⟩, hn, rfl⟩ := Option.map_eq_some_iff.1 h
  obtain ⟨h1, h2, h3, h4, h5⟩ := cylinder_resolution hl hR hr hn
  simp only at h1 h2 h3 h4 h5 ⊢
  refine radius_move (isometry_translate center) ?_
  obtain ⟨N, f, he, hN, _⟩ := cylinder_grid l R T nr n nz
  obtain ⟨rfl, rfl⟩ := hN h1
  rw [he]
  intro p ρ hp ha
  obtain ⟨s, hs, c, hc, rfl, rfl⟩ := faceProps_mem.1 hp
  rw [back_shapes] at hs
  simp only [List.mem_flatMap, List.mem_map, List.mem_range] at hs
  obtain ⟨i, hi, j, hj, rfl⟩ := hs
  simp only [Option.some.injEq] at hc
  subst hc
  simp only [panelOf, quadAt] at ha ⊢
  rw [if_neg (by simp)] at ha ⊢
  obtain ⟨b1, b2⟩ := ringAt_bounds (l := l) hR.le nr nz i (by omega)
  obtain ⟨b3, b4⟩ := ringAt_bounds (l := l) hR.le nr nz (i + 1) (by omega)
  obtain ⟨s1, s2, s3, s4, s5⟩ := ring_step (l := l) (R := R) h1 h3 i hi
  have hflat : halfDiagonal (l / nz) (2 * Real.pi * R / n) ≤ r := by
    unfold halfDiagonal at h5 ⊢
    rwa [add_comm] at h5
  by_cases c1 : i < nr
  · obtain ⟨e1, e2⟩ := s1 c1
    refine ring_cell_radius (D := R / nr) hT0 hT h2 hr.le j b1 b2 b3 b4 ?_ h4 ha
    rw [e2, ← e1]
    exact le_of_eq (by ring)
  by_cases c2 : i = nr
  · refine ring_cell_radius (D := R / nr) hT0 hT h2 hr.le j b1 b2 b3 b4 ?_ h4 ha
    rw [s2 c2, sub_self, sub_self, zero_pow two_ne_zero, add_zero]
    exact sq_nonneg _
  by_cases c3 : i ≤ nr + nz
  · obtain ⟨e1, e2⟩ := s3 (by omega) c3
    refine ring_cell_radius (D := l / nz) hT0 hT h2 hr.le j b1 b2 b3 b4 ?_ hflat ha
    rw [e1, ← e2]
    exact le_of_eq (by ring)
  by_cases c4 : i = nr + nz + 1
  · refine ring_cell_radius (D := R / nr) hT0 hT h2 hr.le j b1 b2 b3 b4 ?_ h4 ha
    rw [s4 c4, sub_self, sub_self, zero_pow two_ne_zero, add_zero]
    exact sq_nonneg _
  · obtain ⟨e1, e2⟩ := s5 (by omega)
    refine ring_cell_radius (D := R / nr) hT0 hT h2 hr.le j b1 b2 b3 b4 ?_ h4 ha
    rw [e2, ← e1]
    exact le_of_eq (by ring)

/-! ## Number of panels of a vertical cylinder -/

/-- A panel whose diagonals are parallel has no area. -/
def FlatShape (s : Bool × Option (V3 ℝ × V3 ℝ × V3 ℝ × V3 ℝ)) : Prop :=
  ∀ c, s.2 = some c → cross (c.2.2.1 - c.1) (c.2.2.2 - c.2.1) = 0

theorem ring_cell_flat {T : ℝ} {n : ℕ} {a b : ℝ × ℝ} (j : ℕ) (hab : 0 < a.1 + b.1)
    (hs : 0 < Real.sin (halfAngle T n)) (hc : Real.cos (halfAngle T n) ≠ 0) :
    cross (ringNode T n b (j + 1) - ringNode T n a j) (ringNode T n a (j + 1) - ringNode T n b j) = 0 ↔ a = b := by
  obtain ⟨M, H, u, hu, huH, hh, he⟩ := ring_cell_trapezoid T n j a b
  simp only [Prod.mk.injEq] at he
  obtain ⟨e1, e2, e3, e4⟩ := he
  have e0 : cross (ringNode T n b (j + 1) - ringNode T n a j) (ringNode T n a (j + 1) - ringNode T n b j) =
      (2 * b.1 * Real.sin (halfAngle T n) + 2 * a.1 * Real.sin (halfAngle T n)) • cross u H := by
    rw [e1, e2, e3, e4]
    ext <;> simp <;> ring
  rw [e0, ← norm_eq_zero, norm_smul, norm_cross_unit hu huH, hh]
  have hp : 0 < 2 * b.1 * Real.sin (halfAngle T n) + 2 * a.1 * Real.sin (halfAngle T n) := by
    rw [show 2 * b.1 * Real.sin (halfAngle T n) + 2 * a.1 * Real.sin (halfAngle T n) =
      2 * (a.1 + b.1) * Real.sin (halfAngle T n) by ring]
    positivity
  rw [abs_of_pos hp, mul_eq_zero, or_iff_right hp.ne', Real.sqrt_eq_zero (by positivity)]
  constructor
  · intro h
    have h1 : (a.2 - b.2) ^ 2 = 0 := by nlinarith [sq_nonneg (a.2 - b.2), mul_nonneg (sq_nonneg (a.1 - b.1)) (sq_nonneg (Real.cos (halfAngle T n)))]
    have h2 : (a.1 - b.1) ^ 2 * Real.cos (halfAngle T n) ^ 2 = 0 := by rw [h1] at h; linarith
    rw [mul_eq_zero, or_iff_left (pow_ne_zero 2 hc)] at h2
    exact Prod.ext (by have := pow_eq_zero_iff (two_ne_zero) |>.1 h2; linarith)
      (by have := pow_eq_zero_iff (two_ne_zero) |>.1 h1; linarith)
  · rintro rfl
    simp

open Classical in
/-- The number of panels that have an area. -/
noncomputable def Mesh.solidPanels (m : Mesh (V3 ℝ)) : ℕ := m.shapes.countP fun s => ¬ FlatShape s

theorem countP_grid {A : Type} (p : A → Bool) (q : ℕ → Bool) (N n : ℕ) (g : ℕ → ℕ → A)
    (h : ∀ i < N, ∀ j < n, p (g i j) = q i) :
    ((List.range N).flatMap fun i => (List.range n).map fun j => g i j).countP p = (List.range N).countP q * n := by
  induction N with
  | zero => simp
  | succ N ih =>
    rw [List.range_succ, List.flatMap_append, List.countP_append, List.countP_append, ih fun i hi j hj => h i (by omega) j hj,
      Nat.add_mul]
    congr 1
    simp only [List.flatMap_cons, List.flatMap_nil, List.append_nil, List.countP_map]
    cases hq : q N with
    | true =>
      rw [List.countP_eq_length.2]
      · simp [hq]
      · intro j hj
        rw [List.mem_range] at hj
        simp only [Function.comp]
        rw [h N (by omega) j hj, hq]
    | false =>
      rw [List.countP_eq_zero.2]
      · simp [hq]
      · intro j hj
        rw [List.mem_range] at hj
        simp only [Function.comp]
        rw [h N (by omega) j hj, hq]
        simp

theorem countP_all_but (N a b : ℕ) (hab : a < b) (hb : b < N) :
    (List.range N).countP (fun i => decide (i ≠ a ∧ i ≠ b)) = N - 2 := by
  have h1 : (List.range N).countP (fun i => decide (i ≠ a ∧ i ≠ b)) + (List.range N).countP (fun i => decide (i = a ∨ i = b)) = N := by
    have := List.length_eq_countP_add_countP (fun i => decide (i ≠ a ∧ i ≠ b)) (l := List.range N)
    rw [List.length_range] at this
    have hc : (List.range N).countP (fun i => decide (i = a ∨ i = b)) =
        (List.range N).countP (fun i => decide ¬decide (i ≠ a ∧ i ≠ b) = true) := by
      refine List.countP_congr fun i _ => ?_
      simp only [decide_eq_true_eq, ne_eq, not_and_or, not_not]
    omega
  have h2 : (List.range N).countP (fun i => decide (i = a ∨ i = b)) = 2 := by
    have : ∀ N, (List.range N).countP (fun i => decide (i = a ∨ i = b)) = (if a < N then 1 else 0) + (if b < N then 1 else 0) := by
      intro N
      induction N with
      | zero => simp
      | succ N ih =>
        rw [List.range_succ, List.countP_append, ih]
        simp only [List.countP_cons, List.countP_nil, decide_eq_true_eq]
        split_ifs <;> omega
    rw [this, if_pos (by omega), if_pos hb]
  omega

theorem halfAngle_trig {T : ℝ} {n : ℕ} (hT0 : 0 < T) (hT : T ≤ 2 * Real.pi) (hn : 3 ≤ n) :
    0 < Real.sin (halfAngle T n) ∧ 0 < Real.cos (halfAngle T n) := by
  have hn' : (3 : ℝ) ≤ n := by exact_mod_cast hn
  have h0 : 0 < halfAngle T n := by unfold halfAngle; positivity
  have h1 : halfAngle T n < Real.pi / 2 := by
    unfold halfAngle
    have : T / n ≤ 2 * Real.pi / 3 := by gcongr
    linarith [Real.pi_pos]
  exact ⟨Real.sin_pos_of_pos_of_lt_pi h0 (by linarith [Real.pi_pos]), Real.cos_pos_of_mem_Ioo ⟨by linarith, h1⟩⟩

/-- **C56**: a vertical cylinder has `(2 nr + nz) * ntheta` panels with an area, and two rows of flat panels, that
healing removes, where the ends meet the wall. -/
theorem vertical_cylinder_panels {l R T : ℝ} {nr n nz : ℕ} (hl : 0 < l) (hR : 0 < R) (hT0 : 0 < T) (hT : T ≤ 2 * Real.pi) (hn : 3 ≤ n) (hz : 0 < nz) :
    (verticalCylinder l R T nr n nz).solidPanels = (2 * nr + nz) * n ∧ (verticalCylinder l R T nr n nz).Valid := by
  obtain ⟨N, f, he, h1, h2⟩ := cylinder_grid l R T nr n nz
  obtain ⟨hs, hc⟩ := halfAngle_trig hT0 hT hn
  rw [he]
  refine ⟨?_, back_valid _ _ _⟩
  unfold Mesh.solidPanels
  rw [back_shapes]
  have hz' : (0 : ℝ) < nz := by exact_mod_cast hz
  rcases Nat.eq_zero_or_pos nr with rfl | hr
  · obtain ⟨hN, rfl⟩ := h2 rfl
    subst hN
    rw [countP_grid _ (fun _ => true)]
    · simp
    · intro i hi j hj
      simp only [decide_eq_true_eq, FlatShape, Option.some.injEq, forall_eq', quadAt]
      rw [ring_cell_flat j (by simp only; linarith) hs hc.ne']
      simp only [Prod.mk.injEq, true_and, linspace_succ]
      have : 0 < (l / 2 - -l / 2) / (N : ℝ) := by
        rw [show l / 2 - -l / 2 = l by ring]; positivity
      linarith
  · obtain ⟨rfl, rfl⟩ := h1 hr
    have hr' : (0 : ℝ) < nr := by exact_mod_cast hr
    rw [countP_grid _ (fun i => decide (i ≠ nr ∧ i ≠ nr + nz + 1)), countP_all_but _ _ _ (by omega) (by omega)]
    · congr 1; omega
    · intro i hi j hj
      obtain ⟨s1, s2, s3, s4, s5⟩ := ring_step (l := l) (R := R) hr hz i hi
      have b1 := (ringAt_bounds (l := l) hR.le nr nz i (by omega)).1
      have b2 := (ringAt_bounds (l := l) hR.le nr nz (i + 1) (by omega)).1
      have hRr : 0 < R / nr := by positivity
      have hlz : 0 < l / nz := by positivity
      have hpos : 0 < (ringAt l R nr nz i).1 + (ringAt l R nr nz (i + 1)).1 := by
        by_cases c1 : i < nr
        · have := (s1 c1).1; linarith
        by_cases c5 : nr + nz + 1 < i
        · have := (s5 c5).1; linarith
        · have : ringAt l R nr nz (i + 1) = ringAt l R nr nz (i + 1) := rfl
          have hR1 : (ringAt l R nr nz i).1 = R := by
            unfold ringAt
            split_ifs
            · rw [show i = nr by omega, linspace_last hr]
            · rfl
            · omega
          linarith
      have key : FlatShape (false, some (quadAt (fun a b => ringNode T n (ringAt l R nr nz b) a) j i)) ↔ i = nr ∨ i = nr + nz + 1 := by
        simp only [FlatShape, Option.some.injEq, forall_eq', quadAt]
        rw [ring_cell_flat j hpos hs hc.ne']
        constructor
        · intro h
          by_contra hn
          push Not at hn
          by_cases c1 : i < nr
          · have := (s1 c1).1; rw [h] at this; linarith
          by_cases c3 : i ≤ nr + nz
          · have := (s3 (by omega) c3).2; rw [h] at this; linarith
          · have := (s5 (by omega)).1; rw [h] at this; linarith
        · rintro (h | h)
          · exact (s2 h).symm
          · exact (s4 h).symm
      rw [Bool.eq_iff_iff]
      simp only [decide_eq_true_eq]
      rw [key]
      push Not
      rfl

theorem countP_all_but_one (N a : ℕ) (ha : a < N) : (List.range N).countP (fun i => decide (i ≠ a)) = N - 1 := by
  have : ∀ N, (List.range N).countP (fun i => decide (i ≠ a)) = N - (if a < N then 1 else 0) := by
    intro N
    induction N with
    | zero => simp
    | succ N ih =>
      rw [List.range_succ, List.countP_append, ih]
      simp only [List.countP_cons, List.countP_nil, decide_eq_true_eq]
      split_ifs <;> omega
  rw [this, if_pos ha]

/-- **C56** does not hold for the vertical cylinders with two ends and no row of panels on the wall: a row is built
nevertheless, and there are `ntheta` panels more than documented. -/
theorem vertical_cylinder_panels_violated {l R T : ℝ} {nr n : ℕ} (hl : 0 < l) (hR : 0 < R) (hT0 : 0 < T) (hT : T ≤ 2 * Real.pi)
    (hn : 3 ≤ n) (hr : 0 < nr) : (verticalCylinder l R T nr n 0).solidPanels = (2 * nr + 0) * n + n := by
  obtain ⟨N, f, he, h1, _⟩ := cylinder_grid l R T nr n 0
  obtain ⟨rfl, rfl⟩ := h1 hr
  obtain ⟨hs, hc⟩ := halfAngle_trig hT0 hT hn
  have hr' : (0 : ℝ) < nr := by exact_mod_cast hr
  have hRr : 0 < R / nr := by positivity
  rw [he]
  unfold Mesh.solidPanels
  rw [back_shapes, countP_grid _ (fun i => decide (i ≠ nr)), countP_all_but_one _ _ (by omega)]
  · rw [show 0 + 2 * (nr + 1) - 1 = (2 * nr + 0) + 1 by omega, Nat.add_mul, Nat.one_mul]
  · intro i hi j hj
    have bot : ∀ k ≤ nr, ringAt l R nr 0 k = (linspace 0 R nr k, -l / 2) := fun k hk => by
      unfold ringAt; rw [if_pos hk]
    have mid : ringAt l R nr 0 (nr + 1) = (R, -l / 2) := by
      unfold ringAt; rw [if_neg (by omega), if_pos (by omega), Nat.sub_self, linspace_first]
    have top : ∀ k, nr + 1 < k → ringAt l R nr 0 k = (linspace 0 R nr (2 * nr + 0 + 2 - k), l / 2) := fun k hk => by
      unfold ringAt; rw [if_neg (by omega), if_neg (by omega)]
    have key : FlatShape (false, some (quadAt (fun a b => ringNode T n (ringAt l R nr 0 b) a) j i)) ↔ i = nr := by
      simp only [FlatShape, Option.some.injEq, forall_eq', quadAt]
      rcases lt_trichotomy i nr with c | c | c
      · have e := linspace_nonneg hR.le nr i
        rw [ring_cell_flat j (by rw [bot i (by omega), bot (i + 1) (by omega), linspace_succ, sub_zero]; simp only; linarith) hs hc.ne',
          bot i (by omega), bot (i + 1) (by omega), linspace_succ, sub_zero]
        simp only [Prod.mk.injEq, and_true]
        constructor
        · intro h; linarith
        · intro h; omega
      · subst c
        rw [ring_cell_flat j (by rw [bot i (by omega), mid, linspace_last hr]; simp only; linarith) hs hc.ne', bot i (by omega), mid,
          linspace_last hr]
        simp
      · by_cases c2 : i = nr + 1
        · subst c2
          rw [ring_cell_flat j (by rw [mid, top _ (by omega), show 2 * nr + 0 + 2 - (nr + 1 + 1) = nr by omega, linspace_last hr]; simp only; linarith)
            hs hc.ne', mid, top _ (by omega)]
          simp only [Prod.mk.injEq]
          constructor
          · intro h; linarith [h.2]
          · intro h; omega
        · have e := linspace_nonneg hR.le nr (2 * nr + 0 + 2 - (i + 1))
          have e' : linspace 0 R nr (2 * nr + 0 + 2 - i) = linspace 0 R nr (2 * nr + 0 + 2 - (i + 1)) + R / nr := by
            rw [show 2 * nr + 0 + 2 - i = 2 * nr + 0 + 2 - (i + 1) + 1 by omega, linspace_succ, sub_zero]
          rw [ring_cell_flat j (by rw [top i (by omega), top (i + 1) (by omega), e']; simp only; linarith) hs hc.ne',
            top i (by omega), top (i + 1) (by omega), e']
          simp only [Prod.mk.injEq, and_true]
          constructor
          · intro h; linarith
          · intro h; omega
    rw [Bool.eq_iff_iff]
    simp only [decide_eq_true_eq]
    rw [key]

/-- **C56** does not hold for the open cylinders: a maximal radius divides by the number of panels on the radius of the
ends, and raises `ZeroDivisionError`. -/
theorem open_cylinder_radius_violated (l R : ℝ) (center : V3 ℝ) (n nz : ℕ) (r T : ℝ) :
    meshVerticalCylinder l R center (0, n, nz) (some r) T = none ∧ meshHorizontalCylinder l R center (0, n, nz) (some r) T = none := by
  unfold meshVerticalCylinder meshHorizontalCylinder cylinderResolution
  simp

end Verif.Meshes
