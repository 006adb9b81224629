import Verif.Meshes.RoundProps
import Verif.Meshes.SymmetricProps

/-!
# C56: surfaces of revolution and spheres
-/

namespace Verif.Meshes

open Verif.Geometry V3

/-! ## Slices -/

/-- The nodes of a surface of revolution: the points of the profile turned by a number of slices. -/
noncomputable def revolved (profile : List (V3 ℝ)) (a : Axis) (n k i : ℕ) : V3 ℝ :=
  a.rotatePoint (2 * k * Real.pi / n) (profile.getD i 0)

theorem slice_shapes (profile : List (V3 ℝ)) (a : Axis) (angle : ℝ) : (profileSlice profile a angle).shapes =
    (List.range (profile.length - 1)).map fun i => (false, some (profile.getD i 0, a.rotatePoint angle (profile.getD i 0),
      a.rotatePoint angle (profile.getD (i + 1) 0), profile.getD (i + 1) 0)) := by
  unfold Mesh.shapes profileSlice
  rw [List.map_map]
  refine List.map_congr_left fun i hi => ?_
  rw [List.mem_range] at hi
  simp only [Function.comp]
  congr 1
  · simp [Face.isTriangle]
  · unfold corners
    simp only
    have h1 : i < profile.length := by omega
    have h2 : i + 1 < profile.length := by omega
    rw [List.getElem?_append_left h1, List.getElem?_append_left h2, List.getElem?_append_right (by omega),
      List.getElem?_append_right (by omega), Nat.add_sub_cancel, show i + profile.length + 1 - profile.length = i + 1 by omega]
    simp [List.getD_eq_getElem?_getD, h1, h2]

theorem slice_valid (profile : List (V3 ℝ)) (a : Axis) (angle : ℝ) : (profileSlice profile a angle).Valid := by
  intro f hf k hk
  simp only [profileSlice, List.mem_map, List.mem_range] at hf
  obtain ⟨i, hi, rfl⟩ := hf
  simp only [profileSlice, Face.toList, List.mem_cons, List.not_mem_nil, or_false, List.length_append, List.length_map] at hk ⊢
  omega

theorem rotate_shapes (m : Mesh (V3 ℝ)) (a : Axis) (θ : ℝ) : (m.rotate a θ).shapes =
    m.shapes.map fun s => (s.1, s.2.map fun c => (a.rotatePoint θ c.1, a.rotatePoint θ c.2.1, a.rotatePoint θ c.2.2.1, a.rotatePoint θ c.2.2.2)) :=
  shapes_move m (a.rotatePoint θ)

/-- **C56**: the panels of a surface of revolution, slice by slice, and their number. -/
theorem revolution_panels {profile : List (V3 ℝ)} {a : Axis} {n : ℕ} {t : Tree} (ha : dot a.vector a.vector = 1)
    (h : fromProfile profile a n = some t) : ∃ m, t.assembled = some m ∧ m.Valid ∧ m.faces.length = n * (profile.length - 1) ∧
      m.shapes = (List.range n).flatMap fun k => (List.range (profile.length - 1)).map fun i =>
        (false, some (quadAt (fun i k => revolved profile a n k i) i k)) := by
  unfold fromProfile mkSymmetric at h
  split_ifs at h with hp
  simp only [Option.map_some, Option.some.injEq] at h
  have hn : 2 ≤ n := by omega
  have hn1 : n - 1 + 1 = n := by omega
  have hn0 : (n : ℝ) ≠ 0 := by
    have : n ≠ 0 := by omega
    exact_mod_cast this
  rw [hn1] at h
  set slice := profileSlice profile a (2 * Real.pi / n) with hslice
  have hl : t.leaves = slice :: (List.range (n - 1)).map fun i => slice.rotate a (2 * ((i + 1 : ℕ) : ℝ) * Real.pi / n) := by
    rw [← h]
    simp only [Tree.leaves, leavesAll, leavesAll_eq, List.flatMap_map, Tree.move, Sym.step, Motion.mesh, List.singleton_append]
    congr 1
    induction (List.range (n - 1)) with
    | nil => rfl
    | cons x l ih => simp only [List.flatMap_cons, List.map_cons, ih, List.singleton_append]
  have hl' : t.leaves = (List.range n).map fun k : ℕ => slice.rotate a (2 * (k : ℝ) * Real.pi / n) := by
    rw [hl]
    conv_rhs => rw [← hn1, List.range_succ_eq_map, List.map_cons, List.map_map, hn1]
    have e0 : slice.rotate a (2 * ((0 : ℕ) : ℝ) * Real.pi / n) = slice := by
      rw [show 2 * ((0 : ℕ) : ℝ) * Real.pi / (n : ℝ) = 0 by simp]
      unfold Mesh.rotate
      rw [show a.rotatePoint 0 = id from funext (rotation_zero a), List.map_id]
    rw [e0]
    rfl
  have hv : ∀ m ∈ t.leaves, m.Valid := by
    intro m hm
    rw [hl'] at hm
    obtain ⟨k, _, rfl⟩ := List.mem_map.1 hm
    intro f hf i hi
    have := slice_valid profile a (2 * Real.pi / n) f hf i hi
    simpa [Mesh.rotate, hslice] using this
  have hin : t.Inhabited := by
    rw [← h]
    simp only [Tree.Inhabited, AllInhabited, allInhabited_iff]
    refine ⟨by simp, trivial, ?_⟩
    intro s hs
    obtain ⟨i, _, rfl⟩ := List.mem_map.1 hs
    simp [Tree.move, Tree.Inhabited]
  obtain ⟨m, h1, h2, _, h4, _, h6, _⟩ := collection_concatenates t hin hv
  refine ⟨m, h1, h2, ?_, ?_⟩
  · rw [h6, nbFaces_eq, hl', List.map_map]
    have : ((fun m : Mesh (V3 ℝ) => m.faces.length) ∘ fun k : ℕ => slice.rotate a (2 * (k : ℝ) * Real.pi / n)) =
        fun _ => profile.length - 1 := by
      funext k
      simp [Mesh.rotate, hslice, profileSlice]
    rw [this]
    simp
  · rw [h4, hl', List.flatMap_map]
    refine List.flatMap_congr fun k _ => ?_
    rw [rotate_shapes, hslice, slice_shapes, List.map_map]
    refine List.map_congr_left fun i _ => ?_
    simp only [Function.comp, Option.map_some, quadAt, revolved]
    have hadd : ∀ p, a.rotatePoint (2 * (k : ℝ) * Real.pi / n) (a.rotatePoint (2 * Real.pi / n) p) =
        a.rotatePoint (2 * ((k + 1 : ℕ) : ℝ) * Real.pi / n) p := by
      intro p
      rw [rotation_comp a ha]
      congr 1
      push_cast
      ring
    rw [hadd, hadd]

theorem full_turn (a : Axis) (p : V3 ℝ) : a.rotatePoint (2 * Real.pi) p = p := by
  unfold Axis.rotatePoint
  rw [rotateVector_eq]
  ext <;> simp

/-- **C56**: a surface of revolution is closed when its profile starts and ends on the axis. -/
theorem revolution_closed {profile : List (V3 ℝ)} {a : Axis} {n : ℕ} {t : Tree} {m : Mesh (V3 ℝ)} (ha : dot a.vector a.vector = 1)
    (h : fromProfile profile a n = some t) (hm : t.assembled = some m) (s e : ℝ)
    (h0 : profile.head? = some (a.at s)) (h1 : profile.getLast? = some (a.at e)) : ClosedSurface m.pieces := by
  obtain ⟨m', hm', _, _, hs⟩ := revolution_panels ha h
  rw [hm] at hm'
  injection hm' with hm'
  subst hm'
  have hn : 2 ≤ n := by
    unfold fromProfile mkSymmetric at h
    split_ifs at h with hp
    omega
  refine closed_of_shapes _ fun w hw => ?_
  rw [hs, sum_grid, Finset.sum_comm]
  refine grid_closed hw (profile.length - 1) n (fun i k => revolved profile a n k i) (a.at s) (a.at e) ?_ ?_ ?_
  · intro i _
    have hn0 : (n : ℝ) ≠ 0 := by
      have : n ≠ 0 := by omega
      exact_mod_cast this
    simp only [revolved]
    rw [show 2 * (n : ℝ) * Real.pi / n = 2 * Real.pi by field_simp, full_turn, show 2 * ((0 : ℕ) : ℝ) * Real.pi / n = 0 by simp,
      rotation_zero]
  · intro j _
    simp only [revolved]
    rw [List.getD_eq_getElem?_getD, ← List.head?_eq_getElem?, h0]
    exact rotation_fixes_axis _ _ _
  · intro j _
    simp only [revolved]
    rw [List.getD_eq_getElem?_getD, ← List.getLast?_eq_getElem?, h1]
    exact rotation_fixes_axis _ _ _

/-! ## Spheres -/

theorem oz_unit : dot ozAxis.vector ozAxis.vector = 1 := by
  refine mkAxis_unit ?_
  intro h
  have := congrArg V3.z h
  simp [ez] at this

theorem oz_vector : ozAxis.vector = ez := by
  have : norm ez = 1 := by simp [V3.norm, dot, ez]
  unfold ozAxis mkAxis
  simp only [this]
  ext <;> simp

theorem oz_rotate (θ : ℝ) (p : V3 ℝ) : ozAxis.rotatePoint θ p =
    ⟨p.x * Real.cos θ - p.y * Real.sin θ, p.x * Real.sin θ + p.y * Real.cos θ, p.z⟩ := by
  unfold Axis.rotatePoint
  rw [rotateVector_eq, oz_vector]
  have : ozAxis.point = 0 := rfl
  rw [this]
  ext <;> simp [ez, dot] <;> ring

theorem meridian_get {R : ℝ} {n i : ℕ} (hi : i ≤ n) : (meridian R n).getD i 0 =
    ⟨R * Real.sin (linspace 0 Real.pi n i), 0, -(R * Real.cos (linspace 0 Real.pi n i))⟩ := by
  unfold meridian
  rw [List.getD_eq_getElem?_getD, List.getElem?_map, List.getElem?_range (by omega)]
  rfl

/-- **C56**: a sphere is a closed surface with `ntheta * nphi` panels, that refer to existing vertices, for at least two
meridians. -/
theorem sphere_closed {R : ℝ} {center : V3 ℝ} {res : ℕ × ℕ} {r : Option ℝ} {m : Mesh (V3 ℝ)} (h : meshSphere R center res r = some m) :
    ClosedSurface m.pieces ∧ m.Valid ∧ m.faces.length = (sphereResolution R res r).2 * (sphereResolution R res r).1 := by
  unfold meshSphere at h
  simp only at h
  set n := sphereResolution R res r
  split at h
  · exact absurd h (by simp)
  rename_i t ht
  obtain ⟨m', hm', rfl⟩ := Option.map_eq_some_iff.1 h
  obtain ⟨m2, h1, h2, h3, _⟩ := revolution_panels oz_unit ht
  rw [hm'] at h1
  injection h1 with h1
  subst h1
  refine ⟨?_, ?_, ?_⟩
  · have hc : ClosedSurface m'.pieces := by
      rcases Nat.eq_zero_or_pos n.1 with h0 | h0
      · have : m'.pieces = [] := by
          have h4 : m'.faces = [] := by
            rw [← List.length_eq_zero_iff, h3, h0]
            simp [meridian]
          simp [Mesh.pieces, h4]
        rw [this]
        exact List.Perm.refl _
      · refine revolution_closed oz_unit ht hm' (-R) R ?_ ?_
        · rw [List.head?_eq_getElem?]
          unfold meridian
          rw [List.getElem?_map, List.getElem?_range (by omega), Option.map_some, linspace_first]
          congr 1
          have : ozAxis.point = 0 := rfl
          simp only [Axis.at, oz_vector, this]
          ext <;> simp [ez]
        · rw [List.getLast?_eq_getElem?]
          unfold meridian
          rw [List.length_map, List.length_range, Nat.add_sub_cancel, List.getElem?_map, List.getElem?_range (by omega), Option.map_some,
            linspace_last h0]
          congr 1
          have : ozAxis.point = 0 := rfl
          simp only [Axis.at, oz_vector, this]
          ext <;> simp [ez]
    rw [show m'.translate center = m'.move (fun p => p + center) from rfl, pieces_move]
    exact closed_move hc (fun p => p + center)
  · intro f hf i hi
    have := h2 f hf i hi
    simpa [Mesh.translate] using this
  · rw [show (m'.translate center).faces.length = m'.faces.length from rfl, h3]
    simp [meridian]

/-- The panels of a sphere are isosceles trapezoids. -/
theorem sphere_trapezoid (R : ℝ) (n : ℕ) {nt i k : ℕ} (hi : i < nt) :
    Trapezoid (2 * (R * Real.sin (linspace 0 Real.pi nt i)) * Real.sin (Real.pi / n))
      (2 * (R * Real.sin (linspace 0 Real.pi nt (i + 1))) * Real.sin (Real.pi / n))
      (√((R * Real.sin (linspace 0 Real.pi nt (i + 1)) - R * Real.sin (linspace 0 Real.pi nt i)) ^ 2 * Real.cos (Real.pi / n) ^ 2 +
        (R * Real.cos (linspace 0 Real.pi nt (i + 1)) - R * Real.cos (linspace 0 Real.pi nt i)) ^ 2))
      (quadAt (fun i k => revolved (meridian R nt) ozAxis n k i) i k) := by
  set a := linspace 0 Real.pi nt i
  set b := linspace 0 Real.pi nt (i + 1)
  set δ := Real.pi / n with hδ
  set t := (2 * k + 1) * Real.pi / n with ht
  have hs := Real.sin_sq_add_cos_sq t
  have h := ring_trapezoid (E := ⟨Real.cos t, Real.sin t, 0⟩) (U := ⟨-Real.sin t, Real.cos t, 0⟩) (A := ⟨0, 0, -(R * Real.cos a)⟩)
    (B := ⟨0, 0, -(R * Real.cos b)⟩) (by simp only [dot]; linarith) (by simp only [dot]; ring) (by simp [dot]) (R * Real.sin a)
    (R * Real.sin b) (Real.cos δ) (Real.sin δ)
  have hh : norm (((R * Real.sin b - R * Real.sin a) * Real.cos δ) • (⟨Real.cos t, Real.sin t, 0⟩ : V3 ℝ) +
      (⟨0, 0, -(R * Real.cos b)⟩ - ⟨0, 0, -(R * Real.cos a)⟩)) =
      √((R * Real.sin b - R * Real.sin a) ^ 2 * Real.cos δ ^ 2 + (R * Real.cos b - R * Real.cos a) ^ 2) := by
    have := ring_height_sq (E := ⟨Real.cos t, Real.sin t, 0⟩) (D := (⟨0, 0, -(R * Real.cos b)⟩ - ⟨0, 0, -(R * Real.cos a)⟩ : V3 ℝ))
      (by simp only [dot]; linarith) (by simp [dot]) ((R * Real.sin b - R * Real.sin a) * Real.cos δ)
    rw [← Real.sqrt_sq (norm_nonneg _), this]
    congr 1
    simp [dot]
    ring
  rw [hh] at h
  convert h using 1
  have h1 : 2 * (k : ℝ) * Real.pi / n = t - δ := by rw [ht, hδ]; ring
  have h2 : 2 * ((k + 1 : ℕ) : ℝ) * Real.pi / n = t + δ := by rw [ht, hδ]; push_cast; ring
  simp only [quadAt, revolved, oz_rotate, meridian_get (show i ≤ nt by omega), meridian_get (show i + 1 ≤ nt by omega), h1, h2, Real.sin_sub,
    Real.sin_add, Real.cos_sub, Real.cos_add, Prod.mk.injEq]
  refine ⟨?_, ?_, ?_, ?_⟩ <;> ext <;> simp <;> first | ring1 | (left; ring1)

/-- **C56**: the panels of a sphere respect the requested maximal radius. -/
theorem sphere_radius {R r : ℝ} {center : V3 ℝ} {res : ℕ × ℕ} {m : Mesh (V3 ℝ)} (hR : 0 < R) (hr : 0 < r) (h1 : 0 < res.1)
    (h2 : 0 < res.2) (h : meshSphere R center res (some r) = some m) : m.RadiusAtMost r := by
  obtain ⟨p1, p2, hd⟩ := sphere_resolution hR hr h1 h2
  unfold meshSphere at h
  simp only at h
  set n := sphereResolution R res (some r)
  split at h
  · exact absurd h (by simp)
  rename_i t ht
  obtain ⟨m', hm', rfl⟩ := Option.map_eq_some_iff.1 h
  obtain ⟨m2, q1, _, _, q4⟩ := revolution_panels oz_unit ht
  rw [hm'] at q1
  injection q1 with q1
  subst q1
  refine radius_move (isometry_translate center) ?_
  intro p ρ hp ha
  obtain ⟨s, hs, c, hc, rfl, rfl⟩ := faceProps_mem.1 hp
  rw [q4] at hs
  simp only [List.mem_flatMap, List.mem_map, List.mem_range] at hs
  obtain ⟨k, hk, i, hi, rfl⟩ := hs
  simp only [Option.some.injEq] at hc
  subst hc
  have hi' : i < n.1 := by simpa [meridian] using hi
  have hn2 : (1 : ℝ) ≤ n.2 := by exact_mod_cast p2
  have hn1 : (0 : ℝ) < n.1 := by exact_mod_cast p1
  have hδ0 : 0 ≤ Real.pi / n.2 := by positivity
  have hδ1 : Real.pi / n.2 ≤ Real.pi := div_le_self Real.pi_pos.le hn2
  have hsδ := Real.sin_nonneg_of_nonneg_of_le_pi hδ0 hδ1
  have s1 : 0 ≤ Real.sin (linspace 0 Real.pi n.1 i) :=
    Real.sin_nonneg_of_nonneg_of_le_pi (linspace_nonneg Real.pi_pos.le _ _) (linspace_le Real.pi_pos.le (by omega))
  have s2 : 0 ≤ Real.sin (linspace 0 Real.pi n.1 (i + 1)) :=
    Real.sin_nonneg_of_nonneg_of_le_pi (linspace_nonneg Real.pi_pos.le _ _) (linspace_le Real.pi_pos.le (by omega))
  have ht := sphere_trapezoid R n.2 (k := k) hi'
  simp only [panelOf] at ha ⊢
  rw [if_neg (by simp)] at ha ⊢
  rw [trapezoid_radius (by positivity) (by positivity) ht ha]
  have hB : ∀ x, 2 * (R * Real.sin x) * Real.sin (Real.pi / n.2) ≤ 2 * Real.pi * R / n.2 ∨ Real.sin x < 0 := by
    intro x
    rcases lt_or_ge (Real.sin x) 0 with hx | hx
    · exact Or.inr hx
    · left
      have := chord_le (R := R) (ρ := R * Real.sin x) (by positivity) (by nlinarith [Real.sin_le_one x]) hδ0
      calc _ ≤ _ := this
        _ = _ := by ring
  refine trapezoid_le (B := 2 * Real.pi * R / n.2) (by positivity) (by positivity) ((hB _).resolve_right (not_lt.2 s1))
    ((hB _).resolve_right (not_lt.2 s2)) hr.le ?_
  have hsq := halfDiagonal_sq (2 * Real.pi * R / n.1) (2 * Real.pi * R / n.2)
  have hle : halfDiagonal (2 * Real.pi * R / n.1) (2 * Real.pi * R / n.2) ^ 2 ≤ r ^ 2 := by
    have := halfDiagonal_nonneg (2 * Real.pi * R / n.1) (2 * Real.pi * R / n.2)
    gcongr
  rw [Real.sq_sqrt (by positivity)]
  have hc1 := Real.cos_sq_le_one (Real.pi / n.2)
  set a := linspace 0 Real.pi n.1 i
  have hb : linspace 0 Real.pi n.1 (i + 1) = a + Real.pi / n.1 := by rw [linspace_succ, sub_zero]
  rw [hb]
  set e := Real.pi / n.1 with he
  have he0 : 0 ≤ e := by positivity
  have hchord : (R * Real.sin (a + e) - R * Real.sin a) ^ 2 + (R * Real.cos (a + e) - R * Real.cos a) ^ 2 ≤ (R * e) ^ 2 := by
    have c1 := Real.one_sub_sq_div_two_le_cos (x := e)
    have c2 : (R * Real.sin (a + e) - R * Real.sin a) ^ 2 + (R * Real.cos (a + e) - R * Real.cos a) ^ 2 =
        R ^ 2 * (2 - 2 * Real.cos e) := by
      have x1 := Real.sin_sq_add_cos_sq a
      have x2 := Real.sin_sq_add_cos_sq e
      rw [Real.sin_add, Real.cos_add]
      linear_combination (R ^ 2 * (Real.sin e ^ 2 + Real.cos e ^ 2 + 1 - 2 * Real.cos e)) * x1 + R ^ 2 * x2
    rw [c2]
    nlinarith [sq_nonneg R]
  have hD : 2 * Real.pi * R / n.1 = 2 * (R * e) := by rw [he]; ring
  rw [hD] at hsq hle
  rw [hsq] at hle
  have hX : (R * Real.sin (a + e) - R * Real.sin a) ^ 2 * Real.cos (Real.pi / n.2) ^ 2 ≤ (R * Real.sin (a + e) - R * Real.sin a) ^ 2 :=
    mul_le_of_le_one_right (sq_nonneg _) hc1
  nlinarith [sq_nonneg (R * e)]

end Verif.Meshes
