import Verif.Geometry.AlignProps
import Verif.Meshes.GridProps
import Verif.Meshes.HydroProps

/-!
# C56: the requested maximal radius of the panels

All the panels of the predefined meshes are isosceles trapezoids. Their radius is computed, and compared with the
requested one after the choice of the resolution.
-/

namespace Verif.Meshes

open Verif.Geometry V3

/-! ## Specification -/

/-- All the panels that are not degenerate have a radius at most `r`, as read in `faces_radiuses`. -/
def Mesh.RadiusAtMost (m : Mesh (V3 ℝ)) (r : ℝ) : Prop :=
  ∀ p ρ, some (p, ρ) ∈ m.faceProps → p.area ≠ 0 → ρ ≤ r

/-- An isosceles trapezoid with bases `b1` and `b2` and height `h`, with its two corners on the first base first. -/
def Trapezoid (b1 b2 h : ℝ) (c : V3 ℝ × V3 ℝ × V3 ℝ × V3 ℝ) : Prop :=
  ∃ M H u : V3 ℝ, dot u u = 1 ∧ dot u H = 0 ∧ norm H = h ∧
    c = (M - (b1 / 2) • u, M + (b1 / 2) • u, M + H + (b2 / 2) • u, M + H - (b2 / 2) • u)

/-! ## The radius of a trapezoid -/

theorem quad_kept_of_area {p0 p1 p2 p3 : V3 ℝ} (h : (quadPanel p0 p1 p2 p3).area ≠ 0) :
    1e-12 ≤ norm (cross (p2 - p0) (p3 - p1)) := by
  by_contra hn
  push Not at hn
  apply h
  unfold quadPanel
  simp only
  rw [if_pos (by rwa [abs_of_nonneg (norm_nonneg _)])]
  rfl

theorem norm_cross_unit {u H : V3 ℝ} (hu : dot u u = 1) (huH : dot u H = 0) : norm (cross u H) = norm H := by
  have h := norm_sq_cross u H
  rw [hu, huH, ← norm_sq] at h
  have h1 := norm_nonneg (cross u H)
  have h2 := norm_nonneg H
  nlinarith

theorem dist_sq {u H : V3 ℝ} (hu : dot u u = 1) (huH : dot u H = 0) (a b : ℝ) :
    norm (a • H + b • u) = √(b ^ 2 + a ^ 2 * norm H ^ 2) := by
  rw [norm_sq]
  unfold V3.norm
  congr 1
  simp only [dot, add_x, add_y, add_z, smul_x, smul_y, smul_z] at *
  linear_combination (b ^ 2) * hu + (2 * a * b) * huH

/-- The center and the radius of an isosceles trapezoid, whatever base comes first. -/
theorem trapezoid_center {M H u : V3 ℝ} {b1 b2 : ℝ} (hu : dot u u = 1) (huH : dot u H = 0) (hb1 : 0 ≤ b1) (hb2 : 0 ≤ b2)
    (hk : 1e-12 ≤ (b1 + b2) * norm H) :
    (quadPanel (M - (b1 / 2) • u) (M + (b1 / 2) • u) (M + H + (b2 / 2) • u) (M + H - (b2 / 2) • u)).center =
      M + ((b1 + 2 * b2) / (3 * (b1 + b2))) • H ∧
    (quadPanel (M + H - (b2 / 2) • u) (M - (b1 / 2) • u) (M + (b1 / 2) • u) (M + H + (b2 / 2) • u)).center =
      M + ((b1 + 2 * b2) / (3 * (b1 + b2))) • H := by
  have hb : b1 + b2 ≠ 0 := by
    intro h0
    rw [h0] at hk
    norm_num at hk
  have hbp : 0 < b1 + b2 := lt_of_le_of_ne (by linarith) (Ne.symm hb)
  set α := b1 / (b1 + b2) with hα
  set γ := b2 / (b1 + b2) with hγ
  have hα0 : 0 ≤ α := div_nonneg hb1 hbp.le
  have hγ0 : 0 ≤ γ := div_nonneg hb2 hbp.le
  have hs : α + γ = 1 := by rw [hα, hγ]; field_simp
  have hab : α * (b1 + b2) = b1 := by rw [hα]; field_simp
  have hgb : γ * (b1 + b2) = b2 := by rw [hγ]; field_simp
  have hc : norm (cross (H + ((b1 + b2) / 2) • u) (H - ((b1 + b2) / 2) • u)) = (b1 + b2) * norm H := by
    rw [show cross (H + ((b1 + b2) / 2) • u) (H - ((b1 + b2) / 2) • u) = (b1 + b2) • cross u H by
      ext <;> simp <;> ring, norm_smul, norm_cross_unit hu huH, abs_of_pos hbp]
  have hc' : norm (cross (-(H - ((b1 + b2) / 2) • u)) (H + ((b1 + b2) / 2) • u)) = (b1 + b2) * norm H := by
    rw [show cross (-(H - ((b1 + b2) / 2) • u)) (H + ((b1 + b2) / 2) • u) = (b1 + b2) • cross u H by
      ext <;> simp <;> ring, norm_smul, norm_cross_unit hu huH, abs_of_pos hbp]
  have e0 : M - (b1 / 2) • u = (M + α • H) - α • (H + ((b1 + b2) / 2) • u) := by
    ext <;> simp
    · linear_combination (1 / 2 * u.x) * hab
    · linear_combination (1 / 2 * u.y) * hab
    · linear_combination (1 / 2 * u.z) * hab
  have e1 : M + (b1 / 2) • u = (M + α • H) - α • (H - ((b1 + b2) / 2) • u) := by
    ext <;> simp
    · linear_combination (-1 / 2 * u.x) * hab
    · linear_combination (-1 / 2 * u.y) * hab
    · linear_combination (-1 / 2 * u.z) * hab
  have e2 : M + H + (b2 / 2) • u = (M + α • H) + γ • (H + ((b1 + b2) / 2) • u) := by
    ext <;> simp
    · linear_combination (-H.x) * hs - (1 / 2 * u.x) * hgb
    · linear_combination (-H.y) * hs - (1 / 2 * u.y) * hgb
    · linear_combination (-H.z) * hs - (1 / 2 * u.z) * hgb
  have e3 : M + H - (b2 / 2) • u = (M + α • H) + γ • (H - ((b1 + b2) / 2) • u) := by
    ext <;> simp
    · linear_combination (-H.x) * hs + (1 / 2 * u.x) * hgb
    · linear_combination (-H.y) * hs + (1 / 2 * u.y) * hgb
    · linear_combination (-H.z) * hs + (1 / 2 * u.z) * hgb
  have hl : α + 2 / 3 * (γ - α) = (b1 + 2 * b2) / (3 * (b1 + b2)) := by
    rw [hα, hγ]; field_simp; ring
  constructor
  · rw [e0, e1, e2, e3, convex_panel _ _ _ α α γ γ hα0 hα0 hγ0 hγ0 (by rw [hc, hs]; linarith), ← hl]
    ext <;> simp <;> ring
  · have f3 : (M + α • H) + γ • (H - ((b1 + b2) / 2) • u) = (M + α • H) - γ • (-(H - ((b1 + b2) / 2) • u)) := by
      ext <;> simp <;> ring
    have f1 : (M + α • H) - α • (H - ((b1 + b2) / 2) • u) = (M + α • H) + α • (-(H - ((b1 + b2) / 2) • u)) := by
      ext <;> simp <;> ring
    rw [e0, e1, e2, e3, f3, f1, convex_panel _ _ _ γ α α γ hγ0 hα0 hα0 hγ0 (by rw [hc', add_comm γ α, hs]; linarith), ← hl]
    ext <;> simp <;> ring

/-- The radius of an isosceles trapezoid, as computed by the code. -/
theorem trapezoid_radius {b1 b2 h : ℝ} {c : V3 ℝ × V3 ℝ × V3 ℝ × V3 ℝ} (hb1 : 0 ≤ b1) (hb2 : 0 ≤ b2)
    (hc : Trapezoid b1 b2 h c) (ha : (quadPanel c.1 c.2.1 c.2.2.1 c.2.2.2).area ≠ 0) :
    radiusOf (quadPanel c.1 c.2.1 c.2.2.1 c.2.2.2).center c =
      max (√((b1 / 2) ^ 2 + ((b1 + 2 * b2) / (3 * (b1 + b2))) ^ 2 * h ^ 2))
        (√((b2 / 2) ^ 2 + ((2 * b1 + b2) / (3 * (b1 + b2))) ^ 2 * h ^ 2)) := by
  obtain ⟨M, H, u, hu, huH, rfl, rfl⟩ := hc
  have hk := quad_kept_of_area ha
  simp only at hk ha ⊢
  rw [show cross (M + H + (b2 / 2) • u - (M - (b1 / 2) • u)) (M + H - (b2 / 2) • u - (M + (b1 / 2) • u)) =
    (b1 + b2) • cross u H by ext <;> simp <;> ring, norm_smul, norm_cross_unit hu huH,
    abs_of_nonneg (by linarith)] at hk
  rw [(trapezoid_center hu huH hb1 hb2 hk).1]
  have hb : b1 + b2 ≠ 0 := by
    intro h0
    rw [h0] at hk
    norm_num at hk
  set l := (b1 + 2 * b2) / (3 * (b1 + b2)) with hl
  have hl' : (2 * b1 + b2) / (3 * (b1 + b2)) = 1 - l := by rw [hl]; field_simp; ring
  rw [hl']
  unfold radiusOf
  simp only
  rw [show M + l • H - (M - (b1 / 2) • u) = l • H + (b1 / 2) • u by ext <;> simp <;> ring,
    show M + l • H - (M + (b1 / 2) • u) = l • H + (-(b1 / 2)) • u by ext <;> simp <;> ring,
    show M + l • H - (M + H + (b2 / 2) • u) = (-(1 - l)) • H + (-(b2 / 2)) • u by ext <;> simp <;> ring,
    show M + l • H - (M + H - (b2 / 2) • u) = (-(1 - l)) • H + (b2 / 2) • u by ext <;> simp <;> ring,
    dist_sq hu huH, dist_sq hu huH, dist_sq hu huH, dist_sq hu huH]
  simp only [neg_sq, max_self]

/-- The same trapezoid starting from a side between the bases. -/
theorem trapezoid_radius_rolled {b1 b2 h : ℝ} {c : V3 ℝ × V3 ℝ × V3 ℝ × V3 ℝ} (hb1 : 0 ≤ b1) (hb2 : 0 ≤ b2)
    (hc : Trapezoid b1 b2 h c) (ha : (quadPanel c.2.2.2 c.1 c.2.1 c.2.2.1).area ≠ 0) :
    radiusOf (quadPanel c.2.2.2 c.1 c.2.1 c.2.2.1).center (c.2.2.2, c.1, c.2.1, c.2.2.1) =
      max (√((b1 / 2) ^ 2 + ((b1 + 2 * b2) / (3 * (b1 + b2))) ^ 2 * h ^ 2))
        (√((b2 / 2) ^ 2 + ((2 * b1 + b2) / (3 * (b1 + b2))) ^ 2 * h ^ 2)) := by
  obtain ⟨M, H, u, hu, huH, rfl, rfl⟩ := hc
  have hk := quad_kept_of_area ha
  simp only at hk ha ⊢
  rw [show cross (M + (b1 / 2) • u - (M + H - (b2 / 2) • u)) (M + H + (b2 / 2) • u - (M - (b1 / 2) • u)) =
    (b1 + b2) • cross u H by ext <;> simp <;> ring, norm_smul, norm_cross_unit hu huH,
    abs_of_nonneg (by linarith)] at hk
  rw [(trapezoid_center hu huH hb1 hb2 hk).2]
  have hb : b1 + b2 ≠ 0 := by
    intro h0
    rw [h0] at hk
    norm_num at hk
  set l := (b1 + 2 * b2) / (3 * (b1 + b2)) with hl
  have hl' : (2 * b1 + b2) / (3 * (b1 + b2)) = 1 - l := by rw [hl]; field_simp; ring
  rw [hl']
  unfold radiusOf
  simp only
  rw [show M + l • H - (M - (b1 / 2) • u) = l • H + (b1 / 2) • u by ext <;> simp <;> ring,
    show M + l • H - (M + (b1 / 2) • u) = l • H + (-(b1 / 2)) • u by ext <;> simp <;> ring,
    show M + l • H - (M + H + (b2 / 2) • u) = (-(1 - l)) • H + (-(b2 / 2)) • u by ext <;> simp <;> ring,
    show M + l • H - (M + H - (b2 / 2) • u) = (-(1 - l)) • H + (b2 / 2) • u by ext <;> simp <;> ring,
    dist_sq hu huH, dist_sq hu huH, dist_sq hu huH, dist_sq hu huH]
  simp only [neg_sq]
  rw [max_comm (√((b2 / 2) ^ 2 + (1 - l) ^ 2 * norm H ^ 2)), max_assoc, max_comm (√((b2 / 2) ^ 2 + _)) (max _ _), max_assoc]
  simp

/-- Any bound on the squares bounds the radius. -/
theorem trapezoid_le {b1 b2 h B r : ℝ} (hb1 : 0 ≤ b1) (hb2 : 0 ≤ b2) (h1 : b1 ≤ B) (h2 : b2 ≤ B)
    (hr : 0 ≤ r) (hB : B ^ 2 / 4 + 4 / 9 * h ^ 2 ≤ r ^ 2) :
    max (√((b1 / 2) ^ 2 + ((b1 + 2 * b2) / (3 * (b1 + b2))) ^ 2 * h ^ 2))
        (√((b2 / 2) ^ 2 + ((2 * b1 + b2) / (3 * (b1 + b2))) ^ 2 * h ^ 2)) ≤ r := by
  have key : ∀ x y : ℝ, 0 ≤ x → 0 ≤ y → x ≤ B → √((x / 2) ^ 2 + ((x + 2 * y) / (3 * (x + y))) ^ 2 * h ^ 2) ≤ r := by
    intro x y hx hy hxB
    rw [Real.sqrt_le_left hr]
    have hl : ((x + 2 * y) / (3 * (x + y))) ^ 2 ≤ 4 / 9 := by
      have h0 : 0 ≤ (x + 2 * y) / (3 * (x + y)) := by positivity
      have h1 : (x + 2 * y) / (3 * (x + y)) ≤ 2 / 3 := by
        rcases eq_or_lt_of_le (add_nonneg hx hy) with h | h
        · rw [← h]; norm_num
        · rw [div_le_iff₀ (by positivity)]; linarith
      nlinarith
    have h3 : ((x + 2 * y) / (3 * (x + y))) ^ 2 * h ^ 2 ≤ 4 / 9 * h ^ 2 := mul_le_mul_of_nonneg_right hl (sq_nonneg h)
    have h4 : (x / 2) ^ 2 ≤ B ^ 2 / 4 := by nlinarith
    linarith
  refine max_le (key b1 b2 hb1 hb2 h1) ?_
  have := key b2 b1 hb2 hb1 h2
  rwa [show b2 + 2 * b1 = 2 * b1 + b2 by ring, add_comm b2 b1] at this

/-- The radius of a rectangle is half its diagonal. -/
theorem rectangle_radius_eq {b h : ℝ} {c : V3 ℝ × V3 ℝ × V3 ℝ × V3 ℝ} (hb : 0 ≤ b)
    (hc : Trapezoid b b h c) (ha : (quadPanel c.1 c.2.1 c.2.2.1 c.2.2.2).area ≠ 0) :
    radiusOf (quadPanel c.1 c.2.1 c.2.2.1 c.2.2.2).center c = halfDiagonal b h := by
  rw [trapezoid_radius hb hb hc ha]
  have hb0 : b ≠ 0 := by
    rintro rfl
    obtain ⟨M, H, u, hu, huH, rfl, rfl⟩ := hc
    have hk := quad_kept_of_area ha
    simp only at hk
    rw [norm_eq_zero.2 (by ext <;> simp <;> ring)] at hk
    norm_num at hk
  rw [show (b + 2 * b) / (3 * (b + b)) = 1 / 2 by field_simp; ring, show (2 * b + b) / (3 * (b + b)) = 1 / 2 by field_simp; ring,
    max_self, halfDiagonal]
  rw [show (b / 2) ^ 2 + (1 / 2) ^ 2 * h ^ 2 = (b ^ 2 + h ^ 2) / 2 ^ 2 by ring, Real.sqrt_div' _ (by norm_num),
    Real.sqrt_sq (by norm_num)]

/-! ## Motions of meshes -/

theorem faceProps_mem {m : Mesh (V3 ℝ)} {p : Panel} {ρ : ℝ} : some (p, ρ) ∈ m.faceProps ↔
    ∃ s ∈ m.shapes, ∃ c, s.2 = some c ∧ p = panelOf s.1 c ∧ ρ = radiusOf (panelOf s.1 c).center c := by
  rw [faceProps_shapes, List.mem_map]
  constructor
  · rintro ⟨s, hs, h⟩
    obtain ⟨c, hc, h⟩ := Option.map_eq_some_iff.1 h
    exact ⟨s, hs, c, hc, (Prod.ext_iff.1 h).1.symm, (Prod.ext_iff.1 h).2.symm⟩
  · rintro ⟨s, hs, c, hc, rfl, rfl⟩
    exact ⟨s, hs, by rw [hc]; rfl⟩

theorem shapes_move (m : Mesh (V3 ℝ)) (f : V3 ℝ → V3 ℝ) : (m.move f).shapes =
    m.shapes.map fun s => (s.1, s.2.map fun c => (f c.1, f c.2.1, f c.2.2.1, f c.2.2.2)) := by
  unfold Mesh.shapes Mesh.move
  rw [List.map_map]
  refine List.map_congr_left fun F _ => ?_
  simp only [Function.comp, corners_map]

/-- The motions keep the radiuses. -/
theorem radius_move {m : Mesh (V3 ℝ)} {f L : V3 ℝ → V3 ℝ} (h : Isometry f L 1) {r : ℝ} (hm : m.RadiusAtMost r) :
    (m.move f).RadiusAtMost r := by
  intro p ρ hp ha
  obtain ⟨s, hs, c, hc, rfl, rfl⟩ := faceProps_mem.1 hp
  rw [shapes_move] at hs
  obtain ⟨s', hs', rfl⟩ := List.mem_map.1 hs
  obtain ⟨c', hc', rfl⟩ := Option.map_eq_some_iff.1 hc
  have hmv := panelOf_moved h s'.1 c'
  simp only at ha ⊢
  rcases hmv with ⟨_, h2⟩ | ⟨h1, h2⟩
  · rw [h2] at ha
    exact absurd rfl ha
  · rw [h2]
    have := hm _ _ (faceProps_mem.2 ⟨s', hs', c', hc', rfl, rfl⟩) h1.ne'
    unfold radiusOf at this ⊢
    simpa only [Panel.moved, h.sub, h.norm] using this

theorem rotate_null (a : Axis) (ha : a.vector = 0) (θ : ℝ) (p : V3 ℝ) : a.rotatePoint θ p = p := by
  have h : a.rotateVector θ (p - a.point) = p - a.point := by
    rw [rotateVector_eq, ha]
    ext <;> simp
  unfold Axis.rotatePoint
  rw [h]
  ext <;> simp

/-- The rotation that aligns two vectors is a motion. -/
theorem isometry_aligned (center v1 v2 : V3 ℝ) : ∃ L, Isometry (alignedPoint center v1 v2) L 1 := by
  have hid : Isometry (fun p : V3 ℝ => p) id 1 := by
    have := isometry_translate 0
    simpa using this
  have key : ∀ v θ, ∃ L, Isometry ((mkAxis v center).rotatePoint θ) L 1 := by
    intro v θ
    by_cases hv : v = 0
    · refine ⟨id, ?_⟩
      have : (mkAxis v center).rotatePoint θ = fun p => p := by
        funext p
        exact rotate_null _ (by rw [hv]; ext <;> simp [mkAxis]) _ _
      rw [this]
      exact hid
    · exact ⟨_, isometry_rotate _ (mkAxis_unit hv) θ⟩
  unfold alignedPoint alignRotation
  split_ifs
  · exact ⟨id, hid⟩
  · exact key _ _
  · exact key _ _
  · exact key _ _

theorem alignNormal_move {m m' : Mesh (V3 ℝ)} {c n : V3 ℝ} (h : m.alignNormal c n = some m') :
    ∃ f L, Isometry f L 1 ∧ m' = m.move f := by
  unfold Mesh.alignNormal at h
  obtain ⟨p, _, rfl⟩ := Option.map_eq_some_iff.1 h
  obtain ⟨L, hL⟩ := isometry_aligned c p.normal n
  exact ⟨_, L, hL, rfl⟩

/-! ## The choice of the resolution -/

theorem refined_pos {x r : ℝ} (hx : 0 < x) (hr : 0 < r) : 0 < refined x r := by
  unfold refined
  rw [Nat.ceil_pos]
  positivity

theorem refined_le {x r : ℝ} (hx : 0 < x) (hr : 0 < r) : x / refined x r ≤ √2 * r := by
  have h := Nat.le_ceil (x / (√2 * r))
  have hn : (0 : ℝ) < refined x r := by exact_mod_cast refined_pos hx hr
  rw [div_le_iff₀ hn]
  have hs : 0 < √2 * r := by positivity
  rw [div_le_iff₀ hs] at h
  unfold refined
  linarith

theorem halfDiagonal_le {a b r : ℝ} (ha : 0 ≤ a) (hb : 0 ≤ b) (hr : 0 ≤ r) (h1 : a ≤ √2 * r) (h2 : b ≤ √2 * r) :
    halfDiagonal a b ≤ r := by
  unfold halfDiagonal
  have hs : √2 ^ 2 = 2 := Real.sq_sqrt (by norm_num)
  have h : √(a ^ 2 + b ^ 2) ≤ 2 * r := by
    rw [Real.sqrt_le_left (by linarith)]
    have e1 : a ^ 2 ≤ (√2 * r) ^ 2 := by gcongr
    have e2 : b ^ 2 ≤ (√2 * r) ^ 2 := by gcongr
    rw [mul_pow, hs] at e1 e2
    nlinarith
  linarith

theorem halfDiagonal_sq (a b : ℝ) : halfDiagonal a b ^ 2 = (a ^ 2 + b ^ 2) / 4 := by
  unfold halfDiagonal
  rw [div_pow, Real.sq_sqrt (by positivity)]
  norm_num

theorem halfDiagonal_nonneg (a b : ℝ) : 0 ≤ halfDiagonal a b := by
  unfold halfDiagonal
  positivity

/-- **C56**: after the choice of the resolution of a rectangle, half the diagonal of a panel is at most the requested
radius. Without requested radius, or when the given resolution is fine enough, the resolution is unchanged. -/
theorem rectangle_resolution {w h r : ℝ} {res : ℕ × ℕ} (hw : 0 < w) (hh : 0 < h) (hr : 0 < r) (h1 : 0 < res.1) (h2 : 0 < res.2) :
    (let n := rectangleResolution w h res (some r)
     0 < n.1 ∧ 0 < n.2 ∧ halfDiagonal (w / n.1) (h / n.2) ≤ r) ∧
    rectangleResolution w h res none = res ∧
    (halfDiagonal (w / res.1) (h / res.2) ≤ r → rectangleResolution w h res (some r) = res) := by
  refine ⟨?_, rfl, fun hle => by simp only [rectangleResolution, if_neg (not_lt.2 hle)]⟩
  simp only [rectangleResolution]
  split_ifs with hc
  · exact ⟨refined_pos hw hr, refined_pos hh hr, halfDiagonal_le (by positivity) (by positivity) hr.le (refined_le hw hr)
      (refined_le hh hr)⟩
  · exact ⟨h1, h2, not_lt.1 hc⟩

/-- The same for a parallelepiped and its three kinds of sides. -/
theorem box_resolution {w t h r : ℝ} {res : ℕ × ℕ × ℕ} (hw : 0 < w) (ht : 0 < t) (hh : 0 < h) (hr : 0 < r)
    (h1 : 0 < res.1) (h2 : 0 < res.2.1) (h3 : 0 < res.2.2) :
    (let n := boxResolution (w, t, h) res (some r)
     0 < n.1 ∧ 0 < n.2.1 ∧ 0 < n.2.2 ∧ halfDiagonal (t / n.2.1) (h / n.2.2) ≤ r ∧ halfDiagonal (w / n.1) (h / n.2.2) ≤ r ∧
       halfDiagonal (t / n.2.1) (w / n.1) ≤ r) ∧ boxResolution (w, t, h) res none = res := by
  refine ⟨?_, rfl⟩
  simp only [boxResolution]
  split_ifs with hc
  · exact ⟨refined_pos hw hr, refined_pos ht hr, refined_pos hh hr,
      halfDiagonal_le (by positivity) (by positivity) hr.le (refined_le ht hr) (refined_le hh hr),
      halfDiagonal_le (by positivity) (by positivity) hr.le (refined_le hw hr) (refined_le hh hr),
      halfDiagonal_le (by positivity) (by positivity) hr.le (refined_le ht hr) (refined_le hw hr)⟩
  · push Not at hc
    simp only [max_le_iff] at hc
    refine ⟨h1, h2, h3, hc.2.2, hc.1, ?_⟩
    have := hc.2.1
    unfold halfDiagonal at this ⊢
    rwa [add_comm] at this

theorem disk_resolution {R r : ℝ} {res : ℕ × ℕ} (hR : 0 < R) (hr : 0 < r) (h1 : 0 < res.1) (h2 : 0 < res.2) :
    let n := diskResolution R res (some r)
    0 < n.1 ∧ 0 < n.2 ∧ halfDiagonal (R / n.1) (2 * Real.pi * R / n.2) ≤ r :=
  (rectangle_resolution hR (by positivity) hr h1 h2).1

theorem cylinder_resolution {l R r : ℝ} {res n : ℕ × ℕ × ℕ} (hl : 0 < l) (hR : 0 < R) (hr : 0 < r)
    (h : cylinderResolution l R res (some r) = some n) :
    0 < n.1 ∧ 0 < n.2.1 ∧ 0 < n.2.2 ∧ halfDiagonal (R / n.1) (2 * Real.pi * R / n.2.1) ≤ r ∧
      halfDiagonal (2 * Real.pi * R / n.2.1) (l / n.2.2) ≤ r := by
  simp only [cylinderResolution] at h
  split_ifs at h with h0 hc
  · injection h with h
    subst h
    have hpi : 0 < Real.pi * R := by positivity
    have hθ : 2 * Real.pi * R / ((2 * refined (Real.pi * R) r : ℕ) : ℝ) ≤ √2 * r := by
      have := refined_le hpi hr
      push_cast
      rwa [show 2 * Real.pi * R = 2 * (Real.pi * R) by ring, mul_div_mul_left _ _ (by norm_num)]
    have hp := refined_pos hpi hr
    exact ⟨refined_pos hR hr, by simp only; omega, refined_pos hl hr,
      halfDiagonal_le (by positivity) (by positivity) hr.le (refined_le hR hr) hθ,
      halfDiagonal_le (by positivity) (by positivity) hr.le hθ (refined_le hl hr)⟩
  · injection h with h
    subst h
    push Not at h0 hc
    simp only [max_le_iff] at hc
    exact ⟨Nat.pos_of_ne_zero h0.1, Nat.pos_of_ne_zero h0.2.1, Nat.pos_of_ne_zero h0.2.2, hc.1, hc.2⟩

theorem sphere_resolution {R r : ℝ} {res : ℕ × ℕ} (hR : 0 < R) (hr : 0 < r) (h1 : 0 < res.1) (h2 : 0 < res.2) :
    let n := sphereResolution R res (some r)
    0 < n.1 ∧ 0 < n.2 ∧ halfDiagonal (2 * Real.pi * R / n.1) (2 * Real.pi * R / n.2) ≤ r :=
  (rectangle_resolution (w := 2 * Real.pi * R) (h := 2 * Real.pi * R) (by positivity) (by positivity) hr h1 h2).1

/-! ## Rectangles -/

theorem linspace_succ (a b : ℝ) (n k : ℕ) : linspace a b n (k + 1) = linspace a b n k + (b - a) / n := by
  unfold linspace
  push_cast
  ring

/-- The panels of an array of rectangles. -/
theorem rectangle_trapezoid (w h : ℝ) (nw nh i j : ℕ) (hw : 0 ≤ w) :
    Trapezoid (h / nh) (h / nh) (w / nw) (quadAt (rectangleNode w h nw nh) i j) := by
  refine ⟨⟨0, linspace (-w / 2) (w / 2) nw i, linspace (-h / 2) (h / 2) nh j + h / nh / 2⟩, ⟨0, w / nw, 0⟩, ⟨0, 0, 1⟩,
    by simp [dot], by simp [dot], ?_, ?_⟩
  · have : dot (⟨0, w / nw, 0⟩ : V3 ℝ) ⟨0, w / nw, 0⟩ = (w / nw) ^ 2 := by simp [dot]; ring
    rw [V3.norm, this, Real.sqrt_sq (by positivity)]
  · simp only [quadAt, rectangleNode, linspace_succ, Prod.mk.injEq]
    refine ⟨?_, ?_, ?_, ?_⟩ <;> ext <;> simp <;> ring

theorem radius_of_trapezoids {R n : ℕ} {P : ℕ → ℕ → V3 ℝ} {r : ℝ}
    (h : ∀ i < R, ∀ j < n, (quadPanel (quadAt P i j).1 (quadAt P i j).2.1 (quadAt P i j).2.2.1 (quadAt P i j).2.2.2).area ≠ 0 →
      radiusOf (quadPanel (quadAt P i j).1 (quadAt P i j).2.1 (quadAt P i j).2.2.1 (quadAt P i j).2.2.2).center (quadAt P i j) ≤ r) :
    (gridMesh R n P).RadiusAtMost r := by
  intro p ρ hp ha
  obtain ⟨s, hs, c, hc, rfl, rfl⟩ := faceProps_mem.1 hp
  rw [grid_shapes] at hs
  simp only [List.mem_flatMap, List.mem_map, List.mem_range] at hs
  obtain ⟨i, hi, j, hj, rfl⟩ := hs
  simp only [Option.some.injEq] at hc
  subst hc
  exact h i hi j hj ha

/-- **C56**: the panels of a rectangle respect the requested maximal radius. -/
theorem rectangle_radius {size : ℝ × ℝ} {center normal : V3 ℝ} {res : ℕ × ℕ} {r : ℝ} {m : Mesh (V3 ℝ)} (hr : 0 < r)
    (h : meshRectangle size center res (some r) normal = some m) : m.RadiusAtMost r := by
  unfold meshRectangle at h
  split_ifs at h with hp
  obtain ⟨hw, hh, h1, h2⟩ := hp
  obtain ⟨n1, n2, hn⟩ := (rectangle_resolution hw hh hr h1 h2).1
  obtain ⟨f, L, hf, rfl⟩ := alignNormal_move h
  refine radius_move hf (radius_move (isometry_translate center) ?_)
  refine radius_of_trapezoids fun i _ j _ ha => ?_
  rw [rectangle_radius_eq (by positivity) (rectangle_trapezoid _ _ _ _ i j hw.le) ha]
  have := hn
  unfold halfDiagonal at this ⊢
  rwa [add_comm] at this

/-- **C56**: a rectangle has the requested number of panels, more exactly the product of the numbers chosen from the
maximal radius, and they refer to existing vertices. -/
theorem rectangle_panels {size : ℝ × ℝ} {center normal : V3 ℝ} {res : ℕ × ℕ} {r : Option ℝ} {m : Mesh (V3 ℝ)}
    (h : meshRectangle size center res r normal = some m) :
    m.faces.length = (rectangleResolution size.1 size.2 res r).1 * (rectangleResolution size.1 size.2 res r).2 ∧ m.Valid ∧
      (r = none → m.faces.length = res.1 * res.2) := by
  unfold meshRectangle at h
  split_ifs at h with hp
  obtain ⟨f, L, hf, rfl⟩ := alignNormal_move h
  have hw := grid_well_formed (rectangleResolution size.1 size.2 res r).1 (rectangleResolution size.1 size.2 res r).2
    (rectangleNode size.1 size.2 (rectangleResolution size.1 size.2 res r).1 (rectangleResolution size.1 size.2 res r).2)
  refine ⟨hw.1, ?_, ?_⟩
  · intro F hF i hi
    have := hw.2.2.1 F hF i hi
    simpa [Mesh.move, Mesh.translate] using this
  · rintro rfl
    exact hw.1

end Verif.Meshes
