import Verif.Meshes.PanelProps

/-!
# Panels of moved meshes

The geometric properties of the panels of a translated, rotated or mirrored mesh.
-/

namespace Verif.Meshes

open Verif.Geometry V3

/-- An isometry `p ↦ L p + t` keeping (`s = 1`) or reversing (`s = -1`) orientation. -/
structure Isometry (f L : V3 ℝ → V3 ℝ) (s : ℝ) : Prop where
  point : ∀ p, f p = L p + f 0
  add : ∀ v w, L (v + w) = L v + L w
  smul : ∀ (c : ℝ) v, L (c • v) = c • L v
  dot : ∀ v w, V3.dot (L v) (L w) = V3.dot v w
  cross : ∀ v w, V3.cross (L v) (L w) = s • L (V3.cross v w)
  sign : s = 1 ∨ s = -1

namespace Isometry

variable {f L : V3 ℝ → V3 ℝ} {s : ℝ}

theorem zero (h : Isometry f L s) : L 0 = 0 := by
  have := h.smul 0 0
  rw [zero_smul', zero_smul'] at this
  exact this

theorem sub (h : Isometry f L s) (p q : V3 ℝ) : f p - f q = L (p - q) := by
  have e : p - q = p + (-1 : ℝ) • q := by ext <;> simp <;> ring
  rw [h.point p, h.point q, e, h.add, h.smul]
  ext <;> simp <;> ring

theorem norm (h : Isometry f L s) (v : V3 ℝ) : V3.norm (L v) = V3.norm v := norm_of_dot (h.dot v v)

theorem norm_cross (h : Isometry f L s) (v w : V3 ℝ) :
    V3.norm (V3.cross (L v) (L w)) = V3.norm (V3.cross v w) := by
  rw [h.cross, norm_smul, h.norm]
  rcases h.sign with rfl | rfl <;> simp

theorem kept (h : Isometry f L s) (v w : V3 ℝ) :
    Kept (V3.cross (L v) (L w)) ↔ Kept (V3.cross v w) := by
  unfold Kept
  rw [h.norm_cross]

theorem mean (h : Isometry f L s) (p q r : V3 ℝ) :
    (1 / 3 : ℝ) • (f p + f q + f r) = f ((1 / 3 : ℝ) • (p + q + r)) := by
  rw [h.point p, h.point q, h.point r, h.point ((1 / 3 : ℝ) • (p + q + r)), h.smul, h.add, h.add]
  ext <;> simp <;> ring

theorem bary (h : Isometry f L s) (a b : ℝ) (hab : a + b ≠ 0) (p q : V3 ℝ) :
    (1 / (a + b)) • (a • f p + b • f q) = f ((1 / (a + b)) • (a • p + b • q)) := by
  rw [h.point p, h.point q, h.point ((1 / (a + b)) • (a • p + b • q)), h.smul, h.add, h.smul, h.smul]
  ext <;> simp <;> field_simp <;> ring

end Isometry

/-- The panel moved by an isometry. -/
def Panel.moved (f L : V3 ℝ → V3 ℝ) (p : Panel) : Panel := ⟨p.area, L p.normal, f p.center⟩

/-- Degenerate triangles stay degenerate, the others are moved. -/
theorem triangle_moved {f L : V3 ℝ → V3 ℝ} {s : ℝ} (h : Isometry f L s) (p0 p1 p2 : V3 ℝ) :
    (trianglePanel p0 p1 p2 = .null ∧ trianglePanel (f p0) (f p1) (f p2) = .null) ∨
    (0 < (trianglePanel p0 p1 p2).area ∧ trianglePanel (f p0) (f p1) (f p2) =
      ⟨(trianglePanel p0 p1 p2).area, s • L (trianglePanel p0 p1 p2).normal,
        f (trianglePanel p0 p1 p2).center⟩) := by
  by_cases hk : Kept (cross (p1 - p0) (p2 - p0))
  · right
    have hk' : Kept (cross (f p1 - f p0) (f p2 - f p0)) := by
      rw [h.sub, h.sub]; exact (h.kept _ _).2 hk
    rw [triangle_kept hk, triangle_kept hk', h.sub, h.sub, h.norm_cross, h.cross]
    refine ⟨by have := kept_pos hk; simp only; linarith, ?_⟩
    congr 1
    · simp only [h.smul, smul_smul']; congr 1; ring
    · exact h.mean _ _ _
  · left
    have hk' : ¬ Kept (cross (f p1 - f p0) (f p2 - f p0)) := by
      rw [h.sub, h.sub]; exact fun hh => hk ((h.kept _ _).1 hh)
    exact ⟨triangle_null hk, triangle_null hk'⟩

theorem quad_area_pos {p0 p1 p2 p3 : V3 ℝ} (hk : Kept (cross (p2 - p0) (p3 - p1))) :
    0 < norm (cross (p1 - p0) (p2 - p0)) * 0.5 + norm (cross (p3 - p0) (p2 - p0)) * 0.5 := by
  have h1 := norm_nonneg (cross (p1 - p0) (p2 - p0))
  have h2 := norm_nonneg (cross (p3 - p0) (p2 - p0))
  by_contra hc
  have e1 : norm (cross (p1 - p0) (p2 - p0)) = 0 := by linarith
  have e2 : norm (cross (p3 - p0) (p2 - p0)) = 0 := by linarith
  have e : cross (p2 - p0) (p3 - p1) = cross (p1 - p0) (p2 - p0) - cross (p3 - p0) (p2 - p0) := by
    ext <;> simp <;> ring
  have := kept_pos hk
  rw [e, norm_eq_zero.1 e1, norm_eq_zero.1 e2, sub_zero, norm_zero] at this
  exact lt_irrefl _ this

/-- Degenerate quadrangles stay degenerate, the others are moved. -/
theorem quad_moved {f L : V3 ℝ → V3 ℝ} {s : ℝ} (h : Isometry f L s) (p0 p1 p2 p3 : V3 ℝ) :
    (quadPanel p0 p1 p2 p3 = .null ∧ quadPanel (f p0) (f p1) (f p2) (f p3) = .null) ∨
    (0 < (quadPanel p0 p1 p2 p3).area ∧ quadPanel (f p0) (f p1) (f p2) (f p3) =
      ⟨(quadPanel p0 p1 p2 p3).area, s • L (quadPanel p0 p1 p2 p3).normal,
        f (quadPanel p0 p1 p2 p3).center⟩) := by
  by_cases hk : Kept (cross (p2 - p0) (p3 - p1))
  · right
    have hk' : Kept (cross (f p2 - f p0) (f p3 - f p1)) := by
      rw [h.sub, h.sub]; exact (h.kept _ _).2 hk
    have hpos := quad_area_pos hk
    rw [quad_kept hk, quad_kept hk']
    simp only [h.sub, h.norm_cross, h.mean]
    refine ⟨hpos, ?_⟩
    congr 1
    · rw [h.cross, h.smul, smul_smul', smul_smul']; congr 1; ring
    · exact h.bary _ _ hpos.ne' _ _
  · left
    have hk' : ¬ Kept (cross (f p2 - f p0) (f p3 - f p1)) := by
      rw [h.sub, h.sub]; exact fun hh => hk ((h.kept _ _).1 hh)
    exact ⟨quad_null hk, quad_null hk'⟩

/-! ## The three motions -/

theorem isometry_translate (t : V3 ℝ) : Isometry (· + t) id 1 where
  point p := by simp
  add _ _ := rfl
  smul _ _ := rfl
  dot _ _ := rfl
  cross _ _ := by rw [one_smul']; rfl
  sign := .inl rfl

theorem isometry_rotate (a : Axis) (ha : dot a.vector a.vector = 1) (θ : ℝ) :
    Isometry (a.rotatePoint θ) (a.rotateVector θ) 1 where
  point p := by
    have := rotatePoint_sub a θ p 0
    rw [sub_zero] at this
    rw [← this]; abel
  add := rotateVector_add a θ
  smul c v := rotateVector_smul a θ c v
  dot := rotateVector_dot a ha θ
  cross v w := by rw [one_smul']; exact rotateVector_cross a ha θ v w
  sign := .inl rfl

theorem isometry_mirror (P : Plane) (hP : dot P.normal P.normal = 1) :
    Isometry P.mirrorPoint P.mirrorVector (-1) where
  point p := by
    have := mirrorPoint_sub P p 0
    rw [sub_zero] at this
    rw [← this]; abel
  add v w := by ext <;> simp [Plane.mirrorVector, V3.dot] <;> ring
  smul c v := by ext <;> simp [Plane.mirrorVector, V3.dot] <;> ring
  dot := mirrorVector_dot P hP
  cross v w := by rw [mirrorVector_cross P hP]; ext <;> simp
  sign := .inr rfl

/-! ## Meshes -/

/-- Specification: how a panel of the moved mesh is related to the original one. Panels without area
have conventional null properties. -/
def MovedPanel (f L : V3 ℝ → V3 ℝ) (p q : Panel) : Prop :=
  (p = .null ∧ q = .null) ∨ (0 < p.area ∧ q = p.moved f L)

theorem corners_map (f : V3 ℝ → V3 ℝ) (vs : List (V3 ℝ)) (F : Face) :
    corners (vs.map f) F = (corners vs F).map fun c => (f c.1, f c.2.1, f c.2.2.1, f c.2.2.2) := by
  unfold corners
  simp only [List.getElem?_map]
  cases vs[F.a]? <;> cases vs[F.b]? <;> cases vs[F.c]? <;> cases vs[F.d]? <;> rfl

theorem panelAt_eq (m : Mesh (V3 ℝ)) (i : ℕ) : m.panelAt i =
    m.faces[i]?.bind fun F => (corners m.vertices F).map (panelOf F.isTriangle) := by
  unfold Mesh.panelAt Mesh.faceProps faceProperties
  rw [List.getElem?_map]
  cases m.faces[i]? with
  | none => rfl
  | some F => cases h : corners m.vertices F <;> simp [h]

theorem panelOf_moved {f L : V3 ℝ → V3 ℝ} (h : Isometry f L 1) (t : Bool) (c) :
    MovedPanel f L (panelOf t c) (panelOf t (f c.1, f c.2.1, f c.2.2.1, f c.2.2.2)) := by
  unfold MovedPanel panelOf Panel.moved
  cases t
  · have := quad_moved h c.1 c.2.1 c.2.2.1 c.2.2.2
    rw [one_smul'] at this
    exact this
  · have := triangle_moved h c.1 c.2.1 c.2.2.1
    rw [one_smul'] at this
    exact this

theorem vertices_moved {f L : V3 ℝ → V3 ℝ} (h : Isometry f L 1) (m : Mesh (V3 ℝ)) (i : ℕ) (p : Panel)
    (hp : m.panelAt i = some p) :
    ∃ q, (⟨m.vertices.map f, m.faces⟩ : Mesh (V3 ℝ)).panelAt i = some q ∧ MovedPanel f L p q := by
  rw [panelAt_eq] at hp ⊢
  simp only [Option.bind_eq_some_iff, Option.map_eq_some_iff] at hp ⊢
  obtain ⟨F, hF, c, hc, rfl⟩ := hp
  refine ⟨_, ⟨F, hF, (f c.1, f c.2.1, f c.2.2.1, f c.2.2.2), ?_, rfl⟩, panelOf_moved h _ c⟩
  rw [corners_map, hc]; rfl

/-- **C69**: the panels of a translated mesh have the same area and normal; their centers are
translated. -/
theorem translate_panels (m : Mesh (V3 ℝ)) (t : V3 ℝ) (i : ℕ) (p : Panel) (hp : m.panelAt i = some p) :
    ∃ q, (m.translate t).panelAt i = some q ∧ MovedPanel (· + t) id p q :=
  vertices_moved (isometry_translate t) m i p hp

/-- **C69**: the panels of a rotated mesh have the same area; their centers and normals are rotated. -/
theorem rotate_panels (m : Mesh (V3 ℝ)) (a : Axis) (ha : dot a.vector a.vector = 1) (θ : ℝ) (i : ℕ)
    (p : Panel) (hp : m.panelAt i = some p) :
    ∃ q, (m.rotate a θ).panelAt i = some q ∧ MovedPanel (a.rotatePoint θ) (a.rotateVector θ) p q :=
  vertices_moved (isometry_rotate a ha θ) m i p hp

/-- The quadrangles of the mesh are planar and convex; the first corner of triangles is repeated. -/
def Mesh.ConvexPanels (m : Mesh (V3 ℝ)) : Prop := ∀ F ∈ m.faces, F.isTriangle = true ∨
  ∀ c, corners m.vertices F = some c → ConvexQuad c.1 c.2.1 c.2.2.1 c.2.2.2

theorem convex_moved {f L : V3 ℝ → V3 ℝ} {s : ℝ} (h : Isometry f L s) {p0 p1 p2 p3 : V3 ℝ}
    (hc : ConvexQuad p0 p1 p2 p3) : ConvexQuad (f p0) (f p1) (f p2) (f p3) := by
  obtain ⟨o, u, v, α, β, γ, δ, ha, hb, hg, hd, rfl, rfl, rfl, rfl⟩ := hc
  refine ⟨f o, L u, L v, α, β, γ, δ, ha, hb, hg, hd, ?_, ?_, ?_, ?_⟩
  · have := h.sub o (o - α • u)
    rw [show o - (o - α • u) = α • u by ext <;> simp, h.smul] at this
    rw [← this]; abel
  · have := h.sub o (o - β • v)
    rw [show o - (o - β • v) = β • v by ext <;> simp, h.smul] at this
    rw [← this]; abel
  · have := h.sub (o + γ • u) o
    rw [show (o + γ • u) - o = γ • u by ext <;> simp, h.smul] at this
    rw [← this]; abel
  · have := h.sub (o + δ • v) o
    rw [show (o + δ • v) - o = δ • v by ext <;> simp, h.smul] at this
    rw [← this]; abel

theorem flip_isTriangle (F : Face) : F.flip.isTriangle = F.isTriangle := by
  unfold Face.flip Face.isTriangle
  simp only [Bool.beq_eq_decide_eq]
  congr 1
  exact propext eq_comm

theorem corners_flip (vs : List (V3 ℝ)) (F : Face) :
    corners vs F.flip = (corners vs F).map fun c => (c.2.2.2, c.2.2.1, c.2.1, c.1) := by
  unfold corners Face.flip
  simp only
  cases vs[F.a]? <;> cases vs[F.b]? <;> cases vs[F.c]? <;> cases vs[F.d]? <;> rfl

/-- The corner repeated by a triangle. -/
theorem corners_triangle {vs : List (V3 ℝ)} {F : Face} {c} (hc : corners vs F = some c)
    (ht : F.isTriangle = true) : c.2.2.2 = c.1 := by
  have e : F.a = F.d := by simpa [Face.isTriangle] using ht
  unfold corners at hc
  rw [← e] at hc
  split at hc
  · rename_i p0 p1 p2 p3 h0 h1 h2 h3
    rw [h0] at h3
    rw [← Option.some.inj hc]
    exact (Option.some.inj h3).symm
  · cases hc

/-- **C69** for mirrored meshes, when the quadrangles are planar and convex: the panels have the same
area; their centers and normals are mirrored. Missing: warped quadrangles, see
`mirror_panels_violated`. -/
theorem mirror_panels_partial (m : Mesh (V3 ℝ)) (hm : m.ConvexPanels) (P : Plane)
    (hP : dot P.normal P.normal = 1) (i : ℕ) (p : Panel) (hp : m.panelAt i = some p) :
    ∃ q, (m.mirror P).panelAt i = some q ∧ MovedPanel P.mirrorPoint P.mirrorVector p q := by
  have h := isometry_mirror P hP
  rw [panelAt_eq] at hp ⊢
  simp only [Option.bind_eq_some_iff, Option.map_eq_some_iff] at hp ⊢
  obtain ⟨F, hF, c, hc, rfl⟩ := hp
  refine ⟨_, ⟨F.flip, by simp [Mesh.mirror, Mesh.flipNormals, hF],
    (P.mirrorPoint c.2.2.2, P.mirrorPoint c.2.2.1, P.mirrorPoint c.2.1, P.mirrorPoint c.1), ?_, rfl⟩, ?_⟩
  · change corners (m.vertices.map P.mirrorPoint) F.flip = _
    rw [corners_flip, corners_map, hc]; rfl
  · rw [flip_isTriangle]
    have two : ∀ v : V3 ℝ, -((-1 : ℝ) • v) = v := fun v => by ext <;> simp
    by_cases ht : F.isTriangle = true
    · unfold panelOf MovedPanel Panel.moved
      rw [if_pos ht, if_pos ht]
      simp only
      rw [corners_triangle hc ht, triangle_flip (P.mirrorPoint c.1) (P.mirrorPoint c.2.1) (P.mirrorPoint c.2.2.1)]
      rcases triangle_moved h c.1 c.2.1 c.2.2.1 with ⟨h1, h2⟩ | ⟨h1, h2⟩
      · left; rw [h1, h2, reversed_null]; exact ⟨rfl, rfl⟩
      · right; rw [h2]; refine ⟨h1, ?_⟩; unfold Panel.reversed; rw [two]
    · have hcv : ConvexQuad c.1 c.2.1 c.2.2.1 c.2.2.2 := by
        rcases hm F (List.mem_of_getElem? hF) with h' | h'
        · exact absurd h' ht
        · exact h' c hc
      unfold panelOf MovedPanel Panel.moved
      rw [if_neg ht, if_neg ht]
      simp only
      rw [quad_flip_partial _ _ _ _ (convex_moved h hcv)]
      rcases quad_moved h c.1 c.2.1 c.2.2.1 c.2.2.2 with ⟨h1, h2⟩ | ⟨h1, h2⟩
      · left; rw [h1, h2, reversed_null]; exact ⟨rfl, rfl⟩
      · right; rw [h2]; refine ⟨h1, ?_⟩; unfold Panel.reversed; rw [two]

/-- The normals of mirrored panels are mirrored, even for warped quadrangles. -/
theorem mirror_normals (m : Mesh (V3 ℝ)) (P : Plane) (hP : dot P.normal P.normal = 1) (i : ℕ) (p : Panel)
    (hp : m.panelAt i = some p) :
    ∃ q, (m.mirror P).panelAt i = some q ∧ q.normal = P.mirrorVector p.normal := by
  have h := isometry_mirror P hP
  have two : ∀ v : V3 ℝ, -((-1 : ℝ) • v) = v := fun v => by ext <;> simp
  rw [panelAt_eq] at hp ⊢
  simp only [Option.bind_eq_some_iff, Option.map_eq_some_iff] at hp ⊢
  obtain ⟨F, hF, c, hc, rfl⟩ := hp
  refine ⟨_, ⟨F.flip, by simp [Mesh.mirror, Mesh.flipNormals, hF],
    (P.mirrorPoint c.2.2.2, P.mirrorPoint c.2.2.1, P.mirrorPoint c.2.1, P.mirrorPoint c.1), ?_, rfl⟩, ?_⟩
  · change corners (m.vertices.map P.mirrorPoint) F.flip = _
    rw [corners_flip, corners_map, hc]; rfl
  · rw [flip_isTriangle]
    unfold panelOf
    by_cases ht : F.isTriangle = true
    · rw [if_pos ht, if_pos ht]
      simp only
      rw [corners_triangle hc ht, triangle_flip (P.mirrorPoint c.1) (P.mirrorPoint c.2.1) (P.mirrorPoint c.2.2.1)]
      rcases triangle_moved h c.1 c.2.1 c.2.2.1 with ⟨h1, h2⟩ | ⟨h1, h2⟩
      · rw [h1, h2, reversed_null]; exact h.zero.symm
      · rw [h2]; unfold Panel.reversed; exact two _
    · rw [if_neg ht, if_neg ht]
      simp only
      obtain ⟨p0, p1, p2, p3⟩ := c
      simp only
      have e : cross (P.mirrorPoint p1 - P.mirrorPoint p3) (P.mirrorPoint p0 - P.mirrorPoint p2) =
          P.mirrorVector (cross (p2 - p0) (p3 - p1)) := by
        rw [h.sub, h.sub, h.cross, show cross (p1 - p3) (p0 - p2) = (-1 : ℝ) • cross (p2 - p0) (p3 - p1) by
          ext <;> simp <;> ring, h.smul]
        ext <;> simp
      by_cases hk : Kept (cross (p2 - p0) (p3 - p1))
      · have hk' : Kept (cross (P.mirrorPoint p1 - P.mirrorPoint p3) (P.mirrorPoint p0 - P.mirrorPoint p2)) := by
          unfold Kept; rw [e, h.norm]; exact hk
        rw [quad_kept hk, quad_kept hk']
        simp only
        rw [e, h.norm, h.smul]
      · have hk' : ¬ Kept (cross (P.mirrorPoint p1 - P.mirrorPoint p3) (P.mirrorPoint p0 - P.mirrorPoint p2)) := by
          unfold Kept; rw [e, h.norm]; exact hk
        rw [quad_null hk, quad_null hk']
        exact h.zero.symm

/-- **C69 is violated** for warped quadrangles: the mirrored panel has another area. -/
theorem mirror_panels_violated : ∃ (m : Mesh (V3 ℝ)) (P : Plane) (p q : Panel),
    dot P.normal P.normal = 1 ∧ m.panelAt 0 = some p ∧ (m.mirror P).panelAt 0 = some q ∧
    q.area ≠ p.area := by
  obtain ⟨p0, p1, p2, p3, h⟩ := quad_flip_violated
  let P : Plane := ⟨⟨1, 0, 0⟩, 0⟩
  have hP : dot P.normal P.normal = 1 := by simp [P, dot]
  refine ⟨⟨[p0, p1, p2, p3], [⟨0, 1, 2, 3⟩]⟩, P, _, _, hP, rfl, rfl, ?_⟩
  change (quadPanel (P.mirrorPoint p3) (P.mirrorPoint p2) (P.mirrorPoint p1) (P.mirrorPoint p0)).area ≠
    (quadPanel p0 p1 p2 p3).area
  rcases quad_moved (isometry_mirror P hP) p3 p2 p1 p0 with ⟨h1, h2⟩ | ⟨h1, h2⟩
  · rw [h2]; rw [h1] at h; exact h
  · rw [h2]; exact h

/-- Concrete case: a square panel and a triangle, planar and convex. -/
example : (⟨[⟨0, 0, 0⟩, ⟨1, 0, 0⟩, ⟨1, 1, 0⟩, ⟨0, 1, 0⟩], [⟨0, 1, 2, 3⟩, ⟨0, 1, 2, 0⟩]⟩ :
    Mesh (V3 ℝ)).ConvexPanels ∧
    ∃ p, (⟨[⟨0, 0, 0⟩, ⟨1, 0, 0⟩, ⟨1, 1, 0⟩, ⟨0, 1, 0⟩], [⟨0, 1, 2, 3⟩, ⟨0, 1, 2, 0⟩]⟩ :
      Mesh (V3 ℝ)).panelAt 0 = some p := by
  refine ⟨fun F hF => ?_, _, rfl⟩
  simp only [List.mem_cons, List.not_mem_nil, or_false] at hF
  rcases hF with rfl | rfl
  · right
    intro c hc
    rw [← Option.some.inj hc]
    refine ⟨⟨1 / 2, 1 / 2, 0⟩, ⟨1, 1, 0⟩, ⟨-1, 1, 0⟩, 1 / 2, 1 / 2, 1 / 2, 1 / 2, by norm_num, by norm_num,
      by norm_num, by norm_num, ?_, ?_, ?_, ?_⟩ <;> ext <;> simp <;> norm_num
  · left; rfl

end Verif.Meshes
