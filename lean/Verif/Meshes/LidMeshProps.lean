import Verif.Meshes.LidMeshModel
import Verif.Meshes.BoxProps
import Mathlib.Tactic.IntervalCases

/-!
# The mesh of a lid (C88)
-/

namespace Verif.Meshes

open Verif.Geometry V3

/-! ## Specification -/

/-- Seen from above, the point is in the triangle. -/
def InTriangle (q a b c : V3 ℝ) : Prop :=
  ∃ u v w : ℝ, 0 ≤ u ∧ 0 ≤ v ∧ 0 ≤ w ∧ u + v + w = 1 ∧ q.x = u * a.x + v * b.x + w * c.x ∧ q.y = u * a.y + v * b.y + w * c.y

/-- Seen from above, the point is in the panel: in one of the two triangles that share the diagonal from the first
to the third corner. -/
def CoversFromAbove (c : V3 ℝ × V3 ℝ × V3 ℝ × V3 ℝ) (q : V3 ℝ) : Prop :=
  InTriangle q c.1 c.2.1 c.2.2.1 ∨ InTriangle q c.1 c.2.2.1 c.2.2.2

/-- Twice the area of a triangle seen from above, with a sign. -/
def turn (a b c : V3 ℝ) : ℝ := (b.x - a.x) * (c.y - a.y) - (b.y - a.y) * (c.x - a.x)

/-- Seen from above, the panel is convex and turns to the left. A triangle has its first corner at both ends. -/
def LeftConvex (c : V3 ℝ × V3 ℝ × V3 ℝ × V3 ℝ) : Prop :=
  0 ≤ turn c.1 c.2.1 c.2.2.1 ∧ 0 ≤ turn c.1 c.2.2.1 c.2.2.2 ∧ 0 ≤ turn c.2.1 c.2.2.1 c.2.2.2 ∧
    0 ≤ turn c.1 c.2.1 c.2.2.2 ∧ 0 < turn c.1 c.2.1 c.2.2.1 + turn c.1 c.2.2.1 c.2.2.2

/-- The image in the mirror `x = y`. -/
def swapXY (p : V3 ℝ) : V3 ℝ := ⟨p.y, p.x, p.z⟩

/-- Seen from above, the panel is convex and has an area: it is not vertical. -/
def ConvexFromAbove (c : V3 ℝ × V3 ℝ × V3 ℝ × V3 ℝ) : Prop :=
  LeftConvex c ∨ LeftConvex (swapXY c.1, swapXY c.2.1, swapXY c.2.2.1, swapXY c.2.2.2)

open Classical in
/-- The number of panels below a point. -/
noncomputable def crossings (hull : Mesh (V3 ℝ)) (q : V3 ℝ) : ℕ := hull.allCorners.countP fun c => CoversFromAbove c q

/-! ## Lemmas -/

theorem edgeSide_eq (q a b : V3 ℝ) : edgeSide q a b = -turn a b q := by
  unfold edgeSide turn
  ring

theorem above_left {c : V3 ℝ × V3 ℝ × V3 ℝ × V3 ℝ} (h : LeftConvex c) (q : V3 ℝ) : AbovePanel q c ↔ CoversFromAbove c q := by
  obtain ⟨p0, p1, p2, p3⟩ := c
  obtain ⟨h1, h2, h3, h4, h5⟩ := h
  simp only at h1 h2 h3 h4 h5
  unfold AbovePanel CoversFromAbove
  simp only [edgeSides, edgeSide_eq, List.mem_cons, List.not_mem_nil, or_false, forall_eq_or_imp, forall_eq]
  simp only [neg_nonpos, Left.nonneg_neg_iff]
  have s1 : turn p0 p1 q + turn p1 p2 q - turn p0 p2 q = turn p0 p1 p2 := by unfold turn; ring
  have s2 : turn p2 p3 q + turn p3 p0 q + turn p0 p2 q = turn p0 p2 p3 := by unfold turn; ring
  constructor
  · rintro (⟨t0, t1, t2, t3⟩ | ⟨t0, t1, t2, t3⟩)
    · by_cases hd : turn p0 p2 q ≤ 0 ∧ 0 < turn p0 p1 p2
      · left
        obtain ⟨hd, hD⟩ := hd
        refine ⟨turn p1 p2 q / turn p0 p1 p2, -turn p0 p2 q / turn p0 p1 p2, turn p0 p1 q / turn p0 p1 p2,
          by positivity, div_nonneg (by linarith) hD.le, by positivity, ?_, ?_, ?_⟩
        · rw [← add_div, ← add_div, div_eq_one_iff_eq hD.ne']; linarith
        · field_simp
          unfold turn
          ring
        · field_simp
          unfold turn
          ring
      · right
        have hd' : 0 ≤ turn p0 p2 q ∧ 0 < turn p0 p2 p3 := by
          by_cases h0 : turn p0 p2 q ≤ 0
          · have hz : turn p0 p1 p2 = 0 := le_antisymm (not_lt.1 fun h => hd ⟨h0, h⟩) h1
            constructor <;> linarith
          · push Not at h0
            constructor <;> linarith
        obtain ⟨hd', hD⟩ := hd'
        refine ⟨turn p2 p3 q / turn p0 p2 p3, turn p3 p0 q / turn p0 p2 p3, turn p0 p2 q / turn p0 p2 p3,
          by positivity, by positivity, by positivity, ?_, ?_, ?_⟩
        · rw [← add_div, ← add_div, div_eq_one_iff_eq hD.ne']; linarith
        · field_simp
          unfold turn
          ring
        · field_simp
          unfold turn
          ring
    · exfalso
      linarith
  · have e30 : turn p3 p0 p1 = turn p0 p1 p3 := by unfold turn; ring
    have e302 : turn p3 p0 p2 = turn p0 p2 p3 := by unfold turn; ring
    have e230 : turn p2 p3 p0 = turn p0 p2 p3 := by unfold turn; ring
    have e231 : turn p2 p3 p1 = turn p1 p2 p3 := by unfold turn; ring
    have e120 : turn p1 p2 p0 = turn p0 p1 p2 := by unfold turn; ring
    have aff : ∀ a b p r s : V3 ℝ, ∀ u v w : ℝ, u + v + w = 1 → q.x = u * p.x + v * r.x + w * s.x →
        q.y = u * p.y + v * r.y + w * s.y → turn a b q = u * turn a b p + v * turn a b r + w * turn a b s := by
      intro a b p r s u v w h hx hy
      have hu : u = 1 - v - w := by linarith
      unfold turn
      rw [hx, hy, hu]
      ring
    have z1 : ∀ a b : V3 ℝ, turn a b a = 0 := fun a b => by unfold turn; ring
    have z2 : ∀ a b : V3 ℝ, turn a b b = 0 := fun a b => by unfold turn; ring
    rintro (⟨u, v, w, hu, hv, hw, hs, hx, hy⟩ | ⟨u, v, w, hu, hv, hw, hs, hx, hy⟩) <;> left <;>
      refine ⟨?_, ?_, ?_, ?_⟩ <;> rw [aff _ _ _ _ _ u v w hs hx hy] <;>
      simp only [z1, z2, e30, e302, e230, e231, e120, mul_zero, add_zero, zero_add] <;> positivity

theorem turn_swap (a b c : V3 ℝ) : turn (swapXY a) (swapXY b) (swapXY c) = -turn a b c := by
  unfold turn swapXY
  ring

theorem inTriangle_swap (q a b c : V3 ℝ) : InTriangle (swapXY q) (swapXY a) (swapXY b) (swapXY c) ↔ InTriangle q a b c := by
  unfold InTriangle swapXY
  constructor <;> rintro ⟨u, v, w, h1, h2, h3, h4, h5, h6⟩ <;> exact ⟨u, v, w, h1, h2, h3, h4, h6, h5⟩

/-! ## C88 -/

/-- C88: for a panel that is convex seen from above, the test on the sides of the edges holds exactly when the point
is above the panel. -/
theorem above_panel_iff {c : V3 ℝ × V3 ℝ × V3 ℝ × V3 ℝ} (h : ConvexFromAbove c) (q : V3 ℝ) : AbovePanel q c ↔ CoversFromAbove c q := by
  rcases h with h | h
  · exact above_left h q
  · have h1 := above_left h (swapXY q)
    obtain ⟨p0, p1, p2, p3⟩ := c
    unfold CoversFromAbove at h1 ⊢
    simp only [inTriangle_swap] at h1
    rw [← h1]
    unfold AbovePanel
    simp only [edgeSides, edgeSide_eq, turn_swap, List.mem_cons, List.not_mem_nil, or_false, forall_eq_or_imp, forall_eq,
      neg_neg, neg_nonpos, Left.nonneg_neg_iff]
    exact or_comm

/-- C88: a vertical panel is said to be below all the points of its line, even far from the panel. -/
theorem above_panel_violated : ∃ (c : V3 ℝ × V3 ℝ × V3 ℝ × V3 ℝ) (q : V3 ℝ), AbovePanel q c ∧ ¬ CoversFromAbove c q := by
  refine ⟨(⟨0, 0, 0⟩, ⟨1, 0, 0⟩, ⟨1, 0, -1⟩, ⟨0, 0, -1⟩), ⟨5, 0, 0⟩, .inl ?_, ?_⟩
  · simp [edgeSides, edgeSide]
  · rintro (⟨u, v, w, h1, h2, h3, h4, h5, h6⟩ | ⟨u, v, w, h1, h2, h3, h4, h5, h6⟩) <;> simp at h5 <;> linarith

theorem panelsBelow_eq {hull : Mesh (V3 ℝ)} (h : ∀ c ∈ hull.allCorners, ConvexFromAbove c) (q : V3 ℝ) :
    panelsBelow hull q = crossings hull q := by
  unfold panelsBelow crossings
  exact List.countP_congr fun c hc => by simpa using above_panel_iff (h c hc) q

/-- The nodes of the grid of the lid: `nx` panels along `x` and `ny` panels along `y`, on a rectangle of 1.1 times the
extents of the hull with the same center. -/
noncomputable def lidNode (x0 x1 y0 y1 z : ℝ) (nx ny i j : ℕ) : V3 ℝ :=
  ⟨(x1 + x0) / 2 + 0.55 * (x1 - x0) - j * (1.1 * (x1 - x0) / nx), (y1 + y0) / 2 - 0.55 * (y1 - y0) + i * (1.1 * (y1 - y0) / ny), z⟩

theorem meshRectangle_resolution {size : ℝ × ℝ} {r : ℝ} (h1 : 0 < size.1) (h2 : 0 < size.2) (hr : 0 < r) (c n : V3 ℝ) :
    meshRectangle size c (5, 5) (some r) n = meshRectangle size c (rectangleResolution size.1 size.2 (5, 5) (some r)) none n := by
  obtain ⟨n1, n2, -⟩ := (rectangle_resolution (res := (5, 5)) h1 h2 hr (by norm_num) (by norm_num)).1
  unfold meshRectangle
  rw [if_pos ⟨h1, h2, by norm_num, by norm_num⟩, if_pos ⟨h1, h2, n1, n2⟩]
  rfl

/-- The candidate panels of the lid. -/
theorem lid_grid {x0 x1 y0 y1 z r : ℝ} (hx : x0 < x1) (hy : y0 < y1) (hr : 0 < r) {nx ny : ℕ}
    (hn : rectangleResolution (1.1 * (y1 - y0)) (1.1 * (x1 - x0)) (5, 5) (some r) = (ny, nx))
    (hk : 1e-12 ≤ 2 * (1.1 * (y1 - y0) / ny) * (1.1 * (x1 - x0) / nx)) :
    meshRectangle (1.1 * (y1 - y0), 1.1 * (x1 - x0)) ⟨(x1 + x0) / 2, (y1 + y0) / 2, z⟩ (5, 5) (some r) ⟨0, 0, -1⟩ =
      some (gridMesh ny nx (lidNode x0 x1 y0 y1 z nx ny)) := by
  have h1 : 0 < 1.1 * (y1 - y0) := by linarith
  have h2 : 0 < 1.1 * (x1 - x0) := by linarith
  obtain ⟨n1, n2, -⟩ := (rectangle_resolution (res := (5, 5)) h1 h2 hr (by norm_num) (by norm_num)).1
  rw [hn] at n1 n2
  rw [meshRectangle_resolution h1 h2 hr, hn, rectangle_grid _ _ _ _ hk h1 h2 n1 n2]
  simp only [align_quarter _ _ ⟨0, 0, -1⟩ rfl (by simp [dot]), rectangleNode]
  congr 2
  funext i j
  unfold linspace lidNode
  ext
  · simp; ring
  · simp; ring
  · simp

theorem extremes_spec {l : List ℝ} {a b : ℝ} (ha : a ∈ l) (hb : b ∈ l) (h : ∀ x ∈ l, a ≤ x ∧ x ≤ b) :
    extremes l = some (a, b) := by
  cases l with
  | nil => simp at ha
  | cons c l =>
    simp only [extremes, Option.some.injEq, Prod.mk.injEq]
    have hmin : ∀ (l : List ℝ) (c : ℝ), l.foldl min c ∈ c :: l ∧ ∀ x ∈ c :: l, l.foldl min c ≤ x := by
      intro l
      induction l with
      | nil => simp
      | cons d l ih =>
        intro c
        obtain ⟨h1, h2⟩ := ih (min c d)
        rw [List.foldl_cons]
        refine ⟨?_, ?_⟩
        · rcases List.mem_cons.1 h1 with h | h
          · rw [h]; rcases min_choice c d with h | h <;> simp [h]
          · simp [h]
        · intro x hx
          have hm := h2 (min c d) (by simp)
          rcases List.mem_cons.1 hx with rfl | hx
          · exact hm.trans (min_le_left _ _)
          · rcases List.mem_cons.1 hx with rfl | hx
            · exact hm.trans (min_le_right _ _)
            · exact h2 x (by simp [hx])
    have hmax : ∀ (l : List ℝ) (c : ℝ), l.foldl max c ∈ c :: l ∧ ∀ x ∈ c :: l, x ≤ l.foldl max c := by
      intro l
      induction l with
      | nil => simp
      | cons d l ih =>
        intro c
        obtain ⟨h1, h2⟩ := ih (max c d)
        rw [List.foldl_cons]
        refine ⟨?_, ?_⟩
        · rcases List.mem_cons.1 h1 with h | h
          · rw [h]; rcases max_choice c d with h | h <;> simp [h]
          · simp [h]
        · intro x hx
          have hm := h2 (max c d) (by simp)
          rcases List.mem_cons.1 hx with rfl | hx
          · exact (le_max_left _ _).trans hm
          · rcases List.mem_cons.1 hx with rfl | hx
            · exact (le_max_right _ _).trans hm
            · exact h2 x (by simp [hx])
    exact ⟨le_antisymm ((hmin l c).2 a ha) (h _ (hmin l c).1).1, le_antisymm (h _ (hmax l c).1).2 ((hmax l c).2 b hb)⟩

theorem needsLid_mem {hull : Mesh (V3 ℝ)} {points : List (V3 ℝ)} {k : ℕ} :
    k ∈ needsLid hull points ↔ ∃ q, points[k]? = some q ∧ Odd (panelsBelow hull q) := by
  unfold needsLid
  rw [List.mem_filter, List.mem_range]
  constructor
  · rintro ⟨hk, h⟩
    refine ⟨points[k], List.getElem?_eq_getElem hk, ?_⟩
    rw [List.getElem?_eq_getElem hk] at h
    simpa [Nat.odd_iff] using h
  · rintro ⟨q, hq, h⟩
    refine ⟨(List.getElem?_eq_some_iff.1 hq).1, ?_⟩
    rw [hq]
    simpa [Nat.odd_iff] using h

/-- The four corners of a panel as a list. -/
def cornerList {V : Type} (c : V × V × V × V) : List V := [c.1, c.2.1, c.2.2.1, c.2.2.2]

/-- The panels of the lid among those of a grid. -/
theorem lidOfGrid_panels (hull : Mesh (V3 ℝ)) (R n : ℕ) (P : ℕ → ℕ → V3 ℝ) :
    (lidOfGrid hull (gridMesh R n P)).Valid ∧
    ∀ s : Bool × Option (V3 ℝ × V3 ℝ × V3 ℝ × V3 ℝ), s ∈ (lidOfGrid hull (gridMesh R n P)).shapes ↔
      ∃ i < R, ∃ j < n, s = (false, some (quadAt P i j)) ∧ ∀ q ∈ cornerList (quadAt P i j), Odd (panelsBelow hull q) := by
  have hcell : ∀ i < R, ∀ j < n, ((cell n i j).toList.all fun k => (needsLid hull (gridMesh R n P).vertices).contains k) = true ↔
      ∀ q ∈ cornerList (quadAt P i j), Odd (panelsBelow hull q) := by
    intro i hi j hj
    have g : ∀ i' ≤ R, ∀ j' ≤ n, (gridNodes (R + 1) (n + 1) P)[j' + i' * (n + 1)]? = some (P i' j') := fun i' hi' j' hj' =>
      gridNodes_get P (by omega) (by omega)
    have e : ∀ i' ≤ R, ∀ j' ≤ n, (j' + i' * (n + 1) ∈ needsLid hull (gridMesh R n P).vertices ↔ Odd (panelsBelow hull (P i' j'))) := by
      intro i' hi' j' hj'
      rw [needsLid_mem]
      simp only [gridMesh]
      rw [g i' hi' j' hj']
      simp
    simp only [List.all_eq_true, List.contains_eq_mem, decide_eq_true_eq, cell, Face.toList, cornerList, quadAt, List.mem_cons,
      List.not_mem_nil, or_false, forall_eq_or_imp, forall_eq]
    rw [e i hi.le j hj.le, e i hi.le (j + 1) hj, e (i + 1) hi (j + 1) hj, e (i + 1) hi j hj.le]
  have hshape : ∀ s : Bool × Option (V3 ℝ × V3 ℝ × V3 ℝ × V3 ℝ), s ∈ (lidOfGrid hull (gridMesh R n P)).shapes ↔
      ∃ f ∈ (gridMesh R n P).faces, (f.toList.all fun k => (needsLid hull (gridMesh R n P).vertices).contains k) = true ∧
        s = (f.isTriangle, corners (gridMesh R n P).vertices f) := by
    intro s
    unfold lidOfGrid
    simp only
    split_ifs with h0
    · constructor
      · intro h; simp [Mesh.shapes] at h
      · rintro ⟨f, hf, h1, -⟩
        have : f ∈ (gridMesh R n P).faces.filter fun f => f.toList.all fun k => (needsLid hull (gridMesh R n P).vertices).contains k :=
          List.mem_filter.2 ⟨hf, h1⟩
        rw [h0] at this
        simp at this
    · unfold Mesh.shapes
      rw [List.mem_map]
      constructor
      · rintro ⟨f, hf, rfl⟩
        exact ⟨f, (List.mem_filter.1 hf).1, (List.mem_filter.1 hf).2, rfl⟩
      · rintro ⟨f, hf, h1, rfl⟩
        exact ⟨f, List.mem_filter.2 ⟨hf, h1⟩, rfl⟩
  constructor
  · intro f hf k hk
    unfold lidOfGrid at hf ⊢
    simp only at hf ⊢
    split_ifs at hf ⊢ with h0
    · simp at hf
    · exact (grid_well_formed R n P).2.2.1 f (List.mem_filter.1 hf).1 k hk
  · intro s
    rw [hshape]
    constructor
    · rintro ⟨f, hf, h1, rfl⟩
      simp only [gridMesh, gridFaces, List.mem_flatMap, List.mem_map, List.mem_range] at hf
      obtain ⟨i, hi, j, hj, rfl⟩ := hf
      refine ⟨i, hi, j, hj, ?_, (hcell i hi j hj).1 h1⟩
      rw [cell_isTriangle]
      exact congrArg _ (cell_corners P hi hj)
    · rintro ⟨i, hi, j, hj, rfl, h1⟩
      refine ⟨cell n i j, ?_, (hcell i hi j hj).2 h1, ?_⟩
      · simp only [gridMesh, gridFaces, List.mem_flatMap, List.mem_map, List.mem_range]
        exact ⟨i, hi, j, hj, rfl⟩
      · rw [cell_isTriangle]
        exact congrArg _ (cell_corners P hi hj).symm

/-- The extreme values of the coordinates of a mesh. -/
def Bounds (m : Mesh (V3 ℝ)) (x0 x1 y0 y1 : ℝ) : Prop :=
  (∃ v ∈ m.vertices, v.x = x0) ∧ (∃ v ∈ m.vertices, v.x = x1) ∧ (∃ v ∈ m.vertices, v.y = y0) ∧ (∃ v ∈ m.vertices, v.y = y1) ∧
    ∀ v ∈ m.vertices, x0 ≤ v.x ∧ v.x ≤ x1 ∧ y0 ≤ v.y ∧ v.y ≤ y1

theorem generateLid_eq {hull : Mesh (V3 ℝ)} (h0 : hull.faces ≠ []) {x0 x1 y0 y1 z r : ℝ} (hb : Bounds hull x0 x1 y0 y1)
    (hx : x0 < x1) (hy : y0 < y1) (hr : 0 < r) {nx ny : ℕ}
    (hn : rectangleResolution (1.1 * (y1 - y0)) (1.1 * (x1 - x0)) (5, 5) (some r) = (ny, nx))
    (hk : 1e-12 ≤ 2 * (1.1 * (y1 - y0) / ny) * (1.1 * (x1 - x0) / nx)) :
    generateLid (some hull) z r = some (lidOfGrid hull (gridMesh ny nx (lidNode x0 x1 y0 y1 z nx ny))) := by
  obtain ⟨⟨v1, h1, rfl⟩, ⟨v2, h2, rfl⟩, ⟨v3, h3, rfl⟩, ⟨v4, h4, rfl⟩, hall⟩ := hb
  have ex := extremes_spec (List.mem_map_of_mem (f := V3.x) h1) (List.mem_map_of_mem (f := V3.x) h2) (by
    intro x hx
    obtain ⟨v, hv, rfl⟩ := List.mem_map.1 hx
    exact ⟨(hall v hv).1, (hall v hv).2.1⟩)
  have ey := extremes_spec (List.mem_map_of_mem (f := V3.y) h3) (List.mem_map_of_mem (f := V3.y) h4) (by
    intro x hx
    obtain ⟨v, hv, rfl⟩ := List.mem_map.1 hx
    exact ⟨(hall v hv).2.2.1, (hall v hv).2.2.2⟩)
  unfold generateLid
  simp only [if_neg h0, ex, ey]
  rw [lid_grid hx hy hr hn hk, Option.map_some]

/-- C88: the lid of a hull whose panels are convex seen from above. The panels of the lid are exactly those of a
regular grid at the height of the lid, on a rectangle of 1.1 times the extents of the hull, whose four corners are
above an odd number of panels of the hull. They are quadrangles with at most the requested radius and they look
downwards. -/
theorem generate_lid {hull : Mesh (V3 ℝ)} (h0 : hull.faces ≠ []) (hc : ∀ c ∈ hull.allCorners, ConvexFromAbove c)
    {x0 x1 y0 y1 z r : ℝ} (hb : Bounds hull x0 x1 y0 y1) (hx : x0 < x1) (hy : y0 < y1) (hr : 0 < r) {nx ny : ℕ}
    (hn : rectangleResolution (1.1 * (y1 - y0)) (1.1 * (x1 - x0)) (5, 5) (some r) = (ny, nx))
    (hk : 1e-12 ≤ 2 * (1.1 * (y1 - y0) / ny) * (1.1 * (x1 - x0) / nx)) :
    ∃ lid, generateLid (some hull) z r = some lid ∧ lid.Valid ∧
      (∀ s, s ∈ lid.shapes ↔ ∃ i < ny, ∃ j < nx, s = (false, some (quadAt (lidNode x0 x1 y0 y1 z nx ny) i j)) ∧
        ∀ q ∈ cornerList (quadAt (lidNode x0 x1 y0 y1 z nx ny) i j), Odd (crossings hull q)) ∧
      lid.RadiusAtMost r ∧
      (∀ p ρ, some (p, ρ) ∈ lid.faceProps → p.normal = ⟨0, 0, -1⟩) ∧
      (∀ v ∈ hull.vertices, |v.x - (x1 + x0) / 2| ≤ (x1 - x0) / 2 ∧ |v.y - (y1 + y0) / 2| ≤ (y1 - y0) / 2) := by
  set P := lidNode x0 x1 y0 y1 z nx ny with hP
  obtain ⟨hv, hs⟩ := lidOfGrid_panels hull ny nx P
  have h1 : 0 < 1.1 * (y1 - y0) := by linarith
  have h2 : 0 < 1.1 * (x1 - x0) := by linarith
  obtain ⟨n1, n2, -⟩ := (rectangle_resolution (res := (5, 5)) h1 h2 hr (by norm_num) (by norm_num)).1
  rw [hn] at n1 n2
  simp only at n1 n2
  have hgrid := rectangle_radius hr (lid_grid (z := z) hx hy hr hn hk)
  refine ⟨_, generateLid_eq h0 hb hx hy hr hn hk, hv, ?_, ?_, ?_, ?_⟩
  · intro s
    rw [hs]
    simp only [panelsBelow_eq hc]
  · intro p ρ hp ha
    obtain ⟨s, hsm, c, hcs, rfl, rfl⟩ := faceProps_mem.1 hp
    obtain ⟨i, hi, j, hj, rfl, -⟩ := (hs s).1 hsm
    refine hgrid _ _ (faceProps_mem.2 ⟨_, ?_, c, hcs, rfl, rfl⟩) ha
    rw [grid_shapes]
    simp only [List.mem_flatMap, List.mem_map, List.mem_range]
    exact ⟨i, hi, j, hj, rfl⟩
  · intro p ρ hp
    obtain ⟨s, hsm, c, hcs, rfl, rfl⟩ := faceProps_mem.1 hp
    obtain ⟨i, hi, j, hj, rfl, -⟩ := (hs s).1 hsm
    simp only [Option.some.injEq] at hcs
    subst hcs
    have hn1 : (0 : ℝ) < ny := by exact_mod_cast n1
    have hn2 : (0 : ℝ) < nx := by exact_mod_cast n2
    set w := 2 * (1.1 * (y1 - y0) / ny) * (1.1 * (x1 - x0) / nx) with hw
    have hcr : cross (P (i + 1) (j + 1) - P i j) (P (i + 1) j - P i (j + 1)) = ⟨0, 0, -w⟩ := by
      rw [hP, hw]
      unfold lidNode
      ext <;> simp [cross] <;> ring
    have hnorm : norm (⟨0, 0, -w⟩ : V3 ℝ) = w := by
      unfold V3.norm
      rw [show dot (⟨0, 0, -w⟩ : V3 ℝ) ⟨0, 0, -w⟩ = w ^ 2 by simp [dot]; ring, Real.sqrt_sq (by linarith)]
    have hw0 : w ≠ 0 := by intro h; rw [h] at hk; norm_num at hk
    simp only [panelOf, quadAt, Bool.false_eq_true, if_false]
    unfold quadPanel
    simp only
    rw [hcr, hnorm, if_neg (by rw [abs_of_nonneg (by linarith)]; linarith)]
    simp only
    ext <;> simp [hw0]
  · intro v hv
    obtain ⟨a, b, c, d⟩ := hb.2.2.2.2 v hv
    constructor <;> rw [abs_le] <;> constructor <;> linarith

/-- The four edges of a panel. A triangle has an edge without length. -/
def edgesOf (c : V3 ℝ × V3 ℝ × V3 ℝ × V3 ℝ) : List (V3 ℝ × V3 ℝ) :=
  [(c.1, c.2.1), (c.2.1, c.2.2.1), (c.2.2.1, c.2.2.2), (c.2.2.2, c.1)]

/-- Seen from above, the point is on the line of an edge of the panel. -/
def OnEdgeLine (c : V3 ℝ × V3 ℝ × V3 ℝ × V3 ℝ) (q : V3 ℝ) : Prop :=
  ∃ e ∈ edgesOf c, ¬ (e.1.x = e.2.x ∧ e.1.y = e.2.y) ∧ turn e.1 e.2 q = 0

open Classical in
/-- C88: let `W` be the inside of the hull seen from above: out of the edges, the points of `W` are above one panel
and the others above none. When no node of the grid is aligned with an edge, the lid is made of the panels of the grid
with four corners in `W`. -/
theorem generate_lid_inside {hull : Mesh (V3 ℝ)} (h0 : hull.faces ≠ []) (hc : ∀ c ∈ hull.allCorners, ConvexFromAbove c)
    {x0 x1 y0 y1 z r : ℝ} (hb : Bounds hull x0 x1 y0 y1) (hx : x0 < x1) (hy : y0 < y1) (hr : 0 < r) {nx ny : ℕ}
    (hn : rectangleResolution (1.1 * (y1 - y0)) (1.1 * (x1 - x0)) (5, 5) (some r) = (ny, nx))
    (hk : 1e-12 ≤ 2 * (1.1 * (y1 - y0) / ny) * (1.1 * (x1 - x0) / nx)) (W : V3 ℝ → Prop)
    (hW : ∀ q, (∀ c ∈ hull.allCorners, ¬ OnEdgeLine c q) → crossings hull q = if W q then 1 else 0)
    (hg : ∀ i ≤ ny, ∀ j ≤ nx, ∀ c ∈ hull.allCorners, ¬ OnEdgeLine c (lidNode x0 x1 y0 y1 z nx ny i j)) :
    ∃ lid, generateLid (some hull) z r = some lid ∧
      ∀ s, s ∈ lid.shapes ↔ ∃ i < ny, ∃ j < nx, s = (false, some (quadAt (lidNode x0 x1 y0 y1 z nx ny) i j)) ∧
        ∀ q ∈ cornerList (quadAt (lidNode x0 x1 y0 y1 z nx ny) i j), W q := by
  obtain ⟨lid, h1, -, h2, -⟩ := generate_lid (z := z) h0 hc hb hx hy hr hn hk
  refine ⟨lid, h1, fun s => ?_⟩
  rw [h2]
  have key : ∀ i ≤ ny, ∀ j ≤ nx, (Odd (crossings hull (lidNode x0 x1 y0 y1 z nx ny i j)) ↔ W (lidNode x0 x1 y0 y1 z nx ny i j)) := by
    intro i hi j hj
    rw [hW _ (hg i hi j hj)]
    by_cases h : W (lidNode x0 x1 y0 y1 z nx ny i j) <;> simp [h]
  have hq : ∀ i < ny, ∀ j < nx, ((∀ q ∈ cornerList (quadAt (lidNode x0 x1 y0 y1 z nx ny) i j), Odd (crossings hull q)) ↔
      ∀ q ∈ cornerList (quadAt (lidNode x0 x1 y0 y1 z nx ny) i j), W q) := by
    intro i hi j hj
    simp only [cornerList, quadAt, List.mem_cons, List.not_mem_nil, or_false, forall_eq_or_imp, forall_eq]
    rw [key i hi.le j hj.le, key i hi.le (j + 1) hj, key (i + 1) hi (j + 1) hj, key (i + 1) hi j hj.le]
  constructor
  · rintro ⟨i, hi, j, hj, rfl, h⟩
    exact ⟨i, hi, j, hj, rfl, (hq i hi j hj).1 h⟩
  · rintro ⟨i, hi, j, hj, rfl, h⟩
    exact ⟨i, hi, j, hj, rfl, (hq i hi j hj).2 h⟩

/-! ## Concrete cases -/

/-- A hull in the shape of a pyramid with its top at `(a, b, -1)` below a rectangular waterline. -/
noncomputable def lidPyramid (a b : ℝ) : Mesh (V3 ℝ) :=
  ⟨[⟨-15 / 2, -10, 0⟩, ⟨15 / 2, -10, 0⟩, ⟨15 / 2, 10, 0⟩, ⟨-15 / 2, 10, 0⟩, ⟨a, b, -1⟩],
    [⟨0, 4, 1, 0⟩, ⟨1, 4, 2, 1⟩, ⟨2, 4, 3, 2⟩, ⟨3, 4, 0, 3⟩]⟩

theorem lidPyramid_corners (a b : ℝ) : (lidPyramid a b).allCorners =
    [(⟨-15 / 2, -10, 0⟩, ⟨a, b, -1⟩, ⟨15 / 2, -10, 0⟩, ⟨-15 / 2, -10, 0⟩),
      (⟨15 / 2, -10, 0⟩, ⟨a, b, -1⟩, ⟨15 / 2, 10, 0⟩, ⟨15 / 2, -10, 0⟩),
      (⟨15 / 2, 10, 0⟩, ⟨a, b, -1⟩, ⟨-15 / 2, 10, 0⟩, ⟨15 / 2, 10, 0⟩),
      (⟨-15 / 2, 10, 0⟩, ⟨a, b, -1⟩, ⟨-15 / 2, -10, 0⟩, ⟨-15 / 2, 10, 0⟩)] := rfl

theorem lidPyramid_bounds (a b : ℝ) (ha : |a| < 15 / 2) (hb : |b| < 10) : Bounds (lidPyramid a b) (-15 / 2) (15 / 2) (-10) 10 := by
  rw [abs_lt] at ha hb
  refine ⟨⟨_, .head _, rfl⟩, ⟨_, .tail _ (.head _), rfl⟩, ⟨_, .head _, rfl⟩, ⟨_, .tail _ (.tail _ (.head _)), rfl⟩, ?_⟩
  intro v hv
  simp only [lidPyramid, List.mem_cons, List.not_mem_nil, or_false] at hv
  rcases hv with rfl | rfl | rfl | rfl | rfl <;> norm_num
  refine ⟨?_, ?_, ?_, ?_⟩ <;> linarith

theorem lidPyramid_convex (a b : ℝ) (ha : |a| < 15 / 2) (hb : |b| < 10) :
    ∀ c ∈ (lidPyramid a b).allCorners, ConvexFromAbove c := by
  rw [abs_lt] at ha hb
  rw [lidPyramid_corners]
  intro c hc
  simp only [List.mem_cons, List.not_mem_nil, or_false] at hc
  right
  rcases hc with rfl | rfl | rfl | rfl <;> simp only [LeftConvex, turn, swapXY] <;> refine ⟨?_, ?_, ?_, ?_, ?_⟩ <;> linarith [ha.1, ha.2, hb.1, hb.2]

theorem pyramid_resolution : rectangleResolution (1.1 * (10 - -10)) (1.1 * (15 / 2 - -15 / 2)) (5, 5) (some 3) = (5, 5) := by
  refine (rectangle_resolution (by norm_num) (by norm_num) (by norm_num) (by norm_num) (by norm_num)).2.2 ?_
  have h := halfDiagonal_sq (1.1 * (10 - -10) / (5 : ℕ)) (1.1 * (15 / 2 - -15 / 2) / (5 : ℕ))
  have h0 := halfDiagonal_nonneg (1.1 * (10 - -10) / (5 : ℕ)) (1.1 * (15 / 2 - -15 / 2) / (5 : ℕ))
  norm_num at h h0 ⊢
  nlinarith

/-- Concrete case of `generate_lid`. -/
example : ∃ lid, generateLid (some (lidPyramid 1 2)) 0 3 = some lid ∧ lid.Valid := by
  obtain ⟨lid, h1, h2, -⟩ := generate_lid (z := 0) (by simp [lidPyramid])
    (lidPyramid_convex 1 2 (by norm_num) (by norm_num [abs_of_pos])) (lidPyramid_bounds 1 2 (by norm_num) (by norm_num [abs_of_pos]))
    (by norm_num) (by norm_num) (by norm_num) pyramid_resolution (by norm_num)
  exact ⟨lid, h1, h2⟩

/-- The panels of the symmetric pyramid below the point `(15 u / 2, 10 v)`. -/
theorem pyramid_count (u v z : ℝ) : panelsBelow (lidPyramid 0 0) ⟨15 / 2 * u, 10 * v, z⟩ =
    (open Classical in (if |u| ≤ -v ∧ -1 ≤ v then 1 else 0) + (if |v| ≤ u ∧ u ≤ 1 then 1 else 0) +
      (if |u| ≤ v ∧ v ≤ 1 then 1 else 0) + (if |v| ≤ -u ∧ -1 ≤ u then 1 else 0)) := by
  unfold panelsBelow
  rw [lidPyramid_corners]
  have e1 : AbovePanel ⟨15 / 2 * u, 10 * v, z⟩ (⟨-15 / 2, -10, 0⟩, ⟨0, 0, -1⟩, ⟨15 / 2, -10, 0⟩, ⟨-15 / 2, -10, 0⟩) ↔
      |u| ≤ -v ∧ -1 ≤ v := by
    simp only [AbovePanel, edgeSides, edgeSide, List.mem_cons, List.not_mem_nil, or_false, forall_eq_or_imp, forall_eq, abs_le]
    constructor
    · rintro (⟨a, b, c, d⟩ | ⟨a, b, c, d⟩) <;> refine ⟨⟨?_, ?_⟩, ?_⟩ <;> linarith
    · rintro ⟨⟨a, b⟩, c⟩
      right
      refine ⟨?_, ?_, ?_, ?_⟩ <;> linarith
  have e2 : AbovePanel ⟨15 / 2 * u, 10 * v, z⟩ (⟨15 / 2, -10, 0⟩, ⟨0, 0, -1⟩, ⟨15 / 2, 10, 0⟩, ⟨15 / 2, -10, 0⟩) ↔
      |v| ≤ u ∧ u ≤ 1 := by
    simp only [AbovePanel, edgeSides, edgeSide, List.mem_cons, List.not_mem_nil, or_false, forall_eq_or_imp, forall_eq, abs_le]
    constructor
    · rintro (⟨a, b, c, d⟩ | ⟨a, b, c, d⟩) <;> refine ⟨⟨?_, ?_⟩, ?_⟩ <;> linarith
    · rintro ⟨⟨a, b⟩, c⟩
      right
      refine ⟨?_, ?_, ?_, ?_⟩ <;> linarith
  have e3 : AbovePanel ⟨15 / 2 * u, 10 * v, z⟩ (⟨15 / 2, 10, 0⟩, ⟨0, 0, -1⟩, ⟨-15 / 2, 10, 0⟩, ⟨15 / 2, 10, 0⟩) ↔
      |u| ≤ v ∧ v ≤ 1 := by
    simp only [AbovePanel, edgeSides, edgeSide, List.mem_cons, List.not_mem_nil, or_false, forall_eq_or_imp, forall_eq, abs_le]
    constructor
    · rintro (⟨a, b, c, d⟩ | ⟨a, b, c, d⟩) <;> refine ⟨⟨?_, ?_⟩, ?_⟩ <;> linarith
    · rintro ⟨⟨a, b⟩, c⟩
      right
      refine ⟨?_, ?_, ?_, ?_⟩ <;> linarith
  have e4 : AbovePanel ⟨15 / 2 * u, 10 * v, z⟩ (⟨-15 / 2, 10, 0⟩, ⟨0, 0, -1⟩, ⟨-15 / 2, -10, 0⟩, ⟨-15 / 2, 10, 0⟩) ↔
      |v| ≤ -u ∧ -1 ≤ u := by
    simp only [AbovePanel, edgeSides, edgeSide, List.mem_cons, List.not_mem_nil, or_false, forall_eq_or_imp, forall_eq, abs_le]
    constructor
    · rintro (⟨a, b, c, d⟩ | ⟨a, b, c, d⟩) <;> refine ⟨⟨?_, ?_⟩, ?_⟩ <;> linarith
    · rintro ⟨⟨a, b⟩, c⟩
      right
      refine ⟨?_, ?_, ?_, ?_⟩ <;> linarith
  simp only [List.countP_cons, List.countP_nil, e1, e2, e3, e4, decide_eq_true_eq]
  ring

/-- Out of the rectangle, and on its diagonals, the number of panels is even. -/
theorem pyramid_even (u v z : ℝ) (h : 1 < |u| ∨ 1 < |v| ∨ (|u| = |v| ∧ u ≠ 0)) :
    ¬ Odd (panelsBelow (lidPyramid 0 0) ⟨15 / 2 * u, 10 * v, z⟩) := by
  rw [pyramid_count]
  rcases h with h | h | ⟨h, hu⟩
  · rw [if_neg (by rintro ⟨a, b⟩; linarith), if_neg (by rintro ⟨a, b⟩; rw [lt_abs] at h; have := abs_nonneg v; rcases h with h | h <;> linarith),
      if_neg (by rintro ⟨a, b⟩; linarith), if_neg (by rintro ⟨a, b⟩; rw [lt_abs] at h; have := abs_nonneg v; rcases h with h | h <;> linarith)]
    decide
  · rw [if_neg (by rintro ⟨a, b⟩; rw [lt_abs] at h; have := abs_nonneg u; rcases h with h | h <;> linarith), if_neg (by rintro ⟨a, b⟩; linarith),
      if_neg (by rintro ⟨a, b⟩; rw [lt_abs] at h; have := abs_nonneg u; rcases h with h | h <;> linarith), if_neg (by rintro ⟨a, b⟩; linarith)]
    decide
  · have hpos : 0 < |u| := abs_pos.2 hu
    have hpos' : 0 < |v| := h ▸ hpos
    have two : ∀ p q : Prop, ∀ [Decidable p] [Decidable q], (p ↔ q) → ¬ Odd ((if p then 1 else 0) + if q then 1 else 0 : ℕ) := by
      intro p q _ _ hpq
      by_cases hp : p
      · simp [hp, hpq.1 hp]
      · rw [if_neg hp, if_neg (fun hq => hp (hpq.2 hq))]; decide
    rcases abs_choice u with hu' | hu' <;> rcases abs_choice v with hv' | hv'
    · rw [if_neg (c := |u| ≤ -v ∧ -1 ≤ v) (by rintro ⟨a, b⟩; linarith), if_neg (c := |v| ≤ -u ∧ -1 ≤ u) (by rintro ⟨a, b⟩; linarith),
        zero_add, add_zero]
      exact two _ _ ⟨fun ⟨a, b⟩ => ⟨by linarith, by linarith⟩, fun ⟨a, b⟩ => ⟨by linarith, by linarith⟩⟩
    · rw [if_neg (c := |u| ≤ v ∧ v ≤ 1) (by rintro ⟨a, b⟩; linarith), if_neg (c := |v| ≤ -u ∧ -1 ≤ u) (by rintro ⟨a, b⟩; linarith),
        add_zero, add_zero]
      exact two _ _ ⟨fun ⟨a, b⟩ => ⟨by linarith, by linarith⟩, fun ⟨a, b⟩ => ⟨by linarith, by linarith⟩⟩
    · rw [if_neg (c := |u| ≤ -v ∧ -1 ≤ v) (by rintro ⟨a, b⟩; linarith), if_neg (c := |v| ≤ u ∧ u ≤ 1) (by rintro ⟨a, b⟩; linarith),
        zero_add, zero_add]
      exact two _ _ ⟨fun ⟨a, b⟩ => ⟨by linarith, by linarith⟩, fun ⟨a, b⟩ => ⟨by linarith, by linarith⟩⟩
    · rw [if_neg (c := |u| ≤ v ∧ v ≤ 1) (by rintro ⟨a, b⟩; linarith), if_neg (c := |v| ≤ u ∧ u ≤ 1) (by rintro ⟨a, b⟩; linarith),
        add_zero, add_zero]
      exact two _ _ ⟨fun ⟨a, b⟩ => ⟨by linarith, by linarith⟩, fun ⟨a, b⟩ => ⟨by linarith, by linarith⟩⟩

/-- C88: a point on an edge that two panels share is counted twice and has no lid. The lid of this pyramid is empty,
although all the points of the rectangle of the waterline are above the hull and four nodes of the grid around its
center are well inside. -/
theorem generate_lid_violated : ∃ hull : Mesh (V3 ℝ), hull.Valid ∧ (∀ c ∈ hull.allCorners, ConvexFromAbove c) ∧
    Bounds hull (-15 / 2) (15 / 2) (-10) 10 ∧ generateLid (some hull) 0 3 = some ⟨[], []⟩ ∧
    (∀ x y : ℝ, |x| ≤ 15 / 2 → |y| ≤ 10 → ∃ c ∈ hull.allCorners, CoversFromAbove c ⟨x, y, 0⟩) ∧
    ∀ q ∈ cornerList (quadAt (lidNode (-15 / 2) (15 / 2) (-10) 10 0 5 5) 2 2), |q.x| < 2 ∧ |q.y| < 3 := by
  have hcv := lidPyramid_convex 0 0 (by norm_num) (by norm_num)
  have hbd := lidPyramid_bounds 0 0 (by norm_num) (by norm_num)
  refine ⟨lidPyramid 0 0, by simp [Mesh.Valid, lidPyramid, Face.toList], hcv, hbd, ?_, ?_, ?_⟩
  · rw [generateLid_eq (by simp [lidPyramid]) hbd (by norm_num) (by norm_num) (by norm_num) pyramid_resolution (by norm_num)]
    obtain ⟨-, hs⟩ := lidOfGrid_panels (lidPyramid 0 0) 5 5 (lidNode (-15 / 2) (15 / 2) (-10) 10 0 5 5)
    have hnil : (lidOfGrid (lidPyramid 0 0) (gridMesh 5 5 (lidNode (-15 / 2) (15 / 2) (-10) 10 0 5 5))).shapes = [] := by
      rw [List.eq_nil_iff_forall_not_mem]
      intro s hsm
      obtain ⟨i, hi, j, hj, -, hodd⟩ := (hs s).1 hsm
      have pick : ∀ i < 5, ∀ j < 5, ∃ k ∈ [(i, j), (i, j + 1), (i + 1, j + 1), (i + 1, j)],
          k.1 = 0 ∨ k.1 = 5 ∨ k.2 = 0 ∨ k.2 = 5 ∨ k.1 = k.2 ∨ k.1 + k.2 = 5 := by decide
      obtain ⟨k, hk, hcase⟩ := pick i hi j hj
      have hmem : lidNode (-15 / 2) (15 / 2) (-10) 10 0 5 5 k.1 k.2 ∈
          cornerList (quadAt (lidNode (-15 / 2) (15 / 2) (-10) 10 0 5 5) i j) := by
        simp only [List.mem_cons, List.not_mem_nil, or_false] at hk
        rcases hk with rfl | rfl | rfl | rfl <;> simp [cornerList, quadAt]
      have hle : k.1 ≤ 5 ∧ k.2 ≤ 5 := by
        simp only [List.mem_cons, List.not_mem_nil, or_false] at hk
        rcases hk with rfl | rfl | rfl | rfl <;> constructor <;> simp <;> omega
      have hnode : lidNode (-15 / 2) (15 / 2) (-10) 10 0 5 5 k.1 k.2 =
          ⟨15 / 2 * (1.1 - 0.44 * k.2), 10 * (-1.1 + 0.44 * k.1), 0⟩ := by
        unfold lidNode
        ext
        · simp; ring
        · simp; ring
        · rfl
      have hbad := hodd _ hmem
      rw [hnode] at hbad
      refine pyramid_even _ _ _ ?_ hbad
      obtain ⟨k1, k2⟩ := k
      simp only at hle hcase ⊢
      obtain ⟨l1, l2⟩ := hle
      rcases hcase with rfl | rfl | rfl | rfl | rfl | h
      · right; left; norm_num
      · right; left; norm_num
      · left; norm_num
      · left; norm_num
      · right; right
        refine ⟨?_, ?_⟩
        · rw [← abs_neg]; congr 1; ring
        · interval_cases k1 <;> norm_num
      · right; right
        obtain rfl : k2 = 5 - k1 := by omega
        refine ⟨?_, ?_⟩
        · interval_cases k1 <;> norm_num
        · interval_cases k1 <;> norm_num
    unfold lidOfGrid at hnil ⊢
    simp only at hnil ⊢
    split_ifs with h0
    · rfl
    · rw [if_neg h0] at hnil
      exact absurd (List.map_eq_nil_iff.1 hnil) h0
  · intro x y hx hy
    have hq : (⟨x, y, 0⟩ : V3 ℝ) = ⟨15 / 2 * (2 / 15 * x), 10 * (y / 10), 0⟩ := by ext <;> simp <;> ring
    have hcount := pyramid_count (2 / 15 * x) (y / 10) 0
    rw [← hq, panelsBelow_eq hcv] at hcount
    have hpos : 0 < crossings (lidPyramid 0 0) ⟨x, y, 0⟩ := by
      rw [hcount]
      set u := 2 / 15 * x with hu
      set v := y / 10 with hv
      have hu1 : |u| ≤ 1 := by rw [hu, abs_mul]; norm_num; linarith
      have hv1 : |v| ≤ 1 := by rw [hv, abs_div]; norm_num; linarith
      rw [abs_le] at hu1 hv1
      rcases le_total |u| |v| with h | h
      · rcases abs_choice v with h' | h'
        · rw [if_pos (c := |u| ≤ v ∧ v ≤ 1) ⟨h' ▸ h, hv1.2⟩]; omega
        · rw [if_pos (c := |u| ≤ -v ∧ -1 ≤ v) ⟨h' ▸ h, hv1.1⟩]; omega
      · rcases abs_choice u with h' | h'
        · rw [if_pos (c := |v| ≤ u ∧ u ≤ 1) ⟨h' ▸ h, hu1.2⟩]; omega
        · rw [if_pos (c := |v| ≤ -u ∧ -1 ≤ u) ⟨h' ▸ h, hu1.1⟩]; omega
    unfold crossings at hpos
    obtain ⟨c, hc, h⟩ := List.countP_pos_iff.1 hpos
    exact ⟨c, hc, by simpa using h⟩
  · intro q hq
    simp only [cornerList, quadAt, lidNode, List.mem_cons, List.not_mem_nil, or_false] at hq
    rcases hq with rfl | rfl | rfl | rfl <;> norm_num [abs_lt]



/-- A hull without sides, made of two rectangles. -/
noncomputable def lidPlates : Mesh (V3 ℝ) :=
  ⟨[⟨-15 / 2, -10, -1⟩, ⟨1, -10, -1⟩, ⟨1, 10, -1⟩, ⟨-15 / 2, 10, -1⟩, ⟨15 / 2, -10, -1⟩, ⟨15 / 2, 10, -1⟩],
    [⟨0, 1, 2, 3⟩, ⟨1, 4, 5, 2⟩]⟩

theorem lidPlates_corners : lidPlates.allCorners =
    [(⟨-15 / 2, -10, -1⟩, ⟨1, -10, -1⟩, ⟨1, 10, -1⟩, ⟨-15 / 2, 10, -1⟩),
      (⟨1, -10, -1⟩, ⟨15 / 2, -10, -1⟩, ⟨15 / 2, 10, -1⟩, ⟨1, 10, -1⟩)] := rfl

theorem lidPlates_bounds : Bounds lidPlates (-15 / 2) (15 / 2) (-10) 10 := by
  refine ⟨⟨_, .head _, rfl⟩, ⟨_, .tail _ (.tail _ (.tail _ (.tail _ (.head _)))), rfl⟩, ⟨_, .head _, rfl⟩,
    ⟨_, .tail _ (.tail _ (.head _)), rfl⟩, ?_⟩
  intro v hv
  simp only [lidPlates, List.mem_cons, List.not_mem_nil, or_false] at hv
  rcases hv with rfl | rfl | rfl | rfl | rfl | rfl <;> norm_num

theorem lidPlates_convex : ∀ c ∈ lidPlates.allCorners, ConvexFromAbove c := by
  rw [lidPlates_corners]
  intro c hc
  simp only [List.mem_cons, List.not_mem_nil, or_false] at hc
  left
  rcases hc with rfl | rfl <;> simp only [LeftConvex, turn] <;> norm_num

theorem lidPlates_count (q : V3 ℝ) : panelsBelow lidPlates q = (open Classical in
    (if -15 / 2 ≤ q.x ∧ q.x ≤ 1 ∧ |q.y| ≤ 10 then 1 else 0) + if 1 ≤ q.x ∧ q.x ≤ 15 / 2 ∧ |q.y| ≤ 10 then 1 else 0) := by
  unfold panelsBelow
  rw [lidPlates_corners]
  have e1 : AbovePanel q (⟨-15 / 2, -10, -1⟩, ⟨1, -10, -1⟩, ⟨1, 10, -1⟩, ⟨-15 / 2, 10, -1⟩) ↔
      -15 / 2 ≤ q.x ∧ q.x ≤ 1 ∧ |q.y| ≤ 10 := by
    simp only [AbovePanel, edgeSides, edgeSide, List.mem_cons, List.not_mem_nil, or_false, forall_eq_or_imp, forall_eq, abs_le]
    constructor
    · rintro (⟨a, b, c, d⟩ | ⟨a, b, c, d⟩) <;> refine ⟨?_, ?_, ?_, ?_⟩ <;> linarith
    · rintro ⟨a, b, c, d⟩
      left
      refine ⟨?_, ?_, ?_, ?_⟩ <;> linarith
  have e2 : AbovePanel q (⟨1, -10, -1⟩, ⟨15 / 2, -10, -1⟩, ⟨15 / 2, 10, -1⟩, ⟨1, 10, -1⟩) ↔
      1 ≤ q.x ∧ q.x ≤ 15 / 2 ∧ |q.y| ≤ 10 := by
    simp only [AbovePanel, edgeSides, edgeSide, List.mem_cons, List.not_mem_nil, or_false, forall_eq_or_imp, forall_eq, abs_le]
    constructor
    · rintro (⟨a, b, c, d⟩ | ⟨a, b, c, d⟩) <;> refine ⟨?_, ?_, ?_, ?_⟩ <;> linarith
    · rintro ⟨a, b, c, d⟩
      left
      refine ⟨?_, ?_, ?_, ?_⟩ <;> linarith
  simp only [List.countP_cons, List.countP_nil, e1, e2, decide_eq_true_eq]
  ring

theorem lidPlates_edges (q : V3 ℝ) : (∀ c ∈ lidPlates.allCorners, ¬ OnEdgeLine c q) ↔
    (q.x ≠ -15 / 2 ∧ q.x ≠ 1 ∧ q.x ≠ 15 / 2 ∧ q.y ≠ -10 ∧ q.y ≠ 10) := by
  rw [lidPlates_corners]
  simp only [OnEdgeLine, edgesOf, turn, List.mem_cons, List.not_mem_nil, or_false, forall_eq_or_imp, forall_eq, exists_eq_or_imp,
    exists_eq_left, not_or, not_and, not_not, ne_eq]
  norm_num
  constructor
  · rintro ⟨⟨a, b, c, d⟩, e, f, g, h⟩
    refine ⟨fun k => d ?_, fun k => b ?_, fun k => f ?_, fun k => a ?_, fun k => c ?_⟩ <;> linarith
  · rintro ⟨a, b, c, d, e⟩
    refine ⟨⟨fun k => d ?_, fun k => b ?_, fun k => e ?_, fun k => a ?_⟩, fun k => d ?_, fun k => c ?_, fun k => e ?_, fun k => b ?_⟩ <;>
      linarith

/-- Concrete case of `generate_lid_inside`. The lid is not empty. -/
example : ∃ lid, generateLid (some lidPlates) 0 3 = some lid ∧
    (false, some (quadAt (lidNode (-15 / 2) (15 / 2) (-10) 10 0 5 5) 1 1)) ∈ lid.shapes := by
  obtain ⟨lid, h1, h2⟩ := generate_lid_inside (z := 0) (by simp [lidPlates]) lidPlates_convex lidPlates_bounds
    (by norm_num) (by norm_num) (by norm_num) pyramid_resolution (by norm_num) (fun q => |q.x| < 15 / 2 ∧ |q.y| < 10) (by
      intro q hq
      rw [lidPlates_edges] at hq
      obtain ⟨a, b, c, d, e⟩ := hq
      rw [← panelsBelow_eq lidPlates_convex, lidPlates_count]
      by_cases hw : |q.x| < 15 / 2 ∧ |q.y| < 10
      · rw [if_pos hw]
        obtain ⟨hx, hy⟩ := hw
        rw [abs_lt] at hx
        rcases lt_or_gt_of_ne b with hb | hb
        · rw [if_pos ⟨by linarith, hb.le, hy.le⟩, if_neg (by rintro ⟨k, -⟩; linarith)]
        · rw [if_neg (by rintro ⟨-, k, -⟩; linarith), if_pos ⟨hb.le, hx.2.le, hy.le⟩]
      · rw [if_neg hw, if_neg, if_neg]
        · rintro ⟨k1, k2, k3⟩
          rw [abs_le] at k3
          refine hw ⟨abs_lt.2 ⟨by linarith, lt_of_le_of_ne k2 c⟩, abs_lt.2 ⟨lt_of_le_of_ne k3.1 (Ne.symm d), lt_of_le_of_ne k3.2 e⟩⟩
        · rintro ⟨k1, k2, k3⟩
          rw [abs_le] at k3
          refine hw ⟨abs_lt.2 ⟨by have := lt_of_le_of_ne k1 (Ne.symm a); linarith, by linarith⟩,
            abs_lt.2 ⟨lt_of_le_of_ne k3.1 (Ne.symm d), lt_of_le_of_ne k3.2 e⟩⟩) (by
      intro i hi j hj
      refine (lidPlates_edges _).2 ?_
      interval_cases i <;> interval_cases j <;> simp only [lidNode] <;> norm_num)
  refine ⟨lid, h1, (h2 _).2 ⟨1, by norm_num, 1, by norm_num, rfl, ?_⟩⟩
  intro q hq
  simp only [cornerList, quadAt, List.mem_cons, List.not_mem_nil, or_false] at hq
  rcases hq with rfl | rfl | rfl | rfl <;> simp only [lidNode, abs_lt] <;> norm_num

end Verif.Meshes
