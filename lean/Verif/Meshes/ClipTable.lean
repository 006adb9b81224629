import Verif.Meshes.ClipGeometry
import Verif.Meshes.TreeProps
import Mathlib.Tactic.IntervalCases

/-!
# The table of the clipping of a panel

In each case of the table, the pieces cover exactly the part of the panel under the plane.
-/

namespace Verif.Meshes

open Verif.Geometry V3

/-! ## Specification -/

/-- The points of a panel, from its four corners. The last corner of a triangle is the first one
(see `quadrangle_last`). -/
def panelSet (c : V3 ℝ × V3 ℝ × V3 ℝ × V3 ℝ) : Set (V3 ℝ) := quadrangle c.1 c.2.1 c.2.2.1 c.2.2.2

/-- Twice the area of a flat panel times its normal. -/
def areaVector (c : V3 ℝ × V3 ℝ × V3 ℝ × V3 ℝ) : V3 ℝ := cross (c.2.2.1 - c.1) (c.2.2.2 - c.2.1)

/-- A vertex which is on the plane, or out of the tolerance. -/
def Sharp (tol : ℝ) (P : Plane) (p : V3 ℝ) : Prop := P.distanceToPoint p = 0 ∨ tol < |P.distanceToPoint p|

/-- A quadrangle with four different edges, flat and convex, such that when three corners are on the plane, the
fourth is too. -/
structure Clean (P : Plane) (a b c d : V3 ℝ) : Prop where
  flat : FlatConvex a b c d
  ab : a ≠ b
  bc : b ≠ c
  cd : c ≠ d
  da : d ≠ a
  on_d : P.distanceToPoint a = 0 → P.distanceToPoint b = 0 → P.distanceToPoint c = 0 → P.distanceToPoint d = 0
  on_a : P.distanceToPoint b = 0 → P.distanceToPoint c = 0 → P.distanceToPoint d = 0 → P.distanceToPoint a = 0
  on_b : P.distanceToPoint c = 0 → P.distanceToPoint d = 0 → P.distanceToPoint a = 0 → P.distanceToPoint b = 0
  on_c : P.distanceToPoint d = 0 → P.distanceToPoint a = 0 → P.distanceToPoint b = 0 → P.distanceToPoint c = 0

open Classical in
/-- What has to be kept of a panel with the corners `l`: what is under the plane, unless no corner is. -/
noncomputable def kept (P : Plane) (l : List (V3 ℝ)) (S : Set (V3 ℝ)) : Set (V3 ℝ) :=
  if ∃ p ∈ l, P.distanceToPoint p < 0 then S ∩ under P else ∅

/-! ## The table -/

theorem Clean.rotate {P : Plane} {a b c d : V3 ℝ} (h : Clean P a b c d) : Clean P b c d a :=
  ⟨h.flat.rotate, h.bc, h.cd, h.da, h.ab, h.on_a, h.on_b, h.on_c, h.on_d⟩

/-- The corner of a piece, from the corners of the rolled face. -/
noncomputable def cornerPoint (P : Plane) (r : List (V3 ℝ)) (cuts : List (ℕ × ℕ)) : CutCorner → Option (V3 ℝ)
  | .old i => r[i]?
  | .cut k => cuts[k]?.bind fun e => r[e.1]?.bind fun p => r[e.2]?.map fun q => zeroPoint P p q

/-- A piece given by points. -/
noncomputable def pieceShape (P : Plane) (r : List (V3 ℝ)) (cuts : List (ℕ × ℕ)) :
    List CutCorner → Option (V3 ℝ × V3 ℝ × V3 ℝ × V3 ℝ)
  | [x, y, z, t] =>
    match cornerPoint P r cuts x, cornerPoint P r cuts y, cornerPoint P r cuts z, cornerPoint P r cuts t with
    | some a, some b, some c, some d => some (a, b, c, d)
    | _, _, _, _ => none
  | _ => none

/-- The union of panels. -/
def unionSet (l : List (V3 ℝ × V3 ℝ × V3 ℝ × V3 ℝ)) : Set (V3 ℝ) := {x | ∃ c ∈ l, x ∈ panelSet c}

theorem unionSet_nil : unionSet [] = ∅ := by
  ext x
  simp [unionSet]

theorem unionSet_cons (c : V3 ℝ × V3 ℝ × V3 ℝ × V3 ℝ) (l : List (V3 ℝ × V3 ℝ × V3 ℝ × V3 ℝ)) :
    unionSet (c :: l) = panelSet c ∪ unionSet l := by
  ext x
  simp [unionSet]

theorem unionSet_append (l l' : List (V3 ℝ × V3 ℝ × V3 ℝ × V3 ℝ)) :
    unionSet (l ++ l') = unionSet l ∪ unionSet l' := by
  ext x
  simp [unionSet, or_and_right, exists_or]

/-- Two corners of the rolled face are the ends of one of its edges. -/
def NextCorners (n i j : ℕ) : Prop := j = i + 1 ∧ j < n ∨ i = 0 ∧ j + 1 = n ∨ i = j + 1 ∧ i < n

/-- The cuts and the pieces are right for the rolled face `r`, which covers the set `S` and has the area vector `N`. -/
structure GoodPlan (P : Plane) (r : List (V3 ℝ)) (S : Set (V3 ℝ)) (N : V3 ℝ) (cuts : List (ℕ × ℕ))
    (pieces : List (List CutCorner)) : Prop where
  cuts_ok : ∀ e ∈ cuts, NextCorners r.length e.1 e.2 ∧ ∃ p q, r[e.1]? = some p ∧ r[e.2]? = some q ∧
    ((0 ≤ P.distanceToPoint p ∧ P.distanceToPoint q < 0) ∨ (P.distanceToPoint p < 0 ∧ 0 ≤ P.distanceToPoint q))
  pieces_ok : ∃ qs, pieces.mapM (pieceShape P r cuts) = some qs ∧ unionSet qs = kept P r S ∧
    ∀ q ∈ qs, ∃ k : ℝ, 0 ≤ k ∧ areaVector q = k • N

theorem kept_of_mem {P : Plane} {l : List (V3 ℝ)} {S : Set (V3 ℝ)} {p : V3 ℝ} (hp : p ∈ l) (h : P.distanceToPoint p < 0) :
    kept P l S = S ∩ under P := by
  rw [kept, if_pos ⟨p, hp, h⟩]

theorem kept_none {P : Plane} {l : List (V3 ℝ)} {S : Set (V3 ℝ)} (h : ∀ p ∈ l, 0 ≤ P.distanceToPoint p) :
    kept P l S = ∅ := by
  rw [kept, if_neg]
  rintro ⟨p, hp, hlt⟩
  exact absurd (h p hp) (not_le.mpr hlt)

/-! ### Orientation -/

theorem zeroPoint_param {P : Plane} {p q : V3 ℝ}
    (h : (0 ≤ P.distanceToPoint p ∧ P.distanceToPoint q < 0) ∨ (P.distanceToPoint p < 0 ∧ 0 ≤ P.distanceToPoint q)) :
    ∃ t : ℝ, 0 ≤ t ∧ t ≤ 1 ∧ zeroPoint P p q = (1 - t) • p + t • q := by
  refine ⟨_, ?_, ?_, rfl⟩
  · rcases h with ⟨h1, h2⟩ | ⟨h1, h2⟩
    · exact div_nonneg h1 (by linarith)
    · exact div_nonneg_of_nonpos h1.le (by linarith)
  · rcases h with ⟨h1, h2⟩ | ⟨h1, h2⟩
    · rw [div_le_one (by linarith)]
      linarith
    · rw [div_le_one_of_neg (by linarith)]
      linarith

/-- The triangles of a flat quadrangle have its orientation. -/
theorem flat_areas {a b c d : V3 ℝ} (h : FlatConvex a b c d) :
    ∃ s t : ℝ, 0 ≤ s ∧ s ≤ 1 ∧ 0 ≤ t ∧ t ≤ 1 ∧ cross (b - a) (d - a) = s • areaVector (a, b, c, d) ∧
      cross (c - b) (d - b) = (1 - s) • areaVector (a, b, c, d) ∧
      cross (b - a) (c - a) = t • areaVector (a, b, c, d) ∧
      cross (c - a) (d - a) = (1 - t) • areaVector (a, b, c, d) := by
  obtain ⟨s, t, hs0, hs1, ht0, ht1, h⟩ := h
  have hx := congrArg V3.x h
  have hy := congrArg V3.y h
  have hz := congrArg V3.z h
  simp only [add_x, add_y, add_z, smul_x, smul_y, smul_z] at hx hy hz
  refine ⟨s, t, hs0, hs1, ht0, ht1, ?_, ?_, ?_, ?_⟩
  · ext
    · simp [areaVector]
      linear_combination (d.y - b.y) * hz - (d.z - b.z) * hy
    · simp [areaVector]
      linear_combination (d.z - b.z) * hx - (d.x - b.x) * hz
    · simp [areaVector]
      linear_combination (d.x - b.x) * hy - (d.y - b.y) * hx
  · ext
    · simp [areaVector]
      linear_combination -(d.y - b.y) * hz + (d.z - b.z) * hy
    · simp [areaVector]
      linear_combination -(d.z - b.z) * hx + (d.x - b.x) * hz
    · simp [areaVector]
      linear_combination -(d.x - b.x) * hy + (d.y - b.y) * hx
  · ext
    · simp [areaVector]
      linear_combination (c.y - a.y) * hz - (c.z - a.z) * hy
    · simp [areaVector]
      linear_combination (c.z - a.z) * hx - (c.x - a.x) * hz
    · simp [areaVector]
      linear_combination (c.x - a.x) * hy - (c.y - a.y) * hx
  · ext
    · simp [areaVector]
      linear_combination -(c.y - a.y) * hz + (c.z - a.z) * hy
    · simp [areaVector]
      linear_combination -(c.z - a.z) * hx + (c.x - a.x) * hz
    · simp [areaVector]
      linear_combination -(c.x - a.x) * hy + (c.y - a.y) * hx


theorem areaVector_rotate (a b c d : V3 ℝ) : areaVector (b, c, d, a) = areaVector (a, b, c, d) := by
  simp only [areaVector]
  ext <;> simp <;> ring

/-- A set and an orientation, for a piece. -/
def Piece (P : Plane) (S : Set (V3 ℝ)) (N : V3 ℝ) (q : V3 ℝ × V3 ℝ × V3 ℝ × V3 ℝ) : Prop :=
  panelSet q = S ∩ under P ∧ ∃ k : ℝ, 0 ≤ k ∧ areaVector q = k • N

theorem tip_triangle {P : Plane} {a b c : V3 ℝ} (ha : P.distanceToPoint a < 0) (hb : 0 ≤ P.distanceToPoint b)
    (hc : 0 ≤ P.distanceToPoint c) : Piece P (triangle a b c) (areaVector (a, b, c, a))
      (zeroPoint P a c, a, zeroPoint P a b, zeroPoint P a c) := by
  refine ⟨?_, ?_⟩
  · rw [panelSet, quadrangle_last, triangle_tip P a b c ha hb hc]
  · obtain ⟨p, hp0, hp1, hp⟩ := zeroPoint_param (P := P) (p := a) (q := b) (.inr ⟨ha, hb⟩)
    obtain ⟨q, hq0, hq1, hq⟩ := zeroPoint_param (P := P) (p := a) (q := c) (.inr ⟨ha, hc⟩)
    refine ⟨p * q, by positivity, ?_⟩
    rw [hp, hq]
    simp only [areaVector]
    ext <;> simp <;> ring

theorem trunk_triangle {P : Plane} {a b c : V3 ℝ} (ha : 0 ≤ P.distanceToPoint a) (hb : P.distanceToPoint b < 0)
    (hc : P.distanceToPoint c < 0) : Piece P (triangle a b c) (areaVector (a, b, c, a))
      (zeroPoint P a b, b, c, zeroPoint P a c) := by
  refine ⟨?_, ?_⟩
  · rw [panelSet, triangle_trunk P a b c ha hb hc]
  · obtain ⟨p, hp0, hp1, hp⟩ := zeroPoint_param (P := P) (p := a) (q := b) (.inl ⟨ha, hb⟩)
    obtain ⟨q, hq0, hq1, hq⟩ := zeroPoint_param (P := P) (p := a) (q := c) (.inl ⟨ha, hc⟩)
    refine ⟨1 - p * q, by nlinarith, ?_⟩
    rw [hp, hq]
    simp only [areaVector]
    ext <;> simp <;> ring

theorem tip_quadrangle {P : Plane} {a b c d : V3 ℝ} (h : FlatConvex a b c d) (ha : P.distanceToPoint a < 0)
    (hb : 0 ≤ P.distanceToPoint b) (hc : 0 ≤ P.distanceToPoint c) (hd : 0 ≤ P.distanceToPoint d) :
    Piece P (quadrangle a b c d) (areaVector (a, b, c, d)) (zeroPoint P a d, a, zeroPoint P a b, zeroPoint P a d) := by
  refine ⟨?_, ?_⟩
  · rw [panelSet, quadrangle_last, quadrangle_one_below P a b c d h ha hb hc hd]
  · obtain ⟨-, k, hk, hk'⟩ := tip_triangle (P := P) (a := a) (b := b) (c := d) ha hb hd
    obtain ⟨s, t, hs0, -, -, -, h1, -⟩ := flat_areas h
    refine ⟨k * s, by positivity, ?_⟩
    have e : areaVector (a, b, d, a) = s • areaVector (a, b, c, d) := by
      rw [← h1]
      simp only [areaVector]
      ext <;> simp <;> ring
    rw [hk', e]
    ext <;> simp <;> ring

theorem two_quadrangle {P : Plane} {a b c d : V3 ℝ} (h : FlatConvex a b c d) (ha : 0 ≤ P.distanceToPoint a)
    (hb : P.distanceToPoint b < 0) (hc : P.distanceToPoint c < 0) (hd : 0 ≤ P.distanceToPoint d) :
    Piece P (quadrangle a b c d) (areaVector (a, b, c, d)) (zeroPoint P a b, b, c, zeroPoint P c d) := by
  refine ⟨?_, ?_⟩
  · rw [panelSet, quadrangle_two_below P a b c d h ha hb hc hd]
  · obtain ⟨p, hp0, hp1, hp⟩ := zeroPoint_param (P := P) (p := a) (q := b) (.inl ⟨ha, hb⟩)
    obtain ⟨q, hq0, hq1, hq⟩ := zeroPoint_param (P := P) (p := c) (q := d) (.inr ⟨hc, hd⟩)
    obtain ⟨s, t, hs0, hs1, ht0, ht1, h1, h2, h3, h4⟩ := flat_areas h
    have hp' : 0 ≤ 1 - p := by linarith
    have hs' : 0 ≤ 1 - s := by linarith
    have ht' : 0 ≤ 1 - t := by linarith
    refine ⟨t * (1 - p) + q * ((1 - t) * (1 - p) + p * (1 - s)), by positivity, ?_⟩
    have e : areaVector (zeroPoint P a b, b, c, zeroPoint P c d) = (1 - p) • cross (b - a) (c - a) +
        (q * (1 - p)) • cross (c - a) (d - a) + (q * p) • cross (c - b) (d - b) := by
      rw [hp, hq]
      simp only [areaVector]
      ext <;> simp <;> ring
    rw [e, h2, h3, h4]
    ext <;> simp <;> ring

theorem one_quadrangle {P : Plane} {a b c d : V3 ℝ} (h : FlatConvex a b c d) (ha : 0 ≤ P.distanceToPoint a)
    (hb : P.distanceToPoint b < 0) (hc : P.distanceToPoint c < 0) (hd : P.distanceToPoint d < 0) :
    panelSet (zeroPoint P a b, b, d, zeroPoint P a d) ∪ panelSet (b, c, d, b) = quadrangle a b c d ∩ under P ∧
      (∃ k : ℝ, 0 ≤ k ∧ areaVector (zeroPoint P a b, b, d, zeroPoint P a d) = k • areaVector (a, b, c, d)) ∧
      ∃ k : ℝ, 0 ≤ k ∧ areaVector (b, c, d, b) = k • areaVector (a, b, c, d) := by
  obtain ⟨s, t, hs0, hs1, ht0, ht1, h1, h2, h3, h4⟩ := flat_areas h
  refine ⟨?_, ?_, ?_⟩
  · rw [panelSet, panelSet, quadrangle_last, quadrangle_one_above P a b c d h ha hb hc hd]
  · obtain ⟨-, k, hk, hk'⟩ := trunk_triangle (P := P) (a := a) (b := b) (c := d) ha hb hd
    refine ⟨k * s, by positivity, ?_⟩
    have e : areaVector (a, b, d, a) = s • areaVector (a, b, c, d) := by
      rw [← h1]
      simp only [areaVector]
      ext <;> simp <;> ring
    rw [hk', e]
    ext <;> simp <;> ring
  · refine ⟨1 - s, by linarith, ?_⟩
    rw [← h2]
    simp only [areaVector]
    ext <;> simp <;> ring

/-! ### The cases of the table -/

theorem good_piece {P : Plane} {r : List (V3 ℝ)} {S : Set (V3 ℝ)} {N : V3 ℝ} {cuts : List (ℕ × ℕ)} {c : List CutCorner}
    {q : V3 ℝ × V3 ℝ × V3 ℝ × V3 ℝ}
    (hcuts : ∀ e ∈ cuts, NextCorners r.length e.1 e.2 ∧ ∃ p q, r[e.1]? = some p ∧ r[e.2]? = some q ∧
      ((0 ≤ P.distanceToPoint p ∧ P.distanceToPoint q < 0) ∨ (P.distanceToPoint p < 0 ∧ 0 ≤ P.distanceToPoint q)))
    (hq : pieceShape P r cuts c = some q) (h : Piece P S N q) (hr : ∃ p ∈ r, P.distanceToPoint p < 0) :
    GoodPlan P r S N cuts [c] := by
  obtain ⟨p, hp, hp'⟩ := hr
  refine ⟨hcuts, [q], ?_, ?_, ?_⟩
  · rw [List.mapM_cons, hq]
    rfl
  · rw [unionSet_cons, unionSet_nil, Set.union_empty, h.1, kept_of_mem hp hp']
  · intro q' hq'
    rw [List.mem_singleton] at hq'
    subst hq'
    exact h.2

theorem good_202 {P : Plane} {a b c d : V3 ℝ} (h : FlatConvex a b c d) (ha : 0 < P.distanceToPoint a)
    (hb : P.distanceToPoint b < 0) (hc : P.distanceToPoint c < 0) (hd : 0 < P.distanceToPoint d) :
    GoodPlan P [a, b, c, d] (quadrangle a b c d) (areaVector (a, b, c, d)) [(0, 1), (2, 3)]
      [[.cut 0, .old 1, .old 2, .cut 1]] := by
  refine good_piece ?_ rfl (two_quadrangle h ha.le hb hc hd.le) ⟨b, by simp, hb⟩
  simp [NextCorners, ha.le, hb, hc, hd.le]

theorem good_301 {P : Plane} {a b c d : V3 ℝ} (h : FlatConvex a b c d) (ha : P.distanceToPoint a < 0)
    (hb : 0 < P.distanceToPoint b) (hc : 0 < P.distanceToPoint c) (hd : 0 < P.distanceToPoint d) :
    GoodPlan P [a, b, c, d] (quadrangle a b c d) (areaVector (a, b, c, d)) [(0, 3), (0, 1)]
      [[.cut 0, .old 0, .cut 1, .cut 0]] := by
  refine good_piece ?_ rfl (tip_quadrangle h ha hb.le hc.le hd.le) ⟨a, by simp, ha⟩
  simp [NextCorners, ha, hb.le, hd.le]

theorem good_103 {P : Plane} {a b c d : V3 ℝ} (h : FlatConvex a b c d) (ha : 0 < P.distanceToPoint a)
    (hb : P.distanceToPoint b < 0) (hc : P.distanceToPoint c < 0) (hd : P.distanceToPoint d < 0) :
    GoodPlan P [a, b, c, d] (quadrangle a b c d) (areaVector (a, b, c, d)) [(0, 1), (0, 3)]
      [[.cut 0, .old 1, .old 3, .cut 1], [.old 1, .old 2, .old 3, .old 1]] := by
  obtain ⟨h1, h2, h3⟩ := one_quadrangle h ha.le hb hc hd
  refine ⟨by simp [NextCorners, ha.le, hb, hd],
    [(zeroPoint P a b, b, d, zeroPoint P a d), (b, c, d, b)], rfl, ?_, ?_⟩
  · rw [unionSet_cons, unionSet_cons, unionSet_nil, Set.union_empty, h1, kept_of_mem (p := b) (by simp) hb]
  · intro q hq
    simp only [List.mem_cons, List.not_mem_nil, or_false] at hq
    rcases hq with rfl | rfl
    · exact h2
    · exact h3

theorem good_211_neg {P : Plane} {a b c d : V3 ℝ} (h : FlatConvex a b c d) (ha : P.distanceToPoint a = 0)
    (hb : P.distanceToPoint b < 0) (hc : 0 < P.distanceToPoint c) (hd : 0 < P.distanceToPoint d) :
    GoodPlan P [a, b, c, d] (quadrangle a b c d) (areaVector (a, b, c, d)) [(1, 2)]
      [[.old 0, .old 1, .cut 0, .old 0]] := by
  refine good_piece ?_ rfl ?_ ⟨b, by simp, hb⟩
  · simp [NextCorners, hb, hc.le]
  · have := tip_quadrangle h.rotate hb hc.le hd.le ha.ge
    rwa [zeroPoint_of_zero' P b a ha hb.ne, ← quadrangle_rotate, areaVector_rotate] at this

theorem good_211_pos {P : Plane} {a b c d : V3 ℝ} (h : FlatConvex a b c d) (ha : P.distanceToPoint a = 0)
    (hb : 0 < P.distanceToPoint b) (hc : 0 < P.distanceToPoint c) (hd : P.distanceToPoint d < 0) :
    GoodPlan P [a, b, c, d] (quadrangle a b c d) (areaVector (a, b, c, d)) [(2, 3)]
      [[.cut 0, .old 3, .old 0, .cut 0]] := by
  refine good_piece ?_ rfl ?_ ⟨d, by simp, hd⟩
  · simp [NextCorners, hd, hc.le]
  · have := tip_quadrangle h.rotate.rotate.rotate hd ha.ge hb.le hc.le
    rwa [zeroPoint_of_zero' P d a ha hd.ne, zeroPoint_comm P d c (by linarith), ← quadrangle_rotate c,
      ← quadrangle_rotate b, ← quadrangle_rotate a, areaVector_rotate c, areaVector_rotate b, areaVector_rotate a] at this

theorem good_112_neg {P : Plane} {a b c d : V3 ℝ} (h : FlatConvex a b c d) (ha : P.distanceToPoint a = 0)
    (hb : P.distanceToPoint b < 0) (hc : P.distanceToPoint c < 0) (hd : 0 < P.distanceToPoint d) :
    GoodPlan P [a, b, c, d] (quadrangle a b c d) (areaVector (a, b, c, d)) [(2, 3)]
      [[.old 0, .old 1, .old 2, .cut 0]] := by
  refine good_piece ?_ rfl ?_ ⟨b, by simp, hb⟩
  · simp [NextCorners, hc, hd.le]
  · have := two_quadrangle h ha.ge hb hc hd.le
    rwa [zeroPoint_of_zero P a b ha] at this

theorem good_112_pos {P : Plane} {a b c d : V3 ℝ} (h : FlatConvex a b c d) (ha : P.distanceToPoint a = 0)
    (hb : 0 < P.distanceToPoint b) (hc : P.distanceToPoint c < 0) (hd : P.distanceToPoint d < 0) :
    GoodPlan P [a, b, c, d] (quadrangle a b c d) (areaVector (a, b, c, d)) [(1, 2)]
      [[.cut 0, .old 2, .old 3, .old 0]] := by
  refine good_piece ?_ rfl ?_ ⟨c, by simp, hc⟩
  · simp [NextCorners, hc, hb.le]
  · have := two_quadrangle h.rotate hb.le hc hd ha.ge
    rwa [zeroPoint_of_zero' P d a ha hd.ne, ← quadrangle_rotate, areaVector_rotate] at this

theorem good_121 {P : Plane} {a b c d : V3 ℝ} (h : FlatConvex a b c d) (ha : 0 < P.distanceToPoint a)
    (hb : P.distanceToPoint b = 0) (hc : P.distanceToPoint c < 0) (hd : P.distanceToPoint d = 0) :
    GoodPlan P [a, b, c, d] (quadrangle a b c d) (areaVector (a, b, c, d)) []
      [[.old 1, .old 2, .old 3, .old 1]] := by
  refine good_piece (by simp) rfl ?_ ⟨c, by simp, hc⟩
  have := tip_quadrangle h.rotate.rotate hc hd.ge ha.le hb.ge
  rwa [zeroPoint_of_zero' P c b hb hc.ne, zeroPoint_of_zero' P c d hd hc.ne, ← quadrangle_rotate b, ← quadrangle_rotate a,
    areaVector_rotate b, areaVector_rotate a] at this

/-- A panel with no corner above the plane is kept. -/
theorem good_whole {P : Plane} {a b c d : V3 ℝ} (ha : P.distanceToPoint a ≤ 0) (hb : P.distanceToPoint b ≤ 0)
    (hc : P.distanceToPoint c ≤ 0) (hd : P.distanceToPoint d ≤ 0) (hr : ∃ p ∈ [a, b, c, d], P.distanceToPoint p < 0) :
    GoodPlan P [a, b, c, d] (quadrangle a b c d) (areaVector (a, b, c, d)) [] [wholeFace 4] := by
  refine good_piece (by simp) (q := (a, b, c, d)) rfl ⟨?_, 1, by norm_num, by ext <;> simp⟩ hr
  rw [panelSet]
  exact (Set.inter_eq_left.mpr (quadrangle_subset (conv_under P) ha hb hc hd)).symm

/-- A panel with no corner under the plane is removed. -/
theorem good_none {P : Plane} {r : List (V3 ℝ)} {S : Set (V3 ℝ)} {N : V3 ℝ} (h : ∀ p ∈ r, 0 ≤ P.distanceToPoint p) :
    GoodPlan P r S N [] [] :=
  ⟨by simp, [], rfl, by rw [unionSet_nil, kept_none h], by simp⟩

theorem good_102 {P : Plane} {a b c : V3 ℝ} (ha : 0 < P.distanceToPoint a)
    (hb : P.distanceToPoint b < 0) (hc : P.distanceToPoint c < 0) :
    GoodPlan P [a, b, c] (triangle a b c) (areaVector (a, b, c, a)) [(0, 1), (0, 2)]
      [[.cut 0, .old 1, .old 2, .cut 1]] := by
  refine good_piece ?_ rfl (trunk_triangle ha.le hb hc) ⟨b, by simp, hb⟩
  simp [NextCorners, ha.le, hb, hc]

theorem good_201 {P : Plane} {a b c : V3 ℝ} (ha : P.distanceToPoint a < 0)
    (hb : 0 < P.distanceToPoint b) (hc : 0 < P.distanceToPoint c) :
    GoodPlan P [a, b, c] (triangle a b c) (areaVector (a, b, c, a)) [(0, 2), (0, 1)]
      [[.cut 0, .old 0, .cut 1, .cut 0]] := by
  refine good_piece ?_ rfl (tip_triangle ha hb.le hc.le) ⟨a, by simp, ha⟩
  simp [NextCorners, ha, hb.le, hc.le]

theorem areaVector_rotate_triangle (a b c : V3 ℝ) : areaVector (b, c, a, b) = areaVector (a, b, c, a) := by
  simp only [areaVector]
  ext <;> simp <;> ring

theorem good_111_neg {P : Plane} {a b c : V3 ℝ} (ha : P.distanceToPoint a = 0)
    (hb : P.distanceToPoint b < 0) (hc : 0 < P.distanceToPoint c) :
    GoodPlan P [a, b, c] (triangle a b c) (areaVector (a, b, c, a)) [(1, 2)]
      [[.old 0, .old 1, .cut 0, .old 0]] := by
  refine good_piece ?_ rfl ?_ ⟨b, by simp, hb⟩
  · simp [NextCorners, hb, hc.le]
  · have := tip_triangle (c := a) hb hc.le ha.ge
    rwa [zeroPoint_of_zero' P b a ha hb.ne, ← triangle_rotate, areaVector_rotate_triangle] at this

theorem good_111_pos {P : Plane} {a b c : V3 ℝ} (ha : P.distanceToPoint a = 0)
    (hb : 0 < P.distanceToPoint b) (hc : P.distanceToPoint c < 0) :
    GoodPlan P [a, b, c] (triangle a b c) (areaVector (a, b, c, a)) [(1, 2)]
      [[.cut 0, .old 2, .old 0, .cut 0]] := by
  refine good_piece ?_ rfl ?_ ⟨c, by simp, hc⟩
  · simp [NextCorners, hc, hb.le]
  · have := tip_triangle (b := a) hc ha.ge hb.le
    rwa [zeroPoint_of_zero' P c a ha hc.ne, zeroPoint_comm P c b (by linarith), ← triangle_rotate b, ← triangle_rotate a,
      areaVector_rotate_triangle b, areaVector_rotate_triangle a] at this

theorem good_closed {P : Plane} {a b c : V3 ℝ} (ha : P.distanceToPoint a ≤ 0) (hb : P.distanceToPoint b ≤ 0)
    (hc : P.distanceToPoint c ≤ 0) (hr : ∃ p ∈ [a, b, c], P.distanceToPoint p < 0) :
    GoodPlan P [a, b, c] (triangle a b c) (areaVector (a, b, c, a)) [] [closedFace 3] := by
  refine good_piece (by simp) (q := (a, b, c, a)) rfl ⟨?_, 1, by norm_num, by ext <;> simp⟩ hr
  rw [panelSet, quadrangle_last]
  exact (Set.inter_eq_left.mpr (triangle_subset (conv_under P) ha hb hc)).symm


/-! ### All cases -/

theorem sharp_side {tol : ℝ} {P : Plane} {p : V3 ℝ} (htol : 0 < tol) (h : Sharp tol P p) :
    (sideOf tol (P.distanceToPoint p) = .above ∧ 0 < P.distanceToPoint p) ∨
      (sideOf tol (P.distanceToPoint p) = .on ∧ P.distanceToPoint p = 0) ∨
      (sideOf tol (P.distanceToPoint p) = .below ∧ P.distanceToPoint p < 0) := by
  rcases h with h | h
  · right; left
    refine ⟨?_, h⟩
    rw [h, sideOf, if_neg (by linarith), if_pos (by simpa using htol)]
  · rcases lt_or_ge (P.distanceToPoint p) 0 with hn | hn
    · right; right
      rw [abs_of_neg hn] at h
      refine ⟨?_, hn⟩
      rw [sideOf, if_neg (by linarith), if_neg (by rw [abs_of_neg hn]; linarith), if_pos (by linarith)]
    · left
      rw [abs_of_nonneg hn] at h
      exact ⟨by rw [sideOf, if_pos h], by linarith⟩

theorem no_cross {P : Plane} {a b c d : V3 ℝ} (h : FlatConvex a b c d) (ha : 0 ≤ P.distanceToPoint a)
    (hc : 0 ≤ P.distanceToPoint c) (hb : P.distanceToPoint b ≤ 0) (hd : P.distanceToPoint d ≤ 0)
    (hs : (0 < P.distanceToPoint a ∧ 0 < P.distanceToPoint c) ∨ (P.distanceToPoint b < 0 ∧ P.distanceToPoint d < 0)) :
    False := by
  obtain ⟨s, t, hs0, hs1, ht0, ht1, h⟩ := h
  have e := dist_pair P a c s
  rw [h, dist_pair P b d t] at e
  have h1 : 0 ≤ (1 - s) * P.distanceToPoint a := mul_nonneg (by linarith) ha
  have h2 : 0 ≤ s * P.distanceToPoint c := mul_nonneg hs0 hc
  have h3 : (1 - t) * P.distanceToPoint b ≤ 0 := mul_nonpos_of_nonneg_of_nonpos (by linarith) hb
  have h4 : t * P.distanceToPoint d ≤ 0 := mul_nonpos_of_nonneg_of_nonpos ht0 hd
  rcases hs with ⟨ha', hc'⟩ | ⟨hb', hd'⟩
  · have h5 : (1 - s) * P.distanceToPoint a = 0 := by linarith
    have h6 : s * P.distanceToPoint c = 0 := by linarith
    rcases mul_eq_zero.mp h5 with h5 | h5 <;> rcases mul_eq_zero.mp h6 with h6 | h6 <;> linarith
  · have h5 : (1 - t) * P.distanceToPoint b = 0 := by linarith
    have h6 : t * P.distanceToPoint d = 0 := by linarith
    rcases mul_eq_zero.mp h5 with h5 | h5 <;> rcases mul_eq_zero.mp h6 with h6 | h6 <;> linarith

theorem no_edge {P : Plane} {a b c d : V3 ℝ} (h : Clean P a b c d)
    (hab : (0 < P.distanceToPoint a ∧ P.distanceToPoint b < 0) ∨ (P.distanceToPoint a < 0 ∧ 0 < P.distanceToPoint b))
    (hc : P.distanceToPoint c = 0) (hd : P.distanceToPoint d = 0) : False := by
  obtain ⟨s, t, hs0, hs1, ht0, ht1, e⟩ := h.flat
  have e' := dist_pair P a c s
  rw [e, dist_pair P b d t, hc, hd, mul_zero, mul_zero, add_zero, add_zero] at e'
  have hs : 0 ≤ 1 - s := by linarith
  have ht : 0 ≤ 1 - t := by linarith
  have h0 : (1 - s) * P.distanceToPoint a = 0 ∧ (1 - t) * P.distanceToPoint b = 0 := by
    rcases hab with ⟨ha, hb⟩ | ⟨ha, hb⟩
    · have h1 := mul_nonneg hs ha.le
      have h2 := mul_nonpos_of_nonneg_of_nonpos ht hb.le
      constructor <;> linarith
    · have h1 := mul_nonneg ht hb.le
      have h2 := mul_nonpos_of_nonneg_of_nonpos hs ha.le
      constructor <;> linarith
  have hs' : s = 1 := by
    rcases mul_eq_zero.mp h0.1 with h1 | h1
    · linarith
    · rcases hab with ⟨ha, hb⟩ | ⟨ha, hb⟩ <;> linarith
  have ht' : t = 1 := by
    rcases mul_eq_zero.mp h0.2 with h1 | h1
    · linarith
    · rcases hab with ⟨ha, hb⟩ | ⟨ha, hb⟩ <;> linarith
  subst hs' ht'
  refine h.cd ?_
  have hx := congrArg V3.x e
  have hy := congrArg V3.y e
  have hz := congrArg V3.z e
  simp at hx hy hz
  ext <;> assumption

theorem good_turn1 {P : Plane} {a b c d : V3 ℝ} {cuts : List (ℕ × ℕ)} {pieces : List (List CutCorner)}
    (h : GoodPlan P [b, c, d, a] (quadrangle b c d a) (areaVector (b, c, d, a)) cuts pieces) :
    GoodPlan P ([a, b, c, d].rotate 1) (quadrangle a b c d) (areaVector (a, b, c, d)) cuts pieces := by
  rwa [← quadrangle_rotate, areaVector_rotate] at h

theorem good_turn2 {P : Plane} {a b c d : V3 ℝ} {cuts : List (ℕ × ℕ)} {pieces : List (List CutCorner)}
    (h : GoodPlan P [c, d, a, b] (quadrangle c d a b) (areaVector (c, d, a, b)) cuts pieces) :
    GoodPlan P ([a, b, c, d].rotate 2) (quadrangle a b c d) (areaVector (a, b, c, d)) cuts pieces := by
  rwa [← quadrangle_rotate, areaVector_rotate, ← quadrangle_rotate, areaVector_rotate] at h

theorem good_turn3 {P : Plane} {a b c d : V3 ℝ} {cuts : List (ℕ × ℕ)} {pieces : List (List CutCorner)}
    (h : GoodPlan P [d, a, b, c] (quadrangle d a b c) (areaVector (d, a, b, c)) cuts pieces) :
    GoodPlan P ([a, b, c, d].rotate 3) (quadrangle a b c d) (areaVector (a, b, c, d)) cuts pieces := by
  rwa [← quadrangle_rotate, areaVector_rotate, ← quadrangle_rotate, areaVector_rotate, ← quadrangle_rotate,
    areaVector_rotate] at h

theorem triangle_turn1 {P : Plane} {a b c : V3 ℝ} {cuts : List (ℕ × ℕ)} {pieces : List (List CutCorner)}
    (h : GoodPlan P [b, c, a] (triangle b c a) (areaVector (b, c, a, b)) cuts pieces) :
    GoodPlan P ([a, b, c].rotate 1) (triangle a b c) (areaVector (a, b, c, a)) cuts pieces := by
  rwa [← triangle_rotate, areaVector_rotate_triangle] at h

theorem triangle_turn2 {P : Plane} {a b c : V3 ℝ} {cuts : List (ℕ × ℕ)} {pieces : List (List CutCorner)}
    (h : GoodPlan P [c, a, b] (triangle c a b) (areaVector (c, a, b, c)) cuts pieces) :
    GoodPlan P ([a, b, c].rotate 2) (triangle a b c) (areaVector (a, b, c, a)) cuts pieces := by
  rwa [← triangle_rotate, areaVector_rotate_triangle, ← triangle_rotate, areaVector_rotate_triangle] at h

theorem good_none_triangle {P : Plane} {a b c : V3 ℝ} {S : Set (V3 ℝ)} {N : V3 ℝ} (ha : 0 ≤ P.distanceToPoint a)
    (hb : 0 ≤ P.distanceToPoint b) (hc : 0 ≤ P.distanceToPoint c) : GoodPlan P [a, b, c] S N [] [] :=
  good_none (by simp [ha, hb, hc])

theorem good_none_quadrangle {P : Plane} {a b c d : V3 ℝ} {S : Set (V3 ℝ)} {N : V3 ℝ} (ha : 0 ≤ P.distanceToPoint a)
    (hb : 0 ≤ P.distanceToPoint b) (hc : 0 ≤ P.distanceToPoint c) (hd : 0 ≤ P.distanceToPoint d) :
    GoodPlan P [a, b, c, d] S N [] [] :=
  good_none (by simp [ha, hb, hc, hd])

theorem plan_triangle {tol : ℝ} (htol : 0 < tol) {P : Plane} {a b c : V3 ℝ} (ha : Sharp tol P a) (hb : Sharp tol P b)
    (hc : Sharp tol P c) : ∃ pl, plan ([a, b, c].map fun p => sideOf tol (P.distanceToPoint p)) = some pl ∧
      GoodPlan P ([a, b, c].rotate pl.roll) (triangle a b c) (areaVector (a, b, c, a)) pl.cuts pl.pieces := by
  simp only [List.map_cons, List.map_nil]
  rcases sharp_side htol ha with ⟨sa, da⟩ | ⟨sa, da⟩ | ⟨sa, da⟩ <;>
  rcases sharp_side htol hb with ⟨sb, db⟩ | ⟨sb, db⟩ | ⟨sb, db⟩ <;>
  rcases sharp_side htol hc with ⟨sc, dc⟩ | ⟨sc, dc⟩ | ⟨sc, dc⟩ <;>
  rw [sa, sb, sc] <;>
  refine ⟨_, rfl, ?_⟩ <;>
  first
  | exact good_none_triangle (by linarith) (by linarith) (by linarith)
  | exact good_102 da db dc
  | exact good_201 da db dc
  | exact good_111_neg da db dc
  | exact good_111_pos da db dc
  | exact triangle_turn1 (good_102 db dc da)
  | exact triangle_turn1 (good_201 db dc da)
  | exact triangle_turn1 (good_111_neg db dc da)
  | exact triangle_turn1 (good_111_pos db dc da)
  | exact triangle_turn2 (good_102 dc da db)
  | exact triangle_turn2 (good_201 dc da db)
  | exact triangle_turn2 (good_111_neg dc da db)
  | exact triangle_turn2 (good_111_pos dc da db)
  | exact good_closed da.le db.le dc.le (by simp [da, db, dc])
  | exact triangle_turn1 (good_closed db.le dc.le da.le (by simp [da, db, dc]))
  | exact triangle_turn2 (good_closed dc.le da.le db.le (by simp [da, db, dc]))


set_option maxHeartbeats 2000000 in
theorem plan_quadrangle {tol : ℝ} (htol : 0 < tol) {P : Plane} {a b c d : V3 ℝ} (ha : Sharp tol P a) (hb : Sharp tol P b)
    (hc : Sharp tol P c) (hd : Sharp tol P d) (h : Clean P a b c d) :
    ∃ pl, plan ([a, b, c, d].map fun p => sideOf tol (P.distanceToPoint p)) = some pl ∧
      GoodPlan P ([a, b, c, d].rotate pl.roll) (quadrangle a b c d) (areaVector (a, b, c, d)) pl.cuts pl.pieces := by
  simp only [List.map_cons, List.map_nil]
  have h1 := h.rotate
  have h2 := h1.rotate
  have h3 := h2.rotate
  rcases sharp_side htol ha with ⟨sa, da⟩ | ⟨sa, da⟩ | ⟨sa, da⟩ <;>
  rcases sharp_side htol hb with ⟨sb, db⟩ | ⟨sb, db⟩ | ⟨sb, db⟩ <;>
  rcases sharp_side htol hc with ⟨sc, dc⟩ | ⟨sc, dc⟩ | ⟨sc, dc⟩ <;>
  rcases sharp_side htol hd with ⟨sd, dd⟩ | ⟨sd, dd⟩ | ⟨sd, dd⟩ <;>
  first
  | exact absurd (h.on_a db dc dd) da.ne
  | exact absurd (h.on_a db dc dd) da.ne'
  | exact absurd (h.on_b dc dd da) db.ne
  | exact absurd (h.on_b dc dd da) db.ne'
  | exact absurd (h.on_c dd da db) dc.ne
  | exact absurd (h.on_c dd da db) dc.ne'
  | exact absurd (h.on_d da db dc) dd.ne
  | exact absurd (h.on_d da db dc) dd.ne'
  | exact (no_cross h.flat da.le dc.le db.le dd.le (.inl ⟨da, dc⟩)).elim
  | exact (no_cross h.flat da.ge dc.le db.le dd.le (.inr ⟨db, dd⟩)).elim
  | exact (no_cross h.flat da.le dc.ge db.le dd.le (.inr ⟨db, dd⟩)).elim
  | exact (no_cross h.flat da.le dc.le db.le dd.le (.inr ⟨db, dd⟩)).elim
  | exact (no_cross h1.flat db.le dd.le dc.le da.le (.inl ⟨db, dd⟩)).elim
  | exact (no_cross h1.flat db.ge dd.le dc.le da.le (.inr ⟨dc, da⟩)).elim
  | exact (no_cross h1.flat db.le dd.ge dc.le da.le (.inr ⟨dc, da⟩)).elim
  | exact (no_edge h (.inl ⟨da, db⟩) dc dd).elim
  | exact (no_edge h (.inr ⟨da, db⟩) dc dd).elim
  | exact (no_edge h1 (.inl ⟨db, dc⟩) dd da).elim
  | exact (no_edge h1 (.inr ⟨db, dc⟩) dd da).elim
  | exact (no_edge h2 (.inl ⟨dc, dd⟩) da db).elim
  | exact (no_edge h2 (.inr ⟨dc, dd⟩) da db).elim
  | exact (no_edge h3 (.inl ⟨dd, da⟩) db dc).elim
  | exact (no_edge h3 (.inr ⟨dd, da⟩) db dc).elim
  | skip <;>
  rw [sa, sb, sc, sd] <;>
  refine ⟨_, rfl, ?_⟩ <;>
  first
  | exact good_none_quadrangle (by linarith) (by linarith) (by linarith) (by linarith)
  | exact good_whole da.le db.le dc.le dd.le (by simp [da, db, dc, dd])
  | exact good_202 h.flat da db dc dd
  | exact good_301 h.flat da db dc dd
  | exact good_103 h.flat da db dc dd
  | exact good_211_neg h.flat da db dc dd
  | exact good_211_pos h.flat da db dc dd
  | exact good_112_neg h.flat da db dc dd
  | exact good_112_pos h.flat da db dc dd
  | exact good_121 h.flat da db dc dd
  | exact good_turn1 (good_202 h1.flat db dc dd da)
  | exact good_turn1 (good_301 h1.flat db dc dd da)
  | exact good_turn1 (good_103 h1.flat db dc dd da)
  | exact good_turn1 (good_211_neg h1.flat db dc dd da)
  | exact good_turn1 (good_211_pos h1.flat db dc dd da)
  | exact good_turn1 (good_112_neg h1.flat db dc dd da)
  | exact good_turn1 (good_112_pos h1.flat db dc dd da)
  | exact good_turn1 (good_121 h1.flat db dc dd da)
  | exact good_turn1 (good_whole db.le dc.le dd.le da.le (by simp [da, db, dc, dd]))
  | exact good_turn2 (good_202 h2.flat dc dd da db)
  | exact good_turn2 (good_301 h2.flat dc dd da db)
  | exact good_turn2 (good_103 h2.flat dc dd da db)
  | exact good_turn2 (good_211_neg h2.flat dc dd da db)
  | exact good_turn2 (good_211_pos h2.flat dc dd da db)
  | exact good_turn2 (good_112_neg h2.flat dc dd da db)
  | exact good_turn2 (good_112_pos h2.flat dc dd da db)
  | exact good_turn2 (good_121 h2.flat dc dd da db)
  | exact good_turn2 (good_whole dc.le dd.le da.le db.le (by simp [da, db, dc, dd]))
  | exact good_turn3 (good_202 h3.flat dd da db dc)
  | exact good_turn3 (good_301 h3.flat dd da db dc)
  | exact good_turn3 (good_103 h3.flat dd da db dc)
  | exact good_turn3 (good_211_neg h3.flat dd da db dc)
  | exact good_turn3 (good_211_pos h3.flat dd da db dc)
  | exact good_turn3 (good_112_neg h3.flat dd da db dc)
  | exact good_turn3 (good_112_pos h3.flat dd da db dc)
  | exact good_turn3 (good_121 h3.flat dd da db dc)
  | exact good_turn3 (good_whole dd.le da.le db.le dc.le (by simp [da, db, dc, dd]))


end Verif.Meshes
