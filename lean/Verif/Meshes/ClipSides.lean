import Verif.Meshes.ClipProps

/-!
# When clipping a quadrangle gives corners on the kept side (C32)

The quadrangles of this file do not have to be flat.
-/

namespace Verif.Meshes

open Verif.Geometry V3

/-- A diagonal with both ends strictly on one side, the other diagonal being on the other side and not in the
plane. -/
def Crossing (x y z t : ℝ) : Prop :=
  (0 < x ∧ 0 < z ∧ y ≤ 0 ∧ t ≤ 0 ∧ (y < 0 ∨ t < 0)) ∨ (x < 0 ∧ z < 0 ∧ 0 ≤ y ∧ 0 ≤ t ∧ (0 < y ∨ 0 < t))

/-- Three corners in the plane, and not the fourth. -/
def OneOff (x y z t : ℝ) : Prop :=
  (x ≠ 0 ∧ y = 0 ∧ z = 0 ∧ t = 0) ∨ (x = 0 ∧ y ≠ 0 ∧ z = 0 ∧ t = 0) ∨ (x = 0 ∧ y = 0 ∧ z ≠ 0 ∧ t = 0) ∨
    (x = 0 ∧ y = 0 ∧ z = 0 ∧ t ≠ 0)

/-- On the rolled face: the cuts are edges with their ends on both sides, the corners of the pieces are not above the
plane, and the corners below are kept. -/
def sidesGood (l : List PlaneSide) : Bool :=
  match plan l with
  | none => false
  | some pl =>
    let r := l.rotate pl.roll
    (pl.cuts.all fun e => (decide (e.2 = e.1 + 1 ∧ e.2 < l.length ∨ e.1 = 0 ∧ e.2 + 1 = l.length ∨ e.1 = e.2 + 1 ∧ e.1 < l.length)) &&
      ((r[e.1]? == some .above && r[e.2]? == some .below) || (r[e.1]? == some .below && r[e.2]? == some .above))) &&
    (pl.pieces.all fun c => c.length == 4 && c.all fun
      | .old i => r[i]? == some .on || r[i]? == some .below
      | .cut k => decide (k < pl.cuts.length)) &&
    (List.range l.length).all fun i => !(r[i]? == some .below) || pl.pieces.any fun c => c.contains (.old i)

theorem sharp_signs {tol : ℝ} {P : Plane} {p : V3 ℝ} (htol : 0 < tol) (h : Sharp tol P p) :
    ∃ s, sideOf tol (P.distanceToPoint p) = s ∧ ((s = .above ∧ (0 < P.distanceToPoint p ↔ True) ∧
        (P.distanceToPoint p < 0 ↔ False) ∧ (P.distanceToPoint p = 0 ↔ False) ∧ (P.distanceToPoint p ≤ 0 ↔ False) ∧
        (0 ≤ P.distanceToPoint p ↔ True)) ∨
      (s = .on ∧ (0 < P.distanceToPoint p ↔ False) ∧ (P.distanceToPoint p < 0 ↔ False) ∧
        (P.distanceToPoint p = 0 ↔ True) ∧ (P.distanceToPoint p ≤ 0 ↔ True) ∧ (0 ≤ P.distanceToPoint p ↔ True)) ∨
      (s = .below ∧ (0 < P.distanceToPoint p ↔ False) ∧ (P.distanceToPoint p < 0 ↔ True) ∧
        (P.distanceToPoint p = 0 ↔ False) ∧ (P.distanceToPoint p ≤ 0 ↔ True) ∧ (0 ≤ P.distanceToPoint p ↔ False))) := by
  rcases sharp_side htol h with ⟨s, d⟩ | ⟨s, d⟩ | ⟨s, d⟩
  · exact ⟨_, s, .inl ⟨rfl, by simp [d], by simp [d.le], by simp [d.ne'], by simp [d], by simp [d.le]⟩⟩
  · exact ⟨_, s, .inr (.inl ⟨rfl, by simp [d], by simp [d], by simp [d], by simp [d], by simp [d]⟩)⟩
  · exact ⟨_, s, .inr (.inr ⟨rfl, by simp [d.le], by simp [d], by simp [d.ne], by simp [d.le], by simp [d]⟩)⟩

theorem sidesGood_iff {tol : ℝ} (htol : 0 < tol) {P : Plane} {a b c d : V3 ℝ} (ha : Sharp tol P a) (hb : Sharp tol P b)
    (hc : Sharp tol P c) (hd : Sharp tol P d) :
    sidesGood ([a, b, c, d].map fun p => sideOf tol (P.distanceToPoint p)) = true ↔
      ¬ Crossing (P.distanceToPoint a) (P.distanceToPoint b) (P.distanceToPoint c) (P.distanceToPoint d) ∧
      ¬ Crossing (P.distanceToPoint b) (P.distanceToPoint c) (P.distanceToPoint d) (P.distanceToPoint a) ∧
      ¬ OneOff (P.distanceToPoint a) (P.distanceToPoint b) (P.distanceToPoint c) (P.distanceToPoint d) := by
  simp only [List.map_cons, List.map_nil]
  unfold Crossing OneOff
  obtain ⟨s0, sa, ha⟩ := sharp_signs htol ha
  obtain ⟨s1, sb, hb⟩ := sharp_signs htol hb
  obtain ⟨s2, sc, hc⟩ := sharp_signs htol hc
  obtain ⟨s3, sd, hd⟩ := sharp_signs htol hd
  rw [sa, sb, sc, sd]
  clear sa sb sc sd
  rcases ha with ⟨rfl, a1, a2, a3, a4, a5⟩ | ⟨rfl, a1, a2, a3, a4, a5⟩ | ⟨rfl, a1, a2, a3, a4, a5⟩ <;>
  rcases hb with ⟨rfl, b1, b2, b3, b4, b5⟩ | ⟨rfl, b1, b2, b3, b4, b5⟩ | ⟨rfl, b1, b2, b3, b4, b5⟩ <;>
  rcases hc with ⟨rfl, c1, c2, c3, c4, c5⟩ | ⟨rfl, c1, c2, c3, c4, c5⟩ | ⟨rfl, c1, c2, c3, c4, c5⟩ <;>
  rcases hd with ⟨rfl, d1, d2, d3, d4, d5⟩ | ⟨rfl, d1, d2, d3, d4, d5⟩ | ⟨rfl, d1, d2, d3, d4, d5⟩ <;>
  simp only [a1, a2, a3, a4, a5, b1, b2, b3, b4, b5, c1, c2, c3, c4, c5, d1, d2, d3, d4, d5, ne_eq] <;>
  decide


theorem sideOf_pos {tol : ℝ} (htol : 0 < tol) {d : ℝ} (h : sideOf tol d = .above) : 0 < d := by
  unfold sideOf at h
  split_ifs at h
  linarith

theorem sideOf_neg {tol : ℝ} (htol : 0 < tol) {d : ℝ} (h : sideOf tol d = .below) : d < 0 := by
  unfold sideOf at h
  split_ifs at h
  linarith

theorem sideOf_zero {tol : ℝ} (htol : 0 < tol) {P : Plane} {p : V3 ℝ} (hp : Sharp tol P p)
    (h : sideOf tol (P.distanceToPoint p) = .on) : P.distanceToPoint p = 0 := by
  rcases sharp_side htol hp with ⟨h', -⟩ | ⟨-, h'⟩ | ⟨h', -⟩
  · rw [h] at h'; cases h'
  · exact h'
  · rw [h] at h'; cases h'

/-- No plan, or a piece with a corner above the plane. -/
def sidesBad (l : List PlaneSide) : Bool :=
  match plan l with
  | none => true
  | some pl => pl.pieces.any fun c => c.any fun
      | .old i => (l.rotate pl.roll)[i]? == some .above
      | .cut _ => false

theorem good_or_bad {tol : ℝ} (htol : 0 < tol) {P : Plane} {a b c d : V3 ℝ} (ha : Sharp tol P a) (hb : Sharp tol P b)
    (hc : Sharp tol P c) (hd : Sharp tol P d) :
    sidesGood ([a, b, c, d].map fun p => sideOf tol (P.distanceToPoint p)) = true ∨
      sidesBad ([a, b, c, d].map fun p => sideOf tol (P.distanceToPoint p)) = true := by
  simp only [List.map_cons, List.map_nil]
  rcases sharp_side htol ha with ⟨sa, -⟩ | ⟨sa, -⟩ | ⟨sa, -⟩ <;>
  rcases sharp_side htol hb with ⟨sb, -⟩ | ⟨sb, -⟩ | ⟨sb, -⟩ <;>
  rcases sharp_side htol hc with ⟨sc, -⟩ | ⟨sc, -⟩ | ⟨sc, -⟩ <;>
  rcases sharp_side htol hd with ⟨sd, -⟩ | ⟨sd, -⟩ | ⟨sd, -⟩ <;>
  rw [sa, sb, sc, sd] <;> decide

theorem mapM_mem {A B : Type} {f : A → Option B} {l : List A} {r : List B} (h : l.mapM f = some r) {x : A} (hx : x ∈ l) :
    ∃ y ∈ r, f x = some y := by
  induction l generalizing r with
  | nil => cases hx
  | cons a l ih =>
    rw [List.mapM_cons] at h
    cases ha : f a with
    | none => rw [ha] at h; cases h
    | some y =>
      rw [ha] at h
      cases hl : l.mapM f with
      | none => rw [hl] at h; cases h
      | some ys =>
        rw [hl] at h
        cases h
        rcases List.mem_cons.mp hx with rfl | hx
        · exact ⟨y, List.mem_cons_self, ha⟩
        · obtain ⟨z, hz, hz'⟩ := ih hl hx
          exact ⟨z, List.mem_cons_of_mem _ hz, hz'⟩

theorem mem_mapM {A B : Type} {f : A → Option B} {l : List A} {r : List B} (h : l.mapM f = some r) {y : B} (hy : y ∈ r) :
    ∃ x ∈ l, f x = some y := by
  induction l generalizing r with
  | nil =>
    simp only [List.mapM_nil] at h
    cases h
    cases hy
  | cons a l ih =>
    rw [List.mapM_cons] at h
    cases ha : f a with
    | none => rw [ha] at h; cases h
    | some z =>
      rw [ha] at h
      cases hl : l.mapM f with
      | none => rw [hl] at h; cases h
      | some ys =>
        rw [hl] at h
        cases h
        rcases List.mem_cons.mp hy with rfl | hy
        · exact ⟨a, List.mem_cons_self, ha⟩
        · obtain ⟨x, hx, hx'⟩ := ih hl hy
          exact ⟨x, List.mem_cons_of_mem _ hx, hx'⟩

theorem toFace_toList {l : List ℕ} {g : Face} (h : toFace l = some g) : g.toList = l := by
  unfold toFace at h
  split at h
  · cases h
    rfl
  · cases h

theorem toFace_total {l : List ℕ} (h : l.length = 4) : ∃ g, toFace l = some g := by
  match l, h with
  | [a, b, c, d], _ => exact ⟨⟨a, b, c, d⟩, rfl⟩

/-- C32 for a quadrangle, flat or not, whose corners are out of the tolerance or on the plane: clipping gives panels
with no corner above the plane, that keep all corners under the plane, and whose new corners are on the edges of the
quadrangle, exactly when no diagonal is on one side of the plane with the other diagonal on the other side, and when
there are not three corners only in the plane. -/
theorem clip_quadrangle_iff {tol : ℝ} (htol : 0 < tol) (P : Plane) (vs : List (V3 ℝ)) (f : Face) (a b c d : V3 ℝ)
    (hf : corners vs f = some (a, b, c, d)) (hq : f.isTriangle = false) (ha : Sharp tol P a) (hb : Sharp tol P b)
    (hc : Sharp tol P c) (hd : Sharp tol P d) :
    (∃ gs new, clipFace tol P vs vs.length f = some (gs, new) ∧
      (∀ x ∈ new, P.distanceToPoint x = 0 ∧ OnEdge [a, b, c, d] x) ∧
      (∀ g ∈ gs, ∀ i ∈ g.toList, ∃ p, (vs ++ new)[i]? = some p ∧ P.distanceToPoint p ≤ 0) ∧
      ∀ i ∈ f.toList, (∃ p, vs[i]? = some p ∧ P.distanceToPoint p < 0) → ∃ g ∈ gs, i ∈ g.toList) ↔
    ¬ Crossing (P.distanceToPoint a) (P.distanceToPoint b) (P.distanceToPoint c) (P.distanceToPoint d) ∧
      ¬ Crossing (P.distanceToPoint b) (P.distanceToPoint c) (P.distanceToPoint d) (P.distanceToPoint a) ∧
      ¬ OneOff (P.distanceToPoint a) (P.distanceToPoint b) (P.distanceToPoint c) (P.distanceToPoint d) := by
  rw [← sidesGood_iff htol ha hb hc hd]
  have hsel : select vs f.getFace = some [a, b, c, d] := by
    unfold corners at hf
    split at hf
    · rename_i p0 p1 p2 p3 h0 h1 h2 h3
      cases hf
      simp [Face.getFace, hq, select, List.mapM_cons, h0, h1, h2, h3]
    · cases hf
  have hids : f.getFace = f.toList := by simp [Face.getFace, hq, Face.toList]
  have hsharp : ∀ p ∈ [a, b, c, d], Sharp tol P p := by simp [ha, hb, hc, hd]
  have hsides : ∀ (k i : ℕ) s, (([a, b, c, d].map fun p => sideOf tol (P.distanceToPoint p)).rotate k)[i]? = some s →
      ∃ p, ([a, b, c, d].rotate k)[i]? = some p ∧ p ∈ [a, b, c, d] ∧ sideOf tol (P.distanceToPoint p) = s := by
    intro k i s h
    rw [← List.map_rotate, List.getElem?_map] at h
    obtain ⟨p, hp, hs⟩ := Option.map_eq_some_iff.mp h
    exact ⟨p, hp, by simpa using List.mem_of_getElem? hp, hs⟩
  constructor
  · rintro ⟨gs, new, h1, -, h3, -⟩
    rcases good_or_bad htol ha hb hc hd with h | h
    · exact h
    · exfalso
      unfold sidesBad at h
      unfold clipFace at h1
      simp only [hsel] at h1
      split at h
      · rename_i hpl
        rw [hpl] at h1
        cases h1
      · rename_i pl hpl
        rw [hpl] at h1
        simp only at h1
        split at h1
        · rename_i new' gs' hnew hgs
          cases h1
          rw [List.any_eq_true] at h
          obtain ⟨cs, hcs, h⟩ := h
          rw [List.any_eq_true] at h
          obtain ⟨x, hx, h⟩ := h
          cases x with
          | cut k => simp at h
          | old i =>
            simp only [beq_iff_eq] at h
            obtain ⟨p, hp, hp', hside⟩ := hsides _ _ _ h
            obtain ⟨g, hg, hg'⟩ := mapM_mem hgs hcs
            obtain ⟨js, hjs, htf⟩ := Option.bind_eq_some_iff.mp hg'
            obtain ⟨j, hj, hj'⟩ := mapM_mem hjs hx
            rw [← toFace_toList htf] at hj
            obtain ⟨q, hq', hq0⟩ := h3 g hg j hj
            have hr := select_iff.mp (select_rotate hsel pl.roll)
            obtain ⟨e1, e2⟩ := hr.2 i j hj'
            rw [hp] at e1
            rw [List.getElem?_append_left e2, ← e1] at hq'
            cases hq'
            have := sideOf_pos htol hside
            linarith
        · cases h1
  · intro h
    unfold sidesGood at h
    split at h
    · cases h
    · rename_i pl hpl
      simp only [Bool.and_eq_true, List.all_eq_true] at h
      obtain ⟨⟨h1, h2⟩, h3⟩ := h
      have hcuts : ∀ e ∈ pl.cuts, NextCorners ([a, b, c, d].rotate pl.roll).length e.1 e.2 ∧
          ∃ p q, ([a, b, c, d].rotate pl.roll)[e.1]? = some p ∧ ([a, b, c, d].rotate pl.roll)[e.2]? = some q ∧
          ((0 ≤ P.distanceToPoint p ∧ P.distanceToPoint q < 0) ∨ (P.distanceToPoint p < 0 ∧ 0 ≤ P.distanceToPoint q)) := by
        intro e he
        obtain ⟨hn, hs⟩ := h1 e he
        refine ⟨by simpa [NextCorners] using hn, ?_⟩
        simp only [Bool.or_eq_true, Bool.and_eq_true, beq_iff_eq] at hs
        rcases hs with ⟨s1, s2⟩ | ⟨s1, s2⟩
        · obtain ⟨p, hp, -, hp'⟩ := hsides _ _ _ s1
          obtain ⟨q, hq, -, hq'⟩ := hsides _ _ _ s2
          exact ⟨p, q, hp, hq, .inl ⟨(sideOf_pos htol hp').le, sideOf_neg htol hq'⟩⟩
        · obtain ⟨p, hp, -, hp'⟩ := hsides _ _ _ s1
          obtain ⟨q, hq, -, hq'⟩ := hsides _ _ _ s2
          exact ⟨p, q, hp, hq, .inr ⟨sideOf_neg htol hp', (sideOf_pos htol hq').le⟩⟩
      obtain ⟨new, n1, n2, n3, n4⟩ := cuts_total hcuts
      have hcorner : ∀ cs ∈ pl.pieces, ∀ x ∈ cs, ∃ p, cornerPoint P ([a, b, c, d].rotate pl.roll) pl.cuts x = some p ∧
          P.distanceToPoint p ≤ 0 := by
        intro cs hcs x hx
        have := (h2 cs hcs).2 x hx
        cases x with
        | old i =>
          simp only [Bool.or_eq_true, beq_iff_eq] at this
          rcases this with h | h
          · obtain ⟨p, hp, hp', hs⟩ := hsides _ _ _ h
            exact ⟨p, hp, (sideOf_zero htol (hsharp p hp') hs).le⟩
          · obtain ⟨p, hp, -, hs⟩ := hsides _ _ _ h
            exact ⟨p, hp, (sideOf_neg htol hs).le⟩
        | cut k =>
          simp only [decide_eq_true_eq] at this
          have hk : k < new.length := by omega
          rw [← n3 k]
          exact ⟨new[k], List.getElem?_eq_getElem hk, (n4 _ (List.getElem_mem hk)).1.le⟩
      have hext : Extends vs vs.length new (vs ++ new) := ⟨fun i p hp => by
        rw [List.getElem?_append_left (List.getElem?_eq_some_iff.mp hp).1, hp], fun k p hp => by
        rw [List.getElem?_append_right (by omega), Nat.add_sub_cancel_left, hp]⟩
      have hrot := select_rotate hsel pl.roll
      obtain ⟨gs, g1, -⟩ := mapM_total (fun c => (c.mapM (CutCorner.resolve (f.getFace.rotate pl.roll) vs.length)).bind toFace)
        pl.pieces fun cs hcs => by
          obtain ⟨js, j1, j2, -⟩ := mapM_total (CutCorner.resolve (f.getFace.rotate pl.roll) vs.length) cs fun x hx => by
            obtain ⟨p, hp, -⟩ := hcorner cs hcs x hx
            obtain ⟨i, hi, -⟩ := resolve_corner (n := vs.length) hrot n3 hp
            exact ⟨i, hi⟩
          have hl := (h2 cs hcs).1
          rw [beq_iff_eq] at hl
          obtain ⟨g, hg⟩ := toFace_total (j2.trans hl)
          exact ⟨g, by rw [j1, Option.bind_some, hg]⟩
      refine ⟨gs, new, ?_, ?_, ?_, ?_⟩
      · simp only [clipFace, hsel, hpl, n1, g1]
      · exact fun x hx => ⟨(n4 x hx).1, onEdge_rotate (n4 x hx).2⟩
      · intro g hg i hi
        obtain ⟨cs, hcs, hcs'⟩ := mem_mapM g1 hg
        obtain ⟨js, hjs, htf⟩ := Option.bind_eq_some_iff.mp hcs'
        rw [toFace_toList htf] at hi
        obtain ⟨x, hx, hx'⟩ := mem_mapM hjs hi
        obtain ⟨p, hp, hp0⟩ := hcorner cs hcs x hx
        obtain ⟨i', hi', -, hi''⟩ := resolve_corner (n := vs.length) hrot n3 hp
        rw [hx'] at hi'
        cases hi'
        exact ⟨p, hi'' _ hext, hp0⟩
      · rintro i hi ⟨p, hp, hp0⟩
        rw [← hids] at hi
        have hi2 : i ∈ f.getFace.rotate pl.roll := List.mem_rotate.mpr hi
        obtain ⟨k, hk⟩ := List.mem_iff_getElem?.mp hi2
        have hr := select_iff.mp hrot
        obtain ⟨e1, -⟩ := hr.2 k i hk
        rw [hp] at e1
        have hk4 : k < 4 := by simpa using (List.getElem?_eq_some_iff.mp e1).1
        have hpm : p ∈ [a, b, c, d] := by simpa using List.mem_of_getElem? e1
        have hb' : sideOf tol (P.distanceToPoint p) = .below := by
          rcases sharp_side htol (hsharp p hpm) with ⟨-, h⟩ | ⟨-, h⟩ | ⟨h, -⟩
          · linarith
          · linarith
          · exact h
        have hr' : (([a, b, c, d].map fun p => sideOf tol (P.distanceToPoint p)).rotate pl.roll)[k]? = some .below := by
          rw [← List.map_rotate, List.getElem?_map, e1, Option.map_some, hb']
        have := h3 k (List.mem_range.mpr (by simpa using hk4))
        rw [hr'] at this
        simp only [BEq.rfl, Bool.not_true, Bool.false_or, List.any_eq_true, List.contains_iff_mem] at this
        obtain ⟨cs, hcs, hmem⟩ := this
        obtain ⟨g, hg, hg'⟩ := mapM_mem g1 hcs
        obtain ⟨js, hjs, htf⟩ := Option.bind_eq_some_iff.mp hg'
        obtain ⟨j, hj, hj'⟩ := mapM_mem hjs hmem
        refine ⟨g, hg, ?_⟩
        rw [toFace_toList htf]
        simp only [CutCorner.resolve] at hj'
        rw [hk] at hj'
        cases hj'
        exact hj


/-! ## Concrete cases and violations -/

/-- Concrete case of `clip_quadrangle_iff`, with two corners on each side of the plane. -/
example : ¬ Crossing (-1) (-1) 1 1 ∧ ¬ Crossing (-1) 1 1 (-1) ∧ ¬ OneOff (-1) (-1) 1 1 := by
  norm_num [Crossing, OneOff]

/-- The horizontal plane at the level zero. -/
noncomputable def levelZero : Plane := ⟨⟨0, 0, 1⟩, 0⟩

theorem levelZero_dist (p : V3 ℝ) : levelZero.distanceToPoint p = p.z := by
  simp [Plane.distanceToPoint, levelZero, dot]

/-- C32 does not hold for a quadrangle which is not flat: the corners of the diagonals are on each side of the plane, and
a corner above the plane remains in a panel while a corner under it is lost. -/
theorem clip_crossing_violated (tol : ℝ) (h0 : 0 < tol) (h1 : tol < 1) : ∃ gs new, clipFace tol levelZero
      [⟨0, 0, 1⟩, ⟨1, 0, -1⟩, ⟨1, 1, 1⟩, ⟨0, 1, -1⟩] 4 ⟨0, 1, 2, 3⟩ = some (gs, new) ∧
    (∃ g ∈ gs, 2 ∈ g.toList) ∧ ∀ g ∈ gs, 3 ∉ g.toList := by
  have s1 : sideOf tol 1 = .above := by simp [sideOf, h1]
  have s2 : sideOf tol (-1) = .below := by
    rw [sideOf, if_neg (by linarith), if_neg (by norm_num; linarith), if_pos (by linarith)]
  have hp : plan [.above, .below, .above, .below] = some ⟨0, [(0, 1), (2, 3)], [[.cut 0, .old 1, .old 2, .cut 1]]⟩ := by
    decide
  refine ⟨[⟨4, 1, 2, 5⟩], [zeroPoint levelZero ⟨0, 0, 1⟩ ⟨1, 0, -1⟩, zeroPoint levelZero ⟨1, 1, 1⟩ ⟨0, 1, -1⟩], ?_,
    ⟨_, List.mem_singleton_self _, by decide⟩, by decide⟩
  have e1 := edge_intersection levelZero ⟨0, 0, 1⟩ ⟨1, 0, -1⟩ (by simp [levelZero_dist])
  have e2 := edge_intersection levelZero ⟨1, 1, 1⟩ ⟨0, 1, -1⟩ (by simp [levelZero_dist])
  simp [clipFace, Face.getFace, Face.isTriangle, select, levelZero_dist, s1, s2, hp, cutEdge, e1, e2, CutCorner.resolve, toFace]

/-- C32 does not hold for a quadrangle with three corners in the plane, even when it is flat and convex: an exception is
raised. -/
theorem clip_one_off_violated (tol : ℝ) (h0 : 0 < tol) (h1 : tol < 1) : FlatConvex (⟨0, 0, 0⟩ : V3 ℝ) ⟨1, 0, 0⟩ ⟨2, 0, 0⟩ ⟨1, 0, -1⟩ ∧
    clipFace tol levelZero [⟨0, 0, 0⟩, ⟨1, 0, 0⟩, ⟨2, 0, 0⟩, ⟨1, 0, -1⟩] 4 ⟨0, 1, 2, 3⟩ = none := by
  have s1 : sideOf tol 0 = .on := by
    rw [sideOf, if_neg (by linarith), if_pos (by simpa using h0)]
  have s2 : sideOf tol (-1) = .below := by
    rw [sideOf, if_neg (by linarith), if_neg (by norm_num; linarith), if_pos (by linarith)]
  have hp : plan [.on, .on, .on, .below] = none := by decide
  refine ⟨⟨1 / 2, 0, by norm_num, by norm_num, le_rfl, by norm_num, by ext <;> norm_num⟩, ?_⟩
  simp [clipFace, Face.getFace, Face.isTriangle, select, levelZero_dist, s1, s2, hp]

end Verif.Meshes
