import Verif.Meshes.ClipTable

/-!
# Clipping of a panel and of a mesh (C32, C33)

The panels obtained by clipping cover exactly the part of the panel under the plane.
-/

namespace Verif.Meshes

open Verif.Geometry V3

/-! ## One face -/

/-- A point is on one of the edges of a polygon. -/
def OnEdge (l : List (V3 ℝ)) (x : V3 ℝ) : Prop :=
  ∃ (i : ℕ) (p q : V3 ℝ) (t : ℝ), l[i]? = some p ∧ l[(i + 1) % l.length]? = some q ∧ 0 ≤ t ∧ t ≤ 1 ∧
    x = (1 - t) • p + t • q

theorem onEdge_rotate {l : List (V3 ℝ)} {k : ℕ} {x : V3 ℝ} (h : OnEdge (l.rotate k) x) : OnEdge l x := by
  obtain ⟨i, p, q, t, hp, hq, h⟩ := h
  have hi : i < l.length := by simpa using (List.getElem?_eq_some_iff.mp hp).1
  have hl : 0 < l.length := by omega
  rw [List.getElem?_rotate hi] at hp
  rw [List.length_rotate, List.getElem?_rotate (Nat.mod_lt _ hl)] at hq
  refine ⟨(i + k) % l.length, p, q, t, hp, ?_, h⟩
  rw [← hq, Nat.mod_add_mod, Nat.mod_add_mod]
  congr 2
  omega

theorem onEdge_neighbours {r : List (V3 ℝ)} {i j : ℕ} {p q x : V3 ℝ} {t : ℝ} (h : NextCorners r.length i j)
    (hp : r[i]? = some p) (hq : r[j]? = some q) (h0 : 0 ≤ t) (h1 : t ≤ 1) (hx : x = (1 - t) • p + t • q) : OnEdge r x := by
  have hj : j < r.length := (List.getElem?_eq_some_iff.mp hq).1
  have hi : i < r.length := (List.getElem?_eq_some_iff.mp hp).1
  rcases h with ⟨h, h'⟩ | ⟨h, h'⟩ | ⟨h, h'⟩
  · refine ⟨i, p, q, t, hp, ?_, h0, h1, hx⟩
    rw [← h, Nat.mod_eq_of_lt h', hq]
  · refine ⟨j, q, p, 1 - t, hq, ?_, by linarith, by linarith, ?_⟩
    · rw [h', Nat.mod_self, ← h, hp]
    · rw [hx]
      ext <;> simp <;> ring
  · refine ⟨j, q, p, 1 - t, hq, ?_, by linarith, by linarith, ?_⟩
    · rw [← h, Nat.mod_eq_of_lt h', hp]
    · rw [hx]
      ext <;> simp <;> ring

theorem zeroPoint_dist {P : Plane} {p q : V3 ℝ} (h : P.distanceToPoint p ≠ P.distanceToPoint q) :
    P.distanceToPoint (zeroPoint P p q) = 0 := by
  have h1 : P.distanceToPoint p - P.distanceToPoint q ≠ 0 := sub_ne_zero.mpr h
  rw [zeroPoint, dist_pair]
  field_simp
  ring

theorem select_iff {A : Type} {l : List A} {ids : List ℕ} {r : List A} :
    select l ids = some r ↔ r.length = ids.length ∧ ∀ k i : ℕ, ids[k]? = some i → r[k]? = l[i]? ∧ i < l.length := by
  constructor
  · intro h
    obtain ⟨h1, h2⟩ := select_get h
    refine ⟨h1, fun k i hk => ?_⟩
    obtain ⟨i', hi, h3, h4⟩ := h2 k (List.getElem?_eq_some_iff.mp hk).1
    rw [hk] at hi
    cases hi
    exact ⟨h3, h4⟩
  · rintro ⟨h1, h2⟩
    obtain ⟨r', hr'⟩ := select_eq_some (l := l) (ids := ids) fun i hi => by
      obtain ⟨k, hk⟩ := List.mem_iff_getElem?.mp hi
      exact (h2 k i hk).2
    obtain ⟨h3, h4⟩ := select_get hr'
    rw [hr']
    congr 1
    refine List.ext_getElem? fun k => ?_
    rcases lt_or_ge k ids.length with hk | hk
    · obtain ⟨i, hi, h5, -⟩ := h4 k hk
      rw [h5, (h2 k i hi).1]
    · rw [List.getElem?_eq_none (by omega), List.getElem?_eq_none (by omega)]

theorem select_rotate {A : Type} {l : List A} {ids : List ℕ} {r : List A} (h : select l ids = some r) (k : ℕ) :
    select l (ids.rotate k) = some (r.rotate k) := by
  rw [select_iff] at h ⊢
  refine ⟨by simpa using h.1, fun i j hj => ?_⟩
  have hi : i < ids.length := by simpa using (List.getElem?_eq_some_iff.mp hj).1
  rw [List.getElem?_rotate hi] at hj
  rw [List.getElem?_rotate (by rw [h.1]; exact hi), h.1]
  exact h.2 _ _ hj

/-- The new vertices are the intersections. -/
theorem cuts_total {P : Plane} {r : List (V3 ℝ)} {cuts : List (ℕ × ℕ)}
    (h : ∀ e ∈ cuts, NextCorners r.length e.1 e.2 ∧ ∃ p q, r[e.1]? = some p ∧ r[e.2]? = some q ∧
      ((0 ≤ P.distanceToPoint p ∧ P.distanceToPoint q < 0) ∨ (P.distanceToPoint p < 0 ∧ 0 ≤ P.distanceToPoint q))) :
    ∃ new, cuts.mapM (cutEdge P r) = some new ∧ new.length = cuts.length ∧
      (∀ k : ℕ, new[k]? = cornerPoint P r cuts (.cut k)) ∧
      ∀ x ∈ new, P.distanceToPoint x = 0 ∧ OnEdge r x := by
  have h1 : ∀ e ∈ cuts, ∃ x, cutEdge P r e = some x ∧
      (r[e.1]?.bind fun p => r[e.2]?.map fun q => zeroPoint P p q) = some x ∧ P.distanceToPoint x = 0 ∧ OnEdge r x := by
    intro e he
    obtain ⟨hn, p, q, hp, hq, hs⟩ := h e he
    refine ⟨zeroPoint P p q, ?_, ?_, ?_, ?_⟩
    · simp only [cutEdge, hp, hq, edge_intersection P p q hs]
    · simp [hp, hq]
    · exact zeroPoint_dist (by rcases hs with ⟨a, b⟩ | ⟨a, b⟩ <;> linarith)
    · obtain ⟨t, h0, h1, ht⟩ := zeroPoint_param hs
      exact onEdge_neighbours hn hp hq h0 h1 ht
  obtain ⟨new, a1, a2, a3⟩ := mapM_total (cutEdge P r) cuts fun e he => (h1 e he).imp fun _ hx => hx.1
  refine ⟨new, a1, a2, fun k => ?_, fun x hx => ?_⟩
  · rcases lt_or_ge k cuts.length with hk | hk
    · obtain ⟨x, hx, hx', -⟩ := h1 cuts[k] (List.getElem_mem hk)
      have := a3 k _ _ (List.getElem?_eq_getElem hk) (List.getElem?_eq_getElem (by omega))
      rw [cornerPoint, List.getElem?_eq_getElem hk, Option.bind_some, hx', ← hx, this]
      exact List.getElem?_eq_getElem (by omega)
    · rw [cornerPoint, List.getElem?_eq_none hk, List.getElem?_eq_none (by omega), Option.bind_none]
  · obtain ⟨k, hk⟩ := List.mem_iff_getElem?.mp hx
    have hkl : k < cuts.length := by
      rw [← a2]
      exact (List.getElem?_eq_some_iff.mp hk).1
    obtain ⟨x', hx', -, h2, h3⟩ := h1 cuts[k] (List.getElem_mem hkl)
    have := a3 k _ _ (List.getElem?_eq_getElem hkl) hk
    rw [hx'] at this
    cases this
    exact ⟨h2, h3⟩

/-- A vertex list that has the old vertices and the new ones from the number `n`. -/
structure Extends (vs : List (V3 ℝ)) (n : ℕ) (new vs' : List (V3 ℝ)) : Prop where
  old : ∀ (i : ℕ) (p : V3 ℝ), vs[i]? = some p → vs'[i]? = some p
  new : ∀ (k : ℕ) (p : V3 ℝ), new[k]? = some p → vs'[n + k]? = some p

theorem resolve_corner {P : Plane} {vs r new : List (V3 ℝ)} {ids : List ℕ} {cuts : List (ℕ × ℕ)} {n : ℕ}
    (hr : select vs ids = some r) (hnew : ∀ k : ℕ, new[k]? = cornerPoint P r cuts (.cut k)) {x : CutCorner} {p : V3 ℝ}
    (hx : cornerPoint P r cuts x = some p) :
    ∃ i, x.resolve ids n = some i ∧ (i ∈ ids ∨ ∃ k < new.length, i = n + k) ∧
      ∀ vs', Extends vs n new vs' → vs'[i]? = some p := by
  cases x with
  | old j =>
    rw [cornerPoint] at hx
    rw [select_iff] at hr
    have hj : j < ids.length := by
      rw [← hr.1]
      exact (List.getElem?_eq_some_iff.mp hx).1
    have h := hr.2 j _ (List.getElem?_eq_getElem hj)
    refine ⟨ids[j], List.getElem?_eq_getElem hj, .inl (List.getElem_mem hj), fun vs' he => he.old _ _ ?_⟩
    rw [← h.1, hx]
  | cut k =>
    rw [← hnew] at hx
    exact ⟨n + k, rfl, .inr ⟨k, (List.getElem?_eq_some_iff.mp hx).1, rfl⟩, fun vs' he => he.new k p hx⟩

theorem resolve_piece {P : Plane} {vs r new : List (V3 ℝ)} {ids : List ℕ} {cuts : List (ℕ × ℕ)} {n : ℕ}
    (hr : select vs ids = some r) (hnew : ∀ k : ℕ, new[k]? = cornerPoint P r cuts (.cut k)) {c : List CutCorner}
    {q : V3 ℝ × V3 ℝ × V3 ℝ × V3 ℝ} (hq : pieceShape P r cuts c = some q) :
    ∃ g, (c.mapM (CutCorner.resolve ids n)).bind toFace = some g ∧
      (∀ i ∈ g.toList, i ∈ ids ∨ ∃ k < new.length, i = n + k) ∧
      ∀ vs', Extends vs n new vs' → corners vs' g = some q := by
  unfold pieceShape at hq
  split at hq
  · rename_i x y z t
    split at hq
    · rename_i a b c d ha hb hc hd
      cases hq
      obtain ⟨i, hi, hi', hi''⟩ := resolve_corner (n := n) hr hnew ha
      obtain ⟨j, hj, hj', hj''⟩ := resolve_corner (n := n) hr hnew hb
      obtain ⟨k, hk, hk', hk''⟩ := resolve_corner (n := n) hr hnew hc
      obtain ⟨l, hl, hl', hl''⟩ := resolve_corner (n := n) hr hnew hd
      refine ⟨⟨i, j, k, l⟩, ?_, ?_, fun vs' he => ?_⟩
      · simp [List.mapM_cons, hi, hj, hk, hl, toFace]
      · intro u hu
        simp only [Face.toList, List.mem_cons, List.not_mem_nil, or_false] at hu
        rcases hu with rfl | rfl | rfl | rfl <;> assumption
      · simp only [corners, hi'' vs' he, hj'' vs' he, hk'' vs' he, hl'' vs' he]
    · cases hq
  · cases hq

theorem resolve_pieces {P : Plane} {vs r new : List (V3 ℝ)} {ids : List ℕ} {cuts : List (ℕ × ℕ)} {n : ℕ}
    (hr : select vs ids = some r) (hnew : ∀ k : ℕ, new[k]? = cornerPoint P r cuts (.cut k)) (pieces : List (List CutCorner))
    (qs : List (V3 ℝ × V3 ℝ × V3 ℝ × V3 ℝ)) (hq : pieces.mapM (pieceShape P r cuts) = some qs) :
    ∃ gs, pieces.mapM (fun c => (c.mapM (CutCorner.resolve ids n)).bind toFace) = some gs ∧
      (∀ g ∈ gs, ∀ i ∈ g.toList, i ∈ ids ∨ ∃ k < new.length, i = n + k) ∧
      ∀ vs', Extends vs n new vs' → gs.map (corners vs') = qs.map some := by
  induction pieces generalizing qs with
  | nil =>
    simp only [List.mapM_nil] at hq
    cases hq
    exact ⟨[], rfl, by simp, by simp⟩
  | cons c cs ih =>
    rw [List.mapM_cons] at hq
    cases hc : pieceShape P r cuts c with
    | none => rw [hc] at hq; cases hq
    | some q =>
      rw [hc] at hq
      cases hcs : cs.mapM (pieceShape P r cuts) with
      | none => rw [hcs] at hq; cases hq
      | some qs' =>
        rw [hcs] at hq
        cases hq
        obtain ⟨g, g1, g2, g3⟩ := resolve_piece (n := n) hr hnew hc
        obtain ⟨gs, h1, h2, h3⟩ := ih qs' hcs
        refine ⟨g :: gs, by rw [List.mapM_cons, g1, h1]; rfl, ?_, fun vs' he => ?_⟩
        · intro g' hg'
          rcases List.mem_cons.mp hg' with rfl | hg'
          · exact g2
          · exact h2 g' hg'
        · rw [List.map_cons, List.map_cons, g3 vs' he, h3 vs' he]

/-- The corners of a panel, three for a triangle. -/
def ring (tri : Bool) (c : V3 ℝ × V3 ℝ × V3 ℝ × V3 ℝ) : List (V3 ℝ) :=
  if tri then [c.1, c.2.1, c.2.2.1] else [c.1, c.2.1, c.2.2.1, c.2.2.2]

/-- A panel that is clipped as it should: all its corners are out of the tolerance or exactly on the plane, and it is
a triangle or a clean quadrangle. -/
def Clippable (tol : ℝ) (P : Plane) (tri : Bool) (c : V3 ℝ × V3 ℝ × V3 ℝ × V3 ℝ) : Prop :=
  (∀ p ∈ ring tri c, Sharp tol P p) ∧ (tri = false → Clean P c.1 c.2.1 c.2.2.1 c.2.2.2)

/-- C32: clipping a panel gives panels that cover exactly the part of the panel under the plane, or nothing if no
corner is under the plane; they have the orientation of the panel; the new vertices are on the plane and on the edges of
the panel; the other corners are corners of the panel. -/
theorem clip_face_partial {tol : ℝ} (htol : 0 < tol) (P : Plane) (vs : List (V3 ℝ)) (n : ℕ) (f : Face)
    (c : V3 ℝ × V3 ℝ × V3 ℝ × V3 ℝ) (hc : corners vs f = some c) (h : Clippable tol P f.isTriangle c) :
    ∃ gs new, clipFace tol P vs n f = some (gs, new) ∧
      (∀ x ∈ new, P.distanceToPoint x = 0 ∧ OnEdge (ring f.isTriangle c) x) ∧
      (∀ g ∈ gs, ∀ i ∈ g.toList, i ∈ f.toList ∨ ∃ k < new.length, i = n + k) ∧
      ∀ vs', Extends vs n new vs' → ∃ qs, gs.map (corners vs') = qs.map some ∧
        unionSet qs = kept P (ring f.isTriangle c) (panelSet c) ∧
        ∀ q ∈ qs, ∃ k : ℝ, 0 ≤ k ∧ areaVector q = k • areaVector c := by
  obtain ⟨p0, p1, p2, p3⟩ := c
  unfold corners at hc
  split at hc
  · rename_i a b c d ha hb hc' hd
    cases hc
    have hsel : select vs f.getFace = some (ring f.isTriangle (p0, p1, p2, p3)) := by
      unfold Face.getFace ring
      split <;> simp [select, List.mapM_cons, ha, hb, hc', hd]
    have hplan : ∃ pl, plan ((ring f.isTriangle (p0, p1, p2, p3)).map fun p => sideOf tol (P.distanceToPoint p)) = some pl ∧
        GoodPlan P ((ring f.isTriangle (p0, p1, p2, p3)).rotate pl.roll) (panelSet (p0, p1, p2, p3))
          (areaVector (p0, p1, p2, p3)) pl.cuts pl.pieces := by
      obtain ⟨hs, hq⟩ := h
      cases ht : f.isTriangle with
      | false =>
        simp only [ht, ring, Bool.false_eq_true, if_false, List.mem_cons, List.not_mem_nil, or_false, forall_eq_or_imp,
          forall_eq] at hs ⊢
        exact plan_quadrangle htol hs.1 hs.2.1 hs.2.2.1 hs.2.2.2 (hq ht)
      | true =>
        have had : p0 = p3 := by
          rw [Face.isTriangle, beq_iff_eq] at ht
          rw [ht, hd] at ha
          exact (Option.some.inj ha).symm
        subst had
        simp only [ht, ring, if_true, List.mem_cons, List.not_mem_nil, or_false, forall_eq_or_imp, forall_eq] at hs ⊢
        rw [panelSet, quadrangle_last]
        exact plan_triangle htol hs.1 hs.2.1 hs.2.2
    obtain ⟨pl, hpl, hg⟩ := hplan
    obtain ⟨new, n1, n2, n3, n4⟩ := cuts_total hg.cuts_ok
    obtain ⟨qs, q1, q2, q3⟩ := hg.pieces_ok
    obtain ⟨gs, g1, g2, g3⟩ := resolve_pieces (n := n) (select_rotate hsel pl.roll) n3 pl.pieces qs q1
    refine ⟨gs, new, ?_, ?_, ?_, fun vs' he => ⟨qs, g3 vs' he, ?_, q3⟩⟩
    · simp only [clipFace, hsel, hpl, n1, g1]
    · exact fun x hx => ⟨(n4 x hx).1, onEdge_rotate (n4 x hx).2⟩
    · intro g hg i hi
      refine (g2 g hg i hi).imp_left fun hm => ?_
      rw [List.mem_rotate] at hm
      unfold Face.getFace at hm
      split at hm <;> simp only [List.mem_cons, List.not_mem_nil, or_false] at hm <;>
        simp only [Face.toList, List.mem_cons, List.not_mem_nil, or_false] <;> tauto
    · rw [q2]
      simp only [kept, List.mem_rotate]
  · cases hc


/-! ## All the faces -/

/-- The panels with the number `i`, in a list of panels with numbers. -/
def partOf (E : List ((V3 ℝ × V3 ℝ × V3 ℝ × V3 ℝ) × ℕ)) (i : ℕ) : Set (V3 ℝ) := {x | ∃ e ∈ E, e.2 = i ∧ x ∈ panelSet e.1}

/-- The panels `E`, with their numbers, are what has to be kept of the panels `L`. -/
structure Covers (P : Plane) (L : List (Bool × (V3 ℝ × V3 ℝ × V3 ℝ × V3 ℝ)))
    (E : List ((V3 ℝ × V3 ℝ × V3 ℝ × V3 ℝ) × ℕ)) : Prop where
  part : ∀ (i : ℕ) s, L[i]? = some s → partOf E i = kept P (ring s.1 s.2) (panelSet s.2)
  turn : ∀ e ∈ E, ∃ s, L[e.2]? = some s ∧ ∃ k : ℝ, 0 ≤ k ∧ areaVector e.1 = k • areaVector s.2

theorem Extends.left {vs : List (V3 ℝ)} {n : ℕ} {a b vs' : List (V3 ℝ)} (h : Extends vs n (a ++ b) vs') :
    Extends vs n a vs' :=
  ⟨h.old, fun k p hk => h.new k p (by
    rw [List.getElem?_append_left (List.getElem?_eq_some_iff.mp hk).1, hk])⟩

theorem Extends.right {vs : List (V3 ℝ)} {n : ℕ} {a b vs' : List (V3 ℝ)} (h : Extends vs n (a ++ b) vs') :
    Extends vs (n + a.length) b vs' :=
  ⟨h.old, fun k p hk => by
    rw [Nat.add_assoc]
    refine h.new (a.length + k) p ?_
    rw [List.getElem?_append_right (by omega), Nat.add_sub_cancel_left, hk]⟩

/-- C32 for the loop: the new faces with their relative numbers. -/
theorem clip_loop {tol : ℝ} (htol : 0 < tol) (P : Plane) (vs : List (V3 ℝ)) (fs : List Face)
    (L : List (Bool × (V3 ℝ × V3 ℝ × V3 ℝ × V3 ℝ)))
    (hL : (fs.map fun f => (f.isTriangle, corners vs f)) = L.map fun s => (s.1, some s.2))
    (hc : ∀ s ∈ L, Clippable tol P s.1 s.2) (i n : ℕ) :
    ∃ gs is new, clipLoop tol P vs fs i n = some (gs, is, new) ∧
      (∀ x ∈ new, P.distanceToPoint x = 0 ∧ ∃ s ∈ L, OnEdge (ring s.1 s.2) x) ∧
      (∀ g ∈ gs, ∀ v ∈ g.toList, (∃ f ∈ fs, v ∈ f.toList) ∨ ∃ k < new.length, v = n + k) ∧
      ∀ vs', Extends vs n new vs' → ∃ E, Covers P L E ∧ gs.map (corners vs') = (E.map fun e => some e.1) ∧
        is = E.map fun e => e.2 + i := by
  induction fs generalizing L i n with
  | nil =>
    have hL' : L = [] := by
      cases L with
      | nil => rfl
      | cons _ _ => simp at hL
    subst hL'
    exact ⟨[], [], [], rfl, by simp, by simp, fun _ _ => ⟨[], ⟨by simp, by simp⟩, rfl, rfl⟩⟩
  | cons f fs ih =>
    cases L with
    | nil => simp at hL
    | cons s L =>
      obtain ⟨tri, c⟩ := s
      simp only [List.map_cons, List.cons.injEq, Prod.mk.injEq] at hL
      obtain ⟨⟨ht, hcor⟩, hL⟩ := hL
      subst ht
      obtain ⟨gs, new, a1, a2, a3, a4⟩ := clip_face_partial htol P vs n f c hcor (hc _ List.mem_cons_self)
      obtain ⟨gs', is', new', b1, b2, b3, b4⟩ := ih L hL (fun s hs => hc s (List.mem_cons_of_mem _ hs)) (i + 1)
        (n + new.length)
      refine ⟨gs ++ gs', List.replicate gs.length i ++ is', new ++ new', ?_, ?_, ?_, fun vs' he => ?_⟩
      · simp only [clipLoop, a1, b1]
      · intro x hx
        rcases List.mem_append.mp hx with hx | hx
        · exact ⟨(a2 x hx).1, _, List.mem_cons_self, (a2 x hx).2⟩
        · obtain ⟨h, s, hs, h'⟩ := b2 x hx
          exact ⟨h, s, List.mem_cons_of_mem _ hs, h'⟩
      · intro g hg v hv
        rcases List.mem_append.mp hg with hg | hg
        · rcases a3 g hg v hv with h | ⟨k, hk, h⟩
          · exact .inl ⟨f, List.mem_cons_self, h⟩
          · exact .inr ⟨k, by rw [List.length_append]; omega, h⟩
        · rcases b3 g hg v hv with ⟨f', hf', h⟩ | ⟨k, hk, h⟩
          · exact .inl ⟨f', List.mem_cons_of_mem _ hf', h⟩
          · exact .inr ⟨new.length + k, by rw [List.length_append]; omega, by omega⟩
      · obtain ⟨qs, q1, q2, q3⟩ := a4 vs' he.left
        obtain ⟨E, e1, e2, e3⟩ := b4 vs' he.right
        have hlen : gs.length = qs.length := by simpa using congrArg List.length q1
        refine ⟨(qs.map fun q => (q, 0)) ++ E.map fun e => (e.1, e.2 + 1), ⟨?_, ?_⟩, ?_, ?_⟩
        · intro j s hj
          cases j with
          | zero =>
            simp only [List.getElem?_cons_zero, Option.some.injEq] at hj
            subst hj
            rw [← q2]
            ext x
            simp [partOf, unionSet]
          | succ j =>
            rw [List.getElem?_cons_succ] at hj
            rw [← e1.part j s hj]
            ext x
            simp [partOf]
        · intro e he
          rcases List.mem_append.mp he with he | he
          · obtain ⟨q, hq, rfl⟩ := List.mem_map.mp he
            exact ⟨_, rfl, q3 q hq⟩
          · obtain ⟨e', he', rfl⟩ := List.mem_map.mp he
            simpa using e1.turn e' he'
        · rw [List.map_append, q1, e2, List.map_append, List.map_map, List.map_map]
          rfl
        · rw [e3, List.map_append, List.map_map, List.map_map, hlen]
          congr 1
          · simp [Function.comp_def]
          · refine List.map_congr_left fun e _ => ?_
            simp only [Function.comp]
            omega

end Verif.Meshes
