import Verif.Meshes.ClipCut
import Verif.Meshes.ClipMoveProps

/-!
# Clipping the image of a mesh (C93)

A mesh and its image by a motion along the plane are clipped in the same way: the same original numbers, and panels
that are, up to the tolerance of the fusion of vertices and to the choice of their first corner, images of each other.
This extends `clip_translational` to rotated and mirrored meshes that the plane crosses.
-/

namespace Verif.Meshes

open Verif.Geometry V3 Verif.Bodies

/-! ## The loop on the faces -/

theorem mapM_len {A B : Type} {f : A → Option B} {l : List A} {r : List B} (h : l.mapM f = some r) :
    r.length = l.length := by
  induction l generalizing r with
  | nil => cases h; rfl
  | cons a l ih =>
    rw [List.mapM_cons] at h
    obtain ⟨b, -, h⟩ := Option.bind_eq_some_iff.mp h
    obtain ⟨bs, hbs, h⟩ := Option.bind_eq_some_iff.mp h
    cases h
    simp [ih hbs]

theorem cuts_points {tol : ℝ} {P : Plane} {l : List (V3 ℝ)} {pl : Plan} (h : SoundFor tol P l pl) :
    ∃ new, pl.cuts.mapM (cutEdge P (l.rotate pl.roll)) = some new ∧
      ∀ k : ℕ, new[k]? = cornerPoint P (l.rotate pl.roll) pl.cuts (.cut k) := by
  have h1 : ∀ e ∈ pl.cuts, ∃ x, cutEdge P (l.rotate pl.roll) e = some x ∧
      ((l.rotate pl.roll)[e.1]?.bind fun p => (l.rotate pl.roll)[e.2]?.map fun q => zeroPoint P p q) = some x := by
    intro e he
    obtain ⟨p, q, hp, hq, hs⟩ := h.cuts e he
    refine ⟨zeroPoint P p q, ?_, ?_⟩
    · simp only [cutEdge, hp, hq, edge_intersection P p q hs]
    · simp [hp, hq]
  obtain ⟨new, a1, a2, a3⟩ := mapM_total (cutEdge P (l.rotate pl.roll)) pl.cuts fun e he => (h1 e he).imp fun _ hx => hx.1
  refine ⟨new, a1, fun k => ?_⟩
  rcases lt_or_ge k pl.cuts.length with hk | hk
  · obtain ⟨x, hx, hx'⟩ := h1 pl.cuts[k] (List.getElem_mem hk)
    have := a3 k _ _ (List.getElem?_eq_getElem hk) (List.getElem?_eq_getElem (by omega))
    rw [cornerPoint, List.getElem?_eq_getElem hk, Option.bind_some, hx', ← hx, this]
    exact List.getElem?_eq_getElem (by omega)
  · rw [cornerPoint, List.getElem?_eq_none hk, List.getElem?_eq_none (by omega), Option.bind_none]

theorem ring_select {vs : List (V3 ℝ)} {f : Face} {c : V3 ℝ × V3 ℝ × V3 ℝ × V3 ℝ} (hc : corners vs f = some c) :
    select vs f.getFace = some (ring f.isTriangle c) := by
  obtain ⟨ha, hb, hc', hd, -⟩ := corners_lt hc
  unfold Face.getFace ring
  split <;> simp [select, List.mapM_cons, ha, hb, hc', hd]

theorem getFace_subset {f : Face} {i : ℕ} (h : i ∈ f.getFace) : i ∈ f.toList := by
  unfold Face.getFace at h
  split at h <;> simp only [List.mem_cons, List.not_mem_nil, or_false] at h <;>
    simp only [Face.toList, List.mem_cons, List.not_mem_nil, or_false] <;> tauto

/-- One turn of the loop gives the pieces of the polygon. -/
theorem clipFace_pieces {tol : ℝ} (htol : 0 < tol) {P : Plane} {vs : List (V3 ℝ)} (n : ℕ) {f : Face}
    {c : V3 ℝ × V3 ℝ × V3 ℝ × V3 ℝ} (hc : corners vs f = some c)
    (hs : ∀ p ∈ ring f.isTriangle c, |P.distanceToPoint p| ≠ tol) :
    (cutRing tol P (ring f.isTriangle c) = none ∧ clipFace tol P vs n f = none) ∨
    ∃ E gs new, cutRing tol P (ring f.isTriangle c) = some E ∧ clipFace tol P vs n f = some (gs, new) ∧
      (∀ g ∈ gs, ∀ i ∈ g.toList, i ∈ f.toList ∨ ∃ k < new.length, i = n + k) ∧ gs.length = E.length ∧
      ∀ vs', Extends vs n new vs' → gs.map (corners vs') = E.map fun s => some s.2 := by
  have hsel := ring_select hc
  cases hpl : plan ((ring f.isTriangle c).map fun p => sideOf tol (P.distanceToPoint p)) with
  | none =>
    refine .inl ⟨by rw [cutRing, hpl]; rfl, ?_⟩
    simp only [clipFace, hsel, hpl]
  | some pl =>
    right
    have hsound := sound_for htol (ring_length _ _) hs hpl
    obtain ⟨new, n1, n2⟩ := cuts_points hsound
    have hlen : 0 < (ring f.isTriangle c).length := by
      rcases ring_length f.isTriangle c with h | h <;> omega
    obtain ⟨qs, E, q1, q2, q3⟩ := mapM_pair (fun x => (pieceShape P ((ring f.isTriangle c).rotate pl.roll) pl.cuts x).map
      fun q => (x.head? == x[3]?, q)) (pieceShape P ((ring f.isTriangle c).rotate pl.roll) pl.cuts) (fun q s => s.2 = q)
      pl.pieces fun x hx => by
        obtain ⟨-, s, h1, -, -⟩ := piece_stands hsound hlen hx
        obtain ⟨q, hq, rfl⟩ := Option.map_eq_some_iff.mp h1
        exact ⟨q, _, h1, hq, rfl⟩
    obtain ⟨gs, g1, g2, g3⟩ := resolve_pieces (n := n) (select_rotate hsel pl.roll) n2 pl.pieces qs q2
    refine ⟨E, gs, new, by rw [cutRing, hpl]; exact q1, ?_, ?_, ?_, fun vs' he => ?_⟩
    · simp only [clipFace, hsel, hpl, n1, g1]
    · intro g hg i hi
      exact (g2 g hg i hi).imp_left fun hm => getFace_subset (by rwa [List.mem_rotate] at hm)
    · rw [mapM_len g1, mapM_len q1]
    · rw [g3 vs' he]
      have : qs = E.map Prod.snd := by
        refine List.forall₂_eq_eq_eq ▸ ?_
        rw [List.forall₂_map_right_iff]
        exact q3.imp fun _ _ h => h.symm
      rw [this, List.map_map]
      rfl

/-- The pieces of the panels of a list, with the numbers of the panels they come from. -/
noncomputable def cutAll (tol : ℝ) (P : Plane) : List (Bool × (V3 ℝ × V3 ℝ × V3 ℝ × V3 ℝ)) → ℕ →
    Option (List ((Bool × (V3 ℝ × V3 ℝ × V3 ℝ × V3 ℝ)) × ℕ))
  | [], _ => some []
  | s :: L, i =>
    match cutRing tol P (ring s.1 s.2), cutAll tol P L (i + 1) with
    | some E, some E' => some (E.map (fun e => (e, i)) ++ E')
    | _, _ => none

theorem cutAll_index {tol : ℝ} {P : Plane} (L : List (Bool × (V3 ℝ × V3 ℝ × V3 ℝ × V3 ℝ))) (i : ℕ)
    {E : List ((Bool × (V3 ℝ × V3 ℝ × V3 ℝ × V3 ℝ)) × ℕ)} (h : cutAll tol P L i = some E) :
    ∀ e ∈ E, i ≤ e.2 ∧ e.2 < i + L.length := by
  induction L generalizing i E with
  | nil => cases h; simp
  | cons s L ih =>
    unfold cutAll at h
    split at h
    · rename_i E1 E2 h1 h2
      cases h
      intro e he
      rcases List.mem_append.mp he with he | he
      · obtain ⟨q, -, rfl⟩ := List.mem_map.mp he
        simp
      · have := ih (i + 1) h2 e he
        simp only [List.length_cons]
        omega
    · cases h

/-- The loop gives the pieces of the panels. -/
theorem clipLoop_pieces {tol : ℝ} (htol : 0 < tol) {P : Plane} {vs : List (V3 ℝ)} (fs : List Face)
    (L : List (Bool × (V3 ℝ × V3 ℝ × V3 ℝ × V3 ℝ)))
    (hL : (fs.map fun f => (f.isTriangle, corners vs f)) = L.map fun s => (s.1, some s.2))
    (hs : ∀ s ∈ L, ∀ p ∈ ring s.1 s.2, |P.distanceToPoint p| ≠ tol) (i n : ℕ) :
    (cutAll tol P L i = none ∧ clipLoop tol P vs fs i n = none) ∨
    ∃ E gs is new, cutAll tol P L i = some E ∧ clipLoop tol P vs fs i n = some (gs, is, new) ∧
      (∀ g ∈ gs, ∀ v ∈ g.toList, (∃ f ∈ fs, v ∈ f.toList) ∨ ∃ k < new.length, v = n + k) ∧ is = E.map Prod.snd ∧
      ∀ vs', Extends vs n new vs' → gs.map (corners vs') = E.map fun e => some e.1.2 := by
  induction fs generalizing L i n with
  | nil =>
    cases L with
    | nil => exact .inr ⟨[], [], [], [], rfl, rfl, by simp, rfl, by simp⟩
    | cons _ _ => simp at hL
  | cons f fs ih =>
    cases L with
    | nil => simp at hL
    | cons s L =>
      obtain ⟨tri, c⟩ := s
      simp only [List.map_cons, List.cons.injEq, Prod.mk.injEq] at hL
      obtain ⟨⟨ht, hcor⟩, hL⟩ := hL
      subst ht
      have ih := fun n => ih L hL (fun s h => hs s (List.mem_cons_of_mem _ h)) (i + 1) n
      rcases clipFace_pieces htol n hcor (hs _ List.mem_cons_self) with ⟨a1, a2⟩ | ⟨E, gs, new, a1, a2, a3, a3', a4⟩
      · exact .inl ⟨by simp only [cutAll, a1], by simp only [clipLoop, a2]⟩
      · rcases ih (n + new.length) with ⟨b1, b2⟩ | ⟨E', gs', is', new', b1, b2, b3, b4, b5⟩
        · exact .inl ⟨by simp only [cutAll, a1, b1], by simp only [clipLoop, a2, b2]⟩
        · refine .inr ⟨_, gs ++ gs', List.replicate gs.length i ++ is', new ++ new', by simp only [cutAll, a1, b1]; rfl,
            by simp only [clipLoop, a2, b2], ?_, ?_, fun vs' he => ?_⟩
          · intro g hg v hv
            rcases List.mem_append.mp hg with hg | hg
            · rcases a3 g hg v hv with h | ⟨k, hk, h⟩
              · exact .inl ⟨f, List.mem_cons_self, h⟩
              · exact .inr ⟨k, by rw [List.length_append]; omega, h⟩
            · rcases b3 g hg v hv with ⟨f', hf', h⟩ | ⟨k, hk, h⟩
              · exact .inl ⟨f', List.mem_cons_of_mem _ hf', h⟩
              · exact .inr ⟨new.length + k, by rw [List.length_append]; omega, by omega⟩
          · rw [b4, List.map_append, List.map_map, a3']
            congr 1
            simp [Function.comp_def]
          · rw [List.map_append, a4 vs' he.left, b5 vs' he.right, List.map_append, List.map_map]
            rfl

/-! ## One mesh -/

/-- The numbers of the panels with a property. -/
def idsWhere (L : List (Bool × (V3 ℝ × V3 ℝ × V3 ℝ × V3 ℝ))) (p : Bool × (V3 ℝ × V3 ℝ × V3 ℝ × V3 ℝ) → Bool) : List ℕ :=
  (List.range L.length).filter fun i => L[i]?.map p == some true

/-- All the corners of a panel are on the given side. -/
noncomputable def allOn (tol : ℝ) (P : Plane) (a : PlaneSide) (s : Bool × (V3 ℝ × V3 ℝ × V3 ℝ × V3 ℝ)) : Bool :=
  [s.2.1, s.2.2.1, s.2.2.2.1, s.2.2.2.2].all fun p => sideOf tol (P.distanceToPoint p) == a

/-- The panels to keep, with their original numbers, before the fusion of the vertices. -/
noncomputable def allPieces (tol : ℝ) (P : Plane) (sides : List PlaneSide)
    (L : List (Bool × (V3 ℝ × V3 ℝ × V3 ℝ × V3 ℝ))) : Option (List ((Bool × (V3 ℝ × V3 ℝ × V3 ℝ × V3 ℝ)) × ℕ)) :=
  if sides.count .above = sides.length then some []
  else if sides.count .below + sides.count .on = sides.length then
    some ((List.range L.length).map fun i => (L[i]?.getD noShape, i))
  else
    let lower := idsWhere L (allOn tol P .below)
    let crown := idsWhere L fun s => !(allOn tol P .above s || allOn tol P .below s)
    (cutAll tol P (crown.map fun i => L[i]?.getD noShape) 0).map fun E =>
      (lower.map fun i => (L[i]?.getD noShape, i)) ++ E.map fun e => (e.1, crown[e.2]?.getD 0)

theorem idsWhere_lt {L : List (Bool × (V3 ℝ × V3 ℝ × V3 ℝ × V3 ℝ))} {p : Bool × (V3 ℝ × V3 ℝ × V3 ℝ × V3 ℝ) → Bool}
    {i : ℕ} (h : i ∈ idsWhere L p) : i < L.length := by
  rw [idsWhere, List.mem_filter, List.mem_range] at h
  exact h.1

theorem whereFaces_shapes {m : Mesh (V3 ℝ)} {L : List (Bool × (V3 ℝ × V3 ℝ × V3 ℝ × V3 ℝ))} (hL : Shapes m L)
    {p : Face → Bool} {q : Bool × (V3 ℝ × V3 ℝ × V3 ℝ × V3 ℝ) → Bool}
    (h : ∀ f s, corners m.vertices f = some s.2 → p f = q s) : m.whereFaces p = idsWhere L q := by
  obtain ⟨hlen, hget⟩ := shapes_get hL
  rw [Mesh.whereFaces, idsWhere, hlen]
  refine List.filter_congr fun i hi => ?_
  rw [List.mem_range] at hi
  obtain ⟨s, hs, -, hcor⟩ := hget i _ (List.getElem?_eq_getElem hi)
  rw [hs, List.getElem?_eq_getElem hi, Option.map_some, Option.map_some, h _ _ hcor]

theorem facesOn_shapes {tol : ℝ} {P : Plane} {a : PlaneSide} {m : Mesh (V3 ℝ)} (f : Face)
    (s : Bool × (V3 ℝ × V3 ℝ × V3 ℝ × V3 ℝ)) (h : corners m.vertices f = some s.2) :
    m.facesOn tol P a f = allOn tol P a s := by
  rw [Bool.eq_iff_iff, facesOn_iff h, allOn]
  simp

theorem ring_of_shapes {m : Mesh (V3 ℝ)} {L : List (Bool × (V3 ℝ × V3 ℝ × V3 ℝ × V3 ℝ))} (hL : Shapes m L) :
    ∀ s ∈ L, ∀ p ∈ ring s.1 s.2, p ∈ m.vertices := by
  obtain ⟨hlen, hget⟩ := shapes_get hL
  intro s hs p hp
  obtain ⟨i, hi⟩ := List.mem_iff_getElem?.mp hs
  have hi' : i < m.faces.length := by
    rw [← hlen]
    exact (List.getElem?_eq_some_iff.mp hi).1
  obtain ⟨s', hs', -, hcor⟩ := hget i _ (List.getElem?_eq_getElem hi')
  rw [hi] at hs'
  cases hs'
  obtain ⟨h0, h1, h2, h3, -⟩ := corners_lt hcor
  have hp := ring_subset hp
  simp only [List.mem_cons, List.not_mem_nil, or_false] at hp
  rcases hp with rfl | rfl | rfl | rfl
  · exact List.mem_of_getElem? h0
  · exact List.mem_of_getElem? h1
  · exact List.mem_of_getElem? h2
  · exact List.mem_of_getElem? h3

theorem near_of_eq {atol : ℝ} (ha : 0 ≤ atol) {E : List ((Bool × (V3 ℝ × V3 ℝ × V3 ℝ × V3 ℝ)) × ℕ)}
    {ps : List (Option (V3 ℝ × V3 ℝ × V3 ℝ × V3 ℝ))} (h : ps = E.map fun e => some e.1.2) :
    List.Forall₂ (fun e o => NearPanel atol e.1.2 o) E ps := by
  rw [h, List.forall₂_map_right_iff, List.forall₂_same]
  exact fun e _ => NearPanel.refl ha e.1.2

theorem mem_getD {L : List (Bool × (V3 ℝ × V3 ℝ × V3 ℝ × V3 ℝ))} {i : ℕ} (h : i < L.length) : L[i]?.getD noShape ∈ L := by
  rw [List.getElem?_eq_getElem h, Option.getD_some]
  exact List.getElem_mem h

/-- The partition and the clipping of the crown give the panels to keep, up to the fusion of the vertices. -/
theorem clipParts_pieces (sort : (ℕ → ℝ) → List ℕ → List ℕ) (hs : ArgSort sort) {atol tol : ℝ} (ha : 0 ≤ atol)
    (htol : 0 < tol) (P : Plane) (m : Mesh (V3 ℝ)) (hm : m.Valid) (L : List (Bool × (V3 ℝ × V3 ℝ × V3 ℝ × V3 ℝ)))
    (hL : Shapes m L) (hsharp : ∀ s ∈ L, ∀ p ∈ ring s.1 s.2, |P.distanceToPoint p| ≠ tol) (crown : List ℕ)
    (hcrown : crown = idsWhere L fun s => !(allOn tol P .above s || allOn tol P .below s)) :
    (cutAll tol P (crown.map fun i => L[i]?.getD noShape) 0 = none ∧ clipParts sort atol tol P m = none) ∨
    ∃ E r, cutAll tol P (crown.map fun i => L[i]?.getD noShape) 0 = some E ∧
      clipParts sort atol tol P m = some (r, idsWhere L (allOn tol P .below) ++ E.map fun e => crown[e.2]?.getD 0) ∧
      r.Valid ∧ List.Forall₂ (fun e o => NearPanel atol e.1.2 o)
        (((idsWhere L (allOn tol P .below)).map fun i => (L[i]?.getD noShape, i)) ++
          E.map fun e => (e.1, crown[e.2]?.getD 0)) r.panels := by
  obtain ⟨hlen, hget⟩ := shapes_get hL
  have hlow : m.whereFaces (m.facesOn tol P .below) = idsWhere L (allOn tol P .below) :=
    whereFaces_shapes hL fun f s h => facesOn_shapes f s h
  have hcr : (m.whereFaces fun f => !(m.facesOn tol P .above f || m.facesOn tol P .below f)) = crown := by
    rw [hcrown]
    exact whereFaces_shapes hL fun f s h => by rw [facesOn_shapes f s h, facesOn_shapes f s h]
  have hc : ∀ i ∈ crown, i < L.length := fun i hi => idsWhere_lt (hcrown ▸ hi)
  obtain ⟨lo, l1, l2, -, -, l5⟩ := extract_part hm hL (idsWhere L (allOn tol P .below))
    fun i hi => hlen ▸ idsWhere_lt hi
  obtain ⟨cr, c1, c2, -, c4, c5⟩ := extract_part hm hL crown fun i hi => hlen ▸ hc i hi
  have hcl : cr.1.faces.length = crown.length := by
    have := congrArg List.length c5
    simpa [Mesh.panels] using this
  by_cases hpos : cr.1.faces.length > 0
  · rcases clipLoop_pieces htol (P := P) cr.1.faces _ c4 (fun s hs' => by
      obtain ⟨i, hi, rfl⟩ := List.mem_map.mp hs'
      exact hsharp _ (mem_getD (hc i hi))) 0 cr.1.vertices.length with ⟨a1, a2⟩ | ⟨E, gs, is, new, a1, a2, a3, a4, a5⟩
    · refine .inl ⟨a1, ?_⟩
      simp only [clipParts, hlow, hcr, l1, c1, if_pos hpos, clipCrown, a2]
    · have hidx := cutAll_index _ _ a1
      obtain ⟨ids, hids⟩ := select_eq_some (l := crown) (ids := is) fun i hi => by
        rw [a4] at hi
        obtain ⟨e, he, rfl⟩ := List.mem_map.mp hi
        have := hidx e he
        rw [List.length_map] at this
        omega
      have hcr' : clipCrown tol P cr.1 crown = some (⟨cr.1.vertices ++ new, gs⟩, ids) := by
        simp only [clipCrown, a2, hids, Option.map_some]
      have hv : (⟨cr.1.vertices ++ new, gs⟩ : Mesh (V3 ℝ)).vertices ≠ [] := by
        obtain ⟨f, hf⟩ := List.exists_mem_of_length_pos hpos
        have h1 := c2 f hf f.a (by simp [Face.toList])
        intro h0
        have : cr.1.vertices = [] := (List.append_eq_nil_iff.mp h0).1
        rw [this] at h1
        simp at h1
      have hval : (⟨cr.1.vertices ++ new, gs⟩ : Mesh (V3 ℝ)).Valid := by
        intro g hg v hv
        rw [List.length_append]
        rcases a3 g hg v hv with ⟨f, hf, h⟩ | ⟨k, hk, h⟩
        · have := c2 f hf v h
          omega
        · omega
      have hE := a5 (cr.1.vertices ++ new) ⟨fun i p hp => by
        rw [List.getElem?_append_left (List.getElem?_eq_some_iff.mp hp).1, hp], fun k p hp => by
        rw [List.getElem?_append_right (by omega), Nat.add_sub_cancel_left, hp]⟩
      obtain ⟨r, r1, r2, -, r4⟩ := merge_two sort hs ha lo.1 ⟨cr.1.vertices ++ new, gs⟩ l2 hval hv
      have hidsE : ids = E.map fun e => crown[e.2]?.getD 0 := by
        have hsel := select_iff.mp hids
        apply List.ext_getElem?
        intro k
        rcases lt_or_ge k E.length with hk | hk
        · have hi : is[k]? = some E[k].2 := by
            rw [a4, List.getElem?_map, List.getElem?_eq_getElem hk, Option.map_some]
          obtain ⟨h1, h2⟩ := hsel.2 k _ hi
          rw [h1, List.getElem?_map, List.getElem?_eq_getElem hk, Option.map_some, List.getElem?_eq_getElem h2,
            Option.getD_some]
        · rw [List.getElem?_eq_none (by rw [hsel.1, a4, List.length_map]; exact hk),
            List.getElem?_eq_none (by rw [List.length_map]; exact hk)]
      refine .inr ⟨E, r, a1, ?_, r2, ?_⟩
      · simp only [clipParts, hlow, hcr, l1, c1, if_pos hpos, hcr', r1, Option.map_some, hidsE]
      · have h0 : lo.1.panels ++ (⟨cr.1.vertices ++ new, gs⟩ : Mesh (V3 ℝ)).panels =
            (((idsWhere L (allOn tol P .below)).map fun i => (L[i]?.getD noShape, i)) ++
              E.map fun e => (e.1, crown[e.2]?.getD 0)).map fun e => some e.1.2 := by
          rw [l5, Mesh.panels, hE, List.map_append, List.map_map, List.map_map]
          rfl
        rw [h0, List.forall₂_map_left_iff] at r4
        refine r4.imp fun e o h => ?_
        obtain ⟨c, hc', hn⟩ := h
        cases hc'
        exact hn
  · have hnil : crown = [] := List.length_eq_zero_iff.mp (by omega)
    refine .inr ⟨[], lo.1, by rw [hnil]; rfl, ?_, l2, near_of_eq ha ?_⟩
    · simp only [clipParts, hlow, hcr, l1, c1, if_neg hpos, List.map_nil, List.append_nil]
    · rw [l5]
      simp [Function.comp_def]

theorem panels_valid {r r' : Mesh (V3 ℝ)} (h : r'.panels = r.panels) (hr : r.Valid) : r'.Valid := by
  intro f hf
  obtain ⟨k, hk⟩ := List.mem_iff_getElem?.mp hf
  have hp : r'.panels[k]? = some (corners r'.vertices f) := by rw [Mesh.panels, List.getElem?_map, hk, Option.map_some]
  rw [h, Mesh.panels, List.getElem?_map] at hp
  obtain ⟨g, hg, hg'⟩ := Option.map_eq_some_iff.mp hp
  obtain ⟨c, hc'⟩ := corners_some (hr g (List.mem_of_getElem? hg))
  rw [hc'] at hg'
  exact (corners_lt hg'.symm).2.2.2.2

/-- Clipping gives the panels to keep, up to the fusion of the vertices, before the degenerated ones are removed. -/
theorem clip_pieces (sort : (ℕ → ℝ) → List ℕ → List ℕ) (hs : ArgSort sort) {atol tol : ℝ} (ha : 0 ≤ atol)
    (htol : 0 < tol) (rtol : ℝ) (P : Plane) (m : Mesh (V3 ℝ)) (hm : m.Valid)
    (L : List (Bool × (V3 ℝ × V3 ℝ × V3 ℝ × V3 ℝ))) (hL : Shapes m L)
    (hsharp : ∀ s ∈ L, ∀ p ∈ ring s.1 s.2, |P.distanceToPoint p| ≠ tol) (sides : List PlaneSide)
    (hsides : sides = m.vertices.map fun p => sideOf tol (P.distanceToPoint p)) :
    (allPieces tol P sides L = none ∧ m.clip sort atol tol rtol P = none) ∨
    ∃ (E : List ((Bool × (V3 ℝ × V3 ℝ × V3 ℝ × V3 ℝ)) × ℕ)) (r : Mesh (V3 ℝ)), allPieces tol P sides L = some E ∧
      m.clip sort atol tol rtol P = some (r.removeDegeneratedFaces rtol, E.map Prod.snd) ∧ r.Valid ∧
      List.Forall₂ (fun e o => NearPanel atol e.1.2 o) E r.panels := by
  classical
  have hl : m.vertices.length = sides.length := by rw [hsides, List.length_map]
  have finish : ∀ r : Mesh (V3 ℝ), r.Valid → ∃ r', r.removeUnusedVertices = some r' ∧ r'.Valid ∧ r'.panels = r.panels := by
    intro r h
    obtain ⟨r', h1, h2, -⟩ := remove_unused_vertices r h
    exact ⟨r', h1, panels_valid h2 h, h2⟩
  by_cases h1 : sides.count .above = sides.length
  · obtain ⟨r', hr', hv, hp⟩ := finish ⟨[], []⟩ empty_valid
    refine .inr ⟨[], r', by rw [allPieces, if_pos h1], ?_, hv, near_of_eq ha hp⟩
    simp only [Mesh.clip, ← hsides, hl, if_pos h1, Option.bind_some, hr', Option.map_some, List.map_nil]
  · by_cases h2 : sides.count .below + sides.count .on = sides.length
    · obtain ⟨r', hr', hv, hp⟩ := finish m hm
      obtain ⟨hlen, hget⟩ := shapes_get hL
      refine .inr ⟨_, r', by rw [allPieces, if_neg h1, if_pos h2], ?_, hv, near_of_eq ha ?_⟩
      · simp only [Mesh.clip, ← hsides, hl, if_neg h1, if_pos h2, Option.bind_some, hr', Option.map_some, List.map_map,
          hlen]
        simp [Function.comp_def]
      · rw [hp, List.map_map, hlen]
        apply List.ext_getElem?
        intro k
        rcases lt_or_ge k m.faces.length with hk | hk
        · obtain ⟨s, hs', -, hcor⟩ := hget k _ (List.getElem?_eq_getElem hk)
          rw [Mesh.panels, List.getElem?_map, List.getElem?_map, List.getElem?_range hk, List.getElem?_eq_getElem hk,
            Option.map_some, Option.map_some, hcor]
          simp [hs']
        · rw [Mesh.panels, List.getElem?_eq_none (by rw [List.length_map]; exact hk),
            List.getElem?_eq_none (by rw [List.length_map, List.length_range]; exact hk)]
    · rcases clipParts_pieces sort hs ha htol P m hm L hL hsharp _ rfl with ⟨a1, a2⟩ | ⟨E, r, a1, a2, a3, a4⟩
      · refine .inl ⟨by simp only [allPieces, if_neg h1, if_neg h2, a1, Option.map_none, Option.map_some], ?_⟩
        simp only [Mesh.clip, ← hsides, hl, if_neg h1, if_neg h2, a2, Option.bind_none]
      · obtain ⟨r', hr', hv, hp⟩ := finish r a3
        refine .inr ⟨_, r', by simp only [allPieces, if_neg h1, if_neg h2, a1, Option.map_none, Option.map_some], ?_, hv, hp ▸ a4⟩
        simp only [Mesh.clip, ← hsides, hl, if_neg h1, if_neg h2, a2, Option.bind_some, hr', Option.map_some]
        simp [Function.comp_def]


/-! ## The image of a mesh -/

/-- The panel `o'` is the image of `o` by a motion, up to the tolerance on each coordinate and to the choice of the
first corner; a mirrored panel is listed in the other order. -/
def NearImage (atol : ℝ) (μ : Motion) (o o' : Option (V3 ℝ × V3 ℝ × V3 ℝ × V3 ℝ)) : Prop :=
  ∃ s s', Image μ s s' ∧ NearPanel atol s.2 o ∧ NearPanel atol s'.2 o'

/-- The image of a panel with its flag. -/
noncomputable def moveQuad (μ : Motion) (s : Bool × (V3 ℝ × V3 ℝ × V3 ℝ × V3 ℝ)) : Bool × (V3 ℝ × V3 ℝ × V3 ℝ × V3 ℝ) :=
  (s.1, moveCorners μ s.2)

theorem image_self (μ : Motion) {s : Bool × (V3 ℝ × V3 ℝ × V3 ℝ × V3 ℝ)} (hc : s.1 = true → s.2.2.2.2 = s.2.1) :
    Image μ s (moveQuad μ s) := by
  obtain ⟨tri, a, b, c, d⟩ := s
  simp only at hc
  refine ⟨rfl, hc, ?_, ?_⟩
  · intro h
    have := hc h
    subst this
    cases μ <;> rfl
  · cases tri with
    | false => cases μ <;> exact List.IsRotated.refl _
    | true =>
      have := hc rfl
      subst this
      cases μ with
      | translate v => exact List.IsRotated.refl _
      | rotate a θ => exact List.IsRotated.refl _
      | mirror Q => exact ⟨1, rfl⟩

theorem shapes_moved {μ : Motion} {m : Mesh (V3 ℝ)} {L : List (Bool × (V3 ℝ × V3 ℝ × V3 ℝ × V3 ℝ))} (hL : Shapes m L) :
    Shapes (μ.mesh m) (L.map (moveQuad μ)) := by
  rw [Shapes, moved_shapes, hL, List.map_map, List.map_map]
  exact List.map_congr_left fun s _ => moveShape_some μ s.1 s.2

theorem closed_shapes {m : Mesh (V3 ℝ)} {L : List (Bool × (V3 ℝ × V3 ℝ × V3 ℝ × V3 ℝ))} (hL : Shapes m L) :
    ∀ s ∈ L, s.1 = true → s.2.2.2.2 = s.2.1 := by
  obtain ⟨hlen, hget⟩ := shapes_get hL
  intro s hs ht
  obtain ⟨i, hi⟩ := List.mem_iff_getElem?.mp hs
  have hi' : i < m.faces.length := by
    rw [← hlen]
    exact (List.getElem?_eq_some_iff.mp hi).1
  obtain ⟨s', hs', hb, hcor⟩ := hget i _ (List.getElem?_eq_getElem hi')
  rw [hi] at hs'
  cases hs'
  obtain ⟨h0, h1, h2, h3, -⟩ := corners_lt hcor
  have : m.faces[i].d = m.faces[i].a := by
    have h := hb
    rw [ht] at h
    simp only [Face.isTriangle] at h
    exact (beq_iff_eq.mp h).symm
  rw [this, h0] at h3
  exact (Option.some.inj h3).symm

section Moved

variable {tol : ℝ} {P : Plane} {μ : Motion} (hd : ∀ p, P.distanceToPoint (μ.point p) = P.distanceToPoint p)

include hd

theorem allOn_moved (a : PlaneSide) (s : Bool × (V3 ℝ × V3 ℝ × V3 ℝ × V3 ℝ)) :
    allOn tol P a (moveQuad μ s) = allOn tol P a s := by
  rw [Bool.eq_iff_iff]
  cases μ <;> simp only [allOn, moveQuad, moveCorners, List.all_cons, List.all_nil, Bool.and_true, Bool.and_eq_true, hd] <;>
    tauto

omit hd in
theorem idsWhere_moved {q : Bool × (V3 ℝ × V3 ℝ × V3 ℝ × V3 ℝ) → Bool} (L : List (Bool × (V3 ℝ × V3 ℝ × V3 ℝ × V3 ℝ)))
    (hq : ∀ s, q (moveQuad μ s) = q s) : idsWhere (L.map (moveQuad μ)) q = idsWhere L q := by
  rw [idsWhere, idsWhere, List.length_map]
  refine List.filter_congr fun i _ => ?_
  rw [List.getElem?_map, Option.map_map]
  congr 2
  exact funext hq

theorem cutAll_moved (htol : 0 < tol) (L : List (Bool × (V3 ℝ × V3 ℝ × V3 ℝ × V3 ℝ)))
    (hc : ∀ s ∈ L, s.1 = true → s.2.2.2.2 = s.2.1) (hr : ∀ s ∈ L, Regular tol P (ring s.1 s.2)) (i : ℕ) :
    (cutAll tol P L i = none ∧ cutAll tol P (L.map (moveQuad μ)) i = none) ∨
    ∃ E E', cutAll tol P L i = some E ∧ cutAll tol P (L.map (moveQuad μ)) i = some E' ∧
      List.Forall₂ (fun e e' => Image μ e.1 e'.1 ∧ e'.2 = e.2) E E' := by
  induction L generalizing i with
  | nil => exact .inr ⟨[], [], rfl, rfl, .nil⟩
  | cons s L ih =>
    have h1 := cut_moved htol hd s.1 s.2 (hc s List.mem_cons_self) (hr s List.mem_cons_self)
    have h2 := ih (fun s hs => hc s (List.mem_cons_of_mem _ hs)) (fun s hs => hr s (List.mem_cons_of_mem _ hs)) (i + 1)
    simp only [List.map_cons, cutAll]
    have h0 : ring (moveQuad μ s).1 (moveQuad μ s).2 = ring s.1 (moveCorners μ s.2) := rfl
    rw [h0]
    rcases h1 with ⟨a, a'⟩ | ⟨E, E', a, a', hE⟩
    · rw [a, a']
      exact .inl ⟨rfl, rfl⟩
    · rcases h2 with ⟨b, b'⟩ | ⟨F, F', b, b', hF⟩
      · simp only [a, a', b, b']
        exact .inl ⟨trivial, trivial⟩
      · simp only [a, a', b, b']
        refine .inr ⟨_, _, rfl, rfl, List.rel_append ?_ hF⟩
        rw [List.forall₂_map_left_iff, List.forall₂_map_right_iff]
        exact hE.imp fun _ _ h => ⟨h, rfl⟩

omit hd in
theorem part_moved (L : List (Bool × (V3 ℝ × V3 ℝ × V3 ℝ × V3 ℝ))) (hc : ∀ s ∈ L, s.1 = true → s.2.2.2.2 = s.2.1)
    (ids : List ℕ) (hids : ∀ i ∈ ids, i < L.length) :
    List.Forall₂ (fun e e' => Image μ e.1 e'.1 ∧ e'.2 = e.2) (ids.map fun i => (L[i]?.getD noShape, i))
      (ids.map fun i => ((L.map (moveQuad μ))[i]?.getD noShape, i)) := by
  rw [List.forall₂_map_left_iff, List.forall₂_map_right_iff, List.forall₂_same]
  intro i hi
  refine ⟨?_, rfl⟩
  have h := hids i hi
  rw [List.getElem?_map, List.getElem?_eq_getElem h, Option.map_some, Option.getD_some, Option.getD_some]
  exact image_self μ (hc _ (List.getElem_mem h))

theorem allPieces_moved (htol : 0 < tol) (sides : List PlaneSide) (L : List (Bool × (V3 ℝ × V3 ℝ × V3 ℝ × V3 ℝ)))
    (hc : ∀ s ∈ L, s.1 = true → s.2.2.2.2 = s.2.1) (hr : ∀ s ∈ L, Regular tol P (ring s.1 s.2)) :
    (allPieces tol P sides L = none ∧ allPieces tol P sides (L.map (moveQuad μ)) = none) ∨
    ∃ E E', allPieces tol P sides L = some E ∧ allPieces tol P sides (L.map (moveQuad μ)) = some E' ∧
      List.Forall₂ (fun e e' => Image μ e.1 e'.1 ∧ e'.2 = e.2) E E' := by
  unfold allPieces
  split
  · exact .inr ⟨_, _, rfl, rfl, .nil⟩
  · split
    · refine .inr ⟨_, _, rfl, rfl, ?_⟩
      rw [List.length_map]
      exact part_moved L hc _ fun i hi => List.mem_range.mp hi
    · have h1 : idsWhere (L.map (moveQuad μ)) (allOn tol P .below) = idsWhere L (allOn tol P .below) :=
        idsWhere_moved L fun s => allOn_moved hd _ s
      have h2 : (idsWhere (L.map (moveQuad μ)) fun s => !(allOn tol P .above s || allOn tol P .below s)) =
          idsWhere L fun s => !(allOn tol P .above s || allOn tol P .below s) :=
        idsWhere_moved L fun s => by rw [allOn_moved hd, allOn_moved hd]
      simp only [h1, h2]
      generalize hcr : (idsWhere L fun s => !(allOn tol P .above s || allOn tol P .below s)) = crown
      have hlt : ∀ i ∈ crown, i < L.length := fun i hi => idsWhere_lt (hcr ▸ hi)
      have h3 : (crown.map fun i => (L.map (moveQuad μ))[i]?.getD noShape) =
          (crown.map fun i => L[i]?.getD noShape).map (moveQuad μ) := by
        rw [List.map_map]
        refine List.map_congr_left fun i hi => ?_
        have h := hlt i hi
        simp [List.getElem?_map, List.getElem?_eq_getElem h]
      rw [h3]
      have hm : ∀ s ∈ crown.map fun i => L[i]?.getD noShape, s ∈ L := by
        intro s hs
        obtain ⟨i, hi, rfl⟩ := List.mem_map.mp hs
        exact mem_getD (hlt i hi)
      rcases cutAll_moved hd htol (crown.map fun i => L[i]?.getD noShape) (fun s hs => hc s (hm s hs))
        (fun s hs => hr s (hm s hs)) 0 with ⟨a, a'⟩ | ⟨E, E', a, a', hE⟩
      · rw [a, a']
        exact .inl ⟨rfl, rfl⟩
      · rw [a, a']
        refine .inr ⟨_, _, rfl, rfl, List.rel_append (part_moved L hc _ fun i hi => idsWhere_lt hi) ?_⟩
        rw [List.forall₂_map_left_iff, List.forall₂_map_right_iff]
        exact hE.imp fun _ _ h => ⟨h.1, by rw [h.2]⟩

theorem ring_moved (s : Bool × (V3 ℝ × V3 ℝ × V3 ℝ × V3 ℝ)) (hc : s.1 = true → s.2.2.2.2 = s.2.1)
    (h : ∀ p ∈ ring s.1 s.2, |P.distanceToPoint p| ≠ tol) :
    ∀ p ∈ ring (moveQuad μ s).1 (moveQuad μ s).2, |P.distanceToPoint p| ≠ tol := by
  have hi := (image_self μ hc).turned
  intro p hp
  have hp' : p ∈ moveRing μ (ring s.1 s.2) := hi.mem_iff.mp hp
  have : ∃ q ∈ ring s.1 s.2, μ.point q = p := by
    cases μ <;> simpa [moveRing] using hp'
  obtain ⟨q, hq, rfl⟩ := this
  rw [hd]
  exact h q hq

end Moved

/-- C93: a mesh and its image by a motion along the plane are clipped in the same way, if no corner is just at the
tolerance and no panel is twisted through the plane: both fail, or they give the same original numbers and, before the
degenerated panels are removed, panels that are images of each other up to the tolerance. -/
theorem clip_image (sort : (ℕ → ℝ) → List ℕ → List ℕ) (hs : ArgSort sort) {atol tol : ℝ} (ha : 0 ≤ atol)
    (htol : 0 < tol) (rtol : ℝ) (P : Plane) (μ : Motion) (hd : ∀ p, P.distanceToPoint (μ.point p) = P.distanceToPoint p)
    (m : Mesh (V3 ℝ)) (hm : m.Valid) (L : List (Bool × (V3 ℝ × V3 ℝ × V3 ℝ × V3 ℝ))) (hL : Shapes m L)
    (hr : ∀ s ∈ L, Regular tol P (ring s.1 s.2)) :
    (m.clip sort atol tol rtol P = none ∧ (μ.mesh m).clip sort atol tol rtol P = none) ∨
    ∃ r r' ids, m.clip sort atol tol rtol P = some (Mesh.removeDegeneratedFaces rtol r, ids) ∧
      (μ.mesh m).clip sort atol tol rtol P = some (Mesh.removeDegeneratedFaces rtol r', ids) ∧ r.Valid ∧ r'.Valid ∧
      List.Forall₂ (NearImage atol μ) r.panels r'.panels ∧ ids.length = r.faces.length := by
  have hc := closed_shapes hL
  have hsides : (m.vertices.map fun p => sideOf tol (P.distanceToPoint p)) =
      (μ.mesh m).vertices.map fun p => sideOf tol (P.distanceToPoint p) := by
    rw [mesh_eq, List.map_map]
    exact List.map_congr_left fun p _ => by simp only [Function.comp, hd]
  have h1 := clip_pieces sort hs ha htol rtol P m hm L hL (fun s h => (hr s h).sharp) _ rfl
  have h2 := clip_pieces sort hs ha htol rtol P (μ.mesh m) (moved_valid hm) _ (shapes_moved hL) (fun s h => by
    obtain ⟨s', hs', rfl⟩ := List.mem_map.mp h
    exact ring_moved hd s' (hc s' hs') (hr s' hs').sharp) _ hsides
  rcases allPieces_moved hd htol (m.vertices.map fun p => sideOf tol (P.distanceToPoint p)) L hc hr with
    ⟨a, a'⟩ | ⟨E, E', a, a', hE⟩
  · rw [a] at h1
    rw [a'] at h2
    refine .inl ⟨?_, ?_⟩
    · rcases h1 with h | ⟨_, _, h, _⟩
      · exact h.2
      · cases h
    · rcases h2 with h | ⟨_, _, h, _⟩
      · exact h.2
      · cases h
  · rw [a] at h1
    rw [a'] at h2
    rcases h1 with h | ⟨_, r, h, b1, b2, b3⟩
    · cases h.1
    cases h
    rcases h2 with h | ⟨_, r', h, b1', b2', b3'⟩
    · cases h.1
    cases h
    have hsnd : E'.map Prod.snd = E.map Prod.snd := by
      refine List.forall₂_eq_eq_eq ▸ ?_
      rw [List.forall₂_map_left_iff, List.forall₂_map_right_iff]
      exact hE.flip.imp fun _ _ h => h.2
    refine .inr ⟨r, r', _, b1, hsnd ▸ b1', b2, b2', ?_, ?_⟩
    · have h3 : List.Forall₂ (fun (e : (Bool × (V3 ℝ × V3 ℝ × V3 ℝ × V3 ℝ)) × ℕ) o' => ∃ s', Image μ e.1 s' ∧
          NearPanel atol s'.2 o') E r'.panels :=
        forall₂_join hE.flip b3' fun e' e o h h' => ⟨e'.1, h.1, h'⟩
      exact forall₂_join b3 h3 fun e o o' h ⟨s', h', h''⟩ => ⟨e.1, s', h', h, h''⟩
    · rw [List.length_map, b3.length_eq, Mesh.panels, List.length_map]


/-! ## Symmetric meshes -/

/-- The panels of a mesh in order, without their flags. -/
def Tree.panels (t : Tree) : List (Option (V3 ℝ × V3 ℝ × V3 ℝ × V3 ℝ)) := t.shapes.map Prod.snd

/-- The promise of the class of a symmetric mesh with `n` parts, up to a tolerance on the coordinates and to the choice
of the first corners: the panels of the part number `k` are, in order, the images of those of the first part. -/
def NearlyKeepsPromise (atol : ℝ) (s : Sym) (n : ℕ) (ps : List Tree) : Prop :=
  ps.length = n ∧ ∃ t, ps[0]? = some t ∧
    ∀ (k : ℕ) (u : Tree), ps[k + 1]? = some u → List.Forall₂ (NearImage atol (s.step n (k + 1))) t.panels u.panels

theorem forall₂_flatMap {A B C D : Type} {R : C → D → Prop} {f : A → List C} {g : B → List D} (h : A → B) (as : List A)
    (H : ∀ a ∈ as, List.Forall₂ R (f a) (g (h a))) : List.Forall₂ R (as.flatMap f) ((as.map h).flatMap g) := by
  induction as with
  | nil => exact .nil
  | cons a as ih =>
    rw [List.map_cons, List.flatMap_cons, List.flatMap_cons]
    exact List.rel_append (H a List.mem_cons_self) (ih fun x hx => H x (List.mem_cons_of_mem _ hx))

theorem shapes_panels (m : Mesh (V3 ℝ)) : m.shapes.map Prod.snd = m.panels := by
  rw [Mesh.shapes, Mesh.panels, List.map_map]
  rfl

/-- C93 for parts that are images up to a tolerance. -/
theorem clip_symmetric_near (c : Mesh (V3 ℝ) → Mesh (V3 ℝ) × List ℕ) (atol : ℝ) {s : Sym} (hs : s ≠ .plain) {t : Tree}
    {rest : List Tree} (hsl : Sliced (.node s (t :: rest))) (hin : (Tree.node s (t :: rest)).Inhabited)
    (hv : ∀ m ∈ (Tree.node s (t :: rest)).leaves, (c m).1.Valid)
    (hc : ∀ m ∈ t.leaves, ∀ k < rest.length, List.Forall₂ (NearImage atol (s.step (rest.length + 1) (k + 1)))
      (c m).1.panels (c ((s.step (rest.length + 1) (k + 1)).mesh m)).1.panels) :
    ((∀ m ∈ t.leaves, (c m).1.faces = []) ∧
      ((Tree.node s (t :: rest)).clip c).1 = .node s [.leaf ⟨[], []⟩]) ∨
    ∃ ps, ((Tree.node s (t :: rest)).clip c).1 = .node s ps ∧ NearlyKeepsPromise atol s (rest.length + 1) ps ∧
      ∀ u, ps[0]? = some u → u.shapes = t.leaves.flatMap (fun m => (c m).1.shapes) ∧ u.shapes ≠ [] := by
  have hk : ∀ (k : ℕ) (u : Tree), rest[k]? = some u →
      u.leaves = t.leaves.map (s.step (rest.length + 1) (k + 1)).mesh := by
    cases hsl with
    | plain _ _ => exact absurd rfl hs
    | symmetric _ _ _ _ _ _ _ _ hk => exact hk
  have hall : ∀ u ∈ t :: rest, u.Inhabited ∧ ∀ m ∈ u.leaves, (c m).1.Valid := by
    intro u hu
    refine ⟨(allInhabited_iff _).mp hin.2 u hu, fun m hm => hv m ?_⟩
    rw [Tree.leaves, leavesAll_eq]
    exact List.mem_flatMap.mpr ⟨u, hu, hm⟩
  have hshape : ∀ u ∈ t :: rest, (u.clip c).1.shapes = u.leaves.flatMap fun m => (c m).1.shapes :=
    fun u hu => (clip_tree c u (hall u hu).1 (hall u hu).2).2.2
  have hpanel : ∀ u ∈ t :: rest, (u.clip c).1.panels = u.leaves.flatMap fun m => (c m).1.panels := by
    intro u hu
    rw [Tree.panels, hshape u hu, List.map_flatMap]
    exact congrArg List.flatten (List.map_congr_left fun m _ => shapes_panels _)
  have himage : ∀ (k : ℕ) (u : Tree), rest[k]? = some u →
      List.Forall₂ (NearImage atol (s.step (rest.length + 1) (k + 1))) (t.clip c).1.panels (u.clip c).1.panels := by
    intro k u hu
    have hlt : k < rest.length := (List.getElem?_eq_some_iff.mp hu).1
    rw [hpanel u (List.mem_cons_of_mem _ (List.mem_of_getElem? hu)), hpanel t List.mem_cons_self, hk k u hu]
    exact forall₂_flatMap _ _ fun m hm => hc m hm k hlt
  have hnil : ∀ (k : ℕ) (u : Tree), rest[k]? = some u → ((u.clip c).1.shapes = [] ↔ (t.clip c).1.shapes = []) := by
    intro k u hu
    have := (himage k u hu).length_eq
    simp only [Tree.panels, List.length_map] at this
    rw [← List.length_eq_zero_iff, ← List.length_eq_zero_iff, this]
  rw [Tree.clip]
  simp only [clipAll_eq]
  by_cases he : (t.clip c).1.shapes = []
  · refine Or.inl ⟨flatMap_shapes_nil.mp (by rw [← hshape t List.mem_cons_self, he]), ?_⟩
    rw [prune_none]
    intro u hu
    obtain ⟨w, hw, rfl⟩ := List.mem_map.mp hu
    rcases List.mem_cons.mp hw with rfl | hw
    · exact he
    · obtain ⟨k, hk'⟩ := List.mem_iff_getElem?.mp hw
      exact (hnil k w hk').mpr he
  · refine Or.inr ⟨_, rfl, ?_⟩
    rw [prune_all (ps := (t :: rest).map fun u => (u.clip c).1)]
    · refine ⟨⟨by simp, (t.clip c).1, by simp, ?_⟩, ?_⟩
      · intro k u hu
        rw [List.map_cons, List.getElem?_cons_succ, List.getElem?_map] at hu
        obtain ⟨w, hw, rfl⟩ := Option.map_eq_some_iff.mp hu
        exact himage k w hw
      · intro u hu
        rw [List.map_cons, List.getElem?_cons_zero, Option.some.injEq] at hu
        subst hu
        exact ⟨hshape t List.mem_cons_self, he⟩
    · intro u hu
      obtain ⟨w, hw, rfl⟩ := List.mem_map.mp hu
      exact (clip_tree c w (hall w hw).1 (hall w hw).2).2.1
    · simp
    · intro u hu
      obtain ⟨w, hw, rfl⟩ := List.mem_map.mp hu
      rcases List.mem_cons.mp hw with rfl | hw
      · exact he
      · obtain ⟨k, hk'⟩ := List.mem_iff_getElem?.mp hw
        exact fun h => he ((hnil k w hk').mp h)

/-- The motions of a symmetry are along a plane: a plane of symmetry perpendicular to it, a translation along it, an
axis perpendicular to it. -/
def Sym.Along (P : Plane) : Sym → Prop
  | .plain => True
  | .reflection Q => dot Q.normal P.normal = 0
  | .translation w => dot w P.normal = 0
  | .axial a => cross a.vector P.normal = 0

theorem along_distance {P : Plane} {s : Sym} (h : s.Along P) (n k : ℕ) (p : V3 ℝ) :
    P.distanceToPoint ((s.step n k).point p) = P.distanceToPoint p := by
  cases s with
  | plain => simp [Sym.step, Motion.point, Plane.distanceToPoint, dot]
  | reflection Q =>
    have h : dot Q.normal P.normal = 0 := h
    simp only [Sym.step, Motion.point, Plane.distanceToPoint, Plane.mirrorPoint]
    simp only [dot, sub_x, sub_y, sub_z, smul_x, smul_y, smul_z] at h ⊢
    linear_combination (-(2 * (p.x * Q.normal.x + p.y * Q.normal.y + p.z * Q.normal.z - Q.c))) * h
  | translation w =>
    have h : dot w P.normal = 0 := h
    simp only [Sym.step, Motion.point, Plane.distanceToPoint]
    simp only [dot, add_x, add_y, add_z, smul_x, smul_y, smul_z] at h ⊢
    linear_combination (k : ℝ) * h
  | axial a =>
    have h : cross a.vector P.normal = 0 := h
    have hx := congrArg V3.x h
    have hy := congrArg V3.y h
    have hz := congrArg V3.z h
    simp only [cross, zero_x, zero_y, zero_z] at hx hy hz
    have key : ∀ u : V3 ℝ, dot (cross a.vector u) P.normal = 0 := by
      intro u
      simp only [dot, cross]
      linear_combination (-u.x) * hx + (-u.y) * hy + (-u.z) * hz
    have k1 := key (p - a.point)
    have k2 := key (cross a.vector (p - a.point))
    simp only [Sym.step, Motion.point, Plane.distanceToPoint, Axis.rotatePoint, rotateVector_eq]
    generalize cross a.vector (cross a.vector (p - a.point)) = v at k2 ⊢
    generalize cross a.vector (p - a.point) = u at k1 ⊢
    simp only [dot, add_x, add_y, add_z, sub_x, sub_y, sub_z, smul_x, smul_y, smul_z] at k1 k2 ⊢
    linear_combination (Real.sin (2 * k * Real.pi / n)) * k1 + (1 - Real.cos (2 * k * Real.pi / n)) * k2

/-- C93 for all symmetries whose motions are along the plane, wherever the plane cuts the panels: the clipped mesh keeps
the promise of its class up to the tolerance of the fusion of vertices, if no corner is just at the tolerance of the
sides, no panel is twisted through the plane and no small panel is removed from any part, that is if there is one
original number for each panel of each clipped part. -/
theorem clip_crossed (sort : (ℕ → ℝ) → List ℕ → List ℕ) (hsort : ArgSort sort) {atol tol : ℝ} (ha : 0 ≤ atol)
    (htol : 0 < tol) (rtol : ℝ) (P : Plane) {s : Sym} (hs : s ≠ .plain)
    {t : Tree} {rest : List Tree} (hsl : Sliced (.node s (t :: rest))) (hin : (Tree.node s (t :: rest)).Inhabited)
    (hal : s.Along P) (hv : ∀ m ∈ t.leaves, m.Valid ∧ ∃ L, Shapes m L ∧ ∀ s ∈ L, Regular tol P (ring s.1 s.2))
    (he : ∀ m ∈ (Tree.node s (t :: rest)).leaves,
      (clipLeaf sort atol tol rtol P m).2.length = (clipLeaf sort atol tol rtol P m).1.faces.length) :
    ((∀ m ∈ t.leaves, (clipLeaf sort atol tol rtol P m).1.faces = []) ∧
      ((Tree.node s (t :: rest)).clip (clipLeaf sort atol tol rtol P)).1 = .node s [.leaf ⟨[], []⟩]) ∨
    ∃ ps, ((Tree.node s (t :: rest)).clip (clipLeaf sort atol tol rtol P)).1 = .node s ps ∧
      NearlyKeepsPromise atol s (rest.length + 1) ps ∧
      ∀ u, ps[0]? = some u → u.shapes = t.leaves.flatMap (fun m => (clipLeaf sort atol tol rtol P m).1.shapes) ∧
        u.shapes ≠ [] := by
  have hlv := leaves_symmetric hs hsl
  have hd : ∀ k < rest.length, ∀ p, P.distanceToPoint ((s.step (rest.length + 1) (k + 1)).point p) = P.distanceToPoint p :=
    fun k _ p => along_distance hal _ _ p
  have hone : ∀ m ∈ t.leaves, ∀ μ : Motion, (∀ p, P.distanceToPoint (μ.point p) = P.distanceToPoint p) →
      (clipLeaf sort atol tol rtol P m).2.length = (clipLeaf sort atol tol rtol P m).1.faces.length →
      (clipLeaf sort atol tol rtol P (μ.mesh m)).2.length = (clipLeaf sort atol tol rtol P (μ.mesh m)).1.faces.length →
      (clipLeaf sort atol tol rtol P m).1.Valid ∧ (clipLeaf sort atol tol rtol P (μ.mesh m)).1.Valid ∧
      List.Forall₂ (NearImage atol μ) (clipLeaf sort atol tol rtol P m).1.panels
        (clipLeaf sort atol tol rtol P (μ.mesh m)).1.panels := by
    intro m hm μ hμ e1 e2
    obtain ⟨hval, L, hL, hr⟩ := hv m hm
    rw [clipLeaf] at e1 e2 ⊢
    rcases clip_image sort hsort ha htol rtol P μ hμ m hval L hL hr with ⟨a, b⟩ | ⟨r, r', ids, a, b, v1, v2, hp, hl⟩
    · rw [clipLeaf, a, b]
      exact ⟨empty_valid, empty_valid, .nil⟩
    · rw [a] at e1
      rw [b] at e2
      have hl' : r'.faces.length = r.faces.length := by
        have := hp.length_eq
        simp only [Mesh.panels, List.length_map] at this
        exact this.symm
      simp only [Option.getD_some] at e1 e2
      have f1 := remove_degenerated_eq rtol r ((not_tiny_iff rtol r).mp (by omega))
      have f2 := remove_degenerated_eq rtol r' ((not_tiny_iff rtol r').mp (by omega))
      rw [clipLeaf, a, b]
      simp only [Option.getD_some, f1, f2]
      exact ⟨v1, v2, hp⟩
  have hmem : ∀ k < rest.length, ∀ m ∈ t.leaves,
      (s.step (rest.length + 1) (k + 1)).mesh m ∈ (Tree.node s (t :: rest)).leaves := by
    intro k hk m hm
    rw [hlv]
    exact List.mem_append_right _ (List.mem_flatMap.mpr ⟨k, List.mem_range.mpr hk, List.mem_map.mpr ⟨m, hm, rfl⟩⟩)
  have hmem0 : ∀ m ∈ t.leaves, m ∈ (Tree.node s (t :: rest)).leaves := by
    intro m hm
    rw [hlv]
    exact List.mem_append_left _ hm
  have hpos : 0 < rest.length := by
    cases hsl with
    | plain _ _ => exact absurd rfl hs
    | symmetric _ _ _ _ => assumption
  refine clip_symmetric_near (clipLeaf sort atol tol rtol P) atol hs hsl hin ?_ ?_
  · intro m hm
    have hm' := hm
    rw [hlv] at hm'
    rcases List.mem_append.mp hm' with h | h
    · exact (hone m h _ (hd 0 hpos) (he m hm) (he _ (hmem 0 hpos m h))).1
    · obtain ⟨k, hk, h⟩ := List.mem_flatMap.mp h
      obtain ⟨m', h', rfl⟩ := List.mem_map.mp h
      exact (hone m' h' _ (hd k (List.mem_range.mp hk)) (he m' (hmem0 m' h')) (he _ hm)).2.1
  · intro m hm k hk
    exact (hone m hm _ (hd k hk) (he m (hmem0 m hm)) (he _ (hmem k hk m hm))).2.2


/-! ## Where the condition on twisted panels is needed -/

/-- A quadrangle twisted through the free surface: a corner on it, its neighbours above, the last corner below. -/
noncomputable def warped : Mesh (V3 ℝ) := ⟨[⟨0, 0, 0⟩, ⟨1, 0, 1⟩, ⟨1, 1, -1⟩, ⟨0, 1, 2⟩], [⟨0, 1, 2, 3⟩]⟩

/-- The vertical plane `y = 0`. -/
noncomputable def sidePlane : Plane := ⟨⟨0, 1, 0⟩, 0⟩

/-- Some corner of the panel has a height of at least `h`. -/
def Reaches (h : ℝ) (c : V3 ℝ × V3 ℝ × V3 ℝ × V3 ℝ) : Prop :=
  h ≤ c.1.z ∨ h ≤ c.2.1.z ∨ h ≤ c.2.2.1.z ∨ h ≤ c.2.2.2.z

theorem reaches_turn (h : ℝ) (n : ℕ) : ∀ c, Reaches h (turnPanel^[n] c) ↔ Reaches h c := by
  induction n with
  | zero => exact fun c => Iff.rfl
  | succ n ih =>
    intro c
    rw [Function.iterate_succ_apply, ih]
    simp only [Reaches, turnPanel]
    tauto

theorem reaches_near {atol : ℝ} {c g : V3 ℝ × V3 ℝ × V3 ℝ × V3 ℝ} (h : NearPanel atol c (some g)) (z : ℝ) :
    (Reaches z c → Reaches (z - atol) g) ∧ (Reaches z g → Reaches (z - atol) c) := by
  obtain ⟨q, n, hq, h1, h2, h3, h4⟩ := h
  cases hq
  rw [reaches_turn, reaches_turn]
  have a1 := abs_le.mp h1.2.2
  have a2 := abs_le.mp h2.2.2
  have a3 := abs_le.mp h3.2.2
  have a4 := abs_le.mp h4.2.2
  simp only [Reaches]
  constructor <;> rintro (h | h | h | h) <;> first
    | exact Or.inl (by linarith)
    | exact Or.inr (Or.inl (by linarith))
    | exact Or.inr (Or.inr (Or.inl (by linarith)))
    | exact Or.inr (Or.inr (Or.inr (by linarith)))

theorem reaches_ring {s : Bool × (V3 ℝ × V3 ℝ × V3 ℝ × V3 ℝ)} (hc : s.1 = true → s.2.2.2.2 = s.2.1) (z : ℝ) :
    Reaches z s.2 ↔ ∃ p ∈ ring s.1 s.2, z ≤ p.z := by
  obtain ⟨tri, a, b, c, d⟩ := s
  cases tri with
  | false => simp [Reaches, ring]
  | true =>
    have h : d = a := hc rfl
    subst h
    simp only [Reaches, ring, if_true, List.mem_cons, List.not_mem_nil, or_false, exists_eq_or_imp, exists_eq_left]
    tauto

theorem reaches_image {s s' : Bool × (V3 ℝ × V3 ℝ × V3 ℝ × V3 ℝ)} (h : Image (.mirror sidePlane) s s') (z : ℝ) :
    Reaches z s'.2 ↔ Reaches z s.2 := by
  have hz : ∀ p, (sidePlane.mirrorPoint p).z = p.z := by
    intro p
    simp [Plane.mirrorPoint, sidePlane]
  rw [reaches_ring h.closed, reaches_ring h.closed']
  simp only [h.turned.mem_iff, moveRing, List.mem_reverse, List.mem_map, Motion.point]
  constructor
  · rintro ⟨_, ⟨q, hq, rfl⟩, h⟩
    exact ⟨q, hq, hz q ▸ h⟩
  · rintro ⟨q, hq, h⟩
    exact ⟨_, ⟨q, hq, rfl⟩, (hz q).symm ▸ h⟩

theorem warped_sides (p : V3 ℝ) : sideOf (1 / 10 ^ 12) (freeSurface.distanceToPoint p) = sideOf (1 / 10 ^ 12) p.z := by
  rw [freeSurface_dist]

/-- The clipping of a single quadrangle which is neither dry nor wet. -/
theorem single_pieces {tol : ℝ} {P : Plane} {s : Bool × (V3 ℝ × V3 ℝ × V3 ℝ × V3 ℝ)} {sides : List PlaneSide}
    {q : Bool × (V3 ℝ × V3 ℝ × V3 ℝ × V3 ℝ)} (h1 : sides.count .above ≠ sides.length)
    (h2 : sides.count .below + sides.count .on ≠ sides.length) (h3 : allOn tol P .above s = false)
    (h4 : allOn tol P .below s = false) (h5 : cutRing tol P (ring s.1 s.2) = some [q]) :
    allPieces tol P sides [s] = some [(q, 0)] := by
  have a : idsWhere [s] (allOn tol P .below) = [] := by simp [idsWhere, h4]
  have b : (idsWhere [s] fun s => !(allOn tol P .above s || allOn tol P .below s)) = [0] := by
    simp [idsWhere, h3, h4]
  simp only [allPieces, if_neg h1, if_neg h2, a, b]
  simp [cutAll, h5]


theorem allOn_false {tol : ℝ} {P : Plane} {a b : PlaneSide} {s : Bool × (V3 ℝ × V3 ℝ × V3 ℝ × V3 ℝ)} {p : V3 ℝ}
    (hp : p ∈ [s.2.1, s.2.2.1, s.2.2.2.1, s.2.2.2.2]) (h : sideOf tol (P.distanceToPoint p) = b) (hb : b ≠ a) :
    allOn tol P a s = false := by
  rw [allOn, List.all_eq_false]
  exact ⟨p, hp, by simp [h, hb]⟩

theorem reaches_mono {a b : ℝ} (h : b ≤ a) {c : V3 ℝ × V3 ℝ × V3 ℝ × V3 ℝ} (hc : Reaches a c) : Reaches b c :=
  hc.imp h.trans (Or.imp h.trans (Or.imp h.trans h.trans))

theorem warped_valid : warped.Valid := by
  intro f hf i hi
  simp [warped] at hf
  subst hf
  simp [Face.toList] at hi
  simp only [warped, List.length_cons, List.length_nil]
  omega

theorem warped_shapes : Shapes warped [(false, (⟨0, 0, 0⟩, ⟨1, 0, 1⟩, ⟨1, 1, -1⟩, ⟨0, 1, 2⟩))] := by
  simp [Shapes, Mesh.shapes, warped, Face.isTriangle, corners]

theorem side_on : sideOf (1 / 10 ^ 12) 0 = .on := by norm_num [sideOf]
theorem side_one : sideOf (1 / 10 ^ 12) 1 = .above := by norm_num [sideOf]
theorem side_two : sideOf (1 / 10 ^ 12) 2 = .above := by norm_num [sideOf]
theorem side_minus : sideOf (1 / 10 ^ 12) (-1) = .below := by norm_num [sideOf]

theorem warped_cut (a b c d : V3 ℝ) (ha : a.z = 0) (hb : b.z = 1) (hc : c.z = -1) (hd : d.z = 2) :
    cutRing (1 / 10 ^ 12) freeSurface [a, b, c, d] = some [(true, (zeroPoint freeSurface c d, d, a, zeroPoint freeSurface c d))] ∧
    cutRing (1 / 10 ^ 12) freeSurface [d, c, b, a] = some [(true, (zeroPoint freeSurface c b, b, a, zeroPoint freeSurface c b))] := by
  constructor
  · rw [cutRing]
    simp only [List.map_cons, List.map_nil, freeSurface_dist, ha, hb, hc, hd, side_on, side_one, side_two, side_minus]
    rfl
  · rw [cutRing]
    simp only [List.map_cons, List.map_nil, freeSurface_dist, ha, hb, hc, hd, side_on, side_one, side_two, side_minus]
    rfl

/-- C93 fails for twisted panels, which are also left above the plane: a panel with a corner on the free surface, its
neighbours above and its last corner below is replaced by a triangle above the free surface, and another one for the
mirrored panel. The clipped mirrored mesh is not the mirrored clipped mesh. -/
theorem clip_twisted_violated : ∃ r r' ids ids',
    (∀ p, freeSurface.distanceToPoint ((Motion.mirror sidePlane).point p) = freeSurface.distanceToPoint p) ∧
    warped.clip insertionSort (1 / 10 ^ 8) (1 / 10 ^ 12) (1 / 10 ^ 5) freeSurface = some (r, ids) ∧
    ((Motion.mirror sidePlane).mesh warped).clip insertionSort (1 / 10 ^ 8) (1 / 10 ^ 12) (1 / 10 ^ 5) freeSurface =
      some (r', ids') ∧ ids = [0] ∧ ids' = [0] ∧
    (∃ c, r.panels = [some c] ∧ Reaches (3 / 2) c) ∧ (∃ c, r'.panels = [some c] ∧ Reaches (1 / 2) c ∧ ¬ Reaches (3 / 2) c) ∧
    ¬ List.Forall₂ (NearImage (1 / 10 ^ 8) (.mirror sidePlane)) r.panels r'.panels := by
  classical
  have hz : ∀ p, (sidePlane.mirrorPoint p).z = p.z := by
    intro p
    simp [Plane.mirrorPoint, sidePlane]
  have hd : ∀ p, freeSurface.distanceToPoint ((Motion.mirror sidePlane).point p) = freeSurface.distanceToPoint p := by
    intro p
    simp only [freeSurface_dist, Motion.point, hz]
  have hsh : ∀ p ∈ warped.vertices, |freeSurface.distanceToPoint p| ≠ 1 / 10 ^ 12 := by
    intro p hp
    simp only [warped, List.mem_cons, List.not_mem_nil, or_false] at hp
    rcases hp with rfl | rfl | rfl | rfl <;> norm_num [freeSurface_dist]
  have hsides : (warped.vertices.map fun p => sideOf (1 / 10 ^ 12) (freeSurface.distanceToPoint p)) =
      [.on, .above, .below, .above] := by
    simp only [warped, List.map_cons, List.map_nil, freeSurface_dist, side_on, side_one, side_two, side_minus]
  have hsides' : (((Motion.mirror sidePlane).mesh warped).vertices.map
      fun p => sideOf (1 / 10 ^ 12) (freeSurface.distanceToPoint p)) = [.on, .above, .below, .above] := by
    rw [← hsides, mesh_eq, List.map_map]
    exact List.map_congr_left fun p _ => by simp only [Function.comp, hd]
  have hring := ring_of_shapes warped_shapes
  have hcl := closed_shapes warped_shapes
  have one : ∀ {e : (Bool × (V3 ℝ × V3 ℝ × V3 ℝ × V3 ℝ)) × ℕ} {r : Mesh (V3 ℝ)},
      List.Forall₂ (fun e o => NearPanel (1 / 10 ^ 8) e.1.2 o) [e] r.panels →
      r.removeDegeneratedFaces (1 / 10 ^ 5) = r ∧ ∃ c, r.panels = [some c] ∧ NearPanel (1 / 10 ^ 8) e.1.2 (some c) := by
    intro e r h
    have hl := h.length_eq
    simp only [Mesh.panels, List.length_map, List.length_singleton] at hl
    obtain ⟨f, hf⟩ := List.length_eq_one_iff.mp hl.symm
    refine ⟨remove_degenerated_eq _ _ ?_, ?_⟩
    · obtain ⟨vs, fs⟩ := r
      simp only at hf
      subst hf
      exact even_single vs f _ (by norm_num)
    · rw [Mesh.panels, hf, List.map_singleton] at h ⊢
      cases h with
      | cons h _ =>
        have h' := h
        obtain ⟨g, n, hg, -⟩ := h'
        rw [hg] at h ⊢
        exact ⟨_, rfl, h⟩
  have hon : ∀ (a : PlaneSide) (q : V3 ℝ × V3 ℝ × V3 ℝ), .on ≠ a → allOn (1 / 10 ^ 12) freeSurface a (false, (⟨0, 0, 0⟩, q)) =
      false := fun a q h => allOn_false (p := ⟨0, 0, 0⟩) (by simp) (by rw [freeSurface_dist]; exact side_on) h
  have hon' : ∀ a : PlaneSide, .on ≠ a → allOn (1 / 10 ^ 12) freeSurface a (moveQuad (.mirror sidePlane)
      (false, (⟨0, 0, 0⟩, ⟨1, 0, 1⟩, ⟨1, 1, -1⟩, ⟨0, 1, 2⟩))) = false := fun a h => by
    rw [allOn_moved hd]
    exact hon a _ h
  rcases clip_pieces insertionSort insertionSort_argSort (atol := 1 / 10 ^ 8) (tol := 1 / 10 ^ 12) (by norm_num)
    (by norm_num) (1 / 10 ^ 5) freeSurface warped warped_valid _ warped_shapes
    (fun s hs p hp => hsh p (hring s hs p hp)) _ hsides.symm with ⟨h, -⟩ | ⟨E, r, hE, hr, -, hn⟩
  · rw [single_pieces (q := _) (by decide) (by decide) (hon _ _ (by simp))
      (hon _ _ (by simp)) (warped_cut _ _ _ _ rfl rfl rfl rfl).1] at h
    cases h
  rw [single_pieces (q := _) (by decide) (by decide) (hon _ _ (by simp))
      (hon _ _ (by simp)) (warped_cut _ _ _ _ rfl rfl rfl rfl).1] at hE
  cases hE
  have hzz : ∀ p q : V3 ℝ, freeSurface.distanceToPoint p ≠ freeSurface.distanceToPoint q → (zeroPoint freeSurface p q).z = 0 := by
    intro p q h
    rw [freeSurface_dist, freeSurface_dist] at h
    have h' : p.z - q.z ≠ 0 := sub_ne_zero.mpr h
    simp only [zeroPoint, freeSurface_dist, add_z, smul_z]
    field_simp
    ring
  rcases clip_pieces insertionSort insertionSort_argSort (atol := 1 / 10 ^ 8) (tol := 1 / 10 ^ 12) (by norm_num)
    (by norm_num) (1 / 10 ^ 5) freeSurface ((Motion.mirror sidePlane).mesh warped) (moved_valid warped_valid) _
    (shapes_moved warped_shapes)
    (fun s hs => by
      obtain ⟨s', hs', rfl⟩ := List.mem_map.mp hs
      exact ring_moved hd s' (hcl s' hs') fun p hp => hsh p (hring s' hs' p hp)) _ hsides'.symm with
    ⟨h, -⟩ | ⟨E, r', hE, hr', -, hn'⟩
  · rw [List.map_singleton, single_pieces (q := _) (by decide) (by decide)
      (hon' _ (by simp))
      (hon' _ (by simp))
      (warped_cut _ _ _ _ (hz _) (hz _) (hz _) (hz _)).2] at h
    cases h
  rw [List.map_singleton, single_pieces (q := _) (by decide) (by decide)
      (hon' _ (by simp))
      (hon' _ (by simp))
      (warped_cut _ _ _ _ (hz _) (hz _) (hz _) (hz _)).2] at hE
  cases hE
  obtain ⟨d1, c1, p1, n1⟩ := one hn
  obtain ⟨d2, c2, p2, n2⟩ := one hn'
  have t1 : Reaches (2 - 1 / 10 ^ 8) c1 := (reaches_near n1 2).1 (Or.inr (Or.inl le_rfl))
  have t2 : Reaches (1 - 1 / 10 ^ 8) c2 := (reaches_near n2 1).1 (Or.inr (Or.inl (hz ⟨1, 0, 1⟩).ge))
  have t3 : ∀ h, 1 + 1 / 10 ^ 8 < h → ¬ Reaches h c2 := by
    intro h hlt hc
    have hne : ∀ p q : V3 ℝ, p.z = -1 → q.z = 1 → freeSurface.distanceToPoint p ≠ freeSurface.distanceToPoint q := by
      intro p q hp hq
      rw [freeSurface_dist, freeSurface_dist, hp, hq]
      norm_num
    rcases (reaches_near n2 h).2 hc with h | h | h | h
    · rw [hzz _ _ (hne _ _ (hz _) (hz _))] at h
      norm_num at h hlt
      linarith
    · have h0 := hz ⟨1, 0, 1⟩
      have h1 := h.trans (le_of_eq h0)
      simp only at h1
      linarith
    · have h0 := hz ⟨0, 0, 0⟩
      have h1 := h.trans (le_of_eq h0)
      norm_num at h1 hlt
      linarith
    · rw [hzz _ _ (hne _ _ (hz _) (hz _))] at h
      norm_num at h hlt
      linarith
  rw [d1] at hr
  rw [d2] at hr'
  refine ⟨r, r', _, _, hd, hr, hr', rfl, rfl, ⟨c1, p1, reaches_mono (by norm_num) t1⟩,
    ⟨c2, p2, reaches_mono (by norm_num) t2, t3 _ (by norm_num)⟩, ?_⟩
  rw [p1, p2]
  intro h
  cases h with
  | cons h _ =>
    obtain ⟨s, s', hi, e1, e2⟩ := h
    have u1 := (reaches_near e1 _).2 t1
    have u2 := (reaches_image hi _).mpr u1
    have u3 := (reaches_near e2 _).1 u2
    exact t3 _ (by norm_num) u3


/-! ## Concrete cases -/

theorem halfSunk_regular : ∀ s ∈ [((false, (⟨0, 0, -1⟩, ⟨1, 0, -1⟩, ⟨1, 0, 1⟩, ⟨0, 0, 1⟩)) :
    Bool × (V3 ℝ × V3 ℝ × V3 ℝ × V3 ℝ))], Regular (1 / 10 ^ 12) freeSurface (ring s.1 s.2) := by
  intro s hs
  rw [List.mem_singleton] at hs
  subst hs
  refine ⟨?_, ?_⟩
  · intro p hp
    simp only [ring, Bool.false_eq_true, if_false, List.mem_cons, List.not_mem_nil, or_false] at hp
    rcases hp with rfl | rfl | rfl | rfl <;> norm_num [freeSurface_dist]
  · simp only [ring, Bool.false_eq_true, if_false, List.map_cons, List.map_nil, freeSurface_dist, side_one, side_minus]
    rfl

/-- Concrete case of `cut_moved`: a square half under the free surface and its mirror image with respect to `y = 0`. -/
example : ∃ E E', cutRing (1 / 10 ^ 12) freeSurface (ring false (⟨0, 0, -1⟩, ⟨1, 0, -1⟩, ⟨1, 0, 1⟩, ⟨0, 0, 1⟩)) = some E ∧
    cutRing (1 / 10 ^ 12) freeSurface (ring false (moveCorners (.mirror sidePlane)
      (⟨0, 0, -1⟩, ⟨1, 0, -1⟩, ⟨1, 0, 1⟩, ⟨0, 0, 1⟩))) = some E' ∧ List.Forall₂ (Image (.mirror sidePlane)) E E' ∧
    E.length = 1 := by
  have h0 : ∃ q, cutRing (1 / 10 ^ 12) freeSurface (ring false (⟨0, 0, -1⟩, ⟨1, 0, -1⟩, ⟨1, 0, 1⟩, ⟨0, 0, 1⟩)) =
      some [q] := by
    rw [cutRing]
    simp only [ring, Bool.false_eq_true, if_false, List.map_cons, List.map_nil, freeSurface_dist, side_one, side_minus]
    exact ⟨_, rfl⟩
  obtain ⟨q, hq⟩ := h0
  rcases cut_moved (tol := 1 / 10 ^ 12) (by norm_num) (P := freeSurface) (μ := .mirror sidePlane)
    (fun p => along_distance (s := .reflection sidePlane) (by simp [Sym.Along, sidePlane, freeSurface, dot]) 2 1 p) false _
    (by simp) (halfSunk_regular _ (List.mem_singleton.mpr rfl)) with ⟨h, -⟩ | ⟨E, E', h1, h2, h3⟩
  · rw [hq] at h
    cases h
  · rw [hq] at h1
    cases h1
    exact ⟨_, _, hq, h2, h3, rfl⟩

theorem halfSunk_pieces {s : Bool × (V3 ℝ × V3 ℝ × V3 ℝ × V3 ℝ)} (h1 : s.1 = false)
    (h2 : (ring s.1 s.2).map V3.z = [-1, -1, 1, 1] ∨ (ring s.1 s.2).map V3.z = [1, 1, -1, -1]) :
    ∃ q, allPieces (1 / 10 ^ 12) freeSurface [.below, .below, .above, .above] [s] = some [(q, 0)] := by
  obtain ⟨tri, a, b, c, d⟩ := s
  simp only at h1
  subst h1
  simp only [ring, Bool.false_eq_true, if_false, List.map_cons, List.map_nil, List.cons.injEq, and_true] at h2
  have hall : ∀ x : PlaneSide, allOn (1 / 10 ^ 12) freeSurface .above (false, (a, b, c, d)) = false ∧
      allOn (1 / 10 ^ 12) freeSurface .below (false, (a, b, c, d)) = false := by
    intro _
    rcases h2 with ⟨ha, hb, hc, hd⟩ | ⟨ha, hb, hc, hd⟩
    · exact ⟨allOn_false (p := a) (b := .below) (by simp) (by rw [freeSurface_dist, ha, side_minus]) (by simp),
        allOn_false (p := c) (b := .above) (by simp) (by rw [freeSurface_dist, hc, side_one]) (by simp)⟩
    · exact ⟨allOn_false (p := c) (b := .below) (by simp) (by rw [freeSurface_dist, hc, side_minus]) (by simp),
        allOn_false (p := a) (b := .above) (by simp) (by rw [freeSurface_dist, ha, side_one]) (by simp)⟩
  have hq : ∃ q, cutRing (1 / 10 ^ 12) freeSurface (ring false (a, b, c, d)) = some [q] := by
    rw [cutRing]
    rcases h2 with ⟨ha, hb, hc, hd⟩ | ⟨ha, hb, hc, hd⟩ <;>
      simp only [ring, Bool.false_eq_true, if_false, List.map_cons, List.map_nil, freeSurface_dist, ha, hb, hc, hd,
        side_one, side_minus] <;> exact ⟨_, rfl⟩
  obtain ⟨q, hq⟩ := hq
  exact ⟨q, single_pieces (by decide) (by decide) (hall .on).1 (hall .on).2 hq⟩

/-- Concrete case of `clip_crossed`, and with it of `clip_image` and `clip_symmetric_near`: two squares half under the
free surface, symmetric with respect to `y = 0`. -/
example : ∃ ps, ((Tree.node (.reflection sidePlane) [.leaf halfSunk, .leaf (halfSunk.mirror sidePlane)]).clip
      (clipLeaf insertionSort (1 / 10 ^ 8) (1 / 10 ^ 12) (1 / 10 ^ 5) freeSurface)).1 = .node (.reflection sidePlane) ps ∧
    NearlyKeepsPromise (1 / 10 ^ 8) (.reflection sidePlane) 2 ps ∧ ∀ u, ps[0]? = some u → u.shapes ≠ [] := by
  have hu : Sym.Unit (.reflection sidePlane) := by simp [Sym.Unit, sidePlane, dot]
  have hal : Sym.Along freeSurface (.reflection sidePlane) := by simp [Sym.Along, sidePlane, freeSurface, dot]
  have hd : ∀ p, freeSurface.distanceToPoint ((Motion.mirror sidePlane).point p) = freeSurface.distanceToPoint p :=
    fun p => along_distance hal 2 1 p
  have hsl : Sliced (.node (.reflection sidePlane) [.leaf halfSunk, .leaf (halfSunk.mirror sidePlane)]) := by
    refine .symmetric _ (by simp) hu _ _ (.leaf _) (by simp) (by simp) ?_
    intro k u hu
    rcases k with _ | k
    · simp only [List.getElem?_cons_zero, Option.some.injEq] at hu
      subst hu
      rfl
    · simp at hu
  have hsides : (halfSunk.vertices.map fun p => sideOf (1 / 10 ^ 12) (freeSurface.distanceToPoint p)) =
      [.below, .below, .above, .above] := by
    simp only [halfSunk, List.map_cons, List.map_nil, freeSurface_dist, side_one, side_minus]
  have hsides' : (((Motion.mirror sidePlane).mesh halfSunk).vertices.map
      fun p => sideOf (1 / 10 ^ 12) (freeSurface.distanceToPoint p)) = [.below, .below, .above, .above] := by
    rw [← hsides, mesh_eq, List.map_map]
    exact List.map_congr_left fun p _ => by simp only [Function.comp, hd]
  have hz : ∀ p, (sidePlane.mirrorPoint p).z = p.z := by
    intro p
    simp [Plane.mirrorPoint, sidePlane]
  have hcl := closed_shapes halfSunk_shapes
  have one : ∀ (m : Mesh (V3 ℝ)) (s : Bool × (V3 ℝ × V3 ℝ × V3 ℝ × V3 ℝ)), m.Valid → Shapes m [s] →
      (∀ p ∈ ring s.1 s.2, |freeSurface.distanceToPoint p| ≠ 1 / 10 ^ 12) →
      (m.vertices.map fun p => sideOf (1 / 10 ^ 12) (freeSurface.distanceToPoint p)) = [.below, .below, .above, .above] →
      s.1 = false → ((ring s.1 s.2).map V3.z = [-1, -1, 1, 1] ∨ (ring s.1 s.2).map V3.z = [1, 1, -1, -1]) →
      (clipLeaf insertionSort (1 / 10 ^ 8) (1 / 10 ^ 12) (1 / 10 ^ 5) freeSurface m).2.length = 1 ∧
      (clipLeaf insertionSort (1 / 10 ^ 8) (1 / 10 ^ 12) (1 / 10 ^ 5) freeSurface m).1.faces.length = 1 := by
    intro m s hm hL hsh hsd h1 h2
    obtain ⟨q, hq⟩ := halfSunk_pieces h1 h2
    rcases clip_pieces insertionSort insertionSort_argSort (atol := 1 / 10 ^ 8) (tol := 1 / 10 ^ 12) (by norm_num)
      (by norm_num) (1 / 10 ^ 5) freeSurface m hm [s] hL (fun s' hs' => by
        rw [List.mem_singleton] at hs'
        subst hs'
        exact hsh) _ hsd.symm with ⟨h, -⟩ | ⟨E, r, hE, hr, -, hn⟩
    · rw [hq] at h
      cases h
    · rw [hq] at hE
      cases hE
      have hl := hn.length_eq
      simp only [Mesh.panels, List.length_map, List.length_singleton] at hl
      obtain ⟨f, hf⟩ := List.length_eq_one_iff.mp hl.symm
      have hrd : r.removeDegeneratedFaces (1 / 10 ^ 5) = r := by
        refine remove_degenerated_eq _ _ ?_
        obtain ⟨vs, fs⟩ := r
        simp only at hf
        subst hf
        exact even_single vs f _ (by norm_num)
      rw [clipLeaf, hr, hrd]
      exact ⟨rfl, hl.symm⟩
  have hfirst := one halfSunk _ halfSunk_valid halfSunk_shapes (halfSunk_regular _ (List.mem_singleton.mpr rfl)).sharp
    hsides rfl (Or.inl rfl)
  have hsecond := one ((Motion.mirror sidePlane).mesh halfSunk) _ (moved_valid halfSunk_valid) (shapes_moved halfSunk_shapes)
    (ring_moved hd _ (hcl _ (List.mem_singleton.mpr rfl)) (halfSunk_regular _ (List.mem_singleton.mpr rfl)).sharp) hsides' rfl
    (Or.inr (by simp [ring, moveQuad, moveCorners, Motion.point, hz]))
  rcases clip_crossed insertionSort insertionSort_argSort (atol := 1 / 10 ^ 8) (tol := 1 / 10 ^ 12) (by norm_num)
    (by norm_num) (1 / 10 ^ 5) freeSurface (by simp) hsl ⟨by simp, trivial, trivial, trivial⟩ hal (by
      intro m hm
      rw [Tree.leaves, List.mem_singleton] at hm
      subst hm
      exact ⟨halfSunk_valid, _, halfSunk_shapes, halfSunk_regular⟩) (by
      intro m hm
      simp only [Tree.leaves, leavesAll, List.append_nil, List.cons_append, List.nil_append, List.mem_cons,
        List.not_mem_nil, or_false] at hm
      rcases hm with rfl | rfl
      · exact hfirst.1.trans hfirst.2.symm
      · exact hsecond.1.trans hsecond.2.symm) with ⟨h, -⟩ | ⟨ps, hp, hk, hu⟩
  · have := h halfSunk (by simp [Tree.leaves])
    rw [this] at hfirst
    cases hfirst.2
  · exact ⟨ps, hp, hk, fun u h => (hu u h).2⟩

/-- Concrete case of `along_distance`: quarters of a turn around the vertical axis. -/
example (p : V3 ℝ) : freeSurface.distanceToPoint (((Sym.axial ⟨⟨0, 0, 1⟩, ⟨1, 2, 3⟩⟩).step 4 1).point p) =
    freeSurface.distanceToPoint p :=
  along_distance (by
    show cross _ _ = 0
    ext <;> simp [cross, freeSurface]) 4 1 p


end Verif.Meshes
