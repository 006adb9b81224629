import Verif.Meshes.ClipProps
import Verif.Bodies.SliceProps

/-!
# Clipping of a mesh (C32, C33)
-/

namespace Verif.Meshes

open Verif.Geometry V3

/-- Any panel, for the numbers that are out of bounds. -/
def noShape : Bool × (V3 ℝ × V3 ℝ × V3 ℝ × V3 ℝ) := (false, (0, 0, 0, 0))

/-- The shapes of a mesh whose panels exist. -/
def Shapes (m : Mesh (V3 ℝ)) (L : List (Bool × (V3 ℝ × V3 ℝ × V3 ℝ × V3 ℝ))) : Prop :=
  m.shapes = L.map fun s => (s.1, some s.2)

theorem corners_some {vs : List (V3 ℝ)} {f : Face} (h : ∀ i ∈ f.toList, i < vs.length) : ∃ c, corners vs f = some c := by
  have ha := h f.a (by simp [Face.toList])
  have hb := h f.b (by simp [Face.toList])
  have hc := h f.c (by simp [Face.toList])
  have hd := h f.d (by simp [Face.toList])
  exact ⟨_, by simp only [corners, List.getElem?_eq_getElem ha, List.getElem?_eq_getElem hb,
    List.getElem?_eq_getElem hc, List.getElem?_eq_getElem hd]; rfl⟩

theorem corners_lt {vs : List (V3 ℝ)} {f : Face} {c : V3 ℝ × V3 ℝ × V3 ℝ × V3 ℝ} (h : corners vs f = some c) :
    vs[f.a]? = some c.1 ∧ vs[f.b]? = some c.2.1 ∧ vs[f.c]? = some c.2.2.1 ∧ vs[f.d]? = some c.2.2.2 ∧
      ∀ i ∈ f.toList, i < vs.length := by
  unfold corners at h
  split at h
  · rename_i a b c d ha hb hc hd
    cases h
    refine ⟨ha, hb, hc, hd, ?_⟩
    have ha' := (List.getElem?_eq_some_iff.mp ha).1
    have hb' := (List.getElem?_eq_some_iff.mp hb).1
    have hc' := (List.getElem?_eq_some_iff.mp hc).1
    have hd' := (List.getElem?_eq_some_iff.mp hd).1
    intro i hi
    simp only [Face.toList, List.mem_cons, List.not_mem_nil, or_false] at hi
    rcases hi with rfl | rfl | rfl | rfl <;> assumption
  · cases h

theorem shapes_exist {m : Mesh (V3 ℝ)} (hm : m.Valid) : ∃ L, Shapes m L := by
  have : ∀ fs : List Face, (∀ f ∈ fs, ∀ i ∈ f.toList, i < m.vertices.length) →
      ∃ L : List (Bool × (V3 ℝ × V3 ℝ × V3 ℝ × V3 ℝ)),
        (fs.map fun f => (f.isTriangle, corners m.vertices f)) = L.map fun s => (s.1, some s.2) := by
    intro fs
    induction fs with
    | nil => exact fun _ => ⟨[], rfl⟩
    | cons f fs ih =>
      intro h
      obtain ⟨L, hL⟩ := ih fun g hg => h g (List.mem_cons_of_mem _ hg)
      obtain ⟨c, hc⟩ := corners_some (h f List.mem_cons_self)
      exact ⟨(f.isTriangle, c) :: L, by rw [List.map_cons, List.map_cons, hL, hc]⟩
  exact this m.faces hm

theorem shapes_get {m : Mesh (V3 ℝ)} {L : List (Bool × (V3 ℝ × V3 ℝ × V3 ℝ × V3 ℝ))} (h : Shapes m L) :
    L.length = m.faces.length ∧ ∀ (i : ℕ) f, m.faces[i]? = some f → ∃ s, L[i]? = some s ∧ f.isTriangle = s.1 ∧
      corners m.vertices f = some s.2 := by
  have hl : L.length = m.faces.length := by
    have := congrArg List.length h
    simpa [Mesh.shapes] using this.symm
  refine ⟨hl, fun i f hf => ?_⟩
  have hi : i < L.length := by
    rw [hl]
    exact (List.getElem?_eq_some_iff.mp hf).1
  have := congrArg (fun l => l[i]?) h
  simp only [Mesh.shapes, List.getElem?_map, hf, Option.map_some, List.getElem?_eq_getElem hi, Option.some.injEq,
    Prod.mk.injEq] at this
  exact ⟨_, List.getElem?_eq_getElem hi, this⟩

theorem mem_whereFaces {m : Mesh (V3 ℝ)} {p : Face → Bool} {i : ℕ} :
    i ∈ m.whereFaces p ↔ ∃ f, m.faces[i]? = some f ∧ p f = true := by
  rw [Mesh.whereFaces, List.mem_filter, List.mem_range, beq_iff_eq]
  constructor
  · rintro ⟨hi, h⟩
    rw [List.getElem?_eq_getElem hi, Option.map_some, Option.some.injEq] at h
    exact ⟨_, List.getElem?_eq_getElem hi, h⟩
  · rintro ⟨f, hf, h⟩
    exact ⟨(List.getElem?_eq_some_iff.mp hf).1, by rw [hf, Option.map_some, h]⟩

theorem whereFaces_nodup (m : Mesh (V3 ℝ)) (p : Face → Bool) : (m.whereFaces p).Nodup :=
  List.Nodup.filter _ List.nodup_range

theorem facesOn_iff {tol : ℝ} {P : Plane} {s : PlaneSide} {m : Mesh (V3 ℝ)} {f : Face} {c : V3 ℝ × V3 ℝ × V3 ℝ × V3 ℝ}
    (h : corners m.vertices f = some c) :
    m.facesOn tol P s f = true ↔ ∀ p ∈ [c.1, c.2.1, c.2.2.1, c.2.2.2], sideOf tol (P.distanceToPoint p) = s := by
  obtain ⟨ha, hb, hc, hd, -⟩ := corners_lt h
  simp [Mesh.facesOn, Face.toList, ha, hb, hc, hd]

theorem ring_subset {tri : Bool} {c : V3 ℝ × V3 ℝ × V3 ℝ × V3 ℝ} {p : V3 ℝ} (h : p ∈ ring tri c) :
    p ∈ [c.1, c.2.1, c.2.2.1, c.2.2.2] := by
  unfold ring at h
  split at h <;> simp only [List.mem_cons, List.not_mem_nil, or_false] at h ⊢ <;> tauto

theorem ring_all {f : Face} {vs : List (V3 ℝ)} {c : V3 ℝ × V3 ℝ × V3 ℝ × V3 ℝ} (h : corners vs f = some c) {p : V3 ℝ}
    (hp : p ∈ [c.1, c.2.1, c.2.2.1, c.2.2.2]) : p ∈ ring f.isTriangle c := by
  unfold ring
  split
  · rename_i ht
    rw [Face.isTriangle, beq_iff_eq] at ht
    obtain ⟨ha, -, -, hd, -⟩ := corners_lt h
    rw [ht, hd] at ha
    have had : c.2.2.2 = c.1 := Option.some.inj ha
    simp only [List.mem_cons, List.not_mem_nil, or_false, had] at hp ⊢
    tauto
  · exact hp

theorem sideOf_above {tol : ℝ} (htol : 0 < tol) {d : ℝ} (h : sideOf tol d = .above) : 0 < d := by
  unfold sideOf at h
  split_ifs at h
  linarith

theorem sideOf_below {tol : ℝ} (htol : 0 < tol) {d : ℝ} (h : sideOf tol d = .below) : d < 0 := by
  unfold sideOf at h
  split_ifs at h
  linarith

/-! ## The crown -/

/-- C32 for the crown. -/
theorem clip_crown {tol : ℝ} (htol : 0 < tol) (P : Plane) (m : Mesh (V3 ℝ)) (hm : m.Valid) (faceIds : List ℕ)
    (L : List (Bool × (V3 ℝ × V3 ℝ × V3 ℝ × V3 ℝ))) (hL : Shapes m L) (hids : faceIds.length = L.length)
    (hc : ∀ s ∈ L, Clippable tol P s.1 s.2) :
    ∃ r, clipCrown tol P m faceIds = some r ∧ r.1.Valid ∧ (∀ v ∈ m.vertices, v ∈ r.1.vertices) ∧
      (∀ v ∈ r.1.vertices, v ∈ m.vertices ∨ P.distanceToPoint v = 0 ∧ ∃ s ∈ L, OnEdge (ring s.1 s.2) v) ∧
      ∃ E, Covers P L E ∧ r.1.panels = (E.map fun e => some e.1) ∧ r.2.map some = E.map fun e => faceIds[e.2]? := by
  obtain ⟨gs, is, new, h1, h2, h3, h4⟩ := clip_loop htol P m.vertices m.faces L hL hc 0 m.vertices.length
  obtain ⟨E, e1, e2, e3⟩ := h4 (m.vertices ++ new) ⟨fun i p hp => by
    rw [List.getElem?_append_left (List.getElem?_eq_some_iff.mp hp).1, hp], fun k p hp => by
    rw [List.getElem?_append_right (by omega), Nat.add_sub_cancel_left, hp]⟩
  obtain ⟨r, hr⟩ := select_eq_some (l := faceIds) (ids := is) fun i hi => by
    rw [e3] at hi
    obtain ⟨e, he, rfl⟩ := List.mem_map.mp hi
    obtain ⟨s, hs, -⟩ := e1.turn e he
    rw [hids, Nat.add_zero]
    exact (List.getElem?_eq_some_iff.mp hs).1
  refine ⟨(⟨m.vertices ++ new, gs⟩, r), ?_, ?_, ?_, ?_, E, e1, ?_, ?_⟩
  · simp only [clipCrown, h1, hr, Option.map_some]
  · intro g hg v hv
    rw [List.length_append]
    rcases h3 g hg v hv with ⟨f, hf, h⟩ | ⟨k, hk, h⟩
    · have := hm f hf v h
      omega
    · omega
  · exact fun v hv => List.mem_append_left _ hv
  · intro v hv
    exact (List.mem_append.mp hv).imp_right (h2 v)
  · exact e2
  · apply List.ext_getElem?
    intro k
    obtain ⟨r1, r2⟩ := select_get hr
    have hlen : is.length = E.length := by rw [e3, List.length_map]
    rcases lt_or_ge k is.length with hk | hk
    · obtain ⟨i, hi, hr', -⟩ := r2 k hk
      have hk' : k < E.length := by omega
      rw [e3, List.getElem?_map, List.getElem?_eq_getElem hk', Option.map_some, Nat.add_zero, Option.some.injEq] at hi
      have hkr : k < r.length := by omega
      rw [List.getElem?_map, List.getElem?_map, List.getElem?_eq_getElem hkr, List.getElem?_eq_getElem hk',
        Option.map_some, Option.map_some, hi, ← hr', List.getElem?_eq_getElem hkr]
    · rw [List.getElem?_eq_none (by rw [List.length_map]; show r.length ≤ k; omega),
        List.getElem?_eq_none (by rw [List.length_map]; omega)]

/-! ## The partition -/

theorem nodup_get_inj {l : List ℕ} (h : l.Nodup) {i j a : ℕ} (hi : l[i]? = some a) (hj : l[j]? = some a) : i = j := by
  obtain ⟨h1, h1'⟩ := List.getElem?_eq_some_iff.mp hi
  obtain ⟨h2, h2'⟩ := List.getElem?_eq_some_iff.mp hj
  exact (h.getElem_inj_iff).mp (h1'.trans h2'.symm)

/-- The panels kept as they are, and the pieces of the others, are what has to be kept. -/
theorem cover_parts {P : Plane} {L : List (Bool × (V3 ℝ × V3 ℝ × V3 ℝ × V3 ℝ))} {lower crown : List ℕ}
    {E : List ((V3 ℝ × V3 ℝ × V3 ℝ × V3 ℝ) × ℕ)} (hnd : crown.Nodup)
    (hlow : ∀ i ∈ lower, ∃ s, L[i]? = some s ∧ (∀ p ∈ [s.2.1, s.2.2.1, s.2.2.2.1, s.2.2.2.2], P.distanceToPoint p < 0) ∧
      i ∉ crown)
    (hcrown : ∀ i ∈ crown, i < L.length)
    (hrest : ∀ (i : ℕ) s, L[i]? = some s → i ∉ lower → i ∉ crown → ∀ p ∈ ring s.1 s.2, 0 ≤ P.distanceToPoint p)
    (hE : Covers P (crown.map fun i => L[i]?.getD noShape) E) :
    Covers P L ((lower.map fun i => ((L[i]?.getD noShape).2, i)) ++ E.map fun e => (e.1, crown[e.2]?.getD 0)) := by
  have hpos : ∀ e ∈ E, ∃ j, crown[e.2]? = some j ∧ j ∈ crown := by
    intro e he
    obtain ⟨s, hs, -⟩ := hE.turn e he
    have h := (List.getElem?_eq_some_iff.mp hs).1
    rw [List.length_map] at h
    exact ⟨_, List.getElem?_eq_getElem h, List.getElem_mem h⟩
  have hparts : ∀ i : ℕ, partOf ((lower.map fun i => ((L[i]?.getD noShape).2, i)) ++
      E.map fun e => (e.1, crown[e.2]?.getD 0)) i =
      {x | i ∈ lower ∧ x ∈ panelSet (L[i]?.getD noShape).2} ∪ {x | ∃ e ∈ E, crown[e.2]? = some i ∧ x ∈ panelSet e.1} := by
    intro i
    ext x
    simp only [partOf, List.mem_append, List.mem_map, Set.mem_ofPred_eq, Set.mem_union]
    constructor
    · rintro ⟨e, ⟨j, hj, rfl⟩ | ⟨e', he', rfl⟩, rfl, hx⟩
      · exact .inl ⟨hj, hx⟩
      · obtain ⟨j, hj, -⟩ := hpos e' he'
        exact .inr ⟨e', he', by simp [hj], hx⟩
    · rintro (⟨hi, hx⟩ | ⟨e, he, hi, hx⟩)
      · exact ⟨_, .inl ⟨i, hi, rfl⟩, rfl, hx⟩
      · exact ⟨_, .inr ⟨e, he, rfl⟩, by simp [hi], hx⟩
  constructor
  · intro i s hs
    rw [hparts i]
    by_cases hl : i ∈ lower
    · obtain ⟨s', hs', hp, hnc⟩ := hlow i hl
      rw [hs] at hs'
      cases hs'
      have h1 : {x | ∃ e ∈ E, crown[e.2]? = some i ∧ x ∈ panelSet e.1} = ∅ := by
        ext x
        simp only [Set.mem_ofPred_eq, Set.mem_empty_iff_false, iff_false]
        rintro ⟨e, -, hi, -⟩
        exact hnc (List.mem_of_getElem? hi)
      rw [h1, Set.union_empty, hs, Option.getD_some,
        kept_of_mem (p := s.2.1) (by unfold ring; split <;> simp) (hp _ (by simp))]
      ext x
      simp only [hl, true_and, Set.mem_ofPred_eq]
      refine ⟨fun hx => ⟨hx, ?_⟩, fun hx => hx.1⟩
      exact quadrangle_subset (conv_under P) (hp _ (by simp)).le (hp _ (by simp)).le (hp _ (by simp)).le
        (hp _ (by simp)).le hx
    · have h0 : {x | i ∈ lower ∧ x ∈ panelSet (L[i]?.getD noShape).2} = ∅ := by
        ext x
        simp [hl]
      rw [h0, Set.empty_union]
      by_cases hc : i ∈ crown
      · obtain ⟨j, hj⟩ := List.mem_iff_getElem?.mp hc
        rw [← hE.part j s (by rw [List.getElem?_map, hj, Option.map_some, hs, Option.getD_some])]
        ext x
        simp only [partOf, Set.mem_ofPred_eq]
        constructor
        · rintro ⟨e, he, hi, hx⟩
          exact ⟨e, he, nodup_get_inj hnd hi hj, hx⟩
        · rintro ⟨e, he, rfl, hx⟩
          exact ⟨e, he, hj, hx⟩
      · rw [kept_none (hrest i s hs hl hc)]
        ext x
        simp only [Set.mem_ofPred_eq, Set.mem_empty_iff_false, iff_false]
        rintro ⟨e, -, hi, -⟩
        exact hc (List.mem_of_getElem? hi)
  · intro e he
    rcases List.mem_append.mp he with he | he
    · obtain ⟨i, hi, rfl⟩ := List.mem_map.mp he
      obtain ⟨s, hs, -⟩ := hlow i hi
      exact ⟨s, hs, 1, by norm_num, by rw [hs]; ext <;> simp⟩
    · obtain ⟨e', he', rfl⟩ := List.mem_map.mp he
      obtain ⟨j, hj, hj'⟩ := hpos e' he'
      obtain ⟨s, hs, k⟩ := hE.turn e' he'
      rw [List.getElem?_map, hj, Option.map_some, Option.some.injEq] at hs
      have hl := hcrown j hj'
      rw [List.getElem?_eq_getElem hl, Option.getD_some] at hs
      refine ⟨s, ?_, k⟩
      simp only [hj, Option.getD_some]
      rw [List.getElem?_eq_getElem hl, hs]


/-! ## Merging -/

/-- The same panel, with its corners turned. -/
def turnPanel (c : V3 ℝ × V3 ℝ × V3 ℝ × V3 ℝ) : V3 ℝ × V3 ℝ × V3 ℝ × V3 ℝ := (c.2.2.2, c.1, c.2.1, c.2.2.1)

/-- Two points that differ by at most the tolerance in each coordinate. -/
def NearPoint (atol : ℝ) (v w : V3 ℝ) : Prop := |v.x - w.x| ≤ atol ∧ |v.y - w.y| ≤ atol ∧ |v.z - w.z| ≤ atol

/-- The panel `o` is `c` with corners moved by at most the tolerance, and turned. -/
def NearPanel (atol : ℝ) (c : V3 ℝ × V3 ℝ × V3 ℝ × V3 ℝ) (o : Option (V3 ℝ × V3 ℝ × V3 ℝ × V3 ℝ)) : Prop :=
  ∃ (g : V3 ℝ × V3 ℝ × V3 ℝ × V3 ℝ) (n : ℕ), o = some (turnPanel^[n] g) ∧ NearPoint atol c.1 g.1 ∧ NearPoint atol c.2.1 g.2.1 ∧
    NearPoint atol c.2.2.1 g.2.2.1 ∧ NearPoint atol c.2.2.2 g.2.2.2

theorem NearPanel.refl {atol : ℝ} (h : 0 ≤ atol) (c : V3 ℝ × V3 ℝ × V3 ℝ × V3 ℝ) : NearPanel atol c (some c) :=
  ⟨c, 0, rfl, by simp [NearPoint, h], by simp [NearPoint, h], by simp [NearPoint, h], by simp [NearPoint, h]⟩

theorem corners_turn (vs : List (V3 ℝ)) (n : ℕ) : ∀ f c, corners vs f = some c →
    corners vs (Face.roll^[n] f) = some (turnPanel^[n] c) := by
  induction n with
  | zero => exact fun f c h => h
  | succ n ih =>
    intro f c h
    refine ih f.roll (turnPanel c) ?_
    obtain ⟨ha, hb, hc, hd, -⟩ := corners_lt h
    simp only [corners, Face.roll, ha, hb, hc, hd, turnPanel]

/-- Merging two meshes: each panel is moved by at most the tolerance. -/
theorem merge_two (sort : (ℕ → ℝ) → List ℕ → List ℕ) (hs : ArgSort sort) {atol : ℝ} (ha : 0 ≤ atol)
    (a b : Mesh (V3 ℝ)) (hma : a.Valid) (hmb : b.Valid) (hv : b.vertices ≠ []) :
    ∃ r, (Tree.node .plain [.leaf a, .leaf b]).merged sort atol = some r ∧ r.Valid ∧
      (∀ v ∈ r.vertices, v ∈ a.vertices ∨ v ∈ b.vertices) ∧
      List.Forall₂ (fun o o' => ∃ c, o = some c ∧ NearPanel atol c o') (a.panels ++ b.panels) r.panels := by
  have hin : (Tree.node .plain [.leaf a, .leaf b]).Inhabited := by simp [Tree.Inhabited, AllInhabited]
  have hval : ∀ m ∈ (Tree.node .plain [.leaf a, .leaf b]).leaves, m.Valid := by
    simp [Tree.leaves, leavesAll, hma, hmb]
  obtain ⟨m, h1, h2, h3, h4, -⟩ := collection_concatenates _ hin hval
  have hmv : m.vertices ≠ [] := by
    rw [h3]
    simp [Tree.leaves, leavesAll, hv]
  obtain ⟨m1, ids, a1, a2, -, a4, a5, a6, -⟩ := merge_duplicates sort hs atol ha m h2 hmv
  have hpan : m.panels = a.panels ++ b.panels := by
    have := congrArg (List.map Prod.snd) h4
    simpa [Mesh.shapes, Mesh.panels, Tree.leaves, leavesAll, Function.comp_def] using this
  refine ⟨m1.healTriangles, ?_, ?_, ?_, ?_⟩
  · rw [Tree.merged, h1]
    simp only [a1, Option.map_some]
  · intro f hf i hi
    obtain ⟨g, hg, rfl⟩ := List.mem_map.mp hf
    exact a2 g hg i ((heal_triangles g).2.1.mem_iff.mp hi)
  · intro v hv'
    have := a4 v hv'
    rw [h3] at this
    simpa [Tree.leaves, leavesAll] using this
  · rw [← hpan, Mesh.panels, Mesh.panels, List.forall₂_map_left_iff, List.forall₂_map_right_iff, Mesh.healTriangles,
      List.forall₂_map_right_iff, List.forall₂_iff_get]
    refine ⟨a5.symm, fun n hn hn' => ?_⟩
    simp only [List.get_eq_getElem]
    have key := a6 n _ _ (List.getElem?_eq_getElem hn) (List.getElem?_eq_getElem hn')
    obtain ⟨c, hc⟩ := corners_some (h2 _ (List.getElem_mem hn))
    obtain ⟨g, hg⟩ := corners_some (a2 _ (List.getElem_mem hn'))
    refine ⟨c, hc, ?_⟩
    obtain ⟨k, hk⟩ := (heal_triangles m1.faces[n]).1
    refine ⟨g, k, ?_, ?_⟩
    · rw [← corners_turn m1.vertices k _ _ hg, hk]
    · obtain ⟨c0, c1, c2, c3, -⟩ := corners_lt hc
      obtain ⟨g0, g1, g2, g3, -⟩ := corners_lt hg
      refine ⟨?_, ?_, ?_, ?_⟩
      · obtain ⟨j, v, w, j1, -, j3, j4, j5⟩ := key 0 _ rfl
        cases j1
        rw [c0] at j3
        rw [g0] at j4
        cases j3
        cases j4
        exact j5
      · obtain ⟨j, v, w, j1, -, j3, j4, j5⟩ := key 1 _ rfl
        cases j1
        rw [c1] at j3
        rw [g1] at j4
        cases j3
        cases j4
        exact j5
      · obtain ⟨j, v, w, j1, -, j3, j4, j5⟩ := key 2 _ rfl
        cases j1
        rw [c2] at j3
        rw [g2] at j4
        cases j3
        cases j4
        exact j5
      · obtain ⟨j, v, w, j1, -, j3, j4, j5⟩ := key 3 _ rfl
        cases j1
        rw [c3] at j3
        rw [g3] at j4
        cases j3
        cases j4
        exact j5


/-! ## The whole operation -/

theorem extract_part {m : Mesh (V3 ℝ)} (hm : m.Valid) {L : List (Bool × (V3 ℝ × V3 ℝ × V3 ℝ × V3 ℝ))} (hL : Shapes m L)
    (ids : List ℕ) (hids : ∀ i ∈ ids, i < m.faces.length) :
    ∃ r, m.extractFaces ids = some r ∧ r.1.Valid ∧ (∀ v ∈ r.1.vertices, v ∈ m.vertices) ∧
      Shapes r.1 (ids.map fun i => L[i]?.getD noShape) ∧
      r.1.panels = ids.map fun i => some (L[i]?.getD noShape).2 := by
  obtain ⟨r, h1, h2, h3⟩ := extract_shapes m hm ids hids
  obtain ⟨m', kept, k1, -, -, -, -, -, -, k8⟩ := extract_faces m hm ids hids
  rw [h1] at k1
  cases k1
  have hsh : Shapes m' (ids.map fun i => L[i]?.getD noShape) := by
    have hinj : Function.Injective (List.map (some : Bool × Option (V3 ℝ × V3 ℝ × V3 ℝ × V3 ℝ) → _)) :=
      List.map_injective_iff.mpr (Option.some_injective _)
    refine hinj ?_
    rw [h3, List.map_map, List.map_map]
    refine List.map_congr_left fun i hi => ?_
    have hi' : i < L.length := by
      rw [(shapes_get hL).1]
      exact hids i hi
    rw [hL]
    simp [List.getElem?_eq_getElem hi']
  refine ⟨_, h1, h2, ?_, hsh, ?_⟩
  · intro v hv
    obtain ⟨k, hk⟩ := List.mem_iff_getElem?.mp hv
    rw [k8 k] at hk
    obtain ⟨i, -, hi⟩ := Option.bind_eq_some_iff.mp hk
    exact List.mem_of_getElem? hi
  · have := congrArg (List.map Prod.snd) hsh
    simpa [Mesh.shapes, Mesh.panels, Function.comp_def] using this

/-- What is known of a clipped mesh `r` with its list of original numbers, before degenerated panels are removed. -/
structure Clipped (atol : ℝ) (P : Plane) (m : Mesh (V3 ℝ)) (L : List (Bool × (V3 ℝ × V3 ℝ × V3 ℝ × V3 ℝ)))
    (E : List ((V3 ℝ × V3 ℝ × V3 ℝ × V3 ℝ) × ℕ)) (r : Mesh (V3 ℝ)) (ids : List ℕ) : Prop where
  valid : r.Valid
  ids_eq : ids = E.map Prod.snd
  near : List.Forall₂ (fun e o => NearPanel atol e.1 o) E r.panels
  vertices : ∀ v ∈ r.vertices, v ∈ m.vertices ∨ P.distanceToPoint v = 0 ∧ ∃ s ∈ L, OnEdge (ring s.1 s.2) v

theorem near_self {atol : ℝ} (ha : 0 ≤ atol) {E : List ((V3 ℝ × V3 ℝ × V3 ℝ × V3 ℝ) × ℕ)}
    {ps : List (Option (V3 ℝ × V3 ℝ × V3 ℝ × V3 ℝ))} (h : ps = E.map fun e => some e.1) :
    List.Forall₂ (fun e o => NearPanel atol e.1 o) E ps := by
  rw [h, List.forall₂_map_right_iff, List.forall₂_same]
  exact fun e _ => NearPanel.refl ha e.1

theorem clip_parts (sort : (ℕ → ℝ) → List ℕ → List ℕ) (hs : ArgSort sort) {atol tol : ℝ} (ha : 0 ≤ atol) (htol : 0 < tol)
    (P : Plane) (m : Mesh (V3 ℝ)) (hm : m.Valid) (L : List (Bool × (V3 ℝ × V3 ℝ × V3 ℝ × V3 ℝ))) (hL : Shapes m L)
    (hc : ∀ s ∈ L, Clippable tol P s.1 s.2) :
    ∃ r E, clipParts sort atol tol P m = some r ∧ Covers P L E ∧ Clipped atol P m L E r.1 r.2 := by
  obtain ⟨hlen, hget⟩ := shapes_get hL
  set lowerIds := m.whereFaces (m.facesOn tol P .below) with hlow
  set crownIds := m.whereFaces fun f => !(m.facesOn tol P .above f || m.facesOn tol P .below f) with hcrown
  have hlow' : ∀ i ∈ lowerIds, i < m.faces.length := by
    intro i hi
    obtain ⟨f, hf, -⟩ := mem_whereFaces.mp hi
    exact (List.getElem?_eq_some_iff.mp hf).1
  have hcrown' : ∀ i ∈ crownIds, i < m.faces.length := by
    intro i hi
    obtain ⟨f, hf, -⟩ := mem_whereFaces.mp hi
    exact (List.getElem?_eq_some_iff.mp hf).1
  obtain ⟨lo, l1, l2, l3, -, l5⟩ := extract_part hm hL lowerIds hlow'
  obtain ⟨cr, c1, c2, c3, c4, c5⟩ := extract_part hm hL crownIds hcrown'
  have hcover : ∀ E, Covers P (crownIds.map fun i => L[i]?.getD noShape) E →
      Covers P L ((lowerIds.map fun i => ((L[i]?.getD noShape).2, i)) ++ E.map fun e => (e.1, crownIds[e.2]?.getD 0)) := by
    intro E hE
    refine cover_parts (whereFaces_nodup _ _) ?_ (fun i hi => hlen ▸ hcrown' i hi) ?_ hE
    · intro i hi
      obtain ⟨f, hf, hb⟩ := mem_whereFaces.mp hi
      obtain ⟨s, hs', -, hcor⟩ := hget i f hf
      refine ⟨s, hs', fun p hp => sideOf_below htol ((facesOn_iff hcor).mp hb p hp), fun hcon => ?_⟩
      obtain ⟨f', hf', hb'⟩ := mem_whereFaces.mp hcon
      rw [hf] at hf'
      cases hf'
      simp [hb] at hb'
    · intro i s hs' hnl hnc p hp
      have hi : i < m.faces.length := by
        rw [← hlen]
        exact (List.getElem?_eq_some_iff.mp hs').1
      obtain ⟨s', hs'', -, hcor⟩ := hget i _ (List.getElem?_eq_getElem hi)
      rw [hs'] at hs''
      cases hs''
      have hab : m.facesOn tol P .above m.faces[i] = true := by
        by_contra hcon
        by_cases hb : m.facesOn tol P .below m.faces[i] = true
        · exact hnl (mem_whereFaces.mpr ⟨_, List.getElem?_eq_getElem hi, hb⟩)
        · exact hnc (mem_whereFaces.mpr ⟨_, List.getElem?_eq_getElem hi, by simp [hcon, hb]⟩)
      exact (sideOf_above htol ((facesOn_iff hcor).mp hab p (ring_subset hp))).le
  have hcl : cr.1.faces.length = crownIds.length := by
    have := congrArg List.length c5
    simpa [Mesh.panels] using this
  by_cases hpos : cr.1.faces.length > 0
  · obtain ⟨x, x1, x2, x3, x4, E, e1, e2, e3⟩ := clip_crown htol P cr.1 c2 crownIds _ c4 (by simp) (by
      intro s hs'
      obtain ⟨i, hi, rfl⟩ := List.mem_map.mp hs'
      have hi' : i < L.length := hlen ▸ hcrown' i hi
      rw [List.getElem?_eq_getElem hi', Option.getD_some]
      exact hc _ (List.getElem_mem hi'))
    have hv : x.1.vertices ≠ [] := by
      obtain ⟨f, hf⟩ := List.exists_mem_of_length_pos hpos
      have h1 := c2 f hf f.a (by simp [Face.toList])
      have h2 := x3 _ (List.getElem_mem h1)
      exact List.ne_nil_of_mem h2
    obtain ⟨r, r1, r2, r3, r4⟩ := merge_two sort hs ha lo.1 x.1 l2 x2 hv
    refine ⟨(r, lowerIds ++ x.2), _, ?_, hcover E e1, r2, ?_, ?_, ?_⟩
    · simp only [clipParts, ← hlow, ← hcrown, l1, c1, if_pos hpos, x1, r1, Option.map_some]
    · rw [List.map_append, List.map_map, List.map_map]
      refine congrArg₂ (· ++ ·) ?_ ?_
      · simp [Function.comp_def]
      · have hinj : Function.Injective (List.map (some : ℕ → Option ℕ)) :=
          List.map_injective_iff.mpr (Option.some_injective _)
        refine hinj ?_
        rw [e3, List.map_map]
        refine List.map_congr_left fun e he => ?_
        obtain ⟨s, hs', -⟩ := e1.turn e he
        have h := (List.getElem?_eq_some_iff.mp hs').1
        rw [List.length_map] at h
        simp [List.getElem?_eq_getElem h]
    · have h0 : lo.1.panels ++ x.1.panels = ((lowerIds.map fun i => ((L[i]?.getD noShape).2, i)) ++
          E.map fun e => (e.1, crownIds[e.2]?.getD 0)).map fun e => some e.1 := by
        rw [l5, e2, List.map_append, List.map_map, List.map_map]
        rfl
      rw [h0, List.forall₂_map_left_iff] at r4
      refine r4.imp fun e o h => ?_
      obtain ⟨c, hc', hn⟩ := h
      cases hc'
      exact hn
    · intro v hv'
      rcases r3 v hv' with h | h
      · exact .inl (l3 v h)
      · rcases x4 v h with h | ⟨h, s, hs', h'⟩
        · exact .inl (c3 v h)
        · refine .inr ⟨h, s, ?_, h'⟩
          obtain ⟨i, hi, rfl⟩ := List.mem_map.mp hs'
          have hi' : i < L.length := hlen ▸ hcrown' i hi
          rw [List.getElem?_eq_getElem hi', Option.getD_some]
          exact List.getElem_mem hi'
  · have hnil : crownIds = [] := List.length_eq_zero_iff.mp (by omega)
    refine ⟨(lo.1, lowerIds), _, ?_, hcover [] ⟨by rw [hnil]; simp, by simp⟩, l2, ?_, ?_, ?_⟩
    · simp only [clipParts, ← hlow, ← hcrown, l1, c1, if_neg hpos]
    · simp [Function.comp_def]
    · refine near_self ha ?_
      rw [l5]
      simp [Function.comp_def]
    · exact fun v hv => .inl (l3 v hv)

theorem count_two (l : List PlaneSide) (a b : PlaneSide) (hab : a ≠ b) : l.count a + l.count b = l.length ↔ ∀ x ∈ l, x = a ∨ x = b := by
  have hle : ∀ l : List PlaneSide, l.count a + l.count b ≤ l.length := by
    intro l
    induction l with
    | nil => simp
    | cons y l ih =>
      rw [List.count_cons, List.count_cons, List.length_cons]
      by_cases h1 : y = a
      · subst h1
        simp [hab]
        omega
      · simp only [beq_iff_eq, h1, if_false]
        split <;> omega
  induction l with
  | nil => simp
  | cons y l ih =>
    refine Iff.trans ?_ (Iff.trans (and_congr_right fun _ => ih) List.forall_mem_cons.symm)
    rw [List.count_cons, List.count_cons, List.length_cons]
    have := hle l
    by_cases h1 : y = a
    · subst h1
      simp [hab]
      omega
    · by_cases h2 : y = b
      · subst h2
        simp [h1]
        omega
      · simp only [beq_iff_eq, h1, h2, if_false, or_false, false_and, iff_false]
        omega

open Classical in
/-- C32: clipping a valid mesh whose vertices are out of the tolerance or on the plane, and whose quadrangles are
clean, succeeds. Before the degenerated panels are removed, the panels are, up to the tolerance of the merging of
vertices, panels `E` with one original number each. The panels with the number `i` cover the part under the plane of the
original panel number `i`, or nothing when no corner of this panel is under the plane; if nothing is above the plane, all
panels are kept. They have the orientation of the original panel. The vertices are original vertices, or points of the
plane on the edges of the original panels. -/
theorem clip_mesh_partial (sort : (ℕ → ℝ) → List ℕ → List ℕ) (hs : ArgSort sort) {atol tol : ℝ} (ha : 0 ≤ atol) (htol : 0 < tol)
    (rtol : ℝ) (P : Plane) (m : Mesh (V3 ℝ)) (hm : m.Valid) (L : List (Bool × (V3 ℝ × V3 ℝ × V3 ℝ × V3 ℝ)))
    (hL : Shapes m L) (hsharp : ∀ v ∈ m.vertices, Sharp tol P v) (hc : ∀ s ∈ L, Clippable tol P s.1 s.2) :
    ∃ r ids E, m.clip sort atol tol rtol P = some (r.removeDegeneratedFaces rtol, ids) ∧ Clipped atol P m L E r ids ∧
      (∀ (i : ℕ) s, L[i]? = some s → partOf E i =
        if ∀ v ∈ m.vertices, P.distanceToPoint v ≤ 0 then panelSet s.2 else kept P (ring s.1 s.2) (panelSet s.2)) ∧
      ∀ e ∈ E, ∃ s, L[e.2]? = some s ∧ ∃ k : ℝ, 0 ≤ k ∧ areaVector e.1 = k • areaVector s.2 := by
  obtain ⟨hlen, hget⟩ := shapes_get hL
  have finish : ∀ (r : Mesh (V3 ℝ)) (ids : List ℕ) E, Clipped atol P m L E r ids →
      ∃ r', r.removeUnusedVertices = some r' ∧ Clipped atol P m L E r' ids := by
    intro r ids E h
    obtain ⟨r', h1, h2, -, -, h5⟩ := remove_unused_vertices r h.valid
    refine ⟨r', h1, ?_, h.ids_eq, h2 ▸ h.near, ?_⟩
    · intro f hf
      obtain ⟨k, hk⟩ := List.mem_iff_getElem?.mp hf
      have hp : r'.panels[k]? = some (corners r'.vertices f) := by rw [Mesh.panels, List.getElem?_map, hk, Option.map_some]
      rw [h2, Mesh.panels, List.getElem?_map] at hp
      obtain ⟨g, hg, hg'⟩ := Option.map_eq_some_iff.mp hp
      obtain ⟨c, hc'⟩ := corners_some (h.valid g (List.mem_of_getElem? hg))
      rw [hc'] at hg'
      exact (corners_lt hg'.symm).2.2.2.2
    · intro v hv
      obtain ⟨f, hf, i, hi, hv'⟩ := (h5 v).mp hv
      exact h.vertices v (List.mem_of_getElem? hv')
  have corner_mem : ∀ (i : ℕ) s, L[i]? = some s → ∀ p ∈ [s.2.1, s.2.2.1, s.2.2.2.1, s.2.2.2.2], p ∈ m.vertices := by
    intro i s hi p hp
    have hi' : i < m.faces.length := by
      rw [← hlen]
      exact (List.getElem?_eq_some_iff.mp hi).1
    obtain ⟨s', hs', -, hcor⟩ := hget i _ (List.getElem?_eq_getElem hi')
    rw [hi] at hs'
    cases hs'
    obtain ⟨h0, h1, h2, h3, -⟩ := corners_lt hcor
    simp only [List.mem_cons, List.not_mem_nil, or_false] at hp
    rcases hp with rfl | rfl | rfl | rfl
    · exact List.mem_of_getElem? h0
    · exact List.mem_of_getElem? h1
    · exact List.mem_of_getElem? h2
    · exact List.mem_of_getElem? h3
  have habove : (m.vertices.map fun p => sideOf tol (P.distanceToPoint p)).count .above = m.vertices.length ↔
      ∀ v ∈ m.vertices, 0 < P.distanceToPoint v := by
    have h0 : m.vertices.length = (m.vertices.map fun p => sideOf tol (P.distanceToPoint p)).length := by simp
    rw [h0, List.count_eq_length]
    simp only [List.mem_map, forall_exists_index, and_imp, forall_apply_eq_imp_iff₂]
    refine forall₂_congr fun v hv => ?_
    rcases sharp_side htol (hsharp v hv) with ⟨h1, h2⟩ | ⟨h1, h2⟩ | ⟨h1, h2⟩ <;> rw [h1] <;> simp [h2, h2.le]
  have hbelow : (m.vertices.map fun p => sideOf tol (P.distanceToPoint p)).count .below +
      (m.vertices.map fun p => sideOf tol (P.distanceToPoint p)).count .on = m.vertices.length ↔
      ∀ v ∈ m.vertices, P.distanceToPoint v ≤ 0 := by
    have h0 : m.vertices.length = (m.vertices.map fun p => sideOf tol (P.distanceToPoint p)).length := by simp
    rw [h0, count_two _ _ _ (by decide)]
    simp only [List.mem_map, forall_exists_index, and_imp, forall_apply_eq_imp_iff₂]
    refine forall₂_congr fun v hv => ?_
    rcases sharp_side htol (hsharp v hv) with ⟨h1, h2⟩ | ⟨h1, h2⟩ | ⟨h1, h2⟩ <;> rw [h1] <;> simp [h2, h2.le]
  by_cases h1 : ∀ v ∈ m.vertices, 0 < P.distanceToPoint v
  · obtain ⟨r', hr', hcl⟩ := finish ⟨[], []⟩ [] [] ⟨empty_valid, rfl, .nil, by simp⟩
    refine ⟨r', [], [], ?_, hcl, ?_, by simp⟩
    · simp only [Mesh.clip]
      rw [if_pos (habove.mpr h1)]
      simp only [Option.bind_some, hr', Option.map_some]
    · intro i s hi
      have hmem := corner_mem i s hi
      rw [if_neg, kept_none fun p hp => (h1 p (hmem p (ring_subset hp))).le]
      · ext x
        simp [partOf]
      · intro hcon
        have hp := hmem s.2.1 (by simp)
        exact absurd (hcon _ hp) (not_le.mpr (h1 _ hp))
  · by_cases h2 : ∀ v ∈ m.vertices, P.distanceToPoint v ≤ 0
    · obtain ⟨r', hr', hcl⟩ := finish m (List.range m.faces.length)
        ((List.range m.faces.length).map fun i => ((L[i]?.getD noShape).2, i))
        ⟨hm, by simp [Function.comp_def], near_self ha (by
          rw [List.map_map]
          apply List.ext_getElem?
          intro k
          rcases lt_or_ge k m.faces.length with hk | hk
          · obtain ⟨s, hs', -, hcor⟩ := hget k _ (List.getElem?_eq_getElem hk)
            rw [Mesh.panels, List.getElem?_map, List.getElem?_map, List.getElem?_range hk, List.getElem?_eq_getElem hk,
              Option.map_some, Option.map_some, hcor]
            simp [hs']
          · rw [Mesh.panels, List.getElem?_eq_none (by rw [List.length_map]; exact hk),
              List.getElem?_eq_none (by rw [List.length_map, List.length_range]; exact hk)]), fun v hv => .inl hv⟩
      refine ⟨r', _, _, ?_, hcl, ?_, ?_⟩
      · simp only [Mesh.clip]
        rw [if_neg (fun h => h1 (habove.mp h)), if_pos (hbelow.mpr h2)]
        simp only [Option.bind_some, hr', Option.map_some]
      · intro i s hi
        rw [if_pos h2]
        have hi' : i < m.faces.length := by
          rw [← hlen]
          exact (List.getElem?_eq_some_iff.mp hi).1
        ext x
        simp only [partOf, List.mem_map, List.mem_range, Set.mem_ofPred_eq]
        constructor
        · rintro ⟨e, ⟨j, hj, rfl⟩, rfl, hx⟩
          simpa [hi] using hx
        · intro hx
          exact ⟨_, ⟨i, hi', rfl⟩, rfl, by simpa [hi] using hx⟩
      · intro e he
        obtain ⟨i, hi, rfl⟩ := List.mem_map.mp he
        have hi' : i < L.length := by
          rw [hlen]
          exact List.mem_range.mp hi
        exact ⟨L[i], List.getElem?_eq_getElem hi', 1, by norm_num, by
          rw [List.getElem?_eq_getElem hi']; ext <;> simp⟩
    · obtain ⟨x, E, x1, x2, x3⟩ := clip_parts sort hs ha htol P m hm L hL hc
      obtain ⟨r', hr', hcl⟩ := finish x.1 x.2 E x3
      refine ⟨r', x.2, E, ?_, hcl, ?_, x2.turn⟩
      · simp only [Mesh.clip]
        rw [if_neg (fun h => h1 (habove.mp h)), if_neg (fun h => h2 (hbelow.mp h)), x1]
        simp only [Option.bind_some, hr', Option.map_some]
      · intro i s hi
        rw [if_neg h2]
        exact x2.part i s hi


/-! ## Original numbers -/

/-- The panel `s` is, up to the tolerance, a part of the panel `p` which is under the plane. -/
def PieceOf (atol : ℝ) (P : Plane) (p s : Bool × Option (V3 ℝ × V3 ℝ × V3 ℝ × V3 ℝ)) : Prop :=
  ∃ c q : V3 ℝ × V3 ℝ × V3 ℝ × V3 ℝ, p.2 = some c ∧ panelSet q ⊆ panelSet c ∩ under P ∧ NearPanel atol q s.2

/-- A panel with an area smaller than `rtol` times the mean area of the mesh. -/
def Tiny (rtol : ℝ) (m : Mesh (V3 ℝ)) (f : Face) : Prop :=
  ∃ x, faceProperties m.vertices f = some x ∧ x.1.area < m.meanArea * rtol

theorem not_tiny_iff (rtol : ℝ) (m : Mesh (V3 ℝ)) :
    (m.removeDegeneratedFaces rtol).faces.length = m.faces.length ↔ ∀ f ∈ m.faces, ¬ Tiny rtol m f := by
  classical
  rw [Mesh.removeDegeneratedFaces, List.length_filter_eq_length_iff]
  refine forall₂_congr fun f _ => ?_
  cases h : faceProperties m.vertices f with
  | none => simp [Tiny, h]
  | some x => simp [Tiny, h]

theorem remove_degenerated_eq (rtol : ℝ) (m : Mesh (V3 ℝ)) (h : ∀ f ∈ m.faces, ¬ Tiny rtol m f) :
    m.removeDegeneratedFaces rtol = m := by
  have h1 := (not_tiny_iff rtol m).mpr h
  have h2 : (m.removeDegeneratedFaces rtol).faces = m.faces := by
    classical
    exact List.Sublist.eq_of_length List.filter_sublist h1
  have h3 : (m.removeDegeneratedFaces rtol).vertices = m.vertices := rfl
  cases m
  simp only [Mesh.removeDegeneratedFaces] at h2 ⊢
  rw [h2]

theorem kept_subset {P : Plane} {l : List (V3 ℝ)} {S : Set (V3 ℝ)} : kept P l S ⊆ S ∩ under P := by
  unfold kept
  split
  · exact subset_rfl
  · exact Set.empty_subset _

/-- C33 for a single mesh: before the degenerated panels are removed, there is one original number for each panel, and
each panel is a part of the original panel with this number. After that, there is one number for each panel exactly when
there was no degenerated panel, and nothing is changed then. -/
theorem clip_ids_partial (sort : (ℕ → ℝ) → List ℕ → List ℕ) (hs : ArgSort sort) {atol tol : ℝ} (ha : 0 ≤ atol)
    (htol : 0 < tol) (rtol : ℝ) (P : Plane) (m : Mesh (V3 ℝ)) (hm : m.Valid)
    (L : List (Bool × (V3 ℝ × V3 ℝ × V3 ℝ × V3 ℝ))) (hL : Shapes m L) (hsharp : ∀ v ∈ m.vertices, Sharp tol P v)
    (hc : ∀ s ∈ L, Clippable tol P s.1 s.2) :
    ∃ r ids, m.clip sort atol tol rtol P = some (r.removeDegeneratedFaces rtol, ids) ∧ r.Valid ∧
      List.Forall₂ (fun s i => ∃ p, m.shapes[i]? = some p ∧ PieceOf atol P p s) r.shapes ids ∧
      (ids.length = (r.removeDegeneratedFaces rtol).faces.length ↔ ∀ f ∈ r.faces, ¬ Tiny rtol r f) ∧
      ((∀ f ∈ r.faces, ¬ Tiny rtol r f) → r.removeDegeneratedFaces rtol = r) := by
  obtain ⟨r, ids, E, h1, h2, h3, h4⟩ := clip_mesh_partial sort hs ha htol rtol P m hm L hL hsharp hc
  have hlen : ids.length = r.faces.length := by
    rw [h2.ids_eq, List.length_map, h2.near.length_eq, Mesh.panels, List.length_map]
  refine ⟨r, ids, h1, h2.valid, ?_, ?_, remove_degenerated_eq rtol r⟩
  · rw [h2.ids_eq, List.forall₂_map_right_iff]
    have hn := h2.near
    rw [Mesh.panels, List.forall₂_map_right_iff] at hn
    have hrs : r.shapes = r.faces.map fun f => (f.isTriangle, corners r.vertices f) := rfl
    rw [hrs, List.forall₂_map_left_iff]
    rw [List.forall₂_iff_get] at hn ⊢
    refine ⟨hn.1.symm, fun i hi hi' => ?_⟩
    have hnear := hn.2 i hi' hi
    simp only [List.get_eq_getElem] at hnear ⊢
    have he : E[i] ∈ E := List.getElem_mem hi'
    obtain ⟨s, hs', -⟩ := h4 _ he
    refine ⟨(s.1, some s.2), ?_, s.2, E[i].1, rfl, ?_, hnear⟩
    · rw [hL, List.getElem?_map, hs', Option.map_some]
    · have hpart := h3 _ s hs'
      have hsub : panelSet E[i].1 ⊆ partOf E E[i].2 := fun x hx => ⟨_, he, rfl, hx⟩
      rw [hpart] at hsub
      refine hsub.trans ?_
      split
      · rename_i hall
        have hi2 : E[i].2 < m.faces.length := by
          rw [← (shapes_get hL).1]
          exact (List.getElem?_eq_some_iff.mp hs').1
        obtain ⟨s', hs2, -, hcor⟩ := (shapes_get hL).2 _ _ (List.getElem?_eq_getElem hi2)
        rw [hs'] at hs2
        cases hs2
        obtain ⟨c0, c1, c2, c3, -⟩ := corners_lt hcor
        refine fun x hx => ⟨hx, quadrangle_subset (conv_under P) ?_ ?_ ?_ ?_ hx⟩
        · exact hall _ (List.mem_of_getElem? c0)
        · exact hall _ (List.mem_of_getElem? c1)
        · exact hall _ (List.mem_of_getElem? c2)
        · exact hall _ (List.mem_of_getElem? c3)
      · exact kept_subset
  · rw [hlen, ← not_tiny_iff rtol r]
    exact eq_comm

/-! ## Concrete cases -/

/-- The free surface. -/
noncomputable def freeSurface : Plane := ⟨⟨0, 0, 1⟩, 0⟩

theorem freeSurface_dist (p : V3 ℝ) : freeSurface.distanceToPoint p = p.z := by
  simp [Plane.distanceToPoint, freeSurface, dot]

/-- A vertical square, half under the free surface. -/
noncomputable def halfSunk : Mesh (V3 ℝ) := ⟨[⟨0, 0, -1⟩, ⟨1, 0, -1⟩, ⟨1, 0, 1⟩, ⟨0, 0, 1⟩], [⟨0, 1, 2, 3⟩]⟩

theorem halfSunk_valid : halfSunk.Valid := by
  simp [halfSunk, Mesh.Valid, Face.toList]

theorem halfSunk_shapes : Shapes halfSunk [(false, (⟨0, 0, -1⟩, ⟨1, 0, -1⟩, ⟨1, 0, 1⟩, ⟨0, 0, 1⟩))] := by
  simp [Shapes, Mesh.shapes, halfSunk, Face.isTriangle, corners]

theorem halfSunk_sharp : ∀ v ∈ halfSunk.vertices, Sharp (1 / 10 ^ 12) freeSurface v := by
  intro v hv
  simp only [halfSunk, List.mem_cons, List.not_mem_nil, or_false] at hv
  right
  rw [freeSurface_dist]
  rcases hv with rfl | rfl | rfl | rfl <;> norm_num

theorem halfSunk_clippable : ∀ s ∈ [((false, (⟨0, 0, -1⟩, ⟨1, 0, -1⟩, ⟨1, 0, 1⟩, ⟨0, 0, 1⟩)) :
    Bool × (V3 ℝ × V3 ℝ × V3 ℝ × V3 ℝ))], Clippable (1 / 10 ^ 12) freeSurface s.1 s.2 := by
  intro s hs
  rw [List.mem_singleton] at hs
  subst hs
  refine ⟨fun p hp => halfSunk_sharp p (by simpa [ring, halfSunk] using hp), fun _ => ?_⟩
  refine ⟨⟨1 / 2, 1 / 2, by norm_num, by norm_num, by norm_num, by norm_num, ?_⟩, ?_, ?_, ?_, ?_, ?_, ?_, ?_, ?_⟩
  · ext <;> norm_num
  · simp
  · simp [V3.ext_iff]
    norm_num
  · simp
  · simp [V3.ext_iff]
    norm_num
  all_goals simp [freeSurface_dist]

/-- Concrete case of `clip_mesh_partial`: the lower half of the square is kept. -/
example : ∃ (r : Mesh (V3 ℝ)) (ids : List ℕ) (E : _), halfSunk.clip insertionSort (1 / 10 ^ 8) (1 / 10 ^ 12) (1 / 10 ^ 5) freeSurface =
    some (r.removeDegeneratedFaces (1 / 10 ^ 5), ids) ∧ Clipped (1 / 10 ^ 8) freeSurface halfSunk
      [(false, (⟨0, 0, -1⟩, ⟨1, 0, -1⟩, ⟨1, 0, 1⟩, ⟨0, 0, 1⟩))] E r ids ∧
    partOf E 0 = quadrangle ⟨0, 0, -1⟩ ⟨1, 0, -1⟩ ⟨1, 0, 1⟩ ⟨0, 0, 1⟩ ∩ under freeSurface := by
  obtain ⟨r, ids, E, h1, h2, h3, -⟩ := clip_mesh_partial insertionSort insertionSort_argSort (atol := 1 / 10 ^ 8)
    (tol := 1 / 10 ^ 12) (by norm_num) (by norm_num) (1 / 10 ^ 5) freeSurface halfSunk halfSunk_valid _ halfSunk_shapes
    halfSunk_sharp halfSunk_clippable
  refine ⟨r, ids, E, h1, h2, ?_⟩
  rw [h3 0 _ rfl, if_neg, kept_of_mem (p := ⟨0, 0, -1⟩) (by simp [ring]) (by rw [freeSurface_dist]; norm_num)]
  · rfl
  · intro h
    have := h ⟨0, 0, 1⟩ (by simp [halfSunk])
    rw [freeSurface_dist] at this
    norm_num at this

/-- Concrete case of `clip_face_partial`. -/
example : ∃ gs new, clipFace (1 / 10 ^ 12) freeSurface halfSunk.vertices 4 ⟨0, 1, 2, 3⟩ = some (gs, new) := by
  obtain ⟨gs, new, h, -⟩ := clip_face_partial (tol := 1 / 10 ^ 12) (by norm_num) freeSurface halfSunk.vertices 4 ⟨0, 1, 2, 3⟩
    _ (by simp [halfSunk, corners]) (halfSunk_clippable _ List.mem_cons_self)
  exact ⟨gs, new, h⟩

/-! ## Violations -/

/-- A large triangle and a small one, under the free surface. -/
noncomputable def unequal : Mesh (V3 ℝ) :=
  ⟨[⟨0, 0, -1⟩, ⟨1, 0, -1⟩, ⟨0, 1, -1⟩, ⟨0, 0, -2⟩, ⟨1 / 1000, 0, -2⟩, ⟨0, 1 / 1000, -2⟩], [⟨0, 1, 2, 0⟩, ⟨3, 4, 5, 3⟩]⟩

theorem norm_vertical (z : ℝ) (hz : 0 ≤ z) : V3.norm ⟨0, 0, z⟩ = z := by
  simp [V3.norm, dot, Real.sqrt_mul_self hz]

theorem unequal_areas : faceProperties unequal.vertices ⟨0, 1, 2, 0⟩ = some (trianglePanel ⟨0, 0, -1⟩ ⟨1, 0, -1⟩ ⟨0, 1, -1⟩,
      radiusOf (trianglePanel ⟨0, 0, -1⟩ ⟨1, 0, -1⟩ ⟨0, 1, -1⟩).center (⟨0, 0, -1⟩, ⟨1, 0, -1⟩, ⟨0, 1, -1⟩, ⟨0, 0, -1⟩)) ∧
    faceProperties unequal.vertices ⟨3, 4, 5, 3⟩ = some (trianglePanel ⟨0, 0, -2⟩ ⟨1 / 1000, 0, -2⟩ ⟨0, 1 / 1000, -2⟩,
      radiusOf (trianglePanel ⟨0, 0, -2⟩ ⟨1 / 1000, 0, -2⟩ ⟨0, 1 / 1000, -2⟩).center
        (⟨0, 0, -2⟩, ⟨1 / 1000, 0, -2⟩, ⟨0, 1 / 1000, -2⟩, ⟨0, 0, -2⟩)) ∧
    (trianglePanel ⟨0, 0, -1⟩ ⟨1, 0, -1⟩ ⟨0, 1, -1⟩).area = 1 / 2 ∧
    (trianglePanel ⟨0, 0, -2⟩ ⟨1 / 1000, 0, -2⟩ ⟨0, 1 / 1000, -2⟩).area = 1 / 2000000 := by
  refine ⟨rfl, rfl, ?_, ?_⟩
  · have h : cross ((⟨1, 0, -1⟩ : V3 ℝ) - ⟨0, 0, -1⟩) (⟨0, 1, -1⟩ - ⟨0, 0, -1⟩) = ⟨0, 0, 1⟩ := by ext <;> simp [cross]
    simp only [trianglePanel, h, norm_vertical 1 (by norm_num)]
    rw [if_neg (by norm_num)]
  · have h : cross ((⟨1 / 1000, 0, -2⟩ : V3 ℝ) - ⟨0, 0, -2⟩) (⟨0, 1 / 1000, -2⟩ - ⟨0, 0, -2⟩) = ⟨0, 0, 1 / 1000000⟩ := by
      ext <;> norm_num [cross]
    simp only [trianglePanel, h, norm_vertical (1 / 1000000) (by norm_num)]
    rw [if_neg (by norm_num [abs_of_pos])]
    norm_num

/-- C33 does not hold in general: the mesh is already under the free surface, a small panel is removed as degenerated, and
its number remains in the list. -/
theorem clip_ids_violated : ∃ r ids, unequal.clip insertionSort (1 / 10 ^ 8) (1 / 10 ^ 12) (1 / 10 ^ 5) freeSurface =
    some (r, ids) ∧ ids = [0, 1] ∧ r.faces.length = 1 := by
  classical
  have hsides : unequal.vertices.map (fun v => sideOf (1 / 10 ^ 12) (freeSurface.distanceToPoint v)) =
      List.replicate 6 .below := by
    simp only [unequal, List.map_cons, List.map_nil, freeSurface_dist]
    norm_num [sideOf, List.replicate]
  have hused : unequal.removeUnusedVertices = some unequal := by
    have : usedIds 6 [⟨0, 1, 2, 0⟩, ⟨3, 4, 5, 3⟩] = [0, 1, 2, 3, 4, 5] := by decide
    simp [Mesh.removeUnusedVertices, unequal, this]
  obtain ⟨a1, a2, a3, a4⟩ := unequal_areas
  have hmean : unequal.meanArea = (1 / 2 + 1 / 2000000) / 2 := by
    have : unequal.faceProps = [faceProperties unequal.vertices ⟨0, 1, 2, 0⟩, faceProperties unequal.vertices ⟨3, 4, 5, 3⟩] := rfl
    rw [Mesh.meanArea, this, a1, a2]
    simp only [Option.map_some, List.filterMap_cons, List.filterMap_nil, a3, a4]
    norm_num [unequal]
  refine ⟨unequal.removeDegeneratedFaces (1 / 10 ^ 5), [0, 1], ?_, rfl, ?_⟩
  · rw [Mesh.clip]
    simp only [hsides]
    rw [if_neg (by simp [unequal]), if_pos (by simp [unequal])]
    rw [Option.bind_some, hused, Option.map_some]
    rfl
  · have h1 : ¬ (1 / 2 : ℝ) < (1 / 2 + 1 / 2000000) / 2 * (1 / 10 ^ 5) := by norm_num
    have h2 : (1 / 2000000 : ℝ) < (1 / 2 + 1 / 2000000) / 2 * (1 / 10 ^ 5) := by norm_num
    rw [Mesh.removeDegeneratedFaces, hmean]
    simp only [show unequal.faces = [⟨0, 1, 2, 0⟩, ⟨3, 4, 5, 3⟩] from rfl]
    rw [List.filter_cons, List.filter_cons, List.filter_nil]
    simp only [a1, a2, a3, a4, h1, h2]
    simp

/-- Concrete case of `clip_ids_partial`. -/
example : ∃ (r : Mesh (V3 ℝ)) (ids : List ℕ), halfSunk.clip insertionSort (1 / 10 ^ 8) (1 / 10 ^ 12) (1 / 10 ^ 5) freeSurface =
    some (r.removeDegeneratedFaces (1 / 10 ^ 5), ids) ∧
    List.Forall₂ (fun s i => ∃ p, halfSunk.shapes[i]? = some p ∧ PieceOf (1 / 10 ^ 8) freeSurface p s) r.shapes ids := by
  obtain ⟨r, ids, h1, -, h2, -⟩ := clip_ids_partial insertionSort insertionSort_argSort (atol := 1 / 10 ^ 8)
    (tol := 1 / 10 ^ 12) (by norm_num) (by norm_num) (1 / 10 ^ 5) freeSurface halfSunk halfSunk_valid _ halfSunk_shapes
    halfSunk_sharp halfSunk_clippable
  exact ⟨r, ids, h1, h2⟩

end Verif.Meshes
