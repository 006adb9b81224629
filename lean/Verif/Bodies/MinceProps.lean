import Verif.Bodies.MinceModel
import Verif.Bodies.SliceProps
import Mathlib.Data.Nat.Factorization.Basic

/-!
# C98: mincing bodies
-/

namespace Verif.Bodies

open Verif.Geometry Verif.Meshes V3

/-! ## Positions of the planes -/

theorem mem_slicePositions {i : ℕ} {r : ℝ} :
    r ∈ slicePositions (i + 1) ↔ ∃ a, a < 2 ^ i ∧ r = ((2 * a + 1 : ℕ) : ℝ) / 2 ^ (i + 1) := by
  simp only [slicePositions, List.mem_map, List.mem_range, Nat.add_sub_cancel]
  constructor
  · rintro ⟨a, h, rfl⟩
    exact ⟨a, h, rfl⟩
  · rintro ⟨a, h, rfl⟩
    exact ⟨a, h, rfl⟩

/-- The positions at all depths are the multiples of the inverse of the last power of two. -/
theorem slice_positions (k : ℕ) (r : ℝ) :
    (∃ d, d < k ∧ r ∈ slicePositions (d + 1)) ↔ ∃ j : ℕ, 0 < j ∧ j < 2 ^ k ∧ r = j / 2 ^ k := by
  constructor
  · rintro ⟨d, hd, h⟩
    obtain ⟨a, ha, rfl⟩ := mem_slicePositions.mp h
    obtain ⟨e, rfl⟩ : ∃ e, k = d + 1 + e := ⟨k - (d + 1), by omega⟩
    refine ⟨(2 * a + 1) * 2 ^ e, by positivity, ?_, ?_⟩
    · rw [pow_add (a := 2) (m := d + 1)]
      refine Nat.mul_lt_mul_of_pos_right ?_ (by positivity)
      rw [pow_succ]
      omega
    · rw [pow_add (m := d + 1)]
      push_cast
      have : (2 : ℝ) ^ e ≠ 0 := by positivity
      field_simp
  · rintro ⟨j, h0, hj, rfl⟩
    obtain ⟨s, o, ho, rfl⟩ := Nat.exists_eq_two_pow_mul_odd h0.ne'
    obtain ⟨a, rfl⟩ := ho
    have hs : s < k := by
      by_contra hc
      have : 2 ^ k ≤ 2 ^ s := Nat.pow_le_pow_right (by norm_num) (not_lt.mp hc)
      nlinarith
    obtain ⟨d, rfl⟩ : ∃ d, k = s + (d + 1) := ⟨k - s - 1, by omega⟩
    refine ⟨d, by omega, mem_slicePositions.mpr ⟨a, ?_, ?_⟩⟩
    · rw [pow_add] at hj
      have := Nat.lt_of_mul_lt_mul_left hj
      rw [pow_succ] at this
      omega
    · rw [pow_add]
      push_cast
      have : (2 : ℝ) ^ s ≠ 0 := by positivity
      field_simp

theorem mem_planesAlong {direction : V3 ℝ} {n : ℕ} {size : ℝ × ℝ} {L : List (List Plane)}
    (h : planesAlong direction n size = some L) (P : Plane) :
    P ∈ L.flatten ↔ ∃ j : ℕ, 0 < j ∧ j < 2 ^ Nat.log 2 n ∧
      P = mkPlane direction ((size.1 + j / 2 ^ Nat.log 2 n * (size.2 - size.1)) • direction) := by
  rw [planesAlong] at h
  split at h
  · cases h
  · cases h
    simp only [List.mem_flatten, List.mem_map, List.mem_range]
    constructor
    · rintro ⟨l, ⟨d, hd, rfl⟩, hP⟩
      obtain ⟨r, hr, rfl⟩ := List.mem_map.mp hP
      obtain ⟨j, h1, h2, rfl⟩ := (slice_positions _ r).mp ⟨d, hd, hr⟩
      exact ⟨j, h1, h2, rfl⟩
    · rintro ⟨j, h1, h2, rfl⟩
      obtain ⟨d, hd, hr⟩ := (slice_positions _ _).mpr ⟨j, h1, h2, rfl⟩
      exact ⟨_, ⟨d, hd, rfl⟩, List.mem_map.mpr ⟨_, hr, rfl⟩⟩

theorem mem_intermingle {A : Type} (lists : List (List A)) (x : A) : x ∈ intermingle lists ↔ ∃ l ∈ lists, x ∈ l := by
  simp only [intermingle, List.mem_flatMap, List.mem_range, List.mem_filterMap]
  constructor
  · rintro ⟨i, -, l, hl, hx⟩
    exact ⟨l, hl, List.mem_of_getElem? hx⟩
  · rintro ⟨l, hl, hx⟩
    obtain ⟨i, hi, rfl⟩ := List.mem_iff_getElem.mp hx
    refine ⟨i, lt_of_lt_of_le hi ?_, l, hl, List.getElem?_eq_getElem hi⟩
    clear hx hi
    induction lists with
    | nil => cases hl
    | cons a ls ih =>
      rw [List.map_cons, List.foldr_cons]
      rcases List.mem_cons.mp hl with rfl | hl
      · exact le_max_left _ _
      · exact (ih hl).trans (le_max_right _ _)

/-- The planes in each direction. -/
theorem mince_planes {nb : ℕ × ℕ × ℕ} {sx sy sz : ℝ × ℝ} {Ps : List Plane}
    (h : mincePlanes nb [sx, sy, sz] = some Ps) (P : Plane) :
    P ∈ Ps ↔
      (∃ j : ℕ, 0 < j ∧ j < 2 ^ Nat.log 2 nb.1 ∧
        P = mkPlane ⟨1, 0, 0⟩ ((sx.1 + j / 2 ^ Nat.log 2 nb.1 * (sx.2 - sx.1)) • ⟨1, 0, 0⟩)) ∨
      (∃ j : ℕ, 0 < j ∧ j < 2 ^ Nat.log 2 nb.2.1 ∧
        P = mkPlane ⟨0, 1, 0⟩ ((sy.1 + j / 2 ^ Nat.log 2 nb.2.1 * (sy.2 - sy.1)) • ⟨0, 1, 0⟩)) ∨
      ∃ j : ℕ, 0 < j ∧ j < 2 ^ Nat.log 2 nb.2.2 ∧
        P = mkPlane ⟨0, 0, 1⟩ ((sz.1 + j / 2 ^ Nat.log 2 nb.2.2 * (sz.2 - sz.1)) • ⟨0, 0, 1⟩) := by
  rw [mincePlanes, Option.map_eq_some_iff] at h
  obtain ⟨lists, h1, rfl⟩ := h
  simp only [List.zip_cons_cons, List.zip_nil_right, List.mapM_cons, List.mapM_nil] at h1
  cases hx : planesAlong ⟨1, 0, 0⟩ nb.1 sx with
  | none => rw [hx] at h1; cases h1
  | some X =>
    cases hy : planesAlong ⟨0, 1, 0⟩ nb.2.1 sy with
    | none => rw [hx, hy] at h1; cases h1
    | some Y =>
      cases hz : planesAlong ⟨0, 0, 1⟩ nb.2.2 sz with
      | none => rw [hx, hy, hz] at h1; cases h1
      | some Z =>
        rw [hx, hy, hz] at h1
        have h1 : some [X, Y, Z] = some lists := h1
        cases h1
        rw [← mem_planesAlong hx, ← mem_planesAlong hy, ← mem_planesAlong hz]
        simp only [List.mem_flatten, mem_intermingle, List.mem_cons, List.not_mem_nil, or_false]
        constructor
        · rintro ⟨l, ⟨L, rfl | rfl | rfl, hl⟩, hP⟩
          · exact Or.inl ⟨l, hl, hP⟩
          · exact Or.inr (Or.inl ⟨l, hl, hP⟩)
          · exact Or.inr (Or.inr ⟨l, hl, hP⟩)
        · rintro (⟨l, hl, hP⟩ | ⟨l, hl, hP⟩ | ⟨l, hl, hP⟩)
          · exact ⟨l, ⟨X, Or.inl rfl, hl⟩, hP⟩
          · exact ⟨l, ⟨Y, Or.inr (Or.inl rfl), hl⟩, hP⟩
          · exact ⟨l, ⟨Z, Or.inr (Or.inr rfl), hl⟩, hP⟩

/-! ## Slicing by several planes -/

/-- All the panels are on the same side of the plane. -/
def OneSide (P : Plane) (m : Mesh (V3 ℝ)) : Prop :=
  ∀ i j p q, m.panelAt i = some p → m.panelAt j = some q →
    (P.distanceToPoint p.center < 0 ↔ P.distanceToPoint q.center < 0)

/-- The parts of a mesh cut by some of the planes. -/
inductive Piece (order : List ℕ → List ℕ) (Ps : List Plane) (m : Mesh (V3 ℝ)) : Mesh (V3 ℝ) → Prop
  | whole : Piece order Ps m m
  | cut {q p : Mesh (V3 ℝ)} {P : Plane} {u : Meshes.Tree} : Piece order Ps m q → P ∈ Ps →
      q.slicedByPlane order P = some u → p ∈ u.leaves → Piece order Ps m p

theorem below_iff {m : Mesh (V3 ℝ)} {P : Plane} {i : ℕ} {p : Panel} (h : m.panelAt i = some p) :
    i ∈ m.idsBelow P ↔ P.distanceToPoint p.center < 0 := by
  have hi : i < m.faces.length := by
    by_contra hc
    rw [Mesh.panelAt, List.getElem?_eq_none (by simp [Mesh.faceProps]; omega)] at h
    cases h
  rw [Mesh.idsBelow, List.mem_filter]
  simp [h, hi]

theorem panelAt_lt {m : Mesh (V3 ℝ)} {i : ℕ} {p : Panel} (h : m.panelAt i = some p) : i < m.faces.length := by
  by_contra hc
  rw [Mesh.panelAt, List.getElem?_eq_none (by simp [Mesh.faceProps]; omega)] at h
  cases h

/-- The parts have their panels on one side of the plane, and their panels are panels of the mesh. -/
theorem slice_sides {order : List ℕ → List ℕ} (ho : ∀ l, List.Perm (order l) l) {P : Plane} {m p : Mesh (V3 ℝ)}
    (hm : m.Valid) {u : Meshes.Tree} (h : m.slicedByPlane order P = some u) (hp : p ∈ u.leaves) :
    OneSide P p ∧ ∀ i q, p.panelAt i = some q → ∃ j, m.panelAt j = some q := by
  rw [Mesh.slicedByPlane] at h
  split at h
  · rename_i hc
    cases h
    rw [Tree.leaves, List.mem_singleton] at hp
    subst hp
    refine ⟨?_, fun i q hq => ⟨i, hq⟩⟩
    intro i j a b ha hb
    rw [← below_iff ha, ← below_iff hb]
    rcases hc with hc | hc
    · rw [List.length_eq_zero_iff] at hc
      rw [hc]
      simp
    · have hall : ∀ k, k < p.faces.length → k ∈ p.idsBelow P := by
        intro k hk
        have hs : (p.idsBelow P).Sublist (List.range p.faces.length) := by
          rw [Mesh.idsBelow]
          exact List.filter_sublist
        rw [hs.eq_of_length (by rw [hc, List.length_range])]
        exact List.mem_range.mpr hk
      exact ⟨fun _ => hall j (panelAt_lt hb), fun _ => hall i (panelAt_lt ha)⟩
  · rename_i hc
    have hperm := sliceOrder_perm ho P m
    rw [Mesh.sliceOrder, if_neg hc] at hperm
    have hb : ∀ i ∈ m.idsBelow P, i < m.faces.length := fun i hi =>
      List.mem_range.mp (hperm.subset (List.mem_append_left _ hi))
    have hr : ∀ i ∈ order (remaining m.faces.length (m.idsBelow P)), i < m.faces.length := fun i hi =>
      List.mem_range.mp (hperm.subset (List.mem_append_right _ hi))
    obtain ⟨a, a1, -, a3⟩ := extract_shapes m hm _ hb
    obtain ⟨b, b1, -, b3⟩ := extract_shapes m hm _ hr
    rw [a1, b1] at h
    cases h
    have key : ∀ {c : Mesh (V3 ℝ)} {ids : List ℕ}, (c.shapes.map some = ids.map fun i => m.shapes[i]?) →
        ((∀ i ∈ ids, i ∈ m.idsBelow P) ∨ ∀ i ∈ ids, i ∉ m.idsBelow P) →
        OneSide P c ∧ ∀ i q, c.panelAt i = some q → ∃ j, m.panelAt j = some q := by
      intro c ids hc hside
      have hat := extract_panelAt hc
      have hget : ∀ i q, c.panelAt i = some q → ∃ j ∈ ids, m.panelAt j = some q := by
        intro i q hq
        rw [hat] at hq
        cases hi : ids[i]? with
        | none => rw [hi] at hq; cases hq
        | some j =>
          rw [hi, Option.bind_some] at hq
          exact ⟨j, List.mem_of_getElem? hi, hq⟩
      refine ⟨?_, fun i q hq => ?_⟩
      · intro i j a b ha hb
        obtain ⟨i', hi', ha'⟩ := hget i a ha
        obtain ⟨j', hj', hb'⟩ := hget j b hb
        rw [← below_iff ha', ← below_iff hb']
        rcases hside with hs | hs
        · exact ⟨fun _ => hs j' hj', fun _ => hs i' hi'⟩
        · exact ⟨fun h => absurd h (hs i' hi'), fun h => absurd h (hs j' hj')⟩
      · obtain ⟨j, -, hj⟩ := hget i q hq
        exact ⟨j, hj⟩
    simp only [Tree.leaves, leavesAll, List.append_nil, List.singleton_append, List.mem_cons, List.not_mem_nil,
      or_false] at hp
    rcases hp with rfl | rfl
    · exact key a3 (Or.inl fun i hi => hi)
    · refine key b3 (Or.inr fun i hi => ?_)
      have := (ho _).subset hi
      rw [remaining, List.mem_filter] at this
      simpa using this.2

theorem oneSide_part {P : Plane} {m p : Mesh (V3 ℝ)} (h : OneSide P m)
    (hp : ∀ i q, p.panelAt i = some q → ∃ j, m.panelAt j = some q) : OneSide P p := by
  intro i j a b ha hb
  obtain ⟨i', ha'⟩ := hp i a ha
  obtain ⟨j', hb'⟩ := hp j b hb
  exact h i' j' a b ha' hb'

mutual
theorem onLeaves_map (f : Mesh (V3 ℝ) → Mesh (V3 ℝ)) : ∀ t : Meshes.Tree, (Tree.onLeaves f t).leaves = t.leaves.map f
  | .leaf m => by simp [Tree.onLeaves, Tree.leaves]
  | .node s ps => by
    rw [Tree.onLeaves, Tree.leaves, Tree.leaves]
    exact onLeavesAll_map f ps
theorem onLeavesAll_map (f : Mesh (V3 ℝ) → Mesh (V3 ℝ)) :
    ∀ ts : List Meshes.Tree, leavesAll (onLeavesAll f ts) = (leavesAll ts).map f
  | [] => rfl
  | t :: ts => by
    rw [onLeavesAll, leavesAll, leavesAll, List.map_append, onLeaves_map f t, onLeavesAll_map f ts]
end

theorem construct_eq {heal : Bool → Mesh (V3 ℝ) → Mesh (V3 ℝ)} {down : Mesh (V3 ℝ) → Mesh (V3 ℝ)} {n : Name}
    {t : Meshes.Tree} {lid : Option Meshes.Tree} {dofs : List (Name × List (V3 ℂ))} {x : Body}
    (h : construct heal down n t lid dofs = some x) :
    x.mesh = healTree heal t ∧ x.dofs = dofs ∧ x.name = n ∧ x.mass = none ∧ x.centerOfMass = none ∧
      x.inertia = none ∧ x.stiffness = none ∧ x.Consistent ∧
      ∀ l', x.lid = some l' → ∃ l c, lid = some l ∧ l.copy = some c ∧ l' = Tree.onLeaves down c := by
  unfold construct at h
  simp only at h
  split at h
  · cases h
  · rename_i l hl
    split at h
    · rename_i hc
      cases h
      refine ⟨rfl, rfl, rfl, rfl, rfl, rfl, rfl, hc, ?_⟩
      rintro l' hl'
      have hl' : l = some l' := hl'
      subst hl'
      split at hl
      · cases hl
      · rename_i l0
        split at hl
        · cases hl
        · rw [Option.map_eq_some_iff] at hl
          obtain ⟨c, hc', he⟩ := hl
          rw [Option.some.injEq] at he
          exact ⟨l0, c, rfl, hc', he.symm⟩
    · cases h

/-- What one slicing does. -/
theorem slice_step {heal : Bool → Mesh (V3 ℝ) → Mesh (V3 ℝ)} {down : Mesh (V3 ℝ) → Mesh (V3 ℝ)}
    {order : List ℕ → List ℕ} (ho : ∀ l, List.Perm (order l) l) {P : Plane} {b x : Body}
    (hd : ∀ m : Mesh (V3 ℝ), m.Valid → (down m).Valid) (h : Cuttable heal order P b)
    (hx : b.slicedByPlane heal down order P = some x) :
    (∀ p ∈ x.mesh.leaves, p.Valid ∧ ∃ m ∈ b.mesh.leaves, ∃ v, m.slicedByPlane order P = some v ∧ p ∈ v.leaves) ∧
    (∀ l, x.lid = some l → ∀ m ∈ l.leaves, m.Valid) ∧ x.Consistent ∧ x.name = b.name ∧ x.mass = none ∧
    x.centerOfMass = none ∧ x.inertia = none ∧ x.stiffness = none := by
  obtain ⟨u, h1, h2, -, -, -⟩ := slice_tree ho P b.mesh h.valid
  have hheal : healTree heal u = u := by
    refine healTree_steady fun m hm c => ?_
    obtain ⟨-, m', hm', v, hv, hp⟩ := h2 m hm
    exact h.steady m' hm' v hv m hp c
  rw [Body.slicedByPlane, h1] at hx
  have fin : ∀ lid : Option Meshes.Tree, (∀ l, lid = some l → (∀ m ∈ l.leaves, m.Valid) ∧ Sliced l ∧ l.Upright) →
      construct heal down b.name u lid b.dofs = some x → _ := fun lid hlid hx => by
    obtain ⟨c1, -, c3, c4, c5, c6, c7, c8, c9⟩ := construct_eq hx
    rw [hheal] at c1
    refine (⟨?_, ?_, c8, c3, c4, c5, c6, c7⟩ :
      (∀ p ∈ x.mesh.leaves, p.Valid ∧ ∃ m ∈ b.mesh.leaves, ∃ v, m.slicedByPlane order P = some v ∧ p ∈ v.leaves) ∧
      (∀ l, x.lid = some l → ∀ m ∈ l.leaves, m.Valid) ∧ x.Consistent ∧ x.name = b.name ∧ x.mass = none ∧
      x.centerOfMass = none ∧ x.inertia = none ∧ x.stiffness = none)
    · rw [c1]
      exact h2
    · intro l' hl'
      obtain ⟨l, c, rfl, e2, rfl⟩ := c9 l' hl'
      obtain ⟨v1, v2, v3⟩ := hlid l rfl
      obtain ⟨c', k1, k2⟩ := (copy_coherent l.depth l v2 le_rfl).1 v3
      have e2 : l.copyN l.depth = some c := e2
      rw [k1, Option.some.injEq] at e2
      subst e2
      intro m hm
      rw [onLeaves_map, k2.1] at hm
      obtain ⟨m0, hm0, rfl⟩ := List.mem_map.mp hm
      exact hd m0 (v1 m0 hm0)
  cases hl : b.lid with
  | none =>
    rw [hl] at hx
    exact fin none (by simp) hx
  | some l =>
    obtain ⟨v, v1, v2, -, v4⟩ := slice_tree ho P l (h.lid l hl)
    rw [hl, Option.map_some, v1] at hx
    exact fin (some v) (by rintro _ ⟨⟩; exact ⟨fun m hm => (v2 m hm).1, v4⟩) hx

/-- A body that can be cut by all the planes: dofs of the right shape, valid faces, and healing does not change the
parts. -/
structure Minceable (heal : Bool → Mesh (V3 ℝ) → Mesh (V3 ℝ)) (order : List ℕ → List ℕ) (Ps : List Plane) (b : Body) :
    Prop where
  consistent : b.Consistent
  valid : ∀ m ∈ b.mesh.leaves, m.Valid
  lid : ∀ l, b.lid = some l → ∀ m ∈ l.leaves, m.Valid
  steady : ∀ m ∈ b.mesh.leaves, ∀ p, Piece order Ps m p → ∀ c, heal c p = p

theorem piece_trans {order : List ℕ → List ℕ} {Ps : List Plane} {a b c : Mesh (V3 ℝ)} (h : Piece order Ps a b)
    (h' : Piece order Ps b c) : Piece order Ps a c := by
  induction h' with
  | whole => exact h
  | cut _ hP hu hp ih => exact .cut ih hP hu hp

theorem slice_along {heal : Bool → Mesh (V3 ℝ) → Mesh (V3 ℝ)} {down : Mesh (V3 ℝ) → Mesh (V3 ℝ)}
    {order : List ℕ → List ℕ} (ho : ∀ l, List.Perm (order l) l)
    (hd : ∀ m : Mesh (V3 ℝ), m.Valid → (down m).Valid) (all Ps : List Plane) (b : Body)
    (hsub : ∀ P ∈ Ps, P ∈ all) (h : Minceable heal order all b) :
    ∃ x, sliceAlong heal down order Ps b = some x ∧ List.Perm x.panels b.panels ∧ x.dofs = b.dofs ∧
      x.name = b.name ∧
      (∀ Q, (∀ m ∈ b.mesh.leaves, OneSide Q m) → ∀ m ∈ x.mesh.leaves, OneSide Q m) ∧
      (∀ Q ∈ Ps, ∀ m ∈ x.mesh.leaves, OneSide Q m) ∧
      (Ps ≠ [] → x.mass = none ∧ x.centerOfMass = none ∧ x.inertia = none ∧ x.stiffness = none) := by
  induction Ps generalizing b with
  | nil => exact ⟨b, rfl, List.Perm.refl _, rfl, rfl, fun Q h => h, by simp, by simp⟩
  | cons P Ps ih =>
    have hP := hsub P List.mem_cons_self
    have hcut : Cuttable heal order P b := ⟨h.consistent, h.valid, h.lid, fun m hm u hu p hp c =>
      h.steady m hm p (.cut .whole hP hu hp) c⟩
    obtain ⟨y, y1, y2, y3, -⟩ := slice_body heal down order ho P b hcut
    obtain ⟨s1, s2, s3, s4, s5, s6, s7, s8⟩ := slice_step ho hd hcut y1
    have hy : Minceable heal order all y := by
      refine ⟨s3, fun m hm => (s1 m hm).1, s2, ?_⟩
      intro m hm p hp c
      obtain ⟨-, m0, hm0, v, hv, hmv⟩ := s1 m hm
      exact h.steady m0 hm0 p (piece_trans (.cut .whole hP hv hmv) hp) c
    obtain ⟨x, x1, x2, x3, x4, x5, x6, x7⟩ := ih y (fun Q hQ => hsub Q (List.mem_cons_of_mem _ hQ)) hy
    refine ⟨x, by rw [sliceAlong, y1, Option.bind_some, x1], x2.trans y2, x3.trans y3, x4.trans s4, ?_, ?_, ?_⟩
    · intro Q hQ
      refine x5 Q fun m hm => ?_
      obtain ⟨-, m0, hm0, v, hv, hmv⟩ := s1 m hm
      exact oneSide_part (hQ m0 hm0) (slice_sides ho (h.valid m0 hm0) hv hmv).2
    · intro Q hQ
      rcases List.mem_cons.mp hQ with rfl | hQ
      · refine x5 Q fun m hm => ?_
        obtain ⟨-, m0, hm0, v, hv, hmv⟩ := s1 m hm
        exact (slice_sides ho (h.valid m0 hm0) hv hmv).1
      · exact x6 Q hQ
    · intro _
      by_cases hne : Ps = []
      · subst hne
        rw [sliceAlong, Option.some.injEq] at x1
        subst x1
        exact ⟨s5, s6, s7, s8⟩
      · exact x7 hne

/-! ## Theorems -/

/-- The boundary number `j` between `n` slices of the same size. -/
noncomputable def boundary (size : ℝ × ℝ) (n j : ℕ) : ℝ := size.1 + j / n * (size.2 - size.1)

theorem distance_axis (c x : ℝ) (p : V3 ℝ) :
    Plane.distanceToPoint (mkPlane ⟨1, 0, 0⟩ (c • ⟨1, 0, 0⟩)) p = p.x - c ∧
    Plane.distanceToPoint (mkPlane ⟨0, 1, 0⟩ (c • ⟨0, 1, 0⟩)) p = p.y - c ∧
    Plane.distanceToPoint (mkPlane ⟨0, 0, 1⟩ (c • ⟨0, 0, 1⟩)) p = p.z - c := by
  have h1 : V3.norm (⟨1, 0, 0⟩ : V3 ℝ) = 1 := by simp [V3.norm, dot]
  have h2 : V3.norm (⟨0, 1, 0⟩ : V3 ℝ) = 1 := by simp [V3.norm, dot]
  have h3 : V3.norm (⟨0, 0, 1⟩ : V3 ℝ) = 1 := by simp [V3.norm, dot]
  refine ⟨?_, ?_, ?_⟩ <;> simp [Plane.distanceToPoint, mkPlane, h1, h2, h3, dot]

/-- A body that `minced` accepts: the meshes can be copied, and the copy can be cut by all the planes. -/
structure MinceInput (heal : Bool → Mesh (V3 ℝ) → Mesh (V3 ℝ)) (order : List ℕ → List ℕ) (Ps : List Plane) (b : Body) :
    Prop where
  sliced : Sliced b.mesh ∧ b.mesh.Upright
  lidSliced : ∀ l, b.lid = some l → Sliced l ∧ l.Upright
  cut : Minceable heal order Ps b

theorem copy_mince {heal : Bool → Mesh (V3 ℝ) → Mesh (V3 ℝ)} {order : List ℕ → List ℕ} {Ps : List Plane} {b : Body}
    (h : MinceInput heal order Ps b) (n : Name) :
    ∃ c, b.copy n = some c ∧ Minceable heal order Ps c ∧ c.panels = b.panels ∧ c.dofs = b.dofs ∧ c.name = n ∧
      c.mass = b.mass ∧ c.mesh.leaves = b.mesh.leaves := by
  obtain ⟨t, t1, t2⟩ := (copy_coherent b.mesh.depth b.mesh h.sliced.1 le_rfl).1 h.sliced.2
  have t1 : b.mesh.copy = some t := t1
  have hnb : t.nbFaces = b.mesh.nbFaces := by rw [nbFaces_eq, nbFaces_eq, t2.1]
  rw [Body.copy, if_pos h.cut.consistent, t1]
  cases hl : b.lid with
  | none =>
    refine ⟨_, rfl, ⟨fun d hd => (h.cut.consistent d hd).trans hnb.symm, ?_, by simp, ?_⟩, ?_, rfl, rfl, rfl, t2.1⟩
    · simp only [t2.1]
      exact h.cut.valid
    · simp only [t2.1]
      exact h.cut.steady
    · simp only [Body.panels, t2.1]
  | some l =>
    obtain ⟨c, c1, c2⟩ := (copy_coherent l.depth l (h.lidSliced l hl).1 le_rfl).1 (h.lidSliced l hl).2
    have c1 : l.copy = some c := c1
    rw [Option.map_some, c1]
    refine ⟨_, rfl, ⟨fun d hd => (h.cut.consistent d hd).trans hnb.symm, ?_, ?_, ?_⟩, ?_, rfl, rfl, rfl, t2.1⟩
    · simp only [t2.1]
      exact h.cut.valid
    · rintro _ ⟨⟩
      rw [c2.1]
      exact h.cut.lid l hl
    · simp only [t2.1]
      exact h.cut.steady
    · simp only [Body.panels, t2.1]

/-- C98: mincing succeeds for positive numbers of slices, keeps all the panels, maybe in another order, and cuts the mesh in
parts that cross no boundary between the slices in the three directions. The number of slices is rounded down to a power of
two. -/
theorem minced_sides (heal : Bool → Mesh (V3 ℝ) → Mesh (V3 ℝ)) (down : Mesh (V3 ℝ) → Mesh (V3 ℝ))
    (order : List ℕ → List ℕ) (ho : ∀ l, List.Perm (order l) l)
    (hd : ∀ m : Mesh (V3 ℝ), m.Valid → (down m).Valid) (nb : ℕ × ℕ × ℕ) (b : Body) (sx sy sz : ℝ × ℝ)
    (hbox : b.mesh.bbox = some [sx, sy, sz]) (Ps : List Plane) (hPs : mincePlanes nb [sx, sy, sz] = some Ps)
    (h : MinceInput heal order Ps b) :
    ∃ x, b.minced heal down order nb = some x ∧ List.Perm x.panels b.panels ∧ x.dofs = b.dofs ∧
      ∀ m ∈ x.mesh.leaves, ∀ i i' p q, m.panelAt i = some p → m.panelAt i' = some q →
        (∀ j, 0 < j → j < 2 ^ Nat.log 2 nb.1 →
          (p.center.x < boundary sx (2 ^ Nat.log 2 nb.1) j ↔ q.center.x < boundary sx (2 ^ Nat.log 2 nb.1) j)) ∧
        (∀ j, 0 < j → j < 2 ^ Nat.log 2 nb.2.1 →
          (p.center.y < boundary sy (2 ^ Nat.log 2 nb.2.1) j ↔ q.center.y < boundary sy (2 ^ Nat.log 2 nb.2.1) j)) ∧
        ∀ j, 0 < j → j < 2 ^ Nat.log 2 nb.2.2 →
          (p.center.z < boundary sz (2 ^ Nat.log 2 nb.2.2) j ↔ q.center.z < boundary sz (2 ^ Nat.log 2 nb.2.2) j) := by
  obtain ⟨c, c1, c2, c3, c4, -⟩ := copy_mince h ("copy_of_".toList ++ b.name)
  obtain ⟨x, x1, x2, x3, -, -, x6, -⟩ := slice_along ho hd Ps Ps c (fun _ h => h) c2
  refine ⟨x, ?_, by rw [← c3]; exact x2, x3.trans c4, ?_⟩
  · rw [Body.minced, c1, Option.bind_some, hbox, Option.bind_some, hPs, Option.bind_some, x1]
  · intro m hm i i' p q hp hq
    have hmem := mince_planes hPs
    refine ⟨fun j h0 hj => ?_, fun j h0 hj => ?_, fun j h0 hj => ?_⟩
    · have := x6 _ ((hmem _).mpr (Or.inl ⟨j, h0, hj, rfl⟩)) m hm i i' p q hp hq
      rw [(distance_axis _ 0 _).1, (distance_axis _ 0 _).1, sub_neg, sub_neg] at this
      simpa [boundary] using this
    · have := x6 _ ((hmem _).mpr (Or.inr (Or.inl ⟨j, h0, hj, rfl⟩))) m hm i i' p q hp hq
      rw [(distance_axis _ 0 _).2.1, (distance_axis _ 0 _).2.1, sub_neg, sub_neg] at this
      simpa [boundary] using this
    · have := x6 _ ((hmem _).mpr (Or.inr (Or.inr ⟨j, h0, hj, rfl⟩))) m hm i i' p q hp hq
      rw [(distance_axis _ 0 _).2.2, (distance_axis _ 0 _).2.2, sub_neg, sub_neg] at this
      simpa [boundary] using this

theorem mincePlanes_some {nb : ℕ × ℕ × ℕ} (h : 0 < nb.1 ∧ 0 < nb.2.1 ∧ 0 < nb.2.2) (sx sy sz : ℝ × ℝ) :
    ∃ Ps, mincePlanes nb [sx, sy, sz] = some Ps := by
  have e : ∀ d n s, 0 < n → ∃ L, planesAlong d n s = some L := fun d n s hn => by
    rw [planesAlong, if_neg hn.ne']
    exact ⟨_, rfl⟩
  obtain ⟨X, hX⟩ := e ⟨1, 0, 0⟩ nb.1 sx h.1
  obtain ⟨Y, hY⟩ := e ⟨0, 1, 0⟩ nb.2.1 sy h.2.1
  obtain ⟨Z, hZ⟩ := e ⟨0, 0, 1⟩ nb.2.2 sz h.2.2
  refine ⟨(intermingle [X, Y, Z]).flatten, ?_⟩
  rw [mincePlanes]
  simp only [List.zip_cons_cons, List.zip_nil_right, List.mapM_cons, List.mapM_nil, hX, hY, hZ]
  rfl

/-- C98: only the integer part of the logarithm of the number of slices is used. -/
theorem minced_rounded (heal : Bool → Mesh (V3 ℝ) → Mesh (V3 ℝ)) (down : Mesh (V3 ℝ) → Mesh (V3 ℝ))
    (order : List ℕ → List ℕ) (nx ny nz : ℕ) (b : Body) (hx : 0 < nx) (hy : 0 < ny) (hz : 0 < nz) :
    b.minced heal down order (nx, ny, nz) =
      b.minced heal down order (2 ^ Nat.log 2 nx, 2 ^ Nat.log 2 ny, 2 ^ Nat.log 2 nz) := by
  have e : ∀ d n s, 0 < n → planesAlong d n s = planesAlong d (2 ^ Nat.log 2 n) s := fun d n s hn => by
    rw [planesAlong, planesAlong, if_neg hn.ne', if_neg (by positivity), Nat.log_pow (by norm_num)]
  have : ∀ bbox, mincePlanes (nx, ny, nz) bbox =
      mincePlanes (2 ^ Nat.log 2 nx, 2 ^ Nat.log 2 ny, 2 ^ Nat.log 2 nz) bbox := by
    intro bbox
    rw [mincePlanes, mincePlanes]
    rcases bbox with _ | ⟨a, _ | ⟨b, _ | ⟨c, l⟩⟩⟩ <;>
      simp only [List.zip_cons_cons, List.zip_nil_right, List.zip_nil_left, List.mapM_cons, List.mapM_nil,
        ← e _ nx _ hx, ← e _ ny _ hy, ← e _ nz _ hz]
  simp only [Body.minced, this]

/-- C98: once cut, the body has no mass, center of mass or matrices any more. -/
theorem minced_forgets (heal : Bool → Mesh (V3 ℝ) → Mesh (V3 ℝ)) (down : Mesh (V3 ℝ) → Mesh (V3 ℝ))
    (order : List ℕ → List ℕ) (ho : ∀ l, List.Perm (order l) l)
    (hd : ∀ m : Mesh (V3 ℝ), m.Valid → (down m).Valid) (nb : ℕ × ℕ × ℕ) (b : Body) (sx sy sz : ℝ × ℝ)
    (hbox : b.mesh.bbox = some [sx, sy, sz]) (Ps : List Plane) (hPs : mincePlanes nb [sx, sy, sz] = some Ps)
    (h : MinceInput heal order Ps b) (h2 : 2 ≤ nb.1) :
    ∃ x, b.minced heal down order nb = some x ∧ x.mass = none ∧ x.centerOfMass = none ∧ x.inertia = none ∧
      x.stiffness = none := by
  obtain ⟨c, c1, c2, -⟩ := copy_mince h ("copy_of_".toList ++ b.name)
  obtain ⟨x, x1, -, -, -, -, -, x7⟩ := slice_along ho hd Ps Ps c (fun _ h => h) c2
  refine ⟨x, ?_, x7 ?_⟩
  · rw [Body.minced, c1, Option.bind_some, hbox, Option.bind_some, hPs, Option.bind_some, x1]
  · have hlog : 1 ≤ Nat.log 2 nb.1 := Nat.log_pos (by norm_num) h2
    have h4 : 2 ^ 1 ≤ 2 ^ Nat.log 2 nb.1 := Nat.pow_le_pow_right (by norm_num) hlog
    intro hnil
    have := (mince_planes hPs _).mpr (Or.inl ⟨1, by norm_num, by omega, rfl⟩)
    rw [hnil] at this
    cases this

theorem slice_rename (heal : Bool → Mesh (V3 ℝ) → Mesh (V3 ℝ)) (down : Mesh (V3 ℝ) → Mesh (V3 ℝ))
    (order : List ℕ → List ℕ) (P : Plane) (b : Body) (n : Name) :
    ({ b with name := n } : Body).slicedByPlane heal down order P =
      (b.slicedByPlane heal down order P).map fun x => { x with name := n } := by
  have e : ∀ t lid, construct heal down n t lid b.dofs =
      (construct heal down b.name t lid b.dofs).map fun x => { x with name := n } := by
    intro t lid
    unfold construct
    simp only
    split
    · rfl
    · rename_i l _
      have hc : (⟨n, healTree heal t, l, b.dofs, none, none, none, none⟩ : Body).Consistent ↔
          (⟨b.name, healTree heal t, l, b.dofs, none, none, none, none⟩ : Body).Consistent := Iff.rfl
      by_cases h : (⟨b.name, healTree heal t, l, b.dofs, none, none, none, none⟩ : Body).Consistent
      · rw [if_pos h, if_pos (hc.mpr h)]
        rfl
      · rw [if_neg h, if_neg fun h' => h (hc.mp h')]
        rfl
  rw [Body.slicedByPlane, Body.slicedByPlane]
  cases b.mesh.slicedByPlane order P with
  | none => rfl
  | some m =>
    cases b.lid.map (Meshes.Tree.slicedByPlane order P) with
    | none => exact e m none
    | some l =>
      cases l with
      | none => rfl
      | some l => exact e m (some l)

theorem samplePair_bbox : (Tree.leaf samplePair).bbox = some [(-2, 2), (0, 1), (0, 0)] := by
  rw [Tree.bbox, if_pos (by simp [Tree.nbVertices, samplePair])]
  simp [Tree.vertices, Tree.array, samplePair, extent]
  norm_num

theorem samplePair_planes : mincePlanes (2, 1, 1) [(-2, 2), (0, 1), (0, 0)] = some [⟨ex, 0⟩] := by
  have h1 : V3.norm (⟨1, 0, 0⟩ : V3 ℝ) = 1 := by simp [V3.norm, dot]
  have hl : Nat.log 2 2 = 1 := by decide
  have hx : planesAlong ⟨1, 0, 0⟩ 2 (-2, 2) = some [[⟨ex, 0⟩]] := by
    rw [planesAlong, if_neg (by norm_num), hl]
    simp [slicePositions, mkPlane, h1, ex]
    constructor <;> ext <;> simp <;> norm_num
  have hy : ∀ d s, planesAlong d 1 s = some [] := by
    intro d s
    rw [planesAlong, if_neg (by norm_num)]
    simp
  rw [mincePlanes]
  simp only [List.zip_cons_cons, List.zip_nil_right, List.mapM_cons, List.mapM_nil, hx, hy]
  simp [intermingle]

/-- C98 fails for the motions: two slices of a mesh of two panels exchange the panels, but not their motions. -/
theorem minced_dofs_violated (down : Mesh (V3 ℝ) → Mesh (V3 ℝ)) (order : List ℕ → List ℕ)
    (ho : ∀ l, List.Perm (order l) l) :
    ∃ dofs : List (Name × List (V3 ℂ)), (∀ d ∈ dofs, d.2.length = 2) ∧
      ∀ x, (⟨['a'], .leaf samplePair, none, dofs, none, none, none, none⟩ : Body).minced (fun _ m => m) down order
        (2, 1, 1) = some x → ¬ KeepsMotions ⟨['a'], .leaf samplePair, none, dofs, none, none, none, none⟩ x := by
  obtain ⟨dofs, hd, h⟩ := slice_dofs_violated down order ho
  refine ⟨dofs, hd, fun x hx hk => ?_⟩
  have hc : (⟨['a'], .leaf samplePair, none, dofs, none, none, none, none⟩ : Body).Consistent := hd
  simp only [Body.minced, samplePair_bbox, Option.bind_some, samplePair_planes] at hx
  rw [Body.copy, if_pos hc] at hx
  have hx : (({ (⟨['a'], .leaf samplePair, none, dofs, none, none, none, none⟩ : Body) with
    name := "copy_of_".toList ++ ['a'] } : Body).slicedByPlane (fun _ m => m) down order ⟨ex, 0⟩).bind some = some x := hx
  rw [Option.bind_fun_some, slice_rename, Option.map_eq_some_iff] at hx
  obtain ⟨y, hy, rfl⟩ := hx
  exact h y hy hk

/-- Concrete case of `minced_sides` and `minced_forgets`. -/
example : ∃ x, (⟨['a'], .leaf samplePair, none, [(['d'], [⟨1, 0, 0⟩, ⟨2, 0, 0⟩])], none, none, none, none⟩ :
      Body).minced (fun _ m => m) id id (2, 1, 1) = some x ∧
    ∀ m ∈ x.mesh.leaves, ∀ i i' p q, m.panelAt i = some p → m.panelAt i' = some q →
      (p.center.x < boundary (-2, 2) 2 1 ↔ q.center.x < boundary (-2, 2) 2 1) := by
  have hcut := samplePair_cuttable id ⟨ex, 0⟩ [(['d'], [⟨1, 0, 0⟩, ⟨2, 0, 0⟩])] (by simp)
  obtain ⟨x, h1, -, -, h2⟩ := minced_sides (fun _ m => m) id id (fun l => List.Perm.refl l) (fun m h => h) (2, 1, 1)
    ⟨['a'], .leaf samplePair, none, [(['d'], [⟨1, 0, 0⟩, ⟨2, 0, 0⟩])], none, none, none, none⟩ _ _ _ samplePair_bbox _
    samplePair_planes ⟨⟨.leaf _, trivial⟩, by simp, hcut.consistent, hcut.valid, hcut.lid, fun _ _ _ _ _ => rfl⟩
  refine ⟨x, h1, fun m hm i i' p q hp hq => ?_⟩
  have hl : 2 ^ Nat.log 2 2 = 2 := by decide
  have := (h2 m hm i i' p q hp hq).1 1 (by norm_num) (by rw [hl]; norm_num)
  rwa [hl] at this

end Verif.Bodies

namespace Verif.Meshes

open Verif.Geometry V3

theorem foldl_min_le (x : ℝ) (xs : List ℝ) :
    (xs.foldl min x ≤ x ∧ ∀ y ∈ xs, xs.foldl min x ≤ y) ∧ (xs.foldl min x = x ∨ xs.foldl min x ∈ xs) := by
  induction xs generalizing x with
  | nil => simp
  | cons a xs ih =>
    obtain ⟨⟨h1, h2⟩, h3⟩ := ih (min x a)
    simp only [List.foldl_cons, List.mem_cons, forall_eq_or_imp]
    refine ⟨⟨h1.trans (min_le_left _ _), h1.trans (min_le_right _ _), h2⟩, ?_⟩
    rcases h3 with h3 | h3
    · rcases min_choice x a with h | h
      · exact Or.inl (h3.trans h)
      · exact Or.inr (Or.inl (h3.trans h))
    · exact Or.inr (Or.inr h3)

theorem le_foldl_max (x : ℝ) (xs : List ℝ) :
    (x ≤ xs.foldl max x ∧ ∀ y ∈ xs, y ≤ xs.foldl max x) ∧ (xs.foldl max x = x ∨ xs.foldl max x ∈ xs) := by
  induction xs generalizing x with
  | nil => simp
  | cons a xs ih =>
    obtain ⟨⟨h1, h2⟩, h3⟩ := ih (max x a)
    simp only [List.foldl_cons, List.mem_cons, forall_eq_or_imp]
    refine ⟨⟨(le_max_left _ _).trans h1, (le_max_right _ _).trans h1, h2⟩, ?_⟩
    rcases h3 with h3 | h3
    · rcases max_choice x a with h | h
      · exact Or.inl (h3.trans h)
      · exact Or.inr (Or.inl (h3.trans h))
    · exact Or.inr (Or.inr h3)

/-- The pair is made of the least and of the greatest numbers of the list. -/
def IsExtent (l : List ℝ) (p : ℝ × ℝ) : Prop := IsLeast {x | x ∈ l} p.1 ∧ IsGreatest {x | x ∈ l} p.2

theorem extent_spec (l : List ℝ) (h : l ≠ []) : IsExtent l (extent l) := by
  obtain _ | ⟨x, xs⟩ := l
  · exact absurd rfl h
  · obtain ⟨⟨h1, h2⟩, h3⟩ := foldl_min_le x xs
    obtain ⟨⟨g1, g2⟩, g3⟩ := le_foldl_max x xs
    refine ⟨⟨?_, ?_⟩, ⟨?_, ?_⟩⟩
    · exact List.mem_cons.2 h3
    · intro y hy
      rcases List.mem_cons.1 hy with rfl | hy
      · exact h1
      · exact h2 y hy
    · exact List.mem_cons.2 g3
    · intro y hy
      rcases List.mem_cons.1 hy with rfl | hy
      · exact g1
      · exact g2 y hy

/-- **C98**: the box from which the planes are computed is the smallest box with axes along the coordinates
that contains all the vertices. -/
theorem bbox_extents (t : Tree) (vs : List (V3 ℝ)) (hv : t.vertices = some vs) (hn : t.nbVertices > 0)
    (h : vs ≠ []) :
    ∃ sx sy sz, t.bbox = some [sx, sy, sz] ∧ IsExtent (vs.map V3.x) sx ∧ IsExtent (vs.map V3.y) sy ∧
      IsExtent (vs.map V3.z) sz := by
  refine ⟨extent (vs.map V3.x), extent (vs.map V3.y), extent (vs.map V3.z), ?_,
    extent_spec _ (by simpa using h), extent_spec _ (by simpa using h), extent_spec _ (by simpa using h)⟩
  rw [Tree.bbox, if_pos hn, hv]
  rfl

/-- Concrete case of `bbox_extents`: a mesh with two vertices. -/
example : ∃ sx sy sz, (Tree.leaf ⟨[⟨1, 2, 3⟩, ⟨4, 5, 6⟩], []⟩).bbox = some [sx, sy, sz] ∧
    IsExtent [1, 4] sx ∧ IsExtent [2, 5] sy ∧ IsExtent [3, 6] sz := by
  simpa using bbox_extents (Tree.leaf ⟨[⟨1, 2, 3⟩, ⟨4, 5, 6⟩], []⟩) [⟨1, 2, 3⟩, ⟨4, 5, 6⟩] rfl (by decide)
    (by simp)

end Verif.Meshes
