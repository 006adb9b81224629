import Verif.Meshes.JoinSymModel
import Verif.Meshes.SymmetricProps

/-!
# Joining symmetric meshes (C91)
-/

namespace Verif.Meshes

open Verif.Geometry V3

/-! ## Specification -/

/-- The two objects are the same symmetry: the same oriented plane, the same vector, or the same line whatever its
direction. -/
def SameSymmetry : Sym → Sym → Prop
  | .reflection P, .reflection Q => Q.normal = P.normal ∧ ∀ p, P.signedDist p = Q.signedDist p
  | .translation u, .translation v => v = u
  | .axial a, .axial b => (b.vector = a.vector ∨ b.vector = -a.vector) ∧ ∃ t, b.point = a.at t
  | _, _ => False

/-! ## Lemmas -/

theorem sameSymmetry_refl {s : Sym} (hs : s ≠ .plain) : SameSymmetry s s := by
  cases s with
  | plain => exact absurd rfl hs
  | reflection P => exact ⟨rfl, fun _ => rfl⟩
  | translation u => rfl
  | axial a => exact ⟨Or.inl rfl, 0, by ext <;> simp [Axis.at]⟩

theorem norm_zero_vec : V3.norm (0 : V3 ℝ) = 0 := by simp [V3.norm, dot]

theorem joinable_of_same {s s' : Sym} {ps qs : List Tree} (h : SameSymmetry s s') (hu : s.Unit)
    (hl : ps.length = qs.length) : Joinable (.node s ps) (.node s' qs) := by
  cases s with
  | plain => exact absurd h id
  | reflection P =>
    cases s' with
    | reflection Q =>
      refine Or.inr ⟨?_, ?_, ?_⟩
      · have := h.2 Q.point
        have h0 : dot (Q.point - P.point) P.normal = 0 := by
          have e : Q.signedDist Q.point = 0 := by simp [Plane.signedDist]
          rw [e] at this
          simp only [Plane.signedDist, dot, sub_x, sub_y, sub_z] at this ⊢
          linarith
        show |dot (Q.point - P.point) P.normal| < 1e-6
        rw [h0]
        norm_num
      · show V3.norm (cross P.normal Q.normal) < 1e-6
        rw [h.1, show cross P.normal P.normal = 0 by ext <;> simp <;> ring, norm_zero_vec]
        norm_num
      · show dot P.normal Q.normal > 0
        rw [h.1, show dot P.normal P.normal = 1 from hu]
        norm_num
    | plain => exact absurd h id
    | translation v => exact absurd h id
    | axial b => exact absurd h id
  | translation u =>
    cases s' with
    | translation v =>
      refine ⟨?_, hl⟩
      have : v = u := h
      subst this
      have hc : ∀ x : ℝ, closeFloat x x := by
        intro x
        simp only [closeFloat, sub_self, abs_zero]
        positivity
      exact ⟨hc _, hc _, hc _⟩
    | plain => exact absurd h id
    | reflection Q => exact absurd h id
    | axial b => exact absurd h id
  | axial a =>
    cases s' with
    | axial b =>
      obtain ⟨hv, t, hp⟩ := h
      have hz : ∀ v : V3 ℝ, v = 0 → V3.norm v < 1e-6 := by
        rintro v rfl
        rw [norm_zero_vec]
        norm_num
      refine ⟨Or.inr ⟨hz _ ?_, hz _ ?_⟩, hl⟩
      · rw [hp]
        rcases hv with hv | hv <;> rw [hv] <;> ext <;> simp [Axis.at] <;> ring
      · rcases hv with hv | hv <;> rw [hv] <;> ext <;> simp <;> ring
    | plain => exact absurd h id
    | reflection Q => exact absurd h id
    | translation v => exact absurd h id

/-- Turning around the opposite vector is turning backwards. -/
theorem rotateVector_opposite (a b : Axis) (h : b.vector = -a.vector) (θ : ℝ) (v : V3 ℝ) :
    b.rotateVector θ v = a.rotateVector (-θ) v := by
  rw [rotateVector_eq, rotateVector_eq, h, Real.sin_neg, Real.cos_neg]
  ext <;> simp <;> ring

theorem rotateVector_period (a : Axis) (θ : ℝ) (v : V3 ℝ) :
    a.rotateVector (θ + 2 * Real.pi) v = a.rotateVector θ v := by
  rw [rotateVector_eq, rotateVector_eq, Real.sin_add_two_pi, Real.cos_add_two_pi]

theorem rotateVector_same (a b : Axis) (h : b.vector = a.vector) (θ : ℝ) (v : V3 ℝ) :
    b.rotateVector θ v = a.rotateVector θ v := by
  rw [rotateVector_eq, rotateVector_eq, h]

/-- The rotations around an axis do not depend on its point. -/
theorem rotatePoint_point (a b : Axis) (ha : dot a.vector a.vector = 1) (t : ℝ) (hp : b.point = a.at t) (θ φ : ℝ)
    (hv : ∀ v, b.rotateVector θ v = a.rotateVector φ v) (p : V3 ℝ) : b.rotatePoint θ p = a.rotatePoint φ p := by
  have e := rotation_fixes_axis a φ t
  have : a.rotatePoint φ p - a.rotatePoint φ (a.at t) = a.rotateVector φ (p - a.at t) := rotatePoint_sub a φ p _
  rw [e] at this
  have h2 : b.rotatePoint θ p = b.rotateVector θ (p - b.point) + b.point := rfl
  rw [h2, hv, hp, ← this]
  ext <;> simp

theorem mesh_congr {μ ν : Motion} (hp : ∀ p, μ.point p = ν.point p) (hf : ∀ f, μ.face f = ν.face f)
    (m : Mesh (V3 ℝ)) : μ.mesh m = ν.mesh m := by
  rw [mesh_eq, mesh_eq, funext hp, funext hf]

/-- The images of a list of meshes are the same, in another order, for the same symmetry. -/
theorem images_perm {s s' : Sym} (h : SameSymmetry s s') (hu : s.Unit) (n : ℕ) (ms : List (Mesh (V3 ℝ))) :
    ((List.range n).flatMap fun k => ms.map (s.step (n + 1) (k + 1)).mesh).Perm
      ((List.range n).flatMap fun k => ms.map (s'.step (n + 1) (k + 1)).mesh) := by
  have heq : (∀ k m, (s.step (n + 1) (k + 1)).mesh m = (s'.step (n + 1) (k + 1)).mesh m) →
      ((List.range n).flatMap fun k => ms.map (s.step (n + 1) (k + 1)).mesh).Perm
      ((List.range n).flatMap fun k => ms.map (s'.step (n + 1) (k + 1)).mesh) := by
    intro h
    rw [show (fun k => ms.map (s.step (n + 1) (k + 1)).mesh) = fun k => ms.map (s'.step (n + 1) (k + 1)).mesh from
      funext fun k => List.map_congr_left fun m _ => h k m]
  cases s with
  | plain => exact absurd h id
  | reflection P =>
    cases s' with
    | reflection Q =>
      refine heq fun k m => mesh_congr (μ := .mirror P) (ν := .mirror Q) (fun p => ?_) (fun _ => rfl) m
      have hc : P.c = Q.c := by
        have := h.2 0
        simp only [Plane.signedDist, dot, sub_x, sub_y, sub_z, zero_x, zero_y, zero_z] at this
        rw [Plane.c, Plane.c]
        congr 1
        simp only [dot]
        linarith
      show P.mirrorPoint p = Q.mirrorPoint p
      rw [Plane.mirrorPoint, Plane.mirrorPoint, h.1, hc]
    | plain => exact absurd h id
    | translation v => exact absurd h id
    | axial b => exact absurd h id
  | translation u =>
    cases s' with
    | translation v =>
      have : v = u := h
      subst this
      exact heq fun _ _ => rfl
    | plain => exact absurd h id
    | reflection Q => exact absurd h id
    | axial b => exact absurd h id
  | axial a =>
    cases s' with
    | axial b =>
      obtain ⟨hv, t, hp⟩ := h
      rcases hv with hv | hv
      · refine heq fun k m => mesh_congr (μ := .rotate a _) (ν := .rotate b _) (fun p => ?_) (fun _ => rfl) m
        exact (rotatePoint_point a b hu t hp _ _ (rotateVector_same a b hv _) p).symm
      · have hrev : ∀ (k : ℕ) (m : Mesh (V3 ℝ)), k < n →
            (Sym.step (.axial b) (n + 1) (k + 1)).mesh m = (Sym.step (.axial a) (n + 1) (n - 1 - k + 1)).mesh m := by
          intro k m hk
          refine mesh_congr (μ := .rotate b _) (ν := .rotate a _) (fun p => ?_) (fun _ => rfl) m
          refine rotatePoint_point a b hu t hp _ _ (fun v => ?_) p
          rw [rotateVector_opposite a b hv, ← rotateVector_period]
          congr 1
          have hk' : ((n - 1 - k + 1 : ℕ) : ℝ) = n - k := by
            rw [show n - 1 - k + 1 = n - k by omega, Nat.cast_sub hk.le]
          rw [hk']
          have : ((n + 1 : ℕ) : ℝ) ≠ 0 := by positivity
          field_simp
          push_cast
          ring
        have h1 : ((List.range n).flatMap fun k => ms.map (Sym.step (.axial b) (n + 1) (k + 1)).mesh) =
            ((List.range n).map fun k => n - 1 - k).flatMap fun k =>
              ms.map (Sym.step (.axial a) (n + 1) (k + 1)).mesh := by
          rw [List.flatMap_map]
          refine List.flatMap_congr fun k hk => List.map_congr_left fun m _ => ?_
          exact hrev k m (List.mem_range.1 hk)
        rw [h1]
        refine List.Perm.flatMap_right _ ?_
        have : (List.range n).map (fun k => n - 1 - k) = (List.range n).reverse := by
          refine List.ext_getElem (by simp) fun i h1 h2 => ?_
          simp
        rw [this]
        exact (List.reverse_perm _).symm
    | plain => exact absurd h id
    | reflection Q => exact absurd h id
    | translation v => exact absurd h id

theorem flatMap_comm_perm {A B C : Type} (f : A → B → List C) (as : List A) (bs : List B) :
    (as.flatMap fun a => bs.flatMap fun b => f a b).Perm (bs.flatMap fun b => as.flatMap fun a => f a b) := by
  induction as with
  | nil => simp
  | cons a as ih =>
    simp only [List.flatMap_cons]
    exact ((List.Perm.refl _).append ih).trans (List.flatMap_append_perm bs _ _)

theorem sliced_first {s : Sym} {h : Tree} {rest : List Tree} (hc : Sliced (.node s (h :: rest))) : Sliced h := by
  cases hc with
  | plain _ hp => exact hp h (by simp)
  | symmetric _ _ _ _ _ hh _ _ _ => exact hh

/-! ## C91 -/

/-- What the join builds: the first parts of all the meshes, and their images by the symmetry of the first mesh. -/
theorem join_built {s : Sym} (hs : s ≠ .plain) (hu : s.Unit) (hacc : s.Accepted) {n : ℕ} (hn : 1 ≤ n)
    (hr : ∀ P, s = .reflection P → n = 1) (ops : List (Sym × Tree × List Tree)) (hne : ops ≠ [])
    (hop : ∀ o ∈ ops, Joinable (.node s ((ops.head hne).2.1 :: (ops.head hne).2.2)) (.node o.1 (o.2.1 :: o.2.2)) ∧
      Sliced o.2.1 ∧ o.2.1.Upright)
    (hh : (ops.head hne).1 = s ∧ (ops.head hne).2.2.length = n) :
    ∃ t, joinSymmetric (ops.map fun o => .node o.1 (o.2.1 :: o.2.2)) = some t ∧ Sliced t ∧ t.Upright ∧
      (∃ parts, t = .node s parts ∧ parts.length = n + 1) ∧
      t.leaves = (ops.flatMap fun o => o.2.1.leaves) ++ (List.range n).flatMap fun k =>
        (ops.flatMap fun o => o.2.1.leaves).map (s.step (n + 1) (k + 1)).mesh := by
  classical
  obtain ⟨⟨s0, h0, r0⟩, ops', rfl⟩ := List.exists_cons_of_ne_nil hne
  obtain ⟨rfl, hlen⟩ := hh
  simp only [List.head_cons] at hop hlen hs hu hacc hr ⊢
  have hfirst : (((s0, h0, r0) :: ops').map fun o : Sym × Tree × List Tree => Tree.node o.1 (o.2.1 :: o.2.2)).mapM
      firstPart = some (((s0, h0, r0) :: ops').map fun o => o.2.1) := by
    generalize ((s0, h0, r0) :: ops') = l
    induction l with
    | nil => rfl
    | cons o l ih =>
      rw [List.map_cons, List.mapM_cons, ih]
      rfl
  have hcond : ∀ t ∈ ((s0, h0, r0) :: ops').map (fun o : Sym × Tree × List Tree => Tree.node o.1 (o.2.1 :: o.2.2)),
      Joinable (.node s0 (h0 :: r0)) t := by
    intro t ht
    obtain ⟨o, ho, rfl⟩ := List.mem_map.1 ht
    exact (hop o ho).1
  set H : Tree := .node .plain (((s0, h0, r0) :: ops').map fun o => o.2.1) with hH
  have hHs : Sliced H := .plain _ fun t ht => by
    obtain ⟨o, ho, rfl⟩ := List.mem_map.1 ht
    exact (hop o ho).2.1
  have hHu : H.Upright := by
    show MainAll _ _
    rw [mainAll_iff]
    intro t ht
    obtain ⟨o, ho, rfl⟩ := List.mem_map.1 ht
    exact (hop o ho).2.2
  obtain ⟨c, h1, h2⟩ := (copy_coherent H.depth H hHs le_rfl).1 hHu
  have hmk : ∃ t, mkSymmetric Tree.copy s0 H n = some t := by
    rw [mkSymmetric, if_pos ⟨hacc, hn⟩, show H.copy = some c from h1]
    exact ⟨_, rfl⟩
  obtain ⟨t, ht⟩ := hmk
  obtain ⟨hct, rest, rfl, hl⟩ := mk_coherent hs hu hHs h1 h2.1 hr ht
  have hleaves : H.leaves = ((s0, h0, r0) :: ops').flatMap fun o => o.2.1.leaves := by
    rw [hH, Tree.leaves, leavesAll_eq, List.flatMap_map]
  refine ⟨_, ?_, hct, (main_symmetric hs _ _).mpr ⟨hacc, hHu⟩, ⟨_, rfl, by simp [hl]⟩, ?_⟩
  · have hj : joinSymmetric (((s0, h0, r0) :: ops').map
        fun o : Sym × Tree × List Tree => Tree.node o.1 (o.2.1 :: o.2.2)) =
        if ∀ t ∈ ((s0, h0, r0) :: ops').map (fun o : Sym × Tree × List Tree => Tree.node o.1 (o.2.1 :: o.2.2)),
          Joinable (.node s0 (h0 :: r0)) t then
        ((((s0, h0, r0) :: ops').map fun o : Sym × Tree × List Tree => Tree.node o.1 (o.2.1 :: o.2.2)).mapM
          firstPart).bind fun hs => mkSymmetric Tree.copy s0 (.node .plain hs) ((h0 :: r0).length - 1)
        else none := rfl
    rw [hj, if_pos hcond, hfirst, Option.bind_some, show (h0 :: r0).length - 1 = n by simp [hlen]]
    exact ht
  · rw [leaves_symmetric hs hct, hl, hleaves]

/-- C91: joining meshes with the same symmetry gives a mesh with this symmetry and with the panels of all the
meshes, in another order. For axes, the direction of the vector does not matter. -/
theorem join_symmetric {s : Sym} (hs : s ≠ .plain) (n : ℕ) (l : List Tree) (hne : l ≠ [])
    (hl : ∀ t ∈ l, Built t ∧ t.Upright ∧ ∃ s' parts, t = .node s' parts ∧ parts.length = n + 1 ∧ SameSymmetry s s')
    (hh : ∃ parts, l.head hne = .node s parts) :
    ∃ t, joinSymmetric l = some t ∧ (∃ parts, t = .node s parts ∧ parts.length = n + 1) ∧ Sliced t ∧ t.Upright ∧
      t.leaves.Perm (l.flatMap Tree.leaves) := by
  have hops : ∃ ops : List (Sym × Tree × List Tree), l = ops.map (fun o => Tree.node o.1 (o.2.1 :: o.2.2)) ∧
      ∀ o ∈ ops, Sliced (.node o.1 (o.2.1 :: o.2.2)) ∧ (Tree.node o.1 (o.2.1 :: o.2.2)).Upright ∧
        o.2.2.length = n ∧ SameSymmetry s o.1 := by
    clear hh hne
    induction l with
    | nil => exact ⟨[], rfl, by simp⟩
    | cons t l ih =>
      obtain ⟨ops, rfl, ho⟩ := ih fun t ht => hl t (List.mem_cons_of_mem _ ht)
      obtain ⟨hb, hup, s', parts, rfl, hlen, hsame⟩ := hl t (by simp)
      cases parts with
      | nil => simp at hlen
      | cons h rest =>
        refine ⟨(s', h, rest) :: ops, rfl, ?_⟩
        intro o ho'
        rcases List.mem_cons.1 ho' with rfl | ho'
        · exact ⟨built_coherent hb, hup, by simpa using hlen, hsame⟩
        · exact ho o ho'
  obtain ⟨ops, rfl, ho⟩ := hops
  have hne' : ops ≠ [] := by simpa using hne
  have hs' : ∀ o ∈ ops, o.1 ≠ .plain := by
    intro o hoo e
    have := (ho o hoo).2.2.2
    rw [e] at this
    cases s <;> exact this
  obtain ⟨⟨s0, h0, r0⟩, ops', rfl⟩ := List.exists_cons_of_ne_nil hne'
  obtain ⟨parts, hparts⟩ := hh
  simp only [List.map_cons, List.head_cons, Tree.node.injEq] at hparts
  obtain ⟨rfl, -⟩ := hparts
  have hhead := ho (s0, h0, r0) (by simp)
  simp only at hhead
  have hacc : s0.Accepted := ((main_symmetric hs _ _).1 hhead.2.1).1
  have hu : s0.Unit := by
    cases hhead.1 with
    | plain _ _ => exact absurd rfl hs
    | symmetric _ _ hu _ _ _ _ _ _ => exact hu
  have hn : 1 ≤ n ∧ ∀ P, s0 = .reflection P → n = 1 := by
    cases hhead.1 with
    | plain _ _ => exact absurd rfl hs
    | symmetric _ _ _ _ _ _ hn hr _ =>
      rw [hhead.2.2.1] at hn hr
      exact ⟨hn, hr⟩
  obtain ⟨t, h1, h2, h3, h4, h5⟩ := join_built hs hu hacc hn.1 hn.2 ((s0, h0, r0) :: ops') hne' (by
    intro o hoo
    have hoo' := ho o hoo
    refine ⟨joinable_of_same hoo'.2.2.2 hu ?_, ?_, ((main_symmetric (hs' o hoo) _ _).1 hoo'.2.1).2⟩
    · simp [hoo'.2.2.1, hhead.2.2.1]
    · exact sliced_first hoo'.1) ⟨rfl, hhead.2.2.1⟩
  refine ⟨t, h1, h4, h2, h3, ?_⟩
  rw [h5, List.flatMap_map]
  have e1 : ((s0, h0, r0) :: ops').flatMap (fun o => (Tree.node o.1 (o.2.1 :: o.2.2)).leaves) =
      ((s0, h0, r0) :: ops').flatMap fun o => o.2.1.leaves ++ (List.range n).flatMap fun k =>
        o.2.1.leaves.map (o.1.step (n + 1) (k + 1)).mesh := by
    refine List.flatMap_congr fun o hoo => ?_
    rw [leaves_symmetric (hs' o hoo) (ho o hoo).1, (ho o hoo).2.2.1]
  rw [e1]
  refine List.Perm.trans ?_ (List.flatMap_append_perm _ _ _)
  refine (List.Perm.refl _).append ?_
  simp only [List.map_flatMap]
  refine (flatMap_comm_perm _ _ _).trans ?_
  refine List.Perm.flatMap_left _ fun o hoo => ?_
  exact images_perm (ho o hoo).2.2.2 hu n _

/-- A symmetric mesh made from a single mesh. -/
theorem leaf_symmetric {s : Sym} (hs : s ≠ .plain) (hu : s.Unit) (ha : s.Accepted) (m : Mesh (V3 ℝ)) {n : ℕ}
    (hn : 1 ≤ n) (hr : ∀ P, s = .reflection P → n = 1) :
    ∃ rest, rest.length = n ∧ Built (.node s (.leaf m :: rest)) ∧ (Tree.node s (.leaf m :: rest)).Upright := by
  have hleaf : Tree.copy (.leaf m) = some (.leaf m) := rfl
  have hmk : ∃ t, mkSymmetric Tree.copy s (.leaf m) n = some t := by
    rw [mkSymmetric, if_pos ⟨ha, hn⟩, hleaf]
    exact ⟨_, rfl⟩
  obtain ⟨t, ht⟩ := hmk
  obtain ⟨-, rest, rfl, hl⟩ := mk_coherent hs hu (.leaf m) hleaf rfl hr ht
  exact ⟨rest, hl, .symmetric s hs hu _ _ n (.leaf m) hr ht, (main_symmetric hs _ _).mpr ⟨ha, trivial⟩⟩

/-- C91: only meshes of the same symmetric class are joined, and with the same number of parts unless they are
reflections. -/
theorem join_refused (l : List Tree) (t : Tree) (h : joinSymmetric l = some t) :
    (∀ u ∈ l, ∃ P ps, u = .node (.reflection P) ps) ∨
    (∃ n, ∀ u ∈ l, ∃ v ps, u = .node (.translation v) ps ∧ ps.length = n) ∨
    ∃ n, ∀ u ∈ l, ∃ a ps, u = .node (.axial a) ps ∧ ps.length = n := by
  classical
  match l, h with
  | [], h => simp [joinSymmetric] at h
  | .leaf _ :: _, h => simp [joinSymmetric] at h
  | .node s ps :: l, h =>
    rw [joinSymmetric] at h
    split at h
    · rename_i hj
      cases s with
      | plain => exact absurd (hj (.node .plain ps) (by simp)) id
      | reflection P =>
        refine Or.inl fun u hu => ?_
        have := hj u hu
        rcases u with m | ⟨s', qs⟩
        · exact absurd this id
        · cases s' with
          | reflection Q => exact ⟨Q, qs, rfl⟩
          | plain => exact absurd this id
          | translation v => exact absurd this id
          | axial b => exact absurd this id
      | translation w =>
        refine Or.inr (Or.inl ⟨ps.length, fun u hu => ?_⟩)
        have := hj u hu
        rcases u with m | ⟨s', qs⟩
        · exact absurd this id
        · cases s' with
          | translation v => exact ⟨v, qs, rfl, this.2.symm⟩
          | plain => exact absurd this id
          | reflection v => exact absurd this id
          | axial b => exact absurd this id
      | axial a =>
        refine Or.inr (Or.inr ⟨ps.length, fun u hu => ?_⟩)
        have := hj u hu
        rcases u with m | ⟨s', qs⟩
        · exact absurd this id
        · cases s' with
          | axial b => exact ⟨b, qs, rfl, this.2.symm⟩
          | plain => exact absurd this id
          | reflection v => exact absurd this id
          | translation b => exact absurd this id
    · cases h

theorem images_translation (v : V3 ℝ) (n : ℕ) (ms : List (Mesh (V3 ℝ))) :
    (ms ++ (List.range n).flatMap fun k => ms.map (Sym.step (.translation v) (n + 1) (k + 1)).mesh) =
      (List.range (n + 1)).flatMap fun k : ℕ => ms.map (·.translate ((k : ℝ) • v)) := by
  rw [List.range_succ_eq_map, List.flatMap_cons, List.flatMap_map]
  congr 1
  rw [show ((0 : ℕ) : ℝ) • v = 0 by ext <;> simp]
  simp only [translate_zero, List.map_id']

/-- C91: when the vectors of meshes with a symmetry of translation are accepted by the code, the slices of the joined
mesh are those of the given meshes, moved by at most `n` times the tolerance. -/
theorem join_translation_close (n : ℕ) (ops : List (V3 ℝ × Tree × List Tree)) (hne : ops ≠ [])
    (hop : ∀ o ∈ ops, Built (.node (.translation o.1) (o.2.1 :: o.2.2)) ∧
      (Tree.node (.translation o.1) (o.2.1 :: o.2.2)).Upright ∧ o.2.2.length = n ∧ allClose (ops.head hne).1 o.1) :
    (∃ t, joinSymmetric (ops.map fun o => .node (.translation o.1) (o.2.1 :: o.2.2)) = some t ∧
      t.leaves.Perm (ops.flatMap fun o => (List.range (n + 1)).flatMap fun k : ℕ =>
        o.2.1.leaves.map (·.translate ((k : ℝ) • (ops.head hne).1)))) ∧
    ∀ o ∈ ops, (Tree.node (.translation o.1) (o.2.1 :: o.2.2)).leaves =
        (List.range (n + 1)).flatMap (fun k : ℕ => o.2.1.leaves.map (·.translate ((k : ℝ) • o.1))) ∧
      ∀ k : ℕ, k ≤ n →
        |((k : ℝ) • (ops.head hne).1 - (k : ℝ) • o.1).x| ≤ n * (1e-8 + 1e-5 * |o.1.x|) ∧
        |((k : ℝ) • (ops.head hne).1 - (k : ℝ) • o.1).y| ≤ n * (1e-8 + 1e-5 * |o.1.y|) ∧
        |((k : ℝ) • (ops.head hne).1 - (k : ℝ) • o.1).z| ≤ n * (1e-8 + 1e-5 * |o.1.z|) := by
  refine ⟨?_, ?_⟩
  · obtain ⟨⟨v0, h0, r0⟩, ops', rfl⟩ := List.exists_cons_of_ne_nil hne
    simp only [List.head_cons] at hop ⊢
    have hhead := hop (v0, h0, r0) (by simp)
    simp only at hhead
    have hacc : (Sym.translation v0).Accepted := ((main_symmetric (by simp) _ _).1 hhead.2.1).1
    have hn : 1 ≤ n := by
      have := built_coherent hhead.1
      cases this with
      | symmetric _ _ _ _ _ _ hn _ _ => rwa [hhead.2.2.1] at hn
    obtain ⟨t, h1, h2, h3, h4, h5⟩ := join_built (s := .translation v0) (by simp) trivial hacc hn (by simp)
      (((v0, h0, r0) :: ops').map fun o : V3 ℝ × Tree × List Tree => (Sym.translation o.1, o.2.1, o.2.2)) (by simp) (by
        intro o hoo
        obtain ⟨o', ho', rfl⟩ := List.mem_map.1 hoo
        have := hop o' ho'
        refine ⟨⟨this.2.2.2, ?_⟩, sliced_first (built_coherent this.1), ((main_symmetric (by simp) _ _).1 this.2.1).2⟩
        simp [hhead.2.2.1, this.2.2.1]) ⟨rfl, hhead.2.2.1⟩
    rw [List.map_map] at h1
    refine ⟨t, h1, ?_⟩
    rw [h5, images_translation, List.flatMap_map]
    simp only [List.map_flatMap]
    exact flatMap_comm_perm _ _ _
  · intro o ho
    have h := hop o ho
    refine ⟨?_, ?_⟩
    · rw [leaves_symmetric (by simp) (built_coherent h.1), h.2.2.1, images_translation]
    · intro k hk
      have hb : ∀ x y : ℝ, closeFloat x y → |(k : ℝ) * x - k * y| ≤ n * (1e-8 + 1e-5 * |y|) := by
        intro x y hxy
        rw [← mul_sub, abs_mul, Nat.abs_cast]
        exact mul_le_mul (by exact_mod_cast hk) hxy (abs_nonneg _) (Nat.cast_nonneg _)
      exact ⟨hb _ _ h.2.2.2.1, hb _ _ h.2.2.2.2.1, hb _ _ h.2.2.2.2.2⟩

/-- C91: the tolerance on the vectors moves panels of the second mesh. -/
theorem join_translation_violated : ∃ (l : List Tree) (t : Tree), (∀ u ∈ l, Built u ∧ u.Upright) ∧
    joinSymmetric l = some t ∧ ¬ t.leaves.Perm (l.flatMap Tree.leaves) := by
  obtain ⟨r0, hl0, hb0, hu0⟩ := leaf_symmetric (s := .translation ⟨1, 0, 0⟩) (by simp) trivial rfl
    (⟨[0, ex, ez], [⟨0, 1, 2, 0⟩]⟩ : Mesh (V3 ℝ)) (n := 1) le_rfl (by simp)
  obtain ⟨r1, hl1, hb1, hu1⟩ := leaf_symmetric (s := .translation ⟨1 + 1e-6, 0, 0⟩) (by simp) trivial rfl
    (⟨[0, ex, ez], [⟨0, 1, 2, 0⟩]⟩ : Mesh (V3 ℝ)) (n := 1) le_rfl (by simp)
  obtain ⟨⟨t, ht, hp⟩, hs⟩ := join_translation_close 1
    [(⟨1, 0, 0⟩, .leaf ⟨[0, ex, ez], [⟨0, 1, 2, 0⟩]⟩, r0), (⟨1 + 1e-6, 0, 0⟩, .leaf ⟨[0, ex, ez], [⟨0, 1, 2, 0⟩]⟩, r1)]
    (by simp) (by
      intro o ho
      simp only [List.mem_cons, List.not_mem_nil, or_false] at ho
      rcases ho with rfl | rfl
      · refine ⟨hb0, hu0, hl0, ?_, ?_, ?_⟩ <;> norm_num [closeFloat]
      · refine ⟨hb1, hu1, hl1, ?_, ?_, ?_⟩ <;> norm_num [closeFloat, abs_of_nonneg])
  refine ⟨_, t, ?_, ht, ?_⟩
  · intro u hu
    simp only [List.map_cons, List.map_nil, List.mem_cons, List.not_mem_nil, or_false] at hu
    rcases hu with rfl | rfl
    · exact ⟨hb0, hu0⟩
    · exact ⟨hb1, hu1⟩
  · intro hperm
    have h2 := (hs (⟨1 + 1e-6, 0, 0⟩, .leaf ⟨[0, ex, ez], [⟨0, 1, 2, 0⟩]⟩, r1) (by simp)).1
    have hmem : (Mesh.translate ⟨[0, ex, ez], [⟨0, 1, 2, 0⟩]⟩ (((1 : ℕ) : ℝ) • (⟨1 + 1e-6, 0, 0⟩ : V3 ℝ))) ∈ t.leaves := by
      rw [hperm.mem_iff]
      simp only [List.map_cons, List.map_nil, List.flatMap_cons, List.flatMap_nil, List.append_nil, List.mem_append]
      right
      rw [h2]
      simp only [List.mem_flatMap, List.mem_range, Tree.leaves, List.map_cons, List.map_nil, List.mem_singleton]
      exact ⟨1, by omega, rfl⟩
    rw [hp.mem_iff] at hmem
    simp only [List.head_cons, List.flatMap_cons, List.flatMap_nil, List.append_nil, List.mem_append, or_self,
      List.mem_flatMap, List.mem_range, Tree.leaves, List.map_cons, List.map_nil, List.mem_singleton] at hmem
    obtain ⟨k, hk, he⟩ := hmem
    have hx := congrArg (fun m : Mesh (V3 ℝ) => m.vertices.map V3.x) he
    simp only [Mesh.translate, List.map_cons, List.map_nil, add_x, smul_x, zero_x, List.cons.injEq] at hx
    have h1 := hx.1
    rcases (by omega : k = 0 ∨ k = 1) with rfl | rfl
    · norm_num at h1
    · norm_num at h1

/-! ## Example -/

/-- Two meshes repeated around the same vertical line, with opposite vectors. -/
example : ∃ l t, (∃ h : l ≠ [], ∃ parts, l.head h = .node (.axial ⟨ez, 0⟩) parts) ∧ l.length = 2 ∧
    joinSymmetric l = some t ∧ t.leaves.Perm (l.flatMap Tree.leaves) := by
  obtain ⟨r0, hl0, hb0, hu0⟩ := leaf_symmetric (s := .axial ⟨ez, 0⟩) (by simp) (by simp [Sym.Unit, ez, dot]) trivial
    (⟨[ex, ex + ey, ez], [⟨0, 1, 2, 0⟩]⟩ : Mesh (V3 ℝ)) (n := 4) (by omega) (by simp)
  obtain ⟨r1, hl1, hb1, hu1⟩ := leaf_symmetric (s := .axial ⟨-ez, ez⟩) (by simp) (by simp [Sym.Unit, ez, dot]) trivial
    (⟨[ex, ex + ey, ez], [⟨0, 1, 2, 0⟩]⟩ : Mesh (V3 ℝ)) (n := 4) (by omega) (by simp)
  obtain ⟨t, h1, -, -, -, h2⟩ := join_symmetric (s := .axial ⟨ez, 0⟩) (by simp) 4
    [.node (.axial ⟨ez, 0⟩) (.leaf ⟨[ex, ex + ey, ez], [⟨0, 1, 2, 0⟩]⟩ :: r0),
      .node (.axial ⟨-ez, ez⟩) (.leaf ⟨[ex, ex + ey, ez], [⟨0, 1, 2, 0⟩]⟩ :: r1)] (by simp) (by
      intro u hu
      simp only [List.mem_cons, List.not_mem_nil, or_false] at hu
      rcases hu with rfl | rfl
      · exact ⟨hb0, hu0, _, _, rfl, by simp [hl0], sameSymmetry_refl (by simp)⟩
      · refine ⟨hb1, hu1, _, _, rfl, by simp [hl1], Or.inr rfl, 1, ?_⟩
        ext <;> simp [Axis.at]) ⟨_, rfl⟩
  exact ⟨_, t, ⟨by simp, _, rfl⟩, rfl, h1, h2⟩

end Verif.Meshes
