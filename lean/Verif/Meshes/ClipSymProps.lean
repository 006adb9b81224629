import Verif.Meshes.SymmetricProps
import Verif.Bodies.ClipProps

/-!
# Clipping of symmetric meshes (C93)

`clip` on a symmetric mesh clips its parts one by one, removes the parts without panels and keeps the class of the
mesh (`meshes/collections.py:271-293`). Later the class is used as a promise that the parts are the images of the
first one: by `copy` (`meshes/symmetric.py:84-85`, `177-178`, `354-355`) and by the engine
(`bem/engines.py:120-131`). The theorems say when clipping keeps this promise.
-/

namespace Verif.Meshes

open Verif.Geometry V3 Verif.Bodies

/-! ## Specification -/

/-- The image of a panel: a mirrored panel is listed in the other order. -/
noncomputable def moveShape (μ : Motion) (s : Bool × Option (V3 ℝ × V3 ℝ × V3 ℝ × V3 ℝ)) :
    Bool × Option (V3 ℝ × V3 ℝ × V3 ℝ × V3 ℝ) :=
  (s.1, s.2.map fun c =>
    match μ with
    | .mirror P => (P.mirrorPoint c.2.2.2, P.mirrorPoint c.2.2.1, P.mirrorPoint c.2.1, P.mirrorPoint c.1)
    | .translate v => (c.1 + v, c.2.1 + v, c.2.2.1 + v, c.2.2.2 + v)
    | .rotate a θ => (a.rotatePoint θ c.1, a.rotatePoint θ c.2.1, a.rotatePoint θ c.2.2.1, a.rotatePoint θ c.2.2.2))

/-- All the panels of a mesh in order. -/
def Tree.shapes (t : Tree) : List (Bool × Option (V3 ℝ × V3 ℝ × V3 ℝ × V3 ℝ)) := t.leaves.flatMap Mesh.shapes

/-- The promise of the class of a symmetric mesh with `n` parts: the panels of the part number `k` are, in order, the
images of those of the first part. -/
def KeepsPromise (s : Sym) (n : ℕ) (ps : List Tree) : Prop :=
  ps.length = n ∧ ∃ t, ps[0]? = some t ∧
    ∀ (k : ℕ) (u : Tree), ps[k + 1]? = some u → u.shapes = t.shapes.map (moveShape (s.step n (k + 1)))

/-! ## Panels of moved meshes -/

theorem isTriangle_flip (f : Face) : f.flip.isTriangle = f.isTriangle := by
  rw [Bool.eq_iff_iff]
  simp only [Face.isTriangle, Face.flip, beq_iff_eq]
  exact eq_comm

theorem corners_map (g : V3 ℝ → V3 ℝ) (vs : List (V3 ℝ)) (f : Face) :
    corners (vs.map g) f = (corners vs f).map fun c => (g c.1, g c.2.1, g c.2.2.1, g c.2.2.2) := by
  simp only [corners, List.getElem?_map]
  cases vs[f.a]? <;> cases vs[f.b]? <;> cases vs[f.c]? <;> cases vs[f.d]? <;> rfl

theorem corners_flip (vs : List (V3 ℝ)) (f : Face) :
    corners vs f.flip = (corners vs f).map fun c => (c.2.2.2, c.2.2.1, c.2.1, c.1) := by
  simp only [corners, Face.flip]
  cases vs[f.a]? <;> cases vs[f.b]? <;> cases vs[f.c]? <;> cases vs[f.d]? <;> rfl

theorem moved_shapes (μ : Motion) (m : Mesh (V3 ℝ)) : (μ.mesh m).shapes = m.shapes.map (moveShape μ) := by
  rw [mesh_eq, Mesh.shapes, Mesh.shapes, List.map_map, List.map_map]
  refine List.map_congr_left fun f _ => ?_
  cases μ with
  | translate v => simp [Motion.face, Motion.point, moveShape, corners_map]
  | rotate a θ => simp [Motion.face, Motion.point, moveShape, corners_map]
  | mirror P =>
    simp only [Function.comp, Motion.face, Motion.point, moveShape, corners_flip, corners_map, isTriangle_flip,
      Option.map_map]
    rfl

theorem moved_valid {μ : Motion} {m : Mesh (V3 ℝ)} (h : m.Valid) : (μ.mesh m).Valid := by
  rw [mesh_eq]
  intro f hf i hi
  obtain ⟨g, hg, rfl⟩ := List.mem_map.mp hf
  rw [List.length_map]
  refine h g hg i ?_
  cases μ <;> simp only [Motion.face, id] at hi <;> try exact hi
  simp only [Face.flip, Face.toList, List.mem_cons, List.not_mem_nil, or_false] at hi ⊢
  tauto

/-! ## The parts of a clipped mesh -/

theorem clipAll_eq (c : Mesh (V3 ℝ) → Mesh (V3 ℝ) × List ℕ) (ps : List Tree) (n : ℕ) :
    (clipAll c ps n).1 = ps.map fun t => (t.clip c).1 := by
  induction ps generalizing n with
  | nil => rfl
  | cons t ts ih => rw [clipAll, List.map_cons, ih]

theorem prune_all {ps : List Tree} (hv : ∀ t ∈ ps, ∀ m ∈ t.leaves, m.Valid) (hne : ps ≠ []) (h : ∀ t ∈ ps, t.shapes ≠ []) :
    prune ps = ps := by
  have hf : (ps.filter fun t => decide (t.nbFaces > 0) && decide (t.nbVertices > 0)) = ps := by
    refine List.filter_eq_self.mpr fun t ht => ?_
    have h1 : t.nbFaces ≠ 0 := by
      intro h0
      rw [← shapes_length] at h0
      exact h t ht (List.eq_nil_of_length_eq_zero h0)
    have h2 : t.nbVertices ≠ 0 := fun h0 => h1 (no_faces_of_no_vertices (hv t ht) h0)
    simp only [Bool.and_eq_true, decide_eq_true_eq]
    omega
  rw [prune, hf]
  split
  · exact absurd rfl hne
  · rfl

theorem prune_none {ps : List Tree} (h : ∀ t ∈ ps, t.shapes = []) : prune ps = [.leaf ⟨[], []⟩] := by
  have hf : (ps.filter fun t => decide (t.nbFaces > 0) && decide (t.nbVertices > 0)) = [] := by
    refine List.filter_eq_nil_iff.mpr fun t ht => ?_
    have h1 : t.nbFaces = 0 := by rw [← shapes_length]; exact congrArg List.length (h t ht)
    simp [h1]
  rw [prune, hf]

theorem flatMap_shapes_nil {c : Mesh (V3 ℝ) → Mesh (V3 ℝ) × List ℕ} {ls : List (Mesh (V3 ℝ))} :
    (ls.flatMap fun m => (c m).1.shapes) = [] ↔ ∀ m ∈ ls, (c m).1.faces = [] := by
  simp [Mesh.shapes]

/-- C93. When the clipping of each mesh of the first part goes with the motions of the symmetry, the clipped mesh
keeps the promise of its class, with the same number of parts, unless there is no panel left at all; it has then a
single empty part. -/
theorem clip_symmetric (c : Mesh (V3 ℝ) → Mesh (V3 ℝ) × List ℕ) {s : Sym} (hs : s ≠ .plain) {t : Tree}
    {rest : List Tree} (hsl : Sliced (.node s (t :: rest))) (hin : (Tree.node s (t :: rest)).Inhabited)
    (hv : ∀ m ∈ (Tree.node s (t :: rest)).leaves, (c m).1.Valid)
    (hc : ∀ m ∈ t.leaves, ∀ k < rest.length, (c ((s.step (rest.length + 1) (k + 1)).mesh m)).1.shapes =
      (c m).1.shapes.map (moveShape (s.step (rest.length + 1) (k + 1)))) :
    ((∀ m ∈ t.leaves, (c m).1.faces = []) ∧
      ((Tree.node s (t :: rest)).clip c).1 = .node s [.leaf ⟨[], []⟩]) ∨
    ∃ ps, ((Tree.node s (t :: rest)).clip c).1 = .node s ps ∧ KeepsPromise s (rest.length + 1) ps ∧
      ∀ u, ps[0]? = some u → u.shapes = t.leaves.flatMap (fun m => (c m).1.shapes) ∧ u.shapes ≠ [] := by
  have hk : ∀ (k : ℕ) (u : Tree), rest[k]? = some u →
      u.leaves = t.leaves.map (s.step (rest.length + 1) (k + 1)).mesh := by
    cases hsl with
    | plain _ _ => exact absurd rfl hs
    | symmetric _ _ _ _ _ _ _ _ hk => exact hk
  have hall : ∀ u ∈ t :: rest, u.Inhabited ∧ ∀ m ∈ u.leaves, (c m).1.Valid := by
    intro u hu
    refine ⟨(allInhabited_iff _).mp hin.2 u hu, fun m hm => hv m ?_⟩
    rw [Tree.leaves, leavesAll_eq]
    exact List.mem_flatMap.mpr ⟨u, hu, hm⟩
  have hshape : ∀ u ∈ t :: rest, (u.clip c).1.shapes = u.leaves.flatMap fun m => (c m).1.shapes :=
    fun u hu => (clip_tree c u (hall u hu).1 (hall u hu).2).2.2
  have himage : ∀ (k : ℕ) (u : Tree), rest[k]? = some u → (u.clip c).1.shapes =
      (t.clip c).1.shapes.map (moveShape (s.step (rest.length + 1) (k + 1))) := by
    intro k u hu
    have hlt : k < rest.length := (List.getElem?_eq_some_iff.mp hu).1
    rw [hshape u (List.mem_cons_of_mem _ (List.mem_of_getElem? hu)), hshape t List.mem_cons_self, hk k u hu,
      List.flatMap_map, List.map_flatMap]
    exact congrArg List.flatten (List.map_congr_left fun m hm => hc m hm k hlt)
  rw [Tree.clip]
  simp only [clipAll_eq]
  by_cases he : (t.clip c).1.shapes = []
  · refine Or.inl ⟨flatMap_shapes_nil.mp (by rw [← hshape t List.mem_cons_self, he]), ?_⟩
    rw [prune_none]
    intro u hu
    obtain ⟨w, hw, rfl⟩ := List.mem_map.mp hu
    rcases List.mem_cons.mp hw with rfl | hw
    · exact he
    · obtain ⟨k, hk'⟩ := List.mem_iff_getElem?.mp hw
      rw [himage k w hk', he, List.map_nil]
  · refine Or.inr ⟨_, rfl, ?_⟩
    rw [prune_all (ps := (t :: rest).map fun u => (u.clip c).1)]
    · refine ⟨⟨by simp, (t.clip c).1, by simp, ?_⟩, ?_⟩
      · intro k u hu
        rw [List.map_cons, List.getElem?_cons_succ, List.getElem?_map] at hu
        obtain ⟨w, hw, rfl⟩ := Option.map_eq_some_iff.mp hu
        exact himage k w hw
      · intro u hu
        rw [List.map_cons, List.getElem?_cons_zero, Option.some.injEq] at hu
        subst hu
        exact ⟨hshape t List.mem_cons_self, he⟩
    · intro u hu
      obtain ⟨w, hw, rfl⟩ := List.mem_map.mp hu
      exact (clip_tree c w (hall w hw).1 (hall w hw).2).2.1
    · simp
    · intro u hu
      obtain ⟨w, hw, rfl⟩ := List.mem_map.mp hu
      rcases List.mem_cons.mp hw with rfl | hw
      · exact he
      · obtain ⟨k, hk'⟩ := List.mem_iff_getElem?.mp hw
        rw [himage k w hk']
        simpa using he

end Verif.Meshes
