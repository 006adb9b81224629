import Verif.Meshes.TreeModel
import Verif.Meshes.MergeProps
import Verif.Meshes.PanelProps
import Mathlib.Data.List.Forall2

/-!
# Collections of meshes: a collection is the concatenation of its parts (C34)
-/

namespace Verif.Meshes

open Verif.Geometry V3

/-! ## Specification -/

mutual
/-- The meshes at the leaves of a tree, from left to right. -/
def Tree.leaves : Tree → List (Mesh (V3 ℝ))
  | .leaf m => [m]
  | .node _ ps => leavesAll ps
/-- The leaves of several trees. -/
def leavesAll : List Tree → List (Mesh (V3 ℝ))
  | [] => []
  | t :: ts => t.leaves ++ leavesAll ts
end

mutual
/-- All collections in the tree have at least one part. -/
def Tree.Inhabited : Tree → Prop
  | .leaf _ => True
  | .node _ ps => ps ≠ [] ∧ AllInhabited ps
/-- All the trees of a list are such. -/
def AllInhabited : List Tree → Prop
  | [] => True
  | t :: ts => t.Inhabited ∧ AllInhabited ts
end

/-- The panels of a mesh as shapes in space: whether they are triangles, and their corners. -/
def Mesh.shapes {V : Type} (m : Mesh V) : List (Bool × Option (V × V × V × V)) :=
  m.faces.map fun f => (f.isTriangle, corners m.vertices f)

/-! ## Arrays read by concatenation -/

theorem leavesAll_eq (ps : List Tree) : leavesAll ps = ps.flatMap Tree.leaves := by
  induction ps with
  | nil => rfl
  | cons t ts ih => simp [leavesAll, ih]

theorem allInhabited_iff (ps : List Tree) : AllInhabited ps ↔ ∀ t ∈ ps, t.Inhabited := by
  induction ps with
  | nil => simp [AllInhabited]
  | cons t ts ih => simp [AllInhabited, ih]

theorem nbFacesAll_eq (ps : List Tree) : nbFacesAll ps = (ps.map Tree.nbFaces).sum := by
  induction ps with
  | nil => rfl
  | cons t ts ih => simp [nbFacesAll, ih]

theorem nbVerticesAll_eq (ps : List Tree) : nbVerticesAll ps = (ps.map Tree.nbVertices).sum := by
  induction ps with
  | nil => rfl
  | cons t ts ih => simp [nbVerticesAll, ih]

theorem concatenate_eq {A : Type} {l : List (List A)} (h : l ≠ []) : concatenate l = some l.flatten := by
  cases l with
  | nil => exact absurd rfl h
  | cons a l => rfl

mutual
theorem array_eq {A : Type} (f : Mesh (V3 ℝ) → List A) :
    ∀ t : Tree, t.Inhabited → t.array f = some (t.leaves.flatMap f)
  | .leaf m, _ => by simp [Tree.array, Tree.leaves]
  | .node s ps, h => by
    obtain ⟨h1, h2⟩ := h
    rw [Tree.array, arrays_eq f ps h2, Option.bind_some, concatenate_eq (by simpa using h1), Tree.leaves,
      leavesAll_eq, List.flatMap_assoc, List.flatMap_def]
theorem arrays_eq {A : Type} (f : Mesh (V3 ℝ) → List A) :
    ∀ ps : List Tree, AllInhabited ps → arrays f ps = some (ps.map fun t => t.leaves.flatMap f)
  | [], _ => rfl
  | t :: ts, h => by
    rw [arrays, array_eq f t h.1, arrays_eq f ts h.2]
    rfl
end

mutual
theorem nbFaces_eq : ∀ t : Tree, t.nbFaces = (t.leaves.map fun m => m.faces.length).sum
  | .leaf m => by simp [Tree.nbFaces, Tree.leaves]
  | .node _ ps => by rw [Tree.nbFaces, Tree.leaves, nbFacesAll_leaves ps]
theorem nbFacesAll_leaves : ∀ ps : List Tree,
    nbFacesAll ps = ((leavesAll ps).map fun m => m.faces.length).sum
  | [] => rfl
  | t :: ts => by simp [nbFacesAll, leavesAll, nbFaces_eq t, nbFacesAll_leaves ts]
end

mutual
theorem nbVertices_eq : ∀ t : Tree, t.nbVertices = (t.leaves.map fun m => m.vertices.length).sum
  | .leaf m => by simp [Tree.nbVertices, Tree.leaves]
  | .node _ ps => by rw [Tree.nbVertices, Tree.leaves, nbVerticesAll_leaves ps]
theorem nbVerticesAll_leaves : ∀ ps : List Tree,
    nbVerticesAll ps = ((leavesAll ps).map fun m => m.vertices.length).sum
  | [] => rfl
  | t :: ts => by simp [nbVerticesAll, leavesAll, nbVertices_eq t, nbVerticesAll_leaves ts]
end

/-! ## Faces -/

/-- The faces of meshes put one after the other, after `n` vertices. -/
def joinFrom (n : ℕ) : List (Mesh (V3 ℝ)) → List Face
  | [] => []
  | m :: ms => shiftFaces m.faces n ++ joinFrom (n + m.vertices.length) ms

theorem shiftFaces_append (a b : List Face) (n : ℕ) :
    shiftFaces (a ++ b) n = shiftFaces a n ++ shiftFaces b n := by simp [shiftFaces]

theorem shiftFaces_shiftFaces (a : List Face) (n k : ℕ) : shiftFaces (shiftFaces a n) k = shiftFaces a (k + n) := by
  simp only [shiftFaces, List.map_map]
  apply List.map_congr_left
  intro f _
  simp only [Function.comp, Face.map, Face.mk.injEq]
  omega

theorem shiftFaces_zero (a : List Face) : shiftFaces a 0 = a := by
  have h : Face.map (fun x => x + 0) = id := rfl
  rw [shiftFaces, h, List.map_id]

theorem shiftFaces_joinFrom (k n : ℕ) (ms : List (Mesh (V3 ℝ))) :
    shiftFaces (joinFrom n ms) k = joinFrom (k + n) ms := by
  induction ms generalizing n with
  | nil => rfl
  | cons m ms ih => rw [joinFrom, joinFrom, shiftFaces_append, shiftFaces_shiftFaces, ih, Nat.add_assoc]

theorem joinFrom_append (n : ℕ) (a b : List (Mesh (V3 ℝ))) :
    joinFrom n (a ++ b) = joinFrom n a ++ joinFrom (n + (a.map fun m => m.vertices.length).sum) b := by
  induction a generalizing n with
  | nil => simp [joinFrom]
  | cons m a ih => simp [joinFrom, ih, Nat.add_assoc]

theorem zip_faces (ps : List Tree) (h : ps ≠ []) (n : ℕ) :
    (List.zipWith shiftFaces (ps.map fun t => joinFrom 0 t.leaves)
      (List.scanl (· + ·) n (ps.dropLast.map Tree.nbVertices))).flatten = joinFrom n (leavesAll ps) := by
  induction ps generalizing n with
  | nil => exact absurd rfl h
  | cons t ts ih =>
    cases ts with
    | nil => simp [leavesAll, shiftFaces_joinFrom]
    | cons u us =>
      have := ih (by simp) (n + t.nbVertices)
      rw [List.dropLast_cons_cons, List.map_cons (f := Tree.nbVertices), List.scanl_cons, List.map_cons,
        List.zipWith_cons_cons, List.flatten_cons, this, shiftFaces_joinFrom, Nat.add_zero, nbVertices_eq]
      exact (joinFrom_append n t.leaves (leavesAll (u :: us))).symm

mutual
theorem faces_eq : ∀ t : Tree, t.Inhabited → t.faces = some (joinFrom 0 t.leaves)
  | .leaf m, _ => by simp [Tree.faces, Tree.leaves, joinFrom, shiftFaces_zero]
  | .node s ps, h => by
    obtain ⟨h1, h2⟩ := h
    rw [Tree.faces, allFaces_eq ps h2, Option.bind_some, concatenate_eq, zip_faces ps h1, Tree.leaves]
    cases ps with
    | nil => exact absurd rfl h1
    | cons t ts => cases ts <;> simp
theorem allFaces_eq : ∀ ps : List Tree, AllInhabited ps →
    allFaces ps = some (ps.map fun t => joinFrom 0 t.leaves)
  | [], _ => rfl
  | t :: ts, h => by
    rw [allFaces, faces_eq t h.1, allFaces_eq ts h.2]
    rfl
end

theorem corners_shift (pre vs : List (V3 ℝ)) (f : Face) :
    corners (pre ++ vs) (f.map (· + pre.length)) = corners vs f := by
  simp only [corners, Face.map]
  rw [List.getElem?_append_right (by omega), List.getElem?_append_right (by omega),
    List.getElem?_append_right (by omega), List.getElem?_append_right (by omega)]
  simp

theorem corners_left (vs post : List (V3 ℝ)) (f : Face) (h : ∀ i ∈ f.toList, i < vs.length) :
    corners (vs ++ post) f = corners vs f := by
  simp only [Face.toList, List.mem_cons, List.not_mem_nil, or_false, forall_eq_or_imp, forall_eq] at h
  simp only [corners]
  rw [List.getElem?_append_left h.1, List.getElem?_append_left h.2.1, List.getElem?_append_left h.2.2.1,
    List.getElem?_append_left h.2.2.2]

theorem isTriangle_shift (f : Face) (n : ℕ) : (f.map (· + n)).isTriangle = f.isTriangle := by
  simp [Face.isTriangle, Face.map]

theorem joinFrom_shapes (ms : List (Mesh (V3 ℝ))) (hm : ∀ m ∈ ms, m.Valid) (pre : List (V3 ℝ)) :
    Mesh.shapes ⟨pre ++ ms.flatMap Mesh.vertices, joinFrom pre.length ms⟩ = ms.flatMap Mesh.shapes := by
  induction ms generalizing pre with
  | nil => rfl
  | cons m ms ih =>
    have h := ih (fun x hx => hm x (List.mem_cons_of_mem _ hx)) (pre ++ m.vertices)
    simp only [Mesh.shapes, List.length_append, List.append_assoc] at h
    simp only [Mesh.shapes, joinFrom, List.map_append, List.flatMap_cons]
    congr 1
    simp only [shiftFaces, List.map_map]
    apply List.map_congr_left
    intro f hf
    simp only [Function.comp, isTriangle_shift, corners_shift]
    rw [corners_left _ _ _ (hm m List.mem_cons_self f hf)]

theorem joinFrom_valid (ms : List (Mesh (V3 ℝ))) (hm : ∀ m ∈ ms, m.Valid) (pre : List (V3 ℝ)) :
    ∀ f ∈ joinFrom pre.length ms, ∀ i ∈ f.toList, i < (pre ++ ms.flatMap Mesh.vertices).length := by
  induction ms generalizing pre with
  | nil => simp [joinFrom]
  | cons m ms ih =>
    intro f hf i hi
    rw [joinFrom, List.mem_append] at hf
    rcases hf with hf | hf
    · obtain ⟨g, hg, rfl⟩ := List.mem_map.mp hf
      have hv := hm m List.mem_cons_self g hg
      simp only [Face.map, Face.toList, List.mem_cons, List.not_mem_nil, or_false, forall_eq_or_imp,
        forall_eq] at hv hi
      simp only [List.length_append, List.flatMap_cons]
      omega
    · have := ih (fun x hx => hm x (List.mem_cons_of_mem _ hx)) (pre ++ m.vertices) f
        (by simpa using hf) i hi
      simpa using this

theorem faceProps_shapes (m : Mesh (V3 ℝ)) : m.faceProps = m.shapes.map fun s =>
    s.2.map fun c => (panelOf s.1 c, radiusOf (panelOf s.1 c).center c) := by
  simp [Mesh.faceProps, Mesh.shapes, faceProperties]

/-- C34: a tree of valid meshes can be read as one valid mesh. Its panels, as shapes in space, are those of
the leaves in order, the numbers of panels and vertices are the expected ones, and the areas, normals,
centers and radiuses read by concatenation are those of this mesh. -/
theorem collection_concatenates (t : Tree) (ht : t.Inhabited) (hv : ∀ m ∈ t.leaves, m.Valid) :
    ∃ m, t.assembled = some m ∧ m.Valid ∧ m.vertices = t.leaves.flatMap Mesh.vertices ∧
      m.shapes = t.leaves.flatMap Mesh.shapes ∧ m.vertices.length = t.nbVertices ∧
      m.faces.length = t.nbFaces ∧ t.faceProps = some m.faceProps := by
  have h1 := array_eq Mesh.vertices t ht
  have h2 := faces_eq t ht
  have hs : Mesh.shapes ⟨t.leaves.flatMap Mesh.vertices, joinFrom 0 t.leaves⟩ = t.leaves.flatMap Mesh.shapes := by
    simpa using joinFrom_shapes t.leaves hv []
  refine ⟨⟨t.leaves.flatMap Mesh.vertices, joinFrom 0 t.leaves⟩, ?_, ?_, rfl, hs, ?_, ?_, ?_⟩
  · rw [Tree.assembled, Tree.vertices, h1, h2]
  · intro f hf i hi
    simpa using joinFrom_valid t.leaves hv [] f hf i hi
  · rw [nbVertices_eq, List.length_flatMap]
  · have := congrArg List.length hs
    simp only [Mesh.shapes, List.length_map, List.length_flatMap] at this
    rw [this, nbFaces_eq]
  · rw [Tree.faceProps, array_eq _ t ht, faceProps_shapes, hs]
    congr 1
    rw [List.map_flatMap]
    simp only [← faceProps_shapes]

/-! ## Which part contains a face -/

theorem submeshLoop_spec (i : ℕ) (ps : List Tree) (k total : ℕ) (h : total ≤ i) :
    match submeshLoop i ps k total with
    | none => total + (ps.map Tree.nbFaces).sum ≤ i
    | some (k', j) => ∃ t, k ≤ k' ∧ ps[k' - k]? = some t ∧ j < t.nbFaces ∧
        i = total + ((ps.take (k' - k)).map Tree.nbFaces).sum + j := by
  induction ps generalizing k total with
  | nil => simpa [submeshLoop] using h
  | cons t ts ih =>
    rw [submeshLoop]
    by_cases hi : i < total + t.nbFaces
    · rw [if_pos hi]
      refine ⟨t, le_rfl, by simp, by omega, ?_⟩
      simp
      omega
    · rw [if_neg hi]
      have h3 := ih (k + 1) (total + t.nbFaces) (by omega)
      revert h3
      cases submeshLoop i ts (k + 1) (total + t.nbFaces) with
      | none =>
        intro h3
        simp only [List.map_cons, List.sum_cons] at h3 ⊢
        omega
      | some r =>
        rintro ⟨u, h4, h5, h6, h7⟩
        have hk : r.1 - k = (r.1 - (k + 1)) + 1 := by omega
        refine ⟨u, by omega, ?_, h6, ?_⟩
        · rw [hk, List.getElem?_cons_succ, h5]
        · rw [hk, List.take_succ_cons, List.map_cons, List.sum_cons]
          omega

theorem sum_take_mono (l : List ℕ) {a b : ℕ} (h : a ≤ b) : (l.take a).sum ≤ (l.take b).sum := by
  obtain ⟨c, rfl⟩ := Nat.exists_eq_add_of_le h
  rw [List.take_add, List.sum_append]
  omega

theorem sum_take_succ' (l : List ℕ) (a n : ℕ) (h : l[a]? = some n) :
    (l.take (a + 1)).sum = (l.take a).sum + n := by
  rw [List.take_add_one, h]
  simp

theorem sum_take_le (l : List ℕ) (a : ℕ) : (l.take a).sum ≤ l.sum := by
  conv_rhs => rw [← List.take_append_drop a l]
  rw [List.sum_append]
  omega

/-- C34: `submesh_containing_face` answers exactly for the existing panels. It gives a part and a position in
this part such that the panel is at this position after all panels of the previous parts; no other couple is
such; and the number is in the range given by `indices_of_mesh` for this part. -/
theorem submesh_containing_face (ps : List Tree) (i : ℕ) :
    (i < nbFacesAll ps ↔ (submeshContainingFace ps i).isSome) ∧
    ∀ (k j : ℕ), submeshContainingFace ps i = some (k, j) ↔
      ∃ t, ps[k]? = some t ∧ j < t.nbFaces ∧ i = ((ps.take k).map Tree.nbFaces).sum + j ∧
        ∃ r, indicesOfMesh ps k = some r ∧ r.1 ≤ i ∧ i < r.2 := by
  have h := submeshLoop_spec i ps 0 0 (by omega)
  have hsome : ∀ (k j : ℕ) (t : Tree), ps[k]? = some t → j < t.nbFaces →
      i = ((ps.take k).map Tree.nbFaces).sum + j → i < nbFacesAll ps := by
    intro k j t h1 h2 h3
    have h4 := sum_take_succ' (ps.map Tree.nbFaces) k t.nbFaces (by simp [h1])
    have h5 := sum_take_le (ps.map Tree.nbFaces) (k + 1)
    rw [nbFacesAll_eq]
    simp only [← List.map_take] at h4 h5
    omega
  have huniq : ∀ (k j : ℕ) (t : Tree), ps[k]? = some t → j < t.nbFaces →
      i = ((ps.take k).map Tree.nbFaces).sum + j → ∀ (k' j' : ℕ) (t' : Tree), ps[k']? = some t' →
      j' < t'.nbFaces → i = ((ps.take k').map Tree.nbFaces).sum + j' → k = k' ∧ j = j' := by
    intro k j t h1 h2 h3 k' j' t' h1' h2' h3'
    have e := sum_take_succ' (ps.map Tree.nbFaces) k t.nbFaces (by simp [h1])
    have e' := sum_take_succ' (ps.map Tree.nbFaces) k' t'.nbFaces (by simp [h1'])
    simp only [← List.map_take] at e e'
    rcases Nat.lt_trichotomy k k' with hk | hk | hk
    · have := sum_take_mono (ps.map Tree.nbFaces) (show k + 1 ≤ k' from hk)
      simp only [← List.map_take] at this
      omega
    · subst hk
      exact ⟨rfl, by omega⟩
    · have := sum_take_mono (ps.map Tree.nbFaces) (show k' + 1 ≤ k from hk)
      simp only [← List.map_take] at this
      omega
  rw [submeshContainingFace]
  revert h
  cases submeshLoop i ps 0 0 with
  | none =>
    intro h
    simp only [Nat.zero_add] at h
    refine ⟨by rw [nbFacesAll_eq]; simp; exact h, ?_⟩
    intro k j
    constructor
    · intro hc
      cases hc
    · rintro ⟨t, h1, h2, h3, -⟩
      have := hsome k j t h1 h2 h3
      rw [nbFacesAll_eq] at this
      omega
  | some r =>
    obtain ⟨k0, j0⟩ := r
    rintro ⟨t, -, h1, h2, h3⟩
    simp only [Nat.sub_zero, Nat.zero_add] at h1 h3
    refine ⟨by simpa using hsome k0 j0 t h1 h2 h3, ?_⟩
    intro k j
    constructor
    · intro hc
      cases hc
      refine ⟨t, h1, h2, h3, _, by rw [indicesOfMesh, h1]; rfl, ?_, ?_⟩
      · simp only
        omega
      · simp only
        omega
    · rintro ⟨t', h1', h2', h3', -⟩
      obtain ⟨rfl, rfl⟩ := huniq k0 j0 t h1 h2 h3 k j t' h1' h2' h3'
      rfl

/-! ## One face alone -/

theorem quad_of_triangle (p0 p1 p2 : V3 ℝ) : quadPanel p0 p1 p2 p0 = trianglePanel p0 p1 p2 := by
  have hn : cross (p2 - p0) (p0 - p1) = cross (p1 - p0) (p2 - p0) := by ext <;> simp [cross] <;> ring
  have h0 : cross (p0 - p0) (p2 - p0) = 0 := by ext <;> simp [cross]
  rw [quadPanel, trianglePanel, hn, h0]
  by_cases h : |V3.norm (cross (p1 - p0) (p2 - p0))| < 1e-12
  · simp only [if_pos h]
  · simp only [if_neg h]
    have hpos : V3.norm (cross (p1 - p0) (p2 - p0)) ≠ 0 := by
      intro h'
      rw [h'] at h
      norm_num at h
    have hz : V3.norm (0 : V3 ℝ) = 0 := norm_eq_zero.mpr rfl
    rw [hz]
    ext
    · simp only
      ring
    · rfl
    · rfl
    · rfl
    all_goals
      simp
      field_simp
      try ring

theorem flatMap_getElem? {A B : Type} (g : A → List B) (size : A → ℕ) (hg : ∀ a, (g a).length = size a)
    (l : List A) (k j : ℕ) (a : A) (ha : l[k]? = some a) (hj : j < size a) :
    (l.flatMap g)[((l.take k).map size).sum + j]? = (g a)[j]? := by
  induction l generalizing k with
  | nil => simp at ha
  | cons b l ih =>
    cases k with
    | zero =>
      simp only [List.getElem?_cons_zero, Option.some.injEq] at ha
      subst ha
      simp only [List.take_zero, List.map_nil, List.sum_nil, Nat.zero_add, List.flatMap_cons]
      rw [List.getElem?_append_left (by rw [hg]; exact hj)]
    | succ k =>
      rw [List.getElem?_cons_succ] at ha
      rw [List.take_succ_cons, List.map_cons, List.sum_cons, List.flatMap_cons,
        List.getElem?_append_right (by rw [hg]; omega), hg, ← ih k ha]
      congr 1
      omega

theorem shapes_length (t : Tree) : (t.leaves.flatMap Mesh.shapes).length = t.nbFaces := by
  rw [nbFaces_eq, List.length_flatMap]
  simp [Mesh.shapes]

/-- The mesh made of one panel with given corners. -/
def oneFace : Option (Bool × Option (V3 ℝ × V3 ℝ × V3 ℝ × V3 ℝ)) → Option (Mesh (V3 ℝ))
  | some (_, some (p0, p1, p2, p3)) => some ⟨[p0, p1, p2, p3], [⟨0, 1, 2, 3⟩]⟩
  | _ => none

mutual
theorem extract_eq : ∀ (t : Tree) (i : ℕ), t.extractOneFace i = oneFace ((t.leaves.flatMap Mesh.shapes)[i]?)
  | .leaf m, i => by
    simp only [Tree.extractOneFace, Mesh.extractOneFace, Tree.leaves, List.flatMap_cons, List.flatMap_nil,
      List.append_nil, Mesh.shapes, List.getElem?_map]
    cases m.faces[i]? with
    | none => rfl
    | some f =>
      simp only [Option.map_some, corners, select, Face.toList, List.mapM_cons, List.mapM_nil]
      cases m.vertices[f.a]? <;> cases m.vertices[f.b]? <;> cases m.vertices[f.c]? <;> cases m.vertices[f.d]? <;>
        rfl
  | .node s ps, i => by
    rw [Tree.extractOneFace, Tree.leaves, leavesAll_eq, List.flatMap_assoc]
    obtain ⟨h1, h2⟩ := submesh_containing_face ps i
    cases h : submeshContainingFace ps i with
    | none =>
      rw [h] at h1
      have h3 : (ps.flatMap fun t => t.leaves.flatMap Mesh.shapes).length ≤ i := by
        rw [List.length_flatMap]
        simp only [shapes_length]
        rw [← nbFacesAll_eq]
        simpa using h1
      rw [List.getElem?_eq_none h3]
      rfl
    | some r =>
      obtain ⟨k, j⟩ := r
      obtain ⟨t, h3, h4, h5, -⟩ := (h2 k j).mp h
      simp only
      rw [extractFrom_eq ps k j, h3, h5, flatMap_getElem? _ Tree.nbFaces shapes_length ps k j t h3 h4]
      rfl
theorem extractFrom_eq : ∀ (ps : List Tree) (k j : ℕ),
    extractFrom ps k j = ps[k]?.bind fun t => oneFace ((t.leaves.flatMap Mesh.shapes)[j]?)
  | [], _, _ => rfl
  | t :: _, 0, j => by rw [extractFrom, extract_eq t j]; rfl
  | _ :: ts, k + 1, j => by rw [extractFrom, extractFrom_eq ts k j]; rfl
end

/-- C34: extracting one panel of a tree of valid meshes gives a mesh with this panel alone: same area, normal,
center and radius as in the whole, and as corners those of the panel. After the last panel there is an
error. -/
theorem extract_one_face (t : Tree) (ht : t.Inhabited) (hv : ∀ m ∈ t.leaves, m.Valid) :
    ∃ m, t.assembled = some m ∧ ∀ i : ℕ,
      (m.faces.length ≤ i → t.extractOneFace i = none) ∧
      ∀ f, m.faces[i]? = some f → ∃ m', t.extractOneFace i = some m' ∧ m'.Valid ∧
        m'.shapes.map Prod.snd = [corners m.vertices f] ∧
        m'.faceProps = [faceProperties m.vertices f] := by
  obtain ⟨m, h1, h2, -, h4, -, -, -⟩ := collection_concatenates t ht hv
  refine ⟨m, h1, fun i => ⟨fun hi => ?_, fun f hf => ?_⟩⟩
  · rw [extract_eq, ← h4, List.getElem?_eq_none (by simpa [Mesh.shapes] using hi)]
    rfl
  · have hc : ∃ c, corners m.vertices f = some c := by
      have hb := h2 f (List.mem_of_getElem? hf)
      simp only [Face.toList, List.mem_cons, List.not_mem_nil, or_false, forall_eq_or_imp, forall_eq] at hb
      refine ⟨_, by
        rw [corners, List.getElem?_eq_getElem hb.1, List.getElem?_eq_getElem hb.2.1,
          List.getElem?_eq_getElem hb.2.2.1, List.getElem?_eq_getElem hb.2.2.2]⟩
    obtain ⟨⟨p0, p1, p2, p3⟩, hc⟩ := hc
    have hs : m.shapes[i]? = some (f.isTriangle, some (p0, p1, p2, p3)) := by
      simp [Mesh.shapes, hf, hc]
    refine ⟨⟨[p0, p1, p2, p3], [⟨0, 1, 2, 3⟩]⟩, ?_, ?_, ?_, ?_⟩
    · rw [extract_eq, ← h4, hs]
      rfl
    · intro g hg k hk
      simp only [List.mem_singleton] at hg
      subst hg
      simp only [Face.toList, List.mem_cons, List.not_mem_nil, or_false] at hk
      simp only [List.length_cons, List.length_nil]
      omega
    · rw [hc]
      rfl
    · rw [Mesh.faceProps, List.map_singleton, faceProperties, faceProperties, hc]
      simp only [corners, List.getElem?_cons_zero, List.getElem?_cons_succ, Option.map_some]
      have hp : panelOf (Face.isTriangle ⟨0, 1, 2, 3⟩) (p0, p1, p2, p3) =
          panelOf f.isTriangle (p0, p1, p2, p3) := by
        cases h : f.isTriangle with
        | false => rfl
        | true =>
          have had : f.a = f.d := by simpa [Face.isTriangle] using h
          have : p3 = p0 := by
            simp only [corners] at hc
            rw [← had] at hc
            revert hc
            cases m.vertices[f.a]? <;> cases m.vertices[f.b]? <;> cases m.vertices[f.c]? <;> simp
            rintro rfl rfl rfl h
            exact h.symm
          subst this
          exact quad_of_triangle _ _ _
      rw [hp]


/-! ## Clipping -/

/-- The numbers of the original panels, leaf after leaf, for leaves placed after `n` panels. -/
def originFrom (clipLeaf : Mesh (V3 ℝ) → Mesh (V3 ℝ) × List ℕ) (n : ℕ) : List (Mesh (V3 ℝ)) → List ℕ
  | [] => []
  | m :: ms => (clipLeaf m).2.map (· + n) ++ originFrom clipLeaf (n + m.faces.length) ms

theorem originFrom_append (c : Mesh (V3 ℝ) → Mesh (V3 ℝ) × List ℕ) (n : ℕ) (a b : List (Mesh (V3 ℝ))) :
    originFrom c n (a ++ b) = originFrom c n a ++ originFrom c (n + (a.map fun m => m.faces.length).sum) b := by
  induction a generalizing n with
  | nil => simp [originFrom]
  | cons m a ih => simp [originFrom, ih, Nat.add_assoc]

theorem originFrom_shift (c : Mesh (V3 ℝ) → Mesh (V3 ℝ) × List ℕ) (n k : ℕ) (a : List (Mesh (V3 ℝ))) :
    (originFrom c n a).map (· + k) = originFrom c (n + k) a := by
  induction a generalizing n with
  | nil => rfl
  | cons m a ih =>
    simp only [originFrom, List.map_append, List.map_map, ih]
    congr 1
    · apply List.map_congr_left
      intro i _
      simp only [Function.comp]
      omega
    · congr 1
      omega

mutual
theorem clip_ids_eq (c : Mesh (V3 ℝ) → Mesh (V3 ℝ) × List ℕ) :
    ∀ t : Tree, (t.clip c).2 = originFrom c 0 t.leaves
  | .leaf m => by simp [Tree.clip, Tree.leaves, originFrom]
  | .node s ps => by rw [Tree.clip, Tree.leaves, clipAll_ids_eq c ps 0]
theorem clipAll_ids_eq (c : Mesh (V3 ℝ) → Mesh (V3 ℝ) × List ℕ) :
    ∀ (ps : List Tree) (n : ℕ), (clipAll c ps n).2 = originFrom c n (leavesAll ps)
  | [], _ => rfl
  | t :: ts, n => by
    rw [clipAll, clip_ids_eq c t, clipAll_ids_eq c ts (n + t.nbFaces), originFrom_shift, Nat.zero_add,
      leavesAll, originFrom_append, nbFaces_eq]
end

theorem no_faces_of_no_vertices {t : Tree} (hv : ∀ m ∈ t.leaves, m.Valid) (h : t.nbVertices = 0) :
    t.nbFaces = 0 := by
  rw [nbVertices_eq, List.sum_eq_zero_iff] at h
  rw [nbFaces_eq, List.sum_eq_zero_iff]
  intro n hn
  obtain ⟨m, hm, rfl⟩ := List.mem_map.mp hn
  have h0 := h _ (List.mem_map.mpr ⟨m, hm, rfl⟩)
  cases hf : m.faces with
  | nil => rfl
  | cons f fs =>
    have := hv m hm f (by rw [hf]; exact List.mem_cons_self) f.a (by simp [Face.toList])
    omega

theorem prune_shapes (ps : List Tree) (hv : ∀ t ∈ ps, ∀ m ∈ t.leaves, m.Valid) :
    (prune ps).flatMap (fun t => t.leaves.flatMap Mesh.shapes) =
      ps.flatMap fun t => t.leaves.flatMap Mesh.shapes := by
  have h1 : (ps.filter fun t => decide (t.nbFaces > 0) && decide (t.nbVertices > 0)).flatMap
      (fun t => t.leaves.flatMap Mesh.shapes) = ps.flatMap fun t => t.leaves.flatMap Mesh.shapes := by
    induction ps with
    | nil => rfl
    | cons t ts ih =>
      have ih := ih fun t' h' => hv t' (List.mem_cons_of_mem _ h')
      by_cases h : t.nbFaces > 0 ∧ t.nbVertices > 0
      · rw [List.filter_cons_of_pos (by simpa using h), List.flatMap_cons, List.flatMap_cons, ih]
      · rw [List.filter_cons_of_neg (by simpa using h), List.flatMap_cons, ih]
        have h0 : t.nbFaces = 0 := by
          by_cases hn : t.nbVertices = 0
          · exact no_faces_of_no_vertices (hv t List.mem_cons_self) hn
          · by_contra hc
            exact h ⟨by omega, by omega⟩
        rw [← shapes_length] at h0
        rw [List.eq_nil_of_length_eq_zero h0, List.nil_append]
  rw [← h1, prune]
  split
  · rename_i h
    rw [h]
    rfl
  · rfl

theorem prune_mem {ps : List Tree} {t : Tree} (h : t ∈ prune ps) : t ∈ ps ∨ t = .leaf ⟨[], []⟩ := by
  rw [prune] at h
  split at h
  · exact Or.inr (by simpa using h)
  · exact Or.inl (List.mem_of_mem_filter h)

theorem prune_ne_nil (ps : List Tree) : prune ps ≠ [] := by
  rw [prune]
  split
  · simp
  · rename_i h
    exact h

theorem empty_valid {V : Type} : (⟨[], []⟩ : Mesh V).Valid := by
  intro f hf
  simp at hf

mutual
theorem clip_tree (c : Mesh (V3 ℝ) → Mesh (V3 ℝ) × List ℕ) :
    ∀ t : Tree, t.Inhabited → (∀ m ∈ t.leaves, (c m).1.Valid) →
      (t.clip c).1.Inhabited ∧ (∀ m ∈ (t.clip c).1.leaves, m.Valid) ∧
      (t.clip c).1.leaves.flatMap Mesh.shapes = t.leaves.flatMap fun m => (c m).1.shapes
  | .leaf m, _, hv => by
    simp only [Tree.clip, Tree.leaves, List.mem_singleton, forall_eq, List.flatMap_cons, List.flatMap_nil,
      List.append_nil, and_true, Tree.Inhabited, true_and] at hv ⊢
    exact hv
  | .node s ps, h, hv => by
    obtain ⟨h1, h2, h3⟩ := clipAll_tree c ps 0 h.2 hv
    have hmem : ∀ t ∈ prune (clipAll c ps 0).1, t.Inhabited ∧ ∀ m ∈ t.leaves, m.Valid := by
      intro t ht
      rcases prune_mem ht with ht | rfl
      · exact ⟨h1 t ht, h2 t ht⟩
      · refine ⟨trivial, fun m hm => ?_⟩
        simp only [Tree.leaves, List.mem_singleton] at hm
        rw [hm]
        exact empty_valid
    refine ⟨⟨prune_ne_nil _, (allInhabited_iff _).mpr fun t ht => (hmem t ht).1⟩, ?_, ?_⟩
    · simp only [Tree.clip, Tree.leaves, leavesAll_eq, List.mem_flatMap]
      rintro m ⟨t, ht, hm⟩
      exact (hmem t ht).2 m hm
    · simp only [Tree.clip, Tree.leaves]
      rw [leavesAll_eq, List.flatMap_assoc, prune_shapes _ h2, h3]
theorem clipAll_tree (c : Mesh (V3 ℝ) → Mesh (V3 ℝ) × List ℕ) :
    ∀ (ps : List Tree) (n : ℕ), AllInhabited ps → (∀ m ∈ leavesAll ps, (c m).1.Valid) →
      (∀ t ∈ (clipAll c ps n).1, t.Inhabited) ∧ (∀ t ∈ (clipAll c ps n).1, ∀ m ∈ t.leaves, m.Valid) ∧
      (clipAll c ps n).1.flatMap (fun t => t.leaves.flatMap Mesh.shapes) =
        (leavesAll ps).flatMap fun m => (c m).1.shapes
  | [], _, _, _ => by simp [clipAll, leavesAll]
  | t :: ts, n, h, hv => by
    obtain ⟨a1, a2, a3⟩ := clip_tree c t h.1 fun m hm => hv m (by
      rw [leavesAll]; exact List.mem_append_left _ hm)
    obtain ⟨b1, b2, b3⟩ := clipAll_tree c ts (n + t.nbFaces) h.2 fun m hm => hv m (by
      rw [leavesAll]; exact List.mem_append_right _ hm)
    refine ⟨?_, ?_, ?_⟩
    · intro u hu
      rw [clipAll] at hu
      rcases List.mem_cons.mp hu with rfl | hu
      · exact a1
      · exact b1 u hu
    · intro u hu
      rw [clipAll] at hu
      rcases List.mem_cons.mp hu with rfl | hu
      · exact a2
      · exact b2 u hu
    · rw [clipAll, leavesAll, List.flatMap_cons, List.flatMap_append, a3, b3]
end

theorem origin_data {A : Type} (c : Mesh (V3 ℝ) → Mesh (V3 ℝ) × List ℕ) (ms : List (Mesh (V3 ℝ)))
    (hid : ∀ m ∈ ms, ∀ i ∈ (c m).2, i < m.faces.length) (ds : List (List A))
    (hd : List.Forall₂ (fun m d => d.length = m.faces.length) ms ds) (pre : List A) :
    (originFrom c pre.length ms).map (fun i => (pre ++ ds.flatten)[i]?) =
      (List.zipWith (fun m d => (c m).2.map fun i => d[i]?) ms ds).flatten := by
  induction hd generalizing pre with
  | nil => rfl
  | @cons m d ms ds h1 h2 ih =>
    have ih := ih (fun x hx => hid x (List.mem_cons_of_mem _ hx)) (pre ++ d)
    simp only [List.length_append, List.append_assoc] at ih
    rw [originFrom, List.map_append, List.zipWith_cons_cons, List.flatten_cons (L := List.zipWith _ _ _), ← ih,
      ← h1, List.flatten_cons, List.map_map]
    congr 1
    apply List.map_congr_left
    intro i hi
    have := hid m List.mem_cons_self i hi
    simp only [Function.comp]
    rw [List.getElem?_append_right (by omega), Nat.add_sub_cancel, List.getElem?_append_left (by omega)]

/-- C33 for collections: let the clipping of single meshes give valid meshes with one original number for each
panel. Clipping a tree gives a tree that can be read again, whose panels are those of the clipped leaves in
order, with one original number for each panel. Data given panel by panel on the leaves, such as a dof, read at
these numbers are, leaf by leaf, the data of the panels they come from. -/
theorem clip_collection {A : Type} (clipLeaf : Mesh (V3 ℝ) → Mesh (V3 ℝ) × List ℕ) (t : Tree)
    (ht : t.Inhabited)
    (hleaf : ∀ m ∈ t.leaves, (clipLeaf m).1.Valid ∧ (clipLeaf m).2.length = (clipLeaf m).1.faces.length ∧
      ∀ i ∈ (clipLeaf m).2, i < m.faces.length)
    (data : List (List A)) (hd : List.Forall₂ (fun m d => d.length = m.faces.length) t.leaves data) :
    (t.clip clipLeaf).1.Inhabited ∧ (∀ m ∈ (t.clip clipLeaf).1.leaves, m.Valid) ∧
    (t.clip clipLeaf).1.leaves.flatMap Mesh.shapes = t.leaves.flatMap (fun m => (clipLeaf m).1.shapes) ∧
    (t.clip clipLeaf).2.length = (t.clip clipLeaf).1.nbFaces ∧
    (∀ i ∈ (t.clip clipLeaf).2, i < t.nbFaces) ∧
    (t.clip clipLeaf).2.map (fun i => data.flatten[i]?) =
      (List.zipWith (fun m d => (clipLeaf m).2.map fun i => d[i]?) t.leaves data).flatten := by
  obtain ⟨h1, h2, h3⟩ := clip_tree clipLeaf t ht fun m hm => (hleaf m hm).1
  have hd' := origin_data clipLeaf t.leaves (fun m hm => (hleaf m hm).2.2) data hd []
  simp only [List.length_nil, List.nil_append] at hd'
  refine ⟨h1, h2, h3, ?_, ?_, ?_⟩
  · rw [← shapes_length, h3, clip_ids_eq]
    have : ∀ (ms : List (Mesh (V3 ℝ))) (n : ℕ), (∀ m ∈ ms, (clipLeaf m).2.length = (clipLeaf m).1.faces.length) →
        (originFrom clipLeaf n ms).length = (ms.flatMap fun m => (clipLeaf m).1.shapes).length := by
      intro ms
      induction ms with
      | nil => simp [originFrom]
      | cons m ms ih =>
        intro n h
        rw [originFrom, List.flatMap_cons, List.length_append, List.length_append,
          ih _ fun x hx => h x (List.mem_cons_of_mem _ hx), List.length_map, h m List.mem_cons_self]
        simp [Mesh.shapes]
    exact this _ _ fun m hm => (hleaf m hm).2.1
  · rw [clip_ids_eq, nbFaces_eq]
    have : ∀ (ms : List (Mesh (V3 ℝ))) (n : ℕ), (∀ m ∈ ms, ∀ i ∈ (clipLeaf m).2, i < m.faces.length) →
        ∀ i ∈ originFrom clipLeaf n ms, i < n + (ms.map fun m => m.faces.length).sum := by
      intro ms
      induction ms with
      | nil => simp [originFrom]
      | cons m ms ih =>
        intro n h i hi
        rw [originFrom, List.mem_append] at hi
        rw [List.map_cons, List.sum_cons]
        rcases hi with hi | hi
        · obtain ⟨j, hj, rfl⟩ := List.mem_map.mp hi
          have := h m List.mem_cons_self j hj
          omega
        · have := ih _ (fun x hx => h x (List.mem_cons_of_mem _ hx)) i hi
          omega
    simpa using this t.leaves 0 fun m hm => (hleaf m hm).2.2
  · rw [clip_ids_eq, hd']


/-! ## Merging -/

/-- C34: merging a collection of valid meshes gives one valid mesh without duplicate vertices and with the same
panels in the same order: the corners of each panel are moved by at most the tolerance in each coordinate, and
possibly turned along the panel. A collection without any vertex is an error. -/
theorem merged_collection (sort : (ℕ → ℝ) → List ℕ → List ℕ) (hs : ArgSort sort) (atol : ℝ) (ha : 0 ≤ atol)
    (s : Sym) (ps : List Tree) (ht : (Tree.node s ps).Inhabited)
    (hv : ∀ m ∈ (Tree.node s ps).leaves, m.Valid) :
    ∃ m, (Tree.node s ps).assembled = some m ∧
      (m.vertices = [] → (Tree.node s ps).merged sort atol = none) ∧
      (m.vertices ≠ [] → ∃ m', (Tree.node s ps).merged sort atol = some m' ∧ m'.vertices.Nodup ∧
        m'.faces.length = (Tree.node s ps).nbFaces ∧
        ∀ (n : ℕ) (f : Face), m.faces[n]? = some f → ∃ g h : Face, m'.faces[n]? = some h ∧ SameCycle g h ∧
          ∀ (k i : ℕ), f.toList[k]? = some i → ∃ (j : ℕ) (v w : V3 ℝ), g.toList[k]? = some j ∧
            m.vertices[i]? = some v ∧ m'.vertices[j]? = some w ∧
            |v.x - w.x| ≤ atol ∧ |v.y - w.y| ≤ atol ∧ |v.z - w.z| ≤ atol) := by
  obtain ⟨m, h1, h2, -, -, -, h6, -⟩ := collection_concatenates _ ht hv
  refine ⟨m, h1, fun h0 => ?_, fun h0 => ?_⟩
  · rw [Tree.merged, h1]
    simp only [Mesh.mergeDuplicates, h0, merge_no_rows, Option.map_none]
  · obtain ⟨m1, ids, a1, -, a3, -, a5, a6, -⟩ := merge_duplicates sort hs atol ha m h2 h0
    obtain ⟨b1, b2, b3⟩ := heal_triangles_mesh m1
    refine ⟨m1.healTriangles, ?_, by rw [b1]; exact a3, by rw [b2, a5, h6], ?_⟩
    · rw [Tree.merged, h1]
      simp only [a1, Option.map_some]
    · intro n f hf
      have hn : n < m1.faces.length := by
        rw [a5]
        by_contra hc
        rw [List.getElem?_eq_none (by omega)] at hf
        cases hf
      obtain ⟨h, c1, c2⟩ := b3 n _ (List.getElem?_eq_getElem hn)
      refine ⟨m1.faces[n], h, c1, c2, fun k i hk => ?_⟩
      obtain ⟨j, v, w, d1, -, d3, d4, d5⟩ := a6 n f _ hf (List.getElem?_eq_getElem hn) k i hk
      exact ⟨j, v, w, d1, d3, by rw [b1]; exact d4, d5⟩

/-! ## A concrete case -/

/-- A triangle and a square, in a collection inside a collection. -/
noncomputable def sampleTree : Tree :=
  .node .plain [.leaf ⟨[⟨0, 0, 0⟩, ⟨1, 0, 0⟩, ⟨0, 1, 0⟩], [⟨0, 1, 2, 0⟩]⟩,
    .node .plain [.leaf ⟨[⟨0, 0, 1⟩, ⟨1, 0, 1⟩, ⟨1, 1, 1⟩, ⟨0, 1, 1⟩], [⟨0, 1, 2, 3⟩, ⟨3, 2, 1, 0⟩]⟩,
      .leaf ⟨[⟨0, 0, 0⟩, ⟨1, 0, 0⟩, ⟨0, 1, 0⟩], [⟨0, 1, 2, 0⟩]⟩]]

theorem sampleTree_inhabited : sampleTree.Inhabited := by
  simp [sampleTree, Tree.Inhabited, AllInhabited]

theorem sampleTree_valid : ∀ m ∈ sampleTree.leaves, m.Valid := by
  simp [sampleTree, Tree.leaves, leavesAll, Mesh.Valid, Face.toList]

/-- Concrete case of `collection_concatenates`: the faces are shifted. -/
example : sampleTree.faces = some [⟨0, 1, 2, 0⟩, ⟨3, 4, 5, 6⟩, ⟨6, 5, 4, 3⟩, ⟨7, 8, 9, 7⟩] := by
  simp [sampleTree, Tree.faces, allFaces, concatenate, shiftFaces, Face.map, Tree.nbVertices, nbVerticesAll]

/-- Concrete case of `submesh_containing_face`. -/
example : submeshContainingFace (match sampleTree with | .node _ ps => ps | .leaf _ => []) 2 = some (1, 1) := by
  simp [sampleTree, submeshContainingFace, submeshLoop, Tree.nbFaces, nbFacesAll]

/-- Concrete case of `extract_one_face` and `merged_collection`. -/
example : ∃ m, sampleTree.assembled = some m ∧ m.faces.length = 4 ∧ m.vertices ≠ [] := by
  obtain ⟨m, h1, -, h3, -, -, h6, -⟩ := collection_concatenates _ sampleTree_inhabited sampleTree_valid
  refine ⟨m, h1, ?_, ?_⟩
  · rw [h6]
    simp [sampleTree, Tree.nbFaces, nbFacesAll]
  · rw [h3]
    simp [sampleTree, Tree.leaves, leavesAll]

/-- Concrete case of `clip_collection`: only the first face of each mesh is kept. -/
example : (sampleTree.clip fun m => (⟨m.vertices, m.faces.take 1⟩, List.range (m.faces.take 1).length)).2 =
    [0, 1, 3] := by
  simp [sampleTree, Tree.clip, clipAll, Tree.nbFaces, List.range, List.range.loop]

end Verif.Meshes
