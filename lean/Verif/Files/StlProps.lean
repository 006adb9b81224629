import Verif.Files.StlModel
import Verif.Files.MeshFilesLemmas

/-!
# Writing a mesh should not change it (C44)
-/

namespace Verif.Files

open Verif.Geometry Verif.Meshes

/-! ## Specification -/

/-- The triangles that cover a panel. -/
def panelTriangles (f : Face) : List (ℕ × ℕ × ℕ) :=
  if f.a = f.d then [(f.a, f.b, f.c)] else [(f.a, f.b, f.c), (f.a, f.c, f.d)]

/-- A facet of the file represents a triangle of the mesh. -/
def ShowsTriangle (vertices : List (V3 ℝ)) (t : ℕ × ℕ × ℕ) (k : Facet) : Prop :=
  vertices[t.1]? = some k.v0 ∧ vertices[t.2.1]? = some k.v1 ∧ vertices[t.2.2]? = some k.v2

/-- A panel with four different corners in the first and last positions. -/
def IsQuad (f : Face) : Prop := f.a ≠ f.d

/-- A panel has lost one of its two triangles. -/
def loseTriangle (f : Face) : Face := if f.a = f.d then f else ⟨f.a, f.c, f.d, f.a⟩

/-! ## Proofs -/

theorem quadIds_cons (f : Face) (fs : List Face) :
    quadIds (f :: fs) = (if f.a ≠ f.d then [0] else []) ++ (quadIds fs).map (· + 1) := by
  unfold quadIds
  rw [List.zipIdx_cons', List.filter_cons]
  have : ((fs.zipIdx.map (Prod.map id (· + 1))).filter fun p : Face × ℕ => decide (p.1.a ≠ p.1.d)).map Prod.snd =
      (((fs.zipIdx.filter fun p => decide (p.1.a ≠ p.1.d)).map Prod.snd).map (· + 1)) := by
    rw [List.filter_map, List.map_map, List.map_map]
    rfl
  split_ifs with h1 h2 h2
  · rw [List.map_cons, this]; rfl
  · simp_all
  · simp_all
  · rw [this]; rfl

theorem takeRows_shift (f : Face) (fs : List Face) (ids : List ℕ) :
    takeRows (f :: fs) (ids.map (· + 1)) = takeRows fs ids := by
  unfold takeRows
  induction ids with
  | nil => rfl
  | cons i ids ih => simp only [List.map_cons, List.mapM_cons, List.getElem?_cons_succ, ih]

theorem takeRows_quads (fs : List Face) : takeRows fs (quadIds fs) = some (fs.filter fun f => f.a ≠ f.d) := by
  induction fs with
  | nil => rfl
  | cons f fs ih =>
    rw [quadIds_cons]
    by_cases h : f.a = f.d
    · simp only [h, ne_eq, not_true_eq_false, if_false, List.nil_append, takeRows_shift, ih]
      simp [h]
    · simp only [h, ne_eq, not_false_eq_true, if_true, List.singleton_append]
      have := takeRows_shift f fs (quadIds fs)
      unfold takeRows at this ih ⊢
      rw [List.mapM_cons, this, ih]
      simp [h]

theorem setRows_shift (f : Face) (fs : List Face) (ids : List ℕ) (g : Face → Face) :
    setRows (f :: fs) (ids.map (· + 1)) g = f :: setRows fs ids g := by
  unfold setRows
  induction ids generalizing fs with
  | nil => rfl
  | cons i ids ih =>
    rw [List.map_cons, List.foldl_cons, List.foldl_cons, ← ih]
    rfl

theorem setRows_quads (fs : List Face) : setRows fs (quadIds fs) secondTriangle = fs.map loseTriangle := by
  induction fs with
  | nil => rfl
  | cons f fs ih =>
    rw [quadIds_cons, List.map_cons]
    by_cases h : f.a = f.d
    · simp only [h, ne_eq, not_true_eq_false, if_false, List.nil_append, setRows_shift, ih]
      simp [loseTriangle, h]
    · simp only [h, ne_eq, not_false_eq_true, if_true, List.singleton_append]
      have e : setRows (f :: fs) (0 :: (quadIds fs).map (· + 1)) secondTriangle =
          setRows (secondTriangle f :: fs) ((quadIds fs).map (· + 1)) secondTriangle := rfl
      rw [e, setRows_shift, ih]
      simp [loseTriangle, h, secondTriangle]

theorem stl_result {h : FaceHeap} {r : ℕ} {faces : List Face} (hr : h[r]? = some faces) (vertices : List (V3 ℝ)) :
    writeSTL h vertices r =
      ((h ++ [(faces.filter fun f => f.a ≠ f.d).map firstTriangle]).set r (faces.map loseTriangle) ++
        [faces.map loseTriangle ++ (faces.filter fun f => f.a ≠ f.d).map firstTriangle],
      (faces.map loseTriangle ++ (faces.filter fun f => f.a ≠ f.d).map firstTriangle).mapM (facetOf vertices)) := by
  unfold writeSTL
  simp only [hr, takeRows_quads, setRows_quads]

theorem stl_memory {h : FaceHeap} {r : ℕ} {faces : List Face} (hr : h[r]? = some faces) (vertices : List (V3 ℝ)) :
    (writeSTL h vertices r).1[r]? = some (faces.map loseTriangle) := by
  have hlt := (List.getElem?_eq_some_iff.1 hr).1
  rw [stl_result hr]
  simp only
  rw [List.getElem?_append_left (by simp; omega), List.getElem?_set_self (by simp; omega)]

theorem loseTriangle_eq {f : Face} : loseTriangle f = f ↔ ¬ IsQuad f := by
  unfold loseTriangle IsQuad
  split_ifs with h
  · simp [h]
  · simp only [h, not_false_eq_true, ne_eq, not_true_eq_false, iff_false]
    intro he
    have := congrArg Face.d he
    exact h this

/-- **C44 (STL).** The arrays of faces of the other meshes are unchanged, including that of a copy of the mesh. -/
theorem stl_other_arrays (h : FaceHeap) (vertices : List (V3 ℝ)) {r r' : ℕ} (hne : r' ≠ r) (hlt : r' < h.length) :
    (writeSTL h vertices r).1[r']? = h[r']? := by
  cases hr : h[r]? with
  | none => unfold writeSTL; rw [hr]
  | some faces =>
    rw [stl_result hr]
    simp only
    rw [List.getElem?_append_left (by simp; omega), List.getElem?_set_ne (by omega), List.getElem?_append_left hlt]

/-- **C44 (STL), the exact condition.** Writing a mesh in an STL file leaves its array of faces unchanged if and only if
the mesh has no quadrangle. -/
theorem stl_unchanged_iff {h : FaceHeap} {r : ℕ} {faces : List Face} (hr : h[r]? = some faces) (vertices : List (V3 ℝ)) :
    (writeSTL h vertices r).1[r]? = h[r]? ↔ ∀ f ∈ faces, ¬ IsQuad f := by
  rw [stl_memory hr, hr, Option.some.injEq]
  constructor
  · intro he f hf
    obtain ⟨i, hi, rfl⟩ := List.mem_iff_getElem.1 hf
    have := congrArg (fun l => l[i]?) he
    simp only [List.getElem?_map, List.getElem?_eq_getElem hi, Option.map_some, Option.some.injEq] at this
    exact loseTriangle_eq.1 this
  · intro hq
    conv_rhs => rw [← List.map_id faces]
    exact List.map_congr_left fun f hf => loseTriangle_eq.2 (hq f hf)

/-- **C44 (STL).** What happens to the mesh in memory: each quadrangle keeps only its second triangle. -/
theorem stl_changes {h : FaceHeap} {r : ℕ} {faces : List Face} (hr : h[r]? = some faces) (vertices : List (V3 ℝ)) :
    ∃ faces', (writeSTL h vertices r).1[r]? = some faces' ∧ faces'.length = faces.length ∧
      ∀ f f', (f, f') ∈ faces.zip faces' → panelTriangles f' = (panelTriangles f).drop ((panelTriangles f).length - 1) := by
  refine ⟨_, stl_memory hr vertices, by simp, ?_⟩
  intro f f' hm
  have : f' = loseTriangle f := by
    rw [List.zip_map_right, List.mem_map] at hm
    obtain ⟨⟨a, b⟩, hab, he⟩ := hm
    have hab' : a = b := by
      rw [List.mem_iff_getElem] at hab
      obtain ⟨i, hi, hab⟩ := hab
      rw [List.getElem_zip] at hab
      exact (congrArg Prod.fst hab).symm.trans (congrArg Prod.snd hab)
    subst hab'
    simp only [Prod.map, id, Prod.mk.injEq] at he
    rw [← he.1, ← he.2]
  subst this
  unfold loseTriangle panelTriangles
  split_ifs <;> simp_all

theorem facetOf_shows {vertices : List (V3 ℝ)} {f : Face} {k : Facet} (h : facetOf vertices f = some k) :
    ShowsTriangle vertices (f.a, f.b, f.c) k := by
  unfold facetOf at h
  split_ifs at h
  split at h
  · rename_i u v w h1 h2 h3
    cases h
    exact ⟨h1, h2, h3⟩
  · exact absurd h (by simp)

theorem facetOf_exists {vertices : List (V3 ℝ)} {f : Face} (hq : f.a = f.d) (hv : ∀ i ∈ f.toList, i < vertices.length) :
    ∃ k, facetOf vertices f = some k := by
  have ha := hv f.a (by simp [Face.toList])
  have hb := hv f.b (by simp [Face.toList])
  have hc := hv f.c (by simp [Face.toList])
  unfold facetOf
  rw [if_neg (by simpa using hq), List.getElem?_eq_getElem ha, List.getElem?_eq_getElem hb, List.getElem?_eq_getElem hc]
  exact ⟨_, rfl⟩

/-- The triangles of the array written in the file. -/
theorem stl_triangles (faces : List Face) :
    ((faces.map loseTriangle ++ (faces.filter fun f => f.a ≠ f.d).map firstTriangle).map fun f => (f.a, f.b, f.c)).Perm
      (faces.flatMap panelTriangles) := by
  induction faces with
  | nil => simp
  | cons f fs ih =>
    rw [List.flatMap_cons, List.map_cons, List.filter_cons]
    by_cases h : f.a = f.d
    · simp only [h, ne_eq, not_true_eq_false, decide_false, Bool.false_eq_true, if_false, List.cons_append, List.map_cons]
      have e1 : loseTriangle f = f := by simp [loseTriangle, h]
      have e2 : panelTriangles f = [(f.a, f.b, f.c)] := by simp [panelTriangles, h]
      rw [e1, e2]
      exact ih.cons _
    · simp only [h, ne_eq, not_false_eq_true, decide_true, if_true, List.cons_append, List.map_cons]
      have e1 : loseTriangle f = ⟨f.a, f.c, f.d, f.a⟩ := by simp [loseTriangle, h]
      have e2 : panelTriangles f = [(f.a, f.b, f.c), (f.a, f.c, f.d)] := by simp [panelTriangles, h]
      rw [e1, e2]
      simp only [List.cons_append, List.nil_append, List.map_append, List.map_cons] at ih ⊢
      refine List.Perm.trans ?_ (List.Perm.swap _ _ _)
      refine List.Perm.cons _ ?_
      refine List.Perm.trans List.perm_middle ?_
      exact List.Perm.cons _ ih

/-- **C44 (STL).** The file itself is right: it has exactly the triangles that cover the panels of the mesh as it was
before, and no exception is raised for a valid mesh. -/
theorem stl_file {h : FaceHeap} {r : ℕ} {faces : List Face} (hr : h[r]? = some faces) {vertices : List (V3 ℝ)}
    (hv : (⟨vertices, faces⟩ : Mesh (V3 ℝ)).Valid) : ∃ facets ts, (writeSTL h vertices r).2 = some facets ∧
      List.Perm ts (faces.flatMap panelTriangles) ∧ List.Forall₂ (ShowsTriangle vertices) ts facets := by
  have hok : ∀ f ∈ faces.map loseTriangle ++ (faces.filter fun f => f.a ≠ f.d).map firstTriangle,
      ∃ k, facetOf vertices f = some k := by
    intro f hf
    rw [List.mem_append, List.mem_map, List.mem_map] at hf
    rcases hf with ⟨g, hg, rfl⟩ | ⟨g, hg, rfl⟩
    · have hvg := hv g hg
      refine facetOf_exists ?_ ?_
      · unfold loseTriangle; split_ifs with h <;> simp_all
      · unfold loseTriangle
        split_ifs with h
        · exact hvg
        · intro i hi
          apply hvg
          simp [Face.toList] at hi ⊢
          tauto
    · have hvg := hv g (List.mem_of_mem_filter hg)
      refine facetOf_exists rfl ?_
      intro i hi
      apply hvg
      simp [Face.toList, firstTriangle] at hi ⊢
      tauto
  have hall : ∃ ks, (faces.map loseTriangle ++ (faces.filter fun f => f.a ≠ f.d).map firstTriangle).mapM
      (facetOf vertices) = some ks := by
    generalize faces.map loseTriangle ++ (faces.filter fun f => f.a ≠ f.d).map firstTriangle = l at hok
    induction l with
    | nil => exact ⟨[], rfl⟩
    | cons x l ih =>
      obtain ⟨k, hk⟩ := hok x (by simp)
      obtain ⟨ks, hks⟩ := ih fun y hy => hok y (by simp [hy])
      exact ⟨k :: ks, by rw [List.mapM_cons, hk, hks]; rfl⟩
  obtain ⟨ks, hks⟩ := hall
  refine ⟨ks, _, ?_, stl_triangles faces, ?_⟩
  · rw [stl_result hr]; exact hks
  · rw [List.forall₂_map_left_iff]
    exact (mapM_forall2 hks).imp fun f k hk => facetOf_shows hk

/-- The normal vector of a facet of non-zero area has length one, is orthogonal to the sides and follows the order of the
corners. -/
theorem stl_normal {vertices : List (V3 ℝ)} {f : Face} {k : Facet} (hk : facetOf vertices f = some k)
    (hne : facetCross k.v0 k.v1 k.v2 ≠ ⟨0, 0, 0⟩) :
    k.normal.x ^ 2 + k.normal.y ^ 2 + k.normal.z ^ 2 = 1 ∧
      k.normal.x * (k.v1.x - k.v0.x) + k.normal.y * (k.v1.y - k.v0.y) + k.normal.z * (k.v1.z - k.v0.z) = 0 ∧
      k.normal.x * (k.v2.x - k.v0.x) + k.normal.y * (k.v2.y - k.v0.y) + k.normal.z * (k.v2.z - k.v0.z) = 0 ∧
      ∃ l : ℝ, 0 < l ∧ facetCross k.v0 k.v1 k.v2 = ⟨l * k.normal.x, l * k.normal.y, l * k.normal.z⟩ := by
  have hn : k.normal = unitVector (facetCross k.v0 k.v1 k.v2) := by
    unfold facetOf at hk
    split_ifs at hk
    split at hk
    · cases hk; rfl
    · exact absurd hk (by simp)
  rw [hn]
  set c := facetCross k.v0 k.v1 k.v2 with hc
  have hpos : 0 < c.x ^ 2 + c.y ^ 2 + c.z ^ 2 := by
    by_contra h
    have h1 : c.x ^ 2 = 0 := by nlinarith [sq_nonneg c.x, sq_nonneg c.y, sq_nonneg c.z]
    have h2 : c.y ^ 2 = 0 := by nlinarith [sq_nonneg c.x, sq_nonneg c.y, sq_nonneg c.z]
    have h3 : c.z ^ 2 = 0 := by nlinarith [sq_nonneg c.x, sq_nonneg c.y, sq_nonneg c.z]
    apply hne
    ext
    · exact pow_eq_zero_iff (by norm_num) |>.1 h1
    · exact pow_eq_zero_iff (by norm_num) |>.1 h2
    · exact pow_eq_zero_iff (by norm_num) |>.1 h3
  have hl := Real.sqrt_pos.2 hpos
  have hsq := Real.sq_sqrt hpos.le
  simp only [unitVector]
  set l := Real.sqrt (c.x ^ 2 + c.y ^ 2 + c.z ^ 2) with hldef
  have hl0 : l ≠ 0 := hl.ne'
  refine ⟨?_, ?_, ?_, l, hl, ?_⟩
  · rw [div_pow, div_pow, div_pow, ← add_div, ← add_div, hsq, div_self hpos.ne']
  · have : c.x * (k.v1.x - k.v0.x) + c.y * (k.v1.y - k.v0.y) + c.z * (k.v1.z - k.v0.z) = 0 := by
      rw [hc]; simp only [facetCross]; ring
    field_simp
    linarith
  · have : c.x * (k.v2.x - k.v0.x) + c.y * (k.v2.y - k.v0.y) + c.z * (k.v2.z - k.v0.z) = 0 := by
      rw [hc]; simp only [facetCross]; ring
    field_simp
    linarith
  · ext <;> field_simp

/-- A mesh of triangles is unchanged, and one with a quadrangle loses a triangle. -/
example (vertices : List (V3 ℝ)) : (writeSTL [[⟨0, 1, 2, 0⟩, ⟨0, 2, 3, 0⟩], [⟨0, 1, 2, 3⟩]] vertices 0).1[0]? =
      some [⟨0, 1, 2, 0⟩, ⟨0, 2, 3, 0⟩] ∧
    (writeSTL [[⟨0, 1, 2, 0⟩, ⟨0, 2, 3, 0⟩], [⟨0, 1, 2, 3⟩]] vertices 1).1[1]? = some [⟨0, 2, 3, 0⟩] :=
  ⟨(stl_unchanged_iff (faces := [⟨0, 1, 2, 0⟩, ⟨0, 2, 3, 0⟩]) rfl vertices).2 (by simp [IsQuad]),
    stl_memory (faces := [⟨0, 1, 2, 3⟩]) rfl vertices⟩

/-- **C44 (STL), violated.** A mesh with a quadrangle is changed by the writing of a file: the same file written a second
time has one triangle less. -/
theorem stl_unchanged_violated : ∃ (h : FaceHeap) (vertices : List (V3 ℝ)) (first second : List Facet),
    (⟨vertices, h.headD []⟩ : Mesh (V3 ℝ)).Valid ∧ (writeSTL h vertices 0).1[0]? ≠ h[0]? ∧
    (writeSTL h vertices 0).2 = some first ∧ (writeSTL (writeSTL h vertices 0).1 vertices 0).2 = some second ∧
    first.length = 2 ∧ second.length = 1 := by
  have hv : (⟨[⟨0, 0, 0⟩, ⟨1, 0, 0⟩, ⟨1, 1, 0⟩, ⟨0, 1, 0⟩], [⟨0, 1, 2, 3⟩]⟩ : Mesh (V3 ℝ)).Valid := by
    intro f hf; simp at hf; subst hf; simp [Face.toList]
  have hv' : (⟨[⟨0, 0, 0⟩, ⟨1, 0, 0⟩, ⟨1, 1, 0⟩, ⟨0, 1, 0⟩], [⟨0, 2, 3, 0⟩]⟩ : Mesh (V3 ℝ)).Valid := by
    intro f hf; simp at hf; subst hf; simp [Face.toList]
  have hm := stl_memory (h := [[⟨0, 1, 2, 3⟩]]) (r := 0) (faces := [⟨0, 1, 2, 3⟩]) rfl
    [⟨0, 0, 0⟩, ⟨1, 0, 0⟩, ⟨1, 1, 0⟩, ⟨0, 1, 0⟩]
  obtain ⟨k1, t1, a1, b1, c1⟩ := stl_file (h := [[⟨0, 1, 2, 3⟩]]) (r := 0) (faces := [⟨0, 1, 2, 3⟩]) rfl hv
  obtain ⟨k2, t2, a2, b2, c2⟩ := stl_file hm hv'
  refine ⟨[[⟨0, 1, 2, 3⟩]], [⟨0, 0, 0⟩, ⟨1, 0, 0⟩, ⟨1, 1, 0⟩, ⟨0, 1, 0⟩], k1, k2, hv, ?_, a1, a2, ?_, ?_⟩
  · rw [Ne, stl_unchanged_iff (faces := [⟨0, 1, 2, 3⟩]) rfl]
    simp [IsQuad]
  · rw [← c1.length_eq, b1.length_eq]; rfl
  · rw [← c2.length_eq, b2.length_eq]; rfl

end Verif.Files
