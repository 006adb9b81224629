import Verif.Meshes.ClipSymProps

/-!
# Clipping of translated meshes (C93)

A translation along the clipping plane goes with the clipping: nothing in it, not even the merging of vertices with a
tolerance, depends on where the mesh is along the plane.
-/

namespace Verif.Meshes

open Verif.Geometry V3 Verif.Bodies

/-- Contract of `numpy.argsort` on exact numbers: the result only depends on the comparisons between the values. -/
def Comparing (sort : (ℕ → ℝ) → List ℕ → List ℕ) : Prop :=
  ∀ (val val' : ℕ → ℝ) (l : List ℕ), (∀ i ∈ l, ∀ j ∈ l, val i ≤ val j ↔ val' i ≤ val' j) → sort val l = sort val' l

theorem select_map {A B : Type} (g : A → B) (l : List A) (ids : List ℕ) :
    select (l.map g) ids = (select l ids).map (List.map g) := by
  induction ids with
  | nil => rfl
  | cons i is ih =>
    rw [select, select, List.mapM_cons, List.mapM_cons]
    rw [select, select] at ih
    rw [ih, List.getElem?_map]
    cases l[i]? with
    | none => rfl
    | some a =>
      cases (is.mapM fun i => l[i]?) <;> rfl

theorem extractFaces_translate (m : Mesh (V3 ℝ)) (v : V3 ℝ) (ids : List ℕ) :
    (m.translate v).extractFaces ids = (m.extractFaces ids).map fun r => (r.1.translate v, r.2) := by
  simp only [Mesh.extractFaces, Mesh.translate, List.length_map, select_map]
  cases select m.faces ids with
  | none => rfl
  | some fs =>
    simp only
    cases select m.vertices (usedIds m.vertices.length fs) <;> rfl

theorem removeUnused_translate (m : Mesh (V3 ℝ)) (v : V3 ℝ) :
    (m.translate v).removeUnusedVertices = m.removeUnusedVertices.map fun r => r.translate v := by
  simp only [Mesh.removeUnusedVertices, Mesh.translate, List.length_map, select_map]
  split
  · cases select m.vertices (usedIds m.vertices.length m.faces) <;> rfl
  · rfl

section along
variable {P : Plane} {v : V3 ℝ} (hP : dot v P.normal = 0)
include hP

theorem dot_along (p : V3 ℝ) : dot (p + v) P.normal = dot p P.normal := by
  have h : dot (p + v) P.normal = dot p P.normal + dot v P.normal := by simp [dot]; ring
  rw [h, hP, add_zero]

theorem distance_along (p : V3 ℝ) : P.distanceToPoint (p + v) = P.distanceToPoint p := by
  rw [Plane.distanceToPoint, Plane.distanceToPoint, dot_along hP]

theorem cutEdge_along (pts : List (V3 ℝ)) (e : ℕ × ℕ) :
    cutEdge P (pts.map (· + v)) e = (cutEdge P pts e).map (· + v) := by
  simp only [cutEdge, List.getElem?_map]
  cases pts[e.1]? with
  | none => rfl
  | some p =>
    cases pts[e.2]? with
    | none => rfl
    | some q =>
      simp only [Option.map_some, Plane.getEdgeIntersection, dot_along hP]
      split
      · rename_i x hx
        split at hx
        · cases hx
        · rename_i hc
          rw [if_neg hc]
          cases hx
          simp only [Option.map_some, Option.some.injEq]
          ext <;> simp <;> ring
      · rename_i hx
        split at hx
        · rename_i hc
          rw [if_pos hc]
          rfl
        · cases hx

theorem mapM_cut_along (pts : List (V3 ℝ)) (es : List (ℕ × ℕ)) :
    es.mapM (cutEdge P (pts.map (· + v))) = (es.mapM (cutEdge P pts)).map (List.map (· + v)) := by
  induction es with
  | nil => rfl
  | cons e es ih =>
    rw [List.mapM_cons, List.mapM_cons, ih, cutEdge_along hP]
    cases cutEdge P pts e with
    | none => rfl
    | some x => cases es.mapM (cutEdge P pts) <;> rfl

theorem clipFace_along (tol : ℝ) (vs : List (V3 ℝ)) (n : ℕ) (f : Face) :
    clipFace tol P (vs.map (· + v)) n f = (clipFace tol P vs n f).map fun r => (r.1, r.2.map (· + v)) := by
  simp only [clipFace, select_map]
  cases select vs f.getFace with
  | none => rfl
  | some pts =>
    simp only [Option.map_some, List.map_map, Function.comp_def, distance_along hP]
    cases plan (pts.map fun p => sideOf tol (P.distanceToPoint p)) with
    | none => rfl
    | some pl =>
      simp only [← List.map_rotate, mapM_cut_along hP]
      cases pl.cuts.mapM (cutEdge P (pts.rotate pl.roll)) with
      | none => rfl
      | some new =>
        simp only [Option.map_some]
        cases pl.pieces.mapM (fun c => (c.mapM (CutCorner.resolve (f.getFace.rotate pl.roll) n)).bind toFace) <;> rfl

theorem clipLoop_along (tol : ℝ) (vs : List (V3 ℝ)) (fs : List Face) (i n : ℕ) :
    clipLoop tol P (vs.map (· + v)) fs i n = (clipLoop tol P vs fs i n).map fun r => (r.1, r.2.1, r.2.2.map (· + v)) := by
  induction fs generalizing i n with
  | nil => rfl
  | cons f fs ih =>
    simp only [clipLoop, clipFace_along hP]
    cases clipFace tol P vs n f with
    | none => rfl
    | some r =>
      obtain ⟨gs, new⟩ := r
      simp only [Option.map_some, List.length_map, ih]
      cases clipLoop tol P vs fs (i + 1) (n + new.length) with
      | none => rfl
      | some r => simp

theorem clipCrown_along (tol : ℝ) (m : Mesh (V3 ℝ)) (ids : List ℕ) :
    clipCrown tol P (m.translate v) ids = (clipCrown tol P m ids).map fun r => (r.1.translate v, r.2) := by
  simp only [clipCrown, Mesh.translate, List.length_map, clipLoop_along hP]
  cases clipLoop tol P m.vertices m.faces 0 m.vertices.length with
  | none => rfl
  | some r =>
    obtain ⟨fs, is, new⟩ := r
    simp only [Option.map_some, Option.map_map]
    congr 1
    funext ids
    simp

theorem facesOn_along (tol : ℝ) (s : PlaneSide) (m : Mesh (V3 ℝ)) (f : Face) :
    (m.translate v).facesOn tol P s f = m.facesOn tol P s f := by
  simp only [Mesh.facesOn, Mesh.translate, List.getElem?_map, Option.map_map, Function.comp_def, distance_along hP]

end along

/-! ## Merging -/

theorem scanLevel_shift (val val' : ℕ → ℝ) (atol k : ℝ) (l : List ℕ) (h : ∀ i ∈ l, val' i = val i + k) (vref : ℝ)
    (cur : List ℕ) : scanLevel val' atol (vref + k) cur l = scanLevel val atol vref cur l := by
  induction l generalizing vref cur with
  | nil => rfl
  | cons i l ih =>
    have hi := h i List.mem_cons_self
    have ih := ih fun j hj => h j (List.mem_cons_of_mem _ hj)
    simp only [scanLevel, hi, add_sub_add_right_eq_sub, ih]

theorem scanLevel_mem (val : ℕ → ℝ) (atol : ℝ) (l : List ℕ) (vref : ℝ) (cur : List ℕ) :
    ∀ lv ∈ scanLevel val atol vref cur l, ∀ i ∈ lv, i ∈ cur ∨ i ∈ l := by
  induction l generalizing vref cur with
  | nil =>
    intro lv hlv i hi
    rw [scanLevel, List.mem_singleton] at hlv
    subst hlv
    exact Or.inl hi
  | cons j l ih =>
    intro lv hlv i hi
    rw [scanLevel] at hlv
    split at hlv
    · rcases List.mem_cons.mp hlv with rfl | hlv
      · exact Or.inl hi
      · rcases ih _ _ lv hlv i hi with h | h
        · rw [List.mem_singleton] at h
          subst h
          exact Or.inr List.mem_cons_self
        · exact Or.inr (List.mem_cons_of_mem _ h)
    · rcases ih _ _ lv hlv i hi with h | h
      · rcases List.mem_append.mp h with h | h
        · exact Or.inl h
        · rw [List.mem_singleton] at h
          subst h
          exact Or.inr List.mem_cons_self
      · exact Or.inr (List.mem_cons_of_mem _ h)

theorem refineLevel_mem {sort : (ℕ → ℝ) → List ℕ → List ℕ} (hs : ArgSort sort) (val : ℕ → ℝ) (atol : ℝ) (level : List ℕ) :
    ∀ lv ∈ refineLevel sort val atol level, ∀ i ∈ lv, i ∈ level := by
  intro lv hlv i hi
  rw [refineLevel] at hlv
  split at hlv
  · split at hlv
    · rw [List.mem_singleton] at hlv
      subst hlv
      cases hi
    · rename_i j l hj
      rcases scanLevel_mem _ _ _ _ _ lv hlv i hi with h | h
      · cases h
      · rw [← hj] at h
        exact (hs.perm _ _).subset h
  · rw [List.mem_singleton] at hlv
    subst hlv
    exact hi

theorem refineLevel_shift {sort : (ℕ → ℝ) → List ℕ → List ℕ} (hs : ArgSort sort) (hc : Comparing sort)
    (val val' : ℕ → ℝ) (atol k : ℝ) (level : List ℕ) (h : ∀ i ∈ level, val' i = val i + k) :
    refineLevel sort val' atol level = refineLevel sort val atol level := by
  have hsort : sort val' level = sort val level :=
    hc _ _ _ fun i hi j hj => by rw [h i hi, h j hj, add_le_add_iff_right]
  have hmem : ∀ i ∈ sort val level, val' i = val i + k := fun i hi => h i ((hs.perm _ _).subset hi)
  simp only [refineLevel, hsort]
  split
  · generalize hl : sort val level = l at hmem
    cases l with
    | nil => rfl
    | cons i l =>
      simp only
      rw [hmem i List.mem_cons_self]
      exact scanLevel_shift val val' atol k (i :: l) hmem (val i) []
  · rfl

theorem levels_shift {sort : (ℕ → ℝ) → List ℕ → List ℕ} (hs : ArgSort sort) (hc : Comparing sort) (atol : ℝ)
    (rows : List (V3 ℝ)) (g : V3 ℝ → V3 ℝ) (cs : List (V3 ℝ → ℝ)) (hg : ∀ c ∈ cs, ∃ k, ∀ p, c (g p) = c p + k)
    (ls : List (List ℕ)) (hl : ∀ lv ∈ ls, ∀ i ∈ lv, i < rows.length) :
    levels sort atol (rows.map g) cs ls = levels sort atol rows cs ls := by
  induction cs generalizing ls with
  | nil => rfl
  | cons c cs ih =>
    obtain ⟨k, hk⟩ := hg c List.mem_cons_self
    have h1 : ls.flatMap (refineLevel sort (rowValue (rows.map g) c) atol) =
        ls.flatMap (refineLevel sort (rowValue rows c) atol) := by
      refine congrArg List.flatten (List.map_congr_left fun lv hlv => refineLevel_shift hs hc _ _ atol k lv fun i hi => ?_)
      have hi := hl lv hlv i hi
      simp only [rowValue, List.getElem?_map, List.getElem?_eq_getElem hi, Option.map_some, hk]
    rw [levels, levels, h1]
    refine ih (fun c hc => hg c (List.mem_cons_of_mem _ hc)) _ fun lv hlv i hi => ?_
    obtain ⟨lv', hlv', hin⟩ := List.mem_flatMap.mp hlv
    exact hl lv' hlv' i (refineLevel_mem hs _ _ _ lv hin i hi)

theorem levelRows_map {V W : Type} (g : V → W) (rows : List V) (ls : List (List ℕ)) :
    levelRows (rows.map g) ls = (levelRows rows ls).map (List.map g) := by
  induction ls with
  | nil => rfl
  | cons l ls ih =>
    simp only [levelRows, ih]
    cases (l ++ ls.flatten).head? with
    | none => rfl
    | some i =>
      simp only [Option.bind_some, List.getElem?_map]
      cases rows[i]? with
      | none => rfl
      | some a => cases levelRows rows ls <;> rfl

theorem mergeDuplicates_translate {sort : (ℕ → ℝ) → List ℕ → List ℕ} (hs : ArgSort sort) (hc : Comparing sort) (atol : ℝ)
    (m : Mesh (V3 ℝ)) (v : V3 ℝ) : (m.translate v).mergeDuplicates sort atol =
      (m.mergeDuplicates sort atol).map fun r => (r.1.translate v, r.2) := by
  have h1 := levels_shift hs hc atol m.vertices (· + v) [V3.x, V3.y, V3.z] (by
    intro c hc
    simp only [List.mem_cons, List.not_mem_nil, or_false] at hc
    rcases hc with rfl | rfl | rfl
    · exact ⟨v.x, fun p => rfl⟩
    · exact ⟨v.y, fun p => rfl⟩
    · exact ⟨v.z, fun p => rfl⟩) [List.range m.vertices.length] (by
    intro lv hlv i hi
    rw [List.mem_singleton] at hlv
    subst hlv
    exact List.mem_range.mp hi)
  simp only [Mesh.mergeDuplicates, mergeRows, Mesh.translate, List.length_map, h1, levelRows_map]
  cases levelRows m.vertices (levels sort atol m.vertices [V3.x, V3.y, V3.z] [List.range m.vertices.length]) with
  | none => rfl
  | some vs =>
    simp only [Option.map_some]
    cases m.faces.mapM (Face.lookup (levelIds m.vertices.length
      (levels sort atol m.vertices [V3.x, V3.y, V3.z] [List.range m.vertices.length]))) <;> rfl

theorem assembled_translate (a b : Mesh (V3 ℝ)) (v : V3 ℝ) :
    (Tree.node .plain [.leaf (a.translate v), .leaf (b.translate v)]).assembled =
      (Tree.node .plain [.leaf a, .leaf b]).assembled.map fun m => m.translate v := by
  simp [Tree.assembled, Tree.vertices, Tree.array, arrays, concatenate, Tree.faces, allFaces, Mesh.translate,
    Tree.nbVertices]

theorem area_translate (vs : List (V3 ℝ)) (v : V3 ℝ) (f : Face) :
    (faceProperties (vs.map (· + v)) f).map (fun x => x.1.area) = (faceProperties vs f).map fun x => x.1.area := by
  rw [faceProperties, faceProperties, corners_map, Option.map_map, Option.map_map, Option.map_map]
  cases corners vs f with
  | none => rfl
  | some c =>
    have h : ∀ a b : V3 ℝ, a + v - (b + v) = a - b := fun a b => by ext <;> simp
    simp only [Option.map_some, Function.comp, panelOf, Option.some.injEq]
    split
    · simp only [trianglePanel, h]
      split <;> rfl
    · simp only [quadPanel, h]
      split <;> rfl

theorem meanArea_translate (m : Mesh (V3 ℝ)) (v : V3 ℝ) : (m.translate v).meanArea = m.meanArea := by
  simp only [Mesh.meanArea, Mesh.faceProps, Mesh.translate, List.filterMap_map, Function.comp_def, area_translate]

theorem removeDegenerated_translate (rtol : ℝ) (m : Mesh (V3 ℝ)) (v : V3 ℝ) :
    (m.translate v).removeDegeneratedFaces rtol = (m.removeDegeneratedFaces rtol).translate v := by
  classical
  rw [Mesh.removeDegeneratedFaces, meanArea_translate, Mesh.removeDegeneratedFaces]
  simp only [Mesh.translate]
  congr 1
  refine List.filter_congr fun f _ => ?_
  have h := area_translate m.vertices v f
  cases h1 : faceProperties m.vertices f with
  | none =>
    rw [h1] at h
    rw [Option.map_eq_none_iff.mp h]
  | some x =>
    rw [h1] at h
    obtain ⟨y, hy, hxy⟩ := Option.map_eq_some_iff.mp h
    simp only [hy, hxy]

/-- C93: clipping a mesh moved along the clipping plane gives the clipped mesh moved in the same way, or fails in the
same way. -/
theorem clip_along (sort : (ℕ → ℝ) → List ℕ → List ℕ) (hs : ArgSort sort) (hc : Comparing sort) (atol tol rtol : ℝ)
    (P : Plane) (v : V3 ℝ) (hP : dot v P.normal = 0) (m : Mesh (V3 ℝ)) :
    (m.translate v).clip sort atol tol rtol P = (m.clip sort atol tol rtol P).map fun r => (r.1.translate v, r.2) := by
  classical
  have hparts : clipParts sort atol tol P (m.translate v) =
      (clipParts sort atol tol P m).map fun r => (r.1.translate v, r.2) := by
    have hw : ∀ p : Face → Bool, (m.translate v).whereFaces p = m.whereFaces p := fun p => rfl
    simp only [clipParts, hw]
    have h1 : (m.translate v).facesOn tol P .below = m.facesOn tol P .below := funext fun f => facesOn_along hP tol _ m f
    have h2 : (m.translate v).facesOn tol P .above = m.facesOn tol P .above := funext fun f => facesOn_along hP tol _ m f
    rw [h1, h2, extractFaces_translate, extractFaces_translate]
    cases m.extractFaces (m.whereFaces (m.facesOn tol P .below)) with
    | none => rfl
    | some lower =>
      cases m.extractFaces (m.whereFaces fun f => !(m.facesOn tol P .above f || m.facesOn tol P .below f)) with
      | none => rfl
      | some crown =>
        simp only [Option.map_some, clipCrown_along hP]
        have h3 : (crown.1.translate v).faces = crown.1.faces := rfl
        rw [h3]
        split
        · cases clipCrown tol P crown.1 (m.whereFaces fun f => !(m.facesOn tol P .above f || m.facesOn tol P .below f)) with
          | none => rfl
          | some c =>
            simp only [Option.map_some, Tree.merged, assembled_translate]
            cases (Tree.node .plain [.leaf lower.1, .leaf c.1]).assembled with
            | none => rfl
            | some a =>
              simp only [Option.map_some, mergeDuplicates_translate hs hc]
              cases a.mergeDuplicates sort atol <;> rfl
        · rfl
  have hsides : (m.translate v).vertices.map (fun p => sideOf tol (P.distanceToPoint p)) =
      m.vertices.map fun p => sideOf tol (P.distanceToPoint p) := by
    simp only [Mesh.translate, List.map_map, Function.comp_def, distance_along hP]
  have hlen : (m.translate v).vertices.length = m.vertices.length := by simp [Mesh.translate]
  have hend : ∀ o : Option (Mesh (V3 ℝ) × List ℕ),
      ((o.map fun r => (r.1.translate v, r.2)).bind fun c => c.1.removeUnusedVertices.map fun r => (r.removeDegeneratedFaces rtol, c.2)) =
      (o.bind fun c => c.1.removeUnusedVertices.map fun r => (r.removeDegeneratedFaces rtol, c.2)).map
        fun r => (r.1.translate v, r.2) := by
    intro o
    cases o with
    | none => rfl
    | some c =>
      simp only [Option.map_some, Option.bind_some, removeUnused_translate, Option.map_map, Function.comp_def,
        removeDegenerated_translate]
  rw [Mesh.clip, Mesh.clip]
  simp only [hsides, hlen, hparts]
  rw [← hend]
  congr 1
  split
  · rfl
  · split
    · rfl
    · rfl

/-! ## Symmetric meshes -/

theorem clipLeaf_along (sort : (ℕ → ℝ) → List ℕ → List ℕ) (hs : ArgSort sort) (hc : Comparing sort) (atol tol rtol : ℝ)
    (P : Plane) (v : V3 ℝ) (hP : dot v P.normal = 0) (m : Mesh (V3 ℝ)) :
    (clipLeaf sort atol tol rtol P (m.translate v)).1 = ((clipLeaf sort atol tol rtol P m).1).translate v := by
  rw [clipLeaf, clipLeaf, clip_along sort hs hc atol tol rtol P v hP m]
  cases m.clip sort atol tol rtol P with
  | none => simp [Mesh.translate]
  | some r => rfl

/-- C93: a mesh with a translational symmetry along the plane keeps the promise of its class when it is clipped,
wherever the plane cuts the panels. -/
theorem clip_translational (sort : (ℕ → ℝ) → List ℕ → List ℕ) (hs : ArgSort sort) (hc : Comparing sort) (atol tol rtol : ℝ)
    (P : Plane) (w : V3 ℝ) (hP : dot w P.normal = 0) {t : Tree} {rest : List Tree}
    (hsl : Sliced (.node (.translation w) (t :: rest))) (hin : (Tree.node (.translation w) (t :: rest)).Inhabited)
    (hv : ∀ m ∈ t.leaves, (clipLeaf sort atol tol rtol P m).1.Valid) :
    ((∀ m ∈ t.leaves, (clipLeaf sort atol tol rtol P m).1.faces = []) ∧
      ((Tree.node (.translation w) (t :: rest)).clip (clipLeaf sort atol tol rtol P)).1 =
        .node (.translation w) [.leaf ⟨[], []⟩]) ∨
    ∃ ps, ((Tree.node (.translation w) (t :: rest)).clip (clipLeaf sort atol tol rtol P)).1 = .node (.translation w) ps ∧
      KeepsPromise (.translation w) (rest.length + 1) ps ∧
      ∀ u, ps[0]? = some u → u.shapes = t.leaves.flatMap (fun m => (clipLeaf sort atol tol rtol P m).1.shapes) ∧
        u.shapes ≠ [] := by
  have hk : ∀ k : ℕ, dot ((k : ℝ) • w) P.normal = 0 := by
    intro k
    have h : dot ((k : ℝ) • w) P.normal = k * dot w P.normal := by simp [dot]; ring
    rw [h, hP, mul_zero]
  have hmove : ∀ m (k n : ℕ), (clipLeaf sort atol tol rtol P (((Sym.translation w).step n (k + 1)).mesh m)).1 =
      ((Sym.translation w).step n (k + 1)).mesh (clipLeaf sort atol tol rtol P m).1 := by
    intro m k n
    exact clipLeaf_along sort hs hc atol tol rtol P _ (hk (k + 1)) m
  refine clip_symmetric (clipLeaf sort atol tol rtol P) (by simp) hsl hin ?_ ?_
  · intro m hm
    rw [leaves_symmetric (by simp) hsl] at hm
    rcases List.mem_append.mp hm with hm | hm
    · exact hv m hm
    · obtain ⟨k, -, hm⟩ := List.mem_flatMap.mp hm
      obtain ⟨m', hm', rfl⟩ := List.mem_map.mp hm
      rw [hmove]
      exact moved_valid (hv m' hm')
  · intro m _ k _
    rw [hmove, moved_shapes]

/-! ## Meshes that the plane does not cross -/

/-- No panel is much smaller than the others (`meshes/quality.py:337-367`). -/
def Even (rtol : ℝ) (m : Mesh (V3 ℝ)) : Prop := ∀ f ∈ m.faces, ¬ Tiny rtol m f

theorem shapes_of_panels {m r : Mesh (V3 ℝ)} (h1 : r.panels = m.panels)
    (h2 : r.faces.map Face.isTriangle = m.faces.map Face.isTriangle) : r.shapes = m.shapes := by
  have hz : ∀ x : Mesh (V3 ℝ), x.shapes = (x.faces.map Face.isTriangle).zip x.panels := by
    intro x
    rw [Mesh.panels, Mesh.shapes, List.zip_map']
  rw [hz, hz, h1, h2]

theorem even_iff (rtol : ℝ) (m : Mesh (V3 ℝ)) :
    Even rtol m ↔ ∀ x, some x ∈ m.faceProps → ¬ x.1.area < m.meanArea * rtol := by
  constructor
  · intro h x hx hlt
    obtain ⟨f, hf, hfx⟩ := List.mem_map.mp hx
    exact h f hf ⟨x, hfx, hlt⟩
  · rintro h f hf ⟨x, hx, hlt⟩
    exact h x (List.mem_map.mpr ⟨f, hf, hx⟩) hlt

theorem even_shapes {rtol : ℝ} {m r : Mesh (V3 ℝ)} (h : r.shapes = m.shapes) (he : Even rtol m) : Even rtol r := by
  have hp : r.faceProps = m.faceProps := by rw [faceProps_shapes, faceProps_shapes, h]
  have hl : r.faces.length = m.faces.length := by
    have := congrArg List.length h
    simpa [Mesh.shapes] using this
  rw [even_iff] at he ⊢
  rwa [Mesh.meanArea, hp, hl, ← Mesh.meanArea]

/-- A mesh under the plane, or on it, keeps all its panels. -/
theorem clip_wet (sort : (ℕ → ℝ) → List ℕ → List ℕ) (atol tol rtol : ℝ) (P : Plane) (m : Mesh (V3 ℝ)) (hm : m.Valid)
    (hne : m.vertices ≠ []) (he : Even rtol m)
    (hw : ∀ p ∈ m.vertices, sideOf tol (P.distanceToPoint p) = .below ∨ sideOf tol (P.distanceToPoint p) = .on) :
    ∃ r, m.clip sort atol tol rtol P = some (r, List.range m.faces.length) ∧ r.shapes = m.shapes ∧ r.Valid := by
  classical
  have h2 : (m.vertices.map fun p => sideOf tol (P.distanceToPoint p)).count .below +
      (m.vertices.map fun p => sideOf tol (P.distanceToPoint p)).count .on = m.vertices.length := by
    have := (count_two (m.vertices.map fun p => sideOf tol (P.distanceToPoint p)) .below .on (by simp)).mpr (by
      intro x hx
      obtain ⟨p, hp, rfl⟩ := List.mem_map.mp hx
      exact hw p hp)
    rwa [List.length_map] at this
  have h1 : (m.vertices.map fun p => sideOf tol (P.distanceToPoint p)).count .above ≠ m.vertices.length := by
    intro h
    obtain ⟨p, hp⟩ := List.exists_mem_of_ne_nil _ hne
    have h0 : (m.vertices.map fun p => sideOf tol (P.distanceToPoint p)).count .above = 0 := by
      rw [List.count_eq_zero]
      intro hx
      obtain ⟨p, hp, hpx⟩ := List.mem_map.mp hx
      rcases hw p hp with h | h <;> rw [h] at hpx <;> cases hpx
    rw [h0] at h
    exact hne (List.eq_nil_of_length_eq_zero h.symm)
  obtain ⟨r, hr, hp, ht, -, -⟩ := remove_unused_vertices m hm
  have hsh := shapes_of_panels hp ht
  have hrd := remove_degenerated_eq rtol r (even_shapes hsh he)
  refine ⟨r, ?_, hsh, ?_⟩
  · rw [Mesh.clip]
    rw [if_neg h1, if_pos h2, Option.bind_some, hr, Option.map_some, hrd]
  · intro f hf i hi
    obtain ⟨L, hL⟩ := shapes_exist hm
    have hmem : (f.isTriangle, corners r.vertices f) ∈ m.shapes := by
      rw [← hsh]
      exact List.mem_map.mpr ⟨f, hf, rfl⟩
    obtain ⟨g, hg, hgf⟩ := List.mem_map.mp hmem
    obtain ⟨c, hc⟩ := corners_some (hm g hg)
    have : corners r.vertices f = some c := by
      rw [← hc]
      exact (congrArg Prod.snd hgf).symm
    obtain ⟨ha, hb, hc', hd, -⟩ := corners_lt this
    simp only [Face.toList, List.mem_cons, List.not_mem_nil, or_false] at hi
    rcases hi with rfl | rfl | rfl | rfl
    · exact (List.getElem?_eq_some_iff.mp ha).1
    · exact (List.getElem?_eq_some_iff.mp hb).1
    · exact (List.getElem?_eq_some_iff.mp hc').1
    · exact (List.getElem?_eq_some_iff.mp hd).1

/-- A mesh above the plane loses all its panels. -/
theorem clip_dry (sort : (ℕ → ℝ) → List ℕ → List ℕ) (atol tol rtol : ℝ) (P : Plane) (m : Mesh (V3 ℝ))
    (hw : ∀ p ∈ m.vertices, sideOf tol (P.distanceToPoint p) = .above) :
    m.clip sort atol tol rtol P = some (⟨[], []⟩, []) := by
  classical
  have h1 : (m.vertices.map fun p => sideOf tol (P.distanceToPoint p)).count .above = m.vertices.length := by
    have h : (m.vertices.map fun p => sideOf tol (P.distanceToPoint p)).count .above =
        (m.vertices.map fun p => sideOf tol (P.distanceToPoint p)).length := by
      rw [List.count_eq_length]
      intro x hx
      obtain ⟨p, hp, rfl⟩ := List.mem_map.mp hx
      exact (hw p hp).symm
    rwa [List.length_map] at h
  rw [Mesh.clip, if_pos h1]
  simp [Mesh.removeUnusedVertices, usedIds, Mesh.removeDegeneratedFaces]

/-- The plane does not cross the mesh. -/
def Clear (tol : ℝ) (P : Plane) (m : Mesh (V3 ℝ)) : Prop :=
  (∀ p ∈ m.vertices, sideOf tol (P.distanceToPoint p) = .above) ∨
  (m.vertices ≠ [] ∧ ∀ p ∈ m.vertices, sideOf tol (P.distanceToPoint p) = .below ∨ sideOf tol (P.distanceToPoint p) = .on)

/-- C93: any symmetric mesh whose motions are along the plane, and that the plane does not cross, keeps the promise of
its class when it is clipped. -/
theorem clip_clear (sort : (ℕ → ℝ) → List ℕ → List ℕ) (atol tol rtol : ℝ) (P : Plane) {s : Sym} (hs : s ≠ .plain)
    {t : Tree} {rest : List Tree} (hsl : Sliced (.node s (t :: rest))) (hin : (Tree.node s (t :: rest)).Inhabited)
    (hd : ∀ k < rest.length, ∀ p, P.distanceToPoint ((s.step (rest.length + 1) (k + 1)).point p) = P.distanceToPoint p)
    (hv : ∀ m ∈ t.leaves, m.Valid ∧ Clear tol P m)
    (he : ∀ m ∈ (Tree.node s (t :: rest)).leaves, Even rtol m) :
    ((Tree.node s (t :: rest)).clip (clipLeaf sort atol tol rtol P)).1 = .node s [.leaf ⟨[], []⟩] ∨
    ∃ ps, ((Tree.node s (t :: rest)).clip (clipLeaf sort atol tol rtol P)).1 = .node s ps ∧
      KeepsPromise s (rest.length + 1) ps := by
  have hlv := leaves_symmetric hs hsl
  have hcl : ∀ m, m.Valid → Clear tol P m → Even rtol m → (clipLeaf sort atol tol rtol P m).1.Valid ∧
      ((∀ p ∈ m.vertices, sideOf tol (P.distanceToPoint p) = .above) → (clipLeaf sort atol tol rtol P m).1.shapes = []) ∧
      ((m.vertices ≠ [] ∧ ∀ p ∈ m.vertices, sideOf tol (P.distanceToPoint p) = .below ∨
        sideOf tol (P.distanceToPoint p) = .on) → (clipLeaf sort atol tol rtol P m).1.shapes = m.shapes) := by
    intro m h1 h2 h3
    have hdry : (∀ p ∈ m.vertices, sideOf tol (P.distanceToPoint p) = .above) →
        clipLeaf sort atol tol rtol P m = (⟨[], []⟩, []) := by
      intro h
      rw [clipLeaf, clip_dry sort atol tol rtol P m h]
      rfl
    have hwet : (m.vertices ≠ [] ∧ ∀ p ∈ m.vertices, sideOf tol (P.distanceToPoint p) = .below ∨
        sideOf tol (P.distanceToPoint p) = .on) → (clipLeaf sort atol tol rtol P m).1.shapes = m.shapes ∧
        (clipLeaf sort atol tol rtol P m).1.Valid := by
      rintro ⟨h, h'⟩
      obtain ⟨r, hr, hr', hr''⟩ := clip_wet sort atol tol rtol P m h1 h h3 h'
      rw [clipLeaf, hr]
      exact ⟨hr', hr''⟩
    refine ⟨?_, fun h => by rw [hdry h]; rfl, fun h => (hwet h).1⟩
    rcases h2 with h | h
    · rw [hdry h]
      exact empty_valid
    · exact (hwet h).2
  have hpt : ∀ (μ : Motion) (m : Mesh (V3 ℝ)), (μ.mesh m).vertices = m.vertices.map μ.point := fun μ m => by rw [mesh_eq]
  have habove : ∀ k < rest.length, ∀ m : Mesh (V3 ℝ), (∀ p ∈ m.vertices, sideOf tol (P.distanceToPoint p) = .above) →
      ∀ p ∈ ((s.step (rest.length + 1) (k + 1)).mesh m).vertices, sideOf tol (P.distanceToPoint p) = .above := by
    intro k hk m h p hp
    rw [hpt] at hp
    obtain ⟨q, hq, rfl⟩ := List.mem_map.mp hp
    rw [hd k hk q]
    exact h q hq
  have hbelow : ∀ k < rest.length, ∀ m : Mesh (V3 ℝ), (m.vertices ≠ [] ∧ ∀ p ∈ m.vertices,
      sideOf tol (P.distanceToPoint p) = .below ∨ sideOf tol (P.distanceToPoint p) = .on) →
      ((s.step (rest.length + 1) (k + 1)).mesh m).vertices ≠ [] ∧ ∀ p ∈ ((s.step (rest.length + 1) (k + 1)).mesh m).vertices,
      sideOf tol (P.distanceToPoint p) = .below ∨ sideOf tol (P.distanceToPoint p) = .on := by
    intro k hk m h
    rw [hpt]
    refine ⟨by simpa using h.1, fun p hp => ?_⟩
    obtain ⟨q, hq, rfl⟩ := List.mem_map.mp hp
    rw [hd k hk q]
    exact h.2 q hq
  have hclear : ∀ k < rest.length, ∀ m : Mesh (V3 ℝ), Clear tol P m →
      Clear tol P ((s.step (rest.length + 1) (k + 1)).mesh m) := by
    intro k hk m h
    rcases h with h | h
    · exact Or.inl (habove k hk m h)
    · exact Or.inr (hbelow k hk m h)
  have hmem : ∀ k < rest.length, ∀ m ∈ t.leaves,
      (s.step (rest.length + 1) (k + 1)).mesh m ∈ (Tree.node s (t :: rest)).leaves := by
    intro k hk m hm
    rw [hlv]
    exact List.mem_append_right _ (List.mem_flatMap.mpr ⟨k, List.mem_range.mpr hk, List.mem_map.mpr ⟨m, hm, rfl⟩⟩)
  have hmem0 : ∀ m ∈ t.leaves, m ∈ (Tree.node s (t :: rest)).leaves := by
    intro m hm
    rw [hlv]
    exact List.mem_append_left _ hm
  refine (clip_symmetric (clipLeaf sort atol tol rtol P) hs hsl hin ?_ ?_).imp (fun h => h.2)
    fun ⟨ps, h1, h2, _⟩ => ⟨ps, h1, h2⟩
  · intro m hm
    have hm' := hm
    rw [hlv] at hm'
    rcases List.mem_append.mp hm' with h | h
    · exact (hcl m (hv m h).1 (hv m h).2 (he m hm)).1
    · obtain ⟨k, hk, h⟩ := List.mem_flatMap.mp h
      obtain ⟨m', h', rfl⟩ := List.mem_map.mp h
      exact (hcl _ (moved_valid (hv m' h').1) (hclear k (List.mem_range.mp hk) m' (hv m' h').2) (he _ hm)).1
  · intro m hm k hk
    have a := hcl m (hv m hm).1 (hv m hm).2 (he m (hmem0 m hm))
    have b := hcl _ (moved_valid (hv m hm).1) (hclear k hk m (hv m hm).2) (he _ (hmem k hk m hm))
    rcases (hv m hm).2 with h | h
    · rw [a.2.1 h, b.2.1 (habove k hk m h), List.map_nil]
    · rw [a.2.2 h, b.2.2 (hbelow k hk m h), moved_shapes]

/-! ## Where the promise is lost -/

/-- C93 does not hold for a mesh with a repeated part which is above the free surface: what is left cannot be copied
any more, so nothing can be done with it but in place (`AssertionError` on the number of repetitions). -/
theorem clip_copy_violated (s : Sym) (hs : s ≠ .plain) (hr : ∀ P, s ≠ .reflection P) :
    (Tree.node s [.leaf ⟨[], []⟩]).copy = none := by
  rw [Tree.copy, depth_symmetric hs, copyN_symmetric hs, recopy]
  simp only [Tree.depth, Tree.copyN, List.length_nil, Nat.zero_add]
  have : s.repetitions 1 = 0 := by
    cases s with
    | reflection P => exact absurd rfl (hr P)
    | _ => rfl
  rw [this, mkSymmetric, if_neg (by omega)]

/-- A triangle on the side of the positive `x`. -/
noncomputable def sideTriangle : Mesh (V3 ℝ) := ⟨[⟨1, 0, -1⟩, ⟨2, 0, -1⟩, ⟨1, 0, -2⟩], [⟨0, 1, 2, 0⟩]⟩

theorem even_single (vs : List (V3 ℝ)) (f : Face) (rtol : ℝ) (h : rtol ≤ 1) : Even rtol ⟨vs, [f]⟩ := by
  intro g hg
  rw [List.mem_singleton] at hg
  subst hg
  rintro ⟨x, hx, hlt⟩
  have hx : faceProperties vs g = some x := hx
  have hm : (⟨vs, [g]⟩ : Mesh (V3 ℝ)).meanArea = x.1.area := by
    simp [Mesh.meanArea, Mesh.faceProps, hx]
  have h0 := area_nonneg hx
  rw [hm] at hlt
  nlinarith

/-- C93 does not hold when the plane is not along the motions of the symmetry: clipping a mesh symmetric with respect
to `x = 0` by the plane `x = 0` removes one of its two halves, the class of the mesh is kept, and the copy of the
result has the removed half again. -/
theorem clip_promise_violated : ∃ t r c : Tree, Built t ∧
    (t.clip (clipLeaf insertionSort (1 / 10 ^ 8) (1 / 10 ^ 12) (1 / 10 ^ 5) ⟨ex, 0⟩)).1 = r ∧
    t.shapes.length = 2 ∧ r.shapes.length = 1 ∧ r.copy = some c ∧ c.shapes.length = 2 := by
  classical
  have hu : Sym.Unit (.reflection ⟨ex, 0⟩) := by simp [Sym.Unit, ex, dot]
  have hacc : Sym.Accepted (.reflection ⟨ex, 0⟩) := by simp [Sym.Accepted, ex]
  have hmk : ∀ m : Mesh (V3 ℝ), mkSymmetric Tree.copy (.reflection ⟨ex, 0⟩) (.leaf m) 1 =
      some (.node (.reflection ⟨ex, 0⟩) [.leaf m, .leaf (m.mirror ⟨ex, 0⟩)]) := by
    intro m
    rw [mkSymmetric, if_pos ⟨hacc, le_rfl⟩, show Tree.copy (.leaf m) = some (.leaf m) from rfl, Option.map_some,
      sym_copy_unit hu]
    rfl
  have hlen : ∀ m : Mesh (V3 ℝ), (m.mirror ⟨ex, 0⟩).shapes.length = m.shapes.length := by
    intro m
    simp [Mesh.shapes, Mesh.mirror, Mesh.flipNormals]
  have hdry : clipLeaf insertionSort (1 / 10 ^ 8) (1 / 10 ^ 12) (1 / 10 ^ 5) ⟨ex, 0⟩ sideTriangle = (⟨[], []⟩, []) := by
    rw [clipLeaf, clip_dry]
    · rfl
    · intro p hp
      simp only [sideTriangle, List.mem_cons, List.not_mem_nil, or_false] at hp
      rcases hp with rfl | rfl | rfl <;> norm_num [Plane.distanceToPoint, ex, dot, sideOf]
  have hvalid : (sideTriangle.mirror ⟨ex, 0⟩).Valid := by
    intro f hf i hi
    simp [Mesh.mirror, Mesh.flipNormals, sideTriangle, Face.flip] at hf
    subst hf
    simp [Face.toList] at hi
    simp only [Mesh.mirror, Mesh.flipNormals, sideTriangle, List.length_map, List.length_cons, List.length_nil]
    omega
  obtain ⟨r, h1, h2, h3⟩ := clip_wet insertionSort (1 / 10 ^ 8) (1 / 10 ^ 12) (1 / 10 ^ 5) ⟨ex, 0⟩
    (sideTriangle.mirror ⟨ex, 0⟩) hvalid (by simp [Mesh.mirror, Mesh.flipNormals, sideTriangle])
    (even_single _ _ _ (by norm_num)) (by
      intro p hp
      simp only [Mesh.mirror, Mesh.flipNormals, sideTriangle, List.map_cons, List.map_nil, List.mem_cons,
        List.not_mem_nil, or_false] at hp
      left
      rcases hp with rfl | rfl | rfl <;>
        norm_num [Plane.distanceToPoint, Plane.mirrorPoint, Plane.c, ex, dot, sideOf])
  have hwet : (clipLeaf insertionSort (1 / 10 ^ 8) (1 / 10 ^ 12) (1 / 10 ^ 5) ⟨ex, 0⟩
      (sideTriangle.mirror ⟨ex, 0⟩)).1 = r := by
    rw [clipLeaf, h1]
    rfl
  have hrl : r.shapes.length = 1 := by rw [h2, hlen]; rfl
  have hclip : ((Tree.node (.reflection ⟨ex, 0⟩) [.leaf sideTriangle, .leaf (sideTriangle.mirror ⟨ex, 0⟩)]).clip
      (clipLeaf insertionSort (1 / 10 ^ 8) (1 / 10 ^ 12) (1 / 10 ^ 5) ⟨ex, 0⟩)).1 =
      .node (.reflection ⟨ex, 0⟩) [.leaf r] := by
    rw [Tree.clip]
    simp only [clipAll_eq, List.map_cons, List.map_nil, Tree.clip, hdry, hwet]
    have hrf : 0 < r.faces.length := by
      have : r.faces.length = r.shapes.length := by simp [Mesh.shapes]
      omega
    have hrv : 0 < r.vertices.length := by
      obtain ⟨f, hf⟩ := List.exists_mem_of_length_pos hrf
      have := h3 f hf f.a (by simp [Face.toList])
      omega
    simp [prune, Tree.nbFaces, Tree.nbVertices, hrf, hrv]
  refine ⟨_, _, .node (.reflection ⟨ex, 0⟩) [.leaf r, .leaf (r.mirror ⟨ex, 0⟩)],
    .symmetric _ (by simp) hu (.leaf sideTriangle) _ 1 (.leaf _) (by simp) (hmk _), hclip, ?_, ?_, ?_, ?_⟩
  · simp only [Tree.shapes, Tree.leaves, leavesAll, List.append_nil, List.cons_append, List.nil_append, List.flatMap_cons,
      List.flatMap_nil, List.length_append, hlen]
    rfl
  · simp only [Tree.shapes, Tree.leaves, leavesAll, List.append_nil, List.flatMap_cons, List.flatMap_nil, hrl]
  · rw [Tree.copy, depth_symmetric (by simp), copyN_symmetric (by simp), recopy]
    simp only [Tree.depth, Tree.copyN, sym_passed_unit hu, Sym.repetitions]
    rw [mkSymmetric, if_pos ⟨hacc, le_rfl⟩]
    simp only [Tree.copyN, Option.map_some, sym_copy_unit hu, Tree.move]
    rfl
  · simp only [Tree.shapes, Tree.leaves, leavesAll, List.append_nil, List.cons_append, List.nil_append, List.flatMap_cons,
      List.flatMap_nil, List.length_append, hlen, hrl]


theorem orderedInsert_congr (r r' : ℕ → ℕ → Prop) [DecidableRel r] [DecidableRel r'] (a : ℕ) (l : List ℕ)
    (h : ∀ b ∈ l, r a b ↔ r' a b) : l.orderedInsert r a = l.orderedInsert r' a := by
  induction l with
  | nil => rfl
  | cons b l ih =>
    have ih := ih fun c hc => h c (List.mem_cons_of_mem _ hc)
    rw [List.orderedInsert, List.orderedInsert, ih]
    exact if_congr (h b List.mem_cons_self) rfl rfl

theorem insertionSort_comparing : Comparing insertionSort := by
  classical
  intro val val' l h
  rw [insertionSort, insertionSort]
  induction l with
  | nil => rfl
  | cons a l ih =>
    have ih := ih fun i hi j hj => h i (List.mem_cons_of_mem _ hi) j (List.mem_cons_of_mem _ hj)
    rw [List.insertionSort_cons, List.insertionSort_cons, ih]
    refine orderedInsert_congr _ _ a _ fun b hb => ?_
    exact h a List.mem_cons_self b (List.mem_cons_of_mem _ ((List.perm_insertionSort _ _).subset hb))

/-- Concrete case of `clip_along`: a square half under the free surface, moved along it. -/
example : (halfSunk.translate ⟨3, 0, 0⟩).clip insertionSort (1 / 10 ^ 8) (1 / 10 ^ 12) (1 / 10 ^ 5) freeSurface =
    (halfSunk.clip insertionSort (1 / 10 ^ 8) (1 / 10 ^ 12) (1 / 10 ^ 5) freeSurface).map
      fun r => (r.1.translate ⟨3, 0, 0⟩, r.2) :=
  clip_along _ insertionSort_argSort insertionSort_comparing _ _ _ _ _ (by simp [freeSurface, dot]) _

/-- Concrete case of `clip_translational`, and with it of `clip_symmetric`: two such squares. The plane crosses the
panels. -/
example : ∃ ps, ((Tree.node (.translation ⟨3, 0, 0⟩) [.leaf halfSunk, .leaf (halfSunk.translate ⟨3, 0, 0⟩)]).clip
      (clipLeaf insertionSort (1 / 10 ^ 8) (1 / 10 ^ 12) 0 freeSurface)).1 = .node (.translation ⟨3, 0, 0⟩) ps ∧
    KeepsPromise (.translation ⟨3, 0, 0⟩) 2 ps ∧ ∀ u, ps[0]? = some u → u.shapes ≠ [] := by
  have hstep : (Sym.translation ⟨3, 0, 0⟩).step 2 1 = .translate ⟨3, 0, 0⟩ := by
    simp only [Sym.step, Nat.cast_one, Motion.translate.injEq]
    ext <;> simp
  have hsl : Sliced (.node (.translation ⟨3, 0, 0⟩) [.leaf halfSunk, .leaf (halfSunk.translate ⟨3, 0, 0⟩)]) := by
    refine .symmetric _ (by simp) (show Sym.Unit (.translation _) from trivial) _ _ (.leaf _) (by simp) (by simp) ?_
    intro k u hu
    rcases k with _ | k
    · simp only [List.getElem?_cons_zero, Option.some.injEq] at hu
      subst hu
      simp only [Tree.leaves, List.map_cons, List.map_nil, List.length_cons, List.length_nil, Nat.zero_add, Nat.reduceAdd,
        hstep, Motion.mesh]
    · simp at hu
  obtain ⟨r, ids, E, h1, h2, h3, -⟩ := clip_mesh_partial insertionSort insertionSort_argSort (atol := 1 / 10 ^ 8)
    (tol := 1 / 10 ^ 12) (by norm_num) (by norm_num) 0 freeSurface halfSunk halfSunk_valid _ halfSunk_shapes
    halfSunk_sharp halfSunk_clippable
  have htiny : ∀ f ∈ r.faces, ¬ Tiny 0 r f := by
    rintro f - ⟨x, hx, hx'⟩
    rw [mul_zero] at hx'
    exact absurd (area_nonneg hx) (not_le.mpr hx')
  have hleaf : (clipLeaf insertionSort (1 / 10 ^ 8) (1 / 10 ^ 12) 0 freeSurface halfSunk).1 = r := by
    rw [clipLeaf, h1, remove_degenerated_eq 0 r htiny]
    rfl
  have hsome : r.faces ≠ [] := by
    intro h0
    have hn := h2.near
    rw [Mesh.panels, h0, List.map_nil, List.forall₂_nil_right_iff] at hn
    have hp : (⟨0, 0, -1⟩ : V3 ℝ) ∈ partOf E 0 := by
      rw [h3 0 _ rfl, if_neg, kept_of_mem (p := ⟨0, 0, -1⟩) (by simp [ring]) (by rw [freeSurface_dist]; norm_num)]
      · refine ⟨⟨1, 0, 0, 0, by norm_num, le_rfl, le_rfl, le_rfl, by norm_num, ?_⟩, ?_⟩
        · ext <;> simp
        · show freeSurface.distanceToPoint _ ≤ 0
          rw [freeSurface_dist]
          norm_num
      · intro h
        have := h ⟨0, 0, 1⟩ (by simp [halfSunk])
        rw [freeSurface_dist] at this
        norm_num at this
    obtain ⟨e, he, -⟩ := hp
    rw [hn] at he
    cases he
  rcases clip_translational insertionSort insertionSort_argSort insertionSort_comparing (1 / 10 ^ 8) (1 / 10 ^ 12) 0
    freeSurface ⟨3, 0, 0⟩ (by simp [freeSurface, dot]) hsl ⟨by simp, trivial, trivial, trivial⟩ (by
      intro m hm
      rw [Tree.leaves, List.mem_singleton] at hm
      subst hm
      rw [hleaf]
      exact h2.valid) with ⟨h, -⟩ | ⟨ps, hp, hk, hu⟩
  · have := h halfSunk (by simp [Tree.leaves])
    rw [hleaf] at this
    exact absurd this hsome
  · exact ⟨ps, hp, hk, fun u h => (hu u h).2⟩

/-- Concrete case of `clip_clear`: two triangles under the free surface, symmetric with respect to `x = 0`. -/
example : ∃ ps, ((Tree.node (.reflection ⟨ex, 0⟩) [.leaf sideTriangle, .leaf (sideTriangle.mirror ⟨ex, 0⟩)]).clip
      (clipLeaf insertionSort (1 / 10 ^ 8) (1 / 10 ^ 12) (1 / 10 ^ 5) freeSurface)).1 = .node (.reflection ⟨ex, 0⟩) ps ∧
    (ps.length = 1 ∨ KeepsPromise (.reflection ⟨ex, 0⟩) 2 ps) := by
  have hu : Sym.Unit (.reflection ⟨ex, 0⟩) := by simp [Sym.Unit, ex, dot]
  have hsl : Sliced (.node (.reflection ⟨ex, 0⟩) [.leaf sideTriangle, .leaf (sideTriangle.mirror ⟨ex, 0⟩)]) := by
    refine .symmetric _ (by simp) hu _ _ (.leaf _) (by simp) (by simp) ?_
    intro k u hu
    rcases k with _ | k
    · simp only [List.getElem?_cons_zero, Option.some.injEq] at hu
      subst hu
      rfl
    · simp at hu
  rcases clip_clear insertionSort (1 / 10 ^ 8) (1 / 10 ^ 12) (1 / 10 ^ 5) freeSurface (by simp) hsl
    ⟨by simp, trivial, trivial, trivial⟩ (by
      intro k _ p
      simp [Sym.step, Motion.point, freeSurface_dist, Plane.mirrorPoint, ex]) (by
      intro m hm
      rw [Tree.leaves, List.mem_singleton] at hm
      subst hm
      refine ⟨?_, Or.inr ⟨by simp [sideTriangle], ?_⟩⟩
      · intro f hf i hi
        simp [sideTriangle] at hf
        subst hf
        simp [Face.toList] at hi
        simp only [sideTriangle, List.length_cons, List.length_nil]
        omega
      · intro p hp
        simp only [sideTriangle, List.mem_cons, List.not_mem_nil, or_false] at hp
        rcases hp with rfl | rfl | rfl <;> norm_num [freeSurface_dist, sideOf]) (by
      intro m hm
      simp only [Tree.leaves, leavesAll, List.append_nil, List.cons_append, List.nil_append, List.mem_cons,
        List.not_mem_nil, or_false] at hm
      rcases hm with rfl | rfl <;> exact even_single _ _ _ (by norm_num)) with h | ⟨ps, h, h'⟩
  · exact ⟨_, h, Or.inl rfl⟩
  · exact ⟨ps, h, Or.inr h'⟩

/-- Concrete case of `clip_copy_violated`. -/
example : (Tree.node (.translation ⟨3, 0, 0⟩) [.leaf ⟨[], []⟩]).copy = none :=
  clip_copy_violated _ (by simp) (by simp)

end Verif.Meshes
