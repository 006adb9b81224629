import Verif.Meshes.HealMeshModel
import Verif.Meshes.ClipMeshProps
import Verif.Meshes.HealProps

/-!
# C143: what `heal_mesh` leaves, and healing twice
-/

namespace Verif.Meshes

open Verif.Geometry V3

/-! ## Specification -/

open Classical in
/-- The panels of a mesh that are not tiny, in order. -/
noncomputable def Mesh.bigPanels (rtol : ℝ) (m : Mesh (V3 ℝ)) : List (Option (V3 ℝ × V3 ℝ × V3 ℝ × V3 ℝ)) :=
  (m.faces.filter fun f => decide (¬ Tiny rtol m f)).map (corners m.vertices)

/-- Every vertex belongs to a panel. -/
def AllUsed {V : Type} (m : Mesh V) : Prop := ∀ k, k < m.vertices.length → ∃ f ∈ m.faces, k ∈ f.toList

/-! ## Lemmas -/

/-- The mean area and the panels that are removed only depend on the shapes of the panels. -/
theorem meanArea_shapes {m m' : Mesh (V3 ℝ)} (h : m'.shapes = m.shapes) : m'.meanArea = m.meanArea := by
  have h1 : m'.faceProps = m.faceProps := by
    have : ∀ m : Mesh (V3 ℝ), m.faceProps = m.shapes.map fun s =>
        s.2.map fun c => (panelOf s.1 c, radiusOf (panelOf s.1 c).center c) := by
      intro m
      simp [Mesh.faceProps, Mesh.shapes, faceProperties, Function.comp_def]
    rw [this, this, h]
  have h2 : m'.faces.length = m.faces.length := by
    have := congrArg List.length h
    simpa [Mesh.shapes] using this
  rw [Mesh.meanArea, Mesh.meanArea, h1, h2]

theorem bigPanels_shapes {rtol : ℝ} {m m' : Mesh (V3 ℝ)} (h : m'.shapes = m.shapes) :
    m'.bigPanels rtol = m.bigPanels rtol := by
  classical
  have : ∀ m : Mesh (V3 ℝ), m.bigPanels rtol = (m.shapes.filter fun s => decide (¬ ∃ x,
      (s.2.map fun c => (panelOf s.1 c, radiusOf (panelOf s.1 c).center c)) = some x ∧
        x.1.area < m.meanArea * rtol)).map Prod.snd := by
    intro m
    rw [Mesh.shapes, List.filter_map, List.map_map]
    refine congrArg (List.map (corners m.vertices)) (List.filter_congr fun f _ => ?_)
    exact decide_eq_decide.mpr Iff.rfl
  rw [this, this, h, meanArea_shapes h]

theorem removeDegenerated_panels (rtol : ℝ) (m : Mesh (V3 ℝ)) :
    (m.removeDegeneratedFaces rtol).panels = m.bigPanels rtol := by
  classical
  rw [Mesh.panels, Mesh.removeDegeneratedFaces, Mesh.bigPanels]
  congr 1
  refine List.filter_congr fun f _ => ?_
  rw [Bool.eq_iff_iff]
  cases h : faceProperties m.vertices f with
  | none => simp [Tiny, h]
  | some x => simp [Tiny, h]

theorem removeDegenerated_valid {rtol : ℝ} {m : Mesh (V3 ℝ)} (h : m.Valid) : (m.removeDegeneratedFaces rtol).Valid :=
  fun f hf => h f (List.mem_of_mem_filter hf)

/-- Removing the unused vertices: what is needed of the other steps. -/
theorem removeUnused_all (m : Mesh (V3 ℝ)) (hm : m.Valid) :
    ∃ m', m.removeUnusedVertices = some m' ∧ m'.shapes = m.shapes ∧ m'.Valid ∧ AllUsed m' ∧
      ∀ x, x ∈ m'.vertices ↔ ∃ f ∈ m.faces, ∃ i ∈ f.toList, m.vertices[i]? = some x := by
  obtain ⟨r', h1, h2, h3, h4, h5⟩ := remove_unused_vertices m hm
  refine ⟨r', h1, ?_, ?_, h4, h5⟩
  · have : ∀ m : Mesh (V3 ℝ), m.shapes = (m.faces.map Face.isTriangle).zip m.panels := by
      intro m
      rw [Mesh.shapes, Mesh.panels, List.zip_map']
    rw [this, this, h2, h3]
  · intro f hf
    obtain ⟨k, hk⟩ := List.mem_iff_getElem?.mp hf
    have hp : r'.panels[k]? = some (corners r'.vertices f) := by rw [Mesh.panels, List.getElem?_map, hk, Option.map_some]
    rw [h2, Mesh.panels, List.getElem?_map] at hp
    obtain ⟨g, hg, hg'⟩ := Option.map_eq_some_iff.mp hp
    obtain ⟨c, hc'⟩ := corners_some (hm g (List.mem_of_getElem? hg))
    rw [hc'] at hg'
    exact (corners_lt hg'.symm).2.2.2.2

/-- Merging does not add unused vertices. -/
theorem merge_used (sort : (ℕ → ℝ) → List ℕ → List ℕ) (hs : ArgSort sort) {atol : ℝ} (ha : 0 ≤ atol)
    (m : Mesh (V3 ℝ)) (hm : m.Valid) (hv : m.vertices ≠ []) {m' : Mesh (V3 ℝ)} {ids : List ℕ}
    (h : m.mergeDuplicates sort atol = some (m', ids)) (hu : AllUsed m) : AllUsed m' := by
  obtain ⟨vs, ids', h1, h2, -, -, -, h6, -⟩ := merge_rows (sort := sort) (atol := atol)
    (rows := m.vertices) (coords := [V3.x, V3.y, V3.z]) hs ha hv
  obtain ⟨fs, h8, h9, h10⟩ := mapM_total (Face.lookup ids') m.faces fun f hf =>
    lookup_total fun i hi => h2 ▸ hm f hf i hi
  simp only [Mesh.mergeDuplicates, h1, h8, Option.some.injEq, Prod.mk.injEq] at h
  obtain ⟨rfl, rfl⟩ := h
  intro k hk
  obtain ⟨i, hi, hik⟩ := h6 k _ (List.getElem?_eq_getElem hk)
  obtain ⟨f, hf, hif⟩ := hu i (List.getElem?_eq_some_iff.mp hi).1
  obtain ⟨n, hn⟩ := List.mem_iff_getElem?.mp hf
  obtain ⟨l, hl⟩ := List.mem_iff_getElem?.mp hif
  have hn' : n < fs.length := h9 ▸ (List.getElem?_eq_some_iff.mp hn).1
  obtain ⟨j, hj, hj'⟩ := lookup_corner (h10 n f _ hn (List.getElem?_eq_getElem hn')) l i hl
  rw [hik] at hj'
  cases hj'
  exact ⟨_, List.getElem_mem hn', List.mem_of_getElem? hj⟩

theorem healTriangles_used {V : Type} {m : Mesh V} : AllUsed m.healTriangles ↔ AllUsed m := by
  refine forall₂_congr fun k _ => ?_
  constructor
  · rintro ⟨f, hf, hk⟩
    obtain ⟨g, hg, rfl⟩ := List.mem_map.mp hf
    exact ⟨g, hg, (heal_triangles g).2.1.mem_iff.mp hk⟩
  · rintro ⟨f, hf, hk⟩
    exact ⟨f.heal, List.mem_map.mpr ⟨f, hf, rfl⟩, (heal_triangles f).2.1.mem_iff.mpr hk⟩

/-! ## What a healed mesh is -/

/-- Healing a valid mesh with at least one panel succeeds. The result has the panels that are not tiny, in the same
order, each with its corners moved by at most the tolerance and turned. Its vertices are vertices of panels of the
original mesh, and they are all different. -/
theorem heal_mesh_panels (sort : (ℕ → ℝ) → List ℕ → List ℕ) (hs : ArgSort sort) {atol : ℝ} (ha : 0 ≤ atol) (rtol : ℝ)
    (m : Mesh (V3 ℝ)) (hm : m.Valid) (hf : m.faces ≠ []) :
    ∃ r, m.healOpen sort atol rtol = some r ∧ r.Valid ∧ r.vertices.Nodup ∧
      (∀ v ∈ r.vertices, ∃ f ∈ m.faces, ∃ i ∈ f.toList, m.vertices[i]? = some v) ∧
      List.Forall₂ (fun o o' => ∃ c, o = some c ∧ NearPanel atol c o') (m.bigPanels rtol) r.panels ∧
      ((∀ f ∈ m.faces, ¬ Tiny rtol m f) → AllUsed r) := by
  obtain ⟨m1, k1, k2, k3, k4, k5⟩ := removeUnused_all m hm
  have hv1 : m1.vertices ≠ [] := by
    obtain ⟨f, hf'⟩ := List.exists_mem_of_ne_nil _ hf
    have := hm f hf' f.a (by simp [Face.toList])
    have hx := (k5 _).mpr ⟨f, hf', f.a, by simp [Face.toList], List.getElem?_eq_getElem this⟩
    exact List.ne_nil_of_mem hx
  have h2 := removeDegenerated_valid (rtol := rtol) k3
  obtain ⟨m3, ids, a1, a2, a3, a4, a5, a6, -⟩ := merge_duplicates sort hs atol ha _ h2 hv1
  refine ⟨m3.healTriangles, ?_, ?_, a3, ?_, ?_, ?_⟩
  · simp only [Mesh.healOpen, k1, a1]
  · intro f hf i hi
    obtain ⟨g, hg, rfl⟩ := List.mem_map.mp hf
    exact a2 g hg i ((heal_triangles g).2.1.mem_iff.mp hi)
  · exact fun v hv => (k5 v).mp (a4 v hv)
  · rw [← bigPanels_shapes k2, ← removeDegenerated_panels, Mesh.panels, Mesh.panels, List.forall₂_map_left_iff,
      List.forall₂_map_right_iff, Mesh.healTriangles, List.forall₂_map_right_iff, List.forall₂_iff_get]
    refine ⟨a5.symm, fun n hn hn' => ?_⟩
    simp only [List.get_eq_getElem]
    have key := a6 n _ _ (List.getElem?_eq_getElem hn) (List.getElem?_eq_getElem hn')
    obtain ⟨c, hc⟩ := corners_some (h2 _ (List.getElem_mem hn))
    obtain ⟨g, hg⟩ := corners_some (a2 _ (List.getElem_mem hn'))
    refine ⟨c, hc, ?_⟩
    obtain ⟨k, hk⟩ := (heal_triangles m3.faces[n]).1
    refine ⟨g, k, ?_, ?_⟩
    · rw [← corners_turn m3.vertices k _ _ hg, hk]
    · obtain ⟨c0, c1, c2, c3, -⟩ := corners_lt hc
      obtain ⟨g0, g1, g2, g3, -⟩ := corners_lt hg
      refine ⟨?_, ?_, ?_, ?_⟩
      · obtain ⟨j, v, w, j1, -, j3, j4, j5⟩ := key 0 _ rfl
        cases j1
        rw [c0] at j3
        rw [g0] at j4
        cases j3
        cases j4
        exact j5
      · obtain ⟨j, v, w, j1, -, j3, j4, j5⟩ := key 1 _ rfl
        cases j1
        rw [c1] at j3
        rw [g1] at j4
        cases j3
        cases j4
        exact j5
      · obtain ⟨j, v, w, j1, -, j3, j4, j5⟩ := key 2 _ rfl
        cases j1
        rw [c2] at j3
        rw [g2] at j4
        cases j3
        cases j4
        exact j5
      · obtain ⟨j, v, w, j1, -, j3, j4, j5⟩ := key 3 _ rfl
        cases j1
        rw [c3] at j3
        rw [g3] at j4
        cases j3
        cases j4
        exact j5
  · intro hbig
    rw [healTriangles_used]
    have hb1 : (m1.removeDegeneratedFaces rtol).faces = m1.faces := by
      refine List.Sublist.eq_of_length List.filter_sublist ?_
      have e1 := congrArg List.length (removeDegenerated_panels rtol m1)
      have e2 := congrArg List.length (bigPanels_shapes (rtol := rtol) k2)
      have e3 := congrArg List.length k2
      have e4 : (m.bigPanels rtol).length = m.faces.length := by
        rw [Mesh.bigPanels, List.length_map, List.length_filter_eq_length_iff]
        exact fun f hf => by simpa using hbig f hf
      simp only [Mesh.panels, Mesh.shapes, List.length_map] at e1 e3
      exact e1.trans (e2.trans (e4.trans e3.symm))
    refine merge_used sort hs ha _ h2 hv1 a1 ?_
    intro k hk
    obtain ⟨f, hf', h⟩ := k4 k hk
    exact ⟨f, hb1 ▸ hf', h⟩

/-- Healing a closed mesh: the vertices are those of the open case, the panels are the same up to a reversal of some of
them, and it adds no unused vertex. -/
theorem heal_mesh_closed {K W Q : Type} (sort : (ℕ → ℝ) → List ℕ → List ℕ) (atol rtol : ℝ) (o o' : Obj K W Q)
    (h : o.healMesh sort atol rtol true = some o') :
    ∃ r, o.mesh.healOpen sort atol rtol = some r ∧ o'.mesh.vertices = r.vertices ∧
      (∃ τ, Reversed τ r.faces o'.mesh.faces) ∧ (AllUsed o'.mesh ↔ AllUsed r) := by
  unfold Obj.healMesh at h
  split at h
  · cases h
  · rename_i r hr
    simp only [if_true] at h
    obtain ⟨h1, τ, h2⟩ := heal_normals_reverses _ _ h
    have h1' : o'.mesh.vertices = r.vertices := h1
    have h2' : Reversed τ r.faces o'.mesh.faces := h2
    have hmem : ∀ (b : Bool) (f : Face) (k : ℕ), k ∈ (f.flipIf b).toList ↔ k ∈ f.toList := by
      intro b f k
      cases b
      · rfl
      · rw [mem_toList, mem_toList]
        exact corner_flip f k
    refine ⟨r, hr, h1', ⟨τ, h2'⟩, ?_⟩
    unfold AllUsed
    rw [h1']
    refine forall₂_congr fun k _ => ?_
    constructor
    · rintro ⟨f, hf, hk⟩
      obtain ⟨n, hn⟩ := List.mem_iff_getElem?.mp hf
      rw [h2' n] at hn
      obtain ⟨g, hg, rfl⟩ := Option.map_eq_some_iff.mp hn
      exact ⟨g, List.mem_of_getElem? hg, (hmem _ _ _).mp hk⟩
    · rintro ⟨f, hf, hk⟩
      obtain ⟨n, hn⟩ := List.mem_iff_getElem?.mp hf
      have := h2' n
      rw [hn, Option.map_some] at this
      exact ⟨_, List.mem_of_getElem? this, (hmem _ _ _).mpr hk⟩

/-- Healing an open mesh, with its cache: nothing of the cache stays. -/
theorem heal_mesh_open {K W Q : Type} (sort : (ℕ → ℝ) → List ℕ → List ℕ) (atol rtol : ℝ) (o : Obj K W Q) :
    o.healMesh sort atol rtol false = (o.mesh.healOpen sort atol rtol).map fun r => .new r o.method := by
  unfold Obj.healMesh
  cases o.mesh.healOpen sort atol rtol with
  | none => rfl
  | some r => rfl

/-! ## Violations -/

/-- The vertices of a removed panel stay: the result has a vertex without any panel. -/
theorem heal_mesh_unused_violated (sort : (ℕ → ℝ) → List ℕ → List ℕ) (hs : ArgSort sort) :
    ∃ r, unequal.healOpen sort (1 / 10 ^ 8) (1 / 10 ^ 5) = some r ∧ ¬ AllUsed r := by
  classical
  have hused : unequal.removeUnusedVertices = some unequal := by
    have : usedIds 6 [⟨0, 1, 2, 0⟩, ⟨3, 4, 5, 3⟩] = [0, 1, 2, 3, 4, 5] := by decide
    simp [Mesh.removeUnusedVertices, unequal, this]
  obtain ⟨a1, a2, a3, a4⟩ := unequal_areas
  have hmean : unequal.meanArea = (1 / 2 + 1 / 2000000) / 2 := by
    have : unequal.faceProps = [faceProperties unequal.vertices ⟨0, 1, 2, 0⟩, faceProperties unequal.vertices ⟨3, 4, 5, 3⟩] := rfl
    rw [Mesh.meanArea, this, a1, a2]
    simp only [Option.map_some, List.filterMap_cons, List.filterMap_nil, a3, a4]
    norm_num [unequal]
  have hdeg : (unequal.removeDegeneratedFaces (1 / 10 ^ 5)).faces = [⟨0, 1, 2, 0⟩] := by
    have h1 : ¬ (1 / 2 : ℝ) < (1 / 2 + 1 / 2000000) / 2 * (1 / 10 ^ 5) := by norm_num
    have h2 : (1 / 2000000 : ℝ) < (1 / 2 + 1 / 2000000) / 2 * (1 / 10 ^ 5) := by norm_num
    rw [Mesh.removeDegeneratedFaces, hmean]
    simp only [show unequal.faces = [⟨0, 1, 2, 0⟩, ⟨3, 4, 5, 3⟩] from rfl]
    rw [List.filter_cons, List.filter_cons, List.filter_nil]
    simp only [a1, a2, a3, a4, h1, h2]
    simp
  have hdv : (unequal.removeDegeneratedFaces (1 / 10 ^ 5)).vertices = unequal.vertices := rfl
  obtain ⟨vs, ids, h1, h2, h3, -, h5, h6, -⟩ := merge_rows (sort := sort) (atol := 1 / 10 ^ 8)
    (rows := unequal.vertices) (coords := [V3.x, V3.y, V3.z]) hs (by norm_num) (by simp [unequal])
  have hlen : ids.length = 6 := h2
  have i0 : 0 < ids.length := by omega
  have i1 : 1 < ids.length := by omega
  have i2 : 2 < ids.length := by omega
  have hfs : [(⟨0, 1, 2, 0⟩ : Face)].mapM (Face.lookup ids) = some [⟨ids[0], ids[1], ids[2], ids[0]⟩] := by
    simp [Face.lookup, List.getElem?_eq_getElem i0, List.getElem?_eq_getElem i1, List.getElem?_eq_getElem i2]
  have hmerge : (unequal.removeDegeneratedFaces (1 / 10 ^ 5)).mergeDuplicates sort (1 / 10 ^ 8) =
      some (⟨vs, [⟨ids[0], ids[1], ids[2], ids[0]⟩]⟩, ids) := by
    simp only [Mesh.mergeDuplicates, hdv, hdeg, h1, hfs]
  refine ⟨Mesh.healTriangles ⟨vs, [⟨ids[0], ids[1], ids[2], ids[0]⟩]⟩, by simp only [Mesh.healOpen, hused, hmerge], ?_⟩
  rw [healTriangles_used]
  intro hu
  obtain ⟨k, w, hk, hw, -⟩ := h3 3 ⟨0, 0, -2⟩ rfl
  obtain ⟨f, hf, hkf⟩ := hu k (List.getElem?_eq_some_iff.mp hw).1
  simp only [List.mem_singleton] at hf
  subst hf
  have far : ∀ (i : ℕ) (v : V3 ℝ), unequal.vertices[i]? = some v → v.z = -1 → ids[i]? ≠ some k := by
    intro i v hv hz he
    have := h5 3 i ⟨0, 0, -2⟩ v rfl hv (hk.trans he.symm) V3.z (by simp)
    rw [hz] at this
    norm_num [abs_of_neg] at this
  simp only [Face.toList, List.mem_cons, List.not_mem_nil, or_false] at hkf
  rcases hkf with h | h | h | h
  · exact far 0 ⟨0, 0, -1⟩ rfl rfl (by rw [List.getElem?_eq_getElem i0, h])
  · exact far 1 ⟨1, 0, -1⟩ rfl rfl (by rw [List.getElem?_eq_getElem i1, h])
  · exact far 2 ⟨0, 1, -1⟩ rfl rfl (by rw [List.getElem?_eq_getElem i2, h])
  · exact far 0 ⟨0, 0, -1⟩ rfl rfl (by rw [List.getElem?_eq_getElem i0, h])

/-- A long triangle with a side shorter than the tolerance. -/
noncomputable def sliver : Mesh (V3 ℝ) := ⟨[⟨0, 0, 0⟩, ⟨1 / 10 ^ 9, 0, 0⟩, ⟨0, 1, 0⟩], [⟨0, 1, 2, 0⟩]⟩

/-- The panels that merging makes degenerated stay: the result has a panel with only two different corners. -/
theorem heal_mesh_flat_violated (sort : (ℕ → ℝ) → List ℕ → List ℕ) (hs : ArgSort sort) :
    ∃ r, sliver.healOpen sort (1 / 10 ^ 8) (1 / 10 ^ 5) = some r ∧ ∃ i j, r.faces = [⟨i, i, j, i⟩] ∧ i ≠ j := by
  classical
  have hused : sliver.removeUnusedVertices = some sliver := by
    have : usedIds 3 [⟨0, 1, 2, 0⟩] = [0, 1, 2] := by decide
    simp [Mesh.removeUnusedVertices, sliver, this]
  have hdeg : sliver.removeDegeneratedFaces (1 / 10 ^ 5) = sliver := by
    refine remove_degenerated_eq _ _ ?_
    rintro f hf ⟨x, hx, hlt⟩
    simp only [sliver, List.mem_singleton] at hf
    subst hf
    have hmean : sliver.meanArea = x.1.area := by
      have : sliver.faceProps = [faceProperties sliver.vertices ⟨0, 1, 2, 0⟩] := rfl
      rw [Mesh.meanArea, this, hx]
      simp [sliver]
    have hpos : 0 ≤ x.1.area := by
      have hx' : faceProperties sliver.vertices ⟨0, 1, 2, 0⟩ = some
        (trianglePanel ⟨0, 0, 0⟩ ⟨1 / 10 ^ 9, 0, 0⟩ ⟨0, 1, 0⟩, _) := rfl
      rw [hx'] at hx
      cases hx
      simp only [trianglePanel]
      split
      · simp [Panel.null]
      · exact div_nonneg (Real.sqrt_nonneg _) (by norm_num)
    rw [hmean] at hlt
    linarith
  obtain ⟨vs, ids, h1, h2⟩ := merged_iff_within_partial (sort := sort) (atol := 1 / 10 ^ 8)
    (rows := sliver.vertices) (coords := [V3.x, V3.y, V3.z]) hs (by norm_num) (by simp [sliver]) (by
      intro c hc u hu v hv w hw
      simp only [sliver, List.mem_cons, List.not_mem_nil, or_false] at hc hu hv hw
      rcases hc with rfl | rfl | rfl <;> rcases hu with rfl | rfl | rfl <;> rcases hv with rfl | rfl | rfl <;>
        rcases hw with rfl | rfl | rfl <;> norm_num [abs_le])
  obtain ⟨vs', ids', h1', hl, -⟩ := merge_rows (sort := sort) (atol := 1 / 10 ^ 8)
    (rows := sliver.vertices) (coords := [V3.x, V3.y, V3.z]) hs (by norm_num) (by simp [sliver])
  rw [h1] at h1'
  cases h1'
  have hlen : ids.length = 3 := hl
  have i0 : 0 < ids.length := by omega
  have i1 : 1 < ids.length := by omega
  have i2 : 2 < ids.length := by omega
  have e01 : ids[0] = ids[1] := by
    have := (h2 0 1 ⟨0, 0, 0⟩ ⟨1 / 10 ^ 9, 0, 0⟩ rfl rfl).mpr (by
      intro c hc
      simp only [List.mem_cons, List.not_mem_nil, or_false] at hc
      rcases hc with rfl | rfl | rfl <;> norm_num [abs_le])
    rw [List.getElem?_eq_getElem i0, List.getElem?_eq_getElem i1] at this
    exact Option.some.inj this
  have e02 : ids[0] ≠ ids[2] := by
    intro h
    have := (h2 0 2 ⟨0, 0, 0⟩ ⟨0, 1, 0⟩ rfl rfl).mp (by
      rw [List.getElem?_eq_getElem i0, List.getElem?_eq_getElem i2, h]) V3.y (by simp)
    norm_num [abs_le] at this
  have hfs : [(⟨0, 1, 2, 0⟩ : Face)].mapM (Face.lookup ids) = some [⟨ids[0], ids[1], ids[2], ids[0]⟩] := by
    simp [Face.lookup, List.getElem?_eq_getElem i0, List.getElem?_eq_getElem i1, List.getElem?_eq_getElem i2]
  have hmerge : sliver.mergeDuplicates sort (1 / 10 ^ 8) =
      some (⟨vs, [⟨ids[0], ids[1], ids[2], ids[0]⟩]⟩, ids) := by
    simp only [Mesh.mergeDuplicates, h1, show sliver.faces = [⟨0, 1, 2, 0⟩] from rfl, hfs]
  refine ⟨Mesh.healTriangles ⟨vs, [⟨ids[0], ids[1], ids[2], ids[0]⟩]⟩,
    by simp only [Mesh.healOpen, hused, hdeg, hmerge], ids[0], ids[2], ?_, e02⟩
  simp [Mesh.healTriangles, Face.heal, Face.rollQuad, e01]

/-! ## Healing twice -/

/-- Removing the unused vertices twice is the same as once. -/
theorem remove_unused_twice (m : Mesh (V3 ℝ)) (hm : m.Valid) :
    ∃ m', m.removeUnusedVertices = some m' ∧ m'.removeUnusedVertices = some m' := by
  obtain ⟨m', h1, -, -, h4, -⟩ := removeUnused_all m hm
  refine ⟨m', h1, ?_⟩
  have : usedIds m'.vertices.length m'.faces = List.range m'.vertices.length := by
    unfold usedIds
    rw [List.filter_eq_self]
    intro k hk
    obtain ⟨f, hf, h⟩ := h4 k (List.mem_range.mp hk)
    simp only [List.any_eq_true, List.contains_iff_mem]
    exact ⟨f, hf, h⟩
  simp [Mesh.removeUnusedVertices, this]

/-- Healing the triangles twice is the same as once exactly when there is no quadrangle: a quadrangle is turned every
time, and is the same again after four times. -/
theorem heal_triangles_twice (m : Mesh (V3 ℝ)) :
    (m.healTriangles.healTriangles = m.healTriangles ↔
      ∀ f ∈ m.faces, f.a = f.b ∨ f.b = f.c ∨ f.c = f.d ∨ f.d = f.a) ∧
    ((∀ f ∈ m.faces, f.a ≠ f.b ∧ f.b ≠ f.c ∧ f.c ≠ f.d ∧ f.d ≠ f.a) →
      m.healTriangles.healTriangles.healTriangles.healTriangles = m) := by
  have quad : ∀ f : Face, f.a ≠ f.b → f.b ≠ f.c → f.c ≠ f.d → f.d ≠ f.a → f.heal = ⟨f.b, f.c, f.d, f.a⟩ := by
    rintro ⟨a, b, c, d⟩ h1 h2 h3 h4
    simp only at h1 h2 h3 h4
    simp [Face.heal, Face.rollQuad, Face.roll, h4.symm, h3.symm, h2.symm]
  constructor
  · constructor
    · intro h f hf
      have hheal : ∀ f ∈ m.faces, f.heal.heal = f.heal := by
        have := congrArg Mesh.faces h
        simp only [Mesh.healTriangles, List.map_map] at this
        intro f hf
        exact List.map_inj_left.mp this f hf
      by_contra hc
      simp only [not_or] at hc
      obtain ⟨h1, h2, h3, h4⟩ := hc
      have e := hheal f hf
      rw [quad f h1 h2 h3 h4, quad _ h2 h3 h4 h1] at e
      exact h2 (congrArg Face.a e).symm
    · intro h
      simp only [Mesh.healTriangles, List.map_map, Mesh.mk.injEq, true_and]
      refine List.map_congr_left fun f hf => ?_
      exact (heal_triangles f.heal).2.2.2 ((heal_triangles f).2.2.1.mp (h f hf))
  · intro h
    obtain ⟨vs, fs⟩ := m
    simp only [Mesh.healTriangles, List.map_map, Mesh.mk.injEq, true_and]
    refine (List.map_congr_left fun f hf => ?_).trans (List.map_id fs)
    obtain ⟨h1, h2, h3, h4⟩ := h f hf
    simp only [Function.comp]
    rw [quad f h1 h2 h3 h4, quad ⟨f.b, f.c, f.d, f.a⟩ h2 h3 h4 h1, quad ⟨f.c, f.d, f.a, f.b⟩ h3 h4 h1 h2,
      quad ⟨f.d, f.a, f.b, f.c⟩ h4 h1 h2 h3]
    rfl

/-- When the coordinates are gathered in clusters that the tolerance separates, no two of the merged vertices are
within the tolerance, so that merging again joins none of them. -/
theorem merge_twice_partial (sort : (ℕ → ℝ) → List ℕ → List ℕ) (hs : ArgSort sort) {atol : ℝ} (ha : 0 ≤ atol)
    (rows : List (V3 ℝ)) (h : rows ≠ [])
    (hc : ∀ c ∈ [V3.x, V3.y, V3.z], ∀ u ∈ rows, ∀ v ∈ rows, ∀ w ∈ rows,
      |c u - c v| ≤ atol → |c v - c w| ≤ atol → |c u - c w| ≤ atol) :
    ∃ vs ids vs' ids', mergeRows sort [V3.x, V3.y, V3.z] atol rows = some (vs, ids) ∧
      mergeRows sort [V3.x, V3.y, V3.z] atol vs = some (vs', ids') ∧
      ∀ i j, i < vs.length → j < vs.length → ids'[i]? = ids'[j]? → i = j := by
  obtain ⟨vs, ids, h1, h2⟩ := merged_iff_within_partial hs ha h hc
  obtain ⟨vs0, ids0, h1', -, h3, -, -, h6, -⟩ := merge_rows (coords := [V3.x, V3.y, V3.z]) hs ha h
  rw [h1] at h1'
  cases h1'
  have hvs : vs ≠ [] := by
    obtain ⟨v, l, rfl⟩ := List.exists_cons_of_ne_nil h
    obtain ⟨k, w, -, hw, -⟩ := h3 0 v rfl
    exact List.ne_nil_of_mem (List.mem_of_getElem? hw)
  obtain ⟨vs', ids', k1, -, -, -, k5, -⟩ := merge_rows (coords := [V3.x, V3.y, V3.z]) hs ha hvs
  refine ⟨vs, ids, vs', ids', h1, k1, ?_⟩
  intro i j hi hj he
  have hw := k5 i j _ _ (List.getElem?_eq_getElem hi) (List.getElem?_eq_getElem hj) he
  obtain ⟨a, ha', hai⟩ := h6 i _ (List.getElem?_eq_getElem hi)
  obtain ⟨b, hb', hbj⟩ := h6 j _ (List.getElem?_eq_getElem hj)
  have := (h2 a b _ _ ha' hb').mpr hw
  rw [hai, hbj] at this
  exact Option.some.inj this

/-- Sorting when no two values are equal. -/
theorem ArgSort.eq_of_lt {sort : (ℕ → ℝ) → List ℕ → List ℕ} (hs : ArgSort sort) {val : ℕ → ℝ} {l l' : List ℕ}
    (hp : l'.Perm l) (hlt : l'.Pairwise fun i j => val i < val j) : sort val l = l' := by
  refine List.Perm.eq_of_pairwise (le := fun i j => val i ≤ val j) ?_ (hs.sorted val l)
    (hlt.imp fun h => h.le) ((hs.perm val l).trans hp.symm)
  intro a b ha hb h1 h2
  have ha' : a ∈ l' := hp.mem_iff.mpr ((hs.perm val l).mem_iff.mp ha)
  by_contra hne
  have : ∀ {l : List ℕ}, l.Pairwise (fun i j => val i < val j) → a ∈ l → b ∈ l → val a < val b ∨ val b < val a := by
    intro l hl ha hb
    induction l with
    | nil => simp at ha
    | cons x l ih =>
      rw [List.pairwise_cons] at hl
      rcases List.mem_cons.mp ha with ha2 | ha2 <;> rcases List.mem_cons.mp hb with hb2 | hb2
      · exact absurd (ha2.trans hb2.symm) hne
      · exact .inl (ha2 ▸ hl.1 b hb2)
      · exact .inr (hb2 ▸ hl.1 a ha2)
      · exact ih hl.2 ha2 hb2
  rcases this hlt ha' hb with h | h
  · exact absurd h2 (not_le.mpr h)
  · exact absurd h1 (not_le.mpr h)

/-- Three points: the second one is the only one that is close to both others. -/
noncomputable def drifting : Mesh (V3 ℝ) := ⟨[⟨0, 1, 1⟩, ⟨9 / 10, 0, 0⟩, ⟨9 / 5, 0, 0⟩], [⟨0, 1, 2, 0⟩]⟩

/-- Merging twice may join more vertices than merging once. -/
theorem merge_twice_violated (sort : (ℕ → ℝ) → List ℕ → List ℕ) (hs : ArgSort sort) :
    ∃ m1 ids1 m2 ids2, drifting.mergeDuplicates sort 1 = some (m1, ids1) ∧
      m1.mergeDuplicates sort 1 = some (m2, ids2) ∧ m1.vertices.length = 2 ∧ m2.vertices.length = 1 := by
  have s1 : sort (rowValue drifting.vertices V3.x) [0, 1, 2] = [0, 1, 2] :=
    hs.eq_of_lt (List.Perm.refl _) (by simp [rowValue, drifting]; norm_num)
  have s2 : sort (rowValue drifting.vertices V3.y) [0, 1] = [1, 0] :=
    hs.eq_of_lt (List.Perm.swap _ _ _) (by simp [rowValue, drifting])
  have s3 : sort (rowValue drifting.vertices V3.z) [1, 0] = [1, 0] :=
    hs.eq_of_lt (List.Perm.refl _) (by simp [rowValue, drifting])
  have l1 : refineLevel sort (rowValue drifting.vertices V3.x) 1 [0, 1, 2] = [[0, 1], [2]] := by
    simp only [refineLevel, s1]
    norm_num [scanLevel, rowValue, drifting, abs_of_pos]
  have l2 : refineLevel sort (rowValue drifting.vertices V3.y) 1 [0, 1] = [[1, 0]] := by
    simp only [refineLevel, s2]
    norm_num [scanLevel, rowValue, drifting]
  have l3 : refineLevel sort (rowValue drifting.vertices V3.z) 1 [1, 0] = [[1, 0]] := by
    simp only [refineLevel, s3]
    norm_num [scanLevel, rowValue, drifting]
  have lone : ∀ val, refineLevel sort val 1 [2] = [[2]] := fun val => by simp [refineLevel]
  have hlev : levels sort 1 drifting.vertices [V3.x, V3.y, V3.z] [[0, 1, 2]] = [[1, 0], [2]] := by
    simp only [levels, List.flatMap_cons, List.flatMap_nil, l1, l2, l3, lone, List.append_nil, List.cons_append,
      List.nil_append]
  have hrange : List.range drifting.vertices.length = [0, 1, 2] := rfl
  have hm : mergeRows sort [V3.x, V3.y, V3.z] 1 drifting.vertices =
      some ([⟨9 / 10, 0, 0⟩, ⟨9 / 5, 0, 0⟩], [0, 0, 1]) := by
    simp only [mergeRows, hrange, hlev]
    simp [levelRows, drifting, levelIds, List.range_succ, List.findIdx?_cons]
  have hm1 : drifting.mergeDuplicates sort 1 = some (⟨[⟨9 / 10, 0, 0⟩, ⟨9 / 5, 0, 0⟩], [⟨0, 0, 1, 0⟩]⟩, [0, 0, 1]) := by
    simp only [Mesh.mergeDuplicates, hm]
    simp [drifting, Face.lookup]
  have hval : (⟨[⟨9 / 10, 0, 0⟩, ⟨9 / 5, 0, 0⟩], [⟨0, 0, 1, 0⟩]⟩ : Mesh (V3 ℝ)).Valid := by
    intro f hf i hi
    simp only [List.mem_singleton] at hf
    subst hf
    simp [Face.toList] at hi ⊢
    omega
  obtain ⟨m2, ids2, k1, -⟩ := merge_duplicates sort hs 1 (by norm_num) _ hval (by simp)
  refine ⟨_, _, m2, ids2, hm1, k1, rfl, ?_⟩
  obtain ⟨vs, ids, j1, j2⟩ := merged_iff_within_partial (sort := sort) (atol := 1)
    (rows := ([⟨9 / 10, 0, 0⟩, ⟨9 / 5, 0, 0⟩] : List (V3 ℝ))) (coords := [V3.x, V3.y, V3.z]) hs (by norm_num) (by simp) (by
      intro c hc u hu v hv w hw
      simp only [List.mem_cons, List.not_mem_nil, or_false] at hc hu hv hw
      rcases hc with rfl | rfl | rfl <;> rcases hu with rfl | rfl <;> rcases hv with rfl | rfl <;>
        rcases hw with rfl | rfl <;> norm_num [abs_le])
  obtain ⟨vs', ids', j1', jl, j3, -, -, j6, -⟩ := merge_rows (sort := sort) (atol := 1)
    (rows := ([⟨9 / 10, 0, 0⟩, ⟨9 / 5, 0, 0⟩] : List (V3 ℝ))) (coords := [V3.x, V3.y, V3.z]) hs (by norm_num) (by simp)
  rw [j1] at j1'
  cases j1'
  have hvs : m2.vertices = vs := by
    simp only [Mesh.mergeDuplicates, j1] at k1
    split at k1
    · cases k1
    · cases k1
      rfl
  rw [hvs]
  have e01 := (j2 0 1 ⟨9 / 10, 0, 0⟩ ⟨9 / 5, 0, 0⟩ rfl rfl).mpr (by
    intro c hc
    simp only [List.mem_cons, List.not_mem_nil, or_false] at hc
    rcases hc with rfl | rfl | rfl <;> norm_num [abs_le])
  have same : ∀ k, k < vs.length → ids[0]? = some k := by
    intro k hk
    obtain ⟨i, hi, hik⟩ := j6 k _ (List.getElem?_eq_getElem hk)
    have : i < 2 := (List.getElem?_eq_some_iff.mp hi).1
    interval_cases i
    · exact hik
    · exact e01.trans hik
  obtain ⟨k, w, hk, hw, -⟩ := j3 0 _ rfl
  have hk' := (List.getElem?_eq_some_iff.mp hw).1
  by_contra hne
  have h0 := same 0 (by omega)
  have h1 := same 1 (by omega)
  rw [h0] at h1
  simp at h1

/-! ## Concrete cases -/

/-- Concrete case of `heal_mesh_panels`: two panels that share no vertex. -/
example : ∃ r, twoTriangles.healOpen insertionSort (1 / 10 ^ 8) (1 / 10 ^ 5) = some r ∧ r.Valid ∧ r.vertices.Nodup := by
  obtain ⟨r, h1, h2, h3, -⟩ := heal_mesh_panels insertionSort insertionSort_argSort (atol := 1 / 10 ^ 8) (by norm_num)
    (1 / 10 ^ 5) twoTriangles (by
      intro f hf i hi
      simp only [twoTriangles, List.mem_cons, List.not_mem_nil, or_false] at hf
      rcases hf with rfl | rfl <;> simp [Face.toList, twoTriangles] at hi ⊢ <;> omega) (by simp [twoTriangles])
  exact ⟨r, h1, h2, h3⟩

theorem drifting_healOpen (sort : (ℕ → ℝ) → List ℕ → List ℕ) (hs : ArgSort sort) :
    drifting.healOpen sort (1 / 10 ^ 8) (1 / 10 ^ 5) = some drifting := by
  classical
  have s1 : sort (rowValue drifting.vertices V3.x) [0, 1, 2] = [0, 1, 2] :=
    hs.eq_of_lt (List.Perm.refl _) (by simp [rowValue, drifting]; norm_num)
  have l1 : refineLevel sort (rowValue drifting.vertices V3.x) (1 / 10 ^ 8) [0, 1, 2] = [[0], [1], [2]] := by
    simp only [refineLevel, s1]
    norm_num [scanLevel, rowValue, drifting, abs_of_pos]
  have lone : ∀ val i, refineLevel sort val (1 / 10 ^ 8) [i] = [[i]] := fun val i => by simp [refineLevel]
  have hlev : levels sort (1 / 10 ^ 8) drifting.vertices [V3.x, V3.y, V3.z] [[0, 1, 2]] = [[0], [1], [2]] := by
    simp only [levels, List.flatMap_cons, List.flatMap_nil, l1, lone, List.append_nil, List.cons_append, List.nil_append]
  have hrange : List.range drifting.vertices.length = [0, 1, 2] := rfl
  have hm : mergeRows sort [V3.x, V3.y, V3.z] (1 / 10 ^ 8) drifting.vertices = some (drifting.vertices, [0, 1, 2]) := by
    simp only [mergeRows, hrange, hlev]
    simp [levelRows, drifting, levelIds, List.range_succ, List.findIdx?_cons]
  have hused : drifting.removeUnusedVertices = some drifting := by
    have : usedIds 3 [⟨0, 1, 2, 0⟩] = [0, 1, 2] := by decide
    simp [Mesh.removeUnusedVertices, drifting, this]
  have hdeg : drifting.removeDegeneratedFaces (1 / 10 ^ 5) = drifting := by
    refine remove_degenerated_eq _ _ ?_
    rintro f hf ⟨x, hx, hlt⟩
    simp only [drifting, List.mem_singleton] at hf
    subst hf
    have hmean : drifting.meanArea = x.1.area := by
      have : drifting.faceProps = [faceProperties drifting.vertices ⟨0, 1, 2, 0⟩] := rfl
      rw [Mesh.meanArea, this, hx]
      simp [drifting]
    have hpos : 0 ≤ x.1.area := by
      have hx' : faceProperties drifting.vertices ⟨0, 1, 2, 0⟩ = some
        (trianglePanel ⟨0, 1, 1⟩ ⟨9 / 10, 0, 0⟩ ⟨9 / 5, 0, 0⟩, _) := rfl
      rw [hx'] at hx
      cases hx
      simp only [trianglePanel]
      split
      · simp [Panel.null]
      · exact div_nonneg (Real.sqrt_nonneg _) (by norm_num)
    rw [hmean] at hlt
    linarith
  have hmerge : drifting.mergeDuplicates sort (1 / 10 ^ 8) = some (drifting, [0, 1, 2]) := by
    simp only [Mesh.mergeDuplicates, hm]
    simp [drifting, Face.lookup]
  simp only [Mesh.healOpen, hused, hdeg, hmerge]
  simp [Mesh.healTriangles, drifting, Face.heal, Face.rollQuad]

/-- Concrete case of `heal_mesh_closed`: a single triangle. -/
example : ∃ o', (Obj.new drifting none : Obj Unit Unit Unit).healMesh insertionSort (1 / 10 ^ 8) (1 / 10 ^ 5) true = some o' := by
  have hb' : (boundaryEdges 3 [⟨0, 1, 2, 0⟩]).isSome := by decide
  obtain ⟨d, hd⟩ := Option.isSome_iff_exists.mp hb'
  have hf : floodFaces (adjacent 3 [⟨0, 1, 2, 0⟩]) [⟨0, 1, 2, 0⟩] = [⟨0, 1, 2, 0⟩] := by decide
  have hcons : drifting.makeConsistent = some drifting := by
    show (match boundaryEdges 3 [⟨0, 1, 2, 0⟩] with
      | none => none
      | some _ => some _) = _
    rw [hd]
    simp only [drifting, List.length_cons, List.length_nil, Nat.reduceAdd, Nat.zero_add, hf]
  unfold Obj.healMesh
  rw [show (Obj.new drifting none : Obj Unit Unit Unit).mesh = drifting from rfl,
    drifting_healOpen insertionSort insertionSort_argSort]
  simp only [if_true, Obj.healNormals, Obj.transform]
  have ht : ∃ t, drifting.faceTable = some t := ⟨[_], rfl⟩
  obtain ⟨t, ht⟩ := ht
  simp [Obj.clear, Obj.new, hcons, Obj.readTable, ht]

/-- Concrete case of `heal_triangles_twice`: a quadrangle is not the same after the second time. -/
example : (⟨[], [⟨0, 1, 2, 3⟩]⟩ : Mesh (V3 ℝ)).healTriangles.healTriangles ≠
    (⟨[], [⟨0, 1, 2, 3⟩]⟩ : Mesh (V3 ℝ)).healTriangles := by
  rw [ne_eq, (heal_triangles_twice _).1]
  simp

/-- Concrete case of `merge_twice_partial`: two points at the same place, and another one. -/
example : ∃ vs ids vs' ids', mergeRows insertionSort [V3.x, V3.y, V3.z] (1 / 10)
      ([⟨0, 0, 0⟩, ⟨1, 0, 0⟩, ⟨0, 0, 0⟩] : List (V3 ℝ)) = some (vs, ids) ∧
    mergeRows insertionSort [V3.x, V3.y, V3.z] (1 / 10) vs = some (vs', ids') := by
  obtain ⟨vs, ids, vs', ids', h1, h2, -⟩ := merge_twice_partial insertionSort insertionSort_argSort (atol := 1 / 10)
    (by norm_num) [⟨0, 0, 0⟩, ⟨1, 0, 0⟩, ⟨0, 0, 0⟩] (by simp) (by
      intro c hc u hu v hv w hw
      simp only [List.mem_cons, List.not_mem_nil, or_false] at hc hu hv hw
      rcases hc with rfl | rfl | rfl <;> rcases hu with rfl | rfl | rfl <;> rcases hv with rfl | rfl | rfl <;>
        rcases hw with rfl | rfl | rfl <;> norm_num [abs_le])
  exact ⟨vs, ids, vs', ids', h1, h2⟩

end Verif.Meshes
