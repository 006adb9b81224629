import Verif.Meshes.Model
import Mathlib.Data.List.Basic
import Mathlib.Data.List.Nodup

/-!
# C28 and C30: extraction of faces and healing of triangles
-/

namespace Verif.Meshes

variable {V : Type}

/-! ## Specification -/

/-- The panels of a mesh as a user sees them: the corners of each face, in order. -/
def Mesh.panels (m : Mesh V) : List (Option (V × V × V × V)) := m.faces.map (corners m.vertices)

/-! ## Lemmas -/

theorem select_eq_some {A : Type} {l : List A} {ids : List ℕ} (h : ∀ i ∈ ids, i < l.length) :
    ∃ r, select l ids = some r := by
  induction ids with
  | nil => exact ⟨[], rfl⟩
  | cons i ids ih =>
    obtain ⟨r, hr⟩ := ih fun j hj => h j (List.mem_cons_of_mem _ hj)
    refine ⟨l[i]'(h i List.mem_cons_self) :: r, ?_⟩
    unfold select at *
    rw [List.mapM_cons, List.getElem?_eq_getElem (h i List.mem_cons_self), hr]
    rfl

theorem select_get {A : Type} {l : List A} {ids : List ℕ} {r : List A} (h : select l ids = some r) :
    r.length = ids.length ∧ ∀ k, k < ids.length → ∃ i, ids[k]? = some i ∧ r[k]? = l[i]? ∧ i < l.length := by
  induction ids generalizing r with
  | nil =>
    unfold select at h
    simp at h
    subst h
    exact ⟨rfl, fun k hk => absurd hk (Nat.not_lt_zero _)⟩
  | cons i ids ih =>
    unfold select at h ih
    rw [List.mapM_cons] at h
    cases hi : l[i]? with
    | none => rw [hi] at h; cases h
    | some x =>
      rw [hi] at h
      cases hr : ids.mapM fun i => l[i]? with
      | none => rw [hr] at h; cases h
      | some r' =>
        rw [hr] at h
        injection h with h
        subst h
        obtain ⟨h1, h2⟩ := ih hr
        refine ⟨by simp [h1], fun k hk => ?_⟩
        have hil : i < l.length := by
          by_contra hc
          rw [List.getElem?_eq_none (by omega)] at hi
          cases hi
        cases k with
        | zero => exact ⟨i, rfl, by simpa using hi.symm, hil⟩
        | succ k =>
          obtain ⟨j, j1, j2, j3⟩ := h2 k (by simpa using hk)
          exact ⟨j, by simpa using j1, by simpa using j2, j3⟩

theorem select_lt {A : Type} {l : List A} {ids : List ℕ} {r : List A} (h : select l ids = some r) :
    ∀ i ∈ ids, i < l.length := by
  intro i hi
  obtain ⟨k, hk, rfl⟩ := List.mem_iff_getElem.1 hi
  obtain ⟨j, j1, _, j3⟩ := (select_get h).2 k hk
  rw [List.getElem?_eq_getElem hk] at j1
  injection j1 with j1
  rw [j1]; exact j3

theorem mem_usedIds {nv : ℕ} {fs : List Face} {i : ℕ} :
    i ∈ usedIds nv fs ↔ i < nv ∧ ∃ f ∈ fs, i ∈ f.toList := by
  unfold usedIds
  simp

theorem usedIds_nodup (nv : ℕ) (fs : List Face) : (usedIds nv fs).Nodup :=
  List.nodup_range.filter _

/-- The vertex at the new number is the vertex at the old number. -/
theorem getElem_newId {vs r : List V} {kept : List ℕ} (h : select vs kept = some r) {i : ℕ}
    (hi : i ∈ kept) : r[newId kept i]? = vs[i]? := by
  unfold newId
  rw [if_pos hi]
  have hlt := List.idxOf_lt_length_of_mem hi
  obtain ⟨j, j1, j2, _⟩ := (select_get h).2 _ hlt
  rw [List.getElem?_eq_getElem hlt, List.getElem_idxOf] at j1
  injection j1 with j1
  rw [j2, j1]

theorem corners_newId {vs r : List V} {kept : List ℕ} (h : select vs kept = some r) (f : Face)
    (hf : ∀ i ∈ f.toList, i ∈ kept) : corners r (f.map (newId kept)) = corners vs f := by
  unfold corners Face.map
  rw [getElem_newId h (hf f.a (by simp [Face.toList])), getElem_newId h (hf f.b (by simp [Face.toList])),
    getElem_newId h (hf f.c (by simp [Face.toList])), getElem_newId h (hf f.d (by simp [Face.toList]))]

theorem newId_inj {kept : List ℕ} {i j : ℕ} (hi : i ∈ kept) (hj : j ∈ kept)
    (h : newId kept i = newId kept j) : i = j := by
  unfold newId at h
  rw [if_pos hi, if_pos hj] at h
  exact List.idxOf_inj hi |>.1 h

/-! ## C28 -/

/-- **C28**: extraction of faces by their numbers. The `k`-th panel of the new mesh has the corners of the
`k`-th requested panel, in the same order, and is a triangle when this one is; the vertices of the new
mesh are those used by the requested panels, once each and in the original order; the returned index gives
their original numbers. -/
theorem extract_faces (m : Mesh V) (hm : m.Valid) (ids : List ℕ) (hids : ∀ i ∈ ids, i < m.faces.length) :
    ∃ m' kept, m.extractFaces ids = some (m', kept) ∧ m'.Valid ∧
      m'.panels = ids.map (fun i => (m.panels[i]?).getD none) ∧
      m'.faces.map Face.isTriangle = ids.map (fun i => (m.faces[i]?.map Face.isTriangle).getD false) ∧
      kept.Pairwise (· < ·) ∧
      (∀ v, v ∈ kept ↔ ∃ i ∈ ids, ∃ f, m.faces[i]? = some f ∧ v ∈ f.toList) ∧
      m'.vertices.length = kept.length ∧
      ∀ k : ℕ, m'.vertices[k]? = kept[k]?.bind fun v => m.vertices[v]? := by
  obtain ⟨fs, hfs⟩ := select_eq_some hids
  have hmem : ∀ f ∈ fs, f ∈ m.faces := by
    intro f hf
    obtain ⟨k, hk, rfl⟩ := List.mem_iff_getElem.1 hf
    obtain ⟨i, _, j2, j3⟩ := (select_get hfs).2 k ((select_get hfs).1 ▸ hk)
    rw [List.getElem?_eq_getElem hk, List.getElem?_eq_getElem j3] at j2
    injection j2 with j2
    rw [j2]; exact List.getElem_mem _
  obtain ⟨vs, hvs⟩ := select_eq_some (l := m.vertices) (ids := usedIds m.vertices.length fs)
    fun i hi => (mem_usedIds.1 hi).1
  have hused : ∀ f ∈ fs, ∀ i ∈ f.toList, i ∈ usedIds m.vertices.length fs := fun f hf i hi =>
    mem_usedIds.2 ⟨hm f (hmem f hf) i hi, f, hf, hi⟩
  have hfsids : fs = ids.map fun i => (m.faces[i]?).getD ⟨0, 0, 0, 0⟩ := by
    apply List.ext_getElem?
    intro k
    by_cases hk : k < ids.length
    · obtain ⟨i, j1, j2, j3⟩ := (select_get hfs).2 k hk
      rw [j2, List.getElem?_map, j1, Option.map_some, List.getElem?_eq_getElem j3]; rfl
    · rw [List.getElem?_eq_none (by rw [(select_get hfs).1]; omega),
        List.getElem?_eq_none (by simp; omega)]
  refine ⟨⟨vs, fs.map (Face.map (newId (usedIds m.vertices.length fs)))⟩,
    usedIds m.vertices.length fs, ?_, ?_, ?_, ?_, ?_, ?_, ?_, ?_⟩
  · simp only [Mesh.extractFaces, hfs, hvs]
  · intro f hf i hi
    obtain ⟨g, hg, rfl⟩ := List.mem_map.1 hf
    have : ∃ j ∈ g.toList, i = newId (usedIds m.vertices.length fs) j := by
      simp only [Face.toList, Face.map, List.mem_cons, List.not_mem_nil, or_false] at hi ⊢
      rcases hi with rfl | rfl | rfl | rfl <;> simp
    obtain ⟨j, hj, rfl⟩ := this
    have hk := hused g hg j hj
    show _ < vs.length
    rw [(select_get hvs).1]
    unfold newId
    rw [if_pos hk]
    exact List.idxOf_lt_length_of_mem hk
  · unfold Mesh.panels
    simp only [List.map_map]
    have h1 : fs.map (corners vs ∘ Face.map (newId (usedIds m.vertices.length fs))) =
        fs.map (corners m.vertices) := List.map_congr_left fun f hf => corners_newId hvs f (hused f hf)
    rw [h1, hfsids, List.map_map]
    refine List.map_congr_left fun i hi => ?_
    simp [List.getElem?_eq_getElem (hids i hi)]
  · simp only [List.map_map]
    have h1 : fs.map (Face.isTriangle ∘ Face.map (newId (usedIds m.vertices.length fs))) =
        fs.map Face.isTriangle := by
      refine List.map_congr_left fun f hf => ?_
      have ha := hused f hf f.a (by simp [Face.toList])
      have hd := hused f hf f.d (by simp [Face.toList])
      simp only [Function.comp, Face.isTriangle, Face.map]
      rw [Bool.eq_iff_iff, beq_iff_eq, beq_iff_eq]
      exact ⟨newId_inj ha hd, fun h => by rw [h]⟩
    rw [h1, hfsids, List.map_map]
    refine List.map_congr_left fun i hi => ?_
    simp [List.getElem?_eq_getElem (hids i hi)]
  · exact List.Pairwise.filter _ List.pairwise_lt_range
  · intro v
    rw [mem_usedIds]
    constructor
    · rintro ⟨_, f, hf, hv⟩
      rw [hfsids] at hf
      obtain ⟨i, hi, rfl⟩ := List.mem_map.1 hf
      rw [List.getElem?_eq_getElem (hids i hi)] at hv
      exact ⟨i, hi, _, List.getElem?_eq_getElem (hids i hi), hv⟩
    · rintro ⟨i, hi, f, hf, hv⟩
      have hf' : f ∈ fs := by
        rw [hfsids]
        exact List.mem_map.2 ⟨i, hi, by rw [hf]; rfl⟩
      exact ⟨hm f (hmem f hf') v hv, f, hf', hv⟩
  · exact (select_get hvs).1
  · intro k
    by_cases hk : k < (usedIds m.vertices.length fs).length
    · obtain ⟨i, j1, j2, _⟩ := (select_get hvs).2 k hk
      simp only [j1, j2, Option.bind_some]
    · rw [List.getElem?_eq_none (by simpa [(select_get hvs).1] using hk),
        List.getElem?_eq_none (by omega)]
      rfl

/-- **C28**: a number of face out of bounds raises, nothing is returned. -/
theorem extract_faces_out_of_bounds (m : Mesh V) (ids : List ℕ) (i : ℕ) (hi : i ∈ ids)
    (h : m.faces.length ≤ i) : m.extractFaces ids = none := by
  unfold Mesh.extractFaces
  cases hs : select m.faces ids with
  | none => rfl
  | some fs => exact absurd (select_lt hs i hi) (by omega)

/-- **C28**: removing the unused vertices changes no panel and leaves only used vertices. -/
theorem remove_unused_vertices (m : Mesh V) (hm : m.Valid) :
    ∃ m', m.removeUnusedVertices = some m' ∧ m'.panels = m.panels ∧
      m'.faces.map Face.isTriangle = m.faces.map Face.isTriangle ∧
      (∀ k, k < m'.vertices.length → ∃ f ∈ m'.faces, k ∈ f.toList) ∧
      ∀ x, x ∈ m'.vertices ↔ ∃ f ∈ m.faces, ∃ i ∈ f.toList, m.vertices[i]? = some x := by
  obtain ⟨vs, hvs⟩ := select_eq_some (l := m.vertices) (ids := usedIds m.vertices.length m.faces)
    fun i hi => (mem_usedIds.1 hi).1
  have hused : ∀ f ∈ m.faces, ∀ i ∈ f.toList, i ∈ usedIds m.vertices.length m.faces := fun f hf i hi =>
    mem_usedIds.2 ⟨hm f hf i hi, f, hf, hi⟩
  unfold Mesh.removeUnusedVertices
  simp only
  by_cases hlt : (usedIds m.vertices.length m.faces).length < m.vertices.length
  · rw [if_pos hlt]
    simp only [hvs]
    refine ⟨_, rfl, ?_, ?_, ?_, ?_⟩
    · unfold Mesh.panels
      rw [List.map_map]
      exact List.map_congr_left fun f hf => corners_newId hvs f (hused f hf)
    · rw [List.map_map]
      refine List.map_congr_left fun f hf => ?_
      have ha := hused f hf f.a (by simp [Face.toList])
      have hd := hused f hf f.d (by simp [Face.toList])
      simp only [Function.comp, Face.isTriangle, Face.map]
      rw [Bool.eq_iff_iff, beq_iff_eq, beq_iff_eq]
      exact ⟨newId_inj ha hd, fun h => by rw [h]⟩
    · intro k hk
      simp only at hk
      rw [(select_get hvs).1] at hk
      have hmem := List.getElem_mem hk
      obtain ⟨_, f, hf, hv⟩ := mem_usedIds.1 hmem
      refine ⟨f.map (newId _), List.mem_map.2 ⟨f, hf, rfl⟩, ?_⟩
      have hid : newId (usedIds m.vertices.length m.faces) (usedIds m.vertices.length m.faces)[k] = k := by
        unfold newId
        rw [if_pos hmem, (usedIds_nodup _ _).idxOf_getElem]
      rw [← hid]
      simp only [Face.toList, Face.map, List.mem_cons, List.not_mem_nil, or_false] at hv ⊢
      rcases hv with h | h | h | h <;> simp [← h]
    · intro x
      constructor
      · intro hx
        obtain ⟨k, hk, rfl⟩ := List.mem_iff_getElem.1 hx
        rw [(select_get hvs).1] at hk
        obtain ⟨i, j1, j2, j3⟩ := (select_get hvs).2 k hk
        obtain ⟨_, f, hf, hv⟩ := mem_usedIds.1 (List.mem_of_getElem? j1)
        exact ⟨f, hf, i, hv, by rw [← j2]; exact List.getElem?_eq_getElem _⟩
      · rintro ⟨f, hf, i, hi, hx⟩
        have := getElem_newId hvs (hused f hf i hi)
        rw [hx] at this
        exact List.mem_of_getElem? this
  · rw [if_neg hlt]
    have hall : ∀ k, k < m.vertices.length → k ∈ usedIds m.vertices.length m.faces := by
      intro k hk
      have hsub := (List.nodup_range (n := m.vertices.length)).subperm (l₂ := usedIds m.vertices.length m.faces)
      by_contra hc
      have h1 : (usedIds m.vertices.length m.faces).length < (List.range m.vertices.length).length := by
        unfold usedIds at hc ⊢
        rw [List.length_filter_lt_length_iff_exists]
        exact ⟨k, List.mem_range.2 hk, fun h => hc (List.mem_filter.2 ⟨List.mem_range.2 hk, h⟩)⟩
      rw [List.length_range] at h1
      exact hlt h1
    refine ⟨m, rfl, rfl, rfl, fun k hk => ?_, fun x => ?_⟩
    · obtain ⟨_, f, hf, hv⟩ := mem_usedIds.1 (hall k hk)
      exact ⟨f, hf, hv⟩
    · constructor
      · intro hx
        obtain ⟨k, hk, rfl⟩ := List.mem_iff_getElem.1 hx
        obtain ⟨_, f, hf, hv⟩ := mem_usedIds.1 (hall k hk)
        exact ⟨f, hf, k, hv, List.getElem?_eq_getElem hk⟩
      · rintro ⟨f, hf, i, hi, hx⟩
        exact List.mem_of_getElem? hx

/-- Concrete case: a mesh with an unused vertex, a quadrangle and a triangle. -/
def sample : Mesh ℕ := ⟨[10, 11, 12, 13, 14, 15], [⟨0, 1, 3, 4⟩, ⟨1, 5, 3, 1⟩]⟩

example : sample.Valid ∧ (sample.extractFaces [1, 0, 1]).map (fun x => (x.1.vertices, x.2)) =
    some ([10, 11, 13, 14, 15], [0, 1, 3, 4, 5]) := by
  refine ⟨?_, by decide⟩
  intro f hf i hi
  simp only [sample, List.mem_cons, List.not_mem_nil, or_false] at hf
  rcases hf with rfl | rfl <;> simp [Face.toList, sample] at hi ⊢ <;> omega

/-! ## C30 -/

/-- Two panels with the same corners in the same cyclic order. -/
def SameCycle (f g : Face) : Prop := ∃ n, (Face.roll^[n]) f = g

/-- **C30**: healing a face only turns its corners, and when two consecutive corners were equal (in the
cyclic order), the first and last corners of the healed face are equal. -/
theorem heal_triangles (f : Face) :
    SameCycle f f.heal ∧ f.heal.toList.Perm f.toList ∧
    ((f.a = f.b ∨ f.b = f.c ∨ f.c = f.d ∨ f.d = f.a) ↔ f.heal.isTriangle = true) ∧
    (f.isTriangle = true → f.heal = f) := by
  obtain ⟨a, b, c, d⟩ := f
  unfold Face.heal Face.rollQuad
  by_cases h1 : a = d
  · subst h1
    refine ⟨⟨0, ?_⟩, ?_, ?_, ?_⟩ <;> simp [Face.isTriangle]
  by_cases h2 : d = c
  · subst h2
    refine ⟨⟨1, ?_⟩, ?_, ?_, ?_⟩ <;> simp [Face.isTriangle, Face.roll, h1, Face.toList]
    exact (List.perm_append_comm (l₁ := [d]) (l₂ := [a, b, d]))
  by_cases h3 : c = b
  · subst h3
    refine ⟨⟨2, ?_⟩, ?_, ?_, ?_⟩ <;> simp [Face.isTriangle, Face.roll, h1, h2, Face.toList]
    exact (List.perm_append_comm (l₁ := [c, d]) (l₂ := [a, c]))
  refine ⟨⟨3, ?_⟩, ?_, ?_, ?_⟩
  · simp [Face.roll, h1, h2, h3]
  · simp [Face.roll, h1, h2, h3, Face.toList]
    exact (List.perm_append_comm (l₁ := [b, c, d]) (l₂ := [a]))
  · simp [Face.isTriangle, Face.roll, h1, h2, h3]
    constructor
    · rintro (h | h | h | h)
      · exact h.symm
      · exact absurd h.symm h3
      · exact absurd h.symm h2
      · exact absurd h.symm h1
    · intro h; exact Or.inl h.symm
  · simp [Face.isTriangle, h1]

/-- **C30** for a mesh: same vertices, same number of faces, and every face is healed in place. -/
theorem heal_triangles_mesh (m : Mesh V) : m.healTriangles.vertices = m.vertices ∧
    m.healTriangles.faces.length = m.faces.length ∧
    ∀ (k : ℕ) f, m.faces[k]? = some f → ∃ g, m.healTriangles.faces[k]? = some g ∧ SameCycle f g := by
  refine ⟨rfl, by simp [Mesh.healTriangles], fun k f hf => ⟨f.heal, ?_, (heal_triangles f).1⟩⟩
  simp [Mesh.healTriangles, hf]

/-- Concrete case: a triangle with its second corner repeated. -/
example : Face.heal ⟨1, 2, 2, 3⟩ = ⟨2, 3, 1, 2⟩ := by decide

end Verif.Meshes
