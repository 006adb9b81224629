import Verif.Meshes.CacheModel
import Verif.Meshes.TriangulateProps
import Verif.Meshes.ExtractProps

/-!
# C27 and C70: cached panel data
-/

namespace Verif.Meshes

open Verif.Geometry V3

variable {K W Q : Type}

/-! ## Specification -/

/-- The quadrature of a mesh: one point per panel at its center when there is no method. -/
noncomputable def quadratureOf (D : Derived K W Q) (method : Option Q) (m : Mesh (V3 ℝ)) :
    Option Quadrature :=
  match method with
  | none => m.faceTable.map fun t => t.map fun x => [(x.1.center, x.1.area)]
  | some r => D.rule r m

/-- Whatever is read on this mesh is what would be computed from its present vertices and faces. Reading
the quadrature heals the triangles, so that "present" is after the reading. -/
structure Current (D : Derived K W Q) (o : Obj K W Q) : Prop where
  table : o.readTable.2 = o.mesh.faceTable
  other : ∀ k, (o.readOther D k).2 = D.other k o.mesh
  quadrature : ∀ q, (o.readQuadrature D).2 = some q →
    quadratureOf D o.method (o.readQuadrature D).1.mesh = some q

/-! ## Invariant -/

/-- What is in the cache is what would be computed. -/
structure Coherent (D : Derived K W Q) (o : Obj K W Q) : Prop where
  table : ∀ t, o.table = some t → o.mesh.faceTable = some t
  other : ∀ k w, o.others k = some w → D.other k o.mesh = some w
  quadrature : ∀ q, o.quadrature = some q → quadratureOf D o.method o.mesh = some q

theorem coherent_new (D : Derived K W Q) (m : Mesh (V3 ℝ)) (method : Option Q) :
    Coherent D (Obj.new m method) :=
  ⟨fun _ h => (by cases h), fun _ _ h => (by cases h), fun _ h => by cases h⟩

theorem coherent_clear (D : Derived K W Q) (o : Obj K W Q) : Coherent D o.clear := coherent_new ..

theorem readTable_coherent {D : Derived K W Q} {o : Obj K W Q} (h : Coherent D o) :
    Coherent D o.readTable.1 := by
  unfold Obj.readTable
  split
  · exact h
  · split
    · rename_i t ht
      exact ⟨fun t' h' => by simp only [Option.some.injEq] at h'; rw [← h']; exact ht, h.other, h.quadrature⟩
    · exact h

theorem readTable_mesh (o : Obj K W Q) : o.readTable.1.mesh = o.mesh := by
  unfold Obj.readTable
  split
  · rfl
  · split <;> rfl

theorem readTable_value {D : Derived K W Q} {o : Obj K W Q} (h : Coherent D o) :
    o.readTable.2 = o.mesh.faceTable := by
  unfold Obj.readTable
  split
  · rename_i t ht
    exact (h.table t ht).symm
  · split
    · rename_i t ht; exact ht.symm
    · rename_i ht; exact ht.symm

theorem readOther_coherent {D : Derived K W Q} {o : Obj K W Q} (h : Coherent D o) (k : K) :
    Coherent D (o.readOther D k).1 := by
  unfold Obj.readOther
  split
  · exact h
  · split
    · rename_i w hw
      refine ⟨h.table, fun j w' hj => ?_, h.quadrature⟩
      simp only at hj
      split at hj
      · rename_i e; subst e; rw [← hj]; exact hw
      · exact h.other j w' hj
    · exact h

theorem readOther_mesh (D : Derived K W Q) (o : Obj K W Q) (k : K) : (o.readOther D k).1.mesh = o.mesh := by
  unfold Obj.readOther
  split
  · rfl
  · split <;> rfl

theorem readOther_value {D : Derived K W Q} {o : Obj K W Q} (h : Coherent D o) (k : K) :
    (o.readOther D k).2 = D.other k o.mesh := by
  unfold Obj.readOther
  split
  · rename_i w hw
    exact (h.other k w hw).symm
  · split
    · rename_i w hw; exact hw.symm
    · rename_i hw; exact hw.symm

theorem computeQuadrature_spec (D : Derived K W Q) (method : Option Q) (o : Obj K W Q) :
    Coherent D (o.computeQuadrature D method).1 ∧
    (o.computeQuadrature D method).1.mesh = o.mesh.healTriangles ∧
    ∀ q, (o.computeQuadrature D method).2 = some q →
      quadratureOf D method o.mesh.healTriangles = some q := by
  unfold Obj.computeQuadrature
  simp only
  split
  · unfold Obj.readTable
    simp only [Obj.clear, Obj.new]
    cases ht : o.mesh.healTriangles.faceTable with
    | none => exact ⟨coherent_new D _ _, rfl, fun q hq => by cases hq⟩
    | some t =>
      refine ⟨⟨fun t' h' => ?_, fun _ _ h => (by cases h), fun q hq => ?_⟩, rfl, fun q hq => ?_⟩
      · simp only [Option.some.injEq] at h'; rw [← h']; exact ht
      · simpa [quadratureOf, ht] using hq
      · simpa [quadratureOf, ht] using hq
  · rename_i r
    simp only [Obj.clear, Obj.new]
    cases hr : D.rule r o.mesh.healTriangles with
    | none => exact ⟨coherent_new D _ _, rfl, fun q hq => by cases hq⟩
    | some t =>
      refine ⟨⟨fun t' h' => (by cases h'), fun _ _ h => (by cases h), fun q hq => ?_⟩, rfl, fun q hq => ?_⟩
      · simpa [quadratureOf, hr] using hq
      · simpa [quadratureOf, hr] using hq

theorem readQuadrature_coherent {D : Derived K W Q} {o : Obj K W Q} (h : Coherent D o) :
    Coherent D (o.readQuadrature D).1 := by
  unfold Obj.readQuadrature
  split
  · exact h
  · exact (computeQuadrature_spec D _ o).1

theorem current_of_coherent {D : Derived K W Q} {o : Obj K W Q} (h : Coherent D o) : Current D o where
  table := readTable_value h
  other := readOther_value h
  quadrature := by
    intro q hq
    unfold Obj.readQuadrature at hq ⊢
    cases hc : o.quadrature with
    | some q' =>
      rw [hc] at hq
      simp only [Option.some.injEq] at hq
      subst hq
      exact h.quadrature q' hc
    | none =>
      rw [hc] at hq
      simp only at hq ⊢
      obtain ⟨_, h2, h3⟩ := computeQuadrature_spec D o.method o
      rw [h2]
      exact h3 q hq

theorem transform_coherent {D : Derived K W Q} {T : Transformation} {o o' : Obj K W Q}
    (h : o.transform T = some o') : Coherent D o' := by
  unfold Obj.transform at h
  split at h
  · cases h
  · split at h
    · cases h
    · injection h with h
      rw [← h]; exact coherent_clear D _

theorem faceTable_spec {m : Mesh (V3 ℝ)} {t : Table} (h : m.faceTable = some t) :
    m.faces.map (faceProperties m.vertices) = t.map some := by
  unfold Mesh.faceTable at h
  generalize m.faces = fs at h
  induction fs generalizing t with
  | nil => simp at h; subst h; rfl
  | cons f fs ih =>
    rw [List.mapM_cons] at h
    cases hf : faceProperties m.vertices f with
    | none => rw [hf] at h; cases h
    | some x =>
      rw [hf] at h
      cases hr : fs.mapM (faceProperties m.vertices) with
      | none => rw [hr] at h; cases h
      | some r =>
        rw [hr] at h
        injection h with h
        subst h
        rw [List.map_cons, List.map_cons, ih hr, hf]

theorem faceTable_of {m : Mesh (V3 ℝ)} {t : Table}
    (h : m.faces.map (faceProperties m.vertices) = t.map some) : m.faceTable = some t := by
  unfold Mesh.faceTable
  generalize m.faces = fs at h
  induction fs generalizing t with
  | nil =>
    cases t with
    | nil => rfl
    | cons => cases h
  | cons f fs ih =>
    cases t with
    | nil => cases h
    | cons x t =>
      simp only [List.map_cons, List.cons.injEq] at h
      rw [List.mapM_cons, h.1, ih h.2]
      rfl

theorem faceTable_iff {m : Mesh (V3 ℝ)} {t : Table} :
    m.faceTable = some t ↔ m.faces.map (faceProperties m.vertices) = t.map some :=
  ⟨faceTable_spec, faceTable_of⟩

/-- When the panel data can be computed, all the faces use existing vertices. -/
theorem valid_of_table {m : Mesh (V3 ℝ)} {t : Table} (h : m.faceTable = some t) : m.Valid := by
  intro f hf i hi
  have h1 := faceTable_spec h
  have h2 : faceProperties m.vertices f ∈ t.map some := h1 ▸ List.mem_map_of_mem hf
  obtain ⟨x, _, hx⟩ := List.mem_map.1 h2
  unfold faceProperties corners at hx
  by_contra hc
  have hnone : m.vertices[i]? = none := List.getElem?_eq_none (by omega)
  simp only [Face.toList, List.mem_cons, List.not_mem_nil, or_false] at hi
  rcases hi with rfl | rfl | rfl | rfl
  all_goals
    rw [hnone] at hx
    revert hx
    split
    · rename_i h1 h2 h3 h4
      first | cases h1 | cases h2 | cases h3 | cases h4
    · simp

theorem faceProperties_eq (vs : List (V3 ℝ)) (f : Face) : faceProperties vs f =
    (corners vs f).map fun c => (panelOf f.isTriangle c, radiusOf (panelOf f.isTriangle c).center c) := rfl

theorem extractFaces_coherent {D : Derived K W Q} {o o' : Obj K W Q} (h : Coherent D o) {ids : List ℕ}
    (ho : o.extractFaces ids = some o') : Coherent D o' := by
  unfold Obj.extractFaces at ho
  split at ho
  · cases ho
  rename_i m kept he
  injection ho with ho
  subst ho
  refine ⟨fun t' ht' => ?_, fun _ _ h => (by cases h), fun _ h => by cases h⟩
  simp only [selectTable] at ht'
  cases hc : o.table with
  | none => rw [hc] at ht'; cases ht'
  | some t =>
    rw [hc] at ht'
    simp only at ht'
    have ht := h.table t hc
    have hv := valid_of_table ht
    have hlen : t.length = o.mesh.faces.length := by
      have := congrArg List.length (faceTable_spec ht)
      simpa using this.symm
    have hids : ∀ i ∈ ids, i < o.mesh.faces.length := fun i hi => hlen ▸ select_lt ht' i hi
    obtain ⟨m', kept', e1, _, e3, e4, _⟩ := extract_faces o.mesh hv ids hids
    rw [he] at e1
    injection e1 with e1
    injection e1 with e1 _
    subst e1
    show m.faceTable = some t'
    apply faceTable_of
    have hl3 := congrArg List.length e3
    simp [Mesh.panels] at hl3
    apply List.ext_getElem?
    intro k
    rw [List.getElem?_map, List.getElem?_map]
    by_cases hk : k < ids.length
    · obtain ⟨i, j1, j2, j3⟩ := (select_get ht').2 k hk
      rw [j2, List.getElem?_eq_getElem (by omega : k < m.faces.length), List.getElem?_eq_getElem j3]
      have hi : i < o.mesh.faces.length := hlen ▸ j3
      have p3 := congrArg (fun l : List _ => l[k]?) e3
      have p4 := congrArg (fun l : List _ => l[k]?) e4
      simp only [Mesh.panels, List.getElem?_map, j1, Option.map_some,
        List.getElem?_eq_getElem (by omega : k < m.faces.length), List.getElem?_eq_getElem hi,
        Option.getD_some, Option.some.injEq] at p3 p4
      have hf := congrArg (fun l : List _ => l[i]?) (faceTable_spec ht)
      simp only [List.getElem?_map, List.getElem?_eq_getElem hi, List.getElem?_eq_getElem j3,
        Option.map_some, Option.some.injEq] at hf
      simp only [Option.map_some, Option.some.injEq]
      rw [← hf, faceProperties_eq, faceProperties_eq, p3, p4]
    · rw [List.getElem?_eq_none (by omega), List.getElem?_eq_none (by rw [(select_get ht').1]; omega)]
      rfl

theorem extractOneFace_coherent {D : Derived K W Q} {o o' : Obj K W Q} (h : Coherent D o) {i : ℕ}
    (ho : o.extractOneFace i = some o') : Coherent D o' := by
  unfold Obj.extractOneFace at ho
  split at ho
  · cases ho
  rename_i m he
  injection ho with ho
  subst ho
  refine ⟨fun t' ht' => ?_, fun _ _ h => (by cases h), fun _ h => by cases h⟩
  simp only [selectTable] at ht'
  cases hc : o.table with
  | none => rw [hc] at ht'; cases ht'
  | some t =>
    rw [hc] at ht'
    simp only at ht'
    have ht := h.table t hc
    unfold Mesh.extractOneFace at he
    cases hf : o.mesh.faces[i]? with
    | none => rw [hf] at he; cases he
    | some f =>
      rw [hf] at he
      simp only at he
      cases hs : select o.mesh.vertices f.toList with
      | none => rw [hs] at he; cases he
      | some vs =>
        rw [hs] at he
        simp only [Option.some.injEq] at he
        subst he
        show Mesh.faceTable ⟨vs, [⟨0, 1, 2, 3⟩]⟩ = some t'
        obtain ⟨hvl, hvg⟩ := select_get hs
        have g : ∀ k, k < 4 → vs[k]? = (f.toList[k]?).bind fun j => o.mesh.vertices[j]? := by
          intro k hk
          obtain ⟨j, j1, j2, _⟩ := hvg k hk
          rw [j2, j1]; rfl
        have hcor : corners vs ⟨0, 1, 2, 3⟩ = corners o.mesh.vertices f := by
          unfold corners
          simp only [g 0 (by omega), g 1 (by omega), g 2 (by omega), g 3 (by omega)]
          rfl
        have hx := congrArg (fun l : List _ => l[i]?) (faceTable_spec ht)
        simp only [List.getElem?_map, hf, Option.map_some] at hx
        have hti : ∃ x, t[i]? = some x := by
          cases hti : t[i]? with
          | none => rw [hti] at hx; cases hx
          | some x => exact ⟨x, rfl⟩
        obtain ⟨x, hti⟩ := hti
        rw [hti] at hx
        simp only [Option.map_some, Option.some.injEq] at hx
        have ht'x : t' = [x] := by
          unfold select at ht'
          rw [List.mapM_cons, hti] at ht'
          simpa using ht'.symm
        subst ht'x
        apply faceTable_of
        simp only [List.map_cons, List.map_nil, List.cons.injEq, and_true]
        rw [← hx, faceProperties_eq, faceProperties_eq, hcor]
        cases hcs : corners o.mesh.vertices f with
        | none => rfl
        | some c =>
          simp only [Option.map_some, Option.some.injEq]
          have hpan : panelOf (Face.isTriangle ⟨0, 1, 2, 3⟩) c = panelOf f.isTriangle c := by
            cases htri : f.isTriangle with
            | false => rfl
            | true =>
              have := corners_triangle hcs htri
              show quadPanel c.1 c.2.1 c.2.2.1 c.2.2.2 = trianglePanel c.1 c.2.1 c.2.2.1
              rw [this, (triangle_encoding _ _ _).1]
          rw [hpan]

theorem update_all {P : Obj K W Q → Prop} {w : World K W Q} (hw : ∀ o ∈ w, P o) (h : ℕ)
    (f : Obj K W Q → Obj K W Q) (hf : ∀ o, P o → P (f o)) : ∀ o ∈ w.update h f, P o := by
  unfold World.update
  split
  · rename_i o ho
    intro x hx
    rcases List.mem_or_eq_of_mem_set hx with hx | rfl
    · exact hw x hx
    · exact hf o (hw o (List.mem_of_getElem? ho))
  · exact hw

theorem add_all {P : Obj K W Q → Prop} {w : World K W Q} (hw : ∀ o ∈ w, P o) (h : ℕ)
    (f : Obj K W Q → Option (Obj K W Q)) (hf : ∀ o o', P o → f o = some o' → P o') :
    ∀ o ∈ w.add h f, P o := by
  unfold World.add
  split
  · rename_i o ho
    intro x hx
    rcases List.mem_append.1 hx with hx | hx
    · exact hw x hx
    · rw [List.mem_singleton.1 hx]
      obtain ⟨y, hy, hfy⟩ := Option.bind_eq_some_iff.1 ho
      exact hf y o (hw y (List.mem_of_getElem? hy)) hfy
  · exact hw

theorem step_coherent {D : Derived K W Q} {w : World K W Q} (hw : ∀ o ∈ w, Coherent D o) (op : Op K W Q) :
    ∀ o ∈ w.step D op, Coherent D o := by
  cases op with
  | build m method =>
    intro x hx
    rcases List.mem_append.1 hx with hx | hx
    · exact hw x hx
    · rw [List.mem_singleton.1 hx]; exact coherent_new D m method
  | readTable h => exact update_all hw h _ fun o ho => readTable_coherent ho
  | readOther h k => exact update_all hw h _ fun o ho => readOther_coherent ho k
  | readQuadrature h => exact update_all hw h _ fun o ho => readQuadrature_coherent ho
  | computeQuadrature h method => exact update_all hw h _ fun o _ => (computeQuadrature_spec D method o).1
  | setVertices h vs => exact update_all hw h _ fun o _ => coherent_clear D _
  | setFaces h fs =>
    refine update_all hw h _ fun o ho => ?_
    unfold Obj.setFaces
    split
    · exact coherent_clear D _
    · exact ho
  | transform h T inplace =>
    cases inplace with
    | true =>
      refine update_all hw h _ fun o ho => ?_
      cases ht : o.transform T with
      | none => exact ho
      | some o' => exact transform_coherent ht
    | false => exact add_all hw h _ fun o o' _ ho => transform_coherent ho
  | copy h => exact add_all hw h _ fun o o' ho h => by injection h with h; rw [← h]; exact ho
  | extractFaces h ids => exact add_all hw h _ fun o o' ho h => extractFaces_coherent ho h
  | extractOneFace h i => exact add_all hw h _ fun o o' ho h => extractOneFace_coherent ho h

/-! ## C27 -/

/-- **C27**: whatever the user does with any number of meshes (reading data, moving, healing, clipping,
replacing the vertices or the faces, copying, extracting faces), in any order, the data read on each of
the meshes are those of its present vertices and faces. -/
theorem panel_data_current (D : Derived K W Q) (ops : List (Op K W Q)) :
    ∀ o ∈ World.run D [] ops, Current D o := by
  have key : ∀ (ops : List (Op K W Q)) (w : World K W Q), (∀ o ∈ w, Coherent D o) →
      ∀ o ∈ World.run D w ops, Coherent D o := by
    intro ops
    induction ops with
    | nil => exact fun w hw => hw
    | cons op ops ih => exact fun w hw => ih _ (step_coherent hw op)
  exact fun o ho => current_of_coherent (key ops [] (by simp) o ho)

/-- The action changes the given mesh in place. -/
def Op.Changes (h : ℕ) : Op K W Q → Prop
  | .readQuadrature h' => h' = h
  | .computeQuadrature h' _ => h' = h
  | .setVertices h' _ => h' = h
  | .setFaces h' _ => h' = h
  | .transform h' _ true => h' = h
  | _ => False

theorem update_get_other {w : World K W Q} {h h' : ℕ} (hh : h' ≠ h) (f : Obj K W Q → Obj K W Q) :
    (w.update h' f)[h]? = w[h]? := by
  unfold World.update
  split
  · rw [List.getElem?_set_ne hh]
  · rfl

theorem update_get_mesh {w : World K W Q} {h h' : ℕ} (f : Obj K W Q → Obj K W Q)
    (hf : ∀ o, (f o).mesh = o.mesh) : ((w.update h' f)[h]?).map Obj.mesh = w[h]?.map Obj.mesh := by
  unfold World.update
  split
  · rename_i o ho
    by_cases hh : h' = h
    · subst hh
      have hl : h' < w.length := (List.getElem?_eq_some_iff.1 ho).1
      rw [List.getElem?_set_self hl, ho]
      simp [hf]
    · rw [List.getElem?_set_ne hh]
  · rfl

theorem add_get {w : World K W Q} {h h' : ℕ} (hl : h < w.length) (f : Obj K W Q → Option (Obj K W Q)) :
    (w.add h' f)[h]? = w[h]? := by
  unfold World.add
  split
  · rw [List.getElem?_append_left hl]
  · rfl

/-- **C27**: transformations that are not in place, copies, extractions and readings of panel data leave
the original mesh as it was, and no action on a mesh changes another one. (Reading the quadrature heals
the triangles of the mesh, see C70.) -/
theorem original_unchanged (D : Derived K W Q) (w : World K W Q) (op : Op K W Q) (h : ℕ)
    (hl : h < w.length) (hop : ¬ op.Changes h) :
    ((w.step D op)[h]?).map Obj.mesh = w[h]?.map Obj.mesh := by
  cases op with
  | build m method => show ((w ++ _)[h]?).map _ = _; rw [List.getElem?_append_left hl]
  | readTable h' => exact update_get_mesh _ readTable_mesh
  | readOther h' k => exact update_get_mesh _ fun o => readOther_mesh D o k
  | readQuadrature h' => exact congrArg _ (update_get_other hop _)
  | computeQuadrature h' method => exact congrArg _ (update_get_other hop _)
  | setVertices h' vs => exact congrArg _ (update_get_other hop _)
  | setFaces h' fs => exact congrArg _ (update_get_other hop _)
  | transform h' T inplace =>
    cases inplace with
    | true => exact congrArg _ (update_get_other hop _)
    | false => exact congrArg _ (add_get hl _)
  | copy h' => exact congrArg _ (add_get hl _)
  | extractFaces h' ids => exact congrArg _ (add_get hl _)
  | extractOneFace h' i => exact congrArg _ (add_get hl _)

/-- **C27**: a transformation that is not in place gives the mesh that the transformation in place would
have given. -/
theorem out_of_place (D : Derived K W Q) (w : World K W Q) (h : ℕ) (o : Obj K W Q) (ho : w[h]? = some o)
    (T : Transformation) :
    (∃ o', o.transform T = some o' ∧ (w.step D (.transform h T true))[h]? = some o' ∧
      (w.step D (.transform h T false))[w.length]? = some o' ∧
      (w.step D (.transform h T false))[h]? = some o) ∨
    (o.transform T = none ∧ w.step D (.transform h T true) = w ∧ w.step D (.transform h T false) = w) := by
  have hl : h < w.length := (List.getElem?_eq_some_iff.1 ho).1
  cases ht : o.transform T with
  | none =>
    refine .inr ⟨rfl, ?_, ?_⟩
    · show World.update _ _ _ = _
      simp only [World.update, ho, ht, Option.getD_none]
      apply List.ext_getElem?
      intro k
      by_cases hk : h = k
      · subst hk; rw [List.getElem?_set_self hl, ho]
      · rw [List.getElem?_set_ne hk]
    · show World.add _ _ _ = _
      simp [World.add, ho, ht]
  | some o' =>
    refine .inl ⟨o', rfl, ?_, ?_, ?_⟩
    · show (World.update _ _ _)[h]? = _
      simp only [World.update, ho, ht, Option.getD_some]
      rw [List.getElem?_set_self hl]
    · show (World.add _ _ _)[w.length]? = _
      simp [World.add, ho, ht]
    · show (World.add _ _ _)[h]? = _
      simp [World.add, ho, ht, List.getElem?_append_left hl]

end Verif.Meshes
