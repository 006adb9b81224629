import Verif.Meshes.OutwardProps

/-!
# C70: reading data on a mesh does not change what happens later
-/

namespace Verif.Meshes

open Verif.Geometry V3

variable {K W Q : Type}

/-! ## Specification -/

/-- The action only reads panel data or other data computed from the mesh. -/
def Op.isRead : Op K W Q → Bool
  | .readTable _ => true
  | .readOther _ _ => true
  | _ => false

/-- A transformation that changes nothing before it reads the panel data. -/
def Transformation.ReadsFirst (T : Transformation) : Prop := ∀ m m', T.before m = some m' → m' = m

/-- All the transformations of a history are such. -/
def ReadFirst (op : Op K W Q) : Prop :=
  match op with
  | .transform _ T _ => T.ReadsFirst
  | _ => True

/-- What the user sees of a mesh: its arrays, the quadrature method, and all that can be read. -/
structure SameMesh (D : Derived K W Q) (o o' : Obj K W Q) : Prop where
  mesh : o.mesh = o'.mesh
  method : o.method = o'.method
  table : o.readTable.2 = o'.readTable.2
  other : ∀ k, (o.readOther D k).2 = (o'.readOther D k).2
  quadrature : (o.readQuadrature D).2 = (o'.readQuadrature D).2

/-! ## Invariant -/

/-- Two objects that differ only by what is in their caches. -/
structure Alike (D : Derived K W Q) (o o' : Obj K W Q) : Prop where
  mesh : o.mesh = o'.mesh
  method : o.method = o'.method
  quadrature : o.quadrature = o'.quadrature
  left : Coherent D o
  right : Coherent D o'

theorem alike_refl {D : Derived K W Q} {o : Obj K W Q} (h : Coherent D o) : Alike D o o := ⟨rfl, rfl, rfl, h, h⟩

theorem readTable_quadrature (o : Obj K W Q) : o.readTable.1.quadrature = o.quadrature ∧
    o.readTable.1.method = o.method := by
  unfold Obj.readTable
  split
  · exact ⟨rfl, rfl⟩
  · split <;> exact ⟨rfl, rfl⟩

theorem readOther_quadrature (D : Derived K W Q) (o : Obj K W Q) (k : K) :
    (o.readOther D k).1.quadrature = o.quadrature ∧ (o.readOther D k).1.method = o.method := by
  unfold Obj.readOther
  split
  · exact ⟨rfl, rfl⟩
  · split <;> exact ⟨rfl, rfl⟩

theorem alike_readTable {D : Derived K W Q} {o o' : Obj K W Q} (h : Alike D o o') :
    Alike D o.readTable.1 o' where
  mesh := by rw [readTable_mesh, h.mesh]
  method := by rw [(readTable_quadrature o).2, h.method]
  quadrature := by rw [(readTable_quadrature o).1, h.quadrature]
  left := readTable_coherent h.left
  right := h.right

theorem alike_readOther {D : Derived K W Q} {o o' : Obj K W Q} (h : Alike D o o') (k : K) :
    Alike D (o.readOther D k).1 o' where
  mesh := by rw [readOther_mesh, h.mesh]
  method := by rw [(readOther_quadrature D o k).2, h.method]
  quadrature := by rw [(readOther_quadrature D o k).1, h.quadrature]
  left := readOther_coherent h.left k
  right := h.right

theorem alike_clear {D : Derived K W Q} {o o' : Obj K W Q} (h1 : o.mesh = o'.mesh) (h2 : o.method = o'.method) :
    Alike D o.clear o'.clear :=
  ⟨h1, h2, rfl, coherent_clear D o, coherent_clear D o'⟩

theorem clear_eq {o o' : Obj K W Q} (h1 : o.mesh = o'.mesh) (h2 : o.method = o'.method) :
    o.clear = o'.clear := by
  unfold Obj.clear; rw [h1, h2]

theorem alike_computeQuadrature {D : Derived K W Q} {o o' : Obj K W Q} (h : Alike D o o') (r : Option Q) :
    o.computeQuadrature D r = o'.computeQuadrature D r := by
  unfold Obj.computeQuadrature
  have : Obj.clear { o with mesh := o.mesh.healTriangles } =
      Obj.clear { o' with mesh := o'.mesh.healTriangles } :=
    clear_eq (congrArg Mesh.healTriangles h.mesh) h.method
  simp only [this]

theorem alike_readQuadrature {D : Derived K W Q} {o o' : Obj K W Q} (h : Alike D o o') :
    Alike D (o.readQuadrature D).1 (o'.readQuadrature D).1 ∧
    (o.readQuadrature D).2 = (o'.readQuadrature D).2 := by
  have hc1 := readQuadrature_coherent h.left
  have hc2 := readQuadrature_coherent h.right
  revert hc1 hc2
  unfold Obj.readQuadrature
  rw [h.quadrature]
  cases o'.quadrature with
  | some q => exact fun _ _ => ⟨h, rfl⟩
  | none =>
    simp only
    rw [alike_computeQuadrature h, h.method]
    exact fun h1 _ => ⟨alike_refl h1, rfl⟩

theorem alike_transform {D : Derived K W Q} {o o' : Obj K W Q} (h : Alike D o o') (T : Transformation)
    (hT : T.ReadsFirst) : o.transform T = o'.transform T := by
  unfold Obj.transform
  rw [h.mesh]
  cases hb : T.before o'.mesh with
  | none => rfl
  | some m =>
    have := hT _ _ hb
    subst this
    have e1 : (Obj.readTable { o with mesh := o'.mesh }).2 = o'.mesh.faceTable := by
      have : ({ o with mesh := o'.mesh } : Obj K W Q) = o := by rw [← h.mesh]
      rw [this, readTable_value h.left, h.mesh]
    have e2 : (Obj.readTable { o' with mesh := o'.mesh }).2 = o'.mesh.faceTable := readTable_value h.right
    simp only [e1, e2]
    cases T.after o'.mesh o'.mesh.faceTable with
    | none => rfl
    | some m' => exact congrArg some (clear_eq rfl h.method)

theorem same_of_alike {D : Derived K W Q} {o o' : Obj K W Q} (h : Alike D o o') : SameMesh D o o' where
  mesh := h.mesh
  method := h.method
  table := by rw [readTable_value h.left, readTable_value h.right, h.mesh]
  other := fun k => by rw [readOther_value h.left, readOther_value h.right, h.mesh]
  quadrature := (alike_readQuadrature h).2

/-! ## Histories -/

theorem forall₂_get {A : Type} {R : A → A → Prop} {w w' : List A} (hw : List.Forall₂ R w w') (h : ℕ) :
    (w[h]? = none ∧ w'[h]? = none) ∨ ∃ o o', w[h]? = some o ∧ w'[h]? = some o' ∧ R o o' := by
  induction hw generalizing h with
  | nil => exact .inl ⟨rfl, rfl⟩
  | cons h1 _ ih =>
    cases h with
    | zero => exact .inr ⟨_, _, rfl, rfl, h1⟩
    | succ n => exact ih n

theorem forall₂_set {A : Type} {R : A → A → Prop} {w w' : List A} (hw : List.Forall₂ R w w') (h : ℕ) {o o' : A}
    (ho : R o o') : List.Forall₂ R (w.set h o) (w'.set h o') := by
  induction hw generalizing h with
  | nil => exact .nil
  | cons h1 h2 ih =>
    cases h with
    | zero => exact .cons ho h2
    | succ n => exact .cons h1 (ih n)

theorem set_get {A : Type} {w : List A} {h : ℕ} {o : A} (ho : w[h]? = some o) : w.set h o = w := by
  apply List.ext_getElem?
  intro k
  by_cases hk : h = k
  · subst hk; rw [List.getElem?_set_self (List.getElem?_eq_some_iff.1 ho).1, ho]
  · rw [List.getElem?_set_ne hk]

theorem forall₂_update {R : Obj K W Q → Obj K W Q → Prop} {w w' : World K W Q} (hw : List.Forall₂ R w w')
    (h : ℕ) {f g : Obj K W Q → Obj K W Q} (hf : ∀ o o', R o o' → R (f o) (g o')) :
    List.Forall₂ R (w.update h f) (w'.update h g) := by
  unfold World.update
  rcases forall₂_get hw h with ⟨h1, h2⟩ | ⟨o, o', h1, h2, h3⟩
  · rw [h1, h2]; exact hw
  · rw [h1, h2]; exact forall₂_set hw h (hf o o' h3)

theorem forall₂_add {R : Obj K W Q → Obj K W Q → Prop} {w w' : World K W Q} (hw : List.Forall₂ R w w')
    (h : ℕ) {f g : Obj K W Q → Option (Obj K W Q)}
    (hf : ∀ o o', R o o' → (f o = none ∧ g o' = none) ∨ ∃ p p', f o = some p ∧ g o' = some p' ∧ R p p') :
    List.Forall₂ R (w.add h f) (w'.add h g) := by
  unfold World.add
  rcases forall₂_get hw h with ⟨h1, h2⟩ | ⟨o, o', h1, h2, h3⟩
  · rw [h1, h2]; exact hw
  · rw [h1, h2]
    rcases hf o o' h3 with ⟨h4, h5⟩ | ⟨p, p', h4, h5, h6⟩
    · simp only [Option.bind_some, h4, h5]; exact hw
    · simp only [Option.bind_some, h4, h5]
      exact List.rel_append hw (.cons h6 .nil)

theorem step_alike {D : Derived K W Q} {w w' : World K W Q} (hw : List.Forall₂ (Alike D) w w')
    (op : Op K W Q) (hop : ReadFirst op) :
    List.Forall₂ (Alike D) (w.step D op) (if op.isRead then w' else w'.step D op) := by
  cases op with
  | build m method => exact List.rel_append hw (.cons (alike_refl (coherent_new ..)) .nil)
  | readTable h =>
    have := forall₂_update hw h (f := fun o => o.readTable.1) (g := id) fun o o' => alike_readTable
    simp only [Op.isRead, if_true]
    have hid : w'.update h id = w' := by
      unfold World.update
      split
      · exact set_get ‹_›
      · rfl
    rwa [hid] at this
  | readOther h k =>
    have := forall₂_update hw h (f := fun o => (o.readOther D k).1) (g := id) fun o o' ho => alike_readOther ho k
    simp only [Op.isRead, if_true]
    have hid : w'.update h id = w' := by
      unfold World.update
      split
      · exact set_get ‹_›
      · rfl
    rwa [hid] at this
  | readQuadrature h => exact forall₂_update hw h fun o o' ho => (alike_readQuadrature ho).1
  | computeQuadrature h method =>
    refine forall₂_update hw h fun o o' ho => ?_
    have hc : Coherent D (o.computeQuadrature D method).1 := (computeQuadrature_spec D method o).1
    rw [← alike_computeQuadrature ho]
    exact alike_refl hc
  | setVertices h vs =>
    refine forall₂_update hw h fun o o' ho => ?_
    exact alike_clear (by show ({ o.mesh with vertices := vs } : Mesh _) = { o'.mesh with vertices := vs }; rw [ho.mesh]) ho.method
  | setFaces h fs =>
    refine forall₂_update hw h fun o o' ho => ?_
    unfold Obj.setFaces
    rw [ho.mesh]
    split
    · exact alike_clear rfl ho.method
    · exact ho
  | transform h T inplace =>
    cases inplace with
    | true =>
      refine forall₂_update hw h fun o o' ho => ?_
      rw [← alike_transform ho T hop]
      cases ht : o.transform T with
      | none => exact ho
      | some p => exact alike_refl (transform_coherent ht)
    | false =>
      refine forall₂_add hw h fun o o' ho => ?_
      rw [← alike_transform ho T hop]
      cases ht : o.transform T with
      | none => exact .inl ⟨rfl, rfl⟩
      | some p => exact .inr ⟨p, p, rfl, rfl, alike_refl (transform_coherent ht)⟩
  | copy h => exact forall₂_add hw h fun o o' ho => .inr ⟨o, o', rfl, rfl, ho⟩
  | extractFaces h ids =>
    refine forall₂_add hw h fun o o' ho => ?_
    cases h1 : o.extractFaces ids with
    | none =>
      left
      refine ⟨rfl, ?_⟩
      unfold Obj.extractFaces at h1 ⊢
      rw [← ho.mesh]
      split at h1
      · rfl
      · cases h1
    | some p =>
      have hp := extractFaces_coherent ho.left h1
      unfold Obj.extractFaces at h1
      split at h1
      · cases h1
      · rename_i m r hm
        injection h1 with h1
        have h2 : o'.extractFaces ids =
            some { (Obj.new m none : Obj K W Q) with table := selectTable o'.table ids } := by
          unfold Obj.extractFaces
          rw [← ho.mesh, hm]
        refine .inr ⟨p, _, rfl, h2, ?_⟩
        have hp2 := extractFaces_coherent ho.right h2
        subst h1
        exact ⟨rfl, rfl, rfl, hp, hp2⟩
  | extractOneFace h i =>
    refine forall₂_add hw h fun o o' ho => ?_
    cases h1 : o.extractOneFace i with
    | none =>
      left
      refine ⟨rfl, ?_⟩
      unfold Obj.extractOneFace at h1 ⊢
      rw [← ho.mesh]
      split at h1
      · rfl
      · cases h1
    | some p =>
      have hp := extractOneFace_coherent ho.left h1
      unfold Obj.extractOneFace at h1
      split at h1
      · cases h1
      · rename_i m hm
        injection h1 with h1
        have h2 : o'.extractOneFace i =
            some { (Obj.new m none : Obj K W Q) with table := selectTable o'.table [i] } := by
          unfold Obj.extractOneFace
          rw [← ho.mesh, hm]
        refine .inr ⟨p, _, rfl, h2, ?_⟩
        have hp2 := extractOneFace_coherent ho.right h2
        subst h1
        exact ⟨rfl, rfl, rfl, hp, hp2⟩

/-! ## C70 -/

/-- **C70**: in any history of any number of meshes, the readings of panel data and of other computed data can be
removed without any change in the meshes and in what is read on them later. What is missing for the full
property: the transformations must not change the mesh before they read its panel data, as `heal_normals`
does. -/
theorem readings_harmless_partial (D : Derived K W Q) (ops : List (Op K W Q)) (hops : ∀ op ∈ ops, ReadFirst op) :
    List.Forall₂ (SameMesh D) (World.run D [] ops) (World.run D [] (ops.filter fun op => !op.isRead)) := by
  have key : ∀ (ops : List (Op K W Q)), (∀ op ∈ ops, ReadFirst op) → ∀ w w' : World K W Q,
      List.Forall₂ (Alike D) w w' →
      List.Forall₂ (Alike D) (World.run D w ops) (World.run D w' (ops.filter fun op => !op.isRead)) := by
    intro ops
    induction ops with
    | nil => exact fun _ w w' h => h
    | cons op ops ih =>
      intro ho w w' h
      have hs := step_alike h op (ho op List.mem_cons_self)
      have ho' : ∀ op ∈ ops, ReadFirst op := fun p hp => ho p (List.mem_cons_of_mem _ hp)
      rw [List.filter_cons]
      cases hr : op.isRead with
      | true =>
        rw [hr, if_pos rfl] at hs
        simp only [Bool.not_true, Bool.false_eq_true, if_false]
        exact ih ho' _ _ hs
      | false =>
        rw [hr] at hs
        simp only [Bool.false_eq_true, if_false] at hs
        simp only [Bool.not_false, if_true]
        exact ih ho' _ _ hs
  exact (key ops hops [] [] .nil).imp fun _ _ => same_of_alike

/-- Concrete case: a tetrahedron is read, moved, and one of its faces extracted. -/
example (D : Derived K W Q) : ∀ op ∈ ([.build tetra none, .readTable 0, .copy 0,
      .transform 0 (.plain fun m => some (m.translate ⟨0, 0, -1⟩)) true, .readTable 0, .extractFaces 0 [0, 2]] :
      List (Op K W Q)), ReadFirst op := by
  intro op hop
  simp only [List.mem_cons, List.not_mem_nil, or_false] at hop
  rcases hop with rfl | rfl | rfl | rfl | rfl | rfl
  · trivial
  · trivial
  · trivial
  · intro m m' h; injection h with h; exact h.symm
  · trivial
  · trivial

/-- Concrete case of `panel_data_current` and `original_unchanged`: the panel data of a mesh are read, the mesh
is copied, then moved in place. Both meshes give their own data. -/
example (D : Derived K W Q) : ∃ o o', World.run D [] [.build tetra none, .readTable 0, .copy 0,
      .transform 0 (.plain fun m => some (m.translate ⟨0, 0, -1⟩)) true] = [o, o'] ∧
    o.mesh = tetra.translate ⟨0, 0, -1⟩ ∧ o'.mesh = tetra ∧
    o.readTable.2 = (tetra.translate ⟨0, 0, -1⟩).faceTable ∧ o'.readTable.2 = tetra.faceTable := by
  obtain ⟨t, ht⟩ := table_exists tetra_valid
  have h1 : (Obj.new tetra none : Obj K W Q).readTable.1 =
      { (Obj.new tetra none : Obj K W Q) with table := some t } := by
    simp [Obj.readTable, Obj.new, ht]
  refine ⟨.new (tetra.translate ⟨0, 0, -1⟩) none, { (Obj.new tetra none : Obj K W Q) with table := some t }, ?_,
    rfl, rfl, ?_, ?_⟩
  · simp only [World.run, List.foldl_cons, List.foldl_nil, World.step, World.update, World.add,
      List.nil_append, List.getElem?_cons_zero, List.set_cons_zero, h1, Option.bind_some, List.cons_append,
      Obj.transform, Transformation.plain, Option.getD_some]
    rfl
  · obtain ⟨t', ht'⟩ := table_exists (sound_move tetra_sound (isometry_translate ⟨0, 0, -1⟩)).valid
    have ht' : (tetra.translate ⟨0, 0, -1⟩).faceTable = some t' := ht'
    simp [Obj.readTable, Obj.new, ht']
  · simp [Obj.readTable, ht]

/-- **C70** does not hold for `heal_normals`: on the tetrahedron with a reversed face, it gives two different
meshes according to whether the normals have been read before. -/
theorem readings_harmless_violated :
    ∃ (m : Mesh (V3 ℝ)) (o o' : Obj Unit Unit Unit), (Obj.new m none).healNormals = some o ∧
      (Obj.new m none).readTable.1.healNormals = some o' ∧ o.mesh.faces ≠ o'.mesh.faces := by
  obtain ⟨o, t, h1, _, _, h2, h3⟩ := heal_normals_outward_partial (.new badTetra none : Obj Unit Unit Unit)
    badTetra_sound (by simp [Obj.new, badTetra]) badTetra_conformal badTetra_orientable badTetra_watertight rfl
  obtain ⟨o', t', h4, h5, h6⟩ := heal_normals_outward_violated
  refine ⟨badTetra, o, o', h1, h4, fun he => ?_⟩
  have hv : o.mesh.vertices = o'.mesh.vertices := by
    rw [(heal_normals_reverses _ _ h1).1, (heal_normals_reverses _ _ h4).1, readTable_mesh]
  have hm : o.mesh = o'.mesh := by
    cases hm1 : o.mesh; cases hm2 : o'.mesh
    rw [hm1, hm2] at hv he
    simp only at hv he
    rw [hv, he]
  rw [hm, h5] at h2
  injection h2 with h2
  rw [← h2, h6] at h3
  norm_num at h3

/-! ## Readings of the quadrature -/

/-- The properties of a convex quadrangle do not depend on its first corner. -/
theorem quad_roll (p0 p1 p2 p3 : V3 ℝ) (h : ConvexQuad p0 p1 p2 p3) :
    quadPanel p3 p0 p1 p2 = quadPanel p0 p1 p2 p3 := by
  obtain ⟨o, u, v, α, β, γ, δ, ha, hb, hg, hd, rfl, rfl, rfl, rfl⟩ := h
  have hx : cross ((o + γ • u) - (o - α • u)) ((o + δ • v) - (o - β • v)) =
      ((α + γ) * (β + δ)) • cross u v := by ext <;> simp <;> ring
  have hy : cross ((o - β • v) - (o + δ • v)) ((o + γ • u) - (o - α • u)) =
      ((α + γ) * (β + δ)) • cross u v := by ext <;> simp <;> ring
  have hvu : cross (-v) u = cross u v := by ext <;> simp <;> ring
  by_cases hk : Kept (((α + γ) * (β + δ)) • cross u v)
  · have hk' : 1e-12 ≤ (α + γ) * (β + δ) * V3.norm (cross u v) := by
      unfold Kept at hk
      rwa [norm_smul, abs_of_nonneg (by positivity)] at hk
    have e0 : o + δ • v = o - δ • (-v) := by ext <;> simp
    have e1 : o - β • v = o + β • (-v) := by ext <;> simp <;> ring
    rw [convex_panel o u v α β γ δ ha hb hg hd hk', e0, e1,
      convex_panel o (-v) u δ α β γ hd ha hb hg (by
        rw [hvu]; refine le_trans hk' (le_of_eq ?_); ring), hvu]
    congr 1
    · ring
    · ext <;> simp <;> ring
  · rw [quad_null (by rw [hy]; exact hk), quad_null (by rw [hx]; exact hk)]

theorem panelOf_quad {vs : List (V3 ℝ)} {F : Face} {c} (hc : corners vs F = some c) :
    panelOf F.isTriangle c = quadPanel c.1 c.2.1 c.2.2.1 c.2.2.2 := by
  unfold panelOf
  split
  · rename_i ht
    rw [corners_triangle hc ht]
    exact (triangle_encoding _ _ _).1.symm
  · rfl

theorem convex_roll {p0 p1 p2 p3 : V3 ℝ} (h : ConvexQuad p0 p1 p2 p3) : ConvexQuad p3 p0 p1 p2 := by
  obtain ⟨o, u, v, α, β, γ, δ, ha, hb, hg, hd, rfl, rfl, rfl, rfl⟩ := h
  refine ⟨o, -v, u, δ, α, β, γ, hd, ha, hb, hg, ?_, rfl, ?_, rfl⟩ <;> ext <;> simp <;> ring

theorem corners_roll (vs : List (V3 ℝ)) (F : Face) :
    corners vs F.roll = (corners vs F).map fun c => (c.2.2.2, c.1, c.2.1, c.2.2.1) := by
  unfold corners Face.roll
  simp only
  cases vs[F.a]? <;> cases vs[F.b]? <;> cases vs[F.c]? <;> cases vs[F.d]? <;> rfl

/-- A triangle, or a planar and convex quadrangle. -/
def Convex (vs : List (V3 ℝ)) (F : Face) : Prop :=
  F.isTriangle = true ∨ ∀ c, corners vs F = some c → ConvexQuad c.1 c.2.1 c.2.2.1 c.2.2.2

theorem rollQuad_props {vs : List (V3 ℝ)} {F : Face} (h : Convex vs F) :
    faceProperties vs F.rollQuad = faceProperties vs F ∧ Convex vs F.rollQuad := by
  unfold Face.rollQuad
  split
  · rename_i hq
    have ht : F.isTriangle ≠ true := by simpa [Face.isTriangle] using hq
    have hcv := h.resolve_left ht
    refine ⟨?_, .inr fun c hc => ?_⟩
    · unfold faceProperties
      cases hc : corners vs F with
      | none => rw [corners_roll, hc]; rfl
      | some c =>
        have hr : corners vs F.roll = some (c.2.2.2, c.1, c.2.1, c.2.2.1) := by rw [corners_roll, hc]; rfl
        rw [hr]
        simp only [Option.map_some]
        rw [panelOf_quad hr, panelOf_quad hc, quad_roll _ _ _ _ (hcv c hc)]
        congr 2
        unfold radiusOf
        simp only
        generalize V3.norm _ = a
        generalize V3.norm _ = b
        generalize V3.norm _ = d
        generalize V3.norm _ = e
        simp only [max_assoc, max_comm, max_left_comm]
    · rw [corners_roll] at hc
      obtain ⟨c0, h0, rfl⟩ := Option.map_eq_some_iff.1 hc
      exact convex_roll (hcv c0 h0)
  · exact ⟨rfl, h⟩

/-- Healing the triangles does not change the panel data of a mesh with planar and convex quadrangles. -/
theorem heal_panels (m : Mesh (V3 ℝ)) (hm : m.ConvexPanels) : m.healTriangles.faceTable = m.faceTable := by
  unfold Mesh.faceTable Mesh.healTriangles
  simp only
  have : ∀ fs : List Face, (∀ F ∈ fs, Convex m.vertices F) →
      (fs.map Face.heal).mapM (faceProperties m.vertices) = fs.mapM (faceProperties m.vertices) := by
    intro fs
    induction fs with
    | nil => exact fun _ => rfl
    | cons F fs ih =>
      intro h
      obtain ⟨h1, k1⟩ := rollQuad_props (h F List.mem_cons_self)
      obtain ⟨h2, k2⟩ := rollQuad_props k1
      obtain ⟨h3, _⟩ := rollQuad_props k2
      have hF : faceProperties m.vertices F.heal = faceProperties m.vertices F := by
        unfold Face.heal; rw [h3, h2, h1]
      rw [List.map_cons, List.mapM_cons, List.mapM_cons, hF, ih fun G hG => h G (List.mem_cons_of_mem _ hG)]
  exact this m.faces hm

/-- **C70**: reading the quadrature of a mesh whose quadrangles are planar and convex changes neither the vertices
nor the panel data. What is missing for the full property: warped quadrangles. -/
theorem quadrature_harmless_partial (D : Derived K W Q) (o : Obj K W Q) (ho : Coherent D o)
    (hm : o.mesh.ConvexPanels) : (o.readQuadrature D).1.mesh.vertices = o.mesh.vertices ∧
    (o.readQuadrature D).1.readTable.2 = o.readTable.2 := by
  have hc := readQuadrature_coherent ho
  rw [readTable_value hc, readTable_value ho]
  unfold Obj.readQuadrature
  cases o.quadrature with
  | some q => exact ⟨rfl, rfl⟩
  | none =>
    simp only
    rw [(computeQuadrature_spec D o.method o).2.1]
    exact ⟨rfl, heal_panels o.mesh hm⟩

/-- Concrete case: a unit square. -/
example : ({ vertices := [⟨0, 0, 0⟩, ⟨1, 0, 0⟩, ⟨1, 1, 0⟩, ⟨0, 1, 0⟩], faces := [⟨0, 1, 2, 3⟩] } :
    Mesh (V3 ℝ)).ConvexPanels := by
  intro F hF
  simp only [List.mem_cons, List.not_mem_nil, or_false] at hF
  subst hF
  refine .inr fun c hc => ?_
  simp [corners] at hc
  subst hc
  refine ⟨⟨1 / 2, 1 / 2, 0⟩, ⟨1, 1, 0⟩, ⟨-1, 1, 0⟩, 1 / 2, 1 / 2, 1 / 2, 1 / 2, by norm_num, by norm_num,
    by norm_num, by norm_num, ?_, ?_, ?_, ?_⟩ <;> ext <;> simp <;> norm_num

/-- **C70** does not hold for warped quadrangles: reading the quadrature of a square with a raised corner changes
its area. -/
theorem quadrature_harmless_violated : ∃ (o : Obj Unit Unit Unit) (x y : Panel × ℝ),
    o = Obj.new o.mesh none ∧ o.readTable.2 = some [x] ∧
    (o.readQuadrature ⟨fun _ _ => none, fun _ _ => none⟩).1.readTable.2 = some [y] ∧ x.1.area ≠ y.1.area := by
  have hq : (quadPanel (⟨1, 0, 0⟩ : V3 ℝ) ⟨1, 1, 1⟩ ⟨0, 1, 0⟩ ⟨0, 0, 0⟩).area ≠
      (quadPanel (⟨0, 0, 0⟩ : V3 ℝ) ⟨1, 0, 0⟩ ⟨1, 1, 1⟩ ⟨0, 1, 0⟩).area := by
    have k1 : Kept (cross ((⟨1, 1, 1⟩ : V3 ℝ) - ⟨0, 0, 0⟩) (⟨0, 1, 0⟩ - ⟨1, 0, 0⟩)) := by
      unfold Kept V3.norm
      apply Real.le_sqrt_of_sq_le
      simp [dot]; norm_num
    have k2 : Kept (cross ((⟨0, 1, 0⟩ : V3 ℝ) - ⟨1, 0, 0⟩) (⟨0, 0, 0⟩ - ⟨1, 1, 1⟩)) := by
      unfold Kept V3.norm
      apply Real.le_sqrt_of_sq_le
      simp [dot]; norm_num
    rw [quad_kept k1, quad_kept k2]
    simp only
    have e1 : V3.norm (cross ((⟨1, 0, 0⟩ : V3 ℝ) - ⟨0, 0, 0⟩) (⟨1, 1, 1⟩ - ⟨0, 0, 0⟩)) = √2 := by
      unfold V3.norm; congr 1; simp [dot]; norm_num
    have e2 : V3.norm (cross ((⟨0, 1, 0⟩ : V3 ℝ) - ⟨0, 0, 0⟩) (⟨1, 1, 1⟩ - ⟨0, 0, 0⟩)) = √2 := by
      unfold V3.norm; congr 1; simp [dot]; norm_num
    have e3 : V3.norm (cross ((⟨1, 1, 1⟩ : V3 ℝ) - ⟨1, 0, 0⟩) (⟨0, 1, 0⟩ - ⟨1, 0, 0⟩)) = √3 := by
      unfold V3.norm; congr 1; simp [dot]; norm_num
    have e4 : V3.norm (cross ((⟨0, 0, 0⟩ : V3 ℝ) - ⟨1, 0, 0⟩) (⟨0, 1, 0⟩ - ⟨1, 0, 0⟩)) = 1 := by
      unfold V3.norm; rw [Real.sqrt_eq_one]; simp [dot]
    rw [e1, e2, e3, e4]
    intro h
    have h2 : √2 * √2 = 2 := Real.mul_self_sqrt (by norm_num)
    have h3 : √3 * √3 = 3 := Real.mul_self_sqrt (by norm_num)
    have h4 : √3 = 2 * √2 - 1 := by linarith
    rw [h4] at h3
    have h5 : √2 = 3 / 2 := by nlinarith
    rw [h5] at h2
    norm_num at h2
  let m : Mesh (V3 ℝ) := ⟨[⟨0, 0, 0⟩, ⟨1, 0, 0⟩, ⟨1, 1, 1⟩, ⟨0, 1, 0⟩], [⟨0, 1, 2, 3⟩]⟩
  refine ⟨.new m none, (quadPanel ⟨0, 0, 0⟩ ⟨1, 0, 0⟩ ⟨1, 1, 1⟩ ⟨0, 1, 0⟩, _),
    (quadPanel ⟨1, 0, 0⟩ ⟨1, 1, 1⟩ ⟨0, 1, 0⟩ ⟨0, 0, 0⟩,
      radiusOf (quadPanel ⟨1, 0, 0⟩ ⟨1, 1, 1⟩ ⟨0, 1, 0⟩ ⟨0, 0, 0⟩).center
        (⟨1, 0, 0⟩, ⟨1, 1, 1⟩, ⟨0, 1, 0⟩, ⟨0, 0, 0⟩)), rfl, rfl, ?_, hq.symm⟩
  rw [readTable_value (readQuadrature_coherent (coherent_new _ m none))]
  show (Obj.computeQuadrature (⟨fun _ _ => none, fun _ _ => none⟩ : Derived Unit Unit Unit) none
    (Obj.new m none)).1.mesh.faceTable = _
  rw [(computeQuadrature_spec _ none _).2.1]
  rfl

end Verif.Meshes
