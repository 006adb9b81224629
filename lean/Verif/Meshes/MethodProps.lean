import Verif.Meshes.MethodModel
import Verif.Meshes.CacheProps
import Verif.Meshes.QuadratureProps
import Verif.Cache.Props
import Mathlib.Data.List.Forall2

/-!
# C99: the quadrature method chosen for a mesh
-/

namespace Verif.Meshes

open Verif.Geometry V3

variable {K W Q : Type}

/-! ## Specification: the methods chosen by the user

The user keeps a list of the method chosen for each of the meshes: the one given at construction, replaced
by the one of each successful `compute_quadrature`; a mesh made from another one has the method of the
latter. -/

/-- The action asks for a new mesh made from the mesh `h`. -/
def Op.source : Op K W Q → Option ℕ
  | .transform h _ false => some h
  | .copy h => some h
  | .extractFaces h _ => some h
  | .extractOneFace h _ => some h
  | _ => none

/-- The action extracts panels. -/
def Op.Extracts : Op K W Q → Prop
  | .extractFaces _ _ => True
  | .extractOneFace _ _ => True
  | _ => False

/-- The computation asked to the mesh `h` raised nothing. -/
def Computed (D : Derived K W Q) (w : World K W Q) (h : ℕ) (r : Option Q) : Prop :=
  ∃ o q, w[h]? = some o ∧ (o.computeQuadrature D r).2 = some q

open Classical in
/-- The list of the user after an action, which they know to have succeeded or not. -/
noncomputable def noteMethod (D : Derived K W Q) (w : World K W Q) (l : List (Option Q)) (op : Op K W Q) :
    List (Option Q) :=
  match op with
  | .build _ r => l ++ [r]
  | .computeQuadrature h r => if Computed D w h r then l.set h r else l
  | op =>
    match op.source with
    | some h => if w.length < (w.step D op).length then l ++ [l[h]?.join] else l
    | none => l

/-- The list of the user after a sequence of actions. -/
noncomputable def noteMethods (D : Derived K W Q) : World K W Q → List (Option Q) → List (Op K W Q) →
    List (Option Q)
  | _, l, [] => l
  | w, l, op :: ops => noteMethods D (w.step D op) (noteMethod D w l op) ops

/-- Panels are only extracted from meshes for which no method was chosen. -/
def ExtractsDefault (D : Derived K W Q) : World K W Q → List (Option Q) → List (Op K W Q) → Prop
  | _, _, [] => True
  | w, l, op :: ops =>
    (op.Extracts → ∀ h r, op.source = some h → l[h]? ≠ some (some r)) ∧
    ExtractsDefault D (w.step D op) (noteMethod D w l op) ops

/-! ## Methods of plain meshes -/

theorem computeQuadrature_method (D : Derived K W Q) (r : Option Q) (o : Obj K W Q) :
    ((∃ q, (o.computeQuadrature D r).2 = some q) → (o.computeQuadrature D r).1.method = r) ∧
    ((o.computeQuadrature D r).2 = none → (o.computeQuadrature D r).1.method = o.method) := by
  unfold Obj.computeQuadrature
  simp only
  split
  · unfold Obj.readTable
    simp only [Obj.clear, Obj.new]
    cases ht : o.mesh.healTriangles.faceTable with
    | none => exact ⟨fun ⟨q, hq⟩ => (by cases hq), fun _ => rfl⟩
    | some t => exact ⟨fun _ => rfl, fun h => by cases h⟩
  · rename_i r
    simp only [Obj.clear, Obj.new]
    cases hr : D.rule r o.mesh.healTriangles with
    | none => exact ⟨fun ⟨q, hq⟩ => (by cases hq), fun _ => rfl⟩
    | some t => exact ⟨fun _ => rfl, fun h => by cases h⟩

theorem readTable_method (o : Obj K W Q) : o.readTable.1.method = o.method := by
  unfold Obj.readTable
  split
  · rfl
  · split <;> rfl

theorem readOther_method (D : Derived K W Q) (o : Obj K W Q) (k : K) :
    (o.readOther D k).1.method = o.method := by
  unfold Obj.readOther
  split
  · rfl
  · split <;> rfl

theorem readQuadrature_method (D : Derived K W Q) (o : Obj K W Q) :
    (o.readQuadrature D).1.method = o.method := by
  unfold Obj.readQuadrature
  split
  · rfl
  · cases h : (o.computeQuadrature D o.method).2 with
    | none => exact (computeQuadrature_method D o.method o).2 h
    | some q => exact (computeQuadrature_method D o.method o).1 ⟨q, h⟩

theorem transform_method {T : Transformation} {o o' : Obj K W Q} (h : o.transform T = some o') :
    o'.method = o.method := by
  unfold Obj.transform at h
  split at h
  · cases h
  · split at h
    · cases h
    · injection h with h; rw [← h]; rfl

theorem extractFaces_method {o o' : Obj K W Q} {ids : List ℕ} (h : o.extractFaces ids = some o') :
    o'.method = none := by
  unfold Obj.extractFaces at h
  split at h
  · cases h
  · injection h with h; rw [← h]; rfl

theorem extractOneFace_method {o o' : Obj K W Q} {i : ℕ} (h : o.extractOneFace i = some o') :
    o'.method = none := by
  unfold Obj.extractOneFace at h
  split at h
  · cases h
  · injection h with h; rw [← h]; rfl

theorem update_methods {w : World K W Q} {h : ℕ} {f : Obj K W Q → Obj K W Q}
    (hf : ∀ o, (f o).method = o.method) : (w.update h f).map Obj.method = w.map Obj.method := by
  unfold World.update
  split
  · rename_i o ho
    rw [List.map_set, hf]
    apply List.ext_getElem?
    intro k
    by_cases hk : h = k
    · subst hk
      have hl : h < w.length := (List.getElem?_eq_some_iff.1 ho).1
      rw [List.getElem?_set_self (by simpa using hl), List.getElem?_map, ho]; rfl
    · rw [List.getElem?_set_ne hk]
  · rfl

theorem add_methods {w : World K W Q} {h : ℕ} {f : Obj K W Q → Option (Obj K W Q)}
    (hf : ∀ o o', w[h]? = some o → f o = some o' → o'.method = o.method) :
    (w.add h f).map Obj.method =
      if w.length < (w.add h f).length then w.map Obj.method ++ [((w.map Obj.method)[h]?).join]
      else w.map Obj.method := by
  unfold World.add
  split
  · rename_i o' ho
    obtain ⟨o, h1, h2⟩ := Option.bind_eq_some_iff.1 ho
    rw [if_pos (by simp), List.map_append, List.getElem?_map, h1]
    simp [hf o o' h1 h2]
  · rw [if_neg (by simp)]

open Classical in
theorem step_methods (D : Derived K W Q) (w : World K W Q) (op : Op K W Q)
    (hop : op.Extracts → ∀ h r, op.source = some h → (w.map Obj.method)[h]? ≠ some (some r)) :
    (w.step D op).map Obj.method = noteMethod D w (w.map Obj.method) op := by
  have key : ∀ {h : ℕ} {f : Obj K W Q → Option (Obj K W Q)}, (∀ o o', f o = some o' → o'.method = none) →
      (∀ r, (w.map Obj.method)[h]? ≠ some (some r)) →
      ∀ o o', w[h]? = some o → f o = some o' → o'.method = o.method := by
    intro h f hf hn o o' ho ho'
    rw [hf o o' ho']
    cases hm : o.method with
    | none => rfl
    | some r =>
      refine absurd ?_ (hn r)
      rw [List.getElem?_map, ho, Option.map_some, hm]
  cases op with
  | build m r => show (w ++ _).map _ = _; simp [noteMethod, Obj.new]
  | readTable h => exact update_methods readTable_method
  | readOther h k => exact update_methods fun o => readOther_method D o k
  | readQuadrature h => exact update_methods (readQuadrature_method D)
  | computeQuadrature h r =>
    show (w.update h _).map _ = if _ then _ else _
    by_cases hc : Computed D w h r
    · rw [if_pos hc]
      obtain ⟨o, q, ho, hq⟩ := hc
      unfold World.update
      rw [ho]
      simp only [List.map_set]
      rw [(computeQuadrature_method D r o).1 ⟨q, hq⟩]
    · rw [if_neg hc]
      cases ho : w[h]? with
      | none => unfold World.update; rw [ho]
      | some o =>
        have hn : (o.computeQuadrature D r).2 = none := by
          cases hq : (o.computeQuadrature D r).2 with
          | none => rfl
          | some q => exact absurd ⟨o, q, ho, hq⟩ hc
        unfold World.update
        rw [ho]
        simp only [List.map_set]
        rw [(computeQuadrature_method D r o).2 hn]
        have hl : h < w.length := (List.getElem?_eq_some_iff.1 ho).1
        apply List.ext_getElem?
        intro k
        by_cases hk : h = k
        · subst hk
          rw [List.getElem?_set_self (by simpa using hl), List.getElem?_map, ho]; rfl
        · rw [List.getElem?_set_ne hk]
  | setVertices h vs => exact update_methods fun _ => rfl
  | setFaces h fs =>
    refine update_methods fun o => ?_
    unfold Obj.setFaces
    split <;> rfl
  | transform h T inplace =>
    cases inplace with
    | true =>
      refine update_methods fun o => ?_
      cases ht : o.transform T with
      | none => rfl
      | some o' => exact transform_method ht
    | false => exact add_methods fun o o' _ h => transform_method h
  | copy h => exact add_methods fun o o' _ h => by injection h with h; rw [← h]
  | extractFaces h ids => exact add_methods (key (fun o o' => extractFaces_method) fun r => hop trivial h r rfl)
  | extractOneFace h i =>
    exact add_methods (key (fun o o' => extractOneFace_method) fun r => hop trivial h r rfl)

/-- **C99**: whatever is done with any number of meshes, as long as panels are only extracted from meshes
without a method, the method of each mesh is the last one chosen for it or for the mesh it was made from. -/
theorem method_kept (D : Derived K W Q) (ops : List (Op K W Q)) (h : ExtractsDefault D [] [] ops) :
    (World.run D [] ops).map Obj.method = noteMethods D [] [] ops := by
  have key : ∀ (ops : List (Op K W Q)) (w : World K W Q), ExtractsDefault D w (w.map Obj.method) ops →
      (World.run D w ops).map Obj.method = noteMethods D w (w.map Obj.method) ops := by
    intro ops
    induction ops with
    | nil => exact fun w _ => rfl
    | cons op ops ih =>
      intro w hw
      have e := step_methods D w op hw.1
      show (World.run D (w.step D op) ops).map Obj.method = noteMethods D _ (noteMethod D w _ op) ops
      rw [← e]
      exact ih _ (by rw [e]; exact hw.2)
  exact key ops [] h

/-- **C99**: under the same condition, the quadrature points read on a mesh are those of the last method
chosen for it, on its present panels. -/
theorem quadrature_of_chosen (D : Derived K W Q) (ops : List (Op K W Q)) (h : ExtractsDefault D [] [] ops)
    (i : ℕ) (o : Obj K W Q) (ho : (World.run D [] ops)[i]? = some o) (q : Quadrature)
    (hq : (o.readQuadrature D).2 = some q) :
    ∃ r, (noteMethods D [] [] ops)[i]? = some r ∧ quadratureOf D r (o.readQuadrature D).1.mesh = some q := by
  refine ⟨o.method, ?_, (panel_data_current D ops o (List.mem_of_getElem? ho)).quadrature q hq⟩
  rw [← method_kept D ops h, List.getElem?_map, ho]; rfl

/-- **C99, violated**: extracted panels have the default quadrature, so that they keep the method of the mesh
if and only if it had none. -/
theorem extract_method_iff (o o' : Obj K W Q) (ids : List ℕ) (h : o.extractFaces ids = some o') :
    o'.method = o.method ↔ o.method = none := by
  rw [extractFaces_method h]
  exact ⟨fun e => e.symm, fun e => e.symm⟩

/-- **C99, violated**: the same for a single panel. -/
theorem extract_one_method_iff (o o' : Obj K W Q) (i : ℕ) (h : o.extractOneFace i = some o') :
    o'.method = o.method ↔ o.method = none := by
  rw [extractOneFace_method h]
  exact ⟨fun e => e.symm, fun e => e.symm⟩

theorem computeQuadrature_stores {D : Derived K W Q} {r : Option Q} {o : Obj K W Q} {q : Quadrature}
    (hq : (o.computeQuadrature D r).2 = some q) : (o.computeQuadrature D r).1.quadrature = some q := by
  revert hq
  unfold Obj.computeQuadrature
  simp only
  split
  · unfold Obj.readTable
    simp only [Obj.clear, Obj.new]
    cases ht : o.mesh.healTriangles.faceTable with
    | none => exact fun h => by cases h
    | some t => exact fun h => h
  · rename_i r
    simp only [Obj.clear, Obj.new]
    cases hr : D.rule r o.mesh.healTriangles with
    | none => exact fun h => by cases h
    | some t => exact fun h => h

theorem readQuadrature_stores {D : Derived K W Q} {o : Obj K W Q} {q : Quadrature}
    (hq : (o.readQuadrature D).2 = some q) : (o.readQuadrature D).1.quadrature = some q := by
  unfold Obj.readQuadrature at hq ⊢
  cases hn : o.quadrature with
  | some q' => rw [hn] at hq; simpa [hn] using hq
  | none =>
    rw [hn] at hq
    simp only at hq ⊢
    exact computeQuadrature_stores hq

/-- **C99, violated**: assigning `quadrature_method` after the points have been read changes nothing to what
is read, while the attribute announces the other method. -/
theorem assign_method_stale (D : Derived K W Q) (o : Obj K W Q) (r : Option Q) (q : Quadrature)
    (hq : (o.readQuadrature D).2 = some q) :
    let o' := (o.readQuadrature D).1.assignMethod r
    o'.method = r ∧ (o'.readQuadrature D).2 = some q := by
  refine ⟨rfl, ?_⟩
  have hs := readQuadrature_stores hq
  generalize (o.readQuadrature D).1 = p at hs
  unfold Obj.readQuadrature Obj.assignMethod
  simp only [hs]

/-! ## Collections -/

/-- The plain meshes of a collection, in order. -/
def QTree.leaves : QTree K W Q → List (Obj K W Q)
  | .single o => [o]
  | .coll parts => parts.flatMap QTree.leaves

/-- There is no empty collection in it. -/
inductive QTree.Full : QTree K W Q → Prop
  | single (o : Obj K W Q) : Full (.single o)
  | coll (parts : List (QTree K W Q)) (hne : parts ≠ []) (h : ∀ t ∈ parts, Full t) : Full (.coll parts)

theorem QTree.ind {P : QTree K W Q → Prop} (h1 : ∀ o, P (.single o))
    (h2 : ∀ parts, (∀ t ∈ parts, P t) → P (.coll parts)) : ∀ t, P t
  | .single o => h1 o
  | .coll parts => h2 parts fun t _ => QTree.ind h1 h2 t

theorem mapM_some_iff {α β : Type} {f : α → Option β} {l : List α} {l' : List β} :
    l.mapM f = some l' ↔ List.Forall₂ (fun a b => f a = some b) l l' := by
  induction l generalizing l' with
  | nil =>
    constructor
    · intro h; simp at h; subst h; exact .nil
    · intro h; cases h; rfl
  | cons a l ih =>
    rw [List.mapM_cons]
    constructor
    · intro h
      cases ha : f a with
      | none => rw [ha] at h; cases h
      | some b =>
        rw [ha] at h
        cases hl : l.mapM f with
        | none => rw [hl] at h; cases h
        | some r =>
          rw [hl] at h
          injection h with h
          subst h
          exact .cons ha (ih.1 hl)
    · intro h
      cases h with
      | cons hab hl => rw [hab, ih.2 hl]; rfl

theorem stackArrays_some_iff {l : List QArray} {a : QArray} : stackArrays l = some a ↔
    l ≠ [] ∧ (∀ b ∈ l, b.width = a.width) ∧ a.rows = l.flatMap (·.rows) := by
  cases l with
  | nil => simp [stackArrays]
  | cons c l =>
    rw [stackArrays]
    obtain ⟨w, rs⟩ := a
    split
    · rename_i h
      constructor
      · intro e
        simp only [Option.some.injEq, QArray.mk.injEq] at e
        refine ⟨by simp, fun b hb => ?_, ?_⟩
        · rcases List.mem_cons.1 hb with rfl | hb
          · exact e.1
          · rw [h b hb]; exact e.1
        · simpa using e.2.symm
      · rintro ⟨-, h2, h3⟩
        simp only [Option.some.injEq, QArray.mk.injEq]
        exact ⟨h2 c (by simp), by simpa using h3.symm⟩
    · rename_i h
      constructor
      · intro e; cases e
      · rintro ⟨-, h2, -⟩
        exact absurd (fun b hb => (h2 b (by simp [hb])).trans (h2 c (by simp)).symm) h

theorem forall₂_append_split {α β : Type} {R : α → β → Prop} {a b : List α} {c : List β}
    (h : List.Forall₂ R (a ++ b) c) : ∃ c1 c2, c = c1 ++ c2 ∧ List.Forall₂ R a c1 ∧ List.Forall₂ R b c2 := by
  induction a generalizing c with
  | nil => exact ⟨[], c, rfl, .nil, h⟩
  | cons x a ih =>
    cases h with
    | cons hx ht =>
      obtain ⟨c1, c2, rfl, h1, h2⟩ := ih ht
      exact ⟨_ :: c1, c2, rfl, .cons hx h1, h2⟩

/-- **C99**: the quadrature points of a collection can be read if and only if there is no empty collection in
it, the points of each plain mesh can be read, and all the plain meshes (even those without panels) have the
same number of points on each panel. They are then those of the plain meshes, in order. -/
theorem collection_points (other : K → Mesh (V3 ℝ) → Option W) (scheme : Q → Option (List LocalPoint))
    (t : QTree K W Q) (a : QArray) :
    t.points other scheme = some a ↔
      t.Full ∧ ∃ bs : List QArray, List.Forall₂ (fun o b => o.points other scheme = some b) t.leaves bs ∧
        (∀ b ∈ bs, b.width = a.width) ∧ a.rows = bs.flatMap (·.rows) := by
  induction t using QTree.ind generalizing a with
  | h1 o =>
    rw [QTree.points, QTree.leaves]
    constructor
    · intro h
      exact ⟨.single o, [a], .cons h .nil, by simp, by simp⟩
    · rintro ⟨-, bs, h, hw, hr⟩
      cases h with
      | cons h1 h2 =>
        cases h2
        rename_i b
        have e1 := hw b (by simp)
        simp only [List.flatMap_cons, List.flatMap_nil, List.append_nil] at hr
        rw [h1]
        obtain ⟨w, rs⟩ := a
        obtain ⟨w', rs'⟩ := b
        simp only at e1 hr
        rw [e1, hr]
  | h2 parts ih =>
    rw [QTree.points, QTree.leaves, Option.bind_eq_some_iff]
    constructor
    · rintro ⟨cs, h1, h2⟩
      rw [mapM_some_iff] at h1
      obtain ⟨k1, k2, k3⟩ := stackArrays_some_iff.1 h2
      have hne : parts ≠ [] := by
        rintro rfl
        cases h1
        exact k1 rfl
      rw [k3]
      have key : (∀ t ∈ parts, t.Full) ∧ ∃ bs : List QArray,
          List.Forall₂ (fun o b => o.points other scheme = some b) (parts.flatMap QTree.leaves) bs ∧
          (∀ b ∈ bs, b.width = a.width) ∧ cs.flatMap (·.rows) = bs.flatMap (·.rows) := by
        clear h2 k1 k3 hne
        induction h1 with
        | nil => exact ⟨by simp, [], .nil, by simp, rfl⟩
        | @cons t c parts cs htc h1 ih' =>
          obtain ⟨j1, bs, j2, j3, j4⟩ := ih' (fun t ht => ih t (by simp [ht]))
            (fun b hb => k2 b (by simp [hb]))
          obtain ⟨i1, bs', i2, i3, i4⟩ := (ih t (by simp) c).1 htc
          refine ⟨?_, bs' ++ bs, ?_, ?_, ?_⟩
          · intro x hx
            rcases List.mem_cons.1 hx with rfl | hx
            · exact i1
            · exact j1 x hx
          · rw [List.flatMap_cons]
            exact List.rel_append i2 j2
          · intro b hb
            rcases List.mem_append.1 hb with hb | hb
            · rw [i3 b hb]; exact k2 c (by simp)
            · exact j3 b hb
          · rw [List.flatMap_cons, List.flatMap_append, i4, j4]
      exact ⟨.coll parts hne key.1, key.2⟩
    · rintro ⟨hf, bs, h1, h2, h3⟩
      cases hf with
      | coll _ hne hf =>
        have key : ∃ cs : List QArray,
            List.Forall₂ (fun t c => QTree.points other scheme t = some c) parts cs ∧
            (∀ c ∈ cs, c.width = a.width) ∧ cs.flatMap (·.rows) = bs.flatMap (·.rows) := by
          clear h3 hne
          induction parts generalizing bs with
          | nil => cases h1; exact ⟨[], .nil, by simp, rfl⟩
          | cons t parts ih' =>
            rw [List.flatMap_cons] at h1
            obtain ⟨b1, b2, rfl, g1, g2⟩ := forall₂_append_split h1
            obtain ⟨cs, e1, e2, e3⟩ := ih' (fun t ht => ih t (by simp [ht])) b2 g2
              (fun b hb => h2 b (by simp [hb])) (fun t ht => hf t (by simp [ht]))
            refine ⟨⟨a.width, b1.flatMap (·.rows)⟩ :: cs, .cons ?_ e1, ?_, ?_⟩
            · exact (ih t (by simp) _).2 ⟨hf t (by simp), b1, g1, fun b hb => h2 b (by simp [hb]), rfl⟩
            · intro c hc
              rcases List.mem_cons.1 hc with rfl | hc
              · rfl
              · exact e2 c hc
            · rw [List.flatMap_cons, List.flatMap_append, e3]
        obtain ⟨cs, e1, e2, e3⟩ := key
        refine ⟨cs, mapM_some_iff.2 e1, stackArrays_some_iff.2 ⟨?_, e2, h3.trans e3.symm⟩⟩
        rintro rfl
        cases e1
        exact hne rfl

theorem points_width {other : K → Mesh (V3 ℝ) → Option W} {scheme : Q → Option (List LocalPoint)}
    {o : Obj K W Q} {b : QArray} (h : o.points other scheme = some b) : b.width = nbPoints scheme o.method := by
  unfold Obj.points at h
  obtain ⟨q, -, rfl⟩ := Option.map_eq_some_iff.1 h
  rfl

/-- **C99, violated**: a body whose lid has another number of quadrature points than the hull cannot be
given to the solver. When the points of the hull and of the lid can be read, those of the mesh with both can
be read if and only if the numbers are the same. -/
theorem lid_points_iff (other : K → Mesh (V3 ℝ) → Option W) (scheme : Q → Option (List LocalPoint))
    (hull lid : Obj K W Q) (a b : QArray) (ha : hull.points other scheme = some a)
    (hb : lid.points other scheme = some b) :
    (∃ c, (withLid (.single hull) (some (.single lid))).points other scheme = some c) ↔
      nbPoints scheme hull.method = nbPoints scheme lid.method := by
  have hlv : (withLid (QTree.single hull) (some (.single lid))).leaves = [hull, lid] := by
    simp [withLid, QTree.leaves]
  constructor
  · rintro ⟨c, hc⟩
    obtain ⟨-, bs, h1, h2, -⟩ := (collection_points other scheme _ c).1 hc
    rw [hlv] at h1
    cases h1 with
    | cons x h1 =>
      cases h1 with
      | cons y h1 =>
        cases h1
        rename_i u v
        rw [← points_width x, ← points_width y, h2 u (by simp), h2 v (by simp)]
  · intro e
    refine ⟨⟨a.width, [a, b].flatMap (·.rows)⟩, (collection_points other scheme _ _).2 ⟨?_, [a, b], ?_, ?_, rfl⟩⟩
    · refine .coll _ (by simp) fun t ht => ?_
      simp only [List.mem_cons, List.not_mem_nil, or_false] at ht
      rcases ht with rfl | rfl <;> exact .single _
    · rw [hlv]
      exact .cons ha (.cons hb .nil)
    · intro x hx
      simp only [List.mem_cons, List.not_mem_nil, or_false] at hx
      rcases hx with rfl | rfl
      · rfl
      · show x.width = a.width
        rw [points_width ha, points_width hb, e]

theorem common_method_iff {l : List (Announced Q)} {r : Option Q} :
    common l = .method r ↔ l ≠ [] ∧ ∀ a ∈ l, a = .method r := by
  cases l with
  | nil => simp [common]
  | cons a l =>
    rw [common]
    split
    · rename_i h
      constructor
      · rintro rfl
        refine ⟨by simp, fun b hb => ?_⟩
        rcases List.mem_cons.1 hb with rfl | hb
        · rfl
        · exact h b hb
      · exact fun h' => h'.2 a (by simp)
    · rename_i h
      constructor
      · intro e; cases e
      · exact fun h' => absurd (fun b hb => (h'.2 b (by simp [hb])).trans (h'.2 a (by simp)).symm) h

/-- **C99**: a collection announces a method if and only if all its meshes have this one, and there is no
empty collection in it. -/
theorem announced_iff (t : QTree K W Q) (r : Option Q) :
    t.announced = .method r ↔ t.Full ∧ ∀ o ∈ t.leaves, o.method = r := by
  induction t using QTree.ind with
  | h1 o =>
    rw [QTree.announced, QTree.leaves]
    exact ⟨fun h => ⟨.single o, by simpa using h⟩, fun h => by rw [h.2 o (by simp)]⟩
  | h2 parts ih =>
    rw [QTree.announced, QTree.leaves, common_method_iff]
    constructor
    · rintro ⟨h1, h2⟩
      refine ⟨.coll parts (by simpa using h1) fun t ht => ?_, fun o ho => ?_⟩
      · exact ((ih t ht).1 (h2 _ (List.mem_map_of_mem ht))).1
      · obtain ⟨t, ht, ho⟩ := List.mem_flatMap.1 ho
        exact ((ih t ht).1 (h2 _ (List.mem_map_of_mem ht))).2 o ho
    · rintro ⟨h1, h2⟩
      cases h1 with
      | coll _ hne h1 =>
        refine ⟨by simpa using hne, fun a ha => ?_⟩
        obtain ⟨t, ht, rfl⟩ := List.mem_map.1 ha
        exact (ih t ht).2 ⟨h1 t ht, fun o ho => h2 o (List.mem_flatMap.2 ⟨t, ht, ho⟩)⟩

theorem compute_leaves (D : Derived K W Q) (r : Option Q) (t t' : QTree K W Q)
    (h : t.compute D r = some t') : (t.Full → t'.Full) ∧
    List.Forall₂ (fun o o' => ∃ q, o.computeQuadrature D r = (o', some q)) t.leaves t'.leaves := by
  induction t using QTree.ind generalizing t' with
  | h1 o =>
    rw [QTree.compute] at h
    split at h
    · rename_i o' q e
      injection h with h
      subst h
      rw [QTree.leaves, QTree.leaves]
      exact ⟨fun _ => .single _, .cons ⟨q, e⟩ .nil⟩
    · cases h
  | h2 parts ih =>
    rw [QTree.compute] at h
    obtain ⟨ps, h1, rfl⟩ := Option.map_eq_some_iff.1 h
    rw [mapM_some_iff] at h1
    rw [QTree.leaves, QTree.leaves]
    have key : (∀ t ∈ parts, t.Full) → ∀ t ∈ ps, t.Full := by
      clear h
      induction h1 with
      | nil => simp
      | @cons t p parts ps htp h1 ih' =>
        intro hf x hx
        rcases List.mem_cons.1 hx with rfl | hx
        · exact (ih t (by simp) _ htp).1 (hf t (by simp))
        · exact ih' (fun t ht => ih t (by simp [ht])) (fun t ht => hf t (by simp [ht])) x hx
    refine ⟨fun hf => ?_, ?_⟩
    · cases hf with
      | coll _ hne hf =>
        refine .coll ps ?_ (key hf)
        rintro rfl
        cases h1
        exact hne rfl
    · clear h key
      induction h1 with
      | nil => exact .nil
      | @cons t p parts ps htp h1 ih' =>
        rw [List.flatMap_cons, List.flatMap_cons]
        exact List.rel_append (ih t (by simp) _ htp).2 (ih' fun t ht => ih t (by simp [ht]))

/-- **C99**: after `compute_quadrature` on a collection (in which no collection is empty), the collection
announces the method, its points can be read, and they are those computed with this method on each of the
plain meshes, in order. -/
theorem collection_computed (other : K → Mesh (V3 ℝ) → Option W) (scheme : Q → Option (List LocalPoint))
    (r : Option Q) (t t' : QTree K W Q) (hf : t.Full)
    (h : t.compute (schemeData other scheme) r = some t') :
    t'.announced = .method r ∧
    ∃ qs : List Quadrature,
      List.Forall₂ (fun o q => quadratureOf (schemeData other scheme) r o.mesh.healTriangles = some q)
        t.leaves qs ∧
      t'.points other scheme = some ⟨nbPoints scheme r, qs.flatten⟩ := by
  obtain ⟨h1, h2⟩ := compute_leaves _ r t t' h
  have hm : ∀ o' ∈ t'.leaves, o'.method = r := by
    intro o' ho'
    obtain ⟨o, ho, q, e⟩ : ∃ o ∈ t.leaves, ∃ q, o.computeQuadrature (schemeData other scheme) r = (o', some q) := by
      clear h1 hf h
      generalize t.leaves = l at h2 ⊢
      generalize t'.leaves = l' at h2 ho'
      induction h2 with
      | nil => cases ho'
      | @cons a b l l' hab _ ih =>
        rcases List.mem_cons.1 ho' with rfl | ho'
        · exact ⟨a, by simp, hab⟩
        · obtain ⟨o, ho, hq⟩ := ih ho'
          exact ⟨o, by simp [ho], hq⟩
    have := (computeQuadrature_method (schemeData other scheme) r o).1 ⟨q, by rw [e]⟩
    rwa [e] at this
  refine ⟨(announced_iff t' r).2 ⟨h1 hf, hm⟩, ?_⟩
  have key : ∃ qs : List Quadrature,
      List.Forall₂ (fun (o : Obj K W Q) q => quadratureOf (schemeData other scheme) r o.mesh.healTriangles = some q) t.leaves qs ∧
      List.Forall₂ (fun o b => o.points other scheme = some b) t'.leaves
        (qs.map fun q => (⟨nbPoints scheme r, q⟩ : QArray)) := by
    clear h1 hf h
    generalize t.leaves = l at h2 ⊢
    generalize t'.leaves = l' at h2 hm ⊢
    induction h2 with
    | nil => exact ⟨[], .nil, .nil⟩
    | @cons a b l l' hab _ ih =>
      obtain ⟨qs, i1, i2⟩ := ih fun o ho => hm o (by simp [ho])
      obtain ⟨q, hq⟩ := hab
      have e2 : (a.computeQuadrature (schemeData other scheme) r).2 = some q := by rw [hq]
      refine ⟨q :: qs, .cons ((computeQuadrature_spec _ r a).2.2 q e2) i1, .cons ?_ i2⟩
      have e3 := computeQuadrature_stores e2
      rw [hq] at e3
      unfold Obj.points Obj.readQuadrature
      rw [e3, hm b (by simp)]
      rfl
  obtain ⟨qs, k1, k2⟩ := key
  refine ⟨qs, k1, (collection_points other scheme t' _).2 ⟨h1 hf, _, k2, ?_, ?_⟩⟩
  · intro b hb
    obtain ⟨q, -, rfl⟩ := List.mem_map.1 hb
    rfl
  · show qs.flatten = _
    rw [List.flatMap_map, List.flatMap_id']

/-- **C99, violated**: merging a collection, or joining meshes, forgets the method: the joined mesh announces
the common method of the meshes if and only if it is the default one. -/
theorem merged_method_iff (gather : QTree K W Q → Mesh (V3 ℝ)) (t : QTree K W Q) (r : Option Q)
    (h : t.announced = .method r) : (t.merged gather).announced = t.announced ↔ r = none := by
  rw [h, QTree.merged, QTree.announced]
  constructor
  · intro e; injection e with e; exact e.symm
  · rintro rfl; rfl

/-! ## Memory of the engine -/

open Verif.Cache in
/-- **C99, violated**: when the matrices are asked twice for a mesh, with another method the second time, the
second answer is the one of the first method, which is right if and only if both methods give the same
matrices. -/
theorem memory_ignores_method {P V : Type} (eqP : P → P → Bool) (hP : ∀ p, eqP p p = true)
    (g : P → Option Q → V) (maxsize : ℕ) (hmax : 1 ≤ maxsize) (n m : ℕ) (p : P) (r r' : Option Q) :
    (run (fun a b => eqP a.1 b.1) maxsize (matricesOf g) State.init [(n + 1, (p, r)), (m + 1, (p, r'))]).2 =
      [.value (g p r), .value (g p r)] := by
  have h1 : ¬ (1 > maxsize) := by omega
  simp [run, decorated, compute, lookup, Cache.insert, State.init, matricesOf, hP, h1]

/-! ## Concrete cases -/

theorem tetra_healed : tetra.healTriangles = tetra := rfl

/-- Both methods can be computed on the tetrahedron. -/
theorem tetra_computed (other : K → Mesh (V3 ℝ) → Option W) (o : Obj K W String) (ho : o.mesh = tetra) :
    (∃ q, (o.computeQuadrature (schemeData other builtinMethod) none).2 = some q) ∧
    ∃ q, (o.computeQuadrature (schemeData other builtinMethod) (some "Gauss-Legendre 2")).2 = some q := by
  obtain ⟨t, ht⟩ := table_exists tetra_sound.valid
  have hb : builtinMethod "Gauss-Legendre 2" = some gaussLegendre2 := by simp [builtinMethod]
  obtain ⟨q, hq, -⟩ := mesh_weights_sum (builtin_local _ _ hb) tetra_sound t ht
  constructor
  · unfold Obj.computeQuadrature Obj.readTable
    simp only [Obj.clear, Obj.new, ho, tetra_healed, ht]
    exact ⟨_, rfl⟩
  · unfold Obj.computeQuadrature
    simp only [Obj.clear, Obj.new, ho, tetra_healed, schemeData, hb, Option.bind_some, hq]
    exact ⟨_, rfl⟩

/-- **C99, violated**: with the builtin methods, a body with the method "Gauss-Legendre 2" on the hull and
the default quadrature on the lid has no quadrature points, although both meshes have. -/
theorem lid_points_violated (other : K → Mesh (V3 ℝ) → Option W) :
    ∃ hull lid : Obj K W String, ∃ a b, hull.points other builtinMethod = some a ∧
      lid.points other builtinMethod = some b ∧
      (withLid (.single hull) (some (.single lid))).points other builtinMethod = none := by
  have e : ∀ r : Option String, (∃ q, ((Obj.new tetra r : Obj K W String).computeQuadrature
      (schemeData other builtinMethod) r).2 = some q) →
      ∃ a, (Obj.new tetra r : Obj K W String).points other builtinMethod = some a := by
    rintro r ⟨q, hq⟩
    refine ⟨⟨nbPoints builtinMethod r, q⟩, ?_⟩
    unfold Obj.points Obj.readQuadrature
    show Option.map _ ((Obj.new tetra r : Obj K W String).computeQuadrature _ r).2 = _
    rw [hq]; rfl
  obtain ⟨a, ha⟩ := e (some "Gauss-Legendre 2") (tetra_computed other _ rfl).2
  obtain ⟨b, hb⟩ := e none (tetra_computed other _ rfl).1
  refine ⟨_, _, a, b, ha, hb, ?_⟩
  cases hc : (withLid (.single (Obj.new tetra (some "Gauss-Legendre 2") : Obj K W String))
      (some (.single (.new tetra none)))).points other builtinMethod with
  | none => rfl
  | some c =>
    have := (lid_points_iff other builtinMethod _ _ a b ha hb).1 ⟨c, hc⟩
    simp [nbPoints, Obj.new, builtinMethod, gaussLegendre2] at this

/-- Concrete case of `method_kept` and `quadrature_of_chosen`: a mesh with a method, a copy of it for which
the default is computed, and a moved copy of the first one. The methods are those that were chosen. -/
example (other : K → Mesh (V3 ℝ) → Option W) :
    let D := schemeData other builtinMethod
    let ops : List (Op K W String) := [.build tetra (some "Gauss-Legendre 2"), .copy 0,
      .computeQuadrature 1 none, .transform 0 (.plain some) false]
    ExtractsDefault D [] [] ops ∧
    noteMethods D [] [] ops = [some "Gauss-Legendre 2", none, some "Gauss-Legendre 2"] := by
  have h := (tetra_computed other (Obj.new tetra (some "Gauss-Legendre 2")) rfl).1
  have hc : Computed (schemeData other builtinMethod)
      [(Obj.new tetra (some "Gauss-Legendre 2") : Obj K W String), Obj.new tetra (some "Gauss-Legendre 2")] 1 none := by
    obtain ⟨q, hq⟩ := h
    exact ⟨_, q, rfl, hq⟩
  refine ⟨⟨fun h => h.elim, fun h => h.elim, fun h => h.elim, fun h => h.elim, trivial⟩, ?_⟩
  simp [noteMethods, noteMethod, World.step, World.add, World.update, Op.source, hc, Obj.transform,
    Transformation.plain]

/-- Concrete case of `extract_method_iff`: panels of a mesh with a method. -/
example : ∃ o' : Obj Unit Unit String,
    (Obj.new tetra (some "Gauss-Legendre 2") : Obj Unit Unit String).extractFaces [0, 2] = some o' ∧
    o'.method = none := by
  obtain ⟨m, kept, h, -⟩ := extract_faces tetra tetra_sound.valid [0, 2] (by simp [tetra])
  refine ⟨Obj.new m none, ?_, rfl⟩
  unfold Obj.extractFaces
  simp only [Obj.new, h]
  rfl

/-- Concrete case of `extract_one_method_iff`. -/
example : ∃ o' : Obj Unit Unit String,
    (Obj.new tetra (some "Gauss-Legendre 2") : Obj Unit Unit String).extractOneFace 1 = some o' :=
  ⟨_, rfl⟩

/-- Concrete case of `assign_method_stale`: the points of the default quadrature are read, then the method
is assigned. -/
example : ∃ q, ((Obj.new tetra none : Obj Unit Unit String).readQuadrature
    (schemeData (fun _ _ => none) builtinMethod)).2 = some q :=
  (tetra_computed (fun _ _ => none) (Obj.new tetra none : Obj Unit Unit String) rfl).1

/-- Concrete case of `collection_computed`, `announced_iff` and `collection_points`: a collection with a
collection in it. -/
example : (∃ t', (QTree.coll [.single (Obj.new tetra none : Obj Unit Unit String),
      .coll [.single (Obj.new tetra (some "Gauss-Legendre 2"))]]).compute
      (schemeData (fun _ _ => none) builtinMethod) (some "Gauss-Legendre 2") = some t') ∧
    (QTree.coll [.single (Obj.new tetra none : Obj Unit Unit String),
      .coll [.single (Obj.new tetra (some "Gauss-Legendre 2"))]]).Full := by
  obtain ⟨q, hq⟩ := (tetra_computed (fun _ _ => none) (Obj.new tetra none : Obj Unit Unit String) rfl).2
  obtain ⟨q', hq'⟩ := (tetra_computed (fun _ _ => none)
    (Obj.new tetra (some "Gauss-Legendre 2") : Obj Unit Unit String) rfl).2
  constructor
  · have e : ∀ o : Obj Unit Unit String, (∃ q, (o.computeQuadrature
        (schemeData (fun _ _ => none) builtinMethod) (some "Gauss-Legendre 2")).2 = some q) →
        ∃ t', (QTree.single o).compute (schemeData (fun _ _ => none) builtinMethod)
          (some "Gauss-Legendre 2") = some t' := by
      rintro o ⟨q, hq⟩
      refine ⟨.single (o.computeQuadrature (schemeData (fun _ _ => none) builtinMethod)
        (some "Gauss-Legendre 2")).1, ?_⟩
      rw [QTree.compute]
      split
      · rename_i x y h; rw [h]
      · rename_i x h; rw [h] at hq; cases hq
    obtain ⟨t1, h1⟩ := e _ ⟨q, hq⟩
    obtain ⟨t2, h2⟩ := e _ ⟨q', hq'⟩
    have h3 : (QTree.coll [.single (Obj.new tetra (some "Gauss-Legendre 2") : Obj Unit Unit String)]).compute
        (schemeData (fun _ _ => none) builtinMethod) (some "Gauss-Legendre 2") = some (.coll [t2]) := by
      rw [QTree.compute, mapM_some_iff.2 (.cons h2 .nil)]; rfl
    exact ⟨.coll [t1, .coll [t2]], by rw [QTree.compute, mapM_some_iff.2 (.cons h1 (.cons h3 .nil))]; rfl⟩
  · refine .coll _ (by simp) fun t ht => ?_
    simp only [List.mem_cons, List.not_mem_nil, or_false] at ht
    rcases ht with rfl | rfl
    · exact .single _
    · exact .coll _ (by simp) fun t ht => by
        rw [List.mem_singleton.1 ht]; exact .single _

/-- Concrete case of `memory_ignores_method`: the matrices depend on the method. -/
example : (Verif.Cache.run (fun a b => a.1 == b.1) 1
      (matricesOf fun (p : ℕ) (r : Option String) => (p, nbPoints (fun _ => some []) r))
      Verif.Cache.State.init [(5, (7, none)), (5, (7, some "Gauss-Legendre 2"))]).2 =
    [.value (7, 1), .value (7, 1)] :=
  memory_ignores_method (fun a b => a == b) (by simp) _ 1 (by omega) 4 4 7 none (some "Gauss-Legendre 2")



/-- **C99**: after any actions, the number of points announced for the panels of a mesh (the second
dimension of the array) is the number of points that each panel has: one without method, at the center. -/
theorem points_per_panel (other : K → Mesh (V3 ℝ) → Option W) (scheme : Q → Option (List LocalPoint))
    (ops : List (Op K W Q)) (o : Obj K W Q) (ho : o ∈ World.run (schemeData other scheme) [] ops) (a : QArray)
    (h : o.points other scheme = some a) : ∀ row ∈ a.rows, row.length = a.width := by
  unfold Obj.points at h
  obtain ⟨q, hq, rfl⟩ := Option.map_eq_some_iff.1 h
  have hc := (panel_data_current (schemeData other scheme) ops o ho).quadrature q hq
  intro row hrow
  cases hm : o.method with
  | none =>
    rw [hm] at hc
    simp only [quadratureOf, Option.map_eq_some_iff] at hc
    obtain ⟨t, -, rfl⟩ := hc
    simp only [List.mem_map] at hrow
    obtain ⟨x, -, rfl⟩ := hrow
    rfl
  | some r =>
    rw [hm] at hc
    simp only [quadratureOf, schemeData, Option.bind_eq_some_iff] at hc
    obtain ⟨sc, hs, hc⟩ := hc
    have hf := mapM_some_iff.1 hc
    have : ∀ row ∈ q, row.length = sc.length := by
      clear hrow hq h hc
      generalize (o.readQuadrature _).1.mesh.faces = fs at hf
      induction hf with
      | nil => simp
      | cons h1 _ ih =>
        intro row hr
        rcases List.mem_cons.1 hr with rfl | hr
        · obtain ⟨c, -, rfl⟩ := Option.map_eq_some_iff.1 h1
          simp [faceQuadrature]
        · exact ih row hr
    rw [this row hrow]
    simp [nbPoints, hs]

/-- Concrete case of `points_per_panel`: a new tetrahedron, without method. -/
example : ∃ o : Obj Unit Unit String,
    o ∈ World.run (schemeData (fun _ _ => none) builtinMethod) [] [.build tetra none] ∧
    ∃ a, o.points (fun _ _ => none) builtinMethod = some a := by
  refine ⟨.new tetra none, by simp [World.run, World.step], ?_⟩
  obtain ⟨q, hq⟩ := (tetra_computed (fun _ _ => none) (Obj.new tetra none : Obj Unit Unit String) rfl).1
  refine ⟨⟨nbPoints builtinMethod none, q⟩, ?_⟩
  unfold Obj.points Obj.readQuadrature
  show Option.map _ ((Obj.new tetra none : Obj Unit Unit String).computeQuadrature _ none).2 = _
  rw [hq]; rfl
end Verif.Meshes
