import Verif.Bodies.LidModel
import Verif.Meshes.TreeProps

/-!
# C39: the mesh including the lid is the current one
-/

namespace Verif.Bodies

open Verif.Geometry Verif.Meshes

/-! ## Specification -/

/-- The panels of an object. -/
def LidState.shapes (s : LidState) (i : ℕ) : List (Bool × Option (V3 ℝ × V3 ℝ × V3 ℝ × V3 ℝ)) :=
  (s.content i).leaves.flatMap Mesh.shapes

/-- The panels that the user expects: those of the current hull, then those of the current lid. -/
def LidState.expected (s : LidState) : List (Bool × Option (V3 ℝ × V3 ℝ × V3 ℝ × V3 ℝ)) :=
  s.shapes s.mesh ++
    match s.lid with
    | none => []
    | some l => s.shapes l

/-- The panels of the mesh that is read. -/
def LidState.panels (s : LidState) : List (Bool × Option (V3 ℝ × V3 ℝ × V3 ℝ × V3 ℝ)) :=
  s.value.leaves.flatMap Mesh.shapes

/-- Assignments of an attribute. -/
def LidOp.assigns : LidOp → Prop
  | .setMesh _ => True
  | .setLid _ => True
  | _ => False

/-- The changes in place leave a mesh without panels empty, as motions and clipping do. -/
def LidOp.Steady : LidOp → Prop
  | .clip f => ∀ t : Meshes.Tree, t.nbFaces = 0 → (f t).nbFaces = 0
  | .move f => ∀ t : Meshes.Tree, t.nbFaces = 0 → (f t).nbFaces = 0
  | .change _ f => ∀ t : Meshes.Tree, t.nbFaces = 0 → (f t).nbFaces = 0
  | _ => True

/-- A history: the state after a list of operations. -/
def LidState.run (s : LidState) (ops : List LidOp) : LidState := ops.foldl LidState.step s

/-- A body after its construction. -/
def LidState.New (s : LidState) : Prop :=
  s.cached = none ∧ s.mesh < s.heap.length ∧ ∀ l, s.lid = some l → l < s.heap.length

/-! ## Lemmas -/

/-- The objects of a pair of attributes. -/
def refs (c : ℕ × Option ℕ) : List ℕ := c.1 :: c.2.toList

/-- The objects that make the mesh that is read. -/
def LidState.used (s : LidState) : List ℕ := refs (s.cached.getD (s.mesh, s.lid))

/-- Whether an object has panels. -/
def LidState.solid (s : LidState) (i : ℕ) : Bool := decide ((s.content i).nbFaces ≠ 0)

theorem panels_eq (s : LidState) : s.panels = s.used.flatMap s.shapes := by
  rw [LidState.panels, LidState.value, LidState.used, refs]
  split
  · rename_i h
    rw [h]
    simp [LidState.shapes]
  · rename_i h
    rw [h]
    simp [Tree.leaves, leavesAll, LidState.shapes]

theorem expected_eq (s : LidState) : s.expected = (refs (s.mesh, s.lid)).flatMap s.shapes := by
  rw [LidState.expected, refs]
  cases s.lid <;> simp

theorem flatMap_solid (s : LidState) (l : List ℕ) : l.flatMap s.shapes = (l.filter s.solid).flatMap s.shapes := by
  induction l with
  | nil => rfl
  | cons i l ih =>
    by_cases h : s.solid i = true
    · rw [List.filter_cons_of_pos h, List.flatMap_cons, List.flatMap_cons, ih]
    · rw [List.filter_cons_of_neg h, List.flatMap_cons, ih]
      have h0 : (s.shapes i).length = 0 := by
        rw [LidState.shapes, shapes_length]
        simpa [LidState.solid] using h
      rw [List.length_eq_zero_iff.mp h0, List.nil_append]

/-- The objects with panels that make the mesh that is read are those of the attributes. -/
def LidState.Current (s : LidState) : Prop :=
  s.used.filter s.solid = (refs (s.mesh, s.lid)).filter s.solid

theorem panels_current {s : LidState} (h : s.Current) : s.panels = s.expected := by
  rw [panels_eq, expected_eq, flatMap_solid, h, ← flatMap_solid]

theorem current_new {s : LidState} (h : s.cached = none) : s.Current := by
  rw [LidState.Current, LidState.used, h, Option.getD_none]

/-- The body refers to existing objects. -/
def LidState.Valid (s : LidState) : Prop :=
  (∀ i ∈ refs (s.mesh, s.lid), i < s.heap.length) ∧ ∀ i ∈ s.used, i < s.heap.length

theorem valid_iff {s : LidState} : s.Valid ↔ s.mesh < s.heap.length ∧ (∀ l, s.lid = some l → l < s.heap.length) ∧
    ∀ i ∈ s.used, i < s.heap.length := by
  rw [LidState.Valid, refs]
  constructor
  · rintro ⟨h1, h2⟩
    exact ⟨h1 _ List.mem_cons_self, fun l hl => h1 l (by simp [hl]), h2⟩
  · rintro ⟨h1, h2, h3⟩
    refine ⟨fun i hi => ?_, h3⟩
    rcases List.mem_cons.mp hi with rfl | hi
    · exact h1
    · exact h2 i (by simpa using hi)

theorem current_mono {s r : LidState} (hm : r.mesh = s.mesh) (hl : r.lid = s.lid) (hc : r.cached = s.cached)
    (h : ∀ i, i ∈ s.used ∨ i ∈ refs (s.mesh, s.lid) → r.solid i = true → s.solid i = true) (hs : s.Current) :
    r.Current := by
  have hu : r.used = s.used := by rw [LidState.used, LidState.used, hm, hl, hc]
  rw [LidState.Current, hu, hm, hl]
  have key : ∀ l : List ℕ, (∀ i ∈ l, i ∈ s.used ∨ i ∈ refs (s.mesh, s.lid)) →
      l.filter r.solid = (l.filter s.solid).filter r.solid := by
    intro l hl
    rw [List.filter_filter]
    refine List.filter_congr fun i hi => ?_
    cases hr : r.solid i with
    | false => simp
    | true => simp [h i (hl i hi) hr]
  rw [key _ fun i hi => Or.inl hi, key _ fun i hi => Or.inr hi, hs]

theorem content_update (s : LidState) (i j : ℕ) (f : Meshes.Tree → Meshes.Tree) :
    (s.update i f).content j = s.content j ∨ (s.update i f).content j = f (s.content j) := by
  simp only [LidState.content, LidState.update, List.getD_eq_getElem?_getD, List.getElem?_modify]
  cases s.heap[j]? with
  | none => left; rfl
  | some t =>
    by_cases h : i = j
    · right
      simp [h]
    · left
      simp [h]

theorem solid_heap {s r : LidState} (h : r.heap = s.heap) : r.solid = s.solid := by
  funext i
  unfold LidState.solid LidState.content
  rw [h]

theorem solid_update {s : LidState} {i j : ℕ} {f : Meshes.Tree → Meshes.Tree}
    (hf : ∀ t : Meshes.Tree, t.nbFaces = 0 → (f t).nbFaces = 0) (h : (s.update i f).solid j = true) :
    s.solid j = true := by
  simp only [LidState.solid, decide_eq_true_eq] at h ⊢
  intro h0
  rcases content_update s i j f with he | he
  · exact h (by rw [he, h0])
  · exact h (by rw [he, hf _ h0])

theorem both_attrs (s : LidState) (f : Meshes.Tree → Meshes.Tree) :
    (s.both f).mesh = s.mesh ∧ (s.both f).lid = s.lid ∧ (s.both f).cached = s.cached ∧
      (s.both f).heap.length = s.heap.length := by
  rw [LidState.both]
  split <;> simp_all [LidState.update]

theorem solid_both {s : LidState} {j : ℕ} {f : Meshes.Tree → Meshes.Tree}
    (hf : ∀ t : Meshes.Tree, t.nbFaces = 0 → (f t).nbFaces = 0) (h : (s.both f).solid j = true) :
    s.solid j = true := by
  rw [LidState.both] at h
  split at h
  · exact solid_update hf h
  · exact solid_update hf (solid_update hf h)

theorem valid_both {s : LidState} (f : Meshes.Tree → Meshes.Tree) (h : s.Valid) : (s.both f).Valid := by
  obtain ⟨e1, e2, e3, e4⟩ := both_attrs s f
  rw [LidState.Valid, LidState.used, e1, e2, e3, e4]
  exact h

theorem refs_shift (c : ℕ × Option ℕ) (n : ℕ) : refs (c.1 + n, c.2.map (· + n)) = (refs c).map (· + n) := by
  rcases c with ⟨m, l⟩
  cases l <;> simp [refs]

theorem used_copy (s : LidState) : (s.step .copy).used = s.used.map (· + s.heap.length) := by
  simp only [LidState.step, LidState.used]
  cases s.cached with
  | none => exact refs_shift (s.mesh, s.lid) _
  | some c => exact refs_shift c _

theorem valid_step {s : LidState} (h : s.Valid) (o : LidOp) : (s.step o).Valid := by
  cases o with
  | read =>
    simp only [LidState.step]
    split
    · exact h
    · exact ⟨h.1, h.1⟩
  | create t =>
    simp only [LidState.step]
    refine ⟨fun i hi => ?_, fun i hi => ?_⟩
    · have := h.1 i hi
      simp only [List.length_append]
      omega
    · have := h.2 i hi
      simp only [List.length_append]
      omega
  | setMesh i =>
    simp only [LidState.step]
    split
    · rename_i hi
      obtain ⟨h1, h2, h3⟩ := valid_iff.mp h
      refine valid_iff.mpr ⟨hi, h2, ?_⟩
      intro j hj
      simp only [LidState.used] at hj h3
      cases hc : s.cached with
      | none =>
        rw [hc, Option.getD_none] at hj
        rcases List.mem_cons.mp hj with rfl | hj
        · exact hi
        · exact h2 j (by simpa using hj)
      | some c =>
        rw [hc] at hj h3
        exact h3 j hj
    · exact h
  | setLid l =>
    obtain ⟨h1, h2, h3⟩ := valid_iff.mp h
    cases l with
    | none =>
      simp only [LidState.step]
      refine valid_iff.mpr ⟨h1, by simp, ?_⟩
      intro j hj
      simp only [LidState.used] at hj h3
      cases hc : s.cached with
      | none =>
        rw [hc, Option.getD_none] at hj
        simp only [refs, Option.toList_none, List.mem_singleton] at hj
        rw [hj]
        exact h1
      | some c =>
        rw [hc] at hj h3
        exact h3 j hj
    | some l =>
      simp only [LidState.step]
      split
      · rename_i hl
        refine valid_iff.mpr ⟨h1, by rintro _ ⟨⟩; exact hl, ?_⟩
        intro j hj
        simp only [LidState.used] at hj h3
        cases hc : s.cached with
        | none =>
          rw [hc, Option.getD_none] at hj
          simp only [refs, Option.toList_some, List.mem_cons, List.not_mem_nil, or_false] at hj
          rcases hj with rfl | rfl
          · exact h1
          · exact hl
        | some c =>
          rw [hc] at hj h3
          exact h3 j hj
      · exact h
  | change i f =>
    simp only [LidState.step, LidState.Valid, LidState.update, LidState.used, List.length_modify]
    exact h
  | move f => exact valid_both f h
  | clip f =>
    have hb := valid_both f h
    simp only [LidState.step]
    split
    · exact hb
    · split
      · obtain ⟨h1, h2, h3⟩ := valid_iff.mp hb
        refine valid_iff.mpr ⟨h1, by simp, ?_⟩
        intro j hj
        simp only [LidState.used] at hj h3
        cases hc : (s.both f).cached with
        | none =>
          rw [hc, Option.getD_none] at hj
          simp only [refs, Option.toList_none, List.mem_singleton] at hj
          rw [hj]
          exact h1
        | some c =>
          rw [hc] at hj h3
          exact h3 j hj
      · exact hb
  | copy =>
    refine ⟨fun i hi => ?_, fun i hi => ?_⟩
    · have hi : i ∈ (refs (s.mesh, s.lid)).map (· + s.heap.length) := by rw [← refs_shift]; exact hi
      obtain ⟨j, hj, rfl⟩ := List.mem_map.mp hi
      have := h.1 j hj
      simp only [LidState.step, List.length_append]
      omega
    · rw [used_copy] at hi
      obtain ⟨j, hj, rfl⟩ := List.mem_map.mp hi
      have := h.2 j hj
      simp only [LidState.step, List.length_append]
      omega

theorem content_copy (s : LidState) (i : ℕ) : (s.step .copy).content (i + s.heap.length) = s.content i := by
  simp only [LidState.step, LidState.content, List.getD_eq_getElem?_getD]
  rw [List.getElem?_append_right (by omega), Nat.add_sub_cancel]

theorem current_step {s : LidState} (hv : s.Valid) (h : s.Current) (o : LidOp) (ha : ¬ o.assigns) (ho : o.Steady) :
    (s.step o).Current := by
  cases o with
  | read =>
    simp only [LidState.step]
    split
    · exact h
    · simp [LidState.Current, LidState.used]
  | create t =>
    refine current_mono (s := s) rfl rfl rfl ?_ h
    intro i hi hs
    have hlt : i < s.heap.length := by
      rcases hi with hi | hi
      · exact hv.2 i hi
      · exact hv.1 i hi
    simp only [LidState.solid, LidState.content, LidState.step, List.getD_eq_getElem?_getD,
      List.getElem?_append_left hlt] at hs ⊢
    exact hs
  | setMesh i => exact absurd trivial ha
  | setLid l => exact absurd trivial ha
  | change i f => exact current_mono (s := s) rfl rfl rfl (fun j _ hj => solid_update ho hj) h
  | move f =>
    obtain ⟨e1, e2, e3, -⟩ := both_attrs s f
    exact current_mono e1 e2 e3 (fun j _ hj => solid_both ho hj) h
  | clip f =>
    obtain ⟨e1, e2, e3, -⟩ := both_attrs s f
    have hb : (s.both f).Current := current_mono e1 e2 e3 (fun j _ hj => solid_both ho hj) h
    simp only [LidState.step]
    split
    · exact hb
    · rename_i l hl
      split
      · rename_i h0
        cases hc : (s.both f).cached with
        | none => exact current_new rfl
        | some c =>
          simp only [LidState.Current, LidState.used, hc, Option.getD_some, hl] at hb ⊢
          have hsol : (s.both f).solid l = false := by simp [LidState.solid, h0]
          have e := solid_heap (s := s.both f)
            (r := { heap := (s.both f).heap, mesh := (s.both f).mesh, lid := none, cached := some c }) rfl
          rw [e]
          refine hb.trans ?_
          simp only [refs, Option.toList_some, Option.toList_none]
          rw [show [(s.both f).mesh, l] = [(s.both f).mesh] ++ [l] from rfl, List.filter_append,
            List.filter_cons_of_neg (a := l) (by rw [hsol]; exact Bool.false_ne_true), List.filter_nil, List.append_nil]
      · exact hb
  | copy =>
    have e : ∀ l : List ℕ, (l.map (· + s.heap.length)).filter (s.step .copy).solid =
        (l.filter s.solid).map (· + s.heap.length) := by
      intro l
      rw [List.filter_map]
      congr 2
      funext i
      simp only [Function.comp, LidState.solid, content_copy]
    rw [LidState.Current, used_copy, e, h, ← e, ← refs_shift]
    rfl

/-! ## C39 -/

/-- C39 for the histories in which no attribute is assigned after the attribute has been read: first any
operations but reads, then any operations but assignments. Whatever is changed in place, the mesh that is read has
the panels of the current hull and lid. -/
theorem mesh_including_lid_partial (s : LidState) (hs : s.New) (before after : List LidOp)
    (hb : ∀ o ∈ before, o ≠ .read) (ha : ∀ o ∈ after, ¬ o.assigns ∧ o.Steady) :
    ((s.run before).run after).panels = ((s.run before).run after).expected := by
  have h1 : (s.run before).Valid ∧ (s.run before).cached = none := by
    have hs' : s.Valid ∧ s.cached = none := by
      refine ⟨valid_iff.mpr ⟨hs.2.1, hs.2.2, ?_⟩, hs.1⟩
      rw [LidState.used, hs.1, Option.getD_none, refs]
      intro i hi
      rcases List.mem_cons.mp hi with rfl | hi
      · exact hs.2.1
      · exact hs.2.2 i (by simpa using hi)
    clear hs ha
    induction before generalizing s with
    | nil => exact hs'
    | cons o ops ih =>
      refine ih (s.step o) (fun p hp => hb p (List.mem_cons_of_mem _ hp)) ⟨valid_step hs'.1 o, ?_⟩
      cases o with
      | read => exact absurd rfl (hb _ List.mem_cons_self)
      | create t => exact hs'.2
      | setMesh i =>
        simp only [LidState.step]
        split <;> exact hs'.2
      | setLid l =>
        cases l with
        | none => exact hs'.2
        | some l =>
          simp only [LidState.step]
          split <;> exact hs'.2
      | change i f => exact hs'.2
      | move f => exact (both_attrs s f).2.2.1.trans hs'.2
      | clip f =>
        have := (both_attrs s f).2.2.1.trans hs'.2
        simp only [LidState.step]
        split
        · exact this
        · split <;> exact this
      | copy =>
        simp only [LidState.step, hs'.2]
        rfl
  have h2 : ∀ r : LidState, r.Valid → r.Current → (r.run after).Current := by
    clear h1 hs hb
    induction after with
    | nil => exact fun r _ h => h
    | cons o ops ih =>
      intro r hv hc
      obtain ⟨a1, a2⟩ := ha o List.mem_cons_self
      exact ih (fun p hp => ha p (List.mem_cons_of_mem _ hp)) (r.step o) (valid_step hv o) (current_step hv hc o a1 a2)
  exact panels_current (h2 _ h1.1 (current_new h1.2))


/-! ## Exactness of the condition -/

/-- A mesh with one panel, different for each number. -/
noncomputable def tag (i : ℕ) : Meshes.Tree := .leaf ⟨[⟨i, 0, 0⟩], [⟨0, 0, 0, 0⟩]⟩

open Classical in
/-- Replace the panels of an object, if there are any. -/
noncomputable def retag (i : ℕ) (t : Meshes.Tree) : Meshes.Tree := if t.nbFaces = 0 then t else tag i

theorem run_append (s : LidState) (a b : List LidOp) : s.run (a ++ b) = (s.run a).run b := List.foldl_append

theorem content_modify (s : LidState) (i j : ℕ) (f : Meshes.Tree → Meshes.Tree) (hj : j < s.heap.length) :
    (s.update i f).content j = if i = j then f (s.content j) else s.content j := by
  simp only [LidState.content, LidState.update, List.getD_eq_getElem?_getD, List.getElem?_modify,
    List.getElem?_eq_getElem hj]
  by_cases h : i = j <;> simp [h]

theorem run_retag (s : LidState) (n : ℕ) :
    (s.run ((List.range n).map fun i => .change i (retag i))).heap.length = s.heap.length ∧
    (s.run ((List.range n).map fun i => .change i (retag i))).mesh = s.mesh ∧
    (s.run ((List.range n).map fun i => .change i (retag i))).lid = s.lid ∧
    (s.run ((List.range n).map fun i => .change i (retag i))).cached = s.cached ∧
    ∀ j, j < s.heap.length → (s.run ((List.range n).map fun i => .change i (retag i))).content j =
      if j < n then retag j (s.content j) else s.content j := by
  induction n with
  | zero => exact ⟨rfl, rfl, rfl, rfl, fun j _ => rfl⟩
  | succ n ih =>
    obtain ⟨h1, h2, h3, h4, h5⟩ := ih
    rw [List.range_succ, List.map_append, run_append]
    refine ⟨?_, h2, h3, h4, fun j hj => ?_⟩
    · rw [← h1]
      simp [LidState.run, LidState.step, LidState.update]
    · have e : ∀ r : LidState, r.run [LidOp.change n (retag n)] = r.update n (retag n) := fun _ => rfl
      rw [List.map_singleton, e, content_modify _ _ _ _ (by rw [h1]; exact hj), h5 j hj]
      by_cases hn : n = j
      · subst hn
        rw [if_pos rfl, if_neg (lt_irrefl _), if_pos (Nat.lt_succ_self _)]
      · rw [if_neg hn]
        by_cases hl : j < n
        · rw [if_pos hl, if_pos (by omega)]
        · rw [if_neg hl, if_neg (by omega)]

theorem map_inj_lists {A B : Type} {f : A → B} (hf : Function.Injective f) {l l' : List A} (h : l.map f = l'.map f) :
    l = l' := List.map_injective_iff.mpr hf h

/-- C39, exactly: the mesh that is read stays the current one under all changes in place of the meshes if and only
if, leaving out the objects without panels, the objects that have been stored are those of the attributes. -/
theorem mesh_including_lid_iff (s : LidState) (hv : s.Valid) :
    (∀ changes : List (ℕ × (Meshes.Tree → Meshes.Tree)),
      (∀ c ∈ changes, ∀ t : Meshes.Tree, t.nbFaces = 0 → (c.2 t).nbFaces = 0) →
      (s.run (changes.map fun c => .change c.1 c.2)).panels =
        (s.run (changes.map fun c => .change c.1 c.2)).expected) ↔ s.Current := by
  constructor
  · intro h
    obtain ⟨h1, h2, h3, h4, h5⟩ := run_retag s s.heap.length
    have key := h ((List.range s.heap.length).map fun i => (i, retag i)) (by
      intro c hc t ht
      obtain ⟨i, -, rfl⟩ := List.mem_map.mp hc
      show (retag i t).nbFaces = 0
      rw [retag, if_pos ht, ht])
    rw [List.map_map] at key
    have hcomp : ((fun c : ℕ × (Meshes.Tree → Meshes.Tree) => LidOp.change c.1 c.2) ∘ fun i => (i, retag i)) =
        fun i => LidOp.change i (retag i) := rfl
    rw [hcomp] at key
    generalize s.run ((List.range s.heap.length).map fun i => LidOp.change i (retag i)) = r at *
    rw [panels_eq, expected_eq, LidState.used, h2, h3, h4] at key
    have hsh : ∀ l : List ℕ, (∀ i ∈ l, i < s.heap.length) → l.flatMap r.shapes =
        (l.filter s.solid).map fun i : ℕ =>
          (true, some ((⟨i, 0, 0⟩ : V3 ℝ), (⟨i, 0, 0⟩ : V3 ℝ), (⟨i, 0, 0⟩ : V3 ℝ), (⟨i, 0, 0⟩ : V3 ℝ))) := by
      intro l hl
      induction l with
      | nil => rfl
      | cons i l ih =>
        have hi := hl i List.mem_cons_self
        rw [List.flatMap_cons, ih fun j hj => hl j (List.mem_cons_of_mem _ hj), LidState.shapes, h5 i hi, if_pos hi]
        by_cases hs : (s.content i).nbFaces = 0
        · have hf : ¬ s.solid i = true := by simp [LidState.solid, hs]
          have h0 : ((s.content i).leaves.flatMap Mesh.shapes).length = 0 := by rw [shapes_length, hs]
          rw [retag, if_pos hs, List.filter_cons_of_neg hf, List.length_eq_zero_iff.mp h0, List.nil_append]
        · have hf : s.solid i = true := by simp [LidState.solid, hs]
          rw [retag, if_neg hs, List.filter_cons_of_pos hf]
          simp [tag, Tree.leaves, Mesh.shapes, Face.isTriangle, corners]
    rw [show refs (s.cached.getD (s.mesh, s.lid)) = s.used from rfl, hsh _ hv.2, hsh _ hv.1] at key
    refine map_inj_lists (fun i j hij => ?_) key
    simpa using hij
  · intro h changes hc
    refine panels_current ?_
    have : ∀ r : LidState, r.Valid → r.Current → (r.run (changes.map fun c => .change c.1 c.2)).Current := by
      clear h hv
      induction changes with
      | nil => exact fun r _ h => h
      | cons c cs ih =>
        intro r hv' h'
        exact ih (fun d hd => hc d (List.mem_cons_of_mem _ hd)) _ (valid_step hv' (.change c.1 c.2))
          (current_step hv' h' (.change c.1 c.2) (fun h => h) (hc c List.mem_cons_self))
    exact this s hv h

/-! ## Violation and example -/

/-- C39 is false in general. After the attribute has been read, a new lid, no lid any more, or a new hull are not
seen by the next reads. -/
theorem mesh_including_lid_violated :
    ∃ s : LidState, s.New ∧
      (s.run [.read, .create (tag 2), .setLid (some 2), .read]).panels ≠
        (s.run [.read, .create (tag 2), .setLid (some 2), .read]).expected ∧
      (s.run [.read, .setLid none, .read]).panels ≠ (s.run [.read, .setLid none, .read]).expected ∧
      (s.run [.read, .create (tag 2), .setMesh 2, .read]).panels ≠
        (s.run [.read, .create (tag 2), .setMesh 2, .read]).expected := by
  refine ⟨⟨[tag 0, tag 1], 0, some 1, none⟩, ⟨rfl, by decide, by simp⟩, ?_, ?_, ?_⟩ <;>
  · simp only [panels_eq, expected_eq]
    simp [LidState.run, LidState.step, LidState.used, refs, LidState.shapes, LidState.content, tag, Tree.leaves,
      Mesh.shapes, Face.isTriangle, corners]

/-- Concrete case of `mesh_including_lid_partial` and `mesh_including_lid_iff`: the hull and the lid are replaced,
then the attribute is read, then the body is moved and copied. -/
example : ∃ s : LidState, s.New ∧
    ((s.run [.create (tag 2), .setLid (some 2)]).run [.read, .move (retag 7), .copy, .read]).panels =
      ((s.run [.create (tag 2), .setLid (some 2)]).run [.read, .move (retag 7), .copy, .read]).expected ∧
    ((s.run [.create (tag 2), .setLid (some 2)]).run [.read, .move (retag 7), .copy, .read]).panels.length = 2 := by
  refine ⟨⟨[tag 0, tag 1], 0, some 1, none⟩, ⟨rfl, by decide, by simp⟩, ?_, ?_⟩
  · refine mesh_including_lid_partial _ ⟨rfl, by decide, by simp⟩ _ _ ?_ ?_
    · intro o ho
      simp only [List.mem_cons, List.not_mem_nil, or_false] at ho
      rcases ho with rfl | rfl <;> simp
    · intro o ho
      simp only [List.mem_cons, List.not_mem_nil, or_false] at ho
      rcases ho with rfl | rfl | rfl | rfl
      · exact ⟨id, trivial⟩
      · exact ⟨id, fun t ht => by rw [retag, if_pos ht, ht]⟩
      · exact ⟨id, trivial⟩
      · exact ⟨id, trivial⟩
  · rw [panels_eq]
    simp [LidState.run, LidState.step, LidState.used, refs, LidState.shapes, LidState.content, tag, retag, Tree.leaves,
      Mesh.shapes, LidState.both, LidState.update, List.modify, List.modifyTailIdx,
      List.modifyTailIdx.go, Tree.nbFaces]

end Verif.Bodies
