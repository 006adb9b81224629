import Verif.Files.NumberedModel
import Mathlib.Tactic.Ring
import Mathlib.Tactic.Linarith

/-!
# Properties of the mesh files with numbered nodes (C102)

In the specification a file says which points are joined by each panel: a panel is a list of numbers, and the point of a number
is the node that has this number.
-/

namespace Verif.Files.Numbered

open Verif.Meshes

variable {V : Type}

/-! ## Specification -/

/-- The point that has the number `k`. -/
def pointOf (nodes : List (ℕ × V)) (k : ℕ) : Option V := (nodes.find? fun p => p.1 == k).map Prod.snd

/-- The four corners of the panel that joins these nodes; a triangle has its first corner twice. -/
def cornersOf (nodes : List (ℕ × V)) (ids : List ℕ) : List (Option V) :=
  (if ids.length = 3 then ids ++ ids.take 1 else ids).map (pointOf nodes)

/-- The corners of the panels of a mesh. -/
def panels (m : Mesh V) : List (List (Option V)) := m.faces.map fun f => f.toList.map fun i => m.vertices[i]?

/-- The nodes are numbered from 1 in the order of the file. -/
def InOrder (nodes : List (ℕ × V)) : Prop := nodes.map Prod.fst = List.range' 1 nodes.length

/-- A panel joins three or four nodes of the file. -/
def Known (nodes : List (ℕ × V)) (ids : List ℕ) : Prop := (ids.length = 3 ∨ ids.length = 4) ∧ ∀ k ∈ ids, k ∈ nodes.map Prod.fst

/-! ## Building the mesh -/

theorem checkedFace_some_iff (n : ℕ) (r : List ℤ) :
    (∃ f, checkedFace n r = some f) ↔ r.length = 4 ∧ ∀ k ∈ r, 0 ≤ k ∧ k < n := by
  constructor
  · rintro ⟨f, h⟩
    match r, h with
    | [a, b, c, d], h =>
      simp only [checkedFace] at h
      split at h
      · exact ⟨rfl, by assumption⟩
      · cases h
  · rintro ⟨h4, h⟩
    match r, h4 with
    | [a, b, c, d], _ => exact ⟨_, if_pos h⟩

theorem checkedFace_corners (vs : List V) (n : ℕ) (r : List ℤ) (f : Face) (h : checkedFace n r = some f) :
    f.toList.map (fun i => vs[i]?) = r.map fun k => vs[k.toNat]? := by
  match r, h with
  | [a, b, c, d], h =>
    simp only [checkedFace] at h
    split at h
    · cases h; rfl
    · cases h

theorem mapM_some_iff' {A B : Type} (g : A → Option B) (l : List A) : (∃ r, l.mapM g = some r) ↔ ∀ a ∈ l, ∃ b, g a = some b := by
  induction l with
  | nil => simp
  | cons a l ih =>
    rw [List.mapM_cons]
    constructor
    · rintro ⟨r, h⟩
      simp only [Option.bind_eq_bind, Option.bind_eq_some_iff, Option.pure_def] at h
      obtain ⟨b, h1, bs, h2, _⟩ := h
      intro x hx
      rcases List.mem_cons.1 hx with rfl | hx
      · exact ⟨b, h1⟩
      · exact ih.1 ⟨bs, h2⟩ x hx
    · intro h
      obtain ⟨b, hb⟩ := h a (by simp)
      obtain ⟨bs, hbs⟩ := ih.2 fun x hx => h x (by simp [hx])
      exact ⟨b :: bs, by simp [hb, hbs]⟩

theorem mapM_map_eq {A B C : Type} (g : A → Option B) (u : B → C) (w : A → C) (l : List A) (r : List B) (h : l.mapM g = some r)
    (hg : ∀ a b, g a = some b → u b = w a) : r.map u = l.map w := by
  induction l generalizing r with
  | nil => simp at h; subst h; rfl
  | cons a l ih =>
    rw [List.mapM_cons] at h
    simp only [Option.bind_eq_bind, Option.bind_eq_some_iff, Option.pure_def, Option.some.injEq] at h
    obtain ⟨b, h1, bs, h2, rfl⟩ := h
    simp [hg a b h1, ih bs h2]

theorem newMesh_some_iff (vs : List V) (rows : List (List ℤ)) :
    (∃ m, newMesh vs rows = some m) ↔ rows ≠ [] ∧ ∀ r ∈ rows, r.length = 4 ∧ ∀ k ∈ r, 0 ≤ k ∧ k < vs.length := by
  simp only [newMesh]
  split
  · simp_all
  · rename_i hne
    simp only [Option.map_eq_some_iff]
    constructor
    · rintro ⟨m, fs, h, _⟩
      exact ⟨hne, fun r hr => (checkedFace_some_iff _ r).1 ((mapM_some_iff' _ _).1 ⟨fs, h⟩ r hr)⟩
    · rintro ⟨_, h⟩
      obtain ⟨fs, hfs⟩ := (mapM_some_iff' (checkedFace vs.length) rows).2 fun r hr => (checkedFace_some_iff _ r).2 (h r hr)
      exact ⟨_, fs, hfs, rfl⟩

theorem newMesh_panels (vs : List V) (rows : List (List ℤ)) (m : Mesh V) (h : newMesh vs rows = some m) :
    m.vertices = vs ∧ panels m = rows.map fun r => r.map fun k => vs[k.toNat]? := by
  simp only [newMesh] at h
  split at h
  · cases h
  · simp only [Option.map_eq_some_iff] at h
    obtain ⟨fs, h1, rfl⟩ := h
    exact ⟨rfl, mapM_map_eq _ _ _ _ _ h1 fun r f hf => checkedFace_corners vs _ r f hf⟩

theorem pointOf_get (nodes : List (ℕ × V)) (h : (nodes.map Prod.fst).Nodup) (i : ℕ) (p : ℕ × V) (hi : nodes[i]? = some p) :
    pointOf nodes p.1 = some p.2 := by
  induction nodes generalizing i with
  | nil => simp at hi
  | cons q nodes ih =>
    simp only [List.map_cons, List.nodup_cons] at h
    cases i with
    | zero => simp at hi; subst hi; simp [pointOf]
    | succ i =>
      simp only [List.getElem?_cons_succ] at hi
      have hne : q.1 ≠ p.1 := fun he => h.1 (he ▸ List.mem_map_of_mem (List.mem_of_getElem? hi))
      have := ih h.2 i hi
      simp only [pointOf] at this ⊢
      rw [List.find?_cons_of_neg (by simpa using hne), this]

theorem inOrder_nodup (nodes : List (ℕ × V)) (h : InOrder nodes) : (nodes.map Prod.fst).Nodup := by
  rw [h]; exact List.nodup_range'

theorem inOrder_point (nodes : List (ℕ × V)) (h : InOrder nodes) (k : ℕ) (hk : k ∈ nodes.map Prod.fst) :
    1 ≤ k ∧ k ≤ nodes.length ∧ (nodes.map Prod.snd)[((k : ℤ) - 1).toNat]? = pointOf nodes k := by
  have hk' := hk
  rw [h, List.mem_range'_1] at hk'
  refine ⟨hk'.1, by omega, ?_⟩
  have hi : k - 1 < nodes.length := by omega
  have h1 : (nodes.map Prod.fst)[k - 1]? = some k := by
    rw [h, List.getElem?_range' (by omega)]
    simp
    omega
  rw [List.getElem?_map, List.getElem?_eq_getElem hi] at h1
  have h2 := pointOf_get nodes (inOrder_nodup nodes h) (k - 1) nodes[k - 1] (List.getElem?_eq_getElem hi)
  simp only [Option.map_some, Option.some.injEq] at h1
  rw [h1] at h2
  rw [h2, show ((k : ℤ) - 1).toNat = k - 1 by omega, List.getElem?_map, List.getElem?_eq_getElem hi]
  rfl

theorem known_row (nodes : List (ℕ × V)) (h : InOrder nodes) (ids : List ℕ) (hk : ∀ k ∈ ids, k ∈ nodes.map Prod.fst) :
    (∀ k ∈ ids.map fun k : ℕ => (k : ℤ) - 1, 0 ≤ k ∧ k < (nodes.map Prod.snd).length) ∧
      ((ids.map fun k : ℕ => (k : ℤ) - 1).map fun k => (nodes.map Prod.snd)[k.toNat]?) = ids.map (pointOf nodes) := by
  refine ⟨fun k hk' => ?_, ?_⟩
  · obtain ⟨j, hj, rfl⟩ := List.mem_map.1 hk'
    obtain ⟨h1, h2, _⟩ := inOrder_point nodes h j (hk j hj)
    rw [List.length_map]
    omega
  · rw [List.map_map]
    apply List.map_congr_left
    intro j hj
    exact (inOrder_point nodes h j (hk j hj)).2.2

/-! ## Radioss -/

/-- A file with at least three panels and nodes numbered from 1 in order is read as it says. -/
theorem rad_panels (nodes : List (ℕ × V)) (elems : List (List ℕ)) (ho : InOrder nodes) (h3 : 3 ≤ elems.length)
    (hk : ∀ r ∈ elems, r.length = 7 ∧ ∀ k ∈ r.drop 3, k ∈ nodes.map Prod.fst) :
    ∃ m, loadRad nodes elems = some m ∧ m.vertices = nodes.map Prod.snd ∧
      panels m = elems.map fun r => cornersOf nodes (r.drop 3) := by
  have hne : nodes ≠ [] := by
    rintro rfl
    match elems, h3 with
    | r :: _, _ =>
      obtain ⟨h7, h⟩ := hk r (by simp)
      match r, h7 with
      | [_, _, _, d, _, _, _], _ => simpa using h d (by simp)
  have hrows : ∀ r ∈ elems.map fun r => (r.drop 3).map fun k : ℕ => (k : ℤ) - 1,
      r.length = 4 ∧ ∀ k ∈ r, 0 ≤ k ∧ k < ((nodes.map Prod.snd).length : ℤ) := by
    intro r hr
    obtain ⟨s, hs, rfl⟩ := List.mem_map.1 hr
    exact ⟨by simp [(hk s hs).1], (known_row nodes ho _ (hk s hs).2).1⟩
  have hl : loadRad nodes elems = newMesh (nodes.map Prod.snd) (elems.map fun r => (r.drop 3).map fun k : ℕ => (k : ℤ) - 1) :=
    if_neg (by simp [hne]; omega)
  obtain ⟨m, hm⟩ := (newMesh_some_iff _ _).2 ⟨by intro he; simp at he; simp [he] at h3, hrows⟩
  obtain ⟨h1, h2⟩ := newMesh_panels _ _ _ hm
  refine ⟨m, hl.trans hm, h1, ?_⟩
  rw [h2, List.map_map]
  apply List.map_congr_left
  intro r hr
  have h4 : (r.drop 3).length = 4 := by simp [(hk r hr).1]
  rw [Function.comp, (known_row nodes ho _ (hk r hr).2).2, cornersOf, if_neg (by omega)]

/-- A file with fewer than three panels is refused. -/
theorem rad_few_refused (nodes : List (ℕ × V)) (elems : List (List ℕ)) (h : elems.length < 3) : loadRad nodes elems = none :=
  if_pos (Or.inr h)

/-- The numbers of the nodes are not read: only the order of the nodes matters. -/
theorem rad_ignores_numbers (nodes nodes' : List (ℕ × V)) (elems : List (List ℕ)) (h : nodes.map Prod.snd = nodes'.map Prod.snd) :
    loadRad nodes elems = loadRad nodes' elems := by
  have : nodes = [] ↔ nodes' = [] := by
    have := congrArg List.length h
    simp only [List.length_map] at this
    rw [← List.length_eq_zero_iff, ← List.length_eq_zero_iff, this]
  simp only [loadRad, h, this]

/-- A file whose nodes 1 and 2 are written in the other order is read, with panels that join other points. -/
theorem rad_violated : ∃ (nodes : List (ℕ × ℤ × ℤ)) (elems : List (List ℕ)) (m : Mesh (ℤ × ℤ)), (nodes.map Prod.fst).Nodup ∧
    (∀ r ∈ elems, r.length = 7 ∧ ∀ k ∈ r.drop 3, k ∈ nodes.map Prod.fst) ∧ loadRad nodes elems = some m ∧
    panels m ≠ elems.map fun r => cornersOf nodes (r.drop 3) := by
  refine ⟨[(2, 1, 0), (1, 0, 0), (3, 1, 1), (4, 0, 1)], List.replicate 3 [1, 1, 1, 1, 2, 3, 4], _, by decide, by decide, rfl, by decide⟩

example : InOrder [(1, (0 : ℤ)), (2, 5), (3, 7), (4, 8)] ∧
    ∀ r ∈ [[1, 1, 1, 1, 2, 3, 4], [2, 1, 1, 1, 2, 3, 1], [3, 1, 1, 4, 3, 2, 1]],
      r.length = 7 ∧ ∀ k ∈ r.drop 3, k ∈ [(1, (0 : ℤ)), (2, 5), (3, 7), (4, 8)].map Prod.fst := by
  constructor
  · rfl
  · decide

/-! ## Gmsh and meshio -/

/-- An element of a Gmsh file: its type, its tags and its nodes. -/
structure Element where
  number : ℕ
  type : ℕ
  tags : List ℕ
  nodes : List ℕ
  deriving DecidableEq

/-- The row of the file. -/
def Element.row (e : Element) : List ℕ := [e.number, e.type, e.tags.length] ++ e.tags ++ e.nodes

/-- The elements that are panels. -/
def Element.IsTriangle (e : Element) : Prop := e.type = 2
def Element.IsQuadrangle (e : Element) : Prop := e.type = 3

instance (e : Element) : Decidable e.IsTriangle := inferInstanceAs (Decidable (_ = _))
instance (e : Element) : Decidable e.IsQuadrangle := inferInstanceAs (Decidable (_ = _))

/-- The triangles have three nodes and the quadrangles four, which are in the file. -/
def Element.Good (nodes : List (ℕ × V)) (e : Element) : Prop :=
  (e.IsTriangle → e.nodes.length = 3 ∧ ∀ k ∈ e.nodes, k ∈ nodes.map Prod.fst) ∧
    (e.IsQuadrangle → e.nodes.length = 4 ∧ ∀ k ∈ e.nodes, k ∈ nodes.map Prod.fst)

theorem ofType_rows (t : ℕ) (es : List Element) : ofType t (es.map Element.row) = (es.filter fun e => e.type = t).map Element.row := by
  induction es with
  | nil => rfl
  | cons e es ih =>
    have h : (e.row[1]? == some t && decide (2 < e.row.length)) = decide (e.type = t) := by
      have h2 : 2 < e.row.length := by simp only [Element.row, List.length_append, List.length_cons]; omega
      have h1 : e.row[1]? = some e.type := rfl
      rw [h1]
      by_cases ht : e.type = t <;> simp [h2, ht]
    simp only [ofType, List.map_cons, List.filter_cons] at ih ⊢
    rw [h]
    split <;> simp_all

theorem lastOnes_row (e : Element) (n : ℕ) (h : e.nodes.length = n) : lastOnes n e.row = e.nodes := by
  subst h
  simp only [lastOnes, Element.row]
  rw [show ([e.number, e.type, e.tags.length] ++ e.tags ++ e.nodes).length - e.nodes.length =
    ([e.number, e.type, e.tags.length] ++ e.tags).length by simp; omega]
  exact List.drop_left

theorem msh_rows (nodes : List (ℕ × V)) (es : List Element) (hg : ∀ e ∈ es, e.Good nodes) :
    (ofType 2 (es.map Element.row)).map (fun r => closeTriangle (lastOnes 3 r)) =
        (es.filter fun e => e.IsTriangle).map (fun e => closeTriangle e.nodes) ∧
      (ofType 3 (es.map Element.row)).map (lastOnes 4) = (es.filter fun e => e.IsQuadrangle).map Element.nodes := by
  rw [ofType_rows, ofType_rows, List.map_map, List.map_map]
  refine ⟨List.map_congr_left fun e he => ?_, List.map_congr_left fun e he => ?_⟩
  · have := List.mem_filter.1 he
    rw [Function.comp, lastOnes_row e 3 ((hg e this.1).1 (by simpa [Element.IsTriangle] using this.2)).1]
  · have := List.mem_filter.1 he
    rw [Function.comp, lastOnes_row e 4 ((hg e this.1).2 (by simpa [Element.IsQuadrangle] using this.2)).1]

/-- Without the library meshio, a Gmsh file with nodes numbered from 1 in order gives its triangles, then its quadrangles, and no
other element. -/
theorem msh_panels (nodes : List (ℕ × V)) (es : List Element) (ho : InOrder nodes) (hg : ∀ e ∈ es, e.Good nodes)
    (hne : ∃ e ∈ es, e.IsTriangle ∨ e.IsQuadrangle) :
    ∃ m, loadMsh nodes (es.map Element.row) = some m ∧ m.vertices = nodes.map Prod.snd ∧
      panels m = ((es.filter fun e => e.IsTriangle) ++ (es.filter fun e => e.IsQuadrangle)).map fun e => cornersOf nodes e.nodes := by
  obtain ⟨hr1, hr2⟩ := msh_rows nodes es hg
  have hl : loadMsh nodes (es.map Element.row) = newMesh (nodes.map Prod.snd)
      (((es.filter fun e => e.IsTriangle).map (fun e => closeTriangle e.nodes) ++
        (es.filter fun e => e.IsQuadrangle).map Element.nodes).map fun r => r.map fun k : ℕ => (k : ℤ) - 1) := by
    rw [loadMsh, hr1, hr2]
  have key : ∀ r ∈ (es.filter fun e => e.IsTriangle).map (fun e => closeTriangle e.nodes) ++
      (es.filter fun e => e.IsQuadrangle).map Element.nodes, r.length = 4 ∧ ∀ k ∈ r, k ∈ nodes.map Prod.fst := by
    intro r hr
    rcases List.mem_append.1 hr with hr | hr
    · obtain ⟨e, he, rfl⟩ := List.mem_map.1 hr
      obtain ⟨he, ht⟩ := List.mem_filter.1 he
      obtain ⟨h3, hk⟩ := (hg e he).1 (by simpa using ht)
      refine ⟨by simp [closeTriangle, h3], fun k hk' => ?_⟩
      rcases List.mem_append.1 hk' with hk' | hk'
      · exact hk k hk'
      · exact hk k (List.mem_of_mem_take hk')
    · obtain ⟨e, he, rfl⟩ := List.mem_map.1 hr
      obtain ⟨he, ht⟩ := List.mem_filter.1 he
      exact (hg e he).2 (by simpa using ht)
  have hrows : ∀ r ∈ ((es.filter fun e => e.IsTriangle).map (fun e => closeTriangle e.nodes) ++
        (es.filter fun e => e.IsQuadrangle).map Element.nodes).map fun r => r.map fun k : ℕ => (k : ℤ) - 1,
      r.length = 4 ∧ ∀ k ∈ r, 0 ≤ k ∧ k < ((nodes.map Prod.snd).length : ℤ) := by
    intro r hr
    obtain ⟨s, hs, rfl⟩ := List.mem_map.1 hr
    exact ⟨by simp [(key s hs).1], (known_row nodes ho _ (key s hs).2).1⟩
  have hne' : ((es.filter fun e => e.IsTriangle).map (fun e => closeTriangle e.nodes) ++
        (es.filter fun e => e.IsQuadrangle).map Element.nodes).map (fun r => r.map fun k : ℕ => (k : ℤ) - 1) ≠ [] := by
    obtain ⟨e, he, h⟩ := hne
    intro h0
    simp only [List.map_eq_nil_iff, List.append_eq_nil_iff, List.filter_eq_nil_iff, decide_eq_true_eq] at h0
    rcases h with h | h
    · exact h0.1 e he h
    · exact h0.2 e he h
  obtain ⟨m, hm⟩ := (newMesh_some_iff _ _).2 ⟨hne', hrows⟩
  obtain ⟨h1, h2⟩ := newMesh_panels _ _ _ hm
  refine ⟨m, hl.trans hm, h1, ?_⟩
  rw [h2, List.map_map, List.map_append, List.map_append, List.map_map, List.map_map]
  congr 1
  · apply List.map_congr_left
    intro e he
    have hs := key (closeTriangle e.nodes) (List.mem_append_left _ (List.mem_map_of_mem he))
    obtain ⟨he, ht⟩ := List.mem_filter.1 he
    obtain ⟨h3, _⟩ := (hg e he).1 (by simpa using ht)
    simp only [Function.comp]
    rw [(known_row nodes ho _ hs.2).2, cornersOf, if_pos h3]
    rfl
  · apply List.map_congr_left
    intro e he
    have hs := key e.nodes (List.mem_append_right _ (List.mem_map_of_mem he))
    simp only [Function.comp]
    rw [(known_row nodes ho _ hs.2).2, cornersOf, if_neg (by omega)]

/-- The numbers of the nodes are not read without the library meshio. -/
theorem msh_ignores_numbers (nodes nodes' : List (ℕ × V)) (elems : List (List ℕ)) (h : nodes.map Prod.snd = nodes'.map Prod.snd) :
    loadMsh nodes elems = loadMsh nodes' elems := by
  simp only [loadMsh, h]

/-- A Gmsh file whose nodes are not numbered in order is read, with panels that join other points. -/
theorem msh_violated : ∃ (nodes : List (ℕ × ℤ × ℤ)) (es : List Element) (m : Mesh (ℤ × ℤ)), (nodes.map Prod.fst).Nodup ∧
    (∀ e ∈ es, e.Good nodes) ∧ loadMsh nodes (es.map Element.row) = some m ∧
    panels m ≠ ((es.filter fun e => e.IsTriangle) ++ (es.filter fun e => e.IsQuadrangle)).map fun e => cornersOf nodes e.nodes := by
  refine ⟨[(2, 1, 0), (1, 0, 0), (3, 1, 1), (4, 0, 1)], [⟨1, 3, [0, 1], [1, 2, 3, 4]⟩], _, by decide, ?_, rfl, by decide⟩
  intro e he
  simp only [List.mem_singleton] at he
  subst he
  exact ⟨by decide, by decide⟩

/-- A Gmsh file with other elements only, or a file whose numbers have holes at the end, is refused. -/
theorem msh_refused (nodes : List (ℕ × V)) (es : List Element) (hg : ∀ e ∈ es, e.Good nodes)
    (h : (∀ e ∈ es, ¬ e.IsTriangle ∧ ¬ e.IsQuadrangle) ∨
      ∃ e ∈ es, (e.IsTriangle ∨ e.IsQuadrangle) ∧ ∃ k ∈ e.nodes, nodes.length < k) :
    loadMsh nodes (es.map Element.row) = none := by
  obtain ⟨hr1, hr2⟩ := msh_rows nodes es hg
  rw [Option.eq_none_iff_forall_ne_some]
  intro m hm
  rw [loadMsh, hr1, hr2] at hm
  obtain ⟨h1, h2⟩ := (newMesh_some_iff _ _).1 ⟨m, hm⟩
  rcases h with h | ⟨e, he, ht, k, hk, hlt⟩
  · apply h1
    simp only [List.map_eq_nil_iff, List.append_eq_nil_iff, List.filter_eq_nil_iff, decide_eq_true_eq]
    exact ⟨fun e he => (h e he).1, fun e he => (h e he).2⟩
  · have key : ∃ r ∈ (es.filter fun e => e.IsTriangle).map (fun e => closeTriangle e.nodes) ++
        (es.filter fun e => e.IsQuadrangle).map Element.nodes, k ∈ r := by
      rcases ht with ht | ht
      · exact ⟨closeTriangle e.nodes, List.mem_append_left _ (List.mem_map.2 ⟨e, List.mem_filter.2 ⟨he, by simpa using ht⟩, rfl⟩),
          List.mem_append_left _ hk⟩
      · exact ⟨e.nodes, List.mem_append_right _ (List.mem_map.2 ⟨e, List.mem_filter.2 ⟨he, by simpa using ht⟩, rfl⟩), hk⟩
    obtain ⟨r, hr, hkr⟩ := key
    have := (h2 _ (List.mem_map_of_mem hr)).2 _ (List.mem_map_of_mem hkr)
    rw [List.length_map] at this
    omega

/-- The panels of a mesh of the library meshio: its quadrangles, then its triangles with their third corner twice. -/
theorem meshio_panels (points : List V) (quads triangles : List (List ℕ)) (hne : quads ≠ [] ∨ triangles ≠ [])
    (hq : ∀ r ∈ quads, r.length = 4 ∧ ∀ k ∈ r, k < points.length)
    (ht : ∀ r ∈ triangles, r.length = 3 ∧ ∀ k ∈ r, k < points.length) :
    ∃ m, fromMeshio points quads triangles = some m ∧ m.vertices = points ∧
      panels m = (quads.map fun r => r.map fun k => points[k]?) ++
        triangles.map fun r => (r.map fun k => points[k]?) ++ [r[2]?.bind fun k => points[k]?] := by
  have hlast : ∀ r ∈ triangles, ∃ a b c, r = [a, b, c] := by
    intro r hr
    match r, (ht r hr).1 with
    | [a, b, c], _ => exact ⟨a, b, c, rfl⟩
  have hrows : ∀ r ∈ (quads ++ triangles.map fun t => t ++ lastOnes 1 t).map fun r => r.map fun k : ℕ => (k : ℤ),
      r.length = 4 ∧ ∀ k ∈ r, 0 ≤ k ∧ k < (points.length : ℤ) := by
    intro r hr
    obtain ⟨s, hs, rfl⟩ := List.mem_map.1 hr
    have hs' : s.length = 4 ∧ ∀ k ∈ s, k < points.length := by
      rcases List.mem_append.1 hs with hs | hs
      · exact hq s hs
      · obtain ⟨t, htt, rfl⟩ := List.mem_map.1 hs
        obtain ⟨a, b, c, rfl⟩ := hlast t htt
        have := (ht _ htt).2
        refine ⟨rfl, fun k hk => ?_⟩
        simp [lastOnes] at hk this
        omega
    refine ⟨by simp [hs'.1], fun k hk => ?_⟩
    obtain ⟨j, hj, rfl⟩ := List.mem_map.1 hk
    have := hs'.2 j hj
    omega
  obtain ⟨m, hm⟩ := (newMesh_some_iff points _).2 ⟨by
    intro h0
    simp only [List.map_eq_nil_iff, List.append_eq_nil_iff] at h0
    rcases hne with h | h
    · exact h h0.1
    · exact h h0.2, hrows⟩
  obtain ⟨h1, h2⟩ := newMesh_panels _ _ _ hm
  refine ⟨m, hm, h1, ?_⟩
  rw [h2, List.map_map, List.map_append, List.map_map]
  congr 1
  · apply List.map_congr_left
    intro r _
    simp
  · apply List.map_congr_left
    intro r hr
    obtain ⟨a, b, c, rfl⟩ := hlast r hr
    simp [lastOnes]

/-- The order of the panels depends on whether the library meshio is installed: for a file with one quadrangle and one triangle the
panel number 0 is not the same one. -/
theorem msh_order_violated : ∃ (nodes : List (ℕ × ℤ × ℤ)) (es : List Element) (m m' : Mesh (ℤ × ℤ)), InOrder nodes ∧
    (∀ e ∈ es, e.Good nodes) ∧ loadMsh nodes (es.map Element.row) = some m ∧
    fromMeshio (nodes.map Prod.snd) [[0, 1, 2, 3]] [[0, 3, 4]] = some m' ∧
    (panels m)[1]? = (panels m')[0]? ∧ (panels m)[0]? ≠ (panels m')[0]? := by
  refine ⟨[(1, 0, 0), (2, 1, 0), (3, 1, 1), (4, 0, 1), (5, -1, 0)], [⟨1, 3, [0, 1], [1, 2, 3, 4]⟩, ⟨2, 2, [0, 1], [1, 4, 5]⟩], _, _,
    rfl, ?_, rfl, rfl, by decide, by decide⟩
  intro e he
  simp only [List.mem_cons, List.not_mem_nil, or_false] at he
  rcases he with rfl | rfl
  · exact ⟨by decide, by decide⟩
  · exact ⟨by decide, by decide⟩

/-- The file of `msh_order_violated` meets the hypotheses of `msh_panels`, with a line among its elements. -/
example : InOrder [(1, (0 : ℤ)), (2, 5), (3, 7), (4, 8)] ∧
    (∀ e ∈ [(⟨1, 1, [], [1, 2]⟩ : Element), ⟨2, 2, [7], [1, 2, 3]⟩], e.Good [(1, (0 : ℤ)), (2, 5), (3, 7), (4, 8)]) := by
  refine ⟨rfl, ?_⟩
  intro e he
  simp only [List.mem_cons, List.not_mem_nil, or_false] at he
  rcases he with rfl | rfl
  · exact ⟨by decide, by decide⟩
  · exact ⟨by decide, by decide⟩

/-! ## Diodore -/

/-- A `.DAT` file as the regular expressions give it, with distinct numbers and elements that join nodes of the file. -/
def Dat.Good (d : Dat V) : Prop :=
  (d.nodes.map Prod.fst).Nodup ∧ d.nodes ≠ [] ∧ d.sections ≠ [] ∧ ∀ s ∈ d.sections, s ≠ [] ∧ ∀ ids ∈ s, Known d.nodes ids

theorem renumber_fold (l : List ℕ) (h : l.Nodup) (o : ℕ) (a : ℕ → ℤ) :
    (∀ k ∉ l, (l.zipIdx o).foldl (fun a p => Function.update a p.1 ((p.2 : ℤ) + 1)) a k = a k) ∧
      ∀ (i : ℕ) (k : ℕ), l[i]? = some k →
        (l.zipIdx o).foldl (fun a p => Function.update a p.1 ((p.2 : ℤ) + 1)) a k = (o + i : ℕ) + 1 := by
  induction l generalizing o a with
  | nil => simp
  | cons x l ih =>
    rw [List.nodup_cons] at h
    obtain ⟨h1, h2⟩ := ih h.2 (o + 1) (Function.update a x ((o : ℤ) + 1))
    rw [List.zipIdx_cons, List.foldl_cons]
    refine ⟨fun k hk => ?_, fun i k hi => ?_⟩
    · rw [List.mem_cons, not_or] at hk
      rw [h1 k hk.2, Function.update_of_ne hk.1]
    · cases i with
      | zero =>
        simp only [List.getElem?_cons_zero, Option.some.injEq] at hi
        subst hi
        rw [h1 x h.1]
        simp
      | succ i =>
        simp only [List.getElem?_cons_succ] at hi
        rw [h2 i k hi]
        push_cast
        ring

theorem idNew_known (nodes : List (ℕ × V)) (h : (nodes.map Prod.fst).Nodup) (k : ℕ) (hk : k ∈ nodes.map Prod.fst) :
    ∃ i : ℕ, idNew nodes k = some ((i : ℤ) + 1) ∧ i < nodes.length ∧ (nodes.map Prod.snd)[i]? = pointOf nodes k := by
  obtain ⟨i, hi⟩ := List.mem_iff_getElem?.1 hk
  have hi' := hi
  rw [List.getElem?_map, Option.map_eq_some_iff] at hi'
  obtain ⟨p, hp, rfl⟩ := hi'
  refine ⟨i, ?_, (List.getElem?_eq_some_iff.1 hp).1, ?_⟩
  · rw [idNew, if_pos ⟨p, List.mem_of_getElem? hp, le_rfl⟩, renumbering, (renumber_fold _ h 0 _).2 i p.1 hi]
    simp
  · rw [List.getElem?_map, hp, pointOf_get nodes h i p hp]
    rfl

theorem mapM_all {A B : Type} (g : A → Option B) (P : A → B → Prop) (l : List A) (h : ∀ a ∈ l, ∃ b, g a = some b ∧ P a b) :
    ∃ r, l.mapM g = some r ∧ List.Forall₂ P l r := by
  induction l with
  | nil => exact ⟨[], by simp, List.Forall₂.nil⟩
  | cons a l ih =>
    obtain ⟨b, hb, hP⟩ := h a (by simp)
    obtain ⟨r, hr, hF⟩ := ih fun x hx => h x (by simp [hx])
    exact ⟨b :: r, by simp [List.mapM_cons, hb, hr], List.Forall₂.cons hP hF⟩

theorem forall₂_map {A B C : Type} (u : A → C) (w : B → C) (l : List A) (r : List B) (h : List.Forall₂ (fun a b => w b = u a) l r) :
    r.map w = l.map u := by
  induction h with
  | nil => rfl
  | cons h _ ih => simp [h, ih]

theorem forall₂_right {A B : Type} {P : A → B → Prop} {l : List A} {r : List B} (h : List.Forall₂ P l r) (b : B) (hb : b ∈ r) :
    ∃ a ∈ l, P a b := by
  induction h with
  | nil => simp at hb
  | cons h _ ih =>
    rcases List.mem_cons.1 hb with rfl | hb
    · exact ⟨_, by simp, h⟩
    · obtain ⟨a, ha, h'⟩ := ih hb
      exact ⟨a, by simp [ha], h'⟩

/-- What the conversion of an element must give. -/
def RightRow (nodes : List (ℕ × V)) (ids : List ℕ) (row : List ℤ) : Prop :=
  row.length = 4 ∧ (∀ k ∈ row, 1 ≤ k ∧ k ≤ nodes.length) ∧
    ∀ g : Option V → Option V, row.map (fun k => g (nodes.map Prod.snd)[(k - 1).toNat]?) = (cornersOf nodes ids).map g

theorem convertElement_known (nodes : List (ℕ × V)) (h : (nodes.map Prod.fst).Nodup) (ids : List ℕ) (hk : Known nodes ids) :
    ∃ row, convertElement nodes ids = some row ∧ RightRow nodes ids row := by
  obtain ⟨r, hr, hF⟩ := mapM_all (idNew nodes)
    (fun k z => (1 ≤ z ∧ z ≤ nodes.length) ∧ (nodes.map Prod.snd)[(z - 1).toNat]? = pointOf nodes k) ids fun k hk' => by
      obtain ⟨i, h1, h2, h3⟩ := idNew_known nodes h k (hk.2 k hk')
      exact ⟨_, h1, by omega, by rw [show ((i : ℤ) + 1 - 1).toNat = i by omega, h3]⟩
  have hlen := hF.length_eq
  have hb : ∀ z ∈ r, 1 ≤ z ∧ z ≤ nodes.length := fun z hz => by
    obtain ⟨a, _, h'⟩ := forall₂_right hF z hz
    exact h'.1
  have hmap : r.map (fun z => (nodes.map Prod.snd)[(z - 1).toNat]?) = ids.map (pointOf nodes) :=
    forall₂_map _ _ _ _ (hF.imp fun _ _ h' => h'.2)
  refine ⟨if r.length = 3 then closeTriangle r else r, by rw [convertElement, hr]; rfl, ?_, ?_, ?_⟩
  · split
    · simp [closeTriangle]; omega
    · rcases hk.1 with h3 | h4
      · omega
      · omega
  · intro k hk'
    split at hk'
    · rcases List.mem_append.1 hk' with hk' | hk'
      · exact hb k hk'
      · exact hb k (List.mem_of_mem_take hk')
    · exact hb k hk'
  · intro g
    have hmap' : r.map (fun z => g (nodes.map Prod.snd)[(z - 1).toNat]?) = (ids.map (pointOf nodes)).map g := by
      rw [← hmap, List.map_map]; rfl
    rw [cornersOf, ← hlen]
    split
    · rename_i h3
      rw [closeTriangle, List.map_append, List.map_append, List.map_append, List.map_take, List.map_take, List.map_take, hmap']
    · exact hmap'

/-- The conversion of a whole file. -/
def RightSections (d : Dat V) (cs : List (List (List ℤ))) : Prop := List.Forall₂ (List.Forall₂ (RightRow d.nodes)) d.sections cs

theorem converted_good (d : Dat V) (h : d.Good) : ∃ cs, d.converted = some cs ∧ RightSections d cs := by
  obtain ⟨hn, hne, _, hs⟩ := h
  rw [Dat.converted, if_neg hne]
  exact mapM_all _ _ _ fun s hss => mapM_all _ _ _ fun ids hids => convertElement_known d.nodes hn ids ((hs s hss).2 ids hids)

section Layout

variable [Add V]

theorem leftover_some (files : String → Option (Dat V)) (layout : List Field) (hne : layout ≠ [])
    (h : ∀ f ∈ layout, ∃ d, files f.input = some d ∧ d.Good) : ∃ idx, leftover files layout = some idx := by
  rw [leftover, if_pos fun f hf => by
    obtain ⟨d, h1, h2⟩ := h f hf
    obtain ⟨cs, h3, _⟩ := converted_good d h2
    exact ⟨d, h1, by simp [h3]⟩]
  have hne' : (layout.map Field.input).reverse.dedup.reverse ≠ [] := by
    cases layout with
    | nil => exact absurd rfl hne
    | cons f l =>
      intro h0
      have : f.input ∈ ((f :: l).map Field.input).reverse.dedup.reverse := by simp
      rw [h0] at this
      simp at this
  rw [List.getLast?_eq_getLast_of_ne_nil hne', Option.bind_some]
  have hm := List.getLast_mem hne'
  generalize ((layout.map Field.input).reverse.dedup.reverse).getLast hne' = g at hm
  simp only [List.mem_reverse, List.mem_dedup, List.mem_map] at hm
  obtain ⟨f, hf, rfl⟩ := hm
  obtain ⟨d, h1, h2⟩ := h f hf
  rw [h1, Option.bind_some, List.getLast?_eq_getLast_of_ne_nil h2.2.1]
  exact ⟨_, rfl⟩

/-- The loop on sections of elements of the same file, without increment. -/
theorem inpLoop_elements (files : String → Option (Dat V)) (frames : String → Option V) (idx : ℕ) (f : String) (d : Dat V)
    (cs : List (List (List ℤ))) (hf : files f = some d) (hc : d.converted = some cs) (hcs : cs ≠ []) (vs : List V) (K : ℕ)
    (s : InpState V) (k0 : ℕ) (h1 : s.vertices = some vs) (h2 : s.increment = some false) (h3 : s.used f = k0 % cs.length) :
    ∃ s', inpLoop files frames idx s (List.replicate K (.element f)) = some s' ∧ s'.vertices = some vs ∧
      s'.faces = s.faces ++ (List.range' k0 K).flatMap fun k => (cs[k % cs.length]?).getD [] := by
  have hpos : 0 < cs.length := List.length_pos_iff.2 hcs
  induction K generalizing s k0 with
  | zero => exact ⟨s, rfl, h1, by simp⟩
  | succ K ih =>
    have hlt : k0 % cs.length < cs.length := Nat.mod_lt _ hpos
    have hget : cs[k0 % cs.length]? = some cs[k0 % cs.length] := List.getElem?_eq_getElem hlt
    have hstep : inpStep files frames idx s (.element f) = some
        { s with
          faces := s.faces ++ cs[k0 % cs.length]
          used := Function.update s.used f (if s.used f + 1 = cs.length then 0 else s.used f + 1) } := by
      rw [inpStep, hf, Option.bind_some, hc, Option.bind_some, h3, hget, Option.bind_some, h2]
      rfl
    have hused : Function.update s.used f (if s.used f + 1 = cs.length then 0 else s.used f + 1) f = (k0 + 1) % cs.length := by
      rw [Function.update_self, h3]
      split
      · rename_i h
        rw [← Nat.mod_add_mod, h, Nat.mod_self]
      · rename_i h
        rw [← Nat.mod_add_mod, Nat.mod_eq_of_lt (by omega : k0 % cs.length + 1 < cs.length)]
    obtain ⟨s', e1, e2, e3⟩ := ih (k0 := k0 + 1) (s := { s with
          faces := s.faces ++ cs[k0 % cs.length]
          used := Function.update s.used f (if s.used f + 1 = cs.length then 0 else s.used f + 1) }) h1 h2 hused
    refine ⟨s', ?_, e2, ?_⟩
    · rw [List.replicate_succ, inpLoop, hstep, Option.bind_some, e1]
    · rw [e3, List.range'_succ, List.flatMap_cons, hget, Option.getD_some, List.append_assoc]

/-- With one section of nodes, the file is read as it says: the nodes in the frame, and for each section of elements the panels of the
corresponding section of the `.DAT` file, in turn, with any numbers of nodes. -/
theorem inp_one_frame (files : String → Option (Dat V)) (frames : String → Option V) (f fr : String) (inc : Bool) (K : ℕ) (d : Dat V)
    (t : V) (hf : files f = some d) (hd : d.Good) (ht : frames fr = some t) (hK : 0 < K) :
    ∃ m, loadInp files frames (.node f fr inc :: List.replicate K (.element f)) = some m ∧
      m.vertices = d.nodes.map (fun p => p.2 + t) ∧
      panels m = (List.range K).flatMap fun k => (d.sections[k % d.sections.length]?.getD []).map fun ids =>
        (cornersOf d.nodes ids).map fun q => q.map fun p => p + t := by
  obtain ⟨cs, hc, hR⟩ := converted_good d hd
  have hlen : d.sections.length = cs.length := hR.length_eq
  have hcs : cs ≠ [] := by
    rintro rfl
    exact hd.2.2.1 (List.length_eq_zero_iff.1 (by simpa using hlen))
  obtain ⟨idx, hidx⟩ := leftover_some files (.node f fr inc :: List.replicate K (.element f)) (by simp) (by
    intro g hg
    have : g.input = f := by
      rcases List.mem_cons.1 hg with rfl | hg
      · rfl
      · rw [(List.mem_replicate.1 hg).2]; rfl
    exact ⟨d, by rw [this, hf], hd⟩)
  obtain ⟨s', e1, e2, e3⟩ := inpLoop_elements files frames idx f d cs hf hc hcs (d.nodes.map fun p => p.2 + t) K
    ⟨some (d.nodes.map fun p => p.2 + t), some false, [], fun _ => 0⟩ 0 rfl rfl (by simp)
  have hload : loadInp files frames (.node f fr inc :: List.replicate K (.element f)) =
      newMesh (d.nodes.map fun p => p.2 + t) (s'.faces.map fun r => r.map fun k => k - 1) := by
    rw [loadInp, hidx, Option.bind_some, inpLoop, inpStep, hf, Option.bind_some, ht, Option.bind_some]
    simp only [Option.bind_some, e1, e2]
  have hrow : ∀ k, List.Forall₂ (RightRow d.nodes) (d.sections[k % cs.length]?.getD []) (cs[k % cs.length]?.getD []) := by
    intro k
    have hlt : k % cs.length < cs.length := Nat.mod_lt _ (List.length_pos_iff.2 hcs)
    rw [List.getElem?_eq_getElem hlt, List.getElem?_eq_getElem (by omega)]
    exact List.forall₂_iff_get.1 hR |>.2 _ (by omega) hlt
  simp only [List.nil_append] at e3
  have hrows : ∀ r ∈ s'.faces.map fun r => r.map fun k => k - 1,
      r.length = 4 ∧ ∀ k ∈ r, 0 ≤ k ∧ k < ((d.nodes.map fun p => p.2 + t).length : ℤ) := by
    intro r hr
    obtain ⟨s, hs, rfl⟩ := List.mem_map.1 hr
    rw [e3, List.mem_flatMap] at hs
    obtain ⟨k, _, hs⟩ := hs
    obtain ⟨ids, _, hrr⟩ := forall₂_right (hrow k) s hs
    refine ⟨by simp [hrr.1], fun z hz => ?_⟩
    obtain ⟨y, hy, rfl⟩ := List.mem_map.1 hz
    have := hrr.2.1 y hy
    rw [List.length_map]
    omega
  have hne : s'.faces.map (fun r => r.map fun k => k - 1) ≠ [] := by
    rw [Ne, List.map_eq_nil_iff, e3, List.flatMap_eq_nil_iff]
    intro h0
    have h00 := h0 0 (List.mem_range'_1.2 ⟨le_rfl, by omega⟩)
    have hF := hrow 0
    rw [h00, List.forall₂_nil_right_iff, Nat.zero_mod] at hF
    have hpos : 0 < d.sections.length := by rw [hlen]; exact List.length_pos_iff.2 hcs
    rw [List.getElem?_eq_getElem hpos] at hF
    exact (hd.2.2.2 _ (List.getElem_mem hpos)).1 hF
  obtain ⟨m, hm⟩ := (newMesh_some_iff _ _).2 ⟨hne, hrows⟩
  obtain ⟨p1, p2⟩ := newMesh_panels _ _ _ hm
  refine ⟨m, hload.trans hm, p1, ?_⟩
  rw [p2, e3, List.map_map, ← List.range_eq_range', List.map_flatMap, hlen]
  congr 1
  funext k
  apply forall₂_map
  refine (hrow k).imp fun ids row hr => ?_
  have := hr.2.2 fun q => q.map fun p => p + t
  rw [← this, Function.comp, List.map_map]
  apply List.map_congr_left
  intro z _
  simp only [Function.comp, List.getElem?_map, Option.map_map]
  rfl

/-- A second section of nodes without `INCREMENT`, of more than one node, is refused. -/
theorem inp_second_refused (files : String → Option (Dat V)) (frames : String → Option V) (f g fr gr : String) (inc : Bool)
    (l l' : List Field) (d : Dat V) (hg : files g = some d) (h2 : d.nodes.length ≠ 1) :
    loadInp files frames (.node f fr inc :: l ++ .node g gr false :: l') = none := by
  have key : ∀ (l : List Field) (idx : ℕ) (s : InpState V), s.vertices ≠ none →
      inpLoop files frames idx s (l ++ .node g gr false :: l') = none := by
    intro l idx
    induction l with
    | nil =>
      intro s hs
      obtain ⟨vs, hvs⟩ := Option.ne_none_iff_exists'.1 hs
      rw [List.nil_append, inpLoop, inpStep, hg, Option.bind_some]
      cases frames gr with
      | none => rfl
      | some t =>
        simp only [Option.bind_some, hvs]
        match hn : d.nodes with
        | [] => rfl
        | [p] => rw [hn] at h2; exact absurd rfl h2
        | _ :: _ :: _ => rfl
    | cons x l ih =>
      intro s hs
      rw [List.cons_append, inpLoop]
      cases hstep : inpStep files frames idx s x with
      | none => rfl
      | some s' =>
        refine ih s' ?_
        cases x with
        | node a b c =>
          simp only [inpStep, Option.bind_eq_some_iff] at hstep
          obtain ⟨_, _, _, _, h⟩ := hstep
          split at h
          · cases h; simp
          · split at h
            · cases h; simp
            · split at h
              · split at h <;> cases h
                simp
              · cases h
        | element a =>
          simp only [inpStep, Option.bind_eq_some_iff, Option.map_eq_some_iff] at hstep
          obtain ⟨_, _, _, _, _, _, _, _, rfl⟩ := hstep
          exact hs
  rw [loadInp, List.cons_append]
  cases leftover files (.node f fr inc :: (l ++ .node g gr false :: l')) with
  | none => rfl
  | some idx =>
    rw [Option.bind_some, inpLoop]
    cases hstep : inpStep files frames idx ⟨none, none, [], fun _ => 0⟩ (.node f fr inc) with
    | none => rfl
    | some s' =>
      rw [Option.bind_some, key l idx s', Option.bind_none]
      simp only [inpStep, Option.bind_eq_some_iff, Option.some.injEq] at hstep
      obtain ⟨_, _, _, _, rfl⟩ := hstep
      simp

theorem inpLoop_append (files : String → Option (Dat V)) (frames : String → Option V) (idx : ℕ) (s : InpState V) (l l' : List Field) :
    inpLoop files frames idx s (l ++ l') = (inpLoop files frames idx s l).bind fun s' => inpLoop files frames idx s' l' := by
  induction l generalizing s with
  | nil => rfl
  | cons x l ih =>
    rw [List.cons_append, inpLoop, inpLoop, Option.bind_assoc]
    congr 1
    funext s'
    exact ih s'

theorem inpLoop_node_vertices (files : String → Option (Dat V)) (frames : String → Option V) (idx : ℕ) (l : List Field) (s s' : InpState V)
    (h : inpLoop files frames idx s l = some s') (hn : s.vertices ≠ none ∨ ∃ f fr inc, Field.node f fr inc ∈ l) : s'.vertices ≠ none := by
  induction l generalizing s with
  | nil =>
    rw [inpLoop, Option.some.injEq] at h
    subst h
    rcases hn with hn | ⟨_, _, _, hn⟩
    · exact hn
    · simp at hn
  | cons x l ih =>
    rw [inpLoop, Option.bind_eq_some_iff] at h
    obtain ⟨s1, h1, h2⟩ := h
    refine ih s1 h2 ?_
    cases x with
    | node a b c =>
      left
      simp only [inpStep, Option.bind_eq_some_iff] at h1
      obtain ⟨_, _, _, _, h⟩ := h1
      split at h
      · cases h; simp
      · split at h
        · cases h; simp
        · split at h
          · split at h <;> cases h
            simp
          · cases h
    | element a =>
      simp only [inpStep, Option.bind_eq_some_iff, Option.map_eq_some_iff] at h1
      obtain ⟨_, _, _, _, _, _, _, _, rfl⟩ := h1
      rcases hn with hn | ⟨f, fr, inc, hn⟩
      · exact Or.inl hn
      · simp only [List.mem_cons, reduceCtorEq, false_or] at hn
        exact Or.inr ⟨f, fr, inc, hn⟩

/-- When the last section of nodes has `INCREMENT` and is followed by panels, the file is refused: the numbers of the panels are
shifted by too many nodes. -/
theorem inp_increment_refused (files : String → Option (Dat V)) (frames : String → Option V) (l l' : List Field) (g gr e : String)
    (hn : ∃ f fr inc, Field.node f fr inc ∈ l) (hl' : ∀ x ∈ l', ∃ a, x = Field.element a)
    (hgood : ∀ a d, files a = some d → d.Good) :
    loadInp files frames (l ++ .node g gr true :: .element e :: l') = none := by
  rw [Option.eq_none_iff_forall_ne_some]
  intro m hm
  simp only [loadInp, Option.bind_eq_some_iff] at hm
  obtain ⟨idx, _, s, hs, vs, hvs, hm⟩ := hm
  rw [inpLoop_append, Option.bind_eq_some_iff] at hs
  obtain ⟨s1, h1, hs⟩ := hs
  obtain ⟨vs1, hv1⟩ := Option.ne_none_iff_exists'.1 (inpLoop_node_vertices files frames idx l _ s1 h1 (Or.inr hn))
  rw [inpLoop, Option.bind_eq_some_iff] at hs
  obtain ⟨s2, h2, hs⟩ := hs
  simp only [inpStep, Option.bind_eq_some_iff, hv1, if_true, Option.some.injEq] at h2
  obtain ⟨d, _, t, _, rfl⟩ := h2
  rw [inpLoop, Option.bind_eq_some_iff] at hs
  obtain ⟨s3, h3, hs⟩ := hs
  simp only [inpStep, Option.bind_eq_some_iff, Option.map_eq_some_iff, Option.some.injEq, exists_eq_left', if_true,
    Option.getD_some] at h3
  obtain ⟨d', hd', cs, hc, rows, hrows, rfl⟩ := h3
  -- the rows added by the element
  obtain ⟨cs', hc', hR⟩ := converted_good d' (hgood e d' hd')
  rw [hc] at hc'
  cases hc'
  have hmem : rows ∈ cs := List.mem_of_getElem? hrows
  obtain ⟨sec, hsec, hF⟩ := forall₂_right hR rows hmem
  have hne := ((hgood e d' hd').2.2.2 sec hsec).1
  obtain ⟨ids, rest, rfl⟩ := List.exists_cons_of_ne_nil hne
  obtain ⟨row, rows', hrow, _, rfl⟩ := List.forall₂_cons_left_iff.1 hF
  have h4 := hrow.1
  obtain ⟨z, row', rfl⟩ := List.exists_cons_of_length_pos (by omega : 0 < row.length)
  -- the other elements change nothing to the vertices and keep the rows
  have keep : ∀ (l' : List Field), (∀ x ∈ l', ∃ a, x = Field.element a) → ∀ s s' : InpState V, inpLoop files frames idx s l' = some s' →
      s'.vertices = s.vertices ∧ ∀ r ∈ s.faces, r ∈ s'.faces := by
    intro l'
    induction l' with
    | nil => intro _ s s' h; cases h; exact ⟨rfl, fun _ h => h⟩
    | cons x l' ih =>
      intro hx s s' h
      obtain ⟨a, rfl⟩ := hx x (by simp)
      rw [inpLoop, Option.bind_eq_some_iff] at h
      obtain ⟨s1, h1, h2⟩ := h
      simp only [inpStep, Option.bind_eq_some_iff, Option.map_eq_some_iff] at h1
      obtain ⟨_, _, _, _, _, _, _, _, rfl⟩ := h1
      obtain ⟨e1, e2⟩ := ih (fun x hx' => hx x (by simp [hx'])) _ _ h2
      exact ⟨e1, fun r hr => e2 r (List.mem_append_left _ hr)⟩
  obtain ⟨e1, e2⟩ := keep l' hl' _ _ hs
  simp only [hvs, Option.some.injEq] at e1
  have := e2 ((z :: row').map fun k => k + ((vs1 ++ d.nodes.map fun p => p.2 + t).length : ℤ)) (List.mem_append_right _ (by simp))
  have hbound := ((newMesh_some_iff _ _).1 ⟨m, hm⟩).2 _ (List.mem_map_of_mem this)
  have hz := hbound.2 (z + ((vs1 ++ d.nodes.map fun p => p.2 + t).length : ℤ) - 1) (by simp)
  have hz1 := (hrow.2.1 z (by simp)).1
  rw [e1] at hz
  omega

end Layout

/-- Three parts with `INCREMENT` (and a last section of nodes) are read without an error, but the panel of the second part joins the
nodes of the third one. -/
theorem inp_increment_violated : ∃ (files : String → Option (Dat ℤ)) (m : Mesh ℤ),
    (∀ a d, files a = some d → d.Good) ∧
    loadInp files (fun _ => some 0) [.node "A" "F" true, .element "A", .node "B" "F" true, .element "B", .node "C" "F" true] = some m ∧
    (panels m)[1]? = some [some 20, some 21, some 22, some 23] ∧
    ∀ d, files "B" = some d → d.sections.flatten.map (cornersOf d.nodes) = [[some 10, some 11, some 12, some 13]] := by
  let part : ℤ → Dat ℤ := fun z => ⟨[(1, z), (2, z + 1), (3, z + 2), (4, z + 3)], [[[1, 2, 3, 4]]]⟩
  have hpart : ∀ z, (part z).Good := by
    intro z
    refine ⟨by simp [part], by simp [part], by simp [part], ?_⟩
    intro s hs
    simp only [part, List.mem_singleton] at hs
    subst hs
    refine ⟨by simp, fun ids hids => ?_⟩
    simp only [List.mem_singleton] at hids
    subst hids
    exact ⟨Or.inr rfl, by simp [part]⟩
  refine ⟨fun a => if a = "A" then some (part 0) else if a = "B" then some (part 10) else if a = "C" then some (part 20) else none, _,
    ?_, rfl, rfl, ?_⟩
  · intro a d h
    dsimp only at h
    split at h
    · cases h; exact hpart _
    · split at h
      · cases h; exact hpart _
      · split at h
        · cases h; exact hpart _
        · cases h
  · intro d h
    cases h
    rfl

/-- A file with numbers 10, 20, 30 and 40, and one triangle, read in two frames. -/
example : (⟨[(10, (0 : ℤ)), (20, 1), (40, 2), (30, 3)], [[[10, 20, 40]], [[10, 20, 40, 30]]]⟩ : Dat ℤ).Good := by
  refine ⟨by decide, by decide, by decide, ?_⟩
  intro s hs
  simp only [List.mem_cons, List.not_mem_nil, or_false] at hs
  rcases hs with rfl | rfl
  · refine ⟨by decide, fun ids hids => ?_⟩
    simp only [List.mem_singleton] at hids
    subst hids
    exact ⟨Or.inl rfl, by decide⟩
  · refine ⟨by decide, fun ids hids => ?_⟩
    simp only [List.mem_singleton] at hids
    subst hids
    exact ⟨Or.inr rfl, by decide⟩

/-! ### Frames -/

/-- The separators of the vector of a frame. -/
def IsSeparator (c : Char) : Prop := c = ',' ∨ c = ' '

instance (c : Char) : Decidable (IsSeparator c) := inferInstanceAs (Decidable (_ ∨ _))

theorem separator_iff (c : Char) : (c == ',' || c == ' ') = true ↔ IsSeparator c := by simp [IsSeparator]

theorem splitOnP_adjacent (a b : List Char) (s t : Char) (hs : IsSeparator s) (ht : IsSeparator t) :
    [] ∈ ((a ++ s :: t :: b).splitOnP fun c => c == ',' || c == ' ').tail := by
  induction a with
  | nil =>
    rw [List.nil_append, List.splitOnP_cons_eq_if_modifyHead, if_pos ((separator_iff s).2 hs), List.splitOnP_cons_eq_if_modifyHead, if_pos ((separator_iff t).2 ht)]
    simp
  | cons x a ih =>
    rw [List.cons_append, List.splitOnP_cons_eq_if_modifyHead]
    split
    · exact List.mem_of_mem_tail ih
    · rw [List.tail_modifyHead]
      exact ih

/-- A vector written with a comma and a space is refused, whatever the numbers. -/
theorem frame_refused (float : List Char → Option ℚ) (h0 : float [] = none) (a b : List Char) (s t : Char) (hs : IsSeparator s)
    (ht : IsSeparator t) : frameVector float (a ++ s :: t :: b) = none := by
  rw [Option.eq_none_iff_forall_ne_some]
  intro r hr
  obtain ⟨x, hx⟩ := (mapM_some_iff' _ _).1 ⟨r, hr⟩ [] (List.mem_of_mem_tail (splitOnP_adjacent a b s t hs ht))
  rw [h0] at hx
  cases hx

theorem splitOnP_word (w l : List Char) (hw : ∀ c ∈ w, ¬ IsSeparator c) (s : Char) (hs : IsSeparator s) :
    (w ++ s :: l).splitOnP (fun c => c == ',' || c == ' ') = w :: l.splitOnP fun c => c == ',' || c == ' ' := by
  induction w with
  | nil => rw [List.nil_append, List.splitOnP_cons_eq_if_modifyHead, if_pos ((separator_iff s).2 hs)]
  | cons x w ih =>
    have hx : ¬ (x == ',' || x == ' ') = true := fun h => hw x (by simp) ((separator_iff x).1 h)
    rw [List.cons_append, List.splitOnP_cons_eq_if_modifyHead, if_neg hx, ih fun c hc => hw c (by simp [hc])]
    rfl

theorem splitOnP_last (w : List Char) (hw : ∀ c ∈ w, ¬ IsSeparator c) : w.splitOnP (fun c => c == ',' || c == ' ') = [w] := by
  induction w with
  | nil => rfl
  | cons x w ih =>
    have hx : ¬ (x == ',' || x == ' ') = true := fun h => hw x (by simp) ((separator_iff x).1 h)
    rw [List.splitOnP_cons_eq_if_modifyHead, if_neg hx, ih fun c hc => hw c (by simp [hc])]
    rfl

/-- A vector written with one comma or one space between the numbers is read. -/
theorem frame_read (float : List Char → Option ℚ) (u v w : List Char) (s t : Char) (hs : IsSeparator s) (ht : IsSeparator t)
    (hu : ∀ c ∈ u, ¬ IsSeparator c) (hv : ∀ c ∈ v, ¬ IsSeparator c) (hw : ∀ c ∈ w, ¬ IsSeparator c) (x y z : ℚ)
    (hx : float u = some x) (hy : float v = some y) (hz : float w = some z) :
    frameVector float (u ++ s :: (v ++ t :: w)) = some [x, y, z] := by
  rw [frameVector, splitOnP_word u _ hu s hs, splitOnP_word v _ hv t ht, splitOnP_last w hw]
  simp [List.mapM_cons, hx, hy, hz]

example : (∀ c ∈ "1.5".toList, ¬ IsSeparator c) ∧ IsSeparator ',' := by decide


end Verif.Files.Numbered
