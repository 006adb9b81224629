import Verif.Meshes.FaceSetModel

/-!
# C110: meshes as sets of panels
-/

namespace Verif.Meshes

variable {V : Type}

/-! ## Specification -/

/-- `s` is the set of the corners of a panel of the mesh. -/
def IsPanelSet (m : Mesh V) (s : Set V) : Prop :=
  ∃ f ∈ m.faces, s = {v | ∃ i ∈ f.toList, m.vertices[i]? = some v}

/-- The panels of the mesh, each one as the set of its corners. -/
def panelSets (m : Mesh V) : Set (Set V) := {s | IsPanelSet m s}

/-- The order in which Python goes through a set of sets: each one once, and each of their elements once. -/
def IsEnumeration (fs : List (List V)) (S : Set (Set V)) : Prop :=
  (∀ f ∈ fs, f.Nodup) ∧ fs.Pairwise (fun f g => {v | v ∈ f} ≠ {v | v ∈ g}) ∧ ∀ s, s ∈ S ↔ ∃ f ∈ fs, s = {v | v ∈ f}

/-! ## Lemmas -/

section
variable [DecidableEq V]

theorem addVertices_spec (f : List V) : ∀ vs : List V, vs.Nodup →
    (addVertices vs f).1.Nodup ∧ vs <+: (addVertices vs f).1 ∧ (∀ v, v ∈ (addVertices vs f).1 ↔ v ∈ vs ∨ v ∈ f) ∧
      (addVertices vs f).2.map ((addVertices vs f).1[·]?) = f.map some := by
  induction f with
  | nil => intro vs h; simp [addVertices, h]
  | cons v f ih =>
    intro vs h
    unfold addVertices
    split_ifs with hv
    · obtain ⟨h1, h2, h3, h4⟩ := ih vs h
      refine ⟨h1, h2, fun w => ?_, ?_⟩
      · rw [h3, List.mem_cons]
        constructor
        · tauto
        · rintro (h | rfl | h) <;> tauto
      · simp only [List.map_cons, h4]
        congr 1
        obtain ⟨e, he⟩ := h2
        rw [← he, List.getElem?_append_left (List.idxOf_lt_length_iff.mpr hv), List.getElem?_eq_getElem
          (List.idxOf_lt_length_iff.mpr hv), List.getElem_idxOf]
    · obtain ⟨h1, h2, h3, h4⟩ := ih (vs ++ [v]) (List.nodup_append.mpr ⟨h, by simp, by
        intro a ha b hb; simp only [List.mem_singleton] at hb; subst hb; rintro rfl; exact hv ha⟩)
      refine ⟨h1, (List.prefix_append _ _).trans h2, fun w => ?_, ?_⟩
      · rw [h3, List.mem_append, List.mem_singleton, List.mem_cons, or_assoc]
      · simp only [List.map_cons, h4]
        congr 1
        obtain ⟨e, he⟩ := h2
        rw [← he, List.getElem?_append_left (by simp)]
        simp

theorem getElem?_prefix {A : Type} {l l' : List A} (h : l <+: l') {i : ℕ} {a : A} (hi : l[i]? = some a) : l'[i]? = some a := by
  obtain ⟨e, rfl⟩ := h
  rw [List.getElem?_append_left (List.getElem?_eq_some_iff.mp hi).1, hi]

theorem addFaces_spec (fs : List (List V)) : ∀ vs : List V, vs.Nodup →
    (addFaces vs fs).1.Nodup ∧ vs <+: (addFaces vs fs).1 ∧ (∀ v, v ∈ (addFaces vs fs).1 ↔ v ∈ vs ∨ ∃ f ∈ fs, v ∈ f) ∧
      List.Forall₂ (fun f (r : List ℕ) => r.map ((addFaces vs fs).1[·]?) = f.map some) fs (addFaces vs fs).2 := by
  induction fs with
  | nil => intro vs h; simp [addFaces, h]
  | cons f fs ih =>
    intro vs h
    obtain ⟨h1, h2, h3, h4⟩ := addVertices_spec f vs h
    obtain ⟨g1, g2, g3, g4⟩ := ih _ h1
    unfold addFaces
    refine ⟨g1, h2.trans g2, fun v => ?_, .cons ?_ g4⟩
    · simp only [g3, h3, List.mem_cons, exists_eq_or_imp, or_assoc]
    · rw [← h4]
      refine List.map_congr_left fun i hi => ?_
      obtain ⟨v, -, hv⟩ := List.mem_map.mp (h4 ▸ List.mem_map_of_mem hi :
        (addVertices vs f).1[i]? ∈ f.map some)
      rw [← hv]
      exact getElem?_prefix g2 hv.symm

theorem rowOf_spec {r : List ℕ} {F : Face} (h : rowOf r = some F) : ∀ i, i ∈ F.toList ↔ i ∈ r := by
  unfold rowOf at h
  split at h <;> cases h <;> intro i <;> simp [Face.toList]
  tauto

theorem rowOf_isSome (r : List ℕ) : (rowOf r).isSome ↔ r.length = 3 ∨ r.length = 4 := by
  match r with
  | [] => simp [rowOf]
  | [_] => simp [rowOf]
  | [_, _] => simp [rowOf]
  | [_, _, _] => simp [rowOf]
  | [_, _, _, _] => simp [rowOf]
  | _ :: _ :: _ :: _ :: _ :: _ => simp [rowOf]

theorem mapM_pairs_iff {A B : Type} (g : A → Option B) (l : List A) (r : List B) :
    l.mapM g = some r ↔ List.Forall₂ (fun a b => g a = some b) l r := by
  induction l generalizing r with
  | nil => cases r <;> simp
  | cons a l ih =>
    rw [List.mapM_cons]
    constructor
    · intro h
      simp only [Option.bind_eq_bind, Option.bind_eq_some_iff, Option.pure_def, Option.some.injEq] at h
      obtain ⟨b, hb, bs, hbs, rfl⟩ := h
      exact .cons hb ((ih bs).mp hbs)
    · rintro (_ | ⟨hb, hbs⟩)
      simp [hb, (ih _).mpr hbs]

theorem mapM_fails_iff {A B : Type} (g : A → Option B) (l : List A) : l.mapM g = none ↔ ∃ a ∈ l, g a = none := by
  induction l with
  | nil => simp
  | cons a l ih =>
    rw [List.mapM_cons]
    cases h : g a <;> cases h' : l.mapM g <;> simp_all

end

theorem paired_left {A B : Type} {R : A → B → Prop} {l : List A} {r : List B} (h : List.Forall₂ R l r) :
    ∀ a ∈ l, ∃ b ∈ r, R a b := by
  induction h with
  | nil => simp
  | cons h _ ih =>
    intro a ha
    rcases List.mem_cons.mp ha with rfl | ha
    · exact ⟨_, by simp, h⟩
    · obtain ⟨b, hb, hr⟩ := ih a ha
      exact ⟨b, by simp [hb], hr⟩

theorem paired_right {A B : Type} {R : A → B → Prop} {l : List A} {r : List B} (h : List.Forall₂ R l r) :
    ∀ b ∈ r, ∃ a ∈ l, R a b := by
  induction h with
  | nil => simp
  | cons h _ ih =>
    intro a ha
    rcases List.mem_cons.mp ha with rfl | ha
    · exact ⟨_, by simp, h⟩
    · obtain ⟨b, hb, hr⟩ := ih a ha
      exact ⟨b, by simp [hb], hr⟩

/-! ## Theorems -/

section
variable [DecidableEq V]

theorem corners_set {vs : List V} {f : Face} {c : V × V × V × V} (h : corners vs f = some c) :
    {v | v ∈ cornerSet c} = {v | ∃ i ∈ f.toList, vs[i]? = some v} := by
  unfold corners at h
  split at h
  · rename_i p0 p1 p2 p3 h0 h1 h2 h3
    cases h
    ext v
    simp [cornerSet, Face.toList, h0, h1, h2, h3, eq_comm]
  · cases h

/-- C110: what `as_set_of_faces` holds: the panels, as sets of corners. -/
theorem as_set_spec (m : Mesh V) (hm : m.Valid) :
    ∃ S, m.asSetOfFaces = some S ∧ ∀ s : Finset V, s ∈ S ↔ IsPanelSet m {v | v ∈ s} := by
  have h : ∃ cs, m.faces.mapM (corners m.vertices) = some cs := by
    rcases h : m.faces.mapM (corners m.vertices) with _ | cs
    · obtain ⟨f, hf, hc⟩ := (mapM_fails_iff _ _).mp h
      have h' := hm f hf
      simp only [Face.toList, List.mem_cons, List.not_mem_nil, or_false, forall_eq_or_imp, forall_eq] at h'
      obtain ⟨h1, h2, h3, h4⟩ := h'
      simp [corners, h1, h2, h3, h4] at hc
    · exact ⟨cs, rfl⟩
  obtain ⟨cs, hcs⟩ := h
  refine ⟨_, by rw [Mesh.asSetOfFaces, hcs]; rfl, fun s => ?_⟩
  have h2 := (mapM_pairs_iff _ _ _).mp hcs
  simp only [List.mem_toFinset, List.mem_map]
  constructor
  · rintro ⟨c, hc, rfl⟩
    obtain ⟨f, hf, h⟩ := paired_right h2 c hc
    exact ⟨f, hf, corners_set h⟩
  · rintro ⟨f, hf, h⟩
    obtain ⟨c, hc, h'⟩ := paired_left h2 f hf
    refine ⟨c, hc, ?_⟩
    rw [← corners_set h'] at h
    ext v
    exact (Set.ext_iff.mp h v).symm

theorem panelSets_finite (m : Mesh V) (s : Set V) (h : IsPanelSet m s) : ∃ t : Finset V, s = {v | v ∈ t} := by
  obtain ⟨f, -, rfl⟩ := h
  refine ⟨(f.toList.filterMap (m.vertices[·]?)).toFinset, ?_⟩
  ext v
  simp

/-- C110: two meshes are equal when they have the same panels, as sets of corners. -/
theorem same_iff (m n : Mesh V) (hm : m.Valid) (hn : n.Valid) : m.sameAs n = true ↔ panelSets m = panelSets n := by
  obtain ⟨S, hS, h1⟩ := as_set_spec m hm
  obtain ⟨T, hT, h2⟩ := as_set_spec n hn
  unfold Mesh.sameAs
  rw [hS, hT, beq_iff_eq, Option.some.injEq]
  constructor
  · rintro rfl
    ext s
    constructor
    · intro h
      obtain ⟨t, rfl⟩ := panelSets_finite m s h
      exact (h2 t).mp ((h1 t).mpr h)
    · intro h
      obtain ⟨t, rfl⟩ := panelSets_finite n s h
      exact (h1 t).mp ((h2 t).mpr h)
  · intro h
    ext s
    rw [h1, h2]
    exact Set.ext_iff.mp h _

/-- C110: the sets that are refused by `from_set_of_faces`. -/
theorem from_set_refused_iff (fs : List (List V)) :
    fromSetOfFaces fs = none ↔ ∃ f ∈ fs, f.length ≠ 3 ∧ f.length ≠ 4 := by
  obtain ⟨-, -, -, h⟩ := addFaces_spec fs [] List.nodup_nil
  have hl : ∀ (f : List V) (r : List ℕ), r.map ((addFaces [] fs).1[·]?) = f.map some → r.length = f.length := by
    intro f r h
    simpa using congrArg List.length h
  simp only [fromSetOfFaces, Option.map_eq_none_iff, mapM_fails_iff]
  have hr : ∀ r : List ℕ, rowOf r = none ↔ r.length ≠ 3 ∧ r.length ≠ 4 := by
    intro r
    rw [← Option.not_isSome_iff_eq_none, rowOf_isSome, not_or]
  constructor
  · rintro ⟨r, hr1, hr2⟩
    obtain ⟨f, hf, e⟩ := paired_right h r hr1
    exact ⟨f, hf, by rw [← hl f r e]; exact (hr r).mp hr2⟩
  · rintro ⟨f, hf, hf2⟩
    obtain ⟨r, hr1, e⟩ := paired_left h f hf
    exact ⟨r, hr1, (hr r).mpr (by rw [hl f r e]; exact hf2)⟩

/-- C110: the mesh made by `from_set_of_faces` has the panels of the set and no others, in the order in which they come, no
vertex twice and no vertex that is not in a panel. -/
theorem from_set_spec (fs : List (List V)) (m : Mesh V) (h : fromSetOfFaces fs = some m) :
    m.Valid ∧ m.vertices.Nodup ∧ (∀ v, v ∈ m.vertices ↔ ∃ f ∈ fs, v ∈ f) ∧
      List.Forall₂ (fun f F => ∀ v, v ∈ f ↔ ∃ i ∈ Face.toList F, m.vertices[i]? = some v) fs m.faces := by
  obtain ⟨h1, -, h3, h4⟩ := addFaces_spec fs [] List.nodup_nil
  simp only [fromSetOfFaces, Option.map_eq_some_iff] at h
  obtain ⟨rows, hr, rfl⟩ := h
  replace hr := (mapM_pairs_iff _ _ _).mp hr
  have key : List.Forall₂ (fun f F => (∀ v, v ∈ f ↔ ∃ i ∈ Face.toList F, (addFaces [] fs).1[i]? = some v) ∧
      ∀ i ∈ Face.toList F, i < (addFaces [] fs).1.length) fs rows := by
    generalize (addFaces [] fs).2 = rs at h4 hr
    generalize (addFaces [] fs).1 = vs at h4 ⊢
    clear h1 h3
    induction h4 generalizing rows with
    | nil => cases hr; exact .nil
    | cons e _ ih =>
      obtain _ | ⟨hF, hr⟩ := hr
      refine .cons ⟨fun v => ?_, fun i hi => ?_⟩ (ih _ hr)
      · rw [← List.mem_map_of_injective (Option.some_injective V), ← e, List.mem_map]
        simp only [rowOf_spec hF]
      · rw [rowOf_spec hF] at hi
        have := List.mem_map_of_mem (f := (vs[·]?)) hi
        rw [e] at this
        obtain ⟨v, -, hv⟩ := List.mem_map.mp this
        exact (List.getElem?_eq_some_iff.mp hv.symm).1
  refine ⟨fun F hF => ?_, h1, fun v => by simpa using h3 v, key.imp fun _ _ h => h.1⟩
  obtain ⟨f, -, -, h⟩ := paired_right key F hF
  exact h

/-- C110: a mesh is equal to the one rebuilt from its set of panels, for any order in which Python goes through the set. It
is refused if and only if a panel has less than three different corners. -/
theorem set_round_trip (m : Mesh V) (hm : m.Valid) (fs : List (List V)) (hfs : IsEnumeration fs (panelSets m)) :
    (fromSetOfFaces fs = none ↔ ∃ s, IsPanelSet m s ∧ s.ncard < 3) ∧
      ∀ n, fromSetOfFaces fs = some n → n.Valid ∧ m.sameAs n = true ∧ n.faces.length ≤ m.faces.length ∧ n.vertices.Nodup := by
  obtain ⟨e1, e2, e3⟩ := hfs
  have hcard : ∀ f ∈ fs, {v | v ∈ f}.ncard = f.length := by
    intro f hf
    rw [show {v | v ∈ f} = ((f.toFinset : Finset V) : Set V) by ext; simp, Set.ncard_coe_finset,
      List.toFinset_card_of_nodup (e1 f hf)]
  have hle : ∀ f ∈ fs, f.length ≤ 4 := by
    intro f hf
    obtain ⟨F, -, hF⟩ := (e3 _).mpr ⟨f, hf, rfl⟩
    have hs : f.toFinset ⊆ (F.toList.filterMap (m.vertices[·]?)).toFinset := by
      intro v hv
      have : v ∈ {v | v ∈ f} := by simpa using hv
      rw [hF] at this
      simpa using this
    have h1 := Finset.card_le_card hs
    rw [List.toFinset_card_of_nodup (e1 f hf)] at h1
    have h2 := List.toFinset_card_le (F.toList.filterMap (m.vertices[·]?))
    have h3 := List.length_filterMap_le (m.vertices[·]?) F.toList
    have h4 : F.toList.length = 4 := rfl
    omega
  constructor
  · rw [from_set_refused_iff]
    constructor
    · rintro ⟨f, hf, h3, h4⟩
      refine ⟨_, (e3 _).mpr ⟨f, hf, rfl⟩, ?_⟩
      have := hle f hf
      rw [hcard f hf]
      omega
    · rintro ⟨s, hs, h⟩
      obtain ⟨f, hf, rfl⟩ := (e3 s).mp hs
      rw [hcard f hf] at h
      exact ⟨f, hf, by omega, by omega⟩
  · intro n hn
    obtain ⟨hv, hd, -, h⟩ := from_set_spec fs n hn
    refine ⟨hv, ?_, ?_, hd⟩
    · rw [same_iff m n hm hv]
      ext s
      rw [e3]
      constructor
      · rintro ⟨f, hf, rfl⟩
        obtain ⟨F, hF, e⟩ := paired_left h f hf
        exact ⟨F, hF, Set.ext e⟩
      · rintro ⟨F, hF, rfl⟩
        obtain ⟨f, hf, e⟩ := paired_right h F hF
        exact ⟨f, hf, (Set.ext e).symm⟩
    · rw [← h.length_eq]
      have hnd : (fs.map fun f => f.toFinset).Nodup := by
        rw [List.Nodup, List.pairwise_map]
        refine e2.imp fun {f g} h e => h ?_
        ext v
        have := Finset.ext_iff.mp e v
        simpa using this
      have hsub : fs.map (fun f => f.toFinset) ⊆
          m.faces.map fun F => (F.toList.filterMap (m.vertices[·]?)).toFinset := by
        intro t ht
        obtain ⟨f, hf, rfl⟩ := List.mem_map.mp ht
        obtain ⟨F, hF, e⟩ := (e3 _).mpr ⟨f, hf, rfl⟩
        refine List.mem_map.mpr ⟨F, hF, ?_⟩
        ext v
        have := Set.ext_iff.mp e v
        simp only [Set.mem_ofPred_eq] at this
        simp [this]
      simpa using (hnd.subperm hsub).length_le

/-- C110: equality does not see the orientation of the panels, nor their order, nor how many times they come. -/
theorem same_blind (m n : Mesh V) (hm : m.Valid) (hv : n.vertices = m.vertices)
    (h : ∀ F, F ∈ n.faces → F ∈ m.faces ∨ F.flip ∈ m.faces) (h' : ∀ F, F ∈ m.faces → F ∈ n.faces ∨ F.flip ∈ n.faces) :
    n.Valid ∧ m.sameAs n = true := by
  have hfl : ∀ (F : Face) i, i ∈ F.flip.toList ↔ i ∈ F.toList := by
    intro F i
    simp only [Face.flip, Face.toList, List.mem_cons, List.not_mem_nil, or_false]
    tauto
  have hn : n.Valid := by
    intro F hF i hi
    rw [hv]
    rcases h F hF with h | h
    · exact hm F h i hi
    · exact hm _ h i ((hfl F i).mpr hi)
  refine ⟨hn, ?_⟩
  rw [same_iff m n hm hn]
  ext s
  constructor
  · rintro ⟨F, hF, rfl⟩
    rcases h' F hF with h | h
    · exact ⟨F, h, by rw [hv]⟩
    · exact ⟨_, h, by simp only [hv, hfl]⟩
  · rintro ⟨F, hF, rfl⟩
    rcases h F hF with h | h
    · exact ⟨F, h, by rw [hv]⟩
    · exact ⟨_, h, by simp only [hv, hfl]⟩

end

/-! ## Examples -/

/-- A quadrangle and a triangle next to it, with a vertex that is used by none of them. -/
def twoPanels : Mesh ℕ := ⟨[10, 11, 12, 13, 14, 15], [⟨0, 1, 2, 3⟩, ⟨3, 2, 4, 3⟩]⟩

theorem twoPanels_valid : twoPanels.Valid := by
  intro f hf i hi
  simp only [twoPanels, List.mem_cons, List.not_mem_nil, or_false] at hf
  rcases hf with rfl | rfl <;> simp [Face.toList] at hi <;> simp [twoPanels] <;> omega

/-- Another order of the panels and of their corners. -/
theorem twoPanels_enumeration : IsEnumeration [[14, 12, 13], [12, 10, 13, 11]] (panelSets twoPanels) := by
  have h1 : {v | ∃ i ∈ Face.toList ⟨0, 1, 2, 3⟩, twoPanels.vertices[i]? = some v} = {v | v ∈ [12, 10, 13, 11]} := by
    ext v
    simp [Face.toList, twoPanels]
    omega
  have h2 : {v | ∃ i ∈ Face.toList ⟨3, 2, 4, 3⟩, twoPanels.vertices[i]? = some v} = {v | v ∈ [14, 12, 13]} := by
    ext v
    simp [Face.toList, twoPanels]
    omega
  refine ⟨by decide, ?_, fun s => ?_⟩
  · simp only [List.pairwise_cons, List.mem_singleton, forall_eq, List.not_mem_nil, false_imp_iff, implies_true,
      List.Pairwise.nil, and_true]
    intro h
    have := (Set.ext_iff.mp h 14).mp (by simp)
    simp at this
  · constructor
    · rintro ⟨F, hF, rfl⟩
      simp only [twoPanels, List.mem_cons, List.not_mem_nil, or_false] at hF
      rcases hF with rfl | rfl
      · exact ⟨_, by simp, h1⟩
      · exact ⟨_, by simp, h2⟩
    · rintro ⟨f, hf, rfl⟩
      simp only [List.mem_cons, List.not_mem_nil, or_false] at hf
      rcases hf with rfl | rfl
      · exact ⟨⟨3, 2, 4, 3⟩, by simp [twoPanels], h2.symm⟩
      · exact ⟨⟨0, 1, 2, 3⟩, by simp [twoPanels], h1.symm⟩

/-- Concrete case of `set_round_trip`, `from_set_spec`, `as_set_spec` and `same_iff`. -/
example : ∃ n, fromSetOfFaces [[14, 12, 13], [12, 10, 13, 11]] = some n ∧ twoPanels.sameAs n = true ∧
    n.vertices = [14, 12, 13, 10, 11] ∧ n.faces = [⟨0, 1, 2, 0⟩, ⟨1, 3, 2, 4⟩] :=
  ⟨⟨[14, 12, 13, 10, 11], [⟨0, 1, 2, 0⟩, ⟨1, 3, 2, 4⟩]⟩, rfl,
    ((set_round_trip _ twoPanels_valid _ twoPanels_enumeration).2 _ rfl).2.1, rfl, rfl⟩

/-- C110 fails for the order of the corners: a quadrangle rebuilt from its set can have its corners in the order of another
quadrangle, neither the first one nor its reverse. -/
theorem set_round_trip_violated : ∃ (m : Mesh ℕ) (fs : List (List ℕ)) (n : Mesh ℕ), m.Valid ∧
    IsEnumeration fs (panelSets m) ∧ fromSetOfFaces fs = some n ∧
    ∃ c ∈ n.faces.map (corners n.vertices), ∀ F ∈ m.faces, ∀ G ∈ [F, F.roll, F.roll.roll, F.roll.roll.roll],
      corners m.vertices G ≠ c ∧ corners m.vertices G.flip ≠ c :=
  ⟨twoPanels, _, _, twoPanels_valid, twoPanels_enumeration, rfl, some (12, 10, 13, 11), by decide, by decide⟩

/-- Concrete case of `same_blind`: the two panels in the other order and reversed. -/
example : twoPanels.sameAs ⟨twoPanels.vertices, [⟨3, 4, 2, 3⟩, ⟨3, 2, 1, 0⟩, ⟨0, 1, 2, 3⟩]⟩ = true :=
  (same_blind twoPanels _ twoPanels_valid rfl (by decide) (by decide)).2

/-- Concrete case of the refusal in `set_round_trip`: a panel with two corners. -/
example : fromSetOfFaces [[1, 2, 3], [1, 2]] = none :=
  (from_set_refused_iff _).mpr ⟨[1, 2], by simp, by simp⟩

end Verif.Meshes
