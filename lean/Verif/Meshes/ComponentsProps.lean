import Verif.Meshes.ComponentsModel
import Verif.Meshes.MergeProps
import Verif.Meshes.VolumeProps
import Mathlib.Logic.Relation

/-!
# Connected components: properties

C42.
-/

namespace Verif.Meshes

open Verif.Geometry

variable {V : Type}

/-! ## Specification -/

/-- Two panels of the mesh that share a vertex. -/
def Adj (F : List Face) (f g : Face) : Prop := f ∈ F ∧ g ∈ F ∧ ∃ v, v ∈ f.toList ∧ v ∈ g.toList

/-- Two panels joined by a chain of panels that share vertices. -/
def Joined (F : List Face) : Face → Face → Prop := Relation.ReflTransGen (Adj F)

/-! ## Lemmas -/

theorem touches_iff {g : List ℕ} {f : Face} : touches g f = true ↔ ∃ v ∈ f.toList, v ∈ g := by
  simp [touches]

theorem masked_map (F : List Face) (p : Face → Bool) : masked F (F.map p) = F.filter p := by
  induction F with
  | nil => rfl
  | cons f F ih =>
    unfold masked at ih ⊢
    simp only [List.map_cons, List.zip_cons_cons, List.filter_cons]
    cases p f <;> simp [ih]

theorem mem_uniqueIds {F : List Face} {v : ℕ} : v ∈ uniqueIds F ↔ ∃ f ∈ F, v ∈ f.toList := by
  unfold uniqueIds
  rw [(List.perm_insertionSort _ _).mem_iff]
  simp

theorem nodup_uniqueIds (F : List Face) : (uniqueIds F).Nodup := by
  unfold uniqueIds
  rw [(List.perm_insertionSort _ _).nodup_iff]
  exact List.nodup_dedup _

theorem head_mem (f : Face) : f.a ∈ f.toList := by simp [Face.toList]

theorem Adj.symm {F : List Face} {f g : Face} (h : Adj F f g) : Adj F g f := by
  obtain ⟨h1, h2, v, h3, h4⟩ := h
  exact ⟨h2, h1, v, h4, h3⟩

theorem Joined.symm {F : List Face} {f g : Face} (h : Joined F f g) : Joined F g f := by
  induction h with
  | refl => exact .refl
  | tail _ hab ih => exact Relation.ReflTransGen.head hab.symm ih

theorem Joined.mem {F : List Face} {f g : Face} (hf : f ∈ F) (h : Joined F f g) : g ∈ F := by
  induction h with
  | refl => exact hf
  | tail _ h _ => exact h.2.1

/-- The vertices of the panels linked to a panel. -/
def IsClass (F : List Face) (f0 : Face) (g : List ℕ) : Prop :=
  ∀ v, v ∈ g ↔ ∃ f ∈ F, Joined F f0 f ∧ v ∈ f.toList

/-- What is known of the group and the mask during the inner loop. -/
structure Growing (R : List Face) (f0 : Face) (group : List ℕ) (p : Face → Bool) : Prop where
  start : ∀ v ∈ f0.toList, v ∈ group
  linked : ∀ v ∈ group, ∃ f ∈ R, Joined R f0 f ∧ v ∈ f.toList
  mask : (∀ f ∈ R, p f = true) ∨ ∀ v, v ∈ group ↔ ∃ f ∈ R, p f = true ∧ v ∈ f.toList

theorem Growing.touched_linked {R : List Face} {f0 : Face} {group : List ℕ} {p : Face → Bool}
    (h : Growing R f0 group p) {f : Face} (hf : f ∈ R) (ht : touches group f = true) : Joined R f0 f := by
  obtain ⟨v, hv, hg⟩ := touches_iff.mp ht
  obtain ⟨f', hf', hl, hv'⟩ := h.linked v hg
  exact hl.tail ⟨hf', hf, v, hv', hv⟩

/-- At the end of the loop, the touched panels are those linked to the first one. -/
theorem Growing.stop {R : List Face} {f0 : Face} {group : List ℕ} {p : Face → Bool}
    (h : Growing R f0 group p) (he : ∀ f ∈ R, touches group f = p f) :
    IsClass R f0 (uniqueIds (R.filter (touches group))) := by
  intro v
  rw [mem_uniqueIds]
  constructor
  · rintro ⟨f, hf, hv⟩
    obtain ⟨hf, ht⟩ := List.mem_filter.mp hf
    exact ⟨f, hf, h.touched_linked hf ht, hv⟩
  · rintro ⟨f, hf, hl, hv⟩
    refine ⟨f, List.mem_filter.mpr ⟨hf, ?_⟩, hv⟩
    rcases h.mask with hall | hm
    · rw [he f hf, hall f hf]
    · induction hl generalizing v with
      | refl => exact touches_iff.mpr ⟨f0.a, head_mem f0, h.start _ (head_mem f0)⟩
      | tail _ hab ih =>
        obtain ⟨ha, hb, w, hwa, hwb⟩ := hab
        have := ih w ha hwa
        exact touches_iff.mpr ⟨w, hwb, (hm w).mpr ⟨_, ha, he _ ha ▸ this, hwa⟩⟩

theorem Growing.next {R : List Face} {f0 : Face} {group : List ℕ} {p : Face → Bool}
    (h : Growing R f0 group p) (h0 : f0 ∈ R) :
    Growing R f0 (uniqueIds (R.filter (touches group))) (touches group) where
  start v hv := mem_uniqueIds.mpr ⟨f0, List.mem_filter.mpr ⟨h0,
    touches_iff.mpr ⟨f0.a, head_mem f0, h.start _ (head_mem f0)⟩⟩, hv⟩
  linked v hv := by
    obtain ⟨f, hf, hv⟩ := mem_uniqueIds.mp hv
    obtain ⟨hf, ht⟩ := List.mem_filter.mp hf
    exact ⟨f, hf, h.touched_linked hf ht, hv⟩
  mask := Or.inr fun v => by
    rw [mem_uniqueIds]
    constructor
    · rintro ⟨f, hf, hv⟩
      obtain ⟨hf, ht⟩ := List.mem_filter.mp hf
      exact ⟨f, hf, ht, hv⟩
    · rintro ⟨f, hf, ht, hv⟩
      exact ⟨f, List.mem_filter.mpr ⟨hf, ht⟩, hv⟩

theorem countP_lt {R : List Face} {p q : Face → Bool} (hle : ∀ f ∈ R, p f = true → q f = true)
    (hne : ¬ ∀ f ∈ R, q f = p f) : R.countP p < R.countP q := by
  induction R with
  | nil => simp at hne
  | cons f R ih =>
    have hle' : ∀ f ∈ R, p f = true → q f = true := fun g hg => hle g (by simp [hg])
    have hmono := List.countP_mono_left hle'
    rw [List.countP_cons, List.countP_cons]
    have hf := hle f (by simp)
    by_cases hq : q f = p f
    · have : ¬ ∀ f ∈ R, q f = p f := by
        intro h
        exact hne fun g hg => by
          rcases List.mem_cons.mp hg with rfl | hg
          · exact hq
          · exact h g hg
      have := ih hle' this
      rw [hq]
      omega
    · cases hp : p f <;> cases hq' : q f <;> simp_all

/-- The inner loop, once it compares the mask with the previous one. -/
theorem growGroup_class (R : List Face) (f0 : Face) (h0 : f0 ∈ R) (n : ℕ) (group : List ℕ)
    (p : Face → Bool) (h : Growing R f0 group p) (hle : ∀ f ∈ R, p f = true → touches group f = true)
    (hn : R.length < R.countP p + n) :
    IsClass R f0 (growGroup R n group (R.map p)) ∧ (growGroup R n group (R.map p)).Nodup := by
  induction n generalizing group p with
  | zero =>
    have := List.countP_le_length (p := p) (l := R)
    omega
  | succ n ih =>
    unfold growGroup
    simp only [facesInGroup, masked_map]
    split
    · rename_i he
      exact ⟨h.stop (by simpa using he), nodup_uniqueIds _⟩
    · rename_i he
      have he' : ¬ ∀ f ∈ R, touches group f = p f := by simpa using he
      have hlt := countP_lt hle he'
      refine ih _ _ (h.next h0) ?_ (by omega)
      intro f hf ht
      exact touches_iff.mpr ⟨f.a, head_mem f, mem_uniqueIds.mpr ⟨f, List.mem_filter.mpr ⟨hf, ht⟩, head_mem f⟩⟩

/-- The inner loop from its beginning. -/
theorem growGroup_start (f : Face) (rest : List Face) :
    IsClass (f :: rest) f (growGroup (f :: rest) (rest.length + 3) f.toList ((f :: rest).map fun _ => true)) ∧
    (growGroup (f :: rest) (rest.length + 3) f.toList ((f :: rest).map fun _ => true)).Nodup := by
  have h : Growing (f :: rest) f f.toList (fun _ => true) :=
    ⟨fun v hv => hv, fun v hv => ⟨f, by simp, .refl, hv⟩, Or.inl fun _ _ => rfl⟩
  unfold growGroup
  simp only [facesInGroup, masked_map]
  split
  · rename_i he
    exact ⟨h.stop (List.map_inj_left.mp he), nodup_uniqueIds _⟩
  · refine growGroup_class _ f (by simp) _ _ _ (h.next (by simp)) ?_ ?_
    · intro g hg ht
      exact touches_iff.mpr ⟨g.a, head_mem g, mem_uniqueIds.mpr ⟨g, List.mem_filter.mpr ⟨hg, ht⟩, head_mem g⟩⟩
    · simp only [List.length_cons]; omega

/-! ## The outer loop -/

/-- The groups found so far. -/
structure Classes (F : List Face) (groups : List (List ℕ)) : Prop where
  cls : ∀ g ∈ groups, g.Nodup ∧ ∃ f0 ∈ F, IsClass F f0 g
  disjoint : groups.Pairwise fun g g' => ∀ v ∈ g, v ∉ g'

theorem IsClass.touches_iff {F : List Face} {f0 : Face} {g : List ℕ} (h : IsClass F f0 g) {f : Face}
    (hf : f ∈ F) : touches g f = true ↔ Joined F f0 f := by
  rw [Verif.Meshes.touches_iff]
  constructor
  · rintro ⟨v, hv, hg⟩
    obtain ⟨f', hf', hl, hv'⟩ := (h v).mp hg
    exact hl.tail ⟨hf', hf, v, hv', hv⟩
  · intro hl
    exact ⟨f.a, head_mem f, (h f.a).mpr ⟨f, hf, hl, head_mem f⟩⟩

/-- The remaining panels are not linked to the others. -/
theorem remaining_linked {F : List Face} {groups : List (List ℕ)} (h : Classes F groups) {f0 : Face}
    (h0 : f0 ∈ F.filter fun f => !groups.any fun g => touches g f) (f : Face) :
    Joined (F.filter fun f => !groups.any fun g => touches g f) f0 f ↔ Joined F f0 f := by
  constructor
  · intro hl
    induction hl with
    | refl => exact .refl
    | tail _ hab ih =>
      exact ih.tail ⟨(List.mem_filter.mp hab.1).1, (List.mem_filter.mp hab.2.1).1, hab.2.2⟩
  · intro hl
    induction hl with
    | refl => exact .refl
    | @tail a b hl hab ih =>
      refine ih.tail ?_
      have ha : a ∈ F.filter fun f => !groups.any fun g => touches g f := Joined.mem h0 ih
      refine ⟨ha, List.mem_filter.mpr ⟨hab.2.1, ?_⟩, hab.2.2⟩
      have ha2 := (List.mem_filter.mp ha).2
      simp only [Bool.not_eq_true', List.any_eq_false] at ha2 ⊢
      intro g hg ht
      obtain ⟨-, f1, hf1, hc⟩ := h.cls g hg
      refine ha2 g hg ((hc.touches_iff hab.1).mpr ?_)
      exact ((hc.touches_iff hab.2.1).mp ht).tail hab.symm

theorem classes_next {F : List Face} {groups : List (List ℕ)} (h : Classes F groups) {f : Face}
    {rest : List Face} (hr : (F.filter fun f => !groups.any fun g => touches g f) = f :: rest) {g : List ℕ}
    (hg : IsClass (f :: rest) f g) (hn : g.Nodup) : Classes F (groups ++ [g]) ∧ IsClass F f g := by
  have hmem : ∀ x, x ∈ f :: rest ↔ x ∈ F ∧ ∀ g ∈ groups, touches g x = false := by
    intro x
    rw [← hr]
    simp
  have hf := (hmem f).mp (by simp)
  have hlink : ∀ x, Joined (f :: rest) f x ↔ Joined F f x := by
    intro x
    rw [← hr]
    exact remaining_linked h (by rw [hr]; simp) x
  have hcls : IsClass F f g := by
    intro v
    rw [hg v]
    constructor
    · rintro ⟨x, hx, hl, hv⟩
      exact ⟨x, ((hmem x).mp hx).1, (hlink x).mp hl, hv⟩
    · rintro ⟨x, hx, hl, hv⟩
      have hl' := (hlink x).mpr hl
      exact ⟨x, Joined.mem (by simp) hl', hl', hv⟩
  refine ⟨⟨?_, ?_⟩, hcls⟩
  · intro g' hg'
    rcases List.mem_append.mp hg' with hg' | hg'
    · exact h.cls g' hg'
    · rw [List.mem_singleton.mp hg']
      exact ⟨hn, f, hf.1, hcls⟩
  · rw [List.pairwise_append]
    refine ⟨h.disjoint, by simp, ?_⟩
    intro g' hg' g'' hg'' v hv hv'
    rw [List.mem_singleton.mp hg''] at hv'
    obtain ⟨x, hx, -, hvx⟩ := (hg v).mp hv'
    have := ((hmem x).mp hx).2 g' hg'
    rw [Verif.Meshes.touches_iff.mpr ⟨v, hvx, hv⟩] at this
    cases this

theorem clusterLoop_classes (F : List Face) (n : ℕ) (groups : List (List ℕ)) (h : Classes F groups)
    (hn : (F.filter fun f => !groups.any fun g => touches g f).length < n) :
    Classes F (clusterLoop F n groups) ∧ ∀ f ∈ F, ∃ g ∈ clusterLoop F n groups, touches g f = true := by
  induction n generalizing groups with
  | zero => omega
  | succ n ih =>
    unfold clusterLoop
    simp only [facesMask, masked_map]
    split
    · rename_i he
      refine ⟨h, fun f hf => ?_⟩
      have := List.filter_eq_nil_iff.mp he f hf
      simpa using this
    · rename_i f rest he
      obtain ⟨h1, h2⟩ := growGroup_start f rest
      obtain ⟨h3, h4⟩ := classes_next h he h1 h2
      refine ih _ h3 ?_
      have hf : f ∈ F := by
        have : f ∈ F.filter fun f => !groups.any fun g => touches g f := by rw [he]; simp
        exact (List.mem_filter.mp this).1
      generalize growGroup (f :: rest) (rest.length + 3) f.toList ((f :: rest).map fun _ => true) = g at *
      have hsub : (F.filter fun f => !(groups ++ [g]).any fun g => touches g f) =
          (F.filter fun f => !groups.any fun g => touches g f).filter fun f => !touches g f := by
        rw [List.filter_filter]
        congr 1
        funext x
        simp [List.any_append, Bool.and_comm]
      rw [hsub, he]
      have htf : touches g f = true := (h4.touches_iff hf).mpr .refl
      rw [List.filter_cons_of_neg (by simp [htf])]
      rw [he] at hn
      have := List.length_filter_le (fun f => !touches g f) rest
      simp only [List.length_cons] at hn
      omega

theorem clustering_classes (F : List Face) :
    Classes F (clustering F) ∧ ∀ f ∈ F, ∃ g ∈ clustering F, touches g f = true := by
  refine clusterLoop_classes F _ [] ⟨by simp, by simp⟩ ?_
  have := List.length_filter_le (fun f => !([] : List (List ℕ)).any fun g => touches g f) F
  omega

theorem mem_facesOfGroup {F : List Face} {g : List ℕ} {i : ℕ} :
    i ∈ facesOfGroup F g ↔ ∃ f, F[i]? = some f ∧ touches g f = true := by
  unfold facesOfGroup
  rw [List.mem_filter, List.mem_range]
  constructor
  · rintro ⟨hi, h⟩
    refine ⟨F[i], List.getElem?_eq_getElem hi, ?_⟩
    simpa [List.getElem?_eq_getElem hi] using h
  · rintro ⟨f, hf, h⟩
    exact ⟨(List.getElem?_eq_some_iff.mp hf).1, by simp [hf, h]⟩

/-- C42: the computation never fails, the components are a partition of the panels into groups that are not
empty, and two panels are together exactly when a chain of panels that share vertices joins them. -/
theorem connected_components (F : List Face) :
    ∃ comps, componentIds F = some comps ∧
      comps.flatten.Perm (List.range F.length) ∧ (∀ c ∈ comps, c ≠ []) ∧
      ∀ (i j : ℕ) (f g : Face), F[i]? = some f → F[j]? = some g →
        ((∃ c ∈ comps, i ∈ c ∧ j ∈ c) ↔ Joined F f g) := by
  obtain ⟨hc, hall⟩ := clustering_classes F
  have hnd : (clustering F).flatten.Nodup := by
    rw [List.nodup_flatten]
    refine ⟨fun g hg => (hc.cls g hg).1, hc.disjoint.imp ?_⟩
    intro a b hab v hv hv'
    exact hab v hv hv'
  refine ⟨(clustering F).map (facesOfGroup F), ?_, ?_, ?_, ?_⟩
  · unfold componentIds
    simp [List.Nodup.dedup hnd, List.length_flatten]
  · rw [List.perm_ext_iff_of_nodup]
    · intro i
      rw [List.mem_range, List.mem_flatten]
      constructor
      · rintro ⟨c, hcm, hi⟩
        obtain ⟨g, -, rfl⟩ := List.mem_map.mp hcm
        obtain ⟨f, hf, -⟩ := mem_facesOfGroup.mp hi
        exact (List.getElem?_eq_some_iff.mp hf).1
      · intro hi
        obtain ⟨g, hg, ht⟩ := hall F[i] (List.getElem_mem hi)
        exact ⟨_, List.mem_map.mpr ⟨g, hg, rfl⟩, mem_facesOfGroup.mpr ⟨F[i], List.getElem?_eq_getElem hi, ht⟩⟩
    · rw [List.nodup_flatten]
      constructor
      · intro c hcm
        obtain ⟨g, -, rfl⟩ := List.mem_map.mp hcm
        exact List.nodup_range.filter _
      · rw [List.pairwise_map]
        refine List.Pairwise.imp_of_mem ?_ hc.disjoint
        intro a b ha hb hab i hi hi'
        obtain ⟨f, hf, ht⟩ := mem_facesOfGroup.mp hi
        obtain ⟨f', hf', ht'⟩ := mem_facesOfGroup.mp hi'
        rw [hf] at hf'
        cases hf'
        obtain ⟨-, f0, -, hcl⟩ := hc.cls a ha
        have hfm := List.mem_of_getElem? hf
        obtain ⟨v, hv, hvb⟩ := touches_iff.mp ht'
        exact hab v ((hcl v).mpr ⟨f, hfm, (hcl.touches_iff hfm).mp ht, hv⟩) hvb
    · exact List.nodup_range
  · intro c hcm
    obtain ⟨g, hg, rfl⟩ := List.mem_map.mp hcm
    obtain ⟨-, f0, hf0, hcl⟩ := hc.cls g hg
    obtain ⟨i, hi⟩ := List.mem_iff_getElem?.mp hf0
    exact List.ne_nil_of_mem (mem_facesOfGroup.mpr ⟨f0, hi, (hcl.touches_iff hf0).mpr .refl⟩)
  · intro i j f g hi hj
    have hfm := List.mem_of_getElem? hi
    have hgm := List.mem_of_getElem? hj
    constructor
    · rintro ⟨c, hcm, hic, hjc⟩
      obtain ⟨G, hG, rfl⟩ := List.mem_map.mp hcm
      obtain ⟨-, f0, hf0, hcl⟩ := hc.cls G hG
      obtain ⟨f', hf', ht⟩ := mem_facesOfGroup.mp hic
      obtain ⟨g', hg', ht'⟩ := mem_facesOfGroup.mp hjc
      rw [hi] at hf'
      rw [hj] at hg'
      cases hf'
      cases hg'
      exact ((hcl.touches_iff hfm).mp ht).symm.trans ((hcl.touches_iff hgm).mp ht')
    · intro hl
      obtain ⟨G, hG, ht⟩ := hall f hfm
      obtain ⟨-, f0, hf0, hcl⟩ := hc.cls G hG
      exact ⟨_, List.mem_map.mpr ⟨G, hG, rfl⟩, mem_facesOfGroup.mpr ⟨f, hi, ht⟩, mem_facesOfGroup.mpr
        ⟨g, hj, (hcl.touches_iff hgm).mpr (((hcl.touches_iff hfm).mp ht).trans hl)⟩⟩

/-- C42: the components of a valid mesh are the meshes of the panels of each class, with the same corners
in the same order. -/
theorem connected_components_mesh (m : Mesh V) (hm : m.Valid) :
    ∃ comps meshes, componentIds m.faces = some comps ∧ m.connectedComponents = some meshes ∧
      meshes.length = comps.length ∧
      ∀ (k : ℕ) (c : List ℕ) (m' : Mesh V), comps[k]? = some c → meshes[k]? = some m' →
        m'.Valid ∧ m'.panels = c.map fun i => (m.panels[i]?).getD none := by
  obtain ⟨comps, h1, h2, -, -⟩ := connected_components m.faces
  have hlt : ∀ c ∈ comps, ∀ i ∈ c, i < m.faces.length := fun c hc i hi =>
    List.mem_range.mp (h2.subset (List.mem_flatten.mpr ⟨c, hc, hi⟩))
  obtain ⟨ms, h3, h4, h5⟩ := mapM_total (fun ids => (m.extractFaces ids).map Prod.fst) comps (by
    intro c hc
    obtain ⟨m', kept, h, -⟩ := extract_faces m hm c (hlt c hc)
    exact ⟨m', by simp [h]⟩)
  refine ⟨comps, ms, h1, by simp [Mesh.connectedComponents, h1, h3], h4, ?_⟩
  intro k c m' hc hm'
  have := h5 k c m' hc hm'
  obtain ⟨m'', kept, h, hv, hp, -⟩ := extract_faces m hm c (hlt c (List.mem_of_getElem? hc))
  rw [h] at this
  cases this
  exact ⟨hv, hp⟩

/-- Three panels in two components: the first and the last one share the vertex 2. -/
def threePanels : List Face := [⟨0, 1, 2, 0⟩, ⟨5, 6, 7, 8⟩, ⟨2, 3, 4, 2⟩]

/-- Concrete case of `connected_components`. -/
example : componentIds threePanels = some [[0, 2], [1]] := by decide

/-- ... and of `connected_components_mesh`. -/
example : ∃ meshes, (⟨List.range 9, threePanels⟩ : Mesh ℕ).connectedComponents = some meshes ∧
    meshes.length = 2 := by
  obtain ⟨comps, meshes, h1, h2, h3, -⟩ := connected_components_mesh
    (⟨List.range 9, threePanels⟩ : Mesh ℕ) (by simp [Mesh.Valid, threePanels, Face.toList])
  have : componentIds threePanels = some [[0, 2], [1]] := by decide
  simp only at h1
  rw [this] at h1
  cases h1
  exact ⟨meshes, h2, h3⟩

/-! ## C74 -/

/-- The array has one entry per panel, which is the one computed on the component. -/
def ComponentDataRight (m : Mesh (V3 ℝ)) (ids : List ℕ) (a : PanelArray) : Prop :=
  ∃ c kept t, m.extractFaces ids = some (c, kept) ∧ c.faceTable = some t ∧ a = .flat t

/-- C74: the panel data of a component are right exactly when those of the mesh had not been computed. -/
theorem component_data_partial (m : Mesh (V3 ℝ)) (hm : m.Valid) (stored : Option Table) (t : Table)
    (ht : m.faceTable = some t) (hst : stored = none ∨ stored = some t) (ids : List ℕ)
    (hids : ∀ i ∈ ids, i < m.faces.length) :
    ∃ a, componentData m stored ids = some a ∧ (ComponentDataRight m ids a ↔ stored = none) := by
  obtain ⟨c, kept, h, hv, -⟩ := extract_faces m hm ids hids
  rcases hst with rfl | rfl
  · obtain ⟨tc, htc⟩ := table_exists hv
    exact ⟨.flat tc, by simp [componentData, h, htc], by simpa using ⟨c, kept, tc, h, htc, rfl⟩⟩
  · have hl : t.length = m.faces.length := by
      have := congrArg List.length (faceTable_spec ht)
      simpa using this.symm
    obtain ⟨r, hr⟩ := select_eq_some (l := t) (ids := ids) fun i hi => hl ▸ hids i hi
    refine ⟨.rows (r.map fun x => [x]), by simp [componentData, hr], ?_⟩
    constructor
    · rintro ⟨_, _, _, _, _, h⟩
      cases h
    · intro h
      cases h

/-- C74 does not hold: on any mesh with at least one panel, once its panel data are stored, the panel data
of its components are in arrays of another shape. -/
theorem component_data_violated (m : Mesh (V3 ℝ)) (hm : m.Valid) (h0 : m.faces ≠ []) :
    ∃ t comps, m.faceTable = some t ∧ componentIds m.faces = some comps ∧ comps ≠ [] ∧
      ∀ ids ∈ comps, ∃ a, componentData m (some t) ids = some a ∧ ¬ ComponentDataRight m ids a := by
  obtain ⟨t, ht⟩ := table_exists hm
  obtain ⟨comps, h1, h2, -, -⟩ := connected_components m.faces
  refine ⟨t, comps, ht, h1, ?_, ?_⟩
  · rintro rfl
    have := h2.length_eq
    simp only [List.flatten_nil, List.length_nil, List.length_range] at this
    exact h0 (List.length_eq_zero_iff.mp this.symm)
  · intro ids hids
    obtain ⟨a, ha, hb⟩ := component_data_partial m hm (some t) t ht (Or.inr rfl) ids fun i hi =>
      List.mem_range.mp (h2.subset (List.mem_flatten.mpr ⟨ids, hids, hi⟩))
    exact ⟨a, ha, fun h => by cases hb.mp h⟩

/-- Concrete case of `component_data_violated` and `component_data_partial`. -/
example : twoTriangles.Valid ∧ twoTriangles.faces ≠ [] ∧ componentIds twoTriangles.faces = some [[0], [1]] := by
  refine ⟨by simp [Mesh.Valid, twoTriangles, Face.toList], by simp [twoTriangles], ?_⟩
  show componentIds [⟨0, 1, 2, 0⟩, ⟨3, 4, 5, 3⟩] = _
  decide

end Verif.Meshes
