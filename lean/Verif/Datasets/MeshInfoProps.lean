import Verif.Datasets.MeshInfoModel
import Verif.Datasets.AssembleProps
import Verif.Datasets.AssembleIff

/-!
# Proofs about the data on the meshes, the attributes and the kinds of inputs of a dataset (C105)
-/

namespace Verif.Datasets

/-! ## Kinds of inputs -/

/-- What `inModule` reads. -/
theorem inModule_iff (w m : List Char) : (Obj.mk (some m)).inModule w = true ↔ w <:+: m := by
  unfold Obj.inModule; simp

/-- **C105**: the results are taken as those of Capytaine exactly when the first item of a sequence comes from a module
with this word in its name; the other items are not looked at. -/
theorem detect_capytaine_iff (x : Given) :
    detect x = .capytaine ↔ ∃ o rest m, x = .sequence (o :: rest) ∧ o.module = some m ∧
      ownWord <:+: m := by
  cases x with
  | sequence l =>
    cases l with
    | nil => simp [detect]
    | cons o rest =>
      rcases o with ⟨_ | m⟩
      · simp [detect, Obj.inModule]
      · rw [detect]
        split <;> rename_i h
        · rw [inModule_iff] at h
          exact ⟨fun _ => ⟨_, _, m, rfl, rfl, h⟩, fun _ => rfl⟩
        · rw [inModule_iff] at h
          refine ⟨(fun e => by cases e), ?_⟩
          rintro ⟨o', r', m', e, e', hm⟩
          cases e; cases e'
          exact (h hm).elim
  | iterator => simp [detect]
  | mapping n => simp only [detect]; split <;> simp
  | single o => simp only [detect]; split <;> simp

/-- **C105**: data of bemio are only recognised as one object. -/
theorem detect_bemio_iff (x : Given) :
    detect x = .bemio ↔ ∃ o m, x = .single o ∧ o.module = some m ∧ bemioWord <:+: m := by
  cases x with
  | sequence l =>
    cases l with
    | nil => simp [detect]
    | cons o rest => simp only [detect]; split <;> simp
  | iterator => simp [detect]
  | mapping n => simp only [detect]; split <;> simp
  | single o =>
    rcases o with ⟨_ | m⟩
    · simp [detect, Obj.inModule]
    · rw [detect]
      split <;> rename_i h
      · rw [inModule_iff] at h
        exact ⟨fun _ => ⟨_, m, rfl, rfl, h⟩, fun _ => rfl⟩
      · rw [inModule_iff] at h
        refine ⟨(fun e => by cases e), ?_⟩
        rintro ⟨o', m', e, e', hm⟩
        cases e; cases e'
        exact (h hm).elim

/-- **C105**: only what is empty is a `ValueError`. -/
theorem detect_empty_iff (x : Given) : detect x = .valueError ↔ x = .sequence [] ∨ x = .mapping 0 := by
  cases x with
  | sequence l =>
    cases l with
    | nil => simp [detect]
    | cons o rest => simp only [detect]; split <;> simp
  | iterator => simp [detect]
  | mapping n =>
    simp only [detect]
    split
    · rename_i h; subst h; simp
    · rename_i h; simp [h]
  | single o => simp only [detect]; split <;> simp

/-- **C105**: an iterator over results is refused, and results of a class defined by the user also. -/
theorem detect_own_class_violated (m : List Char) (hm : ¬ ownWord <:+: m) (rest : List Obj) :
    detect .iterator = .typeError ∧ detect (.sequence (⟨some m⟩ :: rest)) = .typeError := by
  refine ⟨rfl, ?_⟩
  rw [detect, if_neg]
  rwa [inModule_iff]

example : detect (.sequence [⟨some (ownWord ++ ['.', 'b', 'e', 'm'])⟩, ⟨none⟩]) = .capytaine ∧
    detect (.single ⟨some (bemioWord ++ ['.', 'n'])⟩) = .bemio ∧ detect (.sequence [⟨some ['s', 't']⟩]) = .typeError ∧
    ¬ ownWord <:+: ['s', 't'] := by
  decide

/-! ## Data on the meshes -/

/-- What is stored for the method of quadrature: its name if it has one, a string as it is, `None` when there is none, and
otherwise what the method is printed as. -/
inductive MethodText : Quad → String → Prop
  | unset : MethodText .unset "None"
  | string (s : String) : MethodText (.string s) s
  | named (s : String) : MethodText (.named s) s
  | unnamed (s : String) : MethodText (.unnamed s) s

theorem methodText_text (q : Quad) : MethodText q q.text := by
  cases q <;> constructor

/-- The data of a body are those at its name. -/
def DataOf (order : List MBody) (x : Cell) (faces : ℕ) (method : String) : Prop :=
  ∃ b ∈ order, x = .str b.name ∧ faces = b.faces ∧ MethodText b.method method

/-- The bodies have different names. -/
def DifferentNames (order : List MBody) : Prop := (order.map MBody.name).Nodup

theorem unique_name {order : List MBody} (h : DifferentNames order) {a b : MBody} (ha : a ∈ order) (hb : b ∈ order)
    (e : a.name = b.name) : a = b := List.inj_on_of_nodup_map h ha hb e

theorem lookupBody_some {order : List MBody} {x : Cell} {b : MBody} (h : lookupBody order x = some b) :
    b ∈ order ∧ x = .str b.name := by
  cases x with
  | num x => cases h
  | str s =>
    have h1 := List.mem_of_find?_eq_some h
    have h2 := List.find?_some h
    simp only [decide_eq_true_eq] at h2
    exact ⟨List.mem_reverse.1 h1, by rw [h2]⟩

theorem lookupBody_isSome {order : List MBody} {x : Cell} :
    (lookupBody order x).isSome ↔ ∃ b ∈ order, x = .str b.name := by
  constructor
  · intro h
    obtain ⟨b, hb⟩ := Option.isSome_iff_exists.1 h
    exact ⟨b, lookupBody_some hb⟩
  · rintro ⟨b, hb, rfl⟩
    simp only [lookupBody, List.find?_isSome]
    exact ⟨b, List.mem_reverse.2 hb, by simp⟩

theorem lookupBody_eq {order : List MBody} (hn : DifferentNames order) {b : MBody} (hb : b ∈ order) :
    lookupBody order (.str b.name) = some b := by
  obtain ⟨c, hc⟩ := Option.isSome_iff_exists.1 (lookupBody_isSome.2 ⟨b, hb, rfl⟩)
  obtain ⟨h1, h2⟩ := lookupBody_some hc
  rw [hc, unique_name hn h1 hb]
  injection h2 with h2
  exact h2.symm

theorem mapM_isSome {α β : Type} (f : α → Option β) (l : List α) :
    (l.mapM f).isSome ↔ ∀ x ∈ l, (f x).isSome := by
  induction l with
  | nil => simp
  | cons a l ih =>
    rw [List.mapM_cons]
    cases ha : f a with
    | none => simp [ha]
    | some b =>
      cases hl : l.mapM f with
      | none => simp [ha, hl]; rw [hl] at ih; simpa using ih
      | some bs =>
        rw [hl] at ih
        simp only [Option.isSome_some, true_iff] at ih
        simp [ha, hl, ih]
        exact ih

theorem mapM_forall₂ {α β : Type} (f : α → Option β) (l : List α) (bs : List β) (h : l.mapM f = some bs) :
    List.Forall₂ (fun x b => f x = some b) l bs := by
  induction l generalizing bs with
  | nil => simp at h; subst h; exact .nil
  | cons a l ih =>
    rw [List.mapM_cons] at h
    cases ha : f a with
    | none => simp [ha] at h
    | some b =>
      cases hl : l.mapM f with
      | none => simp [ha, hl] at h
      | some cs =>
        simp [ha, hl] at h
        subst h
        exact .cons ha (ih cs hl)

/-- **C105**: with several bodies of different names, each label of the dataset has the number of panels and the method of
the body of this name. -/
theorem mesh_several {V : Type} (order : List MBody) (d : DS V) (h2 : 2 ≤ order.length) (hn : DifferentNames order)
    (ls : List Cell) (hd : d.index .bodyName = some ls) (hl : ∀ x ∈ ls, ∃ b ∈ order, x = .str b.name) :
    ∃ fs ms, meshCoords order d = some (.perBody ls fs ms) ∧ fs.length = ls.length ∧ ms.length = ls.length ∧
      ∀ (i : ℕ) (x : Cell) (f : ℕ) (m : String), ls[i]? = some x → fs[i]? = some f → ms[i]? = some m →
        DataOf order x f m := by
  have hlen : (order.map MBody.name).dedup.length > 1 := by
    rw [List.Nodup.dedup hn, List.length_map]; omega
  obtain ⟨bs, hbs⟩ := Option.isSome_iff_exists.1 ((mapM_isSome (lookupBody order) ls).2 fun x hx =>
    lookupBody_isSome.2 (hl x hx))
  have hf := mapM_forall₂ _ _ _ hbs
  refine ⟨bs.map MBody.faces, bs.map fun b => b.method.text, ?_, ?_, ?_, ?_⟩
  · simp only [meshCoords, if_pos hlen, hd, Option.bind_some, hbs, Option.map_some]
  · rw [List.length_map, hf.length_eq]
  · rw [List.length_map, hf.length_eq]
  · intro i x f m hx hf' hm
    rw [List.getElem?_map, Option.map_eq_some_iff] at hf' hm
    obtain ⟨b, hb, rfl⟩ := hf'
    obtain ⟨b', hb', rfl⟩ := hm
    rw [hb] at hb'; cases hb'
    have : lookupBody order x = some b := by
      rw [List.forall₂_iff_get] at hf
      obtain ⟨e, hg⟩ := hf
      obtain ⟨i1, e1⟩ := List.getElem?_eq_some_iff.1 hx
      obtain ⟨i2, e2⟩ := List.getElem?_eq_some_iff.1 hb
      have := hg i i1 i2
      simpa [List.get_eq_getElem, e1, e2] using this
    obtain ⟨k1, k2⟩ := lookupBody_some this
    exact ⟨b, k1, k2, rfl, methodText_text b.method⟩

/-- **C105**: with one body, its data are single values. -/
theorem mesh_one {V : Type} (b : MBody) (d : DS V) :
    ∃ s, MethodText b.method s ∧ meshCoords [b] d = some (.single b.faces s) := ⟨_, methodText_text _, rfl⟩

/-- **C105**: the order in which the bodies are gone over does not matter when their names are different. -/
theorem mesh_order {V : Type} {order order' : List MBody} (h : order.Perm order') (hn : DifferentNames order)
    (d : DS V) : meshCoords order d = meshCoords order' d := by
  have hn' : DifferentNames order' := (h.map MBody.name).nodup_iff.1 hn
  have e1 : (order.map MBody.name).dedup.length = (order'.map MBody.name).dedup.length := by
    rw [List.Nodup.dedup hn, List.Nodup.dedup hn', List.length_map, List.length_map, h.length_eq]
  have e2 : lookupBody order = lookupBody order' := by
    funext x
    cases hx : lookupBody order x with
    | none =>
      cases hx' : lookupBody order' x with
      | none => rfl
      | some b =>
        obtain ⟨k1, rfl⟩ := lookupBody_some hx'
        rw [lookupBody_eq hn (h.mem_iff.2 k1)] at hx
        cases hx
    | some b =>
      obtain ⟨k1, rfl⟩ := lookupBody_some hx
      exact (lookupBody_eq hn' (h.mem_iff.1 k1)).symm
  by_cases hlen : (order.map MBody.name).dedup.length > 1
  · simp only [meshCoords, if_pos hlen, if_pos (e1 ▸ hlen), e2]
  · simp only [meshCoords, if_neg hlen, if_neg (e1 ▸ hlen)]
    rw [List.Nodup.dedup hn, List.length_map] at hlen
    have : order = order' := by
      match order, hlen with
      | [], _ => exact (List.perm_nil.1 h.symm).symm
      | [a], _ => exact (List.perm_singleton.1 h.symm).symm
      | a :: b :: l, hlen => simp at hlen
    rw [this]

/-- **C105**: two bodies of the same name: the dataset has the data of only one of them, and which one depends on the
order of a set. -/
theorem mesh_same_name_violated {V : Type} (d : DS V) : ∃ a b : MBody, a.name = b.name ∧ a.faces ≠ b.faces ∧
    meshCoords [a, b] d = some (.single b.faces "None") ∧ meshCoords [b, a] d = some (.single a.faces "None") :=
  ⟨⟨"body", 10, .unset⟩, ⟨"body", 20, .unset⟩, rfl, by decide, rfl, rfl⟩

/-- The names are those of the rows. -/
def NamesOf {V : Type} (order : List MBody) (rs : List (Rec V)) : Prop :=
  (∀ r ∈ rs, ∃ b ∈ order, r.cell .bodyName = .str b.name) ∧ ∀ b ∈ order, ∃ r ∈ rs, r.cell .bodyName = .str b.name

theorem mesh_refused_iff {V : Type} (order : List MBody) (d : DS V) (h2 : 2 ≤ order.length) (hn : DifferentNames order) :
    meshCoords order d = none ↔
      d.index .bodyName = none ∨ ∃ ls, d.index .bodyName = some ls ∧ ∃ x ∈ ls, ∀ b ∈ order, x ≠ .str b.name := by
  have hlen : (order.map MBody.name).dedup.length > 1 := by
    rw [List.Nodup.dedup hn, List.length_map]; omega
  simp only [meshCoords, if_pos hlen]
  cases hd : d.index .bodyName with
  | none => simp
  | some ls =>
    simp only [Option.bind_some, Option.map_eq_none_iff, reduceCtorEq, false_or, Option.some.injEq, exists_eq_left']
    have := mapM_isSome (lookupBody order) ls
    simp only [lookupBody_isSome] at this
    rw [← Option.not_isSome_iff_eq_none, this]
    push Not
    rfl

theorem squeezed_iff {V : Type} {dims opt : List Col} {rs : List (Rec V)} {c : Col} (hc : c ∈ opt) (hd : c ∉ dims)
    {r : Rec V} (hr : r ∈ rs) : squeezed dims opt rs c = some (r.cell c) ↔ Single rs c := by
  constructor
  · exact squeezed_single
  · intro h
    have e : labels c rs = [r.cell c] := by
      have h1 : (labels c rs).Nodup := by classical exact List.nodup_dedup _
      have h2 : ∀ x ∈ labels c rs, x = r.cell c := fun x hx => by
        obtain ⟨s, hs, rfl⟩ := (mem_labels c rs x).1 hx
        exact h s hs r hr
      have h3 := (mem_labels c rs (r.cell c)).2 ⟨r, hr, rfl⟩
      match hl : labels c rs with
      | [] => rw [hl] at h3; cases h3
      | [x] => rw [hl] at h2; rw [h2 x (by simp)]
      | x :: y :: l =>
        rw [hl] at h1 h2
        have a := h2 x (by simp)
        have b := h2 y (by simp)
        rw [a, b] at h1
        simp at h1
    rw [squeezed, if_pos ⟨hc, hd⟩, e]

theorem frame_index {V : Type} {vars : List Var} {dims opt : List Col} {rs : List (Rec V)} {c : Col} (hc : c ∈ opt)
    (hd : c ∉ dims) {r : Rec V} (hr : r ∈ rs) :
    ((fromFrame vars dims opt rs).index c = none ↔ Single rs c) ∧
      (Single rs c → (fromFrame vars dims opt rs).scalar c = some (r.cell c)) := by
  have h := squeezed_iff hc hd hr
  refine ⟨?_, h.2⟩
  simp only [fromFrame, kept]
  constructor
  · intro hk
    by_contra hs
    rw [if_pos] at hk
    · cases hk
    · refine ⟨by simp [hc], ?_⟩
      cases e : squeezed dims opt rs c with
      | none => rfl
      | some x => exact (hs (squeezed_single e)).elim
  · intro hs
    rw [if_neg]
    rw [h.2 hs]
    simp

theorem outer_none {l m : Option (List Cell)} : outer l m = none ↔ l = none ∧ m = none := by
  cases l <;> cases m <;> simp [outer]

theorem single_kinds {V : Type} (rs : List (Rec V)) (c : Col) :
    Single rs c ↔ Single (ofKind .radiation rs) c ∧ Single (ofKind .diffraction rs) c ∧
      ∀ r ∈ ofKind .radiation rs, ∀ s ∈ ofKind .diffraction rs, r.cell c = s.cell c := by
  constructor
  · intro h
    refine ⟨fun r hr s hs => h r (List.mem_of_mem_filter hr) s (List.mem_of_mem_filter hs),
      fun r hr s hs => h r (List.mem_of_mem_filter hr) s (List.mem_of_mem_filter hs),
      fun r hr s hs => h r (List.mem_of_mem_filter hr) s (List.mem_of_mem_filter hs)⟩
  · rintro ⟨h1, h2, h3⟩ r hr s hs
    have k : ∀ r ∈ rs, r ∈ ofKind .radiation rs ∨ r ∈ ofKind .diffraction rs := fun r hr => by
      simp only [ofKind, List.mem_filter, decide_eq_true_eq, hr, true_and]
      cases r.kind <;> simp
    rcases k r hr with a | a <;> rcases k s hs with b | b
    · exact h1 r a s b
    · exact h3 r a s b
    · exact (h3 s b r a).symm
    · exact h2 r a s b

theorem results_index {V : Type} [Add V] {main : FreqType} {rs : List (Rec V)} {d : DS V} (h : results main rs = some d) :
    d.index .bodyName = none ↔ Single rs .bodyName := by
  have e1 : Col.bodyName ∈ envCols ++ [Col.direction] := by decide
  have e2 : Col.bodyName ∈ envCols := by decide
  have d1 : Col.bodyName ∉ [Col.freq main, .radiatingDof, .influencedDof] := by simp
  have d2 : Col.bodyName ∉ [Col.freq main, .direction, .influencedDof] := by simp
  rw [single_kinds]
  unfold results at h
  cases hR : ofKind .radiation rs with
  | nil =>
    rw [hR, if_pos rfl, Option.bind_some] at h
    cases hD : ofKind .diffraction rs with
    | nil =>
      rw [hD, if_pos rfl] at h
      cases h
      simp [DS.empty, Single]
    | cons s D =>
      rw [hD, if_neg (by simp), Option.map_eq_some_iff] at h
      obtain ⟨f, hf, rfl⟩ := h
      obtain ⟨k, -, -⟩ := merge_eq hf
      have := (frame_index (vars := [.diffractionForce, .froudeKrylov]) (rs := s :: D) e2 d2 (r := s) (by simp)).1
      simp only [addExcitation, k, outer_none]
      simp only [DS.empty, true_and, diffractionPart]
      rw [this]
      constructor
      · exact fun a => ⟨by simp [Single], a, by simp⟩
      · exact fun a => a.2.1
  | cons r R =>
    rw [hR, if_neg (by simp)] at h
    obtain ⟨f, hf, h⟩ := Option.bind_eq_some_iff.1 h
    obtain ⟨k, k', -⟩ := merge_eq hf
    have i1 := frame_index (vars := [.addedMass, .damping]) (rs := r :: R) e1 d1 (r := r) (by simp)
    have f1 : f.index .bodyName = none ↔ Single (r :: R) .bodyName := by
      rw [k]; simp only [outer_none, DS.empty, true_and, radiationPart]; exact i1.1
    cases hD : ofKind .diffraction rs with
    | nil =>
      rw [hD, if_pos rfl] at h
      cases h
      rw [f1]
      simp [Single]
    | cons s D =>
      rw [hD, if_neg (by simp), Option.map_eq_some_iff] at h
      obtain ⟨g, hg, rfl⟩ := h
      have i2 := frame_index (vars := [.diffractionForce, .froudeKrylov]) (rs := s :: D) e2 d2 (r := s) (by simp)
      obtain ⟨q, -, -⟩ := merge_eq hg
      simp only [addExcitation, q, outer_none, f1]
      have i2' : (diffractionPart main (s :: D)).index .bodyName = none ↔ Single (s :: D) .bodyName := i2.1
      rw [i2']
      constructor
      · rintro ⟨a, b⟩
        refine ⟨a, b, fun x hx y hy => ?_⟩
        rw [a x hx r (by simp), b y hy s (by simp)]
        by_contra hne
        unfold merge at hg
        rw [if_pos] at hg
        · cases hg
        · refine ⟨.bodyName, r.cell .bodyName, s.cell .bodyName, f1.2 a, i2'.2 b, ?_, i2.2 b, hne⟩
          rw [k']
          have : (radiationPart main (r :: R)).index .bodyName = none := i1.1.2 a
          simp only [DS.empty, this, outer]
          simpa [radiationPart] using i1.2 a
      · rintro ⟨a, b, -⟩
        exact ⟨a, b⟩

theorem assemble_index {V : Type} [Add V] {main : FreqType} {rs : List (Rec V)} {d : DS V}
    (h : assemble main rs = some d) : d.index .bodyName = none ↔ Single (withSurface rs) .bodyName := by
  unfold assemble at h
  split at h
  · cases h
  obtain ⟨f, hf, rfl⟩ := Option.map_eq_some_iff.1 h
  rw [← results_index hf]
  have addF : ∀ (d : DS V) (k : FreqType), (addFreq main (withSurface rs) d k).index .bodyName = d.index .bodyName := by
    intro d k
    unfold addFreq
    split
    · rfl
    · simp only [addCoord, fromFrame, kept]
      rw [if_neg]
      · simp
      · cases main <;> cases k <;> simp [freqOpt]
  have fold : ∀ (l : List FreqType) (d : DS V),
      (l.foldl (addFreq main (withSurface rs)) d).index .bodyName = d.index .bodyName := by
    intro l
    induction l with
    | nil => intro d; rfl
    | cons k l ih => intro d; rw [List.foldl_cons, ih, addF]
  have addE : ∀ d : DS V, (addEncounter main (withSurface rs) d).index .bodyName = d.index .bodyName := by
    intro d
    unfold addEncounter
    split
    · rfl
    · simp only [addCoord, fromFrame, kept]
      rw [if_neg (by simp), if_neg (by simp)]
      simp
  rw [addE, fold]

/-- **C105**: for the dataset of results on several bodies of different names, the data on the meshes are refused exactly
when only the cases of one of the bodies, or of none, have a free surface. -/
theorem mesh_dataset_refused_iff {V : Type} [Add V] (main : FreqType) (rs : List (Rec V)) (d : DS V)
    (h : assemble main rs = some d) (order : List MBody) (h2 : 2 ≤ order.length) (hn : DifferentNames order)
    (ho : NamesOf order rs) :
    meshCoords order d = none ↔
      ∀ r ∈ rs, ∀ s ∈ rs, r.freeSurface = 0 → s.freeSurface = 0 → r.cell .bodyName = s.cell .bodyName := by
  rw [mesh_refused_iff order d h2 hn, or_iff_left, assemble_index h]
  · simp only [Single, withSurface, List.mem_filter, decide_eq_true_eq]
    exact ⟨fun h r hr s hs a b => h r ⟨hr, a⟩ s ⟨hs, b⟩, fun h r hr s hs => h r hr.1 s hs.1 hr.2 hs.2⟩
  · rintro ⟨ls, hl, x, hx, hne⟩
    obtain ⟨f, k1, k2, -⟩ := assemble_spec h
    obtain ⟨r, hr, e⟩ := (k2.labels k1.labels .bodyName).1 ls hl x hx
    have hr := (List.mem_filter.1 hr).1
    obtain ⟨b, hb, e'⟩ := ho.1 r hr
    exact hne b hb (by rw [← e, e'])

/-- Two rows on two bodies, the second without a free surface. -/
noncomputable def exRow (name : String) (surface : WithTop ℝ) : Rec ℝ :=
  ⟨.radiation, surface, fun c => if c = .bodyName then .str name else .num 0, fun _ => 0⟩

/-- The hypotheses of `mesh_dataset_refused_iff` for two bodies, one of them without a free surface. -/
example : NamesOf [⟨"a", 10, .unset⟩, ⟨"b", 20, .string "Gauss-Legendre 2"⟩] [exRow "a" 0, exRow "b" ⊤] ∧
    DifferentNames [⟨"a", 10, .unset⟩, ⟨"b", 20, .string "Gauss-Legendre 2"⟩] ∧
    (assemble .omega [exRow "a" 0, exRow "b" ⊤]).isSome ∧
    ∀ r ∈ [exRow "a" 0, exRow "b" ⊤], ∀ s ∈ [exRow "a" 0, exRow "b" ⊤], r.freeSurface = 0 → s.freeSurface = 0 →
      r.cell .bodyName = s.cell .bodyName := by
  refine ⟨⟨?_, ?_⟩, ?_, ?_, ?_⟩
  · simp [exRow]
  · simp [exRow]
  · simp [DifferentNames]
  · have hw : withSurface [exRow "a" 0, exRow "b" ⊤] = [exRow "a" 0] := by
      simp [withSurface, exRow]
    simp only [assemble, hw, Option.isSome_map, List.isEmpty_cons, Bool.false_eq_true, if_false]
    simp only [results, ofKind, exRow]
    simp [merge, DS.empty]
  · simp [exRow]

/-! ## Attributes -/

/-- **C105**: the attributes of the dataset are those given, the date and the version. -/
theorem attributes_dataset (given : Option Attrs) (time version : String) (k : String) :
    (attributes given time version).2 k =
      if k = "capytaine_version" then some version
      else if k = "creation_of_dataset" then some time
      else given.bind fun a => a k := by
  cases given <;> simp [attributes, Attrs.set]

/-- **C105**: the dictionary of the caller is changed: it now has the date, so that a date given by the caller is lost. -/
theorem attributes_caller_violated (a : Attrs) (time version : String) :
    ∃ a', (attributes (some a) time version).1 = some a' ∧ a' "creation_of_dataset" = some time ∧
      ∀ k, k ≠ "creation_of_dataset" → a' k = a k :=
  ⟨a.set "creation_of_dataset" time, rfl, by simp [Attrs.set], fun k hk => by simp [Attrs.set, hk]⟩

/-- **C105**: two calls without attributes do not share any. -/
theorem attributes_default (t t' v v' : String) (k : String) (hk : k ≠ "creation_of_dataset")
    (hk' : k ≠ "capytaine_version") : (attributes none t v).2 k = none ∧ (attributes none t' v').2 k = none ∧
      (attributes none t v).1 = none := by
  refine ⟨?_, ?_, rfl⟩ <;> rw [attributes_dataset] <;> simp [hk, hk']

example : (attributes (some fun k => if k = "title" then some "study" else none) "today" "2").2 "title" = some "study" := by
  simp [attributes, Attrs.set]


end Verif.Datasets
