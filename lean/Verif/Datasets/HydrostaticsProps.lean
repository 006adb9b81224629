import Verif.Datasets.HydrostaticsModel

/-!
# C96: each body finds its own hydrostatics in the dataset

Selecting the name of a body in the dataset gives the matrices of this body.
-/

namespace Verif.Datasets

variable {M : Type}

/-! ## Specification -/

/-- The body names that can be selected in a dataset. -/
def NameCoord.Has : NameCoord → String → Prop
  | .absent, _ => True
  | .scalar n, x => x = n
  | .index l, x => x ∈ l

/-- The values of a matrix in a dataset are those of the bodies: a value read under a name belongs to a body with this name, and the matrix of
each body can be read under its name. -/
def OwnMatrix (names : NameCoord) (value : String → Option M) (p : HBody M → Option M) (bodies : List (HBody M)) : Prop :=
  (∀ x v, names.Has x → value x = some v → ∃ b ∈ bodies, b.name = x ∧ p b = some v) ∧
  ∀ b ∈ bodies, ∀ v, p b = some v → names.Has b.name ∧ value b.name = some v

/-- Bodies with the same name have the same matrix. -/
def SameByName (p : HBody M → Option M) (bodies : List (HBody M)) : Prop :=
  ∀ b ∈ bodies, ∀ c ∈ bodies, ∀ v w, b.name = c.name → p b = some v → p c = some w → v = w

/-- Only bodies with one name have the matrix. -/
def OnlyName (p : HBody M → Option M) (bodies : List (HBody M)) (n : String) : Prop :=
  (∃ b ∈ bodies, p b ≠ none) ∧ ∀ b ∈ bodies, p b ≠ none → b.name = n

/-! ## Dictionaries -/

theorem dictSet_keys (d : List (String × M)) (k : String) (v : M) (x : String) :
    x ∈ (dictSet d k v).map Prod.fst ↔ x ∈ d.map Prod.fst ∨ x = k := by
  unfold dictSet
  split_ifs with h
  · have hk : k ∈ d.map Prod.fst := by
      simp only [List.any_eq_true, decide_eq_true_eq] at h
      obtain ⟨e, he, rfl⟩ := h
      exact List.mem_map_of_mem he
    have : (d.map fun e => if e.1 = k then (k, v) else e).map Prod.fst = d.map Prod.fst := by
      rw [List.map_map]
      refine List.map_congr_left fun e _ => ?_
      simp only [Function.comp]
      split_ifs with he
      · exact he.symm
      · rfl
    rw [this]
    constructor
    · exact Or.inl
    · rintro (h | rfl)
      · exact h
      · exact hk
  · simp

theorem dictSet_nodup {d : List (String × M)} (h : (d.map Prod.fst).Nodup) (k : String) (v : M) : ((dictSet d k v).map Prod.fst).Nodup := by
  unfold dictSet
  split_ifs with hk
  · have : (d.map fun e => if e.1 = k then (k, v) else e).map Prod.fst = d.map Prod.fst := by
      rw [List.map_map]
      refine List.map_congr_left fun e _ => ?_
      simp only [Function.comp]
      split_ifs with he
      · exact he.symm
      · rfl
    rw [this]
    exact h
  · rw [List.map_append, List.nodup_append]
    refine ⟨h, by simp, ?_⟩
    intro a ha b hb hab
    simp only [List.map_cons, List.map_nil, List.mem_singleton] at hb
    obtain ⟨e, he, rfl⟩ := List.mem_map.1 ha
    apply hk
    simp only [List.any_eq_true, decide_eq_true_eq]
    exact ⟨e, he, hab.trans hb⟩

theorem dictSet_mem {d : List (String × M)} {k : String} {v : M} {e : String × M} (h : e ∈ dictSet d k v) :
    e = (k, v) ∨ (e ∈ d ∧ e.1 ≠ k) := by
  unfold dictSet at h
  split_ifs at h with hk
  · obtain ⟨f, hf, hfe⟩ := List.mem_map.1 h
    split_ifs at hfe with hfk
    · exact Or.inl hfe.symm
    · subst hfe
      exact Or.inr ⟨hf, hfk⟩
  · rcases List.mem_append.1 h with h | h
    · refine Or.inr ⟨h, fun hek => hk ?_⟩
      simp only [List.any_eq_true, decide_eq_true_eq]
      exact ⟨e, h, hek⟩
    · exact Or.inl (by simpa using h)

theorem dictSet_get (d : List (String × M)) (k : String) (v : M) : (k, v) ∈ dictSet d k v := by
  unfold dictSet
  split_ifs with hk
  · simp only [List.any_eq_true, decide_eq_true_eq] at hk
    obtain ⟨e, he, hek⟩ := hk
    exact List.mem_map.2 ⟨e, he, by rw [if_pos hek]⟩
  · simp

/-- The dictionary has one entry for each name, with the matrix of a body with this name. -/
structure DictSpec (p : HBody M → Option M) (bodies : List (HBody M)) (d : List (String × M)) : Prop where
  nodup : (d.map Prod.fst).Nodup
  sound : ∀ e ∈ d, ∃ b ∈ bodies, b.name = e.1 ∧ p b = some e.2
  keys : ∀ b ∈ bodies, p b ≠ none → b.name ∈ d.map Prod.fst

theorem dict_spec_aux (p : HBody M → Option M) (bodies done : List (HBody M)) (d : List (String × M)) (h : DictSpec p done d) :
    DictSpec p (done ++ bodies) (bodies.foldl (fun d b => match p b with
      | some v => dictSet d b.name v
      | none => d) d) := by
  induction bodies generalizing done d with
  | nil => rwa [List.append_nil]
  | cons b bodies ih =>
    rw [List.foldl_cons, show done ++ b :: bodies = (done ++ [b]) ++ bodies by simp]
    refine ih _ _ ?_
    cases hb : p b with
    | none =>
      refine ⟨h.nodup, fun e he => ?_, fun c hc hpc => ?_⟩
      · obtain ⟨c, hc, h1⟩ := h.sound e he
        exact ⟨c, List.mem_append_left _ hc, h1⟩
      · rcases List.mem_append.1 hc with hc | hc
        · exact h.keys c hc hpc
        · simp only [List.mem_singleton] at hc
          subst hc
          exact absurd hb hpc
    | some v =>
      refine ⟨dictSet_nodup h.nodup _ _, fun e he => ?_, fun c hc hpc => ?_⟩
      · rcases dictSet_mem he with rfl | ⟨he, _⟩
        · exact ⟨b, by simp, rfl, hb⟩
        · obtain ⟨c, hc, h1⟩ := h.sound e he
          exact ⟨c, List.mem_append_left _ hc, h1⟩
      · rw [dictSet_keys]
        rcases List.mem_append.1 hc with hc | hc
        · exact Or.inl (h.keys c hc hpc)
        · simp only [List.mem_singleton] at hc
          subst hc
          exact Or.inr rfl

theorem dict_spec (p : HBody M → Option M) (bodies : List (HBody M)) : DictSpec p bodies (hydroDict p bodies) := by
  have := dict_spec_aux p bodies [] [] ⟨by simp, by simp, by simp⟩
  rw [List.nil_append] at this
  exact this

/-- The last of the bodies with a name and the matrix is the one that is kept. -/
theorem dict_last (p : HBody M → Option M) (pre post : List (HBody M)) (b : HBody M) (v : M) (hb : p b = some v)
    (hpost : ∀ c ∈ post, c.name = b.name → p c = none) : (b.name, v) ∈ hydroDict p (pre ++ b :: post) := by
  unfold hydroDict
  rw [List.foldl_append, List.foldl_cons]
  generalize List.foldl _ _ pre = d
  rw [hb]
  have h0 := dictSet_get d b.name v
  simp only
  revert h0
  generalize dictSet d b.name v = d'
  intro h0
  induction post generalizing d' with
  | nil => exact h0
  | cons c post ih =>
    rw [List.foldl_cons]
    refine ih (fun c hc => hpost c (List.mem_cons_of_mem _ hc)) _ ?_
    cases hc : p c with
    | none => exact h0
    | some w =>
      simp only
      have hne : c.name ≠ b.name := fun h => by
        rw [hpost c (by simp) h] at hc
        cases hc
      unfold dictSet
      split_ifs
      · exact List.mem_map.2 ⟨_, h0, if_neg fun h => hne h.symm⟩
      · exact List.mem_append_left _ h0

theorem onlyName_dict {p : HBody M → Option M} {bodies : List (HBody M)} {n : String} :
    OnlyName p bodies n ↔ ∃ v, hydroDict p bodies = [(n, v)] := by
  have hs := dict_spec p bodies
  constructor
  · rintro ⟨⟨b, hb, hpb⟩, hall⟩
    have hk := hs.keys b hb hpb
    have hkeys : ∀ e ∈ hydroDict p bodies, e.1 = n := by
      intro e he
      obtain ⟨c, hc, h1, h2⟩ := hs.sound e he
      rw [← h1]
      exact hall c hc (by rw [h2]; simp)
    have hn := hs.nodup
    match hd : hydroDict p bodies with
    | [] => rw [hd] at hk; cases hk
    | [e] =>
      rw [hd] at hkeys
      exact ⟨e.2, by rw [← hkeys e (by simp)]⟩
    | e :: f :: l =>
      rw [hd] at hkeys hn
      simp [hkeys e (by simp), hkeys f (by simp)] at hn
  · rintro ⟨v, hd⟩
    constructor
    · obtain ⟨b, hb, _, h⟩ := hs.sound (n, v) (by rw [hd]; simp)
      exact ⟨b, hb, by rw [h]; simp⟩
    · intro b hb hpb
      have := hs.keys b hb hpb
      rw [hd] at this
      simpa using this

theorem dict_empty {p : HBody M → Option M} {bodies : List (HBody M)} : hydroDict p bodies = [] ↔ ∀ b ∈ bodies, p b = none := by
  have hs := dict_spec p bodies
  constructor
  · intro h b hb
    by_contra hpb
    have := hs.keys b hb hpb
    rw [h] at this
    cases this
  · intro h
    refine List.eq_nil_iff_forall_not_mem.2 fun e he => ?_
    obtain ⟨b, hb, _, h1⟩ := hs.sound e he
    rw [h b hb] at h1
    cases h1

/-- The value read under a name when the matrix has the dimension of the bodies. -/
theorem matrixAt_mem {d : List (String × M)} (hn : (d.map Prod.fst).Nodup) {x : String} {v : M} (h : (x, v) ∈ d) : matrixAt d x = some v := by
  unfold matrixAt
  match d, hn, h with
  | [e], _, h =>
    simp only [List.mem_singleton] at h
    rw [← h]
  | e :: f :: l, hn, h =>
    simp only
    generalize hd : e :: f :: l = d at hn h ⊢
    clear hd
    induction d with
    | nil => cases h
    | cons g d ih =>
      rw [List.map_cons, List.nodup_cons] at hn
      rw [List.find?_cons]
      rcases List.mem_cons.1 h with rfl | h
      · simp
      · have hg : g.1 ≠ x := fun hg => hn.1 (hg ▸ List.mem_map_of_mem (f := Prod.fst) h)
        simp only [hg, decide_false]
        exact ih hn.2 h

theorem matrixAt_sound {d : List (String × M)} {x : String} {v : M} (h : matrixAt d x = some v) :
    (x, v) ∈ d ∨ ∃ n, d = [(n, v)] := by
  unfold matrixAt at h
  match d, h with
  | [e], h =>
    simp only [Option.some.injEq] at h
    exact Or.inr ⟨e.1, by rw [← h]⟩
  | e :: f :: l, h =>
    simp only [Option.map_eq_some_iff] at h
    obtain ⟨g, hg, rfl⟩ := h
    have h1 := List.find?_some hg
    simp only [decide_eq_true_eq] at h1
    left
    rw [← h1]
    exact List.mem_of_find?_eq_some hg

theorem SameByName.mem {p : HBody M → Option M} {bodies : List (HBody M)} (h : SameByName p bodies) {b : HBody M} (hb : b ∈ bodies) {v : M}
    (hv : p b = some v) : (b.name, v) ∈ hydroDict p bodies := by
  have hs := dict_spec p bodies
  obtain ⟨e, he, hen⟩ := List.mem_map.1 (hs.keys b hb (by rw [hv]; simp))
  obtain ⟨c, hc, h1, h2⟩ := hs.sound e he
  have := h b hb c hc v e.2 (by rw [h1, hen]) hv h2
  rw [this, ← hen]
  exact he

/-! ## Theorems -/

/-- The dataset cannot be made if and only if only one name has the first matrix and only another name has the second one. -/
theorem hydrostatics_refused_iff (bodies : List (HBody M)) :
    hydrostaticsDataset bodies = none ↔ ∃ n m, n ≠ m ∧ OnlyName HBody.inertia bodies n ∧ OnlyName HBody.stiffness bodies m := by
  unfold hydrostaticsDataset
  rw [Option.map_eq_none_iff]
  simp only [onlyName_dict]
  generalize hydroDict HBody.inertia bodies = d
  generalize hydroDict HBody.stiffness bodies = e
  match d, e with
  | [], e => simp [nameCoord, mergeNames]
  | [a], [] => simp [nameCoord, mergeNames]
  | [a], [b] =>
    simp only [nameCoord, mergeNames]
    constructor
    · intro h
      split_ifs at h with hab
      exact ⟨a.1, b.1, hab, ⟨a.2, rfl⟩, ⟨b.2, rfl⟩⟩
    · rintro ⟨n, m, hnm, ⟨v, hv⟩, ⟨w, hw⟩⟩
      simp only [List.cons.injEq, and_true] at hv hw
      rw [hv, hw]
      exact if_neg hnm
  | [a], b :: c :: l => simp [nameCoord, mergeNames]
  | a :: b :: l, [] => simp [nameCoord, mergeNames]
  | a :: b :: l, [c] => simp [nameCoord, mergeNames]
  | a :: b :: l, c :: d :: m => simp [nameCoord, mergeNames]

/-- What holds for one of the matrices, when the other one is `q`. -/
theorem own_iff {p q : HBody M → Option M} {bodies : List (HBody M)} {c : NameCoord}
    (h : mergeNames (nameCoord (hydroDict p bodies)) (nameCoord (hydroDict q bodies)) = some c ∨
      mergeNames (nameCoord (hydroDict q bodies)) (nameCoord (hydroDict p bodies)) = some c) :
    OwnMatrix c (matrixAt (hydroDict p bodies)) p bodies ↔
      SameByName p bodies ∧ ∀ n, OnlyName p bodies n → ∀ b ∈ bodies, q b ≠ none → b.name = n := by
  have hs := dict_spec p bodies
  have hq := dict_spec q bodies
  constructor
  · rintro ⟨h1, h2⟩
    refine ⟨?_, ?_⟩
    · intro b hb c hc v w hbc hv hw
      have e1 := (h2 b hb v hv).2
      have e2 := (h2 c hc w hw).2
      rw [hbc, e2] at e1
      simpa using e1.symm
    · intro n hn b hb hqb
      obtain ⟨v, hd⟩ := onlyName_dict.1 hn
      have hkb := hq.keys b hb hqb
      have hval : ∀ x, matrixAt (hydroDict p bodies) x = some v := fun x => by rw [hd]; rfl
      have hcase : c.Has b.name := by
        rw [hd] at h
        generalize hydroDict q bodies = e at h hkb
        match e, hkb with
        | [f], hkb =>
          have hfb : b.name = f.1 := by
            have := List.mem_map.1 hkb
            simpa [eq_comm] using this
          have hs : c = .scalar f.1 := by
            simp only [nameCoord, mergeNames] at h
            by_cases hnf : n = f.1
            · subst hnf
              simpa [eq_comm] using h
            · rw [if_neg hnf, if_neg fun h => hnf h.symm] at h
              simp at h
          rw [hs]
          exact hfb
        | f :: g :: l, hkb =>
          simp only [nameCoord, mergeNames, Option.some.injEq, or_self] at h
          rw [← h]
          exact hkb
      obtain ⟨b', hb', hn', hv'⟩ := h1 b.name v hcase (hval _)
      rw [← hn']
      exact hn.2 b' hb' (by rw [hv']; simp)
  · rintro ⟨hsame, honly⟩
    constructor
    · intro x v hx hv
      rcases matrixAt_sound hv with hm | ⟨n, hd⟩
      · exact hs.sound _ hm
      · have hon := onlyName_dict.2 ⟨v, hd⟩
        have hqn : ∀ e ∈ hydroDict q bodies, e.1 = n := by
          intro e he
          obtain ⟨b, hb, hbn, hbq⟩ := hq.sound e he
          rw [← hbn]
          exact honly n hon b hb (by rw [hbq]; simp)
        have hxn : x = n := by
          rw [hd] at h
          have hnd := hq.nodup
          generalize hydroDict q bodies = e at h hqn hnd
          match e with
          | [] =>
            simp only [nameCoord, mergeNames, Option.some.injEq, or_self] at h
            rw [← h] at hx
            exact hx
          | [f] =>
            have hf := hqn f (by simp)
            simp only [nameCoord, mergeNames, hf, if_true, Option.some.injEq, or_self] at h
            rw [← h] at hx
            exact hx
          | f :: g :: l =>
            have hf := hqn f (by simp)
            have hg := hqn g (by simp)
            simp [hf, hg] at hnd
        obtain ⟨b, hb, hbn, hbv⟩ := hs.sound (n, v) (by rw [hd]; simp)
        exact ⟨b, hb, by rw [hbn, hxn], hbv⟩
    · intro b hb v hv
      have hm := hsame.mem hb hv
      refine ⟨?_, matrixAt_mem hs.nodup hm⟩
      have hk := hs.keys b hb (by rw [hv]; simp)
      by_cases hone : ∃ n w, hydroDict p bodies = [(n, w)]
      · obtain ⟨n, w, hd⟩ := hone
        have hon := onlyName_dict.2 ⟨w, hd⟩
        have hbn := hon.2 b hb (by rw [hv]; simp)
        have hqn : ∀ e ∈ hydroDict q bodies, e.1 = n := by
          intro e he
          obtain ⟨b, hb, hbn, hbq⟩ := hq.sound e he
          rw [← hbn]
          exact honly n hon b hb (by rw [hbq]; simp)
        rw [hd] at h
        have hnd := hq.nodup
        generalize hydroDict q bodies = e at h hqn hnd
        match e with
        | [] =>
          simp only [nameCoord, mergeNames, Option.some.injEq, or_self] at h
          rw [← h]
          exact hbn
        | [f] =>
          have hf := hqn f (by simp)
          simp only [nameCoord, mergeNames, hf, if_true, Option.some.injEq, or_self] at h
          rw [← h]
          exact hbn
        | f :: g :: l =>
          have hf := hqn f (by simp)
          have hg := hqn g (by simp)
          simp [hf, hg] at hnd
      · generalize hydroDict p bodies = d at h hk hone
        match d, hk with
        | [f], _ => exact absurd ⟨f.1, f.2, rfl⟩ hone
        | f :: g :: l, hk =>
          generalize hydroDict q bodies = e at h
          match e with
          | [] =>
            simp only [nameCoord, mergeNames, Option.some.injEq, or_self] at h
            rw [← h]
            exact hk
          | [a] =>
            simp only [nameCoord, mergeNames, Option.some.injEq, or_self] at h
            rw [← h]
            exact hk
          | a :: a' :: m =>
            simp only [nameCoord, mergeNames, Option.some.injEq] at h
            rcases h with h | h <;> rw [← h]
            · exact List.mem_append_left _ hk
            · exact List.mem_append_right _ hk

/-- Each body finds its own inertia matrix if and only if bodies with the same name have the same one, and no body of another name has a
stiffness when only one name has an inertia. -/
theorem inertia_own_iff {bodies : List (HBody M)} {ds : HydroDS M} (h : hydrostaticsDataset bodies = some ds) :
    OwnMatrix ds.names ds.inertia HBody.inertia bodies ↔ SameByName HBody.inertia bodies ∧
      ∀ n, OnlyName HBody.inertia bodies n → ∀ b ∈ bodies, b.stiffness ≠ none → b.name = n := by
  unfold hydrostaticsDataset at h
  rw [Option.map_eq_some_iff] at h
  obtain ⟨c, hc, rfl⟩ := h
  exact own_iff (Or.inl hc)

/-- Each body finds its own stiffness if and only if bodies with the same name have the same one, and no body of another name has an
inertia matrix when only one name has a stiffness. -/
theorem stiffness_own_iff {bodies : List (HBody M)} {ds : HydroDS M} (h : hydrostaticsDataset bodies = some ds) :
    OwnMatrix ds.names ds.stiffness HBody.stiffness bodies ↔ SameByName HBody.stiffness bodies ∧
      ∀ n, OnlyName HBody.stiffness bodies n → ∀ b ∈ bodies, b.inertia ≠ none → b.name = n := by
  unfold hydrostaticsDataset at h
  rw [Option.map_eq_some_iff] at h
  obtain ⟨c, hc, rfl⟩ := h
  exact own_iff (Or.inr hc)

/-- Bodies with different names that all have both matrices find their own. -/
theorem hydrostatics_own {bodies : List (HBody M)} (hn : (bodies.map HBody.name).Nodup)
    (hall : ∀ b ∈ bodies, b.inertia ≠ none ∧ b.stiffness ≠ none) :
    ∃ ds, hydrostaticsDataset bodies = some ds ∧ OwnMatrix ds.names ds.inertia HBody.inertia bodies ∧
      OwnMatrix ds.names ds.stiffness HBody.stiffness bodies := by
  have hinj : ∀ b ∈ bodies, ∀ c ∈ bodies, b.name = c.name → b = c := fun b hb c hc h => List.inj_on_of_nodup_map hn hb hc h
  have hsome : hydrostaticsDataset bodies ≠ none := by
    rw [Ne, hydrostatics_refused_iff]
    rintro ⟨n, m, hnm, ⟨⟨b, hb, hbi⟩, h1⟩, _, h2⟩
    exact hnm ((h1 b hb hbi).symm.trans (h2 b hb (hall b hb).2))
  obtain ⟨ds, hds⟩ := Option.ne_none_iff_exists'.1 hsome
  refine ⟨ds, hds, (inertia_own_iff hds).2 ⟨?_, ?_⟩, (stiffness_own_iff hds).2 ⟨?_, ?_⟩⟩
  · intro b hb c hc v w hbc hv hw
    rw [hinj b hb c hc hbc, hw] at hv
    simpa using hv.symm
  · intro n hon b hb _
    exact hon.2 b hb (hall b hb).1
  · intro b hb c hc v w hbc hv hw
    rw [hinj b hb c hc hbc, hw] at hv
    simpa using hv.symm
  · intro n hon b hb _
    exact hon.2 b hb (hall b hb).2

/-- Two bodies with the same name: the matrix of the first one is lost. -/
theorem hydrostatics_name_violated : ∃ ds : HydroDS ℕ,
    hydrostaticsDataset [⟨"float", some 1, none⟩, ⟨"float", some 2, none⟩] = some ds ∧ ∀ x, ds.inertia x ≠ some 1 :=
  ⟨_, rfl, fun _ h => by cases h⟩

/-- A body with an inertia matrix and no other one, among two bodies with a stiffness: the inertia matrix is read under both names. -/
theorem hydrostatics_squeezed_violated : ∃ ds : HydroDS ℕ,
    hydrostaticsDataset [⟨"a", some 1, some 3⟩, ⟨"b", none, some 4⟩] = some ds ∧ ds.names.Has "b" ∧ ds.inertia "b" = some 1 :=
  ⟨_, rfl, by simp [NameCoord.Has], rfl⟩

/-- A body with only an inertia matrix and another one with only a stiffness are refused. -/
theorem hydrostatics_refused : hydrostaticsDataset [⟨"a", some 1, none⟩, ⟨"b", none, some 4⟩] = none := rfl

/-- The hypotheses of `hydrostatics_own` are met. -/
example : (([⟨"a", some 1, some 3⟩, ⟨"b", some 2, some 4⟩] : List (HBody ℕ)).map HBody.name).Nodup ∧
    ∀ b ∈ ([⟨"a", some 1, some 3⟩, ⟨"b", some 2, some 4⟩] : List (HBody ℕ)), b.inertia ≠ none ∧ b.stiffness ≠ none := by
  simp

end Verif.Datasets
