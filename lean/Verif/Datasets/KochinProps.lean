import Verif.Datasets.KochinModel
import Verif.Datasets.AssembleIff

/-!
# C94: the Kochin functions of a dataset are those of the results with the same labels

`kochin_data_array` keeps the labels of the radiation results when it adds the diffraction results. The theorems give the exact
conditions under which each of the two variables is faithful to the results (`Faithful`, from C50).
-/

namespace Verif.Datasets

/-! ## Specification -/

/-- The coordinates of a Kochin function of a radiation result at an angle. Without forward speed there is no direction. -/
structure KochinRadiationAt {V : Type} (a : Col → Cell) (r : Rec V) : Prop where
  kind : r.kind = .radiation
  g : a .g = r.cell .g
  rho : a .rho = r.cell .rho
  body : a .bodyName = r.cell .bodyName
  depth : a .waterDepth = r.cell .waterDepth
  speed : a .speed = r.cell .speed
  omega : a (.freq .omega) = r.cell (.freq .omega)
  radiating : a .radiatingDof = r.cell .radiatingDof
  theta : a .theta = r.cell .theta
  direction : r.cell .speed ≠ .num 0 → a .direction = r.cell .direction

/-- The coordinates of a Kochin function of a diffraction result at an angle. -/
structure KochinDiffractionAt {V : Type} (a : Col → Cell) (r : Rec V) : Prop where
  kind : r.kind = .diffraction
  g : a .g = r.cell .g
  rho : a .rho = r.cell .rho
  body : a .bodyName = r.cell .bodyName
  depth : a .waterDepth = r.cell .waterDepth
  speed : a .speed = r.cell .speed
  omega : a (.freq .omega) = r.cell (.freq .omega)
  direction : a .direction = r.cell .direction
  theta : a .theta = r.cell .theta

/-- The coordinates at which the value of a radiation result is found: those of the result, where the direction does not matter if all
radiation results have the same. -/
def KochinRadiationFound {V : Type} (rs : List (Rec V)) (a : Col → Cell) (r : Rec V) : Prop :=
  KochinRadiationAt a r ∧ (a .direction = r.cell .direction ∨ Single (ofKind .radiation rs) .direction)

/-- A parameter shared by all radiation results is shared by all diffraction results. With forward speed, a direction shared by all
radiation results is the one of all diffraction results. -/
structure KochinRadiationRange {V : Type} (rs : List (Rec V)) : Prop where
  env : ∀ c ∈ envCols, Single (ofKind .radiation rs) c → Single (ofKind .diffraction rs) c
  direction : Single (ofKind .radiation rs) .direction → ∀ r ∈ ofKind .radiation rs, r.cell .speed ≠ .num 0 →
    ∀ s ∈ ofKind .diffraction rs, s.cell .direction = r.cell .direction

/-- A parameter shared by all diffraction results is the one of all radiation results. The frequencies and angles of the diffraction
results, and the other labels which vary among both kinds of results, are found among the radiation results. -/
structure KochinDiffractionRange {V : Type} (rs : List (Rec V)) : Prop where
  env : ∀ c ∈ envCols, Single (ofKind .diffraction rs) c → ∀ r ∈ ofKind .diffraction rs, ∀ s ∈ ofKind .radiation rs, s.cell c = r.cell c
  always : ∀ c ∈ [Col.freq .omega, .theta], ∀ r ∈ ofKind .diffraction rs, ofKind .radiation rs ≠ [] →
    ∃ s ∈ ofKind .radiation rs, s.cell c = r.cell c
  vary : ∀ c ∈ envCols ++ [.direction], ¬ Single (ofKind .radiation rs) c → ¬ (c ∈ envCols ∧ Single (ofKind .diffraction rs) c) →
    ∀ r ∈ ofKind .diffraction rs, ∃ s ∈ ofKind .radiation rs, s.cell c = r.cell c

/-- The columns which identify a Kochin function of a radiation result. -/
def kochinRadiationKey : List Col := envCols ++ [.direction] ++ [.freq .omega, .radiatingDof, .theta]

/-- The columns which identify a Kochin function of a diffraction result. -/
def kochinDiffractionKey : List Col := envCols ++ [.freq .omega, .direction, .theta]

section
variable {V : Type}

/-! ## Rows -/

/-- A row is made for each result and each angle. -/
theorem mem_kochinRows {R : Type} {record : R → Rec V} {compute : R → List Cell → List V} {thetas : List Cell} {results : List R} {r : Rec V} :
    r ∈ kochinRows record compute thetas results ↔ ∃ p ∈ results, ∃ (j : ℕ) (t : Cell) (x : V), thetas[j]? = some t ∧ (compute p thetas)[j]? = some x ∧
      r = { record p with cell := fun c => if c = .theta then t else (record p).cell c, value := fun _ => x } := by
  unfold kochinRows
  rw [List.mem_flatMap]
  refine exists_congr fun p => and_congr_right fun _ => ?_
  rw [List.mem_map]
  constructor
  · rintro ⟨q, hq, rfl⟩
    obtain ⟨j, hj⟩ := List.mem_iff_getElem?.1 hq
    rw [List.getElem?_zip_eq_some] at hj
    exact ⟨j, q.1, q.2, hj.1, hj.2, rfl⟩
  · rintro ⟨j, t, x, h1, h2, rfl⟩
    exact ⟨(t, x), List.mem_iff_getElem?.2 ⟨j, List.getElem?_zip_eq_some.2 ⟨h1, h2⟩⟩, rfl⟩

theorem mem_ofKind {k : Kind} {rs : List (Rec V)} {r : Rec V} : r ∈ ofKind k rs ↔ r ∈ rs ∧ r.kind = k := by
  simp [ofKind, List.mem_filter]

/-! ## Coordinates of the dataset -/

/-- The labels of the dataset along a dimension. -/
theorem kochin_index (rs : List (Rec V)) (c : Col) : (kochinSecond rs).index c =
    (if ofKind .radiation rs = [] then none
      else kept [.freq .omega, .radiatingDof, .theta] (envCols ++ [.direction]) (ofKind .radiation rs) c).or
    (if ofKind .diffraction rs = [] then none else kept [.freq .omega, .direction, .theta] envCols (ofKind .diffraction rs) c) := by
  have h1 : (kochinFirst rs).index c = if ofKind .radiation rs = [] then none
      else kept [.freq .omega, .radiatingDof, .theta] (envCols ++ [.direction]) (ofKind .radiation rs) c := by
    unfold kochinFirst
    split_ifs
    · rfl
    · simp [setVar, DS.empty, kochinRadiation, fromFrame]
  unfold kochinSecond
  split_ifs with hD hR hR
  · rw [h1, if_pos hR]; rfl
  · rw [h1, if_neg hR, Option.or_none]
  · simp only [setVar, h1, if_pos hR]; rfl
  · simp only [setVar, h1, if_neg hR]; rfl

/-- The scalar coordinates of the dataset. -/
theorem kochin_scalar (rs : List (Rec V)) (c : Col) (hn : (kochinSecond rs).index c = none) : (kochinSecond rs).scalar c =
    (if ofKind .radiation rs = [] then none
      else squeezed [.freq .omega, .radiatingDof, .theta] (envCols ++ [.direction]) (ofKind .radiation rs) c).or
    (if ofKind .diffraction rs = [] then none else squeezed [.freq .omega, .direction, .theta] envCols (ofKind .diffraction rs) c) := by
  have h1 : (kochinFirst rs).index c = none → (kochinFirst rs).scalar c = if ofKind .radiation rs = [] then none
      else squeezed [.freq .omega, .radiatingDof, .theta] (envCols ++ [.direction]) (ofKind .radiation rs) c := by
    unfold kochinFirst
    split_ifs
    · intro _; rfl
    · intro h
      have h' : ((DS.empty : DS V).index c).or ((kochinRadiation (ofKind .radiation rs)).index c) = none := h
      simp only [setVar]
      rw [h']
      rfl
  unfold kochinSecond at hn ⊢
  split_ifs at hn ⊢ with hD hR hR
  · rw [h1 hn, if_pos hR]; rfl
  · rw [h1 hn, if_neg hR, Option.or_none]
  · simp only [setVar] at hn ⊢
    rw [hn]
    have := (Option.or_eq_none_iff.1 hn).1
    rw [h1 this, if_pos hR]; rfl
  · simp only [setVar] at hn ⊢
    rw [hn]
    have := (Option.or_eq_none_iff.1 hn).1
    rw [h1 this, if_neg hR]; rfl

/-- A dimension of the dataset has no scalar coordinate. -/
theorem kochin_scalar_none (rs : List (Rec V)) (c : Col) (hn : (kochinSecond rs).index c ≠ none) : (kochinSecond rs).scalar c = none := by
  have h1 : (kochinFirst rs).index c ≠ none → (kochinFirst rs).scalar c = none := by
    unfold kochinFirst
    split_ifs
    · intro h; rfl
    · intro h
      exact if_pos (Option.isSome_iff_ne_none.2 h)
  unfold kochinSecond at hn ⊢
  split_ifs at hn ⊢ with hD
  · exact h1 hn
  · simp only [setVar] at hn ⊢
    rw [if_pos (Option.isSome_iff_ne_none.2 hn)]

/-- Labels that make a place. -/
theorem kochin_place {rs : List (Rec V)} {a : Col → Cell} (h : ∀ c, (∃ l, (kochinSecond rs).index c = some l ∧ a c ∈ l) ∨
    ((kochinSecond rs).index c = none ∧ ∀ x, (kochinSecond rs).scalar c = some x → a c = x)) : (kochinSecond rs).Place a := by
  intro c
  rcases h c with ⟨l, hl, hm⟩ | ⟨hn, hx⟩
  · refine ⟨fun m hm' => ?_, fun x hx => ?_⟩
    · rw [hl, Option.some.injEq] at hm'
      rwa [← hm']
    · rw [kochin_scalar_none rs c (by rw [hl]; simp)] at hx
      cases hx
  · refine ⟨fun m hm' => ?_, hx⟩
    rw [hn] at hm'
    cases hm'

theorem kochin_var_radiation {rs : List (Rec V)} (hR : ofKind .radiation rs ≠ []) : (kochinSecond rs).var .kochin =
    some (frameArr [.freq .omega, .radiatingDof, .theta] (envCols ++ [.direction]) (ofKind .radiation rs) .kochin) := by
  have h1 : (kochinFirst rs).var .kochin =
      some (frameArr [.freq .omega, .radiatingDof, .theta] (envCols ++ [.direction]) (ofKind .radiation rs) .kochin) := by
    unfold kochinFirst
    rw [if_neg hR]
    simp only [setVar, if_true]
    exact fromFrame_var (by simp)
  unfold kochinSecond
  split_ifs
  · exact h1
  · simp only [setVar]
    rw [if_neg (by simp)]
    exact h1

theorem kochin_var_diffraction {rs : List (Rec V)} (hD : ofKind .diffraction rs ≠ []) : (kochinSecond rs).var .kochinDiffraction =
    some (frameArr [.freq .omega, .direction, .theta] envCols (ofKind .diffraction rs) .kochin) := by
  unfold kochinSecond
  rw [if_neg hD]
  simp only [setVar, if_true]
  exact fromFrame_var (by simp)

theorem env_radiation {c : Col} (hc : c ∈ envCols) : c ∉ [Col.freq .omega, .radiatingDof, .theta] := by
  revert hc
  simp only [envCols]
  cases c <;> simp

theorem env_diffraction {c : Col} (hc : c ∈ envCols) : c ∉ [Col.freq .omega, .direction, .theta] := by
  revert hc
  simp only [envCols]
  cases c <;> simp

theorem KochinDiffractionAt.key {a : Col → Cell} {r : Rec V} (ha : KochinDiffractionAt a r) :
    ∀ c ∈ envCols ++ [Col.freq .omega, .direction, .theta], a c = r.cell c := by
  intro c hc
  simp only [envCols, List.cons_append, List.nil_append, List.mem_cons, List.not_mem_nil, or_false] at hc
  rcases hc with rfl | rfl | rfl | rfl | rfl | rfl | rfl | rfl
  exacts [ha.g, ha.rho, ha.body, ha.depth, ha.speed, ha.omega, ha.direction, ha.theta]

theorem KochinDiffractionAt.self {r : Rec V} (h : r.kind = .diffraction) : KochinDiffractionAt r.cell r :=
  ⟨h, rfl, rfl, rfl, rfl, rfl, rfl, rfl, rfl⟩

theorem KochinRadiationAt.self {r : Rec V} (h : r.kind = .radiation) : KochinRadiationAt r.cell r :=
  ⟨h, rfl, rfl, rfl, rfl, rfl, rfl, rfl, rfl, fun _ => rfl⟩

/-! ## Theorems -/

/-- The Kochin functions of the diffraction results are found at their own labels if and only if results with the same labels have the
same values, the parameters shared by the diffraction results are those of the radiation results, and the labels of the diffraction
results are among those of the radiation results. -/
theorem kochin_diffraction_iff (rs : List (Rec V)) (hD : ofKind .diffraction rs ≠ []) :
    Faithful (kochinSecond rs) .kochinDiffraction (fun r => r.value .kochin) (ofKind .diffraction rs) KochinDiffractionAt KochinDiffractionAt ↔
      DependsOn (ofKind .diffraction rs) kochinDiffractionKey .kochin ∧ KochinDiffractionRange rs := by
  have hvar := kochin_var_diffraction hD
  have hfr := fromFrame_var (vars := [.kochin]) (dims := [Col.freq .omega, .direction, .theta]) (opt := envCols)
    (rs := ofKind .diffraction rs) (v := .kochin) (by simp)
  constructor
  · rintro ⟨arr, harr, h1, h2, h3⟩
    rw [hvar, Option.some.injEq] at harr
    subst harr
    have hdep : DependsOn (ofKind .diffraction rs) kochinDiffractionKey .kochin :=
      (lookupRow_iff _ _ _ _).1 fun r hr => h2 r hr r.cell (KochinDiffractionAt.self (mem_ofKind.1 hr).2)
    have hin : ∀ c ∈ envCols ++ [Col.freq .omega, .direction, .theta],
        squeezed [.freq .omega, .direction, .theta] envCols (ofKind .diffraction rs) c = none → ofKind .radiation rs ≠ [] →
        c ∈ envCols ++ [Col.direction] ++ [.freq .omega, .radiatingDof, .theta] →
        squeezed [.freq .omega, .radiatingDof, .theta] (envCols ++ [.direction]) (ofKind .radiation rs) c = none →
        ∀ r ∈ ofKind .diffraction rs, ∃ s ∈ ofKind .radiation rs, s.cell c = r.cell c := by
      intro c hc hsq hR hcR hsqR r hr
      obtain ⟨l, hl, hm⟩ := h3 c (by
        simp only [frameArr, List.mem_filter]
        refine ⟨hc, ?_⟩
        unfold kept
        rw [if_pos ⟨hc, hsq⟩]
        rfl) r hr r.cell (KochinDiffractionAt.self (mem_ofKind.1 hr).2)
      rw [kochin_index, if_neg hR] at hl
      unfold kept at hl
      rw [if_pos ⟨hcR, hsqR⟩, Option.some_or, Option.some.injEq] at hl
      rw [← hl] at hm
      exact (mem_labels c _ _).1 hm
    have halways : ∀ c ∈ [Col.freq .omega, .theta], ∀ r ∈ ofKind .diffraction rs, ofKind .radiation rs ≠ [] →
        ∃ s ∈ ofKind .radiation rs, s.cell c = r.cell c := by
      intro c hc r hr hR
      have hc' : c = .freq .omega ∨ c = .theta := by simpa using hc
      refine hin c ?_ (squeezed_none (Or.inr (Or.inl ?_))) hR ?_ (squeezed_none (Or.inr (Or.inl ?_))) r hr <;>
        rcases hc' with rfl | rfl <;> simp
    have hvary : ∀ c ∈ envCols ++ [Col.direction], ¬ Single (ofKind .radiation rs) c →
        ¬ (c ∈ envCols ∧ Single (ofKind .diffraction rs) c) → ∀ r ∈ ofKind .diffraction rs, ∃ s ∈ ofKind .radiation rs, s.cell c = r.cell c := by
      intro c hc hnR hnD r hr
      have hR : ofKind .radiation rs ≠ [] := by
        intro h0
        apply hnR
        rw [h0]
        intro r hr
        cases hr
      refine hin c ?_ ?_ hR (List.mem_append_left _ hc) (squeezed_none (Or.inr (Or.inr hnR))) r hr
      · rcases List.mem_append.1 hc with hc | hc
        · exact List.mem_append_left _ hc
        · simp only [List.mem_singleton] at hc
          subst hc
          simp
      · rcases List.mem_append.1 hc with hc | hc
        · exact squeezed_none (Or.inr (Or.inr fun h => hnD ⟨hc, h⟩))
        · simp only [List.mem_singleton] at hc
          subst hc
          exact squeezed_none (by simp)
    refine ⟨hdep, ?_, halways, hvary⟩
    intro c0 hc0 hs0 r hr s hs
    by_contra hne
    have hR : ofKind .radiation rs ≠ [] := List.ne_nil_of_mem hs
    classical
    let a : Col → Cell := fun c => if (c ∈ envCols ∧ Single (ofKind .diffraction rs) c) ∨ c = .radiatingDof then s.cell c else r.cell c
    have hplace : (kochinSecond rs).Place a := by
      refine kochin_place fun c => ?_
      rw [kochin_index, if_neg hR, if_neg hD]
      by_cases hco : c ∈ envCols
      · have hRo : c ∈ envCols ++ [Col.direction] := List.mem_append_left _ hco
        by_cases hsD : Single (ofKind .diffraction rs) c
        · have ha : a c = s.cell c := if_pos (Or.inl ⟨hco, hsD⟩)
          have qD := single_squeezed (dims := [Col.freq .omega, .direction, .theta]) (opt := envCols) hco (env_diffraction hco) hsD hr
          by_cases hsR : Single (ofKind .radiation rs) c
          · right
            have qR := single_squeezed (dims := [Col.freq .omega, .radiatingDof, .theta]) (opt := envCols ++ [.direction]) hRo
              (env_radiation hco) hsR hs
            have hn : (kept [Col.freq .omega, .radiatingDof, .theta] (envCols ++ [.direction]) (ofKind .radiation rs) c).or
                (kept [.freq .omega, .direction, .theta] envCols (ofKind .diffraction rs) c) = none := by
              rw [kept_none (Or.inr ⟨_, qR⟩), kept_none (Or.inr ⟨_, qD⟩)]
              rfl
            refine ⟨hn, fun x hx => ?_⟩
            rw [kochin_scalar rs c (by rw [kochin_index, if_neg hR, if_neg hD, hn]), if_neg hR, if_neg hD, qR, Option.some_or,
              Option.some.injEq] at hx
            rw [ha, hx]
          · left
            obtain ⟨l, hl, hm⟩ := kept_mem (dims := [Col.freq .omega, .radiatingDof, .theta]) (opt := envCols ++ [.direction]) hs
              (List.mem_append_left _ hRo) (squeezed_none (Or.inr (Or.inr hsR)))
            exact ⟨l, by rw [hl, Option.some_or], by rw [ha]; exact hm⟩
        · left
          have ha : a c = r.cell c := if_neg (by
            rintro (h | h)
            · exact hsD h.2
            · subst h; simp [envCols] at hco)
          by_cases hsR : Single (ofKind .radiation rs) c
          · have qR := single_squeezed (dims := [Col.freq .omega, .radiatingDof, .theta]) (opt := envCols ++ [.direction]) hRo
              (env_radiation hco) hsR hs
            obtain ⟨l, hl, hm⟩ := kept_mem (dims := [Col.freq .omega, .direction, .theta]) (opt := envCols) hr
              (List.mem_append_left _ hco) (squeezed_none (Or.inr (Or.inr hsD)))
            exact ⟨l, by rw [kept_none (Or.inr ⟨_, qR⟩), hl]; rfl, by rw [ha]; exact hm⟩
          · obtain ⟨t, ht, hte⟩ := hvary c hRo hsR (fun h => hsD h.2) r hr
            obtain ⟨l, hl, hm⟩ := kept_mem (dims := [Col.freq .omega, .radiatingDof, .theta]) (opt := envCols ++ [.direction]) ht
              (List.mem_append_left _ hRo) (squeezed_none (Or.inr (Or.inr hsR)))
            exact ⟨l, by rw [hl, Option.some_or], by rw [ha, ← hte]; exact hm⟩
      · by_cases hdir : c = .direction
        · subst hdir
          left
          have ha : a .direction = r.cell .direction := if_neg (by simp [envCols])
          by_cases hsR : Single (ofKind .radiation rs) .direction
          · have qR := single_squeezed (dims := [Col.freq .omega, .radiatingDof, .theta]) (opt := envCols ++ [.direction]) (by simp)
              (by simp) hsR hs
            obtain ⟨l, hl, hm⟩ := kept_mem (dims := [Col.freq .omega, .direction, .theta]) (opt := envCols) hr
              (c := .direction) (by simp) (squeezed_none (by simp))
            exact ⟨l, by rw [kept_none (Or.inr ⟨_, qR⟩), hl]; rfl, by rw [ha]; exact hm⟩
          · obtain ⟨t, ht, hte⟩ := hvary .direction (by simp) hsR (by simp [envCols]) r hr
            obtain ⟨l, hl, hm⟩ := kept_mem (dims := [Col.freq .omega, .radiatingDof, .theta]) (opt := envCols ++ [.direction]) ht
              (by simp) (squeezed_none (Or.inr (Or.inr hsR)))
            exact ⟨l, by rw [hl, Option.some_or], by rw [ha, ← hte]; exact hm⟩
        · by_cases hrd : c = .radiatingDof
          · subst hrd
            left
            have ha : a .radiatingDof = s.cell .radiatingDof := if_pos (by simp)
            obtain ⟨l, hl, hm⟩ := kept_mem (dims := [Col.freq .omega, .radiatingDof, .theta]) (opt := envCols ++ [.direction]) hs
              (c := .radiatingDof) (by simp) (squeezed_none (by simp))
            exact ⟨l, by rw [hl, Option.some_or], by rw [ha]; exact hm⟩
          · have ha : a c = r.cell c := if_neg (by
              rintro (h | h)
              · exact hco h.1
              · exact hrd h)
            by_cases hot : c ∈ [Col.freq .omega, .theta]
            · left
              obtain ⟨t, ht, hte⟩ := halways c hot r hr hR
              have hdims : c ∈ [Col.freq .omega, .radiatingDof, .theta] := by
                simp only [List.mem_cons, List.not_mem_nil, or_false] at hot ⊢
                tauto
              obtain ⟨l, hl, hm⟩ := kept_mem (dims := [Col.freq .omega, .radiatingDof, .theta]) (opt := envCols ++ [.direction]) ht
                (List.mem_append_right _ hdims) (squeezed_none (Or.inr (Or.inl hdims)))
              exact ⟨l, by rw [hl, Option.some_or], by rw [ha, ← hte]; exact hm⟩
            · right
              simp only [List.mem_cons, List.not_mem_nil, or_false, not_or] at hot
              have hn : (kept [Col.freq .omega, .radiatingDof, .theta] (envCols ++ [.direction]) (ofKind .radiation rs) c).or
                  (kept [.freq .omega, .direction, .theta] envCols (ofKind .diffraction rs) c) = none := by
                rw [kept_none (Or.inl (by simp only [List.mem_append, List.mem_cons, List.not_mem_nil]; tauto)),
                  kept_none (Or.inl (by simp only [List.mem_append, List.mem_cons, List.not_mem_nil]; tauto))]
                rfl
              refine ⟨hn, fun x hx => ?_⟩
              rw [kochin_scalar rs c (by rw [kochin_index, if_neg hR, if_neg hD, hn]), if_neg hR, if_neg hD,
                squeezed_none (Or.inl (by simp [hco, hdir])), squeezed_none (Or.inl hco)] at hx
              cases hx
    have hval : (frameArr [.freq .omega, .direction, .theta] envCols (ofKind .diffraction rs) .kochin).val a = some (r.value .kochin) := by
      refine lookupRow_at hdep hr fun c hc => ?_
      by_cases hcs : c ∈ envCols ∧ Single (ofKind .diffraction rs) c
      · exact Or.inr ⟨_, single_squeezed hcs.1 (env_diffraction hcs.1) hcs.2 hr⟩
      · left
        refine if_neg ?_
        rintro (h | h)
        · exact hcs h
        · subst h; simp [envCols] at hc
    obtain ⟨q, hq, hat, _⟩ := h1 a _ hplace hval
    have : a c0 = q.cell c0 := hat.key c0 (List.mem_append_left _ hc0)
    rw [hs0 q hq r hr] at this
    exact hne (by rw [← this]; exact (if_pos (Or.inl ⟨hc0, hs0⟩)).symm)
  · rintro ⟨hdep, hrange⟩
    refine ⟨_, hvar, ?_, ?_, ?_⟩
    · intro a x ha hx
      obtain ⟨r, hr, hc, rfl⟩ := lookupRow_sound hx
      refine ⟨r, hr, ?_, rfl⟩
      have henv : ∀ c ∈ envCols, a c = r.cell c := by
        intro c hc'
        rcases hc c (List.mem_append_left _ hc') with h1 | ⟨y, hy⟩
        · exact h1.symm
        · have hry := squeezed_cell hy hr
          by_cases hR : ofKind .radiation rs = []
          · have hn : (kochinSecond rs).index c = none := by
              rw [kochin_index, if_pos hR, if_neg hD, kept_none (Or.inr ⟨_, hy⟩)]
              rfl
            rw [hry]
            refine (ha c).2 y ?_
            rw [kochin_scalar rs c hn, if_pos hR, if_neg hD, hy]
            rfl
          · obtain ⟨s, hs⟩ := List.exists_mem_of_ne_nil _ hR
            have hall := hrange.env c hc' (squeezed_single hy) r hr
            have hsR : Single (ofKind .radiation rs) c := fun s hs t ht => (hall s hs).trans (hall t ht).symm
            have qR := single_squeezed (dims := [Col.freq .omega, .radiatingDof, .theta]) (opt := envCols ++ [.direction])
              (List.mem_append_left _ hc') (env_radiation hc') hsR hs
            have hn : (kochinSecond rs).index c = none := by
              rw [kochin_index, if_neg hR, if_neg hD, kept_none (Or.inr ⟨_, hy⟩), kept_none (Or.inr ⟨_, qR⟩)]
              rfl
            rw [← hall s hs]
            refine (ha c).2 _ ?_
            rw [kochin_scalar rs c hn, if_neg hR, if_neg hD, qR]
            rfl
      have hdim : ∀ c ∈ [Col.freq .omega, .direction, .theta], a c = r.cell c := by
        intro c hc'
        rcases hc c (List.mem_append_right _ hc') with h1 | ⟨y, hy⟩
        · exact h1.symm
        · exact absurd hc' (squeezed_eq hy).2.1
      exact ⟨(mem_ofKind.1 hr).2, henv _ (by simp [envCols]), henv _ (by simp [envCols]), henv _ (by simp [envCols]),
        henv _ (by simp [envCols]), henv _ (by simp [envCols]), hdim _ (by simp), hdim _ (by simp), hdim _ (by simp)⟩
    · intro r hr a ha
      exact lookupRow_at hdep hr fun c hc => Or.inl (ha.key c hc)
    · intro c hc r hr a ha
      obtain ⟨hi, hsq, hco⟩ := fromFrame_dims hfr hc
      have hiD : kept [Col.freq .omega, .direction, .theta] envCols (ofKind .diffraction rs) c = some (labels c (ofKind .diffraction rs)) := hi
      have hac := ha.key c hco
      rw [kochin_index, if_neg hD, hiD, hac]
      by_cases hR : ofKind .radiation rs = []
      · rw [if_pos hR]
        exact ⟨_, rfl, (mem_labels c _ _).2 ⟨r, hr, rfl⟩⟩
      · rw [if_neg hR]
        cases hk : kept [Col.freq .omega, .radiatingDof, .theta] (envCols ++ [.direction]) (ofKind .radiation rs) c with
        | none => exact ⟨_, rfl, (mem_labels c _ _).2 ⟨r, hr, rfl⟩⟩
        | some l =>
          obtain ⟨hcR, rfl⟩ := kept_eq hk
          refine ⟨_, rfl, (mem_labels c _ _).2 ?_⟩
          by_cases hot : c ∈ [Col.freq .omega, .theta]
          · exact hrange.always c hot r hr hR
          · have hce : c ∈ envCols ++ [Col.direction] := by
              rcases List.mem_append.1 hco with h | h
              · exact List.mem_append_left _ h
              · simp only [List.mem_cons, List.not_mem_nil, or_false] at h hot
                rcases h with rfl | rfl | rfl
                · exact absurd (Or.inl rfl) hot
                · simp
                · exact absurd (Or.inr rfl) hot
            obtain ⟨s, hs⟩ := List.exists_mem_of_ne_nil _ hR
            refine hrange.vary c hce (fun hsR => ?_) (fun hsD => ?_) r hr
            · have hcd : c ∉ [Col.freq .omega, .radiatingDof, .theta] := by
                rcases List.mem_append.1 hce with h | h
                · exact env_radiation h
                · simp only [List.mem_singleton] at h
                  subst h
                  simp
              have qR := single_squeezed hce hcd hsR hs
              rw [kept_none (Or.inr ⟨_, qR⟩)] at hk
              cases hk
            · have qD := single_squeezed (dims := [Col.freq .omega, .direction, .theta]) hsD.1 (env_diffraction hsD.1) hsD.2 hr
              rw [hsq] at qD
              cases qD

theorem KochinRadiationAt.key {a : Col → Cell} {r : Rec V} (ha : KochinRadiationAt a r) :
    ∀ c ∈ envCols ++ [Col.freq .omega, .radiatingDof, .theta], a c = r.cell c := by
  intro c hc
  simp only [envCols, List.cons_append, List.nil_append, List.mem_cons, List.not_mem_nil, or_false] at hc
  rcases hc with rfl | rfl | rfl | rfl | rfl | rfl | rfl | rfl
  exacts [ha.g, ha.rho, ha.body, ha.depth, ha.speed, ha.omega, ha.radiating, ha.theta]

/-- The Kochin functions of the radiation results are found at their own labels if and only if results with the same labels have the
same values, and the parameters shared by the radiation results are not several among the diffraction results. -/
theorem kochin_radiation_iff (rs : List (Rec V)) (hR : ofKind .radiation rs ≠ []) :
    Faithful (kochinSecond rs) .kochin (fun r => r.value .kochin) (ofKind .radiation rs) KochinRadiationAt (KochinRadiationFound rs) ↔
      DependsOn (ofKind .radiation rs) kochinRadiationKey .kochin ∧ KochinRadiationRange rs := by
  have hvar := kochin_var_radiation hR
  have hfr := fromFrame_var (vars := [.kochin]) (dims := [Col.freq .omega, .radiatingDof, .theta]) (opt := envCols ++ [.direction])
    (rs := ofKind .radiation rs) (v := .kochin) (by simp)
  constructor
  · rintro ⟨arr, harr, h1, h2, h3⟩
    rw [hvar, Option.some.injEq] at harr
    subst harr
    have hdep : DependsOn (ofKind .radiation rs) kochinRadiationKey .kochin :=
      (lookupRow_iff _ _ _ _).1 fun r hr => h2 r hr r.cell ⟨KochinRadiationAt.self (mem_ofKind.1 hr).2, Or.inl rfl⟩
    classical
    have key : ∀ r ∈ ofKind .radiation rs, ∀ s ∈ ofKind .diffraction rs, ∃ a : Col → Cell, (kochinSecond rs).Place a ∧
        (frameArr [.freq .omega, .radiatingDof, .theta] (envCols ++ [.direction]) (ofKind .radiation rs) .kochin).val a =
          some (r.value .kochin) ∧
        (∀ c ∈ envCols, ¬ (Single (ofKind .radiation rs) c ∧ ¬ Single (ofKind .diffraction rs) c) → a c = r.cell c) ∧
        (∀ c ∈ envCols, Single (ofKind .radiation rs) c → ¬ Single (ofKind .diffraction rs) c → a c = s.cell c) ∧
        (Single (ofKind .radiation rs) .direction → a .direction = s.cell .direction) := by
      intro r hr s hs
      have hD : ofKind .diffraction rs ≠ [] := List.ne_nil_of_mem hs
      let a : Col → Cell := fun c => if (c ∈ envCols ∧ Single (ofKind .radiation rs) c ∧ ¬ Single (ofKind .diffraction rs) c) ∨
        (c = .direction ∧ Single (ofKind .radiation rs) c) then s.cell c else r.cell c
      refine ⟨a, kochin_place fun c => ?_, ?_, ?_, ?_, ?_⟩
      · rw [kochin_index, if_neg hR, if_neg hD]
        by_cases hco : c ∈ envCols
        · have hRo : c ∈ envCols ++ [Col.direction] := List.mem_append_left _ hco
          have hnd : c ≠ .direction := by rintro rfl; simp [envCols] at hco
          by_cases hsR : Single (ofKind .radiation rs) c
          · have qR := single_squeezed (dims := [Col.freq .omega, .radiatingDof, .theta]) (opt := envCols ++ [.direction]) hRo
              (env_radiation hco) hsR hr
            by_cases hsD : Single (ofKind .diffraction rs) c
            · right
              have qD := single_squeezed (dims := [Col.freq .omega, .direction, .theta]) (opt := envCols) hco (env_diffraction hco) hsD hs
              have hn : (kept [Col.freq .omega, .radiatingDof, .theta] (envCols ++ [.direction]) (ofKind .radiation rs) c).or
                  (kept [.freq .omega, .direction, .theta] envCols (ofKind .diffraction rs) c) = none := by
                rw [kept_none (Or.inr ⟨_, qR⟩), kept_none (Or.inr ⟨_, qD⟩)]
                rfl
              refine ⟨hn, fun x hx => ?_⟩
              rw [kochin_scalar rs c (by rw [kochin_index, if_neg hR, if_neg hD, hn]), if_neg hR, if_neg hD, qR, Option.some_or,
                Option.some.injEq] at hx
              rw [← hx]
              refine if_neg ?_
              rintro (h | h)
              · exact h.2.2 hsD
              · exact hnd h.1
            · left
              obtain ⟨l, hl, hm⟩ := kept_mem (dims := [Col.freq .omega, .direction, .theta]) (opt := envCols) hs
                (List.mem_append_left _ hco) (squeezed_none (Or.inr (Or.inr hsD)))
              refine ⟨l, by rw [kept_none (Or.inr ⟨_, qR⟩), hl]; rfl, ?_⟩
              have ha : a c = s.cell c := if_pos (Or.inl ⟨hco, hsR, hsD⟩)
              rw [ha]
              exact hm
          · left
            obtain ⟨l, hl, hm⟩ := kept_mem (dims := [Col.freq .omega, .radiatingDof, .theta]) (opt := envCols ++ [.direction]) hr
              (List.mem_append_left _ hRo) (squeezed_none (Or.inr (Or.inr hsR)))
            refine ⟨l, by rw [hl, Option.some_or], ?_⟩
            have ha : a c = r.cell c := if_neg (by
              rintro (h | h)
              · exact hsR h.2.1
              · exact hnd h.1)
            rw [ha]
            exact hm
        · by_cases hdir : c = .direction
          · subst hdir
            left
            by_cases hsR : Single (ofKind .radiation rs) .direction
            · have qR := single_squeezed (dims := [Col.freq .omega, .radiatingDof, .theta]) (opt := envCols ++ [.direction]) (by simp)
                (by simp) hsR hr
              obtain ⟨l, hl, hm⟩ := kept_mem (dims := [Col.freq .omega, .direction, .theta]) (opt := envCols) hs
                (c := .direction) (by simp) (squeezed_none (by simp))
              have ha : a .direction = s.cell .direction := if_pos (Or.inr ⟨rfl, hsR⟩)
              exact ⟨l, by rw [kept_none (Or.inr ⟨_, qR⟩), hl]; rfl, by rw [ha]; exact hm⟩
            · obtain ⟨l, hl, hm⟩ := kept_mem (dims := [Col.freq .omega, .radiatingDof, .theta]) (opt := envCols ++ [.direction]) hr
                (c := .direction) (by simp) (squeezed_none (Or.inr (Or.inr hsR)))
              have ha : a .direction = r.cell .direction := if_neg (by
                rintro (h | h)
                · exact hsR h.2.1
                · exact hsR h.2)
              exact ⟨l, by rw [hl, Option.some_or], by rw [ha]; exact hm⟩
          · have ha : a c = r.cell c := if_neg (by
              rintro (h | h)
              · exact hco h.1
              · exact hdir h.1)
            by_cases hdims : c ∈ [Col.freq .omega, .radiatingDof, .theta]
            · left
              obtain ⟨l, hl, hm⟩ := kept_mem (dims := [Col.freq .omega, .radiatingDof, .theta]) (opt := envCols ++ [.direction]) hr
                (List.mem_append_right _ hdims) (squeezed_none (Or.inr (Or.inl hdims)))
              exact ⟨l, by rw [hl, Option.some_or], by rw [ha]; exact hm⟩
            · right
              simp only [List.mem_cons, List.not_mem_nil, or_false, not_or] at hdims
              have hn : (kept [Col.freq .omega, .radiatingDof, .theta] (envCols ++ [.direction]) (ofKind .radiation rs) c).or
                  (kept [.freq .omega, .direction, .theta] envCols (ofKind .diffraction rs) c) = none := by
                rw [kept_none (Or.inl (by simp only [List.mem_append, List.mem_cons, List.not_mem_nil]; tauto)),
                  kept_none (Or.inl (by simp only [List.mem_append, List.mem_cons, List.not_mem_nil]; tauto))]
                rfl
              refine ⟨hn, fun x hx => ?_⟩
              rw [kochin_scalar rs c (by rw [kochin_index, if_neg hR, if_neg hD, hn]), if_neg hR, if_neg hD,
                squeezed_none (Or.inl (by simp [hco, hdir])), squeezed_none (Or.inl hco)] at hx
              cases hx
      · refine lookupRow_at hdep hr fun c hc => ?_
        by_cases hcs : (c ∈ envCols ∧ Single (ofKind .radiation rs) c ∧ ¬ Single (ofKind .diffraction rs) c) ∨
            (c = .direction ∧ Single (ofKind .radiation rs) c)
        · right
          rcases hcs with ⟨h, h', _⟩ | ⟨rfl, h'⟩
          · exact ⟨_, single_squeezed (List.mem_append_left _ h) (env_radiation h) h' hr⟩
          · exact ⟨_, single_squeezed (by simp) (by simp) h' hr⟩
        · left
          exact if_neg hcs
      · intro c hc hn
        refine if_neg ?_
        rintro (h | h)
        · exact hn h.2
        · rw [h.1] at hc; simp [envCols] at hc
      · intro c hc h h'
        exact if_pos (Or.inl ⟨hc, h, h'⟩)
      · intro h
        exact if_pos (Or.inr ⟨rfl, h⟩)
    refine ⟨hdep, ?_, ?_⟩
    · intro c hc hsR
      by_contra hsD
      obtain ⟨r, hr⟩ := List.exists_mem_of_ne_nil _ hR
      have hall : ∀ s ∈ ofKind .diffraction rs, s.cell c = r.cell c := by
        intro s hs
        obtain ⟨a, hp, hv, _, h5, _⟩ := key r hr s hs
        obtain ⟨q, hq, hat, _⟩ := h1 a _ hp hv
        rw [← h5 c hc hsR hsD, hat.key c (List.mem_append_left _ hc)]
        exact hsR q hq r hr
      exact hsD fun s hs t ht => (hall s hs).trans (hall t ht).symm
    · intro hsR r hr hsp s hs
      obtain ⟨a, hp, hv, h4, h5, h6⟩ := key r hr s hs
      obtain ⟨q, hq, hat, _⟩ := h1 a _ hp hv
      have hqs : q.cell .speed ≠ .num 0 := by
        rw [← hat.speed]
        by_cases hcs : Single (ofKind .radiation rs) .speed ∧ ¬ Single (ofKind .diffraction rs) .speed
        · rw [hat.speed, hcs.1 q hq r hr]
          exact hsp
        · rw [h4 .speed (by simp [envCols]) hcs]
          exact hsp
      rw [← h6 hsR, hat.direction hqs]
      exact hsR q hq r hr
  · rintro ⟨hdep, hrange⟩
    refine ⟨_, hvar, ?_, ?_, ?_⟩
    · intro a x ha hx
      obtain ⟨r, hr, hc, rfl⟩ := lookupRow_sound hx
      refine ⟨r, hr, ?_, rfl⟩
      have henv : ∀ c ∈ envCols, a c = r.cell c := by
        intro c hc'
        rcases hc c (by simp [hc']) with h1 | ⟨y, hy⟩
        · exact h1.symm
        · have hry := squeezed_cell hy hr
          have hn : (kochinSecond rs).index c = none := by
            rw [kochin_index, if_neg hR, kept_none (Or.inr ⟨_, hy⟩), Option.none_or]
            split_ifs with hD
            · rfl
            · obtain ⟨s, hs⟩ := List.exists_mem_of_ne_nil _ hD
              exact kept_none (Or.inr ⟨_, single_squeezed hc' (env_diffraction hc') (hrange.env c hc' (squeezed_single hy)) hs⟩)
          rw [hry]
          refine (ha c).2 y ?_
          rw [kochin_scalar rs c hn, if_neg hR, hy]
          rfl
      have hdim : ∀ c ∈ [Col.freq .omega, .radiatingDof, .theta], a c = r.cell c := by
        intro c hc'
        rcases hc c (List.mem_append_right _ hc') with h1 | ⟨y, hy⟩
        · exact h1.symm
        · exact absurd hc' (squeezed_eq hy).2.1
      refine ⟨(mem_ofKind.1 hr).2, henv _ (by simp [envCols]), henv _ (by simp [envCols]), henv _ (by simp [envCols]),
        henv _ (by simp [envCols]), henv _ (by simp [envCols]), hdim _ (by simp), hdim _ (by simp), hdim _ (by simp), fun hsp => ?_⟩
      rcases hc .direction (by simp) with h1 | ⟨y, hy⟩
      · exact h1.symm
      · have hry := squeezed_cell hy hr
        by_cases hD : ofKind .diffraction rs = []
        · have hn : (kochinSecond rs).index .direction = none := by
            rw [kochin_index, if_neg hR, kept_none (Or.inr ⟨_, hy⟩), if_pos hD]
            rfl
          rw [hry]
          refine (ha .direction).2 y ?_
          rw [kochin_scalar rs _ hn, if_neg hR, hy]
          rfl
        · have hi : (kochinSecond rs).index .direction = some (labels .direction (ofKind .diffraction rs)) := by
            rw [kochin_index, if_neg hR, kept_none (Or.inr ⟨_, hy⟩), if_neg hD]
            unfold kept
            rw [if_pos ⟨by simp, squeezed_none (by simp)⟩]
            rfl
          obtain ⟨s, hs, hse⟩ := (mem_labels _ _ _).1 ((ha .direction).1 _ hi)
          rw [← hse]
          exact hrange.direction (squeezed_single hy) r hr hsp s hs
    · rintro r hr a ⟨ha, hdir⟩
      refine lookupRow_at hdep hr fun c hc => ?_
      by_cases hcd : c = .direction
      · subst hcd
        rcases hdir with h | h
        · exact Or.inl h
        · exact Or.inr ⟨_, single_squeezed (by simp) (by simp) h hr⟩
      · refine Or.inl (ha.key c ?_)
        simp only [List.mem_append, List.mem_singleton] at hc ⊢
        tauto
    · rintro c hc r hr a ⟨ha, hdir⟩
      obtain ⟨hi, hsq, hco⟩ := fromFrame_dims hfr hc
      have hiR : kept [Col.freq .omega, .radiatingDof, .theta] (envCols ++ [.direction]) (ofKind .radiation rs) c =
        some (labels c (ofKind .radiation rs)) := hi
      rw [kochin_index, if_neg hR, hiR]
      refine ⟨_, rfl, (mem_labels c _ _).2 ⟨r, hr, ?_⟩⟩
      by_cases hcd : c = .direction
      · subst hcd
        rcases hdir with h | h
        · exact h.symm
        · have := single_squeezed (dims := [Col.freq .omega, .radiatingDof, .theta]) (opt := envCols ++ [.direction]) (by simp) (by simp) h hr
          rw [this] at hsq
          cases hsq
      · refine (ha.key c ?_).symm
        simp only [List.mem_append, List.mem_singleton] at hco ⊢
        tauto

/-! ## From the results -/

/-- A dataset is returned if and only if there is a value to store. -/
theorem kochin_data_iff {R : Type} (record : R → Rec V) (compute : R → List Cell → List V) (thetas : List Cell) (results : List R)
    (hlen : ∀ p ∈ results, (compute p thetas).length = thetas.length) :
    (∃ ds, kochinData record compute thetas results = some ds) ↔ results ≠ [] ∧ thetas ≠ [] := by
  unfold kochinData
  have : (kochinRows record compute thetas results).isEmpty ↔ results = [] ∨ thetas = [] := by
    rw [List.isEmpty_iff]
    constructor
    · intro h
      by_contra hn
      push Not at hn
      obtain ⟨p, hp⟩ := List.exists_mem_of_ne_nil _ hn.1
      have h0 : 0 < thetas.length := List.length_pos_iff.2 hn.2
      have h1 : 0 < (compute p thetas).length := by rw [hlen p hp]; exact h0
      have := (mem_kochinRows (record := record)).2 ⟨p, hp, 0, _, _, List.getElem?_eq_getElem h0, List.getElem?_eq_getElem h1, rfl⟩
      rw [h] at this
      cases this
    · intro h
      refine List.eq_nil_iff_forall_not_mem.2 fun r hr => ?_
      obtain ⟨p, hp, j, t, x, h1, h2, _⟩ := mem_kochinRows.1 hr
      rcases h with rfl | rfl
      · cases hp
      · simp at h1
  by_cases he : (kochinRows record compute thetas results).isEmpty
  · rw [if_pos he]
    rcases this.1 he with h | h <;> simp [h]
  · rw [if_neg he]
    have hn : ¬ (results = [] ∨ thetas = []) := fun h => he (this.2 h)
    push Not at hn
    exact ⟨fun _ => hn, fun _ => ⟨_, rfl⟩⟩

/-- With radiation results, the frequencies of the dataset are those of the radiation results: a diffraction result at another frequency
is lost. -/
theorem kochin_frequencies {rs : List (Rec V)} (hR : ofKind .radiation rs ≠ []) {a : Col → Cell} (ha : (kochinSecond rs).Place a) :
    ∃ r ∈ ofKind .radiation rs, a (.freq .omega) = r.cell (.freq .omega) := by
  have hi : (kochinSecond rs).index (.freq .omega) = some (labels (.freq .omega) (ofKind .radiation rs)) := by
    rw [kochin_index, if_neg hR]
    unfold kept
    rw [if_pos ⟨by simp, squeezed_none (by simp)⟩, Option.some_or]
  obtain ⟨r, hr, h⟩ := (mem_labels _ _ _).1 ((ha _).1 _ hi)
  exact ⟨r, hr, h.symm⟩

/-- A parameter shared by all radiation results, and shared by all diffraction results, is given the value of the radiation results at every
place. -/
theorem kochin_parameters {rs : List (Rec V)} {c : Col} (hc : c ∈ envCols) (hsR : Single (ofKind .radiation rs) c)
    (hsD : Single (ofKind .diffraction rs) c) {r : Rec V} (hr : r ∈ ofKind .radiation rs) {a : Col → Cell}
    (ha : (kochinSecond rs).Place a) : a c = r.cell c := by
  have hR : ofKind .radiation rs ≠ [] := List.ne_nil_of_mem hr
  have qR := single_squeezed (dims := [Col.freq .omega, .radiatingDof, .theta]) (opt := envCols ++ [.direction])
    (List.mem_append_left _ hc) (env_radiation hc) hsR hr
  have hn : (kochinSecond rs).index c = none := by
    rw [kochin_index, if_neg hR, kept_none (Or.inr ⟨_, qR⟩), Option.none_or]
    split_ifs with hD
    · rfl
    · obtain ⟨s, hs⟩ := List.exists_mem_of_ne_nil _ hD
      exact kept_none (Or.inr ⟨_, single_squeezed hc (env_diffraction hc) hsD hs⟩)
  refine (ha c).2 _ ?_
  rw [kochin_scalar rs c hn, if_neg hR, qR]
  rfl

/-- The labels of a result, but for the angle. -/
def kochinLabels : List Col := envCols ++ [.direction, .freq .omega]

/-- The usual sets of results: the same parameters for all results, no forward speed, no two results with the same labels and different
values, radiation results with one direction, and diffraction results at frequencies of the radiation results. -/
structure UsualResults {R : Type} (record : R → Rec V) (compute : R → List Cell → List V) (thetas : List Cell) (results : List R) : Prop where
  angles : thetas.Nodup
  sizes : ∀ p ∈ results, (compute p thetas).length = thetas.length
  same : ∀ p ∈ results, ∀ q ∈ results, (record p).kind = (record q).kind → (∀ c ∈ kochinLabels, (record p).cell c = (record q).cell c) →
    ((record p).kind = .radiation → (record p).cell .radiatingDof = (record q).cell .radiatingDof) → compute p thetas = compute q thetas
  env : ∀ c ∈ envCols, ∀ p ∈ results, ∀ q ∈ results, (record p).cell c = (record q).cell c
  speed : ∀ p ∈ results, (record p).cell .speed = .num 0
  direction : ∀ p ∈ results, ∀ q ∈ results, (record p).kind = .radiation → (record q).kind = .radiation →
    (record p).cell .direction = (record q).cell .direction
  freqs : (∃ p ∈ results, (record p).kind = .radiation) → ∀ q ∈ results, (record q).kind = .diffraction →
    ∃ p ∈ results, (record p).kind = .radiation ∧ (record p).cell (.freq .omega) = (record q).cell (.freq .omega)

/-- Results with the same labels and the same angle have the same value. -/
theorem UsualResults.depends {R : Type} {record : R → Rec V} {compute : R → List Cell → List V} {thetas : List Cell} {results : List R}
    (h : UsualResults record compute thetas results) {k : Kind} {cols : List Col} (hc : ∀ c ∈ kochinLabels, c ∈ cols) (ht : Col.theta ∈ cols)
    (hk : k = .radiation → Col.radiatingDof ∈ cols) : DependsOn (ofKind k (kochinRows record compute thetas results)) cols .kochin := by
  intro r hr s hs hrs
  obtain ⟨hr, hkr⟩ := mem_ofKind.1 hr
  obtain ⟨hs, hks⟩ := mem_ofKind.1 hs
  obtain ⟨p, hp, j, t, x, h1, h2, rfl⟩ := mem_kochinRows.1 hr
  obtain ⟨q, hq, i, u, y, h3, h4, rfl⟩ := mem_kochinRows.1 hs
  simp only at hkr hks
  have hij : t = u := by simpa using hrs .theta ht
  subst hij
  have hij : j = i := by
    have hj : j < thetas.length := (List.getElem?_eq_some_iff.1 h1).1
    exact (List.getElem?_inj hj h.angles).1 (h1.trans h3.symm)
  subst hij
  have hcomp := h.same p hp q hq (by rw [hkr, hks]) (fun c hcc => by
    have hne : c ≠ .theta := by
      rintro rfl
      simp [kochinLabels, envCols] at hcc
    have := hrs c (hc c hcc)
    simpa [hne] using this) (fun hrad => by simpa using hrs .radiatingDof (hk (hkr ▸ hrad)))
  rw [hcomp, h4, Option.some.injEq] at h2
  exact h2.symm

/-- With the usual sets of results, the Kochin function of each radiation result is found at its labels and at each angle, and nothing else. -/
theorem kochin_usual_radiation {R : Type} {record : R → Rec V} {compute : R → List Cell → List V} {thetas : List Cell} {results : List R}
    (h : UsualResults record compute thetas results) {ds : DS V} (hds : kochinData record compute thetas results = some ds)
    (hne : ∃ p ∈ results, (record p).kind = .radiation) (hth : thetas ≠ []) :
    Faithful ds .kochin (fun r => r.value .kochin) (ofKind .radiation (kochinRows record compute thetas results)) KochinRadiationAt
      (KochinRadiationFound (kochinRows record compute thetas results)) := by
  unfold kochinData at hds
  split_ifs at hds with he
  rw [Option.some.injEq] at hds
  subst hds
  have hR : ofKind .radiation (kochinRows record compute thetas results) ≠ [] := by
    obtain ⟨p, hp, hk⟩ := hne
    have h0 : 0 < thetas.length := List.length_pos_iff.2 hth
    have h1 : 0 < (compute p thetas).length := by rw [h.sizes p hp]; exact h0
    exact List.ne_nil_of_mem (mem_ofKind.2 ⟨(mem_kochinRows (record := record)).2 ⟨p, hp, 0, _, _, List.getElem?_eq_getElem h0,
      List.getElem?_eq_getElem h1, rfl⟩, hk⟩)
  refine (kochin_radiation_iff _ hR).2 ⟨h.depends ?_ ?_ ?_, ?_, ?_⟩
  · intro c hc
    simp only [kochinLabels, kochinRadiationKey, List.mem_append, List.mem_cons, List.not_mem_nil] at hc ⊢
    tauto
  · simp [kochinRadiationKey]
  · intro _
    simp [kochinRadiationKey]
  · intro c hc _ r hr s hs
    obtain ⟨p, hp, j, t, x, h1, h2, rfl⟩ := mem_kochinRows.1 (mem_ofKind.1 hr).1
    obtain ⟨q, hq, i, u, y, h3, h4, rfl⟩ := mem_kochinRows.1 (mem_ofKind.1 hs).1
    have hne : c ≠ .theta := by
      rintro rfl
      simp [envCols] at hc
    simpa [hne] using h.env c hc p hp q hq
  · intro _ r hr hsp
    obtain ⟨p, hp, j, t, x, h1, h2, rfl⟩ := mem_kochinRows.1 (mem_ofKind.1 hr).1
    exact absurd (h.speed p hp) (by simpa using hsp)

/-- With the usual sets of results, the Kochin function of each diffraction result is found at its labels and at each angle, and nothing
else. -/
theorem kochin_usual_diffraction {R : Type} {record : R → Rec V} {compute : R → List Cell → List V} {thetas : List Cell} {results : List R}
    (h : UsualResults record compute thetas results) {ds : DS V} (hds : kochinData record compute thetas results = some ds)
    (hne : ∃ p ∈ results, (record p).kind = .diffraction) (hth : thetas ≠ []) :
    Faithful ds .kochinDiffraction (fun r => r.value .kochin) (ofKind .diffraction (kochinRows record compute thetas results))
      KochinDiffractionAt KochinDiffractionAt := by
  unfold kochinData at hds
  split_ifs at hds with he
  rw [Option.some.injEq] at hds
  subst hds
  have hD : ofKind .diffraction (kochinRows record compute thetas results) ≠ [] := by
    obtain ⟨p, hp, hk⟩ := hne
    have h0 : 0 < thetas.length := List.length_pos_iff.2 hth
    have h1 : 0 < (compute p thetas).length := by rw [h.sizes p hp]; exact h0
    exact List.ne_nil_of_mem (mem_ofKind.2 ⟨(mem_kochinRows (record := record)).2 ⟨p, hp, 0, _, _, List.getElem?_eq_getElem h0,
      List.getElem?_eq_getElem h1, rfl⟩, hk⟩)
  have henv : ∀ c ∈ envCols, ∀ r ∈ kochinRows record compute thetas results, ∀ s ∈ kochinRows record compute thetas results,
      r.cell c = s.cell c := by
    intro c hc r hr s hs
    obtain ⟨p, hp, j, t, x, h1, h2, rfl⟩ := mem_kochinRows.1 hr
    obtain ⟨q, hq, i, u, y, h3, h4, rfl⟩ := mem_kochinRows.1 hs
    have hne : c ≠ .theta := by
      rintro rfl
      simp [envCols] at hc
    simpa [hne] using h.env c hc p hp q hq
  refine (kochin_diffraction_iff _ hD).2 ⟨h.depends ?_ ?_ ?_, ?_, ?_, ?_⟩
  · intro c hc
    simp only [kochinLabels, kochinDiffractionKey, List.mem_append, List.mem_cons, List.not_mem_nil] at hc ⊢
    tauto
  · simp [kochinDiffractionKey]
  · intro hk
    cases hk
  · intro c hc _ r hr s hs
    exact henv c hc s (mem_ofKind.1 hs).1 r (mem_ofKind.1 hr).1
  · intro c hc r hr hR
    obtain ⟨r0, hr0⟩ := List.exists_mem_of_ne_nil _ hR
    obtain ⟨p0, hp0, j0, t0, x0, _, _, rfl⟩ := mem_kochinRows.1 (mem_ofKind.1 hr0).1
    obtain ⟨q, hq, i, u, y, h3, h4, rfl⟩ := mem_kochinRows.1 (mem_ofKind.1 hr).1
    obtain ⟨p, hp, hpk, hpf⟩ := h.freqs ⟨p0, hp0, (mem_ofKind.1 hr0).2⟩ q hq (mem_ofKind.1 hr).2
    have hi : i < (compute p thetas).length := by
      rw [h.sizes p hp]
      exact (List.getElem?_eq_some_iff.1 h3).1
    refine ⟨_, mem_ofKind.2 ⟨(mem_kochinRows (record := record)).2 ⟨p, hp, i, _, _, h3, List.getElem?_eq_getElem hi, rfl⟩, hpk⟩, ?_⟩
    simp only [List.mem_cons, List.not_mem_nil, or_false] at hc
    rcases hc with rfl | rfl
    · simpa using hpf
    · simp
  · intro c hc hn
    exfalso
    apply hn
    intro r hr s hs
    rcases List.mem_append.1 hc with hc | hc
    · exact henv c hc r (mem_ofKind.1 hr).1 s (mem_ofKind.1 hs).1
    · simp only [List.mem_singleton] at hc
      subst hc
      obtain ⟨p, hp, j, t, x, h1, h2, rfl⟩ := mem_kochinRows.1 (mem_ofKind.1 hr).1
      obtain ⟨q, hq, i, u, y, h3, h4, rfl⟩ := mem_kochinRows.1 (mem_ofKind.1 hs).1
      simpa using h.direction p hp q hq (mem_ofKind.1 hr).2 (mem_ofKind.1 hs).2

end

/-! ## Cases -/

/-- A result at a frequency, a density and a height of the free surface. -/
noncomputable def kochinCase (k : Kind) (omega rho : ℝ) (surface : WithTop ℝ) : Rec ℝ where
  kind := k
  freeSurface := surface
  cell c := match c with
    | .g => .num (9.81 : ℝ)
    | .rho => .num rho
    | .bodyName => .str "float"
    | .waterDepth => .num ⊤
    | .speed => .num 0
    | .direction => .num 0
    | .freq _ => .num omega
    | .radiatingDof => .str "Heave"
    | .influencedDof => .str ""
    | .theta => .str ""
  value _ := 0

/-- Results given with the value of their Kochin function, the same at all angles. -/
noncomputable def caseData (results : List (Rec ℝ × ℝ)) : Option (DS ℝ) :=
  kochinData Prod.fst (fun p t => t.map fun _ => p.2) [.num 0] results

theorem caseData_eq {results : List (Rec ℝ × ℝ)} (h : results ≠ []) :
    caseData results = some (kochinSecond (kochinRows Prod.fst (fun p t => t.map fun _ => p.2) [.num 0] results)) := by
  obtain ⟨ds, hds⟩ := (kochin_data_iff (V := ℝ) Prod.fst (fun p t => t.map fun _ => p.2) [.num 0] results (fun _ _ => by simp)).2
    ⟨h, by simp⟩
  have h' := hds
  unfold kochinData at h'
  split_ifs at h'
  rw [caseData, hds, h']

/-- The rows of these results. -/
theorem case_rows {results : List (Rec ℝ × ℝ)} {k : Kind} {r : Rec ℝ} :
    r ∈ ofKind k (kochinRows Prod.fst (fun p t => t.map fun _ => p.2) [.num 0] results) ↔ ∃ p ∈ results, p.1.kind = k ∧
      r = { p.1 with cell := fun c => if c = .theta then .num 0 else p.1.cell c, value := fun _ => p.2 } := by
  rw [mem_ofKind, mem_kochinRows]
  constructor
  · rintro ⟨⟨p, hp, j, t, x, h1, h2, rfl⟩, hk⟩
    match j, h1, h2 with
    | 0, h1, h2 =>
      simp only [List.getElem?_cons_zero, Option.some.injEq, List.map_cons] at h1 h2
      subst h1 h2
      exact ⟨p, hp, hk, rfl⟩
    | j + 1, h1, _ => simp at h1
  · rintro ⟨p, hp, hk, rfl⟩
    exact ⟨⟨p, hp, 0, _, _, rfl, rfl, rfl⟩, hk⟩

/-- A diffraction result at a frequency without radiation results is lost: there is no place of the dataset at this frequency. -/
theorem kochin_frequency_violated : ∃ ds, caseData [(kochinCase .radiation 1 1000 0, 5), (kochinCase .diffraction 2 1000 0, 7)] = some ds ∧
    ∀ a x, ds.Place a → ∀ arr, ds.var .kochinDiffraction = some arr → arr.val a ≠ some x := by
  refine ⟨_, caseData_eq (by simp), fun a x ha arr harr hx => ?_⟩
  have hD := (case_rows (results := [(kochinCase .radiation 1 1000 0, 5), (kochinCase .diffraction 2 1000 0, 7)]) (k := .diffraction)).2
    ⟨(kochinCase .diffraction 2 1000 0, 7), by simp, rfl, rfl⟩
  have hR := (case_rows (results := [(kochinCase .radiation 1 1000 0, 5), (kochinCase .diffraction 2 1000 0, 7)]) (k := .radiation)).2
    ⟨(kochinCase .radiation 1 1000 0, 5), by simp, rfl, rfl⟩
  rw [kochin_var_diffraction (List.ne_nil_of_mem hD), Option.some.injEq] at harr
  subst harr
  obtain ⟨r, hr, hc, _⟩ := lookupRow_sound hx
  obtain ⟨s, hs, hso⟩ := kochin_frequencies (List.ne_nil_of_mem hR) ha
  obtain ⟨p, hp, hpk, rfl⟩ := case_rows.1 hr
  obtain ⟨q, hq, hqk, rfl⟩ := case_rows.1 hs
  rcases hc (.freq .omega) (by simp) with h | ⟨y, hy⟩
  · rw [hso] at h
    simp only [List.mem_cons, List.not_mem_nil, or_false] at hp hq
    rcases hp with rfl | rfl
    · cases hpk
    · rcases hq with rfl | rfl
      · simp only [kochinCase, reduceCtorEq, if_false, Cell.num.injEq, WithTop.coe_inj] at h
        norm_num at h
      · cases hqk
  · exact absurd (by simp) (squeezed_eq hy).2.1

/-- The Kochin function of a diffraction result in salt water is found in the dataset at the density of the radiation result in fresh
water, while the first result is at 1000 and the second at 1025. -/
theorem kochin_density_violated : ∃ ds, caseData [(kochinCase .radiation 1 1000 0, 5), (kochinCase .diffraction 1 1025 0, 7)] = some ds ∧
    ∃ a arr, ds.Place a ∧ ds.var .kochinDiffraction = some arr ∧ arr.val a = some 7 ∧ a .rho = .num (1000 : ℝ) := by
  refine ⟨_, caseData_eq (by simp), ?_⟩
  have hD := (case_rows (results := [(kochinCase .radiation 1 1000 0, 5), (kochinCase .diffraction 1 1025 0, 7)]) (k := .diffraction)).2
    ⟨(kochinCase .diffraction 1 1025 0, 7), by simp, rfl, rfl⟩
  have hR := (case_rows (results := [(kochinCase .radiation 1 1000 0, 5), (kochinCase .diffraction 1 1025 0, 7)]) (k := .radiation)).2
    ⟨(kochinCase .radiation 1 1000 0, 5), by simp, rfl, rfl⟩
  have hsD : ∀ c, Single (ofKind .diffraction (kochinRows Prod.fst (fun (p : Rec ℝ × ℝ) t => t.map fun _ => p.2) [.num 0]
      [(kochinCase .radiation 1 1000 0, 5), (kochinCase .diffraction 1 1025 0, 7)])) c := by
    intro c r hr s hs
    obtain ⟨p, hp, hpk, rfl⟩ := case_rows.1 hr
    obtain ⟨q, hq, hqk, rfl⟩ := case_rows.1 hs
    simp only [List.mem_cons, List.not_mem_nil, or_false] at hp hq
    rcases hp with rfl | rfl
    · cases hpk
    · rcases hq with rfl | rfl
      · cases hqk
      · rfl
  have hsR : ∀ c, Single (ofKind .radiation (kochinRows Prod.fst (fun (p : Rec ℝ × ℝ) t => t.map fun _ => p.2) [.num 0]
      [(kochinCase .radiation 1 1000 0, 5), (kochinCase .diffraction 1 1025 0, 7)])) c := by
    intro c r hr s hs
    obtain ⟨p, hp, hpk, rfl⟩ := case_rows.1 hr
    obtain ⟨q, hq, hqk, rfl⟩ := case_rows.1 hs
    simp only [List.mem_cons, List.not_mem_nil, or_false] at hp hq
    rcases hp with rfl | rfl
    · rcases hq with rfl | rfl
      · rfl
      · cases hqk
    · cases hpk
  have hRn := List.ne_nil_of_mem hR
  have hDn := List.ne_nil_of_mem hD
  refine ⟨fun c => if c = .theta then .num 0 else (kochinCase .radiation 1 1000 0).cell c, _, ?_, kochin_var_diffraction hDn, ?_, rfl⟩
  · refine kochin_place fun c => ?_
    by_cases hn : (kochinSecond (kochinRows Prod.fst (fun (p : Rec ℝ × ℝ) t => t.map fun _ => p.2) [.num 0]
        [(kochinCase .radiation 1 1000 0, 5), (kochinCase .diffraction 1 1025 0, 7)])).index c = none
    · refine Or.inr ⟨hn, fun x hx => ?_⟩
      rw [kochin_scalar _ c hn, if_neg hRn, if_neg hDn] at hx
      rcases Option.or_eq_some_iff.1 hx with h | ⟨h0, h⟩
      · exact squeezed_cell h hR
      · exfalso
        have hc := (squeezed_eq h).1
        rw [single_squeezed (List.mem_append_left _ hc) (env_radiation hc) (hsR c) hR] at h0
        cases h0
    · left
      rw [kochin_index, if_neg hRn, if_neg hDn] at hn ⊢
      cases hk : kept [Col.freq .omega, .radiatingDof, .theta] (envCols ++ [.direction]) (ofKind .radiation
          (kochinRows Prod.fst (fun (p : Rec ℝ × ℝ) t => t.map fun _ => p.2) [.num 0]
            [(kochinCase .radiation 1 1000 0, 5), (kochinCase .diffraction 1 1025 0, 7)])) c with
      | some l =>
        obtain ⟨_, rfl⟩ := kept_eq hk
        exact ⟨_, rfl, (mem_labels _ _ _).2 ⟨_, hR, rfl⟩⟩
      | none =>
        rw [hk, Option.none_or] at hn
        obtain ⟨l, hl⟩ := Option.ne_none_iff_exists'.1 hn
        obtain ⟨hc, rfl⟩ := kept_eq hl
        refine ⟨_, by rw [hl]; rfl, (mem_labels _ _ _).2 ⟨_, hD, ?_⟩⟩
        by_cases hrho : c = .rho
        · subst hrho
          exfalso
          rw [kept_none (Or.inr ⟨_, single_squeezed (by simp [envCols]) (by simp) (hsD .rho) hD⟩)] at hl
          cases hl
        · cases c <;> first | rfl | exact absurd rfl hrho
  · have := lookupRow_at (dims := [Col.freq .omega, .direction, .theta]) (opt := envCols) (v := .kochin)
      (rs := ofKind .diffraction (kochinRows Prod.fst (fun (p : Rec ℝ × ℝ) t => t.map fun _ => p.2) [.num 0]
        [(kochinCase .radiation 1 1000 0, 5), (kochinCase .diffraction 1 1025 0, 7)]))
      (a := fun c => if c = .theta then .num 0 else (kochinCase .radiation 1 1000 0).cell c) ?_ hD ?_
    · exact this
    · intro r hr s hs _
      obtain ⟨p, hp, hpk, rfl⟩ := case_rows.1 hr
      obtain ⟨q, hq, hqk, rfl⟩ := case_rows.1 hs
      simp only [List.mem_cons, List.not_mem_nil, or_false] at hp hq
      rcases hp with rfl | rfl
      · cases hpk
      · rcases hq with rfl | rfl
        · cases hqk
        · rfl
    · intro c hc
      by_cases hrho : c = .rho
      · subst hrho
        exact Or.inr ⟨_, single_squeezed (by simp [envCols]) (by simp) (hsD .rho) hD⟩
      · left
        cases c <;> first | rfl | exact absurd rfl hrho

theorem find_two {α : Type} {p : α → Bool} {r s q : α} (hq : [r, s].find? p = some q) (h : p r = p s) : q = r := by
  rw [List.find?_cons] at hq
  cases hr : p r with
  | true =>
    rw [hr] at hq
    simp only [Option.some.injEq] at hq
    exact hq.symm
  | false =>
    rw [hr] at hq
    simp [List.find?_cons, ← h, hr] at hq

/-- A result with a free surface and a result without, with the same labels: the second one is lost. -/
theorem kochin_surface_violated : ∃ ds, caseData [(kochinCase .radiation 1 1000 0, 5), (kochinCase .radiation 1 1000 ⊤, 7)] = some ds ∧
    ∀ a arr, ds.var .kochin = some arr → arr.val a ≠ some 7 := by
  refine ⟨_, caseData_eq (by simp), fun a arr harr hx => ?_⟩
  have hR := (case_rows (results := [(kochinCase .radiation 1 1000 0, 5), (kochinCase .radiation 1 1000 ⊤, 7)]) (k := .radiation)).2
    ⟨(kochinCase .radiation 1 1000 0, 5), by simp, rfl, rfl⟩
  rw [kochin_var_radiation (List.ne_nil_of_mem hR), Option.some.injEq] at harr
  subst harr
  have hrows : ofKind .radiation (kochinRows Prod.fst (fun (p : Rec ℝ × ℝ) t => t.map fun _ => p.2) [.num 0]
      [(kochinCase .radiation 1 1000 0, 5), (kochinCase .radiation 1 1000 ⊤, 7)]) =
      [{ kochinCase .radiation 1 1000 0 with
          cell := fun c => if c = .theta then .num 0 else (kochinCase .radiation 1 1000 0).cell c, value := fun _ => 5 },
       { kochinCase .radiation 1 1000 ⊤ with
          cell := fun c => if c = .theta then .num 0 else (kochinCase .radiation 1 1000 ⊤).cell c, value := fun _ => 7 }] := rfl
  simp only [frameArr, hrows] at hx
  rw [lookupRow_eq, Option.map_eq_some_iff] at hx
  obtain ⟨r, hr, h7⟩ := hx
  have hfirst := find_two hr rfl
  rw [hfirst] at h7
  norm_num at h7

/-- The hypotheses of the theorems about usual sets of results are met by a radiation result and a diffraction result. -/
example : UsualResults (V := ℝ) Prod.fst (fun p t => t.map fun _ => p.2) [.num 0, .num 1]
    [(kochinCase .radiation 1 1000 0, 5), (kochinCase .diffraction 1 1000 0, 7)] where
  angles := by simp
  sizes := by simp
  same := by
    intro p hp q hq hk _ _
    simp only [List.mem_cons, List.not_mem_nil, or_false] at hp hq
    rcases hp with rfl | rfl <;> rcases hq with rfl | rfl <;> first | rfl | cases hk
  env := by
    intro c _ p hp q hq
    simp only [List.mem_cons, List.not_mem_nil, or_false] at hp hq
    rcases hp with rfl | rfl <;> rcases hq with rfl | rfl <;> rfl
  speed := by
    intro p hp
    simp only [List.mem_cons, List.not_mem_nil, or_false] at hp
    rcases hp with rfl | rfl <;> rfl
  direction := by
    intro p hp q hq _ _
    simp only [List.mem_cons, List.not_mem_nil, or_false] at hp hq
    rcases hp with rfl | rfl <;> rcases hq with rfl | rfl <;> rfl
  freqs := by
    intro _ q hq _
    refine ⟨(kochinCase .radiation 1 1000 0, 5), by simp, rfl, ?_⟩
    simp only [List.mem_cons, List.not_mem_nil, or_false] at hq
    rcases hq with rfl | rfl <;> rfl

end Verif.Datasets
