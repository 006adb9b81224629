import Verif.Datasets.AssembleProps
import Mathlib.Analysis.SpecialFunctions.Trigonometric.Basic

/-!
# C50: when each result is found at its own coordinates

The conditions of `AssembleProps` are necessary: the variables of a dataset are faithful to the results if and only if results with the
same coordinates have the same values, and both kinds of results have the same range along the dimensions that are squeezed.
-/

namespace Verif.Datasets

section
variable {V : Type}

/-- A scalar coordinate is the label of all rows. -/
def ScalarAll (d : DS V) (rs : List (Rec V)) : Prop := ∀ c x, d.scalar c = some x → ∀ r ∈ rs, r.cell c = x

theorem place_merge {d e f : DS V} (h : merge d e = some f) {a : Col → Cell}
    (ha : ∀ c, (∃ l, d.index c = some l ∧ a c ∈ l) ∨ (∃ l, e.index c = some l ∧ a c ∈ l) ∨
      (d.index c = none ∧ e.index c = none ∧ ∀ x, (d.scalar c).or (e.scalar c) = some x → a c = x)) : f.Place a := by
  obtain ⟨h1, h2, _⟩ := merge_eq h
  intro c
  rw [h1, h2]
  simp only
  rcases ha c with ⟨l, hl, hm⟩ | ⟨l, hl, hm⟩ | ⟨hi, hj, hx⟩
  · rw [hl]
    cases e.index c with
    | none => simp [outer, hm]
    | some m => simp [outer, hm]
  · rw [hl]
    cases d.index c with
    | none => simp [outer, hm]
    | some m => simp [outer, hm]
  · rw [hi, hj]
    refine ⟨by simp [outer], fun x => ?_⟩
    simp only [outer, if_true]
    exact hx x

theorem place_addCoord {d : DS V} {rs : List (Rec V)} {a : Col → Cell} (ha : d.Place a) (hs : ScalarAll d rs) {v : Var} {vars : List Var}
    {dims opt : List Col} (hne : rs ≠ []) (hc : ∀ c ∈ opt ++ dims, HasCoord d c) :
    (addCoord d v (fromFrame vars dims opt rs)).Place a ∧ ScalarAll (addCoord d v (fromFrame vars dims opt rs)) rs := by
  constructor
  · intro c
    constructor
    · intro l hl
      rcases Option.or_eq_some_iff.1 hl with hl | ⟨hn, hl⟩
      · exact (ha c).1 l hl
      · obtain ⟨hco, rfl⟩ := kept_eq hl
        rcases hc c hco with h | h
        · exact absurd hn h
        · obtain ⟨x, hx⟩ := Option.ne_none_iff_exists'.1 h
          rw [(ha c).2 x hx]
          obtain ⟨r, hr⟩ := List.exists_mem_of_ne_nil _ hne
          exact (mem_labels c rs x).2 ⟨r, hr, hs c x hx r hr⟩
    · intro x hx
      simp only [addCoord] at hx
      split_ifs at hx with hi
      rcases Option.or_eq_some_iff.1 hx with hx | ⟨hn, hx⟩
      · exact (ha c).2 x hx
      · have hco : c ∈ opt ++ dims := List.mem_append_left _ (squeezed_eq hx).1
        rcases hc c hco with h | h
        · cases hd : d.index c with
          | none => exact absurd hd h
          | some l => rw [hd] at hi; simp at hi
        · exact absurd hn h
  · intro c x hx
    simp only [addCoord] at hx
    split_ifs at hx with hi
    rcases Option.or_eq_some_iff.1 hx with hx | ⟨hn, hx⟩
    · exact hs c x hx
    · intro r hr
      exact squeezed_cell hx hr

/-- The places of the results are places of the dataset. -/
theorem place_assemble [Add V] {main : FreqType} {rs : List (Rec V)} {d : DS V} (h : results main (withSurface rs) = some d) {a : Col → Cell}
    (ha : d.Place a) (hs : ScalarAll d (withSurface rs)) (hne : withSurface rs ≠ []) (hf : HasCoord d (.freq main)) :
    (addEncounter main (withSurface rs)
      ([FreqType.omega, .period, .wavenumber, .wavelength].foldl (addFreq main (withSurface rs)) d)).Place a := by
  have hcoord : ∀ e, Extends (withSurface rs) d e → ∀ c ∈ [Col.g, .waterDepth, .speed, .direction, .freq main], HasCoord e c := by
    intro e he c hc
    have hrs := (results_spec h).coords hne
    simp only [List.mem_cons, List.not_mem_nil, or_false] at hc
    rcases hc with rfl | rfl | rfl | rfl | rfl
    · exact he.coords _ (hrs _ (by simp [envCols]))
    · exact he.coords _ (hrs _ (by simp [envCols]))
    · exact he.coords _ (hrs _ (by simp [envCols]))
    · exact he.coords _ (hrs _ (by simp))
    · exact he.coords _ hf
  have hfreq : ∀ e k, Extends (withSurface rs) d e → e.Place a ∧ ScalarAll e (withSurface rs) →
      (addFreq main (withSurface rs) e k).Place a ∧ ScalarAll (addFreq main (withSurface rs) e k) (withSurface rs) := by
    intro e k he hp
    unfold addFreq
    split_ifs
    · exact hp
    · refine place_addCoord hp.1 hp.2 hne fun c hc => hcoord e he c ?_
      rcases List.mem_append.1 hc with hc | hc
      · revert hc
        cases main <;> cases k <;> simp [freqOpt] <;> tauto
      · simp at hc
        simp [hc]
  simp only [List.foldl]
  have e1 := Extends.addFreq main (withSurface rs) d .omega
  have p1 := hfreq d .omega (Extends.refl _ _) ⟨ha, hs⟩
  have e2 := e1.trans (Extends.addFreq main (withSurface rs) _ .period)
  have p2 := hfreq _ .period e1 p1
  have e3 := e2.trans (Extends.addFreq main (withSurface rs) _ .wavenumber)
  have p3 := hfreq _ .wavenumber e2 p2
  have e4 := e3.trans (Extends.addFreq main (withSurface rs) _ .wavelength)
  have p4 := hfreq _ .wavelength e3 p3
  revert e4 p4
  generalize addFreq main (withSurface rs) _ FreqType.wavelength = e
  intro e4 p4
  unfold addEncounter
  split_ifs
  · exact p4.1
  · have q1 := place_addCoord (v := .encounterOmega) (vars := [.encounterOmega]) (dims := [.speed, .direction, .freq main])
      (opt := [.g, .waterDepth]) p4.1 p4.2 hne (fun c hc => hcoord e e4 c (by simpa using hc))
    refine (place_addCoord q1.1 q1.2 hne fun c hc => ?_).1
    refine HasCoord.addCoord (hcoord e e4 c ?_) _
    simp only [List.nil_append, List.mem_cons, List.not_mem_nil, or_false] at hc
    simp only [List.mem_cons, List.not_mem_nil, or_false]
    tauto

/-- The two kinds of results are merged. -/
theorem results_merged [Add V] {main : FreqType} {rs : List (Rec V)} {d : DS V} (h : results main rs = some d)
    (hR : ofKind .radiation rs ≠ []) (hD : ofKind .diffraction rs ≠ []) :
    ∃ e f, e.index = (radiationPart main (ofKind .radiation rs)).index ∧ e.scalar = (radiationPart main (ofKind .radiation rs)).scalar ∧
      merge e (diffractionPart main (ofKind .diffraction rs)) = some f ∧ d = addExcitation f := by
  unfold results at h
  rw [Option.bind_eq_some_iff] at h
  obtain ⟨d1, h1, h2⟩ := h
  rw [if_neg hR] at h1
  rw [if_neg hD, Option.map_eq_some_iff] at h2
  obtain ⟨f, hf, rfl⟩ := h2
  obtain ⟨i1, i2, _⟩ := merge_eq h1
  have hi : d1.index = (radiationPart main (ofKind .radiation rs)).index := by
    rw [i1]
    funext c
    simp only [DS.empty, outer]
    cases (radiationPart main (ofKind .radiation rs)).index c <;> rfl
  refine ⟨d1, f, hi, ?_, hf, rfl⟩
  rw [i2]
  funext c
  have : outer ((DS.empty : DS V).index c) ((radiationPart main (ofKind .radiation rs)).index c) =
      (radiationPart main (ofKind .radiation rs)).index c := by
    simp only [DS.empty, outer]
    cases (radiationPart main (ofKind .radiation rs)).index c <;> rfl
  simp only [this]
  split_ifs with hn
  · simp [DS.empty]
  · cases hs : (radiationPart main (ofKind .radiation rs)).scalar c with
    | none => rfl
    | some x =>
      exfalso
      apply hn
      show kept _ _ _ c = none
      have hs' : squeezed [.freq main, .radiatingDof, .influencedDof] (envCols ++ [.direction]) (ofKind .radiation rs) c = some x := hs
      unfold kept
      rw [hs']
      simp

theorem kept_mem {dims opt : List Col} {rs : List (Rec V)} {c : Col} {r : Rec V} (hr : r ∈ rs) (hc : c ∈ opt ++ dims)
    (h : squeezed dims opt rs c = none) : ∃ l, kept dims opt rs c = some l ∧ r.cell c ∈ l := by
  refine ⟨labels c rs, ?_, (mem_labels c rs _).2 ⟨r, hr, rfl⟩⟩
  unfold kept
  rw [if_pos ⟨hc, h⟩]

theorem squeezed_none {dims opt : List Col} {rs : List (Rec V)} {c : Col} (h : c ∉ opt ∨ c ∈ dims ∨ ¬ Single rs c) :
    squeezed dims opt rs c = none := by
  cases hs : squeezed dims opt rs c with
  | none => rfl
  | some x =>
    rcases h with h | h | h
    · exact absurd (squeezed_eq hs).1 h
    · exact absurd h (squeezed_eq hs).2.1
    · exact absurd (squeezed_single hs) h

theorem kept_none {dims opt : List Col} {rs : List (Rec V)} {c : Col} (h : c ∉ opt ++ dims ∨ ∃ x, squeezed dims opt rs c = some x) :
    kept dims opt rs c = none := by
  unfold kept
  rw [if_neg]
  rintro ⟨h1, h2⟩
  rcases h with h | ⟨x, h⟩
  · exact h h1
  · rw [h2] at h
    cases h

/-- Labels chosen among the rows of both kinds make a place. -/
theorem mixed_place [Add V] {main : FreqType} {rs : List (Rec V)} {ds : DS V} (h : assemble main rs = some ds) {r s : Rec V}
    (hr : r ∈ rowsOf .radiation rs) (hs : s ∈ rowsOf .diffraction rs) {a : Col → Cell}
    (henv : ∀ c ∈ envCols, (¬ Single (rowsOf .radiation rs) c ∧ a c = r.cell c) ∨ (¬ Single (rowsOf .diffraction rs) c ∧ a c = s.cell c) ∨
      (Single (rowsOf .radiation rs) c ∧ Single (rowsOf .diffraction rs) c ∧ (a c = r.cell c ∨ a c = s.cell c)))
    (hdir : a .direction = s.cell .direction ∨ (¬ Single (rowsOf .radiation rs) .direction ∧ a .direction = r.cell .direction))
    (hfreq : a (.freq main) = r.cell (.freq main) ∨ a (.freq main) = s.cell (.freq main))
    (hinf : a .influencedDof = r.cell .influencedDof ∨ a .influencedDof = s.cell .influencedDof)
    (hrad : a .radiatingDof = r.cell .radiatingDof) : ds.Place a := by
  have hok := ((assemble_ok_iff main rs).1 ⟨ds, h⟩).2
  have hR : rowsOf .radiation rs ≠ [] := List.ne_nil_of_mem hr
  have hD : rowsOf .diffraction rs ≠ [] := List.ne_nil_of_mem hs
  have hne : withSurface rs ≠ [] := List.ne_nil_of_mem (rowsOf_sub r hr)
  obtain ⟨_, d, hd, rfl⟩ := assemble_some h
  obtain ⟨e, f, hi, hsc, hm, rfl⟩ := results_merged hd hR hD
  have hei : ∀ c, e.index c = kept [.freq main, .radiatingDof, .influencedDof] (envCols ++ [.direction]) (rowsOf .radiation rs) c := by
    intro c
    rw [hi]
    rfl
  have hes : ∀ c, e.scalar c = squeezed [.freq main, .radiatingDof, .influencedDof] (envCols ++ [.direction]) (rowsOf .radiation rs) c := by
    intro c
    rw [hsc]
    rfl
  have hdi : ∀ c, (diffractionPart main (rowsOf .diffraction rs)).index c =
      kept [.freq main, .direction, .influencedDof] envCols (rowsOf .diffraction rs) c := fun c => rfl
  have hds : ∀ c, (diffractionPart main (rowsOf .diffraction rs)).scalar c =
      squeezed [.freq main, .direction, .influencedDof] envCols (rowsOf .diffraction rs) c := fun c => rfl
  have hplace : f.Place a := by
    refine place_merge hm fun c => ?_
    rw [hei, hes, hdi, hds]
    by_cases hc : c ∈ envCols
    · have n1 : c ∉ [Col.freq main, .radiatingDof, .influencedDof] := by revert hc; simp only [envCols]; cases c <;> simp
      have n2 : c ∉ [Col.freq main, .direction, .influencedDof] := by revert hc; simp only [envCols]; cases c <;> simp
      rcases henv c hc with ⟨h1, h2⟩ | ⟨h1, h2⟩ | ⟨h1, h2, h3⟩
      · left
        rw [h2]
        exact kept_mem hr (by simp [hc]) (squeezed_none (Or.inr (Or.inr h1)))
      · right; left
        rw [h2]
        exact kept_mem hs (by simp [hc]) (squeezed_none (Or.inr (Or.inr h1)))
      · right; right
        have q1 := single_squeezed (dims := [.freq main, .radiatingDof, .influencedDof]) (opt := envCols ++ [.direction])
          (List.mem_append_left _ hc) n1 h1 hr
        have q2 := single_squeezed (dims := [.freq main, .direction, .influencedDof]) (opt := envCols) hc n2 h2 hs
        refine ⟨kept_none (Or.inr ⟨_, q1⟩), kept_none (Or.inr ⟨_, q2⟩), fun x hx => ?_⟩
        rw [q1, Option.some_or, Option.some.injEq] at hx
        subst hx
        rcases h3 with h3 | h3
        · exact h3
        · rw [h3, hok c hc h1 h2 r hr s hs]
    · by_cases hk : c = .freq main
      · subst hk
        rcases hfreq with hh | hh
        · left
          rw [hh]
          exact kept_mem hr (by simp) (squeezed_none (by simp))
        · right; left
          rw [hh]
          exact kept_mem hs (by simp) (squeezed_none (by simp))
      · cases c with
        | g => simp [envCols] at hc
        | rho => simp [envCols] at hc
        | bodyName => simp [envCols] at hc
        | waterDepth => simp [envCols] at hc
        | speed => simp [envCols] at hc
        | theta =>
          right; right
          refine ⟨kept_none (Or.inl (by simp [envCols])), kept_none (Or.inl (by simp [envCols])), fun x hx => ?_⟩
          rw [squeezed_none (by simp [envCols]), squeezed_none (by simp [envCols])] at hx
          cases hx
        | direction =>
          rcases hdir with hh | ⟨h1, hh⟩
          · right; left
            rw [hh]
            exact kept_mem hs (by simp) (squeezed_none (by simp))
          · left
            rw [hh]
            exact kept_mem hr (by simp) (squeezed_none (Or.inr (Or.inr h1)))
        | freq k =>
          have hk' : k ≠ main := fun e => hk (by rw [e])
          right; right
          refine ⟨kept_none (Or.inl (by simp [envCols, hk'])), kept_none (Or.inl (by simp [envCols, hk'])), fun x hx => ?_⟩
          rw [squeezed_none (by simp [envCols]), squeezed_none (by simp [envCols])] at hx
          cases hx
        | radiatingDof =>
          left
          rw [hrad]
          exact kept_mem hr (by simp) (squeezed_none (by simp))
        | influencedDof =>
          rcases hinf with hh | hh
          · left
            rw [hh]
            exact kept_mem hr (by simp) (squeezed_none (by simp))
          · right; left
            rw [hh]
            exact kept_mem hs (by simp) (squeezed_none (by simp))
  have hall : ScalarAll f (withSurface rs) := by
    intro c x hx t ht
    rw [(merge_eq hm).2.1] at hx
    simp only at hx
    split_ifs at hx with hout
    have hn : e.index c = none ∧ (diffractionPart main (rowsOf .diffraction rs)).index c = none := by
      cases h1 : e.index c <;> cases h2 : (diffractionPart main (rowsOf .diffraction rs)).index c
      · exact ⟨rfl, rfl⟩
      all_goals
        rw [h1, h2] at hout
        simp [outer] at hout
    rw [hei, hdi] at hn
    have hcoord : ∀ x, squeezed [.freq main, .radiatingDof, .influencedDof] (envCols ++ [.direction]) (rowsOf .radiation rs) c = some x →
        ∃ y, squeezed [.freq main, .direction, .influencedDof] envCols (rowsOf .diffraction rs) c = some y := by
      intro x hx
      by_contra hno
      push Not at hno
      have hno' : squeezed [.freq main, .direction, .influencedDof] envCols (rowsOf .diffraction rs) c = none := by
        cases hh : squeezed [.freq main, .direction, .influencedDof] envCols (rowsOf .diffraction rs) c with
        | none => rfl
        | some y => exact absurd hh (hno y)
      have hco : c ∈ envCols ++ [.freq main, .direction, .influencedDof] := by
        have := (squeezed_eq hx).1
        simp only [List.mem_append, List.mem_singleton] at this
        rcases this with h | h
        · simp [h]
        · simp [h]
      obtain ⟨l, hl, _⟩ := kept_mem hs hco hno'
      rw [hn.2] at hl
      cases hl
    have hcoord' : ∀ x, squeezed [.freq main, .direction, .influencedDof] envCols (rowsOf .diffraction rs) c = some x →
        ∃ y, squeezed [.freq main, .radiatingDof, .influencedDof] (envCols ++ [.direction]) (rowsOf .radiation rs) c = some y := by
      intro x hx
      by_contra hno
      push Not at hno
      have hno' : squeezed [.freq main, .radiatingDof, .influencedDof] (envCols ++ [.direction]) (rowsOf .radiation rs) c = none := by
        cases hh : squeezed [.freq main, .radiatingDof, .influencedDof] (envCols ++ [.direction]) (rowsOf .radiation rs) c with
        | none => rfl
        | some y => exact absurd hh (hno y)
      obtain ⟨l, hl, _⟩ := kept_mem hr (by simp [(squeezed_eq hx).1]) hno'
      rw [hn.1] at hl
      cases hl
    rw [hes, hds] at hx
    have hboth : ∃ y z, squeezed [.freq main, .radiatingDof, .influencedDof] (envCols ++ [.direction]) (rowsOf .radiation rs) c = some y ∧
        squeezed [.freq main, .direction, .influencedDof] envCols (rowsOf .diffraction rs) c = some z := by
      rcases Option.or_eq_some_iff.1 hx with hx | ⟨_, hx⟩
      · obtain ⟨y, hy⟩ := hcoord x hx
        exact ⟨x, y, hx, hy⟩
      · obtain ⟨y, hy⟩ := hcoord' x hx
        exact ⟨y, x, hy, hx⟩
    obtain ⟨y, z, hy, hz⟩ := hboth
    rw [hy, Option.some_or, Option.some.injEq] at hx
    subst hx
    have hyz := hok c (squeezed_eq hz).1 (squeezed_single hy) (squeezed_single hz) r hr s hs
    rw [squeezed_cell hy hr, squeezed_cell hz hs] at hyz
    cases hk : t.kind with
    | radiation => exact squeezed_cell hy (List.mem_filter.2 ⟨ht, by simp [hk]⟩)
    | diffraction => rw [hyz]; exact squeezed_cell hz (List.mem_filter.2 ⟨ht, by simp [hk]⟩)
  refine place_assemble hd hplace hall hne ?_
  have : HasCoord f (.freq main) := HasCoord.merge_right (e := diffractionPart main (rowsOf .diffraction rs)) (HasCoord.fromFrame (by simp)) hm
  exact this

end

section
variable {V : Type}

/-- The radiation results are found at their coordinates if and only if those with the same coordinates have the same values and the
diffraction results have the same range. -/
theorem radiation_faithful_iff [Add V] {main : FreqType} {rs : List (Rec V)} {ds : DS V} (h : assemble main rs = some ds) {v : Var}
    (hv : v ∈ [Var.addedMass, .damping]) (hne : rowsOf .radiation rs ≠ []) :
    Faithful ds v (fun r => r.value v) (rowsOf .radiation rs) (RadiationAt main) (RadiationFound main rs) ↔
      DependsOn (rowsOf .radiation rs) (radiationKey main) v ∧ RadiationRange (withSurface rs) := by
  constructor
  swap
  · rintro ⟨hk, hg⟩
    exact radiation_faithful h hg hv hk hne
  rintro ⟨arr, harr, hsound, hcomp, _⟩
  have hval : arr.val = lookupRow [.freq main, .radiatingDof, .influencedDof] (envCols ++ [.direction]) (rowsOf .radiation rs) v := by
    obtain ⟨d, hs, he, hvar⟩ := assemble_spec h
    rw [hvar v (by simp only [List.mem_cons, List.not_mem_nil, or_false] at hv ⊢; tauto), (hs.radiation hne).2 v hv, radiationPart,
      fromFrame_var hv, Option.some.injEq] at harr
    rw [← harr]
    rfl
  have hdep : DependsOn (rowsOf .radiation rs) (radiationKey main) v := by
    refine (lookupRow_iff [.freq main, .radiatingDof, .influencedDof] (envCols ++ [.direction]) _ _).1 fun r hr => ?_
    rw [← hval]
    exact hcomp r hr r.cell ⟨⟨(mem_rowsOf.1 hr).2.2, rfl, rfl, rfl, rfl, rfl, rfl, rfl, rfl, fun _ => rfl⟩, Or.inl rfl⟩
  -- The place where the labels shared by all radiation results are replaced by those of a diffraction result.
  have key : ∀ r ∈ rowsOf .radiation rs, ∀ s ∈ rowsOf .diffraction rs, ∃ a r', r' ∈ rowsOf .radiation rs ∧ RadiationAt main a r' ∧
      (∀ c ∈ envCols ++ [.direction], Single (rowsOf .radiation rs) c → a c = s.cell c) ∧
      (¬ Single (rowsOf .radiation rs) .speed → a .speed = r.cell .speed) := by
    intro r hr s hs
    classical
    obtain ⟨a, ha⟩ : ∃ a : Col → Cell, a = fun c : Col => if c ∈ envCols ++ [Col.direction] ∧ Single (rowsOf .radiation rs) c then s.cell c else r.cell c :=
      ⟨_, rfl⟩
    have hin : ∀ c ∈ envCols ++ [.direction], Single (rowsOf .radiation rs) c → a c = s.cell c := by
      intro c hc hsing
      rw [ha]
      simp only
      rw [if_pos ⟨hc, hsing⟩]
    have hout : ∀ c, c ∉ envCols ++ [.direction] ∨ ¬ Single (rowsOf .radiation rs) c → a c = r.cell c := by
      intro c hc
      rw [ha]
      simp only
      rw [if_neg]
      rintro ⟨h1, h2⟩
      rcases hc with hc | hc
      · exact hc h1
      · exact hc h2
    have hplace : ds.Place a := by
      refine mixed_place h hr hs (fun c hc => ?_) ?_ (Or.inl (hout _ (Or.inl (by simp [envCols])))) (Or.inl (hout _ (Or.inl (by simp [envCols]))))
        (hout _ (Or.inl (by simp [envCols])))
      · by_cases h1 : Single (rowsOf .radiation rs) c
        · right
          have := hin c (List.mem_append_left _ hc) h1
          by_cases h2 : Single (rowsOf .diffraction rs) c
          · exact Or.inr ⟨h1, h2, Or.inr this⟩
          · exact Or.inl ⟨h2, this⟩
        · exact Or.inl ⟨h1, hout c (Or.inr h1)⟩
      · by_cases h1 : Single (rowsOf .radiation rs) .direction
        · exact Or.inl (hin _ (by simp) h1)
        · exact Or.inr ⟨h1, hout _ (Or.inr h1)⟩
    have hx : arr.val a = some (r.value v) := by
      rw [hval]
      refine lookupRow_at hdep hr fun c hc => ?_
      by_cases h1 : c ∈ envCols ++ [.direction] ∧ Single (rowsOf .radiation rs) c
      · refine Or.inr ⟨_, single_squeezed h1.1 ?_ h1.2 hr⟩
        have h2 := h1.1
        revert h2
        simp only [envCols]
        cases c <;> simp
      · refine Or.inl (hout c ?_)
        by_cases h2 : c ∈ envCols ++ [.direction]
        · exact Or.inr fun h3 => h1 ⟨h2, h3⟩
        · exact Or.inl h2
    obtain ⟨r', hr', hat, _⟩ := hsound a _ hplace hx
    exact ⟨a, r', hr', hat, hin, fun h1 => hout _ (Or.inr h1)⟩
  refine ⟨hdep, ⟨fun c hc hsing r hr s hs => ?_, fun hsing r hr hU s hs => ?_⟩⟩
  · cases hk : s.kind with
    | radiation => exact hsing s (List.mem_filter.2 ⟨hs, by simp [hk]⟩) r hr
    | diffraction =>
      obtain ⟨a, r', hr', hat, hin, _⟩ := key r hr s (List.mem_filter.2 ⟨hs, by simp [hk]⟩)
      rw [← hin c (List.mem_append_left _ hc) hsing, hsing r hr r' hr']
      simp only [envCols, List.mem_cons, List.not_mem_nil, or_false] at hc
      rcases hc with rfl | rfl | rfl | rfl | rfl
      · exact hat.g
      · exact hat.rho
      · exact hat.body
      · exact hat.depth
      · exact hat.speed
  · cases hk : s.kind with
    | radiation => exact hsing s (List.mem_filter.2 ⟨hs, by simp [hk]⟩) r hr
    | diffraction =>
      obtain ⟨a, r', hr', hat, hin, hsp⟩ := key r hr s (List.mem_filter.2 ⟨hs, by simp [hk]⟩)
      rw [← hin .direction (by simp) hsing, hsing r hr r' hr']
      refine hat.direction ?_
      by_cases h1 : Single (rowsOf .radiation rs) .speed
      · rw [h1 r' hr' r hr]
        exact hU
      · rw [← hat.speed, hsp h1]
        exact hU

/-- The diffraction results are found at their coordinates if and only if those with the same coordinates have the same values and the
radiation results have the same range. -/
theorem diffraction_faithful_iff [Add V] {main : FreqType} {rs : List (Rec V)} {ds : DS V} (h : assemble main rs = some ds) {v : Var}
    (hv : v ∈ [Var.diffractionForce, .froudeKrylov]) (hne : rowsOf .diffraction rs ≠ []) :
    Faithful ds v (fun r => r.value v) (rowsOf .diffraction rs) (DiffractionAt main) (DiffractionAt main) ↔
      DependsOn (rowsOf .diffraction rs) (diffractionKey main) v ∧ DiffractionRange (withSurface rs) := by
  constructor
  swap
  · rintro ⟨hk, hg⟩
    exact diffraction_faithful h hg hv hk hne
  rintro ⟨arr, harr, hsound, hcomp, _⟩
  have hval : arr.val = lookupRow [.freq main, .direction, .influencedDof] envCols (rowsOf .diffraction rs) v := by
    obtain ⟨d, hs, he, hvar⟩ := assemble_spec h
    rw [hvar v (by simp only [List.mem_cons, List.not_mem_nil, or_false] at hv ⊢; tauto), (hs.diffraction hne).2.1 v hv, diffractionPart,
      fromFrame_var hv, Option.some.injEq] at harr
    rw [← harr]
    rfl
  have hdep : DependsOn (rowsOf .diffraction rs) (diffractionKey main) v := by
    refine (lookupRow_iff [.freq main, .direction, .influencedDof] envCols _ _).1 fun r hr => ?_
    rw [← hval]
    exact hcomp r hr r.cell ⟨(mem_rowsOf.1 hr).2.2, rfl, rfl, rfl, rfl, rfl, rfl, rfl, rfl⟩
  refine ⟨hdep, fun c hc hsing s hs r hr => ?_⟩
  cases hk : r.kind with
  | diffraction => exact hsing r (List.mem_filter.2 ⟨hr, by simp [hk]⟩) s hs
  | radiation =>
    have hr' : r ∈ rowsOf .radiation rs := List.mem_filter.2 ⟨hr, by simp [hk]⟩
    classical
    obtain ⟨a, ha⟩ : ∃ a : Col → Cell, a = fun c : Col => if (c ∈ envCols ∧ Single (rowsOf .diffraction rs) c) ∨ c = Col.radiatingDof then r.cell c
      else s.cell c := ⟨_, rfl⟩
    have hin : ∀ c ∈ envCols, Single (rowsOf .diffraction rs) c → a c = r.cell c := by
      intro c hc hsing
      rw [ha]
      simp only
      rw [if_pos (Or.inl ⟨hc, hsing⟩)]
    have hout : ∀ c, (c ∉ envCols ∨ ¬ Single (rowsOf .diffraction rs) c) → c ≠ .radiatingDof → a c = s.cell c := by
      intro c hc hc'
      rw [ha]
      simp only
      rw [if_neg]
      rintro (⟨h1, h2⟩ | h1)
      · rcases hc with hc | hc
        · exact hc h1
        · exact hc h2
      · exact hc' h1
    have hplace : ds.Place a := by
      refine mixed_place h hr' hs (fun c hc => ?_) (Or.inl (hout _ (Or.inl (by simp [envCols])) (by simp)))
        (Or.inr (hout _ (Or.inl (by simp [envCols])) (by simp))) (Or.inr (hout _ (Or.inl (by simp [envCols])) (by simp))) ?_
      · have hcr : c ≠ .radiatingDof := by
          rintro rfl
          simp [envCols] at hc
        by_cases h1 : Single (rowsOf .diffraction rs) c
        · have := hin c hc h1
          by_cases h2 : Single (rowsOf .radiation rs) c
          · exact Or.inr (Or.inr ⟨h2, h1, Or.inl this⟩)
          · exact Or.inl ⟨h2, this⟩
        · exact Or.inr (Or.inl ⟨h1, hout c (Or.inr h1) hcr⟩)
      · rw [ha]
        simp
    have hx : arr.val a = some (s.value v) := by
      rw [hval]
      refine lookupRow_at hdep hs fun c hc => ?_
      by_cases h1 : c ∈ envCols ∧ Single (rowsOf .diffraction rs) c
      · refine Or.inr ⟨_, single_squeezed h1.1 ?_ h1.2 hs⟩
        have h2 := h1.1
        revert h2
        simp only [envCols]
        cases c <;> simp
      · refine Or.inl (hout c ?_ ?_)
        · by_cases h2 : c ∈ envCols
          · exact Or.inr fun h3 => h1 ⟨h2, h3⟩
          · exact Or.inl h2
        · rintro rfl
          simp [envCols] at hc
    obtain ⟨s', hs', hat, _⟩ := hsound a _ hplace hx
    rw [← hin c hc hsing, hsing s hs s' hs']
    simp only [envCols, List.mem_cons, List.not_mem_nil, or_false] at hc
    rcases hc with rfl | rfl | rfl | rfl | rfl
    · exact hat.g
    · exact hat.rho
    · exact hat.body
    · exact hat.depth
    · exact hat.speed

end

/-! ## Cases -/

/-- A row with the given body, gravity, speed, direction and values. -/
noncomputable def rowOf (k : Kind) (body : String) (g U dir : ℝ) (value : Var → ℝ) : Rec ℝ where
  kind := k
  freeSurface := 0
  cell c := match c with
    | .g => .num g
    | .rho => .num (1000 : ℝ)
    | .bodyName => .str body
    | .waterDepth => .num ⊤
    | .speed => .num U
    | .direction => .num dir
    | .freq _ => .num (1 : ℝ)
    | .radiatingDof => .str "Heave"
    | .influencedDof => .str "Heave"
    | .theta => .str ""
  value := value

theorem withSurface_all (l : List (Rec ℝ)) (h : ∀ r ∈ l, r.freeSurface = 0) : withSurface l = l := by
  unfold withSurface
  rw [List.filter_eq_self]
  intro r hr
  simpa using h r hr

/-- Radiation at one gravity and diffraction at two. -/
noncomputable def twoGravities : List (Rec ℝ) :=
  [rowOf .radiation "float" 9.81 0 0 fun _ => 3, rowOf .diffraction "float" 9.81 0 0 fun _ => 5, rowOf .diffraction "float" 1.62 0 0 fun _ => 7]

theorem twoGravities_rows : withSurface twoGravities = twoGravities ∧
    rowsOf .radiation twoGravities = [rowOf .radiation "float" 9.81 0 0 fun _ => 3] ∧
    rowsOf .diffraction twoGravities = [rowOf .diffraction "float" 9.81 0 0 fun _ => 5, rowOf .diffraction "float" 1.62 0 0 fun _ => 7] := by
  have hw : withSurface twoGravities = twoGravities := withSurface_all _ (by
    intro r hr
    simp only [twoGravities, List.mem_cons, List.not_mem_nil, or_false] at hr
    rcases hr with rfl | rfl | rfl <;> rfl)
  refine ⟨hw, ?_, ?_⟩
  · unfold rowsOf
    rw [hw]
    simp [ofKind, twoGravities, rowOf]
  · unfold rowsOf
    rw [hw]
    simp [ofKind, twoGravities, rowOf]

/-- The radiation results at one gravity are read at another one, at which only diffraction problems have been solved. -/
theorem gravity_violated : ∃ ds, assemble .omega twoGravities = some ds ∧
    ¬ Faithful ds .addedMass (fun r => r.value .addedMass) (rowsOf .radiation twoGravities) (RadiationAt .omega)
      (RadiationFound .omega twoGravities) := by
  obtain ⟨h0, h1, h2⟩ := twoGravities_rows
  obtain ⟨ds, hds⟩ := (assemble_ok_iff .omega twoGravities).2 (by
    refine ⟨by simp [twoGravities], ?_⟩
    intro c hc _ hD r hr s hs
    rw [h1] at hr
    simp only [List.mem_singleton] at hr
    subst hr
    by_cases hg : c = .g
    · subst hg
      exfalso
      rw [h2] at hD
      have := hD (rowOf .diffraction "float" 9.81 0 0 fun _ => 5) (by simp) (rowOf .diffraction "float" 1.62 0 0 fun _ => 7) (by simp)
      simp only [rowOf, Cell.num.injEq, WithTop.coe_inj] at this
      norm_num at this
    · rw [h2] at hs
      simp only [List.mem_cons, List.not_mem_nil, or_false] at hs
      rcases hs with rfl | rfl <;> cases c <;> first | rfl | exact absurd rfl hg)
  refine ⟨ds, hds, fun hf => ?_⟩
  have := ((radiation_faithful_iff hds (by simp) (by rw [h1]; simp)).1 hf).2.env .g (by simp [envCols])
  rw [show ofKind .radiation (withSurface twoGravities) = _ from h1, h0] at this
  have h3 := this (by
    intro r hr s hs
    simp only [List.mem_singleton] at hr hs
    rw [hr, hs]) _ (List.mem_singleton.2 rfl) (rowOf .diffraction "float" 1.62 0 0 fun _ => 7) (by simp [twoGravities])
  simp only [rowOf, Cell.num.injEq, WithTop.coe_inj] at h3
  norm_num at h3

/-- Two results with the same coordinates, for instance of two bodies with the same name. -/
noncomputable def twoBodies : List (Rec ℝ) :=
  [rowOf .radiation "float" 9.81 0 0 fun _ => 3, rowOf .radiation "float" 9.81 0 0 fun _ => 4]

/-- Only the first of two results with the same coordinates is kept. -/
theorem same_name_violated : ∃ ds, assemble .omega twoBodies = some ds ∧
    ¬ Faithful ds .addedMass (fun r => r.value .addedMass) (rowsOf .radiation twoBodies) (RadiationAt .omega)
      (RadiationFound .omega twoBodies) := by
  have hw : withSurface twoBodies = twoBodies := withSurface_all _ (by
    intro r hr
    simp only [twoBodies, List.mem_cons, List.not_mem_nil, or_false] at hr
    rcases hr with rfl | rfl <;> rfl)
  have h1 : rowsOf .radiation twoBodies = twoBodies := by
    unfold rowsOf
    rw [hw]
    simp [ofKind, twoBodies, rowOf]
  have h2 : rowsOf .diffraction twoBodies = [] := by
    unfold rowsOf
    rw [hw]
    simp [ofKind, twoBodies, rowOf]
  obtain ⟨ds, hds⟩ := (assemble_ok_iff .omega twoBodies).2 (by
    refine ⟨by simp [twoBodies], ?_⟩
    intro c hc _ _ r hr s hs
    rw [h2] at hs
    cases hs)
  refine ⟨ds, hds, fun hf => ?_⟩
  have := ((radiation_faithful_iff hds (by simp) (by rw [h1]; simp [twoBodies])).1 hf).1
  rw [h1] at this
  have h3 := this (rowOf .radiation "float" 9.81 0 0 fun _ => 3) (by simp [twoBodies]) (rowOf .radiation "float" 9.81 0 0 fun _ => 4)
    (by simp [twoBodies]) (fun c _ => rfl)
  simp only [rowOf] at h3
  norm_num at h3

/-- Forward speed at two gravities: the waves of the first one are overtaken, so the encounter direction differs. -/
noncomputable def twoEncounters : List (Rec ℝ) :=
  [rowOf .diffraction "float" 9.81 5 0 (fun _ => 0), rowOf .diffraction "float" 1.62 5 0 (fun v => if v = .encounterDirection then Real.pi else 0)]

/-- The encounter direction is not indexed by the gravity nor by the depth, on which it depends. -/
theorem encounter_direction_violated : ∃ ds arr, assemble .omega twoEncounters = some ds ∧ ds.var .encounterDirection = some arr ∧
    ¬ ∀ r ∈ withSurface twoEncounters, arr.val r.cell = some (r.value .encounterDirection) := by
  have hw : withSurface twoEncounters = twoEncounters := withSurface_all _ (by
    intro r hr
    simp only [twoEncounters, List.mem_cons, List.not_mem_nil, or_false] at hr
    rcases hr with rfl | rfl <;> rfl)
  have h1 : rowsOf .radiation twoEncounters = [] := by
    unfold rowsOf
    rw [hw]
    simp [ofKind, twoEncounters, rowOf]
  obtain ⟨ds, hds⟩ := (assemble_ok_iff .omega twoEncounters).2 (by
    refine ⟨by simp [twoEncounters], ?_⟩
    intro c hc _ _ r hr s hs
    rw [h1] at hr
    cases hr)
  obtain ⟨_, arr, harr, hiff⟩ := encounter_coordinates hds (by
    rw [hw]
    intro h
    have := h (rowOf .diffraction "float" 9.81 5 0 (fun _ => 0)) (by simp [twoEncounters])
    simp only [rowOf, Cell.num.injEq] at this
    have h5 : ((5 : ℝ) : WithTop ℝ) = ((0 : ℝ) : WithTop ℝ) := this
    rw [WithTop.coe_inj] at h5
    norm_num at h5)
  refine ⟨ds, arr, hds, harr, fun h => ?_⟩
  have := hiff.1 h
  rw [hw] at this
  have h3 := this (rowOf .diffraction "float" 9.81 5 0 (fun _ => 0)) (by simp [twoEncounters])
    (rowOf .diffraction "float" 1.62 5 0 (fun v => if v = .encounterDirection then Real.pi else 0)) (by simp [twoEncounters]) (by
      intro c hc
      simp only [List.mem_cons, List.not_mem_nil, or_false] at hc
      rcases hc with rfl | rfl | rfl <;> rfl)
  simp only [rowOf, if_true] at h3
  exact Real.pi_ne_zero h3.symm

/-- Radiation and diffraction at two directions and one speed. -/
noncomputable def regularRows : List (Rec ℝ) :=
  [rowOf .radiation "float" 9.81 0 0 (fun _ => 3), rowOf .diffraction "float" 9.81 0 0 (fun _ => 5), rowOf .diffraction "float" 9.81 0 1 (fun _ => 7)]

/-- The conditions of the theorems hold for ordinary results. -/
example : ∃ ds, assemble .omega regularRows = some ds ∧
    Faithful ds .addedMass (fun r => r.value .addedMass) (rowsOf .radiation regularRows) (RadiationAt .omega) (RadiationFound .omega regularRows) ∧
    Faithful ds .excitation (fun r => r.value .froudeKrylov + r.value .diffractionForce) (rowsOf .diffraction regularRows) (DiffractionAt .omega)
      (DiffractionAt .omega) := by
  have hw : withSurface regularRows = regularRows := withSurface_all _ (by
    intro r hr
    simp only [regularRows, List.mem_cons, List.not_mem_nil, or_false] at hr
    rcases hr with rfl | rfl | rfl <;> rfl)
  have h1 : rowsOf .radiation regularRows = [rowOf .radiation "float" 9.81 0 0 (fun _ => 3)] := by
    unfold rowsOf
    rw [hw]
    simp [ofKind, regularRows, rowOf]
  have h2 : rowsOf .diffraction regularRows = [rowOf .diffraction "float" 9.81 0 0 (fun _ => 5), rowOf .diffraction "float" 9.81 0 1 (fun _ => 7)] := by
    unfold rowsOf
    rw [hw]
    simp [ofKind, regularRows, rowOf]
  have hsame : ∀ c ∈ envCols, ∀ r ∈ regularRows, ∀ s ∈ regularRows, s.cell c = r.cell c := by
    intro c hc r hr s hs
    simp only [regularRows, List.mem_cons, List.not_mem_nil, or_false] at hr hs
    simp only [envCols, List.mem_cons, List.not_mem_nil, or_false] at hc
    rcases hr with rfl | rfl | rfl <;> rcases hs with rfl | rfl | rfl <;> rcases hc with rfl | rfl | rfl | rfl | rfl <;> rfl
  have hR : RadiationRange (withSurface regularRows) := by
    rw [hw]
    refine ⟨fun c hc _ r hr s hs => hsame c hc r (List.mem_filter.1 hr).1 s hs, fun _ r hr hU => ?_⟩
    have hr' : r ∈ rowsOf .radiation regularRows := by
      rw [rowsOf, hw]
      exact hr
    rw [h1] at hr'
    simp only [List.mem_singleton] at hr'
    subst hr'
    exact absurd rfl hU
  have hD : DiffractionRange (withSurface regularRows) := by
    rw [hw]
    exact fun c hc _ r hr s hs => hsame c hc r (List.mem_filter.1 hr).1 s hs
  have hdep : ∀ v, DependsOn (rowsOf .diffraction regularRows) (diffractionKey .omega) v := by
    intro v r hr s hs hrs
    have := hrs .direction (by simp [diffractionKey])
    rw [h2] at hr hs
    simp only [List.mem_cons, List.not_mem_nil, or_false] at hr hs
    rcases hr with rfl | rfl <;> rcases hs with rfl | rfl <;> first | rfl | (simp only [rowOf, Cell.num.injEq, WithTop.coe_inj] at this; norm_num at this)
  obtain ⟨ds, hds⟩ := assemble_ok .omega regularRows (by simp [regularRows]) hR
  refine ⟨ds, hds, radiation_faithful hds hR (by simp) ?_ (by rw [h1]; simp), excitation_faithful hds hD (hdep _) (hdep _) (by rw [h2]; simp)⟩
  intro r hr s hs _
  rw [h1] at hr hs
  simp only [List.mem_singleton] at hr hs
  rw [hr, hs]


end Verif.Datasets
