import Verif.Datasets.ExpandProps
import Verif.Datasets.AssembleIff
import Verif.Datasets.FillModel
import Mathlib.Data.Finset.Max

/-!
# C49, C50: a filled dataset holds the value of each requested problem at its coordinates

The two halves together: whatever the test matrix, the conditions under which the assembly of a dataset is faithful hold.
-/

namespace Verif.Datasets

/-! ## The main frequency -/

/-- The main type of frequency is one of the most common. -/
theorem mainFreq_spec {l : List FreqType} {k : FreqType} (h : mainFreq l = some k) : k ∈ l ∧ ∀ k' ∈ l, l.count k' ≤ l.count k := by
  unfold mainFreq at h
  refine ⟨List.mem_of_find?_eq_some h, ?_⟩
  have := List.find?_some h
  simpa using this

theorem mainFreq_some {l : List FreqType} (h : l ≠ []) : ∃ k, mainFreq l = some k := by
  obtain ⟨x, hx⟩ := List.exists_mem_of_ne_nil l h
  obtain ⟨k, hk, hm⟩ := Finset.exists_max_image l.toFinset (fun k => l.count k) ⟨x, by simpa using hx⟩
  cases hf : mainFreq l with
  | some k => exact ⟨k, rfl⟩
  | none =>
    exfalso
    unfold mainFreq at hf
    have := List.find?_eq_none.1 hf k (by simpa using hk)
    simp only [decide_eq_true_eq] at this
    exact this fun k' hk' => hm k' (by simpa using hk')

/-! ## Specification -/

/-- The coordinates of a problem and an influenced dof. Without forward speed a radiation problem has no direction. -/
structure PbAt (main : FreqType) (q : Pb) (dof : String) (a : Col → Cell) : Prop where
  influenced : a .influencedDof = .str dof
  freq : a (.freq main) = .num q.f
  env : match q with
    | .diffraction body _ _ dir h U ρ g => a .bodyName = .str body ∧ a .direction = .num dir ∧ a .waterDepth = .num h ∧ a .speed = .num U ∧
        a .rho = .num ρ ∧ a .g = .num g
    | .radiation body _ _ rdof dir h U ρ g => a .bodyName = .str body ∧ a .radiatingDof = .str rdof ∧ a .waterDepth = .num h ∧
        a .speed = .num U ∧ a .rho = .num ρ ∧ a .g = .num g ∧ (U ≠ 0 → a .direction = .num dir)

/-- The same with the direction of the problem in all cases. -/
def PbStrict (main : FreqType) (q : Pb) (dof : String) (a : Col → Cell) : Prop :=
  PbAt main q dof a ∧ match q with
    | .diffraction .. => True
    | .radiation _ _ _ _ dir .. => a .direction = .num dir

/-- The kind of a problem. -/
def Pb.kind : Pb → Kind
  | .diffraction .. => .diffraction
  | .radiation .. => .radiation

/-- The dataset answers for a kind of problems: a value found at a place is the one of the requested problem with these coordinates,
and the value of each requested problem is found at its coordinates. -/
def Answers {B V : Type} (t : TestMatrix) (bodies : List (String × B)) (dofs : B → List String) (ds : DS V) (main : FreqType) (k : Kind)
    (v : Var) (value : B → Pb → String → V) : Prop :=
  (∃ q, Requested t bodies q ∧ q.kind = k ∧ ∃ b, (q.body, b) ∈ bodies ∧ dofs b ≠ []) →
  ∃ arr, ds.var v = some arr ∧
    (∀ a x, ds.Place a → arr.val a = some x → ∃ q b dof, Requested t bodies q ∧ q.kind = k ∧ (q.body, b) ∈ bodies ∧ dof ∈ dofs b ∧
      PbAt main q dof a ∧ x = value b q dof) ∧
    (∀ q b dof, Requested t bodies q → q.kind = k → (q.body, b) ∈ bodies → dof ∈ dofs b →
      ∀ a, PbStrict main q dof a → arr.val a = some (value b q dof))

/-! ## Rows -/

section
variable {B V : Type}

theorem pbRow_kind (conv : Pb → FreqType → WithTop ℝ) (value : B → Pb → String → Var → V) (b : B) (q : Pb) (d : String) :
    (pbRow conv value b q d).kind = q.kind := by
  cases q <;> rfl

theorem pbRow_value (conv : Pb → FreqType → WithTop ℝ) (value : B → Pb → String → Var → V) (b : B) (q : Pb) (d : String) (v : Var) :
    (pbRow conv value b q d).value v = value b q d v := by
  cases q <;> rfl

theorem pbRow_surface (conv : Pb → FreqType → WithTop ℝ) (value : B → Pb → String → Var → V) (b : B) (q : Pb) (d : String) :
    (pbRow conv value b q d).freeSurface = 0 := by
  cases q <;> rfl

theorem forall2_right {α β : Type} {R : α → β → Prop} {l : List α} {m : List β} (h : List.Forall₂ R l m) : ∀ b ∈ m, ∃ a ∈ l, R a b := by
  induction h with
  | nil => simp
  | cons hp _ ih =>
    intro b hb
    rcases List.mem_cons.1 hb with rfl | hb
    · exact ⟨_, List.mem_cons_self, hp⟩
    · obtain ⟨a, ha, h⟩ := ih b hb
      exact ⟨a, List.mem_cons_of_mem _ ha, h⟩

theorem forall2_left_mem {α β : Type} {R : α → β → Prop} {l : List α} {m : List β} (h : List.Forall₂ R l m) : ∀ a ∈ l, ∃ b ∈ m, R a b := by
  induction h with
  | nil => simp
  | cons hp _ ih =>
    intro a ha
    rcases List.mem_cons.1 ha with rfl | ha
    · exact ⟨_, List.mem_cons_self, hp⟩
    · obtain ⟨b, hb, h⟩ := ih a ha
      exact ⟨b, List.mem_cons_of_mem _ hb, h⟩

theorem builds_mkPb {E : Type} {check : B → Pb → Except E Unit} {bodies : List (String × B)} {q : Pb} {p : B × Pb}
    (h : Builds (mkPb check) bodies q p) : p.2 = q ∧ (q.body, p.1) ∈ bodies := by
  obtain ⟨b, hb, hm⟩ := h
  unfold mkPb at hm
  cases hc : check b q with
  | error e => rw [hc] at hm; cases hm
  | ok u =>
    rw [hc] at hm
    injection hm with hm
    subst hm
    exact ⟨rfl, hb⟩

/-- The problems that are solved are those requested. -/
theorem mem_problems {E : Type} {check : B → Pb → Except E Unit} {sort : List (B × Pb) → List (B × Pb)} (hs : ∀ l, (sort l).Perm l)
    {t : TestMatrix} {bodies : List (String × B)} {ps : List (B × Pb)} (h : problemsFromDataset (mkPb check) sort t bodies = .ok ps)
    (b : B) (q : Pb) : (b, q) ∈ ps ↔ Requested t bodies q ∧ (q.body, b) ∈ bodies := by
  obtain ⟨qs, hq, _, ps', hf, hp⟩ := (expand_complete hs h).each
  have hn := (accepted_of_ok h).names
  rw [hp.mem_iff]
  constructor
  · intro hm
    obtain ⟨q', hq', hb⟩ := forall2_right hf _ hm
    obtain ⟨h1, h2⟩ := builds_mkPb hb
    simp only at h1 h2
    subst h1
    exact ⟨(hq q).1 hq', h2⟩
  · rintro ⟨hr, hb⟩
    obtain ⟨⟨b', q'⟩, hm, hbd⟩ := forall2_left_mem hf q ((hq q).2 hr)
    obtain ⟨h1, h2⟩ := builds_mkPb hbd
    simp only at h1 h2
    subst h1
    have e1 := (lookup_mem hn _ _).2 hb
    have e2 := (lookup_mem hn _ _).2 h2
    rw [e1] at e2
    injection e2 with e2
    rw [e2]
    exact hm

theorem mem_recordsOf {dofs : B → List String} {conv : Pb → FreqType → WithTop ℝ} {value : B → Pb → String → Var → V} {ps : List (B × Pb)}
    {r : Rec V} : r ∈ recordsOf dofs conv value ps ↔ ∃ b q d, (b, q) ∈ ps ∧ d ∈ dofs b ∧ r = pbRow conv value b q d := by
  unfold recordsOf
  simp only [List.mem_flatMap, List.mem_map, Prod.exists]
  constructor
  · rintro ⟨b, q, hp, d, hd, rfl⟩
    exact ⟨b, q, d, hp, hd, rfl⟩
  · rintro ⟨b, q, d, hp, hd, rfl⟩
    exact ⟨b, q, hp, d, hd, rfl⟩

theorem withSurface_records (dofs : B → List String) (conv : Pb → FreqType → WithTop ℝ) (value : B → Pb → String → Var → V)
    (ps : List (B × Pb)) : withSurface (recordsOf dofs conv value ps) = recordsOf dofs conv value ps := by
  unfold withSurface
  rw [List.filter_eq_self]
  intro r hr
  obtain ⟨b, q, d, _, _, rfl⟩ := mem_recordsOf.1 hr
  simpa using pbRow_surface conv value b q d

end

section
variable {B V : Type}

/-- A row that is found at the coordinates of its problem. -/
theorem pbRow_at {conv : Pb → FreqType → WithTop ℝ} {value : B → Pb → String → Var → V} {main : FreqType} {b : B} {q : Pb} {d : String}
    (hc : conv q main = q.f) (a : Col → Cell) :
    (q.kind = .radiation → (RadiationAt main a (pbRow conv value b q d) ↔ PbAt main q d a)) ∧
    (q.kind = .diffraction → (DiffractionAt main a (pbRow conv value b q d) ↔ PbAt main q d a)) := by
  cases q with
  | diffraction body ft f dir h U ρ g =>
    refine ⟨fun h => (by cases h), fun _ => ?_⟩
    have hf : (pbRow conv value b (Pb.diffraction body ft f dir h U ρ g) d).cell (.freq main) = .num f := by
      simp only [pbRow]
      rw [hc]
      rfl
    constructor
    · intro ha
      exact ⟨ha.influenced, ha.freq.trans hf, ha.body, ha.direction, ha.depth, ha.speed, ha.rho, ha.g⟩
    · rintro ⟨h1, h2, h3, h4, h5, h6, h7, h8⟩
      exact ⟨rfl, h8, h7, h3, h5, h6, h2.trans hf.symm, h1, h4⟩
  | radiation body ft f rdof dir h U ρ g =>
    refine ⟨fun _ => ?_, fun h => (by cases h)⟩
    have hf : (pbRow conv value b (Pb.radiation body ft f rdof dir h U ρ g) d).cell (.freq main) = .num f := by
      simp only [pbRow]
      rw [hc]
      rfl
    have hU : (pbRow conv value b (Pb.radiation body ft f rdof dir h U ρ g) d).cell .speed ≠ .num 0 ↔ U ≠ 0 := by
      simp only [pbRow, ne_eq, Cell.num.injEq]
      rw [WithTop.coe_eq_zero]
    constructor
    · intro ha
      exact ⟨ha.influenced, ha.freq.trans hf, ha.body, ha.radiating, ha.depth, ha.speed, ha.rho, ha.g, fun h => ha.direction (hU.2 h)⟩
    · rintro ⟨h1, h2, h3, h4, h5, h6, h7, h8, h9⟩
      exact ⟨rfl, h8, h7, h3, h5, h6, h2.trans hf.symm, h4, h1, fun h => h9 (hU.1 h)⟩

/-- The type of frequency of the requested problems. -/
theorem requested_freq {t : TestMatrix} {bodies : List (String × B)} {q : Pb} (h : Requested t bodies q) : t.HasFreq q.ft q.f := by
  cases q with
  | diffraction => exact h.1.1
  | radiation => exact h.1.1

/-- The rows of the requested problems. -/
structure Rows (t : TestMatrix) (bodies : List (String × B)) (dofs : B → List String) (conv : Pb → FreqType → WithTop ℝ)
    (value : B → Pb → String → Var → V) (rs : List (Rec V)) : Prop where
  mem : ∀ r, r ∈ rs ↔ ∃ b q d, Requested t bodies q ∧ (q.body, b) ∈ bodies ∧ d ∈ dofs b ∧ r = pbRow conv value b q d

theorem Rows.radiation {t : TestMatrix} {bodies : List (String × B)} {dofs : B → List String} {conv : Pb → FreqType → WithTop ℝ}
    {value : B → Pb → String → Var → V} {rs : List (Rec V)} (h : Rows t bodies dofs conv value rs) (r : Rec V) :
    r ∈ ofKind .radiation rs ↔ ∃ b body ft f rdof dir h' U ρ g d, Requested t bodies (.radiation body ft f rdof dir h' U ρ g) ∧
      (body, b) ∈ bodies ∧ d ∈ dofs b ∧ r = pbRow conv value b (.radiation body ft f rdof dir h' U ρ g) d := by
  simp only [ofKind, List.mem_filter, h.mem, decide_eq_true_eq]
  constructor
  · rintro ⟨⟨b, q, d, hq, hb, hd, rfl⟩, hk⟩
    rw [pbRow_kind] at hk
    cases q with
    | diffraction => cases hk
    | radiation => exact ⟨b, _, _, _, _, _, _, _, _, _, d, hq, hb, hd, rfl⟩
  · rintro ⟨b, body, ft, f, rdof, dir, h', U, ρ, g, d, hq, hb, hd, rfl⟩
    exact ⟨⟨b, _, d, hq, hb, hd, rfl⟩, rfl⟩

theorem Rows.diffraction {t : TestMatrix} {bodies : List (String × B)} {dofs : B → List String} {conv : Pb → FreqType → WithTop ℝ}
    {value : B → Pb → String → Var → V} {rs : List (Rec V)} (h : Rows t bodies dofs conv value rs) (r : Rec V) :
    r ∈ ofKind .diffraction rs ↔ ∃ b body ft f dir h' U ρ g d, Requested t bodies (.diffraction body ft f dir h' U ρ g) ∧
      (body, b) ∈ bodies ∧ d ∈ dofs b ∧ r = pbRow conv value b (.diffraction body ft f dir h' U ρ g) d := by
  simp only [ofKind, List.mem_filter, h.mem, decide_eq_true_eq]
  constructor
  · rintro ⟨⟨b, q, d, hq, hb, hd, rfl⟩, hk⟩
    rw [pbRow_kind] at hk
    cases q with
    | radiation => cases hk
    | diffraction => exact ⟨b, _, _, _, _, _, _, _, _, d, hq, hb, hd, rfl⟩
  · rintro ⟨b, body, ft, f, dir, h', U, ρ, g, d, hq, hb, hd, rfl⟩
    exact ⟨⟨b, _, d, hq, hb, hd, rfl⟩, rfl⟩

/-- Both kinds of problems are requested along the same ranges. -/
theorem Rows.radiationRange {t : TestMatrix} {bodies : List (String × B)} {dofs : B → List String} {conv : Pb → FreqType → WithTop ℝ}
    {value : B → Pb → String → Var → V} {rs : List (Rec V)} (h : Rows t bodies dofs conv value rs) : RadiationRange rs := by
  constructor
  · intro c hc hsing r hr s hs
    cases hk : s.kind with
    | radiation => exact hsing s (List.mem_filter.2 ⟨hs, by simp [hk]⟩) r hr
    | diffraction =>
      have hs' : s ∈ ofKind .diffraction rs := List.mem_filter.2 ⟨hs, by simp [hk]⟩
      obtain ⟨b, body, ft, f, rdof, dir, h', U, ρ, g, d, ⟨⟨hf, hh, hB, hB', hU, hρ, hg⟩, hdof, hd0, hd1⟩, hb, hd, rfl⟩ := (h.radiation r).1 hr
      obtain ⟨b2, body2, ft2, f2, dir2, h2, U2, ρ2, g2, d2, ⟨⟨hf2, hh2, hB2, hB2', hU2, hρ2, hg2⟩, _, _, l, hl, hdl⟩, hb2, hd2, rfl⟩ :=
        (h.diffraction s).1 hs'
      simp only [envCols, List.mem_cons, List.not_mem_nil, or_false] at hc
      rcases hc with rfl | rfl | rfl | rfl | rfl
      · exact hsing _ ((h.radiation _).2 ⟨b, body, ft, f, rdof, dir, h', U, ρ, g2, d, ⟨⟨hf, hh, hB, hB', hU, hρ, hg2⟩, hdof, hd0, hd1⟩, hb, hd, rfl⟩) _ hr
      · exact hsing _ ((h.radiation _).2 ⟨b, body, ft, f, rdof, dir, h', U, ρ2, g, d, ⟨⟨hf, hh, hB, hB', hU, hρ2, hg⟩, hdof, hd0, hd1⟩, hb, hd, rfl⟩) _ hr
      · exact hsing _ ((h.radiation _).2 ⟨b2, body2, ft, f, rdof, dir, h', U, ρ, g, d2, ⟨⟨hf, hh, hB2, hB2', hU, hρ, hg⟩, hdof, hd0, hd1⟩, hb2, hd2, rfl⟩) _ hr
      · exact hsing _ ((h.radiation _).2 ⟨b, body, ft, f, rdof, dir, h2, U, ρ, g, d, ⟨⟨hf, hh2, hB, hB', hU, hρ, hg⟩, hdof, hd0, hd1⟩, hb, hd, rfl⟩) _ hr
      · refine hsing _ ((h.radiation _).2 ⟨b, body, ft, f, rdof, if U2 = 0 then 0 else dir2, h', U2, ρ, g, d,
          ⟨⟨hf, hh, hB, hB', hU2, hρ, hg⟩, hdof, ?_, ?_⟩, hb, hd, rfl⟩) _ hr
        · intro h0
          rw [if_pos h0]
        · intro h0
          rw [if_neg h0, hl]
          exact hdl
  · intro hsing r hr hU0 s hs
    cases hk : s.kind with
    | radiation => exact hsing s (List.mem_filter.2 ⟨hs, by simp [hk]⟩) r hr
    | diffraction =>
      have hs' : s ∈ ofKind .diffraction rs := List.mem_filter.2 ⟨hs, by simp [hk]⟩
      obtain ⟨b, body, ft, f, rdof, dir, h', U, ρ, g, d, ⟨⟨hf, hh, hB, hB', hU, hρ, hg⟩, hdof, hd0, hd1⟩, hb, hd, rfl⟩ := (h.radiation r).1 hr
      obtain ⟨b2, body2, ft2, f2, dir2, h2, U2, ρ2, g2, d2, ⟨⟨hf2, hh2, hB2, hB2', hU2, hρ2, hg2⟩, _, _, l, hl, hdl⟩, hb2, hd2, rfl⟩ :=
        (h.diffraction s).1 hs'
      have hU1 : U ≠ 0 := by
        intro e
        apply hU0
        simp only [pbRow, Cell.num.injEq]
        rw [e]
        rfl
      refine hsing _ ((h.radiation _).2 ⟨b, body, ft, f, rdof, dir2, h', U, ρ, g, d,
          ⟨⟨hf, hh, hB, hB', hU, hρ, hg⟩, hdof, fun e => absurd e hU1, fun _ => ?_⟩, hb, hd, rfl⟩) _ hr
      rw [hl]
      exact hdl

theorem Rows.diffractionRange {t : TestMatrix} {bodies : List (String × B)} {dofs : B → List String} {conv : Pb → FreqType → WithTop ℝ}
    {value : B → Pb → String → Var → V} {rs : List (Rec V)} (h : Rows t bodies dofs conv value rs) : DiffractionRange rs := by
  intro c hc hsing s hs' r hr
  cases hk : r.kind with
  | diffraction => exact hsing r (List.mem_filter.2 ⟨hr, by simp [hk]⟩) s hs'
  | radiation =>
    have hr' : r ∈ ofKind .radiation rs := List.mem_filter.2 ⟨hr, by simp [hk]⟩
    obtain ⟨b2, body2, ft2, f2, rdof, dir2, h2, U2, ρ2, g2, d2, ⟨⟨hf2, hh2, hB2, hB2', hU2, hρ2, hg2⟩, _⟩, hb2, hd2, rfl⟩ := (h.radiation r).1 hr'
    obtain ⟨b, body, ft, f, dir, h', U, ρ, g, d, ⟨⟨hf, hh, hB, hB', hU, hρ, hg⟩, hw⟩, hb, hd, rfl⟩ := (h.diffraction s).1 hs'
    simp only [envCols, List.mem_cons, List.not_mem_nil, or_false] at hc
    rcases hc with rfl | rfl | rfl | rfl | rfl
    · exact hsing _ ((h.diffraction _).2 ⟨b, body, ft, f, dir, h', U, ρ, g2, d, ⟨⟨hf, hh, hB, hB', hU, hρ, hg2⟩, hw⟩, hb, hd, rfl⟩) _ hs'
    · exact hsing _ ((h.diffraction _).2 ⟨b, body, ft, f, dir, h', U, ρ2, g, d, ⟨⟨hf, hh, hB, hB', hU, hρ2, hg⟩, hw⟩, hb, hd, rfl⟩) _ hs'
    · exact hsing _ ((h.diffraction _).2 ⟨b2, body2, ft, f, dir, h', U, ρ, g, d2, ⟨⟨hf, hh, hB2, hB2', hU, hρ, hg⟩, hw⟩, hb2, hd2, rfl⟩) _ hs'
    · exact hsing _ ((h.diffraction _).2 ⟨b, body, ft, f, dir, h2, U, ρ, g, d, ⟨⟨hf, hh2, hB, hB', hU, hρ, hg⟩, hw⟩, hb, hd, rfl⟩) _ hs'
    · exact hsing _ ((h.diffraction _).2 ⟨b, body, ft, f, dir, h', U2, ρ, g, d, ⟨⟨hf, hh, hB, hB', hU2, hρ, hg⟩, hw⟩, hb, hd, rfl⟩) _ hs'

/-- Two requested problems with the same labels are the same. -/
theorem pbRow_inj {t : TestMatrix} {bodies : List (String × B)} (hk : t.keys.length ≤ 1) (hn : (bodies.map (·.1)).Nodup)
    {conv : Pb → FreqType → WithTop ℝ} {value : B → Pb → String → Var → V} (hconv : ∀ q, conv q q.ft = q.f) {b b' : B} {q q' : Pb} {d d' : String}
    (hq : Requested t bodies q) (hq' : Requested t bodies q') (hb : (q.body, b) ∈ bodies) (hb' : (q'.body, b') ∈ bodies) (hkind : q.kind = q'.kind)
    (hkey : ∀ c ∈ (match q.kind with | .radiation => radiationKey t.range.1 | .diffraction => diffractionKey t.range.1),
      (pbRow conv value b q d).cell c = (pbRow conv value b' q' d').cell c) : b = b' ∧ q = q' ∧ d = d' := by
  have f1 := ((mem_range t hk q.ft q.f).2 (requested_freq hq)).1
  have f2 := ((mem_range t hk q'.ft q'.f).2 (requested_freq hq')).1
  have same : q.body = q'.body → b = b' := by
    intro e
    have e1 := (lookup_mem hn _ _).2 hb
    have e2 := (lookup_mem hn _ _).2 hb'
    rw [e, e2] at e1
    injection e1 with e1
    exact e1.symm
  have c1 := hconv q
  have c2 := hconv q'
  rw [f1] at c1
  rw [f2] at c2
  cases q with
  | diffraction body ft f dir h U ρ g =>
    cases q' with
    | radiation => cases hkind
    | diffraction body' ft' f' dir' h' U' ρ' g' =>
      simp only [Pb.kind, diffractionKey, envCols, List.cons_append, List.nil_append, List.forall_mem_cons, pbRow, c1, c2, Pb.f, Cell.num.injEq,
        Cell.str.injEq, WithTop.coe_inj] at hkey
      obtain ⟨e1, e2, e3, e4, e5, e6, e7, e8, _⟩ := hkey
      have f3 : ft = ft' := f1.trans f2.symm
      subst e1 e2 e3 e4 e5 e6 e7 e8 f3
      exact ⟨same rfl, rfl, rfl⟩
  | radiation body ft f rdof dir h U ρ g =>
    cases q' with
    | diffraction => cases hkind
    | radiation body' ft' f' rdof' dir' h' U' ρ' g' =>
      simp only [Pb.kind, radiationKey, envCols, List.cons_append, List.nil_append, List.forall_mem_cons, pbRow, c1, c2, Pb.f, Cell.num.injEq,
        Cell.str.injEq, WithTop.coe_inj] at hkey
      obtain ⟨e1, e2, e3, e4, e5, e6, e7, e8, e9, _⟩ := hkey
      have f3 : ft = ft' := f1.trans f2.symm
      subst e1 e2 e3 e4 e5 e6 e7 e8 e9 f3
      exact ⟨same rfl, rfl, rfl⟩

/-- The values of the rows are determined by their labels. -/
theorem Rows.dependsOn {t : TestMatrix} {bodies : List (String × B)} (hk : t.keys.length ≤ 1) (hn : (bodies.map (·.1)).Nodup)
    {dofs : B → List String} {conv : Pb → FreqType → WithTop ℝ} (hconv : ∀ q, conv q q.ft = q.f)
    {value : B → Pb → String → Var → V} {rs : List (Rec V)} (h : Rows t bodies dofs conv value rs) (v : Var) :
    DependsOn (ofKind .radiation rs) (radiationKey t.range.1) v ∧ DependsOn (ofKind .diffraction rs) (diffractionKey t.range.1) v := by
  constructor
  · intro r hr s hs hrs
    obtain ⟨b, body, ft, f, rdof, dir, h', U, ρ, g, d, hq, hb, hd, rfl⟩ := (h.radiation r).1 hr
    obtain ⟨b2, body2, ft2, f2, rdof2, dir2, h2, U2, ρ2, g2, d2, hq2, hb2, hd2, rfl⟩ := (h.radiation s).1 hs
    obtain ⟨e1, e2, e3⟩ := pbRow_inj hk hn hconv hq hq2 hb hb2 rfl hrs
    rw [e1, e2, e3]
  · intro r hr s hs hrs
    obtain ⟨b, body, ft, f, dir, h', U, ρ, g, d, hq, hb, hd, rfl⟩ := (h.diffraction r).1 hr
    obtain ⟨b2, body2, ft2, f2, dir2, h2, U2, ρ2, g2, d2, hq2, hb2, hd2, rfl⟩ := (h.diffraction s).1 hs
    obtain ⟨e1, e2, e3⟩ := pbRow_inj hk hn hconv hq hq2 hb hb2 rfl hrs
    rw [e1, e2, e3]

/-! ## Theorems -/

/-- Faithful rows answer for the problems. -/
theorem answers_of {t : TestMatrix} {bodies : List (String × B)} {dofs : B → List String} {conv : Pb → FreqType → WithTop ℝ}
    {main : FreqType} {k : Kind} {value : B → Pb → String → Var → V} {rs : List (Rec V)} (h : Rows t bodies dofs conv value rs)
    (hm : ∀ q, Requested t bodies q → conv q main = q.f) {ds : DS V} {v : Var} {val : Rec V → V} {val' : B → Pb → String → V}
    (hval : ∀ b q d, val (pbRow conv value b q d) = val' b q d)
    {at' strict : (Col → Cell) → Rec V → Prop} (hat : ∀ a b q d, q.kind = k → Requested t bodies q → (at' a (pbRow conv value b q d) → PbAt main q d a) ∧
      (PbStrict main q d a → strict a (pbRow conv value b q d)))
    (hf : ofKind k rs ≠ [] → Faithful ds v val (ofKind k rs) at' strict) : Answers t bodies dofs ds main k v val' := by
  rintro ⟨q0, hq0, hk0, b0, hb0, hd0⟩
  obtain ⟨d0, hd0⟩ := List.exists_mem_of_ne_nil _ hd0
  have hne : ofKind k rs ≠ [] := List.ne_nil_of_mem (List.mem_filter.2
    ⟨(h.mem _).2 ⟨b0, q0, d0, hq0, hb0, hd0, rfl⟩, by simp [pbRow_kind, hk0]⟩)
  obtain ⟨arr, harr, hs, hc, _⟩ := hf hne
  refine ⟨arr, harr, fun a x ha hx => ?_, fun q b d hq hk hb hd a hst => ?_⟩
  · obtain ⟨r, hr, har, rfl⟩ := hs a x ha hx
    obtain ⟨hr1, hr2⟩ := List.mem_filter.1 hr
    obtain ⟨b, q, d, hq, hb, hd, rfl⟩ := (h.mem r).1 hr1
    have hk : q.kind = k := by
      rw [← pbRow_kind conv value b q d]
      simpa using hr2
    exact ⟨q, b, d, hq, hk, hb, hd, (hat a b q d hk hq).1 har, hval b q d⟩
  · rw [← hval]
    exact hc _ (List.mem_filter.2 ⟨(h.mem _).2 ⟨b, q, d, hq, hb, hd, rfl⟩, by simp [pbRow_kind, hk]⟩) a ((hat a b q d hk hq).2 hst)

/-- A filled dataset holds the results of the requested problems at their coordinates, and nothing else. -/
theorem fill_answers [Add V] {E : Type} {check : B → Pb → Except E Unit} {sort : List (B × Pb) → List (B × Pb)} (hs : ∀ l, (sort l).Perm l)
    {dofs : B → List String} {conv : Pb → FreqType → WithTop ℝ} (hconv : ∀ q, conv q q.ft = q.f) {value : B → Pb → String → Var → V}
    {t : TestMatrix} {bodies : List (String × B)} {ds : DS V} (h : fillDataset check sort dofs conv value t bodies = some ds) :
    ∃ main, (∀ q, Requested t bodies q → q.ft = main) ∧
      (∀ v ∈ [Var.addedMass, .damping], Answers t bodies dofs ds main .radiation v fun b q d => value b q d v) ∧
      (∀ v ∈ [Var.diffractionForce, .froudeKrylov], Answers t bodies dofs ds main .diffraction v fun b q d => value b q d v) ∧
      Answers t bodies dofs ds main .diffraction .excitation fun b q d => value b q d .froudeKrylov + value b q d .diffractionForce := by
  unfold fillDataset at h
  cases hp : problemsFromDataset (mkPb check) sort t bodies with
  | error e => rw [hp] at h; cases h
  | ok ps =>
    rw [hp] at h
    simp only at h
    rw [Option.bind_eq_some_iff] at h
    obtain ⟨main, hmain, hass⟩ := h
    have hacc := accepted_of_ok hp
    have hk := (keys_le t).2 hacc.oneFrequency
    have hft : ∀ q, Requested t bodies q → q.ft = t.range.1 := fun q hq => ((mem_range t hk q.ft q.f).2 (requested_freq hq)).1
    have hm : main = t.range.1 := by
      obtain ⟨⟨b, q⟩, hbq, rfl⟩ := List.mem_map.1 (mainFreq_spec hmain).1
      exact hft q ((mem_problems hs hp b q).1 hbq).1
    subst hm
    have hrows : Rows t bodies dofs conv value (recordsOf dofs conv value ps) := by
      refine ⟨fun r => ?_⟩
      rw [mem_recordsOf]
      constructor
      · rintro ⟨b, q, d, hbq, hd, rfl⟩
        obtain ⟨h1, h2⟩ := (mem_problems hs hp b q).1 hbq
        exact ⟨b, q, d, h1, h2, hd, rfl⟩
      · rintro ⟨b, q, d, h1, h2, hd, rfl⟩
        exact ⟨b, q, d, (mem_problems hs hp b q).2 ⟨h1, h2⟩, hd, rfl⟩
    have hcf : ∀ q, Requested t bodies q → conv q t.range.1 = q.f := by
      intro q hq
      rw [← hft q hq, hconv]
    have hw := withSurface_records dofs conv value ps
    have hrad : ∀ k : Kind, rowsOf k (recordsOf dofs conv value ps) = ofKind k (recordsOf dofs conv value ps) := by
      intro k
      unfold rowsOf
      rw [hw]
    have hdep := hrows.dependsOn hk hacc.names hconv
    refine ⟨t.range.1, hft, fun v hv => ?_, fun v hv => ?_, ?_⟩
    · refine answers_of hrows hcf (val := fun r => r.value v) (fun b q d => pbRow_value conv value b q d v)
        (at' := RadiationAt t.range.1) (strict := RadiationFound t.range.1 (recordsOf dofs conv value ps)) (fun a b q d hkq hq => ⟨?_, ?_⟩) (fun hne => ?_)
      · exact ((pbRow_at (hcf q hq) a).1 hkq).1
      · rintro ⟨h1, h2⟩
        refine ⟨((pbRow_at (hcf q hq) a).1 hkq).2 h1, Or.inl ?_⟩
        cases q with
        | diffraction => cases hkq
        | radiation => exact h2
      · have := radiation_faithful hass (by rw [hw]; exact hrows.radiationRange) hv (by rw [hrad]; exact (hdep v).1) (by rw [hrad]; exact hne)
        rw [hrad] at this
        exact this
    · refine answers_of hrows hcf (val := fun r => r.value v) (fun b q d => pbRow_value conv value b q d v)
        (at' := DiffractionAt t.range.1) (strict := DiffractionAt t.range.1) (fun a b q d hkq hq => ⟨?_, ?_⟩) (fun hne => ?_)
      · exact ((pbRow_at (hcf q hq) a).2 hkq).1
      · rintro ⟨h1, _⟩
        exact ((pbRow_at (hcf q hq) a).2 hkq).2 h1
      · have := diffraction_faithful hass (by rw [hw]; exact hrows.diffractionRange) hv (by rw [hrad]; exact (hdep v).2) (by rw [hrad]; exact hne)
        rw [hrad] at this
        exact this
    · refine answers_of hrows hcf (val := fun r => r.value .froudeKrylov + r.value .diffractionForce)
        (fun b q d => by rw [pbRow_value, pbRow_value])
        (at' := DiffractionAt t.range.1) (strict := DiffractionAt t.range.1) (fun a b q d hkq hq => ⟨?_, ?_⟩) (fun hne => ?_)
      · exact ((pbRow_at (hcf q hq) a).2 hkq).1
      · rintro ⟨h1, _⟩
        exact ((pbRow_at (hcf q hq) a).2 hkq).2 h1
      · have := excitation_faithful hass (by rw [hw]; exact hrows.diffractionRange) (by rw [hrad]; exact (hdep _).2) (by rw [hrad]; exact (hdep _).2)
          (by rw [hrad]; exact hne)
        rw [hrad] at this
        exact this

/-- A dataset is filled if and only if the matrix is accepted, its problems can be built and at least one of them has a dof. -/
theorem fill_ok_iff [Add V] {E : Type} (check : B → Pb → Except E Unit) (sort : List (B × Pb) → List (B × Pb)) (hs : ∀ l, (sort l).Perm l)
    (dofs : B → List String) (conv : Pb → FreqType → WithTop ℝ) (value : B → Pb → String → Var → V)
    (t : TestMatrix) (bodies : List (String × B)) :
    (∃ ds, fillDataset check sort dofs conv value t bodies = some ds) ↔
      Accepted t bodies ∧ (∀ q, Requested t bodies q → ∃ p, Builds (mkPb check) bodies q p) ∧
        ∃ q b, Requested t bodies q ∧ (q.body, b) ∈ bodies ∧ dofs b ≠ [] := by
  rw [← and_assoc, ← expand_ok_iff (mkPb check) sort hs]
  unfold fillDataset
  constructor
  · rintro ⟨ds, h⟩
    cases hp : problemsFromDataset (mkPb check) sort t bodies with
    | error e => rw [hp] at h; cases h
    | ok ps =>
      rw [hp] at h
      simp only at h
      rw [Option.bind_eq_some_iff] at h
      obtain ⟨main, hmain, hass⟩ := h
      obtain ⟨r, hr⟩ := List.exists_mem_of_ne_nil _ (assemble_some hass).1
      obtain ⟨b, q, d, hbq, hd, rfl⟩ := mem_recordsOf.1 hr
      obtain ⟨h1, h2⟩ := (mem_problems hs hp b q).1 hbq
      exact ⟨⟨ps, rfl⟩, q, b, h1, h2, List.ne_nil_of_mem hd⟩
  · rintro ⟨⟨ps, hp⟩, q, b, hq, hb, hd⟩
    rw [hp]
    simp only
    obtain ⟨main, hmain⟩ := mainFreq_some (l := ps.map fun p => p.2.ft) (by
      intro e
      have := (mem_problems hs hp b q).2 ⟨hq, hb⟩
      rw [List.map_eq_nil_iff] at e
      rw [e] at this
      cases this)
    rw [hmain, Option.bind_some]
    have hrows : Rows t bodies dofs conv value (recordsOf dofs conv value ps) := by
      refine ⟨fun r => ?_⟩
      rw [mem_recordsOf]
      constructor
      · rintro ⟨b, q, d, hbq, hd, rfl⟩
        obtain ⟨h1, h2⟩ := (mem_problems hs hp b q).1 hbq
        exact ⟨b, q, d, h1, h2, hd, rfl⟩
      · rintro ⟨b, q, d, h1, h2, hd, rfl⟩
        exact ⟨b, q, d, (mem_problems hs hp b q).2 ⟨h1, h2⟩, hd, rfl⟩
    obtain ⟨d, hd⟩ := List.exists_mem_of_ne_nil _ hd
    exact assemble_ok main _ (List.ne_nil_of_mem ((hrows.mem _).2 ⟨b, q, d, hq, hb, hd, rfl⟩)) (by rw [withSurface_records]; exact hrows.radiationRange)

end

/-! ## A case -/

/-- The conditions hold for the matrix of `ExpandProps`, whose dataset holds the value of each problem. -/
example : ∃ ds : DS ℝ, fillDataset (E := Unit) (fun _ _ => .ok ()) id (fun _ : ℕ => ["Heave"]) (fun q _ => q.f) (fun b _ _ _ => (b : ℝ)) caseMatrix
    [("float", 0), ("buoy", 1)] = some ds := by
  refine (fill_ok_iff (V := ℝ) (E := Unit) _ _ (fun _ => List.Perm.refl _) _ _ _ _ _).2 ⟨caseMatrix_ok.1, fun q hq => ?_,
    .diffraction "float" .period ((2 : ℝ) : WithTop ℝ) 1 ⊤ 3 1000 9.81, 0, ?_, by simp [Pb.body], by simp⟩
  · have : ∃ B, (q.body, B) ∈ [("float", 0), ("buoy", 1)] := by
      cases q with
      | diffraction b ft f dir h U ρ g => exact hq.1.2.2.1
      | radiation b ft f dof dir h U ρ g => exact hq.1.2.2.1
    obtain ⟨B, hB⟩ := this
    exact ⟨(B, q), B, hB, rfl⟩
  · refine ⟨⟨Or.inl ⟨_, rfl, by simp⟩, rfl, ⟨0, by simp⟩, ?_, ?_, rfl, rfl⟩, ?_, by simp, ⟨_, rfl, by simp⟩⟩
    · intro l hl
      simp only [caseMatrix, Option.some.injEq] at hl
      subst hl
      simp
    · simp [OneOf, caseMatrix]
    · intro h
      have h2 : ((2 : ℝ) : WithTop ℝ) = ((0 : ℝ) : WithTop ℝ) := h
      rw [WithTop.coe_inj] at h2
      norm_num at h2


end Verif.Datasets
