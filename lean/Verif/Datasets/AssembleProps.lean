import Verif.Datasets.AssembleModel
import Mathlib.Data.List.Dedup
import Mathlib.Tactic.Linarith
import Mathlib.Tactic.NormNum

/-!
# C50: each result is found at its own coordinates

A place of a dataset is a choice of one label along each dimension, together with its scalar coordinates (`DS.Place`). `Faithful` says
that the value of a variable at a place is the one of the row of results with these coordinates.
-/

namespace Verif.Datasets

/-! ## Specification -/

/-- The coordinates carried by a dataset once a label has been selected along each dimension. -/
def DS.Place {V : Type} (d : DS V) (a : Col → Cell) : Prop :=
  ∀ c, (∀ l, d.index c = some l → a c ∈ l) ∧ (∀ x, d.scalar c = some x → a c = x)

/-- The coordinates of a row of a radiation result. Without forward speed there is no direction. -/
structure RadiationAt {V : Type} (main : FreqType) (a : Col → Cell) (r : Rec V) : Prop where
  kind : r.kind = .radiation
  g : a .g = r.cell .g
  rho : a .rho = r.cell .rho
  body : a .bodyName = r.cell .bodyName
  depth : a .waterDepth = r.cell .waterDepth
  speed : a .speed = r.cell .speed
  freq : a (.freq main) = r.cell (.freq main)
  radiating : a .radiatingDof = r.cell .radiatingDof
  influenced : a .influencedDof = r.cell .influencedDof
  direction : r.cell .speed ≠ .num 0 → a .direction = r.cell .direction

/-- The coordinates of a row of a diffraction result. -/
structure DiffractionAt {V : Type} (main : FreqType) (a : Col → Cell) (r : Rec V) : Prop where
  kind : r.kind = .diffraction
  g : a .g = r.cell .g
  rho : a .rho = r.cell .rho
  body : a .bodyName = r.cell .bodyName
  depth : a .waterDepth = r.cell .waterDepth
  speed : a .speed = r.cell .speed
  freq : a (.freq main) = r.cell (.freq main)
  influenced : a .influencedDof = r.cell .influencedDof
  direction : a .direction = r.cell .direction

/-- A variable is faithful to rows: a value found at a place comes from a row with these coordinates, and the value of a row is found
at its coordinates. -/
def Faithful {V : Type} (d : DS V) (v : Var) (value : Rec V → V) (rs : List (Rec V)) (at' strict : (Col → Cell) → Rec V → Prop) : Prop :=
  ∃ arr, d.var v = some arr ∧
    (∀ a x, d.Place a → arr.val a = some x → ∃ r ∈ rs, at' a r ∧ x = value r) ∧
    (∀ r ∈ rs, ∀ a, strict a r → arr.val a = some (value r)) ∧
    (∀ c ∈ arr.dims, ∀ r ∈ rs, ∀ a, strict a r → ∃ l, d.index c = some l ∧ a c ∈ l)

/-- The value of a variable is determined by some columns. -/
def DependsOn {V : Type} (rs : List (Rec V)) (cols : List Col) (v : Var) : Prop :=
  ∀ r ∈ rs, ∀ s ∈ rs, (∀ c ∈ cols, r.cell c = s.cell c) → r.value v = s.value v

/-- All rows have the same label in a column. -/
def Single {V : Type} (rs : List (Rec V)) (c : Col) : Prop := ∀ r ∈ rs, ∀ s ∈ rs, r.cell c = s.cell c

/-- When all radiation results have the same label in a column, so have the diffraction results. The directions of the radiation results
matter with forward speed. -/
structure RadiationRange {V : Type} (rs : List (Rec V)) : Prop where
  env : ∀ c ∈ envCols, Single (ofKind .radiation rs) c → ∀ r ∈ ofKind .radiation rs, ∀ s ∈ rs, s.cell c = r.cell c
  direction : Single (ofKind .radiation rs) .direction → ∀ r ∈ ofKind .radiation rs, r.cell .speed ≠ .num 0 → ∀ s ∈ rs,
    s.cell .direction = r.cell .direction

/-- When all diffraction results have the same label in a column, so have the radiation results. -/
def DiffractionRange {V : Type} (rs : List (Rec V)) : Prop :=
  ∀ c ∈ envCols, Single (ofKind .diffraction rs) c → ∀ r ∈ ofKind .diffraction rs, ∀ s ∈ rs, s.cell c = r.cell c

/-! ## Frames -/

section
variable {V : Type}

theorem dropDuplicates_find (cols : List Col) (p : Rec V → Bool)
    (hp : ∀ r s, (∀ c ∈ cols, r.cell c = s.cell c) → p r = p s) (rs : List (Rec V)) :
    (dropDuplicates cols rs).find? p = rs.find? p := by
  induction rs with
  | nil => rfl
  | cons r rs ih =>
    rw [dropDuplicates, List.find?_cons, List.find?_cons]
    cases h : p r with
    | true => rfl
    | false =>
      simp only
      rw [← ih]
      generalize dropDuplicates cols rs = l
      induction l with
      | nil => rfl
      | cons s l ihl =>
        by_cases hs : ∀ c ∈ cols, s.cell c = r.cell c
        · rw [List.filter_cons_of_neg (by simpa using hs), ihl, List.find?_cons, hp s r hs, h]
        · rw [List.filter_cons_of_pos (by simpa using hs), List.find?_cons, List.find?_cons, ihl]

theorem mem_labels (c : Col) (rs : List (Rec V)) (x : Cell) : x ∈ labels c rs ↔ ∃ r ∈ rs, r.cell c = x := by
  classical
  unfold labels
  rw [List.mem_dedup, List.mem_map]

theorem squeezed_eq {dims opt : List Col} {rs : List (Rec V)} {c : Col} {x : Cell} (h : squeezed dims opt rs c = some x) :
    c ∈ opt ∧ c ∉ dims ∧ labels c rs = [x] := by
  unfold squeezed at h
  split_ifs at h with hc
  refine ⟨hc.1, hc.2, ?_⟩
  match hl : labels c rs with
  | [] => rw [hl] at h; cases h
  | [y] => rw [hl] at h; simp only [Option.some.injEq] at h; rw [h]
  | y :: z :: l => rw [hl] at h; cases h

theorem squeezed_cell {dims opt : List Col} {rs : List (Rec V)} {c : Col} {x : Cell} (h : squeezed dims opt rs c = some x)
    {r : Rec V} (hr : r ∈ rs) : r.cell c = x := by
  have := (mem_labels c rs (r.cell c)).2 ⟨r, hr, rfl⟩
  rw [(squeezed_eq h).2.2] at this
  simpa using this

theorem squeezed_single {dims opt : List Col} {rs : List (Rec V)} {c : Col} {x : Cell} (h : squeezed dims opt rs c = some x) :
    Single rs c := by
  intro r hr s hs
  rw [squeezed_cell h hr, squeezed_cell h hs]

theorem lookupRow_eq (dims opt : List Col) (rs : List (Rec V)) (v : Var) (a : Col → Cell) :
    lookupRow dims opt rs v a =
      (rs.find? fun r => open Classical in decide (∀ c ∈ opt ++ dims, r.cell c = (squeezed dims opt rs c).getD (a c))).map
        fun r => r.value v := by
  unfold lookupRow
  rw [dropDuplicates_find]
  intro r s h
  simp only [decide_eq_decide]
  constructor
  · intro hr c hc
    rw [← h c hc, hr c hc]
  · intro hs c hc
    rw [h c hc, hs c hc]

/-- A value comes from a row whose labels are those asked, or the scalar coordinate. -/
theorem lookupRow_sound {dims opt : List Col} {rs : List (Rec V)} {v : Var} {a : Col → Cell} {x : V}
    (h : lookupRow dims opt rs v a = some x) :
    ∃ r ∈ rs, (∀ c ∈ opt ++ dims, r.cell c = a c ∨ ∃ y, squeezed dims opt rs c = some y) ∧ x = r.value v := by
  rw [lookupRow_eq, Option.map_eq_some_iff] at h
  obtain ⟨r, hr, rfl⟩ := h
  refine ⟨r, List.mem_of_find?_eq_some hr, ?_, rfl⟩
  have := List.find?_some hr
  simp only [decide_eq_true_eq] at this
  intro c hc
  have := this c hc
  cases hs : squeezed dims opt rs c with
  | none => rw [hs] at this; exact Or.inl this
  | some y => exact Or.inr ⟨y, rfl⟩

/-- The value of a row is found at its labels when the columns determine it. -/
theorem lookupRow_at {dims opt : List Col} {rs : List (Rec V)} {v : Var} (hd : DependsOn rs (opt ++ dims) v) {r : Rec V} (hr : r ∈ rs)
    {a : Col → Cell} (ha : ∀ c ∈ opt ++ dims, a c = r.cell c ∨ ∃ y, squeezed dims opt rs c = some y) :
    lookupRow dims opt rs v a = some (r.value v) := by
  have key : ∀ s ∈ rs, (∀ c ∈ opt ++ dims, s.cell c = (squeezed dims opt rs c).getD (a c)) ↔ ∀ c ∈ opt ++ dims, s.cell c = r.cell c := by
    intro s hs
    refine forall_congr' fun c => forall_congr' fun hc => ?_
    cases hsq : squeezed dims opt rs c with
    | none =>
      rcases ha c hc with h | ⟨y, h⟩
      · rw [Option.getD_none, h]
      · rw [hsq] at h
        cases h
    | some x =>
      rw [Option.getD_some, squeezed_cell hsq hs, squeezed_cell hsq hr]
  rw [lookupRow_eq]
  cases hf : rs.find? (fun r => open Classical in decide (∀ c ∈ opt ++ dims, r.cell c = (squeezed dims opt rs c).getD (a c))) with
  | none =>
    have := List.find?_eq_none.1 hf r hr
    simp only [decide_eq_true_eq] at this
    exact absurd ((key r hr).2 fun _ _ => rfl) this
  | some s =>
    have hs := List.mem_of_find?_eq_some hf
    have := List.find?_some hf
    simp only [decide_eq_true_eq] at this
    rw [Option.map_some, hd s hs r hr ((key s hs).1 this)]

/-- The values of all rows are found at their labels if and only if the columns determine the value. -/
theorem lookupRow_iff (dims opt : List Col) (rs : List (Rec V)) (v : Var) :
    (∀ r ∈ rs, lookupRow dims opt rs v r.cell = some (r.value v)) ↔ DependsOn rs (opt ++ dims) v := by
  constructor
  · intro h r hr s hs hrs
    have h1 := h r hr
    have h2 := h s hs
    have : lookupRow dims opt rs v r.cell = lookupRow dims opt rs v s.cell := by
      rw [lookupRow_eq, lookupRow_eq]
      congr 2
      funext q
      simp only [decide_eq_decide]
      refine forall_congr' fun c => forall_congr' fun hc => ?_
      rw [hrs c hc]
    rw [h1, h2] at this
    simpa using this
  · intro h r hr
    exact lookupRow_at h hr fun c _ => Or.inl rfl

/-- Among rows with the same labels, the first one is kept. -/
theorem lookupRow_first (dims opt : List Col) (v : Var) (pre post : List (Rec V)) (r : Rec V)
    (hr : ∀ s ∈ pre, ¬ ∀ c ∈ opt ++ dims, s.cell c = r.cell c) :
    lookupRow dims opt (pre ++ r :: post) v r.cell = some (r.value v) := by
  have hsq : ∀ c x, squeezed dims opt (pre ++ r :: post) c = some x → r.cell c = x := fun c x h =>
    squeezed_cell h (by simp)
  have hget : ∀ c, (squeezed dims opt (pre ++ r :: post) c).getD (r.cell c) = r.cell c := by
    intro c
    cases h : squeezed dims opt (pre ++ r :: post) c with
    | none => rfl
    | some x => rw [Option.getD_some, hsq c x h]
  have hp : (fun q : Rec V => open Classical in decide (∀ c ∈ opt ++ dims,
      q.cell c = (squeezed dims opt (pre ++ r :: post) c).getD (r.cell c))) =
      fun q : Rec V => open Classical in decide (∀ c ∈ opt ++ dims, q.cell c = r.cell c) := by
    funext q
    simp only [decide_eq_decide, hget]
  rw [lookupRow_eq, hp]
  rw [List.find?_append, List.find?_eq_none.2, Option.none_or, List.find?_cons_of_pos]
  · rfl
  · simp
  · intro s hs
    simpa using hr s hs

theorem kept_eq {dims opt : List Col} {rs : List (Rec V)} {c : Col} {l : List Cell} (h : kept dims opt rs c = some l) :
    c ∈ opt ++ dims ∧ l = labels c rs := by
  unfold kept at h
  split_ifs at h with hc
  injection h with h
  exact ⟨hc.1, h.symm⟩

/-! ## Labels of a dataset -/

/-- The labels of a dataset are found in the rows. -/
def LabelsIn (d : DS V) (rs : List (Rec V)) : Prop :=
  ∀ c, (∀ l, d.index c = some l → ∀ x ∈ l, ∃ r ∈ rs, r.cell c = x) ∧ (∀ x, d.scalar c = some x → ∃ r ∈ rs, r.cell c = x)

/-- The column is a coordinate. -/
def HasCoord (d : DS V) (c : Col) : Prop := d.index c ≠ none ∨ d.scalar c ≠ none

theorem LabelsIn.mono {d : DS V} {rs rs' : List (Rec V)} (h : LabelsIn d rs) (hs : ∀ r ∈ rs, r ∈ rs') : LabelsIn d rs' := by
  intro c
  refine ⟨fun l hl x hx => ?_, fun x hx => ?_⟩
  · obtain ⟨r, hr, h⟩ := (h c).1 l hl x hx
    exact ⟨r, hs r hr, h⟩
  · obtain ⟨r, hr, h⟩ := (h c).2 x hx
    exact ⟨r, hs r hr, h⟩

theorem LabelsIn.empty (rs : List (Rec V)) : LabelsIn DS.empty rs := by
  intro c
  constructor
  · intro l hl
    cases hl
  · intro x hx
    cases hx

theorem LabelsIn.fromFrame (vars : List Var) (dims opt : List Col) (rs : List (Rec V)) : LabelsIn (fromFrame vars dims opt rs) rs := by
  intro c
  constructor
  · intro l hl x hx
    obtain ⟨_, rfl⟩ := kept_eq hl
    exact (mem_labels c rs x).1 hx
  · intro x hx
    have := (squeezed_eq hx).2.2
    exact (mem_labels c rs x).1 (by rw [this]; simp)

theorem merge_eq {d e f : DS V} (h : merge d e = some f) :
    f.index = (fun c => outer (d.index c) (e.index c)) ∧
    f.scalar = (fun c => if outer (d.index c) (e.index c) = none then (d.scalar c).or (e.scalar c) else none) ∧
    f.var = fun v => (e.var v).or (d.var v) := by
  unfold merge at h
  split_ifs at h
  simp only [Option.some.injEq] at h
  subst h
  exact ⟨rfl, rfl, rfl⟩

theorem LabelsIn.merge {d e f : DS V} {rs : List (Rec V)} (hd : LabelsIn d rs) (he : LabelsIn e rs) (h : merge d e = some f) :
    LabelsIn f rs := by
  obtain ⟨h1, h2, _⟩ := merge_eq h
  intro c
  rw [h1, h2]
  constructor
  · intro l hl x hx
    simp only at hl
    cases hi : d.index c with
    | none =>
      cases hj : e.index c with
      | none => rw [hi, hj] at hl; cases hl
      | some m =>
        rw [hi, hj] at hl
        injection hl with hl
        subst hl
        exact (he c).1 _ hj x hx
    | some k =>
      cases hj : e.index c with
      | none =>
        rw [hi, hj] at hl
        injection hl with hl
        subst hl
        exact (hd c).1 _ hi x hx
      | some m =>
        rw [hi, hj] at hl
        injection hl with hl
        subst hl
        rcases List.mem_append.1 hx with hx | hx
        · exact (hd c).1 _ hi x hx
        · exact (he c).1 _ hj x hx
  · intro x hx
    simp only at hx
    split_ifs at hx
    rcases Option.or_eq_some_iff.1 hx with hx | ⟨_, hx⟩
    · exact (hd c).2 x hx
    · exact (he c).2 x hx

theorem LabelsIn.addCoord {d e : DS V} {rs : List (Rec V)} (hd : LabelsIn d rs) (he : LabelsIn e rs) (v : Var) :
    LabelsIn (addCoord d v e) rs := by
  intro c
  constructor
  · intro l hl x hx
    rcases Option.or_eq_some_iff.1 hl with hl | ⟨_, hl⟩
    · exact (hd c).1 l hl x hx
    · exact (he c).1 l hl x hx
  · intro x hx
    simp only [Datasets.addCoord] at hx
    split_ifs at hx
    rcases Option.or_eq_some_iff.1 hx with hx | ⟨_, hx⟩
    · exact (hd c).2 x hx
    · exact (he c).2 x hx

theorem HasCoord.merge_left {d e f : DS V} {c : Col} (hd : HasCoord d c) (h : merge d e = some f) : HasCoord f c := by
  obtain ⟨h1, h2, _⟩ := merge_eq h
  unfold HasCoord at *
  rw [h1, h2]
  simp only
  cases hi : d.index c with
  | some k => left; cases e.index c <;> simp [outer]
  | none =>
    cases hj : e.index c with
    | some m => left; simp [outer]
    | none =>
      right
      rw [hi] at hd
      simp only [outer]
      cases hs : d.scalar c with
      | none => rw [hs] at hd; simp at hd
      | some x => simp

theorem HasCoord.merge_right {d e f : DS V} {c : Col} (he : HasCoord e c) (h : merge d e = some f) : HasCoord f c := by
  obtain ⟨h1, h2, _⟩ := merge_eq h
  unfold HasCoord at *
  rw [h1, h2]
  simp only
  cases hi : d.index c with
  | some k => left; cases e.index c <;> simp [outer]
  | none =>
    cases hj : e.index c with
    | some m => left; simp [outer]
    | none =>
      right
      rw [hj] at he
      simp only [outer]
      cases hs : d.scalar c with
      | none =>
        cases ht : e.scalar c with
        | none => rw [ht] at he; simp at he
        | some x => simp
      | some x => simp

theorem HasCoord.addCoord {d e : DS V} {c : Col} (hd : HasCoord d c) (v : Var) : HasCoord (addCoord d v e) c := by
  unfold HasCoord at *
  simp only [Datasets.addCoord]
  cases hi : d.index c with
  | some k => left; simp
  | none =>
    cases hj : e.index c with
    | some m => left; simp
    | none =>
      right
      rw [hi] at hd
      cases hs : d.scalar c with
      | none => rw [hs] at hd; simp at hd
      | some x => simp

theorem HasCoord.fromFrame {vars : List Var} {dims opt : List Col} {rs : List (Rec V)} {c : Col} (hc : c ∈ opt ++ dims) :
    HasCoord (fromFrame vars dims opt rs) c := by
  unfold HasCoord
  simp only [Datasets.fromFrame]
  cases h : squeezed dims opt rs c with
  | some x => right; simp
  | none => left; unfold kept; rw [if_pos ⟨hc, h⟩]; simp

/-- The label at a place is the one of a row. -/
theorem Place.mem {d : DS V} {rs : List (Rec V)} (hl : LabelsIn d rs) {a : Col → Cell} (ha : d.Place a) {c : Col} (hc : HasCoord d c) :
    ∃ r ∈ rs, r.cell c = a c := by
  rcases hc with h | h
  · obtain ⟨l, hl'⟩ := Option.ne_none_iff_exists'.1 h
    exact (hl c).1 l hl' _ ((ha c).1 l hl')
  · obtain ⟨x, hx⟩ := Option.ne_none_iff_exists'.1 h
    rw [(ha c).2 x hx]
    exact (hl c).2 x hx

/-- Labels that are never removed. -/
def Grows (d e : DS V) : Prop := ∀ c l, d.index c = some l → ∃ m, e.index c = some m ∧ ∀ x ∈ l, x ∈ m

theorem Grows.trans {d e f : DS V} (h : Grows d e) (h' : Grows e f) : Grows d f := by
  intro c l hl
  obtain ⟨m, hm, h1⟩ := h c l hl
  obtain ⟨n, hn, h2⟩ := h' c m hm
  exact ⟨n, hn, fun x hx => h2 x (h1 x hx)⟩

theorem Grows.refl (d : DS V) : Grows d d := fun _ l hl => ⟨l, hl, fun _ h => h⟩

theorem Grows.merge_left {d e f : DS V} (h : merge d e = some f) : Grows d f := by
  obtain ⟨h1, _, _⟩ := merge_eq h
  intro c l hl
  rw [h1]
  simp only [hl]
  cases e.index c with
  | none => exact ⟨l, rfl, fun _ h => h⟩
  | some m => exact ⟨l ++ m, rfl, fun _ h => List.mem_append_left _ h⟩

theorem Grows.merge_right {d e f : DS V} (h : merge d e = some f) : Grows e f := by
  obtain ⟨h1, _, _⟩ := merge_eq h
  intro c l hl
  rw [h1]
  simp only [hl]
  cases d.index c with
  | none => exact ⟨l, rfl, fun _ h => h⟩
  | some m => exact ⟨m ++ l, rfl, fun _ h => List.mem_append_right _ h⟩

theorem Grows.addCoord (d e : DS V) (v : Var) : Grows d (addCoord d v e) := by
  intro c l hl
  refine ⟨l, ?_, fun _ h => h⟩
  simp [Datasets.addCoord, hl]

theorem single_squeezed {dims opt : List Col} {rs : List (Rec V)} {c : Col} (ho : c ∈ opt) (hd : c ∉ dims) (hs : Single rs c) {r : Rec V}
    (hr : r ∈ rs) : squeezed dims opt rs c = some (r.cell c) := by
  classical
  have hm : r.cell c ∈ labels c rs := (mem_labels c rs _).2 ⟨r, hr, rfl⟩
  have ha : ∀ x ∈ labels c rs, x = r.cell c := by
    intro x hx
    obtain ⟨s, hs', rfl⟩ := (mem_labels c rs x).1 hx
    exact hs s hs' r hr
  have hn : (labels c rs).Nodup := List.nodup_dedup _
  unfold squeezed
  rw [if_pos ⟨ho, hd⟩]
  match hl : labels c rs with
  | [] => rw [hl] at hm; cases hm
  | [x] =>
    rw [hl] at ha
    simp [ha x (by simp)]
  | x :: y :: l =>
    rw [hl] at ha hn
    have h1 := ha x (by simp)
    have h2 := ha y (by simp)
    rw [h1, h2] at hn
    simp at hn

/-- The array of a variable of a frame. -/
noncomputable def frameArr (dims opt : List Col) (rs : List (Rec V)) (v : Var) : Arr V :=
  ⟨(opt ++ dims).filter fun c => (kept dims opt rs c).isSome, lookupRow dims opt rs v⟩

theorem fromFrame_var {vars : List Var} {dims opt : List Col} {rs : List (Rec V)} {v : Var} (h : v ∈ vars) :
    (fromFrame vars dims opt rs).var v =
      some (frameArr dims opt rs v) := by
  simp only [fromFrame]
  rw [if_pos h]
  rfl

/-- The labels of a row are among those of the dimensions. -/
theorem fromFrame_dims {vars : List Var} {dims opt : List Col} {rs : List (Rec V)} {v : Var} {arr : Arr V}
    (h : (fromFrame vars dims opt rs).var v = some arr) {c : Col} (hc : c ∈ arr.dims) :
    (fromFrame vars dims opt rs).index c = some (labels c rs) ∧ squeezed dims opt rs c = none ∧ c ∈ opt ++ dims := by
  simp only [fromFrame] at h
  split_ifs at h
  simp only [Option.some.injEq] at h
  subst h
  simp only [List.mem_filter] at hc
  have : (fromFrame vars dims opt rs).index c = kept dims opt rs c := rfl
  rw [this]
  unfold kept at hc ⊢
  split_ifs at hc ⊢ with hk
  · exact ⟨rfl, hk.2, hk.1⟩
  · simp at hc

/-! ## Building the dataset -/

/-- What later steps keep. -/
structure Extends (rs : List (Rec V)) (d e : DS V) : Prop where
  grows : Grows d e
  labels : LabelsIn d rs → LabelsIn e rs
  coords : ∀ c, HasCoord d c → HasCoord e c

theorem Extends.trans {rs : List (Rec V)} {d e f : DS V} (h : Extends rs d e) (h' : Extends rs e f) : Extends rs d f :=
  ⟨h.grows.trans h'.grows, fun hl => h'.labels (h.labels hl), fun c hc => h'.coords c (h.coords c hc)⟩

theorem Extends.refl (rs : List (Rec V)) (d : DS V) : Extends rs d d := ⟨Grows.refl d, id, fun _ => id⟩

theorem Extends.addCoord (rs : List (Rec V)) (d : DS V) (v : Var) (vars : List Var) (dims opt : List Col) :
    Extends rs d (addCoord d v (fromFrame vars dims opt rs)) :=
  ⟨Grows.addCoord d _ v, fun hl => LabelsIn.addCoord hl (LabelsIn.fromFrame _ _ _ _) v, fun _ hc => hc.addCoord v⟩

theorem Extends.addFreq (main : FreqType) (rs : List (Rec V)) (d : DS V) (k : FreqType) : Extends rs d (addFreq main rs d k) := by
  unfold Datasets.addFreq
  split_ifs
  · exact Extends.refl rs d
  · exact Extends.addCoord rs d _ _ _ _

theorem Extends.addEncounter (main : FreqType) (rs : List (Rec V)) (d : DS V) : Extends rs d (addEncounter main rs d) := by
  unfold Datasets.addEncounter
  split_ifs
  · exact Extends.refl rs d
  · exact (Extends.addCoord rs d _ _ _ _).trans (Extends.addCoord rs _ _ _ _ _)

theorem addFreq_var {main : FreqType} {rs : List (Rec V)} {d : DS V} {k : FreqType} {v : Var} (h : v ≠ .freq k) :
    (addFreq main rs d k).var v = d.var v := by
  unfold Datasets.addFreq
  split_ifs
  · rfl
  · simp only [addCoord]
    rw [if_neg h]

theorem addEncounter_var {main : FreqType} {rs : List (Rec V)} {d : DS V} {v : Var} (h : v ≠ .encounterOmega)
    (h' : v ≠ .encounterDirection) : (addEncounter main rs d).var v = d.var v := by
  unfold Datasets.addEncounter
  split_ifs
  · rfl
  · simp only [addCoord]
    rw [if_neg h', if_neg h]

/-- The rows used by the dataset. -/
noncomputable abbrev rowsOf (k : Kind) (rs : List (Rec V)) : List (Rec V) := ofKind k (withSurface rs)

theorem mem_rowsOf {k : Kind} {rs : List (Rec V)} {r : Rec V} : r ∈ rowsOf k rs ↔ r ∈ rs ∧ r.freeSurface = 0 ∧ r.kind = k := by
  simp only [rowsOf, ofKind, withSurface, List.mem_filter, decide_eq_true_eq, and_assoc]

theorem rowsOf_sub {k : Kind} {rs : List (Rec V)} : ∀ r ∈ rowsOf k rs, r ∈ withSurface rs := by
  intro r hr
  exact (List.mem_filter.1 hr).1

/-- What the two kinds of results give. -/
structure ResultsSpec [Add V] (main : FreqType) (rs : List (Rec V)) (d : DS V) : Prop where
  labels : LabelsIn d rs
  coords : rs ≠ [] → ∀ c ∈ envCols ++ [.direction], HasCoord d c
  radiation : ofKind .radiation rs ≠ [] → Grows (radiationPart main (ofKind .radiation rs)) d ∧
    ∀ v ∈ [Var.addedMass, .damping], d.var v = (radiationPart main (ofKind .radiation rs)).var v
  diffraction : ofKind .diffraction rs ≠ [] → Grows (diffractionPart main (ofKind .diffraction rs)) d ∧
    (∀ v ∈ [Var.diffractionForce, .froudeKrylov], d.var v = (diffractionPart main (ofKind .diffraction rs)).var v) ∧
    ∃ x y, d.var .froudeKrylov = some x ∧ d.var .diffractionForce = some y ∧
      d.var .excitation = some ⟨x.dims, fun a => addVals (x.val a) (y.val a)⟩

theorem kinds (rs : List (Rec V)) (h : ofKind .radiation rs = []) (h' : ofKind .diffraction rs = []) : rs = [] := by
  cases rs with
  | nil => rfl
  | cons r rs =>
    exfalso
    cases hk : r.kind with
    | radiation => simp [ofKind, hk] at h
    | diffraction => simp [ofKind, hk] at h'

theorem results_spec [Add V] {main : FreqType} {rs : List (Rec V)} {d : DS V} (h : results main rs = some d) : ResultsSpec main rs d := by
  unfold results at h
  rw [Option.bind_eq_some_iff] at h
  obtain ⟨d1, h1, h2⟩ := h
  have subR : ∀ r ∈ ofKind .radiation rs, r ∈ rs := fun r hr => (List.mem_filter.1 hr).1
  have subD : ∀ r ∈ ofKind .diffraction rs, r ∈ rs := fun r hr => (List.mem_filter.1 hr).1
  have hR : LabelsIn d1 rs ∧ (ofKind .radiation rs ≠ [] → (∀ c ∈ envCols ++ [.direction], HasCoord d1 c) ∧
      Grows (radiationPart main (ofKind .radiation rs)) d1 ∧
      ∀ v ∈ [Var.addedMass, .damping], d1.var v = (radiationPart main (ofKind .radiation rs)).var v) := by
    split_ifs at h1 with he
    · injection h1 with h1
      subst h1
      exact ⟨LabelsIn.empty rs, fun h => absurd he h⟩
    · refine ⟨LabelsIn.merge (LabelsIn.empty rs) ((LabelsIn.fromFrame _ _ _ _).mono subR) h1, fun _ => ⟨fun c hc => ?_, Grows.merge_right h1, ?_⟩⟩
      · exact HasCoord.merge_right (HasCoord.fromFrame (List.mem_append_left _ hc)) h1
      · intro v _
        rw [(merge_eq h1).2.2]
        simp [DS.empty]
  split_ifs at h2 with he
  · injection h2 with h2
    subst h2
    refine ⟨hR.1, fun hrs c hc => ?_, fun hne => (hR.2 hne).2, fun h => absurd he h⟩
    by_cases hr : ofKind .radiation rs = []
    · exact absurd (kinds rs hr he) hrs
    · exact (hR.2 hr).1 c hc
  · rw [Option.map_eq_some_iff] at h2
    obtain ⟨d2, h2, rfl⟩ := h2
    have hv := (merge_eq h2).2.2
    refine ⟨?_, fun _ c hc => ?_, fun hne => ⟨?_, ?_⟩, fun _ => ⟨?_, ?_, ?_⟩⟩
    · have : LabelsIn d2 rs := LabelsIn.merge hR.1 ((LabelsIn.fromFrame _ _ _ _).mono subD) h2
      exact this
    · suffices HasCoord d2 c from this
      refine HasCoord.merge_right (e := diffractionPart main (ofKind .diffraction rs)) (HasCoord.fromFrame ?_) h2
      revert hc
      simp only [envCols, List.cons_append, List.nil_append, List.mem_cons, List.not_mem_nil, or_false]
      tauto
    · have : Grows (radiationPart main (ofKind .radiation rs)) d2 := (hR.2 hne).2.1.trans (Grows.merge_left h2)
      exact this
    · intro v hv'
      have := (hR.2 hne).2.2 v hv'
      rcases List.mem_cons.1 hv' with rfl | hv'
      · simp only [addExcitation, hv]
        rw [if_neg (by decide), this]
        simp [diffractionPart, fromFrame]
      · simp only [List.mem_singleton] at hv'
        subst hv'
        simp only [addExcitation, hv]
        rw [if_neg (by decide), this]
        simp [diffractionPart, fromFrame]
    · have : Grows (diffractionPart main (ofKind .diffraction rs)) d2 := Grows.merge_right h2
      exact this
    · intro v hv'
      rcases List.mem_cons.1 hv' with rfl | hv'
      · simp [addExcitation, hv, diffractionPart, fromFrame]
      · simp only [List.mem_singleton] at hv'
        subst hv'
        simp [addExcitation, hv, diffractionPart, fromFrame]
    · simp [addExcitation, hv, diffractionPart, fromFrame]

theorem assemble_some [Add V] {main : FreqType} {rs : List (Rec V)} {ds : DS V} (h : assemble main rs = some ds) :
    rs ≠ [] ∧ ∃ d, results main (withSurface rs) = some d ∧ addEncounter main (withSurface rs)
      ([FreqType.omega, .period, .wavenumber, .wavelength].foldl (addFreq main (withSurface rs)) d) = ds := by
  unfold assemble at h
  split_ifs at h with he
  rw [Option.map_eq_some_iff] at h
  exact ⟨fun e => he (by simp [e]), h⟩

/-- The dataset extends the one of the results. -/
theorem assemble_spec [Add V] {main : FreqType} {rs : List (Rec V)} {ds : DS V} (h : assemble main rs = some ds) :
    ∃ d, ResultsSpec main (withSurface rs) d ∧ Extends (withSurface rs) d ds ∧
      ∀ v, v ∈ [Var.addedMass, .damping, .diffractionForce, .froudeKrylov, .excitation] → ds.var v = d.var v := by
  obtain ⟨_, d, hd, rfl⟩ := assemble_some h
  refine ⟨d, results_spec hd, ?_, ?_⟩
  · simp only [List.foldl]
    exact ((((Extends.addFreq main _ d _).trans (Extends.addFreq _ _ _ _)).trans (Extends.addFreq _ _ _ _)).trans
      (Extends.addFreq _ _ _ _)).trans (Extends.addEncounter _ _ _)
  · intro v hv
    have hf : ∀ k, v ≠ .freq k := by
      intro k hk
      subst hk
      simp at hv
    rw [addEncounter_var (by rintro rfl; simp at hv) (by rintro rfl; simp at hv)]
    simp only [List.foldl]
    rw [addFreq_var (hf _), addFreq_var (hf _), addFreq_var (hf _), addFreq_var (hf _)]

/-! ## Theorems -/

/-- The coordinates at which the value of a row of a radiation result is found: those of the row, where the direction does not matter
if all radiation results have the same. -/
def RadiationFound (main : FreqType) (rs : List (Rec V)) (a : Col → Cell) (r : Rec V) : Prop :=
  RadiationAt main a r ∧ (a .direction = r.cell .direction ∨ Single (rowsOf .radiation rs) .direction)

/-- The columns which identify a row of a radiation result. -/
def radiationKey (main : FreqType) : List Col := envCols ++ [.direction] ++ [.freq main, .radiatingDof, .influencedDof]

/-- The columns which identify a row of a diffraction result. -/
def diffractionKey (main : FreqType) : List Col := envCols ++ [.freq main, .direction, .influencedDof]

/-- The value at each place is the one of the radiation result with these coordinates. -/
theorem radiation_faithful [Add V] {main : FreqType} {rs : List (Rec V)} {ds : DS V} (h : assemble main rs = some ds)
    (hg : RadiationRange (withSurface rs)) {v : Var} (hv : v ∈ [Var.addedMass, .damping])
    (hk : DependsOn (rowsOf .radiation rs) (radiationKey main) v) (hne : rowsOf .radiation rs ≠ []) :
    Faithful ds v (fun r => r.value v) (rowsOf .radiation rs) (RadiationAt main) (RadiationFound main rs) := by
  obtain ⟨d, hs, he, hvar⟩ := assemble_spec h
  have hmem : v ∈ [Var.addedMass, .damping, .diffractionForce, .froudeKrylov, .excitation] := by
    simp only [List.mem_cons, List.not_mem_nil, or_false] at hv ⊢
    tauto
  obtain ⟨hgr, hrv⟩ := hs.radiation hne
  have hws : withSurface rs ≠ [] := by
    intro h0
    apply hne
    rw [rowsOf, h0]
    rfl
  have hL := he.labels hs.labels
  have hvv : ds.var v = (radiationPart main (rowsOf .radiation rs)).var v := by rw [hvar v hmem, hrv v hv]
  have hfr := fromFrame_var (dims := [Col.freq main, .radiatingDof, .influencedDof]) (opt := envCols ++ [.direction]) (rs := rowsOf .radiation rs) hv
  rw [radiationPart, hfr] at hvv
  refine ⟨_, hvv, ?_, ?_, ?_⟩
  · intro a x ha hx
    obtain ⟨r, hr, hc, rfl⟩ := lookupRow_sound hx
    refine ⟨r, hr, ?_, rfl⟩
    have hkind : r.kind = .radiation := (mem_rowsOf.1 hr).2.2
    have henv : ∀ c ∈ envCols, a c = r.cell c := by
      intro c hc'
      rcases hc c (by simp [hc']) with h1 | ⟨y, hy⟩
      · exact h1.symm
      · obtain ⟨s, hs', hsc⟩ := Place.mem hL ha (he.coords c (hs.coords hws c (List.mem_append_left _ hc')))
        rw [← hsc, hg.env c hc' (squeezed_single hy) r hr s hs']
    have hdim : ∀ c ∈ [Col.freq main, .radiatingDof, .influencedDof], a c = r.cell c := by
      intro c hc'
      rcases hc c (List.mem_append_right _ hc') with h1 | ⟨y, hy⟩
      · exact h1.symm
      · exact absurd hc' (squeezed_eq hy).2.1
    refine ⟨hkind, henv _ (by simp [envCols]), henv _ (by simp [envCols]), henv _ (by simp [envCols]), henv _ (by simp [envCols]),
      henv _ (by simp [envCols]), hdim _ (by simp), hdim _ (by simp), hdim _ (by simp), fun hsp => ?_⟩
    rcases hc .direction (by simp) with h1 | ⟨y, hy⟩
    · exact h1.symm
    · obtain ⟨s, hs', hsc⟩ := Place.mem hL ha (he.coords .direction (hs.coords hws .direction (by simp)))
      rw [← hsc, hg.direction (squeezed_single hy) r hr hsp s hs']
  · rintro r hr a ⟨ha, hdir⟩
    refine lookupRow_at hk hr fun c hc => ?_
    simp only [envCols, List.cons_append, List.nil_append, List.mem_cons, List.not_mem_nil, or_false] at hc
    rcases hc with rfl | rfl | rfl | rfl | rfl | rfl | rfl | rfl | rfl
    · exact Or.inl ha.g
    · exact Or.inl ha.rho
    · exact Or.inl ha.body
    · exact Or.inl ha.depth
    · exact Or.inl ha.speed
    · rcases hdir with hdir | hdir
      · exact Or.inl hdir
      · exact Or.inr ⟨_, single_squeezed (by simp) (by simp) hdir hr⟩
    · exact Or.inl ha.freq
    · exact Or.inl ha.radiating
    · exact Or.inl ha.influenced
  · rintro c hc r hr a ⟨ha, hdir⟩
    obtain ⟨hi, hsq, hco⟩ := fromFrame_dims hfr hc
    obtain ⟨m, hm, hsub⟩ := (hgr.trans he.grows) c _ hi
    refine ⟨m, hm, hsub _ ((mem_labels c _ _).2 ⟨r, hr, ?_⟩)⟩
    simp only [envCols, List.cons_append, List.nil_append, List.mem_cons, List.not_mem_nil, or_false] at hco
    rcases hco with rfl | rfl | rfl | rfl | rfl | rfl | rfl | rfl | rfl
    · exact ha.g.symm
    · exact ha.rho.symm
    · exact ha.body.symm
    · exact ha.depth.symm
    · exact ha.speed.symm
    · rcases hdir with hdir | hdir
      · exact hdir.symm
      · have := single_squeezed (dims := [Col.freq main, .radiatingDof, .influencedDof]) (opt := envCols ++ [.direction]) (by simp) (by simp)
          hdir hr
        rw [this] at hsq
        cases hsq
    · exact ha.freq.symm
    · exact ha.radiating.symm
    · exact ha.influenced.symm

/-- The row read in the array of a diffraction result. -/
theorem diffraction_rows {main : FreqType} {rs : List (Rec V)} {ds : DS V} (hL : LabelsIn ds (withSurface rs))
    (hC : ∀ c ∈ envCols, HasCoord ds c) (hg : DiffractionRange (withSurface rs)) {a : Col → Cell} (ha : ds.Place a) {r : Rec V}
    (hr : r ∈ rowsOf .diffraction rs)
    (hc : ∀ c ∈ envCols ++ [.freq main, .direction, .influencedDof], r.cell c = a c ∨
      ∃ y, squeezed [.freq main, .direction, .influencedDof] envCols (rowsOf .diffraction rs) c = some y) :
    DiffractionAt main a r := by
  have hkind : r.kind = .diffraction := (mem_rowsOf.1 hr).2.2
  have henv : ∀ c ∈ envCols, a c = r.cell c := by
    intro c hc'
    rcases hc c (List.mem_append_left _ hc') with h1 | ⟨y, hy⟩
    · exact h1.symm
    · obtain ⟨s, hs', hsc⟩ := Place.mem hL ha (hC c hc')
      rw [← hsc, hg c hc' (squeezed_single hy) r hr s hs']
  have hdim : ∀ c ∈ [Col.freq main, .direction, .influencedDof], a c = r.cell c := by
    intro c hc'
    rcases hc c (List.mem_append_right _ hc') with h1 | ⟨y, hy⟩
    · exact h1.symm
    · exact absurd hc' (squeezed_eq hy).2.1
  exact ⟨hkind, henv _ (by simp [envCols]), henv _ (by simp [envCols]), henv _ (by simp [envCols]), henv _ (by simp [envCols]),
    henv _ (by simp [envCols]), hdim _ (by simp), hdim _ (by simp), hdim _ (by simp)⟩

theorem DiffractionAt.key {main : FreqType} {a : Col → Cell} {r : Rec V} (ha : DiffractionAt main a r) :
    ∀ c ∈ diffractionKey main, a c = r.cell c := by
  intro c hc
  simp only [diffractionKey, envCols, List.cons_append, List.nil_append, List.mem_cons, List.not_mem_nil, or_false] at hc
  rcases hc with rfl | rfl | rfl | rfl | rfl | rfl | rfl | rfl
  · exact ha.g
  · exact ha.rho
  · exact ha.body
  · exact ha.depth
  · exact ha.speed
  · exact ha.freq
  · exact ha.direction
  · exact ha.influenced

/-- The value at each place is the one of the diffraction result with these coordinates. -/
theorem diffraction_faithful [Add V] {main : FreqType} {rs : List (Rec V)} {ds : DS V} (h : assemble main rs = some ds)
    (hg : DiffractionRange (withSurface rs)) {v : Var} (hv : v ∈ [Var.diffractionForce, .froudeKrylov])
    (hk : DependsOn (rowsOf .diffraction rs) (diffractionKey main) v) (hne : rowsOf .diffraction rs ≠ []) :
    Faithful ds v (fun r => r.value v) (rowsOf .diffraction rs) (DiffractionAt main) (DiffractionAt main) := by
  obtain ⟨d, hs, he, hvar⟩ := assemble_spec h
  have hmem : v ∈ [Var.addedMass, .damping, .diffractionForce, .froudeKrylov, .excitation] := by
    simp only [List.mem_cons, List.not_mem_nil, or_false] at hv ⊢
    tauto
  obtain ⟨hgr, hrv, _⟩ := hs.diffraction hne
  have hws : withSurface rs ≠ [] := by
    intro h0
    apply hne
    rw [rowsOf, h0]
    rfl
  have hL := he.labels hs.labels
  have hvv : ds.var v = (diffractionPart main (rowsOf .diffraction rs)).var v := by rw [hvar v hmem, hrv v hv]
  have hfr := fromFrame_var (dims := [Col.freq main, .direction, .influencedDof]) (opt := envCols) (rs := rowsOf .diffraction rs) hv
  rw [diffractionPart, hfr] at hvv
  refine ⟨_, hvv, ?_, ?_, ?_⟩
  · intro a x ha hx
    obtain ⟨r, hr, hc, rfl⟩ := lookupRow_sound hx
    exact ⟨r, hr, diffraction_rows hL (fun c hc => he.coords c (hs.coords hws c (List.mem_append_left _ hc))) hg ha hr hc, rfl⟩
  · intro r hr a ha
    exact lookupRow_at hk hr fun c hc => Or.inl (ha.key c hc)
  · intro c hc r hr a ha
    obtain ⟨hi, hsq, hco⟩ := fromFrame_dims hfr hc
    obtain ⟨m, hm, hsub⟩ := (hgr.trans he.grows) c _ hi
    exact ⟨m, hm, hsub _ ((mem_labels c _ _).2 ⟨r, hr, (ha.key c hco).symm⟩)⟩

/-- The excitation force at each place is the sum of the two forces of the result with these coordinates. -/
theorem excitation_faithful [Add V] {main : FreqType} {rs : List (Rec V)} {ds : DS V} (h : assemble main rs = some ds)
    (hg : DiffractionRange (withSurface rs)) (hk : DependsOn (rowsOf .diffraction rs) (diffractionKey main) .diffractionForce)
    (hk' : DependsOn (rowsOf .diffraction rs) (diffractionKey main) .froudeKrylov) (hne : rowsOf .diffraction rs ≠ []) :
    Faithful ds .excitation (fun r => r.value .froudeKrylov + r.value .diffractionForce) (rowsOf .diffraction rs) (DiffractionAt main)
      (DiffractionAt main) := by
  obtain ⟨y, hy, ys, yc, _⟩ := diffraction_faithful h hg (v := .diffractionForce) (by simp) hk hne
  obtain ⟨x, hx, xs, xc, xd⟩ := diffraction_faithful h hg (v := .froudeKrylov) (by simp) hk' hne
  obtain ⟨d, hs, he, hvar⟩ := assemble_spec h
  obtain ⟨_, _, x', y', hx', hy', hexc⟩ := hs.diffraction hne
  rw [← hvar _ (by simp)] at hx' hy' hexc
  rw [hx] at hx'
  rw [hy] at hy'
  injection hx' with hx'
  injection hy' with hy'
  subst hx' hy'
  refine ⟨_, hexc, ?_, ?_, xd⟩
  · intro a z ha hz
    simp only at hz
    cases hxa : x.val a with
    | none => rw [hxa] at hz; cases hz
    | some p =>
      cases hya : y.val a with
      | none => rw [hxa, hya] at hz; cases hz
      | some q =>
        rw [hxa, hya] at hz
        simp only [addVals, Option.some.injEq] at hz
        obtain ⟨r, hr, har, rfl⟩ := xs a p ha hxa
        have := yc r hr a har
        rw [hya] at this
        simp only [Option.some.injEq] at this
        exact ⟨r, hr, har, by rw [← hz, this]⟩
  · intro r hr a ha
    simp only
    rw [xc r hr a ha, yc r hr a ha]
    rfl

/-- A dataset is assembled if and only if there are results and no column has a single label for each kind of result, not the same. -/
theorem assemble_ok_iff [Add V] (main : FreqType) (rs : List (Rec V)) :
    (∃ ds, assemble main rs = some ds) ↔ rs ≠ [] ∧ ∀ c ∈ envCols, Single (rowsOf .radiation rs) c → Single (rowsOf .diffraction rs) c →
      ∀ r ∈ rowsOf .radiation rs, ∀ s ∈ rowsOf .diffraction rs, r.cell c = s.cell c := by
  have hempty : ∀ e : DS V, ∃ f, merge DS.empty e = some f := by
    intro e
    refine ⟨_, if_neg ?_⟩
    rintro ⟨c, x, y, _, _, h, _⟩
    cases h
  have hiff : (∃ ds, assemble main rs = some ds) ↔ rs ≠ [] ∧ ∃ d, results main (withSurface rs) = some d := by
    constructor
    · rintro ⟨ds, h⟩
      obtain ⟨h1, d, hd, _⟩ := assemble_some h
      exact ⟨h1, d, hd⟩
    · rintro ⟨h1, d, hd⟩
      unfold assemble
      rw [if_neg (by simpa using h1), hd]
      exact ⟨_, rfl⟩
  rw [hiff]
  refine and_congr_right fun _ => ?_
  unfold results rowsOf
  generalize withSurface rs = S
  by_cases hR : ofKind .radiation S = []
  · rw [if_pos hR, Option.bind_some, hR]
    simp only [List.not_mem_nil, false_imp_iff, implies_true, iff_true]
    split_ifs with hD
    · exact ⟨_, rfl⟩
    · obtain ⟨f, hf⟩ := hempty (diffractionPart main (ofKind .diffraction S))
      exact ⟨_, by rw [hf]; rfl⟩
  · rw [if_neg hR]
    obtain ⟨f, hf⟩ := hempty (radiationPart main (ofKind .radiation S))
    rw [hf, Option.bind_some]
    obtain ⟨h1, h2, _⟩ := merge_eq hf
    have h1' : ∀ c, f.index c = kept [.freq main, .radiatingDof, .influencedDof] (envCols ++ [.direction]) (ofKind .radiation S) c := by
      intro c
      rw [h1]
      simp only [DS.empty, outer]
      cases hh : (radiationPart main (ofKind .radiation S)).index c with
      | none => simp only; exact hh.symm
      | some l => simp only; exact hh.symm
    split_ifs with hD
    · rw [hD]
      simp
    · obtain ⟨r, hr⟩ := List.exists_mem_of_ne_nil _ hR
      obtain ⟨s, hs⟩ := List.exists_mem_of_ne_nil _ hD
      constructor
      · rintro ⟨d, hd⟩ c hc hsR hsD r' hr' s' hs'
        rw [Option.map_eq_some_iff] at hd
        obtain ⟨e, he, _⟩ := hd
        unfold merge at he
        split_ifs at he with hm
        by_contra hne
        have hq := single_squeezed (dims := [.freq main, .radiatingDof, .influencedDof]) (opt := envCols ++ [.direction])
          (List.mem_append_left _ hc) (by revert hc; simp only [envCols]; cases c <;> simp) hsR hr'
        have hq' := single_squeezed (dims := [.freq main, .direction, .influencedDof]) (opt := envCols)
          hc (by revert hc; simp only [envCols]; cases c <;> simp) hsD hs'
        have hi : f.index c = none := by
          rw [h1']
          unfold kept
          rw [hq]
          simp
        refine hm ⟨c, _, _, hi, ?_, ?_, hq', hne⟩
        · show kept _ _ _ c = none
          unfold kept
          rw [hq']
          simp
        · rw [h1] at hi
          rw [h2]
          simp only at hi ⊢
          rw [if_pos hi]
          simp only [DS.empty, Option.none_or]
          exact hq
      · intro h
        have : ∃ k, merge f (diffractionPart main (ofKind .diffraction S)) = some k := by
          refine ⟨_, if_neg ?_⟩
          rintro ⟨c, x, y, hi, hj, hx, hy, hxy⟩
          rw [h2] at hx
          simp only at hx
          split_ifs at hx
          simp only [DS.empty, Option.none_or] at hx
          have hx' : squeezed _ _ (ofKind .radiation S) c = some x := hx
          have hy' : squeezed _ _ (ofKind .diffraction S) c = some y := hy
          have := h c (squeezed_eq hy').1 (squeezed_single hx') (squeezed_single hy') r hr s hs
          rw [squeezed_cell hx' hr, squeezed_cell hy' hs] at this
          exact hxy this
        obtain ⟨k, hk⟩ := this
        exact ⟨_, by rw [hk]; rfl⟩

/-- A dataset is assembled when the two kinds of results have the same range. -/
theorem assemble_ok [Add V] (main : FreqType) (rs : List (Rec V)) (hne : rs ≠ []) (hg : RadiationRange (withSurface rs)) :
    ∃ ds, assemble main rs = some ds :=
  (assemble_ok_iff main rs).2 ⟨hne, fun c hc h _ r hr s hs => (hg.env c hc h r hr s (rowsOf_sub s hs)).symm⟩

/-- A frequency in time, as opposed to a frequency in space. -/
def InTime (k : FreqType) : Prop := k = .omega ∨ k = .period

open Classical in
/-- The columns that determine a frequency when the main one is given: two frequencies in time, or two in space, determine each other, the
others are related by the gravity and the depth. -/
noncomputable def frequencyColumns (main k : FreqType) : List Col :=
  if InTime main ↔ InTime k then [.freq main] else [.g, .waterDepth, .freq main]

theorem freqOpt_columns {main k : FreqType} (hk : k ≠ main) : freqOpt main k ++ [.freq main] = frequencyColumns main k := by
  unfold frequencyColumns InTime
  cases main <;> cases k <;> first | exact absurd rfl hk | simp [freqOpt]

/-- The frequencies in the coordinates are those of each result if and only if they are determined by the main frequency, and by the
gravity and the depth to pass from time to space. -/
theorem frequency_coordinates [Add V] {main : FreqType} {rs : List (Rec V)} {ds : DS V} (h : assemble main rs = some ds) {k : FreqType}
    (hk : k ≠ main) :
    ∃ arr, ds.var (.freq k) = some arr ∧
      ((∀ r ∈ withSurface rs, arr.val r.cell = some (r.value (.freq k))) ↔
        DependsOn (withSurface rs) (frequencyColumns main k) (.freq k)) := by
  rw [← freqOpt_columns hk]
  obtain ⟨_, d, hd, rfl⟩ := assemble_some h
  refine ⟨frameArr [.freq main] (freqOpt main k) (withSurface rs) (.freq k), ?_, lookupRow_iff _ _ _ _⟩
  · rw [addEncounter_var (by simp) (by simp)]
    have hself : ∀ e : DS V, (addFreq main (withSurface rs) e k).var (.freq k) =
        some (frameArr [.freq main] (freqOpt main k) (withSurface rs) (.freq k)) := by
      intro e
      unfold Datasets.addFreq
      rw [if_neg hk]
      simp only [addCoord]
      rw [if_pos trivial, fromFrame_var (by simp)]
    simp only [List.foldl]
    cases k with
    | omega => rw [addFreq_var (by simp), addFreq_var (by simp), addFreq_var (by simp), hself]
    | period => rw [addFreq_var (by simp), addFreq_var (by simp), hself]
    | wavelength => rw [hself]
    | wavenumber => rw [addFreq_var (by simp), hself]

/-- The encounter frequency and direction in the coordinates are those of each result if and only if they are determined by the columns
that index them. -/
theorem encounter_coordinates [Add V] {main : FreqType} {rs : List (Rec V)} {ds : DS V} (h : assemble main rs = some ds)
    (hU : ¬ ∀ r ∈ withSurface rs, r.cell .speed = .num 0) :
    (∃ arr, ds.var .encounterOmega = some arr ∧
      ((∀ r ∈ withSurface rs, arr.val r.cell = some (r.value .encounterOmega)) ↔
        DependsOn (withSurface rs) [.g, .waterDepth, .speed, .direction, .freq main] .encounterOmega)) ∧
    ∃ arr, ds.var .encounterDirection = some arr ∧
      ((∀ r ∈ withSurface rs, arr.val r.cell = some (r.value .encounterDirection)) ↔
        DependsOn (withSurface rs) [.speed, .direction, .freq main] .encounterDirection) := by
  obtain ⟨_, d, hd, rfl⟩ := assemble_some h
  unfold Datasets.addEncounter
  rw [if_neg hU]
  constructor
  · refine ⟨frameArr [.speed, .direction, .freq main] [.g, .waterDepth] (withSurface rs) .encounterOmega, ?_,
      lookupRow_iff [.speed, .direction, .freq main] [.g, .waterDepth] _ _⟩
    simp only [addCoord]
    rw [if_neg (by decide), if_pos trivial, fromFrame_var (by simp)]
  · refine ⟨frameArr [.speed, .direction, .freq main] [] (withSurface rs) .encounterDirection, ?_,
      lookupRow_iff [.speed, .direction, .freq main] [] _ _⟩
    simp only [addCoord]
    rw [if_pos trivial, fromFrame_var (by simp)]

end

end Verif.Datasets
