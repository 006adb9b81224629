import Verif.Datasets.ExpandModel
import Mathlib.Data.List.Nodup
import Mathlib.Data.List.Flatten
import Mathlib.Tactic.Linarith
import Mathlib.Tactic.NormNum

/-!
# C49: a test matrix is expanded completely

`Requested` says which problems a test matrix asks for, without the loops: a frequency, a depth, a body, a speed, a density and a
gravity of the matrix or their default values, with a direction or a dof.
-/

namespace Verif.Datasets

/-! ## Specification -/

/-- The body of a problem. -/
def Pb.body : Pb → String
  | .diffraction b .. => b
  | .radiation b .. => b

/-- The frequency is one of those of the matrix, or the default one when none is given. -/
def TestMatrix.HasFreq (t : TestMatrix) (ft : FreqType) (f : WithTop ℝ) : Prop :=
  (∃ l, t.freq ft = some l ∧ f ∈ l) ∨ ((∀ k, t.freq k = none) ∧ ft = .omega ∧ f = ((1 : ℝ) : WithTop ℝ))

/-- A value of a coordinate, or its default value when the coordinate is not given. -/
def OneOf {α : Type} (coord : Option (List α)) (default x : α) : Prop := match coord with
  | some l => x ∈ l
  | none => x = default

/-- The environments of the matrix. -/
def TestMatrix.Env {B : Type} (t : TestMatrix) (bodies : List (String × B)) (b : String) (ft : FreqType) (f h : WithTop ℝ)
    (U ρ g : ℝ) : Prop :=
  t.HasFreq ft f ∧ OneOf t.depth ⊤ h ∧ (∃ B, (b, B) ∈ bodies) ∧ (∀ l, t.body = some l → b ∈ l) ∧ OneOf t.speed 0 U ∧
    OneOf t.rho 1000 ρ ∧ OneOf t.g 9.81 g

/-- The problems asked by a test matrix. -/
def Requested {B : Type} (t : TestMatrix) (bodies : List (String × B)) : Pb → Prop
  | .diffraction b ft f dir h U ρ g => t.Env bodies b ft f h U ρ g ∧ f ≠ 0 ∧ f ≠ ⊤ ∧ ∃ l, t.direction = some l ∧ dir ∈ l
  | .radiation b ft f dof dir h U ρ g => t.Env bodies b ft f h U ρ g ∧ (∃ l, t.dof = some l ∧ dof ∈ l) ∧
      (U = 0 → dir = 0) ∧ (U ≠ 0 → OneOf t.direction 0 dir)

/-- No value is repeated along a coordinate. -/
structure TestMatrix.Distinct (t : TestMatrix) : Prop where
  freq : ∀ k l, t.freq k = some l → l.Nodup
  depth : ∀ l, t.depth = some l → l.Nodup
  rho : ∀ l, t.rho = some l → l.Nodup
  g : ∀ l, t.g = some l → l.Nodup
  speed : ∀ l, t.speed = some l → l.Nodup
  direction : ∀ l, t.direction = some l → l.Nodup
  dof : ∀ l, t.dof = some l → l.Nodup

/-- The problem that a body and arguments give. -/
def Builds {B E P : Type} (mk : B → Pb → Except E P) (bodies : List (String × B)) (q : Pb) (p : P) : Prop :=
  ∃ b, (q.body, b) ∈ bodies ∧ mk b q = .ok p

/-! ## Loops -/

theorem loop_append {α E P : Type} (f : α → Except E (List P)) (l r : List α) :
    loop f (l ++ r) = match loop f l with
      | .error e => .error e
      | .ok ps => match loop f r with
        | .error e => .error e
        | .ok qs => .ok (ps ++ qs) := by
  induction l with
  | nil =>
    simp only [List.nil_append, loop]
    cases loop f r <;> simp
  | cons a l ih =>
    simp only [List.cons_append, loop, ih]
    cases f a with
    | error e => rfl
    | ok ps =>
      cases loop f l with
      | error e => rfl
      | ok qs =>
        cases loop f r with
        | error e => rfl
        | ok rs => simp

theorem loop_flatMap {α β E P : Type} {f : α → Except E (List P)} {g : β → Except E (List P)} {h : α → List β}
    (l : List α) (hf : ∀ a ∈ l, f a = loop g (h a)) : loop f l = loop g (l.flatMap h) := by
  induction l with
  | nil => rfl
  | cons a l ih =>
    rw [List.flatMap_cons, loop_append, ← hf a (by simp), ← ih fun b hb => hf b (List.mem_cons_of_mem _ hb)]
    rfl

theorem loop_ok_iff {α E P : Type} (f : α → Except E (List P)) (l : List α) :
    (∃ ps, loop f l = .ok ps) ↔ ∀ a ∈ l, ∃ ps, f a = .ok ps := by
  induction l with
  | nil => simp [loop]
  | cons a l ih =>
    rw [List.forall_mem_cons, ← ih]
    simp only [loop]
    cases f a with
    | error e => simp
    | ok ps =>
      cases loop f l with
      | error e => simp
      | ok qs => simp

theorem loop_single {α E P : Type} (f : α → Except E (List P)) (a : α) : loop f [a] = f a := by
  simp only [loop]
  cases f a <;> simp

theorem lookup_mem {B : Type} {bodies : List (String × B)} (hn : (bodies.map (·.1)).Nodup) (n : String) (b : B) :
    bodies.lookup n = some b ↔ (n, b) ∈ bodies := by
  induction bodies with
  | nil => simp
  | cons x r ih =>
    obtain ⟨m, c⟩ := x
    rw [List.map_cons, List.nodup_cons] at hn
    rw [List.lookup_cons]
    by_cases h : n = m
    · subst h
      simp only [beq_self_eq_true]
      constructor
      · intro e
        injection e with e
        subst e
        simp
      · intro e
        rcases List.mem_cons.1 e with e | e
        · injection e with _ e
          rw [e]
        · exact absurd (List.mem_map_of_mem (f := (·.1)) e) hn.1
    · have : (n == m) = false := by simpa using h
      rw [this, ih hn.2]
      simp [h]

theorem build_ok_iff {B E P : Type} {mk : B → Pb → Except E P} {bodies : List (String × B)} (hn : (bodies.map (·.1)).Nodup) (q : Pb)
    (ps : List P) : build mk bodies q.body q = .ok ps ↔ ∃ p, Builds mk bodies q p ∧ ps = [p] := by
  unfold build
  cases hl : bodies.lookup q.body with
  | none =>
    simp only [reduceCtorEq, false_iff]
    rintro ⟨p, ⟨b, hb, _⟩, _⟩
    rw [(lookup_mem hn _ _).2 hb] at hl
    cases hl
  | some b =>
    have hb := (lookup_mem hn _ _).1 hl
    have hu : ∀ b', (q.body, b') ∈ bodies → b' = b := by
      intro b' h'
      have := (lookup_mem hn _ _).2 h'
      rw [hl] at this
      injection this with this
      exact this.symm
    simp only
    cases hm : mk b q with
    | error e =>
      simp only [reduceCtorEq, false_iff]
      rintro ⟨p, ⟨b', hb', hm'⟩, _⟩
      rw [hu b' hb', hm] at hm'
      cases hm'
    | ok p =>
      simp only [Except.ok.injEq]
      constructor
      · rintro rfl
        exact ⟨p, ⟨b, hb, hm⟩, rfl⟩
      · rintro ⟨p', ⟨b', hb', hm'⟩, rfl⟩
        rw [hu b' hb', hm] at hm'
        injection hm' with hm'
        rw [hm']

theorem loop_build {B E P : Type} {mk : B → Pb → Except E P} {bodies : List (String × B)} (hn : (bodies.map (·.1)).Nodup) (qs : List Pb)
    {ps : List P} (h : loop (fun q => build mk bodies q.body q) qs = .ok ps) : List.Forall₂ (Builds mk bodies) qs ps := by
  induction qs generalizing ps with
  | nil =>
    simp only [loop, Except.ok.injEq] at h
    subst h
    exact List.Forall₂.nil
  | cons q r ih =>
    simp only [loop] at h
    cases hb : build mk bodies q.body q with
    | error e => rw [hb] at h; cases h
    | ok x =>
      cases hr : loop (fun q => build mk bodies q.body q) r with
      | error e => rw [hb, hr] at h; cases h
      | ok y =>
        rw [hb, hr] at h
        injection h with h
        subst h
        obtain ⟨p, hp, rfl⟩ := (build_ok_iff hn q x).1 hb
        exact List.Forall₂.cons hp (ih hr)

/-! ## The list of problems, without exceptions -/

/-- The combinations of a diffraction loop. -/
noncomputable def waveCombos {B : Type} (t : TestMatrix) (bodies : List (String × B)) (dirs : List ℝ) :
    List (WithTop ℝ × ℝ × WithTop ℝ × String × ℝ × ℝ × ℝ) :=
  t.range.2.flatMap fun f => dirs.flatMap fun dir => (t.rest bodies).map fun r => (f, dir, r)

/-- The combinations of a radiation loop. -/
noncomputable def dofCombos {B : Type} (t : TestMatrix) (bodies : List (String × B)) (dofs : List String) :
    List (WithTop ℝ × String × WithTop ℝ × String × ℝ × ℝ × ℝ) :=
  t.range.2.flatMap fun f => dofs.flatMap fun dof => (t.rest bodies).map fun r => (f, dof, r)

open Classical in
/-- What one combination asks. -/
noncomputable def waveAsk (ft : FreqType) (x : WithTop ℝ × ℝ × WithTop ℝ × String × ℝ × ℝ × ℝ) : List Pb := match x with
  | (f, dir, h, b, U, ρ, g) => if f ≠ 0 ∧ f ≠ ⊤ then [.diffraction b ft f dir h U ρ g] else []

open Classical in
/-- What one combination asks. -/
noncomputable def dofAsk (ft : FreqType) (dirs : List ℝ) (x : WithTop ℝ × String × WithTop ℝ × String × ℝ × ℝ × ℝ) : List Pb := match x with
  | (f, dof, h, b, U, ρ, g) => if U = 0 then [.radiation b ft f dof 0 h U ρ g] else dirs.map fun dir => .radiation b ft f dof dir h U ρ g

/-- All the problems. -/
noncomputable def asked {B : Type} (t : TestMatrix) (bodies : List (String × B)) : List Pb :=
  (match t.direction with
    | some dirs => (waveCombos t bodies dirs).flatMap (waveAsk t.range.1)
    | none => []) ++
  match t.dof with
    | some dofs => (dofCombos t bodies dofs).flatMap (dofAsk t.range.1 (t.direction.getD [0]))
    | none => []

theorem mem_rest {B : Type} (t : TestMatrix) (bodies : List (String × B)) (h : WithTop ℝ) (b : String) (U ρ g : ℝ) :
    (h, b, U, ρ, g) ∈ t.rest bodies ↔ OneOf t.depth ⊤ h ∧ ((∃ B, (b, B) ∈ bodies) ∧ ∀ l, t.body = some l → b ∈ l) ∧ OneOf t.speed 0 U ∧
      OneOf t.rho 1000 ρ ∧ OneOf t.g 9.81 g := by
  have e1 : h ∈ t.depths ↔ OneOf t.depth ⊤ h := by
    unfold TestMatrix.depths OneOf
    cases t.depth <;> simp
  have e2 : U ∈ t.speeds ↔ OneOf t.speed 0 U := by
    unfold TestMatrix.speeds OneOf
    cases t.speed <;> simp
  have e3 : ρ ∈ t.rhos ↔ OneOf t.rho 1000 ρ := by
    unfold TestMatrix.rhos OneOf
    cases t.rho <;> simp
  have e4 : g ∈ t.gs ↔ OneOf t.g 9.81 g := by
    unfold TestMatrix.gs OneOf
    cases t.g <;> simp
  have e5 : b ∈ t.bodies bodies ↔ (∃ B, (b, B) ∈ bodies) ∧ ∀ l, t.body = some l → b ∈ l := by
    unfold TestMatrix.bodies
    cases t.body <;> simp
  rw [← e1, ← e2, ← e3, ← e4, ← e5]
  unfold TestMatrix.rest
  simp only [List.mem_flatMap, List.mem_map, Prod.mk.injEq]
  constructor
  · rintro ⟨_, h1, _, h2, _, h3, _, h4, _, h5, rfl, rfl, rfl, rfl, rfl⟩
    exact ⟨h1, h2, h3, h4, h5⟩
  · rintro ⟨h1, h2, h3, h4, h5⟩
    exact ⟨_, h1, _, h2, _, h3, _, h4, _, h5, rfl, rfl, rfl, rfl, rfl⟩

theorem mem_keys (t : TestMatrix) (k : FreqType) : k ∈ t.keys ↔ ∃ l, t.freq k = some l := by
  unfold TestMatrix.keys
  rw [List.mem_filter, Option.isSome_iff_exists]
  cases k <;> simp

/-- With at most one frequency key. -/
theorem mem_range (t : TestMatrix) (h : t.keys.length ≤ 1) (ft : FreqType) (f : WithTop ℝ) :
    (ft = t.range.1 ∧ f ∈ t.range.2) ↔ t.HasFreq ft f := by
  unfold TestMatrix.range TestMatrix.HasFreq
  cases hk : t.keys with
  | nil =>
    have hn : ∀ k, t.freq k = none := by
      intro k
      cases hf : t.freq k with
      | none => rfl
      | some l =>
        have := (mem_keys t k).2 ⟨l, hf⟩
        rw [hk] at this
        cases this
    simp [hn, defaultOmega]
  | cons k r =>
    have hr : r = [] := by
      rw [hk] at h
      simp at h
      exact h
    subst hr
    obtain ⟨l, hl⟩ := (mem_keys t k).1 (by rw [hk]; simp)
    have hu : ∀ k' l', t.freq k' = some l' → k' = k := by
      intro k' l' h'
      have := (mem_keys t k').2 ⟨l', h'⟩
      rw [hk] at this
      simpa using this
    simp only [hl, Option.getD_some]
    constructor
    · rintro ⟨rfl, hf⟩
      exact Or.inl ⟨l, hl, hf⟩
    · rintro (⟨l', h', hf⟩ | ⟨h', _⟩)
      · have := hu _ _ h'
        subst this
        rw [hl] at h'
        injection h' with h'
        subst h'
        exact ⟨rfl, hf⟩
      · rw [h' k] at hl
        cases hl

/-- The list has exactly the requested problems. -/
theorem mem_asked {B : Type} (t : TestMatrix) (bodies : List (String × B)) (h : t.keys.length ≤ 1) (q : Pb) :
    q ∈ asked t bodies ↔ Requested t bodies q := by
  have hw : ∀ dirs f dir r, (f, dir, r) ∈ waveCombos t bodies dirs ↔ f ∈ t.range.2 ∧ dir ∈ dirs ∧ r ∈ t.rest bodies := by
    intro dirs f dir r
    unfold waveCombos
    simp only [List.mem_flatMap, List.mem_map, Prod.mk.injEq]
    constructor
    · rintro ⟨_, h1, _, h2, _, h3, rfl, rfl, rfl⟩
      exact ⟨h1, h2, h3⟩
    · rintro ⟨h1, h2, h3⟩
      exact ⟨_, h1, _, h2, _, h3, rfl, rfl, rfl⟩
  have hd : ∀ dofs f dof r, (f, dof, r) ∈ dofCombos t bodies dofs ↔ f ∈ t.range.2 ∧ dof ∈ dofs ∧ r ∈ t.rest bodies := by
    intro dofs f dof r
    unfold dofCombos
    simp only [List.mem_flatMap, List.mem_map, Prod.mk.injEq]
    constructor
    · rintro ⟨_, h1, _, h2, _, h3, rfl, rfl, rfl⟩
      exact ⟨h1, h2, h3⟩
    · rintro ⟨h1, h2, h3⟩
      exact ⟨_, h1, _, h2, _, h3, rfl, rfl, rfl⟩
  have hE : ∀ b ft f h U ρ g, (ft = t.range.1 ∧ f ∈ t.range.2 ∧ (h, b, U, ρ, g) ∈ t.rest bodies) ↔ t.Env bodies b ft f h U ρ g := by
    intro b ft f h' U ρ g
    unfold TestMatrix.Env
    rw [← mem_range t h, mem_rest]
    tauto
  unfold asked
  rw [List.mem_append]
  cases q with
  | diffraction b ft f dir h' U ρ g =>
    have n2 : ∀ dofs, Pb.diffraction b ft f dir h' U ρ g ∉
        (dofCombos t bodies dofs).flatMap (dofAsk t.range.1 (t.direction.getD [0])) := by
      intro dofs hm
      obtain ⟨x, _, hx⟩ := List.mem_flatMap.1 hm
      obtain ⟨f', dof, h'', b', U', ρ', g'⟩ := x
      unfold dofAsk at hx
      simp only at hx
      split_ifs at hx <;> simp at hx
    have e2 : ¬ Pb.diffraction b ft f dir h' U ρ g ∈ (match t.dof with
        | some dofs => (dofCombos t bodies dofs).flatMap (dofAsk t.range.1 (t.direction.getD [0]))
        | none => []) := by
      cases t.dof with
      | none => simp
      | some d => exact n2 d
    rw [or_iff_left e2]
    simp only [Requested]
    rw [← hE]
    cases hdir : t.direction with
    | none => simp
    | some dirs =>
      simp only [List.mem_flatMap]
      constructor
      · rintro ⟨⟨f', dir', h'', b', U', ρ', g'⟩, hm, hx⟩
        unfold waveAsk at hx
        simp only at hx
        split_ifs at hx with hf
        · simp only [List.mem_singleton, Pb.diffraction.injEq] at hx
          obtain ⟨rfl, rfl, rfl, rfl, rfl, rfl, rfl, rfl⟩ := hx
          obtain ⟨m1, m2, m3⟩ := (hw _ _ _ _).1 hm
          exact ⟨⟨rfl, m1, m3⟩, hf.1, hf.2, dirs, rfl, m2⟩
        · cases hx
      · rintro ⟨⟨rfl, m1, m3⟩, h0, hT, l, hl, m2⟩
        injection hl with hl
        subst hl
        refine ⟨(f, dir, h', b, U, ρ, g), (hw _ _ _ _).2 ⟨m1, m2, m3⟩, ?_⟩
        unfold waveAsk
        simp only
        rw [if_pos ⟨h0, hT⟩]
        simp
  | radiation b ft f dof dir h' U ρ g =>
    have e1 : ¬ Pb.radiation b ft f dof dir h' U ρ g ∈ (match t.direction with
        | some dirs => (waveCombos t bodies dirs).flatMap (waveAsk t.range.1)
        | none => []) := by
      cases t.direction with
      | none => simp
      | some d =>
        intro hm
        obtain ⟨x, _, hx⟩ := List.mem_flatMap.1 hm
        obtain ⟨f', dir', h'', b', U', ρ', g'⟩ := x
        unfold waveAsk at hx
        simp only at hx
        split_ifs at hx <;> simp at hx
    rw [or_iff_right e1]
    simp only [Requested]
    rw [← hE]
    have eD : ∀ x, x ∈ t.direction.getD [0] ↔ OneOf t.direction 0 x := by
      intro x
      unfold OneOf
      cases t.direction <;> simp
    cases hdof : t.dof with
    | none => simp
    | some dofs =>
      simp only [List.mem_flatMap]
      constructor
      · rintro ⟨⟨f', dof', h'', b', U', ρ', g'⟩, hm, hx⟩
        unfold dofAsk at hx
        simp only at hx
        split_ifs at hx with hU
        · simp only [List.mem_singleton, Pb.radiation.injEq] at hx
          obtain ⟨rfl, rfl, rfl, rfl, rfl, rfl, rfl, rfl, rfl⟩ := hx
          obtain ⟨m1, m2, m3⟩ := (hd _ _ _ _).1 hm
          exact ⟨⟨rfl, m1, m3⟩, ⟨dofs, rfl, m2⟩, fun _ => rfl, fun h => absurd hU h⟩
        · simp only [List.mem_map, Pb.radiation.injEq] at hx
          obtain ⟨d, hd', rfl, rfl, rfl, rfl, rfl, rfl, rfl, rfl, rfl⟩ := hx
          obtain ⟨m1, m2, m3⟩ := (hd _ _ _ _).1 hm
          exact ⟨⟨rfl, m1, m3⟩, ⟨dofs, rfl, m2⟩, fun h => absurd h hU, fun _ => (eD _).1 hd'⟩
      · rintro ⟨⟨rfl, m1, m3⟩, ⟨l, hl, m2⟩, h0, h1⟩
        injection hl with hl
        subst hl
        refine ⟨(f, dof, h', b, U, ρ, g), (hd _ _ _ _).2 ⟨m1, m2, m3⟩, ?_⟩
        unfold dofAsk
        simp only
        by_cases hU : U = 0
        · rw [if_pos hU, h0 hU]
          simp
        · rw [if_neg hU]
          simp only [List.mem_map]
          exact ⟨dir, (eD _).2 (h1 hU), rfl⟩

/-! ## Each problem once -/

theorem nodup_flatMap_of {α β : Type} {l : List α} {f : α → List β} (hl : l.Nodup) (hf : ∀ a ∈ l, (f a).Nodup)
    (hd : ∀ a b x, x ∈ f a → x ∈ f b → a = b) : (l.flatMap f).Nodup := by
  rw [List.nodup_flatMap]
  refine ⟨hf, hl.imp fun {a b} hab => ?_⟩
  intro x hx hy
  exact hab (hd a b x hx hy)

theorem nodup_range {t : TestMatrix} (h : t.Distinct) : t.range.2.Nodup := by
  unfold TestMatrix.range
  cases hk : t.keys with
  | nil => simp
  | cons k r =>
    obtain ⟨l, hl⟩ := (mem_keys t k).1 (by rw [hk]; simp)
    simp only [hl, Option.getD_some]
    exact h.freq k l hl

theorem nodup_getD {α : Type} {c : Option (List α)} (h : ∀ l, c = some l → l.Nodup) (d : α) : (c.getD [d]).Nodup := by
  cases c with
  | none => simp
  | some l => exact h l rfl

theorem nodup_rest {B : Type} {t : TestMatrix} {bodies : List (String × B)} (h : t.Distinct) (hn : (bodies.map (·.1)).Nodup) :
    (t.rest bodies).Nodup := by
  have hb : (t.bodies bodies).Nodup := by
    unfold TestMatrix.bodies
    cases t.body with
    | none => exact hn
    | some l => exact hn.filter _
  unfold TestMatrix.rest
  refine nodup_flatMap_of (nodup_getD h.depth _) (fun a _ => nodup_flatMap_of hb (fun b _ => nodup_flatMap_of (nodup_getD h.speed _)
    (fun c _ => nodup_flatMap_of (nodup_getD h.rho _) (fun d _ => (nodup_getD h.g _).map ?_) ?_) ?_) ?_) ?_
  · intro x y hxy
    simpa using hxy
  · intro a b x hx hy
    simp only [List.mem_map] at hx hy
    obtain ⟨_, _, rfl⟩ := hx
    obtain ⟨_, _, he⟩ := hy
    simp at he
    exact he.1.symm
  · intro a b x hx hy
    simp only [List.mem_map, List.mem_flatMap] at hx hy
    obtain ⟨_, _, _, _, rfl⟩ := hx
    obtain ⟨_, _, _, _, he⟩ := hy
    simp at he
    exact he.1.symm
  · intro a b x hx hy
    simp only [List.mem_map, List.mem_flatMap] at hx hy
    obtain ⟨_, _, _, _, _, _, rfl⟩ := hx
    obtain ⟨_, _, _, _, _, _, he⟩ := hy
    simp at he
    exact he.1.symm
  · intro a b x hx hy
    simp only [List.mem_map, List.mem_flatMap] at hx hy
    obtain ⟨_, _, _, _, _, _, _, _, rfl⟩ := hx
    obtain ⟨_, _, _, _, _, _, _, _, he⟩ := hy
    simp at he
    exact he.1.symm

theorem nodup_combos {A : Type} {l : List (WithTop ℝ)} {m : List A} {R : Type} {r : List R} (hl : l.Nodup) (hm : m.Nodup)
    (hr : r.Nodup) : (l.flatMap fun f => m.flatMap fun a => r.map fun x => (f, a, x)).Nodup := by
  refine nodup_flatMap_of hl (fun f _ => nodup_flatMap_of hm (fun a _ => hr.map ?_) ?_) ?_
  · intro x y hxy
    simpa using hxy
  · intro a b x hx hy
    simp only [List.mem_map] at hx hy
    obtain ⟨_, _, rfl⟩ := hx
    obtain ⟨_, _, he⟩ := hy
    simp at he
    exact he.1.symm
  · intro a b x hx hy
    simp only [List.mem_map, List.mem_flatMap] at hx hy
    obtain ⟨_, _, _, _, rfl⟩ := hx
    obtain ⟨_, _, _, _, he⟩ := hy
    simp at he
    exact he.1.symm

/-- No problem is asked twice. -/
theorem asked_nodup {B : Type} {t : TestMatrix} {bodies : List (String × B)} (h : t.Distinct) (hn : (bodies.map (·.1)).Nodup) :
    (asked t bodies).Nodup := by
  have hD : (t.direction.getD [0]).Nodup := nodup_getD h.direction _
  unfold asked
  refine List.Nodup.append ?_ ?_ ?_
  · cases hd : t.direction with
    | none => simp
    | some dirs =>
      refine nodup_flatMap_of (nodup_combos (nodup_range h) (h.direction dirs hd) (nodup_rest h hn)) ?_ ?_
      · rintro ⟨f, dir, h', b, U, ρ, g⟩ _
        unfold waveAsk
        simp only
        split_ifs <;> simp
      · rintro ⟨f, dir, h', b, U, ρ, g⟩ ⟨f2, dir2, h2, b2, U2, ρ2, g2⟩ x hx hy
        unfold waveAsk at hx hy
        simp only at hx hy
        split_ifs at hx hy
        · simp only [List.mem_singleton] at hx hy
          subst hx
          injection hy with e1 e2 e3 e4 e5 e6 e7 e8
          subst e1 e3 e4 e5 e6 e7 e8
          rfl
        · exact absurd hy (by simp)
        · exact absurd hx (by simp)
        · exact absurd hx (by simp)
  · cases hd : t.dof with
    | none => simp
    | some dofs =>
      refine nodup_flatMap_of (nodup_combos (nodup_range h) (h.dof dofs hd) (nodup_rest h hn)) ?_ ?_
      · rintro ⟨f, dof, h', b, U, ρ, g⟩ _
        unfold dofAsk
        simp only
        split_ifs
        · simp
        · refine hD.map ?_
          intro x y hxy
          simpa using hxy
      · rintro ⟨f, dof, h', b, U, ρ, g⟩ ⟨f2, dof2, h2, b2, U2, ρ2, g2⟩ x hx hy
        have key : ∀ (f : WithTop ℝ) (dof : String) (h' : WithTop ℝ) (b : String) (U ρ g : ℝ),
            x ∈ dofAsk t.range.1 (t.direction.getD [0]) (f, dof, h', b, U, ρ, g) →
            ∃ dir, x = .radiation b t.range.1 f dof dir h' U ρ g := by
          intro f dof h' b U ρ g hx
          unfold dofAsk at hx
          simp only at hx
          split_ifs at hx
          · exact ⟨0, by simpa using hx⟩
          · simp only [List.mem_map] at hx
            obtain ⟨d, _, rfl⟩ := hx
            exact ⟨d, rfl⟩
        obtain ⟨d1, e1⟩ := key _ _ _ _ _ _ _ hx
        obtain ⟨d2, e2⟩ := key _ _ _ _ _ _ _ hy
        subst e1
        injection e2 with e1 e2 e3 e4 e5 e6 e7 e8 e9
        subst e1 e3 e4 e6 e7 e8 e9
        rfl
  · intro x hx hy
    have h1 : ∃ b ft f dir h' U ρ g, x = Pb.diffraction b ft f dir h' U ρ g := by
      cases hd : t.direction with
      | none => rw [hd] at hx; cases hx
      | some dirs =>
        rw [hd] at hx
        obtain ⟨⟨f, dir, h', b, U, ρ, g⟩, _, hx⟩ := List.mem_flatMap.1 hx
        unfold waveAsk at hx
        simp only at hx
        split_ifs at hx
        · exact ⟨_, _, _, _, _, _, _, _, by simpa using hx⟩
        · cases hx
    obtain ⟨b, ft, f, dir, h', U, ρ, g, rfl⟩ := h1
    cases hd : t.dof with
    | none => rw [hd] at hy; cases hy
    | some dofs =>
      rw [hd] at hy
      obtain ⟨⟨f, dof, h', b, U, ρ, g⟩, _, hy⟩ := List.mem_flatMap.1 hy
      unfold dofAsk at hy
      simp only at hy
      split_ifs at hy <;> simp at hy

/-! ## The function -/

theorem diffractions_ok {B E P : Type} {mk : B → Pb → Except E P} {t : TestMatrix} {bodies : List (String × B)} {dirs : List ℝ}
    (h : t.dof.isSome ∨ ∀ x ∈ waveCombos t bodies dirs, x.1 ≠ 0 ∧ x.1 ≠ ⊤) :
    diffractions mk t bodies dirs =
      loop (fun q => build mk bodies q.body q) ((waveCombos t bodies dirs).flatMap (waveAsk t.range.1)) := by
  unfold diffractions
  refine loop_flatMap _ ?_
  rintro ⟨f, dir, h', b, U, ρ, g⟩ hm
  unfold waveAsk
  simp only
  by_cases hf : f ≠ 0 ∧ f ≠ ⊤
  · rw [if_pos hf, if_pos hf, loop_single]
    rfl
  · rw [if_neg hf, if_neg hf]
    rcases h with h | h
    · rw [if_pos h]
      rfl
    · exact absurd (h _ hm) hf

theorem radiations_ok {B E P : Type} {mk : B → Pb → Except E P} {t : TestMatrix} {bodies : List (String × B)} {dofs : List String} :
    radiations mk t bodies dofs =
      loop (fun q => build mk bodies q.body q) ((dofCombos t bodies dofs).flatMap (dofAsk t.range.1 (t.direction.getD [0]))) := by
  unfold radiations
  refine loop_flatMap _ ?_
  rintro ⟨f, dof, h', b, U, ρ, g⟩ _
  unfold dofAsk
  simp only
  by_cases hU : U = 0
  · rw [if_pos hU, if_pos hU, loop_single]
    rfl
  · rw [if_neg hU, if_neg hU]
    generalize t.direction.getD [0] = l
    induction l with
    | nil => rfl
    | cons d r ih =>
      simp only [loop, List.map_cons, ih]
      rfl

theorem diffractions_refused {B E P : Type} {mk : B → Pb → Except E P} {t : TestMatrix} {bodies : List (String × B)} {dirs : List ℝ}
    {ps : List P} (h : diffractions mk t bodies dirs = .ok ps) :
    t.dof.isSome ∨ ∀ x ∈ waveCombos t bodies dirs, x.1 ≠ 0 ∧ x.1 ≠ ⊤ := by
  by_contra hc
  push Not at hc
  obtain ⟨hd, ⟨f, dir, h', b, U, ρ, g⟩, hm, hx⟩ := hc
  have := (loop_ok_iff _ _).1 ⟨ps, h⟩ _ hm
  simp only at this
  rw [if_neg, if_neg hd] at this
  · obtain ⟨_, h⟩ := this
    cases h
  · intro hh
    exact hh.2 (hx hh.1)

/-- What a list of problems must be for a test matrix. -/
structure Complete {B E P : Type} (mk : B → Pb → Except E P) (t : TestMatrix) (bodies : List (String × B)) (ps : List P) : Prop where
  /-- Each problem is one of those requested, and each requested one is there. -/
  each : ∃ qs : List Pb, (∀ q, q ∈ qs ↔ Requested t bodies q) ∧ (t.Distinct → qs.Nodup) ∧
    ∃ ps', List.Forall₂ (Builds mk bodies) qs ps' ∧ ps.Perm ps'

/-- The tests made on the matrix. -/
structure Accepted {B : Type} (t : TestMatrix) (bodies : List (String × B)) : Prop where
  names : (bodies.map (·.1)).Nodup
  something : t.dof ≠ none ∨ t.direction ≠ none
  oneFrequency : ∀ k k', t.freq k ≠ none → t.freq k' ≠ none → k = k'
  known : ∀ l, t.body = some l → ∀ n ∈ l, ∃ B, (n, B) ∈ bodies
  limits : t.dof = none → ∀ b ft f h U ρ g, t.Env bodies b ft f h U ρ g → (∃ l d, t.direction = some l ∧ d ∈ l) → f ≠ 0 ∧ f ≠ ⊤

theorem keys_le (t : TestMatrix) : t.keys.length ≤ 1 ↔ ∀ k k', t.freq k ≠ none → t.freq k' ≠ none → k = k' := by
  have hn : t.keys.Nodup := List.Nodup.filter _ (by decide)
  constructor
  · intro h k k' hk hk'
    obtain ⟨l, hl⟩ := Option.ne_none_iff_exists'.1 hk
    obtain ⟨l', hl'⟩ := Option.ne_none_iff_exists'.1 hk'
    have m := (mem_keys t k).2 ⟨l, hl⟩
    have m' := (mem_keys t k').2 ⟨l', hl'⟩
    match hkk : t.keys with
    | [] => rw [hkk] at m; cases m
    | [x] =>
      rw [hkk] at m m'
      simp at m m'
      rw [m, m']
    | x :: y :: r => rw [hkk] at h; simp at h
  · intro h
    match hkk : t.keys with
    | [] => simp
    | [x] => simp
    | x :: y :: r =>
      exfalso
      obtain ⟨l, hl⟩ := (mem_keys t x).1 (by rw [hkk]; simp)
      obtain ⟨l', hl'⟩ := (mem_keys t y).1 (by rw [hkk]; simp)
      have := h x y (by rw [hl]; simp) (by rw [hl']; simp)
      rw [hkk, this] at hn
      simp at hn

theorem limits_iff {B : Type} {t : TestMatrix} {bodies : List (String × B)} (hk : t.keys.length ≤ 1) {dirs : List ℝ}
    (hd : t.direction = some dirs) :
    (t.dof.isSome ∨ ∀ x ∈ waveCombos t bodies dirs, x.1 ≠ 0 ∧ x.1 ≠ ⊤) ↔
    (t.dof = none → ∀ b ft f h U ρ g, t.Env bodies b ft f h U ρ g → (∃ l d, t.direction = some l ∧ d ∈ l) → f ≠ 0 ∧ f ≠ ⊤) := by
  constructor
  · rintro (h | h) hn b ft f h' U ρ g he ⟨l, d, hl, hdl⟩
    · rw [hn] at h
      simp at h
    · rw [hd] at hl
      injection hl with hl
      subst hl
      obtain ⟨h1, h2, h3, h4, h5⟩ := he
      have hr := (mem_range t hk ft f).2 h1
      refine h (f, d, h', b, U, ρ, g) ?_
      unfold waveCombos
      simp only [List.mem_flatMap, List.mem_map]
      exact ⟨f, hr.2, d, hdl, _, (mem_rest t bodies h' b U ρ g).2 ⟨h2, ⟨h3, h4⟩, h5⟩, rfl⟩
  · intro h
    by_cases hn : t.dof = none
    · refine Or.inr ?_
      rintro ⟨f, d, h', b, U, ρ, g⟩ hm
      unfold waveCombos at hm
      simp only [List.mem_flatMap, List.mem_map, Prod.mk.injEq] at hm
      obtain ⟨f', h1, d', h2, r', h3, e1, e2, e3⟩ := hm
      subst e1 e2 e3
      obtain ⟨m1, m2, m3⟩ := (mem_rest t bodies h' b U ρ g).1 h3
      exact h hn b t.range.1 f' h' U ρ g ⟨(mem_range t hk _ _).1 ⟨rfl, h1⟩, m1, m2.1, m2.2, m3⟩ ⟨dirs, d', hd, h2⟩
    · exact Or.inl (Option.ne_none_iff_isSome.1 hn)

theorem known_iff {B : Type} {t : TestMatrix} {bodies : List (String × B)} :
    (∀ n ∈ t.body.getD [], n ∈ bodies.map (·.1)) ↔ ∀ l, t.body = some l → ∀ n ∈ l, ∃ B, (n, B) ∈ bodies := by
  cases t.body with
  | none => simp
  | some l => simp

/-- When the matrix is accepted, the function is a loop on the requested problems. -/
theorem expand_eq {B E P : Type} (mk : B → Pb → Except E P) (sort : List P → List P) {t : TestMatrix} {bodies : List (String × B)}
    (h : Accepted t bodies) :
    problemsFromDataset mk sort t bodies = match loop (fun q => build mk bodies q.body q) (asked t bodies) with
      | .error e => .error e
      | .ok ps => .ok (sort ps) := by
  have hk := (keys_le t).2 h.oneFrequency
  unfold problemsFromDataset
  rw [if_neg (not_not.2 h.names), if_neg (by rintro ⟨a, b⟩; rcases h.something with c | c; exacts [c a, c b]),
    if_neg (not_lt.2 hk), if_neg (not_not.2 (known_iff.2 h.known))]
  unfold asked
  rw [loop_append]
  cases hd : t.direction with
  | none =>
    simp only
    cases hf : t.dof with
    | none => simp [loop]
    | some dofs =>
      simp only
      rw [radiations_ok, hd]
      simp only [loop]
      cases loop (fun q => build mk bodies q.body q) _ <;> simp
  | some dirs =>
    simp only
    rw [diffractions_ok ((limits_iff hk hd).2 h.limits)]
    cases loop (fun q => build mk bodies q.body q) ((waveCombos t bodies dirs).flatMap (waveAsk t.range.1)) with
    | error e => rfl
    | ok ds =>
      simp only
      cases hf : t.dof with
      | none => simp [loop]
      | some dofs =>
        simp only
        rw [radiations_ok, hd]
        cases loop (fun q => build mk bodies q.body q) _ <;> simp

theorem forall2_left {α β : Type} {R : α → β → Prop} {l : List α} {m : List β} (h : List.Forall₂ R l m) : ∀ a ∈ l, ∃ b, R a b := by
  induction h with
  | nil => simp
  | cons hp _ ih =>
    intro a ha
    rcases List.mem_cons.1 ha with rfl | ha
    · exact ⟨_, hp⟩
    · exact ih a ha

/-- What is returned came from a matrix which passed the tests. -/
theorem accepted_of_ok {B E P : Type} {mk : B → Pb → Except E P} {sort : List P → List P} {t : TestMatrix}
    {bodies : List (String × B)} {ps : List P} (h : problemsFromDataset mk sort t bodies = .ok ps) : Accepted t bodies := by
  unfold problemsFromDataset at h
  by_cases h1 : (bodies.map (·.1)).Nodup
  · rw [if_neg (not_not.2 h1)] at h
    by_cases h2 : t.dof = none ∧ t.direction = none
    · rw [if_pos h2] at h
      cases h
    · rw [if_neg h2] at h
      by_cases h3 : t.keys.length > 1
      · rw [if_pos h3] at h
        cases h
      · rw [if_neg h3] at h
        by_cases h4 : ∀ n ∈ t.body.getD [], n ∈ bodies.map (·.1)
        · rw [if_neg (not_not.2 h4)] at h
          refine ⟨h1, ?_, (keys_le t).1 (not_lt.1 h3), known_iff.1 h4, ?_⟩
          · by_contra hc
            push Not at hc
            exact h2 hc
          · cases hd : t.direction with
            | none =>
              rintro hn b ft f h' U ρ g he ⟨l, d, hl, _⟩
              cases hl
            | some dirs =>
              rw [hd] at h
              simp only at h
              cases hw : diffractions mk t bodies dirs with
              | error e => rw [hw] at h; cases h
              | ok ds =>
                rw [← hd]
                exact (limits_iff (not_lt.1 h3) hd).1 (diffractions_refused hw)
        · rw [if_pos h4] at h
          cases h
  · rw [if_pos h1] at h
    cases h

/-- The list of problems has each requested problem, once if no value is repeated in the matrix, and nothing else. -/
theorem expand_complete {B E P : Type} {mk : B → Pb → Except E P} {sort : List P → List P} (hs : ∀ l, (sort l).Perm l) {t : TestMatrix}
    {bodies : List (String × B)} {ps : List P} (h : problemsFromDataset mk sort t bodies = .ok ps) : Complete mk t bodies ps := by
  have ha := accepted_of_ok h
  rw [expand_eq mk sort ha] at h
  cases hl : loop (fun q => build mk bodies q.body q) (asked t bodies) with
  | error e => rw [hl] at h; cases h
  | ok qs =>
    rw [hl] at h
    injection h with h
    subst h
    exact ⟨asked t bodies, mem_asked t bodies ((keys_le t).2 ha.oneFrequency), fun hd => asked_nodup hd ha.names, qs,
      loop_build ha.names _ hl, hs qs⟩

/-- The matrices which are expanded are those which pass the tests and whose requested problems can be built. -/
theorem expand_ok_iff {B E P : Type} (mk : B → Pb → Except E P) (sort : List P → List P) (hs : ∀ l, (sort l).Perm l) (t : TestMatrix)
    (bodies : List (String × B)) :
    (∃ ps, problemsFromDataset mk sort t bodies = .ok ps) ↔
      Accepted t bodies ∧ ∀ q, Requested t bodies q → ∃ p, Builds mk bodies q p := by
  constructor
  · rintro ⟨ps, h⟩
    obtain ⟨qs, hq, _, ps', hf, _⟩ := (expand_complete hs h).each
    have hb : ∀ q, Requested t bodies q → ∃ p, Builds mk bodies q p := by
      intro q hr
      have hm := (hq q).2 hr
      exact forall2_left hf q hm
    exact ⟨accepted_of_ok h, hb⟩
  · rintro ⟨ha, hb⟩
    rw [expand_eq mk sort ha]
    have : ∃ qs, loop (fun q => build mk bodies q.body q) (asked t bodies) = .ok qs := by
      rw [loop_ok_iff]
      intro q hq
      obtain ⟨p, hp⟩ := hb q ((mem_asked t bodies ((keys_le t).2 ha.oneFrequency) q).1 hq)
      exact ⟨[p], (build_ok_iff ha.names q [p]).2 ⟨p, hp, rfl⟩⟩
    obtain ⟨qs, hq⟩ := this
    exact ⟨sort qs, by rw [hq]⟩

/-! ## A case -/

/-- Two frequencies of which one is infinite, two directions, one dof, with forward speed. -/
noncomputable def caseMatrix : TestMatrix where
  freq k := match k with
    | .period => some [((2 : ℝ) : WithTop ℝ), ⊤]
    | _ => none
  depth := none
  rho := none
  g := none
  speed := some [0, 3]
  direction := some [0, 1]
  dof := some ["Heave"]
  body := some ["float"]

/-- The matrix passes the tests, and its problems are found whatever the way to build and sort them. -/
theorem caseMatrix_ok : Accepted caseMatrix [("float", 0), ("buoy", 1)] ∧ caseMatrix.Distinct := by
  refine ⟨⟨by simp, Or.inl (by simp [caseMatrix]), ?_, ?_, ?_⟩, ⟨?_, ?_, ?_, ?_, ?_, ?_, ?_⟩⟩
  · intro k k' h h'
    cases k <;> cases k' <;> simp_all [caseMatrix]
  · intro l hl n hn
    simp only [caseMatrix, Option.some.injEq] at hl
    subst hl
    simp only [List.mem_singleton] at hn
    subst hn
    exact ⟨0, by simp⟩
  · intro h
    simp [caseMatrix] at h
  · intro k l hl
    cases k <;> simp [caseMatrix] at hl
    subst hl
    simp
  all_goals intro l hl; simp [caseMatrix] at hl
  all_goals subst hl; simp

example : ∃ ps : List (ℕ × Pb), problemsFromDataset (E := Unit) (fun b q => .ok (b, q)) id caseMatrix [("float", 0), ("buoy", 1)] = .ok ps ∧
    Complete (E := Unit) (fun b q => .ok (b, q)) caseMatrix [("float", 0), ("buoy", 1)] ps := by
  have h := (expand_ok_iff (E := Unit) (P := ℕ × Pb) (fun b q => .ok (b, q)) id (fun _ => List.Perm.refl _) caseMatrix
    [("float", 0), ("buoy", 1)]).2 ⟨caseMatrix_ok.1, fun q hq => by
      have : ∃ B, (q.body, B) ∈ [("float", 0), ("buoy", 1)] := by
        cases q with
        | diffraction b ft f dir h U ρ g => exact hq.1.2.2.1
        | radiation b ft f dof dir h U ρ g => exact hq.1.2.2.1
      obtain ⟨B, hB⟩ := this
      exact ⟨(B, q), B, hB, rfl⟩⟩
  obtain ⟨ps, hp⟩ := h
  exact ⟨ps, hp, expand_complete (fun _ => List.Perm.refl _) hp⟩

/-- The infinite period gives a radiation problem for each direction when the body moves, and no diffraction problem. -/
example : Requested caseMatrix [("float", 0), ("buoy", 1)] (.radiation "float" .period ⊤ "Heave" 1 ⊤ 3 1000 9.81) ∧
    ¬ Requested caseMatrix [("float", 0), ("buoy", 1)] (.diffraction "float" .period ⊤ 1 ⊤ 3 1000 9.81) := by
  constructor
  · refine ⟨⟨Or.inl ⟨_, rfl, by simp⟩, rfl, ⟨0, by simp⟩, ?_, ?_, rfl, rfl⟩, ⟨_, rfl, by simp⟩, by norm_num, fun _ => ?_⟩
    · intro l hl
      simp only [caseMatrix, Option.some.injEq] at hl
      subst hl
      simp
    · simp [OneOf, caseMatrix]
    · simp [OneOf, caseMatrix]
  · rintro ⟨_, _, h, _⟩
    exact h rfl


end Verif.Datasets
