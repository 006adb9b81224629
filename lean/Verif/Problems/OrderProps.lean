import Verif.Problems.OrderModel
import Mathlib.Data.List.Lex
import Mathlib.Data.List.Chain
import Mathlib.Data.Prod.Lex

/-!
# Order of the problems (C90)
-/

namespace Verif.Problems

/-! ## Specification -/

/-- The problems have the same body: the same object, or no body for both. -/
def SameBody (p q : ProblemData) : Prop := p.body.map BodyRef.object = q.body.map BodyRef.object

/-- The problems have the same body, levels, frequency, speed and density. -/
def SameSetting (p q : ProblemData) : Prop :=
  SameBody p q ∧ p.freeSurface = q.freeSurface ∧ p.waterDepth = q.waterDepth ∧ p.omega = q.omega ∧
    p.period = q.period ∧ p.wavenumber = q.wavenumber ∧ p.wavelength = q.wavelength ∧
    p.forwardSpeed = q.forwardSpeed ∧ p.rho = q.rho

/-- In the list, the elements between two related elements are related to them. -/
def Together {P : Type} (R : P → P → Prop) (l : List P) : Prop :=
  ∀ x y z, [x, y, z].Sublist l → R x z → R x y

/-- Two bodies of the problems have the same name when they are the same object, and only then. -/
def NamesApart (l : List ProblemData) : Prop :=
  ∀ p ∈ l, ∀ q ∈ l, ∀ a ∈ p.body, ∀ b ∈ q.body, a.name = b.name ↔ a.object = b.object

/-- All the problems have a body, or none has one. -/
def AllOrNone (l : List ProblemData) : Prop :=
  (∀ p ∈ l, p.body.isSome = true) ∨ ∀ p ∈ l, p.body.isSome = false

/-! ## The order of the problems is the order of a key -/

/-- The name of the body. -/
def ProblemData.bodyName (p : ProblemData) : String := (p.body.map BodyRef.name).getD ""

/-- The numbers that are compared. -/
def ProblemData.numbers (p : ProblemData) : List EReal :=
  [p.freeSurface, p.waterDepth, p.omega, p.period, p.wavenumber, p.wavelength, p.forwardSpeed, p.rho]

/-- The key of a problem. -/
def ProblemData.key (p : ProblemData) : Lex (String × List EReal) := toLex (p.bodyName, p.numbers)

theorem astuple_take (p : ProblemData) : p.astuple.take 9 = .body p.body :: p.numbers.map .num := by
  rcases h : p.cls with _ | _ | d <;> simp [ProblemData.astuple, h, ProblemData.baseTuple, ProblemData.numbers]

open Classical in
theorem tupleLt_numbers : ∀ x y : List EReal, tupleLt (x.map .num) (y.map .num) = some (decide (x < y))
  | _, [] => by simp [tupleLt]
  | [], _ :: _ => by simp [tupleLt]
  | a :: as, b :: bs => by
    simp only [List.map_cons, tupleLt, itemEq, itemLt, tupleLt_numbers as bs]
    split
    · rename_i h
      subst h
      congr 1
      simp
    · rename_i h
      congr 1
      rw [decide_eq_decide, List.cons_lt_cons_iff]
      simp [h]

/-- Two problems of the list have the same key exactly when they have the same setting. -/
theorem key_eq_iff {l : List ProblemData} (hn : NamesApart l) (hb : AllOrNone l) {p q : ProblemData} (hp : p ∈ l)
    (hq : q ∈ l) : (p.bodyName = q.bodyName ↔ SameBody p q) ∧ (p.key = q.key ↔ SameSetting p q) := by
  have h : p.bodyName = q.bodyName ↔ SameBody p q := by
    have := hn p hp q hq
    rcases hpb : p.body with _ | a <;> rcases hqb : q.body with _ | b
    · simp [ProblemData.bodyName, SameBody, hpb, hqb]
    · rcases hb with hb | hb
      · simpa [hpb] using hb p hp
      · simpa [hqb] using hb q hq
    · rcases hb with hb | hb
      · simpa [hqb] using hb q hq
      · simpa [hpb] using hb p hp
    · simpa [ProblemData.bodyName, SameBody, hpb, hqb] using this a (by simp [hpb]) b (by simp [hqb])
  refine ⟨h, ?_⟩
  simp only [ProblemData.key, EmbeddingLike.apply_eq_iff_eq, Prod.mk.injEq, h, SameSetting, ProblemData.numbers,
    List.cons.injEq, and_true]

open Classical in
theorem lt_key {l : List ProblemData} (hn : NamesApart l) (hb : AllOrNone l) {p q : ProblemData} (hp : p ∈ l)
    (hq : q ∈ l) : p.lt q = some (decide (p.key < q.key)) := by
  have hlt : ∀ u v : List EReal, decide (u < v) = decide (u < v) := fun _ _ => rfl
  have hk := (key_eq_iff hn hb hp hq).1
  have hlex : p.key < q.key ↔ p.bodyName < q.bodyName ∨ p.bodyName = q.bodyName ∧ p.numbers < q.numbers := by
    simp only [ProblemData.key, Prod.Lex.toLex_lt_toLex]
  simp only [ProblemData.lt, astuple_take, tupleLt, tupleLt_numbers]
  rcases hpb : p.body with _ | a <;> rcases hqb : q.body with _ | b
  · have : p.bodyName = q.bodyName := by simp [ProblemData.bodyName, hpb, hqb]
    simp [itemEq, hlex, this]
  · rcases hb with hb | hb
    · simpa [hpb] using hb p hp
    · simpa [hqb] using hb q hq
  · rcases hb with hb | hb
    · simpa [hqb] using hb q hq
    · simpa [hpb] using hb p hp
  · have h1 : p.bodyName = a.name := by simp [ProblemData.bodyName, hpb]
    have h2 : q.bodyName = b.name := by simp [ProblemData.bodyName, hqb]
    have h3 : SameBody p q ↔ a.object = b.object := by simp [SameBody, hpb, hqb]
    rw [h1, h2, h3] at hk
    rw [h1, h2] at hlex
    by_cases ho : a.object = b.object
    · have := hk.2 ho
      simp [itemEq, ho, hlex, this]
    · have : ¬ a.name = b.name := fun h => ho (hk.1 h)
      simp [itemEq, itemLt, ho, hlex, this]

/-! ## Theorems -/

open Classical in
/-- C90: when different bodies have different names, `sorted` returns the problems rearranged such that all the
problems of a body are together, all the problems with the same body, levels, frequency, speed and density are
together and in the order in which they were given, and the problems of a body at the same levels are in the order
of the frequencies. -/
theorem sorted_problems {sort : List ProblemData → Option (List ProblemData)} (hs : Sorting ProblemData.lt sort)
    (l : List ProblemData) (hn : NamesApart l) (hb : AllOrNone l) :
    ∃ r, sort l = some r ∧ r.Perm l ∧ Together SameBody r ∧ Together SameSetting r ∧
      (∀ p ∈ l, r.filter (fun q => decide (SameSetting q p)) = l.filter (fun q => decide (SameSetting q p))) ∧
      ∀ x y, [x, y].Sublist r → SameBody x y → x.freeSurface = y.freeSurface → x.waterDepth = y.waterDepth →
        x.omega ≤ y.omega := by
  obtain ⟨r, h1, h2, h3, h4⟩ := hs.ordered _ ProblemData.key l (fun p hp q hq => by
    rw [lt_key hn hb hp hq])
  have mem {x : ProblemData} {s : List ProblemData} (hx : x ∈ s) (hsub : s.Sublist r) : x ∈ l :=
    h2.mem_iff.1 (hsub.subset hx)
  refine ⟨r, h1, h2, ?_, ?_, ?_, ?_⟩
  · intro x y z hsub hxz
    have hp := h3.sublist hsub
    have hx := mem (x := x) (by simp) hsub
    have hy := mem (x := y) (by simp) hsub
    have hz := mem (x := z) (by simp) hsub
    have e := (key_eq_iff hn hb hx hz).1.2 hxz
    simp only [List.pairwise_cons, List.mem_cons, List.not_mem_nil, or_false, forall_eq_or_imp, forall_eq] at hp
    have a := hp.1.1
    have b := hp.2.1
    simp only [ProblemData.key, Prod.Lex.toLex_le_toLex] at a b
    refine (key_eq_iff hn hb hx hy).1.1 (le_antisymm ?_ ?_)
    · rcases a with a | a
      · exact a.le
      · exact a.1.le
    · rw [e]
      rcases b with b | b
      · exact b.le
      · exact b.1.le
  · intro x y z hsub hxz
    have hp := h3.sublist hsub
    have hx := mem (x := x) (by simp) hsub
    have hy := mem (x := y) (by simp) hsub
    have hz := mem (x := z) (by simp) hsub
    have e := (key_eq_iff hn hb hx hz).2.2 hxz
    simp only [List.pairwise_cons, List.mem_cons, List.not_mem_nil, or_false, forall_eq_or_imp, forall_eq] at hp
    exact (key_eq_iff hn hb hx hy).2.1 (le_antisymm hp.1.1 (e ▸ hp.2.1))
  · intro p hp
    have hf : ∀ s : List ProblemData, (∀ q ∈ s, q ∈ l) →
        s.filter (fun q => decide (SameSetting q p)) = s.filter (fun q => decide (q.key = p.key)) := by
      intro s hsl
      refine List.filter_congr fun q hq => ?_
      rw [decide_eq_decide]
      exact (key_eq_iff hn hb (hsl q hq) hp).2.symm
    rw [hf r fun q hq => h2.mem_iff.1 hq, hf l fun q hq => hq]
    convert h4 p.key
  · intro x y hsub hbody hfs hd
    have hp := h3.sublist hsub
    have hx := mem (x := x) (by simp) hsub
    have hy := mem (x := y) (by simp) hsub
    have e := (key_eq_iff hn hb hx hy).1.2 hbody
    simp only [List.pairwise_cons, List.mem_cons, List.not_mem_nil, or_false, forall_eq] at hp
    have a := hp.1
    simp only [ProblemData.key, Prod.Lex.toLex_le_toLex, e, lt_irrefl, false_or, true_and] at a
    by_contra hlt
    rw [not_le] at hlt
    refine absurd a (not_le.2 ?_)
    simp only [ProblemData.numbers, hfs, hd, List.cons_lt_cons_iff, lt_irrefl, true_and, false_or]
    exact Or.inl hlt

/-- C90: `sorted` fails when some problems have a body and others have none. -/
theorem sorted_mixed {sort : List ProblemData → Option (List ProblemData)} (hs : Sorting ProblemData.lt sort)
    (l : List ProblemData) {p q : ProblemData} (hp : p ∈ l) (hq : q ∈ l) (hpb : p.body.isSome = true)
    (hqb : q.body.isSome = false) : sort l = none := by
  refine hs.mixed l (fun p => p.body.isSome) ?_ ⟨p, hp, hpb⟩ ⟨q, hq, hqb⟩
  intro x _ y _ h
  simp only [ProblemData.lt, astuple_take, tupleLt]
  rcases hx : x.body with _ | a <;> rcases hy : y.body with _ | b
  · simp [hx, hy] at h
  · simp [itemEq, itemLt]
  · simp [itemEq, itemLt]
  · simp [hx, hy] at h

/-- A problem in deep water, for the examples. -/
noncomputable def deepProblem (object : ℕ) (name : String) (omega : EReal) : ProblemData :=
  ⟨.diffraction, some ⟨object, name⟩, 0, ⊤, omega, 1, 1, 1, 0, 1000, 9, 0⟩

/-- C90: with two bodies of the same name, the problems of a body are not together. -/
theorem sorted_violated {sort : List ProblemData → Option (List ProblemData)} (hs : Sorting ProblemData.lt sort) :
    ∃ l r, AllOrNone l ∧ sort l = some r ∧ ¬ Together SameBody r ∧ ¬ Together SameSetting r := by
  have hlt : ∀ i j : ℕ, i ≠ j → (deepProblem i "body" 1).lt (deepProblem j "body" 1) = some false := by
    intro i j hij
    simp [ProblemData.lt, astuple_take, tupleLt, deepProblem, itemEq, itemLt, hij]
  refine ⟨[deepProblem 0 "body" 1, deepProblem 1 "body" 1, deepProblem 0 "body" 1], _, Or.inl ?_,
    hs.unchanged _ ?_, ?_, ?_⟩
  · simp [deepProblem]
  · simp only [List.isChain_cons_cons]
    exact ⟨hlt 1 0 (by decide), hlt 0 1 (by decide), List.IsChain.singleton _⟩
  · intro h
    have := h _ _ _ (List.Sublist.refl _) rfl
    simp [SameBody, deepProblem] at this
  · intro h
    have := h _ _ _ (List.Sublist.refl _) ⟨rfl, rfl, rfl, rfl, rfl, rfl, rfl, rfl, rfl⟩
    simp [SameSetting, SameBody, deepProblem] at this

/-! ## The contract of `sorted` can be met -/

/-- The conclusion of the contract for a list and a key. -/
def Arranged {P K : Type} [LinearOrder K] (key : P → K) (l r : List P) : Prop :=
  r.Perm l ∧ r.Pairwise (fun p q => key p ≤ key q) ∧
    ∀ k, r.filter (fun p => decide (key p = k)) = l.filter (fun p => decide (key p = k))

theorem arranged_exists {P K : Type} [LinearOrder K] (key : P → K) (l : List P) : ∃ r, Arranged key l r := by
  have ht : ∀ a b c : P, decide (key a ≤ key b) = true → decide (key b ≤ key c) = true →
      decide (key a ≤ key c) = true := by
    intro a b c h1 h2
    simp only [decide_eq_true_eq] at *
    exact h1.trans h2
  have hto : ∀ a b : P, (decide (key a ≤ key b) || decide (key b ≤ key a)) = true := by
    intro a b
    simpa using le_total (key a) (key b)
  refine ⟨l.mergeSort fun p q => decide (key p ≤ key q), List.mergeSort_perm _ _, ?_, ?_⟩
  · simpa using List.pairwise_mergeSort ht hto l
  · intro k
    refine (List.Sublist.eq_of_length ?_ ?_).symm
    · have h1 : (l.filter fun p => decide (key p = k)).Pairwise fun p q => decide (key p ≤ key q) = true := by
        rw [List.pairwise_filter]
        refine List.pairwise_of_forall fun p q hp hq => ?_
        simp only [decide_eq_true_eq] at hp hq ⊢
        rw [hp, hq]
      have h2 := List.sublist_mergeSort ht hto h1 List.filter_sublist
      have h3 := h2.filter fun p => decide (key p = k)
      simpa using h3
    · exact ((List.mergeSort_perm l _).filter _).length_eq.symm

theorem arranged_congr {P K K' : Type} [LinearOrder K] [LinearOrder K'] (key : P → K) (key' : P → K') {l r : List P}
    (h : ∀ p ∈ l, ∀ q ∈ l, key p < key q ↔ key' p < key' q) (hr : Arranged key l r) : Arranged key' l r := by
  obtain ⟨h1, h2, h3⟩ := hr
  refine ⟨h1, ?_, ?_⟩
  · refine h2.imp_of_mem fun {p q} hp hq hle => ?_
    exact not_lt.1 fun hlt => absurd ((h q (h1.mem_iff.1 hq) p (h1.mem_iff.1 hp)).2 hlt) (not_lt.2 hle)
  · intro k
    by_cases hk : ∃ a ∈ l, key' a = k
    · obtain ⟨a, ha, rfl⟩ := hk
      have he : ∀ p ∈ l, decide (key' p = key' a) = decide (key p = key a) := by
        intro p hp
        rw [decide_eq_decide]
        constructor
        · intro e
          exact le_antisymm (not_lt.1 fun hlt => absurd ((h a ha p hp).1 hlt) (by rw [e]; exact lt_irrefl _))
            (not_lt.1 fun hlt => absurd ((h p hp a ha).1 hlt) (by rw [e]; exact lt_irrefl _))
        · intro e
          exact le_antisymm (not_lt.1 fun hlt => absurd ((h a ha p hp).2 hlt) (by rw [e]; exact lt_irrefl _))
            (not_lt.1 fun hlt => absurd ((h p hp a ha).2 hlt) (by rw [e]; exact lt_irrefl _))
      rw [List.filter_congr he, List.filter_congr fun p hp => he p (h1.mem_iff.1 hp)]
      exact h3 _
    · have hn : ∀ p ∈ l, decide (key' p = k) = false := by
        intro p hp
        simpa using fun e => hk ⟨p, hp, e⟩
      rw [List.filter_congr hn, List.filter_congr fun p hp => hn p (h1.mem_iff.1 hp)]
      simp

theorem chain_split {P : Type} (R : P → P → Prop) (f : P → Bool) : ∀ l : List P, l.IsChain R →
    (∃ p ∈ l, f p = true) → (∃ p ∈ l, f p = false) → ∃ p ∈ l, ∃ q ∈ l, f p ≠ f q ∧ R p q
  | [], _, h, _ => by simp at h
  | [a], _, h1, h2 => by
    simp only [List.mem_singleton, exists_eq_left] at h1 h2
    simp [h1] at h2
  | a :: b :: l, hc, h1, h2 => by
    rw [List.isChain_cons_cons] at hc
    by_cases hab : f a = f b
    · have e1 : ∃ p ∈ b :: l, f p = true := by
        obtain ⟨p, hp, h⟩ := h1
        rcases List.mem_cons.1 hp with rfl | hp
        · exact ⟨b, by simp, by rw [← hab, h]⟩
        · exact ⟨p, hp, h⟩
      have e2 : ∃ p ∈ b :: l, f p = false := by
        obtain ⟨p, hp, h⟩ := h2
        rcases List.mem_cons.1 hp with rfl | hp
        · exact ⟨b, by simp, by rw [← hab, h]⟩
        · exact ⟨p, hp, h⟩
      obtain ⟨p, hp, q, hq, h⟩ := chain_split R f (b :: l) hc.2 e1 e2
      exact ⟨p, List.mem_cons_of_mem _ hp, q, List.mem_cons_of_mem _ hq, h⟩
    · exact ⟨a, by simp, b, by simp, hab, hc.1⟩

open Classical in
/-- For every comparison, some function meets the contract of `sorted`. -/
theorem sorting_exists {P : Type} (lt : P → P → Option Bool) : ∃ sort, Sorting lt sort := by
  let Mixed : List P → Prop := fun l => ∃ f : P → Bool,
    (∀ p ∈ l, ∀ q ∈ l, f p ≠ f q → lt p q = none) ∧ (∃ p ∈ l, f p = true) ∧ ∃ p ∈ l, f p = false
  let Chain : List P → Prop := fun l => l.IsChain fun p q => lt q p = some false
  let Good : List P → List P → Prop := fun l r => ∃ (K : Type) (_ : LinearOrder K) (key : P → K),
    (∀ p ∈ l, ∀ q ∈ l, lt p q = some (decide (key p < key q))) ∧ Arranged key l r
  refine ⟨fun l => if Mixed l then none else if Chain l then some l else
    if h : ∃ r, Good l r then some h.choose else none, ?_, ?_, ?_⟩
  · intro K _ key l hk
    have hm : ¬ Mixed l := by
      rintro ⟨f, h1, ⟨p, hp, hp'⟩, q, hq, hq'⟩
      have := h1 p hp q hq (by simp [hp', hq'])
      rw [hk p hp q hq] at this
      simp at this
    by_cases hc : Chain l
    · refine ⟨l, by simp [hm, hc], List.Perm.refl _, ?_, fun _ => rfl⟩
      have hle : l.IsChain fun p q => key p ≤ key q := by
        refine List.IsChain.imp_of_mem_imp (fun p q hp hq h => ?_) hc
        rw [hk q hq p hp] at h
        simpa using h
      have : IsTrans P fun p q => key p ≤ key q := ⟨fun _ _ _ h1 h2 => h1.trans h2⟩
      exact List.isChain_iff_pairwise.1 hle
    · have hg : ∃ r, Good l r := by
        obtain ⟨r, hr⟩ := arranged_exists key l
        exact ⟨r, K, inferInstance, key, hk, hr⟩
      refine ⟨hg.choose, by simp [hm, hc, hg], ?_⟩
      obtain ⟨K', _, key', hk', hr⟩ := hg.choose_spec
      refine arranged_congr key' key (fun p hp q hq => ?_) hr
      have := (hk' p hp q hq).symm.trans (hk p hp q hq)
      simpa using this
  · intro l hc
    have hm : ¬ Mixed l := by
      rintro ⟨f, h1, h2, h3⟩
      obtain ⟨p, hp, q, hq, hf, h⟩ := chain_split _ f l hc h2 h3
      rw [h1 q hq p hp (Ne.symm hf)] at h
      simp at h
    have hc' : Chain l := hc
    simp [hm, hc']
  · intro l f h1 h2 h3
    have hm : Mixed l := ⟨f, h1, h2, h3⟩
    simp [hm]

/-! ## Examples -/

example : ∃ sort, Sorting ProblemData.lt sort := sorting_exists _

/-- Two bodies with different names and two frequencies. -/
example : NamesApart [deepProblem 0 "ship" 2, deepProblem 1 "buoy" 1, deepProblem 0 "ship" 1] ∧
    AllOrNone [deepProblem 0 "ship" 2, deepProblem 1 "buoy" 1, deepProblem 0 "ship" 1] := by
  refine ⟨?_, Or.inl ?_⟩
  · simp [NamesApart, deepProblem]
  · simp [deepProblem]

end Verif.Problems
