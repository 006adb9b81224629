import Verif.Datasets.BemioModel
import Mathlib.Tactic.NormNum
import Mathlib.Tactic.Ring

/-!
# The table built from a bemio object (C51)
-/

namespace Verif.Datasets

open scoped List

/-! ## Specification -/

/-- The dimensional value of a coefficient: the ones of WAMIT are divided by a factor. -/
def dimensional (b : BemBody) (k x : ℚ) : ℚ := if b.code = "WAMIT" then k * x else x

/-- The table has the excitation forces of a body: for each frequency, direction and dof. -/
def HasForces (t : List ForceRow) (b : BemBody) : Prop :=
  ∀ o omega, b.w[o]? = some omega → ∀ d dir, b.dirs[d]? = some dir → ∀ k < 6, ∃ r ∈ t, r.body = b.name ∧ r.omega = omega ∧
    r.dir = dir ∧ r.dof = k ∧ r.re = dimensional b (b.rho * b.g) (b.exRe k d o) ∧
    r.im = dimensional b (b.rho * b.g) (b.exIm k d o)

/-- The table has the added masses and the radiation dampings of a body. -/
def HasCoefs (t : List CoefRow) (b : BemBody) : Prop :=
  ∀ o omega, b.w[o]? = some omega → ∀ i < 6, ∀ k < 6, ∃ r ∈ t, r.body = b.name ∧ r.omega = omega ∧ r.radiating = i ∧
    r.influenced = k ∧ r.addedMass = dimensional b b.rho (b.am i k o) ∧
    r.damping = dimensional b (b.rho * omega) (b.rd i k o)

/-- The table has the data of all the bodies. -/
def CompleteTable (bodies : List BemBody) (t : List ForceRow × List CoefRow) : Prop :=
  ∀ b ∈ bodies, HasForces t.1 b ∧ HasCoefs t.2 b

/-! ## Proofs -/

/-- The value of `from_wamit` after some bodies. -/
def wamitAfter (bodies : List BemBody) : Option Bool := if ∃ b ∈ bodies, b.code = "WAMIT" then some true else none

/-- The rows of a body. -/
def bodyForces (b : BemBody) (rho g : ℚ) : List ForceRow :=
  (b.w.mergeSort (· ≤ ·)).zipIdx.flatMap fun p => b.dirs.zipIdx.flatMap fun q => forceRows b rho g true p.1 p.2 q.1 q.2

/-- The rows of a body. -/
def bodyCoefs (b : BemBody) (rho g : ℚ) : List CoefRow :=
  (b.w.mergeSort (· ≤ ·)).zipIdx.flatMap fun p => (List.range 6).flatMap fun r => coefRows b rho g true p.1 p.2 r

/-- Each body with frequencies comes after a body of WAMIT or is one of them. -/
def WamitFirst (bodies : List BemBody) : Prop :=
  ∀ pre b post, bodies = pre ++ b :: post → (∀ c ∈ pre ++ [b], c.code ≠ "WAMIT") → b.w = []

theorem sorted_zip_nil (b : BemBody) : (b.w.mergeSort (· ≤ ·)).zipIdx = [] ↔ b.w = [] := by
  constructor
  · intro h
    have := congrArg List.length h
    rw [List.length_zipIdx, List.length_mergeSort, List.length_nil] at this
    exact List.length_eq_zero_iff.1 this
  · intro h; rw [h]; simp

theorem wamitAfter_snoc (pre : List BemBody) (b : BemBody) :
    wamitAfter (pre ++ [b]) = if b.code = "WAMIT" then some true else wamitAfter pre := by
  unfold wamitAfter
  by_cases h : b.code = "WAMIT"
  · rw [if_pos h, if_pos ⟨b, by simp, h⟩]
  · rw [if_neg h]
    congr 1
    simp only [List.mem_append, List.mem_singleton, eq_iff_iff]
    constructor
    · rintro ⟨c, hc | rfl, hw⟩
      · exact ⟨c, hc, hw⟩
      · exact absurd hw h
    · rintro ⟨c, hc, hw⟩; exact ⟨c, Or.inl hc, hw⟩

theorem wamitAfter_none {l : List BemBody} : wamitAfter l = none ↔ ∀ c ∈ l, c.code ≠ "WAMIT" := by
  unfold wamitAfter
  split_ifs with h
  · simp only [reduceCtorEq, false_iff]; push Not; exact h
  · push Not at h; simpa using h

theorem wamitAfter_true {l : List BemBody} {v : Bool} (h : wamitAfter l = some v) : v = true := by
  unfold wamitAfter at h
  split_ifs at h
  exact (Option.some.inj h).symm

theorem bemioBody_eq (rho g : ℚ) (s : BemState) (pre : List BemBody) (b : BemBody) (hs : s.wamit = wamitAfter pre) :
    bemioBody rho g s b = match wamitAfter (pre ++ [b]) with
      | none => if b.w = [] then some ⟨[], [], none⟩ else none
      | some _ => some ⟨bodyForces b rho g, bodyCoefs b rho g, wamitAfter (pre ++ [b])⟩ := by
  have hw : (if b.code = "WAMIT" then some true else s.wamit) = wamitAfter (pre ++ [b]) := by
    rw [wamitAfter_snoc, hs]
  unfold bemioBody
  simp only [hw]
  cases h : wamitAfter (pre ++ [b]) with
  | none => simp only [sorted_zip_nil]
  | some v =>
    have := wamitAfter_true h
    subst this
    rfl

theorem bemio_fold (rho g : ℚ) (bodies pre : List BemBody) (s : BemState) (hs : s.wamit = wamitAfter pre) :
    ∀ r, bodies.foldlM (bemioBody rho g) s = some r ↔
      (∀ p b q, bodies = p ++ b :: q → (∀ c ∈ pre ++ p ++ [b], c.code ≠ "WAMIT") → b.w = []) ∧
      r.wamit = wamitAfter (pre ++ bodies) ∧
      (∀ b ∈ bodies.getLast?, (r.force, r.coef) = if wamitAfter (pre ++ bodies) = none then ([], [])
        else (bodyForces b rho g, bodyCoefs b rho g)) ∧ (bodies = [] → r = s) := by
  induction bodies generalizing pre s with
  | nil =>
    intro r
    simp only [List.foldlM_nil, Option.pure_def, Option.some.injEq, List.append_nil]
    constructor
    · rintro rfl
      refine ⟨?_, hs, by simp, fun _ => rfl⟩
      intro p b q h; simp at h
    · rintro ⟨-, -, -, h⟩; exact (h trivial).symm
  | cons b bs ih =>
    intro r
    rw [List.foldlM_cons, bemioBody_eq rho g s pre b hs]
    have key : ∀ s', s'.wamit = wamitAfter (pre ++ [b]) →
        (s'.force, s'.coef) = (if wamitAfter (pre ++ [b]) = none then ([], []) else (bodyForces b rho g, bodyCoefs b rho g)) →
        (wamitAfter (pre ++ [b]) = none → b.w = []) →
        ((bs.foldlM (bemioBody rho g) s') = some r ↔
      (∀ p c q, b :: bs = p ++ c :: q → (∀ x ∈ pre ++ p ++ [c], x.code ≠ "WAMIT") → c.w = []) ∧
      r.wamit = wamitAfter (pre ++ b :: bs) ∧
      (∀ c ∈ (b :: bs).getLast?, (r.force, r.coef) = if wamitAfter (pre ++ b :: bs) = none then ([], [])
        else (bodyForces c rho g, bodyCoefs c rho g)) ∧ (b :: bs = [] → r = s)) := by
      intro s' h1 h2 h3
      rw [ih (pre ++ [b]) s' h1 r]
      have happ : pre ++ [b] ++ bs = pre ++ b :: bs := by simp
      rw [happ]
      constructor
      · rintro ⟨a1, a2, a3, a4⟩
        refine ⟨?_, a2, ?_, by simp⟩
        · intro p c q he hx
          cases p with
          | nil =>
            simp only [List.nil_append, List.cons.injEq] at he
            obtain ⟨rfl, -⟩ := he
            exact h3 (wamitAfter_none.2 (by simpa using hx))
          | cons y p =>
            simp only [List.cons_append, List.cons.injEq] at he
            obtain ⟨rfl, he⟩ := he
            exact a1 p c q he (by simpa using hx)
        · intro c hc
          cases bs with
          | nil =>
            have hr := a4 rfl
            have : c = b := by simpa using hc.symm
            subst this
            rw [hr]; exact h2
          | cons d ds =>
            rw [List.getLast?_cons_cons] at hc
            exact a3 c hc
      · rintro ⟨a1, a2, a3, -⟩
        refine ⟨?_, a2, ?_, ?_⟩
        · intro p c q he hx
          exact a1 (b :: p) c q (by rw [he]; rfl) (by simpa using hx)
        · intro c hc
          refine a3 c ?_
          cases bs with
          | nil => simp at hc
          | cons d ds => rw [List.getLast?_cons_cons]; exact hc
        · rintro rfl
          have h4 := a3 b (by simp)
          have h5 := h4.trans h2.symm
          simp only [Prod.mk.injEq] at h5
          obtain ⟨rf, rc, rw'⟩ := r
          obtain ⟨sf, sc, sw⟩ := s'
          simp only at h5 a2 h1
          rw [h5.1, h5.2, a2, h1]
    cases h : wamitAfter (pre ++ [b]) with
    | none =>
      simp only
      by_cases hw : b.w = []
      · rw [if_pos hw]
        exact key ⟨[], [], none⟩ h.symm (by rw [if_pos h]) (fun _ => hw)
      · rw [if_neg hw]
        simp only [Option.bind_eq_bind, Option.bind_none, reduceCtorEq, false_iff]
        rintro ⟨a1, -⟩
        exact hw (a1 [] b bs rfl (by rw [List.append_nil]; exact wamitAfter_none.1 h))
    | some v =>
      simp only
      exact key ⟨bodyForces b rho g, bodyCoefs b rho g, some v⟩ h.symm (by rw [if_neg (by simp [h])])
        (fun hn => absurd (h.symm.trans hn) (by simp))

theorem bodyForces_nil {b : BemBody} {rho g : ℚ} : bodyForces b rho g = [] ↔ b.w = [] ∨ b.dirs = [] := by
  unfold bodyForces
  constructor
  · intro h
    by_contra hc
    push Not at hc
    rw [List.flatMap_eq_nil_iff] at h
    obtain ⟨x, hx⟩ := List.exists_mem_of_ne_nil _ (fun hh => hc.1 ((sorted_zip_nil b).1 hh))
    have := h x hx
    rw [List.flatMap_eq_nil_iff] at this
    have hd : b.dirs.zipIdx ≠ [] := by simpa using hc.2
    obtain ⟨y, hy⟩ := List.exists_mem_of_ne_nil _ hd
    have := this y hy
    simp [forceRows] at this
  · rintro (h | h)
    · rw [(sorted_zip_nil b).2 h]; rfl
    · rw [h]; simp

theorem bodyCoefs_nil {b : BemBody} {rho g : ℚ} : bodyCoefs b rho g = [] ↔ b.w = [] := by
  unfold bodyCoefs
  constructor
  · intro h
    by_contra hc
    rw [List.flatMap_eq_nil_iff] at h
    obtain ⟨x, hx⟩ := List.exists_mem_of_ne_nil _ (fun hh => hc ((sorted_zip_nil b).1 hh))
    have := h x hx
    rw [List.flatMap_eq_nil_iff] at this
    have := this 0 (by simp)
    simp [coefRows] at this
  · intro h
    rw [(sorted_zip_nil b).2 h]; rfl

/-- The result for a list of bodies ending with `b` and beginning with `b0`. -/
theorem bemio_result (bodies : List BemBody) (t : List ForceRow × List CoefRow) :
    dataframeFromBemio bodies = some t ↔ WamitFirst bodies ∧ ∃ b0 ∈ bodies.head?, ∃ b ∈ bodies.getLast?,
      b.w ≠ [] ∧ b.dirs ≠ [] ∧ b.cols = 6 ∧ t = (bodyForces b b0.rho b0.g, bodyCoefs b b0.rho b0.g) := by
  cases bodies with
  | nil => simp [dataframeFromBemio]
  | cons b0 bs =>
    obtain ⟨b, hb⟩ : ∃ b, (b0 :: bs).getLast? = some b := ⟨_, List.getLast?_eq_some_getLast (by simp)⟩
    have hfold := bemio_fold b0.rho b0.g (b0 :: bs) [] ⟨[], [], none⟩ (by simp [wamitAfter])
    simp only [List.nil_append] at hfold
    have hlast : ∃ p, b0 :: bs = p ++ [b] := by
      have := List.getLast?_eq_some_iff.1 hb
      exact this
    have hwam : WamitFirst (b0 :: bs) → b.w ≠ [] → wamitAfter (b0 :: bs) ≠ none := by
      intro h1 h2 h3
      obtain ⟨p, hp⟩ := hlast
      refine h2 (h1 p b [] hp ?_)
      rw [← hp]
      exact wamitAfter_none.1 h3
    simp only [dataframeFromBemio, List.head?_cons, Option.mem_def, Option.some.injEq, exists_eq_left', hb,
      Option.map_some]
    constructor
    · intro h
      split at h
      · exact absurd h (by simp)
      · rename_i s hs
        obtain ⟨a1, a2, a3, -⟩ := (hfold s).1 hs
        have a3 := a3 b hb
        split_ifs at h with hne
        push Not at hne
        obtain ⟨n1, n2, n3⟩ := hne
        by_cases hwn : wamitAfter (b0 :: bs) = none
        · rw [if_pos hwn, Prod.mk.injEq] at a3
          exact absurd a3.1 n1
        · rw [if_neg hwn, Prod.mk.injEq] at a3
          rw [a3.1, Ne, bodyForces_nil, not_or] at n1
          refine ⟨a1, n1.1, n1.2, Option.some.inj n3, ?_⟩
          rw [← Option.some.inj h, a3.1, a3.2]
    · rintro ⟨h1, h2, h3, h4, rfl⟩
      have hwn := hwam h1 h2
      have : (b0 :: bs).foldlM (bemioBody b0.rho b0.g) ⟨[], [], none⟩ =
          some ⟨bodyForces b b0.rho b0.g, bodyCoefs b b0.rho b0.g, wamitAfter (b0 :: bs)⟩ := by
        refine (hfold _).2 ⟨h1, rfl, ?_, by simp⟩
        intro c hc
        have : c = b := Option.some.inj (hc.symm.trans hb)
        subst this
        rw [if_neg hwn]
      rw [this]
      simp only
      rw [if_neg]
      simp [bodyForces_nil, bodyCoefs_nil, h2, h3, h4]

theorem bodyForces_body {b : BemBody} {rho g : ℚ} {r : ForceRow} (h : r ∈ bodyForces b rho g) : r.body = b.name := by
  simp only [bodyForces, forceRows, List.mem_flatMap, List.mem_map] at h
  obtain ⟨p, -, q, -, k, -, rfl⟩ := h
  rfl

theorem bodyCoefs_body {b : BemBody} {rho g : ℚ} {r : CoefRow} (h : r ∈ bodyCoefs b rho g) : r.body = b.name := by
  simp only [bodyCoefs, coefRows, List.mem_flatMap, List.mem_map] at h
  obtain ⟨p, -, q, -, k, -, rfl⟩ := h
  rfl

/-- **C51, the exact condition of success.** A table is built if and only if each body with frequencies comes after a body
computed by WAMIT or is one, and the last body has frequencies, directions and six influenced dofs. -/
theorem bemio_success_iff (bodies : List BemBody) : (dataframeFromBemio bodies).isSome ↔
    WamitFirst bodies ∧ ∃ b ∈ bodies.getLast?, b.w ≠ [] ∧ b.dirs ≠ [] ∧ b.cols = 6 := by
  rw [Option.isSome_iff_exists]
  constructor
  · rintro ⟨t, h⟩
    obtain ⟨h1, -, -, b, hb, h2, h3, h4, -⟩ := (bemio_result bodies t).1 h
    exact ⟨h1, b, hb, h2, h3, h4⟩
  · rintro ⟨h1, b, hb, h2, h3, h4⟩
    cases bodies with
    | nil => simp at hb
    | cons b0 bs => exact ⟨_, (bemio_result _ _).2 ⟨h1, b0, rfl, b, hb, h2, h3, h4, rfl⟩⟩

/-- **C51.** Only the last body has rows in the table. -/
theorem bemio_only_last {bodies : List BemBody} {t : List ForceRow × List CoefRow} (h : dataframeFromBemio bodies = some t) :
    ∃ b ∈ bodies.getLast?, (∀ r ∈ t.1, r.body = b.name) ∧ (∀ r ∈ t.2, r.body = b.name) := by
  obtain ⟨-, -, -, b, hb, -, -, -, rfl⟩ := (bemio_result bodies t).1 h
  exact ⟨b, hb, fun r hr => bodyForces_body hr, fun r hr => bodyCoefs_body hr⟩

/-- **C51, consequence.** The table is never complete for several bodies with different names. -/
theorem bemio_complete_single {bodies : List BemBody} {t : List ForceRow × List CoefRow}
    (h : dataframeFromBemio bodies = some t) (hn : (bodies.map BemBody.name).Nodup) (hw : ∀ b ∈ bodies, b.w ≠ [])
    (hc : CompleteTable bodies t) : bodies.length = 1 := by
  obtain ⟨b, hb, -, h2⟩ := bemio_only_last h
  obtain ⟨p, rfl⟩ := List.getLast?_eq_some_iff.1 hb
  cases p with
  | nil => rfl
  | cons c p =>
    exfalso
    have hcw := hw c (by simp)
    obtain ⟨omega, ho⟩ : ∃ omega, c.w[0]? = some omega := by
      cases hcw' : c.w with
      | nil => exact absurd hcw' hcw
      | cons x l => exact ⟨x, rfl⟩
    obtain ⟨r, hr, hr1, -⟩ := (hc c (by simp)).2 0 omega ho 0 (by norm_num) 0 (by norm_num)
    have := h2 r hr
    rw [hr1] at this
    simp only [List.cons_append, List.map_cons, List.map_append, List.map_nil, List.nodup_cons, List.mem_append,
      List.mem_singleton] at hn
    exact hn.1 (Or.inr this)

theorem bodyForces_has {b : BemBody} (hcode : b.code = "WAMIT") (hsort : b.w.Pairwise (· ≤ ·)) :
    HasForces (bodyForces b b.rho b.g) b := by
  have hs : b.w.mergeSort (· ≤ ·) = b.w := List.mergeSort_of_pairwise (by simpa using hsort)
  intro o omega ho d dir hdd k hk
  refine ⟨{ body := b.name, rho := b.rho, g := b.g, omega := omega, dir := dir, dof := k
            re := scaled true (b.rho * b.g) (b.exRe k d o), im := scaled true (b.rho * b.g) (b.exIm k d o)
            fkRe := match b.fk with
              | some f => scaled true (b.rho * b.g) (f.1 k d o)
              | none => 0
            fkIm := match b.fk with
              | some f => scaled true (b.rho * b.g) (f.2 k d o)
              | none => 0 }, ?_, rfl, rfl, rfl, rfl, ?_, ?_⟩
  · simp only [bodyForces, hs, List.mem_flatMap, forceRows, List.mem_map, List.mem_range]
    exact ⟨(omega, o), List.mem_zipIdx_iff_getElem?.2 ho, (dir, d), List.mem_zipIdx_iff_getElem?.2 hdd, k, hk, rfl⟩
  · simp only [scaled, dimensional, hcode, if_true]; ring
  · simp only [scaled, dimensional, hcode, if_true]; ring

theorem bodyCoefs_has {b : BemBody} (hcode : b.code = "WAMIT") (hsort : b.w.Pairwise (· ≤ ·)) :
    HasCoefs (bodyCoefs b b.rho b.g) b := by
  have hs : b.w.mergeSort (· ≤ ·) = b.w := List.mergeSort_of_pairwise (by simpa using hsort)
  intro o omega ho i hi k hk
  refine ⟨{ body := b.name, rho := b.rho, g := b.g, omega := omega, radiating := i, influenced := k
            addedMass := scaled true b.rho (b.am i k o), damping := scaled true (b.rho * omega) (b.rd i k o) },
    ?_, rfl, rfl, rfl, rfl, ?_, ?_⟩
  · simp only [bodyCoefs, hs, List.mem_flatMap, coefRows, List.mem_map, List.mem_range]
    exact ⟨(omega, o), List.mem_zipIdx_iff_getElem?.2 ho, i, hi, k, hk, rfl⟩
  · simp only [scaled, dimensional, hcode, if_true]; ring
  · simp only [scaled, dimensional, hcode, if_true]; ring

/-- **C51, the positive part.** The table has all the excitation forces, added masses and dampings of the last body, with
their dimensions, when it is computed by WAMIT with increasing frequencies and has the density and the gravity of the
first one. -/
theorem bemio_last_body {bodies : List BemBody} {t : List ForceRow × List CoefRow} (h : dataframeFromBemio bodies = some t)
    {b0 b : BemBody} (h0 : bodies.head? = some b0) (hb : bodies.getLast? = some b) (hcode : b.code = "WAMIT")
    (hsort : b.w.Pairwise (· ≤ ·)) (hrho : b0.rho = b.rho) (hg : b0.g = b.g) : HasForces t.1 b ∧ HasCoefs t.2 b := by
  obtain ⟨-, c0, hc0, c, hc, -, -, -, rfl⟩ := (bemio_result bodies t).1 h
  have e0 : c0 = b0 := Option.some.inj (hc0.symm.trans h0)
  have e : c = b := Option.some.inj (hc.symm.trans hb)
  subst e0 e
  rw [hrho, hg]
  exact ⟨bodyForces_has hcode hsort, bodyCoefs_has hcode hsort⟩

/-- **C51, partial.** For a single body computed by WAMIT, with increasing frequencies, the table is complete. What is
missing: several bodies, the other codes and unsorted frequencies, see the negations below. -/
theorem bemio_complete_partial {b : BemBody} (hcode : b.code = "WAMIT") (hw : b.w ≠ []) (hd : b.dirs ≠ [])
    (hcols : b.cols = 6) (hsort : b.w.Pairwise (· ≤ ·)) :
    ∃ t, dataframeFromBemio [b] = some t ∧ CompleteTable [b] t := by
  have hok : (dataframeFromBemio [b]).isSome := by
    refine (bemio_success_iff [b]).2 ⟨?_, b, rfl, hw, hd, hcols⟩
    intro p c q he hx
    have hc : c ∈ [b] := by rw [he]; simp
    rw [List.mem_singleton] at hc
    subst hc
    exact absurd hcode (hx c (by simp))
  obtain ⟨t, ht⟩ := Option.isSome_iff_exists.1 hok
  refine ⟨t, ht, ?_⟩
  intro c hc
  rw [List.mem_singleton] at hc
  subst hc
  exact bemio_last_body ht rfl rfl hcode hsort rfl rfl

/-! ## Examples and negations -/

/-- A body with one frequency and one direction. -/
def sampleBody (name code : String) (w : List ℚ) : BemBody :=
  { name := name, code := code, rho := 1000, g := 10, w := w, dirs := [0], exRe := fun k _ o => k + o, exIm := fun _ _ _ => 0
    fk := none, am := fun i k o => i + k + o, rd := fun _ _ _ => 1, cols := 6 }

example : ∃ t, dataframeFromBemio [sampleBody "buoy" "WAMIT" [1, 2]] = some t ∧
    CompleteTable [sampleBody "buoy" "WAMIT" [1, 2]] t :=
  bemio_complete_partial rfl (by simp [sampleBody]) (by simp [sampleBody]) rfl (by simp [sampleBody])

/-- **C51, violated.** No table can be built from the results of Nemoh or of AQWA. -/
theorem bemio_codes_violated {b : BemBody} (hcode : b.code ≠ "WAMIT") (hw : b.w ≠ []) : dataframeFromBemio [b] = none := by
  by_contra h
  obtain ⟨h1, -⟩ := (bemio_success_iff [b]).1 (Option.isSome_iff_ne_none.2 h)
  exact hw (h1 [] b [] rfl (by simpa using hcode))

/-- A body computed by Nemoh meets the hypotheses. -/
example : dataframeFromBemio [sampleBody "buoy" "NEMOH" [1]] = none :=
  bemio_codes_violated (by decide) (by simp [sampleBody])

/-- **C51, violated.** With two bodies the table has no data of the first one. -/
theorem bemio_bodies_violated : ∃ bodies t, dataframeFromBemio bodies = some t ∧ ¬ CompleteTable bodies t ∧
    ∀ b ∈ bodies, ∃ t', dataframeFromBemio [b] = some t' ∧ CompleteTable [b] t' := by
  have hok : (dataframeFromBemio [sampleBody "float" "WAMIT" [1], sampleBody "spar" "WAMIT" [1]]).isSome := by
    refine (bemio_success_iff _).2 ⟨?_, _, rfl, by simp [sampleBody], by simp [sampleBody], rfl⟩
    intro p c q he hx
    have hc : c ∈ [sampleBody "float" "WAMIT" [1], sampleBody "spar" "WAMIT" [1]] := by rw [he]; simp
    simp only [List.mem_cons, List.not_mem_nil, or_false] at hc
    rcases hc with rfl | rfl <;> exact absurd rfl (hx _ (List.mem_append_right _ (List.mem_singleton.2 rfl)))
  obtain ⟨t, ht⟩ := Option.isSome_iff_exists.1 hok
  refine ⟨_, t, ht, ?_, ?_⟩
  · intro hc
    have := bemio_complete_single ht (by simp [sampleBody]) (by simp [sampleBody]) hc
    simp at this
  · intro b hb
    simp only [List.mem_cons, List.not_mem_nil, or_false] at hb
    rcases hb with rfl | rfl <;>
      exact bemio_complete_partial rfl (by simp [sampleBody]) (by simp [sampleBody]) rfl (by simp [sampleBody])

/-- **C51, violated.** With decreasing frequencies the rows of a frequency have the data of another one. -/
theorem bemio_frequencies_violated : ∃ b t, dataframeFromBemio [b] = some t ∧ b.w.Nodup ∧ ¬ HasForces t.1 b := by
  have hok : (dataframeFromBemio [sampleBody "buoy" "WAMIT" [2, 1]]).isSome := by
    refine (bemio_success_iff _).2 ⟨?_, _, rfl, by simp [sampleBody], by simp [sampleBody], rfl⟩
    intro p c q he hx
    have hc : c ∈ [sampleBody "buoy" "WAMIT" [2, 1]] := by rw [he]; simp
    rw [List.mem_singleton] at hc
    subst hc
    exact absurd rfl (hx _ (List.mem_append_right _ (List.mem_singleton.2 rfl)))
  obtain ⟨t, ht⟩ := Option.isSome_iff_exists.1 hok
  refine ⟨_, t, ht, by simp [sampleBody], ?_⟩
  intro hf
  obtain ⟨-, c0, hc0, c, hc, -, -, -, rfl⟩ := (bemio_result _ t).1 ht
  have e0 : sampleBody "buoy" "WAMIT" [2, 1] = c0 := Option.some.inj hc0
  have e : sampleBody "buoy" "WAMIT" [2, 1] = c := Option.some.inj hc
  subst e0 e
  obtain ⟨r, hr, -, h2, -, h4, h5, -⟩ := hf 0 2 rfl 0 0 rfl 0 (by norm_num)
  have hs : (sampleBody "buoy" "WAMIT" [2, 1]).w.mergeSort (· ≤ ·) = [1, 2] := by
    have hp : ([2, 1] : List ℚ).mergeSort (· ≤ ·) ~ [1, 2] := (List.mergeSort_perm _ _).trans (List.Perm.swap _ _ _)
    have h1 : (([2, 1] : List ℚ).mergeSort (· ≤ ·)).Pairwise (· ≤ ·) := by
      have := List.pairwise_mergeSort (le := fun a b : ℚ => decide (a ≤ b)) (fun a b c => by simpa using le_trans)
        (fun a b => by simpa using le_total a b) [2, 1]
      simpa using this
    exact hp.eq_of_pairwise (fun a b _ _ => le_antisymm) h1 (by simp)
  simp only [bodyForces, hs, List.mem_flatMap, forceRows, List.mem_map] at hr
  obtain ⟨p, hp, q, hq, k, hk, rfl⟩ := hr
  simp only [List.zipIdx_cons, List.zipIdx_nil, List.mem_cons, List.not_mem_nil, or_false] at hp
  simp only at h2 h4 h5
  subst h4
  rcases hp with rfl | rfl
  · norm_num at h2
  · simp [scaled, dimensional, sampleBody] at h5

end Verif.Datasets
