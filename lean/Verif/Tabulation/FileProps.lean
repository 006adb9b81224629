import Verif.Tabulation.FileModel
import Mathlib.Tactic.SplitIfs

/-!
# C45: the file of the tables

Different parameters have different files, and a run that ends returns the tables of its parameters or fails. It does not
survive crashes: a run killed while it saves the tables makes all the following ones fail.
-/

namespace Verif.Tabulation

variable {F T C : Type}

/-- What is assumed of the outside: numbers are written without underscore and different numbers differently, a complete
file is read back, an incomplete one is not read. -/
structure World.Sound (w : World F T C) : Prop where
  plain : ∀ x, '_' ∉ w.shown x
  injective : ∀ x y, w.shown x = w.shown y → x = y
  complete : ∀ t, w.decode (w.encode t) = some t
  incomplete : ∀ t, ∀ c ∈ w.partials t, w.decode c = none

/-! ## Names -/

theorem split_at {c : Char} {a b s t : List Char} (ha : c ∉ a) (hb : c ∉ b) (h : a ++ c :: s = b ++ c :: t) :
    a = b ∧ s = t := by
  induction a generalizing b with
  | nil =>
    cases b with
    | nil => exact ⟨rfl, by simpa using h⟩
    | cons y b =>
      simp only [List.nil_append, List.cons_append, List.cons.injEq] at h
      exact absurd (by rw [h.1]; exact List.mem_cons_self) hb
  | cons x a ih =>
    cases b with
    | nil =>
      simp only [List.nil_append, List.cons_append, List.cons.injEq] at h
      exact absurd (by rw [← h.1]; exact List.mem_cons_self) ha
    | cons y b =>
      simp only [List.cons_append, List.cons.injEq] at h
      obtain ⟨h1, h2⟩ := ih (fun hc => ha (List.mem_cons_of_mem _ hc)) (fun hc => hb (List.mem_cons_of_mem _ hc)) h.2
      exact ⟨by rw [h.1, h1], h2⟩

theorem natChars_plain (n : ℕ) : '_' ∉ natChars n := by
  intro h
  have := Nat.isDigit_of_mem_toDigits (by norm_num) (by norm_num) h
  exact absurd this (by decide)

theorem natChars_injective {m n : ℕ} (h : natChars m = natChars n) : m = n := by
  have := congrArg (Nat.ofDigitChars 10 · 0) h
  simpa [natChars, Nat.ofDigitChars_toDigits] using this

/-- Two different sets of parameters never share a file. -/
theorem filename_injective {w : World F T C} (hw : w.Sound) {p q : Params F}
    (h : filename w.shown p = filename w.shown q) : p = q := by
  obtain ⟨p1, p2, p3, p4, p5, p6, p7⟩ := p
  obtain ⟨q1, q2, q3, q4, q5, q6, q7⟩ := q
  unfold filename at h
  simp only at h
  have h9 := (split_at (by decide) (by decide) h).2
  obtain ⟨h1, h10⟩ := split_at (by cases p1 <;> decide) (by cases q1 <;> decide) h9
  clear h h9
  have e1 : p1 = q1 := by cases p1 <;> cases q1 <;> simp_all [Precision.chars]
  have e2 : p2 = q2 := by cases p2 <;> cases q2 <;> simp [GridShape.chars] at h10 ⊢
  subst e1 e2
  have h8 := List.append_cancel_left h10
  rw [List.cons.injEq] at h8
  obtain ⟨h3, h⟩ := split_at (natChars_plain _) (natChars_plain _) h8.2
  obtain ⟨h4, h⟩ := split_at (hw.plain _) (hw.plain _) h
  obtain ⟨h5, h⟩ := split_at (natChars_plain _) (natChars_plain _) h
  obtain ⟨h6, h⟩ := split_at (hw.plain _) (hw.plain _) h
  have h7 := List.append_cancel_right h
  rw [natChars_injective h3, hw.injective _ _ h4, natChars_injective h5, hw.injective _ _ h6, natChars_injective h7]

/-! ## Runs -/

theorem foldl_store (fs : Files C) (name : List Char) (cs : List C) (n : List Char) :
    (cs.foldl (fun fs c => store fs name c) fs) n = if n = name then (cs.getLast?.or (fs n)) else fs n := by
  induction cs generalizing fs with
  | nil => simp
  | cons c cs ih =>
    rw [List.foldl_cons, ih]
    unfold store
    split_ifs with h
    · cases cs with
      | nil => simp
      | cons d ds => rw [List.getLast?_cons_cons, List.getLast?_cons]; simp
    · rfl

/-- Every file that exists belongs to a set of parameters and has one of the contents of its tables. -/
def Valid (w : World F T C) (fs : Files C) : Prop :=
  ∀ p c, fs (filename w.shown p) = some c → c ∈ contents w (w.compute p)

theorem run_valid {w : World F T C} (hw : w.Sound) {fs : Files C} (h : Valid w fs) (p : Params F) (kill : Option ℕ) :
    Valid w (run w fs p kill).1 := by
  intro q c hc
  unfold run at hc
  cases hf : fs (filename w.shown p) with
  | some d =>
    simp only [hf] at hc
    exact h q c hc
  | none =>
    have key : ∀ cs : List C, (∀ x ∈ cs, x ∈ contents w (w.compute p)) →
        (cs.foldl (fun fs c => store fs (filename w.shown p) c) fs) (filename w.shown q) = some c →
          c ∈ contents w (w.compute q) := by
      intro cs hcs hcc
      rw [foldl_store] at hcc
      split_ifs at hcc with he
      · have hpq := filename_injective hw he
        subst hpq
        rw [hf, Option.or_none] at hcc
        exact hcs c (List.mem_of_getLast? hcc)
      · exact h q c hcc
    simp only [hf] at hc
    cases kill with
    | none => exact key _ (fun _ hx => hx) hc
    | some k => exact key _ (fun _ hx => List.mem_of_mem_take hx) hc

theorem runs_valid {w : World F T C} (hw : w.Sound) {fs : Files C} (h : Valid w fs) (l : List (Params F × Option ℕ)) :
    Valid w (runs w fs l) := by
  unfold runs
  induction l generalizing fs with
  | nil => exact h
  | cons e l ih => exact ih (run_valid hw h e.1 e.2)

theorem empty_valid (w : World F T C) : Valid w (fun _ => none) := fun _ _ h => nomatch h

/-- After any sequence of runs and crashes, a run that is not killed returns the tables that would be computed from
scratch, or fails. It never returns other tables. -/
theorem never_wrong {w : World F T C} (hw : w.Sound) (l : List (Params F × Option ℕ)) (p : Params F) :
    (run w (runs w (fun _ => none) l) p none).2 = .tables (w.compute p) ∨
      (run w (runs w (fun _ => none) l) p none).2 = .error := by
  have hv := runs_valid hw (empty_valid w) l
  generalize runs w (fun _ => none) l = fs at *
  unfold run
  cases hf : fs (filename w.shown p) with
  | none => left; simp only [hf]
  | some c =>
    have := hv p c hf
    simp only [contents, List.mem_append, List.mem_singleton] at this
    rcases this with h | h
    · right
      simp only [hf, hw.incomplete _ c h]
    · left
      simp only [hf, h, hw.complete]

/-- The file is unchanged by the runs of other parameters. -/
theorem run_other {w : World F T C} (hw : w.Sound) (fs : Files C) {p q : Params F} (hpq : p ≠ q) (kill : Option ℕ) :
    (run w fs q kill).1 (filename w.shown p) = fs (filename w.shown p) := by
  have hne : filename w.shown p ≠ filename w.shown q := fun h => hpq (filename_injective hw h)
  unfold run
  cases hf : fs (filename w.shown q) with
  | some d => simp only [hf]
  | none => cases kill <;> simp only [hf, foldl_store, if_neg hne]

/-- A file that exists is never changed. -/
theorem run_existing {w : World F T C} (hw : w.Sound) {fs : Files C} {p : Params F} {c : C}
    (h : fs (filename w.shown p) = some c) (q : Params F) (kill : Option ℕ) :
    (run w fs q kill).1 (filename w.shown p) = some c := by
  by_cases hpq : filename w.shown q = filename w.shown p
  · unfold run
    simp only [hpq, h]
  · rw [run_other hw fs (fun e => hpq (by rw [e])) kill]
    exact h

theorem runs_existing {w : World F T C} (hw : w.Sound) {fs : Files C} {p : Params F} {c : C}
    (h : fs (filename w.shown p) = some c) (l : List (Params F × Option ℕ)) :
    (runs w fs l) (filename w.shown p) = some c := by
  unfold runs
  induction l generalizing fs with
  | nil => exact h
  | cons e l ih => exact ih (run_existing hw h e.1 e.2)

/-- A run killed while it saves the tables (after the file is created, before it is complete) makes all the following runs
fail, whatever happens in between. -/
theorem killed_while_saving_violated {w : World F T C} (hw : w.Sound) {fs : Files C} {p : Params F}
    (hf : fs (filename w.shown p) = none) {k : ℕ} (hk : 1 ≤ k) (hk' : k ≤ (w.partials (w.compute p)).length)
    (l : List (Params F × Option ℕ)) :
    (run w (runs w (run w fs p (some k)).1 l) p none).2 = .error := by
  have h1 : ∃ c ∈ w.partials (w.compute p), (run w fs p (some k)).1 (filename w.shown p) = some c := by
    unfold run
    simp only [hf]
    have e : (contents w (w.compute p)).take k = (w.partials (w.compute p)).take k := by
      unfold contents
      rw [List.take_append_of_le_length hk']
    rw [e, foldl_store, if_pos rfl, hf, Option.or_none]
    have hne : (w.partials (w.compute p)).take k ≠ [] := by
      intro h0
      have := congrArg List.length h0
      rw [List.length_take, List.length_nil] at this
      omega
    refine ⟨((w.partials (w.compute p)).take k).getLast hne, List.mem_of_mem_take (List.getLast_mem hne), ?_⟩
    exact List.getLast?_eq_some_getLast hne
  obtain ⟨c, hc, hfile⟩ := h1
  have h2 := runs_existing hw hfile l
  generalize runs w (run w fs p (some k)).1 l = fs' at *
  unfold run
  simp only [h2, hw.incomplete _ c hc]

/-- The run is killed before its file exists, or after it is complete. -/
def Harmless (w : World F T C) (e : Params F × Option ℕ) : Prop :=
  ∀ k, e.2 = some k → k = 0 ∨ (w.partials (w.compute e.1)).length < k

/-- When no run is killed while it saves the tables, every run that is not killed returns the tables that would be computed
from scratch. -/
theorem survives_partial {w : World F T C} (hw : w.Sound) {l : List (Params F × Option ℕ)}
    (hl : ∀ e ∈ l, Harmless w e) (p : Params F) :
    (run w (runs w (fun _ => none) l) p none).2 = .tables (w.compute p) := by
  have key : ∀ (l : List (Params F × Option ℕ)) (fs : Files C), (∀ e ∈ l, Harmless w e) →
      (∀ p c, fs (filename w.shown p) = some c → c = w.encode (w.compute p)) →
      ∀ p c, (runs w fs l) (filename w.shown p) = some c → c = w.encode (w.compute p) := by
    intro l
    induction l with
    | nil => intro fs _ h; exact h
    | cons e l ih =>
      intro fs hl h
      refine ih _ (fun e he => hl e (List.mem_cons_of_mem _ he)) ?_
      intro q c hc
      obtain ⟨p, kill⟩ := e
      unfold run at hc
      simp only at hc
      cases hf : fs (filename w.shown p) with
      | some d =>
        simp only [hf] at hc
        exact h q c hc
      | none =>
        have fin : ((contents w (w.compute p)).foldl (fun fs c => store fs (filename w.shown p) c) fs)
            (filename w.shown q) = some c → c = w.encode (w.compute q) := by
          intro hcc
          rw [foldl_store] at hcc
          split_ifs at hcc with he
          · have hpq := filename_injective hw he
            subst hpq
            rw [contents, List.getLast?_append] at hcc
            simpa using hcc.symm
          · exact h q c hcc
        simp only [hf] at hc
        cases kill with
        | none => exact fin hc
        | some k =>
          rcases hl (p, some k) List.mem_cons_self k rfl with hk | hk
          · subst hk
            exact h q c hc
          · have e : (contents w (w.compute p)).take k = contents w (w.compute p) :=
              List.take_of_length_le (by simp only [contents, List.length_append, List.length_singleton]; exact hk)
            simp only [e] at hc
            exact fin hc
  have h := key l (fun _ => none) hl (fun _ _ h => nomatch h) p
  generalize runs w (fun _ => none) l = fs at *
  unfold run
  cases hf : fs (filename w.shown p) with
  | none => simp only [hf]
  | some c => simp only [hf, h c hf, hw.complete]

/-- A run succeeds exactly when its file does not exist or is complete. -/
theorem run_succeeds_iff {w : World F T C} (hw : w.Sound) {fs : Files C} (hv : Valid w fs) (p : Params F) :
    (run w fs p none).2 = .tables (w.compute p) ↔
      ∀ c, fs (filename w.shown p) = some c → c ∉ w.partials (w.compute p) := by
  unfold run
  cases hf : fs (filename w.shown p) with
  | none => simp [hf]
  | some c =>
    have hc := hv p c hf
    simp only [contents, List.mem_append, List.mem_singleton] at hc
    constructor
    · intro h d hd hmem
      obtain rfl : c = d := by simpa using hd
      simp only [hf, hw.incomplete _ c hmem] at h
      cases h
    · intro h
      have := h c rfl
      rcases hc with hc | hc
      · exact absurd hc this
      · simp only [hf, hc, hw.complete]

/-- A world that meets the assumptions: numbers are integers, tables are their parameters, a file is empty and then full. -/
def smallWorld : World ℕ (Params ℕ) (Option (Params ℕ)) where
  shown := natChars
  compute := id
  partials _ := [none]
  encode := some
  decode := id

theorem smallWorld_sound : smallWorld.Sound where
  plain := natChars_plain
  injective _ _ := natChars_injective
  complete _ := rfl
  incomplete _ c hc := by
    have : c = none := by simpa [smallWorld] using hc
    rw [this]; rfl

example : (run smallWorld (runs smallWorld (run smallWorld (fun _ => none) ⟨.float64, .legacy, 328, 100, 46, 251, 251⟩ (some 1)).1
    [(⟨.float64, .legacy, 328, 100, 46, 251, 251⟩, none)]) ⟨.float64, .legacy, 328, 100, 46, 251, 251⟩ none).2 = .error :=
  killed_while_saving_violated smallWorld_sound rfl le_rfl le_rfl _

example : Harmless smallWorld (⟨.float64, .legacy, 328, 100, 46, 251, 251⟩, some 0) := by
  intro k hk; left; simpa using hk.symm

end Verif.Tabulation
