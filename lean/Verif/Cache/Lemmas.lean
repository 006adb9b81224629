import Mathlib.Data.List.Forall2
import Verif.Cache.Model

namespace Verif.Cache

variable {K V : Type} {eqv : K → K → Bool} {maxsize : Nat} {f : K → Body K V}

theorem insert_length_le (k : K) (v : V) (l : List (K × V)) :
    (insert eqv k v l).length ≤ l.length + 1 := by
  induction l with
  | nil => simp [insert]
  | cons a l ih =>
    obtain ⟨k', v'⟩ := a
    simp only [insert]
    split <;> simp <;> omega

theorem mem_insert {k : K} {v : V} {l : List (K × V)} {p : K × V}
    (h : p ∈ insert eqv k v l) :
    p ∈ l ∨ (p.2 = v ∧ (p.1 = k ∨ eqv p.1 k = true)) := by
  induction l with
  | nil => simp [insert] at h; subst h; simp
  | cons a l ih =>
    obtain ⟨k', v'⟩ := a
    simp only [insert] at h
    split at h
    · rename_i hk
      rcases List.mem_cons.1 h with h | h
      · subst h; simp [hk]
      · simp [h]
    · rcases List.mem_cons.1 h with h | h
      · subst h; simp
      · rcases ih h with h | h <;> simp [h]

theorem lookup_some_mem {k : K} {v : V} {l : List (K × V)} (h : lookup eqv k l = some v) :
    ∃ k', (k', v) ∈ l ∧ eqv k' k = true := by
  induction l with
  | nil => simp [lookup] at h
  | cons a l ih =>
    obtain ⟨k', v'⟩ := a
    simp only [lookup] at h
    split at h
    · rename_i hk
      cases h; exact ⟨k', by simp, hk⟩
    · obtain ⟨k'', hm, he⟩ := ih h
      exact ⟨k'', by simp [hm], he⟩

/-- All sizes recorded so far, and the present one, are at most `b`. -/
def BoundedBy (b : Nat) (s : State K V) : Prop :=
  s.items.length ≤ b ∧ ∀ n ∈ s.sizes, n ≤ b

theorem BoundedBy.mono {b b' : Nat} {s : State K V} (h : BoundedBy b s) (hb : b ≤ b') :
    BoundedBy b' s :=
  ⟨Nat.le_trans h.1 hb, fun n hn => Nat.le_trans (h.2 n hn) hb⟩

/-- The record and size bound for a call with `fuel` levels, for any starting bound `m` with
`maxsize + fuel ≤ m + 1`. -/
theorem decorated_bounded (hmax : 1 ≤ maxsize) (fuel : Nat) :
    ∀ (m r : Nat), maxsize + fuel ≤ m + 1 → m ≤ r → ∀ (s : State K V) (k : K),
      s.items.length ≤ m → (∀ n ∈ s.sizes, n ≤ r) →
      (decorated eqv maxsize f fuel s k).1.items.length ≤ m ∧
        ∀ n ∈ (decorated eqv maxsize f fuel s k).1.sizes, n ≤ r := by
  induction fuel with
  | zero => intro m r hm hmr s k hs hr; exact ⟨hs, hr⟩
  | succ fuel ih =>
    intro m r hm hmr s k hs hr
    -- nested calls run below `m - 1`
    obtain ⟨m', rfl⟩ : ∃ m', m = m' + 1 := ⟨m - 1, by omega⟩
    have body : ∀ (b : Body K V) (s : State K V), s.items.length ≤ m' → (∀ n ∈ s.sizes, n ≤ r) →
        (compute eqv (decorated eqv maxsize f fuel) k b s).1.items.length ≤ m' + 1 ∧
        ∀ n ∈ (compute eqv (decorated eqv maxsize f fuel) k b s).1.sizes, n ≤ r := by
      intro b
      induction b with
      | ret v =>
        intro s hs hr
        have h := insert_length_le (eqv := eqv) k v s.items
        constructor
        · simp only [compute]; omega
        · intro n hn
          simp only [compute, List.mem_cons] at hn
          rcases hn with h' | h'
          · omega
          · exact hr n h'
      | raise => intro s hs hr; exact ⟨by simp only [compute]; omega, by simpa [compute] using hr⟩
      | call k' next ihb =>
        intro s hs hr
        have h := ih m' r (by omega) (by omega) s k' hs hr
        simp only [compute]
        split
        · rename_i s' v heq
          rw [heq] at h
          exact ihb _ _ h.1 h.2
        · rename_i s' heq
          rw [heq] at h
          exact ihb _ _ h.1 h.2
        · rename_i s' heq
          rw [heq] at h
          exact ⟨Nat.le_succ_of_le h.1, h.2⟩
    simp only [decorated]
    split
    · exact ⟨hs, hr⟩
    · split
      · split
        · exact ⟨hs, hr⟩
        · rename_i rest heq
          rw [heq] at hs
          simp only [List.length_cons] at hs
          apply body
          · simp; omega
          · intro n hn
            rcases List.mem_cons.1 hn with h | h
            · omega
            · exact hr n h
      · apply body
        · omega
        · exact hr

/-- `AllCalls P b`: every nested call that the body `b` can make, whatever the outcomes of the
previous ones, is on a key satisfying `P`. -/
def AllCalls (P : K → Prop) : Body K V → Prop
  | .ret _ => True
  | .raise => True
  | .call k next => P k ∧ ∀ o, AllCalls P (next o)

/-- `NestedAtMost f d k`: calling the function on `k` nests at most `d` further levels of calls. -/
def NestedAtMost (f : K → Body K V) : Nat → K → Prop
  | 0, k => AllCalls (fun _ => False) (f k)
  | d + 1, k => AllCalls (NestedAtMost f d) (f k)

/-- A body run with nested calls that keep the bound `m'` gives a state below `m' + 1`. -/
theorem compute_bounded {nested : State K V → K → State K V × Outcome V} {P : K → Prop}
    {m' r : Nat} (hmr : m' + 1 ≤ r) (k : K)
    (hn : ∀ (s : State K V) (k' : K), P k' → s.items.length ≤ m' → (∀ n ∈ s.sizes, n ≤ r) →
      (nested s k').1.items.length ≤ m' ∧ ∀ n ∈ (nested s k').1.sizes, n ≤ r) :
    ∀ (b : Body K V), AllCalls P b → ∀ (s : State K V), s.items.length ≤ m' →
      (∀ n ∈ s.sizes, n ≤ r) →
      (compute eqv nested k b s).1.items.length ≤ m' + 1 ∧
      ∀ n ∈ (compute eqv nested k b s).1.sizes, n ≤ r := by
  intro b
  induction b with
  | ret v =>
    intro _ s hs hr
    have h := insert_length_le (eqv := eqv) k v s.items
    constructor
    · simp only [compute]; omega
    · intro n hn
      simp only [compute, List.mem_cons] at hn
      rcases hn with h' | h'
      · omega
      · exact hr n h'
  | raise => intro _ s hs hr; exact ⟨by simp only [compute]; omega, by simpa [compute] using hr⟩
  | call k' next ihb =>
    intro hP s hs hr
    have h := hn s k' hP.1 hs hr
    simp only [compute]
    split
    · rename_i s' v heq
      rw [heq] at h
      exact ihb _ (hP.2 _) _ h.1 h.2
    · rename_i s' heq
      rw [heq] at h
      exact ihb _ (hP.2 _) _ h.1 h.2
    · rename_i s' heq
      rw [heq] at h
      exact ⟨Nat.le_succ_of_le h.1, h.2⟩

theorem decorated_bounded_of_nested (hmax : 1 ≤ maxsize) (d : Nat) :
    ∀ (fuel m r : Nat), maxsize + d ≤ m → m ≤ r → ∀ (s : State K V) (k : K),
      NestedAtMost f d k →
      s.items.length ≤ m → (∀ n ∈ s.sizes, n ≤ r) →
      (decorated eqv maxsize f fuel s k).1.items.length ≤ m ∧
        ∀ n ∈ (decorated eqv maxsize f fuel s k).1.sizes, n ≤ r := by
  induction d with
  | zero =>
    intro fuel m r hm hmr s k hd hs hr
    cases fuel with
    | zero => exact ⟨hs, hr⟩
    | succ fuel =>
      obtain ⟨m', rfl⟩ : ∃ m', m = m' + 1 := ⟨m - 1, by omega⟩
      have body := compute_bounded (eqv := eqv) (nested := decorated eqv maxsize f fuel)
        (P := fun _ => False) (m' := m') (r := r) hmr k (fun _ _ h => h.elim) (f k) hd
      simp only [decorated]
      split
      · exact ⟨hs, hr⟩
      · split
        · split
          · exact ⟨hs, hr⟩
          · rename_i rest heq
            rw [heq] at hs
            simp only [List.length_cons] at hs
            apply body
            · simp; omega
            · intro n hn
              rcases List.mem_cons.1 hn with h | h
              · omega
              · exact hr n h
        · exact body s (by omega) hr
  | succ d ih =>
    intro fuel m r hm hmr s k hd hs hr
    cases fuel with
    | zero => exact ⟨hs, hr⟩
    | succ fuel =>
      obtain ⟨m', rfl⟩ : ∃ m', m = m' + 1 := ⟨m - 1, by omega⟩
      have body := compute_bounded (eqv := eqv) (nested := decorated eqv maxsize f fuel)
        (P := NestedAtMost f d) (m' := m') (r := r) hmr k
        (fun s k' hk' hs hr => ih fuel m' r (by omega) (by omega) s k' hk' hs hr) (f k) hd
      simp only [decorated]
      split
      · exact ⟨hs, hr⟩
      · split
        · split
          · exact ⟨hs, hr⟩
          · rename_i rest heq
            rw [heq] at hs
            simp only [List.length_cons] at hs
            apply body
            · simp; omega
            · intro n hn
              rcases List.mem_cons.1 hn with h | h
              · omega
              · exact hr n h
        · exact body s (by omega) hr

theorem run_bounded_of_nested (hmax : 1 ≤ maxsize) (d : Nat) (hist : List (Nat × K)) :
    ∀ (s : State K V), (∀ c ∈ hist, NestedAtMost f d c.2) →
      s.items.length ≤ maxsize + d → (∀ n ∈ s.sizes, n ≤ maxsize + d) →
      (run eqv maxsize f s hist).1.items.length ≤ maxsize + d ∧
        ∀ n ∈ (run eqv maxsize f s hist).1.sizes, n ≤ maxsize + d := by
  induction hist with
  | nil => intro s _ hs hr; exact ⟨hs, hr⟩
  | cons c hist ih =>
    intro s hd hs hr
    obtain ⟨fuel, k⟩ := c
    have h := decorated_bounded_of_nested (eqv := eqv) (f := f) hmax d fuel (maxsize + d)
      (maxsize + d) (Nat.le_refl _) (Nat.le_refl _) s k (hd (fuel, k) (by simp)) hs hr
    simp only [run]
    exact ih _ (fun c hc => hd c (List.mem_cons_of_mem _ hc)) h.1 h.2

/-! ## Values -/

/-- Undecorated execution of a body: the nested calls are answered by `nested`. -/
def evalBody (nested : K → Outcome V) : Body K V → Outcome V
  | .ret v => .value v
  | .raise => .error
  | .call k next =>
    match nested k with
    | .value v => evalBody nested (next (some v))
    | .error => evalBody nested (next none)
    | .limit => .limit

/-- Undecorated execution (no cache), with a recursion limit. -/
def direct (f : K → Body K V) : Nat → K → Outcome V
  | 0, _ => .limit
  | n + 1, k => evalBody (direct f n) (f k)

theorem evalBody_mono {g h : K → Outcome V} (hgh : ∀ k, g k ≠ .limit → h k = g k) (b : Body K V) :
    evalBody g b ≠ .limit → evalBody h b = evalBody g b := by
  induction b with
  | ret v => intro _; rfl
  | raise => intro _; rfl
  | call k next ih =>
    intro hb
    have hk : g k ≠ .limit := by
      intro h; apply hb; simp [evalBody, h]
    have hk' := hgh k hk
    simp only [evalBody, hk'] at hb ⊢
    cases hg : g k with
    | value v => simp only [hg] at hb ⊢; exact ih _ hb
    | error => simp only [hg] at hb ⊢; exact ih _ hb
    | limit => exact absurd hg hk

theorem direct_succ (f : K → Body K V) (n : Nat) :
    ∀ k, direct f n k ≠ .limit → direct f (n + 1) k = direct f n k := by
  induction n with
  | zero => intro k h; exact absurd rfl h
  | succ n ih => intro k h; exact evalBody_mono ih (f k) h

theorem direct_mono (f : K → Body K V) {n m : Nat} (hnm : n ≤ m) (k : K)
    (h : direct f n k ≠ .limit) : direct f m k = direct f n k := by
  induction hnm with
  | refl => rfl
  | step _ ih => rw [direct_succ f _ k (by rw [ih]; exact h), ih]

/-- The undecorated function on `k` ends with outcome `o` (a value or an exception), given enough
recursion depth. -/
def Ends (f : K → Body K V) (k : K) (o : Outcome V) : Prop :=
  o ≠ .limit ∧ ∃ n, direct f n k = o

theorem Ends.unique {f : K → Body K V} {k : K} {o o' : Outcome V}
    (h : Ends f k o) (h' : Ends f k o') : o = o' := by
  obtain ⟨ho, n, hn⟩ := h
  obtain ⟨ho', m, hm⟩ := h'
  have h1 := direct_mono f (Nat.le_max_left n m) k (by rw [hn]; exact ho)
  have h2 := direct_mono f (Nat.le_max_right n m) k (by rw [hm]; exact ho')
  rw [← hn, ← hm, ← h1, ← h2]

/-- Same notion for a body. -/
def EndsBody (f : K → Body K V) (b : Body K V) (o : Outcome V) : Prop :=
  o ≠ .limit ∧ ∃ n, evalBody (direct f n) b = o

theorem EndsBody.call {f : K → Body K V} {k : K} {next : Option V → Body K V} {o : Outcome V}
    (x : Outcome V) (y : Option V) (hxy : (x = .error ∧ y = none) ∨ ∃ v, x = .value v ∧ y = some v)
    (hk : Ends f k x) (hb : EndsBody f (next y) o) : EndsBody f (.call k next) o := by
  obtain ⟨hx, n, hn⟩ := hk
  obtain ⟨ho, m, hm⟩ := hb
  refine ⟨ho, max n m, ?_⟩
  have h1 := direct_mono f (Nat.le_max_left n m) k (by rw [hn]; exact hx)
  have h2 := evalBody_mono (g := direct f m) (h := direct f (max n m))
    (fun k hk => direct_mono f (Nat.le_max_right n m) k hk) (next y) (by rw [hm]; exact ho)
  simp only [evalBody, h1, hn]
  rcases hxy with ⟨rfl, rfl⟩ | ⟨v, rfl, rfl⟩
  · simp only; rw [h2, hm]
  · simp only; rw [h2, hm]

theorem EndsBody.ends {f : K → Body K V} {k : K} {o : Outcome V} (h : EndsBody f (f k) o) :
    Ends f k o := ⟨h.1, h.2.imp' (· + 1) (fun _ h => h)⟩

/-- Every stored value is the value of the undecorated function on its key. -/
def Sound (f : K → Body K V) (s : State K V) : Prop :=
  ∀ p ∈ s.items, Ends f p.1 (.value p.2)

theorem compute_sound (heqv : ∀ k k' o, eqv k k' = true → (Ends f k o ↔ Ends f k' o))
    {nested : State K V → K → State K V × Outcome V}
    (hn : ∀ s k, Sound f s → Sound f (nested s k).1 ∧
      ((nested s k).2 ≠ .limit → Ends f k (nested s k).2))
    (k : K) :
    ∀ (b : Body K V) (s : State K V), Sound f s →
      (∀ o, EndsBody f b o → Ends f k o) →
      Sound f (compute eqv nested k b s).1 ∧
        ((compute eqv nested k b s).2 ≠ .limit → EndsBody f b (compute eqv nested k b s).2) := by
  intro b
  induction b with
  | ret v =>
    intro s hs hk
    have hb : EndsBody f (.ret v) (.value v) := ⟨by simp, 0, rfl⟩
    refine ⟨?_, fun _ => hb⟩
    intro p hp
    rcases mem_insert hp with h | ⟨h1, h2⟩
    · exact hs p h
    · rw [h1]
      rcases h2 with h2 | h2
      · rw [h2]; exact hk _ hb
      · exact (heqv _ _ _ h2).2 (hk _ hb)
  | raise => intro s hs hk; exact ⟨hs, fun _ => ⟨by simp [compute], 0, rfl⟩⟩
  | call k' next ih =>
    intro s hs hk
    have h := hn s k' hs
    simp only [compute]
    split
    · rename_i s' v heq
      rw [heq] at h
      have he : Ends f k' (.value v) := h.2 (by simp)
      have step : ∀ o, EndsBody f (next (some v)) o → EndsBody f (.call k' next) o :=
        fun o ho => EndsBody.call _ _ (.inr ⟨v, rfl, rfl⟩) he ho
      have := ih (some v) s' h.1 (fun o ho => hk o (step o ho))
      exact ⟨this.1, fun hl => step _ (this.2 hl)⟩
    · rename_i s' heq
      rw [heq] at h
      have he : Ends f k' .error := h.2 (by simp)
      have step : ∀ o, EndsBody f (next none) o → EndsBody f (.call k' next) o :=
        fun o ho => EndsBody.call _ _ (.inl ⟨rfl, rfl⟩) he ho
      have := ih none s' h.1 (fun o ho => hk o (step o ho))
      exact ⟨this.1, fun hl => step _ (this.2 hl)⟩
    · rename_i s' heq
      rw [heq] at h
      exact ⟨h.1, fun hl => absurd rfl hl⟩

theorem decorated_sound (hmax : 1 ≤ maxsize)
    (heqv : ∀ k k' o, eqv k k' = true → (Ends f k o ↔ Ends f k' o)) (fuel : Nat) :
    ∀ (s : State K V) (k : K), Sound f s →
      Sound f (decorated eqv maxsize f fuel s k).1 ∧
        ((decorated eqv maxsize f fuel s k).2 ≠ .limit →
          Ends f k (decorated eqv maxsize f fuel s k).2) := by
  induction fuel with
  | zero => intro s k hs; exact ⟨hs, fun h => absurd rfl h⟩
  | succ fuel ih =>
    intro s k hs
    have body := fun s hs => compute_sound heqv ih k (f k) s hs (fun o ho => ho.ends)
    simp only [decorated]
    split
    · rename_i v hv
      obtain ⟨k', hm, he⟩ := lookup_some_mem hv
      exact ⟨hs, fun _ => (heqv _ _ _ he).1 (hs _ hm)⟩
    · split
      · rename_i hgt
        split
        · rename_i hnil
          rw [hnil] at hgt
          simp at hgt
          omega
        · rename_i rest heq
          have hs' : Sound f ⟨rest, rest.length :: s.sizes⟩ := by
            intro p hp
            exact hs p (by rw [heq]; exact List.mem_cons_of_mem _ hp)
          exact ⟨(body _ hs').1, fun hl => ((body _ hs').2 hl).ends⟩
      · exact ⟨(body s hs).1, fun hl => ((body s hs).2 hl).ends⟩

theorem run_sound (hmax : 1 ≤ maxsize)
    (heqv : ∀ k k' o, eqv k k' = true → (Ends f k o ↔ Ends f k' o)) (hist : List (Nat × K)) :
    ∀ (s : State K V), Sound f s →
      List.Forall₂ (fun c o => o ≠ .limit → Ends f c.2 o) hist (run eqv maxsize f s hist).2 := by
  induction hist with
  | nil => intro s _; exact .nil
  | cons c hist ih =>
    intro s hs
    obtain ⟨fuel, k⟩ := c
    have h := decorated_sound (eqv := eqv) hmax heqv fuel s k hs
    simp only [run]
    exact .cons h.2 (ih _ h.1)

end Verif.Cache
