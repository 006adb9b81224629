import Verif.Cache.Props

/-!
# The memo cache avoids computations (C64)
-/

namespace Verif.Cache

variable {K V : Type} {eqv : K → K → Bool}

theorem lookup_insert {k : K} (hrefl : eqv k k = true) (v : V) (l : List (K × V)) :
    lookup eqv k (insert eqv k v l) = some v := by
  induction l with
  | nil => simp [insert, lookup, hrefl]
  | cons a l ih =>
    obtain ⟨k', v'⟩ := a
    simp only [insert]
    split
    · rename_i h; simp [lookup, h]
    · rename_i h; simp [lookup, h, ih]

theorem compute_hit {nested : State K V → K → State K V × Outcome V} {k : K} (hrefl : eqv k k = true)
    (b : Body K V) (s s' : State K V) (v : V) (h : compute eqv nested k b s = (s', .value v)) :
    lookup eqv k s'.items = some v := by
  induction b generalizing s with
  | ret w =>
    simp only [compute, Prod.mk.injEq, Outcome.value.injEq] at h
    obtain ⟨rfl, rfl⟩ := h
    exact lookup_insert hrefl _ _
  | raise => simp [compute] at h
  | call k' next ih =>
    simp only [compute] at h
    split at h
    · exact ih _ _ h
    · exact ih _ _ h
    · simp at h

/-- **C64, repeated calls.** After a call that returned a value, the same call returns the same value at
once: no body is executed (one level of recursion is enough), nothing is stored or evicted. This holds
for every function, also reentrant ones, from every state of the cache. -/
theorem repeated_call_is_a_hit (maxsize : Nat) (f : K → Body K V) (fuel : Nat) (s s' : State K V) (k : K)
    (hrefl : eqv k k = true) (v : V) (h : decorated eqv maxsize f fuel s k = (s', .value v)) :
    decorated eqv maxsize f 1 s' k = (s', .value v) := by
  have hl : lookup eqv k s'.items = some v := by
    cases fuel with
    | zero => simp [decorated] at h
    | succ fuel =>
      simp only [decorated] at h
      split at h
      · rename_i w hw
        simp only [Prod.mk.injEq, Outcome.value.injEq] at h
        obtain ⟨rfl, rfl⟩ := h
        exact hw
      · split at h
        · split at h
          · simp at h
          · exact compute_hit hrefl _ _ _ _ h
        · exact compute_hit hrefl _ _ _ _ h
  simp [decorated, hl]

/-- A miss of a function that is not reentrant. -/
theorem miss_spec {f : K → Body K V} (hf : NotReentrant f) {maxsize fuel : Nat} (hmax : 1 ≤ maxsize)
    {s : State K V} {k : K} (hl : lookup eqv k s.items = none) :
    let kept := if s.items.length + 1 > maxsize then s.items.tail else s.items
    (decorated eqv maxsize f (fuel + 1) s k).1.items = kept ∨
      ∃ v, f k = .ret v ∧ (decorated eqv maxsize f (fuel + 1) s k).1.items = kept ++ [(k, v)] := by
  have tail_none : lookup eqv k s.items.tail = none := by
    cases hs : s.items with
    | nil => rfl
    | cons a l =>
      obtain ⟨k', v'⟩ := a
      rw [hs] at hl
      simp only [lookup] at hl
      split at hl
      · cases hl
      · exact hl
  simp only [decorated, hl]
  by_cases hc : s.items.length + 1 > maxsize
  · simp only [hc, if_true]
    cases hs : s.items with
    | nil => simp [hs] at hc; omega
    | cons a l =>
      simp only [List.tail_cons]
      rw [hs, List.tail_cons] at tail_none
      rcases hf k with ⟨v, h⟩ | h
      · right
        refine ⟨v, h, ?_⟩
        simp only [h, compute]
        exact insert_append_of_lookup_none tail_none
      · left
        simp only [h, compute]
  · simp only [hc, if_false]
    rcases hf k with ⟨v, h⟩ | h
    · right
      refine ⟨v, h, ?_⟩
      simp only [h, compute]
      exact insert_append_of_lookup_none hl
    · left
      simp only [h, compute]

/-- The item of `k` with at most `m` items after it. -/
def Holds (eqv : K → K → Bool) (k : K) (v : V) (m : Nat) (l : List (K × V)) : Prop :=
  ∃ pre k' post, l = pre ++ (k', v) :: post ∧ eqv k' k = true ∧ (∀ p ∈ pre, eqv p.1 k = false) ∧
    post.length ≤ m

theorem Holds.lookup {k : K} {v : V} {m : Nat} {l : List (K × V)} (h : Holds eqv k v m l) :
    lookup eqv k l = some v := by
  obtain ⟨pre, k', post, rfl, hk, hpre, -⟩ := h
  induction pre with
  | nil => simp [Cache.lookup, hk]
  | cons a pre ih =>
    obtain ⟨k1, v1⟩ := a
    have := hpre (k1, v1) (by simp)
    simp only [List.cons_append, Cache.lookup, this, Bool.false_eq_true, if_false]
    exact ih (fun p hp => hpre p (by simp [hp]))

theorem holds_step {f : K → Body K V} (hf : NotReentrant f) {maxsize fuel : Nat} {k k2 : K} {v : V}
    {m : Nat} (hm : m + 1 < maxsize) {s : State K V} (h : Holds eqv k v m s.items) :
    Holds eqv k v (m + 1) (decorated eqv maxsize f fuel s k2).1.items := by
  have mono : Holds eqv k v (m + 1) s.items := by
    obtain ⟨pre, k', post, h1, h2, h3, h4⟩ := h
    exact ⟨pre, k', post, h1, h2, h3, by omega⟩
  cases fuel with
  | zero => exact mono
  | succ fuel =>
    cases hl : lookup eqv k2 s.items with
    | some w => simp only [decorated, hl]; exact mono
    | none =>
      have kept : ∀ l, l = (if s.items.length + 1 > maxsize then s.items.tail else s.items) →
          Holds eqv k v m l := by
        intro l hl'
        subst hl'
        split
        · rename_i hlen
          obtain ⟨pre, k', post, h1, h2, h3, h4⟩ := h
          cases pre with
          | nil => rw [h1] at hlen; simp at hlen; omega
          | cons a pre =>
            exact ⟨pre, k', post, by rw [h1]; rfl, h2, fun p hp => h3 p (by simp [hp]), h4⟩
        · exact h
      obtain ⟨pre, k', post, h1, h2, h3, h4⟩ := kept _ rfl
      rcases miss_spec hf (fuel := fuel) (show 1 ≤ maxsize by omega) hl with he | ⟨w, -, he⟩
      · rw [he]
        exact ⟨pre, k', post, h1, h2, h3, by omega⟩
      · rw [he]
        refine ⟨pre, k', post ++ [(k2, w)], ?_, h2, h3, by simp; omega⟩
        rw [h1]; simp

theorem holds_run {f : K → Body K V} (hf : NotReentrant f) {maxsize : Nat} {k : K} {v : V}
    (hist : List (Nat × K)) : ∀ {m : Nat} {s : State K V}, m + hist.length < maxsize →
    Holds eqv k v m s.items → lookup eqv k (run eqv maxsize f s hist).1.items = some v := by
  induction hist with
  | nil => intro m s _ h; exact h.lookup
  | cons c hist ih =>
    intro m s hm h
    obtain ⟨fuel, k2⟩ := c
    simp only [run]
    simp only [List.length_cons] at hm
    exact ih (m := m + 1) (by omega) (holds_step hf (by omega) h)

/-- **C64, retention.** A value that has just been computed is still in the cache after fewer than
`maxsize` further calls, whatever these calls and their outcomes: the next call for it is a hit. (For
functions that are not reentrant.) -/
theorem computed_value_is_retained (maxsize : Nat) (f : K → Body K V)
    (hf : NotReentrant f) (fuel : Nat) (s s' : State K V) (k : K) (hrefl : eqv k k = true)
    (hbound : s.items.length ≤ maxsize) (v : V) (hmiss : lookup eqv k s.items = none)
    (h : decorated eqv maxsize f fuel s k = (s', .value v)) (hist : List (Nat × K))
    (hlen : hist.length < maxsize) :
    let s'' := (run eqv maxsize f s' hist).1
    decorated eqv maxsize f 1 s'' k = (s'', .value v) := by
  intro s''
  have hl : lookup eqv k s''.items = some v := by
    refine holds_run hf hist (m := 0) (by omega) ?_
    cases fuel with
    | zero => simp [decorated] at h
    | succ fuel =>
      have hv : ∃ pre, s'.items = pre ++ [(k, v)] ∧ lookup eqv k pre = none := by
        have tail_none : lookup eqv k s.items.tail = none := by
          cases hs : s.items with
          | nil => rfl
          | cons a l =>
            obtain ⟨k', v'⟩ := a
            rw [hs] at hmiss
            simp only [lookup] at hmiss
            split at hmiss
            · cases hmiss
            · exact hmiss
        have hl1 := repeated_call_is_a_hit maxsize f (fuel + 1) s s' k hrefl v h
        have hl2 : lookup eqv k s'.items = some v := by
          simp only [decorated] at hl1
          cases hx : lookup eqv k s'.items with
          | some w =>
            rw [hx] at hl1
            simp only [Prod.mk.injEq, Outcome.value.injEq, true_and] at hl1
            rw [hl1]
          | none =>
            exfalso
            have hsz : ∀ (t : State K V) w, compute eqv (decorated eqv maxsize f 0) k (f k) t ≠ (s', .value w) ∨
                lookup eqv k s'.items = some w := by
              intro t w
              by_cases hh : compute eqv (decorated eqv maxsize f 0) k (f k) t = (s', .value w)
              · exact .inr (compute_hit hrefl _ _ _ _ hh)
              · exact .inl hh
            rw [hx] at hl1
            simp only at hl1
            split at hl1
            · split at hl1
              · simp at hl1
              · rcases hsz _ v with h' | h'
                · exact h' hl1
                · rw [hx] at h'; cases h'
            · rcases hsz _ v with h' | h'
              · exact h' hl1
              · rw [hx] at h'; cases h'
        have hkept : lookup eqv k (if s.items.length + 1 > maxsize then s.items.tail else s.items) = none := by
          split
          · exact tail_none
          · exact hmiss
        rcases miss_spec hf (fuel := fuel) (show 1 ≤ maxsize by omega) hmiss with he | ⟨w, -, he⟩
        · rw [h] at he
          simp only at he
          rw [he, hkept] at hl2
          cases hl2
        · rw [h] at he
          simp only at he
          refine ⟨_, ?_, hkept⟩
          have hw : ∀ l : List (K × V), lookup eqv k l = none → lookup eqv k (l ++ [(k, w)]) = some w := by
            intro l hl'
            rw [← insert_append_of_lookup_none (eqv := eqv) hl']
            exact lookup_insert hrefl _ _
          rw [he, hw _ hkept] at hl2
          cases hl2
          exact he
      obtain ⟨pre, h1, h2⟩ := hv
      refine ⟨pre, k, [], h1, hrefl, ?_, by simp⟩
      intro p hp
      clear h1
      induction pre with
      | nil => cases hp
      | cons a pre ih =>
        obtain ⟨k1, v1⟩ := a
        simp only [lookup] at h2
        split at h2
        · cases h2
        · rename_i hne
          rcases List.mem_cons.1 hp with rfl | hp
          · simpa using hne
          · exact ih h2 hp
  simp [decorated, hl]

/-- The hypotheses are met: the third value computed in a cache of three items, followed by two other
calls, one of which fails. -/
example :
    let f : Nat → Body Nat Nat := fun k => if k = 3 then .raise else .ret (k * k)
    let s := (run (· == ·) 3 f State.init [(1, 10), (1, 11)]).1
    NotReentrant f ∧ s.items.length ≤ 3 ∧ lookup (· == ·) 12 s.items = none ∧
    (decorated (· == ·) 3 f 1 s 12).2 = .value 144 ∧ [(1, 3), (1, 4)].length < 3 := by
  refine ⟨?_, by decide, by decide, by decide, by decide⟩
  intro k; by_cases h : k = 3 <;> simp [h]

/-- The bound on the number of calls cannot be improved, even when the value is used in between: the
cache drops the value computed first, not the one used least recently. Here `0` is used just before
`2` is computed in a cache of two items, and yet it is `0` that is dropped and has to be recomputed. -/
theorem used_value_is_dropped :
    let f : Nat → Body Nat Nat := fun k => .ret k
    let s := (run (· == ·) 2 f State.init [(1, 0), (1, 1), (1, 0), (1, 2)]).1
    lookup (· == ·) 0 s.items = none ∧ lookup (· == ·) 1 s.items = some 1 := by decide

end Verif.Cache
