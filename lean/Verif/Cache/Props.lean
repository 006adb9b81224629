import Verif.Cache.Instances

/-!
# Properties of the memo cache (C01, C02, C03, C61)
-/

namespace Verif.Cache

/-! ## C01: bounded size -/

/-- **C01, general bound.** For any function, any key equality and any history of calls in which
calls nest at most `d` levels, the cache never holds more than `maxsize + d` items, at any time
(also during the computations, also when some of them raise or hit the recursion limit). -/
theorem cache_size_le_maxsize_add_nesting {K V : Type} (eqv : K → K → Bool) (maxsize d : Nat)
    (hmax : 1 ≤ maxsize) (f : K → Body K V) (hist : List (Nat × K))
    (hd : ∀ c ∈ hist, NestedAtMost f d c.2) :
    let s := (run eqv maxsize f State.init hist).1
    s.items.length ≤ maxsize + d ∧ ∀ n ∈ s.sizes, n ≤ maxsize + d :=
  run_bounded_of_nested hmax d hist State.init hd (by simp [State.init]) (by simp [State.init])

/-- A function is not reentrant when no body calls the decorated function. -/
def NotReentrant {K V : Type} (f : K → Body K V) : Prop :=
  ∀ k, (∃ v, f k = .ret v) ∨ f k = .raise

/-- **C01, partial.** The documented bound ("*never* more than `maxsize` items") holds for
functions that do not call themselves through the cache. Missing: reentrant functions, for which it
is false, see `cache_size_violated`. -/
theorem cache_size_le_maxsize_partial {K V : Type} (eqv : K → K → Bool) (maxsize : Nat)
    (hmax : 1 ≤ maxsize) (f : K → Body K V) (hf : NotReentrant f) (hist : List (Nat × K)) :
    let s := (run eqv maxsize f State.init hist).1
    s.items.length ≤ maxsize ∧ ∀ n ∈ s.sizes, n ≤ maxsize := by
  apply cache_size_le_maxsize_add_nesting eqv maxsize 0 hmax f hist
  intro c _
  show AllCalls _ _
  rcases hf c.2 with ⟨v, h⟩ | h <;> rw [h] <;> trivial

example : NotReentrant (fun k : Nat => if k = 3 then (.raise : Body Nat Nat) else .ret (k * k)) := by
  intro k; by_cases h : k = 3 <;> simp [h]

/-- **C01, the matrix engine.** With reflection symmetric meshes of at most `d` nested
reflections, the cache of the engine never holds more than `maxsize + d` matrices. -/
theorem engine_cache_size_le {V : Type} (eval : RMesh → RMesh → Option V) (join : V → V → V)
    (eqv : RMesh × RMesh → RMesh × RMesh → Bool) (maxsize d : Nat) (hmax : 1 ≤ maxsize)
    (hist : List (Nat × (RMesh × RMesh))) (hd : ∀ c ∈ hist, c.2.1.depth ≤ d) :
    let s := (run eqv maxsize (engineBody eval join) State.init hist).1
    s.items.length ≤ maxsize + d ∧ ∀ n ∈ s.sizes, n ≤ maxsize + d :=
  cache_size_le_maxsize_add_nesting eqv maxsize d hmax _ hist
    (fun c hc => (engine_nested eval join c.2.1 c.2.2).mono (hd c hc))

example : (RMesh.refl 0 (.refl 1 (.plain 0) (.plain 1)) (.refl 1 (.plain 2) (.plain 3))).depth ≤ 2 := by
  decide

/-- **C01 is violated** by the code as it is used by the engine: with the default cache size 1,
one call on a mesh with one reflection leaves 2 matrices in the cache, and one call on a mesh with
two reflections leaves 3. -/
theorem cache_size_violated :
    let ev : RMesh → RMesh → Option Nat := fun _ _ => some 0
    let m1 : RMesh := .refl 0 (.plain 0) (.plain 1)
    let m2 : RMesh := .refl 0 (.refl 1 (.plain 0) (.plain 1)) (.refl 1 (.plain 2) (.plain 3))
    let eqv : RMesh × RMesh → RMesh × RMesh → Bool := fun a b => decide (a = b)
    (run eqv 1 (engineBody ev (· + ·)) State.init [(10, (m1, m1))]).1.items.length = 2 ∧
    (run eqv 1 (engineBody ev (· + ·)) State.init [(10, (m2, m2))]).1.items.length = 3 := by
  decide

/-! ### The bound with nesting is reached for all sizes and depths -/

/-- Body that calls the keys of a list in order, then returns. -/
def callAll : List Nat → Body Nat Unit
  | [] => .ret ()
  | k :: ks => .call k fun _ => callAll ks

/-- Keys below `M` are leaves, `M` calls all leaves, `M + r + 1` calls `M + r`. -/
def tower (M : Nat) (k : Nat) : Body Nat Unit :=
  if k < M then .ret () else if k = M then callAll (List.range M) else callAll [k - 1]

theorem lookup_range_none (n : Nat) :
    lookup (· == ·) n ((List.range n).map fun i => (i, ())) = none := by
  cases h : lookup (· == ·) n ((List.range n).map fun i => (i, ())) with
  | none => rfl
  | some v =>
    obtain ⟨k', hm, he⟩ := lookup_some_mem h
    simp only [List.mem_map, List.mem_range, Prod.mk.injEq] at hm
    obtain ⟨i, hi, rfl, -⟩ := hm
    simp only [beq_iff_eq] at he
    omega

theorem insert_append_of_lookup_none {K V : Type} {eqv : K → K → Bool} {k : K} {v : V}
    {l : List (K × V)} (h : lookup eqv k l = none) : insert eqv k v l = l ++ [(k, v)] := by
  induction l with
  | nil => rfl
  | cons a l ih =>
    obtain ⟨k', v'⟩ := a
    simp only [lookup] at h
    split at h
    · cases h
    · rename_i hk
      simp only [insert, hk, if_false, Bool.false_eq_true, List.cons_append]
      rw [ih h]

theorem insert_range (n : Nat) :
    insert (· == ·) n () ((List.range n).map fun i => (i, ())) =
      (List.range (n + 1)).map fun i => (i, ()) := by
  rw [insert_append_of_lookup_none (lookup_range_none n), List.range_succ, List.map_append]
  rfl

theorem decorated_miss_room {K V : Type} {eqv : K → K → Bool} {maxsize fuel : Nat}
    {f : K → Body K V} {s : State K V} {k : K} (hl : lookup eqv k s.items = none)
    (hs : s.items.length + 1 ≤ maxsize) :
    decorated eqv maxsize f (fuel + 1) s k =
      compute eqv (decorated eqv maxsize f fuel) k (f k) s := by
  rw [decorated, hl]
  simp only
  rw [if_neg (by omega)]

theorem leaf_call {M fuel i : Nat} (hi : i < M) (s : State Nat Unit)
    (hs : s.items = (List.range i).map fun i => (i, ())) :
    ∃ s', decorated (· == ·) M (tower M) (fuel + 1) s i = (s', .value ()) ∧
      s'.items = (List.range (i + 1)).map fun i => (i, ()) := by
  simp only [decorated, hs, lookup_range_none]
  rw [if_neg (by simp; omega)]
  simp only [tower, if_pos hi, compute, hs]
  exact ⟨_, rfl, insert_range i⟩

theorem callAll_leaves {M fuel : Nat} (key n : Nat) : ∀ (m i : Nat), i + m = n → n ≤ M →
    ∀ (s : State Nat Unit), s.items = ((List.range i).map fun i => (i, ())) →
    ∃ s' : State Nat Unit, compute (· == ·) (decorated (· == ·) M (tower M) (fuel + 1)) key
        (callAll (List.range' i m)) s = (⟨insert (· == ·) key () s'.items,
          (insert (· == ·) key () s'.items).length :: s'.sizes⟩, .value ()) ∧
      s'.items = (List.range n).map fun i => (i, ()) := by
  intro m
  induction m with
  | zero =>
    intro i hin _ s hs
    refine ⟨s, rfl, ?_⟩
    have : i = n := by omega
    rw [← this]; exact hs
  | succ m ih =>
    intro i hin hn s hs
    obtain ⟨s', h1, h2⟩ := leaf_call (fuel := fuel) (M := M) (i := i) (by omega) s hs
    simp only [List.range'_succ, callAll, compute, h1]
    exact ih (i + 1) (by omega) hn s' h2

/-- **C01, tightness.** For every `maxsize ≥ 1` and every nesting depth `r + 1` there is a function
and a single call after which the cache holds `maxsize + (r + 1)` items: the bound
`cache_size_le_maxsize_add_nesting` cannot be improved. -/
theorem cache_size_bound_reached (M : Nat) (hM : 1 ≤ M) (r : Nat) :
    NestedAtMost (tower M) (r + 1) (M + r) ∧
    (run (· == ·) M (tower M) State.init [(r + 2, M + r)]).1.items.length = M + (r + 1) := by
  constructor
  · have leaf : ∀ k, k < M → NestedAtMost (tower M) 0 k := by
      intro k hk
      show AllCalls _ _
      simp only [tower, if_pos hk]
      trivial
    induction r with
    | zero =>
      show AllCalls _ _
      simp only [tower, Nat.add_zero, Nat.lt_irrefl, if_false, if_true]
      have : ∀ l : List Nat, (∀ k ∈ l, k < M) → AllCalls (NestedAtMost (tower M) 0) (callAll l) := by
        intro l
        induction l with
        | nil => intro _; trivial
        | cons k l ih =>
          intro h
          exact ⟨leaf k (h k (by simp)), fun _ => ih (fun k hk => h k (by simp [hk]))⟩
      exact this _ (fun k hk => List.mem_range.1 hk)
    | succ r ih =>
      show AllCalls _ _
      simp only [tower, if_neg (show ¬ M + (r + 1) < M by omega),
        if_neg (show ¬ M + (r + 1) = M by omega)]
      refine ⟨?_, fun _ => trivial⟩
      have : M + (r + 1) - 1 = M + r := by omega
      rw [this]; exact ih
  · have key : ∀ r, ∃ s', decorated (· == ·) M (tower M) (r + 2) State.init (M + r) =
        (s', .value ()) ∧ s'.items = (List.range (M + r + 1)).map fun i => (i, ()) := by
      intro r
      induction r with
      | zero =>
        rw [decorated_miss_room rfl hM]
        simp only [tower, Nat.add_zero, Nat.lt_irrefl, if_false, if_true]
        obtain ⟨s', h1, h2⟩ := callAll_leaves (M := M) (fuel := 0) M M M 0 (by omega)
          (Nat.le_refl _) State.init rfl
        rw [List.range_eq_range']
        refine ⟨_, h1, ?_⟩
        simp only [h2]
        exact insert_range M
      | succ r ih =>
        obtain ⟨s', h1, h2⟩ := ih
        rw [decorated_miss_room rfl hM]
        have hb : tower M (M + (r + 1)) = callAll [M + r] := by
          rw [tower, if_neg (show ¬ M + (r + 1) < M by omega),
            if_neg (show ¬ M + (r + 1) = M by omega)]
          rw [show M + (r + 1) - 1 = M + r by omega]
        simp only [hb, callAll, compute, h1]
        refine ⟨_, rfl, ?_⟩
        simp only [h2]
        exact insert_range (M + r + 1)
    obtain ⟨s', h1, h2⟩ := key r
    simp only [run, h1, h2, List.length_map, List.length_range]
    omega

/-! ## C02: transparency -/

/-- **C02.** Whatever the history of calls (with failures, evictions, reentrance and recursion
limits), each outcome of the decorated function, value or exception, is the outcome of the
undecorated function on the same key, provided that keys that compare equal have the same outcome.
`Ends f k o` is about uncached execution only. -/
theorem memo_transparent {K V : Type} (eqv : K → K → Bool) (maxsize : Nat) (hmax : 1 ≤ maxsize)
    (f : K → Body K V) (heqv : ∀ k k' o, eqv k k' = true → (Ends f k o ↔ Ends f k' o))
    (hist : List (Nat × K)) :
    List.Forall₂ (fun c o => o ≠ .limit → Ends f c.2 o) hist
      (run eqv maxsize f State.init hist).2 :=
  run_sound hmax heqv hist State.init (by intro p hp; simp [State.init] at hp)

/-- The hypothesis of `memo_transparent` is met by equality on natural numbers and a reentrant
function with failing keys. -/
example : ∀ k k' o, (k == k') = true →
    (Ends (fun k : Nat => if k = 0 then (.raise : Body Nat Nat) else .call (k - 1) fun o =>
      .ret (o.getD 0 + k)) k o ↔ Ends (fun k : Nat => if k = 0 then (.raise : Body Nat Nat) else
        .call (k - 1) fun o => .ret (o.getD 0 + k)) k' o) := by
  intro k k' o h
  rw [beq_iff_eq] at h
  rw [h]

/-- **C02, progress.** With recursion depth at least that of the uncached execution, a call through
an empty-or-sound cache does not hit the recursion limit when the uncached one does not. -/
theorem memo_no_extra_recursion {K V : Type} (eqv : K → K → Bool) (maxsize : Nat)
    (hmax : 1 ≤ maxsize) (f : K → Body K V)
    (heqv : ∀ k k' o, eqv k k' = true → (Ends f k o ↔ Ends f k' o)) (n : Nat) :
    ∀ (s : State K V) (k : K), Sound f s → direct f n k ≠ .limit →
      (decorated eqv maxsize f n s k).2 = direct f n k := by
  induction n with
  | zero => intro s k _ h; exact absurd rfl h
  | succ n ih =>
    have body : ∀ (k : K) (b : Body K V) (s : State K V), Sound f s →
        (∀ o, EndsBody f b o → Ends f k o) → evalBody (direct f n) b ≠ .limit →
        (compute eqv (decorated eqv maxsize f n) k b s).2 ≠ .limit := by
      intro k b
      induction b with
      | ret v => intro s _ _ _; simp [compute]
      | raise => intro s _ _ _; simp [compute]
      | call k' next ihb =>
        intro s hs hk hb
        have hk' : direct f n k' ≠ .limit := by
          intro h; apply hb; simp [evalBody, h]
        have hv := ih s k' hs hk'
        have hsound := decorated_sound (eqv := eqv) hmax heqv n s k' hs
        have he : Ends f k' (direct f n k') := ⟨hk', n, rfl⟩
        simp only [evalBody] at hb
        simp only [compute]
        split
        · rename_i s' v heq
          rw [heq] at hv hsound
          rw [← hv] at hb he
          exact ihb (some v) s' hsound.1
            (fun o ho => hk o (EndsBody.call _ _ (.inr ⟨v, rfl, rfl⟩) he ho)) hb
        · rename_i s' heq
          rw [heq] at hv hsound
          rw [← hv] at hb he
          exact ihb none s' hsound.1
            (fun o ho => hk o (EndsBody.call _ _ (.inl ⟨rfl, rfl⟩) he ho)) hb
        · rename_i s' heq
          rw [heq] at hv
          exact absurd hv.symm hk'
    intro s k hs h
    have hnl : (decorated eqv maxsize f (n + 1) s k).2 ≠ .limit := by
      simp only [decorated]
      split
      · simp
      · split
        · split
          · simp
          · rename_i rest heq
            apply body k (f k) _ _ (fun o ho => ho.ends) h
            intro p hp
            exact hs p (by rw [heq]; exact List.mem_cons_of_mem _ hp)
        · exact body k (f k) s hs (fun o ho => ho.ends) h
    exact Ends.unique ((decorated_sound (eqv := eqv) hmax heqv (n + 1) s k hs).2 hnl)
      ⟨h, n + 1, rfl⟩

/-! ## C03: equal meshes -/

/-- A mesh as the list of its panels, each one the list of its vertices, in order
(`vertices[faces]` in `capytaine/meshes/meshes.py:674-675`). Vertices are named by integers
(simplification: only equality of vertices matters here). -/
abbrev Panels := List (List Int)

/-- Equality of meshes, `meshes.py:674-675, 699-703`: equality of the frozensets of the frozensets
of vertices, that is mutual inclusion at both levels. -/
def meshEq (a b : Panels) : Bool :=
  let sameSet := fun (p q : List Int) => p.all (q.contains ·) && q.all (p.contains ·)
  a.all (fun p => b.any (sameSet p)) && b.all (fun q => a.any (sameSet · q))

/-- **C03 is violated**: two meshes with the same panels in another order compare equal, and so do
a mesh and the same mesh with reversed normals. -/
theorem mesh_eq_ignores_order_and_orientation :
    (∃ a b : Panels, meshEq a b = true ∧ a ≠ b ∧ a.Perm b) ∧
    (∃ a b : Panels, meshEq a b = true ∧ a ≠ b ∧ b = a.map List.reverse) := by
  refine ⟨⟨[[0, 1, 2, 3], [3, 2, 4, 5]], [[3, 2, 4, 5], [0, 1, 2, 3]], by decide, by decide, ?_⟩,
    ⟨[[0, 1, 2, 3]], [[3, 2, 1, 0]], by decide, by decide, by decide⟩⟩
  exact List.Perm.swap _ _ _

/-- **C03, effect on the solver.** Through the cache, a call on a mesh can return the value computed
for another mesh with permuted panels, for any function that depends on the order of the panels. -/
theorem cache_returns_value_of_other_mesh {V : Type} (g : Panels → V)
    (h : g [[3, 2, 4, 5], [0, 1, 2, 3]] ≠ g [[0, 1, 2, 3], [3, 2, 4, 5]]) :
    let f : Panels → Body Panels V := fun m => .ret (g m)
    let out := (run meshEq 1 f State.init
      [(5, [[0, 1, 2, 3], [3, 2, 4, 5]]), (5, [[3, 2, 4, 5], [0, 1, 2, 3]])]).2
    ∃ v, out[1]? = some (.value v) ∧ v ≠ g [[3, 2, 4, 5], [0, 1, 2, 3]] := by
  refine ⟨g [[0, 1, 2, 3], [3, 2, 4, 5]], ?_, fun e => h e.symm⟩
  have : meshEq [[0, 1, 2, 3], [3, 2, 4, 5]] [[3, 2, 4, 5], [0, 1, 2, 3]] = true := by decide
  simp [run, decorated, compute, lookup, insert, State.init, this]

example : (fun m : Panels => m.head?) [[3, 2, 4, 5], [0, 1, 2, 3]] ≠
    (fun m : Panels => m.head?) [[0, 1, 2, 3], [3, 2, 4, 5]] := by decide

/-- **C03, partial.** What equality of meshes guarantees: each panel of one mesh has the same set of
vertices as some panel of the other, both ways. Missing: order and orientation of the panels, see
`mesh_eq_ignores_order_and_orientation`. -/
theorem mesh_eq_iff_same_panels_partial (a b : Panels) :
    meshEq a b = true ↔
      (∀ p ∈ a, ∃ q ∈ b, ∀ v, v ∈ p ↔ v ∈ q) ∧ (∀ q ∈ b, ∃ p ∈ a, ∀ v, v ∈ p ↔ v ∈ q) := by
  have inner : ∀ p q : List Int,
      (p.all (q.contains ·) && q.all (p.contains ·)) = true ↔ ∀ v, v ∈ p ↔ v ∈ q := by
    intro p q
    simp only [Bool.and_eq_true, List.all_eq_true, List.contains_iff_mem]
    constructor
    · rintro ⟨h1, h2⟩ v; exact ⟨h1 v, h2 v⟩
    · intro h; exact ⟨fun v hv => (h v).1 hv, fun v hv => (h v).2 hv⟩
  rw [meshEq]
  simp only [inner, Bool.and_eq_true_iff (x := List.all a _), List.all_eq_true, List.any_eq_true]

/-- Equality of meshes is an equivalence relation, as required from a dictionary key. -/
theorem mesh_eq_equivalence :
    (∀ a, meshEq a a = true) ∧ (∀ a b, meshEq a b = true → meshEq b a = true) ∧
      (∀ a b c, meshEq a b = true → meshEq b c = true → meshEq a c = true) := by
  simp only [mesh_eq_iff_same_panels_partial]
  refine ⟨fun a => ⟨fun p hp => ⟨p, hp, fun _ => Iff.rfl⟩, fun p hp => ⟨p, hp, fun _ => Iff.rfl⟩⟩,
    fun a b ⟨h1, h2⟩ => ⟨?_, ?_⟩, fun a b c ⟨h1, h2⟩ ⟨h3, h4⟩ => ⟨?_, ?_⟩⟩
  · intro q hq
    obtain ⟨p, hp, h⟩ := h2 q hq
    exact ⟨p, hp, fun v => (h v).symm⟩
  · intro p hp
    obtain ⟨q, hq, h⟩ := h1 p hp
    exact ⟨q, hq, fun v => (h v).symm⟩
  · intro p hp
    obtain ⟨q, hq, h⟩ := h1 p hp
    obtain ⟨r, hr, h'⟩ := h3 q hq
    exact ⟨r, hr, fun v => (h v).trans (h' v)⟩
  · intro r hr
    obtain ⟨q, hq, h⟩ := h4 r hr
    obtain ⟨p, hp, h'⟩ := h2 q hq
    exact ⟨p, hp, fun v => (h' v).trans (h v)⟩

/-- **C02 and C03 together, partial.** If the function only depends on the panels as sets of
vertices, the cache keyed by meshes is transparent. -/
theorem mesh_cache_transparent_partial {V : Type} (maxsize : Nat) (hmax : 1 ≤ maxsize)
    (g : Panels → V) (hg : ∀ a b, meshEq a b = true → g a = g b) (hist : List (Nat × Panels)) :
    List.Forall₂ (fun c o => o = .limit ∨ o = .value (g c.2)) hist
      (run meshEq maxsize (fun m => .ret (g m)) State.init hist).2 := by
  have ends : ∀ k o, Ends (fun m => (.ret (g m) : Body Panels V)) k o ↔ o = .value (g k) := by
    intro k o
    constructor
    · rintro ⟨hne, n, hn⟩
      cases n with
      | zero => exact absurd hn.symm hne
      | succ n => exact hn.symm
    · rintro rfl; exact ⟨by simp, 1, rfl⟩
  have := memo_transparent meshEq maxsize hmax (fun m => .ret (g m))
    (fun k k' o h => by rw [ends, ends, hg _ _ h]) hist
  refine this.imp ?_
  intro c o h
  by_cases ho : o = .limit
  · exact .inl ho
  · exact .inr ((ends _ _).1 (h ho))

example : ∀ a b, meshEq a b = true → (fun m : Panels => m.any (·.contains 4)) a =
    (fun m : Panels => m.any (·.contains 4)) b := by
  intro a b h
  rw [mesh_eq_iff_same_panels_partial] at h
  rw [Bool.eq_iff_iff]
  simp only [List.any_eq_true, List.contains_iff_mem]
  constructor
  · rintro ⟨p, hp, hv⟩
    obtain ⟨q, hq, e⟩ := h.1 p hp
    exact ⟨q, hq, (e 4).1 hv⟩
  · rintro ⟨q, hq, hv⟩
    obtain ⟨p, hp, e⟩ := h.2 q hq
    exact ⟨p, hp, (e 4).2 hv⟩

/-! ## C61: meshes changed in place -/

/-- **C61, partial.** If meshes with the same hash have the same value (no harmful collision), then
after any sequence of in-place changes and calls, each call returns the value for the contents of
the mesh at the time of the call. Missing: hash collisions, see `mutable_key_violated`. -/
theorem mutable_key_transparent_partial {C V : Type} (hash : C → Nat) (eqv : C → C → Bool)
    (maxsize : Nat) (f : C → V) (hinj : ∀ c c', hash c = hash c' → f c = f c') (heap : Nat → C)
    (ops : List (MOp C)) :
    ∀ p ∈ mrun hash eqv maxsize f ⟨heap, []⟩ ops, p.2 = f p.1 := by
  suffices h : ∀ (ops : List (MOp C)) (s : MState C V), MSound hash f s →
      ∀ p ∈ mrun hash eqv maxsize f s ops, p.2 = f p.1 from
    h ops _ (by intro e he; simp at he)
  intro ops
  induction ops with
  | nil => intro s _ p hp; simp [mrun] at hp
  | cons op ops ih =>
    intro s hs p hp
    have h := mstep_sound (eqv := eqv) (maxsize := maxsize) hinj s hs op
    simp only [mrun] at hp
    split at hp
    · rename_i o v hout
      rcases List.mem_cons.1 hp with rfl | hp
      · exact h.2 o v rfl hout
      · exact ih _ h.1 p hp
    · exact ih _ h.1 p hp

example : ∀ c c' : Nat, (fun c => c + 7) c = (fun c => c + 7) c' →
    (fun c => c * c) c = (fun c => c * c) c' := by
  intro c c' h
  simp only [Nat.add_right_cancel_iff] at h
  rw [h]

/-- **C61, partial.** Whatever the collisions of hashes, if meshes that compare equal have the same value and no mesh is changed
after a call on it, each call returns the value for the contents of its mesh. Missing: meshes that are changed after a call, for
which collisions matter, see `mutable_key_violated`. -/
theorem unchanged_key_transparent_partial {C V : Type} (hash : C → Nat) (eqv : C → C → Bool)
    (maxsize : Nat) (f : C → V) (heqv : ∀ c c', eqv c c' = true → f c = f c') (heap : Nat → C)
    (ops : List (MOp C)) (hops : ops.Pairwise fun a b => ∀ o c, b = .mutate o c → a ≠ .call o) :
    ∀ p ∈ mrun hash eqv maxsize f ⟨heap, []⟩ ops, p.2 = f p.1 := by
  suffices h : ∀ (ops : List (MOp C)) (s : MState C V),
      ops.Pairwise (fun a b => ∀ o c, b = .mutate o c → a ≠ .call o) →
      (∀ e ∈ s.entries, e.value = f (s.heap e.obj) ∧ ∀ c, .mutate e.obj c ∉ ops) →
      ∀ p ∈ mrun hash eqv maxsize f s ops, p.2 = f p.1 from
    h ops _ hops (by intro e he; simp at he)
  intro ops
  induction ops with
  | nil => intro s _ _ p hp; simp [mrun] at hp
  | cons op ops ih =>
    intro s hpw hs p hp
    obtain ⟨hop, hrest⟩ := List.pairwise_cons.1 hpw
    cases op with
    | mutate o c =>
      simp only [mrun, mstep] at hp
      refine ih _ hrest ?_ p hp
      intro e he
      have h := hs e he
      have hne : e.obj ≠ o := by
        intro heq
        exact h.2 c (by rw [heq]; exact List.mem_cons_self)
      refine ⟨?_, fun c' hc' => h.2 c' (List.mem_cons_of_mem _ hc')⟩
      simp only [if_neg hne]
      exact h.1
    | call o =>
      have hs' : ∀ e ∈ s.entries, e.value = f (s.heap e.obj) ∧ ∀ c, .mutate e.obj c ∉ ops :=
        fun e he => ⟨(hs e he).1, fun c hc => (hs e he).2 c (List.mem_cons_of_mem _ hc)⟩
      cases hv : mfind hash eqv s o with
      | some v =>
        simp only [mrun, mstep, hv, List.mem_cons] at hp
        rcases hp with rfl | hp
        · simp only [mfind, Option.map_eq_some_iff] at hv
          obtain ⟨e, he, rfl⟩ := hv
          have hp := List.find?_some he
          simp only [Bool.and_eq_true, Bool.or_eq_true, beq_iff_eq] at hp
          rw [(hs e (List.mem_of_find?_eq_some he)).1]
          rcases hp.2 with h | h
          · rw [h]
          · exact heqv _ _ h
        · exact ih _ hrest hs' p hp
      | none =>
        simp only [mrun, mstep, hv, List.mem_cons] at hp
        rcases hp with rfl | hp
        · rfl
        · refine ih _ hrest ?_ p hp
          intro e he
          simp only [List.mem_append, List.mem_singleton] at he
          rcases he with he | rfl
          · apply hs' e
            split at he
            · exact List.mem_of_mem_tail he
            · exact he
          · exact ⟨rfl, fun c hc => hop _ hc o c rfl rfl⟩

/-- Concrete case of `unchanged_key_transparent_partial`: all the hashes collide, and a second mesh is changed before its call. -/
example : mrun (fun _ : Nat => 0) (fun a b => a == b) 8 (fun c => c * c) ⟨fun o => o + 1, []⟩
      [.call 0, .mutate 1 5, .call 1, .call 0] = [(1, 1), (5, 25), (1, 1)] ∧
    List.Pairwise (fun a b : MOp Nat => ∀ o c, b = .mutate o c → a ≠ .call o) [.call 0, .mutate 1 5, .call 1, .call 0] := by
  refine ⟨by decide, ?_⟩
  simp

/-- **C61 is violated.** A horizontal panel at depth -1 that is moved in place to depth -2 has the
same hash, whatever the way `H` in which hashes of coordinates are combined, and is the same object:
the second call returns the value computed at depth -1. The contents are the vertical coordinates
of the vertices (the horizontal ones do not change); meshes at different depths do not compare
equal; `f` is any function that differs at the two depths. -/
theorem mutable_key_violated {V : Type} (H : List Int → Nat) (f : List Int → V)
    (hf : f [-1, -1, -1, -1] ≠ f [-2, -2, -2, -2]) :
    let hash := fun c : List Int => H (c.map pyHashInt)
    let eqv := fun a b : List Int => a == b
    ∃ p ∈ mrun hash eqv 1 f ⟨fun _ => [-1, -1, -1, -1], []⟩
      [.call 0, .mutate 0 [-2, -2, -2, -2], .call 0], p.2 ≠ f p.1 := by
  refine ⟨([-2, -2, -2, -2], f [-1, -1, -1, -1]), ?_, hf⟩
  simp [mrun, mstep, mfind, pyHashInt]

example : (fun c : List Int => c.sum) [-1, -1, -1, -1] ≠ (fun c : List Int => c.sum) [-2, -2, -2, -2] := by
  decide

end Verif.Cache
