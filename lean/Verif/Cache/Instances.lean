import Verif.Cache.Lemmas

/-!
# Users of the memo cache: the matrix engine, and keys that are mutable meshes
-/

namespace Verif.Cache

/-! ## `BasicMatrixEngine.build_matrices`, `capytaine/bem/engines.py:94-136` -/

/-- Meshes as the engine sees them: plain meshes, or a mesh and its reflection through a plane
(`capytaine/meshes/symmetric.py`, `ReflectionSymmetricMesh`). Simplification: planes and plain
meshes are named by natural numbers. -/
inductive RMesh where
  | plain (id : Nat)
  | refl (plane : Nat) (half other : RMesh)
  deriving DecidableEq

/-- The body of `build_matrices` (`engines.py:120-136`): two nested calls of the decorated method
for two meshes with the same reflection plane, one evaluation of the Green function otherwise.
`eval` is `green_function.evaluate` (`none` when it raises), `join` builds the block matrix.
Simplification: the other arguments (depth, wavenumber, ...) are passed unchanged by the code to
the nested calls and are not represented. -/
def engineBody {V : Type} (eval : RMesh → RMesh → Option V) (join : V → V → V) :
    RMesh × RMesh → Body (RMesh × RMesh) V
  | (.refl p a b, .refl p' c d) =>
    if p = p' then
      .call (a, c) fun
        | none => .raise
        | some sa => .call (a, d) fun
          | none => .raise
          | some sb => .ret (join sa sb)
    else match eval (.refl p a b) (.refl p' c d) with
      | some v => .ret v
      | none => .raise
  | (m1, m2) => match eval m1 m2 with
      | some v => .ret v
      | none => .raise

/-- Number of nested reflections of a mesh (0, 1 or 2 in practice). -/
def RMesh.depth : RMesh → Nat
  | .plain _ => 0
  | .refl _ a b => max a.depth b.depth + 1

theorem AllCalls.mono {K V : Type} {P Q : K → Prop} (h : ∀ k, P k → Q k) (b : Body K V) :
    AllCalls P b → AllCalls Q b := by
  induction b with
  | ret => exact id
  | raise => exact id
  | call k next ih => exact fun ⟨h1, h2⟩ => ⟨h _ h1, fun o => ih _ (h2 o)⟩

theorem NestedAtMost.succ {K V : Type} {f : K → Body K V} {d : Nat} :
    ∀ {k}, NestedAtMost f d k → NestedAtMost f (d + 1) k := by
  induction d with
  | zero => intro k h; exact AllCalls.mono (fun _ h => h.elim) _ h
  | succ d ih => intro k h; exact AllCalls.mono (fun _ h => ih h) _ h

theorem NestedAtMost.mono {K V : Type} {f : K → Body K V} {d d' : Nat} (hd : d ≤ d') {k : K}
    (h : NestedAtMost f d k) : NestedAtMost f d' k := by
  induction hd with
  | refl => exact h
  | step _ ih => exact ih.succ

theorem engine_nested {V : Type} (eval : RMesh → RMesh → Option V) (join : V → V → V)
    (m1 : RMesh) : ∀ m2, NestedAtMost (engineBody eval join) m1.depth (m1, m2) := by
  have leaf : ∀ (x : Option V), AllCalls (K := RMesh × RMesh) (fun _ => False)
      (match x with | some v => .ret v | none => .raise) := by
    intro x; cases x <;> trivial
  induction m1 with
  | plain i =>
    intro m2
    show AllCalls _ _
    simp only [engineBody]
    exact leaf _
  | refl p a b iha ihb =>
    intro m2
    show AllCalls _ _
    cases m2 with
    | plain j =>
      simp only [engineBody]
      exact AllCalls.mono (fun _ h => h.elim) _ (leaf _)
    | refl p' c d =>
      simp only [engineBody]
      split
      · refine ⟨(iha c).mono (Nat.le_max_left _ _), fun o => ?_⟩
        cases o with
        | none => trivial
        | some sa =>
          refine ⟨(iha d).mono (Nat.le_max_left _ _), fun o => ?_⟩
          cases o <;> trivial
      · exact AllCalls.mono (fun _ h => h.elim) _ (leaf _)

/-! ## Mutable keys

Meshes are mutable and used as keys. Their hash is computed from the vertices
(`capytaine/meshes/meshes.py:705-708`), the dictionary keeps the hash computed at insertion, and a
key matches when the hashes agree and the objects are identical or compare equal (CPython
dictionaries; tuples compare their elements by identity first). -/

/-- A dictionary entry: hash stored at insertion, identity of the key object, value. -/
structure Entry (V : Type) where
  hash : Nat
  obj : Nat
  value : V

/-- Cache and contents of all mesh objects. -/
structure MState (C V : Type) where
  heap : Nat → C
  entries : List (Entry V)

/-- What a user does: change a mesh in place, or ask for the value for a mesh. -/
inductive MOp (C : Type) where
  | mutate (obj : Nat) (c : C)
  | call (obj : Nat)

/-- First entry matching the key object `o`. -/
def mfind {C V : Type} (hash : C → Nat) (eqv : C → C → Bool) (s : MState C V) (o : Nat) :
    Option V :=
  (s.entries.find? fun e =>
    e.hash == hash (s.heap o) && (e.obj == o || eqv (s.heap e.obj) (s.heap o))).map Entry.value

/-- `lru_cache.py:23-42` for a body that makes no nested call and does not fail; `maxsize ≥ 1`.
Simplification: the key is the mesh alone. A mutation clears the hash kept in the mesh
(`capytaine/meshes/geometry.py:21-35`), so `hash (heap o)` is the current one. -/
def mstep {C V : Type} (hash : C → Nat) (eqv : C → C → Bool) (maxsize : Nat) (f : C → V)
    (s : MState C V) : MOp C → MState C V × Option V
  | .mutate o c => ({ s with heap := fun o' => if o' = o then c else s.heap o' }, none)
  | .call o =>
    match mfind hash eqv s o with
    | some v => (s, some v)
    | none =>
      let kept := if s.entries.length + 1 > maxsize then s.entries.tail else s.entries
      ({ s with entries := kept ++ [⟨hash (s.heap o), o, f (s.heap o)⟩] }, some (f (s.heap o)))

/-- Run a list of operations; each call is recorded with the contents of its mesh at that time. -/
def mrun {C V : Type} (hash : C → Nat) (eqv : C → C → Bool) (maxsize : Nat) (f : C → V) :
    MState C V → List (MOp C) → List (C × V)
  | _, [] => []
  | s, op :: rest =>
    let (s', out) := mstep hash eqv maxsize f s op
    let tail := mrun hash eqv maxsize f s' rest
    match op, out with
    | .call o, some v => (s.heap o, v) :: tail
    | _, _ => tail

/-- Every value in the cache is the value of *any* contents with the stored hash. -/
def MSound {C V : Type} (hash : C → Nat) (f : C → V) (s : MState C V) : Prop :=
  ∀ e ∈ s.entries, ∀ c, hash c = e.hash → f c = e.value

theorem mstep_sound {C V : Type} {hash : C → Nat} {eqv : C → C → Bool} {maxsize : Nat} {f : C → V}
    (hinj : ∀ c c', hash c = hash c' → f c = f c') (s : MState C V) (hs : MSound hash f s)
    (op : MOp C) :
    MSound hash f (mstep hash eqv maxsize f s op).1 ∧
      ∀ o v, op = .call o → (mstep hash eqv maxsize f s op).2 = some v → v = f (s.heap o) := by
  cases op with
  | mutate o c => exact ⟨hs, by intro o v h; cases h⟩
  | call o =>
    simp only [mstep]
    split
    · rename_i v hv
      refine ⟨hs, ?_⟩
      intro o' v' ho hv'
      cases ho; cases hv'
      simp only [mfind, Option.map_eq_some_iff] at hv
      obtain ⟨e, he, rfl⟩ := hv
      have hmem := List.mem_of_find?_eq_some he
      have hp := List.find?_some he
      simp only [Bool.and_eq_true, beq_iff_eq] at hp
      exact (hs e hmem _ hp.1.symm).symm
    · refine ⟨?_, ?_⟩
      · intro e he
        simp only [List.mem_append, List.mem_singleton] at he
        rcases he with he | rfl
        · apply hs e
          split at he
          · exact List.mem_of_mem_tail he
          · exact he
        · intro c hc; exact hinj _ _ hc
      · intro o' v ho hv
        cases ho; cases hv; rfl

/-- CPython: `hash(-1.0) = hash(-2.0) = -2`, as `-1` is reserved for errors; other integral floats
(of moderate size) hash to themselves. -/
def pyHashInt (z : Int) : Int := if z = -1 then -2 else z

end Verif.Cache
