/-!
# Model of `capytaine/tools/lru_cache.py` (lines 12-46)

The decorator `lru_cache_with_strict_maxsize(maxsize)` keeps an `OrderedDict` of results.
The decorated function may be reentrant: `BasicMatrixEngine.build_matrices`
(`capytaine/bem/engines.py:94-136`) calls `self.build_matrices`, which is the decorated
function itself (`capytaine/bem/engines.py:74-75`).
-/

namespace Verif.Cache

/-- The body of the decorated function, seen from the cache (`engines.py:94-136` is an instance):
it returns a value, raises, or calls the *decorated* function on another key and goes on with
the outcome (an exception `none` may be caught).
Simplification: values and exceptions are the only interaction of the body with the cache. -/
inductive Body (K V : Type) where
  | ret (v : V)
  | raise
  | call (k : K) (next : Option V → Body K V)

/-- The `OrderedDict` of `lru_cache.py:20`, in insertion order, oldest first.
`sizes` is a ghost field: the number of items after each modification of the dictionary, most
recent first. It is used to speak about sizes reached *during* a call. -/
structure State (K V : Type) where
  items : List (K × V)
  sizes : List Nat

/-- Empty dictionary, `lru_cache.py:20`. -/
def State.init {K V : Type} : State K V := ⟨[], []⟩

/-- Lookup by key equality, `lru_cache.py:28-31` (`key in cache`, `cache[key]`).
`eqv` stands for Python's `==` on keys, with the hash assumed consistent with it. -/
def lookup {K V : Type} (eqv : K → K → Bool) (k : K) : List (K × V) → Option V
  | [] => none
  | (k', v) :: rest => if eqv k' k then some v else lookup eqv k rest

/-- `cache[key] = result`, `lru_cache.py:40`: an equal key keeps its position (and the old key
object), otherwise the item is appended at the end. -/
def insert {K V : Type} (eqv : K → K → Bool) (k : K) (v : V) : List (K × V) → List (K × V)
  | [] => [(k, v)]
  | (k', v') :: rest => if eqv k' k then (k', v) :: rest else (k', v') :: insert eqv k v rest

/-- Outcome of a call. `limit` is Python's recursion limit, here an abort that nothing catches
(simplification: `RecursionError` is catchable in Python). -/
inductive Outcome (V : Type) where
  | value (v : V)
  | error
  | limit
  deriving DecidableEq, Repr

/-- Lines 39-42: run the body, then store and return its result. `nested` is the decorated
function itself, called by the body. -/
def compute {K V : Type} (eqv : K → K → Bool)
    (nested : State K V → K → State K V × Outcome V) (k : K) :
    Body K V → State K V → State K V × Outcome V
  | .ret v, s =>
    let items := insert eqv k v s.items
    (⟨items, items.length :: s.sizes⟩, .value v)
  | .raise, s => (s, .error)
  | .call k' next, s =>
    match nested s k' with
    | (s', .value v) => compute eqv nested k (next (some v)) s'
    | (s', .error) => compute eqv nested k (next none) s'
    | (s', .limit) => (s', .limit)

/-- One call of the decorated function, `lru_cache.py:23-42`. `fuel` bounds the nesting depth of
calls; `maxsize = 0` makes `popitem` fail on the empty dictionary (line 35, `KeyError`). -/
def decorated {K V : Type} (eqv : K → K → Bool) (maxsize : Nat) (f : K → Body K V) :
    Nat → State K V → K → State K V × Outcome V
  | 0, s, _ => (s, .limit)
  | fuel + 1, s, k =>
    match lookup eqv k s.items with
    | some v => (s, .value v)                                   -- lines 28-31
    | none =>
      if s.items.length + 1 > maxsize then                      -- line 33
        match s.items with
        | [] => (s, .error)                                     -- line 35, KeyError
        | _ :: rest =>                                          -- line 35, oldest item dropped
          compute eqv (decorated eqv maxsize f fuel) k (f k) ⟨rest, rest.length :: s.sizes⟩
      else compute eqv (decorated eqv maxsize f fuel) k (f k) s

/-- A history of top level calls, each one with its own recursion limit; the outcomes are
collected in order. -/
def run {K V : Type} (eqv : K → K → Bool) (maxsize : Nat) (f : K → Body K V) :
    State K V → List (Nat × K) → State K V × List (Outcome V)
  | s, [] => (s, [])
  | s, (fuel, k) :: rest =>
    let (s', o) := decorated eqv maxsize f fuel s k
    let (s'', os) := run eqv maxsize f s' rest
    (s'', o :: os)

end Verif.Cache
