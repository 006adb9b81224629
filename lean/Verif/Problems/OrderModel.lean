import Mathlib.Data.EReal.Basic
import Mathlib.Data.String.Basic

/-!
# Order of the problems

Model of `_astuple` and `__lt__` of the problems (`capytaine/bem/problems_and_results.py:299-302`, `310-317`,
`440-441`; `__eq__` is in `Problems/Model`), of the order of the bodies (`capytaine/bodies/bodies.py:133-135`) and of the contract of `sorted`, which
`solve_all` (`capytaine/bem/solver.py:230`) and `problems_from_dataset` (`capytaine/io/xarray.py:160`) call.

Floats are extended reals: infinite depths and frequencies are there, NaN and rounding are not.
-/

namespace Verif.Problems

/-- A body: the identity of the object and its name. `FloatingBody` defines no `__eq__`: two bodies are equal when
they are the same object (`bodies/bodies.py:43`). -/
structure BodyRef where
  object : ℕ
  name : String

/-- The class of a problem: `LinearPotentialFlowProblem`, `DiffractionProblem` or `RadiationProblem` with its
`radiating_dof` (`bem/problems_and_results.py:24`, `335`, `384`), which is `None` when there is no body. -/
inductive ProblemClass where
  | other
  | diffraction
  | radiation (dof : Option String)

/-- The attributes of a problem (`bem/problems_and_results.py:58-97`). The constructor computes the four
frequencies from the given one (see `Frequency/FreqModel`). -/
structure ProblemData where
  cls : ProblemClass
  body : Option BodyRef
  freeSurface : EReal
  waterDepth : EReal
  omega : EReal
  period : EReal
  wavenumber : EReal
  wavelength : EReal
  forwardSpeed : EReal
  rho : EReal
  g : EReal
  waveDirection : EReal

/-- An item of the tuple of a problem. -/
inductive Item where
  | body (b : Option BodyRef)
  | num (x : EReal)
  | dof (d : Option String)

/-- `_astuple` (`bem/problems_and_results.py:299-302`). -/
def ProblemData.baseTuple (p : ProblemData) : List Item :=
  [.body p.body, .num p.freeSurface, .num p.waterDepth, .num p.omega, .num p.period, .num p.wavenumber,
    .num p.wavelength, .num p.forwardSpeed, .num p.rho, .num p.g]

/-- `_astuple` of the class of the problem (`bem/problems_and_results.py:299-302`, `440-441`).
`DiffractionProblem` does not define its own. -/
def ProblemData.astuple (p : ProblemData) : List Item :=
  match p.cls with
  | .radiation d => p.baseTuple ++ [.dof d]
  | .diffraction => p.baseTuple
  | .other => p.baseTuple

/-- `==` between two items. Bodies are compared by identity. -/
def itemEq : Item → Item → Prop
  | .body none, .body none => True
  | .body (some a), .body (some b) => a.object = b.object
  | .num x, .num y => x = y
  | .dof d, .dof e => d = e
  | _, _ => False

open Classical in
/-- `<` between two items that are not equal. Bodies are compared by name (`bodies/bodies.py:133-135`). `none` is a
`TypeError`: `None` has no order. -/
noncomputable def itemLt : Item → Item → Option Bool
  | .body (some a), .body (some b) => some (decide (a.name < b.name))
  | .num x, .num y => some (decide (x < y))
  | .dof (some d), .dof (some e) => some (decide (d < e))
  | _, _ => none

open Classical in
/-- `<` between two tuples: the first items that are not equal are compared. -/
noncomputable def tupleLt : List Item → List Item → Option Bool
  | _, [] => some false
  | [], _ :: _ => some true
  | a :: as, b :: bs => if itemEq a b then tupleLt as bs else itemLt a b

/-- `__lt__` of the problems (`bem/problems_and_results.py:310-317`): the first nine items are compared. -/
noncomputable def ProblemData.lt (p q : ProblemData) : Option Bool :=
  tupleLt (p.astuple.take 9) (q.astuple.take 9)

/-- The contract of `sorted` of Python for a comparison that can raise an exception.
* `ordered`: when the comparison is the strict order of some keys, the list is arranged in the order of the keys,
  and the elements with the same key keep their order;
* `unchanged`: a list in which no element is smaller than the one before is returned as it is (it is one run);
* `mixed`: when the elements are of two sorts that cannot be compared with each other, the exception is raised
  (each sort must be compared with the other at least once to be placed). -/
structure Sorting {P : Type} (lt : P → P → Option Bool) (sort : List P → Option (List P)) : Prop where
  ordered : ∀ (K : Type) [LinearOrder K] (key : P → K) (l : List P),
    (∀ p ∈ l, ∀ q ∈ l, lt p q = some (decide (key p < key q))) →
    ∃ r, sort l = some r ∧ r.Perm l ∧ r.Pairwise (fun p q => key p ≤ key q) ∧
      ∀ k, r.filter (fun p => decide (key p = k)) = l.filter (fun p => decide (key p = k))
  unchanged : ∀ l : List P, l.IsChain (fun p q => lt q p = some false) → sort l = some l
  mixed : ∀ (l : List P) (f : P → Bool),
    (∀ p ∈ l, ∀ q ∈ l, f p ≠ f q → lt p q = none) → (∃ p ∈ l, f p = true) → (∃ p ∈ l, f p = false) → sort l = none

end Verif.Problems
