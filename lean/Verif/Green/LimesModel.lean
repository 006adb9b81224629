import Mathlib.Algebra.Order.Field.Basic
import Mathlib.Algebra.Order.AbsoluteValue.Basic

/-!
# The extrapolation of the series of the finite depth Green function

Model of `SUBROUTINE Limes` of `capytaine/green_functions/FinGreen3D/FinGreen3D.f90:3053-3186`, the algorithm that guesses the
limit of the series of `EIGENE` (lines 475-477) and of `PIDCOCK` (lines 621-623) from its first sums. The numbers are
exact, in any ordered field. The arrays are functions of the index and they are written in place, one entry after the other, like
in the code.
-/

namespace Verif.Green.Limes

variable {K : Type*} [Field K] [LinearOrder K] [IsStrictOrderedRing K]

/-- What the subroutine keeps on its way (`FinGreen3D.f90:3094-3099, 3107`): the largest entry met, the value kept, the two degrees
and the estimate of the error. -/
structure Best (K : Type*) where
  /-- `A_max` -/
  aMax : K
  /-- `rLimes` -/
  value : K
  /-- `i_Pade` -/
  num : ℕ
  /-- `k_Pade` -/
  den : ℕ
  /-- `err` -/
  err : K

/-- The assignment `f(i) = v` (`FinGreen3D.f90:3155, 3157, 3167, 3169`). -/
def setAt (f : ℕ → K) (i : ℕ) (v : K) : ℕ → K := fun j => if j = i then v else f j

/-- One turn of the loop on the auxiliary row (`FinGreen3D.f90:3154-3158`). -/
def auxStep (s a : ℕ → K) (i : ℕ) : ℕ → K :=
  setAt a i (if s (i + 1) ≠ s i then a (i + 1) + 1 / (s (i + 1) - s i) else a (i + 1))

/-- The loop on the auxiliary row (`FinGreen3D.f90:3153-3159`), `n` turns. -/
def auxRow (n : ℕ) (s a : ℕ → K) : ℕ → K := (List.range n).foldl (auxStep s) a

/-- The state of the loop on the row of the sums: the row, what is kept, and whether the subroutine has returned. -/
structure RowState (K : Type*) where
  s : ℕ → K
  best : Best K
  done : Bool

/-- One turn of the loop on the row of the sums (`FinGreen3D.f90:3166-3181`); nothing happens after the `RETURN` of line 3180. -/
def seqStep (k : ℕ) (a : ℕ → K) (st : RowState K) (i : ℕ) : RowState K :=
  if st.done then st
  else
    let s' := setAt st.s i (if a (i + 1) ≠ a i then st.s (i + 1) + 1 / (a (i + 1) - a i) else st.s (i + 1))
    if |a i| > st.best.aMax then
      ⟨s', ⟨|a i|, s' i, i + k, k, 1 / |a i|⟩, if s' (i + 1) = s' i then true else false⟩
    else ⟨s', st.best, false⟩

/-- The loop on the row of the sums (`FinGreen3D.f90:3165-3182`), `n` turns. -/
def seqRow (k n : ℕ) (a s : ℕ → K) (b : Best K) : RowState K := (List.range n).foldl (seqStep k a) ⟨s, b, false⟩

/-- The main loop (`FinGreen3D.f90:3147-3184`), with a bound on the number of turns. The loops inside go up to `N - 2k + 1` and
`N - 2k`. -/
def mainLoop (N : ℕ) : ℕ → ℕ → (ℕ → K) → (ℕ → K) → Best K → Best K
  | 0, _, _, _, b => b
  | f + 1, k, s, a, b =>
    if N + 1 < 2 * k then b
    else
      let a' := auxRow (N + 2 - 2 * k) s a
      if N < 2 * k then b
      else
        let st := seqRow k (N + 1 - 2 * k) a' s b
        if st.done then st.best else mainLoop N f (k + 1) st.s a' st.best

/-- The initial assignments (`FinGreen3D.f90:3135-3141`). -/
def start (N : ℕ) (s : ℕ → K) : Best K := ⟨0, s N, N, 0, |s N - s (N - 1)|⟩

/-- `Limes` (`FinGreen3D.f90:3053-3186`); `none` is the `STOP` of lines 3126-3129. The check of lines 3119-3122 never fails since the
array has `N + 1` entries. The number of turns is bounded by `N + 1`. -/
def limes (N : ℕ) (s : ℕ → K) : Option (Best K) :=
  if N < 2 then none else some (mainLoop N (N + 1) 1 s (fun _ => 0) (start N s))

end Verif.Green.Limes
