import Mathlib.Analysis.Complex.Basic
import Mathlib.Data.Matrix.Mul
import Mathlib.Data.Matrix.Diagonal

/-!
# Low rank matrices

Model of `capytaine/matrices/low_rank.py`. The numbers are exact.
-/

namespace Verif.LowRank

open Matrix

/-! ## Adaptive cross approximation -/

/-- `int(np.argmax(l))`: the first position of the largest value. `none` for the `ValueError` of an empty array. -/
noncomputable def argmax : List ℝ → Option ℕ
  | [] => none
  | x :: xs =>
    match argmax xs with
    | none => some 0
    | some k => if xs.getD k 0 ≤ x then some 0 else some (k + 1)

/-- `l.pop(k)`: the value and the remaining list. `none` for `IndexError`. -/
def pop {A : Type} (l : List A) (k : ℕ) : Option (A × List A) :=
  match l[k]? with
  | none => none
  | some a => some (a, l.eraseIdx k)

/-- The columns of `left` and rows of `right` computed so far for one matrix (`matrices/low_rank.py:240-241`). -/
structure Factors (m n : ℕ) where
  left : List (Fin m → ℂ)
  right : List (Fin n → ℂ)

/-- `left[i, :l] @ right[:l, j]`. -/
def Factors.entry {m n : ℕ} (F : Factors m n) (i : Fin m) (j : Fin n) : ℂ :=
  (List.zipWith (fun u v => u i * v j) F.left F.right).sum

/-- `left[:, :l]` and `right[:l, :]`. -/
def Factors.take {m n : ℕ} (F : Factors m n) (l : ℕ) : Factors m n := ⟨F.left.take l, F.right.take l⟩

/-- The variables of the loop (`matrices/low_rank.py:239-247`) for `N` matrices. `readRows` and `readCols` are the
arguments of the calls of `get_row` and `get_col`. -/
structure Aca (N m n : ℕ) where
  factors : Fin N → Factors m n
  rows : List (Fin m)
  cols : List (Fin n)
  total : ℝ
  readRows : List (Fin m)
  readCols : List (Fin n)

/-- Pivots that are too small are replaced (`matrices/low_rank.py:278-280`). -/
noncomputable def safePivot (p : ℂ) : ℂ := open Classical in if ‖p‖ < 1e-12 then 1e-12 else p

/-- The row number `i` of the full matrix minus the one of the approximation (`matrices/low_rank.py:266`). -/
def newRow {m n : ℕ} (A : Fin m → Fin n → ℂ) (F : Factors m n) (i : Fin m) : Fin n → ℂ := fun j => A i j - F.entry i j

/-- The column number `j` divided by the pivot (`matrices/low_rank.py:277-281`). -/
noncomputable def newCol {m n : ℕ} (A : Fin m → Fin n → ℂ) (F : Factors m n) (i : Fin m) (j : Fin n) : Fin m → ℂ :=
  fun i' => (A i' j - F.entry i' j) / safePivot (A i j - F.entry i j)

/-- The approximation of one matrix after the choice of a row and a column. -/
noncomputable def Factors.extend {m n : ℕ} (A : Fin m → Fin n → ℂ) (F : Factors m n) (i : Fin m) (j : Fin n) :
    Factors m n := ⟨F.left ++ [newCol A F i j], F.right ++ [newRow A F i]⟩

/-- `np.conj(u) @ v`. -/
noncomputable def inner {n : ℕ} (u v : Fin n → ℂ) : ℂ := ∑ k, (starRingEnd ℂ) (u k) * v k

/-- `squared_norm_of_increment` (`matrices/low_rank.py:284-287`). -/
noncomputable def incrementNorm {m n : ℕ} (u : Fin m → ℂ) (v : Fin n → ℂ) : ℝ := (inner u u * inner v v).re

/-- `crossed_terms` (`matrices/low_rank.py:289-292`). -/
noncomputable def crossedTerms {m n : ℕ} (F : Factors m n) (u : Fin m → ℂ) (v : Fin n → ℂ) : ℂ :=
  (List.zipWith (fun a b => inner u a * inner v b) F.left F.right).sum

/-- The choice of a row (`matrices/low_rank.py:250-258`): the position in the list of available rows. The row `l - 1` is
the last one. -/
noncomputable def pickRow {m n : ℕ} (F : Factors m n) (rows : List (Fin m)) : Option ℕ :=
  match F.left.getLast? with
  | none => some 0
  | some u => argmax (rows.map fun i => ‖u i‖)

/-- The choice of a column (`matrices/low_rank.py:269`). -/
noncomputable def pickCol {n : ℕ} (v : Fin n → ℂ) (cols : List (Fin n)) : Option ℕ := argmax (cols.map fun j => ‖v j‖)

/-- One turn of the loop (`matrices/low_rank.py:249-293`), `none` for an exception. The second value is
`squared_norm_of_increment`. -/
noncomputable def step {N m n : ℕ} (A : Fin N → Fin m → Fin n → ℂ) (main : Fin N) (s : Aca N m n) :
    Option (Aca N m n × ℝ) :=
  match (pickRow (s.factors main) s.rows).bind (pop s.rows) with
  | none => none
  | some (i, rows) =>
    match (pickCol (newRow (A main) (s.factors main) i) s.cols).bind (pop s.cols) with
    | none => none
    | some (j, cols) =>
      let u := newCol (A main) (s.factors main) i j
      let v := newRow (A main) (s.factors main) i
      let increment := incrementNorm u v
      some ({ factors := fun k => (s.factors k).extend (A k) i j, rows := rows, cols := cols,
              total := s.total + (increment + 2 * (crossedTerms (s.factors main) u v).re),
              readRows := s.readRows ++ [i], readCols := s.readCols ++ [j] }, increment)

/-- What the loop may lead to. -/
inductive Outcome (N m n : ℕ) where
  /-- The low rank matrices, with the rows and columns that have been read. -/
  | done (factors : Fin N → Factors m n) (readRows : List (Fin m)) (readCols : List (Fin n))
  /-- `NoConvergenceOfACA`. -/
  | noConvergence
  /-- Another exception: no more row or column, or the message of the warning without any turn
  (`UnboundLocalError`). -/
  | error

/-- The loop (`matrices/low_rank.py:249-309`) for `fuel` remaining turns, after `l` turns. -/
noncomputable def loop {N m n : ℕ} (A : Fin N → Fin m → Fin n → ℂ) (main : Fin N) (tol : ℝ) :
    (fuel l : ℕ) → Aca N m n → Outcome N m n
  | 0, l, s => open Classical in
    if tol > 0 then (if l = 0 then .error else .noConvergence) else .done s.factors s.readRows s.readCols
  | fuel + 1, l, s => open Classical in
    match step A main s with
    | none => .error
    | some (s', increment) =>
      if increment ≤ tol ^ 2 * s'.total then
        .done (fun k => (s'.factors k).take (if l = 0 then 1 else l)) s'.readRows s'.readCols
      else loop A main tol fuel (l + 1) s'

/-- The state before the loop (`matrices/low_rank.py:239-247`). -/
def start (N m n : ℕ) : Aca N m n := ⟨fun _ => ⟨[], []⟩, List.finRange m, List.finRange n, 0, [], []⟩

/-- `from_rows_and_cols_functions_with_multi_ACA` (`matrices/low_rank.py:191-309`), for `get_row(i)` and `get_col(j)`
that return rows and columns of the matrices `A`. -/
noncomputable def multiAca {N m n : ℕ} (A : Fin N → Fin m → Fin n → ℂ) (main : Fin N) (maxRank : Option ℕ) (tol : ℝ) :
    Outcome N m n :=
  loop A main tol (maxRank.getD (min m n / 2)) 0 (start N m n)

/-! ## Operations -/

/-- `LowRankMatrix` (`matrices/low_rank.py:24-56`). -/
structure LowRank (K : Type) (m r n : ℕ) where
  left : Matrix (Fin m) (Fin r) K
  right : Matrix (Fin r) (Fin n) K

variable {K : Type} [Field K] {m r n : ℕ}

/-- `full_matrix` (`matrices/low_rank.py:315-319`). -/
def LowRank.full (M : LowRank K m r n) : Matrix (Fin m) (Fin n) K := M.left * M.right

/-- `__neg__` (`matrices/low_rank.py:363-364`). -/
def LowRank.neg (M : LowRank K m r n) : LowRank K m r n := ⟨-M.left, M.right⟩

/-- `__truediv__` by a number (`matrices/low_rank.py:369-374`). -/
def LowRank.div (M : LowRank K m r n) (c : K) : LowRank K m r n := ⟨M.left, Matrix.of fun i j => M.right i j / c⟩

/-- `_mul_with_vector` (`matrices/low_rank.py:382-383`). -/
def LowRank.mulVec (M : LowRank K m r n) (x : Fin n → K) : Fin m → K := M.left *ᵥ (M.right *ᵥ x)

/-- `_rmul_with_vector` (`matrices/low_rank.py:391-392`). -/
def LowRank.vecMul (M : LowRank K m r n) (x : Fin m → K) : Fin n → K := (x ᵥ* M.left) ᵥ* M.right

/-- The concatenation of factors in `__add__` (`matrices/low_rank.py:357-358`). -/
def LowRank.concat {r' : ℕ} (M : LowRank K m r n) (M' : LowRank K m r' n) : LowRank K m (r + r') n :=
  ⟨Matrix.of fun i => Fin.append (M.left i) (M'.left i),
    Matrix.of fun k j => Fin.append (fun a => M.right a j) (fun a => M'.right a j) k⟩

/-- The arrays computed by `recompress` with `np.linalg.qr` and `np.linalg.svd` (`matrices/low_rank.py:346-348`), for a
rank `r` which is not larger than the sizes of the matrix. -/
structure Decomposition (K : Type) (m r n : ℕ) where
  QA : Matrix (Fin m) (Fin r) K
  RA : Matrix (Fin r) (Fin r) K
  QB : Matrix (Fin n) (Fin r) K
  RB : Matrix (Fin r) (Fin r) K
  U : Matrix (Fin r) (Fin r) K
  S : Fin r → K
  V : Matrix (Fin r) (Fin r) K

/-- `from_full_matrix_with_SVD` (`matrices/low_rank.py:58-76`) for `u, s, v = np.linalg.svd(full_matrix)` with `r` singular
values, for a maximal rank `q` which is not larger. -/
def fromSvd {p : ℕ} (hq : p ≤ r) (U : Matrix (Fin m) (Fin r) K) (S : Fin r → K) (V : Matrix (Fin r) (Fin n) K) :
    LowRank K m p n :=
  ⟨Matrix.of (fun i (k : Fin p) => U i (k.castLE hq)) * Matrix.diagonal (fun k : Fin p => S (k.castLE hq)),
    Matrix.of (fun (k : Fin p) j => V (k.castLE hq) j)⟩

/-- `recompress(new_rank=q)` (`matrices/low_rank.py:342-353`): the first `q` singular values are kept. -/
def recompress {q : ℕ} (hq : q ≤ r) (D : Decomposition K m r n) : LowRank K m q n :=
  ⟨D.QA * Matrix.of (fun i (k : Fin q) => D.U i (k.castLE hq) * D.S (k.castLE hq)),
    (D.QB * Matrix.of (fun i (k : Fin q) => D.V i (k.castLE hq)))ᵀ⟩

/-- `__add__` (`matrices/low_rank.py:355-361`): the concatenation is recompressed to the smallest of the two ranks. `D` is
the decomposition of the concatenation. -/
def add {r' : ℕ} (D : Decomposition K m (r + r') n) : LowRank K m (min r r') n :=
  recompress (show min r r' ≤ r + r' by omega) D

end Verif.LowRank
