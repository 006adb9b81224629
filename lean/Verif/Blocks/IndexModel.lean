/-!
# Block positions of structured matrices

Model of `_block_indices_of` and `all_blocks` in `capytaine/matrices/block_toeplitz.py`.
-/

namespace Verif.Blocks

/-- `while i < n and j < n: indices.add((i, j)); i, j = i+1, j+1`
(`block_toeplitz.py:74-77`); `fuel` is an upper bound of the number of turns. -/
def diagonal (n : Nat) : Nat → Nat → Nat → List (Nat × Nat)
  | 0, _, _ => []
  | fuel + 1, i, j => if i < n ∧ j < n then (i, j) :: diagonal n fuel (i + 1) (j + 1) else []

/-- `BlockToeplitzMatrix._block_indices_of`, `block_toeplitz.py:62-79`, for a full matrix of
`n × n` blocks. `none` stands for the `AttributeError` of line 72. The set is a list here; the
loop makes at most `n` turns. -/
def toeplitzIndices (n k : Nat) : Option (List (Nat × Nat)) :=
  if k < n then some (diagonal n n 0 k)                       -- lines 67-68
  else if n ≤ k ∧ k < 2 * n then some (diagonal n n (2 * n - 1 - k) 0)   -- lines 69-70
  else none                                                    -- line 72

/-- Union of two index sets, `none` if one of them raises. -/
def union (a b : Option (List (Nat × Nat))) : Option (List (Nat × Nat)) :=
  match a, b with
  | some a, some b => some (a ++ b)
  | _, _ => none

/-- The five classes of `block_toeplitz.py`. -/
inductive Kind where
  | toeplitz | symToeplitz | circulant | evenSymCirculant | oddSymCirculant
  deriving DecidableEq, Repr

/-- `_compute_nb_blocks`: number of block rows (and columns) from the number of stored blocks,
`block_toeplitz.py:36-40, 147-149, 182-184, 272-275, 311-313`.
`none` is the assertion error of line 38. -/
def nbBlocks : Kind → Nat → Option Nat
  | .toeplitz, s => if s % 2 = 1 then some ((s + 1) / 2) else none
  | .symToeplitz, s => some s
  | .circulant, s => some s
  | .evenSymCirculant, s => some ((s - 1) * 2)
  | .oddSymCirculant, s => some (s * 2 - 1)

/-- `_block_indices_of` of each class, for `n` block rows and stored block `k`;
`block_toeplitz.py:62-79, 151-160, 186-195, 277-287, 315-325`. `none`: an assertion or an
`AttributeError`. `k < n/2 + 1` (line 279) and `k < (n+1)/2` (line 317) are real divisions in
Python, hence the doubled inequalities. -/
def blockIndices (c : Kind) (n k : Nat) : Option (List (Nat × Nat)) :=
  match c with
  | .toeplitz => toeplitzIndices n k
  | .symToeplitz =>
    if ¬ k < n then none
    else if k = 0 then toeplitzIndices n 0
    else union (toeplitzIndices n k) (toeplitzIndices n (2 * n - k - 1))
  | .circulant =>
    if ¬ k < n then none
    else if k = 0 then toeplitzIndices n 0
    else union (toeplitzIndices n k) (toeplitzIndices n (n + k - 1))
  | .evenSymCirculant =>
    if ¬ 2 * k < n + 2 then none
    else if k = 0 then toeplitzIndices n 0
    else union (union (toeplitzIndices n k) (toeplitzIndices n (n + k - 1)))
      (union (toeplitzIndices n (n - k)) (toeplitzIndices n (2 * n - k - 1)))
  | .oddSymCirculant =>
    if ¬ 2 * k < n + 1 then none
    else if k = 0 then toeplitzIndices n 0
    else union (union (toeplitzIndices n k) (toeplitzIndices n (n + k - 1)))
      (union (toeplitzIndices n (n - k)) (toeplitzIndices n (2 * n - k - 1)))

/-- `all_blocks`, `block_toeplitz.py:81-87`: the array is filled by looping over the stored blocks
`k = 0, ..., stored-1` and over their positions; a later write replaces an earlier one and
positions never written stay `None`. The result is the stored block number found at `(i, j)`.
The outer `Option` is an exception. -/
def allBlocksAux (c : Kind) (n : Nat) (i j : Nat) : Nat → Option (Option Nat)
  | 0 => some none
  | s + 1 =>
    match allBlocksAux c n i j s, blockIndices c n s with
    | some found, some idx => some (if (i, j) ∈ idx then some s else found)
    | _, _ => none

/-- `all_blocks[i, j]` for a matrix with `stored` stored blocks. -/
def allBlocks (c : Kind) (stored i j : Nat) : Option (Option Nat) :=
  match nbBlocks c stored with
  | some n => allBlocksAux c n i j stored
  | none => none

end Verif.Blocks
