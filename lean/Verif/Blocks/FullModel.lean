import Verif.Blocks.IndexModel

/-!
# Full matrices of hierarchical block matrices

Model of `BlockMatrix.full_matrix` and `_put_in_full_matrix` (`capytaine/matrices/block.py:139-186`)
and of the positions of `capytaine/matrices/block_toeplitz.py:89-105`.
-/

namespace Verif.Blocks

/-- A dense array, by its entries; its shape is carried separately. -/
abbrev Arr (R : Type) := Nat → Nat → R

/-- Hierarchical matrices: dense arrays (`np.ndarray`), generic block matrices
(`matrices/block.py:26-65`, given by the heights of the block lines, the widths of the block
columns and the blocks) and the five structured classes (`matrices/block_toeplitz.py`, given by the
common shape of the blocks, the number of stored blocks and the stored blocks).
Simplification: low rank leaves are represented by their dense array; families of blocks are
functions of which only the first values are used. -/
inductive HMat (R : Type) where
  | dense (h w : Nat) (a : Arr R)
  | gen (hs ws : List Nat) (b : Nat → Nat → HMat R)
  | str (c : Kind) (p q stored : Nat) (b : Nat → HMat R)

/-- `shape`, `block.py:79-81` and `block_toeplitz.py:31-34`. `getD 0` is only relevant when the
constructor raised. -/
def HMat.shape {R : Type} : HMat R → Nat × Nat
  | .dense h w _ => (h, w)
  | .gen hs ws _ => (hs.sum, ws.sum)
  | .str c p q stored _ => (p * (nbBlocks c stored).getD 0, q * (nbBlocks c stored).getD 0)

/-- `isinstance(block, BlockMatrix)`, `block.py:163`. -/
def HMat.isBlock {R : Type} : HMat R → Bool
  | .dense .. => false
  | _ => true

/-- `full_matrix[x:x+h, y:y+w] = block`. -/
def setSlice {R : Type} (F : Arr R) (x y h w : Nat) (a : Arr R) : Arr R :=
  fun r c => if x ≤ r ∧ r < x + h ∧ y ≤ c ∧ c < y + w then a (r - x) (c - y) else F r c

/-- `full_matrix[frame]` read at another place: the array seen from position `(x, y)`. -/
def getSlice {R : Type} (F : Arr R) (x y : Nat) : Arr R := fun r c => F (x + r) (y + c)

/-- Offset of the `i`-th line: `accumulate([0] + shapes[:-1])`, `block.py:154-155`. -/
def offset (l : List Nat) (i : Nat) : Nat := (l.take i).sum

/-- Positions of the stored block `k` of a structured matrix placed at `(x, y)`,
`block_toeplitz.py:89-93`. -/
def positions (c : Kind) (n p q k x y : Nat) : List (Nat × Nat) :=
  (((blockIndices c n k).getD []).map fun ij => (x + ij.1 * p, y + ij.2 * q)).mergeSort
    (fun a b => decide (a.1 < b.1 ∨ a.1 = b.1 ∧ a.2 ≤ b.2))

/-- `_put_in_full_matrix`, `block.py:158-179`: copy the matrix in the array `F` at `(x, y)`.
A block that is itself a block matrix is expanded at its first position and this slice is copied to
the other positions (lines 163-172), other blocks are copied to all positions (174-179). -/
def HMat.put {R : Type} : HMat R → Nat → Nat → Arr R → Arr R
  | .dense h w a, x, y, F => setSlice F x y h w a
  | .gen hs ws b, x, y, F =>
    (List.range hs.length).foldl (fun F i =>
      (List.range ws.length).foldl (fun F j =>
        (b i j).put (x + offset hs i) (y + offset ws j) F) F) F
  | .str c p q stored b, x, y, F =>
    (List.range stored).foldl (fun F k =>
      match positions c ((nbBlocks c stored).getD 0) p q k x y with
      | [] => F
      | first :: rest =>
        if (b k).isBlock then
          let F1 := (b k).put first.1 first.2 F
          rest.foldl (fun F pos =>
            setSlice F pos.1 pos.2 (b k).shape.1 (b k).shape.2 (getSlice F first.1 first.2)) F1
        else
          (first :: rest).foldl (fun F pos => (b k).put pos.1 pos.2 F) F) F

/-- `full_matrix`, `block.py:181-186`; `F0` is the uninitialised memory returned by `np.empty`. -/
def HMat.fullMatrix {R : Type} (M : HMat R) (F0 : Arr R) : Arr R := M.put 0 0 F0

end Verif.Blocks
