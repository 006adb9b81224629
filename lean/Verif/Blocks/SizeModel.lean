import Verif.Blocks.ProductModel

/-!
# Which vectors the products accept

Model of the sizes in `matvec` and `rmatvec` (`capytaine/matrices/block.py:294-327`, `capytaine/matrices/block_toeplitz.py:118-134,
211-246`): whether the product by a vector of a given length goes on to its end, or raises because the sizes of two arrays do not match.
The values are in `ProductModel.lean`. Low rank blocks behave as arrays (`capytaine/matrices/low_rank.py:382-392`).
-/

namespace Verif.Blocks

/-- The length of `x[pos:pos+len]` for a vector of length `n` (`block.py:306,322`). -/
def sliceLen (n pos len : ℕ) : ℕ := min len (n - pos)

/-- `matvec` goes on to its end with a vector of length `n`: `block.py:303-307` for generic matrices; for structured ones the vector is
extended by as many zeros as the super matrix has more columns (`block_toeplitz.py:123`), reshaped (line 215), and the blocks get pieces
of the right size (line 221). -/
def HMat.fits {R : Type} : HMat R → ℕ → Prop
  | .dense _ w _, n => n = w
  | .gen hs ws b, n => ∀ i, i < hs.length → ∀ j, j < ws.length → (b i j).fits (sliceLen n (offset ws j) (ws.getD j 0))
  | .str k _ q stored b, n =>
    n + (q * (nbBlocks (superKind k) stored).getD 0 - q * (nbBlocks k stored).getD 0) = (nbBlocks (superKind k) stored).getD 0 * q ∧
      ∀ i, i < stored → (b i).fits q

/-- `rmatvec` goes on to its end with a vector of length `n` (`block.py:319-326`, `block_toeplitz.py:133,232,240`). -/
def HMat.fitsR {R : Type} : HMat R → ℕ → Prop
  | .dense h _ _, n => n = h
  | .gen hs ws b, n => ∀ j, j < ws.length → ∀ i, i < hs.length → (b i j).fitsR (sliceLen n (offset hs i) (hs.getD i 0))
  | .str k p _ stored b, n =>
    n + (p * (nbBlocks (superKind k) stored).getD 0 - p * (nbBlocks k stored).getD 0) = (nbBlocks (superKind k) stored).getD 0 * p ∧
      ∀ i, i < stored → (b i).fitsR p

end Verif.Blocks
