import Verif.Blocks.FullProps
import Verif.Blocks.Fourier

/-!
# Matrix-vector products

Model of `BlockMatrix.matvec` and `rmatvec` (`capytaine/matrices/block.py:294-327`) and of their
versions for structured matrices (`capytaine/matrices/block_toeplitz.py:118-134, 199-246`).
Vectors are functions of which only the first values (up to the shape) are used.
-/

namespace Verif.Blocks

open Finset

/-- `a @ x` for a dense array with `w` columns. -/
noncomputable def mulVec (w : ℕ) (a : Arr ℂ) (x : ℕ → ℂ) : ℕ → ℂ :=
  fun r => ∑ c ∈ range w, a r c * x c

/-- `x @ a` for a dense array with `h` lines. -/
noncomputable def vecMul (h : ℕ) (a : Arr ℂ) (x : ℕ → ℂ) : ℕ → ℂ :=
  fun c => ∑ r ∈ range h, x r * a r c

/-- `result[pos:pos+len] += v`, `block.py:307`. -/
def addSlice (acc : ℕ → ℂ) (pos len : ℕ) (v : ℕ → ℂ) : ℕ → ℂ :=
  fun r => if pos ≤ r ∧ r < pos + len then acc r + v (r - pos) else acc r

/-- First block column of a structured matrix with `stored` stored blocks and `n` block lines:
`all_blocks[i, 0]` (`block_toeplitz.py:81-87, 203, 206`), each block given by its dense array
`e k`. `getD` is used for positions that raise or stay empty, which do not exist for admissible
sizes (`all_blocks_eq_spec`). -/
def firstColumn (k : Kind) (stored : ℕ) (e : ℕ → Arr ℂ) (i : ℕ) : Arr ℂ :=
  e (((allBlocks k stored i 0).getD none).getD 0)

/-- `block_diagonalize()[j]`, `block_toeplitz.py:199-209`: elementwise Fourier transform of the first
block column. Simplification: for nested block matrices (line 203) the transform is also done entry
by entry, here on the dense arrays of the blocks. -/
noncomputable def blockDiag (k : Kind) (stored n : ℕ) (e : ℕ → Arr ℂ) (j : ℕ) : Arr ℂ :=
  fun a b => dft n (fun i => firstColumn k stored e i a b) j

/-- `BlockCirculantMatrix.matvec`, `block_toeplitz.py:211-226`: reshape the vector in `n` pieces of
length `q`, transform, multiply by the diagonal blocks, transform back, reshape. -/
noncomputable def circMatvec (k : Kind) (stored n p q : ℕ) (e : ℕ → Arr ℂ) (x : ℕ → ℂ) : ℕ → ℂ :=
  fun r => idft n (fun j => mulVec q (blockDiag k stored n e j)
    (fun c => dft n (fun i => x (i * q + c)) j) (r % p)) (r / p)

/-- `BlockCirculantMatrix.rmatvec`, `block_toeplitz.py:228-246`. The vector is conjugated (line 231)
and the roles of `fft` and `ifft` are exchanged (lines 232 and 242). -/
noncomputable def circRmatvec (k : Kind) (stored n p q : ℕ) (e : ℕ → Arr ℂ) (x : ℕ → ℂ) : ℕ → ℂ :=
  fun c => dft n (fun j => vecMul p (blockDiag k stored n e j)
    (fun r => idft n (fun i => (starRingEnd ℂ) (x (i * p + r))) j) (c % q)) (c / q)

/-- Class of the circulant super-matrix, `block_toeplitz.py:109-116, 162-169`. The circulant classes
do not use one. -/
def superKind : Kind → Kind
  | .toeplitz => .circulant
  | .symToeplitz => .evenSymCirculant
  | k => k

/-- Padding with zeros, `block_toeplitz.py:123, 133`. -/
def pad (len : ℕ) (x : ℕ → ℂ) : ℕ → ℂ := fun c => if c < len then x c else 0

/-- `matvec`, `block.py:294-308` for generic block matrices, `block_toeplitz.py:118-124` for Toeplitz
matrices (product with the circulant super-matrix, then only the first entries are kept: the others
are not read) and `block_toeplitz.py:211-226` for circulant matrices, for which no padding occurs
(`pad` is then the identity on the entries that are used). -/
noncomputable def HMat.matvec : HMat ℂ → (ℕ → ℂ) → (ℕ → ℂ)
  | .dense _ w a, x => mulVec w a x
  | .gen hs ws b, x =>
    (List.range hs.length).foldl (fun acc i =>
      (List.range ws.length).foldl (fun acc j =>
        addSlice acc (offset hs i) (hs.getD i 0) ((b i j).matvec (fun c => x (offset ws j + c))))
        acc) (fun _ => 0)
  | .str k p q stored b, x =>
    circMatvec (superKind k) stored ((nbBlocks (superKind k) stored).getD 0) p q
      (fun m => (b m).entry) (pad (q * (nbBlocks k stored).getD 0) x)

/-- `rmatvec`, `block.py:310-327` and `block_toeplitz.py:126-134, 228-246`. -/
noncomputable def HMat.rmatvec : HMat ℂ → (ℕ → ℂ) → (ℕ → ℂ)
  | .dense h _ a, x => vecMul h a x
  | .gen hs ws b, x =>
    (List.range ws.length).foldl (fun acc j =>
      (List.range hs.length).foldl (fun acc i =>
        addSlice acc (offset ws j) (ws.getD j 0) ((b i j).rmatvec (fun r => x (offset hs i + r))))
        acc) (fun _ => 0)
  | .str k p q stored b, x =>
    circRmatvec (superKind k) stored ((nbBlocks (superKind k) stored).getD 0) p q
      (fun m => (b m).entry) (pad (p * (nbBlocks k stored).getD 0) x)

end Verif.Blocks
