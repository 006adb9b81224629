import Verif.Blocks.ProductModel

/-!
# Products of two matrices, conversions and reductions of block matrices

Model of `matmat`, `@`, `no_toeplitz`, `stored_data_size`, `all` and `any` of
`capytaine/matrices/block.py`, of the types of the numbers in `matvec`, and of the iterative solvers of
`capytaine/matrices/linear_solvers.py`.
-/

namespace Verif.Blocks

open Finset

/-- Number of the stored block at a place of `all_blocks` (`matrices/block_toeplitz.py:81-87`). -/
def placeOf (k : Kind) (s i j : ℕ) : ℕ := ((allBlocks k s i j).getD none).getD 0

/-- `block_shapes` (`matrices/block.py:128-137`, `matrices/block_toeplitz.py:51-55`); none for an array. -/
def HMat.blockShapes {R : Type} : HMat R → List ℕ × List ℕ
  | .dense .. => ([], [])
  | .gen hs ws _ => (hs, ws)
  | .str k p q s _ =>
    (List.replicate ((nbBlocks k s).getD 0) p, List.replicate ((nbBlocks k s).getD 0) q)

/-- `all_blocks[i, j]` (`matrices/block.py:123-125`, `matrices/block_toeplitz.py:81-87`); the matrix itself for
an array. -/
def HMat.blockAt {R : Type} : HMat R → ℕ → ℕ → HMat R
  | .dense h w a, _, _ => .dense h w a
  | .gen _ _ b, i, j => b i j
  | .str k _ _ s b, i, j => b (placeOf k s i j)

/-- `no_toeplitz` (`matrices/block.py:193-197`). The heights and widths that `BlockMatrix` reads on the first
column and the first line are those of the blocks. -/
def HMat.noToeplitz {R : Type} : HMat R → HMat R
  | .dense h w a => .dense h w a
  | .gen hs ws b => .gen hs ws fun i j => (b i j).noToeplitz
  | .str k p q s b =>
    .gen (List.replicate ((nbBlocks k s).getD 0) p) (List.replicate ((nbBlocks k s).getD 0) q)
      fun i j => (b (placeOf k s i j)).noToeplitz

/-- `stored_data_size` (`matrices/block.py:207-216`). -/
def HMat.storedSize {R : Type} : HMat R → ℕ
  | .dense h w _ => h * w
  | .gen hs ws b => ∑ i ∈ range hs.length, ∑ j ∈ range ws.length, (b i j).storedSize
  | .str _ _ _ s b => ∑ k ∈ range s, (b k).storedSize

/-- `all` on a matrix of booleans (`matrices/block.py:433-438`). -/
def HMat.all : HMat Bool → Bool
  | .dense h w a => (List.range h).all fun r => (List.range w).all fun c => a r c
  | .gen hs ws b => (List.range hs.length).all fun i => (List.range ws.length).all fun j => (b i j).all
  | .str _ _ _ s b => (List.range s).all fun k => (b k).all

/-- `any` on a matrix of booleans (`matrices/block.py:440-445`). -/
def HMat.any : HMat Bool → Bool
  | .dense h w a => (List.range h).any fun r => (List.range w).any fun c => a r c
  | .gen hs ws b => (List.range hs.length).any fun i => (List.range ws.length).any fun j => (b i j).any
  | .str _ _ _ s b => (List.range s).any fun k => (b k).any

/-! ## Products -/

/-- What a product can be: an array, a vector, a block matrix of arrays, or Python's `None`
(`matrices/block.py:329-361`). -/
inductive Res where
  | array (h w : ℕ) (a : Arr ℂ)
  | vec (n : ℕ) (v : ℕ → ℂ)
  | block (hs ws : List ℕ) (b : ℕ → ℕ → Arr ℂ)
  | nothing

/-- `sum(…)` of products (`matrices/block.py:339`), from the integer zero. It can be added to an array and not to
a block matrix or to `None` (`TypeError`, given here as `none`). A sum of vectors would then fail when the
block matrix is built (`matrices/block.py:62-63`) if it is in its first line; the other lines are left
out. -/
noncomputable def addAll : List (Option Res) → Option (Arr ℂ)
  | [] => some fun _ _ => 0
  | t :: ts =>
    match t, addAll ts with
    | some (.array _ _ a), some s => some fun r c => a r c + s r c
    | _, _ => none

/-- `self @ other` for a block matrix with the given heights, widths, products of the blocks and product with
vectors (`matrices/block.py:329-361`). `F0` is the content of `np.empty`. Vectors of another size than
the number of columns are left out. -/
noncomputable def timesBlocks (F0 : Arr ℂ) (hs ws : List ℕ) (f : ℕ → ℕ → HMat ℂ → Option Res)
    (mv : (ℕ → ℂ) → ℕ → ℂ) : HMat ℂ → Option Res
  | .dense h w a =>
    if w = 1 then some (.vec hs.sum (mv fun c => a c 0))
    else if ws.sum = h then
      let row := fun i => addAll ((List.range ws.length).map fun j =>
        f i j (.dense (ws.getD j 0) w fun r c => a (offset ws j + r) c))
      if (List.range hs.length).all fun i => (row i).isSome then
        some (.array hs.sum w ((HMat.gen hs [w] fun i _ =>
          .dense (hs.getD i 0) w ((row i).getD F0)).fullMatrix F0))
      else none
    else some .nothing
  | other =>
    if other.shape.2 = 1 then none
    else if ws = other.blockShapes.1 then
      let cell := fun i l => addAll ((List.range ws.length).map fun j => f i j (other.blockAt j l))
      if (List.range hs.length).all fun i =>
          (List.range other.blockShapes.2.length).all fun l => (cell i l).isSome then
        some (.block hs other.blockShapes.2 fun i l => (cell i l).getD F0)
      else none
    else some .nothing

/-- `self @ other` (`matrices/block.py:329-361`, and `numpy` for arrays). The product of an array with a block
matrix is converted by `numpy`, which depends on its version: it is left out (`none`). -/
noncomputable def HMat.matmul (F0 : Arr ℂ) : HMat ℂ → HMat ℂ → Option Res
  | .dense h w a, .dense h' w' a' =>
    if w = h' then some (.array h w' fun r c => ∑ k ∈ range w, a r k * a' k c) else none
  | .dense .., _ => none
  | .gen hs ws b, other =>
    timesBlocks F0 hs ws (fun i j X => (b i j).matmul F0 X) (HMat.gen hs ws b).matvec other
  | .str k p q s b, other =>
    timesBlocks F0 (List.replicate ((nbBlocks k s).getD 0) p) (List.replicate ((nbBlocks k s).getD 0) q)
      (fun i j X => (b (placeOf k s i j)).matmul F0 X) (HMat.str k p q s b).matvec other

/-! ## Types of numbers -/

/-- Real or complex numbers (`dtype`, `matrices/block.py:115-120`). -/
inductive Ty where
  | real
  | complex
  deriving DecidableEq

/-- The type of a sum or product in `numpy`. -/
def Ty.join : Ty → Ty → Ty
  | .real, .real => .real
  | _, _ => .complex

/-- A matrix of which only the types and the numbers of blocks are kept (`matrices/block.py:50-82`). -/
inductive TMat where
  | dense (t : Ty)
  | gen (n m : ℕ) (b : ℕ → ℕ → TMat)
  | str (k : Kind) (s : ℕ) (b : ℕ → TMat)

/-- `dtype`: that of the first block (`matrices/block.py:115-120`). -/
def TMat.dtype : TMat → Ty
  | .dense t => t
  | .gen _ _ b => (b 0 0).dtype
  | .str _ _ b => (b 0).dtype

/-- The type of the result of `matvec`, `none` when an exception is raised: `result[…] += …` refuses complex
numbers when `result` is real (`matrices/block.py:298-307`); for circulant and Toeplitz matrices the type
is chosen from those of the matrix and of the vector (`matrices/block_toeplitz.py:222-226`). -/
def TMat.matvecType : TMat → Ty → Option Ty
  | .dense t, x => some (t.join x)
  | .gen n m b, x =>
    if (List.range n).all fun i => (List.range m).all fun j =>
      decide ((b i j).matvecType x = some .real ∨ ((b i j).matvecType x = some .complex ∧ x = .complex)) then
      some x
    else none
  | .str _ _ b, x => some ((b 0).dtype.join x)

/-! ## Iterative solvers -/

/-- What a call of GMRES gives: the vector, and the code, zero when it has converged, positive when it has not,
negative for an illegal input or a breakdown (`scipy.sparse.linalg.gmres`). -/
structure Gmres where
  x : ℕ → ℂ
  info : ℤ

/-- `solve_gmres` (`matrices/linear_solvers.py:125-141`); `none` is the `RuntimeError`. The counter of
iterations, used when the level of the log is at least INFO, does not change the result. -/
def solveGmres (gmres : HMat ℂ → (ℕ → ℂ) → Gmres) (A : HMat ℂ) (b : ℕ → ℂ) : Option (ℕ → ℂ) :=
  if (gmres A b).info > 0 then none else some (gmres A b).x

/-- `gmres_no_fft` (`matrices/linear_solvers.py:143-151`), with whether there is a warning. -/
def gmresNoFft (gmres : HMat ℂ → (ℕ → ℂ) → Gmres) (A : HMat ℂ) (b : ℕ → ℂ) : (ℕ → ℂ) × Bool :=
  ((gmres A.noToeplitz b).x, decide ((gmres A.noToeplitz b).info ≠ 0))

end Verif.Blocks
