import Verif.Blocks.ProductProps

/-!
# Elementwise operations, cutting and direct solvers

Model of `_apply_unary_op`, `_apply_binary_op` (`capytaine/matrices/block.py:231-248`),
`fft_of_list` (`block.py:378-421`), `cut_matrix`, `full_like` and `identity_like`
(`capytaine/matrices/builders.py:15-91`) and `solve_directly`
(`capytaine/matrices/linear_solvers.py:22-57`).
-/

namespace Verif.Blocks

open Finset

/-- `isinstance(other, self.__class__)` for structured classes: `block_toeplitz.py:141, 176, 253, 290`
declare the subclasses. First argument: the class of `self`, second one: the class of `other`. -/
def isInstance : Kind → Kind → Bool
  | .toeplitz, _ => true
  | .symToeplitz, .symToeplitz => true
  | .symToeplitz, .evenSymCirculant => true
  | .symToeplitz, .oddSymCirculant => true
  | .circulant, .circulant => true
  | .circulant, .evenSymCirculant => true
  | .circulant, .oddSymCirculant => true
  | .evenSymCirculant, .evenSymCirculant => true
  | .oddSymCirculant, .oddSymCirculant => true
  | _, _ => false

/-- `_apply_unary_op`, `block.py:231-235`: scalings, opposites. -/
def HMat.unop {R : Type} (op : R → R) : HMat R → HMat R
  | .dense h w a => .dense h w fun r c => op (a r c)
  | .gen hs ws b => .gen hs ws fun i j => (b i j).unop op
  | .str k p q s b => .str k p q s fun i => (b i).unop op

/-- `_apply_binary_op`, `block.py:237-248`, when it does not return `NotImplemented`; `none` stands
for `NotImplemented` at this level or an exception in a block. Blocks are paired with `zip`, which
stops at the shorter storage. The test `nb_blocks == other.nb_blocks` compares the numbers of blocks
of the full matrices.
Simplifications: numpy arrays are only combined when they have the same shape (no broadcasting);
when a generic block matrix meets a structured one, the result in the code keeps the announced shape
of `self` but has only one line of blocks, here the shape is reduced to this line. -/
def HMat.binop {R : Type} (op : R → R → R) : HMat R → HMat R → Option (HMat R)
  | .dense h w a, .dense h' w' a' =>
    if h = h' ∧ w = w' then some (.dense h w fun r c => op (a r c) (a' r c)) else none
  | .gen hs ws b, .gen hs' ws' b' =>
    if hs.length = hs'.length ∧ ws.length = ws'.length ∧
        (List.range hs.length).all (fun i => (List.range ws.length).all fun j =>
          ((b i j).binop op (b' i j)).isSome) = true then
      some (.gen hs ws fun i j => ((b i j).binop op (b' i j)).getD (b i j))
    else none
  | .gen hs ws b, .str k' _ _ s' b' =>
    if nbBlocks k' s' = some hs.length ∧ nbBlocks k' s' = some ws.length ∧
        (List.range (min ws.length s')).all (fun j => ((b 0 j).binop op (b' j)).isSome) = true then
      some (.gen (hs.take 1) (ws.take s') fun i j => ((b i j).binop op (b' j)).getD (b i j))
    else none
  | .str k p q s b, .str k' _ _ s' b' =>
    if isInstance k k' = true ∧ nbBlocks k s = nbBlocks k' s' ∧
        (List.range (min s s')).all (fun i => ((b i).binop op (b' i)).isSome) = true then
      some (.str k p q (min s s') fun i => ((b i).binop op (b' i)).getD (b i))
    else none
  | _, _ => none

/-- `_stored_blocks[i, j]` of a block matrix. -/
def HMat.stored {R : Type} : HMat R → ℕ → ℕ → HMat R
  | .dense h w a, _, _ => .dense h w a
  | .gen _ _ b, i, j => b i j
  | .str _ _ _ _ b, _, j => b j

/-- `fft_of_list`, `block.py:378-421`: value number `j` of the discrete Fourier transform of the
matrices `e 0, …, e (n-1)`, done on each stored block, with the class and the shapes of the first
matrix `T = e 0`. Simplification: mixed lists of dense and block matrices take the class of the first
one (the code makes all of them dense). -/
noncomputable def fftOfList (n j : ℕ) : HMat ℂ → (ℕ → HMat ℂ) → HMat ℂ
  | .dense h w _, e => .dense h w fun r c => dft n (fun i => (e i).entry r c) j
  | .gen hs ws b, e =>
    .gen hs ws fun i' j' => fftOfList n j (b i' j') (fun i => (e i).stored i' j')
  | .str k p q s b, e => .str k p q s fun m => fftOfList n j (b m) (fun i => (e i).stored 0 m)

/-- The number of the stored block found at `all_blocks[i, 0]`, `block_toeplitz.py:81-87`. -/
def firstColumnIndex (k : Kind) (s i : ℕ) : ℕ := ((allBlocks k s i 0).getD none).getD 0

/-- `isinstance(A, BlockCirculantMatrix)`, `linear_solvers.py:24`. -/
def isCirculant (k : Kind) : Bool := isInstance .circulant k

/-- `solve_directly`, `linear_solvers.py:22-57`. `sd h w a b` stands for `np.linalg.solve(a, b)`,
`none` for an exception. `F0` is uninitialised memory used by `full_matrix`. The recursion is
bounded by a fuel, which is the depth of nesting (see `solve_complete`). -/
noncomputable def solveDirectly (sd : ℕ → ℕ → Arr ℂ → (ℕ → ℂ) → Option (ℕ → ℂ)) (F0 : Arr ℂ) :
    ℕ → HMat ℂ → (ℕ → ℂ) → Option (ℕ → ℂ)
  | 0, _, _ => none
  | _ + 1, .dense h w a, rhs => sd h w a rhs
  | _ + 1, .gen hs ws b, rhs => sd hs.sum ws.sum ((HMat.gen hs ws b).fullMatrix F0) rhs
  | fuel + 1, .str k p q s b, rhs =>
    let n := (nbBlocks k s).getD 0
    if isCirculant k = true then
      let xs := fun j => solveDirectly sd F0 fuel
        (fftOfList n j (b (firstColumnIndex k s 0)) (fun i => b (firstColumnIndex k s i)))
        (fun r => dft n (fun i => rhs (i * p + r)) j)
      if (List.range n).all (fun j => (xs j).isSome) = true then
        some fun c => idft n (fun j => ((xs j).getD 0) (c % q)) (c / q)
      else none
    else if k = .symToeplitz ∧ n = 2 then
      ((b 0).binop (· + ·) (b 1)).bind fun aPlus =>
      ((b 0).binop (· - ·) (b 1)).bind fun aMinus =>
      (solveDirectly sd F0 fuel aPlus (fun r => rhs r + rhs (p + r))).bind fun xPlus =>
      (solveDirectly sd F0 fuel aMinus (fun r => rhs r - rhs (p + r))).bind fun xMinus =>
      some fun c => (if c < aPlus.shape.2 then xPlus c + xMinus c
        else xPlus (c - aPlus.shape.2) - xMinus (c - aPlus.shape.2)) / 2
    else
      sd (p * n) (q * n) ((HMat.str k p q s b).fullMatrix F0) rhs

/-- `cut_matrix`, `builders.py:34-40`. Both the line and the column offsets are
`accumulate([0] + x_shapes[:-1])`; `zip` with `y_shapes` stops at the shorter list.
The slice of an array is bounded by its shape. Simplification: a slice partly out of the array is
represented by its nominal size. -/
def cutMatrix {R : Type} (F : Arr R) (xs ys : List ℕ) : HMat R :=
  .gen xs (ys.take xs.length) fun i j =>
    .dense (xs.getD i 0) (ys.getD j 0) (getSlice F (offset xs i) (offset xs j))

/-- `full_like`, `builders.py:49-63`. -/
def HMat.fullLike {R : Type} (v : R) (A : HMat R) : HMat R := A.unop fun _ => v

/-- `identity_like`, `builders.py:76-91`. Only the stored blocks on the diagonal of the storage are
identities: for structured matrices, the first stored block (storage is one line). -/
def HMat.identityLike {R : Type} [Zero R] [One R] : HMat R → HMat R
  | .dense h w _ => .dense h w fun r c => if r = c then 1 else 0
  | .gen hs ws b => .gen hs ws fun i j => if i = j then (b i j).identityLike else (b i j).fullLike 0
  | .str k p q s b => .str k p q s fun j => if 0 = j then (b j).identityLike else (b j).fullLike 0

end Verif.Blocks
