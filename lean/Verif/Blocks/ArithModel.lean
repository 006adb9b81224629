import Mathlib.Data.List.ProdSigma
import Verif.Blocks.SolveModel

/-!
# Arithmetic expressions on hierarchical matrices

Model of the operators `+`, `-`, `*` and `/` of `BlockMatrix` (`capytaine/matrices/block.py:232-292`) and of
`LowRankMatrix` (`capytaine/matrices/low_rank.py:355-374`), with the rules of Python for the choice between the
method of the left operand and the reflected method of the right one: the reflected method is called when the first
one answered `NotImplemented` and the classes are different, and `TypeError` is raised when no method answered.
-/

namespace Verif.Blocks.Arith

open Verif.Blocks

/-- The classes of block matrices (`matrices/block.py:26`, `matrices/block_toeplitz.py:23, 141, 176, 253, 290`). -/
inductive Cls where
  | generic
  | structured (k : Kind)
  deriving DecidableEq

/-- `isinstance(other, self.__class__)` (`matrices/block.py:240`): class of `self`, then class of `other`. -/
def Cls.isinstance : Cls → Cls → Bool
  | .generic, _ => true
  | .structured _, .generic => false
  | .structured k, .structured k' => isInstance k k'

/-- `nb_blocks` from the shape of the array of stored blocks (`matrices/block.py:83-84`,
`matrices/block_toeplitz.py:36-40, 147-149, 182-184, 272-275, 311-313`); `none` is the assertion error. -/
def nb : Cls → ℕ → ℕ → Option (ℕ × ℕ)
  | .generic, m, n => some (m, n)
  | .structured k, _, n => (nbBlocks k n).map fun q => (q, q)

/-- The operands: arrays of `numpy`, low rank matrices (`matrices/low_rank.py:49-56`, by the type of
their numbers, true for complex ones, their shape and their full array; integers are left out) and block matrices, by their class and the array of the blocks that they store (`matrices/block.py:51-58`). -/
inductive Mat (R : Type) where
  | arr (h w : ℕ) (a : ℕ → ℕ → R)
  | low (z : Bool) (h w : ℕ) (a : ℕ → ℕ → R)
  | blk (c : Cls) (m n : ℕ) (b : ℕ → ℕ → Mat R)

/-- The four operators. -/
inductive Op where
  | add | sub | mul | div
  deriving DecidableEq

/-- The exceptions: `TypeError` (no method for the operands), `AttributeError` (`matrices/block.py:267` on an operand
that is not a block matrix), `AssertionError` (`matrices/block_toeplitz.py:38`,
`matrices/low_rank.py:55`), and those of `numpy`. -/
inductive Err where
  | type | attribute | assertion | numpy
  deriving DecidableEq

/-- What an expression gives when it ends. -/
inductive Res (R : Type) where
  | ok (M : Mat R)
  | err (e : Err)

/-- What is outside the code: the operations of `numpy` when an operand is an array, and the sum of two low rank
matrices with its recompression (`matrices/low_rank.py:355-359`, see C23). -/
structure Outside (R : Type) where
  numpy : Op → Mat R → Mat R → Res R
  lowAdd : Mat R → Mat R → Res R
  /-- The opposite of an array or of a low rank matrix (`matrices/low_rank.py:363-364`). -/
  neg : R → R

variable {R : Type}

/-- `-M` (`matrices/block.py:257-259`, `matrices/low_rank.py:363-364`). -/
def Mat.neg (E : Outside R) : Mat R → Mat R
  | .arr h w a => .arr h w fun r c => E.neg (a r c)
  | .low z h w a => .low z h w fun r c => E.neg (a r c)
  | .blk c m n b => .blk c m n fun i j => (b i j).neg E

/-- The test of `_apply_binary_op` (`matrices/block.py:240`). -/
def accepts : Mat R → Mat R → Bool
  | .blk c m n _, .blk c' m' n' _ => c.isinstance c' && decide (nb c m n = nb c' m' n')
  | _, _ => false

/-- The first of a list of results that is not a value, in the order of the evaluation. -/
def firstFailure : List (Option (Res R)) → Option (Option Err)
  | [] => none
  | none :: _ => some none
  | some (.err e) :: _ => some (some e)
  | some (.ok _) :: l => firstFailure l

/-- The value of a result. -/
def value (d : Mat R) : Option (Res R) → Mat R
  | some (.ok M) => M
  | _ => d

/-- The rest of `_apply_binary_op` (`matrices/block.py:242-246`): the stored blocks are combined line by line, `zip`
stops at the end of the shorter one, and a matrix of class `c` is built, which can refuse its number of blocks
(`matrices/block_toeplitz.py:38`). -/
def combine (c : Cls) (m n : ℕ) (g : ℕ → ℕ → Option (Res R)) (d : ℕ → ℕ → Mat R) : Option (Res R) :=
  match firstFailure ((List.range m ×ˢ List.range n).map fun p => g p.1 p.2) with
  | some none => none
  | some (some e) => some (.err e)
  | none =>
    if (nb c m n).isSome then some (.ok (.blk c m n fun i j => if i < m ∧ j < n then value (d i j) (g i j) else d i j))
    else some (.err .assertion)

/-- `A op B`. The number counts the nested evaluations that are allowed; `none` is an evaluation that needs more, which
`Python` ends by `RecursionError`.
`matrices/block.py:250-292` for block matrices: `__radd__` and `__rmul__` evaluate `self + other` and `self * other`,
`__rsub__` and `__rtruediv__` call `_apply_binary_op`. `matrices/low_rank.py:355-374` for low rank matrices, which have
no reflected method for these operators. -/
def eval (E : Outside R) : ℕ → Op → Mat R → Mat R → Option (Res R)
  | 0, _, _, _ => none
  | f + 1, op, .blk c m n b, .blk c' m' n' b' =>
    if accepts (.blk c m n b) (.blk c' m' n' b') then
      combine c (min m m') (min n n') (fun i j => eval E f op (b i j) (b' i j)) b
    else if c = c' then some (.err .type)
    else match op with
      | .add => eval E f .add (.blk c' m' n' b') (.blk c m n b)
      | .mul => eval E f .mul (.blk c' m' n' b') (.blk c m n b)
      | .sub => some (.err .type)
      | .div =>
        if accepts (.blk c' m' n' b') (.blk c m n b) then
          combine c' (min m' m) (min n' n) (fun i j => eval E f .div (b i j) (b' i j)) b'
        else some (.err .type)
  | f + 1, op, .low z h w a, .blk c m n b =>
    match op with
    | .add => eval E f .add (.blk c m n b) (.low z h w a)
    | .mul => eval E f .mul (.blk c m n b) (.low z h w a)
    | .sub => eval E f .add (.low z h w a) ((Mat.blk c m n b).neg E)
    | .div => some (.err .type)
  | _ + 1, _, .blk _ _ _ _, .low _ _ _ _ => some (.err .type)
  | f + 1, op, .low z h w a, .low z' h' w' a' =>
    match op with
    | .add => some (E.lowAdd (.low z h w a) (.low z' h' w' a'))
    | .sub => eval E f .add (.low z h w a) ((Mat.low z' h' w' a').neg E)
    | .mul => some (.err .type)
    | .div => some (.err .type)
  | f + 1, op, .low z h w a, .arr h' w' a' =>
    match op with
    | .sub => eval E f .add (.low z h w a) ((Mat.arr h' w' a').neg E)
    | op => some (E.numpy op (.low z h w a) (.arr h' w' a'))
  | _ + 1, op, A, B => some (E.numpy op A B)

/-! ## Operations with a number -/

/-- `_apply_unary_op` (`matrices/block.py:232-236`) with an operation that can fail on a block: the first failure is
raised. -/
def unary (leaf : Mat R → Res R) : Mat R → Res R
  | .blk c m n b =>
    match firstFailure ((List.range m ×ˢ List.range n).map fun p => some (unary leaf (b p.1 p.2))) with
    | some (some e) => .err e
    | some none => .err .type
    | none => .ok (.blk c m n fun i j => if i < m ∧ j < n then value (b i j) (some (unary leaf (b i j))) else b i j)
  | M => leaf M

/-- `x * M` and `M * x` for a number `x` of `Python` (`matrices/block.py:269-277`): `other*x` on each block. A low rank
matrix has no `__rmul__` nor `__mul__`. -/
def scale (f : R → R) : Mat R → Res R :=
  unary fun
    | .arr h w a => .ok (.arr h w fun r c => f (a r c))
    | _ => .err .type

/-- `M / x` (`matrices/block.py:279-282`, `matrices/low_rank.py:369-372`). First argument: `x` is complex. Only the
right factor of a low rank matrix is divided, and the two factors must have the same type
(`matrices/low_rank.py:55`). -/
def divide (complex : Bool) (f : R → R) : Mat R → Res R :=
  unary fun
    | .arr h w a => .ok (.arr h w fun r c => f (a r c))
    | .low z h w a => if complex && !z then .err .assertion else .ok (.low z h w fun r c => f (a r c))
    | M => .ok M

/-- `x / M` (`matrices/block.py:287-290`); a low rank matrix has no `__rtruediv__`. -/
def inverse (f : R → R) : Mat R → Res R := scale f

/-- The other operations between a number of `Python` and a block matrix: `M + x`, `x + M` and `M - x` find no method
(`matrices/block.py:250-263`), `x - M` calls `x._apply_binary_op` (`matrices/block.py:265-267`). First argument: the
number is on the left. -/
def shift : Bool → Op → Err
  | true, .sub => .attribute
  | _, _ => .type

/-! ## The matrix as a table -/

/-- The same matrix in the model of C18 and C19, where low rank matrices are arrays. The shapes of the blocks are read
on the first column and the first line of stored blocks (`matrices/block.py:60-62`). -/
def Mat.toH : Mat R → HMat R
  | .arr h w a => .dense h w a
  | .low _ h w a => .dense h w a
  | .blk .generic m n b =>
    .gen ((List.range m).map fun i => (b i 0).toH.shape.1) ((List.range n).map fun j => (b 0 j).toH.shape.2)
      fun i j => (b i j).toH
  | .blk (.structured k) _ n b => .str k (b 0 0).toH.shape.1 (b 0 0).toH.shape.2 n fun j => (b 0 j).toH

end Verif.Blocks.Arith
