import Mathlib.Data.Complex.Basic

/-!
# The types of numbers in the products of block matrices

Model of the types of data in `matvec` and `rmatvec` (`capytaine/matrices/block.py:294-327`, `capytaine/matrices/block_toeplitz.py:118-134,211-246`,
`capytaine/matrices/low_rank.py:382-392`), with integers and single precision, which `MatmatModel.lean` leaves out. The two products treat the types
in the same way. The values are in `ProductModel.lean`.
-/

namespace Verif.Blocks

/-- The types of data of numpy arrays that are considered. -/
inductive Num where
  | bool | int64 | float32 | float64 | complex64 | complex128
  deriving DecidableEq

/-- The kind of a type, in the order of `np.can_cast(..., casting="same_kind")`. -/
def Num.kind : Num → ℕ
  | .bool => 0
  | .int64 => 1
  | .float32 | .float64 => 2
  | .complex64 | .complex128 => 3

/-- Whether the type needs numbers of double precision when it is mixed with inexact numbers. -/
def Num.wide : Num → Bool
  | .bool | .float32 | .complex64 => false
  | .int64 | .float64 | .complex128 => true

/-- The type of a kind and a precision. -/
def Num.of : ℕ → Bool → Num
  | 0, _ => .bool
  | 1, _ => .int64
  | 2, false => .float32
  | 2, true => .float64
  | _, false => .complex64
  | _, true => .complex128

/-- `np.result_type`: the type of the product of two arrays. -/
def Num.promote (a b : Num) : Num := Num.of (max a.kind b.kind) (a.wide || b.wide)

/-- The matrices, with the types of their blocks. A low rank block behaves as an array. -/
inductive PMat where
  | arr (t : Num)
  | gen (h w : ℕ) (b : ℕ → ℕ → PMat)
  | toep (n : ℕ) (b : ℕ → PMat)
  | circ (n : ℕ) (b : ℕ → PMat)

/-- `dtype` (`block.py:114-118`): that of the first stored block. -/
def PMat.dtype : PMat → Num
  | .arr t => t
  | .gen _ _ b => (b 0 0).dtype
  | .toep _ b => (b 0).dtype
  | .circ _ b => (b 0).dtype

/-- The type of `np.fft.fft`: single precision is kept from numpy 2 on. -/
def fftType (np2 : Bool) (t : Num) : Num := Num.of 3 (!np2 || t.wide || t.kind ≤ 1)

/-- The type of the result of `BlockCirculantMatrix.matvec` (`block_toeplitz.py:215-226,243-246`): the real part is taken unless the type of the
matrix or that of the vector is `complex`, that is `complex128`. -/
def circType (np2 : Bool) (m v : Num) : Num :=
  let t := (fftType np2 m).promote (fftType np2 v)
  if m = .complex128 ∨ v = .complex128 then t else Num.of 2 t.wide

/-- The value returned for the value `z` of the inverse transform (`block_toeplitz.py:223-226,243-246`). -/
noncomputable def circValue (m v : Num) (z : ℂ) : ℂ := if m = .complex128 ∨ v = .complex128 then z else (z.re : ℂ)

/-- The type of the vector given to the circulant matrix (`block_toeplitz.py:123,133`): zeros of double precision are added. -/
def toepVector (v : Num) : Num := v.promote .float64

open Classical in
/-- The type of the product, `none` for the `UFuncTypeError` of an addition in place (`block.py:307,324,326`): the result has the type of the
vector (`block.py:298,314`), and each product of a block has to be of the same kind or of a lower one. -/
noncomputable def PMat.prodType (np2 : Bool) : PMat → Num → Option Num
  | .arr t, v => some (t.promote v)
  | .gen h w b, v =>
    if ∀ i, i < h → ∀ j, j < w → ∃ t, (b i j).prodType np2 v = some t ∧ t.kind ≤ v.kind then some v else none
  | .toep _ b, v => some (circType np2 (b 0).dtype (toepVector v))
  | .circ _ b, v => some (circType np2 (b 0).dtype v)

end Verif.Blocks
