import Mathlib.Data.Real.Basic
import Mathlib.Data.List.Basic

/-!
# Conversion of complex datasets to real ones and back

Model of `separate_complex_values` and `merge_complex_values`, `capytaine/io/xarray.py:535-571`.

The numbers follow the rules of IEEE 754 for infinities and NaN. The sign of zero and the rounding are left out. A dataset is
the ordered list of its variables and of its coordinates. An array is a function of the list of its indices, of which only the
ones within the shape matter. The encoding of the variables is left out.
-/

namespace Verif.Datasets

/-- A floating point number: the components of the values handled by `capytaine/io/xarray.py:547,568`. Zeros have no sign. -/
inductive Flt where
  | fin (x : ℝ)
  | pinf
  | ninf
  | nan

namespace Flt

open Classical in
/-- Product of an infinity, positive or not, by a finite number, for `capytaine/io/xarray.py:568` (IEEE 754). -/
noncomputable def infTimes (positive : Bool) (x : ℝ) : Flt :=
  if x = 0 then nan
  else if (0 < x) = (positive = true) then pinf else ninf

/-- Product of two numbers, for `capytaine/io/xarray.py:568` (IEEE 754). -/
noncomputable def mul : Flt → Flt → Flt
  | nan, _ => nan
  | _, nan => nan
  | fin x, fin y => fin (x * y)
  | fin x, pinf => infTimes true x
  | fin x, ninf => infTimes false x
  | pinf, fin y => infTimes true y
  | ninf, fin y => infTimes false y
  | pinf, pinf => pinf
  | pinf, ninf => ninf
  | ninf, pinf => ninf
  | ninf, ninf => pinf

/-- Opposite of a number, for `capytaine/io/xarray.py:568` (IEEE 754). -/
def neg : Flt → Flt
  | fin x => fin (-x)
  | pinf => ninf
  | ninf => pinf
  | nan => nan

/-- Sum of two numbers, for `capytaine/io/xarray.py:568` (IEEE 754). -/
def add : Flt → Flt → Flt
  | nan, _ => nan
  | _, nan => nan
  | fin x, fin y => fin (x + y)
  | fin _, pinf => pinf
  | fin _, ninf => ninf
  | pinf, fin _ => pinf
  | ninf, fin _ => ninf
  | pinf, pinf => pinf
  | pinf, ninf => nan
  | ninf, pinf => nan
  | ninf, ninf => ninf

end Flt

/-- A complex number as a pair of floating point numbers, `capytaine/io/xarray.py:547,568`. -/
structure Cplx where
  re : Flt
  im : Flt

namespace Cplx

/-- Conversion of a real array to complex numbers when added to a complex one, `capytaine/io/xarray.py:568`. -/
def ofReal (x : Flt) : Cplx := ⟨x, .fin 0⟩

/-- The constant `1j`, `capytaine/io/xarray.py:568`. -/
def I : Cplx := ⟨.fin 0, .fin 1⟩

/-- Product of complex numbers as numpy computes it, component by component, `capytaine/io/xarray.py:568`. -/
noncomputable def mul (a b : Cplx) : Cplx :=
  ⟨(a.re.mul b.re).add (a.im.mul b.im).neg, (a.re.mul b.im).add (a.im.mul b.re)⟩

/-- Sum of complex numbers, `capytaine/io/xarray.py:568`. -/
def add (a b : Cplx) : Cplx := ⟨a.re.add b.re, a.im.add b.im⟩

end Cplx

/-- The type of the elements of an array. Only `complex128` is equal to the Python type `complex` tested in
`capytaine/io/xarray.py:545`. -/
inductive DType where
  | float64
  | complex128
  | complex64
  | text
deriving DecidableEq

/-- An element of an array, a number (with zero imaginary part in a real array) or a text.
The variables of the datasets of `capytaine/io/xarray.py:535-571`. -/
inductive Elem where
  | num (z : Cplx)
  | text (s : String)

/-- An array with named dimensions and its attributes, as handled in `capytaine/io/xarray.py:546-549,566-569`. -/
structure NArr where
  dtype : DType
  dims : List String
  shape : List Nat
  value : List Nat → Elem
  attrs : List (String × String)

/-- A coordinate of the dataset: its dimensions and its values, `capytaine/io/xarray.py:550`. -/
structure Coo where
  dims : List String
  labels : List Elem

/-- A dataset: data variables and coordinates in order, and global attributes. Arguments and results of
`capytaine/io/xarray.py:535,554`. -/
structure CDS where
  vars : List (String × NArr)
  coords : List (String × Coo)
  attrs : List (String × String)

namespace CDS

/-- `ds[variable]`, `capytaine/io/xarray.py:546,566`. -/
def var (ds : CDS) (name : String) : Option NArr := ds.vars.lookup name

/-- `ds[variable] = new_da` for a variable that exists, `capytaine/io/xarray.py:549,569`. -/
def setVar (ds : CDS) (name : String) (a : NArr) : CDS :=
  { ds with vars := ds.vars.map fun p => if p.1 = name then (p.1, a) else p }

/-- `ds.coords[name] = ...`, replacing or adding the coordinate, `capytaine/io/xarray.py:550`. -/
def setCoord (ds : CDS) (name : String) (c : Coo) : CDS :=
  { ds with coords :=
      if ds.coords.any (fun p => p.1 = name) then ds.coords.map fun p => if p.1 = name then (p.1, c) else p
      else ds.coords ++ [(name, c)] }

/-- `ds.drop_vars(name)` for a coordinate, `capytaine/io/xarray.py:570`. -/
def dropCoord (ds : CDS) (name : String) : CDS :=
  { ds with coords := ds.coords.filter fun p => p.1 ≠ name }

end CDS

/-- The new coordinate `['re', 'im']`, `capytaine/io/xarray.py:550`. -/
def reImCoord : Coo := ⟨["complex"], [.text "re", .text "im"]⟩

/-- The real part of an element, `np.real`, `capytaine/io/xarray.py:547`. -/
def Elem.real : Elem → Elem
  | .num z => .num (Cplx.ofReal z.re)
  | .text s => .text s

/-- The imaginary part of an element, `np.imag`, `capytaine/io/xarray.py:547`. -/
def Elem.imag : Elem → Elem
  | .num z => .num (Cplx.ofReal z.im)
  | .text s => .text s

/-- Values of `np.asarray((np.real(da).data, np.imag(da).data))`, `capytaine/io/xarray.py:547`. -/
def separatedValue (a : NArr) : List Nat → Elem
  | [] => a.value []
  | k :: idx => if k = 0 then (a.value idx).real else (a.value idx).imag

/-- The array with an additional first dimension and without attributes, `capytaine/io/xarray.py:547-548`. -/
def separated (a : NArr) : NArr :=
  { dtype := .float64, dims := "complex" :: a.dims, shape := 2 :: a.shape, value := separatedValue a, attrs := [] }

/-- The size of the dimension `complex` of an array agrees with two, checked by xarray when the new array is put in the dataset,
`capytaine/io/xarray.py:549`. -/
def fitsArray (a : NArr) : Bool := (a.dims.zip a.shape).all fun p => p.1 ≠ "complex" || p.2 = 2

/-- A coordinate agrees with a dimension `complex` of size two: it does not have this dimension, or it is the index of the
dimension, and its name is not `complex` unless it is this index. Checked by xarray in `capytaine/io/xarray.py:549-550`.
Coordinates on several dimensions including `complex` are rejected, which is stricter than xarray. -/
def fitsCoord (p : String × Coo) : Bool :=
  if p.1 = "complex" then p.2.dims = ["complex"] && p.2.labels.length = 2
  else !(p.2.dims.contains "complex")

/-- One pass of the loop, `capytaine/io/xarray.py:544-550`. `none` is an error of xarray: the dimension `complex` already
exists in the variable, or with another size in the dataset. -/
def separateStep (ds : CDS) (name : String) : Option CDS :=
  match ds.var name with
  | none => some ds
  | some a =>
    if a.dtype = .complex128 then
      if a.dims.contains "complex" = false ∧ ds.vars.all (fun p => fitsArray p.2) ∧ ds.coords.all fitsCoord then
        some ((ds.setVar name (separated a)).setCoord "complex" reImCoord)
      else none
    else some ds

/-- `separate_complex_values`, `capytaine/io/xarray.py:535-551`. The copy at the beginning makes the function pure. -/
def separateComplex (ds : CDS) : Option CDS :=
  (ds.vars.map Prod.fst).foldlM separateStep ds

/-- `'complex' in ds[variable].coords`: an array has the coordinates of the dataset whose dimensions are all its own,
`capytaine/io/xarray.py:565`. -/
def hasComplexCoord (ds : CDS) (a : NArr) : Bool :=
  match ds.coords.lookup "complex" with
  | none => false
  | some c => c.dims.all fun d => a.dims.contains d

/-- The position of a label in the coordinate `complex`, `da.sel(complex=label)`, `capytaine/io/xarray.py:568`. A label that is
repeated gives a dimension, which fails later: only a single position is accepted. -/
def labelPos (ds : CDS) (label : String) : Option Nat :=
  match ds.coords.lookup "complex" with
  | none => none
  | some c =>
    match (List.range c.labels.length).filter (fun k =>
      match c.labels[k]? with
      | some (Elem.text s) => s = label
      | _ => false) with
    | [k] => some k
    | _ => none

/-- Put an index at a position of a list of indices, `da.sel(complex=...)`, `capytaine/io/xarray.py:568`. -/
def insertAt : Nat → Nat → List Nat → List Nat
  | 0, k, idx => k :: idx
  | _ + 1, k, [] => [k]
  | n + 1, k, i :: idx => i :: insertAt n k idx

/-- The sum of `capytaine/io/xarray.py:568` for one element: `re + 1j*im`. Texts are rejected before. -/
noncomputable def mergedElem : Elem → Elem → Elem
  | .num a, .num b => .num (a.add (Cplx.I.mul b))
  | a, _ => a

/-- The merged array, `capytaine/io/xarray.py:566-568`. -/
noncomputable def merged (re im : Nat) (a : NArr) : NArr :=
  let pos := a.dims.idxOf "complex"
  { dtype := .complex128
    dims := a.dims.filter fun d => d ≠ "complex"
    shape := a.shape.eraseIdx pos
    value := fun idx => mergedElem (a.value (insertAt pos re idx)) (a.value (insertAt pos im idx))
    attrs := [] }

/-- One pass of the loop, `capytaine/io/xarray.py:564-569`. `none` is an error: the labels are not there, the array is a text, or
the coordinate `complex` is not the index of a dimension. -/
noncomputable def mergeStep (ds : CDS) (name : String) : Option CDS :=
  match ds.var name with
  | none => some ds
  | some a =>
    if hasComplexCoord ds a then
      if a.dtype ≠ .text ∧ a.dims.contains "complex" then
        match labelPos ds "re", labelPos ds "im" with
        | some r, some i => some (ds.setVar name (merged r i a))
        | _, _ => none
      else none
    else some ds

/-- `merge_complex_values`, `capytaine/io/xarray.py:554-571`. -/
noncomputable def mergeComplex (ds : CDS) : Option CDS :=
  if ds.coords.any (fun p => p.1 = "complex") then
    ((ds.vars.map Prod.fst).foldlM mergeStep ds).map fun ds => ds.dropCoord "complex"
  else some ds

end Verif.Datasets
