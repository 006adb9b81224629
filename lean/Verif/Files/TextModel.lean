import Mathlib.Data.Int.Log
import Mathlib.Data.Rat.Floor
import Mathlib.Algebra.Order.Floor.Semiring

/-!
# Text and numbers in mesh files

Model of the parts of Python used to write and read the text formats of meshes
(`capytaine/io/mesh_writers.py`, `capytaine/io/mesh_loaders.py`): lines, `str.split`, padded fields, and the
formats `d`, `u`, `.6f` and `.6E`. A text is a list of characters. The coordinates are rational numbers, as the
finite floating point numbers are: infinities, not-a-number and the sign of zero are left out. The result of
`float` is the exact value of the text, before its rounding to a floating point number.
-/

namespace Verif.Files

/-- A text, or a line of text without its end of line. -/
abbrev Text := List Char

/-! ## Lines and words -/

/-- The whitespace characters of `str.split()` and `str.lstrip()` (`io/mesh_loaders.py:150`, `168`, `680`), for
ASCII. -/
def isBlank (c : Char) : Bool :=
  c = ' ' || c = '\t' || c = '\n' || c = '\r' || c = '\x0b' || c = '\x0c'

/-- Cut a text at the ends of lines, with the beginning of the current line. -/
def linesFrom (cur : Text) : Text → List Text
  | [] => if cur = [] then [] else [cur]
  | c :: s => if c = '\n' then cur :: linesFrom [] s else linesFrom (cur ++ [c]) s

/-- The lines given by `readlines()` or by repeated `readline()` (`io/mesh_loaders.py:144-145`, `675-677`), without
the ends of lines. -/
def textLines (s : Text) : List Text := linesFrom [] s

/-- The text made by the calls of `write` with one line each (`io/mesh_writers.py:521-536`). -/
def unlines (ls : List Text) : Text := ls.flatMap fun l => l ++ ['\n']

/-- Cut a line at the blanks, with the beginning of the current word. -/
def wordsFrom (cur : Text) : Text → List Text
  | [] => if cur = [] then [] else [cur]
  | c :: s =>
    if isBlank c then (if cur = [] then wordsFrom [] s else cur :: wordsFrom [] s)
    else wordsFrom (cur ++ [c]) s

/-- `line.split()` (`io/mesh_loaders.py:677`). -/
def textWords (s : Text) : List Text := wordsFrom [] s

/-- A field of at least `w` characters, aligned on the right, as in `%16.6f` or `{:>5}`. -/
def padLeft (w : ℕ) (s : Text) : Text := List.replicate (w - s.length) ' ' ++ s

/-! ## Writing numbers -/

/-- The decimal digits of a number, `%u` or `{:d}` (`io/mesh_writers.py:448`). -/
def showNat (n : ℕ) : Text := Nat.toDigits 10 n

/-- The last `k` decimal digits of a number, with leading zeros. -/
def lastDigits : ℕ → ℕ → Text
  | 0, _ => []
  | k + 1, n => lastDigits k (n / 10) ++ [Nat.digitChar (n % 10)]

/-- The nearest integer, the even one in the middle of two integers. -/
def nearestEven (q : ℚ) : ℕ :=
  let n := ⌊q⌋₊
  if q - n < 1 / 2 then n else if 1 / 2 < q - n then n + 1 else if n % 2 = 0 then n else n + 1

/-- The sign of a number. -/
def showSign (x : ℚ) : Text := if x < 0 then ['-'] else []

/-- A number `m / 10 ^ 6`. -/
def showMillionths (m : ℕ) : Text := showNat (m / 10 ^ 6) ++ '.' :: lastDigits 6 m

/-- The format `.6f` (`io/mesh_writers.py:452`, `524`). -/
def showFixed (x : ℚ) : Text := showSign x ++ showMillionths (nearestEven (|x| * 10 ^ 6))

/-- The seven digits and the exponent of the format `.6E`. -/
def sciParts (x : ℚ) : ℕ × ℤ :=
  if x = 0 then (0, 0)
  else
    let e := Int.log 10 |x|
    let m := nearestEven (|x| / 10 ^ (e - 6))
    if m = 10 ^ 7 then (10 ^ 6, e + 1) else (m, e)

/-- The exponent of the format `.6E`: a sign and at least two digits. -/
def showExponent (e : ℤ) : Text :=
  (if e < 0 then '-' else '+') :: if e.natAbs < 10 then '0' :: showNat e.natAbs else showNat e.natAbs

/-- The format `.6E` (`io/mesh_writers.py:154`, `427`, `496`). -/
def showSci (x : ℚ) : Text :=
  showSign x ++ showMillionths (sciParts x).1 ++ 'E' :: showExponent (sciParts x).2

/-! ## Reading numbers -/

/-- A sign and the rest of a text. -/
def takeSign : Text → Bool × Text
  | '-' :: s => (true, s)
  | '+' :: s => (false, s)
  | s => (false, s)

/-- A sequence of digits. -/
def readNat (s : Text) : Option ℕ := if s ≠ [] ∧ s.all Char.isDigit then some (Nat.ofDigitChars 10 s 0) else none

/-- `int(s)` for a word (`io/mesh_loaders.py:677`): the underscores accepted by Python are left out. -/
def readInt (s : Text) : Option ℤ :=
  (readNat (takeSign s).2).map fun n : ℕ => if (takeSign s).1 then -(n : ℤ) else (n : ℤ)

/-- The exponent of a number, after the letter. -/
def readExponent : Text → Option ℤ
  | [] => some 0
  | _ :: s => readInt s

/-- `float(s)` for a word (`io/mesh_loaders.py:681`), for the numbers in base ten. -/
def readFloat (s : Text) : Option ℚ :=
  let u := (takeSign s).2
  let mant := u.takeWhile fun c => c ≠ 'E' && c ≠ 'e'
  let whole := mant.takeWhile (· ≠ '.')
  let frac := (mant.dropWhile (· ≠ '.')).drop 1
  if whole ++ frac ≠ [] ∧ (whole ++ frac).all Char.isDigit then
    (readExponent (u.dropWhile fun c => c ≠ 'E' && c ≠ 'e')).map fun k =>
      (if (takeSign s).1 then -1 else 1) * (Nat.ofDigitChars 10 (whole ++ frac) 0 : ℚ) / 10 ^ frac.length * 10 ^ k
  else none

/-- `int(line)` for a line (`io/mesh_loaders.py:979`): blanks around the number are accepted. -/
def readIntLine (s : Text) : Option ℤ :=
  match textWords s with
  | [t] => readInt t
  | _ => none

end Verif.Files
