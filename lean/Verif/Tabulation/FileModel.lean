import Mathlib.Data.List.Basic
import Mathlib.Data.Nat.Digits.Defs

/-!
# The file of the tables

Model of `Delhommeau._create_or_load_tabulation` (`green_functions/delhommeau.py:198-233`): a file system shared by
successive runs, each of which may be killed at any point.

Simplifications: runs follow one another (no two runs write at the same time); the file goes through arbitrary incomplete
contents between its creation and its completion.
-/

namespace Verif.Tabulation

/-- `floating_point_precision`: the compiled modules that exist. -/
inductive Precision where
  | float32
  | float64

/-- `tabulation_grid_shape` (`delhommeau.py:121-124`). -/
inductive GridShape where
  | legacy
  | scaledNemoh3

/-- The parameters of the tables, `F` being the type of floating point numbers: `tabulation_rmax` and `tabulation_zmin`
have been converted by `float` (`delhommeau.py:208-209`). -/
structure Params (F : Type) where
  precision : Precision
  shape : GridShape
  nr : ℕ
  rmax : F
  nz : ℕ
  zmin : F
  points : ℕ

/-- The name of the precision, as written. -/
def Precision.chars : Precision → List Char
  | .float32 => ['f', 'l', 'o', 'a', 't', '3', '2']
  | .float64 => ['f', 'l', 'o', 'a', 't', '6', '4']

/-- The name of the shape, as written. -/
def GridShape.chars : GridShape → List Char
  | .legacy => ['l', 'e', 'g', 'a', 'c', 'y']
  | .scaledNemoh3 => ['s', 'c', 'a', 'l', 'e', 'd', '_', 'n', 'e', 'm', 'o', 'h', '3']

/-- How an integer is written. -/
def natChars (n : ℕ) : List Char := Nat.toDigits 10 n

/-- The name of the file (`delhommeau.py:211-215`). `show` is Python's representation of floating point numbers. -/
def filename {F : Type} (shown : F → List Char) (p : Params F) : List Char :=
  ['t', 'a', 'b', 'u', 'l', 'a', 't', 'i', 'o', 'n'] ++ '_' :: (p.precision.chars ++ '_' :: (p.shape.chars ++ '_' ::
    (natChars p.nr ++ '_' :: (shown p.rmax ++ '_' :: (natChars p.nz ++ '_' :: (shown p.zmin ++ '_' ::
    (natChars p.points ++ ['.', 'n', 'p', 'z'])))))))

/-- What is outside of the Python code: the computation of the tables (`delhommeau.py:235-248`), the contents of the file
while it is written and when it is complete, and what `np.load` finds in a content. -/
structure World (F T C : Type) where
  shown : F → List Char
  compute : Params F → T
  partials : T → List C
  encode : T → C
  decode : C → Option T

/-- The files of the cache directory. -/
abbrev Files (C : Type) := List Char → Option C

variable {F T C : Type}

/-- A content written in a file. -/
def store (fs : Files C) (name : List Char) (c : C) : Files C := fun n => if n = name then some c else fs n

/-- The contents that the file takes when it is saved (`delhommeau.py:230-233`). -/
def contents (w : World F T C) (t : T) : List C := w.partials t ++ [w.encode t]

/-- What happens to a run. -/
inductive Outcome (T : Type) where
  | tables (t : T)
  | error
  | killed

/-- A run (`delhommeau.py:198-233`): `kill` is the number of contents written when it is killed, if it is. A run that only
reads may be killed as well, without effect. -/
def run (w : World F T C) (fs : Files C) (p : Params F) (kill : Option ℕ) : Files C × Outcome T :=
  let name := filename w.shown p
  match fs name with
  | some c =>
    (fs, match kill with
      | some _ => .killed
      | none => match w.decode c with
        | some t => .tables t
        | none => .error)
  | none =>
    let cs := contents w (w.compute p)
    match kill with
    | some k => ((cs.take k).foldl (fun fs c => store fs name c) fs, .killed)
    | none => (cs.foldl (fun fs c => store fs name c) fs, .tables (w.compute p))

/-- Successive runs. -/
def runs (w : World F T C) (fs : Files C) (l : List (Params F × Option ℕ)) : Files C :=
  l.foldl (fun fs e => (run w fs e.1 e.2).1) fs

end Verif.Tabulation
