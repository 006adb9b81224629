import Verif.Files.MeshFilesModel

/-!
# Tecplot files of meshes

Model of `write_TEC` (`capytaine/io/mesh_writers.py:182-222`) and of `load_TEC` (`capytaine/io/mesh_loaders.py:412-451`). The
regular expression of the reader is not modelled as such: the two numbers of the header are given, and in the text that
follows the header the words that are real numbers, then the words made of digits, are taken. Files where a number is
followed by another character than a blank are left out, and so are those where the last coordinate and the first index are
on the same line.
-/

namespace Verif.Files

open Verif.Geometry Verif.Meshes

/-- The text written after the header by `write_TEC` (`io/mesh_writers.py:206-218`). -/
def tecData (m : Mesh (V3 ℚ)) : Text :=
  unlines (blockLines (m.vertices.map fun v => (coords v).flatMap fun x => padLeft 16 (showSci x)) ++
    blockLines (m.faces.map faceLine))

/-- The header and the data of `write_TEC` (`io/mesh_writers.py:197-218`): the numbers of vertices and of faces, and the text. -/
def writeTEC (m : Mesh (V3 ℚ)) : ℕ × ℕ × Text := (m.vertices.length, m.faces.length, tecData m)

/-- `real_str` (`io/mesh_loaders.py:18`) on a whole word: a number with a decimal point. -/
def isReal (s : Text) : Bool := s.contains '.' && (readFloat s).isSome

/-- `\d+` on a whole word (`io/mesh_loaders.py:439`). -/
def isDigits (s : Text) : Bool := (readNat s).isSome

/-- The rows of `reshape` (`io/mesh_loaders.py:448-449`), for `n` rows of `w` items. -/
def rowsOf {A : Type} (n w : ℕ) (l : List A) : List (List A) := (List.range n).map fun i => (l.drop (w * i)).take w

/-- `load_TEC` (`io/mesh_loaders.py:433-451`), from the numbers `N` and `E` of the header and the text after it. -/
def loadTEC : ℕ × ℕ × Text → Option Loaded
  | (nv, nf, s) =>
    let reals := (textWords s).takeWhile isReal
    let ids := ((textWords s).drop reals.length).takeWhile isDigits
    if reals.length < 3 ∨ nv = 0 ∨ reals.length % nv ≠ 0 ∨ ids.length ≠ 4 * nf then none
    else
      match reals.mapM readFloat, ids.mapM readInt with
      | some xs, some ks =>
        (mkMesh ((rowsOf nv (xs.length / nv) xs).map (List.take 3)) (minusOne (rowsOf nf 4 ks))).map fun m => ⟨m, false, false⟩
      | _, _ => none

end Verif.Files
