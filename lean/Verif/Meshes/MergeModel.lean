import Verif.Meshes.Model

/-!
# Merging duplicate vertices

Model of `merge_duplicates` and `merge_duplicate_rows` (`capytaine/meshes/quality.py:17-151`). The arrays
`iperm` and `levels` are modelled together as the list of the slices `iperm[levels[k]:levels[k+1]]`, called
levels here. The rows are of any type, with a list of coordinates. `numpy.argsort` on the values of a level
is a parameter: its result on ties is not specified.
-/

namespace Verif.Meshes

open Verif.Geometry V3

variable {V : Type}

open Classical in
/-- The loop on the sorted values of a level (`meshes/quality.py:107-111`): the positions read so far in
the current slice are in `cur`, and a new slice begins whenever the value is further than the tolerance
from the first value of the current slice. -/
noncomputable def scanLevel (val : ℕ → ℝ) (atol : ℝ) : ℝ → List ℕ → List ℕ → List (List ℕ)
  | _, cur, [] => [cur]
  | vref, cur, i :: l =>
    if |val i - vref| > atol then cur :: scanLevel val atol (val i) [i] l
    else scanLevel val atol vref (cur ++ [i]) l

/-- One level and one dimension (`meshes/quality.py:92-114`): sorted and cut when it has at least two
elements, unchanged otherwise. -/
noncomputable def refineLevel (sort : (ℕ → ℝ) → List ℕ → List ℕ) (val : ℕ → ℝ) (atol : ℝ)
    (level : List ℕ) : List (List ℕ) :=
  if 1 < level.length then
    match sort val level with
    | [] => [[]]
    | i :: l => scanLevel val atol (val i) [] (i :: l)
  else [level]

/-- Coordinate of a row; the positions are always those of a row. -/
def rowValue (rows : List V) (c : V → ℝ) (i : ℕ) : ℝ :=
  match rows[i]? with
  | some v => c v
  | none => 0

/-- The loop on the dimensions (`meshes/quality.py:83-122`), from the single level of all rows. -/
noncomputable def levels (sort : (ℕ → ℝ) → List ℕ → List ℕ) (atol : ℝ) (rows : List V) :
    List (V → ℝ) → List (List ℕ) → List (List ℕ)
  | [], ls => ls
  | c :: cs, ls => levels sort atol rows cs (ls.flatMap (refineLevel sort (rowValue rows c) atol))

/-- `arr[iperm[istart]]` for each level (`meshes/quality.py:126-133`); for an empty level this reads the
first position of the next ones, and fails (`IndexError`) when there is none. -/
def levelRows (rows : List V) : List (List ℕ) → Option (List V)
  | [] => some []
  | l :: ls =>
    match (l ++ ls.flatten).head?.bind (rows[·]?), levelRows rows ls with
    | some v, some vs => some (v :: vs)
    | _, _ => none

/-- `newID[iperm[istart:istop]] = ilevel` on `newID = np.arange(nv)` (`meshes/quality.py:127-132`): the
number of the level of each position. -/
def levelIds (n : ℕ) (ls : List (List ℕ)) : List ℕ :=
  (List.range n).map fun i => (ls.findIdx? fun l => l.contains i).getD i

/-- `merge_duplicate_rows` (`meshes/quality.py:55-151`): the new rows and the new number of each row. -/
noncomputable def mergeRows (sort : (ℕ → ℝ) → List ℕ → List ℕ) (coords : List (V → ℝ)) (atol : ℝ)
    (rows : List V) : Option (List V × List ℕ) :=
  let ls := levels sort atol rows coords [List.range rows.length]
  match levelRows rows ls with
  | some vs => some (vs, levelIds rows.length ls)
  | none => none

/-- `new_id[faces]` on one face, `none` when a number is out of bounds. -/
def Face.lookup (ids : List ℕ) (f : Face) : Option Face :=
  match ids[f.a]?, ids[f.b]?, ids[f.c]?, ids[f.d]? with
  | some a, some b, some c, some d => some ⟨a, b, c, d⟩
  | _, _, _, _ => none

/-- `merge_duplicates` (`meshes/quality.py:17-52`): the new mesh and `new_id`. -/
noncomputable def Mesh.mergeDuplicates (sort : (ℕ → ℝ) → List ℕ → List ℕ) (atol : ℝ)
    (m : Mesh (V3 ℝ)) : Option (Mesh (V3 ℝ) × List ℕ) :=
  match mergeRows sort [V3.x, V3.y, V3.z] atol m.vertices with
  | none => none
  | some (vs, ids) =>
    match m.faces.mapM (Face.lookup ids) with
    | none => none
    | some fs => some (⟨vs, fs⟩, ids)

end Verif.Meshes
