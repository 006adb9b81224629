import Mathlib.Data.Finset.Basic
import Mathlib.Data.Finset.Dedup
import Verif.Meshes.Model

/-!
# Meshes as sets of panels

Model of `as_set_of_faces`, `from_set_of_faces` and `==` of `capytaine/meshes/meshes.py`. A `frozenset` is a `Finset`. The
order in which Python goes through it is not known, hence the list of lists given to `fromSetOfFaces`. Simplification: two
vertices are the same when their coordinates are, which leaves out NaN.
-/

namespace Verif.Meshes

variable {V : Type} [DecidableEq V]

/-- The vertices of one row of `vertices[faces]`, as a `frozenset` (`meshes/meshes.py:674-675`). -/
def cornerSet (c : V × V × V × V) : Finset V := [c.1, c.2.1, c.2.2.1, c.2.2.2].toFinset

/-- `as_set_of_faces` (`meshes/meshes.py:674-675`). `none` when a face has an index out of bounds. -/
def Mesh.asSetOfFaces (m : Mesh V) : Option (Finset (Finset V)) :=
  (m.faces.mapM (corners m.vertices)).map fun cs => (cs.map cornerSet).toFinset

/-- The loop on the vertices of one face in `from_set_of_faces` (`meshes/meshes.py:684-690`): the vertices known after it,
and the positions of those of the face. -/
def addVertices (vs : List V) : List V → List V × List ℕ
  | [] => (vs, [])
  | v :: f =>
    if v ∈ vs then
      let r := addVertices vs f
      (r.1, vs.idxOf v :: r.2)
    else
      let r := addVertices (vs ++ [v]) f
      (r.1, vs.length :: r.2)

/-- The loop on the faces (`meshes/meshes.py:681-696`), before the padding of the triangles. -/
def addFaces (vs : List V) : List (List V) → List V × List (List ℕ)
  | [] => (vs, [])
  | f :: fs =>
    let r := addVertices vs f
    let s := addFaces r.1 fs
    (s.1, r.2 :: s.2)

/-- The row of a face (`meshes/meshes.py:692-696`): three positions are completed with the first one. With another number
of positions, the setter of the faces (`meshes/meshes.py:117-126`) refuses the array, or numpy refuses rows of different
lengths. -/
def rowOf : List ℕ → Option Face
  | [a, b, c] => some ⟨a, b, c, a⟩
  | [a, b, c, d] => some ⟨a, b, c, d⟩
  | _ => none

/-- `from_set_of_faces` (`meshes/meshes.py:677-697`), `none` when it raises an exception. -/
def fromSetOfFaces (fs : List (List V)) : Option (Mesh V) :=
  let r := addFaces [] fs
  (r.2.mapM rowOf).map fun rows => ⟨r.1, rows⟩

/-- `mesh == mesh` (`meshes/meshes.py:699-703`), for meshes with valid faces. -/
def Mesh.sameAs (m n : Mesh V) : Bool := m.asSetOfFaces == n.asSetOfFaces

end Verif.Meshes
