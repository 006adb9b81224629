import Verif.Files.MeshFilesModel
import Mathlib.Analysis.Real.Sqrt

/-!
# Writing STL files (C44)

Model of `write_STL` (`io/mesh_writers.py:544-602`) on arrays in memory. The arrays of faces live in a heap, and an array
is known by its address. An array built by an operation of `numpy` has a new address, and `faces[ids, :] = …` writes at
the address of `faces`. The text of the file is represented by the list of its facets: the printing of the numbers is that
of C43. `none` stands for any exception.
-/

namespace Verif.Files

open Verif.Geometry Verif.Meshes

/-- The arrays of faces in memory. -/
abbrev FaceHeap := List (List Face)

/-- `np.where(faces[:, 0] != faces[:, -1])[0]` (`io/mesh_writers.py:563`). -/
def quadIds (faces : List Face) : List ℕ :=
  (faces.zipIdx.filter fun p => p.1.a ≠ p.1.d).map Prod.snd

/-- `faces[ids]` (`io/mesh_writers.py:565`), `none` for `IndexError`. -/
def takeRows (faces : List Face) (ids : List ℕ) : Option (List Face) := ids.mapM fun i => faces[i]?

/-- The changes of the copy of the quadrangles (`io/mesh_writers.py:566-567`): the first three corners, then the first
one in the last column. -/
def firstTriangle (f : Face) : Face := ⟨f.a, f.b, f.c, f.a⟩

/-- `faces[:, t2]` and `faces[ids, -1] = faces[ids, 0]` on a row (`io/mesh_writers.py:569-570`). -/
def secondTriangle (f : Face) : Face := ⟨f.a, f.c, f.d, f.a⟩

/-- An assignment to the rows of given indices of an array (`io/mesh_writers.py:569-570`). -/
def setRows (faces : List Face) (ids : List ℕ) (g : Face → Face) : List Face :=
  ids.foldl (fun fs i => fs.modify i g) faces

/-- A facet of the file: its normal vector and its corners. -/
structure Facet where
  normal : V3 ℝ
  v0 : V3 ℝ
  v1 : V3 ℝ
  v2 : V3 ℝ

/-- A vector divided by its norm (`io/mesh_writers.py:591`). -/
noncomputable def unitVector (n : V3 ℝ) : V3 ℝ :=
  let l := Real.sqrt (n.x ^ 2 + n.y ^ 2 + n.z ^ 2)
  ⟨n.x / l, n.y / l, n.z / l⟩

/-- `np.cross(v1 - v0, v2 - v0)` (`io/mesh_writers.py:590`). -/
def facetCross (u v w : V3 ℝ) : V3 ℝ :=
  ⟨(v.y - u.y) * (w.z - u.z) - (v.z - u.z) * (w.y - u.y), (v.z - u.z) * (w.x - u.x) - (v.x - u.x) * (w.z - u.z),
    (v.x - u.x) * (w.y - u.y) - (v.y - u.y) * (w.x - u.x)⟩

/-- The facet of a row (`io/mesh_writers.py:579-600`), `none` for a quadrangle and for a wrong index. The normal vector of
a triangle of zero area is not a number in the code and zero here. -/
noncomputable def facetOf (vertices : List (V3 ℝ)) (f : Face) : Option Facet :=
  if f.a ≠ f.d then none
  else
    match vertices[f.a]?, vertices[f.b]?, vertices[f.c]? with
    | some u, some v, some w => some ⟨unitVector (facetCross u v w), u, v, w⟩
    | _, _, _ => none

/-- `write_STL(filename, vertices, faces)` (`io/mesh_writers.py:544-602`), for an array of faces at the address `r`:
the memory after the call, and the facets of the file. -/
noncomputable def writeSTL (h : FaceHeap) (vertices : List (V3 ℝ)) (r : ℕ) : FaceHeap × Option (List Facet) :=
  match h[r]? with
  | none => (h, none)
  | some faces =>
    match takeRows faces (quadIds faces) with
    | none => (h, none)
    | some quads =>
      -- a copy, with a new address
      let h1 := h ++ [quads.map firstTriangle]
      -- in place
      let faces1 := setRows faces (quadIds faces) secondTriangle
      let h2 := h1.set r faces1
      -- `np.concatenate`, with a new address
      let all := faces1 ++ quads.map firstTriangle
      (h2 ++ [all], all.mapM (facetOf vertices))

end Verif.Files
