import Verif.Meshes.MergeModel

/-!
# Collections of meshes

Model of `capytaine/meshes/collections.py` and `capytaine/meshes/symmetric.py`: trees of meshes whose nodes
may remember a symmetry. Names of meshes are left out. A mesh object stored at two places of a tree is two
equal meshes here; this matters only for the motions in place.
-/

namespace Verif.Meshes

open Verif.Geometry V3

variable {V : Type}

/-- The class of a collection and the geometrical object it stores: `CollectionOfMeshes`
(`meshes/collections.py:19-44`), `ReflectionSymmetricMesh`, `TranslationalSymmetricMesh` and
`AxialSymmetricMesh` (`meshes/symmetric.py:29-53`, `110-152`, `237-275`). -/
inductive Sym where
  | plain
  | reflection (plane : Plane)
  | translation (vector : V3 ℝ)
  | axial (axis : Axis)

/-- A mesh, or a collection of any class with its tuple `_meshes` (`meshes/collections.py:32-44`). -/
inductive Tree where
  | leaf (m : Mesh (V3 ℝ))
  | node (s : Sym) (parts : List Tree)

/-- `np.concatenate` of a list of arrays: `ValueError` when there is nothing to concatenate. -/
def concatenate {A : Type} : List (List A) → Option (List A)
  | [] => none
  | l => some l.flatten

mutual
/-- `nb_vertices` (`meshes/collections.py:140-142`, `meshes/meshes.py:94-97`). -/
def Tree.nbVertices : Tree → ℕ
  | .leaf m => m.vertices.length
  | .node _ ps => nbVerticesAll ps
/-- The sum over the parts, in `nb_vertices`. -/
def nbVerticesAll : List Tree → ℕ
  | [] => 0
  | t :: ts => t.nbVertices + nbVerticesAll ts
end

mutual
/-- `nb_faces` (`meshes/collections.py:144-146`). -/
def Tree.nbFaces : Tree → ℕ
  | .leaf m => m.faces.length
  | .node _ ps => nbFacesAll ps
/-- The sum over the parts, in `nb_faces`. -/
def nbFacesAll : List Tree → ℕ
  | [] => 0
  | t :: ts => t.nbFaces + nbFacesAll ts
end

mutual
/-- An array read by concatenation of the arrays of the parts: `vertices`, `faces_normals`, `faces_areas`,
`faces_centers`, `faces_radiuses` (`meshes/collections.py:152-154`, `165-179`), from the array `f` of a
single mesh. -/
def Tree.array {A : Type} (f : Mesh (V3 ℝ) → List A) : Tree → Option (List A)
  | .leaf m => some (f m)
  | .node _ ps => (arrays f ps).bind concatenate
/-- The list of the arrays of the parts. -/
def arrays {A : Type} (f : Mesh (V3 ℝ) → List A) : List Tree → Option (List (List A))
  | [] => some []
  | t :: ts =>
    match t.array f, arrays f ts with
    | some a, some as => some (a :: as)
    | _, _ => none
end

/-- `vertices` (`meshes/collections.py:152-154`). -/
def Tree.vertices (t : Tree) : Option (List (V3 ℝ)) := t.array Mesh.vertices

/-- The arrays `faces_areas`, `faces_normals`, `faces_centers` and `faces_radiuses`
(`meshes/collections.py:165-179`). -/
noncomputable def Tree.faceProps (t : Tree) : Option (List (Option (Panel × ℝ))) := t.array Mesh.faceProps

/-- `mesh.faces + nbv` (`meshes/collections.py:163`). -/
def shiftFaces (fs : List Face) (nbv : ℕ) : List Face := fs.map (Face.map (· + nbv))

mutual
/-- `faces` (`meshes/collections.py:156-163`): `zip` with the cumulated numbers of vertices of all parts but
the last. -/
def Tree.faces : Tree → Option (List Face)
  | .leaf m => some m.faces
  | .node _ ps => (allFaces ps).bind fun fss =>
      concatenate (List.zipWith shiftFaces fss (List.scanl (· + ·) 0 (ps.dropLast.map Tree.nbVertices)))
/-- The arrays of faces of the parts. -/
def allFaces : List Tree → Option (List (List Face))
  | [] => some []
  | t :: ts =>
    match t.faces, allFaces ts with
    | some a, some as => some (a :: as)
    | _, _ => none
end

/-- The mesh given to `Mesh(self.vertices, self.faces)` in `merged` (`meshes/collections.py:232`). -/
def Tree.assembled (t : Tree) : Option (Mesh (V3 ℝ)) :=
  match t.vertices, t.faces with
  | some vs, some fs => some ⟨vs, fs⟩
  | _, _ => none

/-- `indices_of_mesh` (`meshes/collections.py:210-213`): first position and position after the last one.
Only for existing parts. -/
def indicesOfMesh (ps : List Tree) (k : ℕ) : Option (ℕ × ℕ) :=
  ps[k]?.map fun t => (((ps.take k).map Tree.nbFaces).sum, ((ps.take k).map Tree.nbFaces).sum + t.nbFaces)

/-- The loop of `submesh_containing_face` from the part number `k`, with the number of faces seen before. -/
def submeshLoop (i : ℕ) : List Tree → (k total : ℕ) → Option (ℕ × ℕ)
  | [], _, _ => none
  | t :: ts, k, total =>
    if i < total + t.nbFaces then some (k, i - (total + t.nbFaces - t.nbFaces))
    else submeshLoop i ts (k + 1) (total + t.nbFaces)

/-- `submesh_containing_face` (`meshes/collections.py:215-220`), `None` after the last face. -/
def submeshContainingFace (ps : List Tree) (i : ℕ) : Option (ℕ × ℕ) := submeshLoop i ps 0 0

mutual
/-- `extract_one_face` (`meshes/collections.py:237-248`). `none` when the number is out of bounds
(`TypeError` or `IndexError`). -/
def Tree.extractOneFace : Tree → ℕ → Option (Mesh (V3 ℝ))
  | .leaf m, i => m.extractOneFace i
  | .node _ ps, i =>
    match submeshContainingFace ps i with
    | none => none
    | some (k, j) => extractFrom ps k j
/-- `self[id_mesh].extract_one_face(relative_id_face)`. -/
def extractFrom : List Tree → ℕ → ℕ → Option (Mesh (V3 ℝ))
  | [], _, _ => none
  | t :: _, 0, j => t.extractOneFace j
  | _ :: ts, k + 1, j => extractFrom ts k j
end

/-- `prune_empty_meshes` (`meshes/collections.py:286-293`). -/
def prune (ps : List Tree) : List Tree :=
  match ps.filter fun t => decide (t.nbFaces > 0) && decide (t.nbVertices > 0) with
  | [] => [.leaf ⟨[], []⟩]
  | l => l

mutual
/-- `clip` of a mesh or of a collection (`meshes/collections.py:271-279`, `meshes/meshes.py:601-608`): the
clipped tree and the `faces_ids` of `_clipping_data`. The clipping of a single mesh is the argument
`clipLeaf`. -/
def Tree.clip (clipLeaf : Mesh (V3 ℝ) → Mesh (V3 ℝ) × List ℕ) : Tree → Tree × List ℕ
  | .leaf m => (.leaf (clipLeaf m).1, (clipLeaf m).2)
  | .node s ps => (.node s (prune (clipAll clipLeaf ps 0).1), (clipAll clipLeaf ps 0).2)
/-- The loop on the parts with their `faces_shift`, that is the number of faces of the previous parts. -/
def clipAll (clipLeaf : Mesh (V3 ℝ) → Mesh (V3 ℝ) × List ℕ) : List Tree → ℕ → List Tree × List ℕ
  | [], _ => ([], [])
  | t :: ts, shift =>
    ((t.clip clipLeaf).1 :: (clipAll clipLeaf ts (shift + t.nbFaces)).1,
      (t.clip clipLeaf).2.map (· + shift) ++ (clipAll clipLeaf ts (shift + t.nbFaces)).2)
end

/-- `merged` (`meshes/collections.py:226-235`) for a collection; a mesh is returned as it is
(`meshes/meshes.py:152-154`). See `Mesh.mergeDuplicates` for the arguments. -/
noncomputable def Tree.merged (sort : (ℕ → ℝ) → List ℕ → List ℕ) (atol : ℝ) : Tree → Option (Mesh (V3 ℝ))
  | .leaf m => some m
  | .node s ps =>
    match (Tree.node s ps).assembled with
    | none => none
    | some m => (m.mergeDuplicates sort atol).map fun r => r.1.healTriangles

end Verif.Meshes
