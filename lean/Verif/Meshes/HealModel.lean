import Verif.Meshes.CacheModel

/-!
# Healing of the normals

Model of `heal_normals` (`capytaine/meshes/quality.py:154-268`) and of `compute_connectivity`
(`capytaine/meshes/properties.py:114-203`). The Python sets of integers are visited here in increasing
order; the theorems hold for any order of visit of the neighbours of a face.
-/

namespace Verif.Meshes

open Verif.Geometry V3

/-- `face_w` (`meshes/properties.py:137-140`) and `face[:type_cell[iface]]` (`meshes/quality.py:217-218`):
the corners without the repeated one of triangles. -/
def Face.ring (f : Face) : List ℕ := if f.isTriangle then [f.a, f.b, f.c] else [f.a, f.b, f.c, f.d]

/-- Pairs `(face_w[index - 1], face_w[index])` (`meshes/properties.py:141-144`). -/
def Face.sides (f : Face) : List (ℕ × ℕ) :=
  if f.isTriangle then [(f.c, f.a), (f.a, f.b), (f.b, f.c)]
  else [(f.d, f.a), (f.a, f.b), (f.b, f.c), (f.c, f.d)]

/-- `iadj_v in v_v[ivertex]` (`meshes/properties.py:133-144`). -/
def joined (fs : List Face) (u v : ℕ) : Bool := fs.any fun f => f.sides.contains (u, v) || f.sides.contains (v, u)

/-- `set1 & set2` (`meshes/properties.py:151-154`): the numbers of the faces with both vertices. -/
def facesWith (fs : List Face) (u v : ℕ) : List ℕ :=
  (List.range fs.length).filter fun i =>
    match fs[i]? with
    | some f => f.ring.contains u && f.ring.contains v
    | none => false

/-- Pairs of vertices visited by the loops (`meshes/properties.py:150-152`). -/
def vertexPairs (nv : ℕ) (fs : List Face) : List (ℕ × ℕ) :=
  (List.range nv).flatMap fun u => ((List.range nv).filter fun v => joined fs u v).map fun v => (u, v)

/-- The faces of `f_f[i]` (`meshes/properties.py:149-157`). -/
def adjacent (nv : ℕ) (fs : List Face) (i : ℕ) : List ℕ :=
  (List.range fs.length).filter fun j => (vertexPairs nv fs).any fun p =>
    facesWith fs p.1 p.2 == [i, j] || facesWith fs p.1 p.2 == [j, i]

/-- `boundary_edges[i_v_orig] = i_v_target`: a dictionary in insertion order. -/
def dictSet (d : List (ℕ × ℕ)) (k v : ℕ) : List (ℕ × ℕ) :=
  if d.any (·.1 == k) then d.map fun x => if x.1 == k then (k, v) else x else d ++ [(k, v)]

/-- Positions of two vertices in a face, `np.where(...)[0]` (`meshes/properties.py:164`). -/
def positions (l : List ℕ) (u v : ℕ) : List ℕ :=
  (List.range l.length).filter fun k => l[k]? == some u || l[k]? == some v

/-- The loop on the pairs of vertices (`meshes/properties.py:150-173`): `none` when a pair is not in one or
two faces (`RuntimeError`), otherwise `boundary_edges`. -/
def boundaryEdges (nv : ℕ) (fs : List Face) : Option (List (ℕ × ℕ)) :=
  (vertexPairs nv fs).foldlM (fun d p =>
    match facesWith fs p.1 p.2 with
    | [_, _] => some d
    | [i] =>
      match fs[i]? with
      | none => none
      | some f =>
        match positions f.ring p.1 p.2 with
        | k0 :: k1 :: _ =>
          let x0 := f.ring.getD k0 0
          let x1 := f.ring.getD k1 0
          if k1 ≠ k0 + 1 then some (dictSet d x0 x1) else some (dictSet d x1 x0)
        | _ => none
    | _ => none) []

/-- The inner loop on the boundaries (`meshes/properties.py:186-196`): follow the edges until there is no
next one; the remaining edges and the last vertex. -/
def followBoundary : ℕ → List (ℕ × ℕ) → ℕ → List (ℕ × ℕ) × ℕ
  | 0, d, v => (d, v)
  | n + 1, d, v =>
    match d.find? (·.1 == v) with
    | none => (d, v)
    | some e => followBoundary n (d.filter (·.1 != v)) e.2

/-- The outer loop on the boundaries (`meshes/properties.py:178-198`): whether a closed one is found.
`popitem` takes the last edge. -/
def hasBoundary : ℕ → List (ℕ × ℕ) → Bool
  | 0, _ => false
  | n + 1, d =>
    match d.getLast? with
    | none => false
    | some e =>
      let r := followBoundary d.length d.dropLast e.2
      r.2 == e.1 || hasBoundary n r.1

/-- The common vertices, `list(s1 & s2)` (`meshes/quality.py:196-215`). -/
def commonVertices (f g : Face) : List ℕ := f.toList.dedup.filter fun v => g.toList.contains v

/-- The comparison of two neighbours (`meshes/quality.py:216-228`): whether they run along the common side
in the same direction. `np.roll(l, -k)` is a rotation to the left. -/
def sameDirection (f g : Face) (v1 v2 : ℕ) : Bool :=
  let fr := f.ring.rotate (f.toList.idxOf v1)
  let gr := g.ring.rotate (g.toList.idxOf v1)
  if fr[1]? == some v2 then gr[1]? == some v2 else gr.getLast? == some v2

/-- State of the flood (`meshes/quality.py:176-184`): the array of faces, `f_vis` as the list of visited
faces, and the stack with its top first. -/
structure Flood where
  faces : List Face
  visited : List ℕ
  stack : List ℕ

/-- One neighbour `j` of the face `i` (`meshes/quality.py:198-231`). The removal of `i` from `f_f[j]` is left
out: `i` is already visited, so that it would be skipped anyway. -/
def Flood.visit (i : ℕ) (s : Flood) (j : ℕ) : Flood :=
  if j ∈ s.visited then s
  else
    match s.faces[i]?, s.faces[j]? with
    | some f, some g =>
      match commonVertices f g with
      | [v1, v2] =>
        ⟨if sameDirection f g v1 v2 then s.faces.set j g.flip else s.faces, j :: s.visited, j :: s.stack⟩
      | _ => { s with visited := j :: s.visited }
    | _, _ => s

/-- The loop `while 1` (`meshes/quality.py:185-231`), with a bound on the number of turns. `nb` are the lists
of neighbours. -/
def Flood.run (nb : ℕ → List ℕ) : ℕ → Flood → Flood
  | 0, s => s
  | n + 1, s =>
    match s.stack with
    | i :: st => Flood.run nb n ((nb i).foldl (Flood.visit i) { s with stack := st })
    | [] =>
      match (List.range s.faces.length).find? fun i => !s.visited.contains i with
      | some i => Flood.run nb n { s with visited := i :: s.visited, stack := [i] }
      | none => s

/-- The flood of the whole mesh (`meshes/quality.py:176-239`). -/
def floodFaces (nb : ℕ → List ℕ) (fs : List Face) : List Face :=
  (Flood.run nb (2 * fs.length + 1) ⟨fs, [0], [0]⟩).faces

/-- `hs` (`meshes/quality.py:243-250`): sum of `(z - zmax)` times the area times the normal. -/
noncomputable def outwardSum (zmax : ℝ) (t : Table) : V3 ℝ :=
  (t.map fun x => ((x.1.center.z - zmax) * x.1.area) • x.1.normal).sum

/-- `np.max(mesh._vertices[:, 2])` (`meshes/quality.py:243`). -/
noncomputable def Mesh.zmax (m : Mesh (V3 ℝ)) : ℝ :=
  match m.vertices with
  | [] => 0
  | v :: vs => vs.foldl (fun z w => max z w.z) v.z

/-- First part of `heal_normals` (`meshes/quality.py:159-239`): the connectivity is computed, which may raise,
then the mesh is flooded. `f_vis[0] = True` raises when there is no face. -/
def Mesh.makeConsistent (m : Mesh (V3 ℝ)) : Option (Mesh (V3 ℝ)) :=
  match m.faces with
  | [] => none
  | _ =>
    match boundaryEdges m.vertices.length m.faces with
    | none => none
    | some _ => some { m with faces := floodFaces (adjacent m.vertices.length m.faces) m.faces }

/-- `mesh_closed` (`meshes/quality.py:167-172`), computed before the flood. -/
def Mesh.closedFlag (m : Mesh (V3 ℝ)) : Bool :=
  match boundaryEdges m.vertices.length m.faces with
  | none => false
  | some d => !hasBoundary d.length d

open Classical in
/-- Last part of `heal_normals` (`meshes/quality.py:241-263`): flip everything if the normals go inward. -/
noncomputable def Mesh.makeOutward (m : Mesh (V3 ℝ)) (closed : Bool) (t : Table) : Mesh (V3 ℝ) :=
  if closed ∧ (outwardSum m.zmax t).z < 0 then m.flipNormals else m

/-- `heal_normals` (`meshes/quality.py:154-268`), with the decorator. The panel data are read after the faces
have been changed in place and before the cache is cleared. -/
noncomputable def Obj.healNormals {K W Q : Type} (o : Obj K W Q) : Option (Obj K W Q) :=
  o.transform ⟨Mesh.makeConsistent, fun m t => t.map fun t => m.makeOutward o.mesh.closedFlag t⟩

end Verif.Meshes
