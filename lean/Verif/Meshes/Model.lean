import Verif.Geometry.TransformModel

/-!
# Meshes

Model of `capytaine/meshes/meshes.py` and `capytaine/meshes/quality.py`: connectivities, extraction of
faces, healing and motions. The vertices are of any type `V` as long as no coordinate is used, and rows
of three real numbers otherwise. Names of meshes and messages are left out.
-/

namespace Verif.Meshes

open Verif.Geometry V3

/-- A row of the array of faces (`meshes/meshes.py:111-131`): four indices of vertices. -/
@[ext] structure Face where
  a : ℕ
  b : ℕ
  c : ℕ
  d : ℕ
  deriving DecidableEq

/-- The four indices in order. -/
def Face.toList (f : Face) : List ℕ := [f.a, f.b, f.c, f.d]

/-- Apply a renumbering of vertices, `new_id[faces]`. -/
def Face.map (g : ℕ → ℕ) (f : Face) : Face := ⟨g f.a, g f.b, g f.c, g f.d⟩

/-- `is_triangle` (`meshes/meshes.py:346-355`). -/
def Face.isTriangle (f : Face) : Bool := f.a == f.d

/-- `Mesh`: the arrays `_vertices` and `_faces` (`meshes/meshes.py:44-68`). -/
structure Mesh (V : Type) where
  vertices : List V
  faces : List Face

variable {V : Type}

/-- The check of the setter of `faces` (`meshes/meshes.py:116-131`): only existing vertices. (The
indices are natural numbers here.) -/
def Mesh.Valid (m : Mesh V) : Prop := ∀ f ∈ m.faces, ∀ i ∈ f.toList, i < m.vertices.length

/-- Positions in increasing order of the vertices that belong to one of the faces,
`np.arange(nv)[vertices_mask]` (`meshes/meshes.py:224-227`). -/
def usedIds (nv : ℕ) (faces : List Face) : List ℕ :=
  (List.range nv).filter fun i => faces.any fun f => f.toList.contains i

/-- `new_id__v` (`meshes/meshes.py:231-232`): the kept vertices are numbered in order, the other numbers
are unchanged. -/
def newId (kept : List ℕ) (i : ℕ) : ℕ := if i ∈ kept then kept.idxOf i else i

/-- Rows of an array selected by a list of positions, `none` when one is out of bounds (`IndexError`).
Negative positions are left out. -/
def select {A : Type} (l : List A) (ids : List ℕ) : Option (List A) := ids.mapM fun i => l[i]?

/-- `extract_faces` with `return_index=True` (`meshes/meshes.py:204-254`): the new mesh and the positions
of its vertices in the original one. -/
def Mesh.extractFaces (m : Mesh V) (ids : List ℕ) : Option (Mesh V × List ℕ) :=
  match select m.faces ids with
  | none => none
  | some fs =>
    let kept := usedIds m.vertices.length fs
    match select m.vertices kept with
    | none => none
    | some vs => some (⟨vs, fs.map (Face.map (newId kept))⟩, kept)

/-- `extract_one_face` on the arrays (`meshes/meshes.py:193-195`): the corners are copied, and the face is
always written as a quadrangle. -/
def Mesh.extractOneFace (m : Mesh V) (i : ℕ) : Option (Mesh V) :=
  match m.faces[i]? with
  | none => none
  | some f =>
    match select m.vertices f.toList with
    | none => none
    | some vs => some ⟨vs, [⟨0, 1, 2, 3⟩]⟩

/-- `remove_unused_vertices` (`meshes/quality.py:271-301`). -/
def Mesh.removeUnusedVertices (m : Mesh V) : Option (Mesh V) :=
  let kept := usedIds m.vertices.length m.faces
  if kept.length < m.vertices.length then
    match select m.vertices kept with
    | none => none
    | some vs => some ⟨vs, m.faces.map (Face.map (newId kept))⟩
  else some m

/-- `np.roll(face, 1)`. -/
def Face.roll (f : Face) : Face := ⟨f.d, f.a, f.b, f.c⟩

/-- One step of `heal_triangles`: `faces[quads] = np.roll(faces[quads], 1, axis=1)`. -/
def Face.rollQuad (f : Face) : Face := if f.a != f.d then f.roll else f

/-- `heal_triangles` on one face (`meshes/quality.py:304-334`): three times the same step. -/
def Face.heal (f : Face) : Face := f.rollQuad.rollQuad.rollQuad

/-- `heal_triangles` (`meshes/quality.py:304-334`). -/
def Mesh.healTriangles (m : Mesh V) : Mesh V := { m with faces := m.faces.map Face.heal }

/-- `np.fliplr` on one face. -/
def Face.flip (f : Face) : Face := ⟨f.d, f.c, f.b, f.a⟩

/-- `flip_normals` (`meshes/meshes.py:576-582`). -/
def Mesh.flipNormals (m : Mesh V) : Mesh V := { m with faces := m.faces.map Face.flip }

/-- `triangulate_quadrangles` (`meshes/meshes.py:610-641`): each quadrangle `(0, 1, 2, 3)` is replaced in
place by `(0, 2, 3, 0)` and `(0, 1, 2, 0)` is added at the end. -/
def Mesh.triangulateQuadrangles (m : Mesh V) : Mesh V :=
  { m with faces :=
      (m.faces.map fun f => if f.isTriangle then f else ⟨f.a, f.c, f.d, f.a⟩) ++
      (m.faces.filter fun f => !f.isTriangle).map fun f => ⟨f.a, f.b, f.c, f.a⟩ }

/-- `translate` (`meshes/meshes.py:543-557`). -/
def Mesh.translate (m : Mesh (V3 ℝ)) (t : V3 ℝ) : Mesh (V3 ℝ) :=
  { m with vertices := m.vertices.map (· + t) }

/-- `rotate` (`meshes/meshes.py:559-571`). -/
noncomputable def Mesh.rotate (m : Mesh (V3 ℝ)) (a : Axis) (θ : ℝ) : Mesh (V3 ℝ) :=
  { m with vertices := m.vertices.map (a.rotatePoint θ) }

/-- `mirror` (`meshes/meshes.py:584-594`). -/
noncomputable def Mesh.mirror (m : Mesh (V3 ℝ)) (P : Plane) : Mesh (V3 ℝ) :=
  { m with vertices := m.vertices.map P.mirrorPoint }.flipNormals

/-! ## Geometry of the panels -/

/-- Area, normal, center and radius of a panel. -/
@[ext] structure Panel where
  area : ℝ
  normal : V3 ℝ
  center : V3 ℝ

/-- Value kept by the arrays initialised with zeros, `meshes/properties.py:26-28`. -/
def Panel.null : Panel := ⟨0, 0, 0⟩

open Classical in
/-- Triangles in `compute_faces_properties` (`meshes/properties.py:30-49`). -/
noncomputable def trianglePanel (p0 p1 p2 : V3 ℝ) : Panel :=
  let n := cross (p1 - p0) (p2 - p0)
  if |norm n| < 1e-12 then .null
  else ⟨norm n / 2, (1 / norm n) • n, (1 / 3 : ℝ) • (p0 + p1 + p2)⟩

open Classical in
/-- Quadrangles in `compute_faces_properties` (`meshes/properties.py:51-84`). When both halves have no
area the code divides zero by zero; this does not happen when the normal is not null. -/
noncomputable def quadPanel (p0 p1 p2 p3 : V3 ℝ) : Panel :=
  let n := cross (p2 - p0) (p3 - p1)
  if |norm n| < 1e-12 then .null
  else
    let a1 := norm (cross (p1 - p0) (p2 - p0)) * 0.5
    let a2 := norm (cross (p3 - p0) (p2 - p0)) * 0.5
    let c1 := (1 / 3 : ℝ) • (p0 + p1 + p2)
    let c2 := (1 / 3 : ℝ) • (p2 + p3 + p0)
    ⟨a1 + a2, (1 / norm n) • n, (1 / (a1 + a2)) • (a1 • c1 + a2 • c2)⟩

/-- The corners of a face, as arrays indexed by the face. -/
def corners (vs : List V) (f : Face) : Option (V × V × V × V) :=
  match vs[f.a]?, vs[f.b]?, vs[f.c]?, vs[f.d]? with
  | some p0, some p1, some p2, some p3 => some (p0, p1, p2, p3)
  | _, _, _, _ => none

/-- Properties of one panel from its corners, `meshes/properties.py:14-86`. -/
noncomputable def panelOf (tri : Bool) (c : V3 ℝ × V3 ℝ × V3 ℝ × V3 ℝ) : Panel :=
  if tri then trianglePanel c.1 c.2.1 c.2.2.1 else quadPanel c.1 c.2.1 c.2.2.1 c.2.2.2

/-- `compute_radiuses` for one panel, `meshes/properties.py:89-113`. -/
noncomputable def radiusOf (center : V3 ℝ) (c : V3 ℝ × V3 ℝ × V3 ℝ × V3 ℝ) : ℝ :=
  max (max (norm (center - c.1)) (norm (center - c.2.1)))
    (max (norm (center - c.2.2.1)) (norm (center - c.2.2.2)))

/-- `compute_faces_properties` for one face: the panel and its radius. -/
noncomputable def faceProperties (vs : List (V3 ℝ)) (f : Face) : Option (Panel × ℝ) :=
  (corners vs f).map fun c => (panelOf f.isTriangle c, radiusOf (panelOf f.isTriangle c).center c)

/-- `compute_faces_properties` (`meshes/properties.py:14-86`). -/
noncomputable def Mesh.faceProps (m : Mesh (V3 ℝ)) : List (Option (Panel × ℝ)) :=
  m.faces.map (faceProperties m.vertices)

/-- One line of the arrays `faces_areas`, `faces_normals` and `faces_centers` (`meshes/meshes.py:296-315`). -/
noncomputable def Mesh.panelAt (m : Mesh (V3 ℝ)) (i : ℕ) : Option Panel :=
  match m.faceProps[i]? with
  | some (some (p, _)) => some p
  | _ => none

end Verif.Meshes
