import Verif.Meshes.Model

/-!
# Meshes with their cached data

Model of the dictionary `__internals__` of `capytaine/meshes/meshes.py`, which keeps the panel data once
they have been read, and of the decorator of transformations of `capytaine/meshes/geometry.py`. The state
is the list of all the meshes built so far by the user: the number of a mesh in this list is the Python
variable holding it. The memory is not shared between meshes: `deepcopy` and the indexing of arrays by
lists, used by the code to build new meshes, allocate new arrays.
-/

namespace Verif.Meshes

open Verif.Geometry

/-- Areas, normals, centers and radiuses of all the panels. -/
abbrev Table := List (Panel × ℝ)

/-- Quadrature points and weights of all the panels. -/
abbrev Quadrature := List (List (V3 ℝ × ℝ))

/-- `compute_faces_properties` (`meshes/properties.py:14-86`) for all the faces, `none` when a face uses a
vertex that does not exist (`IndexError`). -/
noncomputable def Mesh.faceTable (m : Mesh (V3 ℝ)) : Option Table :=
  m.faces.mapM (faceProperties m.vertices)

/-- What is computed from the vertices and faces besides the panel data: `other k` stands for the other
cached data (`triangles_ids`, `quadrangles_ids`, `hash`, `center_of_mass_of_nodes`, `diameter_of_nodes`,
`meshes/meshes.py:273-290`, `358-392`, `705-708`), `rule` for `compute_quadrature_on_faces`
(`meshes/quadratures.py`). Both may raise. -/
structure Derived (K W Q : Type) where
  other : K → Mesh (V3 ℝ) → Option W
  rule : Q → Mesh (V3 ℝ) → Option Quadrature

/-- A mesh with its quadrature method and `__internals__` (`meshes/meshes.py:44-68`). The four arrays of
panel data are stored together (`meshes/meshes.py:296-322`). -/
structure Obj (K W Q : Type) where
  mesh : Mesh (V3 ℝ)
  method : Option Q
  table : Option Table
  quadrature : Option Quadrature
  others : K → Option W

variable {K W Q : Type}

/-- `Mesh.__init__` (`meshes/meshes.py:44-62`). -/
def Obj.new (m : Mesh (V3 ℝ)) (method : Option Q) : Obj K W Q := ⟨m, method, none, none, fun _ => none⟩

/-- `__internals__.clear()`. -/
def Obj.clear (o : Obj K W Q) : Obj K W Q := .new o.mesh o.method

/-- `faces_areas`, `faces_centers`, `faces_normals`, `faces_radiuses` (`meshes/meshes.py:296-322`). The
positions of the triangles, which are computed and cached at the same time, are not recorded in `others`. -/
noncomputable def Obj.readTable (o : Obj K W Q) : Obj K W Q × Option Table :=
  match o.table with
  | some t => (o, some t)
  | none =>
    match o.mesh.faceTable with
    | some t => ({ o with table := some t }, some t)
    | none => (o, none)

open Classical in
/-- The other cached properties, all read in the same way (`meshes/meshes.py:273-290`, `358-392`,
`705-708`). -/
noncomputable def Obj.readOther (D : Derived K W Q) (k : K) (o : Obj K W Q) : Obj K W Q × Option W :=
  match o.others k with
  | some w => (o, some w)
  | none =>
    match D.other k o.mesh with
    | some w => ({ o with others := fun j => if j = k then some w else o.others j }, some w)
    | none => (o, none)

/-- `compute_quadrature` (`meshes/meshes.py:330-340`): the triangles are healed first, which clears the
cache. -/
noncomputable def Obj.computeQuadrature (D : Derived K W Q) (method : Option Q) (o : Obj K W Q) :
    Obj K W Q × Option Quadrature :=
  let o := Obj.clear { o with mesh := o.mesh.healTriangles }
  match method with
  | none =>
    match o.readTable with
    | (o, some t) =>
      let q := t.map fun x => [(x.1.center, x.1.area)]
      ({ o with quadrature := some q, method := none }, some q)
    | (o, none) => (o, none)
  | some r =>
    match D.rule r o.mesh with
    | some q => ({ o with quadrature := some q, method := some r }, some q)
    | none => (o, none)

/-- `quadrature_points` (`meshes/meshes.py:324-328`). -/
noncomputable def Obj.readQuadrature (D : Derived K W Q) (o : Obj K W Q) : Obj K W Q × Option Quadrature :=
  match o.quadrature with
  | some q => (o, some q)
  | none => o.computeQuadrature D o.method

/-- A function decorated with `inplace_transformation`, as it is applied in place: `before` are the changes
made before panel data are read (only in `heal_normals`), `after` are those made afterwards, which may
depend on the panel data that were read. `none` is an exception. -/
structure Transformation where
  before : Mesh (V3 ℝ) → Option (Mesh (V3 ℝ))
  after : Mesh (V3 ℝ) → Option Table → Option (Mesh (V3 ℝ))

/-- A transformation that reads no panel data: translations, rotations, reflections, flips,
triangulations, healing of triangles, removal of unused vertices, clipping. -/
def Transformation.plain (f : Mesh (V3 ℝ) → Option (Mesh (V3 ℝ))) : Transformation := ⟨some, fun m _ => f m⟩

/-- The decorator `inplace_transformation` (`meshes/geometry.py:21-35`) with `inplace=True`: the body, then
the cache is cleared. Clearing the cache more than once, as in a decorated function calling another one,
makes no difference. Reading the panel data when the body does not use them makes no difference either,
as they are forgotten at the end. An exception is assumed to be raised before the object has been changed,
as in the code. -/
noncomputable def Obj.transform (T : Transformation) (o : Obj K W Q) : Option (Obj K W Q) :=
  match T.before o.mesh with
  | none => none
  | some m =>
    match T.after m (Obj.readTable { o with mesh := m }).2 with
    | none => none
    | some m' => some (Obj.clear { o with mesh := m' })

/-- Setter of `vertices` (`meshes/meshes.py:104-109`). -/
def Obj.setVertices (vs : List (V3 ℝ)) (o : Obj K W Q) : Obj K W Q :=
  Obj.clear { o with mesh := { o.mesh with vertices := vs } }

open Classical in
/-- Setter of `faces` (`meshes/meshes.py:120-131`). -/
noncomputable def Obj.setFaces (fs : List Face) (o : Obj K W Q) : Option (Obj K W Q) :=
  if Mesh.Valid ⟨o.mesh.vertices, fs⟩ then some (Obj.clear { o with mesh := { o.mesh with faces := fs } })
  else none

/-- Copy of the panel data in an extracted mesh (`meshes/meshes.py:197-200` and `239-241`). When a position
is out of bounds the extraction has failed before. -/
def selectTable (t : Option Table) (ids : List ℕ) : Option Table :=
  match t with
  | some t => select t ids
  | none => none

/-- `extract_faces` (`meshes/meshes.py:204-254`): the panel data are copied if they were known. -/
def Obj.extractFaces (ids : List ℕ) (o : Obj K W Q) : Option (Obj K W Q) :=
  match o.mesh.extractFaces ids with
  | none => none
  | some (m, _) => some { (Obj.new m none : Obj K W Q) with table := selectTable o.table ids }

/-- `extract_one_face` (`meshes/meshes.py:193-202`). -/
def Obj.extractOneFace (i : ℕ) (o : Obj K W Q) : Option (Obj K W Q) :=
  match o.mesh.extractOneFace i with
  | none => none
  | some m => some { (Obj.new m none : Obj K W Q) with table := selectTable o.table [i] }

/-- What a user may do with the meshes built so far, designated by their number. -/
inductive Op (K W Q : Type) where
  | build (m : Mesh (V3 ℝ)) (method : Option Q)
  | readTable (h : ℕ)
  | readOther (h : ℕ) (k : K)
  | readQuadrature (h : ℕ)
  | computeQuadrature (h : ℕ) (method : Option Q)
  | setVertices (h : ℕ) (vs : List (V3 ℝ))
  | setFaces (h : ℕ) (fs : List Face)
  | transform (h : ℕ) (T : Transformation) (inplace : Bool)
  | copy (h : ℕ)
  | extractFaces (h : ℕ) (ids : List ℕ)
  | extractOneFace (h : ℕ) (i : ℕ)

/-- All the meshes. -/
abbrev World (K W Q : Type) := List (Obj K W Q)

/-- Apply a change to a mesh, if there is one with this number. -/
def World.update (w : World K W Q) (h : ℕ) (f : Obj K W Q → Obj K W Q) : World K W Q :=
  match w[h]? with
  | some o => w.set h (f o)
  | none => w

/-- Add a mesh obtained from another one, if no exception was raised. -/
def World.add (w : World K W Q) (h : ℕ) (f : Obj K W Q → Option (Obj K W Q)) : World K W Q :=
  match w[h]?.bind f with
  | some o => w ++ [o]
  | none => w

/-- One action. An exception leaves everything as it was. -/
noncomputable def World.step (D : Derived K W Q) (w : World K W Q) : Op K W Q → World K W Q
  | .build m method => w ++ [.new m method]
  | .readTable h => w.update h fun o => o.readTable.1
  | .readOther h k => w.update h fun o => (o.readOther D k).1
  | .readQuadrature h => w.update h fun o => (o.readQuadrature D).1
  | .computeQuadrature h method => w.update h fun o => (o.computeQuadrature D method).1
  | .setVertices h vs => w.update h (Obj.setVertices vs)
  | .setFaces h fs => w.update h fun o => (o.setFaces fs).getD o
  | .transform h T true => w.update h fun o => (o.transform T).getD o
  | .transform h T false => w.add h (Obj.transform T)
  | .copy h => w.add h some
  | .extractFaces h ids => w.add h (Obj.extractFaces ids)
  | .extractOneFace h i => w.add h (Obj.extractOneFace i)

/-- A sequence of actions. -/
noncomputable def World.run (D : Derived K W Q) (w : World K W Q) (ops : List (Op K W Q)) : World K W Q :=
  ops.foldl (World.step D) w

end Verif.Meshes
