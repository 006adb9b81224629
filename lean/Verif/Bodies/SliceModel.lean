import Verif.Bodies.JoinModel

/-!
# Cutting bodies

Model of `sliced_by_plane`, `extract_lid`, and of `extract_faces`, `sliced_by_plane` and `clip` of bodies.
-/

namespace Verif.Meshes

open Verif.Geometry V3

open Classical in
/-- `np.where(plane.distance_to_point(self.faces_centers) < 0)[0]` (`meshes/meshes.py:258`). -/
noncomputable def Mesh.idsBelow (m : Mesh (V3 ℝ)) (P : Plane) : List ℕ :=
  (List.range m.faces.length).filter fun i =>
    match m.panelAt i with
    | some p => decide (P.distanceToPoint p.center < 0)
    | none => false

/-- `set(range(n)) - set(ids)` as the list of its elements in increasing order. -/
def remaining (n : ℕ) (ids : List ℕ) : List ℕ := (List.range n).filter fun i => !ids.contains i

/-- `sliced_by_plane` (`meshes/meshes.py:256-265`). `order` is the order in which Python enumerates a set of
numbers. -/
noncomputable def Mesh.slicedByPlane (order : List ℕ → List ℕ) (P : Plane) (m : Mesh (V3 ℝ)) : Option Tree :=
  let ids := m.idsBelow P
  if ids.length = 0 ∨ ids.length = m.faces.length then some (.leaf m)
  else
    match m.extractFaces ids, m.extractFaces (order (remaining m.faces.length ids)) with
    | some p, some q => some (.node .plain [.leaf p.1, .leaf q.1])
    | _, _ => none

mutual
/-- `sliced_by_plane` of a mesh or a collection (`meshes/collections.py:253-254`). Symmetric meshes become plain
collections. -/
noncomputable def Tree.slicedByPlane (order : List ℕ → List ℕ) (P : Plane) : Tree → Option Tree
  | .leaf m => m.slicedByPlane order P
  | .node _ ps => (slicedAll order P ps).map (.node .plain)
/-- The loop on the parts. -/
noncomputable def slicedAll (order : List ℕ → List ℕ) (P : Plane) : List Tree → Option (List Tree)
  | [] => some []
  | t :: ts =>
    match t.slicedByPlane order P, slicedAll order P ts with
    | some u, some us => some (u :: us)
    | _, _ => none
end

open Classical in
/-- The panels on the plane (`_face_on_plane`, `meshes/meshes.py:846-850`), for the two tests of `Plane`. -/
noncomputable def Mesh.idsOnPlane (m : Mesh (V3 ℝ)) (P : Plane) : List ℕ :=
  (List.range m.faces.length).filter fun i =>
    match m.panelAt i with
    | some p => decide (P.contains p.center) && decide (parallelVectors P.normal p.normal)
    | none => false

/-- `extract_lid` (`meshes/meshes.py:852-870`): the hull and the lid. -/
noncomputable def Mesh.extractLid (order : List ℕ → List ℕ) (P : Plane) (m : Mesh (V3 ℝ)) :
    Option (Mesh (V3 ℝ) × Mesh (V3 ℝ)) :=
  let ids := m.idsOnPlane P
  match m.extractFaces ids, m.extractFaces (order (remaining m.faces.length ids)) with
  | some l, some h => some (h.1, l.1)
  | _, _ => none

end Verif.Meshes

namespace Verif.Bodies

open Verif.Geometry Verif.Meshes V3

/-- Healing in the constructor of bodies (`bodies/bodies.py:101-102`): `heal_mesh()` supposes that a single mesh is
closed (`meshes/meshes.py:730`) and that the meshes of a collection are not (`meshes/collections.py:123`). -/
noncomputable def healTree (heal : Bool → Mesh (V3 ℝ) → Mesh (V3 ℝ)) : Meshes.Tree → Meshes.Tree
  | .leaf m => if m.vertices.length > 0 ∧ m.faces.length > 0 then .leaf (heal true m) else .leaf m
  | .node s ps =>
    if nbVerticesAll ps > 0 ∧ nbFacesAll ps > 0 then Meshes.Tree.onLeaves (heal false) (.node s ps) else .node s ps

open Classical in
/-- `FloatingBody(mesh, dofs, name=name, lid_mesh=lid)` (`bodies/bodies.py:64-115`). `none` when the shape of a dof is
not the one of the mesh. -/
noncomputable def construct (heal : Bool → Mesh (V3 ℝ) → Mesh (V3 ℝ)) (down : Mesh (V3 ℝ) → Mesh (V3 ℝ)) (name : Name)
    (mesh : Meshes.Tree) (lid : Option Meshes.Tree) (dofs : List (Name × List (V3 ℂ))) : Option Body :=
  let lid' : Option (Option Meshes.Tree) :=
    match lid with
    | none => some none
    | some l => if l.nbFaces = 0 then some none else l.copy.map fun c => some (Meshes.Tree.onLeaves down c)
  match lid' with
  | none => none
  | some l =>
    let b : Body := ⟨name, healTree heal mesh, l, dofs, none, none, none, none⟩
    if b.Consistent then some b else none

/-- `sliced_by_plane` of a body (`bodies/bodies.py:909-916`). -/
noncomputable def Body.slicedByPlane (heal : Bool → Mesh (V3 ℝ) → Mesh (V3 ℝ)) (down : Mesh (V3 ℝ) → Mesh (V3 ℝ))
    (order : List ℕ → List ℕ) (P : Plane) (b : Body) : Option Body :=
  match b.mesh.slicedByPlane order P, b.lid.map (Meshes.Tree.slicedByPlane order P) with
  | some m, none => construct heal down b.name m none b.dofs
  | some m, some (some l) => construct heal down b.name m (some l) b.dofs
  | _, _ => none

/-- `extract_faces` of a body (`bodies/bodies.py:886-907`), without the index of vertices. `none` for collections
(`NotImplementedError`) and positions out of bounds. The name is the one of the mesh, left out. -/
noncomputable def Body.extractFaces (heal : Bool → Mesh (V3 ℝ) → Mesh (V3 ℝ)) (down : Mesh (V3 ℝ) → Mesh (V3 ℝ))
    (name : Name) (ids : List ℕ) (b : Body) : Option Body :=
  match b.mesh with
  | .node _ _ => none
  | .leaf m =>
    match m.extractFaces ids with
    | none => none
    | some r =>
      match construct heal down name (.leaf r.1) none [] with
      | none => none
      | some c => (b.dofs.mapM fun d => (select d.2 ids).map fun v => (d.1, v)).map fun ds => { c with dofs := ds }

open Classical in
/-- `clip` of a body (`bodies/bodies.py:1011-1030`), with the clipping of single meshes as an argument. `none` for
dofs of another shape, or a position out of bounds. -/
noncomputable def Body.clip (clipLeaf : Mesh (V3 ℝ) → Mesh (V3 ℝ) × List ℕ) (b : Body) : Option Body :=
  if b.Consistent then
    let r := b.mesh.clip clipLeaf
    let lid := match b.lid.map fun l => (l.clip clipLeaf).1 with
      | none => none
      | some l => if l.nbFaces = 0 then none else some l
    let dofs : Option (List (Name × List (V3 ℂ))) :=
      if r.2.length > 0 then b.dofs.mapM fun d => (select d.2 r.2).map fun v => (d.1, v)
      else some (b.dofs.map fun d => (d.1, []))
    dofs.map fun ds => { b with mesh := r.1, lid := lid, dofs := ds }
  else none

end Verif.Bodies
