import Verif.Meshes.TreeModel

/-!
# The mesh including the lid

Model of the cached attribute `mesh_including_lid` of `capytaine/bodies/bodies.py`, with the mesh objects that
it shares with the attributes `mesh` and `lid_mesh`.
-/

namespace Verif.Bodies

open Verif.Geometry Verif.Meshes

/-- A body and the mesh objects of the program. The objects are numbered; `heap` gives their current content.
`mesh`, `lid` are the attributes `mesh` and `lid_mesh` (`bodies/bodies.py:66-88`) and `cached` is the entry
`mesh_including_lid` in the dictionary of the instance: the hull, or the parts of the collection of the hull and
the lid (`bodies/bodies.py:137-142`). -/
structure LidState where
  heap : List Meshes.Tree
  mesh : ℕ
  lid : Option ℕ
  cached : Option (ℕ × Option ℕ)

/-- What can be done with the body and its meshes. -/
inductive LidOp where
  /-- Read `mesh_including_lid`. -/
  | read
  /-- Create a new mesh object. -/
  | create (t : Meshes.Tree)
  /-- `body.mesh = object`. -/
  | setMesh (i : ℕ)
  /-- `body.lid_mesh = object` or `None`. -/
  | setLid (l : Option ℕ)
  /-- A change in place of an object, such as a motion. -/
  | change (i : ℕ) (f : Meshes.Tree → Meshes.Tree)
  /-- A change in place of the hull and the lid: `translate`, `rotate`, `mirror` (`bodies/bodies.py:974-1009`). -/
  | move (f : Meshes.Tree → Meshes.Tree)
  /-- `clip` (`bodies/bodies.py:1011-1021`), with the clipping of meshes as an argument. -/
  | clip (f : Meshes.Tree → Meshes.Tree)
  /-- Replace the body by its copy (`bodies/bodies.py:830-847`). -/
  | copy

/-- The content of an object. -/
def LidState.content (s : LidState) (i : ℕ) : Meshes.Tree := s.heap.getD i (.leaf ⟨[], []⟩)

/-- Change of the content of one object. -/
def LidState.update (s : LidState) (i : ℕ) (f : Meshes.Tree → Meshes.Tree) : LidState :=
  { s with heap := s.heap.modify i f }

/-- Apply a change to the hull, then to the lid if there is one. -/
def LidState.both (s : LidState) (f : Meshes.Tree → Meshes.Tree) : LidState :=
  match s.lid with
  | none => s.update s.mesh f
  | some l => (s.update s.mesh f).update l f

/-- One operation. Only existing objects can be assigned. The copy of a body is made with `copy.deepcopy`, which copies the objects once each, also
those of the cached attribute; here all the objects are copied (that a copied mesh has the same content is the
subject of C35). -/
def LidState.step (s : LidState) : LidOp → LidState
  | .read =>
    match s.cached with
    | some _ => s
    | none => { s with cached := some (s.mesh, s.lid) }
  | .create t => { s with heap := s.heap ++ [t] }
  | .setMesh i => if i < s.heap.length then { s with mesh := i } else s
  | .setLid none => { s with lid := none }
  | .setLid (some l) => if l < s.heap.length then { s with lid := some l } else s
  | .change i f => s.update i f
  | .move f => s.both f
  | .clip f =>
    let r := s.both f
    match r.lid with
    | none => r
    | some l => if (r.content l).nbFaces = 0 then { r with lid := none } else r
  | .copy =>
    let n := s.heap.length
    { heap := s.heap ++ s.heap, mesh := s.mesh + n, lid := s.lid.map (· + n),
      cached := s.cached.map fun c => (c.1 + n, c.2.map (· + n)) }

/-- The result of reading the attribute (`bodies/bodies.py:137-142`, `functools.cached_property`): a single mesh
or a collection of two. -/
def LidState.value (s : LidState) : Meshes.Tree :=
  match s.cached.getD (s.mesh, s.lid) with
  | (m, none) => s.content m
  | (m, some l) => .node .plain [s.content m, s.content l]

end Verif.Bodies
