import Verif.Meshes.JoinSymModel

/-!
# Meshes shared between collections

Model of the mesh objects in memory: collections hold references to their parts (`capytaine/meshes/collections.py:32-34`),
and the motions in place change the arrays of the meshes (`capytaine/meshes/meshes.py:543-599`,
`capytaine/meshes/collections.py:255-268`, `capytaine/meshes/symmetric.py:95-112`, `181-195`, `367-383`). The tuples of parts do
not change: clipping and healing are left out.
-/

namespace Verif.Meshes

open Verif.Geometry V3

/-- A mesh object: a `Mesh` or a collection with its tuple of parts, each with its own number. The same number at two
places is the same object. -/
inductive Shape where
  | mesh (i : ℕ)
  | coll (i : ℕ) (parts : List Shape)

/-- What the objects contain: the arrays of the meshes, and the class and the plane, vector or axis of the collections.
The objects with the number `next` and after do not exist yet. -/
structure MeshStore where
  mesh : ℕ → Mesh (V3 ℝ)
  sym : ℕ → Sym
  next : ℕ

/-- Assignment of the arrays of a mesh. -/
def MeshStore.setMesh (σ : MeshStore) (i : ℕ) (m : Mesh (V3 ℝ)) : MeshStore :=
  { σ with mesh := Function.update σ.mesh i m }

/-- Assignment of the geometrical object of a collection. -/
def MeshStore.setSym (σ : MeshStore) (i : ℕ) (s : Sym) : MeshStore := { σ with sym := Function.update σ.sym i s }

/-- A new mesh object, with the number `next`. -/
def MeshStore.newMesh (σ : MeshStore) (m : Mesh (V3 ℝ)) : MeshStore :=
  ⟨Function.update σ.mesh σ.next m, σ.sym, σ.next + 1⟩

/-- A new collection, with the number `next`. -/
def MeshStore.newColl (σ : MeshStore) (s : Sym) : MeshStore :=
  ⟨σ.mesh, Function.update σ.sym σ.next s, σ.next + 1⟩

mutual
/-- What is seen of a mesh object. -/
def MeshStore.read (σ : MeshStore) : Shape → Tree
  | .mesh i => .leaf (σ.mesh i)
  | .coll i ps => .node (σ.sym i) (σ.readAll ps)
/-- What is seen of several mesh objects. -/
def MeshStore.readAll (σ : MeshStore) : List Shape → List Tree
  | [] => []
  | p :: ps => σ.read p :: σ.readAll ps
end

mutual
/-- `translate`, `rotate` and `mirror` with `inplace=True` (`meshes/meshes.py:543-599`, `meshes/collections.py:255-268`): the
plane, vector or axis is moved, then all the parts one after the other. -/
noncomputable def Shape.moveIn (μ : Motion) : Shape → MeshStore → MeshStore
  | .mesh i, σ => σ.setMesh i (μ.mesh (σ.mesh i))
  | .coll i ps, σ => moveAllIn μ ps (σ.setSym i (μ.sym (σ.sym i)))
/-- The loop on the parts. -/
noncomputable def moveAllIn (μ : Motion) : List Shape → MeshStore → MeshStore
  | [], σ => σ
  | p :: ps, σ => moveAllIn μ ps (p.moveIn μ σ)
end

mutual
/-- New objects with the given content: `copy` makes a new object for each mesh and each collection
(`meshes/meshes.py:133-150`, `meshes/collections.py:115-120`). A mesh stored twice in a collection becomes two meshes here;
`deepcopy` keeps a single one. -/
def Tree.alloc : Tree → MeshStore → Shape × MeshStore
  | .leaf m, σ => (.mesh σ.next, σ.newMesh m)
  | .node s ts, σ =>
    (.coll σ.next (allocAll ts (σ.newColl s)).1, (allocAll ts (σ.newColl s)).2)
/-- New objects for the parts. -/
def allocAll : List Tree → MeshStore → List Shape × MeshStore
  | [], σ => ([], σ)
  | t :: ts, σ => ((t.alloc σ).1 :: (allocAll ts (t.alloc σ).2).1, (allocAll ts (t.alloc σ).2).2)
end

/-- `CollectionOfMeshes(parts)` (`meshes/collections.py:32-44`): the collection holds the given objects. -/
def MeshStore.collect (σ : MeshStore) (s : Sym) (parts : List Shape) : Shape × MeshStore :=
  (.coll σ.next parts, σ.newColl s)

/-- The constructors of the symmetric meshes (`meshes/symmetric.py:43-60`, `129-152`, `251-275`): the first part is the
given object, the others are new ones. -/
noncomputable def MeshStore.symmetric (σ : MeshStore) (s : Sym) (first : Shape) (nb : ℕ) : Option (Shape × MeshStore) :=
  match mkSymmetric Tree.copy s (σ.read first) nb with
  | some (.node s' (_ :: rest)) => some ((allocAll rest σ).2.collect s' (first :: (allocAll rest σ).1))
  | _ => none

/-- `copy` and the motions with `inplace=False` (`meshes/geometry.py:20-34`): the motion in place of a copy. -/
noncomputable def MeshStore.copyMoved (σ : MeshStore) (sh : Shape) (μ : Option Motion) : Option (Shape × MeshStore) :=
  match (σ.read sh).copy with
  | none => none
  | some t =>
    match μ with
    | none => some (t.alloc σ)
    | some μ => some ((t.alloc σ).1, (t.alloc σ).1.moveIn μ (t.alloc σ).2)

/-- The first part of a collection. -/
def Shape.firstPart : Shape → Option Shape
  | .coll _ (p :: _) => some p
  | _ => none

open Classical in
/-- `join_meshes` of the symmetric meshes (`meshes/symmetric.py:87-93`, `197-205`, `357-365`): the collection of the first
parts, which are the given objects, is the first part of the new mesh. -/
noncomputable def MeshStore.join (σ : MeshStore) (l : List Shape) : Option (Shape × MeshStore) :=
  match l with
  | .coll i ps :: _ =>
    if ∀ sh ∈ l, Joinable (σ.read (.coll i ps)) (σ.read sh) then
      (l.mapM Shape.firstPart).bind fun hs =>
        (σ.collect .plain hs).2.symmetric (σ.sym i) (σ.collect .plain hs).1 (ps.length - 1)
    else none
  | _ => none

/-- The operations of a program on its variables, which are numbered. `d` is the variable that receives the result. -/
inductive ShareOp where
  | create (d : ℕ) (m : Mesh (V3 ℝ))
  | copy (d k : ℕ) (μ : Option Motion)
  | move (k : ℕ) (μ : Motion)
  | collect (d : ℕ) (ks : List ℕ)
  | symmetric (d : ℕ) (s : Sym) (k nb : ℕ)
  | join (d : ℕ) (ks : List ℕ)

/-- The variables of a program. -/
abbrev MeshVars := ℕ → Option Shape

/-- The variables that are still used when those in `ks` are not any more. -/
def MeshVars.drop (v : MeshVars) (ks : List ℕ) : MeshVars := fun i => if i ∈ ks then none else v i

/-- One operation of a program that does not use any more the meshes given to a collection or to a symmetric mesh
(`meshes/collections.py:32-44`, `meshes/symmetric.py:43-60`, `87-93`, `129-152`, `197-205`, `251-275`, `357-365`). `none` is an
exception, or a program that uses a mesh which it should not use. -/
noncomputable def exec (op : ShareOp) (σ : MeshStore) (v : MeshVars) : Option (MeshStore × MeshVars) :=
  match op with
  | .create d m => some (σ.newMesh m, Function.update v d (some (.mesh σ.next)))
  | .copy d k μ => (v k).bind fun a => (σ.copyMoved a μ).map fun r => (r.2, Function.update v d (some r.1))
  | .move k μ => (v k).map fun a => (a.moveIn μ σ, v)
  | .collect d ks =>
    if ks.Nodup then (ks.mapM v).map fun l =>
      ((σ.collect .plain l).2, Function.update (v.drop ks) d (some (σ.collect .plain l).1))
    else none
  | .symmetric d s k nb => (v k).bind fun a =>
      (σ.symmetric s a nb).map fun r => (r.2, Function.update (v.drop [k]) d (some r.1))
  | .join d ks =>
    if ks.Nodup then (ks.mapM v).bind fun l =>
      (σ.join l).map fun r => (r.2, Function.update (v.drop ks) d (some r.1))
    else none

/-- A program. -/
noncomputable def execAll : List ShareOp → MeshStore → MeshVars → Option (MeshStore × MeshVars)
  | [], σ, v => some (σ, v)
  | op :: ops, σ, v => (exec op σ v).bind fun r => execAll ops r.1 r.2

end Verif.Meshes
