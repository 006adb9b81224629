import Verif.Meshes.CacheModel
import Verif.Meshes.QuadratureModel
import Verif.Cache.Model

/-!
# Quadrature methods of meshes and collections of meshes

Model of `quadrature_points`, `quadrature_method` and `compute_quadrature` of `CollectionOfMeshes`
(`capytaine/meshes/collections.py:181-199`), of the mesh with a lid given to the solver
(`capytaine/bodies/bodies.py:137-142`), and of the memory of `build_matrices` when it is called for a mesh
with several quadrature methods (`capytaine/bem/engines.py:67-131`). Plain meshes and their own memory are
in `Verif.Meshes.CacheModel`.
-/

namespace Verif.Meshes

open Verif.Geometry

/-- An array of quadrature points and weights: the number of points of each panel (second dimension of the
arrays) and one row for each panel. An array without row still has a number of points. -/
structure QArray where
  width : ℕ
  rows : Quadrature

/-- `np.concatenate` on the first dimension: fails without array, and when the other dimensions differ. -/
def stackArrays : List QArray → Option QArray
  | [] => none
  | a :: l => if ∀ b ∈ l, b.width = a.width then some ⟨a.width, a.rows ++ l.flatMap (·.rows)⟩ else none

variable {K W Q : Type}

/-- The data computed from a mesh when each method `r` is the list of points and weights `scheme r`
(`meshes/quadratures.py:45-57`): the builtin methods, or the objects of an optional package. `none` is the
`ValueError` of a method that is not recognized. -/
noncomputable def schemeData (other : K → Mesh (V3 ℝ) → Option W) (scheme : Q → Option (List LocalPoint)) :
    Derived K W Q :=
  ⟨other, fun r m => (scheme r).bind m.quadrature⟩

/-- The number of points of each panel, second dimension of the arrays, for a method
(`meshes/quadratures.py:59-62`); without method it is the center alone (`meshes/meshes.py:333-335`). The
number does not matter when the method is not recognized, as the arrays are not built. -/
def nbPoints (scheme : Q → Option (List LocalPoint)) : Option Q → ℕ
  | none => 1
  | some r => ((scheme r).getD []).length

/-- A mesh with its memory, or a collection, which may contain other collections
(`meshes/collections.py:19-35`). That the same mesh could be at several places of the collection is left
out: `compute_quadrature` would heal its triangles several times. -/
inductive QTree (K W Q : Type) where
  | single (o : Obj K W Q)
  | coll (parts : List (QTree K W Q))

/-- `quadrature_points` of a plain mesh (`meshes/meshes.py:324-328`), as an array. -/
noncomputable def Obj.points (other : K → Mesh (V3 ℝ) → Option W) (scheme : Q → Option (List LocalPoint))
    (o : Obj K W Q) : Option QArray :=
  (o.readQuadrature (schemeData other scheme)).2.map fun q => ⟨nbPoints scheme o.method, q⟩

/-- `quadrature_points` of a mesh or a collection (`meshes/collections.py:181-187`). The changes of the
memory of the meshes are left out, as another reading gives the same arrays. -/
noncomputable def QTree.points (other : K → Mesh (V3 ℝ) → Option W) (scheme : Q → Option (List LocalPoint)) :
    QTree K W Q → Option QArray
  | .single o => o.points other scheme
  | .coll parts => (parts.mapM (QTree.points other scheme)).bind stackArrays

/-- The value of `quadrature_method`: a method, or the text "Mixed quadrature method". That this text could
be given as the method of a plain mesh is left out. -/
inductive Announced (Q : Type) where
  | method (r : Option Q)
  | mixed

open Classical in
/-- The parts have exactly one method among them (`meshes/collections.py:191-195`). -/
noncomputable def common : List (Announced Q) → Announced Q
  | [] => .mixed
  | a :: l => if ∀ b ∈ l, b = a then a else .mixed

/-- `quadrature_method` (`meshes/collections.py:189-195`). -/
noncomputable def QTree.announced : QTree K W Q → Announced Q
  | .single o => .method o.method
  | .coll parts => common (parts.map QTree.announced)

/-- `compute_quadrature` of a mesh or a collection (`meshes/meshes.py:330-340`,
`meshes/collections.py:197-199`), `none` when an exception is raised (the parts treated before it have been
changed, which is left out). -/
noncomputable def QTree.compute (D : Derived K W Q) (method : Option Q) : QTree K W Q → Option (QTree K W Q)
  | .single o =>
    match o.computeQuadrature D method with
    | (o', some _) => some (.single o')
    | (_, none) => none
  | .coll parts => (parts.mapM (QTree.compute D method)).map .coll

/-- Assigning the attribute `quadrature_method` of a plain mesh (`meshes/meshes.py:62`): an ordinary
attribute, the memory is left as it is. -/
def Obj.assignMethod (method : Option Q) (o : Obj K W Q) : Obj K W Q := { o with method := method }

/-- `merged` (`meshes/collections.py:226-236`), which is also `join_meshes` and `+` of plain meshes
(`meshes/meshes.py:647-652`): a new mesh, without method. `gather` stands for the vertices and faces of the
collection, after `merge_duplicates` and `heal_triangles` (see `TreeModel`). -/
def QTree.merged (gather : QTree K W Q → Mesh (V3 ℝ)) (t : QTree K W Q) : QTree K W Q :=
  .single (.new (gather t) none)

/-- `mesh_including_lid` (`bodies/bodies.py:137-142`). -/
def withLid (hull : QTree K W Q) : Option (QTree K W Q) → QTree K W Q
  | none => hull
  | some lid => .coll [hull, lid]

/-- The body of `build_matrices` (`bem/engines.py:94-131`) for a plain mesh: the key of the memory is the
mesh, whose equality is that of the panels (`meshes/meshes.py:699-703`); the integrals are computed with the
method that the mesh has at the time of the call (`green_functions/delhommeau.py:380-390`). The other
arguments are the same in all the calls. -/
def matricesOf {P V : Type} (g : P → Option Q → V) (key : P × Option Q) : Verif.Cache.Body (P × Option Q) V :=
  .ret (g key.1 key.2)

end Verif.Meshes
