import Verif.Meshes.TreeModel
import Verif.Geometry.TransformModel

/-!
# Meshes that are far from each other

Model of the centers and of the diameters of the nodes of meshes (`capytaine/meshes/meshes.py:272-290`,
`capytaine/meshes/collections.py:201-208`) and of the test of `HierarchicalToeplitzMatrixEngine` that decides which
interactions are approximated by a matrix of low rank (`capytaine/bem/engines.py:211-212`, `274`). The real numbers are
exact. A mesh without vertices has no center nor diameter in the code (NaN and `ValueError`), and zero here. The memory
of the values in `__internals__` is left out.
-/

namespace Verif.Engines.Far

open Verif.Geometry V3 Verif.Meshes

/-- `center_of_mass_of_nodes` of a mesh with these vertices (`meshes/meshes.py:272-279`): `np.mean`. -/
noncomputable def nodesCenter (vs : List (V3 ℝ)) : V3 ℝ := (1 / (vs.length : ℝ)) • vs.sum

/-- `diameter_of_nodes` of a mesh with these vertices (`meshes/meshes.py:281-290`). -/
noncomputable def nodesDiameter (vs : List (V3 ℝ)) : ℝ :=
  2 * (vs.map fun v => norm (v - nodesCenter vs)).foldr max 0

mutual
/-- `center_of_mass_of_nodes` of a collection (`meshes/collections.py:201-203`) or of a mesh. -/
noncomputable def treeCenter : Tree → V3 ℝ
  | .leaf m => nodesCenter m.vertices
  | .node _ ps => (1 / (nbVerticesAll ps : ℝ)) • weightedCenters ps
/-- The sum of the centers of the parts, with their numbers of vertices (`meshes/collections.py:203`). -/
noncomputable def weightedCenters : List Tree → V3 ℝ
  | [] => 0
  | t :: ts => (t.nbVertices : ℝ) • treeCenter t + weightedCenters ts
end

/-- `diameter_of_nodes` of a collection (`meshes/collections.py:205-208`) or of a mesh, `none` when an exception is raised.
The memory is left out: its key is the collection, by equality. See `Mesh.mergeDuplicates` for `sort` and `atol`. -/
noncomputable def treeDiameter (sort : (ℕ → ℝ) → List ℕ → List ℕ) (atol : ℝ) (t : Tree) : Option ℝ :=
  (t.merged sort atol).map fun m => nodesDiameter m.vertices

/-- The test of `_build_matrices` for the approximation of low rank (`bem/engines.py:211-212`, `274`) between two single
meshes. The default of `ACA_distance` is 8 (`bem/engines.py:156`). -/
def usesLowRank (distance : ℝ) (a b : List (V3 ℝ)) : Prop :=
  norm (nodesCenter a - nodesCenter b) > distance * nodesDiameter a ∨
    norm (nodesCenter a - nodesCenter b) > distance * nodesDiameter b

end Verif.Engines.Far
