import Verif.Engines.FarModel
import Verif.Meshes.FaceSetModel

/-!
# Equality of collections, and the memory of their diameters

Model of `==` for collections of meshes (`capytaine/meshes/collections.py:81-88`) and of the memory of
`diameter_of_nodes` (`capytaine/meshes/collections.py:205-208`), which finds its entries by this equality. The collections
do not change while they are in the memory. Two objects with the same content are the same here.
-/

namespace Verif.Engines.Far

open Verif.Geometry V3 Verif.Meshes

mutual
/-- `a == b` for meshes and collections of all classes (`meshes/collections.py:81-85`, `meshes/meshes.py:699-703`). Between
a mesh and a collection, both methods give `NotImplemented`, and Python answers `False`. -/
noncomputable def treeSame : Tree → Tree → Bool
  | .leaf m, .leaf n => m.sameAs n
  | .node _ ps, .node _ qs => treesSame ps qs
  | _, _ => false
/-- `==` of the tuples `_meshes` (`meshes/collections.py:83`). -/
noncomputable def treesSame : List Tree → List Tree → Bool
  | [], [] => true
  | t :: ts, u :: us => treeSame t u && treesSame ts us
  | _, _ => false
end

/-- The memory of `functools.lru_cache`, from the last used entry to the oldest one. -/
abbrev Memory := List (Tree × ℝ)

/-- Reading `diameter_of_nodes`, with the memory shared by all collections (`meshes/collections.py:205-208`): an entry that
is found goes first, a new one takes the place of the oldest of 1024. `none` when an exception is raised; nothing is kept
then. A single mesh has its own memory (`meshes/meshes.py:281-290`), which is left out. -/
noncomputable def readDiameter (sort : (ℕ → ℝ) → List ℕ → List ℕ) (atol : ℝ) (mem : Memory) : Tree → Option (Memory × ℝ)
  | .leaf m => some (mem, nodesDiameter m.vertices)
  | .node s ps =>
    match mem.find? fun e => treeSame e.1 (.node s ps) with
    | some e => some (e :: mem.eraseP fun e => treeSame e.1 (.node s ps), e.2)
    | none => (treeDiameter sort atol (.node s ps)).map fun d => (((.node s ps, d) :: mem).take 1024, d)

/-- The memory after reading the diameters of these meshes, from an empty one (`meshes/collections.py:205-208`). -/
noncomputable def memoryAfter (sort : (ℕ → ℝ) → List ℕ → List ℕ) (atol : ℝ) (history : List Tree) : Memory :=
  history.foldl (fun mem t => match readDiameter sort atol mem t with
    | some r => r.1
    | none => mem) []

end Verif.Engines.Far
