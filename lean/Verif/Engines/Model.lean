import Verif.Meshes.SymmetricModel
import Verif.Meshes.TreeProps
import Verif.Blocks.FullModel

/-!
# Matrix engines

Model of `capytaine/bem/engines.py`: how the interaction matrices of trees of meshes are built with symmetries.
-/

namespace Verif.Engines

open Verif.Geometry Verif.Meshes Verif.Blocks V3

/-- A panel in space: whether it is a triangle, and its corners in order. -/
abbrev Shape := Bool × Option (V3 ℝ × V3 ℝ × V3 ℝ × V3 ℝ)

/-- The panels of a mesh or of a collection, in the order of `faces` (see `collection_concatenates` in C34). -/
def panels (t : Tree) : List Shape := t.leaves.flatMap Mesh.shapes

section
variable {R : Type} [Inhabited R]

/-- `green_function.evaluate(mesh1, mesh2, ...)` (`green_functions/abstract_green_function.py`,
`green_functions/delhommeau.py:307-399`) for one frequency and one free surface: the coefficient in row `r` and column `c`
depends on the panel `r` of the first mesh and on the panel `c` of the second one. `G` gives this coefficient, or the pair of coefficients of both
matrices. -/
def evaluate (G : Shape → Shape → R) (t1 t2 : Tree) : HMat R :=
  .dense t1.nbFaces t2.nbFaces fun r c =>
    match (panels t1)[r]?, (panels t2)[c]? with
    | some a, some b => G a b
    | _, _ => default

/-- A part of a collection that does not exist: reading it is an `IndexError`. The matrix has a shape that is rejected by the checks of
`block.py:86-102` next to the other blocks. -/
def missing : HMat R := .dense 0 0 fun _ _ => default

/-- `BlockSymmetricToeplitzMatrix([l])`, `BlockToeplitzMatrix([l])`, `BlockCirculantMatrix([l])`
(`matrices/block.py:50-65`, `matrices/block_toeplitz.py:31-46`): the shape of the blocks is the one of the first block. -/
def structured (k : Kind) (l : List (HMat R)) : HMat R :=
  .str k (l.getD 0 missing).shape.1 (l.getD 0 missing).shape.2 l.length fun i => l.getD i missing

/-- `BlockMatrix(lines)` (`matrices/block.py:50-65`). -/
def generic (lines : List (List (HMat R))) : HMat R :=
  .gen (lines.map fun l => (l.getD 0 missing).shape.1) ((lines.getD 0 []).map fun M => M.shape.2)
    fun i j => (lines.getD i []).getD j missing

/-- `np.allclose` on numbers, with the default tolerances. -/
def allclose1 (a b : ℝ) : Prop := |a - b| ≤ 1e-8 + 1e-5 * |b|

/-- `np.allclose(u, v)` on vectors. -/
def allclose (u v : V3 ℝ) : Prop := allclose1 u.x v.x ∧ allclose1 u.y v.y ∧ allclose1 u.z v.z

/-- The conditions to use the symmetry of two collections with the given numbers of parts
(`bem/engines.py:120-122`, `217-219`, `232-235`, `255-258`). The planes and axes are compared as different objects. -/
def sameSymmetry : Sym → ℕ → Sym → ℕ → Prop
  | .reflection P, _, .reflection Q, _ => P.equal Q
  | .translation u, n, .translation v, n' => allclose u v ∧ n = n'
  | .axial a, n, .axial b, n' => a.equal b ∧ n = n'
  | _, _, _, _ => False

open Classical in
/-- `BasicMatrixEngine.build_matrices` (`bem/engines.py:94-136`) and, with `basic = false`,
`HierarchicalToeplitzMatrixEngine._build_matrices` (`192-333`), when `blocks` are the matrices between all the parts of both
collections, of which the code computes only those that are used. `aca` is the low rank matrix, when it is
tried and converges. -/
noncomputable def combine (basic : Bool) (G : Shape → Shape → R) (aca : Tree → Tree → Option (HMat R)) (s1 s2 : Sym)
    (ps1 ps2 : List Tree) (blocks : List (List (HMat R))) : HMat R :=
  let line := blocks.getD 0 []
  let plain := if basic then evaluate G (.node s1 ps1) (.node s2 ps2) else
    match aca (.node s1 ps1) (.node s2 ps2) with
    | some M => M
    | none => generic blocks
  if sameSymmetry s1 ps1.length s2 ps2.length then
    match s1 with
    | .reflection _ => structured .symToeplitz [line.getD 0 missing, line.getD 1 missing]
    | .translation _ =>
      if basic then plain else structured .toeplitz (line ++ ((blocks.tail).reverse.map fun l => l.getD 0 missing))
    | .axial _ => if basic then plain else structured .circulant line
    | .plain => plain
  else plain

mutual
/-- The recursive calls (see `combine`). -/
noncomputable def build (basic : Bool) (G : Shape → Shape → R) (aca : Tree → Tree → Option (HMat R)) : Tree → Tree → HMat R
  | .leaf m, t2 =>
    if basic then evaluate G (.leaf m) t2 else
      match aca (.leaf m) t2 with
      | some M => M
      | none => evaluate G (.leaf m) t2
  | .node s ps, .leaf m =>
    if basic then evaluate G (.node s ps) (.leaf m) else
      match aca (.node s ps) (.leaf m) with
      | some M => M
      | none => evaluate G (.node s ps) (.leaf m)
  | .node s1 ps1, .node s2 ps2 => combine basic G aca s1 s2 ps1 ps2 (buildAll basic G aca ps1 ps2)
/-- The matrices between the parts of two collections. -/
noncomputable def buildAll (basic : Bool) (G : Shape → Shape → R) (aca : Tree → Tree → Option (HMat R)) :
    List Tree → List Tree → List (List (HMat R))
  | [], _ => []
  | t :: ts, l => l.map (fun u => build basic G aca t u) :: buildAll basic G aca ts l
end

end

end Verif.Engines
