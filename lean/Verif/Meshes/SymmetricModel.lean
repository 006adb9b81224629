import Verif.Meshes.TreeModel

/-!
# Symmetric meshes

Model of `capytaine/meshes/symmetric.py`: construction, motions and copies of trees of meshes. As in
`TreeModel`, objects are values: a mesh shared by two collections is not followed.
-/

namespace Verif.Meshes

open Verif.Geometry V3

/-- The three motions with their arguments, as methods of meshes and collections
(`meshes/meshes.py:543-594`, `meshes/collections.py:256-269`, `meshes/symmetric.py:95-111`, `180-195`,
`367-383`). -/
inductive Motion where
  | translate (v : V3 ℝ)
  | rotate (a : Axis) (θ : ℝ)
  | mirror (P : Plane)

/-- The motion of a mesh. -/
noncomputable def Motion.mesh : Motion → Mesh (V3 ℝ) → Mesh (V3 ℝ)
  | .translate v, m => m.translate v
  | .rotate a θ, m => m.rotate a θ
  | .mirror P, m => m.mirror P

/-- The motion of the object stored by a symmetric mesh: the plane (`meshes/symmetric.py:95-111`), the vector
(`180-195`: unchanged by translations) or the axis (`367-383`). The vector is an array of floats; on integers
the mirroring in place is a `TypeError`. -/
noncomputable def Motion.sym : Motion → Sym → Sym
  | .translate v, .reflection P => .reflection (P.translate v)
  | .rotate a θ, .reflection P => .reflection (P.rotate a θ)
  | .mirror Q, .reflection P => .reflection (P.mirror Q)
  | .translate _, .translation t => .translation t
  | .rotate a θ, .translation t => .translation (a.rotateVector θ t)
  | .mirror Q, .translation t => .translation (Q.mirrorVector t)
  | .translate v, .axial b => .axial (b.translate v)
  | .rotate a θ, .axial b => .axial (b.rotate a θ)
  | .mirror Q, .axial b => .axial (b.mirror Q)
  | _, .plain => .plain

mutual
/-- `translate`, `rotate` and `mirror` of a tree (`meshes/collections.py:256-269`): the stored object and all
the parts are moved. -/
noncomputable def Tree.move (μ : Motion) : Tree → Tree
  | .leaf m => .leaf (μ.mesh m)
  | .node s ps => .node (μ.sym s) (moveAll μ ps)
/-- The loop on the parts. -/
noncomputable def moveAll (μ : Motion) : List Tree → List Tree
  | [] => []
  | t :: ts => t.move μ :: moveAll μ ts
end

/-- The motion from the first part to the part number `k` out of `n` in the constructors:
`half.mirrored(plane)` (`meshes/symmetric.py:48`), `mesh_slice.translated(i*translation)` (`138-140`),
`mesh_slice.rotated(axis, 2*i*pi/(nb_repetitions+1))` (`257-260`). -/
noncomputable def Sym.step (s : Sym) (n k : ℕ) : Motion :=
  match s with
  | .plain => .translate 0
  | .reflection P => .mirror P
  | .translation t => .translate ((k : ℝ) • t)
  | .axial a => .rotate a (2 * k * Real.pi / n)

/-- The `assert` of the constructors on the geometry: vertical planes (`meshes/symmetric.py:46`), horizontal
translations (`136`), any axis. -/
def Sym.Accepted : Sym → Prop
  | .plain => True
  | .reflection P => P.normal.z = 0
  | .translation t => t.z = 0
  | .axial _ => True

/-- `Plane.copy` and `Axis.copy` in the constructors (`meshes/symmetric.py:53`, `265`,
`meshes/geometry.py:339-340`, `238-239`): the vector is normalised again. -/
noncomputable def Sym.copy : Sym → Sym
  | .reflection P => .reflection (mkPlane P.normal P.point)
  | .axial a => .axial (mkAxis a.vector a.point)
  | s => s

/-- The object given to the constructor in `__deepcopy__` (`meshes/symmetric.py:84-85`, `177-178`, `354-355`). -/
noncomputable def Sym.passed : Sym → Sym
  | .axial a => .axial (mkAxis a.vector a.point)
  | s => s

open Classical in
/-- The constructors `ReflectionSymmetricMesh(half, plane)` (with `nb = 1`),
`TranslationalSymmetricMesh(mesh_slice, translation, nb)` and `AxialSymmetricMesh(mesh_slice, axis, nb)`
(`meshes/symmetric.py:43-60`, `129-153`, `251-275`). `none` stands for `AssertionError`. The parts after the
first are copies, made by the argument `copy`, moved in place. -/
noncomputable def mkSymmetric (copy : Tree → Option Tree) (s : Sym) (slice : Tree) (nb : ℕ) : Option Tree :=
  if s.Accepted ∧ 1 ≤ nb then
    (copy slice).map fun c =>
      .node s.copy (slice :: (List.range nb).map fun i => c.move (s.step (nb + 1) (i + 1)))
  else none

mutual
/-- Depth of the calls in `copy`: all parts of a plain collection, the first part of a symmetric one. -/
def Tree.depth : Tree → ℕ
  | .leaf _ => 1
  | .node .plain ps => depthAll ps + 1
  | .node (.reflection _) ps => depthHead ps + 1
  | .node (.translation _) ps => depthHead ps + 1
  | .node (.axial _) ps => depthHead ps + 1
/-- The greatest depth of several trees. -/
def depthAll : List Tree → ℕ
  | [] => 0
  | t :: ts => max t.depth (depthAll ts)
/-- The depth of the first tree. -/
def depthHead : List Tree → ℕ
  | [] => 0
  | t :: _ => t.depth
end

/-- The number of repetitions asked from the constructor in `__deepcopy__` for a mesh with `n` parts
(`meshes/symmetric.py:84-85`, `177-178`, `354-355`): always one for a reflection. -/
def Sym.repetitions : Sym → ℕ → ℕ
  | .reflection _, _ => 1
  | _, n => n - 1

/-- `__deepcopy__` of a symmetric mesh with the first part `slice` and `n` parts
(`meshes/symmetric.py:84-85`, `177-178`, `354-355`): the first part is copied and the others are built again by
the constructor. -/
noncomputable def recopy (copy : Tree → Option Tree) (s : Sym) (slice : Tree) (n : ℕ) : Option Tree :=
  match copy slice with
  | none => none
  | some c => mkSymmetric copy s.passed c (s.repetitions n)

/-- `copy` (`meshes/meshes.py:133-150`, `meshes/collections.py:115-120`) with a bound on the depth of the
calls. A collection that is not symmetric copies all its parts. -/
noncomputable def Tree.copyN : ℕ → Tree → Option Tree
  | 0, _ => none
  | _ + 1, .leaf m => some (.leaf m)
  | n + 1, .node .plain ps => (ps.mapM (Tree.copyN n)).map (.node .plain)
  | n + 1, .node s ps =>
    match ps with
    | [] => none
    | h :: _ => recopy (Tree.copyN n) s h ps.length

/-- `copy` (`meshes/collections.py:115-120`). -/
noncomputable def Tree.copy (t : Tree) : Option Tree := t.copyN t.depth

/-- `build_regular_array_of_meshes` (`meshes/symmetric.py:208-234`), for positive numbers of bodies. -/
noncomputable def regularArray (base : Tree) (distance : ℝ) (nx ny : ℕ) : Option Tree :=
  let line := if nx = 1 then some base
    else mkSymmetric Tree.copy (.translation ⟨distance, 0, 0⟩) base (nx - 1)
  match line with
  | none => none
  | some l => if ny = 1 then some l else mkSymmetric Tree.copy (.translation ⟨0, distance, 0⟩) l (ny - 1)

end Verif.Meshes
