import Verif.Meshes.SymmetricModel
import Mathlib.Data.Complex.Basic
import Mathlib.Data.List.Infix

/-!
# Joining bodies

Model of `join_bodies`, `combine_dofs`, `copy`, `assemble_regular_array` and `assemble_arbitrary_array` of
`capytaine/bodies/bodies.py`. Names are lists of characters.
-/

namespace Verif.Meshes

open Verif.Geometry

mutual
/-- A change in place of all the meshes of a tree: `heal_mesh`, `with_normal_vector_going_down`
(`meshes/collections.py:122-130`). -/
def Tree.onLeaves (f : Mesh (V3 ℝ) → Mesh (V3 ℝ)) : Tree → Tree
  | .leaf m => .leaf (f m)
  | .node s ps => .node s (onLeavesAll f ps)
/-- The loop on the parts. -/
def onLeavesAll (f : Mesh (V3 ℝ) → Mesh (V3 ℝ)) : List Tree → List Tree
  | [] => []
  | t :: ts => Tree.onLeaves f t :: onLeavesAll f ts
end

end Verif.Meshes

namespace Verif.Bodies

open Verif.Geometry Verif.Meshes V3

/-- Names of bodies and dofs. -/
abbrev Name := List Char

/-- A two dimensional array: its number of columns and its rows. -/
@[ext] structure Matrix2 where
  cols : ℕ
  rows : List (List ℝ)

/-- `FloatingBody` (`bodies/bodies.py:64-115`): the dofs are a dictionary in insertion order, with one vector,
possibly complex, per panel. `inertia_matrix` and `hydrostatic_stiffness` may be missing; their labels are
left out, as well as `rotation_center` and `geometric_center`, which `join_bodies` drops. -/
structure Body where
  name : Name
  mesh : Meshes.Tree
  lid : Option Meshes.Tree
  dofs : List (Name × List (V3 ℂ))
  mass : Option ℝ
  centerOfMass : Option (V3 ℝ)
  inertia : Option Matrix2
  stiffness : Option Matrix2

/-- `d[k] = v` for a dictionary in insertion order. -/
def setItem {K X : Type} [DecidableEq K] (d : List (K × X)) (p : K × X) : List (K × X) :=
  if p.1 ∈ d.map Prod.fst then d.map fun q => if q.1 = p.1 then p else q else d ++ [p]

/-- `'__' in name` (`bodies/bodies.py:820`). -/
def hasSeparator (n : Name) : Bool := decide (['_', '_'] <:+: n)

/-- `new_dof_name` (`bodies/bodies.py:820-826`). -/
def newDofName (body dof : Name) : Name := if hasSeparator dof then dof else body ++ ['_', '_'] ++ dof

/-- The effect of storing complex numbers in an array of floats: the imaginary part is discarded, with a
warning. -/
noncomputable def discardImag (v : V3 ℂ) : V3 ℂ := ⟨v.x.re, v.y.re, v.z.re⟩

/-- `new_dof` (`bodies/bodies.py:818-819`): zeros, with the values of the dof from the position `nbf`. -/
noncomputable def paddedDof (total nbf : ℕ) (dof : List (V3 ℂ)) : List (V3 ℂ) :=
  List.replicate nbf 0 ++ dof.map discardImag ++ List.replicate (total - nbf - dof.length) 0

/-- `_check_dofs_shape_consistency` (`bodies/bodies.py:269-274`). -/
def Body.Consistent (b : Body) : Prop := ∀ d ∈ b.dofs, d.2.length = b.mesh.nbFaces

/-- The loop of `combine_dofs` (`bodies/bodies.py:814-827`), from the position `nbf`. -/
noncomputable def combineLoop (total : ℕ) : List Body → ℕ → List (Name × List (V3 ℂ)) → List (Name × List (V3 ℂ))
  | [], _, dofs => dofs
  | b :: bs, nbf, dofs =>
    combineLoop total bs (nbf + b.mesh.nbFaces)
      (b.dofs.foldl (fun acc d => setItem acc (newDofName b.name d.1, paddedDof total nbf d.2)) dofs)

/-- The total number of panels (`bodies/bodies.py:813`). -/
def totalFaces (bodies : List Body) : ℕ := (bodies.map fun b => b.mesh.nbFaces).sum

open Classical in
/-- `combine_dofs` (`bodies/bodies.py:806-828`), `none` for `ValueError`. -/
noncomputable def combineDofs (bodies : List Body) : Option (List (Name × List (V3 ℂ))) :=
  if ∀ b ∈ bodies, b.Consistent then some (combineLoop (totalFaces bodies) bodies 0 []) else none

/-- `"+".join(body.name for body in bodies)` (`bodies/bodies.py:767`). -/
def joinNames : List Body → Name
  | [] => []
  | [b] => b.name
  | b :: bs => b.name ++ '+' :: joinNames bs

/-- `[x for x in ...]` when `all(x is not None for x in ...)`. -/
def allSome {A : Type} (l : List (Option A)) : Option (List A) := l.mapM id

/-- `scipy.linalg.block_diag`, from the column `c`. -/
def blockRows (total : ℕ) : List Matrix2 → ℕ → List (List ℝ)
  | [], _ => []
  | m :: ms, c =>
    m.rows.map (fun r => List.replicate c 0 ++ r ++ List.replicate (total - c - m.cols) 0) ++
      blockRows total ms (c + m.cols)

/-- `scipy.linalg.block_diag(*ms)` for at least one matrix. -/
def blockDiag (ms : List Matrix2) : Matrix2 :=
  let total := (ms.map Matrix2.cols).sum
  ⟨total, blockRows total ms 0⟩

/-- `add_dofs_labels_to_matrix` (`bodies/bodies.py:262-267`) on the block diagonal of the matrices of the
bodies, when they all have one (`bodies/bodies.py:797-802`). `none` when the number of labels is not the one of
rows and columns (`ValueError` of xarray). -/
def joinMatrices (nbDofs : ℕ) (ms : List (Option Matrix2)) : Option (Option Matrix2) :=
  match allSome ms with
  | none => some none
  | some l =>
    if (blockDiag l).rows.length = nbDofs ∧ (blockDiag l).cols = nbDofs then some (some (blockDiag l)) else none

/-- The lid of the joined body (`bodies/bodies.py:772-778`) after the constructor (`79-86`). `heal` and `down`
are `heal_mesh(closed_mesh=False)` and `with_normal_vector_going_down` on a single mesh. -/
noncomputable def joinLids (down : Mesh (V3 ℝ) → Mesh (V3 ℝ)) (lids : List Meshes.Tree) : Option (Option Meshes.Tree) :=
  if lids = [] then some none
  else
    match lids.mapM Meshes.Tree.copy with
    | none => none
    | some ls =>
      if nbFacesAll ls = 0 then some none
      else (Meshes.Tree.node .plain ls).copy.map fun c => some (Meshes.Tree.onLeaves down c)

/-- The mesh of the joined body (`bodies/bodies.py:768-771`) after the constructor (`101-102`). -/
noncomputable def joinMeshes (heal : Mesh (V3 ℝ) → Mesh (V3 ℝ)) (ts : List Meshes.Tree) : Option Meshes.Tree :=
  (ts.mapM Meshes.Tree.copy).map fun ms =>
    if nbVerticesAll ms > 0 ∧ nbFacesAll ms > 0 then Meshes.Tree.onLeaves heal (.node .plain ms) else .node .plain ms

/-- `new_mass` (`bodies/bodies.py:781-784`). -/
noncomputable def joinMass (bodies : List Body) : Option ℝ := (allSome (bodies.map Body.mass)).map List.sum

/-- `new_cog` (`bodies/bodies.py:786-790`). -/
noncomputable def joinCenter (bodies : List Body) : Option (V3 ℝ) :=
  match allSome (bodies.map Body.mass), allSome (bodies.map Body.centerOfMass) with
  | some ms, some cs => some ((1 / ms.sum) • (List.zipWith (fun m (c : V3 ℝ) => m • c) ms cs).sum)
  | _, _ => none

open Classical in
/-- `join_bodies` (`bodies/bodies.py:765-804`) of at least one body, without the argument `name`. The last
condition is the check of the dofs in the constructor (`bodies/bodies.py:115`). -/
noncomputable def joinBodies (heal down : Mesh (V3 ℝ) → Mesh (V3 ℝ)) (bodies : List Body) : Option Body :=
  match joinMeshes heal (bodies.map Body.mesh), joinLids down (bodies.filterMap Body.lid), combineDofs bodies with
  | some mesh, some lid, some dofs =>
    match joinMatrices dofs.length (bodies.map Body.inertia), joinMatrices dofs.length (bodies.map Body.stiffness) with
    | some inertia, some stiffness =>
      let b : Body := { name := joinNames bodies, mesh := mesh, lid := lid, dofs := dofs, mass := joinMass bodies,
                        centerOfMass := joinCenter bodies, inertia := inertia, stiffness := stiffness }
      if b.Consistent then some b else none
    | _, _ => none
  | _, _, _ => none

open Classical in
/-- `copy(name)` (`bodies/bodies.py:830-847`). -/
noncomputable def Body.copy (b : Body) (name : Name) : Option Body :=
  if b.Consistent then
    match b.mesh.copy, b.lid.map Meshes.Tree.copy with
    | some m, none => some { b with name := name, mesh := m }
    | some m, some (some l) => some { b with name := name, mesh := m, lid := some l }
    | _, _ => none
  else none

/-- `translate` (`bodies/bodies.py:989-997`). -/
noncomputable def Body.translate (b : Body) (v : V3 ℝ) : Body :=
  { b with mesh := b.mesh.move (.translate v), lid := b.lid.map (Meshes.Tree.move (.translate v)),
           centerOfMass := b.centerOfMass.map (· + v) }

/-- `translated(v, name=name)` (`meshes/geometry.py:26-31`). -/
noncomputable def Body.translated (b : Body) (name : Name) (v : V3 ℝ) : Option Body :=
  (b.copy name).map fun c => c.translate v

/-- `str(n)` for a natural number. -/
def digits (n : ℕ) : Name := Nat.toDigits 10 n

/-- The name and position of the bodies of a regular array (`bodies/bodies.py:863`). -/
noncomputable def arraySites (distance : ℝ) (nx ny : ℕ) : List (Name × V3 ℝ) :=
  (List.range ny).flatMap fun j => (List.range nx).map fun i =>
    (digits i ++ '_' :: digits j, ⟨i * distance, j * distance, 0⟩)

/-- `assemble_regular_array` (`bodies/bodies.py:849-867`). -/
noncomputable def Body.regularArray (heal down : Mesh (V3 ℝ) → Mesh (V3 ℝ)) (b : Body) (distance : ℝ) (nx ny : ℕ) :
    Option Body :=
  match (arraySites distance nx ny).mapM fun s => b.translated s.1 s.2 with
  | none => none
  | some bodies =>
    match joinBodies heal down bodies, Meshes.regularArray b.mesh distance nx ny with
    | some a, some m => some { a with mesh := m, name := "array_of_".toList ++ b.name }
    | _, _ => none

/-- `'arbitrary_array_body{:02d}'.format(idx)` (`bodies/bodies.py:879`). -/
def arbitraryName (i : ℕ) : Name :=
  "arbitrary_array_body".toList ++ if i < 10 then '0' :: digits i else digits i

/-- `assemble_arbitrary_array` (`bodies/bodies.py:869-884`) for a list of pairs of coordinates. `none` without
any location (`IndexError`). -/
noncomputable def Body.arbitraryArray (heal down : Mesh (V3 ℝ) → Mesh (V3 ℝ)) (b : Body) (locations : List (ℝ × ℝ)) :
    Option Body :=
  if locations = [] then none
  else
    match locations.zipIdx.mapM fun s => b.translated (arbitraryName s.2) ⟨s.1.1, s.1.2, 0⟩ with
    | none => none
    | some bodies => joinBodies heal down bodies

end Verif.Bodies
