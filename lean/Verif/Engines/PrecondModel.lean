import Mathlib.Algebra.BigOperators.Group.Finset.Basic
import Mathlib.Algebra.Field.Defs
import Mathlib.Data.Fintype.BigOperators
import Mathlib.Data.List.OfFn

/-!
# The preconditioned solver (C83)

Model of `HierarchicalPrecondMatrixEngine.build_matrices` (`bem/engines.py:353-441`) and of `solve_precond_gmres`
(`matrices/linear_solvers.py:156-232`), on the matrix built by the parent class. The numbers are in a field. Vectors are
functions of an index, and matrices functions of two indices, used below their sizes. The decompositions of `scipy` are
functions that solve the systems. `none` stands for any exception.
-/

namespace Verif.Engines

/-- The matrix `K` of a tree of meshes, along its diagonal: an array for a mesh, and blocks for a collection
(`bem/engines.py:216-270`, `305-333`). `stored` is true for a `BlockMatrix`, whose `all_blocks` are the stored blocks
(`matrices/block.py:123-125`), and false for the Toeplitz classes, whose `all_blocks` are in a new array
(`matrices/block_toeplitz.py:81-87`). The blocks outside of the diagonal are given by their entries. -/
inductive DiagTree (F : Type) where
  | leaf (n : ℕ) (a : ℕ → ℕ → F)
  | node (stored : Bool) (k : ℕ) (sub : Fin k → DiagTree F) (off : ℕ → ℕ → ℕ → ℕ → F)

namespace DiagTree

variable {F : Type}

/-- The number of rows. -/
def size : DiagTree F → ℕ
  | leaf n _ => n
  | node _ _ sub _ => ∑ i, (sub i).size

/-- `path_to_leaf` (`meshes/meshes.py:160-162`, `meshes/collections.py:104-113`). -/
def paths : DiagTree F → List (List ℕ)
  | leaf _ _ => [[]]
  | node _ k sub _ => (List.finRange k).flatMap fun i => (sub i).paths.map ((i : ℕ) :: ·)

/-- The blocks of the meshes, in the order of `path_to_leaf` (`bem/engines.py:374-383`, `matrices/block.py:584-592`): their sizes, in `diag_shapes`, and
their entries, decomposed in `DLU`. -/
def leaves : DiagTree F → List (ℕ × (ℕ → ℕ → F))
  | leaf n a => [(n, a)]
  | node _ k sub _ => (List.finRange k).flatMap fun i => (sub i).leaves

/-- The number of the block and the index in the block of an index of the matrix. -/
def locate : List ℕ → ℕ → ℕ × ℕ
  | [], r => (0, r)
  | n :: ns, r => if r < n then (0, r) else ((locate ns (r - n)).1 + 1, (locate ns (r - n)).2)

variable [Zero F]

/-- The entries of the matrix. -/
def entry : DiagTree F → ℕ → ℕ → F
  | leaf _ a, r, c => a r c
  | node _ k sub off, r, c =>
    let p := locate (List.ofFn fun i => (sub i).size) r
    let q := locate (List.ofFn fun i => (sub i).size) c
    if p.1 = q.1 then
      if h : p.1 < k then (sub ⟨p.1, h⟩).entry p.2 q.2 else 0
    else off p.1 q.1 p.2 q.2

/-- Whether it is an array. -/
def isLeaf : DiagTree F → Bool
  | leaf _ _ => true
  | node _ _ _ _ => false

/-- The blocks of the meshes replaced by zero (`bem/engines.py:427-431`): the assignment is lost when `all_blocks` is a new
array. -/
def zeroed : DiagTree F → DiagTree F
  | leaf n a => leaf n a
  | node st k sub off => node st k (fun i =>
      if (sub i).isLeaf && st then leaf (sub i).size (fun _ _ => 0) else (sub i).zeroed) off

end DiagTree

variable {F : Type} [Field F]

/-- `v @ M` for a vector and a block of `rows` rows and `cols` columns (`bem/engines.py:405`, `410`, `417`), `none` for
different sizes. -/
def vecMat (v : List F) (rows cols : ℕ) (m : ℕ → ℕ → F) : Option (List F) :=
  if v.length = rows then some ((List.range cols).map fun c => ∑ r ∈ Finset.range rows, v.getD r 0 * m r c) else none

/-- `va[lo:hi] = w` (`bem/engines.py:406`, `411`, `418`): the sizes are the same, or `w` has one value. -/
def setSlice (va : List F) (lo hi : ℕ) (w : List F) : Option (List F) :=
  if w.length = hi - lo then some (va.take lo ++ w ++ va.drop hi)
  else if w.length = 1 then some (va.take lo ++ List.replicate (hi - lo) (w.getD 0 0) ++ va.drop hi)
  else none

/-- `v[-n:]` (`bem/engines.py:409`): the whole of `v` for `n = 0`. -/
def lastOf (v : List F) (n : ℕ) : List F := if n = 0 then v else v.drop (v.length - n)

/-- The loop on the levels (`bem/engines.py:399-419`), with the variables `Aloc`, `v`, `va` and `free = [lo, hi]`. The
bound `hi - len(w)` is never negative. -/
def raLoop : List ℕ → DiagTree F → List F → List F → ℕ → ℕ → Option (List F)
  | [], _, _, va, _, _ => some va
  | _ :: _, .leaf _ _, _, _, _, _ => none
  | jj :: rest, .node _ k sub off, v, va, lo, hi =>
    if h : jj < k then
      -- `Aloc.all_blocks[jj, jj]`
      let child := sub ⟨jj, h⟩
      let next (v' : List F) (va' : List F) (lo' hi' : ℕ) : Option (List F) :=
        if rest = [] then
          match vecMat v' child.size child.size child.entry with
          | none => none
          | some w => setSlice va' lo' hi' w
        else raLoop rest child v' va' lo' hi'
      if h2 : 1 < k then
        let n0 := (sub ⟨0, by omega⟩).size
        let n1 := (sub ⟨1, h2⟩).size
        if jj = 0 then
          -- `v[:Nrows] @ Aloc.all_blocks[0, 1]`
          match vecMat (v.take child.size) n0 n1 (off 0 1) with
          | none => none
          | some w =>
            match setSlice va (hi - w.length) hi w with
            | none => none
            | some va' => next (v.take child.size) va' lo (hi - w.length)
        else
          -- `v[-Nrows:] @ Aloc.all_blocks[1, 0]`
          match vecMat (lastOf v child.size) n1 n0 (off 1 0) with
          | none => none
          | some w =>
            match setSlice va lo (lo + w.length) w with
            | none => none
            | some va' => next (lastOf v child.size) va' (lo + w.length) hi
      else none
    else none

/-- The first index of a block, `sum(diag_shapes[:ii])` (`bem/engines.py:389`, `matrices/linear_solvers.py:196`). -/
def startOf (shapes : List ℕ) (i : ℕ) : ℕ := (shapes.take i).sum

/-- The entries of `R` (`bem/engines.py:386-390`). -/
def restriction (shapes : List ℕ) (i r : ℕ) : F :=
  if startOf shapes i ≤ r ∧ r < startOf shapes (i + 1) then 1 else 0

/-- The result of `build_matrices` used by the solver (`bem/engines.py:441`), without the decompositions. -/
structure Precond (F : Type) where
  /-- The size of the matrix. -/
  N : ℕ
  /-- The matrix `K` after the assignments of zero. -/
  K : ℕ → ℕ → F
  /-- The diagonal blocks, decomposed in `DLU`, with their shapes. -/
  blocks : List (ℕ × (ℕ → ℕ → F))
  /-- `RA`. -/
  RA : List (List F)

/-- `diag_shapes`. -/
def Precond.shapes (p : Precond F) : List ℕ := p.blocks.map Prod.fst

/-- The entries of `Ac = RA @ R.T` (`bem/engines.py:423`). -/
def Precond.Ac (p : Precond F) (i j : ℕ) : F :=
  ∑ r ∈ Finset.range p.N, (p.RA.getD i []).getD r 0 * restriction p.shapes j r

/-- `HierarchicalPrecondMatrixEngine.build_matrices` (`bem/engines.py:353-441`). The matrix of a single mesh is an array,
without the method `access_block_by_path`. -/
def buildPrecond (t : DiagTree F) : Option (Precond F) :=
  match t with
  | .leaf _ _ => none
  | .node st k sub off =>
    let t := DiagTree.node st k sub off
    let shapes := t.leaves.map Prod.fst
    match t.paths.zipIdx.mapM fun p =>
        raLoop p.1 t ((List.range t.size).map (restriction shapes p.2)) (List.replicate t.size 0) 0 t.size with
    | none => none
    | some RA => some ⟨t.size, t.zeroed.entry, t.leaves, RA⟩

/-- A product by a matrix of `n` columns. -/
def matVec (n : ℕ) (m : ℕ → ℕ → F) (x : ℕ → F) (r : ℕ) : F := ∑ c ∈ Finset.range n, m r c * x c

/-- The solutions of `sl.lu_solve` (`matrices/linear_solvers.py:198`, `203`): one function for each diagonal block, on local
vectors, and one for `Ac`. -/
structure Solves (F : Type) where
  block : ℕ → (ℕ → F) → ℕ → F
  coarse : (ℕ → F) → ℕ → F

/-- `_block_Jacobi_coarse_corr` (`matrices/linear_solvers.py:156-205`). -/
def blockJacobi (p : Precond F) (s : Solves F) (b x0 : ℕ → F) : ℕ → F :=
  let q : ℕ → F := fun r => b r - matVec p.N p.K x0 r
  let x : ℕ → F := fun r =>
    let l := DiagTree.locate p.shapes r
    s.block l.1 (fun i => q (startOf p.shapes l.1 + i)) l.2
  let rc : ℕ → F := fun i => matVec p.N (fun i r => restriction p.shapes i r) b i -
    matVec p.N (fun i r => (p.RA.getD i []).getD r 0) x i
  let e := s.coarse rc
  fun r => x r + ∑ i ∈ Finset.range p.blocks.length, restriction p.shapes i r * e i

/-- `Pinvb` (`matrices/linear_solvers.py:215`). -/
def precondRhs (p : Precond F) (s : Solves F) (b : ℕ → F) : ℕ → F := blockJacobi p s b fun _ => 0

/-- `PinvA_mv` (`bem/engines.py:433-437`). -/
def precondMul (p : Precond F) (s : Solves F) (v : ℕ → F) : ℕ → F := fun r => v r - blockJacobi p s (fun _ => 0) v r

end Verif.Engines
