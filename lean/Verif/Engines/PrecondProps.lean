import Verif.Engines.PrecondLemmas
import Mathlib.Algebra.Order.Field.Rat
import Mathlib.Tactic.NormNum
import Mathlib.LinearAlgebra.Matrix.DotProduct

/-!
# The preconditioned solver (C83)

The vectors found by the preconditioned system are the solutions of the linear system, under exact conditions on the tree
of meshes, on the classes of the blocks and on the blocks of the diagonal.
-/

namespace Verif.Engines

open DiagTree

variable {F : Type} [Field F]

/-! ## Specification -/

/-- The vector `x` solves the system of matrix `m` and right-hand side `b`. -/
def IsSolution (n : ℕ) (m : ℕ → ℕ → F) (x b : ℕ → F) : Prop :=
  ∀ r < n, ∑ c ∈ Finset.range n, m r c * x c = b r

/-- The vector `x` solves the system given to the iterative method: `PinvA x = Pinvb`. -/
def IsPrecondSolution (p : Precond F) (s : Solves F) (x b : ℕ → F) : Prop :=
  ∀ r < p.N, precondMul p s x r = precondRhs p s b r

/-- The contract of the direct solver: it gives the only solution for the blocks of the diagonal and for the coarse
matrix. -/
structure Solves.Right (s : Solves F) (p : Precond F) : Prop where
  block : ∀ k < p.blocks.length, IsSolver (p.blocks.getD k (0, fun _ _ => 0)).1 (p.blocks.getD k (0, fun _ _ => 0)).2
    (s.block k)
  coarse : IsSolver p.blocks.length p.Ac s.coarse

/-- The sum of the entries of a block. -/
def entrySum (e : ℕ × (ℕ → ℕ → F)) : F := ∑ i ∈ Finset.range e.1, ∑ j ∈ Finset.range e.1, e.2 i j

/-- A vector has the same value on all the panels of a mesh, for each mesh. -/
def ConstantOnMeshes (shapes : List ℕ) (x : ℕ → F) : Prop :=
  ∃ c : ℕ → F, ∀ k < shapes.length, ∀ i < shapes.getD k 0, x ((shapes.take k).sum + i) = c k

/-! ## Proofs -/

/-- A vector of given size, extended by zero. -/
def extend {n : ℕ} (q : Fin n → F) (r : ℕ) : F := if h : r < n then q ⟨r, h⟩ else 0

/-- The first entries of a vector. -/
def cut (n : ℕ) (x : ℕ → F) (i : Fin n) : F := x i

theorem cut_extend {n : ℕ} (q : Fin n → F) : cut n (extend q) = q := by
  funext i; simp [cut, extend]

/-- The linear map of a matrix. -/
def linOf (n m : ℕ) (M : ℕ → ℕ → F) : (Fin m → F) →ₗ[F] (Fin n → F) :=
  Matrix.mulVecLin (Matrix.of fun (i : Fin n) (j : Fin m) => M i j)

theorem linOf_cut (n m : ℕ) (M : ℕ → ℕ → F) (x : ℕ → F) : linOf n m M (cut m x) = cut n (matVec m M x) := by
  funext i
  simp [linOf, cut, matVec, Matrix.mulVec, dotProduct, Finset.sum_range]

theorem solver_cut {n : ℕ} {M : ℕ → ℕ → F} {s : (ℕ → F) → ℕ → F} (h : IsSolver n M s) (q y : Fin n → F) :
    linOf n n M y = q ↔ y = cut n (s (extend q)) := by
  have := h (extend q) (extend y)
  have h1 : linOf n n M y = cut n (matVec n M (extend y)) := by rw [← linOf_cut, cut_extend]
  have h2 : ∀ a b : ℕ → F, (∀ r < n, a r = b r) ↔ cut n a = cut n b := fun a b => by
    rw [funext_iff, Fin.forall_iff]; rfl
  rw [h2, h2, cut_extend, cut_extend] at this
  rw [h1, this]

theorem solver_congr {n : ℕ} {M : ℕ → ℕ → F} {s : (ℕ → F) → ℕ → F} (h : IsSolver n M s) {q q' : ℕ → F}
    (hq : ∀ r < n, q r = q' r) : ∀ r < n, s q r = s q' r := by
  refine (h q' (s q)).1 fun r hr => ?_
  rw [← hq r hr]
  exact (h q (s q)).2 (fun _ _ => rfl) r hr

theorem solver_cut_eq {n : ℕ} {M : ℕ → ℕ → F} {s : (ℕ → F) → ℕ → F} (h : IsSolver n M s) (q : ℕ → F) :
    cut n (s q) = cut n (s (extend (cut n q))) := by
  funext i
  exact solver_congr h (fun r hr => by simp [extend, hr, cut]) i i.2

section Transfer

variable {st : Bool} {k : ℕ} {sub : Fin k → DiagTree F} {off : ℕ → ℕ → ℕ → ℕ → F} {s : Solves F}

theorem rows_get {t : DiagTree F} {i r : ℕ} (hi : i < t.leaves.length) (hr : r < t.size) :
    ((productRows t).getD i []).getD r 0 = rowMul t (restriction (t.leaves.map Prod.fst) i) r := by
  simp [productRows, List.getD_eq_getElem?_getD, hi, hr]

/-- The step of the model is the abstract one. -/
theorem step_cut {t : DiagTree F} (hb : t.Binary) (K : ℕ → ℕ → F)
    (hs : s.Right ⟨t.size, K, t.leaves, productRows t⟩) (b x : ℕ → F) :
    cut t.size (blockJacobi ⟨t.size, K, t.leaves, productRows t⟩ s b x) =
      absStep (linOf t.size t.size t.entry) (linOf t.size t.size K)
        (linOf t.leaves.length t.size (restriction (t.leaves.map Prod.fst)))
        (linOf t.size t.leaves.length fun r i => restriction (t.leaves.map Prod.fst) i r)
        (fun q => cut t.size (flatSolve (t.leaves.map Prod.fst) s.block (extend q)))
        (fun q => cut t.leaves.length (s.coarse (extend q))) (cut t.size b) (cut t.size x) := by
  have hfl := flat_solver t.leaves s.block hs.block
  rw [shapes_sum hb] at hfl
  have h1 : cut t.size b - linOf t.size t.size K (cut t.size x) = cut t.size fun r => b r - matVec t.size K x r := by
    rw [linOf_cut]; rfl
  unfold absStep
  simp only
  rw [h1, ← solver_cut_eq hfl]
  have h2 : linOf t.leaves.length t.size (restriction (t.leaves.map Prod.fst)) (cut t.size b) -
      linOf t.leaves.length t.size (restriction (t.leaves.map Prod.fst)) (linOf t.size t.size t.entry
        (cut t.size (flatSolve (t.leaves.map Prod.fst) s.block fun r => b r - matVec t.size K x r))) =
      cut t.leaves.length fun i => matVec t.size (fun i r => restriction (t.leaves.map Prod.fst) i r) b i -
        matVec t.size (fun i r => ((productRows t).getD i []).getD r 0)
          (flatSolve (t.leaves.map Prod.fst) s.block fun r => b r - matVec t.size K x r) i := by
    rw [linOf_cut, linOf_cut, linOf_cut]
    funext i
    simp only [cut, Pi.sub_apply]
    congr 1
    generalize flatSolve (t.leaves.map Prod.fst) s.block (fun r => b r - matVec t.size K x r) = y
    have h3 : matVec t.size (fun i r => ((productRows t).getD i []).getD r 0) y i =
        ∑ r ∈ Finset.range t.size, rowMul t (restriction (t.leaves.map Prod.fst) i) r * y r :=
      Finset.sum_congr rfl fun r hr => by beta_reduce; rw [rows_get i.2 (Finset.mem_range.1 hr)]
    rw [h3]
    simp only [matVec, rowMul, Finset.mul_sum, Finset.sum_mul]
    rw [Finset.sum_comm]
    exact Finset.sum_congr rfl fun _ _ => Finset.sum_congr rfl fun _ _ => by ring
  rw [h2, ← solver_cut_eq hs.coarse, linOf_cut]
  rfl

theorem coarse_cut {t : DiagTree F} (K : ℕ → ℕ → F) (hs : s.Right ⟨t.size, K, t.leaves, productRows t⟩)
    (q y : Fin t.leaves.length → F) :
    linOf t.leaves.length t.size (restriction (t.leaves.map Prod.fst)) (linOf t.size t.size t.entry
      (linOf t.size t.leaves.length (fun r i => restriction (t.leaves.map Prod.fst) i r) y)) = q ↔
      y = cut t.leaves.length (s.coarse (extend q)) := by
  rw [← solver_cut hs.coarse]
  suffices h : linOf t.leaves.length t.size (restriction (t.leaves.map Prod.fst)) (linOf t.size t.size t.entry
      (linOf t.size t.leaves.length (fun r i => restriction (t.leaves.map Prod.fst) i r) y)) =
      linOf t.leaves.length t.leaves.length (Precond.Ac ⟨t.size, K, t.leaves, productRows t⟩) y by rw [h]
  rw [← cut_extend y, linOf_cut, linOf_cut, linOf_cut, linOf_cut]
  funext i
  simp only [cut, matVec, Precond.Ac, Precond.shapes]
  have : ∀ j, ∑ r ∈ Finset.range t.size, ((productRows t).getD i []).getD r 0 * restriction (t.leaves.map Prod.fst) j r =
      ∑ r ∈ Finset.range t.size, (∑ r' ∈ Finset.range t.size, restriction (t.leaves.map Prod.fst) i r' * t.entry r' r) *
        restriction (t.leaves.map Prod.fst) j r := fun j =>
    Finset.sum_congr rfl fun r hr => by rw [rows_get i.2 (Finset.mem_range.1 hr), rowMul]
  simp only [this, Finset.mul_sum, Finset.sum_mul]
  conv_rhs =>
    rw [Finset.sum_comm]
    arg 2; ext r
    rw [Finset.sum_comm]
  rw [Finset.sum_comm]
  exact Finset.sum_congr rfl fun _ _ => Finset.sum_congr rfl fun _ _ => Finset.sum_congr rfl fun _ _ => by ring

theorem precond_cut {p : Precond F} (x b : ℕ → F) : IsPrecondSolution p s x b ↔
    cut p.N x - cut p.N (blockJacobi p s (fun _ => 0) x) = cut p.N (blockJacobi p s b fun _ => 0) := by
  rw [funext_iff, Fin.forall_iff]
  exact Iff.rfl

theorem solution_cut {n : ℕ} {m : ℕ → ℕ → F} (x b : ℕ → F) : IsSolution n m x b ↔ linOf n n m (cut n x) = cut n b := by
  rw [linOf_cut, funext_iff, Fin.forall_iff]
  exact Iff.rfl

theorem cut_zero (n : ℕ) : cut n (fun _ => (0 : F)) = 0 := rfl

theorem coarse_diag {t : DiagTree F} (hb : t.Binary) (c : Fin t.leaves.length → F) (k : Fin t.leaves.length) :
    linOf t.leaves.length t.size (restriction (t.leaves.map Prod.fst)) (linOf t.size t.size (flatDiag t.leaves)
      (linOf t.size t.leaves.length (fun r i => restriction (t.leaves.map Prod.fst) i r) c)) k =
      entrySum t.leaves[k] * c k := by
  rw [← cut_extend c, linOf_cut, linOf_cut, linOf_cut, cut_extend]
  have hk : (k : ℕ) < (t.leaves.map Prod.fst).length := by simp
  have hg : (t.leaves.map Prod.fst).getD k 0 = t.leaves[k].1 := by simp [List.getD_eq_getElem?_getD]
  have hg2 : t.leaves.getD k (0, fun _ _ => 0) = t.leaves[k] := by simp [List.getD_eq_getElem?_getD]
  have hT : ∀ i < (t.leaves.map Prod.fst).getD k 0, matVec t.leaves.length
      (fun r i => restriction (t.leaves.map Prod.fst) i r) (extend c) (startOf (t.leaves.map Prod.fst) k + i) = c k := by
    intro i hi
    unfold matVec
    rw [Finset.sum_eq_single_of_mem (k : ℕ) (Finset.mem_range.2 k.2)]
    · beta_reduce
      rw [restriction_start _ _ _ _ hi, if_pos rfl, one_mul]
      simp [extend]
    · intro j _ hj
      beta_reduce
      rw [restriction_start _ _ _ _ hi, if_neg hj, zero_mul]
  generalize matVec t.leaves.length (fun r i => restriction (t.leaves.map Prod.fst) i r) (extend c) = y at hT
  simp only [cut]
  conv_lhs => unfold matVec
  nth_rewrite 1 [← shapes_sum hb]
  rw [sum_slices, Finset.sum_eq_single_of_mem (k : ℕ) (Finset.mem_range.2 hk)]
  · have h1 : ∀ i ∈ Finset.range ((t.leaves.map Prod.fst).getD k 0),
        restriction (t.leaves.map Prod.fst) k (startOf (t.leaves.map Prod.fst) k + i) *
          ∑ c ∈ Finset.range t.size, flatDiag t.leaves (startOf (t.leaves.map Prod.fst) k + i) c * y c =
        (∑ j ∈ Finset.range t.leaves[k].1, t.leaves[k].2 i j) * c k := by
      intro i hi
      have hi := Finset.mem_range.1 hi
      rw [restriction_start _ _ _ _ hi, if_pos rfl, one_mul]
      have := flat_mul t.leaves y hi
      rw [shapes_sum hb] at this
      unfold matVec at this
      rw [this, hg, hg2, Finset.sum_mul]
      refine Finset.sum_congr rfl fun j hj => ?_
      beta_reduce
      rw [hT j (by rw [hg]; exact Finset.mem_range.1 hj)]
    rw [Finset.sum_congr rfl h1, hg, ← Finset.sum_mul]
    rfl
  · intro k' _ hne
    refine Finset.sum_eq_zero fun j hj => ?_
    rw [restriction_start _ _ _ _ (Finset.mem_range.1 hj), if_neg (Ne.symm hne), zero_mul]

/-- **C83.** The matrices of the preconditioned solver are built exactly when the mesh is a collection and all the
collections in its tree have two parts. -/
theorem precond_built_iff (t : DiagTree F) (hf : t.Filled 2) :
    (∃ p, buildPrecond t = some p) ↔ t.isLeaf = false ∧ t.Binary := by
  cases t with
  | leaf n a => simp [buildPrecond, isLeaf]
  | node st k sub off =>
    have hf1 : ∀ t : DiagTree F, t.Filled 2 → t.Filled 1 := by
      intro t
      induction t with
      | leaf n a => intro h; simp only [Filled] at *; omega
      | node st k sub off ih => exact fun h => ⟨h.1, fun i => ih i (h.2 i)⟩
    constructor
    · rintro ⟨p, hp⟩
      refine ⟨rfl, binary_of_paths hf fun q hq => ?_⟩
      unfold buildPrecond at hp
      simp only at hp
      split at hp
      · cases hp
      · rename_i RA hRA
        obtain ⟨i, hi⟩ := List.getElem?_of_mem hq
        have := option_mapM_ne _ _ hRA (q, i) (List.mk_mem_zipIdx_iff_getElem?.2 hi)
        have hq0 : q ≠ [] := by
          rw [paths] at hq
          simp only [List.mem_flatMap, List.mem_map] at hq
          obtain ⟨i, _, q, _, rfl⟩ := hq
          simp
        refine (ra_needs hf q hq ((List.range (node st k sub off).size).map
            (restriction (((node st k sub off).leaves).map Prod.fst) i)) (List.replicate (node st k sub off).size 0) 0
            (node st k sub off).size (by simp) (by omega) (by simp) ?_).2
        unfold raNext
        rw [if_neg hq0]
        exact this
    · rintro ⟨-, hb⟩
      exact ⟨_, build_binary st k sub off hb (hf1 _ hf)⟩

theorem zeroed_lin {t : DiagTree F} (hl : t.isLeaf = false) (hb : t.Binary) (hst : t.Stored) :
    linOf t.size t.size t.zeroed.entry = linOf t.size t.size t.entry - linOf t.size t.size (flatDiag t.leaves) := by
  have hz : t.zeroed = allZeroed t := by
    cases t with
    | leaf n a => simp [isLeaf] at hl
    | node st k sub off => rfl
  rw [eq_sub_iff_add_eq, hz]
  unfold linOf
  rw [← Matrix.mulVecLin_add]
  congr 1
  ext i j
  simp only [Matrix.of_apply, Matrix.add_apply]
  rw [entry_split hb hst i.2 j.2, add_comm]

theorem core_equation {t : DiagTree F} (hb : t.Binary) (K : ℕ → ℕ → F)
    (hs : s.Right ⟨t.size, K, t.leaves, productRows t⟩) (b x : ℕ → F) :
    IsPrecondSolution ⟨t.size, K, t.leaves, productRows t⟩ s x b ↔
      cut t.size x - absStep (linOf t.size t.size t.entry) (linOf t.size t.size K)
        (linOf t.leaves.length t.size (restriction (t.leaves.map Prod.fst)))
        (linOf t.size t.leaves.length fun r i => restriction (t.leaves.map Prod.fst) i r)
        (fun q => cut t.size (flatSolve (t.leaves.map Prod.fst) s.block (extend q)))
        (fun q => cut t.leaves.length (s.coarse (extend q))) 0 (cut t.size x) =
      absStep (linOf t.size t.size t.entry) (linOf t.size t.size K)
        (linOf t.leaves.length t.size (restriction (t.leaves.map Prod.fst)))
        (linOf t.size t.leaves.length fun r i => restriction (t.leaves.map Prod.fst) i r)
        (fun q => cut t.size (flatSolve (t.leaves.map Prod.fst) s.block (extend q)))
        (fun q => cut t.leaves.length (s.coarse (extend q))) (cut t.size b) 0 := by
  rw [precond_cut]
  simp only
  rw [step_cut hb K hs, step_cut hb K hs, cut_zero]

theorem built_shape {t : DiagTree F} {p : Precond F} (hp : buildPrecond t = some p) (hb : t.Binary) (hf : t.Filled 1) :
    t.isLeaf = false ∧ p = ⟨t.size, t.zeroed.entry, t.leaves, productRows t⟩ := by
  cases t with
  | leaf n a => simp [buildPrecond] at hp
  | node st k sub off =>
    rw [build_binary st k sub off hb hf] at hp
    exact ⟨rfl, (Option.some.inj hp).symm⟩

/-- **C83.** A solution of the system is always a solution of the preconditioned system. -/
theorem precond_complete {t : DiagTree F} {p : Precond F} (hp : buildPrecond t = some p) (hb : t.Binary)
    (hf : t.Filled 1) (hst : t.Stored) {s : Solves F} (hs : s.Right p) {b x : ℕ → F}
    (h : IsSolution t.size t.entry x b) : IsPrecondSolution p s x b := by
  obtain ⟨hl, rfl⟩ := built_shape hp hb hf
  have hD := solver_cut (by have := flat_solver t.leaves s.block hs.block; rwa [shapes_sum hb] at this)
  rw [core_equation hb _ hs, zeroed_lin hl hb hst]
  exact abs_complete hD (coarse_cut _ hs) ((solution_cut x b).1 h)

/-- **C83.** With the blocks of the meshes removed from the stored matrix, the preconditioned system has the same solutions
as the system, for all right-hand sides, exactly when the entries of no block of the diagonal sum to zero. -/
theorem precond_exact_iff {t : DiagTree F} {p : Precond F} (hp : buildPrecond t = some p) (hb : t.Binary)
    (hf : t.Filled 1) (hst : t.Stored) {s : Solves F} (hs : s.Right p) :
    (∀ b x, IsPrecondSolution p s x b ↔ IsSolution t.size t.entry x b) ↔ ∀ e ∈ t.leaves, entrySum e ≠ 0 := by
  obtain ⟨hl, rfl⟩ := built_shape hp hb hf
  have hz := zeroed_lin hl hb hst
  have hD := solver_cut (by have := flat_solver t.leaves s.block hs.block; rwa [shapes_sum hb] at this)
  have hC := coarse_cut _ hs
  have hiff := abs_sound_iff hD hC
  rw [← hz] at hiff
  have hinj : (∀ c : Fin t.leaves.length → F, linOf t.leaves.length t.size (restriction (t.leaves.map Prod.fst))
      (linOf t.size t.size (flatDiag t.leaves)
        (linOf t.size t.leaves.length (fun r i => restriction (t.leaves.map Prod.fst) i r) c)) = 0 → c = 0) ↔
      ∀ e ∈ t.leaves, entrySum e ≠ 0 := by
    constructor
    · intro h e he h0
      obtain ⟨k, hk, rfl⟩ := List.getElem_of_mem he
      have := h (Pi.single ⟨k, hk⟩ 1) (by
        funext j
        rw [coarse_diag hb]
        by_cases hj : j = ⟨k, hk⟩
        · subst hj; simp [h0]
        · simp [hj])
      have := congrFun this ⟨k, hk⟩
      simp at this
    · intro h c hc
      funext k
      have := congrFun hc k
      rw [coarse_diag hb] at this
      exact (mul_eq_zero.1 this).resolve_left (h _ (List.getElem_mem _))
  rw [← hinj, ← hiff]
  constructor
  · intro h b x hx
    have := (h (extend b) (extend x)).1 ((core_equation hb _ hs _ _).2 (by rw [cut_extend, cut_extend]; exact hx))
    rwa [solution_cut, cut_extend, cut_extend] at this
  · intro h b x
    refine ⟨fun hx => (solution_cut x b).2 (h _ _ ((core_equation hb _ hs _ _).1 hx)),
      precond_complete hp hb hf hst hs⟩

/-- **C83, symmetric meshes.** When the blocks of the meshes are in matrices of the Toeplitz classes, they are not removed,
and the solution of the system solves the preconditioned system exactly when it is constant on each mesh. -/
theorem precond_symmetric_iff {t : DiagTree F} {p : Precond F} (hp : buildPrecond t = some p) (hb : t.Binary)
    (hf : t.Filled 1) (hlost : t.Lost) {s : Solves F} (hs : s.Right p) {b x : ℕ → F}
    (h : IsSolution t.size t.entry x b) :
    IsPrecondSolution p s x b ↔ ConstantOnMeshes (t.leaves.map Prod.fst) x := by
  obtain ⟨hl, rfl⟩ := built_shape hp hb hf
  have hD := solver_cut (by have := flat_solver t.leaves s.block hs.block; rwa [shapes_sum hb] at this)
  rw [core_equation hb _ hs, zeroed_lost hlost, abs_lost_iff hD (coarse_cut _ hs) ((solution_cut x b).1 h)]
  have hT : ∀ c : ℕ → F, ∀ k < (t.leaves.map Prod.fst).length, ∀ i < (t.leaves.map Prod.fst).getD k 0,
      matVec t.leaves.length (fun r i => restriction (t.leaves.map Prod.fst) i r) c
        (startOf (t.leaves.map Prod.fst) k + i) = c k := by
    intro c k hk i hi
    unfold matVec
    rw [Finset.sum_eq_single_of_mem k (Finset.mem_range.2 (by simpa using hk))]
    · beta_reduce
      rw [restriction_start _ _ _ _ hi, if_pos rfl, one_mul]
    · intro j _ hj
      beta_reduce
      rw [restriction_start _ _ _ _ hi, if_neg hj, zero_mul]
  constructor
  · rintro ⟨c, hc⟩
    refine ⟨extend c, fun k hk i hi => ?_⟩
    rw [← cut_extend c, linOf_cut] at hc
    have := congrFun hc ⟨startOf (t.leaves.map Prod.fst) k + i, by rw [← shapes_sum hb]; exact start_lt _ _ _ hi⟩
    simp only [cut] at this
    rw [← hT (extend c) k hk i hi, ← this]
    rfl
  · rintro ⟨c, hc⟩
    refine ⟨cut _ c, ?_⟩
    rw [linOf_cut]
    have := (forall_slices (P := fun r => x r =
      matVec t.leaves.length (fun r i => restriction (t.leaves.map Prod.fst) i r) c r)).2
      (fun k hk i hi => by rw [hT c k hk i hi]; exact hc k hk i hi)
    rw [shapes_sum hb] at this
    funext r
    exact this r r.2

end Transfer

/-! ## Cases -/

/-- The formulas of Cramer for two unknowns. -/
def cramer (m : ℕ → ℕ → F) (q : ℕ → F) (r : ℕ) : F :=
  if r = 0 then (m 1 1 * q 0 - m 0 1 * q 1) / (m 0 0 * m 1 1 - m 0 1 * m 1 0)
  else (m 0 0 * q 1 - m 1 0 * q 0) / (m 0 0 * m 1 1 - m 0 1 * m 1 0)

theorem forall_lt_two {P : ℕ → Prop} : (∀ r < 2, P r) ↔ P 0 ∧ P 1 := by
  constructor
  · intro h; exact ⟨h 0 (by omega), h 1 (by omega)⟩
  · rintro ⟨h0, h1⟩ r hr
    have : r = 0 ∨ r = 1 := by omega
    rcases this with rfl | rfl <;> assumption

theorem cramer_solver (m : ℕ → ℕ → F) (h : m 0 0 * m 1 1 - m 0 1 * m 1 0 ≠ 0) : IsSolver 2 m (cramer m) := by
  intro q y
  rw [forall_lt_two, forall_lt_two]
  simp only [matVec, Finset.sum_range_succ, Finset.sum_range_zero, zero_add, cramer, if_pos, one_ne_zero, if_false]
  constructor
  · rintro ⟨h0, h1⟩
    constructor
    · rw [eq_div_iff h, ← h0, ← h1]; ring
    · rw [eq_div_iff h, ← h0, ← h1]; ring
  · rintro ⟨h0, h1⟩
    rw [h0, h1]
    constructor
    · rw [mul_div_assoc', mul_div_assoc', ← add_div, div_eq_iff h]; ring
    · rw [mul_div_assoc', mul_div_assoc', ← add_div, div_eq_iff h]; ring

/-- Two meshes of two panels. -/
def diagPair (st : Bool) (a b : ℕ → ℕ → F) (off : ℕ → ℕ → ℕ → ℕ → F) : DiagTree F :=
  .node st 2 (fun i => if i = 0 then .leaf 2 a else .leaf 2 b) off

theorem pair_facts (st : Bool) (a b : ℕ → ℕ → F) (off : ℕ → ℕ → ℕ → ℕ → F) :
    (diagPair st a b off).Binary ∧ (diagPair st a b off).Filled 2 ∧ (diagPair st a b off).Filled 1 ∧
      (diagPair st a b off).leaves = [(2, a), (2, b)] ∧ (diagPair st a b off).size = 4 ∧
      (st = true → (diagPair st a b off).Stored) ∧ (st = false → (diagPair st a b off).Lost) := by
  refine ⟨⟨rfl, ?_⟩, ⟨by omega, ?_⟩, ⟨by omega, ?_⟩, ?_, ?_, ?_, ?_⟩
  · intro i; fin_cases i <;> trivial
  · intro i; fin_cases i <;> simp [Filled]
  · intro i; fin_cases i <;> simp [Filled]
  · rw [diagPair, leaves_two]; simp [leaves]
  · rw [diagPair, size_two]; simp [size]
  · intro h i; fin_cases i <;> exact ⟨h, trivial⟩
  · intro h i; fin_cases i <;> exact ⟨h, trivial⟩

/-- The solver by the formulas of Cramer. -/
def pairSolver (a b : ℕ → ℕ → F) (p : Precond F) : Solves F := ⟨fun k => cramer (if k = 0 then a else b), cramer p.Ac⟩

/-- The sum of the entries of a block of two rows. -/
def blockSum4 (m : ℕ → ℕ → F) : F := m 0 0 + m 0 1 + m 1 0 + m 1 1

theorem pair_built (st : Bool) (a b : ℕ → ℕ → F) (off : ℕ → ℕ → ℕ → ℕ → F)
    (ha : a 0 0 * a 1 1 - a 0 1 * a 1 0 ≠ 0) (hb : b 0 0 * b 1 1 - b 0 1 * b 1 0 ≠ 0)
    (hc : blockSum4 a * blockSum4 b - blockSum4 (off 0 1) * blockSum4 (off 1 0) ≠ 0) :
    ∃ p, buildPrecond (diagPair st a b off) = some p ∧ (pairSolver a b p).Right p := by
  obtain ⟨h1, h2, h3, h4, h5, -, -⟩ := pair_facts st a b off
  have hp := build_binary st 2 _ off h1 h3
  refine ⟨_, hp, ⟨?_, ?_⟩⟩
  · change ∀ k < (diagPair st a b off).leaves.length, IsSolver ((diagPair st a b off).leaves.getD k (0, fun _ _ => 0)).1
      ((diagPair st a b off).leaves.getD k (0, fun _ _ => 0)).2 _
    rw [h4]
    exact forall_lt_two.2 ⟨cramer_solver a ha, cramer_solver b hb⟩
  · change IsSolver (diagPair st a b off).leaves.length (Precond.Ac ⟨(diagPair st a b off).size, (diagPair st a b off).zeroed.entry,
      (diagPair st a b off).leaves, productRows (diagPair st a b off)⟩) (cramer _)
    have hAc : ∀ i < 2, ∀ j < 2, Precond.Ac ⟨(diagPair st a b off).size, (diagPair st a b off).zeroed.entry,
      (diagPair st a b off).leaves, productRows (diagPair st a b off)⟩ i j =
        blockSum4 (if i = 0 then if j = 0 then a else off 0 1 else if j = 0 then off 1 0 else b) := by
      intro i hi j hj
      have hr : ∀ r ∈ Finset.range 4, ((productRows (diagPair st a b off)).getD i []).getD r 0 *
          restriction [2, 2] j r = rowMul (diagPair st a b off) (restriction [2, 2] i) r * restriction [2, 2] j r := by
        intro r hr
        rw [rows_get (by rw [h4]; exact hi) (by rw [h5]; exact Finset.mem_range.1 hr), h4]
        rfl
      unfold Precond.Ac Precond.shapes
      simp only [h5, h4, List.map_cons, List.map_nil]
      rw [Finset.sum_congr rfl hr]
      simp only [rowMul, h5]
      have : ∀ r < 4, ∀ c < 4, (diagPair st a b off).entry r c = if r < 2 then
        if c < 2 then a r c else off 0 1 r (c - 2)
      else if c < 2 then off 1 0 (r - 2) c
      else b (r - 2) (c - 2) := by
        intro r hr c hc
        have := entry_two st (fun i : Fin 2 => if i = 0 then leaf 2 a else leaf 2 b) off (r := r) (c := c)
          (by simpa [size] using hr) (by simpa [size] using hc)
        rw [diagPair, this]
        simp [size, entry]
      have i01 : i = 0 ∨ i = 1 := by omega
      have j01 : j = 0 ∨ j = 1 := by omega
      rcases i01 with rfl | rfl <;> rcases j01 with rfl | rfl <;>
        simp [Finset.sum_range_succ, restriction, startOf, this, blockSum4] <;> ring
    have := cramer_solver (Precond.Ac ⟨(diagPair st a b off).size, (diagPair st a b off).zeroed.entry,
      (diagPair st a b off).leaves, productRows (diagPair st a b off)⟩) (by
        rw [hAc 0 (by omega) 0 (by omega), hAc 0 (by omega) 1 (by omega), hAc 1 (by omega) 0 (by omega),
          hAc 1 (by omega) 1 (by omega)]
        simpa using hc)
    rw [h4] at this ⊢
    exact this

/-- Two meshes with blocks `diag(2, 4)`, and ones outside of the diagonal. -/
example : ∃ p, ∃ s : Solves ℚ, buildPrecond (diagPair true (fun i j => if i = j then if i = 0 then 2 else 4 else 0)
    (fun i j => if i = j then if i = 0 then 2 else 4 else 0) fun _ _ _ _ => 1) = some p ∧ s.Right p ∧
      ∀ b x, IsPrecondSolution p s x b ↔ IsSolution 4
        (diagPair true (fun i j => if i = j then if i = 0 then (2 : ℚ) else 4 else 0)
          (fun i j => if i = j then if i = 0 then 2 else 4 else 0) fun _ _ _ _ => 1).entry x b := by
  obtain ⟨p, hp, hs⟩ := pair_built true (fun i j => if i = j then if i = 0 then (2 : ℚ) else 4 else 0)
    (fun i j => if i = j then if i = 0 then 2 else 4 else 0) (fun _ _ _ _ => 1) (by norm_num) (by norm_num)
    (by norm_num [blockSum4])
  obtain ⟨h1, -, h3, h4, h5, h6, -⟩ := pair_facts true (fun i j => if i = j then if i = 0 then (2 : ℚ) else 4 else 0)
    (fun i j => if i = j then if i = 0 then 2 else 4 else 0) (fun _ _ _ _ => 1)
  refine ⟨p, _, hp, hs, ?_⟩
  have := (precond_exact_iff hp h1 h3 (h6 rfl) hs).2 (by
    rw [h4]
    simp [entrySum, Finset.sum_range_succ]
    norm_num)
  rwa [h5] at this

/-- **C83, negation.** The matrices of a single mesh are not built. -/
theorem precond_single_violated : ∃ t : DiagTree ℚ, t.Filled 2 ∧ buildPrecond t = none :=
  ⟨.leaf 2 fun i j => if i = j then 1 else 0, by simp [Filled], rfl⟩

/-- **C83, negation.** The matrices of three bodies joined together are not built. -/
theorem precond_three_violated : ∃ t : DiagTree ℚ, t.Filled 2 ∧ t.isLeaf = false ∧ t.Stored ∧ buildPrecond t = none := by
  have hf : (DiagTree.node true 3 (fun _ => .leaf 2 fun i j => if i = j then (1 : ℚ) else 0) fun _ _ _ _ => 0).Filled 2 :=
    ⟨by omega, fun _ => by simp [Filled]⟩
  refine ⟨_, hf, rfl, fun _ => ⟨rfl, trivial⟩, ?_⟩
  by_contra h
  obtain ⟨p, hp⟩ := Option.ne_none_iff_exists'.1 h
  have := (precond_built_iff _ hf).1 ⟨p, hp⟩
  exact absurd this.2.1 (by omega)

/-- **C83, negation.** For a symmetric mesh, with the identity as matrix, the solution of the system does not solve the
preconditioned system. -/
theorem precond_symmetric_violated : ∃ (t : DiagTree ℚ) (p : Precond ℚ) (s : Solves ℚ) (b x : ℕ → ℚ),
    t.Binary ∧ buildPrecond t = some p ∧ s.Right p ∧ IsSolution t.size t.entry x b ∧ ¬IsPrecondSolution p s x b := by
  obtain ⟨p, hp, hs⟩ := pair_built false (fun i j => if i = j then (1 : ℚ) else 0) (fun i j => if i = j then 1 else 0)
    (fun _ _ _ _ => 0) (by norm_num) (by norm_num) (by norm_num [blockSum4])
  obtain ⟨h1, -, h3, h4, h5, -, h7⟩ := pair_facts false (fun i j => if i = j then (1 : ℚ) else 0)
    (fun i j => if i = j then 1 else 0) (fun _ _ _ _ => 0)
  have hsol : IsSolution (diagPair false (fun i j => if i = j then (1 : ℚ) else 0) (fun i j => if i = j then 1 else 0)
      (fun _ _ _ _ => 0)).size (diagPair false (fun i j => if i = j then (1 : ℚ) else 0) (fun i j => if i = j then 1 else 0)
      (fun _ _ _ _ => 0)).entry (fun r => if r = 0 then 1 else 0) (matVec 4 (diagPair false (fun i j => if i = j then (1 : ℚ)
        else 0) (fun i j => if i = j then 1 else 0) (fun _ _ _ _ => 0)).entry fun r => if r = 0 then 1 else 0) := by
    rw [h5]; exact fun _ _ => rfl
  refine ⟨_, p, _, _, _, h1, hp, hs, hsol, ?_⟩
  rw [precond_symmetric_iff hp h1 h3 (h7 rfl) hs hsol, h4]
  rintro ⟨c, hc⟩
  have a := hc 0 (by simp) 0 (by simp)
  have b := hc 0 (by simp) 1 (by simp)
  rw [← a] at b
  norm_num at b

/-- **C83, negation.** With the blocks `diag(1, -1)`, the preconditioned system has a solution that does not solve the
system. -/
theorem precond_sum_violated : ∃ (t : DiagTree ℚ) (p : Precond ℚ) (s : Solves ℚ) (b x : ℕ → ℚ),
    t.Binary ∧ t.Stored ∧ buildPrecond t = some p ∧ s.Right p ∧ IsPrecondSolution p s x b ∧
      ¬IsSolution t.size t.entry x b := by
  obtain ⟨p, hp, hs⟩ := pair_built true (fun i j => if i = j then if i = 0 then (1 : ℚ) else -1 else 0)
    (fun i j => if i = j then if i = 0 then 1 else -1 else 0) (fun _ _ _ _ => 1) (by norm_num) (by norm_num)
    (by norm_num [blockSum4])
  obtain ⟨h1, -, h3, h4, h5, h6, -⟩ := pair_facts true (fun i j => if i = j then if i = 0 then (1 : ℚ) else -1 else 0)
    (fun i j => if i = j then if i = 0 then 1 else -1 else 0) (fun _ _ _ _ => 1)
  by_contra hcon
  push Not at hcon
  have := (precond_exact_iff hp h1 h3 (h6 rfl) hs).1 fun b x =>
    ⟨fun h => hcon _ p _ b x h1 (h6 rfl) hp hs h, precond_complete hp h1 h3 (h6 rfl) hs⟩
  rw [h4] at this
  have := this _ (List.mem_cons_self)
  norm_num [entrySum, Finset.sum_range_succ] at this

end Verif.Engines
