import Verif.LowRank.AcaProps
import Mathlib.LinearAlgebra.Matrix.NonsingularInverse
import Mathlib.Tactic.FinCases
import Mathlib.Tactic.NoncommRing

/-!
# Operations on low rank matrices (C23)
-/

namespace Verif.LowRank

open Matrix

variable {K : Type} [Field K] {m r n : ℕ}

/-- C23 for the opposite. -/
theorem neg_full (M : LowRank K m r n) : M.neg.full = -M.full := Matrix.neg_mul _ _

/-- C23 for the division by a number. -/
theorem div_full (M : LowRank K m r n) (c : K) (i : Fin m) (j : Fin n) : (M.div c).full i j = M.full i j / c := by
  simp only [LowRank.full, LowRank.div, Matrix.mul_apply, div_eq_mul_inv, Finset.sum_mul, mul_assoc, Matrix.of_apply]

/-- C23 for products with a vector on the right. -/
theorem mulVec_full (M : LowRank K m r n) (x : Fin n → K) : M.mulVec x = M.full *ᵥ x := Matrix.mulVec_mulVec _ _ _

/-- C23 for products with a vector on the left. -/
theorem vecMul_full (M : LowRank K m r n) (x : Fin m → K) : M.vecMul x = x ᵥ* M.full := Matrix.vecMul_vecMul _ _ _

/-- The concatenation of factors is the sum of the matrices. -/
theorem concat_full {r' : ℕ} (M : LowRank K m r n) (M' : LowRank K m r' n) : (M.concat M').full = M.full + M'.full := by
  ext i j
  simp [LowRank.full, LowRank.concat, Matrix.mul_apply, Fin.sum_univ_add]

/-- C23 for the approximation by singular values: without dropping any, it is the matrix. -/
theorem fromSvd_full (A : Matrix (Fin m) (Fin n) K) (U : Matrix (Fin m) (Fin r) K) (S : Fin r → K)
    (V : Matrix (Fin r) (Fin n) K) (h : A = U * diagonal S * V) : (fromSvd le_rfl U S V).full = A := by
  rw [h]
  rfl

/-- What is true of the arrays returned by `np.linalg.qr` and `np.linalg.svd` over any field: they are factorisations, and
their orthonormal factors can be cancelled. -/
structure Factorises (M : LowRank K m r n) (D : Decomposition K m r n) : Prop where
  left : M.left = D.QA * D.RA
  right : M.rightᵀ = D.QB * D.RB
  svd : D.RA * D.RBᵀ = D.U * diagonal D.S * D.V
  cancelA : ∃ L : Matrix (Fin r) (Fin m) K, L * D.QA = 1
  cancelB : ∃ L : Matrix (Fin r) (Fin n) K, L * D.QB = 1
  cancelU : ∃ L : Matrix (Fin r) (Fin r) K, L * D.U = 1

theorem recompress_full (D : Decomposition K m r n) :
    (recompress le_rfl D).full = D.QA * (D.U * diagonal D.S * D.Vᵀ) * D.QBᵀ := by
  have h1 : Matrix.of (fun i (k : Fin r) => D.U i (k.castLE le_rfl) * D.S (k.castLE le_rfl)) = D.U * diagonal D.S := by
    ext i j
    rw [Matrix.mul_diagonal]
    rfl
  have h2 : Matrix.of (fun i (k : Fin r) => D.V i (k.castLE le_rfl)) = D.V := rfl
  rw [LowRank.full, recompress]
  simp only
  rw [h1, h2, Matrix.transpose_mul]
  simp only [Matrix.mul_assoc]

theorem full_svd {M : LowRank K m r n} {D : Decomposition K m r n} (h : Factorises M D) :
    M.full = D.QA * (D.U * diagonal D.S * D.V) * D.QBᵀ := by
  have hr : M.right = D.RBᵀ * D.QBᵀ := by rw [← Matrix.transpose_mul, ← h.right, Matrix.transpose_transpose]
  rw [← h.svd, LowRank.full, hr, h.left]
  simp only [Matrix.mul_assoc]

/-- C23: recompressing without dropping any singular value represents the same matrix exactly when the last factor returned by
`np.linalg.svd` is symmetric, on the rows of the singular values that are not zero. -/
theorem recompress_iff (M : LowRank K m r n) (D : Decomposition K m r n) (h : Factorises M D) :
    (recompress le_rfl D).full = M.full ↔ ∀ i j, D.S i ≠ 0 → D.V j i = D.V i j := by
  rw [recompress_full, full_svd h]
  have hdiag : diagonal D.S * D.Vᵀ = diagonal D.S * D.V ↔ ∀ i j, D.S i ≠ 0 → D.V j i = D.V i j := by
    constructor
    · intro he i j hs
      have := congrFun (congrFun he i) j
      rw [Matrix.diagonal_mul, Matrix.diagonal_mul, Matrix.transpose_apply] at this
      exact mul_left_cancel₀ hs this
    · intro he
      ext i j
      rw [Matrix.diagonal_mul, Matrix.diagonal_mul, Matrix.transpose_apply]
      by_cases hs : D.S i = 0
      · rw [hs, zero_mul, zero_mul]
      · rw [he i j hs]
  rw [← hdiag]
  constructor
  · intro he
    obtain ⟨LA, hA⟩ := h.cancelA
    obtain ⟨LB, hB⟩ := h.cancelB
    obtain ⟨LU, hU⟩ := h.cancelU
    have hB' : D.QBᵀ * LBᵀ = 1 := by rw [← Matrix.transpose_mul, hB, Matrix.transpose_one]
    have key : ∀ X : Matrix (Fin r) (Fin r) K,
        LU * (LA * (D.QA * (D.U * diagonal D.S * X) * D.QBᵀ) * LBᵀ) = diagonal D.S * X := by
      intro X
      calc LU * (LA * (D.QA * (D.U * diagonal D.S * X) * D.QBᵀ) * LBᵀ)
          = LU * ((LA * D.QA) * (D.U * diagonal D.S * X) * (D.QBᵀ * LBᵀ)) := by simp only [Matrix.mul_assoc]
        _ = LU * D.U * (diagonal D.S * X) := by rw [hA, hB', Matrix.one_mul, Matrix.mul_one]; simp only [Matrix.mul_assoc]
        _ = diagonal D.S * X := by rw [hU, Matrix.one_mul]
    rw [← key D.Vᵀ, ← key D.V, he]
  · intro he
    rw [Matrix.mul_assoc D.U, Matrix.mul_assoc D.U, he]

/-- A recompression of a matrix which is its own decomposition: the condition holds. -/
example : ∃ (M : LowRank ℝ 2 2 2) (D : Decomposition ℝ 2 2 2), Factorises M D ∧ (recompress le_rfl D).full = M.full := by
  refine ⟨⟨1, 1⟩, ⟨1, 1, 1, 1, 1, fun _ => 1, 1⟩, ⟨?_, ?_, ?_, ⟨1, ?_⟩, ⟨1, ?_⟩, ⟨1, ?_⟩⟩, ?_⟩
  case refine_7 =>
    rw [recompress_full]
    simp [LowRank.full]
  all_goals simp

/-- The documented contract of `np.linalg.qr` and `np.linalg.svd` for real matrices: orthonormal columns, upper triangular
factors, nonnegative decreasing singular values. -/
structure Contract (M : LowRank ℝ m r n) (D : Decomposition ℝ m r n) : Prop where
  left : M.left = D.QA * D.RA
  right : M.rightᵀ = D.QB * D.RB
  svd : D.RA * D.RBᵀ = D.U * diagonal D.S * D.V
  orthA : D.QAᵀ * D.QA = 1
  orthB : D.QBᵀ * D.QB = 1
  orthU : D.Uᵀ * D.U = 1
  orthV : D.V * D.Vᵀ = 1
  upperA : ∀ i j, j < i → D.RA i j = 0
  upperB : ∀ i j, j < i → D.RB i j = 0
  nonneg : ∀ i, 0 ≤ D.S i
  decreasing : ∀ i j, i ≤ j → D.S j ≤ D.S i

theorem Contract.factorises {M : LowRank ℝ m r n} {D : Decomposition ℝ m r n} (h : Contract M D) : Factorises M D :=
  ⟨h.left, h.right, h.svd, ⟨_, h.orthA⟩, ⟨_, h.orthB⟩, ⟨_, h.orthU⟩⟩

/-- The identity times a diagonal matrix. -/
def scaled : LowRank ℝ 3 3 3 := ⟨1, diagonal ![1, 3, 2]⟩

theorem mul_transpose_of {k : ℕ} {Q : Matrix (Fin k) (Fin k) ℝ} (h : Qᵀ * Q = 1) : Q * Qᵀ = 1 :=
  Matrix.mul_eq_one_comm_of_equiv (Equiv.refl _) |>.mp h

/-- C23 does not hold: recompressing the diagonal matrix of 1, 3, 2 without dropping any singular value gives another
matrix, whatever factorisations are returned. -/
theorem recompress_violated (D : Decomposition ℝ 3 3 3) (h : Contract scaled D) :
    (recompress le_rfl D).full ≠ scaled.full := by
  intro heq
  rw [recompress_iff scaled D h.factorises] at heq
  -- the second orthonormal factor is a diagonal of signs
  have hRB : D.RB = D.QBᵀ * diagonal ![1, 3, 2] := by
    have h1 : (diagonal ![1, 3, 2] : Matrix (Fin 3) (Fin 3) ℝ) = D.QB * D.RB := by
      rw [← h.right]
      simp [scaled]
    rw [h1, ← Matrix.mul_assoc, h.orthB, Matrix.one_mul]
  have hup : ∀ i j, j < i → D.QB j i = 0 := by
    intro i j hij
    have := h.upperB i j hij
    rw [hRB, Matrix.mul_diagonal, Matrix.transpose_apply] at this
    rcases mul_eq_zero.mp this with h0 | h0
    · exact h0
    · fin_cases j <;> norm_num at h0
  have horth := mul_transpose_of h.orthB
  have ho : ∀ a b, ∑ k, D.QB a k * D.QB b k = (1 : Matrix (Fin 3) (Fin 3) ℝ) a b := by
    intro a b
    rw [← horth, Matrix.mul_apply]
    rfl
  have q01 : D.QB 0 1 = 0 := hup 1 0 (by decide)
  have q02 : D.QB 0 2 = 0 := hup 2 0 (by decide)
  have q12 : D.QB 1 2 = 0 := hup 2 1 (by decide)
  have o00 := ho 0 0
  have o01 := ho 0 1
  have o02 := ho 0 2
  have o11 := ho 1 1
  have o12 := ho 1 2
  have o22 := ho 2 2
  simp only [Fin.sum_univ_three, q01, q02, q12, Matrix.one_apply_eq, mul_zero, zero_mul, add_zero] at o00 o01 o02 o11 o12 o22
  rw [Matrix.one_apply_ne (by decide)] at o01 o02 o12
  have n00 : D.QB 0 0 ≠ 0 := by
    intro h0
    rw [h0] at o00
    norm_num at o00
  have q10 : D.QB 1 0 = 0 := (mul_eq_zero.mp o01).resolve_left n00
  have q20 : D.QB 2 0 = 0 := (mul_eq_zero.mp o02).resolve_left n00
  rw [q10, zero_mul, zero_add] at o11 o12
  have n11 : D.QB 1 1 ≠ 0 := by
    intro h0
    rw [h0] at o11
    norm_num at o11
  have q21 : D.QB 2 1 = 0 := (mul_eq_zero.mp o12).resolve_left n11
  simp only [q20, q21, zero_mul, zero_add] at o22
  -- the square of the small matrix
  have hK : (D.RA * D.RBᵀ)ᵀ * (D.RA * D.RBᵀ) = diagonal ![1, 9, 4] := by
    have hRA : D.RAᵀ * D.RA = 1 := by
      have h1 : (1 : Matrix (Fin 3) (Fin 3) ℝ) = D.QA * D.RA := h.left
      have h2 : D.RA = D.QAᵀ := by
        calc D.RA = (D.QAᵀ * D.QA) * D.RA := by rw [h.orthA, Matrix.one_mul]
          _ = D.QAᵀ * (D.QA * D.RA) := Matrix.mul_assoc _ _ _
          _ = D.QAᵀ := by rw [← h1, Matrix.mul_one]
      rw [h2, Matrix.transpose_transpose, mul_transpose_of h.orthA]
    have : (D.RA * D.RBᵀ)ᵀ * (D.RA * D.RBᵀ) = D.RB * D.RBᵀ := by
      rw [Matrix.transpose_mul, Matrix.transpose_transpose]
      calc D.RB * D.RAᵀ * (D.RA * D.RBᵀ) = D.RB * ((D.RAᵀ * D.RA) * D.RBᵀ) := by simp only [Matrix.mul_assoc]
        _ = D.RB * D.RBᵀ := by rw [hRA, Matrix.one_mul]
    rw [this, hRB]
    ext a b
    simp only [Matrix.mul_apply, Matrix.transpose_apply, Fin.sum_univ_three, Matrix.diagonal_apply]
    fin_cases a <;> fin_cases b <;> simp [q01, q02, q12, q10, q20, q21] <;> nlinarith
  have hV : D.V * diagonal ![1, 9, 4] = diagonal (fun i => D.S i ^ 2) * D.V := by
    rw [← hK, h.svd]
    have e1 : (D.U * diagonal D.S * D.V)ᵀ = D.Vᵀ * (diagonal D.S * D.Uᵀ) := by
      rw [Matrix.transpose_mul, Matrix.transpose_mul, Matrix.diagonal_transpose]
    have e2 : diagonal D.S * diagonal D.S = diagonal (fun i => D.S i ^ 2) := by
      rw [Matrix.diagonal_mul_diagonal]
      congr 1
      funext i
      rw [sq]
    rw [e1]
    calc D.V * (D.Vᵀ * (diagonal D.S * D.Uᵀ) * (D.U * diagonal D.S * D.V))
        = (D.V * D.Vᵀ) * (diagonal D.S * ((D.Uᵀ * D.U) * (diagonal D.S * D.V))) := by simp only [Matrix.mul_assoc]
      _ = diagonal D.S * diagonal D.S * D.V := by
        rw [h.orthV, h.orthU, Matrix.one_mul, Matrix.one_mul, Matrix.mul_assoc]
      _ = _ := by rw [e2]
  have hv : ∀ i j, D.V i j = 0 ∨ (![1, 9, 4] : Fin 3 → ℝ) j = D.S i ^ 2 := by
    intro i j
    have := congrFun (congrFun hV i) j
    rw [Matrix.mul_diagonal, Matrix.diagonal_mul, mul_comm] at this
    by_cases h0 : D.V i j = 0
    · exact Or.inl h0
    · exact Or.inr (mul_right_cancel₀ h0 this)
  have hcol : ∀ j, ∃ i, D.V i j ≠ 0 := by
    intro j
    by_contra hc
    push Not at hc
    have h1 : D.Vᵀ * D.V = 1 := Matrix.mul_eq_one_comm_of_equiv (Equiv.refl _) |>.mp h.orthV
    have h2 := congrFun (congrFun h1 j) j
    rw [Matrix.mul_apply, Matrix.one_apply_eq] at h2
    simp [hc] at h2
  have hs : ∀ j, ∃ i, (![1, 9, 4] : Fin 3 → ℝ) j = D.S i ^ 2 := by
    intro j
    obtain ⟨i, hi⟩ := hcol j
    exact ⟨i, (hv i j).resolve_left hi⟩
  obtain ⟨i0, h0⟩ := hs 0
  obtain ⟨i1, h1⟩ := hs 1
  obtain ⟨i2, h2⟩ := hs 2
  have d01 := h.decreasing 0 1 (by decide)
  have d12 := h.decreasing 1 2 (by decide)
  have p0 := h.nonneg 0
  have p1 := h.nonneg 1
  have p2 := h.nonneg 2
  have s01 : D.S 1 ^ 2 ≤ D.S 0 ^ 2 := by nlinarith
  have s12 : D.S 2 ^ 2 ≤ D.S 1 ^ 2 := by nlinarith
  have e0 : D.S 0 ^ 2 = 9 ∧ D.S 1 ^ 2 = 4 ∧ D.S 2 ^ 2 = 1 := by
    simp only [Matrix.cons_val_zero, Matrix.cons_val_one, Matrix.cons_val] at h0 h1 h2
    fin_cases i0 <;> fin_cases i1 <;> fin_cases i2 <;> simp only [Fin.zero_eta, Fin.mk_one, Fin.reduceFinMk] at h0 h1 h2 <;>
      first
      | (exfalso; linarith)
      | exact ⟨by linarith, by linarith, by linarith⟩
  have v10 : D.V 1 0 = 0 := by
    rcases hv 1 0 with h | h
    · exact h
    · rw [e0.2.1] at h
      norm_num at h
  have v11 : D.V 1 1 = 0 := by
    rcases hv 1 1 with h | h
    · exact h
    · rw [e0.2.1] at h
      norm_num at h
  have v21 : D.V 2 1 = 0 := by
    rcases hv 2 1 with h | h
    · exact h
    · rw [e0.2.2] at h
      norm_num at h
  have hS0 : D.S 0 ≠ 0 := by
    intro h0
    have := e0.1
    rw [h0] at this
    norm_num at this
  have v01 : D.V 0 1 = 0 := by
    rw [← heq 0 1 hS0, v10]
  obtain ⟨i, hi⟩ := hcol 1
  fin_cases i
  · exact hi v01
  · exact hi v11
  · exact hi v21

/-- There is such a factorisation. -/
example : ∃ D : Decomposition ℝ 3 3 3, Contract scaled D := by
  refine ⟨⟨1, 1, 1, diagonal ![1, 3, 2], !![0, 0, 1; 1, 0, 0; 0, 1, 0], ![3, 2, 1], !![0, 1, 0; 0, 0, 1; 1, 0, 0]⟩, ?_⟩
  constructor
  · simp [scaled]
  · simp [scaled]
  · ext i j
    simp only [Matrix.mul_apply, Fin.sum_univ_three, Matrix.diagonal_apply, Matrix.one_apply, Matrix.transpose_apply]
    fin_cases i <;> fin_cases j <;> simp
  · simp
  · simp
  · ext i j
    fin_cases i <;> fin_cases j <;> simp [Matrix.mul_apply, Fin.sum_univ_three]
  · ext i j
    fin_cases i <;> fin_cases j <;> simp [Matrix.mul_apply, Fin.sum_univ_three]
  · intro i j h
    exact Matrix.one_apply_ne (ne_of_gt h)
  · intro i j h
    exact Matrix.diagonal_apply_ne _ (ne_of_gt h)
  · intro i
    fin_cases i <;> norm_num
  · intro i j h
    fin_cases i <;> fin_cases j <;> first | (exfalso; revert h; decide) | norm_num

/-- C23 does not hold for sums: the rank of the result is at most the smallest of the two ranks, so that no decomposition
gives a sum whose rank is larger. -/
theorem add_violated {r' : ℕ} (M : LowRank K m r n) (M' : LowRank K m r' n) (D : Decomposition K m (r + r') n)
    (h : min r r' < (M.full + M'.full).rank) : (add D).full ≠ M.full + M'.full := by
  intro he
  rw [← he] at h
  have h1 := Matrix.rank_mul_le_left (add D).left (add D).right
  have h2 := Matrix.rank_le_width (add D).left
  rw [LowRank.full] at h
  omega

/-- Two matrices with a single coefficient. -/
example : ∃ M M' : LowRank ℝ 2 1 2, min 1 1 < (M.full + M'.full).rank := by
  refine ⟨⟨!![1; 0], !![1, 0]⟩, ⟨!![0; 1], !![0, 1]⟩, ?_⟩
  have : (⟨!![1; 0], !![1, 0]⟩ : LowRank ℝ 2 1 2).full + (⟨!![0; 1], !![0, 1]⟩ : LowRank ℝ 2 1 2).full = 1 := by
    ext i j
    fin_cases i <;> fin_cases j <;> simp [LowRank.full, Matrix.mul_apply]
  rw [this, Matrix.rank_one]
  simp

end Verif.LowRank
