import Verif.LowRank.WrapModel
import Verif.LowRank.RankProps

/-!
# The adaptive cross approximation of one matrix, and of integers
-/

namespace Verif.LowRank

variable {m n : ℕ}

/-- A full matrix, and the function of its coefficients, give a result that coincides with it on the rows and columns read, unless a pivot is
replaced. -/
theorem full_interpolates_partial (A : Matrix (Fin m) (Fin n) ℂ) (f : ℕ → ℕ → ℂ) (hf : ∀ (i : Fin m) (j : Fin n), f i j = A i j)
    (maxRank : Option ℕ) (tol : ℝ) (F : Fin 1 → Factors m n) (is : List (Fin m)) (js : List (Fin n))
    (h : fullAca A maxRank tol = .done F is js) :
    functionAca f m n maxRank tol = .done F is js ∧
    (GoodPivots (fun i j => A i j) (F 0) is js → ∀ p i j, p < (F 0).left.length → is[p]? = some i → js[p]? = some j →
      (∀ b, (F 0).entry i b = A i b) ∧ ∀ a, (F 0).entry a j = A a j) := by
  constructor
  · have e : (fun (i : Fin m) (j : Fin n) => f i j) = fun i j => A i j := by
      funext i j
      exact hf i j
    rw [functionAca, e]
    exact h
  · intro hp p i j hpl hi hj
    have hc := (aca_result (A := fun _ : Fin 1 => fun i j => A i j) (main := 0) h).crosses 0
    have := residual_zero hc hp (F 0).left.length le_rfl p i j hpl hi hj
    rw [take_all _ hc.right_len] at this
    exact ⟨fun b => (sub_eq_zero.1 (this.1 b)).symm, fun a => (sub_eq_zero.1 (this.2 a)).symm⟩

/-- What is read for integers: the column of the largest coefficient of the first row. -/
theorem int_column (A : Fin (m + 1) → Fin (n + 1) → ℤ) :
    ∃ j F, intAcaOne A = some (j, F) ∧ (∀ b, |A 0 b| ≤ |A 0 j|) ∧ ∀ a b, F a b = (A a j).tdiv (A 0 j) * A 0 b := by
  obtain ⟨k, hk⟩ := argmax_some (l := (List.finRange (n + 1)).map fun b => ‖((A 0 b : ℤ) : ℂ)‖) (by simp)
  have hlt := argmax_lt _ _ hk
  rw [List.length_map] at hlt
  obtain ⟨j, r, hj⟩ := pop_some hlt
  refine ⟨j, _, ?_, ?_, fun a b => rfl⟩
  · rw [intAcaOne, pickCol, hk, Option.bind_some, hj]
    rfl
  · intro b
    have := argmax_map hk (pop_spec hj).1 b (List.mem_finRange b)
    simp only [Complex.norm_intCast] at this
    exact_mod_cast this

/-- For integers, the result coincides with the matrix on the row that is read. It coincides with it on the column that is read exactly when the
pivot divides the column. -/
theorem int_cross_iff (A : Fin (m + 1) → Fin (n + 1) → ℤ) (j : Fin (n + 1)) (F : Fin (m + 1) → Fin (n + 1) → ℤ)
    (h : intAcaOne A = some (j, F)) (h0 : ∃ b, A 0 b ≠ 0) :
    (∀ b, F 0 b = A 0 b) ∧ ((∀ a, F a j = A a j) ↔ ∀ a, A 0 j ∣ A a j) := by
  obtain ⟨j', F', h', hmax, hF⟩ := int_column A
  rw [h] at h'
  cases h'
  have hne : A 0 j ≠ 0 := by
    obtain ⟨b, hb⟩ := h0
    intro e
    have := hmax b
    rw [e, abs_zero] at this
    exact hb (abs_nonpos_iff.1 this)
  constructor
  · intro b
    rw [hF, Int.tdiv_self hne, one_mul]
  · constructor
    · intro e a
      have := e a
      rw [hF] at this
      exact ⟨_, by rw [mul_comm]; exact this.symm⟩
    · intro e a
      rw [hF]
      exact Int.tdiv_mul_cancel (e a)

/-- The array `[[2, 1], [1, 1]]`. -/
def smallInts : Fin 2 → Fin 2 → ℤ := ![![2, 1], ![1, 1]]

/-- An array of integers whose approximation does not coincide with it on the column that is read, although the pivot is 2. -/
theorem int_cross_violated : ∃ j F, intAcaOne smallInts = some (j, F) ∧ |smallInts 0 j| = 2 ∧ F 1 j = 0 ∧ smallInts 1 j = 1 := by
  obtain ⟨j, F, h, hmax, hF⟩ := int_column smallInts
  have hj : j = 0 := by
    have := hmax 0
    fin_cases j
    · rfl
    · simp [smallInts] at this
  subst hj
  exact ⟨0, F, h, by simp [smallInts], by rw [hF]; simp [smallInts], by simp [smallInts]⟩

/-- An array whose column is divided by the pivot. -/
example : (∃ b, (![![2, 1], ![4, 1]] : Fin 2 → Fin 2 → ℤ) 0 b ≠ 0) ∧ (2 : ℤ) ∣ 4 := ⟨⟨0, by simp⟩, by norm_num⟩

/-- A matrix for which the approximation ends. -/
example : ∃ F is js, fullAca (1 : Matrix (Fin 3) (Fin 3) ℂ) (some 2) 0 = .done F is js :=
  aca_negative_ends (fun (_ : Fin 1) (i j : Fin 3) => (1 : Matrix (Fin 3) (Fin 3) ℂ) i j) 0 2 0 (by norm_num) (by norm_num) le_rfl

end Verif.LowRank
