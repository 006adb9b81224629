import Mathlib.Analysis.SpecialFunctions.Complex.Log
import Mathlib.Algebra.Field.GeomSum
import Mathlib.Algebra.BigOperators.Field
import Mathlib.Tactic.Ring
import Mathlib.Tactic.FieldSimp

/-!
# Discrete Fourier transforms as documented for `np.fft.fft` and `np.fft.ifft`
-/

namespace Verif.Blocks

open Finset

/-- `exp(-2 π i m / n)`. -/
noncomputable def W (n : ℕ) (m : ℤ) : ℂ := Complex.exp (-(2 * Real.pi * Complex.I * m / n))

/-- `np.fft.fft`: `X_j = Σ_k x_k exp(-2 π i j k / n)`. -/
noncomputable def dft (n : ℕ) (x : ℕ → ℂ) (j : ℕ) : ℂ := ∑ k ∈ range n, x k * W n (k * j)

/-- `np.fft.ifft`: `x_k = 1/n Σ_j X_j exp(2 π i j k / n)`. -/
noncomputable def idft (n : ℕ) (X : ℕ → ℂ) (k : ℕ) : ℂ :=
  (∑ j ∈ range n, X j * W n (-(k * j))) / n

theorem W_add (n : ℕ) (a b : ℤ) : W n (a + b) = W n a * W n b := by
  rw [W, W, W, ← Complex.exp_add]
  congr 1
  push_cast
  ring

theorem W_zero (n : ℕ) : W n 0 = 1 := by simp [W]

theorem W_mul_nat (n : ℕ) (a : ℤ) (j : ℕ) : W n (a * j) = W n a ^ j := by
  rw [W, W, ← Complex.exp_nat_mul]
  congr 1
  push_cast
  ring

theorem W_eq_one_iff {n : ℕ} (hn : 0 < n) (m : ℤ) : W n m = 1 ↔ (n : ℤ) ∣ m := by
  have hn' : (n : ℂ) ≠ 0 := by exact_mod_cast hn.ne'
  rw [W, Complex.exp_eq_one_iff]
  constructor
  · rintro ⟨k, hk⟩
    refine ⟨-k, ?_⟩
    have h2 : (2 * Real.pi * Complex.I : ℂ) ≠ 0 := Complex.two_pi_I_ne_zero
    have : (m : ℂ) = n * (-k) := by
      field_simp at hk
      have h3 : (2 * Real.pi * Complex.I : ℂ) * m = 2 * Real.pi * Complex.I * (n * (-k)) := by
        linear_combination (-(2 * Real.pi * Complex.I : ℂ)) * hk
      exact mul_left_cancel₀ h2 h3
    exact_mod_cast this
  · rintro ⟨k, rfl⟩
    refine ⟨-k, ?_⟩
    push_cast
    field_simp

theorem sum_W {n : ℕ} (hn : 0 < n) (m : ℤ) :
    ∑ j ∈ range n, W n (m * j) = if (n : ℤ) ∣ m then (n : ℂ) else 0 := by
  simp only [W_mul_nat]
  split
  · rename_i h
    rw [(W_eq_one_iff hn m).2 h]
    simp
  · rename_i h
    have hne : W n m ≠ 1 := fun e => h ((W_eq_one_iff hn m).1 e)
    rw [geom_sum_eq hne]
    have : W n m ^ n = 1 := by
      rw [← W_mul_nat, W_eq_one_iff hn]
      exact Dvd.intro_left m rfl
    rw [this]
    simp

/-- The inverse transform is the inverse of the transform. -/
theorem idft_dft {n : ℕ} (x : ℕ → ℂ) {k : ℕ} (hk : k < n) : idft n (dft n x) k = x k := by
  have hn : 0 < n := by omega
  have hn' : (n : ℂ) ≠ 0 := by exact_mod_cast hn.ne'
  rw [idft, div_eq_iff hn']
  simp only [dft, sum_mul]
  rw [sum_comm]
  have : ∀ i ∈ range n, ∑ j ∈ range n, x i * W n (i * j) * W n (-(k * j)) =
      if i = k then x k * n else 0 := by
    intro i hi
    have e : ∀ j ∈ range n, x i * W n (i * j) * W n (-(k * j)) = x i * W n (((i : ℤ) - k) * j) := by
      intro j _
      rw [mul_assoc, ← W_add]
      congr 2
      ring
    rw [sum_congr rfl e, ← mul_sum, sum_W hn]
    have hdiv : (n : ℤ) ∣ (i : ℤ) - k ↔ i = k := by
      constructor
      · rintro ⟨t, ht⟩
        have hi' := mem_range.1 hi
        have : t = 0 := by
          by_contra h
          rcases lt_or_gt_of_ne h with h | h <;> nlinarith
        subst this
        omega
      · rintro rfl; simp
    by_cases h : i = k
    · rw [if_pos (hdiv.2 h), if_pos h, h]
    · rw [if_neg (fun h' => h (hdiv.1 h')), if_neg h, mul_zero]
  rw [sum_congr rfl this, sum_ite_eq' (range n) k, if_pos (mem_range.2 hk)]

/-- Convolution theorem for periodic sequences. -/
theorem dft_conv {n : ℕ} (hn : 0 < n) (a b : ℕ → ℂ) (j : ℕ) :
    dft n (fun i => ∑ l ∈ range n, a ((i + n - l) % n) * b l) j = dft n a j * dft n b j := by
  simp only [dft, sum_mul_sum]
  simp only [sum_mul]
  rw [sum_comm]
  conv_rhs => rw [sum_comm]
  apply sum_congr rfl
  intro l hl
  have hl' := mem_range.1 hl
  -- reindex i ↦ (i + n - l) % n
  apply sum_nbij' (fun i => (i + n - l) % n) (fun s => (s + l) % n)
  · intro i _; exact mem_range.2 (Nat.mod_lt _ hn)
  · intro i _; exact mem_range.2 (Nat.mod_lt _ hn)
  · intro i hi
    have hi' := mem_range.1 hi
    rcases lt_or_ge i l with h | h
    · rw [Nat.mod_eq_of_lt (show i + n - l < n by omega), show i + n - l + l = i + n by omega,
        Nat.add_mod_right, Nat.mod_eq_of_lt hi']
    · rw [show i + n - l = (i - l) + n by omega, Nat.add_mod_right,
        Nat.mod_eq_of_lt (show i - l < n by omega), show i - l + l = i by omega,
        Nat.mod_eq_of_lt hi']
  · intro s hs
    have hs' := mem_range.1 hs
    rcases lt_or_ge (s + l) n with h | h
    · rw [Nat.mod_eq_of_lt h, show s + l + n - l = s + n by omega, Nat.add_mod_right,
        Nat.mod_eq_of_lt hs']
    · rw [Nat.mod_eq_sub_mod h, Nat.mod_eq_of_lt (show s + l - n < n by omega),
        show s + l - n + n - l = s by omega, Nat.mod_eq_of_lt hs']
  · intro i hi
    have hi' := mem_range.1 hi
    have key : W n (i * j) = W n (((i + n - l) % n : ℕ) * j) * W n (l * j) := by
      rw [← W_add]
      have hd : W n ((i : ℤ) * j - ((((i + n - l) % n : ℕ) : ℤ) * j + l * j)) = 1 := by
        rw [W_eq_one_iff hn]
        rcases lt_or_ge i l with h | h
        · rw [Nat.mod_eq_of_lt (show i + n - l < n by omega)]
          refine ⟨-j, ?_⟩
          push_cast [show l ≤ i + n by omega]
          ring
        · rw [show i + n - l = (i - l) + n by omega, Nat.add_mod_right,
            Nat.mod_eq_of_lt (show i - l < n by omega)]
          refine ⟨0, ?_⟩
          push_cast [h]
          ring
      have := W_add n ((i : ℤ) * j - ((((i + n - l) % n : ℕ) : ℤ) * j + l * j))
        ((((i + n - l) % n : ℕ) : ℤ) * j + l * j)
      rw [hd, one_mul] at this
      rw [← this]
      congr 1
      ring
    rw [key]
    ring

theorem dft_sum {n : ℕ} {ι : Type} (s : Finset ι) (f : ι → ℕ → ℂ) (j : ℕ) :
    dft n (fun i => ∑ c ∈ s, f c i) j = ∑ c ∈ s, dft n (f c) j := by
  simp only [dft, sum_mul]
  rw [sum_comm]

theorem idft_congr {n : ℕ} {X Y : ℕ → ℂ} (h : ∀ j, X j = Y j) (k : ℕ) : idft n X k = idft n Y k := by
  simp only [idft, h]

/-- The transform of the inverse transform. -/
theorem dft_idft {n : ℕ} (X : ℕ → ℂ) {j : ℕ} (hj : j < n) : dft n (idft n X) j = X j := by
  have hn : 0 < n := by omega
  have hn' : (n : ℂ) ≠ 0 := by exact_mod_cast hn.ne'
  simp only [dft, idft, div_mul_eq_mul_div]
  rw [← sum_div, div_eq_iff hn']
  simp only [sum_mul]
  rw [sum_comm]
  have : ∀ i ∈ range n, ∑ k ∈ range n, X i * W n (-(k * i)) * W n (k * j) =
      if i = j then X j * n else 0 := by
    intro i hi
    have e : ∀ k ∈ range n, X i * W n (-(k * i)) * W n (k * j) = X i * W n (((j : ℤ) - i) * k) := by
      intro k _
      rw [mul_assoc, ← W_add]
      congr 2
      ring
    rw [sum_congr rfl e, ← mul_sum, sum_W hn]
    have hdiv : (n : ℤ) ∣ (j : ℤ) - i ↔ i = j := by
      constructor
      · rintro ⟨t, ht⟩
        have hi' := mem_range.1 hi
        have : t = 0 := by
          by_contra h
          rcases lt_or_gt_of_ne h with h | h <;> nlinarith
        subst this
        omega
      · rintro rfl; simp
    by_cases h : i = j
    · rw [if_pos (hdiv.2 h), if_pos h, h]
    · rw [if_neg (fun h' => h (hdiv.1 h')), if_neg h, mul_zero]
  rw [sum_congr rfl this, sum_ite_eq' (range n) j, if_pos (mem_range.2 hj)]

end Verif.Blocks
