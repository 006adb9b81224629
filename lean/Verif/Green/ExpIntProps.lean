/-
What the exponential integrals of the library FinGreen3D return (`Verif.Green.ExpInt.enxa`, `e1xa` and `eix`).

The specification is the integral `expInt n x` of `exp (-x t) / t ^ n` over the `t` above 1, and the function `bigEi`, whose
derivative is `exp x / x` and which differs from the logarithm by Euler's constant at zero.
-/
import Verif.Green.ExpIntOne
import Verif.Green.ExpIntEi

namespace Verif.Green.ExpInt

open Real Filter Set MeasureTheory Verif.Green.Lwn
open scoped Nat Topology

/-! ### The specification -/

/-- The derivative of the function `Ei` and its behaviour at zero. -/
theorem integral_ei : (∀ x : ℝ, 0 < x → HasDerivAt bigEi (exp x / x) x)
    ∧ Tendsto (fun x => bigEi x - log x) (𝓝[>] 0) (𝓝 eulerMascheroniConstant) := by
  refine ⟨bigEi_deriv, ?_⟩
  have h := (ein_continuous_zero.tendsto.mono_left (nhdsWithin_le_nhds (s := Ioi 0))).const_add eulerMascheroniConstant
  rw [ein_zero, add_zero] at h
  refine h.congr fun x => ?_
  unfold bigEi
  ring

/-! ### The first order -/

/-- The integral of order 1 is within 2.4e-7 of the integral for arguments up to 1, and within 2.6e-7 relative to
`exp (-x) / x` above. -/
theorem order_one (x : ℝ) (hx : 0 < x) :
    (x ≤ 1 → |e1xa x - ∫ t in Ioi (1 : ℝ), exp (-(x * t)) / t| ≤ 2.4 / 10 ^ 7)
    ∧ (1 < x → |e1xa x - ∫ t in Ioi (1 : ℝ), exp (-(x * t)) / t| ≤ 2.6 / 10 ^ 7 * (exp (-x) / x)) := by
  have e : (∫ t in Ioi (1 : ℝ), exp (-(x * t)) / t) = expInt 1 x := by
    unfold expInt
    simp only [pow_one]
  rw [e]
  exact ⟨fun h => e1_near x hx h, fun h => e1_far x h⟩

/-! ### Any order -/

theorem enxa_succ (n : ℕ) (x : ℝ) : enxa (n + 2) x = (exp (-x) - x * enxa (n + 1) x) / (n + 1) := by
  simp only [enxa, List.range_succ, List.foldl_append, List.foldl_cons, List.foldl_nil]
  push_cast
  ring_nf

/-- The error of the order `n + 1` is the error of the order 1 times `(-x) ^ n / n!`. -/
theorem order_error (n : ℕ) (x : ℝ) (hx : 0 < x) :
    enxa (n + 1) x - expInt (n + 1) x = (-x) ^ n / n ! * (e1xa x - expInt 1 x) := by
  induction n with
  | zero => simp [enxa]
  | succ n ih =>
    have h := expInt_succ (n + 1) x hx
    push_cast at h
    have hn : (n : ℝ) + 1 ≠ 0 := by positivity
    have h2 : expInt (n + 2) x = (exp (-x) - x * expInt (n + 1) x) / (n + 1) := by
      rw [eq_div_iff hn, mul_comm]; exact h
    show enxa (n + 2) x - expInt (n + 2) x = _
    rw [enxa_succ, h2, Nat.factorial_succ, pow_succ]
    have e : (exp (-x) - x * enxa (n + 1) x) / (n + 1) - (exp (-x) - x * expInt (n + 1) x) / (n + 1)
        = -x * (enxa (n + 1) x - expInt (n + 1) x) / (n + 1) := by ring
    rw [e, ih]
    push_cast
    have : (n ! : ℝ) ≠ 0 := by positivity
    field_simp

/-- Every order is within 2.6e-7 of the integral. -/
theorem any_order (n : ℕ) (x : ℝ) (hx : 0 < x) :
    |enxa n x - ∫ t in Ioi (1 : ℝ), exp (-(x * t)) / t ^ n| ≤ 2.6 / 10 ^ 7 := by
  change |enxa n x - expInt n x| ≤ _
  cases n with
  | zero =>
    rw [expInt_zero x hx]
    simp only [enxa, sub_self, abs_zero]
    norm_num
  | succ n =>
    rw [order_error n x hx, abs_mul, abs_div, abs_pow, abs_neg, abs_of_pos hx, Nat.abs_cast]
    have hf : (1 : ℝ) ≤ n ! := by exact_mod_cast Nat.one_le_iff_ne_zero.mpr (Nat.factorial_ne_zero n)
    have hp : 0 ≤ x ^ n / (n ! : ℝ) := by positivity
    rcases le_or_gt x 1 with h | h
    · have h1 : x ^ n / (n ! : ℝ) ≤ 1 := by
        rw [div_le_one (by linarith)]
        exact (pow_le_one₀ hx.le h).trans hf
      have h2 := e1_near x hx h
      calc x ^ n / (n ! : ℝ) * |e1xa x - expInt 1 x| ≤ 1 * (2.4 / 10 ^ 7) :=
            mul_le_mul h1 h2 (abs_nonneg _) (by norm_num)
        _ ≤ 2.6 / 10 ^ 7 := by norm_num
    · have h1 : x ^ n / (n ! : ℝ) ≤ exp x := Real.pow_div_factorial_le_exp x hx.le n
      have h2 := e1_far x h
      calc x ^ n / (n ! : ℝ) * |e1xa x - expInt 1 x| ≤ exp x * (2.6 / 10 ^ 7 * (exp (-x) / x)) :=
            mul_le_mul h1 h2 (abs_nonneg _) (exp_pos x).le
        _ = 2.6 / 10 ^ 7 * (exp x * exp (-x)) / x := by ring
        _ = 2.6 / 10 ^ 7 / x := by rw [← exp_add, add_neg_cancel, exp_zero, mul_one]
        _ ≤ 2.6 / 10 ^ 7 := div_le_self (by norm_num) h.le

/-- The integral of order 1 at 40 is too small. -/
theorem forty_low : e1xa 40 ≤ 0.0244041148757 * exp (-40) ∧ 0.02440411507956 * exp (-40) ≤ expInt 1 40 := by
  constructor
  · unfold e1xa
    rw [if_neg (by norm_num), if_neg (by norm_num)]
    have e1 : horner es1 (40 : ℝ) / horner es2 (40 : ℝ) / 40 ≤ 0.0244041148757 := by
      simp only [horner, es1, es2, List.foldr]
      norm_num
    have := mul_le_mul_of_nonneg_left e1 (exp_pos (-40)).le
    calc exp (-40) / 40 * horner es1 (40 : ℝ) / horner es2 40 = exp (-40) * (horner es1 (40 : ℝ) / horner es2 40 / 40) := by ring
      _ ≤ _ := this
      _ = _ := by ring
  · have h := fun n => expInt_succ n 40 (by norm_num)
    have h1 := h 1
    have h2 := h 2
    have h3 := h 3
    have h4 := h 4
    have h5 := h 5
    have h6 := h 6
    have h7 := h 7
    have h8 := h 8
    have h9 := h 9
    have h10 := h 10
    have h11 := h 11
    have h12 := h 12
    have h13 := h 13
    have h14 := h 14
    have h15 := expInt_nonneg 15 40
    norm_num at h1 h2 h3 h4 h5 h6 h7 h8 h9 h10 h11 h12 h13 h14
    have hE := exp_pos (-40)
    generalize exp (-40) = E at *
    linarith

/-- The relative accuracy is lost by the recurrence: for the order 41 at 40 the subroutine returns a negative number, more
than ten million times larger than the positive integral. -/
theorem order_violated : enxa 41 40 < 0
    ∧ 0 < (∫ t in Ioi (1 : ℝ), exp (-(40 * t)) / t ^ 41)
    ∧ 10 ^ 7 * (∫ t in Ioi (1 : ℝ), exp (-(40 * t)) / t ^ 41) ≤ -enxa 41 40 := by
  change enxa 41 40 < 0 ∧ 0 < expInt 41 40 ∧ 10 ^ 7 * expInt 41 40 ≤ -enxa 41 40
  have he := order_error 40 40 (by norm_num)
  have hE := exp_pos (-40)
  have h41 := expInt_succ 41 40 (by norm_num)
  have h42 := expInt_nonneg 42 40
  have h42' := expInt_succ 42 40 (by norm_num)
  have h43 := expInt_nonneg 43 40
  norm_num at h41 h42'
  obtain ⟨a, b⟩ := forty_low
  have hd : e1xa 40 - expInt 1 40 ≤ -(2.038 / 10 ^ 10) * exp (-40) := by
    norm_num at a b ⊢
    linarith
  have c : (1.48 * 10 ^ 16 : ℝ) ≤ (-40) ^ 40 / (40 ! : ℕ) := by
    have : (1.48 * 10 ^ 16 : ℚ) ≤ (-40) ^ 40 / (40 ! : ℕ) := by decide +kernel
    have := (Rat.cast_le (K := ℝ)).mpr this
    push_cast at this
    exact this
  have hup : (-40) ^ 40 / ((40 ! : ℕ) : ℝ) * (e1xa 40 - expInt 1 40)
      ≤ (1.48 * 10 ^ 16) * (-(2.038 / 10 ^ 10) * exp (-40)) := by
    have h1 : (-40) ^ 40 / ((40 ! : ℕ) : ℝ) * (e1xa 40 - expInt 1 40)
        ≤ (1.48 * 10 ^ 16) * (e1xa 40 - expInt 1 40) := by
      refine mul_le_mul_of_nonpos_right c (hd.trans ?_)
      norm_num
      exact hE.le
    exact h1.trans (mul_le_mul_of_nonneg_left hd (by norm_num))
  rw [← he] at hup
  norm_num at hup
  have hmono : expInt 42 40 ≤ expInt 41 40 := by
    unfold expInt
    refine setIntegral_mono_on (integrable_expInt 42 40 (by norm_num)) (integrable_expInt 41 40 (by norm_num))
      measurableSet_Ioi fun t ht => ?_
    have ht : (1 : ℝ) < t := ht
    exact div_le_div_of_nonneg_left (exp_pos _).le (by positivity) (pow_le_pow_right₀ ht.le (by norm_num))
  have hpos : 0 < expInt 41 40 := by linarith
  refine ⟨by linarith, hpos, by linarith⟩

/-! ### The argument zero -/

/-- At zero the order 1 is the large number of the code, the order 0 is a division by zero and the order `n + 2` is
`1 / (n + 1)`, the value of the integral. -/
theorem order_zero_argument : e1xa 0 = 10 ^ 300 ∧ (∀ n : ℕ, enxa (n + 2) 0 = 1 / (n + 1))
    ∧ ∀ n : ℕ, (∫ t in Ioi (1 : ℝ), exp (-(0 * t)) / t ^ (n + 2)) = 1 / (n + 1) := by
  refine ⟨by simp [e1xa], fun n => ?_, fun n => ?_⟩
  · rw [enxa_succ]
    simp
  · have h := integral_Ioi_rpow_of_lt (a := -((n : ℝ) + 2)) (by have := n.cast_nonneg (α := ℝ); linarith)
      (c := 1) one_pos
    have e : (∫ t in Ioi (1 : ℝ), exp (-(0 * t)) / t ^ (n + 2)) = ∫ t in Ioi (1 : ℝ), t ^ (-((n : ℝ) + 2)) := by
      refine setIntegral_congr_fun measurableSet_Ioi fun t ht => ?_
      have ht : (1 : ℝ) < t := ht
      simp only [zero_mul, neg_zero, exp_zero, one_div]
      rw [rpow_neg (by linarith), show ((n : ℝ) + 2) = ((n + 2 : ℕ) : ℝ) by push_cast; ring, rpow_natCast]
    rw [e, h, one_rpow]
    have : (n : ℝ) + 1 ≠ 0 := by positivity
    rw [show -((n : ℝ) + 2) + 1 = -((n : ℝ) + 1) by ring, div_neg, neg_div, neg_neg]

/-! ### The function `Ei` -/

/-- The accuracy of `EIX`: arguments up to 40 by the series, arguments above by twenty terms of the asymptotic sum, which is
always too small. -/
theorem integral_ei_accuracy (x : ℝ) (hx : 0 < x) :
    (x ≤ 40 → |eix x - bigEi x| ≤ 2 / 10 ^ 15 * (1 + ein x))
    ∧ (40 < x → eix x ≤ bigEi x ∧ bigEi x - eix x ≤ 4 / 10 ^ 14 * (exp x / x)) :=
  ⟨fun h => ei_near x hx h, fun h => ei_far x h⟩

/-- At zero `EIX` returns the large negative number of the code. -/
theorem integral_ei_zero : eix 0 = -10 ^ 300 := by simp [eix]

/-! ### The hypotheses can be met -/

example : |enxa 3 2 - ∫ t in Ioi (1 : ℝ), exp (-(2 * t)) / t ^ 3| ≤ 2.6 / 10 ^ 7 := any_order 3 2 (by norm_num)

example : |eix 1 - bigEi 1| ≤ 2 / 10 ^ 15 * (1 + ein 1) := (integral_ei_accuracy 1 one_pos).1 (by norm_num)

example : eix 50 ≤ bigEi 50 := ((integral_ei_accuracy 50 (by norm_num)).2 (by norm_num)).1

example : |e1xa 2 - ∫ t in Ioi (1 : ℝ), exp (-(2 * t)) / t| ≤ 2.6 / 10 ^ 7 * (exp (-2) / 2) :=
  (order_one 2 (by norm_num)).2 (by norm_num)

end Verif.Green.ExpInt
