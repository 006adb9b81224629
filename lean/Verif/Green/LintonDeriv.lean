import Verif.Green.LintonDerivModel
import Verif.Green.LintonFirst
import Mathlib.Analysis.Calculus.SmoothSeries

/-!
# The derivative of the coefficient of the propagating mode

The specification is the derivative of `firstCoefficient`, the expression of the code for larger distances.
-/

namespace Verif.Green.Linton

open Real Filter Set MeasureTheory Verif.Green.ExpInt Verif.Green.FinBessel
open scoped Nat Topology

theorem expInt_deriv (n : ℕ) (x : ℝ) (hx : 0 < x) : HasDerivAt (expInt (n + 2)) (-expInt (n + 1) x) x := by
  induction n with
  | zero =>
    have h1 : HasDerivAt (expInt 1) (-(exp (-x) / x)) x := by
      refine (seriesE1_deriv x hx).congr_of_eventuallyEq ?_
      filter_upwards [lt_mem_nhds hx] with y hy
      rw [expInt_one y hy]
    have he : HasDerivAt (fun y : ℝ => exp (-y)) (-exp (-x)) x := by
      simpa using (hasDerivAt_neg x).exp
    have h := he.sub ((hasDerivAt_id x).mul h1)
    refine (h.congr_deriv ?_).congr_of_eventuallyEq ?_
    · simp only [id]
      field_simp
      ring
    · filter_upwards [lt_mem_nhds hx] with y hy
      have := expInt_succ 1 y hy
      simp only [Pi.sub_apply, Pi.mul_apply, id]
      push_cast at this
      linarith
  | succ n ih =>
    have he : HasDerivAt (fun y : ℝ => exp (-y)) (-exp (-x)) x := by
      simpa using (hasDerivAt_neg x).exp
    have h := (he.sub ((hasDerivAt_id x).mul ih)).div_const ((n : ℝ) + 2)
    have hn : (n : ℝ) + 2 ≠ 0 := by positivity
    refine (h.congr_deriv ?_).congr_of_eventuallyEq ?_
    · have := expInt_succ (n + 1) x hx
      push_cast at this
      simp only [id]
      rw [div_eq_iff hn]
      rw [show n + 1 + 1 = n + 2 by ring] at *
      linarith
    · filter_upwards [lt_mem_nhds hx] with y hy
      have := expInt_succ (n + 2) y hy
      push_cast at this
      simp only [Pi.sub_apply, Pi.mul_apply, id]
      rw [eq_div_iff hn]
      rw [show n + 1 + 2 = n + 2 + 1 by ring]
      linarith

/-- The derivatives of the terms of the series. -/
noncomputable def firstTermD (pa k r : ℝ) (n : ℕ) : ℝ :=
  2 * (-1) ^ n * (r / pa) ^ (2 * n - 1) / n ! / pa + (k * pa / 2) ^ (2 * n) / n ! * expInt n ((r / pa) ^ 2) * 2 * r / pa ^ 2
    - 2 * (-1) ^ n * n * k / (n ! : ℝ) ^ 2 * (k * r / 2) ^ (2 * n - 1) * (log (k * r / 2) + eulerMascheroniConstant - harmonic n)
    - 2 * (-1) ^ n / (n ! : ℝ) ^ 2 * (k * r / 2) ^ (2 * n) / r

theorem firstTerm_deriv (pa k r : ℝ) (hpa : 0 < pa) (hk : 0 < k) (hr : 0 < r) (m : ℕ) :
    HasDerivAt (fun s => firstTerm pa k s (m + 1)) (firstTermD pa k r (m + 1)) r := by
  have hx : 0 < (r / pa) ^ 2 := by positivity
  have d0 : HasDerivAt (fun s : ℝ => s / pa) (1 / pa) r := (hasDerivAt_id r).div_const pa
  have d1 : HasDerivAt (fun s : ℝ => k * s / 2) (k / 2) r := by
    simpa using ((hasDerivAt_id r).const_mul k).div_const 2
  have a1 := ((d0.pow (2 * (m + 1))).const_mul ((-1 : ℝ) ^ (m + 1))).div_const ((m + 1)! * ((m + 1 : ℕ) : ℝ))
  have a2 := ((expInt_deriv m _ hx).comp r (d0.pow 2)).const_mul ((k * pa / 2) ^ (2 * (m + 1)) / ((m + 1)! : ℝ))
  have a3 := (((d1.pow (2 * (m + 1))).const_mul (2 * (-1 : ℝ) ^ (m + 1))).div_const (((m + 1)! : ℝ) ^ 2)).mul
    (((d1.log (by positivity)).add_const eulerMascheroniConstant).sub_const ((harmonic (m + 1) : ℚ) : ℝ))
  have h := (a1.sub a2).sub a3
  refine h.congr_deriv ?_
  unfold firstTermD
  have hf : ((m + 1)! : ℝ) ≠ 0 := by positivity
  have hm : ((m : ℝ) + 1) ≠ 0 := by positivity
  rw [show 2 * (m + 1) - 1 = 2 * m + 1 by omega, show 2 * (m + 1) = 2 * m + 2 by ring]
  simp only [Pi.pow_apply, Nat.add_one_sub_one, pow_one]
  push_cast
  generalize expInt (m + 1) ((r / pa) ^ 2) = E
  generalize log (k * r / 2) + eulerMascheroniConstant - ((harmonic (m + 1) : ℚ) : ℝ) = L
  generalize ((m + 1)! : ℝ) = F at *
  field_simp
  ring

theorem harmonic_le (n : ℕ) : 0 ≤ ((harmonic n : ℚ) : ℝ) ∧ ((harmonic n : ℚ) : ℝ) ≤ n := by
  induction n with
  | zero => simp
  | succ n ih =>
    rw [harmonic_succ]
    push_cast
    have h1 : (0 : ℝ) < (n : ℝ) + 1 := by positivity
    have h2 : ((n : ℝ) + 1)⁻¹ ≤ 1 := inv_le_one_of_one_le₀ (by linarith [(Nat.cast_nonneg n : (0 : ℝ) ≤ n)])
    have h3 : 0 ≤ ((n : ℝ) + 1)⁻¹ := by positivity
    constructor <;> linarith [ih.1, ih.2]

/-- A bound of the derivatives of the terms between two distances. -/
noncomputable def boundD (pa k a b : ℝ) (m : ℕ) : ℝ :=
  2 * (b / pa) / pa * (((b / pa) ^ 2) ^ m / (m ! : ℝ)) + (k * pa / 2) ^ 2 * 2 / a * (((k * pa / 2) ^ 2) ^ m / (m ! : ℝ))
    + 2 * k * (k * b / 2) * (|log (k * a / 2)| + |log (k * b / 2)| + 2) * (((k * b / 2) ^ 2) ^ m / (m ! : ℝ))
    + 2 * (k * b / 2) ^ 2 / a * (((k * b / 2) ^ 2) ^ m / (m ! : ℝ))

theorem boundD_summable (pa k a b : ℝ) : Summable (boundD pa k a b) :=
  (((Real.summable_pow_div_factorial _).mul_left _).add ((Real.summable_pow_div_factorial _).mul_left _)).add
    ((Real.summable_pow_div_factorial _).mul_left _) |>.add ((Real.summable_pow_div_factorial _).mul_left _)

theorem firstTermD_le (pa k a b s : ℝ) (hpa : 0 < pa) (hk : 0 < k) (ha : 0 < a) (has : a ≤ s) (hsb : s ≤ b) (m : ℕ) :
    |firstTermD pa k s (m + 1)| ≤ boundD pa k a b m := by
  have hs : 0 < s := lt_of_lt_of_le ha has
  have hb : 0 < b := lt_of_lt_of_le hs hsb
  have hx : 0 < (s / pa) ^ 2 := by positivity
  have hf : (0 : ℝ) < m ! := by positivity
  have hf1 : (1 : ℝ) ≤ m ! := by exact_mod_cast Nat.one_le_iff_ne_zero.mpr (Nat.factorial_ne_zero m)
  have hF : ((m + 1)! : ℝ) = (m + 1) * m ! := by rw [Nat.factorial_succ]; push_cast; ring
  have hm : (0 : ℝ) ≤ m := Nat.cast_nonneg m
  have hF1 : (m ! : ℝ) ≤ (m + 1)! := by rw [hF]; nlinarith
  have hF0 : (0 : ℝ) < (m + 1)! := by positivity
  have t1 : |2 * (-1) ^ (m + 1) * (s / pa) ^ (2 * (m + 1) - 1) / ((m + 1)! : ℝ) / pa|
      ≤ 2 * (b / pa) / pa * (((b / pa) ^ 2) ^ m / (m ! : ℝ)) := by
    rw [abs_div, abs_div, abs_mul, abs_mul, abs_pow, abs_neg, abs_one, one_pow, mul_one, abs_of_pos (show (0 : ℝ) < 2 by norm_num),
      abs_of_pos (show 0 < (s / pa) ^ (2 * (m + 1) - 1) by positivity), abs_of_pos hF0, abs_of_pos hpa,
      show 2 * (m + 1) - 1 = 2 * m + 1 by omega]
    calc 2 * (s / pa) ^ (2 * m + 1) / ((m + 1)! : ℝ) / pa ≤ 2 * (b / pa) ^ (2 * m + 1) / (m ! : ℝ) / pa := by gcongr
      _ = _ := by rw [pow_succ, pow_mul]; ring
  have t2 : |(k * pa / 2) ^ (2 * (m + 1)) / ((m + 1)! : ℝ) * expInt (m + 1) ((s / pa) ^ 2) * 2 * s / pa ^ 2|
      ≤ (k * pa / 2) ^ 2 * 2 / a * (((k * pa / 2) ^ 2) ^ m / (m ! : ℝ)) := by
    have h0 := expInt_nonneg (m + 1) ((s / pa) ^ 2)
    have h1 := expInt_le (m + 1) ((s / pa) ^ 2) hx
    rw [abs_of_nonneg (by positivity)]
    calc (k * pa / 2) ^ (2 * (m + 1)) / ((m + 1)! : ℝ) * expInt (m + 1) ((s / pa) ^ 2) * 2 * s / pa ^ 2
        ≤ (k * pa / 2) ^ (2 * (m + 1)) / (m ! : ℝ) * (1 / (s / pa) ^ 2) * 2 * s / pa ^ 2 := by gcongr
      _ = (k * pa / 2) ^ 2 * 2 / s * (((k * pa / 2) ^ 2) ^ m / (m ! : ℝ)) := by
          rw [mul_add, pow_add, pow_mul, mul_one]
          field_simp
      _ ≤ _ := by gcongr
  have t3 : |2 * (-1) ^ (m + 1) * ((m + 1 : ℕ) : ℝ) * k / ((m + 1)! : ℝ) ^ 2 * (k * s / 2) ^ (2 * (m + 1) - 1)
        * (log (k * s / 2) + eulerMascheroniConstant - harmonic (m + 1))|
      ≤ 2 * k * (k * b / 2) * (|log (k * a / 2)| + |log (k * b / 2)| + 2) * (((k * b / 2) ^ 2) ^ m / (m ! : ℝ)) := by
    have l1 : log (k * a / 2) ≤ log (k * s / 2) := log_le_log (by positivity) (by gcongr)
    have l2 : log (k * s / 2) ≤ log (k * b / 2) := log_le_log (by positivity) (by gcongr)
    have g1 := one_half_lt_eulerMascheroniConstant
    have g2 := eulerMascheroniConstant_lt_two_thirds
    have hh := harmonic_le (m + 1)
    have hL : |log (k * s / 2) + eulerMascheroniConstant - harmonic (m + 1)|
        ≤ (|log (k * a / 2)| + |log (k * b / 2)| + 2) * ((m + 1 : ℕ) : ℝ) := by
      have b1 := neg_abs_le (log (k * a / 2))
      have b2 := le_abs_self (log (k * b / 2))
      have b3 := abs_nonneg (log (k * a / 2))
      have b4 := abs_nonneg (log (k * b / 2))
      have hm1 : (1 : ℝ) ≤ ((m + 1 : ℕ) : ℝ) := by push_cast; linarith
      have b5 : |log (k * a / 2)| + |log (k * b / 2)| ≤ (|log (k * a / 2)| + |log (k * b / 2)|) * ((m + 1 : ℕ) : ℝ) :=
        le_mul_of_one_le_right (by linarith) hm1
      rw [add_mul, abs_le]
      constructor <;> linarith [hh.1, hh.2]
    rw [abs_mul, abs_mul, abs_div, abs_mul, abs_mul, abs_mul, abs_pow, abs_neg, abs_one, one_pow, mul_one,
      abs_of_pos (show (0 : ℝ) < 2 by norm_num), Nat.abs_cast, abs_of_pos hk, abs_of_pos (show 0 < ((m + 1)! : ℝ) ^ 2 by positivity),
      abs_of_pos (show 0 < (k * s / 2) ^ (2 * (m + 1) - 1) by positivity), show 2 * (m + 1) - 1 = 2 * m + 1 by omega]
    generalize |log (k * a / 2)| + |log (k * b / 2)| + 2 = Λ at *
    have hΛ : 0 ≤ Λ * ((m + 1 : ℕ) : ℝ) := le_trans (abs_nonneg _) hL
    calc 2 * ((m + 1 : ℕ) : ℝ) * k / ((m + 1)! : ℝ) ^ 2 * (k * s / 2) ^ (2 * m + 1)
          * |log (k * s / 2) + eulerMascheroniConstant - harmonic (m + 1)|
        ≤ 2 * ((m + 1 : ℕ) : ℝ) * k / ((m + 1)! : ℝ) ^ 2 * (k * b / 2) ^ (2 * m + 1) * (Λ * ((m + 1 : ℕ) : ℝ)) := by gcongr
      _ = 2 * k * (k * b / 2) * Λ * (((k * b / 2) ^ 2) ^ m / ((m ! : ℝ) * m !)) := by
          rw [hF, pow_succ (k * b / 2), pow_mul]
          push_cast
          field_simp
      _ ≤ _ := by
          have hΛ' : 0 ≤ Λ := by
            by_contra hc
            have : ((m + 1 : ℕ) : ℝ) > 0 := by positivity
            nlinarith
          refine mul_le_mul_of_nonneg_left ?_ (by positivity)
          exact div_le_div_of_nonneg_left (by positivity) hf (le_mul_of_one_le_left hf.le hf1)
  have t4 : |2 * (-1) ^ (m + 1) / ((m + 1)! : ℝ) ^ 2 * (k * s / 2) ^ (2 * (m + 1)) / s|
      ≤ 2 * (k * b / 2) ^ 2 / a * (((k * b / 2) ^ 2) ^ m / (m ! : ℝ)) := by
    rw [abs_div, abs_mul, abs_div, abs_mul, abs_pow, abs_neg, abs_one, one_pow, mul_one,
      abs_of_pos (show (0 : ℝ) < 2 by norm_num), abs_of_pos (show 0 < ((m + 1)! : ℝ) ^ 2 by positivity),
      abs_of_pos (show 0 < (k * s / 2) ^ (2 * (m + 1)) by positivity), abs_of_pos hs]
    calc 2 / ((m + 1)! : ℝ) ^ 2 * (k * s / 2) ^ (2 * (m + 1)) / s ≤ 2 / (m ! : ℝ) * (k * b / 2) ^ (2 * (m + 1)) / a := by
          have : (m ! : ℝ) ≤ ((m + 1)! : ℝ) ^ 2 := by nlinarith
          gcongr
      _ = _ := by rw [mul_add, pow_add, pow_mul, mul_one]; ring
  unfold firstTermD boundD
  rw [abs_le] at *
  constructor <;> linarith [t1.1, t1.2, t2.1, t2.2, t3.1, t3.2, t4.1, t4.2]

/-- The coefficient has a derivative, and the series of the derivatives of the terms is its series. -/
theorem first_derivative (pa k r : ℝ) (hpa : 0 < pa) (hk : 0 < k) (hr : 0 < r) :
    DifferentiableAt ℝ (firstCoefficient pa k) r
      ∧ HasSum (fun n => firstTermD pa k r (n + 1)) (4 * π * deriv (firstCoefficient pa k) r) := by
  have hmem : r ∈ Ioo (r / 2) (2 * r) := ⟨by linarith, by linarith⟩
  have hsum : Summable fun n => firstTermD pa k r (n + 1) :=
    Summable.of_norm_bounded (boundD_summable pa k (r / 2) (2 * r))
      fun n => by
        rw [Real.norm_eq_abs]
        exact firstTermD_le pa k _ _ r hpa hk (by linarith) hmem.1.le hmem.2.le n
  have h := hasDerivAt_tsum_of_isPreconnected (𝕜 := ℝ) (g := fun n z => firstTerm pa k z (n + 1))
    (g' := fun n z => firstTermD pa k z (n + 1)) (boundD_summable pa k (r / 2) (2 * r)) isOpen_Ioo isPreconnected_Ioo
    (fun n y hy => firstTerm_deriv pa k y hpa hk (by have := hy.1; linarith) n)
    (fun n y hy => by
      rw [Real.norm_eq_abs]
      exact firstTermD_le pa k _ _ y hpa hk (by linarith) hy.1.le hy.2.le n)
    hmem (first_series pa k r hpa hk hr).summable hmem
  have h2 := ((h.sub_const (eulerMascheroniConstant + 2 * log (k * pa / 2))).div_const (4 * π))
  have h3 : HasDerivAt (firstCoefficient pa k) ((∑' n, firstTermD pa k r (n + 1)) / (4 * π)) r := by
    refine h2.congr_of_eventuallyEq ?_
    filter_upwards [lt_mem_nhds hr] with z hz
    have := (first_series pa k z hpa hk hz).tsum_eq
    have hpi := pi_pos
    rw [eq_div_iff (by positivity), this]
    ring
  refine ⟨h3.differentiableAt, ?_⟩
  rw [h3.deriv, mul_div_cancel₀ _ (by have := pi_pos; positivity)]
  exact hsum.hasSum

/-- The terms computed by the code. -/
noncomputable def firstCodeD (pa k r : ℝ) : ℕ → ℝ → ℝ → ℝ := fun n sgn facn =>
  2 * sgn * (r / pa) ^ (2 * n - 1) / facn / pa + (k * pa / 2) ^ (2 * n) / facn * enxa n ((r / pa) ^ 2) * 2 * r / pa ^ 2
    - 2 * sgn * n * k / facn ^ 2 * (k * r / 2) ^ (2 * n - 1) * (log (k * r / 2) + ga - psi n)
    - 2 * sgn / facn ^ 2 * (k * r / 2) ^ (2 * n) / r

theorem firstCodeD_close (pa k r : ℝ) (hpa : 0 < pa) (hk : 0 < k) (hr : 0 < r) (m : ℕ) :
    |termAt (firstCodeD pa k r) (m + 1) - firstTermD pa k r (m + 1)|
      ≤ (2.61 / 10 ^ 7) * (k ^ 2 * r / 2) * (((k * r / 2) ^ 2) ^ m / (m ! : ℝ)) := by
  have hx : 0 < (r / pa) ^ 2 := by positivity
  have h1 : |e1xa ((r / pa) ^ 2) - expInt 1 ((r / pa) ^ 2)| ≤ 2.6 / 10 ^ 7 := any_order 1 _ hx
  have h2 := order_error m _ hx
  have hg := ga_close
  have hf : (1 : ℝ) ≤ (m + 1)! := by exact_mod_cast Nat.one_le_iff_ne_zero.mpr (Nat.factorial_ne_zero (m + 1))
  have hF : ((m + 1)! : ℝ) = (m + 1) * m ! := by rw [Nat.factorial_succ]; push_cast; ring
  have e : termAt (firstCodeD pa k r) (m + 1) - firstTermD pa k r (m + 1)
      = ((k * r / 2) ^ 2) ^ m / (((m + 1)! : ℝ) * m !) * (-1) ^ m * (k ^ 2 * r / 2)
        * ((e1xa ((r / pa) ^ 2) - expInt 1 ((r / pa) ^ 2)) + 2 * ((ga : ℝ) - eulerMascheroniConstant)) := by
    have hE : enxa (m + 1) ((r / pa) ^ 2) = expInt (m + 1) ((r / pa) ^ 2)
        + (-(r / pa) ^ 2) ^ m / m ! * (e1xa ((r / pa) ^ 2) - expInt 1 ((r / pa) ^ 2)) := by linarith
    unfold termAt firstCodeD firstTermD
    rw [psi_eq, hE, neg_pow ((r / pa) ^ 2), show 2 * (m + 1) - 1 = 2 * m + 1 by omega, show 2 * (m + 1) = 2 * m + 2 by ring,
      pow_succ (k * r / 2), pow_add (k * pa / 2), pow_mul (k * r / 2), pow_mul (k * pa / 2), pow_add (k * r / 2), pow_mul (k * r / 2)]
    generalize e1xa ((r / pa) ^ 2) - expInt 1 ((r / pa) ^ 2) = D
    generalize expInt (m + 1) ((r / pa) ^ 2) = E
    generalize (ga : ℝ) = G
    have : ((k * r / 2) ^ 2) ^ m = ((k * pa / 2) ^ 2) ^ m * ((r / pa) ^ 2) ^ m := by
      rw [← mul_pow]
      congr 1
      field_simp
    rw [this, hF]
    generalize ((k * pa / 2) ^ 2) ^ m = X
    generalize ((r / pa) ^ 2) ^ m = Y
    have hm0 : (m ! : ℝ) ≠ 0 := by positivity
    generalize (m ! : ℝ) = f at *
    push_cast
    rw [pow_succ (-1 : ℝ) m]
    field_simp
    ring
  rw [e, abs_mul, abs_mul, abs_mul, abs_pow, abs_neg, abs_one, one_pow, mul_one,
    abs_of_nonneg (show 0 ≤ ((k * r / 2) ^ 2) ^ m / (((m + 1)! : ℝ) * m !) by positivity),
    abs_of_nonneg (show 0 ≤ k ^ 2 * r / 2 by positivity)]
  have e1 : |e1xa ((r / pa) ^ 2) - expInt 1 ((r / pa) ^ 2) + 2 * ((ga : ℝ) - eulerMascheroniConstant)| ≤ 2.61 / 10 ^ 7 := by
    refine (abs_add_le _ _).trans ?_
    rw [abs_mul, abs_of_pos (show (0 : ℝ) < 2 by norm_num)]
    norm_num at *
    linarith
  have e2 : ((k * r / 2) ^ 2) ^ m / (((m + 1)! : ℝ) * m !) ≤ ((k * r / 2) ^ 2) ^ m / (m ! : ℝ) :=
    div_le_div_of_nonneg_left (by positivity) (by positivity) (le_mul_of_one_le_left (by positivity) hf)
  calc ((k * r / 2) ^ 2) ^ m / (((m + 1)! : ℝ) * m !) * (k ^ 2 * r / 2)
        * |e1xa ((r / pa) ^ 2) - expInt 1 ((r / pa) ^ 2) + 2 * ((ga : ℝ) - eulerMascheroniConstant)|
      ≤ ((k * r / 2) ^ 2) ^ m / (m ! : ℝ) * (k ^ 2 * r / 2) * (2.61 / 10 ^ 7) := by gcongr
    _ = _ := by ring

/-- **C128.** The series of the derivative of the coefficient of the propagating mode ends for all positive arguments. Its last term is
below the tolerance, and the error is exactly the rest of the series, apart from the error of the exponential integrals. -/
theorem first_derivative_accuracy (pa k r : ℝ) (hpa : 0 < pa) (hk : 0 < k) (hr : 0 < r) :
    ∃ v turns last, 1 ≤ last ∧ (∀ fuel, turns ≤ fuel → dsa0 fuel r pa k = some v)
      ∧ |firstTermD pa k r last| ≤ 1 / 10 ^ 6 + 2.7 / 10 ^ 7 * (k ^ 2 * r / 2) * exp ((k * r / 2) ^ 2)
      ∧ |v - (deriv (firstCoefficient pa k) r - (∑' n, firstTermD pa k r (last + 1 + n)) / (4 * π))|
        ≤ 2.7 / 10 ^ 7 * (k ^ 2 * r / 2) * exp ((k * r / 2) ^ 2) / (4 * π) := by
  obtain ⟨_, hs⟩ := first_derivative pa k r hpa hk hr
  have hs0 : 0 ≤ (k * r / 2) ^ 2 := by positivity
  have hc0 : 0 ≤ k ^ 2 * r / 2 := by positivity
  have ht : Tendsto (termAt (firstCodeD pa k r)) atTop (𝓝 0) := by
    refine (tendsto_add_atTop_iff_nat 1).mp ?_
    have h2 : Tendsto (fun n => termAt (firstCodeD pa k r) (n + 1) - firstTermD pa k r (n + 1)) atTop (𝓝 0) := by
      have h := (FloorSemiring.tendsto_pow_div_factorial_atTop ((k * r / 2) ^ 2)).const_mul (2.61 / 10 ^ 7 * (k ^ 2 * r / 2) : ℝ)
      rw [mul_zero] at h
      exact squeeze_zero_norm (fun n => by rw [Real.norm_eq_abs]; exact firstCodeD_close pa k r hpa hk hr n) h
    have h := h2.add hs.summable.tendsto_atTop_zero
    rw [zero_add] at h
    exact h.congr fun n => by ring
  obtain ⟨d, _, hd, hrun⟩ := sumLoop_ends _ 1 0 ht
  rw [pow_one, Nat.factorial_one, Nat.cast_one] at hrun
  have he : (eps : ℝ) ≤ 1 / 10 ^ 6 := by norm_num [eps]
  refine ⟨(0 + ∑ j ∈ Finset.range (d + 1), termAt (firstCodeD pa k r) (1 + j)) / 4 / π, d + 2, 1 + d,
    by omega, fun fuel hf => ?_, ?_, ?_⟩
  · unfold dsa0
    have := hrun fuel hf
    unfold firstCodeD at this
    rw [this]
    rfl
  · have h1 := firstCodeD_close pa k r hpa hk hr d
    rw [Nat.add_comm d 1] at h1
    have h2 : ((k * r / 2) ^ 2) ^ d / (d ! : ℝ) ≤ exp ((k * r / 2) ^ 2) := Real.pow_div_factorial_le_exp _ hs0 d
    have h3 := abs_sub_abs_le_abs_sub (firstTermD pa k r (1 + d)) (termAt (firstCodeD pa k r) (1 + d))
    rw [abs_sub_comm] at h3
    have h4 : 2.61 / 10 ^ 7 * (k ^ 2 * r / 2) * (((k * r / 2) ^ 2) ^ d / (d ! : ℝ))
        ≤ 2.7 / 10 ^ 7 * (k ^ 2 * r / 2) * exp ((k * r / 2) ^ 2) := by gcongr; norm_num
    linarith
  · have hpi := pi_pos
    have hsplit := hs.summable.sum_add_tsum_nat_add (d + 1)
    rw [hs.tsum_eq] at hsplit
    have e1 : (∑' n, firstTermD pa k r (1 + d + 1 + n)) = ∑' i, firstTermD pa k r (i + (d + 1) + 1) :=
      tsum_congr fun n => by rw [show 1 + d + 1 + n = n + (d + 1) + 1 by ring]
    have hdiff : |(∑ j ∈ Finset.range (d + 1), termAt (firstCodeD pa k r) (1 + j))
        - ∑ j ∈ Finset.range (d + 1), firstTermD pa k r (j + 1)| ≤ 2.7 / 10 ^ 7 * (k ^ 2 * r / 2) * exp ((k * r / 2) ^ 2) := by
      rw [← Finset.sum_sub_distrib]
      refine (Finset.abs_sum_le_sum_abs _ _).trans ?_
      have hj : ∀ j ∈ Finset.range (d + 1), |termAt (firstCodeD pa k r) (1 + j) - firstTermD pa k r (j + 1)|
          ≤ 2.61 / 10 ^ 7 * (k ^ 2 * r / 2) * (((k * r / 2) ^ 2) ^ j / (j ! : ℝ)) := fun j _ => by
        rw [Nat.add_comm 1 j]
        exact firstCodeD_close pa k r hpa hk hr j
      refine (Finset.sum_le_sum hj).trans ?_
      rw [← Finset.mul_sum]
      have h := Real.sum_le_exp_of_nonneg hs0 (d + 1)
      gcongr
      norm_num
    rw [e1]
    have e3 : deriv (firstCoefficient pa k) r - (∑' i, firstTermD pa k r (i + (d + 1) + 1)) / (4 * π)
        = (∑ j ∈ Finset.range (d + 1), firstTermD pa k r (j + 1)) / (4 * π) := by
      rw [eq_div_iff (by positivity), sub_mul, div_mul_cancel₀ _ (by positivity)]
      linarith
    rw [e3, zero_add, div_div, ← sub_div, abs_div, abs_of_pos (show 0 < 4 * π by positivity)]
    exact div_le_div_of_nonneg_right hdiff (by positivity)

/-- The hypotheses can be met. -/
example : DifferentiableAt ℝ (firstCoefficient 3 0.1) 2 := (first_derivative 3 0.1 2 (by norm_num) (by norm_num) (by norm_num)).1

end Verif.Green.Linton
