/-
The coefficient of the propagating mode in the method of Linton (`Verif.Green.Linton.sa0`).

The specification is the expression which the code computes when the distance is larger (`FinGreen3D.f90:1177-1178,1868`):
the Bessel function of the second kind, minus an integral between 0 and `PA ^ 2 / 4`.
-/
import Verif.Green.LintonSeries
import Verif.Green.FinBesselNear
import Mathlib.MeasureTheory.Function.Jacobian

namespace Verif.Green.Linton

open Real Filter Set MeasureTheory Verif.Green.ExpInt Verif.Green.FinBessel
open scoped Nat Topology

/-- The coefficient of the propagating mode. -/
noncomputable def firstCoefficient (pa k r : ℝ) : ℝ :=
  -besselY0 (k * r) / 4 - ∫ t in Ioo 0 (pa ^ 2 / 4), exp (-r ^ 2 / 4 / t + k ^ 2 * t) / 4 / π / t

/-- The terms of its series. -/
noncomputable def firstTerm (pa k r : ℝ) (n : ℕ) : ℝ :=
  (-1) ^ n * (r / pa) ^ (2 * n) / (n ! * n)
    - (k * pa / 2) ^ (2 * n) / n ! * (∫ t in Ioi (1 : ℝ), exp (-((r / pa) ^ 2 * t)) / t ^ (n + 1))
    - 2 * (-1) ^ n * (k * r / 2) ^ (2 * n) / (n ! : ℝ) ^ 2 * (log (k * r / 2) + eulerMascheroniConstant - harmonic n)

/-- The series of the integral with a positive exponent. -/
theorem lam_hasSum (p : ℕ) (x κ : ℝ) (hx : 0 < x) (hκ : 0 ≤ κ) : HasSum (lamTerm p x (-κ)) (lam p x (-κ)) := by
  have hint : ∀ n : ℕ, Integrable (fun t : ℝ => κ ^ n / (n ! : ℝ) * (exp (-(x * t)) / t ^ (n + p))) (volume.restrict (Ioi 1)) :=
    fun n => (integrable_expInt (n + p) x hx).const_mul _
  have hnorm : ∀ n : ℕ, (∫ t in Ioi (1 : ℝ), ‖κ ^ n / (n ! : ℝ) * (exp (-(x * t)) / t ^ (n + p))‖)
      = κ ^ n / (n ! : ℝ) * expInt (n + p) x := by
    intro n
    unfold expInt
    rw [← integral_const_mul]
    refine setIntegral_congr_fun measurableSet_Ioi fun t ht => ?_
    have ht : (1 : ℝ) < t := ht
    have : 0 ≤ κ ^ n / (n ! : ℝ) * (exp (-(x * t)) / t ^ (n + p)) := by positivity
    simp only [Real.norm_eq_abs]
    rw [abs_of_nonneg this]
  have hs : Summable fun n : ℕ => ∫ t in Ioi (1 : ℝ), ‖κ ^ n / (n ! : ℝ) * (exp (-(x * t)) / t ^ (n + p))‖ := by
    simp only [hnorm]
    refine Summable.of_nonneg_of_le (fun n => mul_nonneg (by positivity) (expInt_nonneg _ _))
      (fun n => mul_le_mul_of_nonneg_left (expInt_le (n + p) x hx) (by positivity)) ?_
    exact (Real.summable_pow_div_factorial κ).mul_right _
  have h := hasSum_integral_of_summable_integral_norm hint hs
  have e1 : (fun n : ℕ => ∫ t in Ioi (1 : ℝ), κ ^ n / (n ! : ℝ) * (exp (-(x * t)) / t ^ (n + p))) = lamTerm p x (-κ) := by
    funext n
    rw [integral_const_mul]
    unfold lamTerm
    rw [neg_neg]
    rfl
  rw [e1] at h
  have e2 : (∫ t in Ioi (1 : ℝ), ∑' n : ℕ, κ ^ n / (n ! : ℝ) * (exp (-(x * t)) / t ^ (n + p))) = lam p x (-κ) := by
    unfold lam
    refine setIntegral_congr_fun measurableSet_Ioi fun t ht => ?_
    have ht : (1 : ℝ) < t := ht
    have ht0 : t ≠ 0 := by positivity
    have hsum := (exp_sum (κ / t)).mul_left (exp (-(x * t)) / t ^ p)
    have e3 : (fun n : ℕ => exp (-(x * t)) / t ^ p * ((κ / t) ^ n / (n ! : ℝ)))
        = fun n : ℕ => κ ^ n / (n ! : ℝ) * (exp (-(x * t)) / t ^ (n + p)) := by
      funext n
      rw [div_pow, pow_add]
      field_simp
    rw [e3] at hsum
    show (∑' n : ℕ, κ ^ n / (n ! : ℝ) * (exp (-(x * t)) / t ^ (n + p))) = exp (-(x * t)) / t ^ p * exp (-(-κ / t))
    rw [hsum.tsum_eq, neg_div, neg_neg]
  rw [e2] at h
  exact h

/-- Change of variable. -/
theorem integral_inverse (r pa k : ℝ) (hpa : 0 < pa) :
    (∫ t in Ioo 0 (pa ^ 2 / 4), exp (-r ^ 2 / 4 / t + k ^ 2 * t) / 4 / π / t)
      = lam 1 ((r / pa) ^ 2) (-(k * pa / 2) ^ 2) / (4 * π) := by
  have hP : 0 < pa ^ 2 / 4 := by positivity
  have himg : (fun s : ℝ => pa ^ 2 / 4 / s) '' Ioi 1 = Ioo 0 (pa ^ 2 / 4) := by
    ext t
    constructor
    · rintro ⟨s, hs, rfl⟩
      have hs : (1 : ℝ) < s := hs
      exact ⟨by positivity, div_lt_self hP hs⟩
    · rintro ⟨h0, h1⟩
      refine ⟨pa ^ 2 / 4 / t, ?_, ?_⟩
      · show 1 < pa ^ 2 / 4 / t
        rw [lt_div_iff₀ h0, one_mul]
        exact h1
      · show pa ^ 2 / 4 / (pa ^ 2 / 4 / t) = t
        field_simp
  have hd : ∀ s ∈ Ioi (1 : ℝ), HasDerivWithinAt (fun s : ℝ => pa ^ 2 / 4 / s) (-(pa ^ 2 / 4) / s ^ 2) (Ioi 1) s := by
    intro s hs
    have hs : (1 : ℝ) < s := hs
    have h := (hasDerivAt_const s (pa ^ 2 / 4)).div (hasDerivAt_id s) (by positivity)
    refine (h.congr_deriv ?_).hasDerivWithinAt
    simp
  have hinj : InjOn (fun s : ℝ => pa ^ 2 / 4 / s) (Ioi 1) := by
    intro a ha b hb hab
    have ha : (1 : ℝ) < a := ha
    have hb : (1 : ℝ) < b := hb
    have hab : pa ^ 2 / 4 / a = pa ^ 2 / 4 / b := hab
    rw [div_eq_div_iff (by positivity) (by positivity)] at hab
    exact (mul_left_cancel₀ hP.ne' hab).symm
  have h := integral_image_eq_integral_abs_deriv_smul measurableSet_Ioi hd hinj
    (fun t => exp (-r ^ 2 / 4 / t + k ^ 2 * t) / 4 / π / t)
  rw [himg] at h
  rw [h]
  unfold lam
  rw [← integral_div]
  refine setIntegral_congr_fun measurableSet_Ioi fun s hs => ?_
  have hs : (1 : ℝ) < s := hs
  have hs0 : 0 < s := by linarith
  show |-(pa ^ 2 / 4) / s ^ 2| • (exp (-r ^ 2 / 4 / (pa ^ 2 / 4 / s) + k ^ 2 * (pa ^ 2 / 4 / s)) / 4 / π / (pa ^ 2 / 4 / s))
    = exp (-((r / pa) ^ 2 * s)) / s ^ 1 * exp (-(-(k * pa / 2) ^ 2 / s)) / (4 * π)
  have e2 : -r ^ 2 / 4 / (pa ^ 2 / 4 / s) + k ^ 2 * (pa ^ 2 / 4 / s) = -((r / pa) ^ 2 * s) + -(-(k * pa / 2) ^ 2 / s) := by
    field_simp
    ring
  rw [neg_div, abs_neg, abs_of_pos (by positivity), smul_eq_mul, e2, exp_add, pow_one]
  field_simp

/-- The series of the coefficient. -/
theorem first_series (pa k r : ℝ) (hpa : 0 < pa) (hk : 0 < k) (hr : 0 < r) :
    HasSum (fun n => firstTerm pa k r (n + 1))
      (4 * π * firstCoefficient pa k r + eulerMascheroniConstant + 2 * log (k * pa / 2)) := by
  have hx : 0 < (r / pa) ^ 2 := by positivity
  have hκ : 0 ≤ (k * pa / 2) ^ 2 := by positivity
  -- the first part
  have ha := ein_sum (-(r / pa) ^ 2)
  -- the second part
  have hb := (hasSum_nat_add_iff' 1).mpr (lam_hasSum 1 ((r / pa) ^ 2) ((k * pa / 2) ^ 2) hx hκ)
  have hb0 : ∑ i ∈ Finset.range 1, lamTerm 1 ((r / pa) ^ 2) (-(k * pa / 2) ^ 2) i = expInt 1 ((r / pa) ^ 2) := by
    simp [lamTerm]
  rw [hb0] at hb
  -- the third part
  have hJ : Summable fun n : ℕ => (Lwn.cJ0 n : ℝ) * (k * r) ^ (2 * n) := Lwn.series_summable _ Lwn.cJ0_small 0 _
  have hY : Summable fun n : ℕ => (cY0 n : ℝ) * (k * r) ^ (2 * n) := Lwn.series_summable _ cY0_small 0 _
  have hc := ((hJ.hasSum.mul_left (log (k * r / 2) + eulerMascheroniConstant)).add hY.hasSum)
  rw [← Lwn.besselJ_zero] at hc
  have hY0 := besselY0_eq (k * r)
  have hc := (hasSum_nat_add_iff' 1).mpr hc
  have hc0 : ∑ i ∈ Finset.range 1, ((log (k * r / 2) + eulerMascheroniConstant) * ((Lwn.cJ0 i : ℝ) * (k * r) ^ (2 * i))
      + (cY0 i : ℝ) * (k * r) ^ (2 * i)) = log (k * r / 2) + eulerMascheroniConstant := by
    simp [Lwn.cJ0, cY0]
  rw [hc0] at hc
  have hsum := (ha.sub hb).sub (hc.mul_left 2)
  have e1 : (fun n : ℕ => firstTerm pa k r (n + 1)) = fun n : ℕ =>
      (-(r / pa) ^ 2) ^ (n + 1) / (((n : ℝ) + 1) * (n + 1)!) - lamTerm 1 ((r / pa) ^ 2) (-(k * pa / 2) ^ 2) (n + 1)
        - 2 * ((log (k * r / 2) + eulerMascheroniConstant) * ((Lwn.cJ0 (n + 1) : ℝ) * (k * r) ^ (2 * (n + 1)))
          + (cY0 (n + 1) : ℝ) * (k * r) ^ (2 * (n + 1))) := by
    funext n
    unfold firstTerm lamTerm expInt
    congr 1
    · congr 1
      · rw [neg_pow ((r / pa) ^ 2), ← pow_mul]
        push_cast
        rw [mul_comm ((n + 1)! : ℝ)]
      · rw [neg_neg, ← pow_mul]
    · unfold Lwn.cJ0 cY0
      push_cast
      have h4 : (k * r / 2) ^ (2 * (n + 1)) = (k * r) ^ (2 * (n + 1)) / 4 ^ (n + 1) := by
        rw [div_pow, pow_mul 2 2 (n + 1)]
        norm_num
      rw [h4]
      have : ((n + 1)! : ℝ) ≠ 0 := by positivity
      field_simp
      ring
  rw [e1]
  have e2 : 4 * π * firstCoefficient pa k r + eulerMascheroniConstant + 2 * log (k * pa / 2)
      = ein (-(r / pa) ^ 2) - (lam 1 ((r / pa) ^ 2) (-(k * pa / 2) ^ 2) - expInt 1 ((r / pa) ^ 2))
        - 2 * ((log (k * r / 2) + eulerMascheroniConstant) * Lwn.besselJ 0 (k * r)
          + ∑' n : ℕ, (cY0 n : ℝ) * (k * r) ^ (2 * n) - (log (k * r / 2) + eulerMascheroniConstant)) := by
    have hE : expInt 1 ((r / pa) ^ 2) = -eulerMascheroniConstant - log ((r / pa) ^ 2) - ein (-(r / pa) ^ 2) := by
      rw [expInt_one _ hx]; rfl
    have hl1 : log ((r / pa) ^ 2) = 2 * (log r - log pa) := by
      rw [log_pow, log_div hr.ne' hpa.ne']
      norm_num
    have hl2 : log (k * r / 2) = log k + log r - log 2 := by
      rw [log_div (by positivity) (by norm_num), log_mul hk.ne' hr.ne']
    have hl3 : log (k * pa / 2) = log k + log pa - log 2 := by
      rw [log_div (by positivity) (by norm_num), log_mul hk.ne' hpa.ne']
    have hY1 : π * besselY0 (k * r) = 2 * ((log (k * r / 2) + eulerMascheroniConstant) * Lwn.besselJ 0 (k * r)
        + ∑' n : ℕ, (cY0 n : ℝ) * (k * r) ^ (2 * n)) := by
      rw [hY0]
      field_simp
    have hF : 4 * π * firstCoefficient pa k r = -(π * besselY0 (k * r)) - lam 1 ((r / pa) ^ 2) (-(k * pa / 2) ^ 2) := by
      unfold firstCoefficient
      rw [integral_inverse r pa k hpa]
      field_simp
    rw [hF, hY1, hE, hl1, hl3]
    rw [hl2]
    ring
  rw [e2]
  exact hsum

theorem psi_eq (n : ℕ) : psi n = harmonic n := by
  induction n with
  | zero => simp [psi]
  | succ n ih =>
    unfold psi at *
    rw [List.range_succ, List.foldl_append, ih, harmonic_succ]
    simp only [List.foldl_cons, List.foldl_nil]
    push_cast
    rw [one_div]

/-- The terms computed by the code. -/
noncomputable def firstCode (pa k r : ℝ) : ℕ → ℝ → ℝ → ℝ := fun n sgn facn =>
  sgn * (r / pa) ^ (2 * n) / facn / n - (k * pa / 2) ^ (2 * n) / facn * enxa (n + 1) ((r / pa) ^ 2)
    - 2 * sgn / facn ^ 2 * (k * r / 2) ^ (2 * n) * (log (k * r / 2) + ga - psi n)

theorem ga_close : |((ga : ℚ) : ℝ) - eulerMascheroniConstant| ≤ 2 / 10 ^ 16 := by
  have hg := abs_le.mp FinK.gamma_el
  have hd : ((ga : ℚ) : ℝ) = FinK.el - 1 / 10 ^ 16 := by
    have : ga = FinK.el - 1 / 10 ^ 16 := by decide +kernel
    rw [this]; push_cast; rfl
  rw [hd, abs_le]
  norm_num at *
  constructor <;> linarith [hg.1, hg.2]

theorem firstCode_close (pa k r : ℝ) (hpa : 0 < pa) (hr : 0 < r) (n : ℕ) :
    |termAt (firstCode pa k r) n - firstTerm pa k r n| ≤ (2.61 / 10 ^ 7) * (((k * r / 2) ^ 2) ^ n / (n ! : ℝ)) := by
  have hx : 0 < (r / pa) ^ 2 := by positivity
  have h1 := any_order 1 _ hx
  have h1 : |e1xa ((r / pa) ^ 2) - expInt 1 ((r / pa) ^ 2)| ≤ 2.6 / 10 ^ 7 := h1
  have h2 := order_error n _ hx
  have hg := ga_close
  have hf : (1 : ℝ) ≤ n ! := by exact_mod_cast Nat.one_le_iff_ne_zero.mpr (Nat.factorial_ne_zero n)
  have e : termAt (firstCode pa k r) n - firstTerm pa k r n
      = -(((k * r / 2) ^ 2) ^ n / ((n ! : ℝ) * n !) * (-1) ^ n)
        * ((e1xa ((r / pa) ^ 2) - expInt 1 ((r / pa) ^ 2)) + 2 * ((ga : ℝ) - eulerMascheroniConstant)) := by
    have hE : (k * pa / 2) ^ (2 * n) / (n ! : ℝ) * (enxa (n + 1) ((r / pa) ^ 2) - expInt (n + 1) ((r / pa) ^ 2))
        = ((k * r / 2) ^ 2) ^ n / ((n ! : ℝ) * n !) * (-1) ^ n * (e1xa ((r / pa) ^ 2) - expInt 1 ((r / pa) ^ 2)) := by
      rw [h2, neg_pow ((r / pa) ^ 2), pow_mul]
      have : ((k * r / 2) ^ 2) ^ n = ((k * pa / 2) ^ 2) ^ n * ((r / pa) ^ 2) ^ n := by
        rw [← mul_pow]
        congr 1
        field_simp
      rw [this]
      ring
    unfold termAt firstCode firstTerm
    rw [psi_eq]
    change _ - (_ - (k * pa / 2) ^ (2 * n) / (n ! : ℝ) * expInt (n + 1) ((r / pa) ^ 2) - _) = _
    rw [mul_add, neg_mul, ← hE, pow_mul (k * r / 2)]
    ring
  rw [e, abs_mul, abs_neg, abs_mul, abs_pow, abs_neg, abs_one, one_pow, mul_one,
    abs_of_nonneg (show 0 ≤ ((k * r / 2) ^ 2) ^ n / ((n ! : ℝ) * n !) by positivity), mul_comm]
  refine mul_le_mul ?_ ?_ (by positivity) (by norm_num)
  · refine (abs_add_le _ _).trans ?_
    rw [abs_mul, abs_of_pos (show (0 : ℝ) < 2 by norm_num)]
    norm_num at *
    linarith
  · refine div_le_div_of_nonneg_left (by positivity) (by positivity) ?_
    exact le_mul_of_one_le_left (by positivity) hf

/-- The series of the propagating mode ends for all positive arguments. Its last term is below the tolerance, and the error is
exactly the rest of the series, apart from the error of the exponential integrals. -/
theorem first_accuracy (pa k r : ℝ) (hpa : 0 < pa) (hk : 0 < k) (hr : 0 < r) :
    ∃ v turns last, 1 ≤ last ∧ (∀ fuel, turns ≤ fuel → sa0 fuel r pa k = some v)
      ∧ |firstTerm pa k r last| ≤ 1 / 10 ^ 6 + 2.7 / 10 ^ 7 * exp ((k * r / 2) ^ 2)
      ∧ |v - (firstCoefficient pa k r - (∑' n, firstTerm pa k r (last + 1 + n)) / (4 * π))|
        ≤ 2.7 / 10 ^ 7 * exp ((k * r / 2) ^ 2) / (4 * π) := by
  have hs := first_series pa k r hpa hk hr
  have hs0 : 0 ≤ (k * r / 2) ^ 2 := by positivity
  have hexp : 1 ≤ exp ((k * r / 2) ^ 2) := one_le_exp hs0
  have ht : Tendsto (termAt (firstCode pa k r)) atTop (𝓝 0) := by
    have h1 : Tendsto (firstTerm pa k r) atTop (𝓝 0) := (tendsto_add_atTop_iff_nat 1).mp hs.summable.tendsto_atTop_zero
    have h2 : Tendsto (fun n => termAt (firstCode pa k r) n - firstTerm pa k r n) atTop (𝓝 0) := by
      have h := (FloorSemiring.tendsto_pow_div_factorial_atTop ((k * r / 2) ^ 2)).const_mul (2.61 / 10 ^ 7 : ℝ)
      rw [mul_zero] at h
      exact squeeze_zero_norm (fun n => by rw [Real.norm_eq_abs]; exact firstCode_close pa k r hpa hr n) h
    have h := h2.add h1
    rw [zero_add] at h
    exact h.congr fun n => by ring
  obtain ⟨d, _, hd, hrun⟩ := sumLoop_ends _ 1 (-ga - 2 * log (k * pa / 2)) ht
  rw [pow_one, Nat.factorial_one, Nat.cast_one] at hrun
  have he : (eps : ℝ) ≤ 1 / 10 ^ 6 := by norm_num [eps]
  refine ⟨(-ga - 2 * log (k * pa / 2) + ∑ j ∈ Finset.range (d + 1), termAt (firstCode pa k r) (1 + j)) / 4 / π, d + 2, 1 + d,
    by omega, fun fuel hf => ?_, ?_, ?_⟩
  · unfold sa0
    have := hrun fuel hf
    unfold firstCode at this
    rw [this]
    rfl
  · have h1 := firstCode_close pa k r hpa hr (1 + d)
    have h2 : ((k * r / 2) ^ 2) ^ (1 + d) / ((1 + d)! : ℝ) ≤ exp ((k * r / 2) ^ 2) :=
      Real.pow_div_factorial_le_exp _ hs0 (1 + d)
    have h3 := abs_sub_abs_le_abs_sub (firstTerm pa k r (1 + d)) (termAt (firstCode pa k r) (1 + d))
    rw [abs_sub_comm] at h3
    generalize exp ((k * r / 2) ^ 2) = E at *
    generalize ((k * r / 2) ^ 2) ^ (1 + d) / ((1 + d)! : ℝ) = X at *
    norm_num at h1 he ⊢
    linarith
  · have hpi := pi_pos
    have hsplit := hs.summable.sum_add_tsum_nat_add (d + 1)
    rw [hs.tsum_eq] at hsplit
    have e1 : (∑' n, firstTerm pa k r (1 + d + 1 + n)) = ∑' i, firstTerm pa k r (i + (d + 1) + 1) :=
      tsum_congr fun n => by rw [show 1 + d + 1 + n = n + (d + 1) + 1 by ring]
    have e2 : ∑ j ∈ Finset.range (d + 1), firstTerm pa k r (1 + j) = ∑ i ∈ Finset.range (d + 1), firstTerm pa k r (i + 1) :=
      Finset.sum_congr rfl fun n _ => by rw [Nat.add_comm]
    have hdiff : |(∑ j ∈ Finset.range (d + 1), termAt (firstCode pa k r) (1 + j))
        - ∑ j ∈ Finset.range (d + 1), firstTerm pa k r (1 + j)| ≤ 2.61 / 10 ^ 7 * exp ((k * r / 2) ^ 2) := by
      rw [← Finset.sum_sub_distrib]
      refine (Finset.abs_sum_le_sum_abs _ _).trans ?_
      refine (Finset.sum_le_sum fun j _ => firstCode_close pa k r hpa hr (1 + j)).trans ?_
      rw [← Finset.mul_sum]
      refine mul_le_mul_of_nonneg_left ?_ (by norm_num)
      have h := Real.sum_le_exp_of_nonneg hs0 (d + 2)
      rw [Finset.sum_range_succ' _ (d + 1)] at h
      have e : ∑ j ∈ Finset.range (d + 1), ((k * r / 2) ^ 2) ^ (1 + j) / ((1 + j)! : ℝ)
          = ∑ j ∈ Finset.range (d + 1), ((k * r / 2) ^ 2) ^ (j + 1) / ((j + 1)! : ℝ) :=
        Finset.sum_congr rfl fun j _ => by rw [Nat.add_comm]
      rw [e]
      simp only [pow_zero, Nat.factorial_zero, Nat.cast_one, div_one] at h
      linarith
    have hg := ga_close
    rw [e1]
    have e3 : firstCoefficient pa k r - (∑' i, firstTerm pa k r (i + (d + 1) + 1)) / (4 * π)
        = (-eulerMascheroniConstant - 2 * log (k * pa / 2)
          + ∑ j ∈ Finset.range (d + 1), firstTerm pa k r (1 + j)) / (4 * π) := by
      rw [eq_div_iff (by positivity), sub_mul, div_mul_cancel₀ _ (by positivity), e2]
      linarith
    rw [e3, div_div, ← sub_div, abs_div, abs_of_pos (show 0 < 4 * π by positivity)]
    refine div_le_div_of_nonneg_right ?_ (by positivity)
    generalize ∑ j ∈ Finset.range (d + 1), termAt (firstCode pa k r) (1 + j) = S at *
    generalize ∑ j ∈ Finset.range (d + 1), firstTerm pa k r (1 + j) = T at *
    have e4 : -(ga : ℝ) - 2 * log (k * pa / 2) + S - (-eulerMascheroniConstant - 2 * log (k * pa / 2) + T)
        = (S - T) - ((ga : ℝ) - eulerMascheroniConstant) := by ring
    rw [e4]
    refine (abs_sub _ _).trans ?_
    generalize exp ((k * r / 2) ^ 2) = E at *
    norm_num at hdiff hg ⊢
    linarith

/-! ### The hypotheses can be met -/

example : HasSum (fun n => firstTerm 2 1 (1 / 2) (n + 1))
    (4 * π * firstCoefficient 2 1 (1 / 2) + eulerMascheroniConstant + 2 * log (1 * 2 / 2)) :=
  first_series 2 1 (1 / 2) (by norm_num) (by norm_num) (by norm_num)

example : ∃ v turns, ∀ fuel, turns ≤ fuel → sa0 fuel (1 / 2) 2 1 = some v := by
  obtain ⟨v, turns, _, _, h, _⟩ := first_accuracy 2 1 (1 / 2) (by norm_num) (by norm_num) (by norm_num)
  exact ⟨v, turns, h⟩

end Verif.Green.Linton
