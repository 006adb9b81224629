import Verif.Tabulation.IntegProps
import Verif.Green.FinBesselFar
import Mathlib.Analysis.SpecialFunctions.Trigonometric.Series

/-!
# The edge of the tables

Specification: the imaginary parts of the Green function and of its derivative are `2 π e^z J₀(r)` and `-2 π e^z J₁(r)`, with the functions of
Bessel given by their series; beyond the tables the same functions are found, so that there is no jump at the edge of the tables.
-/

namespace Verif.Tabulation.Integ

open Real MeasureTheory
open Verif.Green.Lwn (besselJ cJ0 cJ1 besselJ_zero besselJ_one)
open Verif.Green.FinBessel (pq at4 p0Far q0Far j0_far)
open Verif.Green.PolyBound (ev)

theorem integral_cos_even (k : ℕ) :
    ∫ t in (-π / 2)..(π / 2), cos t ^ (2 * k) = π * (2 * k).factorial / (4 ^ k * (k.factorial : ℝ) ^ 2) := by
  induction k with
  | zero => simp; ring
  | succ k ih =>
    rw [show 2 * (k + 1) = 2 * k + 2 from by ring, integral_cos_pow, ih, Nat.factorial_succ, Nat.factorial_succ, Nat.factorial_succ,
      neg_div, cos_neg, cos_pi_div_two]
    push_cast
    have : (k.factorial : ℝ) ≠ 0 := by positivity
    rw [zero_pow (by omega)]
    field_simp
    ring

theorem summable_even (r : ℝ) : Summable fun n : ℕ => |r| ^ (2 * n) / (2 * n).factorial :=
  (Real.summable_pow_div_factorial |r|).comp_injective (i := fun n : ℕ => 2 * n) fun a b h => by simpa using h

theorem summable_odd (r : ℝ) : Summable fun n : ℕ => |r| ^ (2 * n + 1) / (2 * n + 1).factorial :=
  (Real.summable_pow_div_factorial |r|).comp_injective (i := fun n : ℕ => 2 * n + 1) fun a b h => by
    have : 2 * a + 1 = 2 * b + 1 := h
    omega

/-- The integral representation of the function of Bessel of order 0. -/
theorem integral_besselJ0 (r : ℝ) : ∫ t in (-π / 2)..(π / 2), cos (r * cos t) = π * besselJ 0 r := by
  have h := intervalIntegral.hasSum_integral_of_dominated_convergence (μ := volume) (a := -π / 2) (b := π / 2)
    (F := fun (n : ℕ) (t : ℝ) => (-1) ^ n * (r * cos t) ^ (2 * n) / (2 * n).factorial) (f := fun t => cos (r * cos t))
    (fun n _ => |r| ^ (2 * n) / (2 * n).factorial)
    (fun n => (by fun_prop : Continuous fun t : ℝ => (-1) ^ n * (r * cos t) ^ (2 * n) / (2 * n).factorial).aestronglyMeasurable)
    (fun n => Filter.Eventually.of_forall fun t _ => by
      rw [norm_eq_abs, abs_div, abs_mul, abs_pow, abs_pow, abs_neg, abs_one, one_pow, one_mul, abs_mul, Nat.abs_cast, mul_pow]
      gcongr
      exact mul_le_of_le_one_right (by positivity) (pow_le_one₀ (abs_nonneg _) (abs_cos_le_one t)))
    (Filter.Eventually.of_forall fun t _ => summable_even r)
    (by simp)
    (Filter.Eventually.of_forall fun t _ => Real.hasSum_cos (r * cos t))
  rw [← h.tsum_eq, besselJ_zero, ← tsum_mul_left]
  refine tsum_congr fun k => ?_
  have e : ∀ t : ℝ, (-1) ^ k * (r * cos t) ^ (2 * k) / ((2 * k).factorial : ℝ) =
      (-1) ^ k * r ^ (2 * k) / ((2 * k).factorial : ℝ) * cos t ^ (2 * k) := fun t => by rw [mul_pow]; ring
  simp only [e]
  rw [intervalIntegral.integral_const_mul, integral_cos_even, cJ0]
  push_cast
  have : ((2 * k).factorial : ℝ) ≠ 0 := by positivity
  have : (k.factorial : ℝ) ≠ 0 := by positivity
  field_simp

/-- The integral representation of the function of Bessel of order 1. -/
theorem integral_besselJ1 (r : ℝ) : ∫ t in (-π / 2)..(π / 2), cos t * sin (r * cos t) = π * besselJ 1 r := by
  have h := intervalIntegral.hasSum_integral_of_dominated_convergence (μ := volume) (a := -π / 2) (b := π / 2)
    (F := fun (n : ℕ) (t : ℝ) => cos t * ((-1) ^ n * (r * cos t) ^ (2 * n + 1) / (2 * n + 1).factorial))
    (f := fun t => cos t * sin (r * cos t))
    (fun n _ => |r| ^ (2 * n + 1) / (2 * n + 1).factorial)
    (fun n => (by fun_prop : Continuous fun t : ℝ =>
      cos t * ((-1) ^ n * (r * cos t) ^ (2 * n + 1) / (2 * n + 1).factorial)).aestronglyMeasurable)
    (fun n => Filter.Eventually.of_forall fun t _ => by
      rw [norm_eq_abs, abs_mul, abs_div, abs_mul, abs_pow, abs_pow, abs_neg, abs_one, one_pow, one_mul, abs_mul, Nat.abs_cast, mul_pow]
      refine (mul_le_of_le_one_left (by positivity) (abs_cos_le_one t)).trans ?_
      gcongr
      exact mul_le_of_le_one_right (by positivity) (pow_le_one₀ (abs_nonneg _) (abs_cos_le_one t)))
    (Filter.Eventually.of_forall fun t _ => summable_odd r)
    (by simp)
    (Filter.Eventually.of_forall fun t _ => (Real.hasSum_sin (r * cos t)).mul_left (cos t))
  rw [← h.tsum_eq, besselJ_one, ← tsum_mul_left]
  refine tsum_congr fun k => ?_
  have e : ∀ t : ℝ, cos t * ((-1) ^ k * (r * cos t) ^ (2 * k + 1) / ((2 * k + 1).factorial : ℝ)) =
      (-1) ^ k * r ^ (2 * k + 1) / ((2 * k + 1).factorial : ℝ) * cos t ^ (2 * (k + 1)) := fun t => by rw [mul_pow]; ring
  simp only [e]
  rw [intervalIntegral.integral_const_mul, integral_cos_even, cJ1, show 2 * (k + 1) = 2 * k + 1 + 1 from by ring,
    Nat.factorial_succ (2 * k + 1), Nat.factorial_succ k]
  push_cast
  have : ((2 * k + 1).factorial : ℝ) ≠ 0 := by positivity
  have : (k.factorial : ℝ) ≠ 0 := by positivity
  field_simp
  ring

/-- The imaginary parts that the tables hold, in terms of the functions of Bessel. -/
theorem imaginary_bessel (r z : ℝ) :
    specI3 r z = 2 * π * exp z * besselJ 0 r ∧ specI5 r z = -(2 * π * exp z * besselJ 1 r) := by
  constructor
  · unfold specI3
    rw [intervalIntegral.integral_const_mul, integral_besselJ0]
    ring
  · unfold specI5
    have : ∀ t : ℝ, cos t * (exp z * sin (r * cos t)) = exp z * (cos t * sin (r * cos t)) := fun t => by ring
    rw [intervalIntegral.integral_neg]
    simp only [this]
    rw [intervalIntegral.integral_const_mul, integral_besselJ1]
    ring

/-- The slowly varying amplitudes far away. -/
theorem amplitudes {x : ℝ} (hx : 100 ≤ x) : |at4 p0Far x - 1| ≤ 8e-6 ∧ |4 / x * at4 q0Far x + 1 / (8 * x)| ≤ 1e-7 := by
  have h0 : 0 < 4 / x := by positivity
  have h1 : 4 / x ≤ 1 / 25 := by
    rw [div_le_div_iff₀ (by linarith) (by norm_num)]
    linarith
  have e8 : 1 / (8 * x) = 4 / x * (1 / 32) := by
    have : x ≠ 0 := by intro h; linarith
    field_simp
    norm_num
  rw [e8]
  unfold at4
  generalize 4 / x = t at *
  have hu0 : 0 ≤ t ^ 2 := sq_nonneg t
  have hu1 : t ^ 2 ≤ 1 / 625 := by nlinarith
  generalize t ^ 2 = u at *
  have u2 : 0 ≤ u ^ 2 ∧ u ^ 2 ≤ 1 / 625 * u := ⟨by positivity, by nlinarith⟩
  have u3 : 0 ≤ u ^ 3 ∧ u ^ 3 ≤ 1 / 625 * u ^ 2 := ⟨by positivity, by nlinarith [mul_nonneg u2.1 (sub_nonneg.2 hu1)]⟩
  have u4 : 0 ≤ u ^ 4 ∧ u ^ 4 ≤ 1 / 625 * u ^ 3 := ⟨by positivity, by nlinarith [mul_nonneg u3.1 (sub_nonneg.2 hu1)]⟩
  have u5 : 0 ≤ u ^ 5 ∧ u ^ 5 ≤ 1 / 625 * u ^ 4 := ⟨by positivity, by nlinarith [mul_nonneg u4.1 (sub_nonneg.2 hu1)]⟩
  obtain ⟨a2, b2⟩ := u2
  obtain ⟨a3, b3⟩ := u3
  obtain ⟨a4, b4⟩ := u4
  obtain ⟨a5, b5⟩ := u5
  constructor
  · have e : ev p0Far u - 1 = -3e-9 - 0.004394275 * u + 0.000434725 * u ^ 2 - 0.000122226 * u ^ 3 + 0.000043506 * u ^ 4
        - 0.000009285 * u ^ 5 := by
      simp only [p0Far, ev]
      push_cast
      ring
    rw [e, abs_le]
    constructor <;> linarith
  · have e : t * ev q0Far u + t * (1 / 32) = t * (5e-9 + 0.001144106 * u - 0.000218024 * u ^ 2 + 0.000085844 * u ^ 3
        - 0.000035614 * u ^ 4 + 0.000008099 * u ^ 5) := by
      simp only [q0Far, ev]
      push_cast
      ring
    have hb : |5e-9 + 0.001144106 * u - 0.000218024 * u ^ 2 + 0.000085844 * u ^ 3 - 0.000035614 * u ^ 4 + 0.000008099 * u ^ 5| ≤ 2.5e-6 := by
      rw [abs_le]
      constructor <;> linarith
    rw [e, abs_mul, abs_of_pos h0]
    calc _ ≤ 1 / 25 * 2.5e-6 := mul_le_mul h1 hb (abs_nonneg _) (by norm_num)
      _ = _ := by norm_num

/-- The difference between the function of Bessel and its asymptotic expression. -/
theorem bessel_asymptotic {x : ℝ} (hx : 100 ≤ x) :
    |√x * (√(π / 2) * besselJ 0 x) - cos (x - π / 4) - 1 / (8 * x) * sin (x - π / 4)| ≤ 9.5e-6 := by
  have h := j0_far x (by linarith)
  obtain ⟨ha, hb⟩ := amplitudes hx
  unfold pq at h
  have hc := abs_cos_le_one (x - π / 4)
  have hs := abs_sin_le_one (x - π / 4)
  generalize cos (x - π / 4) = c at *
  generalize sin (x - π / 4) = s at *
  have e1 : |(at4 p0Far x - 1) * c| ≤ 8e-6 := by
    rw [abs_mul]
    calc _ ≤ 8e-6 * 1 := mul_le_mul ha hc (abs_nonneg _) (by norm_num)
      _ = _ := by norm_num
  have e2 : |(4 / x * at4 q0Far x + 1 / (8 * x)) * s| ≤ 1e-7 := by
    rw [abs_mul]
    calc _ ≤ 1e-7 * 1 := mul_le_mul hb hs (abs_nonneg _) (by norm_num)
      _ = _ := by norm_num
  generalize √x * (√(π / 2) * besselJ 0 x) = J at *
  have e3 : J - c - 1 / (8 * x) * s = (at4 p0Far x - 1) * c - (4 / x * at4 q0Far x + 1 / (8 * x)) * s -
      (at4 p0Far x * c - 4 / x * at4 q0Far x * s - J) := by ring
  rw [e3]
  rw [abs_le] at *
  norm_num at *
  constructor <;> linarith [e1.1, e1.2, e2.1, e2.2, h.1, h.2]

theorem root_ratio {x : ℝ} (hx : 0 < x) (J : ℝ) : π * J = √(2 * π / x) * (√x * (√(π / 2) * J)) := by
  have h1 : √(2 * π / x) * √x = √(2 * π) := by
    rw [← sqrt_mul (by positivity)]
    congr 1
    field_simp
  have h2 : √(2 * π) * √(π / 2) = π := by
    rw [← sqrt_mul (by positivity), show 2 * π * (π / 2) = π ^ 2 by ring, sqrt_sq pi_pos.le]
  calc π * J = (√(2 * π) * √(π / 2)) * J := by rw [h2]
    _ = _ := by rw [← h1]; ring

/-- The difference of the asymptotic expression, with the `PI` of the code, and of the imaginary part. -/
theorem asymptotic_difference {r : ℝ} (hr : 100 ≤ r) (z : ℝ) :
    |(asymptotic piSingle r z).i3 - specI3 r z + 2 * exp z * √(2 * π / r) * (1 / (8 * r) * sin (r - π / 4))| ≤ exp z * 6e-6 := by
  have hp := pi_constant_violated.2.1
  have hpi := pi_gt_d2
  have hpi' := pi_lt_d2
  have hr0 : (0 : ℝ) < r := by linarith
  have hJ := bessel_asymptotic hr
  rw [(imaginary_bessel r z).1]
  have e0 : 2 * π * exp z * besselJ 0 r = 2 * exp z * √(2 * π / r) * (√r * (√(π / 2) * besselJ 0 r)) := by
    rw [show 2 * π * exp z * besselJ 0 r = 2 * exp z * (π * besselJ 0 r) by ring, root_ratio hr0]
    ring
  rw [e0]
  generalize √r * (√(π / 2) * besselJ 0 r) = J at *
  have hq : √(2 * π / r) ≤ 0.251 := by
    rw [sqrt_le_left (by norm_num), div_le_iff₀ hr0]
    norm_num at *
    nlinarith
  have hq0 : 0 ≤ √(2 * π / r) := sqrt_nonneg _
  have hroot : |√(2 * (piSingle : ℝ) / r) - √(2 * π / r)| ≤ 1e-7 := by
    have hS : 0 < √(2 * π / r) := sqrt_pos.2 (by positivity)
    have hps : (0 : ℝ) < piSingle := by norm_num [piSingle]
    have hle : √(2 * π / r) ≤ √(2 * (piSingle : ℝ) / r) := by
      apply sqrt_le_sqrt
      have : π ≤ piSingle := by
        have := pi_lt_d20
        simp only [piSingle]
        push_cast
        norm_num at *
        linarith
      gcongr
    rw [abs_of_nonneg (by linarith)]
    -- (√a - √b) ≤ (√b relative) : a - b = (√a-√b)(√a+√b)
    have ha : √(2 * (piSingle : ℝ) / r) ^ 2 = 2 * (piSingle : ℝ) / r := sq_sqrt (by positivity)
    have hb : √(2 * π / r) ^ 2 = 2 * π / r := sq_sqrt (by positivity)
    have hab : √(2 * (piSingle : ℝ) / r) ^ 2 - √(2 * π / r) ^ 2 ≤ 1e-7 * √(2 * π / r) ^ 2 := by
      rw [ha, hb, ← sub_div, ← mul_div_assoc]
      gcongr
      have := (abs_lt.1 hp).2
      norm_num at *
      linarith
    nlinarith
  have hcos : |cos (r - (piSingle : ℝ) / 4) - cos (r - π / 4)| ≤ 1e-7 := by
    refine (abs_cos_sub_cos_le _ _).trans ?_
    rw [show r - (piSingle : ℝ) / 4 - (r - π / 4) = -(((piSingle : ℝ) - π) / 4) by ring, abs_neg, abs_div,
      abs_of_pos (by norm_num : (0 : ℝ) < 4)]
    norm_num at *
    linarith
  have hc1 := abs_cos_le_one (r - (piSingle : ℝ) / 4)
  simp only [asymptotic]
  generalize cos (r - (piSingle : ℝ) / 4) = c' at *
  generalize cos (r - π / 4) = c at *
  generalize 1 / (8 * r) * sin (r - π / 4) = w at *
  generalize √(2 * (piSingle : ℝ) / r) = q' at *
  generalize √(2 * π / r) = q at *
  have e : 2 * (exp z * q' * c') - 2 * exp z * q * J + 2 * exp z * q * w =
      exp z * (2 * ((q' - q) * c' + q * (c' - c) - q * (J - c - w))) := by ring
  rw [e, abs_mul, abs_of_pos (exp_pos z)]
  refine mul_le_mul_of_nonneg_left ?_ (exp_pos z).le
  have t1 : |(q' - q) * c'| ≤ 1e-7 := by
    rw [abs_mul]
    calc _ ≤ 1e-7 * 1 := mul_le_mul hroot hc1 (abs_nonneg _) (by norm_num)
      _ = _ := by norm_num
  have t2 : |q * (c' - c)| ≤ 0.251 * 1e-7 := by
    rw [abs_mul, abs_of_nonneg hq0]
    exact mul_le_mul hq hcos (abs_nonneg _) (by norm_num)
  have t3 : |q * (J - c - w)| ≤ 0.251 * 9.5e-6 := by
    rw [abs_mul, abs_of_nonneg hq0]
    exact mul_le_mul hq hJ (abs_nonneg _) (by norm_num)
  rw [abs_le] at *
  norm_num at *
  constructor <;> linarith [t1.1, t1.2, t2.1, t2.2, t3.1, t3.2]

/-- Beyond the tables the imaginary part is right to three digits. -/
theorem asymptotic_imaginary {r : ℝ} (hr : 100 ≤ r) (z : ℝ) :
    |(asymptotic piSingle r z).i3 - specI3 r z| ≤ exp z * 6.4e-4 := by
  have h := asymptotic_difference hr z
  have hpi' := pi_lt_d2
  have hr0 : (0 : ℝ) < r := by linarith
  have hq : √(2 * π / r) ≤ 0.251 := by
    rw [sqrt_le_left (by norm_num), div_le_iff₀ hr0]
    norm_num at *
    nlinarith
  have h8 : 1 / (8 * r) ≤ 1 / 800 := one_div_le_one_div_of_le (by norm_num) (by linarith)
  have h80 : 0 < 1 / (8 * r) := by positivity
  have hw : |2 * exp z * √(2 * π / r) * (1 / (8 * r) * sin (r - π / 4))| ≤ exp z * (2 * 0.251 * (1 / 800)) := by
    have e : 2 * exp z * √(2 * π / r) * (1 / (8 * r) * sin (r - π / 4)) = exp z * (2 * √(2 * π / r) * (1 / (8 * r) * sin (r - π / 4))) := by
      ring
    rw [e, abs_mul, abs_of_pos (exp_pos z)]
    refine mul_le_mul_of_nonneg_left ?_ (exp_pos z).le
    rw [abs_mul, abs_mul, abs_mul, abs_of_nonneg (sqrt_nonneg _), abs_of_pos h80, abs_of_pos (by norm_num : (0 : ℝ) < 2)]
    have : 1 / (8 * r) * |sin (r - π / 4)| ≤ 1 / 800 :=
      (mul_le_of_le_one_right h80.le (abs_sin_le_one _)).trans h8
    exact mul_le_mul (by linarith) this (by positivity) (by norm_num)
  have hE := exp_pos z
  generalize exp z = E at *
  rw [abs_le] at *
  norm_num at *
  constructor <;> linarith [h.1, h.2, hw.1, hw.2]

/-- At the edge of the default tables, the value of the tables and the asymptotic value are apart. -/
theorem edge_violated (e1 : ℂ → ℂ) {z : ℝ} (hz : -30 < z) :
    exp z * 5.5e-4 ≤ |(asymptotic piSingle 100 z).i3 - (numericalIntegration piSingle e1 100 z 1001).i3| := by
  have h := asymptotic_difference (le_refl (100 : ℝ)) z
  have ha := imaginary_accuracy piSingle e1 (r := 100) (by norm_num) hz (nb := 1001) (by norm_num) (by push_cast; norm_num)
  have ta := tail_small (r := 100) (by norm_num) le_rfl fact_1000
  rw [show nbPoints 1001 = 1001 from rfl, show 1001 - 1 = 1000 from rfl] at ha
  have ta0 : 0 ≤ (100 : ℝ) ^ 1000 / (Nat.factorial 1000 : ℝ) := div_nonneg (pow_nonneg (by norm_num) _) (Nat.cast_nonneg _)
  generalize (100 : ℝ) ^ 1000 / (Nat.factorial 1000 : ℝ) = u at *
  have hp := pi_constant_violated.2.1
  have hP0 := abs_nonneg ((piSingle : ℝ) - π)
  have hpi := pi_gt_d6
  have hpi' := pi_lt_d6
  have hpi0 := pi_pos
  generalize |(piSingle : ℝ) - π| = P at *
  have hb : |(numericalIntegration piSingle e1 100 z 1001).i3 - specI3 100 z| ≤ exp z * 2.8e-5 := by
    refine ha.trans ?_
    have : 2 * (P * (1 + π * 100 / 2) + 4 * π * u) ≤ 2.8e-5 := by
      calc 2 * (P * (1 + π * 100 / 2) + 4 * π * u) ≤ 2 * (8.75e-8 * (1 + 3.141593 * 100 / 2) + 4 * 3.141593 * (1 / 10 ^ 100)) := by gcongr
        _ ≤ _ := by norm_num
    calc _ = exp z * (2 * (P * (1 + π * 100 / 2) + 4 * π * u)) := by ring
      _ ≤ _ := mul_le_mul_of_nonneg_left this (exp_pos z).le
  have hsin : sin (100 - π / 4) ≤ -0.96 := by
    have e : 100 - π / 4 = (100 - 127 * π / 4) + 3 * π / 2 + (15 : ℤ) * (2 * π) := by push_cast; ring
    rw [e, sin_add_int_mul_two_pi, show (100 - 127 * π / 4) + 3 * π / 2 = (100 - 127 * π / 4) + π / 2 + π by ring, sin_add_pi,
      sin_add_pi_div_two]
    have hc := one_sub_sq_div_two_le_cos (x := 100 - 127 * π / 4)
    norm_num at *
    nlinarith
  have hq : 0.25 ≤ √(2 * π / 100) := by
    apply le_sqrt_of_sq_le
    norm_num at *
    linarith
  have hw : exp z * (2 * 0.25 * (1 / 800 * 0.96)) ≤ -(2 * exp z * √(2 * π / 100) * (1 / (8 * 100) * sin (100 - π / 4))) := by
    have e : -(2 * exp z * √(2 * π / 100) * (1 / (8 * 100) * sin (100 - π / 4))) =
        exp z * (2 * √(2 * π / 100) * (1 / 800 * -sin (100 - π / 4))) := by ring
    rw [e]
    refine mul_le_mul_of_nonneg_left ?_ (exp_pos z).le
    refine mul_le_mul (by linarith) ?_ (by norm_num) (by positivity)
    norm_num at *
    linarith
  refine le_trans ?_ (le_abs_self _)
  have hE := exp_pos z
  generalize exp z = E at *
  rw [abs_le] at *
  norm_num at *
  linarith [h.1, h.2, hb.1, hb.2]

/-- Just under the free surface. -/
example : (-30 : ℝ) < -1 / 10 := by norm_num

end Verif.Tabulation.Integ
