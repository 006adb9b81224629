import Verif.Tabulation.IntegApprox
import Mathlib.Analysis.Real.Pi.Bounds
import Mathlib.Tactic.IntervalCases

/-!
# The integrals of the tables

Specification: the imaginary part of the Green function is `2 ∫ Re e^ζ dθ`, that of its derivative along `r` is `2 ∫ Re (i cos θ e^ζ) dθ`,
with `ζ = z + i r cos θ` and `θ` from `-π/2` to `π/2`; the two variants of the Green function differ by `2/√(r² + z²)`; the integrals of the
derivative are derivatives.
-/

namespace Verif.Tabulation.Integ

open Finset Real

/-- The imaginary part of the Green function. -/
noncomputable def specI3 (r z : ℝ) : ℝ := 2 * ∫ t in (-π / 2)..(π / 2), exp z * cos (r * cos t)

/-- The imaginary part of its derivative along `r`. -/
noncomputable def specI5 (r z : ℝ) : ℝ := 2 * ∫ t in (-π / 2)..(π / 2), -(cos t * (exp z * sin (r * cos t)))

section fold

variable (p : ℝ) (e1 : ℂ → ℂ) (r z : ℝ) (n : ℕ)

theorem fold_i3 (l : List ℕ) (v : Vals) :
    (l.foldl (fun v k => turn p e1 r z n v (k + 1)) v).i3 =
      v.i3 + (l.map fun k => deltaTheta p n (k + 1) * (expZeta (zetaAt r z (theta p n (k + 1)))).re).sum := by
  induction l generalizing v with
  | nil => simp
  | cons a l ih => rw [List.foldl_cons, ih, List.map_cons, List.sum_cons]; simp only [turn]; ring

theorem fold_i5 (l : List ℕ) (v : Vals) :
    (l.foldl (fun v k => turn p e1 r z n v (k + 1)) v).i5 =
      v.i5 - (l.map fun k => deltaTheta p n (k + 1) *
        (cos (theta p n (k + 1)) * (expZeta (zetaAt r z (theta p n (k + 1)))).im)).sum := by
  induction l generalizing v with
  | nil => simp
  | cons a l ih => rw [List.foldl_cons, ih, List.map_cons, List.sum_cons]; simp only [turn]; ring

theorem fold_i21 (l : List ℕ) (v : Vals) :
    (l.foldl (fun v k => turn p e1 r z n v (k + 1)) v).i2 - (l.foldl (fun v k => turn p e1 r z n v (k + 1)) v).i1 =
      v.i2 - v.i1 - (l.map fun k => deltaTheta p n (k + 1) * (1 / zetaAt r z (theta p n (k + 1))).re).sum := by
  induction l generalizing v with
  | nil => simp
  | cons a l ih =>
    rw [List.foldl_cons, ih, List.map_cons, List.sum_cons]
    simp only [turn, Complex.sub_re]
    ring

end fold

theorem list_sum_range (f : ℕ → ℝ) (n : ℕ) : ((List.range n).map f).sum = ∑ k ∈ range n, f k := by
  simp [Finset.sum, Finset.range_val, Multiset.range]

theorem expZeta_shallow {z : ℝ} (hz : -30 < z) (r t : ℝ) :
    (expZeta (zetaAt r z t)).re = exp z * cos (r * cos t) ∧ (expZeta (zetaAt r z t)).im = exp z * sin (r * cos t) := by
  have h : ¬ (zetaAt r z t).re ≤ -30 := not_le.2 hz
  unfold expZeta
  rw [if_neg h]
  exact ⟨Complex.exp_re _, Complex.exp_im _⟩

theorem expZeta_deep {z : ℝ} (hz : z ≤ -30) (r t : ℝ) : expZeta (zetaAt r z t) = 0 := by
  unfold expZeta
  exact if_pos hz

theorem i3_eq (p : ℝ) (e1 : ℂ → ℂ) (r : ℝ) {z : ℝ} (hz : -30 < z) (nb : ℕ) :
    (numericalIntegration p e1 r z nb).i3 = 2 * (exp z * simpS p (nbPoints nb) (fun t => cos (r * cos t))) := by
  simp only [numericalIntegration, fold_i3, zero_add, list_sum_range, expZeta_shallow hz]
  rw [← simpS_mul]
  rfl

theorem i5_eq (p : ℝ) (e1 : ℂ → ℂ) (r : ℝ) {z : ℝ} (hz : -30 < z) (nb : ℕ) :
    (numericalIntegration p e1 r z nb).i5 = -(2 * (exp z * simpS p (nbPoints nb) (fun t => cos t * sin (r * cos t)))) := by
  simp only [numericalIntegration, fold_i5, list_sum_range, expZeta_shallow hz]
  rw [← simpS_mul, zero_sub, mul_neg]
  congr 2
  unfold simpS
  exact sum_congr rfl fun k _ => by ring

theorem inv_zeta_re (r z t : ℝ) : (1 / zetaAt r z t).re = z / (z ^ 2 + r ^ 2 * cos t ^ 2) := by
  rw [one_div, Complex.inv_re]
  congr 1
  simp only [zetaAt, Complex.normSq_mk]
  ring

theorem i21_eq (p : ℝ) (e1 : ℂ → ℂ) (r z : ℝ) (nb : ℕ) :
    (numericalIntegration p e1 r z nb).i2 - (numericalIntegration p e1 r z nb).i1 =
      -(2 / p * simpS p (nbPoints nb) (fun t => z / (z ^ 2 + r ^ 2 * cos t ^ 2))) := by
  have h := fold_i21 p e1 r z (nbPoints nb) (List.range (nbPoints nb)) ⟨0, 0, 0, 0, 0⟩
  rw [list_sum_range] at h
  simp only [inv_zeta_re] at h
  simp only [numericalIntegration]
  unfold simpS
  linear_combination 2 / p * h

theorem nbPoints_eq (nb : ℕ) (h : 2 ≤ nb) : ∃ M, 0 < M ∧ nbPoints nb = 2 * M + 1 ∧ nb ≤ 2 * M + 1 := by
  unfold nbPoints
  split
  · exact ⟨nb / 2, by omega, by omega, by omega⟩
  · exact ⟨nb / 2, by omega, by omega, by omega⟩

theorem lip_cos_cos {r : ℝ} (hr : 0 ≤ r) (s t : ℝ) : |cos (r * cos s) - cos (r * cos t)| ≤ r * |s - t| := by
  calc _ ≤ |r * cos s - r * cos t| := abs_cos_sub_cos_le _ _
    _ = r * |cos s - cos t| := by rw [← mul_sub, abs_mul, abs_of_nonneg hr]
    _ ≤ _ := mul_le_mul_of_nonneg_left (abs_cos_sub_cos_le _ _) hr

theorem lip_cos_sin {r : ℝ} (hr : 0 ≤ r) (s t : ℝ) :
    |cos s * sin (r * cos s) - cos t * sin (r * cos t)| ≤ (1 + r) * |s - t| := by
  have e : cos s * sin (r * cos s) - cos t * sin (r * cos t) =
      (cos s - cos t) * sin (r * cos s) + cos t * (sin (r * cos s) - sin (r * cos t)) := by ring
  have h1 : |cos s - cos t| ≤ |s - t| := abs_cos_sub_cos_le _ _
  have h2 : |sin (r * cos s) - sin (r * cos t)| ≤ r * |s - t| := by
    calc _ ≤ |r * cos s - r * cos t| := abs_sin_sub_sin_le _ _
      _ = r * |cos s - cos t| := by rw [← mul_sub, abs_mul, abs_of_nonneg hr]
      _ ≤ _ := mul_le_mul_of_nonneg_left h1 hr
  rw [e]
  refine (abs_add_le _ _).trans ?_
  rw [abs_mul, abs_mul]
  have h3 := mul_le_mul h1 (abs_sin_le_one (r * cos s)) (abs_nonneg _) (abs_nonneg _)
  have h4 := mul_le_mul (abs_cos_le_one t) h2 (abs_nonneg _) zero_le_one
  linarith

/-- The imaginary part: with a value `p` of `PI` and at least twice as many intervals as the distance, the error is that of `p` and a
remainder that vanishes like `r^N / N!`. -/
theorem imaginary_accuracy (p : ℝ) (e1 : ℂ → ℂ) {r z : ℝ} (hr : 0 ≤ r) (hz : -30 < z) {nb : ℕ} (hnb : 2 ≤ nb)
    (h : 2 * r ≤ nb - 1) :
    |(numericalIntegration p e1 r z nb).i3 - specI3 r z| ≤
      2 * exp z * (|p - π| * (1 + π * r / 2) + 4 * π * (r ^ (nbPoints nb - 1) / (nbPoints nb - 1).factorial)) := by
  obtain ⟨M, hM, hn, hle⟩ := nbPoints_eq nb hnb
  have hle' : (nb : ℝ) ≤ 2 * M + 1 := by exact_mod_cast hle
  rw [i3_eq p e1 r hz, hn, Nat.add_sub_cancel]
  have h1 := simpS_pi (p := p) hM (f := fun t => cos (r * cos t)) (B := 1) (fun t => abs_cos_le_one _) (lip_cos_cos hr)
  have h2 := simpS_cos_cos hM hr (by linarith)
  have e : 2 * (exp z * simpS p (2 * M + 1) (fun t => cos (r * cos t))) - specI3 r z =
      2 * exp z * ((simpS p (2 * M + 1) (fun t => cos (r * cos t)) - simpS π (2 * M + 1) (fun t => cos (r * cos t))) +
        (simpS π (2 * M + 1) (fun t => cos (r * cos t)) - ∫ t in (-π / 2)..(π / 2), cos (r * cos t))) := by
    unfold specI3
    rw [intervalIntegral.integral_const_mul]
    ring
  rw [e, abs_mul, abs_of_pos (by positivity)]
  exact mul_le_mul_of_nonneg_left ((abs_add_le _ _).trans (add_le_add h1 h2)) (by positivity)

/-- The imaginary part of the derivative. -/
theorem imaginary_derivative_accuracy (p : ℝ) (e1 : ℂ → ℂ) {r z : ℝ} (hr : 0 ≤ r) (hz : -30 < z) {nb : ℕ} (hnb : 2 ≤ nb)
    (h : 2 * r ≤ nb - 1) :
    |(numericalIntegration p e1 r z nb).i5 - specI5 r z| ≤
      2 * exp z * (|p - π| * (1 + π * (1 + r) / 2) + 4 * π * (r ^ (nbPoints nb - 2) / (nbPoints nb - 2).factorial)) := by
  obtain ⟨M, hM, hn, hle⟩ := nbPoints_eq nb hnb
  have hle' : (nb : ℝ) ≤ 2 * M + 1 := by exact_mod_cast hle
  rw [i5_eq p e1 r hz, hn, show 2 * M + 1 - 2 = 2 * M - 1 from by omega]
  have h1 := simpS_pi (p := p) hM (f := fun t => cos t * sin (r * cos t)) (B := 1)
    (fun t => by
      rw [abs_mul]
      exact mul_le_one₀ (abs_cos_le_one _) (abs_nonneg _) (abs_sin_le_one _)) (lip_cos_sin hr)
  have h2 := simpS_cos_sin hM hr (by linarith)
  have e : -(2 * (exp z * simpS p (2 * M + 1) (fun t => cos t * sin (r * cos t)))) - specI5 r z =
      -(2 * exp z * ((simpS p (2 * M + 1) (fun t => cos t * sin (r * cos t)) - simpS π (2 * M + 1) (fun t => cos t * sin (r * cos t))) +
        (simpS π (2 * M + 1) (fun t => cos t * sin (r * cos t)) - ∫ t in (-π / 2)..(π / 2), cos t * sin (r * cos t)))) := by
    unfold specI5
    rw [intervalIntegral.integral_neg]
    have : ∀ t : ℝ, cos t * (exp z * sin (r * cos t)) = exp z * (cos t * sin (r * cos t)) := fun t => by ring
    simp only [this, intervalIntegral.integral_const_mul]
    ring
  rw [e, abs_neg, abs_mul, abs_of_pos (by positivity)]
  exact mul_le_mul_of_nonneg_left ((abs_add_le _ _).trans (add_le_add h1 h2)) (by positivity)

theorem abs_integral_le {f : ℝ → ℝ} {c : ℝ} (hf : ∀ t, |f t| ≤ c) : |∫ t in (-π / 2)..(π / 2), f t| ≤ π * c := by
  have h := intervalIntegral.norm_integral_le_of_norm_le_const (f := f) (a := -π / 2) (b := π / 2) (C := c)
    (fun t _ => by rw [norm_eq_abs]; exact hf t)
  rw [norm_eq_abs] at h
  rw [show π / 2 - -π / 2 = π by ring, abs_of_pos pi_pos] at h
  linarith

/-- Deep points: the imaginary parts are set to zero. -/
theorem imaginary_deep (p : ℝ) (e1 : ℂ → ℂ) (r : ℝ) {z : ℝ} (hz : z ≤ -30) (nb : ℕ) :
    (numericalIntegration p e1 r z nb).i3 = 0 ∧ (numericalIntegration p e1 r z nb).i5 = 0 ∧
      |specI3 r z| ≤ 2 * π * exp (-30) ∧ |specI5 r z| ≤ 2 * π * exp (-30) := by
  have hexp : exp z ≤ exp (-30) := exp_le_exp.2 hz
  refine ⟨by simp [numericalIntegration, fold_i3, expZeta_deep hz], by simp [numericalIntegration, fold_i5, expZeta_deep hz], ?_, ?_⟩
  · unfold specI3
    rw [abs_mul, abs_of_pos (by norm_num : (0 : ℝ) < 2), mul_assoc]
    refine mul_le_mul_of_nonneg_left (abs_integral_le fun t => ?_) (by norm_num)
    rw [abs_mul, abs_of_pos (exp_pos z)]
    exact (mul_le_of_le_one_right (exp_pos z).le (abs_cos_le_one _)).trans hexp
  · unfold specI5
    rw [abs_mul, abs_of_pos (by norm_num : (0 : ℝ) < 2), mul_assoc]
    refine mul_le_mul_of_nonneg_left (abs_integral_le fun t => ?_) (by norm_num)
    rw [abs_neg, abs_mul, abs_mul, abs_of_pos (exp_pos z)]
    have h1 := mul_le_of_le_one_right (exp_pos z).le (abs_sin_le_one (r * cos t))
    have h2 := mul_le_of_le_one_left (mul_nonneg (exp_pos z).le (abs_nonneg (sin (r * cos t)))) (abs_cos_le_one t)
    linarith

/-- `PI` is the number of single precision that is nearest to the literal, it is not `π` to the double precision of the default
parameters, and nor is the literal. -/
theorem pi_constant_violated :
    (∀ m : ℤ, |piLiteral - piSingle| ≤ |piLiteral - m / 2 ^ 22|) ∧ |(piSingle : ℝ) - π| < 8.75e-8 ∧ 8.7e-8 < |(piSingle : ℝ) - π| ∧
      8.1e-13 < |(piLiteral : ℝ) - π| := by
  have h1 := pi_gt_d20
  have h2 := pi_lt_d20
  refine ⟨?_, ?_, ?_, ?_⟩
  · intro m
    rcases le_or_gt m 13176794 with h | h
    · have hm : (m : ℚ) ≤ 13176794 := by exact_mod_cast h
      have e1 : |piLiteral - piSingle| = piSingle - piLiteral := by
        rw [abs_sub_comm, abs_of_nonneg]
        simp only [piSingle, piLiteral]
        norm_num
      have e2 : piLiteral - m / 2 ^ 22 ≤ |piLiteral - m / 2 ^ 22| := le_abs_self _
      rw [e1]
      refine le_trans ?_ e2
      have : (m : ℚ) / 2 ^ 22 ≤ 13176794 / 2 ^ 22 := by gcongr
      simp only [piSingle, piLiteral] at *
      norm_num at *
      linarith
    · have hm : (13176795 : ℚ) ≤ m := by exact_mod_cast h
      have e1 : |piLiteral - piSingle| = piSingle - piLiteral := by
        rw [abs_sub_comm, abs_of_nonneg]
        simp only [piSingle, piLiteral]
        norm_num
      have e2 : -(piLiteral - m / 2 ^ 22) ≤ |piLiteral - m / 2 ^ 22| := neg_le_abs _
      rw [e1]
      refine le_trans ?_ e2
      have : (13176795 : ℚ) / 2 ^ 22 ≤ m / 2 ^ 22 := by gcongr
      simp only [piSingle, piLiteral] at *
      linarith
  · rw [abs_lt]
    simp only [piSingle]
    push_cast
    constructor <;> norm_num at * <;> linarith
  · refine lt_of_lt_of_le ?_ (le_abs_self _)
    simp only [piSingle]
    push_cast
    norm_num at *
    linarith
  · refine lt_of_lt_of_le ?_ (neg_le_abs _)
    simp only [piLiteral]
    push_cast
    norm_num at *
    linarith

theorem fact_1000 : 100 ^ 1000 * 10 ^ 100 ≤ Nat.factorial 1000 := by decide +kernel

theorem fact_999 : 100 ^ 999 * 10 ^ 100 ≤ Nat.factorial 999 := by decide +kernel

theorem tail_small {r : ℝ} (hr : 0 ≤ r) (h : r ≤ 100) {n : ℕ} (hn : 100 ^ n * 10 ^ 100 ≤ n.factorial) :
    r ^ n / n.factorial ≤ 1 / 10 ^ 100 := by
  have hn' : (100 : ℝ) ^ n * 10 ^ 100 ≤ n.factorial := by exact_mod_cast hn
  have hp : r ^ n ≤ 100 ^ n := pow_le_pow_left₀ hr h n
  rw [div_le_div_iff₀ (by positivity) (by positivity), one_mul]
  exact (mul_le_mul_of_nonneg_right hp (by positivity)).trans hn'

theorem exp_deep_small : exp (-30) ≤ 1 / 10 ^ 9 := by
  have h : (2 : ℝ) ^ 30 ≤ exp 30 := by
    have h1 : (2 : ℝ) ≤ exp 1 := by linarith [add_one_le_exp (1 : ℝ)]
    calc (2 : ℝ) ^ 30 ≤ exp 1 ^ 30 := pow_le_pow_left₀ (by norm_num) h1 30
      _ = exp 30 := by rw [← exp_nat_mul]; norm_num
  rw [exp_neg, ← one_div]
  exact one_div_le_one_div_of_le (by norm_num) (le_trans (by norm_num) h)

/-- With the default parameters, every entry of the tables, and every value found without the tables up to the same distance: the
imaginary parts are right to four digits. -/
theorem default_imaginary (e1 : ℂ → ℂ) {r z : ℝ} (hr : 0 ≤ r) (h : r ≤ 100) (hz : z ≤ 0) :
    |(numericalIntegration piSingle e1 r z 1001).i3 - specI3 r z| ≤ 3e-5 ∧
      |(numericalIntegration piSingle e1 r z 1001).i5 - specI5 r z| ≤ 3e-5 := by
  have hp := pi_constant_violated.2.1
  have hpi := pi_lt_d2
  have hpi0 := pi_pos
  rcases le_or_gt z (-30) with hd | hd
  · obtain ⟨a, b, c, d⟩ := imaginary_deep piSingle e1 r hd 1001
    rw [a, b, zero_sub, zero_sub, abs_neg, abs_neg]
    have he := exp_deep_small
    have he0 := exp_pos (-30)
    have : 2 * π * exp (-30) ≤ 3e-5 := by
      calc 2 * π * exp (-30) ≤ 2 * 3.15 * (1 / 10 ^ 9) := by gcongr
        _ ≤ _ := by norm_num
    exact ⟨c.trans this, d.trans this⟩
  · have hexp : exp z ≤ 1 := exp_le_one_iff.2 hz
    have hexp0 := exp_pos z
    have hn : nbPoints 1001 = 1001 := rfl
    have a := imaginary_accuracy piSingle e1 hr hd (nb := 1001) (by norm_num) (by push_cast; linarith)
    have b := imaginary_derivative_accuracy piSingle e1 hr hd (nb := 1001) (by norm_num) (by push_cast; linarith)
    rw [hn] at a b
    have ta := tail_small hr h fact_1000
    have tb := tail_small hr h fact_999
    have ta0 : 0 ≤ r ^ 1000 / (Nat.factorial 1000 : ℝ) := div_nonneg (pow_nonneg hr _) (Nat.cast_nonneg _)
    have tb0 : 0 ≤ r ^ 999 / (Nat.factorial 999 : ℝ) := div_nonneg (pow_nonneg hr _) (Nat.cast_nonneg _)
    rw [show 1001 - 1 = 1000 from rfl] at a
    rw [show 1001 - 2 = 999 from rfl] at b
    generalize r ^ 1000 / (Nat.factorial 1000 : ℝ) = u at *
    generalize r ^ 999 / (Nat.factorial 999 : ℝ) = v at *
    have hP0 := abs_nonneg ((piSingle : ℝ) - π)
    generalize |(piSingle : ℝ) - π| = P at *
    constructor
    · refine a.trans ?_
      calc 2 * exp z * (P * (1 + π * r / 2) + 4 * π * u) ≤
          2 * 1 * (8.75e-8 * (1 + 3.15 * 100 / 2) + 4 * 3.15 * (1 / 10 ^ 100)) := by gcongr
        _ ≤ _ := by norm_num
    · refine b.trans ?_
      calc 2 * exp z * (P * (1 + π * (1 + r) / 2) + 4 * π * v) ≤
          2 * 1 * (8.75e-8 * (1 + 3.15 * (1 + 100) / 2) + 4 * 3.15 * (1 / 10 ^ 100)) := by gcongr
        _ ≤ _ := by norm_num

/-- The tables of the default parameters. -/
theorem default_table (e1 : ℂ → ℂ) (rs zs : List ℝ) (hrs : ∀ r ∈ rs, 0 ≤ r ∧ r ≤ 100) (hzs : ∀ z ∈ zs, z ≤ 0) (i j : ℕ) (hi : i < rs.length)
    (hj : j < zs.length) :
    ∃ row v, (constructTabulation piSingle e1 rs zs 1001)[i]? = some row ∧ row[j]? = some v ∧
      |v.i3 - specI3 rs[i] zs[j]| ≤ 3e-5 ∧ |v.i5 - specI5 rs[i] zs[j]| ≤ 3e-5 := by
  obtain ⟨h1, h2⟩ := hrs _ (List.getElem_mem hi)
  have h3 := hzs _ (List.getElem_mem hj)
  have h := default_imaginary e1 h1 h2 h3
  refine ⟨zs.map fun z => numericalIntegration piSingle e1 rs[i] z 1001, numericalIntegration piSingle e1 rs[i] zs[j] 1001, ?_, ?_, h⟩
  · simp [constructTabulation, hi]
  · simp [hj]

/-- The distances and the depths of the default grid meet the hypotheses, for instance. -/
example : (∀ r ∈ [(0 : ℝ), 1, 99.5, 100], 0 ≤ r ∧ r ≤ 100) ∧ ∀ z ∈ [(-1e-10 : ℝ), -1, -251], z ≤ 0 := by
  constructor <;> intro x hx <;> fin_cases hx <;> norm_num

example : (2 : ℝ) * 100 ≤ ((1001 : ℕ) : ℝ) - 1 := by norm_num

/-! ## The difference of the two variants -/

/-- The two variants at the same place: exact. -/
theorem variants_vertical {p : ℝ} (hp : p ≠ 0) (e1 : ℂ → ℂ) {z : ℝ} (hz : z < 0) {nb : ℕ} (hnb : 2 ≤ nb) :
    (numericalIntegration p e1 0 z nb).i2 - (numericalIntegration p e1 0 z nb).i1 = 2 / sqrt (0 ^ 2 + z ^ 2) := by
  obtain ⟨M, hM, hn, -⟩ := nbPoints_eq nb hnb
  rw [i21_eq, hn]
  have h1 : simpS p (2 * M + 1) (fun t => z / (z ^ 2 + 0 ^ 2 * cos t ^ 2)) = 1 / z * p := by
    have e : (fun t : ℝ => z / (z ^ 2 + 0 ^ 2 * cos t ^ 2)) = fun _ => 1 / z * 1 := by
      ext t
      have := hz.ne
      field_simp
      ring
    rw [e, simpS_mul p _ (1 / z) (fun _ => 1)]
    congr 1
    have h := simpS_one hM
    have hd : ∀ k, deltaTheta p (2 * M + 1) k = p / π * deltaTheta π (2 * M + 1) k := by
      intro k
      unfold deltaTheta
      have := pi_ne_zero
      have : (0 : ℝ) < M := by positivity
      have : (((2 * M + 1 : ℕ) : ℝ) - 1) ≠ 0 := by push_cast; simp; positivity
      split
      · field_simp
      · split <;> field_simp
    unfold simpS at h ⊢
    simp only [hd, mul_assoc, ← mul_sum]
    rw [h]
    have := pi_ne_zero
    field_simp
  rw [h1, show (0 : ℝ) ^ 2 + z ^ 2 = z ^ 2 by ring, sqrt_sq_eq_abs, abs_of_neg hz]
  have := hz.ne
  field_simp

/-- The two variants with the true `π`: the exact factor of the difference. -/
theorem variants_exact (e1 : ℂ → ℂ) {r z : ℝ} (hr : 0 < r) (hz : z < 0) {nb : ℕ} (hnb : 2 ≤ nb) :
    ∃ s, s = ((sqrt (r ^ 2 + z ^ 2) + z) / r) ^ (nbPoints nb - 1) ∧ 0 < s ∧ s < 1 ∧
      (numericalIntegration π e1 r z nb).i2 - (numericalIntegration π e1 r z nb).i1 =
        2 / sqrt (r ^ 2 + z ^ 2) * (1 + 2 * s * (3 * s - 1) / (3 * (1 - s ^ 2))) := by
  obtain ⟨M, hM, hn, -⟩ := nbPoints_eq nb hnb
  refine ⟨_, rfl, ?_⟩
  rw [i21_eq, hn, simpS_inverse hM hr hz, Nat.add_sub_cancel, ← pow_mul]
  have hS2 : sqrt (r ^ 2 + z ^ 2) ^ 2 = r ^ 2 + z ^ 2 := sq_sqrt (by positivity)
  have hS0 : 0 < sqrt (r ^ 2 + z ^ 2) := sqrt_pos.2 (by positivity)
  set S := sqrt (r ^ 2 + z ^ 2) with hS
  have hSz : 0 < S + z := by
    by_contra hcon
    have : S ≤ -z := by linarith
    have : S ^ 2 ≤ (-z) ^ 2 := pow_le_pow_left₀ hS0.le this 2
    nlinarith [sq_pos_of_pos hr]
  have hSr : S + z < r := by
    by_contra hcon
    have : r - z ≤ S := by linarith
    have : (r - z) ^ 2 ≤ S ^ 2 := pow_le_pow_left₀ (by linarith) this 2
    nlinarith
  have h0 : 0 < ((S + z) / r) ^ (2 * M) := by positivity
  have h1 : ((S + z) / r) ^ (2 * M) < 1 := pow_lt_one₀ (by positivity) ((div_lt_one hr).2 hSr) (by omega)
  generalize ((S + z) / r) ^ (2 * M) = s at *
  refine ⟨h0, h1, ?_⟩
  have : 1 - s ^ 2 ≠ 0 := by nlinarith
  have := pi_ne_zero
  field_simp
  ring

/-- The difference is right exactly for one ratio of the depth and the distance. -/
theorem variants_iff (e1 : ℂ → ℂ) {r z : ℝ} (hr : 0 < r) (hz : z < 0) {nb : ℕ} (hnb : 2 ≤ nb) :
    (numericalIntegration π e1 r z nb).i2 - (numericalIntegration π e1 r z nb).i1 = 2 / sqrt (r ^ 2 + z ^ 2) ↔
      ((sqrt (r ^ 2 + z ^ 2) + z) / r) ^ (nbPoints nb - 1) = 1 / 3 := by
  obtain ⟨s, hs, h0, h1, h⟩ := variants_exact e1 hr hz hnb
  rw [h, ← hs]
  have hS0 : 0 < sqrt (r ^ 2 + z ^ 2) := sqrt_pos.2 (by positivity)
  have hq : 1 - s ^ 2 ≠ 0 := by nlinarith
  constructor
  · intro e
    have e2 : 2 * s * (3 * s - 1) / (3 * (1 - s ^ 2)) = 0 := by
      have : 2 / sqrt (r ^ 2 + z ^ 2) * (2 * s * (3 * s - 1) / (3 * (1 - s ^ 2))) = 0 := by linear_combination e
      exact (mul_eq_zero.1 this).resolve_left (by positivity)
    rcases div_eq_zero_iff.1 e2 with e3 | e3
    · rcases mul_eq_zero.1 e3 with e4 | e4
      · exact absurd e4 (by positivity)
      · linarith
    · exact absurd e3 (mul_ne_zero (by norm_num) hq)
  · intro e
    rw [e]
    norm_num

/-- The difference is right away from the free surface. -/
theorem variants_accuracy (e1 : ℂ → ℂ) {r z : ℝ} (hr : 0 < r) (hz : z < 0) {nb : ℕ} (hnb : 2 ≤ nb)
    (hfar : (r / (r - z)) ^ (nbPoints nb - 1) ≤ 1 / 2) :
    |(numericalIntegration π e1 r z nb).i2 - (numericalIntegration π e1 r z nb).i1 - 2 / sqrt (r ^ 2 + z ^ 2)| ≤
      2 / sqrt (r ^ 2 + z ^ 2) * (r / (r - z)) ^ (nbPoints nb - 1) := by
  obtain ⟨s, hs, h0, h1, h⟩ := variants_exact e1 hr hz hnb
  have hS2 : sqrt (r ^ 2 + z ^ 2) ^ 2 = r ^ 2 + z ^ 2 := sq_sqrt (by positivity)
  have hS0 : 0 < sqrt (r ^ 2 + z ^ 2) := sqrt_pos.2 (by positivity)
  rw [h]
  have hratio : (sqrt (r ^ 2 + z ^ 2) + z) / r ≤ r / (r - z) := by
    rw [div_le_div_iff₀ hr (by linarith)]
    have hSr : sqrt (r ^ 2 + z ^ 2) ≤ r - z := by
      rw [sqrt_le_left (by linarith)]
      nlinarith
    have hrS : r ≤ sqrt (r ^ 2 + z ^ 2) := le_sqrt_of_sq_le (by nlinarith)
    nlinarith
  have hpos : 0 ≤ (sqrt (r ^ 2 + z ^ 2) + z) / r := by
    apply div_nonneg _ hr.le
    have : -z ≤ sqrt (r ^ 2 + z ^ 2) := le_sqrt_of_sq_le (by nlinarith)
    linarith
  have hsle : s ≤ (r / (r - z)) ^ (nbPoints nb - 1) := by
    rw [hs]
    exact pow_le_pow_left₀ hpos hratio _
  have hs2 : s ≤ 1 / 2 := hsle.trans hfar
  have hden : 0 < 3 * (1 - s ^ 2) := by nlinarith
  have hb : |2 * s * (3 * s - 1) / (3 * (1 - s ^ 2))| ≤ s := by
    rw [abs_div, abs_of_pos hden, div_le_iff₀ hden, abs_le]
    constructor <;> nlinarith [mul_pos h0 h0, mul_pos h0 (mul_pos h0 h0)]
  have e : 2 / sqrt (r ^ 2 + z ^ 2) * (1 + 2 * s * (3 * s - 1) / (3 * (1 - s ^ 2))) - 2 / sqrt (r ^ 2 + z ^ 2) =
      2 / sqrt (r ^ 2 + z ^ 2) * (2 * s * (3 * s - 1) / (3 * (1 - s ^ 2))) := by ring
  rw [e, abs_mul, abs_of_pos (div_pos two_pos hS0)]
  exact mul_le_mul_of_nonneg_left (hb.trans hsle) (div_pos two_pos hS0).le

/-- At a tenth of the distance under the free surface with the default number of points. -/
example : ((1 : ℝ) / (1 - (-1 / 10))) ^ (nbPoints 1001 - 1) ≤ 1 / 2 := by
  rw [show nbPoints 1001 - 1 = 10 * 100 from rfl, pow_mul]
  have h : ((1 : ℝ) / (1 - (-1 / 10))) ^ 10 ≤ 1 / 2 := by norm_num
  calc _ ≤ (1 / 2 : ℝ) ^ 100 := pow_le_pow_left₀ (by positivity) h 100
    _ ≤ _ := by norm_num

/-- With any `PI`, the two ends of the interval are enough to spoil the difference. -/
theorem variants_ends {p : ℝ} (hp : 0 < p) (e1 : ℂ → ℂ) {r z : ℝ} (hz : z < 0) {nb : ℕ} (hnb : 2 ≤ nb) :
    4 / (3 * ((nbPoints nb : ℝ) - 1)) * (-z / (z ^ 2 + r ^ 2 * cos (p / 2) ^ 2)) ≤
      (numericalIntegration p e1 r z nb).i2 - (numericalIntegration p e1 r z nb).i1 := by
  obtain ⟨M, hM, hn, -⟩ := nbPoints_eq nb hnb
  have hM' : (0 : ℝ) < M := by positivity
  have hcast : (((2 * M + 1 : ℕ) : ℝ) - 1) = 2 * M := by push_cast; ring
  rw [i21_eq, hn, hcast, ← mul_neg]
  have hz2 : 0 < z ^ 2 := by nlinarith
  have hpos : ∀ t : ℝ, 0 < -z / (z ^ 2 + r ^ 2 * cos t ^ 2) := fun t => div_pos (by linarith) (by positivity)
  have hneg : -simpS p (2 * M + 1) (fun t => z / (z ^ 2 + r ^ 2 * cos t ^ 2)) =
      simpS p (2 * M + 1) (fun t => -z / (z ^ 2 + r ^ 2 * cos t ^ 2)) := by
    have := simpS_mul p (2 * M + 1) (-1) (fun t => z / (z ^ 2 + r ^ 2 * cos t ^ 2))
    rw [neg_one_mul] at this
    rw [← this]
    congr 1
    ext t
    ring
  rw [hneg]
  have hsum : 2 * (p / (3 * (2 * M)) * (-z / (z ^ 2 + r ^ 2 * cos (p / 2) ^ 2))) ≤
      simpS p (2 * M + 1) (fun t => -z / (z ^ 2 + r ^ 2 * cos t ^ 2)) := by
    unfold simpS
    have hsub : ({0, 2 * M} : Finset ℕ) ⊆ range (2 * M + 1) := by
      intro k hk
      simp at hk
      rw [mem_range]
      omega
    refine le_trans (le_of_eq ?_) (sum_le_sum_of_subset_of_nonneg hsub fun k _ _ =>
      mul_nonneg (delta_nonneg hp.le (by omega) _) (hpos _).le)
    rw [sum_pair (by omega)]
    have d0 : deltaTheta p (2 * M + 1) (0 + 1) = p / (3 * (2 * M)) := by
      unfold deltaTheta
      rw [hcast]
      simp
    have d1 : deltaTheta p (2 * M + 1) (2 * M + 1) = p / (3 * (2 * M)) := by
      unfold deltaTheta
      rw [hcast]
      simp
    have t0 : theta p (2 * M + 1) (0 + 1) = -(p / 2) := by
      simp [theta, neg_div]
    have t1 : theta p (2 * M + 1) (2 * M + 1) = p / 2 := by
      unfold theta
      rw [hcast]
      field_simp
      ring
    rw [d0, d1, t0, t1]
    simp only [cos_neg]
    ring
  calc _ = 2 / p * (2 * (p / (3 * (2 * M)) * (-z / (z ^ 2 + r ^ 2 * cos (p / 2) ^ 2)))) := by
        have := hp.ne'
        have h3 := hpos (p / 2)
        generalize -z / (z ^ 2 + r ^ 2 * cos (p / 2) ^ 2) = q
        field_simp
        ring
    _ ≤ _ := mul_le_mul_of_nonneg_left hsum (by positivity)

/-- With the default parameters the difference near the free surface is more than fifty times too large. -/
theorem variants_violated (e1 : ℂ → ℂ) :
    2 / sqrt ((1 / 10) ^ 2 + (-1 / 10 ^ 6) ^ 2) < 20 ∧
      1000 < (numericalIntegration piSingle e1 (1 / 10) (-1 / 10 ^ 6) 1001).i2 -
        (numericalIntegration piSingle e1 (1 / 10) (-1 / 10 ^ 6) 1001).i1 := by
  constructor
  · rw [div_lt_iff₀ (sqrt_pos.2 (by norm_num))]
    have : (1 / 10 : ℝ) < sqrt ((1 / 10) ^ 2 + (-1 / 10 ^ 6) ^ 2) := lt_sqrt_of_sq_lt (by norm_num)
    linarith
  · have h := variants_ends (p := piSingle) (by norm_num [piSingle]) e1 (r := 1 / 10) (z := -1 / 10 ^ 6) (by norm_num) (nb := 1001)
      (by norm_num)
    refine lt_of_lt_of_le ?_ h
    have hc : |cos ((piSingle : ℝ) / 2)| ≤ 1 / 10 ^ 7 := by
      have h1 := abs_cos_sub_cos_le ((piSingle : ℝ) / 2) (π / 2)
      rw [cos_pi_div_two, sub_zero, ← sub_div, abs_div, abs_of_pos (by norm_num : (0 : ℝ) < 2)] at h1
      have h2 := pi_constant_violated.2.1
      norm_num at h2 ⊢
      linarith
    have hc2 : cos ((piSingle : ℝ) / 2) ^ 2 ≤ 1 / 10 ^ 14 := by
      rw [← sq_abs]
      calc _ ≤ (1 / 10 ^ 7 : ℝ) ^ 2 := pow_le_pow_left₀ (abs_nonneg _) hc 2
        _ = _ := by norm_num
    have hc0 := sq_nonneg (cos ((piSingle : ℝ) / 2))
    generalize cos ((piSingle : ℝ) / 2) ^ 2 = c at *
    have hn : ((nbPoints 1001 : ℕ) : ℝ) = 1001 := by norm_num [nbPoints]
    rw [hn]
    have hd : (0 : ℝ) < (-1 / 10 ^ 6) ^ 2 + (1 / 10) ^ 2 * c := by positivity
    rw [mul_div_assoc', lt_div_iff₀ hd]
    norm_num at *
    linarith

/-! ## The asymptotic expression -/

/-- The asymptotic expression: the variants differ by `2/r₁`, and the imaginary part of the derivative is the derivative of the
imaginary part. The real part of the derivative leaves out a term in `1/r₁⁴` of the derivative of the real part. -/
theorem asymptotic_derivative {p r z : ℝ} (hp : 0 < p) (hr : 0 < r) :
    (asymptotic p r z).i2 - (asymptotic p r z).i1 = 2 / sqrt (r ^ 2 + z ^ 2) ∧
    HasDerivAt (fun r => (asymptotic p r z).i3) (asymptotic p r z).i5 r ∧
    HasDerivAt (fun r => (asymptotic p r z).i1) ((asymptotic p r z).i4 - 6 * z * r / sqrt (r ^ 2 + z ^ 2) ^ 5) r := by
  have hS0 : 0 < sqrt (r ^ 2 + z ^ 2) := sqrt_pos.2 (by positivity)
  have hS2 : sqrt (r ^ 2 + z ^ 2) ^ 2 = r ^ 2 + z ^ 2 := sq_sqrt (by positivity)
  have hq0 : 0 < sqrt (2 * p / r) := sqrt_pos.2 (by positivity)
  have hq2 : sqrt (2 * p / r) ^ 2 = 2 * p / r := sq_sqrt (by positivity)
  have hS : HasDerivAt (fun r => sqrt (r ^ 2 + z ^ 2)) (r / sqrt (r ^ 2 + z ^ 2)) r := by
    have h1 : HasDerivAt (fun r : ℝ => r ^ 2 + z ^ 2) (2 * r) r := by
      simpa using ((hasDerivAt_id r).pow 2).add_const (z ^ 2)
    refine (h1.sqrt (by positivity)).congr_deriv ?_
    field_simp
  have hq : HasDerivAt (fun r => sqrt (2 * p / r)) (-(sqrt (2 * p / r) / (2 * r))) r := by
    have h1 : HasDerivAt (fun r : ℝ => 2 * p / r) (-(2 * p) / r ^ 2) r := by
      refine ((hasDerivAt_const r (2 * p)).div (hasDerivAt_id r) hr.ne').congr_deriv ?_
      simp
    refine (h1.sqrt (by positivity)).congr_deriv ?_
    have e : -(2 * p) / r ^ 2 = -(sqrt (2 * p / r) ^ 2 / r) := by rw [hq2]; field_simp
    rw [e]
    field_simp
  have hc : HasDerivAt (fun r => cos (r - p / 4)) (-sin (r - p / 4)) r := by
    simpa using ((hasDerivAt_id r).sub_const (p / 4)).cos
  have hs : HasDerivAt (fun r => sin (r - p / 4)) (cos (r - p / 4)) r := by
    simpa using ((hasDerivAt_id r).sub_const (p / 4)).sin
  refine ⟨by simp only [asymptotic]; ring, ?_, ?_⟩
  · refine ((((hq.const_mul (exp z)).mul hc)).const_mul 2).congr_deriv ?_
    simp only [asymptotic]
    field_simp
    ring
  · have h3 : HasDerivAt (fun r => z / sqrt (r ^ 2 + z ^ 2) ^ 3) (-(3 * z * r) / sqrt (r ^ 2 + z ^ 2) ^ 5) r := by
      refine ((hasDerivAt_const r z).div (hS.pow 3) (pow_pos hS0 3).ne').congr_deriv ?_
      simp only [Pi.pow_apply]
      field_simp
      push_cast
      ring
    have h4 := (hasDerivAt_const r (1 : ℝ)).div hS hS0.ne'
    refine (((((hq.const_mul (exp z)).neg.mul hs).add h3).sub h4).const_mul 2).congr_deriv ?_
    simp only [asymptotic, Pi.neg_apply]
    generalize sqrt (r ^ 2 + z ^ 2) = S at *
    generalize sqrt (2 * p / r) = q at *
    simp
    field_simp
    ring

/-- The real part of the derivative is the derivative of the real part at the free surface only. -/
theorem asymptotic_derivative_iff {p r z : ℝ} (hp : 0 < p) (hr : 0 < r) :
    HasDerivAt (fun r => (asymptotic p r z).i1) (asymptotic p r z).i4 r ↔ z = 0 := by
  obtain ⟨-, -, h⟩ := asymptotic_derivative (z := z) hp hr
  have hS0 : 0 < sqrt (r ^ 2 + z ^ 2) := sqrt_pos.2 (by positivity)
  constructor
  · intro h'
    have e := h'.unique h
    have : 6 * z * r / sqrt (r ^ 2 + z ^ 2) ^ 5 = 0 := by linarith
    rcases div_eq_zero_iff.1 this with h1 | h1
    · rcases mul_eq_zero.1 h1 with h2 | h2
      · linarith
      · exact absurd h2 hr.ne'
    · exact absurd h1 (by positivity)
  · intro hz
    simpa [hz] using h

/-- Beyond the tables. -/
example : (0 : ℝ) < piSingle ∧ (0 : ℝ) < 150 := by norm_num [piSingle]

end Verif.Tabulation.Integ
