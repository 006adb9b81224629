import Verif.Green.DispProps
import Mathlib.Analysis.Calculus.Deriv.MeanValue
import Mathlib.Topology.Order.IntermediateValue

/-!
# How near to an evanescent mode the iterations of FinGreen3D end

Whatever the number of turns and the first approximation, a value at which the second loop of `DISPERSION`
(`FinGreen3D.f90:226-236`) ends inside of the interval of its mode is within `1e-9` of the zero of the function.
-/

namespace Verif.Green.Disp

open Real

/-- A loop ends after a step shorter than the tolerance. -/
theorem iterate_ends (f d d2 : ℝ → ℝ) (n : ℕ) : ∀ t0 y, iterate f d d2 n t0 = some y →
    ∃ t, y = move t (f t) (d t) (d2 t) ∧ |y - t| ≤ 1 / 10 ^ 10 := by
  induction n with
  | zero => intro t0 y e; simp [iterate] at e
  | succ n ih =>
    intro t0 y e
    simp only [iterate] at e
    split_ifs at e with hc
    · exact ih _ _ e
    · simp only [Option.some.injEq] at e
      subst e
      exact ⟨t0, rfl, not_lt.1 hc⟩

theorem modeY_large {i : ℕ} (hi : 1 ≤ i) {t : ℝ} (h2 : t < π / 2) : π / 2 < modeY i t := by
  have hi' : (1 : ℝ) ≤ i := by exact_mod_cast hi
  unfold modeY
  nlinarith [pi_pos]

theorem ratio_bound {x y : ℝ} (hx : 0 < x) (hy : π / 2 < y) : 0 < x / (y * y + x * x) ∧ x / (y * y + x * x) ≤ 0.32 := by
  have hp := pi_gt_d2
  have hy' : 1.57 < y := by linarith
  refine ⟨by positivity, ?_⟩
  rw [div_le_iff₀ (by positivity)]
  nlinarith [sq_nonneg (x - y)]

theorem dfun2_bounds {x t : ℝ} {i : ℕ} (hi : 1 ≤ i) (hx : 0 < x) (h2 : t < π / 2) : -1 < dfun2 x i t ∧ dfun2 x i t ≤ -0.68 := by
  obtain ⟨a, b⟩ := ratio_bound hx (modeY_large hi h2)
  unfold dfun2
  constructor <;> linarith

theorem d2fun2_bounds {x t : ℝ} {i : ℕ} (hi : 1 ≤ i) (hx : 0 < x) (h1 : 0 < t) (h2 : t < π / 2) :
    0 ≤ d2fun2 x i t ∧ d2fun2 x i t ≤ 0.41 := by
  have hY := modeY_large hi h2
  obtain ⟨a, b⟩ := ratio_bound hx hY
  have hp := pi_gt_d2
  have hY0 : 1.57 < modeY i t := by linarith
  have c : t / (modeY i t * modeY i t + x * x) ≤ 0.64 := by
    rw [div_le_iff₀ (by positivity)]
    nlinarith [mul_pos hx hx]
  have c0 : 0 ≤ t / (modeY i t * modeY i t + x * x) := by positivity
  have e : d2fun2 x i t = 2 * (x / (modeY i t * modeY i t + x * x)) * (t / (modeY i t * modeY i t + x * x)) := by
    unfold d2fun2
    field_simp
  rw [e]
  constructor
  · positivity
  · nlinarith

theorem fun2_bounds {x t : ℝ} {i : ℕ} (hi : 1 ≤ i) (hx : 0 < x) (h1 : 0 < t) (h2 : t < π / 2) : |fun2 x i t| < 1.571 := by
  have hY := modeY_large hi h2
  have hp := pi_lt_d4
  have h0 : 0 < modeY i t := by linarith [pi_pos]
  rw [fun2, arg_eq h0]
  have a := arctan_lt_pi_div_two (x / modeY i t)
  have b : 0 < arctan (x / modeY i t) := arctan_pos.2 (by positivity)
  rw [abs_lt]
  constructor <;> linarith

/-- The mode exists. -/
theorem mode_exists {x : ℝ} {i : ℕ} (hi : 1 ≤ i) (hx : 0 < x) : ∃ t, 0 < t ∧ t < π / 2 ∧ fun2 x i t = 0 := by
  have hp := pi_pos
  have hi' : (1 : ℝ) ≤ i := by exact_mod_cast hi
  have hpos : ∀ t ∈ Set.Icc 0 (π / 2), 0 < modeY i t := by
    intro t ht
    unfold modeY
    nlinarith [ht.2]
  have hc : ContinuousOn (fun2 x i) (Set.Icc 0 (π / 2)) := fun t ht =>
    (mode_derivative (x := x) (hpos t ht)).continuousAt.continuousWithinAt
  have f0 : 0 < fun2 x i 0 := by
    have := hpos 0 ⟨le_rfl, by positivity⟩
    rw [fun2, arg_eq this, sub_zero]
    exact arctan_pos.2 (by positivity)
  have f1 : fun2 x i (π / 2) < 0 := by
    rw [fun2, arg_eq (hpos _ ⟨by positivity, le_rfl⟩)]
    linarith [arctan_lt_pi_div_two (x / modeY i (π / 2))]
  obtain ⟨t, ht, e⟩ := intermediate_value_Icc' (by positivity) hc ⟨f1.le, f0.le⟩
  refine ⟨t, lt_of_le_of_ne ht.1 ?_, lt_of_le_of_ne ht.2 ?_, e⟩
  · rintro rfl; exact f0.ne' e
  · rintro rfl; exact f1.ne e

/-- The function decreases with a slope, so that its small values are near its zero. -/
theorem near_zero {x t s : ℝ} {i : ℕ} (hi : 1 ≤ i) (hx : 0 < x) (ht : t ∈ Set.Ioo 0 (π / 2)) (hs : s ∈ Set.Ioo 0 (π / 2))
    (e : fun2 x i s = 0) : 0.68 * |t - s| ≤ |fun2 x i t| := by
  have hd : ∀ u ∈ Set.Ioo 0 (π / 2), HasDerivAt (fun u => fun2 x i u + 0.68 * u) (dfun2 x i u + 0.68 * 1) u := by
    intro u hu
    exact (mode_derivative (by linarith [modeY_large hi hu.2, pi_pos])).add ((hasDerivAt_id u).const_mul _)
  have ha : AntitoneOn (fun u => fun2 x i u + 0.68 * u) (Set.Ioo 0 (π / 2)) := by
    refine antitoneOn_of_deriv_nonpos (convex_Ioo _ _) (fun u hu => (hd u hu).continuousAt.continuousWithinAt) ?_ ?_
    · rw [interior_Ioo]
      exact fun u hu => (hd u hu).differentiableAt.differentiableWithinAt
    · rw [interior_Ioo]
      intro u hu
      rw [(hd u hu).deriv]
      linarith [(dfun2_bounds hi hx hu.2).2]
  rcases le_total t s with h | h
  · have := ha ht hs h
    simp only [e] at this
    rw [abs_of_nonpos (by linarith)]
    linarith [le_abs_self (fun2 x i t)]
  · have := ha hs ht h
    simp only [e] at this
    rw [abs_of_nonneg (by linarith)]
    linarith [neg_abs_le (fun2 x i t)]

/-- A short step is made only where the function is small. -/
theorem short_step {f d c e : ℝ} (hf : |f| < 1.571) (hd1 : -1 < d) (hd2 : d ≤ -0.68) (hc1 : 0 ≤ c) (hc2 : c ≤ 0.41)
    (hs : |f / d * (1 + f / d * (c / d) / 2)| ≤ e) : 0.3 * |f| ≤ e := by
  have hdne : d ≠ 0 := by linarith
  have hu : |f| ≤ |f / d| := by
    rw [abs_div, abs_of_neg (by linarith : d < 0), le_div_iff₀ (by linarith)]
    nlinarith [abs_nonneg f]
  have hq : |f / d * (c / d) / 2| ≤ 0.7 := by
    have e1 : f / d * (c / d) / 2 = f * c / (2 * d ^ 2) := by field_simp
    have hd3 : 0.4624 ≤ d ^ 2 := by nlinarith
    rw [e1, abs_div, abs_mul, abs_of_nonneg hc1, abs_of_pos (by positivity : 0 < 2 * d ^ 2), div_le_iff₀ (by positivity)]
    have : |f| * c ≤ 1.571 * 0.41 := mul_le_mul hf.le hc2 hc1 (by norm_num)
    linarith
  have hq2 : 0.3 ≤ 1 + f / d * (c / d) / 2 := by linarith [(abs_le.1 hq).1]
  rw [abs_mul, abs_of_nonneg (by linarith : 0 ≤ 1 + f / d * (c / d) / 2)] at hs
  nlinarith [abs_nonneg f, abs_nonneg (f / d)]

/-- Whatever the first approximation and the number of turns, the loop ends within `1e-9` of the mode of the shifted frequency, if it ends
in the interval of the mode. -/
theorem mode_ends {K h t0 y : ℝ} {i n : ℕ} (hK : 0 < K) (hh : 0 < h) (hi : 1 ≤ i) (h1 : 1 / 10 ^ 10 < y) (h2 : y < π / 2 - 1 / 10 ^ 10)
    (e : iterate (fun2 (reduced (omegaOf K) h) i) (dfun2 (reduced (omegaOf K) h) i) (d2fun2 (reduced (omegaOf K) h) i) n t0 = some y) :
    ∃ m, IsMode (shifted K) h i m ∧ |modeY i y / h - m| * h ≤ 1 / 10 ^ 9 := by
  have hx : 0 < reduced (omegaOf K) h := by
    rw [reduced_eq hK.le]
    unfold shifted
    positivity
  obtain ⟨s, s1, s2, es⟩ := mode_exists hi hx
  refine ⟨modeY i s / h, (mode_relation hK hh hi s1 s2).1 es, ?_⟩
  obtain ⟨t, et, hs⟩ := iterate_ends _ _ _ _ _ _ e
  have hab := abs_le.1 hs
  have t1 : 0 < t := by linarith
  have t2 : t < π / 2 := by linarith
  obtain ⟨d1, d2⟩ := dfun2_bounds hi hx t2
  obtain ⟨c1, c2⟩ := d2fun2_bounds hi hx t1 t2
  have hs' : |fun2 (reduced (omegaOf K) h) i t / dfun2 (reduced (omegaOf K) h) i t *
      (1 + fun2 (reduced (omegaOf K) h) i t / dfun2 (reduced (omegaOf K) h) i t *
        (d2fun2 (reduced (omegaOf K) h) i t / dfun2 (reduced (omegaOf K) h) i t) / 2)| ≤ 1 / 10 ^ 10 := by
    rw [et, move, sub_sub_cancel_left, abs_neg] at hs
    exact hs
  have small := short_step (fun2_bounds hi hx t1 t2) d1 d2 c1 c2 hs'
  have near := near_zero hi hx ⟨t1, t2⟩ ⟨s1, s2⟩ es
  have tri : |y - s| ≤ 1 / 10 ^ 9 := by
    have : |y - s| ≤ |y - t| + |t - s| := abs_sub_le _ _ _
    norm_num at small near hs this ⊢
    linarith
  rw [div_sub_div_same, abs_div, abs_of_pos hh, div_mul_cancel₀ _ hh.ne']
  have : modeY i y - modeY i s = -(y - s) := by unfold modeY; ring
  rw [this, abs_neg]
  exact tri

/-- A run that ends well inside of the interval: the one that starts from the zero of the second mode. -/
example : ∃ t : ℝ, 1 / 10 ^ 10 < t ∧ t < π / 2 - 1 / 10 ^ 10 ∧
    iterate (fun2 (reduced (omegaOf 0.1) 10) 2) (dfun2 (reduced (omegaOf 0.1) 10) 2) (d2fun2 (reduced (omegaOf 0.1) 10) 2) 1 t = some t := by
  have hx : reduced (omegaOf 0.1) 10 = 9810 / 9807 := by
    rw [reduced_eq (by norm_num)]
    unfold shifted
    norm_num
  obtain ⟨s, s1, s2, es⟩ := mode_exists (i := 2) (x := reduced (omegaOf 0.1) 10) (by norm_num) (by rw [hx]; norm_num)
  refine ⟨s, ?_, ?_, zero_stays _ _ _ es 0⟩
  all_goals
    have hp := pi_gt_d2
    have hp' := pi_lt_d2
    have hY := modeY_large (i := 2) (by norm_num) s2
    have hY2 : modeY 2 s < 7 := by unfold modeY; push_cast; linarith
    have hY3 : 1.5 < modeY 2 s := by linarith
    have ez : arctan (reduced (omegaOf 0.1) 10 / modeY 2 s) = s := by
      rw [fun2, arg_eq (by linarith)] at es
      linarith
    have h4 : s < π / 4 := by
      rw [← ez, ← arctan_one]
      refine arctan_strictMono ?_
      rw [hx, div_lt_one (by linarith)]
      linarith
  · have hc : 1 / 2 ≤ cos s := by
      rw [← cos_pi_div_three]
      exact cos_le_cos_of_nonneg_of_le_pi s1.le (by linarith) (by linarith)
    have et : tan s = reduced (omegaOf 0.1) 10 / modeY 2 s := by rw [← ez, tan_arctan, ez]
    have hz : 1 / 7 ≤ tan s := by
      rw [et, hx, div_le_div_iff₀ (by norm_num) (by linarith)]
      linarith
    have hsin : sin s = tan s * cos s := (tan_mul_cos (by linarith)).symm
    have := sin_lt s1
    norm_num
    nlinarith
  · norm_num
    linarith

end Verif.Green.Disp
