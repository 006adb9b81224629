/-
Accuracy of the functions of Bessel of FinGreen3D (property C120).

The specification is the series of the functions of the first kind (`Lwn.besselJ`) and of the second kind
(`besselY0`, `besselY1` in `Verif.Green.FinBesselSeries`).
-/
import Verif.Green.FinBesselFar

namespace Verif.Green.FinBessel

open Real Verif.Green.Lwn Verif.Green.PolyBound

/-! ### The specification is the usual one -/

/-- The functions of order 0 solve the equation of Bessel of order 0. -/
theorem equation_zero (x : ℝ) (hx : 0 < x) :
    (∃ d1 d2 : ℝ, HasDerivAt (besselJ 0) d1 x ∧ HasDerivAt (fun y => -besselJ 1 y) d2 x
      ∧ x ^ 2 * d2 + x * d1 + x ^ 2 * besselJ 0 x = 0)
    ∧ ∃ d1 d2 : ℝ, HasDerivAt besselY0 d1 x ∧ HasDerivAt (fun y => -besselY1 y) d2 x
      ∧ x ^ 2 * d2 + x * d1 + x ^ 2 * besselY0 x = 0 := by
  refine ⟨⟨_, _, besselJ_zero_deriv x, (besselJ_one_deriv x hx.ne').neg, ?_⟩,
    ⟨_, _, besselY0_deriv x hx, (besselY1_deriv x hx).neg, ?_⟩⟩ <;> field_simp <;> ring

theorem series_zero_at (c : ℕ → ℚ) (m : ℕ) (hm : m ≠ 0) : ∑' k : ℕ, (c k : ℝ) * (0 : ℝ) ^ (2 * k + m) = 0 := by
  rw [sixteen_series, zero_pow hm, zero_mul]

theorem besselJ0_at : besselJ 0 0 = 1 := by
  rw [besselJ_zero, tsum_eq_single 0]
  · simp [cJ0]
  · intro k hk
    simp [hk]

theorem besselJ1_at : besselJ 1 0 = 0 := by
  rw [besselJ_one]; exact series_zero_at cJ1 1 (by norm_num)

/-- The determinant of Wronski: the four functions have the usual normalisation. -/
theorem wronskian (x : ℝ) (hx : 0 < x) :
    besselJ 1 x * besselY0 x - besselJ 0 x * besselY1 x = 2 / (π * x) := by
  let S0 : ℝ → ℝ := fun x => ∑' k : ℕ, (cY0 k : ℝ) * x ^ (2 * k)
  let S1 : ℝ → ℝ := fun x => ∑' k : ℕ, (cY1 k : ℝ) * x ^ (2 * k + 1)
  let W : ℝ → ℝ := fun x => x * besselJ 1 x * S0 x + besselJ 0 x - x * besselJ 0 x * S1 x
  have eW : ∀ y, 0 < y → W y = π / 2 * (y * (besselJ 1 y * besselY0 y - besselJ 0 y * besselY1 y)) := by
    intro y hy
    simp only [W, S0, S1]
    rw [besselY0_eq, besselY1_eq]
    have : π ≠ 0 := pi_ne_zero
    field_simp
    ring
  have d0 : ∀ y, HasDerivAt S0 (∑' k : ℕ, (cY0 k : ℝ) * ((2 * k + (0 : ℕ)) * y ^ (2 * k + 0 - 1))) y := fun y => by
    simpa using series_deriv _ cY0_small 0 y
  have d1 : ∀ y, HasDerivAt S1 (∑' k : ℕ, (cY1 k : ℝ) * ((2 * k + (1 : ℕ)) * y ^ (2 * k + 1 - 1))) y := fun y =>
    series_deriv _ cY1_small 1 y
  have hJ1c : Continuous fun y : ℝ => y * besselJ 1 y :=
    continuous_iff_continuousAt.mpr fun y => (mul_besselJ_one_deriv y).continuousAt
  have hJ0c : Continuous (besselJ 0) :=
    continuous_iff_continuousAt.mpr fun y => (besselJ_zero_deriv y).continuousAt
  have hS0c : Continuous S0 := continuous_iff_continuousAt.mpr fun y => (d0 y).continuousAt
  have hS1c : Continuous S1 := continuous_iff_continuousAt.mpr fun y => (d1 y).continuousAt
  have hWc : Continuous W :=
    ((hJ1c.mul hS0c).add hJ0c).sub ((continuous_id.mul hJ0c).mul hS1c)
  have hW' : ∀ y, 0 < y → HasDerivAt W 0 y := by
    intro y hy
    have h := (((mul_besselJ_one_deriv y).mul (besselY0_deriv y hy)).sub
      ((besselJ_zero_deriv y).mul (mul_besselY1_deriv y hy))).const_mul (π / 2)
    have e : W =ᶠ[nhds y] fun z => π / 2 * (z * besselJ 1 z * besselY0 z - besselJ 0 z * (z * besselY1 z)) := by
      filter_upwards [isOpen_Ioi.mem_nhds hy] with z hz
      rw [eW z hz]
      ring
    refine (h.congr_of_eventuallyEq e).congr_deriv ?_
    ring
  have hconst : W x = W 0 := by
    obtain ⟨z, _, hz⟩ := exists_hasDerivAt_eq_slope W (fun _ => 0) hx hWc.continuousOn fun y hy => hW' y hy.1
    rw [eq_comm, div_eq_zero_iff] at hz
    rcases hz with h | h <;> linarith
  have h0 : W 0 = 1 := by
    simp only [W]
    rw [besselJ0_at]
    ring
  have := eW x hx
  rw [hconst, h0] at this
  have hp : π ≠ 0 := pi_ne_zero
  field_simp
  field_simp at this
  linarith

/-! ### Accuracy -/

theorem jy_near (x : ℝ) (h0 : 0 < x) (h4 : x ≤ 4) : jy01b x = nearBranch x := by
  unfold jy01b; rw [if_neg h0.ne', if_pos h4]

theorem jy_far (x : ℝ) (h4 : 4 < x) : jy01b x = farBranch x := by
  unfold jy01b; rw [if_neg (by linarith), if_neg (not_le.mpr h4)]

/-- Up to 4, the functions of the first kind are given to nine digits, the function of the second kind of order 0 to
eight digits, and the one of order 1, which is unbounded, to about eight digits relatively to `1 / x`. -/
theorem accuracy_near (x : ℝ) (h0 : 0 < x) (h4 : x ≤ 4) :
    |(jy01b x).j0 - besselJ 0 x| ≤ 29 / 10 ^ 10 ∧ |(jy01b x).j1 - besselJ 1 x| ≤ 7 / 10 ^ 11 * x
    ∧ |(jy01b x).y0 - besselY0 x| ≤ 1 / 10 ^ 8 ∧ |(jy01b x).y1 - besselY1 x| ≤ 45 / 10 ^ 10 / x := by
  rw [jy_near x h0 h4]
  exact ⟨j0_near x h0.le h4, j1_near x h0.le h4, y0_near x h0 h4, y1_near x h0 h4⟩

theorem far_amp (x : ℝ) (hx : 0 < x) (U F M : ℝ) (h : |U - √x * (√(π / 2) * F)| ≤ M) :
    |√(2 / (π * x)) * U - F| ≤ √(2 / (π * x)) * M := by
  have e1 : √(2 / (π * x)) * (√x * √(π / 2)) = 1 := by
    rw [← sqrt_mul hx.le, ← sqrt_mul (by positivity), show 2 / (π * x) * (x * (π / 2)) = 1 by
      have := pi_ne_zero
      field_simp, sqrt_one]
  have e2 : √(2 / (π * x)) * U - F = √(2 / (π * x)) * (U - √x * (√(π / 2) * F)) := by
    linear_combination F * e1
  rw [e2, abs_mul, abs_of_nonneg (sqrt_nonneg _)]
  exact mul_le_mul_of_nonneg_left h (sqrt_nonneg _)

theorem at4_horner (l : List ℚ) (x : ℝ) : at4 l x = horner l (4 / x * (4 / x)) := by
  unfold at4; rw [horner_ev, sq]

/-- Beyond 4, the error is about a millionth of the amplitude of the functions. -/
theorem accuracy_far (x : ℝ) (h4 : 4 < x) :
    |(jy01b x).j0 - besselJ 0 x| ≤ √(2 / (π * x)) * (11 / 10 ^ 7)
    ∧ |(jy01b x).j1 - besselJ 1 x| ≤ √(2 / (π * x)) * (15 / 10 ^ 7)
    ∧ |(jy01b x).y0 - besselY0 x| ≤ √(2 / (π * x)) * (11 / 10 ^ 7)
    ∧ |(jy01b x).y1 - besselY1 x| ≤ √(2 / (π * x)) * (15 / 10 ^ 7) := by
  have hx : 0 < x := by linarith
  rw [jy_far x h4]
  have a1 := far_amp x hx _ _ _ (j0_far x h4.le)
  have a2 := far_amp x hx _ _ _ (j1_far x h4.le)
  have a3 := far_amp x hx _ _ _ (y0_far x h4.le)
  have a4 := far_amp x hx _ _ _ (y1_far x h4.le)
  have t0 : x - 0.25 * π = x - π / 4 := by norm_num; ring
  have t1 : x - 0.75 * π = x - 3 * π / 4 := by norm_num; ring
  have t2 : x - 3 * π / 4 = (x - π / 4) - π / 2 := by ring
  have t3 : x - 5 * π / 4 = (x - 3 * π / 4) - π / 2 := by ring
  unfold pq at a1 a2 a3 a4
  simp only [at4_horner] at a1 a2 a3 a4
  rw [t3] at a4
  rw [t2] at a3
  rw [cos_sub_pi_div_two, sin_sub_pi_div_two] at a3 a4
  unfold farBranch
  simp only [t0, t1]
  refine ⟨a1, a2, ?_, ?_⟩
  · convert a3 using 3
    ring
  · convert a4 using 3
    ring

/-- One bound for all the positive numbers. -/
theorem accuracy (x : ℝ) (h0 : 0 < x) :
    |(jy01b x).j0 - besselJ 0 x| ≤ 1 / 10 ^ 6 ∧ |(jy01b x).j1 - besselJ 1 x| ≤ 1 / 10 ^ 6
    ∧ |(jy01b x).y0 - besselY0 x| ≤ 1 / 10 ^ 6 ∧ |(jy01b x).y1 - besselY1 x| ≤ 1 / 10 ^ 6 * (1 + 1 / x) := by
  have hi : 0 < 1 / x := by positivity
  rcases le_or_gt x 4 with h4 | h4
  · obtain ⟨a, b, c, d⟩ := accuracy_near x h0 h4
    refine ⟨a.trans (by norm_num), b.trans ?_, c.trans (by norm_num), d.trans ?_⟩
    · norm_num; linarith
    · rw [div_eq_mul_one_div]
      generalize 1 / x = z at *
      norm_num
      linarith
  · have hs : √(2 / (π * x)) ≤ 2 / 5 := by
      rw [sqrt_le_left (by norm_num), div_le_iff₀ (by positivity)]
      nlinarith [pi_gt_d2]
    have hp : 0 ≤ √(2 / (π * x)) := sqrt_nonneg _
    obtain ⟨a, b, c, d⟩ := accuracy_far x h4
    generalize √(2 / (π * x)) = A at *
    generalize 1 / x = z at *
    refine ⟨a.trans ?_, b.trans ?_, c.trans ?_, d.trans ?_⟩ <;> norm_num <;> linarith

/-- At 0 the functions of the first kind are exact. -/
theorem at_zero : (jy01b 0).j0 = besselJ 0 0 ∧ (jy01b 0).j1 = besselJ 1 0 := by
  rw [besselJ0_at, besselJ1_at]
  unfold jy01b
  rw [if_pos rfl]
  exact ⟨rfl, rfl⟩

/-- The short subroutines return the same numbers. -/
theorem variants (x : ℝ) : jy01bj x = ((jy01b x).j0, (jy01b x).j1) ∧ jy01by0 x = (jy01b x).y0
    ∧ jy01by1 x = (jy01b x).y1 := by
  unfold jy01bj jy01by0 jy01by1 jy01b
  split_ifs <;> exact ⟨rfl, rfl, rfl⟩

/-! ### What is returned at 0 for the functions of the second kind -/

/-- The function of order 1 close to 0. -/
theorem y1_below (x : ℝ) (h0 : 0 < x) (h1 : x ≤ 1) : (jy01b x).y1 ≤ -(1 / 2) / x := by
  rw [jy_near x h0 (by linarith)]
  show 2 / π * log (x / 2) * (x / 4 * horner j1Near (x / 4 * (x / 4))) + horner y1Near (x / 4 * (x / 4)) / x ≤ _
  have u0 : 0 ≤ x / 4 * (x / 4) := by positivity
  have u1 : x / 4 * (x / 4) ≤ 1 / 16 := by nlinarith
  have hj := nonneg_on j1Near 5 (1 / 32) (1 / 32) (by norm_num) (by decide +kernel) (x / 4 * (x / 4))
    (by push_cast; linarith) (by push_cast; linarith)
  have hy := nonneg_on (pscale (-1) (padd [1 / 2] y1Near)) 5 (1 / 32) (1 / 32) (by norm_num) (by decide +kernel)
    (x / 4 * (x / 4)) (by push_cast; linarith) (by push_cast; linarith)
  rw [ev_pscale, ev_padd, ev_one] at hy
  rw [horner_ev, horner_ev]
  have hl : log (x / 2) ≤ 0 := log_nonpos (by positivity) (by linarith)
  have h3 : 2 / π * log (x / 2) * (x / 4 * ev j1Near (x / 4 * (x / 4))) ≤ 0 :=
    mul_nonpos_of_nonpos_of_nonneg (mul_nonpos_of_nonneg_of_nonpos (by positivity) hl) (by positivity)
  have h4 : ev y1Near (x / 4 * (x / 4)) / x ≤ -(1 / 2) / x := by
    refine div_le_div_of_nonneg_right ?_ h0.le
    push_cast at hy
    linarith
  linarith

/-- The number returned at 0 for the function of order 1 is not below the ones returned close to 0. -/
theorem zero_not_lowest_violated : ¬ ∀ x : ℝ, 0 < x → (jy01b 0).y1 ≤ (jy01b x).y1 := by
  intro h
  have h1 := h (1 / 10 ^ 301) (by positivity)
  have h2 := y1_below (1 / 10 ^ 301) (by positivity) (by rw [div_le_one (by positivity)]; exact one_le_pow₀ (by norm_num))
  have e : (jy01b 0).y1 = -10 ^ 300 := by unfold jy01b; rw [if_pos rfl]
  rw [e] at h1
  have e2 : -(1 / 2) / (1 / (10 : ℝ) ^ 301) = -5 * 10 ^ 300 := by
    rw [div_div_eq_mul_div, pow_succ]; ring
  rw [e2] at h2
  have hp : (0 : ℝ) < 10 ^ 300 := by positivity
  have h3 := h1.trans h2
  clear h h1 h2 e e2
  generalize (10 : ℝ) ^ 300 = P at *
  linarith

/-- The function of order 0 close to 0. -/
theorem y0_above (x : ℝ) (h0 : 0 < x) (h1 : x ≤ 1) : log (x / 2) ≤ (jy01b x).y0 := by
  rw [jy_near x h0 (by linarith)]
  show _ ≤ 2 / π * log (x / 2) * horner j0Near (x / 4 * (x / 4)) + horner y0Near (x / 4 * (x / 4))
  have u0 : 0 ≤ x / 4 * (x / 4) := by positivity
  have u1 : x / 4 * (x / 4) ≤ 1 / 16 := by nlinarith
  have hj := nonneg_on j0Near 5 (1 / 32) (1 / 32) (by norm_num) (by decide +kernel) (x / 4 * (x / 4))
    (by push_cast; linarith) (by push_cast; linarith)
  have hj1 := nonneg_on (psub [1] j0Near).tail 5 (1 / 32) (1 / 32) (by norm_num) (by decide +kernel) (x / 4 * (x / 4))
    (by push_cast; linarith) (by push_cast; linarith)
  have hy := nonneg_on y0Near 5 (1 / 32) (1 / 32) (by norm_num) (by decide +kernel)
    (x / 4 * (x / 4)) (by push_cast; linarith) (by push_cast; linarith)
  have e : psub [1] j0Near = 0 :: (psub [1] j0Near).tail := by decide +kernel
  have e2 : 1 - ev j0Near (x / 4 * (x / 4)) = x / 4 * (x / 4) * ev (psub [1] j0Near).tail (x / 4 * (x / 4)) := by
    have : ev (psub [1] j0Near) (x / 4 * (x / 4)) = 1 - ev j0Near (x / 4 * (x / 4)) := by
      rw [ev_psub, ev_one]; push_cast; ring
    rw [← this, e]
    simp [ev]
  rw [horner_ev, horner_ev]
  have hj2 : ev j0Near (x / 4 * (x / 4)) ≤ 1 := by
    have := mul_nonneg u0 hj1
    linarith
  generalize ev j0Near (x / 4 * (x / 4)) = B at *
  have hl : log (x / 2) ≤ 0 := log_nonpos (by positivity) (by linarith)
  have h3 : 2 / π * B ≤ 1 := by
    have : 2 / π ≤ 1 := by rw [div_le_one pi_pos]; linarith [pi_gt_three]
    exact mul_le_one₀ this hj hj2
  nlinarith

/-- The number returned at 0 for the function of order 0 is far from all the ones returned at the positive numbers of
double precision: these are above -1000. -/
theorem zero_far (x : ℝ) (h0 : 1 / 10 ^ 324 ≤ x) (h1 : x ≤ 1) : -1000 < (jy01b x).y0 ∧ (jy01b 0).y0 = -10 ^ 300 := by
  have hp : (0 : ℝ) < 1 / 10 ^ 324 := by positivity
  have h2 := y0_above x (by linarith) h1
  have h3 : log (1 / 10 ^ 324) ≤ log x := log_le_log hp h0
  have h4 : log (1 / (10 : ℝ) ^ 324) = -(324 * log 10) := by
    rw [one_div, log_inv, log_pow, Nat.cast_ofNat]
  have h5 : log (10 : ℝ) ≤ log (2 ^ 4) := log_le_log (by norm_num) (by norm_num)
  rw [log_pow] at h5
  have h6 := log_two_lt_d9
  have h7 : log (x / 2) = log x - log 2 := log_div (by linarith) (by norm_num)
  refine ⟨?_, by unfold jy01b; rw [if_pos rfl]⟩
  push_cast at h5
  linarith

/-! ### The constant of single precision -/

/-- The constant written without `D0` moves the function of order 0 by at most `3.2e-9`. -/
theorem single_precision (x : ℝ) (h0 : 0 < x) (h4 : x ≤ 4) :
    ∃ d : ℝ, 31 / 10 ^ 10 < d ∧ d < 32 / 10 ^ 10 ∧
      (jy01b x).y0 = 2 / π * log (x / 2) * (jy01b x).j0
        + horner [0.3674669052, 1.0766115157, -2.3498519931, 1.4216421221, -0.4261737419, 0.0772975809, -0.0094855882,
            0.000859977, -0.0000567433] (x / 4 * (x / 4)) + d * (x / 4) ^ 2 := by
  refine ⟨((y0Single - 1.0766115157 : ℚ) : ℝ), ?_, ?_, ?_⟩
  · unfold y0Single; norm_num
  · unfold y0Single; norm_num
  · rw [jy_near x h0 h4]
    show 2 / π * log (x / 2) * horner j0Near (x / 4 * (x / 4)) + horner y0Near (x / 4 * (x / 4)) = _
    show _ = 2 / π * log (x / 2) * horner j0Near (x / 4 * (x / 4)) + _ + _
    unfold y0Near
    simp only [horner]
    push_cast
    ring

/-! ### The outgoing waves -/

/-- Far from the source the amplitude of the outgoing wave decreases like the square root of the distance. -/
theorem outgoing_wave (x : ℝ) (h4 : 4 < x) :
    99 / 100 * (2 / (π * x)) ≤ (jy01b x).j0 ^ 2 + (jy01b x).y0 ^ 2
    ∧ (jy01b x).j0 ^ 2 + (jy01b x).y0 ^ 2 ≤ 101 / 100 * (2 / (π * x)) := by
  have hx : 0 < x := by linarith
  rw [jy_far x h4]
  have hA : √(2 / (π * x)) ^ 2 = 2 / (π * x) := sq_sqrt (by positivity)
  have e : (farBranch x).j0 ^ 2 + (farBranch x).y0 ^ 2
      = 2 / (π * x) * (horner p0Far (4 / x * (4 / x)) ^ 2 + (4 / x * horner q0Far (4 / x * (4 / x))) ^ 2) := by
    unfold farBranch
    simp only
    have h := sin_sq_add_cos_sq (x - 0.25 * π)
    generalize √(2 / (π * x)) = A at hA ⊢
    rw [← hA]
    linear_combination (A ^ 2 * (horner p0Far (4 / x * (4 / x)) ^ 2
      + (4 / x * horner q0Far (4 / x * (4 / x))) ^ 2)) * h
  have ht : 4 / x ≤ 1 := by rw [div_le_one hx]; exact h4.le
  have ht0 : 0 < 4 / x := by positivity
  have u1 : 4 / x * (4 / x) ≤ 1 := mul_le_one₀ ht ht0.le ht
  have u0 : 0 ≤ 4 / x * (4 / x) := by positivity
  have hm := abs_le_unit (psub (padd (pmul p0Far p0Far) (0 :: pmul q0Far q0Far)) [1]) [1 / 100] 3 (by decide +kernel)
    (by decide +kernel) _ u0 u1
  have ec : ∀ (l : List ℚ) (y : ℝ), ev (0 :: l) y = y * ev l y := by intro l y; simp [ev]
  rw [ev_psub, ev_padd, ec, ev_pmul, ev_pmul, ev_one, ev_one] at hm
  have e2 : horner p0Far (4 / x * (4 / x)) ^ 2 + (4 / x * horner q0Far (4 / x * (4 / x))) ^ 2
      = ev p0Far (4 / x * (4 / x)) * ev p0Far (4 / x * (4 / x))
        + 4 / x * (4 / x) * (ev q0Far (4 / x * (4 / x)) * ev q0Far (4 / x * (4 / x))) := by
    rw [horner_ev, horner_ev]; ring
  rw [e, e2]
  generalize ev p0Far (4 / x * (4 / x)) * ev p0Far (4 / x * (4 / x))
        + 4 / x * (4 / x) * (ev q0Far (4 / x * (4 / x)) * ev q0Far (4 / x * (4 / x))) = M at *
  push_cast at hm
  rw [abs_le] at hm
  have hA0 : 0 < 2 / (π * x) := by positivity
  constructor <;> nlinarith [hm.1, hm.2]

/-! ### Cases -/

example : |(jy01b 3).y0 - besselY0 3| ≤ 1 / 10 ^ 8 := (accuracy_near 3 (by norm_num) (by norm_num)).2.2.1

example : |(jy01b 50).y1 - besselY1 50| ≤ √(2 / (π * 50)) * (15 / 10 ^ 7) := (accuracy_far 50 (by norm_num)).2.2.2

example : besselJ 1 2 * besselY0 2 - besselJ 0 2 * besselY1 2 = 2 / (π * 2) := wronskian 2 (by norm_num)

example : (jy01b (1 / 1000)).y1 ≤ -(1 / 2) / (1 / 1000) := y1_below _ (by norm_num) (by norm_num)

example : -1000 < (jy01b (1 / 10 ^ 300)).y0 :=
  (zero_far _ (one_div_le_one_div_of_le (by positivity) (pow_le_pow_right₀ (by norm_num) (by norm_num)))
    (by rw [div_le_one (by positivity)]; exact one_le_pow₀ (by norm_num))).1

end Verif.Green.FinBessel
