/-
The approximations of the functions of Bessel of order 0 and 1 beyond 3.
-/
import Verif.Green.LwnFar

namespace Verif.Green.Lwn

open Real Verif.Green.PolyBound

/-! ### Values at 3 -/

/-- The phase of the order 0 at 3, minus a right angle. -/
noncomputable def angle0 : ℝ := 2.96022317 - 3 * π / 4

/-- The phase of the order 1 at 3. -/
noncomputable def angle1 : ℝ := 3.11992395 - 3 * π / 4

theorem angle_close (q : ℚ) (s : ℝ) (h : |s - 3 / 2 * halfPi - q| ≤ 9 / 10 ^ 10) :
    |s - 3 * π / 4 - q| ≤ 1 / 10 ^ 9 := by
  have := halfPi_close
  rw [abs_le] at *
  constructor
  · have h1 := this.2; have h2 := h.1; norm_num at *; linarith
  · have h1 := this.1; have h2 := h.2; norm_num at *; linarith

theorem angle0_close : |angle0 - (0.6040286798 : ℚ)| ≤ 1 / 10 ^ 9 := by
  refine angle_close _ _ ?_
  unfold halfPi
  rw [abs_le]
  push_cast
  constructor <;> norm_num

theorem angle1_close : |angle1 - (0.7637294598 : ℚ)| ≤ 1 / 10 ^ 9 := by
  refine angle_close _ _ ?_
  unfold halfPi
  rw [abs_le]
  push_cast
  constructor <;> norm_num

theorem cos_angle0 : |cos angle0 - (0.8230541596 : ℚ)| ≤ 2 / 10 ^ 9 :=
  cos_close _ _ _ (by decide +kernel) angle0_close

theorem sin_angle0 : |sin angle0 - (0.5679628952 : ℚ)| ≤ 2 / 10 ^ 9 :=
  sin_close _ _ _ (by decide +kernel) angle0_close

theorem cos_angle1 : |cos angle1 - (0.7222616710 : ℚ)| ≤ 2 / 10 ^ 9 :=
  cos_close _ _ _ (by decide +kernel) angle1_close

theorem sin_angle1 : |sin angle1 - (0.6916198946 : ℚ)| ≤ 2 / 10 ^ 9 :=
  sin_close _ _ _ (by decide +kernel) angle1_close

theorem J0_three : |besselJ 0 3 - (evq j0Near 1 : ℚ)| ≤ 2 / 10 ^ 9 := by
  have h := j0_near 3 (by norm_num) le_rfl
  rw [horner_ev, show ((3 : ℝ) / 3) ^ 2 = ((1 : ℚ) : ℝ) by norm_num, ev_cast, abs_sub_comm] at h
  exact h

theorem J1_three : |besselJ 1 3 - (evq j1Near 1 * 3 : ℚ)| ≤ 4 / 10 ^ 9 := by
  have h := j1_near 3 (by norm_num) le_rfl
  rw [horner_ev, show ((3 : ℝ) / 3) ^ 2 = ((1 : ℚ) : ℝ) by norm_num, ev_cast, abs_sub_comm] at h
  push_cast
  exact h.trans (by norm_num)

theorem theta_three (ph : List ℚ) (phi : ℝ) : theta ph phi 3 = 3 - phi + (evq ph 1 : ℚ) := by
  unfold theta
  rw [at3_three]
  norm_num

theorem wavy_three (amp ph : List ℚ) (phi : ℝ) :
    wavy amp ph phi 3 = (evq amp 1 : ℚ) * cos (theta ph phi 3) := by
  unfold wavy
  rw [at3_three]

theorem wavy1_three (amp ph : List ℚ) (phi : ℝ) :
    wavy1 amp ph phi 3 = (-(2 / 3) * evq (euler amp) 1 : ℚ) * cos (theta ph phi 3)
      + (-(evq amp 1) * (1 - 1 / 3 * evq (tOne ph) 1) : ℚ) * sin (theta ph phi 3) := by
  unfold wavy1
  rw [at3_three, at3_three, at3_three]
  push_cast
  ring

/-! ### Order 0 -/

theorem residual0 (x : ℝ) (hx : 3 ≤ x) :
    |at3 (cosPart j0Amp j0Phase (1 / 4)) x| + |at3 (sinPart j0Amp j0Phase) x|
      ≤ 29 / 10 ^ 6 + 235 / 10 ^ 6 * (3 / x) ^ 24 := by
  have h1 := at3_le (cosPart j0Amp j0Phase (1 / 4)) (7 / 10 ^ 6) (12 / 10 ^ 5) 9
    (by decide +kernel) (by decide +kernel) x hx
  have h2 := at3_le (sinPart j0Amp j0Phase) (22 / 10 ^ 6) (115 / 10 ^ 6) 9
    (by decide +kernel) (by decide +kernel) x hx
  push_cast at h1 h2
  linarith

theorem theta0_three : theta j0Phase (π / 4) 3 = angle0 + π / 2 := by
  rw [theta_three, show evq j0Phase 1 = -0.03977683 by decide +kernel]
  unfold angle0
  push_cast
  norm_num
  ring

theorem j0_far (x : ℝ) (hx : 3 ≤ x) :
    |wavy j0Amp j0Phase (π / 4) x - √x * besselJ 0 x| ≤ 17 / 10 ^ 6 := by
  have h := far_general j0Amp j0Phase (π / 4) 0 (1 / 4) (by norm_num) (by norm_num [abs_of_pos])
    (besselJ 0) (fun x => -besselJ 1 x) (fun x => -(besselJ 0 x - besselJ 1 x / x))
    (fun x _ => besselJ_zero_deriv x)
    (fun x hx => (besselJ_one_deriv x (by intro h; linarith)).neg) (fun _ => 0) (fun _ => 0)
    (fun x _ => hasDerivAt_const x 0) (fun _ _ _ _ => le_rfl) ?_ (29 / 10 ^ 6) (235 / 10 ^ 6)
    (by positivity) (by positivity) residual0 (2 / 10 ^ 6) ?_ x hx
  · refine h.trans ?_
    rw [show |((1 / 4 : ℚ) : ℝ)| = 1 / 4 by norm_num [abs_of_pos]]
    norm_num
  · intro x hx
    have e : -(besselJ 0 x - besselJ 1 x / x) + -besselJ 1 x / x
        + (1 - ((0 : ℚ) : ℝ) / x ^ 2) * besselJ 0 x = 0 := by
      push_cast; ring
    rw [e]
    simp
  · rw [wavy_three, wavy1_three, theta0_three, cos_add_pi_div_two, sin_add_pi_div_two]
    have h1 := three_close 0 (-(evq j0Amp 1)) 0.8230541596 0.5679628952 (evq j0Near 1) (2 / 10 ^ 9)
      (1 / 10 ^ 7) (cos angle0) (sin angle0) (besselJ 0 3) (by decide +kernel) cos_angle0 sin_angle0
      (by push_cast; exact J0_three)
    have h2 := three_close (-(evq j0Amp 1) * (1 - 1 / 3 * evq (tOne j0Phase) 1))
      (2 / 3 * evq (euler j0Amp) 1) 0.8230541596 0.5679628952
      (evq j0Near 1 / 6 - evq j1Near 1 * 3) (5 / 10 ^ 9)
      (16 / 10 ^ 7) (cos angle0) (sin angle0) (besselJ 0 3 / 6 + -besselJ 1 3) (by decide +kernel)
      cos_angle0 sin_angle0 (by
        have a1 := J0_three
        have a2 := J1_three
        push_cast at *
        rw [abs_le] at *
        constructor <;> norm_num at * <;> linarith)
    push_cast at *
    have e1 : (evq j0Amp 1 : ℝ) * -sin angle0 - √3 * besselJ 0 3
        = 0 * cos angle0 + -(evq j0Amp 1 : ℝ) * sin angle0 - √3 * besselJ 0 3 := by ring
    have e2 : -(2 / 3) * (evq (euler j0Amp) 1 : ℝ) * -sin angle0
        + -(evq j0Amp 1 : ℝ) * (1 - 1 / 3 * (evq (tOne j0Phase) 1 : ℝ)) * cos angle0
          - √3 * (besselJ 0 3 / 6 + -besselJ 1 3)
        = -(evq j0Amp 1 : ℝ) * (1 - 1 / 3 * (evq (tOne j0Phase) 1 : ℝ)) * cos angle0
          + 2 / 3 * (evq (euler j0Amp) 1 : ℝ) * sin angle0
          - √3 * (besselJ 0 3 / 6 + -besselJ 1 3) := by ring
    rw [e1, e2]
    refine (add_le_add h1 h2).trans (by norm_num)

/-! ### Order 1 -/

theorem residual1 (x : ℝ) (hx : 3 ≤ x) :
    |at3 (cosPart j1Amp j1Phase (-3 / 4)) x| + |at3 (sinPart j1Amp j1Phase) x|
      ≤ 39 / 10 ^ 6 + 33 / 10 ^ 5 * (3 / x) ^ 24 := by
  have h1 := at3_le (cosPart j1Amp j1Phase (-3 / 4)) (1 / 10 ^ 5) (155 / 10 ^ 6) 9
    (by decide +kernel) (by decide +kernel) x hx
  have h2 := at3_le (sinPart j1Amp j1Phase) (29 / 10 ^ 6) (175 / 10 ^ 6) 9
    (by decide +kernel) (by decide +kernel) x hx
  push_cast at h1 h2
  linarith

theorem theta1_three : theta j1Phase (3 * π / 4) 3 = angle1 := by
  rw [theta_three, show evq j1Phase 1 = 0.11992395 by decide +kernel]
  unfold angle1
  push_cast
  norm_num
  ring

theorem j1_far (x : ℝ) (hx : 3 ≤ x) :
    |wavy j1Amp j1Phase (3 * π / 4) x - √x * besselJ 1 x| ≤ 25 / 10 ^ 6 := by
  have h := far_general j1Amp j1Phase (3 * π / 4) 1 (-3 / 4) (by norm_num)
    (by norm_num [abs_of_pos, abs_div])
    (besselJ 1) (fun x => besselJ 0 x - besselJ 1 x / x)
    (fun x => -besselJ 1 x - ((besselJ 0 x - besselJ 1 x / x) * x - besselJ 1 x * 1) / x ^ 2)
    (fun x hx => besselJ_one_deriv x (by intro h; linarith))
    (fun x hx => (besselJ_zero_deriv x).sub
      ((besselJ_one_deriv x (by intro h; linarith)).div (hasDerivAt_id x) (by
        intro h; linarith))) (fun _ => 0) (fun _ => 0)
    (fun x _ => hasDerivAt_const x 0) (fun _ _ _ _ => le_rfl) ?_ (39 / 10 ^ 6) (33 / 10 ^ 5)
    (by positivity) (by positivity) residual1 (1 / 10 ^ 6) ?_ x hx
  · refine h.trans ?_
    rw [show |((-3 / 4 : ℚ) : ℝ)| = 3 / 4 by norm_num [abs_of_pos, abs_div]]
    norm_num
  · intro x hx
    have hx0 : x ≠ 0 := by intro h; linarith
    have e : -besselJ 1 x - ((besselJ 0 x - besselJ 1 x / x) * x - besselJ 1 x * 1) / x ^ 2
        + (besselJ 0 x - besselJ 1 x / x) / x + (1 - ((1 : ℚ) : ℝ) / x ^ 2) * besselJ 1 x = 0 := by
      push_cast
      field_simp
      ring
    rw [e]
    simp
  · rw [wavy_three, wavy1_three, theta1_three]
    have h1 := three_close (evq j1Amp 1) 0 0.7222616710 0.6916198946 (evq j1Near 1 * 3) (4 / 10 ^ 9)
      (1 / 10 ^ 7) (cos angle1) (sin angle1) (besselJ 1 3) (by decide +kernel) cos_angle1 sin_angle1
      (by have := J1_three; push_cast at *; exact this)
    have h2 := three_close (-(2 / 3) * evq (euler j1Amp) 1)
      (-(evq j1Amp 1) * (1 - 1 / 3 * evq (tOne j1Phase) 1)) 0.7222616710 0.6916198946
      (evq j0Near 1 - evq j1Near 1 / 2) (5 / 10 ^ 9)
      (7 / 10 ^ 7) (cos angle1) (sin angle1) (besselJ 1 3 / 6 + (besselJ 0 3 - besselJ 1 3 / 3))
      (by decide +kernel) cos_angle1 sin_angle1 (by
        have a1 := J0_three
        have a2 := J1_three
        push_cast at *
        rw [abs_le] at *
        constructor <;> norm_num at * <;> linarith)
    push_cast at *
    have e1 : (evq j1Amp 1 : ℝ) * cos angle1 - √3 * besselJ 1 3
        = (evq j1Amp 1 : ℝ) * cos angle1 + 0 * sin angle1 - √3 * besselJ 1 3 := by ring
    rw [e1]
    refine (add_le_add h1 h2).trans (by norm_num)

end Verif.Green.Lwn
