/-
The approximations of the functions of Struve of order 0 and 1 beyond 3.
-/
import Verif.Green.LwnFarBessel

namespace Verif.Green.Lwn

open Real Verif.Green.PolyBound

/-! ### Quotients of polynomials in `(3 / x) ^ 2` -/

section Quotient

variable (n d : List ℚ)

/-- The quotient. -/
noncomputable def quo (x : ℝ) : ℝ := at3 n x / at3 d x

/-- `-x / 2` times its derivative. -/
noncomputable def quo1 (x : ℝ) : ℝ :=
  (at3 (euler n) x * at3 d x - at3 n x * at3 (euler d) x) / at3 d x ^ 2

/-- `-x / 2` times the derivative of the former. -/
noncomputable def quo2 (x : ℝ) : ℝ :=
  ((at3 (euler (euler n)) x * at3 d x - at3 n x * at3 (euler (euler d)) x) * at3 d x
    - 2 * (at3 (euler n) x * at3 d x - at3 n x * at3 (euler d) x) * at3 (euler d) x) / at3 d x ^ 3

theorem hasDerivAt_quo (x : ℝ) (hx : x ≠ 0) (hd : at3 d x ≠ 0) :
    HasDerivAt (quo n d) (-(2 / x) * quo1 n d x) x := by
  refine ((hasDerivAt_at3 n x hx).div (hasDerivAt_at3 d x hx) hd).congr_deriv ?_
  unfold quo1
  field_simp
  ring

theorem hasDerivAt_quo1 (x : ℝ) (hx : x ≠ 0) (hd : at3 d x ≠ 0) :
    HasDerivAt (quo1 n d) (-(2 / x) * quo2 n d x) x := by
  have h := (((hasDerivAt_at3 (euler n) x hx).mul (hasDerivAt_at3 d x hx)).sub
    ((hasDerivAt_at3 n x hx).mul (hasDerivAt_at3 (euler d) x hx))).div
      ((hasDerivAt_at3 d x hx).pow 2) (pow_ne_zero 2 hd)
  refine h.congr_deriv ?_
  unfold quo2
  simp only [Pi.sub_apply, Pi.mul_apply, Pi.pow_apply]
  field_simp
  norm_num
  ring

/-- The numerator of `quo1`. -/
def num1 : List ℚ := psub (pmul (euler n) d) (pmul n (euler d))

/-- The numerator of `quo2`. -/
def num2 : List ℚ :=
  psub (pmul (psub (pmul (euler (euler n)) d) (pmul n (euler (euler d)))) d)
    (pscale 2 (pmul (num1 n d) (euler d)))

/-- The cube of the denominator. -/
def cube : List ℚ := pmul d (pmul d d)

/-- The numerator of the residual for the order 0. -/
def res0 : List ℚ :=
  psub (padd (pmul n (pmul d d)) (0 :: pscale (1 / 9)
    (padd (padd (pmul n (pmul d d)) (pscale 4 (pmul (num1 n d) d))) (pscale 4 (num2 n d))))) (cube d)

theorem res0_eq (x : ℝ) (hx : x ≠ 0) (hd : at3 d x ≠ 0) :
    quo n d x + 1 / x ^ 2 * (quo n d x + 4 * quo1 n d x + 4 * quo2 n d x) - 1
      = at3 (res0 n d) x / at3 (cube d) x := by
  unfold quo quo1 quo2 res0 cube num2 num1 at3 at *
  simp only [ev_padd, ev_psub, ev_pscale, ev_pmul, ev]
  push_cast
  generalize hN : ev n ((3 / x) ^ 2) = N
  generalize ev (euler n) ((3 / x) ^ 2) = N1
  generalize ev (euler (euler n)) ((3 / x) ^ 2) = N2
  generalize ev (euler d) ((3 / x) ^ 2) = E1
  generalize ev (euler (euler d)) ((3 / x) ^ 2) = E2
  generalize ev d ((3 / x) ^ 2) = E at *
  field_simp
  ring

/-- The numerator of the residual for the order 1, where `c` is the limit of the quotient minus 1. -/
def res1 (c : ℚ) : List ℚ :=
  psub (padd (psub (pmul n (pmul d d)) (pscale c (cube d))) (0 :: pscale (1 / 9)
    (padd (psub (pscale 4 (num2 n d)) (pmul n (pmul d d))) (pscale c (cube d))))) (cube d)

theorem res1_eq (c : ℚ) (x : ℝ) (hx : x ≠ 0) (hd : at3 d x ≠ 0) :
    quo n d x - c + 1 / x ^ 2 * (4 * quo2 n d x - quo n d x + c) - 1
      = at3 (res1 n d c) x / at3 (cube d) x := by
  unfold quo quo2 res1 cube num2 num1 at3 at *
  simp only [ev_padd, ev_psub, ev_pscale, ev_pmul, ev]
  push_cast
  generalize hN : ev n ((3 / x) ^ 2) = N
  generalize ev (euler n) ((3 / x) ^ 2) = N1
  generalize ev (euler (euler n)) ((3 / x) ^ 2) = N2
  generalize ev (euler d) ((3 / x) ^ 2) = E1
  generalize ev (euler (euler d)) ((3 / x) ^ 2) = E2
  generalize ev d ((3 / x) ^ 2) = E at *
  field_simp
  ring

end Quotient

theorem at3_unit (x : ℝ) (hx : 3 ≤ x) : 0 ≤ (3 / x) ^ 2 ∧ (3 / x) ^ 2 ≤ 1 := by
  have hx0 : 0 < x := by linarith
  have h3 : 3 / x ≤ 1 := by rw [div_le_one hx0]; exact hx
  exact ⟨by positivity, pow_le_one₀ (by positivity) h3⟩

theorem at3_h0Den (x : ℝ) (hx : 3 ≤ x) : 1 / 2 ≤ at3 h0Den x := by
  have := nonneg_unit (psub h0Den [1 / 2]) 3 (by decide +kernel) _ (at3_unit x hx).1 (at3_unit x hx).2
  rw [ev_psub] at this
  unfold at3
  simp only [ev] at *
  norm_num at *
  linarith

theorem at3_h1Den (x : ℝ) (hx : 3 ≤ x) : 1 / 2 ≤ at3 h1Den x := by
  have := nonneg_unit (psub h1Den [1 / 2]) 3 (by decide +kernel) _ (at3_unit x hx).1 (at3_unit x hx).2
  rw [ev_psub] at this
  unfold at3
  simp only [ev] at *
  norm_num at *
  linarith

theorem quotient_le (l d : List ℚ) (a b : ℚ) (m : ℕ)
    (t1 : nonneg (psub (pmul (padd [a] (mono b 12)) (cube d)) l) m (1 / 2) (1 / 2) = true)
    (t2 : nonneg (padd (pmul (padd [a] (mono b 12)) (cube d)) l) m (1 / 2) (1 / 2) = true)
    (x : ℝ) (hx : 3 ≤ x) (hd : 1 / 2 ≤ at3 d x) :
    |at3 l x / at3 (cube d) x| ≤ a + b * (3 / x) ^ 24 := by
  have h := abs_le_unit _ _ m t1 t2 _ (at3_unit x hx).1 (at3_unit x hx).2
  rw [ev_pmul, ev_padd, ev_mono, ← pow_mul] at h
  have hc : 0 < at3 (cube d) x := by
    unfold at3 at hd ⊢
    have hp : 0 < ev d ((3 / x) ^ 2) := by linarith
    rw [cube, ev_pmul, ev_pmul]
    positivity
  rw [abs_div, abs_of_pos hc, div_le_iff₀ hc]
  unfold at3
  simpa [ev] using h

/-! ### Order 0 -/

/-- The quotient in the Struve function of order 0. -/
noncomputable def kZero (x : ℝ) : ℝ := 2 / π * (1 / x * quo h0Num h0Den x)

/-- Its derivative. -/
noncomputable def kZero1 (x : ℝ) : ℝ :=
  2 / π * (-(1 / x ^ 2) * (quo h0Num h0Den x + 2 * quo1 h0Num h0Den x))

/-- Its second derivative. -/
noncomputable def kZero2 (x : ℝ) : ℝ :=
  2 / π * (1 / x ^ 3
    * (2 * quo h0Num h0Den x + 6 * quo1 h0Num h0Den x + 4 * quo2 h0Num h0Den x))

theorem hasDerivAt_kZero (x : ℝ) (hx : 3 ≤ x) : HasDerivAt kZero (kZero1 x) x := by
  have hx0 : x ≠ 0 := by intro h; linarith
  have hd : at3 h0Den x ≠ 0 := by have := at3_h0Den x hx; intro h; linarith
  have hi : HasDerivAt (fun x : ℝ => 1 / x) (-(1 / x ^ 2)) x := by
    refine ((hasDerivAt_const x (1 : ℝ)).div (hasDerivAt_id x) hx0).congr_deriv ?_
    simp only [id]; ring
  refine ((hi.mul (hasDerivAt_quo h0Num h0Den x hx0 hd)).const_mul (2 / π)).congr_deriv ?_
  unfold kZero1
  field_simp
  ring

theorem hasDerivAt_kZero1 (x : ℝ) (hx : 3 ≤ x) : HasDerivAt kZero1 (kZero2 x) x := by
  have hx0 : x ≠ 0 := by intro h; linarith
  have hd : at3 h0Den x ≠ 0 := by have := at3_h0Den x hx; intro h; linarith
  have hi : HasDerivAt (fun x : ℝ => -(1 / x ^ 2)) (2 / x ^ 3) x := by
    refine ((hasDerivAt_const x (1 : ℝ)).div ((hasDerivAt_id x).pow 2)
      (pow_ne_zero 2 hx0)).neg.congr_deriv ?_
    simp only [id, Pi.pow_apply]
    field_simp
    norm_num
    ring
  refine ((hi.mul ((hasDerivAt_quo h0Num h0Den x hx0 hd).add
    ((hasDerivAt_quo1 h0Num h0Den x hx0 hd).const_mul 2))).const_mul (2 / π)).congr_deriv ?_
  unfold kZero2
  simp only [Pi.add_apply]
  field_simp
  ring

/-- A value of `2 / π`. -/
def twoOverPi : ℚ := 0.6366197723676

theorem twoOverPi_close : |2 / π - (twoOverPi : ℝ)| ≤ 1 / 10 ^ 12 := by
  have h1 := pi_gt_d20
  have h2 := pi_lt_d20
  have hp := pi_pos
  have hu : 2 / π ≤ (twoOverPi : ℝ) + 1 / 10 ^ 12 := by
    rw [div_le_iff₀ hp]; unfold twoOverPi; norm_num at *; linarith
  have hl : (twoOverPi : ℝ) - 1 / 10 ^ 12 ≤ 2 / π := by
    rw [le_div_iff₀ hp]; unfold twoOverPi; norm_num at *; linarith
  rw [abs_le]; constructor <;> linarith

theorem H0_three : |struveH 0 3 - (evq h0Near 1 : ℚ)| ≤ 2 / 10 ^ 7 := by
  have h := h0_near 3 (by norm_num) le_rfl
  rw [horner_ev, show ((3 : ℝ) / 3) ^ 2 = ((1 : ℚ) : ℝ) by norm_num, ev_cast, abs_sub_comm] at h
  rw [show (3 : ℝ) / 3 = 1 by norm_num, mul_one] at h
  exact h.trans (by norm_num)

theorem H1_three : |struveH 1 3 - (evq h1Near 1 : ℚ)| ≤ 4 / 10 ^ 8 := by
  have h := h1_near 3 (by norm_num) le_rfl
  rw [horner_ev, show ((3 : ℝ) / 3) ^ 2 = ((1 : ℚ) : ℝ) by norm_num, ev_cast, abs_sub_comm] at h
  simp only [Rat.cast_one, mul_one] at h
  exact h.trans (by norm_num)

/-- The value of `quo` at 3. -/
def quoAt (n d : List ℚ) : ℚ := evq n 1 / evq d 1

/-- The value of `quo1` at 3. -/
def quo1At (n d : List ℚ) : ℚ :=
  (evq (euler n) 1 * evq d 1 - evq n 1 * evq (euler d) 1) / evq d 1 ^ 2

theorem quo_three (n d : List ℚ) : quo n d 3 = (quoAt n d : ℚ) := by
  unfold quo quoAt
  rw [at3_three, at3_three]; push_cast; rfl

theorem quo1_three (n d : List ℚ) : quo1 n d 3 = (quo1At n d : ℚ) := by
  unfold quo1 quo1At
  rw [at3_three, at3_three, at3_three, at3_three]; push_cast; rfl

theorem residualY0 (x : ℝ) (hx : 3 ≤ x) :
    |at3 (cosPart y0Amp y0Phase (1 / 4)) x| + |at3 (sinPart y0Amp y0Phase) x|
      ≤ 29 / 10 ^ 6 + 235 / 10 ^ 6 * (3 / x) ^ 24 := by
  have h1 := at3_le (cosPart y0Amp y0Phase (1 / 4)) (7 / 10 ^ 6) (12 / 10 ^ 5) 9
    (by decide +kernel) (by decide +kernel) x hx
  have h2 := at3_le (sinPart y0Amp y0Phase) (22 / 10 ^ 6) (115 / 10 ^ 6) 9
    (by decide +kernel) (by decide +kernel) x hx
  push_cast at h1 h2
  linarith

theorem thetaY0_three : theta y0Phase (3 * π / 4) 3 = angle0 := by
  rw [theta_three, show evq y0Phase 1 = -0.03977683 by decide +kernel]
  unfold angle0
  push_cast
  norm_num
  ring

/-- The part of the bound due to the quotient. -/
noncomputable def rZero (x : ℝ) : ℝ :=
  128 / 10 ^ 8 * √x - 3 * (17 / 10 ^ 6) * (3 / x) ^ 23 / 23

theorem hasDerivAt_rZero (x : ℝ) (hx : 3 ≤ x) :
    HasDerivAt rZero (64 / 10 ^ 8 / √x + 17 / 10 ^ 6 * (9 / x ^ 2 * (3 / x) ^ 22)) x := by
  have hx0 : x ≠ 0 := by intro h; linarith
  have hd3 : HasDerivAt (fun x : ℝ => 3 / x) (-(3 / x ^ 2)) x := by
    have h := (hasDerivAt_const x (3 : ℝ)).div (hasDerivAt_id x) hx0
    refine h.congr_deriv ?_
    simp only [id]
    ring
  have h := ((hasDerivAt_sqrt hx0).const_mul (128 / 10 ^ 8)).sub
    (((hd3.pow 23).const_mul (3 * (17 / 10 ^ 6))).div_const 23)
  refine h.congr_deriv ?_
  norm_num
  ring

theorem rZero_mono (s t : ℝ) (hs : 3 ≤ s) (hst : s ≤ t) : rZero s ≤ rZero t := by
  have hs0 : 0 < s := by linarith
  have ht0 : 0 < t := by linarith
  have h2 : 3 / t ≤ 3 / s := div_le_div_of_nonneg_left (by norm_num) hs0 hst
  have h4 : (3 / t) ^ 23 ≤ (3 / s) ^ 23 := pow_le_pow_left₀ (by positivity) h2 23
  have h5 := sqrt_le_sqrt hst
  unfold rZero
  norm_num
  linarith

theorem h0_far (x : ℝ) (hx : 3 ≤ x) :
    |wavy y0Amp y0Phase (3 * π / 4) x - √x * (struveH 0 x - kZero x)|
      ≤ 18 / 10 ^ 6 + 14 / 10 ^ 7 * √x := by
  have hp := pi_pos
  have h := far_general y0Amp y0Phase (3 * π / 4) 0 (1 / 4) (by norm_num) (by norm_num [abs_of_pos])
    (fun x => struveH 0 x - kZero x) (fun x => 2 / π - struveH 1 x - kZero1 x)
    (fun x => -(struveH 0 x - struveH 1 x / x) - kZero2 x)
    (fun x hx => (struveH_zero_deriv x).sub (hasDerivAt_kZero x hx))
    (fun x hx => ((struveH_one_deriv x (by intro h; linarith)).const_sub (2 / π)).sub
      (hasDerivAt_kZero1 x hx)) rZero _ hasDerivAt_rZero rZero_mono ?_ (29 / 10 ^ 6) (235 / 10 ^ 6)
    (by positivity) (by positivity) residualY0 (2 / 10 ^ 6) ?_ x hx
  · refine h.trans ?_
    rw [show |((1 / 4 : ℚ) : ℝ)| = 1 / 4 by norm_num [abs_of_pos]]
    unfold rZero
    have hx0 : 0 < x := by linarith
    have : 0 ≤ (3 / x) ^ 23 := by positivity
    have : 0 ≤ √x := sqrt_nonneg x
    have : 1 ≤ √3 := by rw [one_le_sqrt]; norm_num
    rw [div_le_iff₀ (by norm_num)]
    norm_num
    linarith
  · intro x hx
    have hx0 : 0 < x := by linarith
    have hd1 := at3_h0Den x hx
    have hd : at3 h0Den x ≠ 0 := by intro h; linarith
    have hsp : 0 < √x := sqrt_pos.mpr hx0
    have hs1 : 1 ≤ √x := by rw [one_le_sqrt]; linarith
    have hss : √x * √x = x := mul_self_sqrt hx0.le
    have e : -(struveH 0 x - struveH 1 x / x) - kZero2 x + (2 / π - struveH 1 x - kZero1 x) / x
        + (1 - ((0 : ℚ) : ℝ) / x ^ 2) * (struveH 0 x - kZero x)
        = -(2 / π * (1 / x) * (at3 (res0 h0Num h0Den) x / at3 (cube h0Den) x)) := by
      rw [← res0_eq h0Num h0Den x hx0.ne' hd]
      unfold kZero kZero1 kZero2
      push_cast
      field_simp
      ring
    rw [e, abs_neg, abs_mul, abs_of_pos (show 0 < 2 / π * (1 / x) by positivity)]
    have hq := quotient_le (res0 h0Num h0Den) h0Den (1 / 10 ^ 6) (17 / 10 ^ 6) 9 (by decide +kernel)
      (by decide +kernel) x hx hd1
    push_cast at hq
    have h64 : 2 / π ≤ 64 / 100 := by
      rw [div_le_iff₀ hp]; have := pi_gt_d4; norm_num at *; linarith
    have e2 : √x * (2 / π * (1 / x) * |at3 (res0 h0Num h0Den) x / at3 (cube h0Den) x|)
        = 2 / π * (1 / √x) * |at3 (res0 h0Num h0Den) x / at3 (cube h0Den) x| := by
      rw [show (1 : ℝ) / x = 1 / (√x * √x) by rw [hss]]
      field_simp
    rw [e2]
    have hy : (9 : ℝ) / x ^ 2 * (3 / x) ^ 22 = (3 / x) ^ 24 := by
      rw [show (3 / x) ^ 24 = (3 / x) ^ 2 * (3 / x) ^ 22 by ring, div_pow 3 x 2]; norm_num
    rw [hy]
    have hy0 : 0 ≤ (3 / x) ^ 24 := by positivity
    have hs2 : 1 / √x ≤ 1 := by rw [div_le_one hsp]; exact hs1
    have hs3 : 0 < 1 / √x := by positivity
    calc 2 / π * (1 / √x) * |at3 (res0 h0Num h0Den) x / at3 (cube h0Den) x|
        ≤ 64 / 100 * (1 / √x) * (1 / 10 ^ 6 + 17 / 10 ^ 6 * (3 / x) ^ 24) := by gcongr
      _ = 64 / 10 ^ 8 / √x + 64 / 100 * (17 / 10 ^ 6 * (3 / x) ^ 24) * (1 / √x) := by ring
      _ ≤ 64 / 10 ^ 8 / √x + 64 / 100 * (17 / 10 ^ 6 * (3 / x) ^ 24) * 1 := by gcongr
      _ ≤ _ := by norm_num; linarith
  · rw [wavy_three, wavy1_three, thetaY0_three]
    have a1 := H0_three
    have a2 := H1_three
    have a3 := twoOverPi_close
    have k1 : kZero 3 = 2 / π * (1 / 3 * (quoAt h0Num h0Den : ℚ)) := by
      unfold kZero; rw [quo_three]
    have k2 : kZero1 3
        = 2 / π * (-(1 / 9) * ((quoAt h0Num h0Den : ℚ) + 2 * (quo1At h0Num h0Den : ℚ))) := by
      unfold kZero1; rw [quo_three, quo1_three]; norm_num
    have v1 : |(quoAt h0Num h0Den : ℝ)| ≤ 1 := by
      have : |quoAt h0Num h0Den| ≤ 1 := by decide +kernel
      exact_mod_cast this
    have v2 : |(quo1At h0Num h0Den : ℝ)| ≤ 1 := by
      have : |quo1At h0Num h0Den| ≤ 1 := by decide +kernel
      exact_mod_cast this
    have p1 : |(2 / π - (twoOverPi : ℝ)) * (quoAt h0Num h0Den : ℝ)| ≤ 1 / 10 ^ 12 * 1 := by
      rw [abs_mul]; exact mul_le_mul a3 v1 (abs_nonneg _) (by positivity)
    have p2 : |(2 / π - (twoOverPi : ℝ)) * (quo1At h0Num h0Den : ℝ)| ≤ 1 / 10 ^ 12 * 1 := by
      rw [abs_mul]; exact mul_le_mul a3 v2 (abs_nonneg _) (by positivity)
    have h1 := three_close (evq y0Amp 1) 0 0.8230541596 0.5679628952
      (evq h0Near 1 - twoOverPi * (1 / 3 * quoAt h0Num h0Den)) (21 / 10 ^ 8)
      (6 / 10 ^ 7) (cos angle0) (sin angle0) (struveH 0 3 - kZero 3) (by decide +kernel) cos_angle0
      sin_angle0 (by
        rw [k1]
        push_cast at *
        rw [abs_le] at *
        constructor <;> norm_num at * <;> linarith)
    have h2 := three_close (-(2 / 3) * evq (euler y0Amp) 1)
      (-(evq y0Amp 1) * (1 - 1 / 3 * evq (tOne y0Phase) 1)) 0.8230541596 0.5679628952
      ((evq h0Near 1 - twoOverPi * (1 / 3 * quoAt h0Num h0Den)) / 6 + (twoOverPi - evq h1Near 1
        - twoOverPi * (-(1 / 9) * (quoAt h0Num h0Den + 2 * quo1At h0Num h0Den)))) (8 / 10 ^ 8)
      (14 / 10 ^ 7) (cos angle0) (sin angle0)
      ((struveH 0 3 - kZero 3) / 6 + (2 / π - struveH 1 3 - kZero1 3))
      (by decide +kernel) cos_angle0 sin_angle0 (by
        rw [k1, k2]
        push_cast at *
        rw [abs_le] at *
        constructor <;> norm_num at * <;> linarith)
    push_cast at *
    have e1 : (evq y0Amp 1 : ℝ) * cos angle0 - √3 * (struveH 0 3 - kZero 3)
        = (evq y0Amp 1 : ℝ) * cos angle0 + 0 * sin angle0 - √3 * (struveH 0 3 - kZero 3) := by ring
    rw [e1]
    refine (add_le_add h1 h2).trans (by norm_num)

/-! ### Order 1 -/

/-- The quotient in the Struve function of order 1, with the limit of the exact function. -/
noncomputable def kOne (x : ℝ) : ℝ := 2 / π * (quo h1Num h1Den x - ((4 / 10 ^ 8 : ℚ) : ℝ))

/-- Its derivative. -/
noncomputable def kOne1 (x : ℝ) : ℝ := 2 / π * (-(2 / x) * quo1 h1Num h1Den x)

/-- Its second derivative. -/
noncomputable def kOne2 (x : ℝ) : ℝ :=
  2 / π * (1 / x ^ 2 * (2 * quo1 h1Num h1Den x + 4 * quo2 h1Num h1Den x))

theorem hasDerivAt_kOne (x : ℝ) (hx : 3 ≤ x) : HasDerivAt kOne (kOne1 x) x := by
  have hx0 : x ≠ 0 := by intro h; linarith
  have hd : at3 h1Den x ≠ 0 := by have := at3_h1Den x hx; intro h; linarith
  exact ((hasDerivAt_quo h1Num h1Den x hx0 hd).sub_const _).const_mul (2 / π)

theorem hasDerivAt_kOne1 (x : ℝ) (hx : 3 ≤ x) : HasDerivAt kOne1 (kOne2 x) x := by
  have hx0 : x ≠ 0 := by intro h; linarith
  have hd : at3 h1Den x ≠ 0 := by have := at3_h1Den x hx; intro h; linarith
  have hi : HasDerivAt (fun x : ℝ => -(2 / x)) (2 / x ^ 2) x := by
    refine ((hasDerivAt_const x (2 : ℝ)).div (hasDerivAt_id x) hx0).neg.congr_deriv ?_
    simp only [id]; ring
  refine ((hi.mul (hasDerivAt_quo1 h1Num h1Den x hx0 hd)).const_mul (2 / π)).congr_deriv ?_
  unfold kOne2
  field_simp
  ring

theorem residualY1 (x : ℝ) (hx : 3 ≤ x) :
    |at3 (cosPart y1Amp y1Phase (-3 / 4)) x| + |at3 (sinPart y1Amp y1Phase) x|
      ≤ 39 / 10 ^ 6 + 33 / 10 ^ 5 * (3 / x) ^ 24 := residual1 x hx

theorem thetaY1_three : theta y1Phase (5 * π / 4) 3 = angle1 - π / 2 := by
  rw [theta_three, show evq y1Phase 1 = 0.11992395 by decide +kernel]
  unfold angle1
  push_cast
  norm_num
  ring

/-- The part of the bound due to the quotient. -/
noncomputable def rOne (x : ℝ) : ℝ :=
  -(1152 / 100 * (93 / 10 ^ 7) / √x) - 15 / 100 * (7 / 10 ^ 6) * (3 / x) ^ 24

theorem hasDerivAt_rOne (x : ℝ) (hx : 3 ≤ x) :
    HasDerivAt rOne (576 / 100 * (93 / 10 ^ 7) / (x * √x)
      + 12 / 10 * (7 / 10 ^ 6) * (9 / x ^ 2 * (3 / x) ^ 23)) x := by
  have hx0 : x ≠ 0 := by intro h; linarith
  have hxp : 0 < x := by linarith
  have hss : √x * √x = x := mul_self_sqrt hxp.le
  have hsp : 0 < √x := sqrt_pos.mpr hxp
  have hd3 : HasDerivAt (fun x : ℝ => 3 / x) (-(3 / x ^ 2)) x := by
    have h := (hasDerivAt_const x (3 : ℝ)).div (hasDerivAt_id x) hx0
    refine h.congr_deriv ?_
    simp only [id]
    ring
  have h := (((hasDerivAt_const x (1152 / 100 * (93 / 10 ^ 7) : ℝ)).div (hasDerivAt_sqrt hx0)
    hsp.ne').neg).sub ((hd3.pow 24).const_mul (15 / 100 * (7 / 10 ^ 6)))
  refine h.congr_deriv ?_
  have e : -((0 * √x - 1152 / 100 * (93 / 10 ^ 7) * (1 / (2 * √x))) / √x ^ 2)
      = 576 / 100 * (93 / 10 ^ 7) / (x * √x) := by
    rw [sq, hss]; field_simp; ring
  rw [e]
  norm_num
  ring

theorem rOne_mono (s t : ℝ) (hs : 3 ≤ s) (hst : s ≤ t) : rOne s ≤ rOne t := by
  have hs0 : 0 < s := by linarith
  have ht0 : 0 < t := by linarith
  have h2 : 3 / t ≤ 3 / s := div_le_div_of_nonneg_left (by norm_num) hs0 hst
  have h4 : (3 / t) ^ 24 ≤ (3 / s) ^ 24 := pow_le_pow_left₀ (by positivity) h2 24
  have h5 : 1152 / 100 * (93 / 10 ^ 7) / √t ≤ 1152 / 100 * (93 / 10 ^ 7) / √s :=
    div_le_div_of_nonneg_left (by norm_num) (sqrt_pos.mpr hs0) (sqrt_le_sqrt hst)
  unfold rOne
  linarith

theorem h1_far (x : ℝ) (hx : 3 ≤ x) :
    |wavy y1Amp y1Phase (5 * π / 4) x - √x * (struveH 1 x - kOne x)| ≤ 12 / 10 ^ 5 := by
  have hp := pi_pos
  have h := far_general y1Amp y1Phase (5 * π / 4) 1 (-3 / 4) (by norm_num)
    (by norm_num [abs_of_pos, abs_div])
    (fun x => struveH 1 x - kOne x) (fun x => struveH 0 x - struveH 1 x / x - kOne1 x)
    (fun x => 2 / π - struveH 1 x
      - ((struveH 0 x - struveH 1 x / x) * x - struveH 1 x * 1) / x ^ 2 - kOne2 x)
    (fun x hx => (struveH_one_deriv x (by intro h; linarith)).sub (hasDerivAt_kOne x hx))
    (fun x hx => ((struveH_zero_deriv x).sub
      ((struveH_one_deriv x (by intro h; linarith)).div (hasDerivAt_id x) (by
        show x ≠ 0; intro h; linarith))).sub (hasDerivAt_kOne1 x hx)) rOne _ hasDerivAt_rOne rOne_mono ?_
    (39 / 10 ^ 6) (33 / 10 ^ 5) (by positivity) (by positivity) residualY1 (2 / 10 ^ 6) ?_ x hx
  · refine h.trans ?_
    rw [show |((-3 / 4 : ℚ) : ℝ)| = 3 / 4 by norm_num [abs_of_pos, abs_div]]
    unfold rOne
    have hx0 : 0 < x := by linarith
    have : 0 ≤ (3 / x) ^ 24 := by positivity
    have : 0 ≤ 1152 / 100 * (93 / 10 ^ 7) / √x := by positivity
    have h3 : 1152 / 100 * (93 / 10 ^ 7) / √3 ≤ 63 / 10 ^ 6 := by
      rw [div_le_iff₀ (by positivity)]
      have : (1.73 : ℝ) ≤ √3 := by apply le_sqrt_of_sq_le; norm_num
      norm_num at *
      linarith
    rw [div_le_iff₀ (by norm_num)]
    norm_num at *
    linarith
  · intro x hx
    have hx0 : 0 < x := by linarith
    have hd1 := at3_h1Den x hx
    have hd : at3 h1Den x ≠ 0 := by intro h; linarith
    have hsp : 0 < √x := sqrt_pos.mpr hx0
    have hss : √x * √x = x := mul_self_sqrt hx0.le
    have hc : res1 h1Num h1Den (4 / 10 ^ 8) = 0 :: (res1 h1Num h1Den (4 / 10 ^ 8)).tail := by
      decide +kernel
    have hq := quotient_le (res1 h1Num h1Den (4 / 10 ^ 8)).tail h1Den (93 / 10 ^ 7) (7 / 10 ^ 6) 9
      (by decide +kernel) (by decide +kernel) x hx hd1
    have e : 2 / π - struveH 1 x
        - ((struveH 0 x - struveH 1 x / x) * x - struveH 1 x * 1) / x ^ 2 - kOne2 x
        + (struveH 0 x - struveH 1 x / x - kOne1 x) / x
        + (1 - ((1 : ℚ) : ℝ) / x ^ 2) * (struveH 1 x - kOne x)
        = -(2 / π * (9 / x ^ 2)
          * (at3 (res1 h1Num h1Den (4 / 10 ^ 8)).tail x / at3 (cube h1Den) x)) := by
      have e1 := res1_eq h1Num h1Den (4 / 10 ^ 8) x hx0.ne' hd
      have e2 : at3 (res1 h1Num h1Den (4 / 10 ^ 8)) x
          = 9 / x ^ 2 * at3 (res1 h1Num h1Den (4 / 10 ^ 8)).tail x := by
        conv_lhs => rw [hc]
        unfold at3
        simp only [ev]
        rw [div_pow]
        norm_num
      rw [mul_assoc, ← mul_div_assoc, ← e2, ← e1]
      unfold kOne kOne1 kOne2
      push_cast
      field_simp
      ring
    rw [e, abs_neg, abs_mul, abs_of_pos (show 0 < 2 / π * (9 / x ^ 2) by positivity)]
    push_cast at hq
    have h64 : 2 / π ≤ 64 / 100 := by
      rw [div_le_iff₀ hp]; have := pi_gt_d4; norm_num at *; linarith
    have hs3 : √x ≤ 58 / 100 * x := by
      have : (1.73 : ℝ) ≤ √x := by apply le_sqrt_of_sq_le; norm_num; linarith
      nlinarith
    have hy : (9 : ℝ) / x ^ 2 * (3 / x) ^ 23 = (3 / x) ^ 25 := by
      rw [show (3 / x) ^ 25 = (3 / x) ^ 2 * (3 / x) ^ 23 by ring, div_pow 3 x 2]; norm_num
    rw [hy]
    have hy0 : 0 ≤ (3 / x) ^ 25 := by positivity
    calc √x * (2 / π * (9 / x ^ 2)
          * |at3 (res1 h1Num h1Den (4 / 10 ^ 8)).tail x / at3 (cube h1Den) x|)
        ≤ √x * (64 / 100 * (9 / x ^ 2) * (93 / 10 ^ 7 + 7 / 10 ^ 6 * (3 / x) ^ 24)) := by gcongr
      _ = 576 / 100 * (93 / 10 ^ 7) * (√x / x ^ 2)
          + 64 / 100 * (7 / 10 ^ 6) * (√x * (3 / x) ^ 26) := by
        rw [show (3 / x) ^ 26 = (3 / x) ^ 2 * (3 / x) ^ 24 by ring, div_pow 3 x 2]; ring
      _ ≤ 576 / 100 * (93 / 10 ^ 7) * (√x / x ^ 2)
          + 64 / 100 * (7 / 10 ^ 6) * (58 / 100 * x * (3 / x) ^ 26) := by gcongr
      _ = 576 / 100 * (93 / 10 ^ 7) / (x * √x)
          + 64 / 100 * (7 / 10 ^ 6) * (174 / 100 * (3 / x) ^ 25) := by
        have e3 : √x / x ^ 2 = 1 / (x * √x) := by
          rw [div_eq_div_iff (by positivity) (by positivity)]
          rw [one_mul, show √x * (x * √x) = x * (√x * √x) by ring, hss]; ring
        have e4 : x * (3 / x) ^ 26 = 3 * (3 / x) ^ 25 := by
          rw [show (3 / x) ^ 26 = (3 / x) * (3 / x) ^ 25 by ring]; field_simp
        rw [e3, mul_assoc (58 / 100), e4]; ring
      _ ≤ _ := by norm_num; linarith
  · rw [wavy_three, wavy1_three, thetaY1_three, cos_sub_pi_div_two, sin_sub_pi_div_two]
    have a1 := H0_three
    have a2 := H1_three
    have a3 := twoOverPi_close
    have k1 : kOne 3 = 2 / π * ((quoAt h1Num h1Den : ℚ) - 4 / 10 ^ 8) := by
      unfold kOne; rw [quo_three]; push_cast; rfl
    have k2 : kOne1 3 = 2 / π * (-(2 / 3) * (quo1At h1Num h1Den : ℚ)) := by
      unfold kOne1; rw [quo1_three]
    have v1 : |(quoAt h1Num h1Den : ℝ)| ≤ 2 := by
      have : |quoAt h1Num h1Den| ≤ 2 := by decide +kernel
      exact_mod_cast this
    have v2 : |(quo1At h1Num h1Den : ℝ)| ≤ 1 := by
      have : |quo1At h1Num h1Den| ≤ 1 := by decide +kernel
      exact_mod_cast this
    have p1 : |(2 / π - (twoOverPi : ℝ)) * (quoAt h1Num h1Den : ℝ)| ≤ 1 / 10 ^ 12 * 2 := by
      rw [abs_mul]; exact mul_le_mul a3 v1 (abs_nonneg _) (by positivity)
    have p2 : |(2 / π - (twoOverPi : ℝ)) * (quo1At h1Num h1Den : ℝ)| ≤ 1 / 10 ^ 12 * 1 := by
      rw [abs_mul]; exact mul_le_mul a3 v2 (abs_nonneg _) (by positivity)
    have h1 := three_close 0 (evq y1Amp 1) 0.7222616710 0.6916198946
      (evq h1Near 1 - twoOverPi * (quoAt h1Num h1Den - 4 / 10 ^ 8)) (5 / 10 ^ 8)
      (2 / 10 ^ 7) (cos angle1) (sin angle1) (struveH 1 3 - kOne 3) (by decide +kernel) cos_angle1
      sin_angle1 (by
        rw [k1]
        push_cast at *
        rw [abs_le] at *
        constructor <;> norm_num at * <;> linarith)
    have h2 := three_close (evq y1Amp 1 * (1 - 1 / 3 * evq (tOne y1Phase) 1))
      (-(2 / 3) * evq (euler y1Amp) 1) 0.7222616710 0.6916198946
      ((evq h1Near 1 - twoOverPi * (quoAt h1Num h1Den - 4 / 10 ^ 8)) / 6
        + (evq h0Near 1 - evq h1Near 1 / 3 - twoOverPi * (-(2 / 3) * quo1At h1Num h1Den)))
      (23 / 10 ^ 8) (14 / 10 ^ 7) (cos angle1) (sin angle1)
      ((struveH 1 3 - kOne 3) / 6 + (struveH 0 3 - struveH 1 3 / 3 - kOne1 3))
      (by decide +kernel) cos_angle1 sin_angle1 (by
        rw [k1, k2]
        push_cast at *
        rw [abs_le] at *
        constructor <;> norm_num at * <;> linarith)
    push_cast at *
    have e1 : (evq y1Amp 1 : ℝ) * sin angle1 - √3 * (struveH 1 3 - kOne 3)
        = 0 * cos angle1 + (evq y1Amp 1 : ℝ) * sin angle1 - √3 * (struveH 1 3 - kOne 3) := by ring
    have e2 : -(2 / 3) * (evq (euler y1Amp) 1 : ℝ) * sin angle1
        + -(evq y1Amp 1 : ℝ) * (1 - 1 / 3 * (evq (tOne y1Phase) 1 : ℝ)) * -cos angle1
          - √3 * ((struveH 1 3 - kOne 3) / 6 + (struveH 0 3 - struveH 1 3 / 3 - kOne1 3))
        = (evq y1Amp 1 : ℝ) * (1 - 1 / 3 * (evq (tOne y1Phase) 1 : ℝ)) * cos angle1
          + -(2 / 3) * (evq (euler y1Amp) 1 : ℝ) * sin angle1
          - √3 * ((struveH 1 3 - kOne 3) / 6 + (struveH 0 3 - struveH 1 3 / 3 - kOne1 3)) := by ring
    rw [e1, e2]
    refine (add_le_add h1 h2).trans (by norm_num)


end Verif.Green.Lwn
