/-
The approximations of the functions of Bessel of FinGreen3D beyond 4.
-/
import Verif.Green.LwnFar
import Verif.Green.FinBesselNear

namespace Verif.Green.FinBessel

open Real Verif.Green.Lwn Verif.Green.PolyBound

/-! ### Polynomials in `(4 / x) ^ 2` -/

/-- The polynomial at `(4 / x) ^ 2`. -/
noncomputable def at4 (l : List ℚ) (x : ℝ) : ℝ := ev l ((4 / x) ^ 2)

theorem hasDerivAt_at4 (l : List ℚ) (x : ℝ) (hx : x ≠ 0) :
    HasDerivAt (at4 l) (-(2 / x) * at4 (euler l) x) x := by
  have h1 : HasDerivAt (fun x : ℝ => (4 / x) ^ 2) (-(2 / x) * (4 / x) ^ 2) x := by
    have h := ((hasDerivAt_const x (4 : ℝ)).div (hasDerivAt_id x) hx).pow 2
    refine h.congr_deriv ?_
    simp only [id, Pi.div_apply]
    field_simp
    norm_num
    field_simp
    norm_num
  have h := (hasDerivAt_ev l ((4 / x) ^ 2)).comp x h1
  refine h.congr_deriv ?_
  simp only [at4, euler, ev]
  push_cast
  ring

theorem hasDerivAt_four (x : ℝ) (hx : x ≠ 0) : HasDerivAt (fun x : ℝ => 4 / x) (-(4 / x ^ 2)) x := by
  have h := (hasDerivAt_const x (4 : ℝ)).div (hasDerivAt_id x) hx
  refine h.congr_deriv ?_
  simp only [id]
  ring

variable (p q : List ℚ) (φ : ℝ)

/-- A cosine and a sine with slowly varying amplitudes. -/
noncomputable def pq (x : ℝ) : ℝ := at4 p x * cos (x - φ) - 4 / x * at4 q x * sin (x - φ)

/-- Its derivative. -/
noncomputable def pq1 (x : ℝ) : ℝ :=
  (-(2 / x) * at4 (euler p) x - 4 / x * at4 q x) * cos (x - φ)
    - (at4 p x - 4 / x ^ 2 * at4 (tOne q) x) * sin (x - φ)

/-- Its second derivative. -/
noncomputable def pq2 (x : ℝ) : ℝ :=
  ((2 * at4 (euler p) x + 4 * at4 (euler (euler p)) x) / x ^ 2 + 8 / x ^ 2 * at4 (tOne q) x - at4 p x) * cos (x - φ)
    - (-(4 / x) * at4 (euler p) x + 8 / x ^ 3 * (at4 (tOne q) x + at4 (euler (tOne q)) x) - 4 / x * at4 q x)
      * sin (x - φ)

theorem hasDerivAt_b (x : ℝ) (hx : x ≠ 0) :
    HasDerivAt (fun x => 4 / x * at4 q x) (-(4 / x ^ 2 * at4 (tOne q) x)) x := by
  refine ((hasDerivAt_four x hx).mul (hasDerivAt_at4 q x hx)).congr_deriv ?_
  simp only [at4, tOne, ev_padd, ev_pscale]
  push_cast
  field_simp
  ring

theorem hasDerivAt_b1 (x : ℝ) (hx : x ≠ 0) :
    HasDerivAt (fun x => 4 / x ^ 2 * at4 (tOne q) x)
      (-(8 / x ^ 3 * (at4 (tOne q) x + at4 (euler (tOne q)) x))) x := by
  have h1 : HasDerivAt (fun x : ℝ => 4 / x ^ 2) (-(8 / x ^ 3)) x := by
    have h := (hasDerivAt_const x (4 : ℝ)).div ((hasDerivAt_id x).pow 2) (pow_ne_zero 2 hx)
    refine h.congr_deriv ?_
    simp only [id, Pi.pow_apply]
    field_simp
    norm_num
    ring
  refine (h1.mul (hasDerivAt_at4 (tOne q) x hx)).congr_deriv ?_
  field_simp
  ring

theorem hasDerivAt_pq (x : ℝ) (hx : x ≠ 0) : HasDerivAt (pq p q φ) (pq1 p q φ x) x := by
  have ht := (hasDerivAt_id x).sub_const φ
  have h := ((hasDerivAt_at4 p x hx).mul ht.cos).sub ((hasDerivAt_b q x hx).mul ht.sin)
  refine h.congr_deriv ?_
  unfold pq1
  simp only [id]
  ring

theorem hasDerivAt_pq1 (x : ℝ) (hx : x ≠ 0) : HasDerivAt (pq1 p q φ) (pq2 p q φ x) x := by
  have ht := (hasDerivAt_id x).sub_const φ
  have hi : HasDerivAt (fun x : ℝ => -(2 / x)) (2 / x ^ 2) x := by
    have h := ((hasDerivAt_const x (2 : ℝ)).div (hasDerivAt_id x) hx).neg
    refine h.congr_deriv ?_
    simp only [id]
    ring
  have h := (((hi.mul (hasDerivAt_at4 (euler p) x hx)).sub (hasDerivAt_b q x hx)).mul ht.cos).sub
    (((hasDerivAt_at4 p x hx).sub (hasDerivAt_b1 q x hx)).mul ht.sin)
  refine h.congr_deriv ?_
  unfold pq2
  simp only [id, Pi.mul_apply, Pi.sub_apply]
  field_simp
  ring

/-- The coefficients of the cosine in `x ^ 2 * (u'' + (1 + κ / x ^ 2) * u)`. -/
def cosRest (κ : ℚ) : List ℚ :=
  padd (padd (padd (pscale 2 (euler p)) (pscale 4 (euler (euler p)))) (pscale κ p)) (pscale 8 (tOne q))

/-- The coefficients of the sine in the same expression, divided by `4 / x`. -/
def sinRest (κ : ℚ) : List ℚ :=
  padd (padd (pscale (-16) (pder p)) (pscale 2 (padd (tOne q) (euler (tOne q))))) (pscale κ q)

theorem pq_residual (κ : ℚ) (x : ℝ) (hx : 4 ≤ x) :
    |pq2 p q φ x + (1 + κ / x ^ 2) * pq p q φ x|
      ≤ (|at4 (cosRest p q κ) x| + |at4 (pmul [1 / 4, 1] (sinRest p q κ)) x|) / x ^ 2 := by
  have hx0 : 0 < x := by linarith
  have e : pq2 p q φ x + (1 + κ / x ^ 2) * pq p q φ x
      = (at4 (cosRest p q κ) x * cos (x - φ) - 4 / x * at4 (sinRest p q κ) x * sin (x - φ)) / x ^ 2 := by
    unfold pq2 pq cosRest sinRest at4
    simp only [ev_padd, ev_pscale, ev, euler]
    push_cast
    field_simp
    ring
  rw [e, abs_div, abs_of_pos (show 0 < x ^ 2 by positivity)]
  refine div_le_div_of_nonneg_right ?_ (by positivity)
  refine (abs_sub _ _).trans (add_le_add ?_ ?_)
  · rw [abs_mul]
    exact mul_le_of_le_one_right (abs_nonneg _) (abs_cos_le_one _)
  · have h4 : 4 / x ≤ 1 / 4 + (4 / x) ^ 2 := by nlinarith [sq_nonneg (4 / x - 1 / 2)]
    have e2 : at4 (pmul [1 / 4, 1] (sinRest p q κ)) x = (1 / 4 + (4 / x) ^ 2) * at4 (sinRest p q κ) x := by
      unfold at4
      rw [ev_pmul]
      congr 1
      simp [ev]
    rw [e2, abs_mul, abs_mul, abs_mul, abs_of_pos (show 0 < 4 / x by positivity),
      abs_of_pos (show 0 < 1 / 4 + (4 / x) ^ 2 by positivity)]
    calc 4 / x * |at4 (sinRest p q κ) x| * |sin (x - φ)|
        ≤ (1 / 4 + (4 / x) ^ 2) * |at4 (sinRest p q κ) x| * 1 := by
          gcongr
          exact abs_sin_le_one _
      _ = _ := by ring

theorem at4_le (l : List ℚ) (a b : ℚ) (n : ℕ)
    (t1 : nonneg (psub (padd [a] (mono b 12)) l) n (1 / 2) (1 / 2) = true)
    (t2 : nonneg (padd (padd [a] (mono b 12)) l) n (1 / 2) (1 / 2) = true) (x : ℝ) (hx : 4 ≤ x) :
    |at4 l x| ≤ a + b * (4 / x) ^ 24 := by
  have hx0 : 0 < x := by linarith
  have h3 : 4 / x ≤ 1 := by rw [div_le_one hx0]; exact hx
  have := abs_le_unit _ _ n t1 t2 ((4 / x) ^ 2) (by positivity) (pow_le_one₀ (by positivity) h3)
  rw [ev_padd, ev_mono, ← pow_mul] at this
  unfold at4
  simpa [ev] using this

/-- A solution of the equation of Bessel is near the cosine and sine when it is near at 4. -/
theorem far_pq (ν κ : ℚ) (hκ : κ = 1 / 4 - ν) (hκ3 : |κ| < 3)
    (D D1 D2 : ℝ → ℝ) (hD : ∀ x, 4 ≤ x → HasDerivAt D (D1 x) x)
    (hD1 : ∀ x, 4 ≤ x → HasDerivAt D1 (D2 x) x)
    (hI : ∀ x, 4 ≤ x → D2 x + D1 x / x + (1 - ν / x ^ 2) * D x = 0) (a b : ℝ)
    (ha : 0 ≤ a) (hb : 0 ≤ b)
    (hA : ∀ x, 4 ≤ x → |at4 (cosRest p q κ) x| + |at4 (pmul [1 / 4, 1] (sinRest p q κ)) x| ≤ a + b * (4 / x) ^ 24)
    (N : ℝ) (h4 : |pq p q φ 4 - 2 * D 4| + |pq1 p q φ 4 - (D 4 / 4 + 2 * D1 4)| ≤ N) (X : ℝ) (hX : 4 ≤ X) :
    |pq p q φ X - √X * D X| ≤ (N + (a + b / 25) / 4) / (1 - |(κ : ℝ)| / 3) := by
  let r : ℝ → ℝ := fun x => -((a * (4 / x) + b * (4 / x) ^ 25 / 25) / 4)
  have hr : ∀ x, 4 ≤ x → HasDerivAt r ((a + b * (4 / x) ^ 24) / x ^ 2) x := by
    intro x hx
    have hx0 : x ≠ 0 := by intro h; linarith
    have h := ((((hasDerivAt_four x hx0).const_mul a).add
      ((((hasDerivAt_four x hx0).pow 25).const_mul b).div_const 25)).div_const 4).neg
    refine h.congr_deriv ?_
    norm_num
    ring
  have hrm : ∀ s t, 4 ≤ s → s ≤ t → r s ≤ r t := by
    intro s t hs hst
    have hs0 : 0 < s := by linarith
    have ht0 : 0 < t := by linarith
    have h2 : 4 / t ≤ 4 / s := div_le_div_of_nonneg_left (by norm_num) hs0 hst
    have h4 : (4 / t) ^ 25 ≤ (4 / s) ^ 25 := pow_le_pow_left₀ (by positivity) h2 25
    have h5 := mul_le_mul_of_nonneg_left h2 ha
    have h6 := mul_le_mul_of_nonneg_left h4 hb
    simp only [r]
    linarith
  have h44 : √(4 : ℝ) = 2 := by
    rw [show (4 : ℝ) = 2 ^ 2 by norm_num]
    exact sqrt_sq (by norm_num)
  have hsh : ∀ (f : ℝ → ℝ) (f' x : ℝ), HasDerivAt f f' (x + 1) → HasDerivAt (fun s => f (s + 1)) f' x := by
    intro f f' x h
    exact (h.comp x ((hasDerivAt_id x).add_const 1)).congr_deriv (mul_one _)
  have key := oscillator (fun s => pq p q φ (s + 1) - √(s + 1) * D (s + 1))
    (fun s => pq1 p q φ (s + 1) - (D (s + 1) / (2 * √(s + 1)) + √(s + 1) * D1 (s + 1)))
    (fun s => pq2 p q φ (s + 1)
      - √(s + 1) * (D2 (s + 1) + D1 (s + 1) / (s + 1) - D (s + 1) / (4 * (s + 1) ^ 2)))
    (fun s => r (s + 1)) (fun s => (a + b * (4 / (s + 1)) ^ 24) / (s + 1) ^ 2) |(κ : ℝ)| N (abs_nonneg _)
    (by exact_mod_cast hκ3)
    (fun s hs => hsh (fun x => pq p q φ x - √x * D x) _ s
      ((hasDerivAt_pq p q φ (s + 1) (by intro h; linarith)).sub
        (hasDerivAt_sqrt_mul D D1 (s + 1) (by linarith) (hD (s + 1) (by linarith)))))
    (fun s hs => hsh (fun x => pq1 p q φ x - (D x / (2 * √x) + √x * D1 x)) _ s
      ((hasDerivAt_pq1 p q φ (s + 1) (by intro h; linarith)).sub
        (hasDerivAt_sqrt_mul' D D1 (D2 (s + 1)) (s + 1) (by linarith) (hD (s + 1) (by linarith))
          (hD1 (s + 1) (by linarith)))))
    (fun s hs => hsh r _ s (hr (s + 1) (by linarith)))
    (fun s t hs hst => hrm (s + 1) (t + 1) (by linarith) (by linarith)) ?_ ?_ (X - 1) (by linarith)
  · rw [sub_add_cancel] at key
    refine key.trans (div_le_div_of_nonneg_right ?_ ?_)
    · simp only [r]
      have hX0 : 0 < X := by linarith
      have : 0 ≤ a * (4 / X) := by positivity
      have : 0 ≤ b * (4 / X) ^ 25 := by positivity
      norm_num
      linarith
    · have : |(κ : ℝ)| < 3 := by exact_mod_cast hκ3
      linarith
  · intro s hs
    have hx : 4 ≤ s + 1 := by linarith
    have hsq : s ^ 2 ≤ (s + 1) ^ 2 := by nlinarith
    have hs2 : 0 < s ^ 2 := by positivity
    generalize s + 1 = x at *
    have hx0 : 0 < x := by linarith
    have e : pq2 p q φ x - √x * (D2 x + D1 x / x - D x / (4 * x ^ 2)) + (pq p q φ x - √x * D x)
        = (pq2 p q φ x + (1 + κ / x ^ 2) * pq p q φ x)
          - √x * (D2 x + D1 x / x + (1 - ν / x ^ 2) * D x)
          - κ / x ^ 2 * (pq p q φ x - √x * D x) := by
      rw [hκ]
      push_cast
      field_simp
      ring
    rw [e, hI x hx, mul_zero, sub_zero]
    have g1 := pq_residual p q φ κ x hx
    have g2 : (|at4 (cosRest p q κ) x| + |at4 (pmul [1 / 4, 1] (sinRest p q κ)) x|) / x ^ 2
        ≤ (a + b * (4 / x) ^ 24) / x ^ 2 := div_le_div_of_nonneg_right (hA x hx) (by positivity)
    have g5 : |κ / x ^ 2 * (pq p q φ x - √x * D x)|
        = |(κ : ℝ)| / x ^ 2 * |pq p q φ x - √x * D x| := by
      rw [abs_mul, abs_div, abs_of_pos (show 0 < x ^ 2 by positivity)]
    have g6 : |(κ : ℝ)| / x ^ 2 * |pq p q φ x - √x * D x| ≤ |(κ : ℝ)| / s ^ 2 * |pq p q φ x - √x * D x| := by
      gcongr
    refine (abs_sub _ _).trans ?_
    linarith
  · norm_num
    rw [h44]
    norm_num
    convert h4 using 3

/-! ### The values at 4 -/

theorem at4_four (l : List ℚ) : at4 l 4 = (evq l 1 : ℚ) := by
  unfold at4
  rw [← ev_cast]
  norm_num

theorem ev_first_one (l : List ℚ) (v e : ℚ) (t : decide (|evq l 1 - v| ≤ e) = true) : |ev l 1 - v| ≤ (e : ℝ) := by
  have h := of_decide_eq_true t
  have := (Rat.cast_le (K := ℝ)).mpr h
  push_cast at this
  have e1 : ev l 1 = (evq l 1 : ℚ) := by rw [← ev_cast]; norm_num
  rw [e1]
  exact this

theorem one4 : (4 : ℝ) / 4 * (4 / 4) = 1 := by norm_num

theorem besselJ0_four : |besselJ 0 4 - ((-0.3971498099 : ℚ) : ℝ)| ≤ 1 / 10 ^ 9 := by
  have h1 := trunc_J0 1 (by norm_num) (by norm_num)
  have h2 := ev_first_one (first14 cJ0) (-0.3971498099) (1 / 10 ^ 10) (by decide +kernel)
  rw [besselJ0_sum, one4]
  push_cast at h2 ⊢
  rw [abs_le] at *
  constructor <;> norm_num at * <;> linarith [h1.1, h1.2, h2.1, h2.2]

theorem besselJ1_four : |besselJ 1 4 - ((-0.0660433280 : ℚ) : ℝ)| ≤ 1 / 10 ^ 9 := by
  have h1 := trunc_J1 1 (by norm_num) (by norm_num)
  have h2 := ev_first_one (first14 cJ1) (-0.0660433280 / 4) (1 / 10 ^ 10) (by decide +kernel)
  rw [besselJ1_sum, one4]
  push_cast at h2 ⊢
  rw [abs_le] at *
  constructor <;> norm_num at * <;> linarith [h1.1, h1.2, h2.1, h2.2]

theorem log_gamma_four : |log (4 / 2) + eulerMascheroniConstant - ((1.2703628455 : ℚ) : ℝ)| ≤ 3 / 10 ^ 9 := by
  have h1 := log_two_near_10
  have h2 := EulerGamma.gamma_near
  rw [show (4 : ℝ) / 2 = 2 by norm_num]
  push_cast
  rw [abs_le] at *
  constructor <;> norm_num at * <;> linarith [h1.1, h1.2, h2.1, h2.2]

/-- From a value of `π / 2 * Y` to a value of `Y`. -/
theorem two_over_pi (Y y : ℝ) (Z : ℝ) (e : ℝ) (h : |Z - halfPi * y| ≤ e) (hy : |y| ≤ 1) (hY : Y = 2 / π * Z) :
    |Y - y| ≤ e + 1 / 10 ^ 12 := by
  have hp := halfPi_mul y (by linarith)
  have e1 : Y - y = 2 / π * (Z - π / 2 * y) := by
    rw [hY]
    have : π ≠ 0 := pi_ne_zero
    field_simp
  have h2 : |Z - π / 2 * y| ≤ e + 1 / 10 ^ 12 := by
    rw [abs_le] at *
    constructor <;> linarith [h.1, h.2, hp.1, hp.2]
  have h3 : 2 / π ≤ 1 := by rw [div_le_one pi_pos]; linarith [pi_gt_three]
  rw [e1, abs_mul, abs_of_pos (by positivity)]
  calc 2 / π * |Z - π / 2 * y| ≤ 1 * |Z - π / 2 * y| := by gcongr
    _ ≤ _ := by linarith

theorem mul_close (x y a b e d : ℝ) (hx : |x - a| ≤ e) (hy : |y - b| ≤ d) (ha : |a| ≤ 2) (hb : |b| ≤ 1) (he : 0 ≤ e)
    (hd : d ≤ 1) : |x * y - a * b| ≤ 2 * d + 2 * e := by
  have e1 : x * y - a * b = (x - a) * (y - b) + a * (y - b) + b * (x - a) := by ring
  have h1 : |(x - a) * (y - b)| ≤ e * 1 := by
    rw [abs_mul]; exact mul_le_mul hx (hy.trans hd) (abs_nonneg _) he
  have h2 : |a * (y - b)| ≤ 2 * d := by
    rw [abs_mul]; exact mul_le_mul ha hy (abs_nonneg _) (by norm_num)
  have h3 : |b * (x - a)| ≤ 1 * e := by
    rw [abs_mul]; exact mul_le_mul hb hx (abs_nonneg _) (by norm_num)
  rw [e1]
  rw [abs_le] at *
  constructor <;> linarith [h1.1, h1.2, h2.1, h2.2, h3.1, h3.2]

theorem besselY0_four : |besselY0 4 - ((-0.0169407393 : ℚ) : ℝ)| ≤ 1 / 10 ^ 8 := by
  have h1 := trunc_Y0 1 (by norm_num) (by norm_num)
  have h2 := ev_first_one (first14 cY0) (0.4779139114) (1 / 10 ^ 10) (by decide +kernel)
  have h3 := mul_close _ _ _ _ _ _ log_gamma_four besselJ0_four (by norm_num) (by norm_num) (by norm_num) (by norm_num)
  have key := two_over_pi (besselY0 4) ((-0.0169407393 : ℚ) : ℝ) _ (999 / 10 ^ 11) ?_ (by norm_num) (besselY0_sum 4)
  · refine key.trans (by norm_num)
  · rw [one4]
    have hp : (halfPi : ℝ) = 1.57079632679489661923 := by unfold halfPi; norm_num
    rw [hp]
    generalize (log (4 / 2) + eulerMascheroniConstant) * besselJ 0 4 = M at *
    push_cast at h2 h3 ⊢
    rw [abs_le] at *
    constructor <;> norm_num at * <;> linarith [h1.1, h1.2, h2.1, h2.2, h3.1, h3.2]

theorem besselY1_four : |besselY1 4 - ((0.3979257106 : ℚ) : ℝ)| ≤ 1 / 10 ^ 8 := by
  have h1 := trunc_Y1 1 (by norm_num) (by norm_num)
  have h2 := ev_first_one (first14 cY1) (0.2397398086) (1 / 10 ^ 10) (by decide +kernel)
  have h3 := mul_close _ _ _ _ _ _ log_gamma_four besselJ1_four (by norm_num) (by norm_num) (by norm_num) (by norm_num)
  have key := two_over_pi (besselY1 4) ((0.3979257106 : ℚ) : ℝ) _ (999 / 10 ^ 11) ?_ (by norm_num) (besselY1_sum 4)
  · refine key.trans (by norm_num)
  · rw [one4]
    have hp : (halfPi : ℝ) = 1.57079632679489661923 := by unfold halfPi; norm_num
    rw [hp]
    generalize (log (4 / 2) + eulerMascheroniConstant) * besselJ 1 4 = M at *
    push_cast at h2 h3 ⊢
    rw [abs_le] at *
    constructor <;> norm_num at * <;> linarith [h1.1, h1.2, h2.1, h2.2, h3.1, h3.2]

/-- A value of the square root of `π / 2`. -/
def rootHalfPi : ℚ := 1.2533141373

theorem rootHalfPi_close : |√(π / 2) - (rootHalfPi : ℝ)| ≤ 1 / 10 ^ 9 := by
  have p1 := pi_gt_d20
  have p2 := pi_lt_d20
  have h1 : (rootHalfPi : ℝ) ≤ √(π / 2) := by
    apply le_sqrt_of_sq_le
    unfold rootHalfPi
    norm_num at *
    linarith
  have h2 : √(π / 2) ≤ (rootHalfPi : ℝ) + 1 / 10 ^ 9 := by
    rw [sqrt_le_left (by unfold rootHalfPi; norm_num)]
    unfold rootHalfPi
    norm_num at *
    linarith
  rw [abs_le]; constructor <;> linarith [show (0 : ℝ) < 1 / 10 ^ 9 by positivity]

/-- The tests made at the point 4. -/
def fourTest (a b C S g eg f : ℚ) : Bool :=
  decide (|a * C + b * S - rootHalfPi * g| + (|a| + |b|) * (2 / 10 ^ 9) + |g| * (1 / 10 ^ 9)
    + |rootHalfPi| * eg + 1 / 10 ^ 9 * eg ≤ f)

theorem four_close (a b C S g eg f : ℚ) (c s G : ℝ) (t : fourTest a b C S g eg f = true)
    (hc : |c - C| ≤ 2 / 10 ^ 9) (hs : |s - S| ≤ 2 / 10 ^ 9) (hG : |G - g| ≤ eg) :
    |a * c + b * s - √(π / 2) * G| ≤ f := by
  have h := of_decide_eq_true t
  have h' : |(a : ℝ) * C + b * S - rootHalfPi * g| + (|(a : ℝ)| + |(b : ℝ)|) * (2 / 10 ^ 9)
      + |(g : ℝ)| * (1 / 10 ^ 9) + |(rootHalfPi : ℝ)| * eg + 1 / 10 ^ 9 * eg ≤ f := by
    have := (Rat.cast_le (K := ℝ)).mpr h
    push_cast at this
    exact this
  have h1 : |(a : ℝ) * (c - C)| ≤ |(a : ℝ)| * (2 / 10 ^ 9) := by rw [abs_mul]; gcongr
  have h2 : |(b : ℝ) * (s - S)| ≤ |(b : ℝ)| * (2 / 10 ^ 9) := by rw [abs_mul]; gcongr
  have h3 : |(g : ℝ) * (√(π / 2) - rootHalfPi)| ≤ |(g : ℝ)| * (1 / 10 ^ 9) := by
    rw [abs_mul]; gcongr; exact rootHalfPi_close
  have h4 : |(rootHalfPi : ℝ) * (G - g)| ≤ |(rootHalfPi : ℝ)| * eg := by rw [abs_mul]; gcongr
  have h5 : |(√(π / 2) - rootHalfPi) * (G - g)| ≤ 1 / 10 ^ 9 * eg := by
    rw [abs_mul]
    exact mul_le_mul rootHalfPi_close hG (abs_nonneg _) (by positivity)
  have e : (a : ℝ) * c + b * s - √(π / 2) * G = (a * C + b * S - rootHalfPi * g) + a * (c - C) + b * (s - S)
      - g * (√(π / 2) - rootHalfPi) - rootHalfPi * (G - g) - (√(π / 2) - rootHalfPi) * (G - g) := by ring
  rw [e]
  have h6 := le_abs_self ((a : ℝ) * C + b * S - rootHalfPi * g)
  have h7 := neg_abs_le ((a : ℝ) * C + b * S - rootHalfPi * g)
  rw [abs_le] at h1 h2 h3 h4 h5
  rw [abs_le]
  constructor <;> linarith [h1.1, h1.2, h2.1, h2.2, h3.1, h3.2, h4.1, h4.2, h5.1, h5.2]

/-- The comparison, from tests on rational numbers. -/
theorem far_of (ν κ : ℚ) (hκ : κ = 1 / 4 - ν) (hκ3 : |κ| < 3)
    (F F1 F2 : ℝ → ℝ) (hF : ∀ x, 4 ≤ x → HasDerivAt F (F1 x) x)
    (hF1 : ∀ x, 4 ≤ x → HasDerivAt F1 (F2 x) x)
    (hI : ∀ x, 4 ≤ x → F2 x + F1 x / x + (1 - ν / x ^ 2) * F x = 0)
    (a1 b1 a2 b2 : ℚ) (n : ℕ) (ha : 0 ≤ a1 + a2) (hb : 0 ≤ b1 + b2)
    (t1 : nonneg (psub (padd [a1] (mono b1 12)) (cosRest p q κ)) n (1 / 2) (1 / 2) = true)
    (t2 : nonneg (padd (padd [a1] (mono b1 12)) (cosRest p q κ)) n (1 / 2) (1 / 2) = true)
    (t3 : nonneg (psub (padd [a2] (mono b2 12)) (pmul [1 / 4, 1] (sinRest p q κ))) n (1 / 2) (1 / 2) = true)
    (t4 : nonneg (padd (padd [a2] (mono b2 12)) (pmul [1 / 4, 1] (sinRest p q κ))) n (1 / 2) (1 / 2) = true)
    (C S f f1 N1 N2 M : ℚ) (hc : |cos (4 - φ) - C| ≤ 2 / 10 ^ 9) (hs : |sin (4 - φ) - S| ≤ 2 / 10 ^ 9)
    (hf : |F 4 - f| ≤ 1 / 10 ^ 8) (hf1 : |F1 4 - f1| ≤ 2 / 10 ^ 8)
    (t5 : fourTest (evq p 1) (-evq q 1) C S (2 * f) (2 / 10 ^ 8) N1 = true)
    (t6 : fourTest (-(evq (euler p) 1 / 2) - evq q 1) (-(evq p 1 - evq (tOne q) 1 / 4)) C S (f / 4 + 2 * f1) (5 / 10 ^ 8) N2
      = true)
    (t7 : (N1 + N2 + (a1 + a2 + (b1 + b2) / 25) / 4) / (1 - |κ| / 3) ≤ M) (X : ℝ) (hX : 4 ≤ X) :
    |pq p q φ X - √X * (√(π / 2) * F X)| ≤ M := by
  have g1 := four_close _ _ C S _ _ N1 (cos (4 - φ)) (sin (4 - φ)) (2 * F 4) t5 hc hs (by
    push_cast
    rw [abs_le] at hf ⊢
    constructor <;> linarith [hf.1, hf.2])
  have g2 := four_close _ _ C S _ _ N2 (cos (4 - φ)) (sin (4 - φ)) (F 4 / 4 + 2 * F1 4) t6 hc hs (by
    push_cast
    rw [abs_le] at hf hf1 ⊢
    constructor <;> linarith [hf.1, hf.2, hf1.1, hf1.2])
  have e1 : pq p q φ 4 - 2 * (√(π / 2) * F 4)
      = ((evq p 1 : ℚ) : ℝ) * cos (4 - φ) + ((-evq q 1 : ℚ) : ℝ) * sin (4 - φ) - √(π / 2) * (2 * F 4) := by
    unfold pq
    rw [at4_four, at4_four]
    push_cast
    ring
  have e2 : pq1 p q φ 4 - (√(π / 2) * F 4 / 4 + 2 * (√(π / 2) * F1 4))
      = ((-(evq (euler p) 1 / 2) - evq q 1 : ℚ) : ℝ) * cos (4 - φ)
        + ((-(evq p 1 - evq (tOne q) 1 / 4) : ℚ) : ℝ) * sin (4 - φ) - √(π / 2) * (F 4 / 4 + 2 * F1 4) := by
    unfold pq1
    rw [at4_four, at4_four, at4_four, at4_four]
    push_cast
    ring
  have key := far_pq p q φ ν κ hκ hκ3 (fun x => √(π / 2) * F x) (fun x => √(π / 2) * F1 x) (fun x => √(π / 2) * F2 x)
    (fun x hx => (hF x hx).const_mul _) (fun x hx => (hF1 x hx).const_mul _)
    (fun x hx => by
      have := hI x hx
      linear_combination √(π / 2) * this)
    ((a1 + a2 : ℚ) : ℝ) ((b1 + b2 : ℚ) : ℝ) (by exact_mod_cast ha) (by exact_mod_cast hb)
    (fun x hx => by
      have h1 := at4_le _ a1 b1 n t1 t2 x hx
      have h2 := at4_le _ a2 b2 n t3 t4 x hx
      push_cast
      linarith)
    ((N1 + N2 : ℚ) : ℝ) (by
      rw [e1, e2]
      push_cast at g1 g2 ⊢
      linarith) X hX
  refine key.trans ?_
  have := (Rat.cast_le (K := ℝ)).mpr t7
  push_cast at this ⊢
  exact this

/-! ### The four functions -/

theorem delta_close : |(4 - 5 * π / 4) - ((0.0730091830 : ℚ) : ℝ)| ≤ 1 / 10 ^ 9 := by
  have p1 := pi_gt_d20
  have p2 := pi_lt_d20
  push_cast
  rw [abs_le]
  constructor <;> norm_num at * <;> linarith

theorem cos_delta : |cos (4 - 5 * π / 4) - ((0.9973360132 : ℚ) : ℝ)| ≤ 2 / 10 ^ 9 :=
  cos_close _ _ _ (by decide +kernel) delta_close

theorem sin_delta : |sin (4 - 5 * π / 4) - ((0.0729443397 : ℚ) : ℝ)| ≤ 2 / 10 ^ 9 :=
  sin_close _ _ _ (by decide +kernel) delta_close

theorem neg_close (a : ℝ) (b : ℚ) (e : ℝ) (h : |a - b| ≤ e) : |-a - ((-b : ℚ) : ℝ)| ≤ e := by
  push_cast
  rw [show -a - -(b : ℝ) = -(a - b) by ring, abs_neg]
  exact h

theorem angle1 : (4 : ℝ) - π / 4 = (4 - 5 * π / 4) + π := by ring

theorem angle2 : (4 : ℝ) - 3 * π / 4 = (4 - 5 * π / 4) + π / 2 := by ring

theorem j0_far (x : ℝ) (hx : 4 ≤ x) :
    |pq p0Far q0Far (π / 4) x - √x * (√(π / 2) * besselJ 0 x)| ≤ 11 / 10 ^ 7 := by
  have := far_of p0Far q0Far (π / 4) 0 (1 / 4) (by norm_num) (by norm_num) (besselJ 0) (fun x => -besselJ 1 x)
    (fun x => -(besselJ 0 x - besselJ 1 x / x)) (fun x _ => besselJ_zero_deriv x)
    (fun x hx => (besselJ_one_deriv x (by intro h; linarith)).neg)
    (fun x hx => by have : x ≠ 0 := (by intro h; linarith); push_cast; field_simp; ring)
    (64 / 10 ^ 8) (12 / 10 ^ 6) (105 / 10 ^ 8) (19 / 10 ^ 6) 9 (by norm_num) (by norm_num) (by decide +kernel)
    (by decide +kernel) (by decide +kernel) (by decide +kernel) (-0.9973360132) (-0.0729443397) (-0.3971498099)
    (0.0660433280) (6 / 10 ^ 8) (2 / 10 ^ 7) (11 / 10 ^ 7)
    (by rw [angle1, cos_add_pi]; simpa using neg_close _ _ _ cos_delta)
    (by rw [angle1, sin_add_pi]; simpa using neg_close _ _ _ sin_delta)
    (besselJ0_four.trans (by norm_num)) (by
      have := neg_close _ _ _ besselJ1_four
      norm_num at this ⊢
      linarith) (by decide +kernel) (by decide +kernel) (by decide +kernel) x hx
  push_cast at this
  exact this

theorem y0_far (x : ℝ) (hx : 4 ≤ x) :
    |pq p0Far q0Far (3 * π / 4) x - √x * (√(π / 2) * besselY0 x)| ≤ 11 / 10 ^ 7 := by
  have := far_of p0Far q0Far (3 * π / 4) 0 (1 / 4) (by norm_num) (by norm_num) besselY0 (fun x => -besselY1 x)
    (fun x => -(besselY0 x - besselY1 x / x)) (fun x hx => besselY0_deriv x (by linarith))
    (fun x hx => (besselY1_deriv x (by linarith)).neg)
    (fun x hx => by have : x ≠ 0 := (by intro h; linarith); push_cast; field_simp; ring)
    (64 / 10 ^ 8) (12 / 10 ^ 6) (105 / 10 ^ 8) (19 / 10 ^ 6) 9 (by norm_num) (by norm_num) (by decide +kernel)
    (by decide +kernel) (by decide +kernel) (by decide +kernel) (-0.0729443397) (0.9973360132) (-0.0169407393)
    (-0.3979257106) (6 / 10 ^ 8) (2 / 10 ^ 7) (11 / 10 ^ 7)
    (by rw [angle2, cos_add_pi_div_two]; simpa using neg_close _ _ _ sin_delta)
    (by rw [angle2, sin_add_pi_div_two]; exact cos_delta)
    besselY0_four (by
      have := neg_close _ _ _ besselY1_four
      norm_num at this ⊢
      linarith) (by decide +kernel) (by decide +kernel) (by decide +kernel) x hx
  push_cast at this
  exact this

theorem j1_far (x : ℝ) (hx : 4 ≤ x) :
    |pq p1Far q1Far (3 * π / 4) x - √x * (√(π / 2) * besselJ 1 x)| ≤ 15 / 10 ^ 7 := by
  have := far_of p1Far q1Far (3 * π / 4) 1 (-3 / 4) (by norm_num) (by norm_num) (besselJ 1)
    (fun x => besselJ 0 x - besselJ 1 x / x)
    (fun x => -besselJ 1 x - ((besselJ 0 x - besselJ 1 x / x) * x - besselJ 1 x * 1) / x ^ 2)
    (fun x hx => besselJ_one_deriv x (by intro h; linarith))
    (fun x hx => (besselJ_zero_deriv x).sub
      ((besselJ_one_deriv x (by intro h; linarith)).div (hasDerivAt_id x) (by intro h; linarith)))
    (fun x hx => by have : x ≠ 0 := (by intro h; linarith); push_cast; field_simp; ring)
    (75 / 10 ^ 8) (13 / 10 ^ 6) (117 / 10 ^ 8) (212 / 10 ^ 7) 9 (by norm_num) (by norm_num) (by decide +kernel)
    (by decide +kernel) (by decide +kernel) (by decide +kernel) (-0.0729443397) (0.9973360132) (-0.0660433280)
    (-0.3806389779) (6 / 10 ^ 8) (2 / 10 ^ 7) (15 / 10 ^ 7)
    (by rw [angle2, cos_add_pi_div_two]; simpa using neg_close _ _ _ sin_delta)
    (by rw [angle2, sin_add_pi_div_two]; exact cos_delta)
    (besselJ1_four.trans (by norm_num)) (by
      have h0 := besselJ0_four
      have h1 := besselJ1_four
      push_cast at *
      rw [abs_le] at *
      constructor <;> norm_num at * <;> linarith [h0.1, h0.2, h1.1, h1.2])
    (by decide +kernel) (by decide +kernel) (by decide +kernel) x hx
  push_cast at this
  exact this

theorem y1_far (x : ℝ) (hx : 4 ≤ x) :
    |pq p1Far q1Far (5 * π / 4) x - √x * (√(π / 2) * besselY1 x)| ≤ 15 / 10 ^ 7 := by
  have := far_of p1Far q1Far (5 * π / 4) 1 (-3 / 4) (by norm_num) (by norm_num) besselY1
    (fun x => besselY0 x - besselY1 x / x)
    (fun x => -besselY1 x - ((besselY0 x - besselY1 x / x) * x - besselY1 x * 1) / x ^ 2)
    (fun x hx => besselY1_deriv x (by linarith))
    (fun x hx => (besselY0_deriv x (by linarith)).sub
      ((besselY1_deriv x (by linarith)).div (hasDerivAt_id x) (by intro h; linarith)))
    (fun x hx => by have : x ≠ 0 := (by intro h; linarith); push_cast; field_simp; ring)
    (75 / 10 ^ 8) (13 / 10 ^ 6) (117 / 10 ^ 8) (212 / 10 ^ 7) 9 (by norm_num) (by norm_num) (by decide +kernel)
    (by decide +kernel) (by decide +kernel) (by decide +kernel) (0.9973360132) (0.0729443397) (0.3979257106)
    (-0.1164221670) (6 / 10 ^ 8) (2 / 10 ^ 7) (15 / 10 ^ 7)
    cos_delta sin_delta
    besselY1_four (by
      have h0 := besselY0_four
      have h1 := besselY1_four
      push_cast at *
      rw [abs_le] at *
      constructor <;> norm_num at * <;> linarith [h0.1, h0.2, h1.1, h1.2])
    (by decide +kernel) (by decide +kernel) (by decide +kernel) x hx
  push_cast at this
  exact this

end Verif.Green.FinBessel
