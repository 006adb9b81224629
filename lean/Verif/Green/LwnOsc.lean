/-
Tools for the approximations far from the source: a bound for perturbed oscillators, and the derivatives
of a cosine whose amplitude and phase are polynomials in `(3 / x) ^ 2`.  Nothing here depends on the model.
-/
import Mathlib.Analysis.Calculus.MeanValue
import Mathlib.Analysis.SpecialFunctions.Trigonometric.Deriv
import Mathlib.Analysis.SpecialFunctions.Sqrt
import Mathlib.Analysis.SpecialFunctions.ExpDeriv
import Mathlib.Analysis.Complex.RealDeriv
import Verif.Green.PolyBound

namespace Verif.Green.Lwn

open Real Verif.Green.PolyBound

/-! ### Oscillators -/

/-- The solution of `w'' + w = small` stays small. -/
theorem oscillator (w w1 w2 r r1 : ℝ → ℝ) (c N : ℝ) (hc0 : 0 ≤ c) (hc : c < 3)
    (hw : ∀ x, 3 ≤ x → HasDerivAt w (w1 x) x) (hw1 : ∀ x, 3 ≤ x → HasDerivAt w1 (w2 x) x)
    (hr : ∀ x, 3 ≤ x → HasDerivAt r (r1 x) x)
    (hmono : ∀ s t, 3 ≤ s → s ≤ t → r s ≤ r t)
    (hb : ∀ x, 3 ≤ x → |w2 x + w x| ≤ r1 x + c / x ^ 2 * |w x|)
    (h3 : |w 3| + |w1 3| ≤ N) (X : ℝ) (hX : 3 ≤ X) :
    |w X| ≤ (N + r X - r 3) / (1 - c / 3) := by
  let z : ℝ → ℂ := fun x => Complex.exp (-(x : ℂ) * Complex.I) * ((w1 x : ℂ) + w x * Complex.I)
  have hz : ∀ x : ℝ, 3 ≤ x →
      HasDerivAt z (Complex.exp (-(x : ℂ) * Complex.I) * ((w2 x + w x : ℝ) : ℂ)) x := by
    intro x hx
    have he : HasDerivAt (fun x : ℝ => Complex.exp (-(x : ℂ) * Complex.I))
        (Complex.exp (-(x : ℂ) * Complex.I) * (-1 * Complex.I)) x := by
      have h1 : HasDerivAt (fun x : ℝ => -(x : ℂ) * Complex.I) (-1 * Complex.I) x :=
        (((hasDerivAt_id x).ofReal_comp).neg).mul_const _
      exact h1.cexp
    have hg : HasDerivAt (fun x : ℝ => (w1 x : ℂ) + w x * Complex.I)
        ((w2 x : ℂ) + w1 x * Complex.I) x :=
      ((hw1 x hx).ofReal_comp).add (((hw x hx).ofReal_comp).mul_const _)
    refine (he.mul hg).congr_deriv ?_
    push_cast
    linear_combination (-(Complex.exp (-(x : ℂ) * Complex.I)) * (w x : ℂ)) * Complex.I_mul_I
  have hn : ∀ x : ℝ, ‖Complex.exp (-(x : ℂ) * Complex.I)‖ = 1 := by
    intro x
    have := Complex.norm_exp_ofReal_mul_I (-x)
    push_cast at this
    exact this
  have hzn : ∀ x : ℝ, ‖z x‖ = ‖(w1 x : ℂ) + w x * Complex.I‖ := by
    intro x
    simp only [z, norm_mul, hn, one_mul]
  have hwz : ∀ x : ℝ, |w x| ≤ ‖z x‖ := by
    intro x
    rw [hzn]
    have := Complex.abs_im_le_norm ((w1 x : ℂ) + w x * Complex.I)
    simpa using this
  have hz3 : ‖z 3‖ ≤ N := by
    rw [hzn]
    refine (norm_add_le _ _).trans ?_
    rw [norm_mul, Complex.norm_I, mul_one, Complex.norm_real, Complex.norm_real, norm_eq_abs,
      norm_eq_abs]
    linarith
  have hcont : ContinuousOn (fun x => ‖z x‖) (Set.Icc 3 X) := fun x hx =>
    ((hz x hx.1).continuousAt.norm).continuousWithinAt
  obtain ⟨t, ht, hmax⟩ := isCompact_Icc.exists_isMaxOn ⟨3, le_rfl, hX⟩ hcont
  have hM : ∀ x ∈ Set.Icc 3 X, ‖z x‖ ≤ ‖z t‖ := fun x hx => hmax hx
  have key : ∀ x ∈ Set.Icc 3 X, ‖z x‖ ≤ N + (r x - r 3) + c * ‖z t‖ * (1 / 3 - 1 / x) := by
    have := image_norm_le_of_norm_deriv_right_le_deriv_boundary' (f := z)
      (f' := fun x => Complex.exp (-(x : ℂ) * Complex.I) * ((w2 x + w x : ℝ) : ℂ)) (a := 3) (b := X)
      (fun x hx => (hz x hx.1).continuousAt.continuousWithinAt)
      (fun x hx => (hz x hx.1).hasDerivWithinAt)
      (B := fun x => N + (r x - r 3) + c * ‖z t‖ * (1 / 3 - 1 / x))
      (B' := fun x => r1 x + c * ‖z t‖ * (1 / x ^ 2)) (by simpa using hz3) ?_ ?_ ?_
    · exact fun x hx => this hx
    · intro x hx
      have hx0 : x ≠ 0 := by have := hx.1; intro h; linarith
      have h1 := (hr x hx.1).continuousAt
      exact (((continuousAt_const.add (h1.sub continuousAt_const)).add
        (continuousAt_const.mul (continuousAt_const.sub
          (continuousAt_const.div continuousAt_id hx0))))).continuousWithinAt
    · intro x hx
      have hx0 : x ≠ 0 := by have := hx.1; intro h; linarith
      have h1 : HasDerivAt (fun x : ℝ => 1 / 3 - 1 / x) (1 / x ^ 2) x := by
        have := ((hasDerivAt_inv hx0).const_sub (1 / 3))
        simp only [one_div] at *
        refine this.congr_deriv ?_
        simp
      have h2 : HasDerivAt (fun x => N + (r x - r 3) + c * ‖z t‖ * (1 / 3 - 1 / x))
          (r1 x + c * ‖z t‖ * (1 / x ^ 2)) x := by
        refine ((((hr x hx.1).sub_const (r 3)).const_add N).add (h1.const_mul (c * ‖z t‖)))
      exact h2.hasDerivWithinAt
    · intro x hx
      rw [norm_mul, hn, one_mul, Complex.norm_real, norm_eq_abs]
      refine (hb x hx.1).trans ?_
      have h1 := (hwz x).trans (hM x ⟨hx.1, hx.2.le⟩)
      have h2 : 0 ≤ c / x ^ 2 := by positivity
      calc r1 x + c / x ^ 2 * |w x| ≤ r1 x + c / x ^ 2 * ‖z t‖ := by gcongr
        _ = _ := by ring
  have hkt := key t ht
  have hrt := hmono t X ht.1 ht.2
  have ht0 : 0 < t := by linarith [ht.1]
  have hb1 : c * ‖z t‖ * (1 / 3 - 1 / t) ≤ c * ‖z t‖ * (1 / 3) := by
    have : 0 ≤ 1 / t := by positivity
    have h5 : 0 ≤ c * ‖z t‖ := by positivity
    nlinarith
  have hfin : ‖z t‖ * (1 - c / 3) ≤ N + r X - r 3 := by nlinarith
  have hpos : 0 < 1 - c / 3 := by linarith
  rw [le_div_iff₀ hpos]
  refine le_trans ?_ hfin
  exact mul_le_mul_of_nonneg_right ((hwz X).trans (hM X ⟨hX, le_rfl⟩)) hpos.le

/-! ### Polynomials in `(3 / x) ^ 2` -/

/-- The derivative of a polynomial. -/
def pder : List ℚ → List ℚ
  | [] => []
  | _ :: l => padd l (0 :: pder l)

theorem hasDerivAt_ev (l : List ℚ) (y : ℝ) : HasDerivAt (ev l) (ev (pder l) y) y := by
  induction l with
  | nil =>
    have : ev [] = fun _ => (0 : ℝ) := by funext y; simp [ev]
    rw [this]
    simpa [pder, ev] using hasDerivAt_const y (0 : ℝ)
  | cons a l ih =>
    have e : ev (a :: l) = fun y => (a : ℝ) + y * ev l y := by funext y; simp [ev]
    rw [e]
    refine (((hasDerivAt_id y).mul ih).const_add (a : ℝ)).congr_deriv ?_
    simp only [pder, ev_padd, ev, id]
    push_cast
    ring

/-- The polynomial at `(3 / x) ^ 2`. -/
noncomputable def at3 (l : List ℚ) (x : ℝ) : ℝ := ev l ((3 / x) ^ 2)

/-- `y` times the derivative. -/
def euler (l : List ℚ) : List ℚ := 0 :: pder l

theorem hasDerivAt_at3 (l : List ℚ) (x : ℝ) (hx : x ≠ 0) :
    HasDerivAt (at3 l) (-(2 / x) * at3 (euler l) x) x := by
  have h1 : HasDerivAt (fun x : ℝ => (3 / x) ^ 2) (-(2 / x) * (3 / x) ^ 2) x := by
    have h := ((hasDerivAt_const x (3 : ℝ)).div (hasDerivAt_id x) hx).pow 2
    refine h.congr_deriv ?_
    simp only [id, Pi.div_apply]
    field_simp
    norm_num
    field_simp
    norm_num
  have h := (hasDerivAt_ev l ((3 / x) ^ 2)).comp x h1
  refine h.congr_deriv ?_
  simp only [at3, euler, ev]
  push_cast
  ring

variable (amp ph : List ℚ) (φ : ℝ)

/-- The phase `x - φ + ph * (3 / x)`. -/
noncomputable def theta (x : ℝ) : ℝ := x - φ + at3 ph x * (3 / x)

/-- `-x ^ 2 / 3` times the derivative of the last term of the phase. -/
def tOne : List ℚ := padd ph (pscale 2 (euler ph))

theorem hasDerivAt_theta (x : ℝ) (hx : x ≠ 0) :
    HasDerivAt (theta ph φ) (1 - 3 / x ^ 2 * at3 (tOne ph) x) x := by
  have h1 : HasDerivAt (fun x : ℝ => 3 / x) (-(3 / x ^ 2)) x := by
    have h := (hasDerivAt_const x (3 : ℝ)).div (hasDerivAt_id x) hx
    refine h.congr_deriv ?_
    simp only [id]
    ring
  have h := ((hasDerivAt_id x).sub_const φ).add ((hasDerivAt_at3 ph x hx).mul h1)
  refine h.congr_deriv ?_
  simp only [at3, tOne, ev_padd, ev_pscale]
  push_cast
  field_simp
  ring

theorem hasDerivAt_theta' (x : ℝ) (hx : x ≠ 0) :
    HasDerivAt (fun x => 1 - 3 / x ^ 2 * at3 (tOne ph) x)
      (6 / x ^ 3 * (at3 (tOne ph) x + at3 (euler (tOne ph)) x)) x := by
  have h1 : HasDerivAt (fun x : ℝ => 3 / x ^ 2) (-(6 / x ^ 3)) x := by
    have h := (hasDerivAt_const x (3 : ℝ)).div ((hasDerivAt_id x).pow 2) (pow_ne_zero 2 hx)
    refine h.congr_deriv ?_
    simp only [id, Pi.pow_apply]
    field_simp
    norm_num
    ring
  have h := (h1.mul (hasDerivAt_at3 (tOne ph) x hx)).const_sub 1
  refine h.congr_deriv ?_
  field_simp
  ring

/-- A cosine of slowly varying amplitude and phase. -/
noncomputable def wavy (x : ℝ) : ℝ := at3 amp x * cos (theta ph φ x)

/-- Its derivative. -/
noncomputable def wavy1 (x : ℝ) : ℝ :=
  -(2 / x) * at3 (euler amp) x * cos (theta ph φ x)
    - at3 amp x * (1 - 3 / x ^ 2 * at3 (tOne ph) x) * sin (theta ph φ x)

/-- Its second derivative. -/
noncomputable def wavy2 (x : ℝ) : ℝ :=
  ((2 * at3 (euler amp) x + 4 * at3 (euler (euler amp)) x) / x ^ 2
      - at3 amp x * (1 - 3 / x ^ 2 * at3 (tOne ph) x) ^ 2) * cos (theta ph φ x)
    - (-(4 / x) * at3 (euler amp) x * (1 - 3 / x ^ 2 * at3 (tOne ph) x)
      + at3 amp x * (6 / x ^ 3 * (at3 (tOne ph) x + at3 (euler (tOne ph)) x))) * sin (theta ph φ x)

theorem hasDerivAt_wavy (x : ℝ) (hx : x ≠ 0) :
    HasDerivAt (wavy amp ph φ) (wavy1 amp ph φ x) x := by
  have h := (hasDerivAt_at3 amp x hx).mul (hasDerivAt_theta ph φ x hx).cos
  refine h.congr_deriv ?_
  unfold wavy1
  ring

theorem hasDerivAt_wavy1 (x : ℝ) (hx : x ≠ 0) :
    HasDerivAt (wavy1 amp ph φ) (wavy2 amp ph φ x) x := by
  have hi : HasDerivAt (fun x : ℝ => -(2 / x)) (2 / x ^ 2) x := by
    have h := ((hasDerivAt_const x (2 : ℝ)).div (hasDerivAt_id x) hx).neg
    refine h.congr_deriv ?_
    simp only [id]
    ring
  have ht := hasDerivAt_theta ph φ x hx
  have h := ((hi.mul (hasDerivAt_at3 (euler amp) x hx)).mul ht.cos).sub
    (((hasDerivAt_at3 amp x hx).mul (hasDerivAt_theta' ph x hx)).mul ht.sin)
  refine h.congr_deriv ?_
  unfold wavy2
  simp only [Pi.mul_apply]
  field_simp
  ring

/-- The coefficients of the cosine in `x ^ 2 * (u'' + (1 + κ / x ^ 2) * u)`. -/
def cosPart (κ : ℚ) : List ℚ :=
  padd (padd (padd (pscale 2 (euler amp)) (pscale 4 (euler (euler amp)))) (pscale κ amp))
    (psub (pscale 6 (pmul amp (tOne ph))) (0 :: pmul amp (pmul (tOne ph) (tOne ph))))

/-- The coefficients of the sine in the same expression, divided by `3 / x`. -/
def sinPart : List ℚ :=
  pscale 3 (padd (padd (pscale (-4) (pder amp)) (0 :: pscale (4 / 3) (pmul (pder amp) (tOne ph))))
    (pscale (2 / 3) (pmul amp (padd (tOne ph) (euler (tOne ph))))))

theorem wavy_residual (κ : ℚ) (x : ℝ) (hx : 3 ≤ x) :
    |wavy2 amp ph φ x + (1 + κ / x ^ 2) * wavy amp ph φ x|
      ≤ (|at3 (cosPart amp ph κ) x| + |at3 (sinPart amp ph) x|) / x ^ 2 := by
  have hx0 : 0 < x := by linarith
  have e : wavy2 amp ph φ x + (1 + κ / x ^ 2) * wavy amp ph φ x
      = (at3 (cosPart amp ph κ) x * cos (theta ph φ x)
        - 3 / x * at3 (sinPart amp ph) x * sin (theta ph φ x)) / x ^ 2 := by
    unfold wavy2 wavy cosPart sinPart at3
    simp only [ev_padd, ev_psub, ev_pscale, ev_pmul, ev, euler]
    push_cast
    field_simp
    ring
  rw [e, abs_div, abs_of_pos (show 0 < x ^ 2 by positivity)]
  refine div_le_div_of_nonneg_right ?_ (by positivity)
  refine (abs_sub _ _).trans (add_le_add ?_ ?_)
  · rw [abs_mul]
    exact mul_le_of_le_one_right (abs_nonneg _) (abs_cos_le_one _)
  · rw [abs_mul, abs_mul]
    have h3 : |3 / x| ≤ 1 := by
      rw [abs_of_pos (by positivity), div_le_one hx0]; exact hx
    calc |3 / x| * |at3 (sinPart amp ph) x| * |sin (theta ph φ x)|
        ≤ 1 * |at3 (sinPart amp ph) x| * 1 := by
          gcongr
          exact abs_sin_le_one _
      _ = _ := by ring

/-! ### The factor `√x` -/

/-- `√x * D` when `D` satisfies an equation of Bessel with a right side. -/
theorem hasDerivAt_sqrt_mul (D D1 : ℝ → ℝ) (x : ℝ) (hx : 0 < x)
    (h1 : HasDerivAt D (D1 x) x) :
    HasDerivAt (fun x => √x * D x) (D x / (2 * √x) + √x * D1 x) x := by
  have hs := hasDerivAt_sqrt hx.ne'
  refine (hs.mul h1).congr_deriv ?_
  ring

theorem hasDerivAt_sqrt_mul' (D D1 : ℝ → ℝ) (D2 x : ℝ) (hx : 0 < x)
    (h1 : HasDerivAt D (D1 x) x) (h2 : HasDerivAt D1 D2 x) :
    HasDerivAt (fun x => D x / (2 * √x) + √x * D1 x)
      (√x * (D2 + D1 x / x - D x / (4 * x ^ 2))) x := by
  have hs := hasDerivAt_sqrt hx.ne'
  have hsp : 0 < √x := sqrt_pos.mpr hx
  have h := (h1.div (hs.const_mul 2) (by positivity)).add (hs.mul h2)
  refine h.congr_deriv ?_
  have e : √x ^ 2 = x := sq_sqrt hx.le
  have e4 : √x ^ 4 = x ^ 2 := by rw [show √x ^ 4 = (√x ^ 2) ^ 2 by ring, e]
  field_simp
  rw [show √x ^ 4 = x ^ 2 from e4, e]
  ring

end Verif.Green.Lwn
