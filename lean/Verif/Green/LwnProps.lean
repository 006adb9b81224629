/-
What `LiangWuNoblesseGF` computes for the waves: accuracy of the wave term for every distance, exact
properties of the Green function and of its gradient, and where the formulas are defined.

The specification is made of the power series of `Verif.Green.LwnSeries`, of `exactW` and `exactWh`, and
of `rankine` (two sources, at a point and at its image above the free surface).
-/
import Verif.Green.LwnFarStruve
import Verif.Green.LwnModel

namespace Verif.Green.Lwn

open Real Verif.Green.PolyBound

/-! ### Specification -/

/-- The wave term of the Green function in deep water, at the horizontal distance `h` and the height
`v` (both multiplied by the wavenumber). -/
noncomputable def exactW (h v : ℝ) : ℂ :=
  2 * π * ((struveH 0 h : ℂ) - Complex.I * besselJ 0 h) * (exp v : ℝ)

/-- Its derivative in the direction of the horizontal distance. -/
noncomputable def exactWh (h v : ℝ) : ℂ :=
  2 * π * ((2 / π : ℝ) - (struveH 1 h : ℂ) + Complex.I * besselJ 1 h) * (exp v : ℝ)

/-- `exactWh` is the horizontal derivative. -/
theorem exactW_deriv_h (h v : ℝ) : HasDerivAt (fun h => exactW h v) (exactWh h v) h := by
  have h1 := (struveH_zero_deriv h).ofReal_comp
  have h2 := (besselJ_zero_deriv h).ofReal_comp
  refine (((h1.sub (h2.const_mul Complex.I)).const_mul (2 * (π : ℂ))).mul_const
    ((exp v : ℝ) : ℂ)).congr_deriv ?_
  unfold exactWh
  push_cast
  ring

/-- The wave term is its own vertical derivative. -/
theorem exactW_deriv_v (h v : ℝ) : HasDerivAt (fun v => exactW h v) (exactW h v) v := by
  have h1 := (Real.hasDerivAt_exp v).ofReal_comp
  exact h1.const_mul _

/-! ### Accuracy of the four functions -/

theorem sqrt_three_lt (x : ℝ) (hx : 3 < x) : (1.73 : ℝ) ≤ √x := by
  apply le_sqrt_of_sq_le; norm_num; linarith

theorem of_sqrt_mul (w s f e : ℝ) (hs : 0 < s) (h : |w - s * f| ≤ e) : |w / s - f| ≤ e / s := by
  rw [show w / s - f = (w - s * f) / s by field_simp, abs_div, abs_of_pos hs]
  gcongr

theorem besselJ0_far (x : ℝ) (hx : 3 < x) : |besselJ0 x - besselJ 0 x| ≤ 17 / 10 ^ 6 / √x := by
  have hs : 0 < √x := sqrt_pos.mpr (by linarith)
  have e : besselJ0 x = wavy j0Amp j0Phase (π / 4) x / √x := by
    unfold besselJ0 wavy theta at3
    rw [if_neg (by linarith), horner_ev, horner_ev,
      show x - 0.25 * π = x - π / 4 by norm_num; ring]
  rw [e]
  exact of_sqrt_mul _ _ _ _ hs (j0_far x hx.le)

theorem besselJ1_far (x : ℝ) (hx : 3 < x) : |besselJ1 x - besselJ 1 x| ≤ 25 / 10 ^ 6 / √x := by
  have hs : 0 < √x := sqrt_pos.mpr (by linarith)
  have e : besselJ1 x = wavy j1Amp j1Phase (3 * π / 4) x / √x := by
    unfold besselJ1 wavy theta at3
    rw [if_neg (by linarith), horner_ev, horner_ev,
      show x - 0.75 * π = x - 3 * π / 4 by norm_num; ring]
  rw [e]
  exact of_sqrt_mul _ _ _ _ hs (j1_far x hx.le)

theorem struveH0_far (x : ℝ) (hx : 3 < x) :
    |struveH0 x - struveH 0 x| ≤ 18 / 10 ^ 6 / √x + 14 / 10 ^ 7 := by
  have hs : 0 < √x := sqrt_pos.mpr (by linarith)
  have hx0 : x ≠ 0 := by intro h; linarith
  have e : struveH0 x = wavy y0Amp y0Phase (3 * π / 4) x / √x + kZero x := by
    unfold struveH0 besselY0 wavy theta kZero quo at3
    rw [if_neg (by linarith), if_neg (by linarith)]
    simp only [horner_ev]
    rw [← cos_sub_pi_div_two, show x - 0.25 * π + ev y0Phase ((3 / x) ^ 2) * (3 / x) - π / 2
      = x - 3 * π / 4 + ev y0Phase ((3 / x) ^ 2) * (3 / x) by norm_num; ring]
    rw [add_comm]
    congr 1
    · ring_nf
  have h := of_sqrt_mul _ _ _ _ hs (h0_far x hx.le)
  rw [e, show wavy y0Amp y0Phase (3 * π / 4) x / √x + kZero x - struveH 0 x
    = wavy y0Amp y0Phase (3 * π / 4) x / √x - (struveH 0 x - kZero x) by ring]
  refine h.trans (le_of_eq ?_)
  field_simp

theorem struveH1_far (x : ℝ) (hx : 3 < x) :
    |struveH1 x - struveH 1 x| ≤ 12 / 10 ^ 5 / √x + 26 / 10 ^ 9 := by
  have hs : 0 < √x := sqrt_pos.mpr (by linarith)
  have hp := pi_pos
  have e : struveH1 x
      = wavy y1Amp y1Phase (5 * π / 4) x / √x + kOne x + 2 / π * (4 / 10 ^ 8) := by
    unfold struveH1 besselY1 wavy theta kOne quo at3
    rw [if_neg (by linarith), if_neg (by linarith)]
    simp only [horner_ev]
    rw [← cos_sub_pi_div_two, show x - 3 * π / 4 + ev y1Phase ((3 / x) ^ 2) * (3 / x) - π / 2
      = x - 5 * π / 4 + ev y1Phase ((3 / x) ^ 2) * (3 / x) by ring]
    have e1 : 2 * ev h1Num ((3 / x) ^ 2) / (π * ev h1Den ((3 / x) ^ 2))
        = 2 / π * (ev h1Num ((3 / x) ^ 2) / ev h1Den ((3 / x) ^ 2)) := by rw [mul_div_mul_comm]
    rw [e1]
    push_cast
    ring_nf
  have h := of_sqrt_mul _ _ _ _ hs (h1_far x hx.le)
  have h64 : 2 / π ≤ 64 / 100 := by
    rw [div_le_iff₀ hp]; have := pi_gt_d4; norm_num at *; linarith
  have h0 : 0 < 2 / π := by positivity
  rw [e, show wavy y1Amp y1Phase (5 * π / 4) x / √x + kOne x + 2 / π * (4 / 10 ^ 8) - struveH 1 x
    = (wavy y1Amp y1Phase (5 * π / 4) x / √x - (struveH 1 x - kOne x)) + 2 / π * (4 / 10 ^ 8) by ring]
  refine (abs_add_le _ _).trans (add_le_add h ?_)
  rw [abs_of_pos (by positivity)]
  norm_num at *
  linarith

/-- **The Bessel and Struve functions of the code are close to the power series, for every
nonnegative argument.** -/
theorem special_functions (x : ℝ) (hx : 0 ≤ x) :
    |besselJ0 x - besselJ 0 x| ≤ 1 / 10 ^ 5 ∧ |besselJ1 x - besselJ 1 x| ≤ 15 / 10 ^ 6
      ∧ |struveH0 x - struveH 0 x| ≤ 12 / 10 ^ 6 ∧ |struveH1 x - struveH 1 x| ≤ 7 / 10 ^ 5 := by
  rcases le_or_gt x 3 with h3 | h3
  · have a := j0_near x hx h3
    have b := j1_near x hx h3
    have c := h0_near x hx h3
    have d := h1_near x hx h3
    have u : x / 3 ≤ 1 := by rw [div_le_one (by norm_num)]; exact h3
    have u0 : 0 ≤ x / 3 := by positivity
    have u2 : (x / 3) ^ 2 ≤ 1 := pow_le_one₀ u0 u
    unfold besselJ0 besselJ1 struveH0 struveH1
    rw [if_pos h3, if_pos h3, if_pos h3, if_pos h3]
    refine ⟨a.trans (by norm_num), b.trans (by norm_num; linarith), c.trans (by norm_num at *; linarith),
      d.trans (by linarith)⟩
  · have hs := sqrt_three_lt x h3
    have hs0 : 0 < √x := by linarith
    have key : ∀ a b : ℝ, a ≤ b * 1.73 → 0 ≤ b → a / √x ≤ b := by
      intro a b h hb
      rw [div_le_iff₀ hs0]
      nlinarith
    refine ⟨(besselJ0_far x h3).trans (key _ _ (by norm_num) (by norm_num)),
      (besselJ1_far x h3).trans (key _ _ (by norm_num) (by norm_num)),
      (struveH0_far x h3).trans ?_, (struveH1_far x h3).trans ?_⟩
    · have := key (18 / 10 ^ 6) (105 / 10 ^ 7) (by norm_num) (by norm_num)
      linarith
    · have := key (12 / 10 ^ 5) (6995 / 10 ^ 8) (by norm_num) (by norm_num)
      linarith

/-! ### Accuracy of the wave term -/

theorem combine (a b c d e f : ℝ) (h1 : |a - b| ≤ e) (h2 : |c - d| ≤ f) (v : ℝ) :
    ‖2 * (π : ℂ) * ((a : ℂ) - Complex.I * c) * (exp v : ℝ)
      - 2 * π * ((b : ℂ) - Complex.I * d) * (exp v : ℝ)‖ ≤ 2 * π * (e + f) * exp v := by
  have he : 2 * (π : ℂ) * ((a : ℂ) - Complex.I * c) * (exp v : ℝ)
      - 2 * π * ((b : ℂ) - Complex.I * d) * (exp v : ℝ)
      = ((2 * π : ℝ) : ℂ) * (((a - b : ℝ) : ℂ) - Complex.I * ((c - d : ℝ) : ℂ)) * (exp v : ℝ) := by
    push_cast; ring
  rw [he, norm_mul, norm_mul, Complex.norm_real, Complex.norm_real, norm_eq_abs, norm_eq_abs,
    abs_of_pos (by positivity), abs_of_pos (exp_pos v)]
  have : ‖((a - b : ℝ) : ℂ) - Complex.I * ((c - d : ℝ) : ℂ)‖ ≤ e + f := by
    refine (norm_sub_le _ _).trans (add_le_add ?_ ?_)
    · rw [Complex.norm_real]; exact h1
    · rw [norm_mul, Complex.norm_I, one_mul, Complex.norm_real]; exact h2
  gcongr

/-- **The wave term is accurate for every distance and every height.** -/
theorem wave_accuracy (h v : ℝ) (hh : 0 ≤ h) :
    ‖waveW h v - exactW h v‖ ≤ 14 / 10 ^ 5 * exp v := by
  obtain ⟨a, -, c, -⟩ := special_functions h hh
  have := combine _ _ _ _ _ _ c a v
  refine this.trans ?_
  have hp : π ≤ 3.15 := by have := pi_lt_d2; linarith
  have := exp_pos v
  gcongr
  norm_num at *
  linarith

/-- **Its horizontal derivative is close to the derivative of the exact wave term.** -/
theorem wave_derivative_accuracy (h v : ℝ) (hh : 0 ≤ h) :
    ‖waveWh h v - deriv (fun h => exactW h v) h‖ ≤ 54 / 10 ^ 5 * exp v := by
  rw [(exactW_deriv_h h v).deriv]
  obtain ⟨-, b, -, d⟩ := special_functions h hh
  have b' : |-besselJ1 h - -besselJ 1 h| ≤ 15 / 10 ^ 6 := by
    rw [show -besselJ1 h - -besselJ 1 h = -(besselJ1 h - besselJ 1 h) by ring, abs_neg]; exact b
  have d' : |2 / π - struveH1 h - (2 / π - struveH 1 h)| ≤ 7 / 10 ^ 5 := by
    rw [show 2 / π - struveH1 h - (2 / π - struveH 1 h) = -(struveH1 h - struveH 1 h) by ring, abs_neg]
    exact d
  have := combine _ _ _ _ _ _ d' b' v
  have e1 : waveWh h v
      = 2 * (π : ℂ) * (((2 / π - struveH1 h : ℝ) : ℂ) - Complex.I * ((-besselJ1 h : ℝ) : ℂ))
        * (exp v : ℝ) := by
    unfold waveWh; push_cast; ring
  have e2 : exactWh h v
      = 2 * (π : ℂ) * (((2 / π - struveH 1 h : ℝ) : ℂ) - Complex.I * ((-besselJ 1 h : ℝ) : ℂ))
        * (exp v : ℝ) := by
    unfold exactWh; push_cast; ring
  rw [e1, e2]
  refine this.trans ?_
  have hp : π ≤ 3.15 := by have := pi_lt_d2; linarith
  have := exp_pos v
  gcongr
  norm_num at *
  linarith

/-- A case: one wave length away, at half a wave length below. -/
example : ‖waveW (2 * π) (-π) - exactW (2 * π) (-π)‖ ≤ 14 / 10 ^ 5 * exp (-π) :=
  wave_accuracy _ _ (by positivity)

/-! ### Outgoing waves -/

theorem phases_agree : y0Amp = j0Amp ∧ y0Phase = j0Phase := ⟨rfl, rfl⟩

/-- **Beyond 3 the wave term is an outgoing wave plus a real term.**  With the time factor
`exp (-i ω t)` a phase that grows with the distance is a wave that leaves the source. -/
theorem wave_outgoing (h v : ℝ) (hh : 3 < h) :
    waveW h v = 2 * π * (exp v : ℝ) * (-Complex.I * ((horner j0Amp ((3 / h) ^ 2) / √h : ℝ) : ℂ)
      * Complex.exp (Complex.I * ((h - π / 4 + horner j0Phase ((3 / h) ^ 2) * (3 / h) : ℝ) : ℂ))
      + ((2 * horner h0Num ((3 / h) ^ 2) / (π * h * horner h0Den ((3 / h) ^ 2)) : ℝ) : ℂ)) := by
  unfold waveW struveH0 besselJ0 besselY0
  rw [if_neg (by linarith), if_neg (by linarith), if_neg (by linarith), phases_agree.1,
    phases_agree.2, show h - 0.25 * π = h - π / 4 by norm_num; ring]
  generalize h - π / 4 + horner j0Phase ((3 / h) ^ 2) * (3 / h) = t
  rw [mul_comm Complex.I (t : ℂ), Complex.exp_mul_I]
  push_cast
  have hI : Complex.I * Complex.I = -1 := Complex.I_mul_I
  generalize Complex.cos (t : ℂ) = C
  generalize Complex.sin (t : ℂ) = S
  linear_combination (2 * (π : ℂ) * Complex.exp v * (horner j0Amp ((3 / h) ^ 2) : ℂ) / (√h : ℂ) * S)
    * hI

/-- The exact amplitude of the waves far away is `√(2 / π)`; that of the code is its value with 8
decimals. -/
theorem outgoing_amplitude : |horner j0Amp 0 - √(2 / π)| ≤ 3 / 10 ^ 8 := by
  have h1 := twoOverPi_close
  rw [abs_le] at h1
  have e : horner j0Amp 0 = 0.79788454 := by
    rw [horner_ev]; norm_num [j0Amp, ev]
  have hu : √(2 / π) ≤ 0.79788457 := by
    rw [sqrt_le_left (by norm_num)]
    unfold twoOverPi at h1; norm_num at *; linarith
  have hl : 0.79788454 ≤ √(2 / π) := by
    apply le_sqrt_of_sq_le
    unfold twoOverPi at h1; norm_num at *; linarith
  rw [e, abs_le]
  constructor <;> norm_num at * <;> linarith

example := wave_outgoing 4 (-1) (by norm_num)

/-! ### Above and below the source -/

theorem special_zero : struveH1 0 = 0 ∧ besselJ1 0 = 0 := by
  unfold struveH1 besselJ1
  norm_num

/-- **On the vertical of the source the horizontal derivative is exactly zero**: the approximate local
term cancels the derivative of the wave term. -/
theorem derivative_on_axis (v : ℝ) (hv : v < 0) : (havelock 0 v).2 = 0 := by
  have hd : √(0 * 0 + v * v) = -v := by
    rw [show (0 : ℝ) * 0 + v * v = (-v) ^ 2 by ring]; exact sqrt_sq (by linarith)
  have h1 : 1 + (-v) ^ 3 ≠ 0 := by
    have : 0 < (-v) ^ 3 := pow_pos (by linarith) 3
    positivity
  unfold havelock
  simp only [hd]
  unfold localLs waveWh localLsp
  rw [special_zero.1, special_zero.2]
  have hv0 : -v ≠ 0 := by linarith
  rw [zero_div, div_self hv0, neg_neg]
  have hp : (π : ℂ) ≠ 0 := by exact_mod_cast pi_pos.ne'
  have e : 2 * ((0 + 0) / (-v - v) - 2 * 0 + 2 * exp v * -v - 0) / (1 + (-v) ^ 3)
      - 4 * (exp v * (1 - 0) * (1 + -v / (1 + (-v) ^ 3)))
      + 2 * (-v / (1 + -v) * (1 - -v / (1 + -v)) ^ 3
        * (0 * horner dPolyA (-v / (1 + -v)) - (1 - 1) * horner dPolyB (-v / (1 + -v))
          + 0 * (1 - 0) * (-v / (1 + -v)) * (1 - 2 * (-v / (1 + -v)))
            * horner dPolyC (-v / (1 + -v)))) = -4 * exp v := by
    field_simp
    ring
  rw [e]
  push_cast
  field_simp
  ring

example : (havelock 0 (-2)).2 = 0 := derivative_on_axis (-2) (by norm_num)

/-! ### Where the formulas are defined -/

/-- No division by zero and no logarithm of a nonpositive number in `HavelockGF`. -/
def Defined (h v : ℝ) : Prop :=
  let d := √(h * h + v * v)
  let alpha := -v / d
  let rho := d / (1 + d)
  d ≠ 0 ∧ 1 + d ≠ 0 ∧ 0 < 0.5 * (d - v) ∧ 1 + d ^ 3 ≠ 0 ∧ 1 + 6 * alpha * rho * (1 - rho) ≠ 0
    ∧ d - v ≠ 0

/-- **The Green function is defined for all pairs of points under water**, except two points of the
free surface on the same vertical. -/
theorem defined_iff (h v : ℝ) (hv : v ≤ 0) : Defined h v ↔ h ≠ 0 ∨ v ≠ 0 := by
  constructor
  · intro hd
    by_contra hc
    push Not at hc
    obtain ⟨rfl, rfl⟩ := hc
    simp [Defined] at hd
  · intro hn
    have hpos : 0 < h * h + v * v := by
      rcases hn with hn | hn
      · have := mul_self_pos.mpr hn; have := mul_self_nonneg v; linarith
      · have := mul_self_pos.mpr hn; have := mul_self_nonneg h; linarith
    have hd : 0 < √(h * h + v * v) := sqrt_pos.mpr hpos
    unfold Defined
    simp only
    generalize √(h * h + v * v) = d at hd
    have h1 : 0 < 1 + d := by linarith
    have hr : d / (1 + d) ≤ 1 := by rw [div_le_one h1]; linarith
    have hr0 : 0 ≤ d / (1 + d) := by positivity
    have ha : 0 ≤ -v / d := div_nonneg (by linarith) hd.le
    refine ⟨hd.ne', h1.ne', by linarith, by positivity, ?_, by linarith⟩
    have : 0 ≤ 6 * (-v / d) * (d / (1 + d)) * (1 - d / (1 + d)) :=
      mul_nonneg (by positivity) (by linarith)
    positivity

/-- The denominators of the two quotients of the Struve functions are never zero. -/
theorem struve_denominators (x : ℝ) :
    horner h0Den ((3 / x) ^ 2) ≠ 0 ∧ horner h1Den ((3 / x) ^ 2) ≠ 0 := by
  have hy : 0 ≤ (3 / x) ^ 2 := sq_nonneg _
  generalize (3 / x) ^ 2 = y at hy
  rw [horner_ev, horner_ev]
  simp only [h0Den, h1Den, ev]
  push_cast
  constructor <;> positivity

example : Defined 0 (-1) ∧ Defined 2 0 ∧ ¬ Defined 0 0 :=
  ⟨(defined_iff 0 (-1) (by norm_num)).mpr (Or.inr (by norm_num)),
    (defined_iff 2 0 le_rfl).mpr (Or.inl (by norm_num)), by rw [defined_iff 0 0 le_rfl]; simp⟩

/-! ### The free surface condition -/

/-- A source and its image above the free surface, as a function of the height `z` of the observer. -/
noncomputable def rankine (x1 x2 : ℝ) (y : ℝ × ℝ × ℝ) (z : ℝ) : ℝ :=
  1 / √((x1 - y.1) ^ 2 + (x2 - y.2.1) ^ 2 + (z - y.2.2) ^ 2)
    + 1 / √((x1 - y.1) ^ 2 + (x2 - y.2.1) ^ 2 + (z + y.2.2) ^ 2)

theorem rankine_flat (x1 x2 : ℝ) (y : ℝ × ℝ × ℝ) (hy : y.2.2 < 0) :
    HasDerivAt (rankine x1 x2 y) 0 0 := by
  set c := (x1 - y.1) ^ 2 + (x2 - y.2.1) ^ 2
  have hc : 0 ≤ c := by positivity
  have hp : 0 < c + y.2.2 ^ 2 := by nlinarith
  have k : ∀ s : ℝ, s ^ 2 = y.2.2 ^ 2 →
      HasDerivAt (fun z : ℝ => 1 / √(c + (z + s) ^ 2)) (-(s / (√(c + y.2.2 ^ 2)) ^ 3)) 0 := by
    intro s hs
    have h1 : HasDerivAt (fun z : ℝ => c + (z + s) ^ 2) (2 * s) 0 := by
      refine ((((hasDerivAt_id (0 : ℝ)).add_const s).pow 2).const_add c).congr_deriv ?_
      simp
    have hne : c + ((0 : ℝ) + s) ^ 2 ≠ 0 := by rw [zero_add, hs]; exact hp.ne'
    have hs0 : √(c + ((0 : ℝ) + s) ^ 2) ≠ 0 := by
      rw [zero_add, hs]; exact (sqrt_pos.mpr hp).ne'
    refine ((hasDerivAt_const (0 : ℝ) (1 : ℝ)).div (h1.sqrt hne) hs0).congr_deriv ?_
    rw [zero_add, hs]
    have := (sqrt_pos.mpr hp).ne'
    field_simp
    ring
  have e : rankine x1 x2 y = fun z : ℝ => 1 / √(c + (z + -y.2.2) ^ 2) + 1 / √(c + (z + y.2.2) ^ 2) := by
    funext z
    unfold rankine
    rw [sub_eq_add_neg z]
  rw [e]
  refine ((k (-y.2.2) (by ring)).add (k y.2.2 rfl)).congr_deriv ?_
  ring

/-- **The computed Green function satisfies the condition of the free surface exactly**: at a point of
the free surface, the vertical derivative of the whole function (the two sources and the waves) is the
wavenumber times the function, whatever the errors of the approximations. -/
theorem free_surface_condition (k x1 x2 : ℝ) (y : ℝ × ℝ × ℝ) (hk : 0 < k) (hy : y.2.2 < 0) :
    ∃ dR : ℝ, HasDerivAt (rankine x1 x2 y) dR 0 ∧
      (dR : ℂ) + (wavePart k (x1, x2, 0) y).2.2.2
        = k * ((rankine x1 x2 y 0 : ℝ) + (wavePart k (x1, x2, 0) y).1) := by
  refine ⟨0, rankine_flat x1 x2 y hy, ?_⟩
  set c := (x1 - y.1) ^ 2 + (x2 - y.2.1) ^ 2 with hc
  have hc0 : 0 ≤ c := by positivity
  have hr : √((k * √c) ^ 2 + (k * (0 + y.2.2)) ^ 2) = k * √(c + y.2.2 ^ 2) := by
    rw [mul_pow, sq_sqrt hc0, show k ^ 2 * c + (k * (0 + y.2.2)) ^ 2 = k ^ 2 * (c + y.2.2 ^ 2) by ring,
      sqrt_mul (sq_nonneg k), sqrt_sq hk.le]
  have hR : rankine x1 x2 y 0 = 2 / √(c + y.2.2 ^ 2) := by
    unfold rankine
    rw [← hc, show (0 - y.2.2) ^ 2 = y.2.2 ^ 2 by ring, show (0 + y.2.2) ^ 2 = y.2.2 ^ 2 by ring]
    ring
  have hp : 0 < √(c + y.2.2 ^ 2) := sqrt_pos.mpr (by nlinarith)
  unfold wavePart
  simp only
  rw [← hc, hr, hR]
  have h1 : (k : ℂ) ≠ 0 := by exact_mod_cast hk.ne'
  have h2 : ((√(c + y.2.2 ^ 2) : ℝ) : ℂ) ≠ 0 := by exact_mod_cast hp.ne'
  push_cast
  field_simp
  ring

example : ∃ dR : ℝ, HasDerivAt (rankine 1 2 (0, 0, -3)) dR 0 ∧
    (dR : ℂ) + (wavePart 0.5 (1, 2, 0) (0, 0, -3)).2.2.2
      = (0.5 : ℝ) * ((rankine 1 2 (0, 0, -3) 0 : ℝ) + (wavePart 0.5 (1, 2, 0) (0, 0, -3)).1) :=
  free_surface_condition 0.5 1 2 (0, 0, -3) (by norm_num) (by norm_num)

/-! ### Symmetry -/

/-- **Exchanging the two points changes nothing to the function and to its vertical derivative, and
changes the sign of the horizontal derivatives.** -/
theorem exchange (k : ℝ) (x y : ℝ × ℝ × ℝ) :
    wavePart k y x = ((wavePart k x y).1, -(wavePart k x y).2.1, -(wavePart k x y).2.2.1,
      (wavePart k x y).2.2.2) := by
  have e1 : (y.1 - x.1) ^ 2 + (y.2.1 - x.2.1) ^ 2 = (x.1 - y.1) ^ 2 + (x.2.1 - y.2.1) ^ 2 := by ring
  have e2 : y.2.2 + x.2.2 = x.2.2 + y.2.2 := by ring
  unfold wavePart
  simp only [e1, e2]
  have e3 : k ^ 2 * (y.1 - x.1) = -(k ^ 2 * (x.1 - y.1)) := by ring
  have e4 : k ^ 2 * (y.2.1 - x.2.1) = -(k ^ 2 * (x.2.1 - y.2.1)) := by ring
  rw [e3, e4]
  split
  · push_cast
    simp only [Prod.mk.injEq]
    refine ⟨trivial, ?_, ?_, trivial⟩ <;> ring
  · simp

/-- The horizontal gradient points along the line between the two points, with the length of the
derivative along the distance. -/
theorem horizontal_gradient (k : ℝ) (x y : ℝ × ℝ × ℝ) (hk : 0 < k)
    (hr : 16 * 2 ^ (-52 : ℤ) < k * √((x.1 - y.1) ^ 2 + (x.2.1 - y.2.1) ^ 2)) :
    let R := √((x.1 - y.1) ^ 2 + (x.2.1 - y.2.1) ^ 2)
    let g := -(k : ℂ) ^ 2 * (havelock (k * R) (k * (x.2.2 + y.2.2))).2
    (wavePart k x y).2.1 = (((x.1 - y.1) / R : ℝ) : ℂ) * g
      ∧ (wavePart k x y).2.2.1 = (((x.2.1 - y.2.1) / R : ℝ) : ℂ) * g := by
  intro R g
  have hp : 0 < k * R := lt_trans (by positivity) hr
  have hR : 0 < R := by
    rcases (mul_pos_iff.mp hp) with h | h
    · exact h.2
    · exact absurd h.1 (by linarith)
  unfold wavePart
  simp only
  rw [if_pos (by rw [abs_of_pos hp]; exact hr), if_pos (by rw [abs_of_pos hp]; exact hr)]
  have h1 : (k : ℂ) ≠ 0 := by exact_mod_cast hk.ne'
  have h2 : (R : ℂ) ≠ 0 := by exact_mod_cast hR.ne'
  constructor
  · show (k : ℂ) * (((k ^ 2 * (x.1 - y.1) / (k * R) : ℝ) : ℂ) * -(havelock (k * R) _).2) = _
    push_cast
    field_simp
    ring
  · show (k : ℂ) * (((k ^ 2 * (x.2.1 - y.2.1) / (k * R) : ℝ) : ℂ) * -(havelock (k * R) _).2) = _
    push_cast
    field_simp
    ring

example : (16 * 2 ^ (-52 : ℤ) : ℝ) < 1 * √(((3 : ℝ) - 0) ^ 2 + (4 - 0) ^ 2) := by
  rw [show ((3 : ℝ) - 0) ^ 2 + (4 - 0) ^ 2 = 5 ^ 2 by norm_num, sqrt_sq (by norm_num)]
  norm_num

/-! ### The local term -/

theorem poly_bound (l : List ℚ) (m : ℚ) (n : ℕ) (t1 : nonneg (psub [m] l) n (1 / 2) (1 / 2) = true)
    (t2 : nonneg (padd [m] l) n (1 / 2) (1 / 2) = true) (y : ℝ) (h1 : 0 ≤ y) (h2 : y ≤ 1) :
    |horner l y| ≤ m := by
  have := abs_le_unit l [m] n t1 t2 y h1 h2
  rw [horner_ev]
  simpa [ev] using this

theorem localLp_le (a b r : ℝ) (ha : 0 ≤ a) (ha1 : a ≤ 1) (hb : 0 ≤ b) (hb1 : b ≤ 1) (hr : 0 ≤ r)
    (hr1 : r ≤ 1) : |localLp a b r| ≤ r * (1 - r) ^ 3 * 53 := by
  have pA := poly_bound polyA 26 9 (by decide +kernel) (by decide +kernel) r hr hr1
  have pB := poly_bound polyB 9 9 (by decide +kernel) (by decide +kernel) r hr hr1
  have pC := poly_bound polyC 22 9 (by decide +kernel) (by decide +kernel) r hr hr1
  have pD := poly_bound polyD 20 9 (by decide +kernel) (by decide +kernel) r hr hr1
  push_cast at *
  have hq : 1 ≤ 1 + 6 * a * r * (1 - r) := by
    have : 0 ≤ 6 * a * r * (1 - r) := mul_nonneg (by positivity) (by linarith)
    linarith
  unfold localLp
  have h0 : 0 ≤ r * (1 - r) ^ 3 := mul_nonneg hr (pow_nonneg (by linarith) 3)
  rw [abs_mul, abs_of_nonneg h0]
  refine mul_le_mul_of_nonneg_left ?_ h0
  have e1 : |(1 - b) * horner polyA r| ≤ (1 - b) * 26 := by
    rw [abs_mul, abs_of_nonneg (by linarith)]; gcongr
  have e2 : |b * horner polyB r| ≤ b * 9 := by rw [abs_mul, abs_of_nonneg hb]; gcongr
  have e3 : |a * horner polyC r / (1 + 6 * a * r * (1 - r))| ≤ 22 := by
    have hq0 : 0 < 1 + 6 * a * r * (1 - r) := by linarith
    rw [abs_div, abs_mul, abs_of_nonneg ha, abs_of_pos hq0, div_le_iff₀ hq0]
    nlinarith [abs_nonneg (horner polyC r)]
  have e4 : |b * (1 - b) * horner polyD r| ≤ 1 / 4 * 20 := by
    have h1 : 0 ≤ b * (1 - b) := mul_nonneg hb (by linarith)
    rw [abs_mul, abs_of_nonneg h1]
    have : b * (1 - b) ≤ 1 / 4 := by nlinarith [sq_nonneg (b - 1 / 2)]
    gcongr
  rw [abs_le] at *
  constructor <;> linarith

theorem localLsp_le (a b r : ℝ) (ha : 0 ≤ a) (ha1 : a ≤ 1) (hb : 0 ≤ b) (hb1 : b ≤ 1) (hr : 0 ≤ r)
    (hr1 : r ≤ 1) : |localLsp a b r| ≤ r * (1 - r) ^ 3 * 26 := by
  have pA := poly_bound dPolyA 10 9 (by decide +kernel) (by decide +kernel) r hr hr1
  have pB := poly_bound dPolyB 9 9 (by decide +kernel) (by decide +kernel) r hr hr1
  have pC := poly_bound dPolyC 28 9 (by decide +kernel) (by decide +kernel) r hr hr1
  push_cast at *
  unfold localLsp
  have h0 : 0 ≤ r * (1 - r) ^ 3 := mul_nonneg hr (pow_nonneg (by linarith) 3)
  rw [abs_mul, abs_of_nonneg h0]
  refine mul_le_mul_of_nonneg_left ?_ h0
  have e1 : |b * horner dPolyA r| ≤ 1 * 10 := by rw [abs_mul, abs_of_nonneg hb]; gcongr
  have e2 : |(1 - a) * horner dPolyB r| ≤ 1 * 9 := by
    rw [abs_mul, abs_of_nonneg (by linarith)]; gcongr; linarith
  have e3 : |b * (1 - b) * r * (1 - 2 * r) * horner dPolyC r| ≤ 1 / 4 * 28 := by
    have h1 : 0 ≤ b * (1 - b) := mul_nonneg hb (by linarith)
    have h2 : b * (1 - b) ≤ 1 / 4 := by nlinarith [sq_nonneg (b - 1 / 2)]
    have h3 : |r * (1 - 2 * r)| ≤ 1 := by rw [abs_le]; constructor <;> nlinarith
    rw [show b * (1 - b) * r * (1 - 2 * r) * horner dPolyC r
      = b * (1 - b) * (r * (1 - 2 * r) * horner dPolyC r) by ring, abs_mul, abs_of_nonneg h1]
    have h4 : |r * (1 - 2 * r) * horner dPolyC r| ≤ 28 := by
      rw [abs_mul]
      nlinarith [abs_nonneg (horner dPolyC r), abs_nonneg (r * (1 - 2 * r))]
    gcongr
  rw [abs_le] at *
  constructor <;> linarith

theorem angles (h v : ℝ) (hh : 0 ≤ h) (hv : v ≤ 0) (hd : 0 < √(h * h + v * v)) :
    (0 ≤ -v / √(h * h + v * v) ∧ -v / √(h * h + v * v) ≤ 1)
      ∧ (0 ≤ h / √(h * h + v * v) ∧ h / √(h * h + v * v) ≤ 1) := by
  have h1 : h ≤ √(h * h + v * v) := by apply le_sqrt_of_sq_le; nlinarith
  have h2 : -v ≤ √(h * h + v * v) := by apply le_sqrt_of_sq_le; nlinarith
  exact ⟨⟨div_nonneg (by linarith) hd.le, by rw [div_le_one hd]; exact h2⟩,
    div_nonneg hh hd.le, by rw [div_le_one hd]; exact h1⟩

/-- **Far away only the waves remain**: the local term decays as the inverse of the distance. -/
theorem far_waves_only (h v : ℝ) (hh : 0 ≤ h) (hv : v ≤ 0) (hd : 1 ≤ √(h * h + v * v)) :
    ‖(havelock h v).1 - waveW h v‖ ≤ 30 / √(h * h + v * v) := by
  have hd0 : 0 < √(h * h + v * v) := by linarith
  obtain ⟨⟨a0, a1⟩, b0, b1⟩ := angles h v hh hv hd0
  have h2 : -v ≤ √(h * h + v * v) := by apply le_sqrt_of_sq_le; nlinarith
  unfold havelock
  simp only [add_sub_cancel_right]
  rw [Complex.norm_real, norm_eq_abs]
  generalize √(h * h + v * v) = d at *
  have hr : d / (1 + d) ≤ 1 := by rw [div_le_one (by linarith)]; linarith
  have hr0 : 0 ≤ d / (1 + d) := by positivity
  have hL := localLp_le _ _ _ a0 a1 b0 b1 hr0 hr
  have hL2 : d / (1 + d) * (1 - d / (1 + d)) ^ 3 * 53 ≤ 53 / 8 / d := by
    rw [show 1 - d / (1 + d) = 1 / (1 + d) by field_simp; ring]
    rw [le_div_iff₀ hd0, div_mul_eq_mul_div, div_pow, one_pow, mul_one_div, div_div]
    rw [div_mul_eq_mul_div, div_mul_eq_mul_div, div_le_iff₀ (by positivity)]
    have : 8 * (d * d) ≤ (1 + d) * (1 + d) ^ 3 := by nlinarith [sq_nonneg (d - 1), pow_pos hd0 3, pow_pos hd0 4]
    nlinarith
  have ht0 : 0 < 0.5 * (d - v) := by linarith
  have hlu : log (0.5 * (d - v)) ≤ d := by
    have := log_le_sub_one_of_pos ht0
    norm_num at *
    linarith
  have hll : -d ≤ log (0.5 * (d - v)) := by
    have := one_sub_inv_le_log_of_pos ht0
    have hi : (0.5 * (d - v))⁻¹ ≤ 2 := by
      rw [inv_le_comm₀ ht0 (by norm_num)]; norm_num; linarith
    linarith
  have hev : exp v ≤ 1 := exp_le_one_iff.mpr hv
  have he0 := exp_pos v
  have hg : (gama : ℝ) = 0.5772156649 := by unfold gama; norm_num
  have hP : |exp v * (log (0.5 * (d - v)) + gama - 2 * d * d)| ≤ d + 1 + 2 * d * d := by
    rw [abs_mul, abs_of_pos he0]
    have h4 : |log (0.5 * (d - v)) + gama - 2 * d * d| ≤ d + 1 + 2 * d * d := by
      rw [hg, abs_le]
      constructor <;> norm_num at * <;> nlinarith
    nlinarith [abs_nonneg (log (0.5 * (d - v)) + gama - 2 * d * d)]
  have hE : |2 * (exp v * (log (0.5 * (d - v)) + gama - 2 * d * d) + d * d - v) / (1 + d ^ 3)|
      ≤ 12 / d := by
    rw [abs_div, abs_of_pos (show 0 < 1 + d ^ 3 by positivity), div_le_div_iff₀ (by positivity) hd0,
      abs_mul, abs_of_pos (by norm_num : (0 : ℝ) < 2)]
    have h5 : |exp v * (log (0.5 * (d - v)) + gama - 2 * d * d) + d * d - v| ≤ 6 * (d * d) := by
      rw [abs_le] at *
      constructor <;> nlinarith
    nlinarith [mul_le_mul_of_nonneg_right h5 hd0.le]
  unfold localL0
  refine (abs_add_le _ _).trans ?_
  rw [abs_mul 2 (localLp _ _ _), abs_of_pos (by norm_num : (0 : ℝ) < 2)]
  have : 12 / d + 2 * (53 / 8 / d) ≤ 30 / d := by
    rw [show 12 / d + 2 * (53 / 8 / d) = (25.25) / d by ring]; gcongr; norm_num
  linarith

example : ‖(havelock 3 (-4)).1 - waveW 3 (-4)‖ ≤ 30 / √(3 * 3 + -4 * -4) :=
  far_waves_only 3 (-4) (by norm_num) (by norm_num) (by rw [one_le_sqrt]; norm_num)

/-- **The singularity of the local term near the source** is that of twice the logarithm of half the sum
of the distance and the depth, with twice the constant of Euler. -/
theorem near_logarithm (h v : ℝ) (hh : 0 ≤ h) (hv : v ≤ 0) (hd0 : 0 < √(h * h + v * v))
    (hd1 : √(h * h + v * v) ≤ 1) :
    ‖(havelock h v).1 - waveW h v
        - ((2 * (log ((√(h * h + v * v) - v) / 2) + 0.5772156649) : ℝ) : ℂ)‖
      ≤ √(h * h + v * v) * (4 * |log ((√(h * h + v * v) - v) / 2)| + 120) := by
  obtain ⟨⟨a0, a1⟩, b0, b1⟩ := angles h v hh hv hd0
  have h2 : -v ≤ √(h * h + v * v) := by apply le_sqrt_of_sq_le; nlinarith
  unfold havelock
  simp only [add_sub_cancel_right]
  rw [← Complex.ofReal_sub, Complex.norm_real, norm_eq_abs]
  generalize √(h * h + v * v) = d at *
  have hr : d / (1 + d) ≤ 1 := by rw [div_le_one (by linarith)]; linarith
  have hr0 : 0 ≤ d / (1 + d) := by positivity
  have hL := localLp_le _ _ _ a0 a1 b0 b1 hr0 hr
  have hL2 : d / (1 + d) * (1 - d / (1 + d)) ^ 3 * 53 ≤ 53 * d := by
    have h3 : (1 - d / (1 + d)) ^ 3 ≤ 1 := pow_le_one₀ (by linarith) (by linarith)
    have h4 : d / (1 + d) ≤ d := div_le_self hd0.le (by linarith)
    have h5 : 0 ≤ (1 - d / (1 + d)) ^ 3 := pow_nonneg (by linarith) 3
    nlinarith
  unfold localL0
  rw [show (0.5 : ℝ) * (d - v) = (d - v) / 2 by norm_num; ring,
    show (gama : ℝ) = 0.5772156649 by unfold gama; norm_num]
  generalize log ((d - v) / 2) = l
  generalize localLp (-v / d) (h / d) (d / (1 + d)) = P at *
  have he1 : exp v ≤ 1 := exp_le_one_iff.mpr hv
  have he2 : 1 + v ≤ exp v := by linarith [add_one_le_exp v]
  have hc : 0 < 1 + d ^ 3 := by positivity
  have hd3 : d ^ 3 ≤ d := by nlinarith [sq_nonneg d, mul_nonneg hd0.le (sub_nonneg.mpr hd1)]
  have hs : |exp v / (1 + d ^ 3) - 1| ≤ 2 * d := by
    rw [div_sub_one hc.ne', abs_div, abs_of_pos hc, div_le_iff₀ hc, abs_le]
    have : 0 < d ^ 3 := by positivity
    constructor <;> nlinarith
  have hs2 : |(-2 * d * d * exp v + d * d - v) / (1 + d ^ 3)| ≤ 3 * d := by
    rw [abs_div, abs_of_pos hc, div_le_iff₀ hc, abs_le]
    have : 0 < d ^ 3 := by positivity
    have h6 : d * d ≤ d := by nlinarith
    have h7 : d * d * exp v ≤ d * d := by nlinarith [exp_pos v, mul_pos hd0 hd0]
    have h8 : 0 ≤ d * d * exp v := by positivity
    constructor <;> nlinarith
  have e : 2 * (exp v * (l + 0.5772156649 - 2 * d * d) + d * d - v) / (1 + d ^ 3) + 2 * P
      - 2 * (l + 0.5772156649)
      = 2 * ((exp v / (1 + d ^ 3) - 1) * (l + 0.5772156649))
        + (2 * ((-2 * d * d * exp v + d * d - v) / (1 + d ^ 3)) + 2 * P) := by
    field_simp
    ring
  rw [e]
  refine (abs_add_le _ _).trans ?_
  have k1 : |2 * ((exp v / (1 + d ^ 3) - 1) * (l + 0.5772156649))| ≤ 2 * (2 * d * (|l| + 1)) := by
    rw [abs_mul, abs_mul, abs_of_pos (by norm_num : (0 : ℝ) < 2)]
    have : |l + 0.5772156649| ≤ |l| + 1 := by
      refine (abs_add_le _ _).trans ?_
      rw [abs_of_pos (by norm_num : (0 : ℝ) < 0.5772156649)]
      norm_num
    gcongr
  have k2 : |2 * ((-2 * d * d * exp v + d * d - v) / (1 + d ^ 3)) + 2 * P|
      ≤ 2 * (3 * d) + 2 * (53 * d) := by
    refine (abs_add_le _ _).trans ?_
    rw [abs_mul, abs_mul, abs_of_pos (by norm_num : (0 : ℝ) < 2)]
    linarith
  linarith

example : √((0.3 : ℝ) * 0.3 + -0.4 * -0.4) = 0.5 := by
  rw [show (0.3 : ℝ) * 0.3 + -0.4 * -0.4 = 0.5 ^ 2 by norm_num, sqrt_sq (by norm_num)]

/-- The horizontal derivative of the local term decays as the square of the inverse of the distance. -/
theorem far_derivative_waves_only (h v : ℝ) (hh : 0 ≤ h) (hv : v ≤ 0) (hd : 1 ≤ √(h * h + v * v)) :
    ‖(havelock h v).2 - waveWh h v‖ ≤ 60 / √(h * h + v * v) ^ 2 := by
  have hd0 : 0 < √(h * h + v * v) := by linarith
  obtain ⟨⟨a0, a1⟩, b0, b1⟩ := angles h v hh hv hd0
  have h2 : -v ≤ √(h * h + v * v) := by apply le_sqrt_of_sq_le; nlinarith
  have h1 : h ≤ √(h * h + v * v) := by apply le_sqrt_of_sq_le; nlinarith
  unfold havelock
  simp only [add_sub_cancel_right]
  rw [Complex.norm_real, norm_eq_abs]
  generalize √(h * h + v * v) = d at *
  have hr : d / (1 + d) ≤ 1 := by rw [div_le_one (by linarith)]; linarith
  have hr0 : 0 ≤ d / (1 + d) := by positivity
  have hL := localLsp_le _ _ _ a0 a1 b0 b1 hr0 hr
  have hL2 : d / (1 + d) * (1 - d / (1 + d)) ^ 3 * 26 ≤ 26 / 4 / d ^ 2 := by
    rw [show 1 - d / (1 + d) = 1 / (1 + d) by field_simp; ring]
    rw [le_div_iff₀ (by positivity), div_mul_eq_mul_div, div_pow, one_pow, mul_one_div, div_div]
    rw [div_mul_eq_mul_div, div_mul_eq_mul_div, div_le_iff₀ (by positivity)]
    have : 4 * (d * d ^ 2) ≤ (1 + d) * (1 + d) ^ 3 := by
      nlinarith [sq_nonneg (d - 1), pow_pos hd0 3, pow_pos hd0 4]
    nlinarith
  generalize h / d = b at *
  have hdv : d ≤ d - v := by linarith
  have hq : |(b + h) / (d - v)| ≤ 2 := by
    rw [abs_div, abs_of_nonneg (by linarith), abs_of_pos (by linarith), div_le_iff₀ (by linarith)]
    linarith
  have hev : exp v ≤ 1 := exp_le_one_iff.mpr hv
  have he0 := exp_pos v
  have hE : |2 * ((b + h) / (d - v) - 2 * b + 2 * exp v * d - h) / (1 + d ^ 3)| ≤ 14 / d ^ 2 := by
    rw [abs_div, abs_of_pos (show 0 < 1 + d ^ 3 by positivity),
      div_le_div_iff₀ (by positivity) (by positivity), abs_mul, abs_of_pos (by norm_num : (0 : ℝ) < 2)]
    have h5 : |(b + h) / (d - v) - 2 * b + 2 * exp v * d - h| ≤ 7 * d := by
      rw [abs_le] at *
      have : exp v * d ≤ d := by nlinarith
      have : 0 ≤ exp v * d := by positivity
      constructor <;> nlinarith
    nlinarith [mul_le_mul_of_nonneg_right h5 (sq_nonneg d)]
  have hX : |4 * (exp (-d) * (1 - b) * (1 + d / (1 + d ^ 3)))| ≤ 16 / d ^ 2 := by
    have x1 : exp (-d) ≤ 2 / d ^ 2 := by
      rw [exp_neg, inv_eq_one_div, div_le_div_iff₀ (exp_pos d) (by positivity)]
      have := quadratic_le_exp_of_nonneg hd0.le
      nlinarith
    have x2 : d / (1 + d ^ 3) ≤ 1 := by
      rw [div_le_one (by positivity)]
      nlinarith [pow_pos hd0 3, mul_le_mul_of_nonneg_left hd (sq_nonneg d)]
    have x3 : 0 ≤ d / (1 + d ^ 3) := by positivity
    have x4 : 0 ≤ exp (-d) * (1 - b) * (1 + d / (1 + d ^ 3)) :=
      mul_nonneg (mul_nonneg (exp_pos _).le (by linarith)) (by linarith)
    rw [abs_of_nonneg (by positivity)]
    calc 4 * (exp (-d) * (1 - b) * (1 + d / (1 + d ^ 3))) ≤ 4 * (2 / d ^ 2 * 1 * (1 + 1)) := by
          gcongr
          linarith
      _ = _ := by ring
  unfold localLs
  refine (abs_add_le _ _).trans ?_
  have hsub := (abs_sub _ _).trans (add_le_add hE hX)
  rw [abs_mul 2 (localLsp _ _ _), abs_of_pos (by norm_num : (0 : ℝ) < 2)]
  have : 14 / d ^ 2 + 16 / d ^ 2 + 2 * (26 / 4 / d ^ 2) ≤ 60 / d ^ 2 := by
    rw [show 14 / d ^ 2 + 16 / d ^ 2 + 2 * (26 / 4 / d ^ 2) = 43 / d ^ 2 by ring]; gcongr; norm_num
  linarith


end Verif.Green.Lwn
