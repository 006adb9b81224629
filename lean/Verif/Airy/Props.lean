import Verif.Airy.Model
import Verif.Frequency.FreqProps

/-!
# The incoming wave is a potential flow (C09)
-/

namespace Verif.Airy

open Verif.Frequency

/-- The vertical profiles have the right derivatives. -/
theorem cih_deriv (pb : Pb) (z : ℝ) : HasDerivAt (cih pb) (pb.k * sih pb z) z := by
  unfold cih sih
  by_cases h : pb.shallow
  · simp only [if_pos h]
    have h1 : HasDerivAt (fun z : ℝ => pb.k * (z + pb.hFin)) pb.k z := by
      simpa using ((hasDerivAt_id z).add_const pb.hFin).const_mul pb.k
    have h2 := (h1.cosh).div_const (Real.cosh (pb.k * pb.hFin))
    exact h2.congr_deriv (by ring)
  · simp only [if_neg h]
    have h1 : HasDerivAt (fun z : ℝ => pb.k * z) pb.k z := by
      simpa using (hasDerivAt_id z).const_mul pb.k
    exact h1.exp.congr_deriv (by ring)

theorem sih_deriv (pb : Pb) (z : ℝ) : HasDerivAt (sih pb) (pb.k * cih pb z) z := by
  unfold cih sih
  by_cases h : pb.shallow
  · simp only [if_pos h]
    have h1 : HasDerivAt (fun z : ℝ => pb.k * (z + pb.hFin)) pb.k z := by
      simpa using ((hasDerivAt_id z).add_const pb.hFin).const_mul pb.k
    have h2 := (h1.sinh).div_const (Real.cosh (pb.k * pb.hFin))
    exact h2.congr_deriv (by ring)
  · simp only [if_neg h]
    have h1 : HasDerivAt (fun z : ℝ => pb.k * z) pb.k z := by
      simpa using (hasDerivAt_id z).const_mul pb.k
    exact h1.exp.congr_deriv (by ring)

theorem phase_deriv_x (pb : Pb) (x y : ℝ) :
    HasDerivAt (fun x : ℝ => Complex.exp (Complex.I * pb.k * wbar pb x y))
      (Complex.I * pb.k * Real.cos pb.encounterDirection *
        Complex.exp (Complex.I * pb.k * wbar pb x y)) x := by
  have h1 : HasDerivAt (fun x : ℝ => wbar pb x y) (Real.cos pb.encounterDirection) x := by
    unfold wbar
    simpa using ((hasDerivAt_id x).mul_const (Real.cos pb.encounterDirection)).add_const (y * Real.sin pb.encounterDirection)
  have h2 := (h1.ofReal_comp.const_mul (Complex.I * pb.k)).cexp
  exact h2.congr_deriv (by ring)

theorem phase_deriv_y (pb : Pb) (x y : ℝ) :
    HasDerivAt (fun y : ℝ => Complex.exp (Complex.I * pb.k * wbar pb x y))
      (Complex.I * pb.k * Real.sin pb.encounterDirection *
        Complex.exp (Complex.I * pb.k * wbar pb x y)) y := by
  have h1 : HasDerivAt (fun y : ℝ => wbar pb x y) (Real.sin pb.encounterDirection) y := by
    unfold wbar
    simpa using ((hasDerivAt_id y).mul_const (Real.sin pb.encounterDirection)).const_add (x * Real.cos pb.encounterDirection)
  have h2 := (h1.ofReal_comp.const_mul (Complex.I * pb.k)).cexp
  exact h2.congr_deriv (by ring)

/-- Derivatives of the potential, in terms of the potential. -/
theorem potential_deriv_x (pb : Pb) (x y z : ℝ) :
    HasDerivAt (fun x : ℝ => potential pb x y z)
      (Complex.I * pb.k * Real.cos pb.encounterDirection * potential pb x y z) x := by
  unfold potential
  exact ((phase_deriv_x pb x y).const_mul (-Complex.I * pb.g / pb.omega * cih pb z)).congr_deriv (by ring)

theorem potential_deriv_y (pb : Pb) (x y z : ℝ) :
    HasDerivAt (fun y : ℝ => potential pb x y z)
      (Complex.I * pb.k * Real.sin pb.encounterDirection * potential pb x y z) y := by
  unfold potential
  exact ((phase_deriv_y pb x y).const_mul (-Complex.I * pb.g / pb.omega * cih pb z)).congr_deriv (by ring)

theorem potential_deriv_z (pb : Pb) (x y z : ℝ) :
    HasDerivAt (fun z : ℝ => potential pb x y z)
      (-Complex.I * pb.g / pb.omega * (pb.k * sih pb z) *
        Complex.exp (Complex.I * pb.k * wbar pb x y)) z := by
  unfold potential
  have := (((cih_deriv pb z).ofReal_comp).const_mul (-Complex.I * pb.g / pb.omega)).mul_const
    (Complex.exp (Complex.I * pb.k * wbar pb x y))
  exact this.congr_deriv (by push_cast; ring)

theorem potential_deriv_zz (pb : Pb) (x y z : ℝ) :
    HasDerivAt (fun z : ℝ => -Complex.I * pb.g / pb.omega * (pb.k * sih pb z) *
        Complex.exp (Complex.I * pb.k * wbar pb x y)) (pb.k ^ 2 * potential pb x y z) z := by
  have := ((((sih_deriv pb z).ofReal_comp).const_mul (pb.k : ℂ)).const_mul
    (-Complex.I * pb.g / pb.omega)).mul_const (Complex.exp (Complex.I * pb.k * wbar pb x y))
  exact this.congr_deriv (by unfold potential; push_cast; ring)

/-- Specification: `v` is the gradient of `φ` at a point. -/
def IsGradientAt (φ : ℝ → ℝ → ℝ → ℂ) (v : ℂ × ℂ × ℂ) (x y z : ℝ) : Prop :=
  HasDerivAt (fun t => φ t y z) v.1 x ∧ HasDerivAt (fun t => φ x t z) v.2.1 y ∧
    HasDerivAt (fun t => φ x y t) v.2.2 z

/-- Specification: Laplace equation. -/
def HarmonicAt (φ : ℝ → ℝ → ℝ → ℂ) (x y z : ℝ) : Prop :=
  deriv (deriv fun t => φ t y z) x + deriv (deriv fun t => φ x t z) y +
    deriv (deriv fun t => φ x y t) z = 0

/-- **C09, gradient, partial.** When the waves are not overtaken, the velocity is the gradient of the
potential at all points. Missing: overtaken waves, for which it is false
(`velocity_not_gradient_violated`). -/
theorem velocity_is_gradient_partial (pb : Pb) (hdir : pb.encounterDirection = pb.waveDirection)
    (x y z : ℝ) : IsGradientAt (potential pb) (velocity pb x y z) x y z := by
  have hI : Complex.I * Complex.I = -1 := Complex.I_mul_I
  refine ⟨?_, ?_, ?_⟩
  · refine (potential_deriv_x pb x y z).congr_deriv ?_
    symm
    simp only [velocity, velocityFactor, potential, hdir]
    linear_combination (pb.g * pb.k / pb.omega * Complex.exp (Complex.I * pb.k * wbar pb x y) *
      (Real.cos pb.waveDirection * cih pb z) : ℂ) * hI
  · refine (potential_deriv_y pb x y z).congr_deriv ?_
    symm
    simp only [velocity, velocityFactor, potential, hdir]
    linear_combination (pb.g * pb.k / pb.omega * Complex.exp (Complex.I * pb.k * wbar pb x y) *
      (Real.sin pb.waveDirection * cih pb z) : ℂ) * hI
  · refine (potential_deriv_z pb x y z).congr_deriv ?_
    symm
    simp only [velocity, velocityFactor]
    ring

/-- **C09, Laplace equation**, for all problems and at all points. -/
theorem potential_harmonic (pb : Pb) (x y z : ℝ) : HarmonicAt (potential pb) x y z := by
  unfold HarmonicAt
  have hx : deriv (fun t => potential pb t y z) =
      fun t => Complex.I * pb.k * Real.cos pb.encounterDirection * potential pb t y z :=
    funext fun t => (potential_deriv_x pb t y z).deriv
  have hy : deriv (fun t => potential pb x t z) =
      fun t => Complex.I * pb.k * Real.sin pb.encounterDirection * potential pb x t z :=
    funext fun t => (potential_deriv_y pb x t z).deriv
  have hz : deriv (fun t => potential pb x y t) =
      fun t => -Complex.I * pb.g / pb.omega * (pb.k * sih pb t) *
        Complex.exp (Complex.I * pb.k * wbar pb x y) :=
    funext fun t => (potential_deriv_z pb x y t).deriv
  rw [hx, hy, hz, ((potential_deriv_x pb x y z).const_mul _).deriv,
    ((potential_deriv_y pb x y z).const_mul _).deriv, (potential_deriv_zz pb x y z).deriv]
  have hI : Complex.I * Complex.I = -1 := Complex.I_mul_I
  have hcs : ((Real.cos pb.encounterDirection : ℝ) : ℂ) ^ 2 +
      ((Real.sin pb.encounterDirection : ℝ) : ℂ) ^ 2 = 1 := by
    exact_mod_cast Real.cos_sq_add_sin_sq pb.encounterDirection
  linear_combination ((pb.k : ℂ) ^ 2 * potential pb x y z * (((Real.cos pb.encounterDirection : ℝ) : ℂ) ^ 2 +
      ((Real.sin pb.encounterDirection : ℝ) : ℂ) ^ 2)) * hI - (pb.k : ℂ) ^ 2 * potential pb x y z * hcs

/-- **C09, sea bottom, partial.** In finite depth with `k h < 20`, the vertical velocity vanishes at
the sea bottom. -/
theorem bottom_condition_partial (pb : Pb) (h : ℝ) (hh : pb.h = some h) (h0 : 0 ≤ pb.k * h)
    (h20 : pb.k * h < 20) (x y : ℝ) : HasDerivAt (fun z : ℝ => potential pb x y z) 0 (-h) := by
  have hs : pb.shallow := by unfold Pb.shallow; rw [hh]; exact ⟨h0, h20⟩
  have hf : pb.hFin = h := by unfold Pb.hFin; rw [hh]; rfl
  refine (potential_deriv_z pb x y (-h)).congr_deriv ?_
  unfold sih
  rw [if_pos hs, hf]
  simp

/-- **C09, sea bottom, for larger `k h`.** There the code uses the profile of infinite depth: the
velocity through the bottom is not zero, but its modulus is exactly `e^{-kh}` times the one at the free
surface, hence less than `e^{-20}` times it. -/
theorem bottom_velocity_deep (pb : Pb) (h : ℝ) (hh : pb.h = some h) (h20 : 20 ≤ pb.k * h) (x y : ℝ) :
    ‖(velocity pb x y (-h)).2.2‖ = Real.exp (-(pb.k * h)) * ‖(velocity pb x y 0).2.2‖ ∧
    ‖(velocity pb x y (-h)).2.2‖ ≤ Real.exp (-20) * ‖(velocity pb x y 0).2.2‖ := by
  have hs : ¬ pb.shallow := by unfold Pb.shallow; rw [hh]; simp only; rintro ⟨_, h'⟩; linarith
  have key : ‖(velocity pb x y (-h)).2.2‖ = Real.exp (-(pb.k * h)) * ‖(velocity pb x y 0).2.2‖ := by
    simp only [velocity, sih, if_neg hs, norm_mul, mul_zero, Real.exp_zero]
    rw [show pb.k * -h = -(pb.k * h) by ring]
    rw [Complex.norm_real, Complex.norm_real, Real.norm_eq_abs, abs_of_pos (Real.exp_pos _)]
    simp
    ring
  refine ⟨key, ?_⟩
  rw [key]
  exact mul_le_mul_of_nonneg_right (Real.exp_le_exp.2 (by linarith)) (norm_nonneg _)

/-- **C09, sea bottom in infinite depth.** The vertical velocity tends to zero far below. -/
theorem bottom_condition_infinite (pb : Pb) (hh : pb.h = ⊤) (hk : 0 < pb.k) (x y : ℝ) :
    Filter.Tendsto (fun z : ℝ => (velocity pb x y z).2.2) Filter.atBot (nhds 0) := by
  have hs : ¬ pb.shallow := by unfold Pb.shallow; rw [hh]; exact fun h => h
  simp only [velocity, sih, if_neg hs]
  have h1 : Filter.Tendsto (fun z : ℝ => Real.exp (pb.k * z)) Filter.atBot (nhds 0) :=
    Real.tendsto_exp_atBot.comp (Filter.tendsto_id.const_mul_atBot hk)
  have h2 : Filter.Tendsto (fun z : ℝ => ((Real.exp (pb.k * z) : ℝ) : ℂ)) Filter.atBot (nhds 0) := by
    have := (Complex.continuous_ofReal.tendsto 0).comp h1
    rw [Complex.ofReal_zero] at this
    exact this
  have h3 := (h2.const_mul (-Complex.I)).const_mul (velocityFactor pb x y)
  simpa using h3

/-- **C09, free surface condition.** `g ∂φ/∂z = ω² φ` at `z = 0`, in infinite depth and in finite
depth with `k h < 20`, as soon as the dispersion relation holds (C06) and the wavenumber is positive.
-/
theorem free_surface_condition_partial (pb : Pb) (hk : 0 < pb.k)
    (hdisp : Dispersion pb.g pb.h pb.omega pb.k) (hs : pb.h = ⊤ ∨ pb.shallow) (x y : ℝ) :
    ∃ d, HasDerivAt (fun z : ℝ => potential pb x y z) d 0 ∧
      pb.g * d = (pb.omega : ℂ) ^ 2 * potential pb x y 0 := by
  refine ⟨_, potential_deriv_z pb x y 0, ?_⟩
  have key : pb.g * (pb.k * sih pb 0) = pb.omega ^ 2 * cih pb 0 := by
    rcases hs with hinf | hs
    · have hns : ¬ pb.shallow := by unfold Pb.shallow; rw [hinf]; exact fun h => h
      rw [hinf] at hdisp
      rcases hdisp with ⟨_, e⟩ | ⟨hneg, _⟩
      · simp only [sih, cih, if_neg hns, mul_zero, Real.exp_zero, mul_one]
        linarith
      · linarith
    · simp only [sih, cih, if_pos hs, zero_add]
      have hs' := hs
      unfold Pb.shallow at hs'
      match hh : pb.h with
      | none => rw [hh] at hs'; exact hs'.elim
      | some h =>
        have hf : pb.hFin = h := by unfold Pb.hFin; rw [hh]; rfl
        rw [hh] at hdisp
        have e : pb.omega ^ 2 = pb.g * pb.k * Real.tanh (pb.k * h) := hdisp
        rw [hf, e, Real.tanh_eq_sinh_div_cosh]
        have := (Real.cosh_pos (pb.k * h)).ne'
        field_simp
  have key' : (pb.g : ℂ) * (pb.k * sih pb 0) = (pb.omega : ℂ) ^ 2 * cih pb 0 := by exact_mod_cast key
  unfold potential
  linear_combination (-Complex.I * pb.g / pb.omega * Complex.exp (Complex.I * pb.k * wbar pb x y)) * key'

/-- **C09, free surface condition for larger `k h`.** The defect is exactly
`g k (1 - tanh(k h)) φ`, which is below `10⁻¹⁷ g k φ`. -/
theorem free_surface_defect (pb : Pb) (h : ℝ) (hh : pb.h = some h) (h20 : 20 ≤ pb.k * h)
    (hdisp : Dispersion pb.g pb.h pb.omega pb.k) (x y : ℝ) :
    ∃ d, HasDerivAt (fun z : ℝ => potential pb x y z) d 0 ∧
      pb.g * d - (pb.omega : ℂ) ^ 2 * potential pb x y 0 =
        pb.g * pb.k * ((1 - Real.tanh (pb.k * h) : ℝ) : ℂ) * potential pb x y 0 ∧
      0 < 1 - Real.tanh (pb.k * h) ∧ 1 - Real.tanh (pb.k * h) < 2 * Real.exp (-40) := by
  have hs : ¬ pb.shallow := by unfold Pb.shallow; rw [hh]; simp only; rintro ⟨_, h'⟩; linarith
  refine ⟨_, potential_deriv_z pb x y 0, ?_, ?_, ?_⟩
  · rw [hh] at hdisp
    have e : pb.omega ^ 2 = pb.g * pb.k * Real.tanh (pb.k * h) := hdisp
    have e' : (pb.omega : ℂ) ^ 2 = pb.g * pb.k * ((Real.tanh (pb.k * h) : ℝ) : ℂ) := by exact_mod_cast e
    have hsc : sih pb 0 = cih pb 0 := by simp [sih, cih, hs]
    rw [e']
    unfold potential
    rw [hsc, Complex.ofReal_sub, Complex.ofReal_one]
    ring
  · linarith [Real.tanh_lt_one (pb.k * h)]
  · have hm : Real.tanh 20 ≤ Real.tanh (pb.k * h) := tanh_strictMono.monotone h20
    have : 1 - Real.tanh 20 < 2 * Real.exp (-40) := by
      rw [Real.tanh_eq]
      have hp : 0 < Real.exp 20 + Real.exp (-20) := by positivity
      rw [one_sub_div hp.ne', div_lt_iff₀ hp]
      have e1 : Real.exp (-40) * Real.exp 20 = Real.exp (-20) := by
        rw [← Real.exp_add]; norm_num
      have e2 : 0 < Real.exp (-40) * Real.exp (-20) := by positivity
      nlinarith
    linarith

/-- The elevation of the incoming wave has amplitude one and its crests travel towards the encounter
direction; the pressure at the free surface is `ρ g` times the elevation. -/
theorem elevation_unit_amplitude (pb : Pb) (hg : pb.g ≠ 0) (hw : pb.omega ≠ 0) (x y : ℝ) :
    ‖elevation pb x y‖ = 1 ∧
    elevation pb x y = Complex.exp (Complex.I * pb.k * (x * Real.cos pb.encounterDirection +
      y * Real.sin pb.encounterDirection)) ∧
    pressure pb x y 0 = pb.rho * pb.g * elevation pb x y := by
  have hc : cih pb 0 = 1 := by
    unfold cih
    split
    · rw [zero_add]; exact div_self (Real.cosh_pos _).ne'
    · simp
  have hg' : (pb.g : ℂ) ≠ 0 := by exact_mod_cast hg
  have hw' : (pb.omega : ℂ) ≠ 0 := by exact_mod_cast hw
  have e : elevation pb x y = Complex.exp (Complex.I * pb.k * wbar pb x y) := by
    unfold elevation potential
    rw [hc]
    field_simp
    simp [Complex.I_sq]
  refine ⟨?_, ?_, ?_⟩
  · rw [e, show Complex.I * pb.k * wbar pb x y = ((pb.k * wbar pb x y : ℝ) : ℂ) * Complex.I by
      push_cast; ring]
    exact Complex.norm_exp_ofReal_mul_I _
  · rw [e, wbar]; push_cast; rfl
  · unfold pressure elevation
    field_simp

/-- Problem in infinite depth with `g = ω = k = 1`, following waves overtaken by the body (as by
speed 2, see C08). -/
noncomputable def overtakenPb : Pb :=
  { k := 1, h := ⊤, g := 1, omega := 1, rho := 1, waveDirection := 0, encounterDirection := 0 + Real.pi }

/-- **C09 is violated for overtaken waves**: the horizontal velocity is the opposite of the derivative
of the potential. -/
theorem velocity_not_gradient_violated : ¬ IsGradientAt (potential overtakenPb)
    (velocity overtakenPb 0 0 0) 0 0 0 := by
  rintro ⟨h, _, _⟩
  have h2 := h.unique (potential_deriv_x overtakenPb 0 0 0)
  have hs : ¬ overtakenPb.shallow := fun h => h
  have hw : wbar overtakenPb 0 0 = 0 := by simp [wbar]
  simp only [velocity, velocityFactor, potential, cih, if_neg hs, hw] at h2
  simp [overtakenPb] at h2
  norm_num at h2

/-- For any overtaken waves the velocity is the gradient of the potential with its horizontal
components reversed. -/
theorem velocity_overtaken (pb : Pb) (hdir : pb.encounterDirection = pb.waveDirection + Real.pi)
    (x y z : ℝ) : IsGradientAt (potential pb)
      (-(velocity pb x y z).1, -(velocity pb x y z).2.1, (velocity pb x y z).2.2) x y z := by
  have hI : Complex.I * Complex.I = -1 := Complex.I_mul_I
  refine ⟨?_, ?_, ?_⟩
  · refine (potential_deriv_x pb x y z).congr_deriv ?_
    symm
    simp only [velocity, velocityFactor, potential, hdir, Real.cos_add_pi, Complex.ofReal_neg]
    linear_combination -(pb.g * pb.k / pb.omega * Complex.exp (Complex.I * pb.k * wbar pb x y) *
      (Real.cos pb.waveDirection * cih pb z) : ℂ) * hI
  · refine (potential_deriv_y pb x y z).congr_deriv ?_
    symm
    simp only [velocity, velocityFactor, potential, hdir, Real.sin_add_pi, Complex.ofReal_neg]
    linear_combination -(pb.g * pb.k / pb.omega * Complex.exp (Complex.I * pb.k * wbar pb x y) *
      (Real.sin pb.waveDirection * cih pb z) : ℂ) * hI
  · refine (potential_deriv_z pb x y z).congr_deriv ?_
    symm
    simp only [velocity, velocityFactor]
    ring

/-- A problem meeting the hypotheses in finite depth: `k = 1`, `h = 1`, `g = 1`,
`ω = √(tanh 1)`. -/
noncomputable def shallowPb : Pb :=
  { k := 1, h := ((1 : ℝ) : Input), g := 1, omega := √(Real.tanh 1), rho := 1000,
    waveDirection := 0, encounterDirection := 0 }

example : shallowPb.shallow ∧ 0 < shallowPb.k ∧
    Dispersion shallowPb.g shallowPb.h shallowPb.omega shallowPb.k ∧
    shallowPb.encounterDirection = shallowPb.waveDirection := by
  refine ⟨?_, one_pos, ?_, rfl⟩
  · change (0 : ℝ) ≤ 1 * 1 ∧ (1 : ℝ) * 1 < 20
    norm_num
  · change (√(Real.tanh 1)) ^ 2 = 1 * 1 * Real.tanh (1 * 1)
    rw [Real.sq_sqrt (tanh_pos one_pos).le]
    simp

example : overtakenPb.encounterDirection = overtakenPb.waveDirection + Real.pi := rfl

end Verif.Airy
