import Verif.Green.LintonErrModel
import Verif.Green.ErfProps
import Mathlib.Analysis.Calculus.Deriv.Slope

/-!
# The derivatives of the error functions in Linton's method, and the value for a point and itself
-/

namespace Verif.Green.LintonErr

open Finset Real Filter Topology

theorem root_deriv {f g : ℝ → ℝ} {f' g' x : ℝ} (hf : HasDerivAt f f' x) (hg : HasDerivAt g g' x) (h : 0 < f x ^ 2 + g x ^ 2) :
    HasDerivAt (fun x => √(f x ^ 2 + g x ^ 2)) ((f x * f' + g x * g') / √(f x ^ 2 + g x ^ 2)) x := by
  have hs : 0 < √(f x ^ 2 + g x ^ 2) := sqrt_pos.2 h
  refine (((hf.pow 2).add (hg.pow 2)).sqrt h.ne').congr_deriv ?_
  simp only [Nat.cast_ofNat, Pi.add_apply, Pi.pow_apply]
  field_simp
  norm_num
  ring

variable {e e' : ℝ → ℝ}

/-- The derivative of one of the terms, from that of the distance. -/
theorem term_deriv (he : ∀ x, HasDerivAt e (e' x) x) {pa : ℝ} (hpa : pa ≠ 0) {s : ℝ → ℝ} {s' x c : ℝ} (hs : HasDerivAt s s' x) (h0 : s x ≠ 0) :
    HasDerivAt (fun x => (e (s x / pa) - c) / (4 * π * s x))
      ((e' (s x / pa) / pa * s' * s x - s' * (e (s x / pa) - c)) / (4 * π * s x ^ 2)) x := by
  have hp := pi_pos.ne'
  have h1 : HasDerivAt (fun x => e (s x / pa)) (e' (s x / pa) * (s' / pa)) x := HasDerivAt.comp x (he _) (hs.div_const pa)
  refine ((h1.sub_const c).div (hs.const_mul (4 * π)) (by positivity)).congr_deriv ?_
  field_simp

/-- The points are between the bottom and the free surface, not both on the bottom and not both on the free surface. -/
structure InWater (zf zp h : ℝ) : Prop where
  pos : 0 < h
  f0 : zf ≤ 0
  fh : -h ≤ zf
  p0 : zp ≤ 0
  ph : -h ≤ zp
  surface : zf + zp < 0
  bottom : -2 * h < zf + zp

theorem InWater.chi_pos {zf zp h : ℝ} (w : InWater zf zp h) (i : ℕ) : 0 < chi zf zp h i := by
  obtain ⟨a, b, c, d, f, g, k⟩ := w
  match i with
  | 0 => simp only [chi]; linarith
  | 1 => simp only [chi]; linarith
  | 2 => simp only [chi]; linarith
  | n + 3 => simp only [chi]; linarith

theorem chi_deriv (zf zp h : ℝ) (i : ℕ) : HasDerivAt (fun z => chi z zp h i) (dchi i) zf := by
  match i with
  | 0 => simpa [chi, dchi] using (hasDerivAt_id zf).const_sub (-zp)
  | 1 => simpa [chi, dchi] using (hasDerivAt_id zf).const_add (2 * h - zp)
  | 2 => simpa [chi, dchi] using (hasDerivAt_id zf).const_sub (2 * h + zp)
  | n + 3 => simpa [chi, dchi] using (hasDerivAt_id zf).const_add (4 * h + zp)

theorem dchi_sign {i : ℕ} (hi : i ∈ range 4) : dchi i = (-1) ^ (i + 1) := by
  have : i < 4 := mem_range.1 hi
  interval_cases i <;> norm_num [dchi]

theorem add_pos_sq {r c : ℝ} (hc : c ≠ 0) : 0 < r ^ 2 + c ^ 2 := by
  have := sq_pos_of_ne_zero hc
  positivity

theorem other_deriv (he : ∀ x, HasDerivAt e (e' x) x) {pa zp h : ℝ} (hpa : pa ≠ 0) {f g : ℝ → ℝ} {f' g' x : ℝ} (hf : HasDerivAt f f' x)
    (hg : HasDerivAt g g' x) (w : InWater (g x) zp h) :
    HasDerivAt (fun x => other1 e pa (f x) (g x) zp h)
      (other2 e e' pa (f x) (g x) zp h * f' + other3 e e' pa (f x) (g x) zp h * g') x := by
  have hro : ∀ i ∈ range 4, HasDerivAt (fun x => ro (f x) (g x) zp h i)
      (droR (f x) (g x) zp h i * f' + droZ (f x) (g x) zp h i * g') x := by
    intro i hi
    have hc : HasDerivAt (fun x => chi (g x) zp h i) (dchi i * g') x := HasDerivAt.comp x (chi_deriv (g x) zp h i) hg
    refine (root_deriv hf hc (add_pos_sq (w.chi_pos i).ne')).congr_deriv ?_
    rw [droR, droZ, dchi_sign hi]
    ring
  have hro0 : ∀ i, ro (f x) (g x) zp h i ≠ 0 := fun i => (sqrt_pos.2 (add_pos_sq (w.chi_pos i).ne')).ne'
  have c1 : 2 * h + g x + zp ≠ 0 := by
    have := w.bottom
    intro h0
    linarith
  have c2 : g x + zp ≠ 0 := w.surface.ne
  have h1 : HasDerivAt (fun x => sr1 (f x) (g x) zp h)
      ((f x * f' + (2 * h + g x + zp) * g') / sr1 (f x) (g x) zp h) x := by
    exact root_deriv hf ((hg.const_add (2 * h)).add_const zp) (add_pos_sq c1)
  have h2 : HasDerivAt (fun x => sr2 (f x) (g x) zp) ((f x * f' + (g x + zp) * g') / sr2 (f x) (g x) zp) x :=
    root_deriv hf (hg.add_const zp) (add_pos_sq c2)
  have s1 : sr1 (f x) (g x) zp h ≠ 0 := (sqrt_pos.2 (add_pos_sq c1)).ne'
  have s2 : sr2 (f x) (g x) zp ≠ 0 := (sqrt_pos.2 (add_pos_sq c2)).ne'
  have hp := pi_pos.ne'
  have t0 := HasDerivAt.fun_sum fun i hi => term_deriv (c := 0) he hpa (hro i hi) (hro0 i)
  have t1 := term_deriv (c := 0) he hpa h1 s1
  have t2 : HasDerivAt (fun x => 1 / (4 * π * sr2 (f x) (g x) zp))
      (-((f x * f' + (g x + zp) * g') / sr2 (f x) (g x) zp / (4 * π * sr2 (f x) (g x) zp ^ 2))) x := by
    refine ((hasDerivAt_const x (1 : ℝ)).div (h2.const_mul (4 * π)) (by positivity)).congr_deriv ?_
    field_simp
    ring
  simp only [sub_zero] at t0 t1
  refine ((t0.add t1).sub t2).congr_deriv ?_
  unfold other2 other3
  have hs : ∀ (A B : ℕ → ℝ), ∑ i ∈ range 4, (e' (ro (f x) (g x) zp h i / pa) / pa * (A i * f' + B i * g') * ro (f x) (g x) zp h i -
        (A i * f' + B i * g') * e (ro (f x) (g x) zp h i / pa)) / (4 * π * ro (f x) (g x) zp h i ^ 2) =
      (∑ i ∈ range 4, (e' (ro (f x) (g x) zp h i / pa) / pa * A i * ro (f x) (g x) zp h i -
        A i * e (ro (f x) (g x) zp h i / pa)) / (4 * π * ro (f x) (g x) zp h i ^ 2)) * f' +
      (∑ i ∈ range 4, (e' (ro (f x) (g x) zp h i / pa) / pa * B i * ro (f x) (g x) zp h i -
        B i * e (ro (f x) (g x) zp h i / pa)) / (4 * π * ro (f x) (g x) zp h i ^ 2)) * g' := by
    intro A B
    rw [sum_mul, sum_mul, ← sum_add_distrib]
    exact sum_congr rfl fun i _ => by ring
  rw [hs]
  generalize sr1 (f x) (g x) zp h = u at *
  generalize sr2 (f x) (g x) zp = v at *
  have e1 : (e' (u / pa) / pa * ((f x * f' + (2 * h + g x + zp) * g') / u) * u - (f x * f' + (2 * h + g x + zp) * g') / u * e (u / pa)) /
      (4 * π * u ^ 2) = (-(e (u / pa) / (4 * π * u ^ 2) * (f x / u)) + e' (u / pa) / (4 * π * u * pa) * (f x / u)) * f' +
      (-(e (u / pa) / (4 * π * u ^ 2) * ((2 * h + g x + zp) / u)) + e' (u / pa) / (4 * π * u * pa) * ((2 * h + g x + zp) / u)) * g' := by
    field_simp
    ring
  rw [e1]
  ring

theorem near_deriv (he : ∀ x, HasDerivAt e (e' x) x) {pa zp : ℝ} (hpa : pa ≠ 0) {f g : ℝ → ℝ} {f' g' x : ℝ} (hf : HasDerivAt f f' x)
    (hg : HasDerivAt g g' x) (h0 : 0 < f x ^ 2 + (g x - zp) ^ 2) :
    HasDerivAt (fun x => near1 e pa (f x) (g x) zp) (near2 e e' pa (f x) (g x) zp * f' + near3 e e' pa (f x) (g x) zp * g') x := by
  have h1 : HasDerivAt (fun x => sr (f x) (g x) zp) ((f x * f' + (g x - zp) * g') / sr (f x) (g x) zp) x :=
    root_deriv hf (hg.sub_const zp) h0
  have s1 : sr (f x) (g x) zp ≠ 0 := (sqrt_pos.2 h0).ne'
  refine (term_deriv (c := 1) he hpa h1 s1).congr_deriv ?_
  unfold near2 near3
  have hp := pi_pos.ne'
  generalize sr (f x) (g x) zp = u at *
  field_simp
  ring

theorem errSum_deriv (he : ∀ x, HasDerivAt e (e' x) x) {eps pa zp h : ℝ} (hpa : pa ≠ 0) (heps : 0 ≤ eps) {f g : ℝ → ℝ} {f' g' x : ℝ}
    (hf : HasDerivAt f f' x) (hg : HasDerivAt g g' x) (w : InWater (g x) zp h) (hd : eps < √(f x ^ 2 + (g x - zp) ^ 2)) :
    HasDerivAt (fun x => errSum1 e eps pa (f x) (g x) zp h)
      (errSum2 e e' eps pa (f x) (g x) zp h * f' + errSum3 e e' eps pa (f x) (g x) zp h * g') x := by
  have h0 : 0 < f x ^ 2 + (g x - zp) ^ 2 := sqrt_pos.1 (heps.trans_lt hd)
  have ha : eps < |sr (f x) (g x) zp| := by
    rw [sr, abs_of_nonneg (sqrt_nonneg _)]
    exact hd
  have hc : ContinuousAt (fun x => |sr (f x) (g x) zp|) x :=
    (root_deriv hf (hg.sub_const zp) h0).continuousAt.abs
  have hev : ∀ᶠ y in 𝓝 x, eps < |sr (f y) (g y) zp| := hc.eventually (lt_mem_nhds ha)
  refine (((other_deriv he hpa hf hg w).add (near_deriv he hpa hf hg h0)).congr_deriv ?_).congr_of_eventuallyEq ?_
  · rw [errSum2, errSum3, if_pos ha, if_pos ha]
    ring
  · filter_upwards [hev] with y hy
    rw [errSum1, if_pos hy]
    rfl

/-- Above the threshold, the second sum is the derivative of the first one with respect to the horizontal distance. -/
theorem errors_deriv_r (he : ∀ x, HasDerivAt e (e' x) x) {pa r zf zp h : ℝ} (hpa : pa ≠ 0) (w : InWater zf zp h)
    (hd : 1 / 10 ^ 6 < √(r ^ 2 + (zf - zp) ^ 2)) :
    HasDerivAt (fun r => errSum1 e epsC pa r zf zp h) (errSum2 e e' epsC pa r zf zp h) r := by
  have := errSum_deriv (eps := epsC) he hpa (by norm_num [epsC]) (hasDerivAt_id r) (hasDerivAt_const r zf) w hd
  simpa using this

/-- Above the threshold, the third sum is the derivative of the first one with respect to the first height. -/
theorem errors_deriv_z (he : ∀ x, HasDerivAt e (e' x) x) {pa r zf zp h : ℝ} (hpa : pa ≠ 0) (w : InWater zf zp h)
    (hd : 1 / 10 ^ 6 < √(r ^ 2 + (zf - zp) ^ 2)) :
    HasDerivAt (fun z => errSum1 e epsC pa r z zp h) (errSum3 e e' epsC pa r zf zp h) zf := by
  have := errSum_deriv (eps := epsC) he hpa (by norm_num [epsC]) (hasDerivAt_const zf r) (hasDerivAt_id zf) w hd
  simpa using this

/-- The second integrand is the opposite of the derivative of the first one with respect to the horizontal distance. -/
theorem integrand_deriv_r (v r zf zp h t : ℝ) : HasDerivAt (fun r => g1 e v r zf zp h t) (-g2 e v r zf zp h t) r := by
  unfold g1 g2
  by_cases ht : |t| < 1 / 10 ^ 8
  · simp only [if_pos ht, neg_zero]
    exact hasDerivAt_const r 0
  · simp only [if_neg ht]
    have t0 : t ≠ 0 := by
      rintro rfl
      norm_num at ht
    have h1 : HasDerivAt (fun r : ℝ => v ^ 2 * t ^ 2 - r ^ 2 / 4 / t ^ 2) (-(2 * r / 4 / t ^ 2)) r := by
      have := (((hasDerivAt_pow 2 r).div_const 4).div_const (t ^ 2)).const_sub (v ^ 2 * t ^ 2)
      simpa using this
    refine ((h1.exp.mul_const _).div_const t).congr_deriv ?_
    field_simp
    ring

/-- The third integrand is the derivative of the first one with respect to the first height. -/
theorem integrand_deriv_z (he : ∀ x, HasDerivAt e (e' x) x) (v r zf zp h t : ℝ) :
    HasDerivAt (fun z => g1 e v r z zp h t) (g3 e e' v r zf zp h t) zf := by
  unfold g1 g3
  by_cases ht : |t| < 1 / 10 ^ 8
  · simp only [if_pos ht]
    exact hasDerivAt_const zf 0
  · simp only [if_neg ht]
    have hs : HasDerivAt (fun z => gSum e v z zp h t)
        (∑ i ∈ range 4, (-(v * dchi i * exp (-v * chi zf zp h i) * e (chi zf zp h i / 2 / t - v * t)) +
          exp (-v * chi zf zp h i) * e' (chi zf zp h i / 2 / t - v * t) * dchi i / 2 / t)) zf := by
      refine HasDerivAt.fun_sum fun i _ => ?_
      have hc := chi_deriv zf zp h i
      have h1 := (hc.const_mul (-v)).exp
      have h2 : HasDerivAt (fun z => e (chi z zp h i / 2 / t - v * t)) (e' (chi zf zp h i / 2 / t - v * t) * (dchi i / 2 / t)) zf :=
        HasDerivAt.comp zf (he _) (((hc.div_const 2).div_const t).sub_const (v * t))
      refine (h1.mul h2).congr_deriv ?_
      ring
    exact (hs.const_mul _).div_const t

/-- When one point comes near the other, the sum has a limit, which is not the value for the point and itself: the limit of the term that is left out is
not zero. -/
theorem coincident_limit (he : ∀ x, HasDerivAt e (e' x) x) (h1 : e 0 = 1) {pa zp h : ℝ} (hpa : pa ≠ 0) (w : InWater zp zp h) :
    Tendsto (fun zf => errSum1 e 0 pa 0 zf zp h) (𝓝[≠] zp) (𝓝 (errSum1 e epsC pa 0 zp zp h + e' 0 / (4 * π * pa))) := by
  have hp := pi_pos
  have ho : Tendsto (fun zf => other1 e pa 0 zf zp h) (𝓝[≠] zp) (𝓝 (other1 e pa 0 zp zp h)) :=
    ((other_deriv he hpa (hasDerivAt_const zp (0 : ℝ)) (hasDerivAt_id zp) w).continuousAt.tendsto).mono_left nhdsWithin_le_nhds
  have hsl : Tendsto (fun s : ℝ => (e (s / pa) - 1) / (4 * π * s)) (𝓝[≠] 0) (𝓝 (e' 0 / (4 * π * pa))) := by
    have hd : HasDerivAt (fun s => e (s / pa)) (e' 0 / pa) 0 := by
      have h2 : HasDerivAt e (e' (0 / pa)) (0 / pa) := he _
      refine (HasDerivAt.comp (0 : ℝ) h2 ((hasDerivAt_id (0 : ℝ)).div_const pa)).congr_deriv ?_
      rw [zero_div]
      ring
    have h3 := (hasDerivAt_iff_tendsto_slope.1 hd).div_const (4 * π)
    refine (h3.congr fun s => ?_).trans (le_of_eq ?_)
    · rw [slope_def_field, zero_div, h1, sub_zero, div_div]
      ring_nf
    · congr 1
      field_simp
  have habs : Tendsto (fun zf => sr 0 zf zp) (𝓝[≠] zp) (𝓝[≠] 0) := by
    refine tendsto_nhdsWithin_iff.2 ⟨?_, ?_⟩
    · have hc : Continuous fun zf : ℝ => sr 0 zf zp := by
        unfold sr
        fun_prop
      have := (hc.tendsto zp).mono_left (nhdsWithin_le_nhds (s := {zp}ᶜ))
      simpa [sr] using this
    · filter_upwards [self_mem_nhdsWithin] with z hz
      have : z - zp ≠ 0 := sub_ne_zero.2 hz
      exact (sqrt_pos.2 (add_pos_sq this)).ne'
  have hn := hsl.comp habs
  have hsum := ho.add hn
  have e0 : errSum1 e epsC pa 0 zp zp h = other1 e pa 0 zp zp h := by
    rw [errSum1, if_neg]
    norm_num [sr, epsC]
  rw [e0]
  refine hsum.congr' ?_
  filter_upwards [self_mem_nhdsWithin] with z hz
  have hz' : z - zp ≠ 0 := sub_ne_zero.2 hz
  have : 0 < |sr 0 z zp| := abs_pos.2 (sqrt_pos.2 (add_pos_sq hz')).ne'
  rw [errSum1, if_pos this]
  rfl

/-- The derivative of the exact complementary error function. -/
theorem erfc_deriv (x : ℝ) : HasDerivAt Erf.erfc (-(2 / √π * exp (-x ^ 2))) x :=
  ((Erf.bell_deriv x).const_mul (2 / √π)).const_sub 1

theorem erfc_zero : Erf.erfc 0 = 1 := by simp [Erf.erfc, Erf.erf, Erf.bell]

/-- For a point and itself, the part of the Green function that comes from the error functions (`4 π` times the sum) is above its limit for points that
come near each other by `2 / (√π PA)`. -/
theorem coincident_violated {pa zp h : ℝ} (hpa : 0 < pa) (w : InWater zp zp h) :
    ∃ l : ℝ, Tendsto (fun zf => 4 * π * errSum1 Erf.erfc 0 pa 0 zf zp h) (𝓝[≠] zp) (𝓝 l) ∧
      4 * π * errSum1 Erf.erfc epsC pa 0 zp zp h = l + 2 / (√π * pa) ∧ 0 < 2 / (√π * pa) := by
  have hp := pi_pos
  have hs := sqrt_pos.2 hp
  refine ⟨_, (coincident_limit erfc_deriv erfc_zero hpa.ne' w).const_mul (4 * π), ?_, by positivity⟩
  rw [mul_add]
  have : 4 * π * (-(2 / √π * exp (-0 ^ 2)) / (4 * π * pa)) = -(2 / (√π * pa)) := by
    norm_num
    field_simp
  rw [this]
  ring

/-- The value of the code is constant in the size of the step: it does not depend on how small the threshold is. -/
theorem coincident_threshold {eps : ℝ} (heps : 0 ≤ eps) (pa zp h : ℝ) : errSum1 e eps pa 0 zp zp h = errSum1 e epsC pa 0 zp zp h := by
  have : sr 0 zp zp = 0 := by simp [sr]
  rw [errSum1, errSum1, this, abs_zero, if_neg heps.not_gt, if_neg (by norm_num [epsC])]

/-- Two points in a depth of ten, at some distance. -/
example : InWater (-1) (-2) 10 ∧ (1 : ℝ) / 10 ^ 6 < √(0 ^ 2 + (-1 - -2) ^ 2) := by
  refine ⟨⟨by norm_num, by norm_num, by norm_num, by norm_num, by norm_num, by norm_num, by norm_num⟩, ?_⟩
  norm_num

/-- A point at mid-depth and itself. -/
example : InWater (-5) (-5) 10 := ⟨by norm_num, by norm_num, by norm_num, by norm_num, by norm_num, by norm_num, by norm_num⟩

end Verif.Green.LintonErr
