import Verif.Green.FFModel
import Verif.Frequency.FreqProps
import Mathlib.Analysis.Calculus.LHopital
import Mathlib.Analysis.SpecialFunctions.Exp

/-!
# C114: the function decomposed in exponentials is regular
-/

namespace Verif.Green.FF

open Real Filter Topology

/-! ## Specification -/

/-- `F_1(k)` of the thesis of Delhommeau minus the pole: the function to decompose, where it is defined. -/
noncomputable def exact (m0 k : ℝ) : ℝ :=
  (k + m0 * tanh m0) * exp k / (k * sinh k - m0 * tanh m0 * cosh k) -
    (m0 + m0 * tanh m0) ^ 2 / (m0 ^ 2 - (m0 * tanh m0) ^ 2 + m0 * tanh m0) / (k - m0) - 2

/-! ## Lemmas -/

theorem direct_eq (m0 k : ℝ) : direct (m0 * tanh m0) m0 k = exact m0 k := rfl

theorem tol_pos (m0 : ℝ) : 0 < tol m0 := lt_max_of_lt_left (by norm_num)

/-- The dispersion relation has two roots. -/
theorem den_zero_iff {m0 : ℝ} (hm : 0 < m0) (k : ℝ) : k * sinh k - m0 * tanh m0 * cosh k = 0 ↔ k = m0 ∨ k = -m0 := by
  have hform : ∀ k : ℝ, k * sinh k - m0 * tanh m0 * cosh k = (k * tanh k - m0 * tanh m0) * cosh k := by
    intro k
    rw [sub_mul, mul_assoc k, tanh_eq_sinh_div_cosh k, div_mul_cancel₀ _ (cosh_pos k).ne']
  have hpos : ∀ {x y : ℝ}, 0 ≤ x → x < y → x * tanh x < y * tanh y := by
    intro x y hx hxy
    have h1 := Verif.Frequency.tanh_strictMono hxy
    have h2 : 0 ≤ tanh x := by
      rcases hx.eq_or_lt with rfl | h
      · simp
      · exact (Verif.Frequency.tanh_pos h).le
    nlinarith
  have hinj : ∀ {x : ℝ}, 0 ≤ x → x * tanh x = m0 * tanh m0 → x = m0 := by
    intro x hx h
    rcases lt_trichotomy x m0 with h1 | h1 | h1
    · exact absurd h (hpos hx h1).ne
    · exact h1
    · exact absurd h (hpos hm.le h1).ne'
  rw [hform, mul_eq_zero, or_iff_left (cosh_pos k).ne', sub_eq_zero]
  constructor
  · intro h
    rcases le_total 0 k with h0 | h0
    · exact Or.inl (hinj h0 h)
    · right
      have := hinj (x := -k) (by linarith) (by rw [tanh_neg]; linarith)
      linarith
  · rintro (rfl | rfl)
    · rfl
    · rw [tanh_neg]; ring

theorem k0_pos {m0 : ℝ} (hm : 0 < m0) : 0 < m0 * tanh m0 := mul_pos hm (Verif.Frequency.tanh_pos hm)

theorem k0_lt {m0 : ℝ} (hm : 0 < m0) : m0 * tanh m0 < m0 := by nlinarith [tanh_lt_one m0]

theorem coef_den_pos {m0 : ℝ} (hm : 0 < m0) : 0 < m0 ^ 2 - (m0 * tanh m0) ^ 2 + m0 * tanh m0 := by
  nlinarith [k0_pos hm, k0_lt hm]

theorem exact_continuousAt {m0 k : ℝ} (hm : 0 < m0) (h1 : k ≠ m0) (h2 : k ≠ -m0) : ContinuousAt (exact m0) k := by
  have h3 : k * sinh k - m0 * tanh m0 * cosh k ≠ 0 := fun h => ((den_zero_iff hm k).1 h).elim h1 h2
  have h4 : k - m0 ≠ 0 := sub_ne_zero.2 h1
  have c1 := continuous_sinh.continuousAt (x := k)
  have c2 := continuous_cosh.continuousAt (x := k)
  unfold exact
  fun_prop (disch := assumption)

theorem interpolated_continuous (k0 m0 : ℝ) : Continuous (interpolated k0 m0) := by
  unfold interpolated
  fun_prop

theorem interpolated_at (k0 m0 t : ℝ) : interpolated k0 m0 (m0 + t * tol m0) =
    direct k0 m0 (m0 - tol m0) * (t * (t - 1) / 2) + middle k0 m0 * (1 - t ^ 2) +
      direct k0 m0 (m0 + tol m0) * (t * (t + 1) / 2) := by
  have ht := (tol_pos m0).ne'
  simp only [interpolated]
  generalize direct k0 m0 (m0 - tol m0) = d
  generalize direct k0 m0 (m0 + tol m0) = f
  generalize middle k0 m0 = e
  generalize tol m0 = w at *
  have e1 : (m0 - w - m0) * (m0 - w - (m0 + w)) = 2 * w ^ 2 := by ring
  have e2 : (m0 - (m0 + w)) * (m0 - (m0 - w)) = -w ^ 2 := by ring
  have e3 : (m0 + w - (m0 - w)) * (m0 + w - m0) = 2 * w ^ 2 := by ring
  rw [e1, e2, e3]
  field_simp
  ring

theorem interpolated_left (k0 m0 : ℝ) : interpolated k0 m0 (m0 - tol m0) = direct k0 m0 (m0 - tol m0) := by
  have := interpolated_at k0 m0 (-1)
  rw [show m0 + -1 * tol m0 = m0 - tol m0 by ring] at this
  rw [this]
  ring

theorem interpolated_right (k0 m0 : ℝ) : interpolated k0 m0 (m0 + tol m0) = direct k0 m0 (m0 + tol m0) := by
  have := interpolated_at k0 m0 1
  rw [one_mul] at this
  rw [this]
  ring

/-- `sinh δ / δ`, completed. -/
noncomputable def sinhc (δ : ℝ) : ℝ := if δ = 0 then 1 else sinh δ / δ

theorem sinhc_mul (δ : ℝ) : sinhc δ * δ = sinh δ := by
  unfold sinhc
  split_ifs with h
  · simp [h]
  · field_simp

theorem sinhc_deriv : HasDerivAt sinhc 0 0 := by
  rw [hasDerivAt_iff_tendsto_slope]
  have h1 : Tendsto (fun x : ℝ => (sinh x - x) / x ^ 2) (𝓝[≠] 0) (𝓝 0) := by
    have hc : Tendsto (fun x : ℝ => (cosh x - 1) / (2 * x)) (𝓝[≠] 0) (𝓝 0) := by
      have := hasDerivAt_iff_tendsto_slope.1 (hasDerivAt_cosh 0)
      rw [sinh_zero] at this
      have h2 := this.const_mul (1 / 2)
      rw [mul_zero] at h2
      refine h2.congr' ?_
      filter_upwards with x
      rw [slope_def_field, cosh_zero, sub_zero]
      rcases eq_or_ne x 0 with rfl | hx
      · simp
      · field_simp
    refine HasDerivAt.lhopital_zero_nhdsNE (f' := fun x => cosh x - 1) (g' := fun x => 2 * x) ?_ ?_ ?_ ?_ ?_ hc
    · filter_upwards with x
      exact (hasDerivAt_sinh x).sub (hasDerivAt_id x)
    · filter_upwards with x
      simpa using hasDerivAt_pow 2 x
    · filter_upwards [self_mem_nhdsWithin] with x hx
      exact mul_ne_zero two_ne_zero hx
    · have : ContinuousAt (fun x : ℝ => sinh x - x) 0 := by
        have := continuous_sinh; fun_prop
      have h := this.tendsto
      rw [sinh_zero, sub_zero] at h
      exact h.mono_left nhdsWithin_le_nhds
    · have : ContinuousAt (fun x : ℝ => x ^ 2) 0 := by fun_prop
      have h := this.tendsto
      rw [zero_pow two_ne_zero] at h
      exact h.mono_left nhdsWithin_le_nhds
  refine h1.congr' ?_
  filter_upwards [self_mem_nhdsWithin] with x hx
  have hx' : x ≠ 0 := hx
  rw [slope_def_field]
  simp only [sinhc, if_neg hx', if_true, sub_zero]
  field_simp

/-- The value in the middle is the limit. -/
theorem middle_limit {m0 : ℝ} (hm : 0 < m0) :
    Tendsto (exact m0) (𝓝[≠] m0) (𝓝 (middle (m0 * tanh m0) m0)) := by
  set k0 := m0 * tanh m0 with hk0
  have hc : 0 < cosh m0 := cosh_pos m0
  have hrel : m0 * sinh m0 = k0 * cosh m0 := by
    rw [hk0, tanh_eq_sinh_div_cosh]
    field_simp
  have hkp : 0 < k0 := k0_pos hm
  have hden : 0 < m0 ^ 2 - k0 ^ 2 + k0 := coef_den_pos hm
  have hs : sinh m0 = k0 * cosh m0 / m0 := by
    field_simp
    linarith
  have he : exp m0 = cosh m0 * (m0 + k0) / m0 := by
    rw [← cosh_add_sinh, hs]
    field_simp
  -- the denominator divided by the distance to the pole
  set G : ℝ → ℝ := fun δ => (m0 * cosh m0 - k0 * sinh m0) * sinhc δ + sinh m0 * cosh δ + cosh m0 * sinh δ with hG
  have hGmul : ∀ δ, G δ * δ = (m0 + δ) * sinh (m0 + δ) - k0 * cosh (m0 + δ) := by
    intro δ
    rw [sinh_add, cosh_add, ← sinhc_mul δ]
    simp only [hG, ← sinhc_mul δ]
    linear_combination -cosh δ * hrel
  have hG0 : G 0 = cosh m0 * (m0 ^ 2 - k0 ^ 2 + k0) / m0 := by
    simp only [hG, sinhc, if_true, cosh_zero, sinh_zero, hs]
    field_simp
    ring
  have hG0ne : G 0 ≠ 0 := by
    rw [hG0]
    positivity
  have hGd : HasDerivAt G (cosh m0) 0 := by
    have := ((sinhc_deriv.const_mul (m0 * cosh m0 - k0 * sinh m0)).fun_add
      ((hasDerivAt_cosh 0).const_mul (sinh m0))).fun_add ((hasDerivAt_sinh 0).const_mul (cosh m0))
    simpa using this
  set N : ℝ → ℝ := fun δ => (m0 + δ + k0) * exp (m0 + δ) with hN
  have hNd : HasDerivAt N ((m0 + k0 + 1) * exp m0) 0 := by
    have h1 : HasDerivAt (fun δ : ℝ => m0 + δ) 1 0 := (hasDerivAt_id (0 : ℝ)).const_add m0
    have := (h1.add_const k0).fun_mul h1.exp
    refine this.congr_deriv ?_
    simp only [add_zero]
    ring
  have hφ := hNd.fun_div hGd hG0ne
  have hφ0 : N 0 / G 0 = coef k0 m0 := by
    rw [hG0]
    simp only [hN, add_zero, coef, he]
    field_simp
  have hlim := hasDerivAt_iff_tendsto_slope.1 hφ
  have hshift : Tendsto (fun k : ℝ => k - m0) (𝓝[≠] m0) (𝓝[≠] 0) := by
    refine tendsto_nhdsWithin_iff.2 ⟨?_, ?_⟩
    · have : ContinuousAt (fun k : ℝ => k - m0) m0 := by fun_prop
      have h := this.tendsto
      rw [sub_self] at h
      exact h.mono_left nhdsWithin_le_nhds
    · filter_upwards [self_mem_nhdsWithin] with k hk
      exact sub_ne_zero.2 hk
  have hlim2 := ((hlim.comp hshift).sub_const 2)
  have hval : ((m0 + k0 + 1) * exp m0 * G 0 - N 0 * cosh m0) / G 0 ^ 2 - 2 = middle k0 m0 := by
    rw [hG0]
    simp only [hN, add_zero, middle, coef, he]
    field_simp
  rw [hval] at hlim2
  refine hlim2.congr' ?_
  filter_upwards [self_mem_nhdsWithin] with k hk
  have hk' : k - m0 ≠ 0 := sub_ne_zero.2 hk
  have e1 : (k * sinh k - k0 * cosh k) = G (k - m0) * (k - m0) := by
    rw [hGmul]
    simp
  have e2 : N (k - m0) = (k + k0) * exp k := by simp [hN]
  show slope (fun x => N x / G x) 0 (k - m0) - 2 = exact m0 k
  rw [slope_def_field, hφ0, sub_zero, e2]
  unfold exact
  rw [← hk0, e1]
  show _ = _ - coef k0 m0 / (k - m0) - 2
  rw [sub_div, div_div]

/-! ## Theorems -/

/-- C114: away from the pole by more than the tolerance, the function is the right one. -/
theorem ff_far {m0 k : ℝ} (h : tol m0 < |k - m0|) : decomposed m0 k = exact m0 k := by
  unfold decomposed ff
  rw [if_pos h]
  rfl

/-- C114: near the pole it is the polynomial of degree two through the values at both ends and the limit at the pole. -/
theorem ff_near {m0 : ℝ} (hm : 0 < m0) : ∃ e : ℝ, Tendsto (exact m0) (𝓝[≠] m0) (𝓝 e) ∧
    ∀ t : ℝ, |t| ≤ 1 → decomposed m0 (m0 + t * tol m0) =
      exact m0 (m0 - tol m0) * (t * (t - 1) / 2) + e * (1 - t ^ 2) + exact m0 (m0 + tol m0) * (t * (t + 1) / 2) := by
  refine ⟨_, middle_limit hm, fun t ht => ?_⟩
  unfold decomposed ff
  have : |m0 + t * tol m0 - m0| = |t| * tol m0 := by
    rw [add_sub_cancel_left, abs_mul, abs_of_pos (tol_pos m0)]
  rw [this, if_neg (by nlinarith [tol_pos m0]), interpolated_at]
  rfl

/-- C114: the function vanishes at infinity. -/
theorem ff_infinity {m0 : ℝ} (hm : 0 < m0) : Tendsto (decomposed m0) atTop (𝓝 0) := by
  have h1 : Tendsto (fun k : ℝ => (k - m0 * tanh m0) / (k + m0 * tanh m0)) atTop (𝓝 1) := by
    have h2 : Tendsto (fun k : ℝ => 1 - 2 * (m0 * tanh m0) / (k + m0 * tanh m0)) atTop (𝓝 (1 - 0)) :=
      tendsto_const_nhds.sub ((tendsto_atTop_add_const_right _ _ tendsto_id).const_div_atTop _)
    rw [sub_zero] at h2
    refine h2.congr' ?_
    filter_upwards [eventually_gt_atTop 0] with k hk
    have : k + m0 * tanh m0 ≠ 0 := by have := k0_pos hm; positivity
    field_simp
    ring
  have h2 : Tendsto (fun k : ℝ => exp (-(2 * k))) atTop (𝓝 0) :=
    tendsto_exp_neg_atTop_nhds_zero.comp (tendsto_id.const_mul_atTop two_pos)
  have h3 : Tendsto (fun k : ℝ => 2 / ((k - m0 * tanh m0) / (k + m0 * tanh m0) - exp (-(2 * k)))) atTop (𝓝 (2 / (1 - 0))) :=
    tendsto_const_nhds.div (h1.sub h2) (by norm_num)
  have h4 : Tendsto (fun k : ℝ => coef (m0 * tanh m0) m0 / (k - m0)) atTop (𝓝 0) :=
    (tendsto_atTop_add_const_right _ (-m0) tendsto_id).const_div_atTop _
  have h5 := (h3.sub h4).sub_const 2
  rw [show (2 : ℝ) / (1 - 0) - 0 - 2 = 0 by norm_num] at h5
  refine h5.congr' ?_
  filter_upwards [eventually_gt_atTop (m0 + tol m0)] with k hk
  have ht := tol_pos m0
  have hkp : 0 < k := by linarith
  have hp := k0_pos hm
  rw [ff_far (by rw [abs_of_pos (by linarith)]; linarith)]
  show _ = (k + m0 * tanh m0) * exp k / (k * sinh k - m0 * tanh m0 * cosh k) - coef (m0 * tanh m0) m0 / (k - m0) - 2
  congr 2
  have hne : k + m0 * tanh m0 ≠ 0 := by positivity
  have e1 : k * sinh k - m0 * tanh m0 * cosh k =
      (k + m0 * tanh m0) * exp k * (((k - m0 * tanh m0) / (k + m0 * tanh m0) - exp (-(2 * k))) / 2) := by
    rw [sinh_eq, cosh_eq, show -(2 * k) = -k + -k by ring, exp_add]
    have : exp k * exp (-k) = 1 := by rw [← exp_add]; simp
    field_simp
    linear_combination (k + m0 * tanh m0) * exp (-k) * this
  rw [e1, div_mul_eq_div_div, div_self (by positivity), one_div_div]

theorem ff_continuousAt {m0 k : ℝ} (hm : 0 < m0) (h1 : k ≠ -m0 ∨ |k - m0| < tol m0) :
    ContinuousAt (decomposed m0) k := by
  have hne : ∀ {k}, tol m0 ≤ |k - m0| → k ≠ m0 := by
    rintro k h rfl
    rw [sub_self, abs_zero] at h
    linarith [tol_pos k]
  have hci := interpolated_continuous (m0 * tanh m0) m0
  rcases lt_trichotomy |k - m0| (tol m0) with h | h | h
  · refine hci.continuousAt.congr ?_
    have : ∀ᶠ x in 𝓝 k, |x - m0| < tol m0 :=
      (by fun_prop : ContinuousAt (fun x => |x - m0|) k).eventually_lt continuousAt_const h
    filter_upwards [this] with x hx
    unfold decomposed ff
    rw [if_neg (not_lt.2 hx.le)]
  · have hk2 : k ≠ -m0 := h1.resolve_right (by linarith)
    have hex := exact_continuousAt hm (hne h.ge) hk2
    have heq : exact m0 k = interpolated (m0 * tanh m0) m0 k := by
      rcases abs_eq (tol_pos m0).le |>.1 h with h' | h'
      · rw [show k = m0 + tol m0 by linarith, interpolated_right]; rfl
      · rw [show k = m0 - tol m0 by linarith, interpolated_left]; rfl
    have hv : decomposed m0 k = interpolated (m0 * tanh m0) m0 k := by
      unfold decomposed ff
      rw [if_neg (not_lt.2 h.le)]
    unfold ContinuousAt
    rw [hv]
    unfold decomposed ff
    refine Tendsto.if' ?_ hci.continuousAt
    have := hex.tendsto
    rw [heq] at this
    exact this
  · have hk2 : k ≠ -m0 := h1.resolve_right (by linarith)
    refine (exact_continuousAt hm (hne h.le) hk2).congr ?_
    have : ∀ᶠ x in 𝓝 k, tol m0 < |x - m0| :=
      continuousAt_const.eventually_lt (by fun_prop : ContinuousAt (fun x => |x - m0|) k) h
    filter_upwards [this] with x hx
    exact (ff_far hx).symm

theorem unbounded_of {m0 : ℝ} (hm : 0 < m0) (l : Filter ℝ) [l.NeBot] (h1 : l ≤ 𝓝[≠] (-m0))
    (h2 : ∀ᶠ k in l, k ∈ range ∧ tol m0 < |k - m0|) (C : ℝ) (hC : ∀ k ∈ range, |decomposed m0 k| ≤ C) : False := by
  set k0 := m0 * tanh m0 with hk0
  set den : ℝ → ℝ := fun k => k * sinh k - k0 * cosh k with hden
  have hl : l ≤ 𝓝 (-m0) := h1.trans nhdsWithin_le_nhds
  have cs := continuous_sinh
  have cc := continuous_cosh
  have hd : Tendsto den l (𝓝 0) := by
    have : ContinuousAt den (-m0) := by fun_prop
    have h := this.tendsto.mono_left hl
    rwa [show den (-m0) = 0 from (den_zero_iff hm _).2 (Or.inr rfl)] at h
  have hne : m0 ≠ -m0 := by linarith
  have ha : Tendsto (fun k => (k + k0) * exp k - (coef k0 m0 / (k - m0) + 2) * den k) l (𝓝 ((-m0 + k0) * exp (-m0))) := by
    have c1 : ContinuousAt (fun k => (k + k0) * exp k) (-m0) := by fun_prop
    have hn : -m0 - m0 ≠ 0 := by linarith
    have c2 : ContinuousAt (fun k => coef k0 m0 / (k - m0) + 2) (-m0) := by fun_prop (disch := assumption)
    have := (c1.tendsto.mono_left hl).sub ((c2.tendsto.mono_left hl).mul hd)
    rwa [mul_zero, sub_zero] at this
  have hb : Tendsto (fun k => (k + k0) * exp k - (coef k0 m0 / (k - m0) + 2) * den k) l (𝓝 0) := by
    have hz : Tendsto (fun k => C * |den k|) l (𝓝 0) := by
      have := (hd.abs).const_mul C
      rwa [abs_zero, mul_zero] at this
    refine squeeze_zero_norm' ?_ hz
    have hm0 : ∀ᶠ k in l, k ≠ m0 := by
      have : ∀ᶠ k in 𝓝 (-m0), k ≠ m0 := isOpen_ne.mem_nhds hne.symm
      exact hl this
    filter_upwards [h2, h1 self_mem_nhdsWithin, hm0] with k hk hk1 hk2
    have hdk : den k ≠ 0 := fun h => ((den_zero_iff hm k).1 h).elim hk2 hk1
    have e : (k + k0) * exp k - (coef k0 m0 / (k - m0) + 2) * den k = decomposed m0 k * den k := by
      rw [ff_far hk.2]
      show _ = ((k + k0) * exp k / den k - coef k0 m0 / (k - m0) - 2) * den k
      field_simp
      ring
    rw [e, norm_eq_abs, abs_mul]
    exact mul_le_mul_of_nonneg_right (hC k hk.1) (abs_nonneg _)
  have := tendsto_nhds_unique ha hb
  have hlt : -m0 + k0 < 0 := by linarith [k0_lt hm]
  exact (mul_neg_of_neg_of_pos hlt (exp_pos _)).ne this

/-- C114: the function is bounded in the range of the tabulation exactly when the dimensionless wavenumber is not between 0.05
and 0.1. Between these values the opposite of the wavenumber is a pole of the function. -/
theorem ff_bounded_iff {m0 : ℝ} (hm : 0 < m0) :
    (∃ C, ∀ k ∈ range, |decomposed m0 k| ≤ C) ↔ m0 < 0.05 ∨ 0.1 < m0 := by
  constructor
  · rintro ⟨C, hC⟩
    by_contra hcon
    push Not at hcon
    obtain ⟨h1, h2⟩ := hcon
    have ht : tol m0 = 0.1 := max_eq_left (by linarith)
    rcases h1.eq_or_lt with h3 | h3
    · refine unbounded_of hm (𝓝[<] (-m0)) (nhdsWithin_mono _ fun k hk => ne_of_lt hk) ?_ C hC
      filter_upwards [self_mem_nhdsWithin, Ioo_mem_nhdsLT (a := -0.1) (b := -m0) (by rw [← h3]; norm_num)] with k hk hk2
      have hk1 : k < -m0 := hk
      refine ⟨⟨hk2.1.le, by linarith⟩, ?_⟩
      rw [ht, abs_of_neg (by linarith)]
      norm_num at *
      linarith
    · refine unbounded_of hm (𝓝[>] (-m0)) (nhdsWithin_mono _ fun k hk => ne_of_gt hk) ?_ C hC
      filter_upwards [self_mem_nhdsWithin, (Ioo_mem_nhdsGT (by norm_num at *; linarith) : Set.Ioo (-m0) (m0 - 0.1) ∈ 𝓝[>] (-m0))] with k hk hk2
      have hk1 : -m0 < k := hk
      have hk3 := hk2.2
      refine ⟨⟨by linarith, by norm_num at *; linarith⟩, ?_⟩
      rw [ht, abs_of_neg (by norm_num at *; linarith)]
      linarith
  · intro h
    have hc : ContinuousOn (decomposed m0) range := by
      intro k hk
      refine (ff_continuousAt hm ?_).continuousWithinAt
      rcases h with h | h
      · rcases eq_or_ne k (-m0) with rfl | hne
        · right
          have : tol m0 = 0.1 := max_eq_left (by norm_num at *; linarith)
          rw [this, abs_of_neg (by linarith)]
          norm_num at *
          linarith
        · exact Or.inl hne
      · left
        have := hk.1
        intro h'
        linarith
    obtain ⟨C, hC⟩ := (isCompact_Icc.image_of_continuousOn hc).isBounded.exists_norm_le
    exact ⟨C, fun k hk => hC _ ⟨k, hk, rfl⟩⟩

/-- C114: the function is continuous in the range of the tabulation exactly in the same cases. -/
theorem ff_continuous_iff {m0 : ℝ} (hm : 0 < m0) : ContinuousOn (decomposed m0) range ↔ m0 < 0.05 ∨ 0.1 < m0 := by
  constructor
  · intro hc
    rw [← ff_bounded_iff hm]
    obtain ⟨C, hC⟩ := (isCompact_Icc.image_of_continuousOn hc).isBounded.exists_norm_le
    exact ⟨C, fun k hk => hC _ ⟨k, hk, rfl⟩⟩
  · intro h k hk
    refine (ff_continuousAt hm ?_).continuousWithinAt
    rcases h with h | h
    · rcases eq_or_ne k (-m0) with rfl | hne
      · right
        have : tol m0 = 0.1 := max_eq_left (by norm_num at *; linarith)
        rw [this, abs_of_neg (by linarith)]
        norm_num at *
        linarith
      · exact Or.inl hne
    · left
      have := hk.1
      intro h'
      linarith

/-- C114: for some wavenumbers the function takes arbitrarily large values where it is tabulated. -/
theorem ff_unbounded_violated : ∃ m0 : ℝ, 0 < m0 ∧ ∀ C, ∃ k ∈ range, C < |decomposed m0 k| := by
  refine ⟨0.08, by norm_num, ?_⟩
  have h := (ff_bounded_iff (m0 := 0.08) (by norm_num)).not.2 (by norm_num)
  push Not at h
  exact h

example : Tendsto (decomposed 1) atTop (𝓝 0) ∧ ContinuousOn (decomposed 1) range :=
  ⟨ff_infinity one_pos, (ff_continuous_iff one_pos).2 (by norm_num)⟩

example : decomposed 1 3 = exact 1 3 := ff_far (by norm_num [tol, abs_of_pos])

end Verif.Green.FF
