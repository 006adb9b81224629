import Verif.Frequency.FreqModel
import Mathlib.Topology.Order.IntermediateValue
import Mathlib.Tactic.FieldSimp
import Mathlib.Tactic.Ring
import Mathlib.Tactic.Linarith
import Mathlib.Tactic.Positivity

/-!
# Frequencies (C06), dispersion relation (C07), encounter frequency (C08), depth (C54)
-/

namespace Verif.Frequency

open Real

/-! ## The dispersion relation -/

theorem tanh_pos {x : ℝ} (hx : 0 < x) : 0 < Real.tanh x := by
  rw [Real.tanh_eq_sinh_div_cosh]
  exact div_pos (Real.sinh_pos_iff.2 hx) (Real.cosh_pos x)

theorem tanh_strictMono : StrictMono Real.tanh := by
  intro x y hxy
  rw [Real.tanh_eq_sinh_div_cosh, Real.tanh_eq_sinh_div_cosh,
    div_lt_div_iff₀ (Real.cosh_pos x) (Real.cosh_pos y)]
  have := Real.sinh_sub y x
  have h : 0 < Real.sinh (y - x) := Real.sinh_pos_iff.2 (by linarith)
  nlinarith

theorem tanh_continuous : Continuous Real.tanh := by
  have : Real.tanh = fun x => Real.sinh x / Real.cosh x := by
    funext x; exact Real.tanh_eq_sinh_div_cosh x
  rw [this]
  exact Real.continuous_sinh.div Real.continuous_cosh fun x => (Real.cosh_pos x).ne'

/-- Left hand side of the dispersion relation, as a function of the wavenumber. -/
noncomputable def disp (h k : ℝ) : ℝ := k * Real.tanh (k * h)

theorem disp_strictMonoOn {h : ℝ} (hh : 0 < h) : StrictMonoOn (disp h) (Set.Ici 0) := by
  intro x hx y hy hxy
  have hx' : 0 ≤ x := hx
  have hy' : 0 < y := lt_of_le_of_lt hx' hxy
  unfold disp
  have h1 : Real.tanh (x * h) < Real.tanh (y * h) := tanh_strictMono (by nlinarith)
  have h2 : 0 < Real.tanh (y * h) := tanh_pos (by positivity)
  calc x * Real.tanh (x * h) ≤ x * Real.tanh (y * h) := mul_le_mul_of_nonneg_left h1.le hx'
    _ < y * Real.tanh (y * h) := mul_lt_mul_of_pos_right hxy h2

/-- **C07.** For all positive frequency, gravity and finite depth, there is exactly one positive
wavenumber satisfying the dispersion relation. -/
theorem dispersion_unique_root (w g h : ℝ) (hw : 0 < w) (hg : 0 < g) (hh : 0 < h) :
    ∃! k : ℝ, 0 < k ∧ w ^ 2 = g * k * Real.tanh (k * h) := by
  have key : ∃! k : ℝ, 0 < k ∧ disp h k = w ^ 2 / g := by
    set c := w ^ 2 / g with hc
    have hcpos : 0 < c := by positivity
    set b := max (1 / h) (c / Real.tanh 1) with hb
    have ht1 : 0 < Real.tanh 1 := tanh_pos one_pos
    have hb1 : 1 / h ≤ b := le_max_left _ _
    have hb2 : c / Real.tanh 1 ≤ b := le_max_right _ _
    have hbpos : 0 < b := lt_of_lt_of_le (by positivity) hb1
    have hbig : c ≤ disp h b := by
      unfold disp
      have : 1 ≤ b * h := by
        rw [div_le_iff₀ hh] at hb1; exact hb1
      have ht : Real.tanh 1 ≤ Real.tanh (b * h) := tanh_strictMono.monotone this
      rw [div_le_iff₀ ht1] at hb2
      nlinarith
    have hcont : ContinuousOn (disp h) (Set.Icc 0 b) := by
      unfold disp
      exact (continuous_id.mul (tanh_continuous.comp (continuous_id.mul continuous_const))).continuousOn
    have hmem : c ∈ Set.Icc (disp h 0) (disp h b) := ⟨by simp [disp]; exact hcpos.le, hbig⟩
    obtain ⟨k, hk, hkc⟩ := intermediate_value_Icc hbpos.le hcont hmem
    have hkpos : 0 < k := by
      rcases hk.1.lt_or_eq with h0 | h0
      · exact h0
      · subst h0; simp [disp] at hkc; linarith
    refine ⟨k, ⟨hkpos, hkc⟩, ?_⟩
    rintro k' ⟨hk', hkc'⟩
    exact (disp_strictMonoOn hh).injOn (Set.mem_Ici.2 hk'.le) (Set.mem_Ici.2 hkpos.le)
      (hkc'.trans hkc.symm)
  obtain ⟨k, ⟨h1, h2⟩, h3⟩ := key
  refine ⟨k, ⟨h1, ?_⟩, ?_⟩
  · unfold disp at h2
    rw [eq_div_iff hg.ne'] at h2
    linarith
  · rintro k' ⟨g1, g2⟩
    apply h3 k' ⟨g1, ?_⟩
    unfold disp
    rw [eq_div_iff hg.ne']
    linarith

example : (0 : ℝ) < 1.5 ∧ (0 : ℝ) < 9.81 ∧ (0 : ℝ) < 20 := by norm_num

/-- **C07, inverse.** The frequency computed from a positive wavenumber has this wavenumber as only
solution. -/
theorem dispersion_inverse (k g h : ℝ) (hk : 0 < k) (hg : 0 < g) (hh : 0 < h) (k' : ℝ) (hk' : 0 < k')
    (e : √(g * k * Real.tanh (k * h)) ^ 2 = g * k' * Real.tanh (k' * h)) : k' = k := by
  have ht := tanh_pos (mul_pos hk hh)
  have hw : 0 < √(g * k * Real.tanh (k * h)) := Real.sqrt_pos.2 (by positivity)
  obtain ⟨r, hr, huniq⟩ := dispersion_unique_root _ g h hw hg hh
  rw [huniq k' ⟨hk', e⟩, huniq k ⟨hk, Real.sq_sqrt (by positivity)⟩]

/-! ## Specification of consistent parameters -/

/-- The dispersion relation `ω² = g k tanh(k h)`, with `tanh` replaced by its limit `±1` in infinite
depth. -/
def Dispersion (g : ℝ) (depth : Input) (w k : ℝ) : Prop :=
  match depth with
  | none => (0 < k ∧ w ^ 2 = g * k) ∨ (k < 0 ∧ w ^ 2 = g * (-k))
  | some h => w ^ 2 = g * k * Real.tanh (k * h)

/-- Parameters of a problem are consistent: all are zero or infinite, or all are ordinary numbers and
the three relations hold. -/
def Consistent (g : ℝ) (depth : Input) (f : Frequencies) : Prop :=
  (f.omega = .zero ∧ f.period = .infty ∧ f.wavenumber = .zero ∧ f.wavelength = .infty) ∨
  (f.omega = .infty ∧ f.period = .zero ∧ f.wavenumber = .infty ∧ f.wavelength = .zero) ∨
  ∃ w T k l : ℝ, f = ⟨.real w, .real T, .real k, .real l, f.provided⟩ ∧ w * T = 2 * π ∧
    k * l = 2 * π ∧ Dispersion g depth w k

/-- The parameter of a given name. -/
def Frequencies.get (f : Frequencies) : FreqType → Quantity
  | .omega => f.omega
  | .period => f.period
  | .wavenumber => f.wavenumber
  | .wavelength => f.wavelength

/-- Contract of the root finder: a value that is returned is a root. -/
def NewtonSound (newton : ℝ → ℝ → Option ℝ) : Prop :=
  ∀ c h k, newton c h = some k → k * Real.tanh (k * h) = c

/-- Positive depth, possibly infinite. -/
def PositiveDepth (depth : Input) : Prop := (0 : ℝ) < depth

theorem tanh_mul_pos {k h : ℝ} (hk : k ≠ 0) (hh : 0 < h) : 0 < k * Real.tanh (k * h) := by
  rcases lt_or_gt_of_ne hk with hneg | hpos
  · have : Real.tanh (k * h) < 0 := by
      have := tanh_pos (x := -(k * h)) (by nlinarith)
      rw [Real.tanh_neg] at this; linarith
    nlinarith
  · exact mul_pos hpos (tanh_pos (mul_pos hpos hh))

theorem tanhDepth_mul_pos {k : ℝ} {depth : Input} (hk : k ≠ 0) (hd : PositiveDepth depth) :
    0 < k * tanhDepth k depth := by
  cases depth with
  | none =>
    change 0 < k * ((SignType.sign k : SignType) : ℝ)
    rcases lt_or_gt_of_ne hk with h | h
    · simp [sign_neg h, h]
    · simp [sign_pos h, h]
  | some h => exact tanh_mul_pos hk (WithTop.coe_lt_coe.1 hd)

theorem dispersion_of_sqrt {g : ℝ} (hg : 0 < g) {k : ℝ} {depth : Input} (hk : k ≠ 0)
    (hd : PositiveDepth depth) : Dispersion g depth (√(g * k * tanhDepth k depth)) k := by
  have hpos := tanhDepth_mul_pos hk hd
  have hsq : √(g * k * tanhDepth k depth) ^ 2 = g * k * tanhDepth k depth :=
    Real.sq_sqrt (by rw [mul_assoc]; positivity)
  cases depth with
  | none =>
    change _ ∨ _
    rw [hsq]
    change _ ∧ g * k * ((SignType.sign k : SignType) : ℝ) = _ ∨ _ ∧ _
    rcases lt_or_gt_of_ne hk with h | h
    · right; refine ⟨h, ?_⟩; change g * k * ((SignType.sign k : SignType) : ℝ) = _; simp [sign_neg h]
    · left; refine ⟨h, ?_⟩; simp [sign_pos h]
  | some h => exact hsq

theorem consistent_frequenciesFrom (newton) (hN : NewtonSound newton) (g : ℝ) (hg : 0 < g)
    (depth : Input) (hd : PositiveDepth depth) (t : FreqType) (v : Input) (f : Frequencies)
    (hf : frequenciesFrom newton g depth t v = .ok f) :
    Consistent g depth f ∧ f.provided = t ∧ (f.get t).toFloat = v := by
  unfold frequenciesFrom at hf
  split at hf
  · rename_i h
    cases hf
    refine ⟨Or.inl ⟨rfl, rfl, rfl, rfl⟩, rfl, ?_⟩
    rcases h with ⟨rfl, rfl | rfl⟩ | ⟨rfl, rfl | rfl⟩ <;> rfl
  · split at hf
    · rename_i h
      cases hf
      refine ⟨Or.inr (Or.inl ⟨rfl, rfl, rfl, rfl⟩), rfl, ?_⟩
      rcases h with ⟨rfl, rfl | rfl⟩ | ⟨rfl, rfl | rfl⟩ <;> rfl
    · rename_i h1 h2
      obtain ⟨x, rfl, hx⟩ : ∃ x : ℝ, v = (x : Input) ∧ x ≠ 0 := by
        cases v with
        | none =>
          exfalso
          cases t <;> first
            | exact h1 (Or.inl ⟨rfl, Or.inl rfl⟩)
            | exact h1 (Or.inl ⟨rfl, Or.inr rfl⟩)
            | exact h1 (Or.inr ⟨rfl, Or.inl rfl⟩)
            | exact h1 (Or.inr ⟨rfl, Or.inr rfl⟩)
            | exact h2 (Or.inl ⟨rfl, Or.inl rfl⟩)
            | exact h2 (Or.inl ⟨rfl, Or.inr rfl⟩)
            | exact h2 (Or.inr ⟨rfl, Or.inl rfl⟩)
            | exact h2 (Or.inr ⟨rfl, Or.inr rfl⟩)
        | some x =>
          refine ⟨x, rfl, ?_⟩
          rintro rfl
          cases t <;> first
            | exact h1 (Or.inl ⟨rfl, Or.inl rfl⟩)
            | exact h1 (Or.inl ⟨rfl, Or.inr rfl⟩)
            | exact h1 (Or.inr ⟨rfl, Or.inl rfl⟩)
            | exact h1 (Or.inr ⟨rfl, Or.inr rfl⟩)
            | exact h2 (Or.inl ⟨rfl, Or.inl rfl⟩)
            | exact h2 (Or.inl ⟨rfl, Or.inr rfl⟩)
            | exact h2 (Or.inr ⟨rfl, Or.inl rfl⟩)
            | exact h2 (Or.inr ⟨rfl, Or.inr rfl⟩)
      have hpi : (0 : ℝ) < 2 * π := by positivity
      have hpi' : (2 * π : ℝ) ≠ 0 := hpi.ne'
      simp only [WithTop.untopD_coe] at hf
      have deep : ∀ w : ℝ, w ≠ 0 → w ^ 2 / g * (2 * π / (w ^ 2 / g)) = 2 * π := by
        intro w hw; field_simp
      have shallow : ∀ w h k : ℝ, w ≠ 0 → newton (w ^ 2 / g) h = some k →
          k * (2 * π / k) = 2 * π ∧ w ^ 2 = g * k * Real.tanh (k * h) := by
        intro w h k hw hk
        have := hN _ _ _ hk
        rw [eq_div_iff hg.ne'] at this
        have hk0 : k ≠ 0 := by
          rintro rfl
          simp at this
          exact hw (by simpa using this.symm)
        exact ⟨by field_simp, by linarith⟩
      cases t with
      | omega =>
        simp only [if_true] at hf
        cases depth with
        | none =>
          cases hf
          refine ⟨Or.inr (Or.inr ⟨x, 2 * π / x, x ^ 2 / g, 2 * π / (x ^ 2 / g), rfl, by field_simp, deep x hx, ?_⟩), rfl, rfl⟩
          exact Or.inl ⟨by positivity, by field_simp⟩
        | some h =>
          simp only at hf
          cases hk : newton (x ^ 2 / g) h with
          | none => rw [hk] at hf; cases hf
          | some k =>
            rw [hk] at hf
            cases hf
            obtain ⟨s1, s2⟩ := shallow x h k hx hk
            exact ⟨Or.inr (Or.inr ⟨x, 2 * π / x, k, 2 * π / k, rfl, by field_simp, s1, s2⟩), rfl, rfl⟩
      | period =>
        have hw : 2 * π / x ≠ 0 := div_ne_zero hpi' hx
        simp only [reduceCtorEq, if_false] at hf
        cases depth with
        | none =>
          cases hf
          refine ⟨Or.inr (Or.inr ⟨2 * π / x, x, (2 * π / x) ^ 2 / g, 2 * π / ((2 * π / x) ^ 2 / g), rfl, by field_simp, deep _ hw, ?_⟩), rfl, rfl⟩
          exact Or.inl ⟨by positivity, by field_simp⟩
        | some h =>
          simp only at hf
          cases hk : newton ((2 * π / x) ^ 2 / g) h with
          | none => rw [hk] at hf; cases hf
          | some k =>
            rw [hk] at hf
            cases hf
            obtain ⟨s1, s2⟩ := shallow _ h k hw hk
            exact ⟨Or.inr (Or.inr ⟨2 * π / x, x, k, 2 * π / k, rfl, by field_simp, s1, s2⟩), rfl, rfl⟩
      | wavenumber =>
        simp only [if_true] at hf
        cases hf
        have hpos : 0 < √(g * x * tanhDepth x depth) :=
          Real.sqrt_pos.2 (by rw [mul_assoc]; exact mul_pos hg (tanhDepth_mul_pos hx hd))
        refine ⟨Or.inr (Or.inr ⟨_, _, _, _, rfl, ?_, ?_, dispersion_of_sqrt hg hx hd⟩), rfl, rfl⟩
        · field_simp
        · field_simp
      | wavelength =>
        have hk : 2 * π / x ≠ 0 := div_ne_zero hpi' hx
        simp only [reduceCtorEq, if_false] at hf
        cases hf
        have hpos : 0 < √(g * (2 * π / x) * tanhDepth (2 * π / x) depth) :=
          Real.sqrt_pos.2 (by rw [mul_assoc]; exact mul_pos hg (tanhDepth_mul_pos hk hd))
        refine ⟨Or.inr (Or.inr ⟨_, _, _, _, rfl, ?_, ?_, dispersion_of_sqrt hg hk hd⟩), rfl, rfl⟩
        · exact mul_div_cancel₀ _ hpos.ne'
        · field_simp

/-- **C06.** Whatever parameter is given, the parameters of the problem are consistent, and the given
one has the given value. -/
theorem frequencies_consistent (newton) (hN : NewtonSound newton) (g : ℝ) (hg : 0 < g)
    (depth : Input) (hd : PositiveDepth depth) (om pe kk la : Option Input) (f : Frequencies)
    (hf : getFrequencies newton g depth om pe kk la = .ok f) :
    Consistent g depth f ∧ (∀ v, om = some v → f.omega.toFloat = v) ∧
      (∀ v, pe = some v → f.period.toFloat = v) ∧ (∀ v, kk = some v → f.wavenumber.toFloat = v) ∧
      (∀ v, la = some v → f.wavelength.toFloat = v) := by
  unfold getFrequencies at hf
  split at hf
  · cases hf
  · rename_i hcount
    rcases om with _ | v <;> rcases pe with _ | v' <;> rcases kk with _ | v'' <;>
      rcases la with _ | v''' <;>
      first
        | (exfalso; revert hcount; simp; done)
        | (obtain ⟨c1, _, c3⟩ := consistent_frequenciesFrom newton hN g hg depth hd _ _ f hf
           refine ⟨c1, ?_, ?_, ?_, ?_⟩ <;> intro u hu <;> simp at hu <;> (try subst hu) <;> exact c3)

/-- **C06, more than one parameter is refused.** -/
theorem frequencies_at_most_one (newton) (g : ℝ) (depth : Input) (om pe kk la : Option Input)
    (h : 2 ≤ (if om.isSome then 1 else 0) + (if pe.isSome then 1 else 0) +
      (if kk.isSome then 1 else 0) + (if la.isSome then 1 else 0)) :
    getFrequencies newton g depth om pe kk la = .error .tooMany := by
  unfold getFrequencies
  rw [if_pos]
  revert h
  rcases om with _ | v <;> rcases pe with _ | v' <;> rcases kk with _ | v'' <;>
      rcases la with _ | v''' <;> simp

/-- **C06, default.** Without any parameter, the frequency is one. -/
theorem frequencies_default (newton) (g : ℝ) (depth : Input) :
    getFrequencies newton g depth none none none none =
      getFrequencies newton g depth (some ((1 : ℝ) : Input)) none none none := by
  unfold getFrequencies
  simp

/-- **C06, no spurious refusal.** One parameter is never refused, except when the root finder
fails. -/
theorem frequencies_accepted (newton) (g : ℝ) (depth : Input) (t : FreqType) (v : Input)
    (hN : ∀ c h, (newton c h).isSome) : ∃ f, frequenciesFrom newton g depth t v = .ok f := by
  unfold frequenciesFrom
  split
  · exact ⟨_, rfl⟩
  · split
    · exact ⟨_, rfl⟩
    · cases t <;> cases depth <;> simp only [reduceCtorEq, if_true, if_false]
      all_goals first
        | exact ⟨_, rfl⟩
        | (rename_i h
           first
             | (obtain ⟨k, hk⟩ := Option.isSome_iff_exists.1 (hN (WithTop.untopD 0 v ^ 2 / g) h)
                rw [hk]; exact ⟨_, rfl⟩)
             | (obtain ⟨k, hk⟩ := Option.isSome_iff_exists.1 (hN ((2 * π / WithTop.untopD 0 v) ^ 2 / g) h)
                rw [hk]; exact ⟨_, rfl⟩))

open Classical in
/-- A root finder meeting the contract: it returns the positive root, which exists by
`dispersion_unique_root`. -/
noncomputable def exactNewton (c h : ℝ) : Option ℝ :=
  if hc : 0 < c ∧ 0 < h then
    some (Classical.choose (dispersion_unique_root (√c) 1 h (Real.sqrt_pos.2 hc.1) one_pos hc.2))
  else none

theorem exactNewton_sound : NewtonSound exactNewton := by
  intro c h k hk
  unfold exactNewton at hk
  split at hk
  · rename_i hc
    have := (Classical.choose_spec
      (dispersion_unique_root (√c) 1 h (Real.sqrt_pos.2 hc.1) one_pos hc.2)).1.2
    rw [Option.some.inj hk, Real.sq_sqrt hc.1.le] at this
    linarith
  · cases hk

/-- A problem in depth 20 with period 8 is accepted, and so is consistent. -/
example : NewtonSound exactNewton ∧ PositiveDepth ((20 : ℝ) : Input) ∧
    ∃ f, getFrequencies exactNewton 9.81 ((20 : ℝ) : Input) none (some ((8 : ℝ) : Input)) none none =
      .ok f := by
  refine ⟨exactNewton_sound, by unfold PositiveDepth; exact_mod_cast (by norm_num : (0 : ℝ) < 20), ?_⟩
  have h8 : ((8 : ℝ) : Input) ≠ ((0 : ℝ) : Input) := by
    simp
  simp only [getFrequencies, frequenciesFrom]
  rw [if_neg (by simp), if_neg (by simp), if_neg (by simp)]
  simp only [reduceCtorEq, if_false, WithTop.untopD_coe, exactNewton]
  rw [dif_pos ⟨by positivity, by norm_num⟩]
  exact ⟨_, rfl⟩

/-! ## Encounter frequency -/

/-- **C08, without forward speed** the encounter values are the plain ones. -/
theorem encounter_no_speed (newton) (g : ℝ) (depth : Input) (f : Frequencies) (β : ℝ) :
    encounter newton g depth f 0 β =
      some (.ok ⟨f.omega, f.period, f.wavenumber, f.wavelength, β⟩) := by
  simp [encounter]

/-- **C08.** With forward speed `U`, the encounter frequency is `|ω - k U cos β|`, it is never
negative, it is consistent with the other encounter parameters, and the encounter direction is the
wave direction, or the opposite one exactly when the waves are overtaken. -/
theorem encounter_spec (newton) (hN : NewtonSound newton) (g : ℝ) (hg : 0 < g) (depth : Input)
    (hd : PositiveDepth depth) (f : Frequencies) (w k U β : ℝ) (hw : f.omega = .real w)
    (hk : f.wavenumber = .real k) (hU : U ≠ 0) (e : Encounter)
    (he : encounter newton g depth f U β = some (.ok e)) :
    e.omega.toFloat = ((|w - k * U * cos β| : ℝ) : Input) ∧ ((0 : ℝ) : Input) ≤ e.omega.toFloat ∧
    Consistent g depth ⟨e.omega, e.period, e.wavenumber, e.wavelength, .omega⟩ ∧
    (k * U * cos β ≤ w → e.direction = β) ∧ (w < k * U * cos β → e.direction = β + π) := by
  unfold encounter at he
  rw [if_pos hU, hw, hk] at he
  simp only at he
  cases hfe : getFrequencies newton g depth (some ((|w - k * U * cos β| : ℝ) : Input)) none none none with
  | error err => rw [hfe] at he; simp at he
  | ok fe =>
    rw [hfe] at he
    simp only [Option.some.injEq, Except.ok.injEq] at he
    obtain ⟨c1, c2, _⟩ := frequencies_consistent newton hN g hg depth hd _ _ _ _ fe hfe
    have c2' := c2 _ rfl
    subst he
    refine ⟨c2', ?_, ?_, ?_, ?_⟩
    · rw [c2']; exact_mod_cast abs_nonneg _
    · rcases c1 with c | c | ⟨w', T', k', l', h1, h2⟩
      · exact Or.inl c
      · exact Or.inr (Or.inl c)
      · refine Or.inr (Or.inr ⟨w', T', k', l', ?_, h2⟩)
        rw [h1]
    · intro h; simp only; rw [if_pos (by linarith)]
    · intro h; simp only; rw [if_neg (by linarith)]

/-- **C08, wave going to the opposite direction.** When waves are overtaken, seen from the body they
have the phase speed of waves with the encounter frequency going to the encounter direction: the
projection of the direction on the track changes sign. -/
theorem encounter_direction_opposite (β : ℝ) : cos (β + π) = -cos β ∧ sin (β + π) = -sin β :=
  ⟨Real.cos_add_pi β, Real.sin_add_pi β⟩

/-- A case of overtaken waves: infinite depth, `ω = k = g = 1`, speed 2, following waves. -/
example : ∃ e, encounter exactNewton 1 ⊤ ⟨.real 1, .real (2 * π), .real 1, .real (2 * π), .omega⟩ 2 0 =
    some (.ok e) := by
  unfold encounter
  rw [if_pos (by norm_num)]
  simp only [cos_zero, mul_one, one_mul, getFrequencies, frequenciesFrom]
  norm_num
  exact ⟨_, rfl⟩

/-! ## Depth -/

/-- **C54, partial.** A depth given as `water_depth` is accepted only if it is positive, a sea bottom
above the free surface is refused, giving both is refused, and the accepted depth is the given one.
Missing: a sea bottom at the level of the free surface (`zero_depth_violated`). -/
theorem depth_positive_partial (fs : Input) (wd : Option Input) (sb : Option (Option ℝ)) (d : Input)
    (h : acceptedDepth fs wd sb = .ok d) :
    ((0 : ℝ) : Input) ≤ d ∧ (sb ≠ some (some 0) → PositiveDepth d) ∧ (wd = none ∨ sb = none) ∧
      (fs = ((0 : ℝ) : Input) ∨ fs = ⊤ ∧ d = ⊤) ∧
      (∀ x, wd = some x → d = x) ∧
      (∀ z, fs = ((0 : ℝ) : Input) → sb = some (some z) → d = ((-z : ℝ) : Input)) := by
  unfold acceptedDepth at h
  cases hg : getWaterDepth fs wd sb with
  | error e => rw [hg] at h; simp at h
  | ok d' =>
    rw [hg] at h
    simp only at h
    split at h
    · cases h
    · rename_i hfs
      rw [not_not] at hfs
      split at h
      · cases h
      · rename_i hb
        split at h
        · cases h
        · rename_i hneg
          simp only [Except.ok.injEq] at h
          subst h
          rw [not_lt] at hneg
          have hfs' : fs = ((0 : ℝ) : Input) ∨ fs = ⊤ ∧ d' = ⊤ := by
            rcases hfs with h0 | h0
            · exact Or.inl h0
            · refine Or.inr ⟨h0, ?_⟩
              by_contra hc
              exact hb ⟨h0, hc⟩
          have htop : PositiveDepth ⊤ := WithTop.coe_lt_top 0
          unfold getWaterDepth at hg
          rcases wd with _ | x <;> rcases sb with _ | z
          · simp only [Except.ok.injEq] at hg
            subst hg
            exact ⟨hneg, fun _ => htop, Or.inl rfl, hfs', by simp, by simp⟩
          · simp only [Except.ok.injEq] at hg
            refine ⟨hneg, ?_, Or.inl rfl, hfs', by simp, ?_⟩
            · intro hz
              rcases hfs' with h0 | ⟨_, ht⟩
              · subst h0
                cases z with
                | none => rw [← hg]; exact htop
                | some z =>
                  have hz0 : z ≠ 0 := by rintro rfl; exact hz rfl
                  have e : d' = ((0 - z : ℝ) : Input) := hg.symm
                  rw [e] at hneg ⊢
                  have h1 : (0 : ℝ) ≤ 0 - z := by exact_mod_cast hneg
                  have h2 : (0 : ℝ) < 0 - z := lt_of_le_of_ne h1 (by
                    intro hc; apply hz0; linarith)
                  unfold PositiveDepth
                  exact_mod_cast h2
              · rw [ht]; exact htop
            · intro z' h0 hz
              simp only [Option.some.injEq] at hz
              subst h0 hz
              rw [← hg]
              change ((0 - z' : ℝ) : Input) = _
              rw [zero_sub]
          · simp only at hg
            split at hg
            · cases hg
            · rename_i hx
              simp only [Except.ok.injEq] at hg
              subst hg
              rw [not_le] at hx
              exact ⟨hneg, fun _ => hx, Or.inr rfl, hfs', by simp, by simp⟩
          · cases hg

/-- **C54, no spurious refusal.** Positive depths are accepted. -/
theorem depth_accepted (d : Input) (hd : PositiveDepth d) :
    acceptedDepth ((0 : ℝ) : Input) (some d) none = .ok d := by
  have h1 : ¬ d ≤ ((0 : ℝ) : Input) := not_le.2 hd
  have h2 : ¬ d < ((0 : ℝ) : Input) := fun h => h1 h.le
  unfold acceptedDepth getWaterDepth
  simp only [if_neg h1, if_neg h2]
  simp

example : acceptedDepth ((0 : ℝ) : Input) (some ((10 : ℝ) : Input)) none = .ok ((10 : ℝ) : Input) :=
  depth_accepted _ (by unfold PositiveDepth; exact_mod_cast (by norm_num : (0 : ℝ) < 10))

/-- **C54 is violated**: a sea bottom at the level of the free surface is accepted and gives a problem
of zero depth, although `water_depth = 0` is refused. -/
theorem zero_depth_violated :
    acceptedDepth ((0 : ℝ) : Input) none (some (some 0)) = .ok ((0 : ℝ) : Input) ∧
    acceptedDepth ((0 : ℝ) : Input) (some ((0 : ℝ) : Input)) none = .error .notPositive := by
  constructor
  · unfold acceptedDepth getWaterDepth depthOf
    simp
  · unfold acceptedDepth getWaterDepth
    simp

end Verif.Frequency
