import Verif.Green.RootsModel
import Mathlib.Analysis.Calculus.Deriv.MeanValue
import Mathlib.Analysis.Real.Pi.Bounds
import Mathlib.Analysis.SpecialFunctions.Trigonometric.DerivHyp
import Mathlib.Analysis.Complex.ExponentialBounds

/-!
# Proofs about the roots of the dispersion relation (C106)
-/

namespace Verif.Green

open Real Set

/-! ## Specification -/

/-- A wavenumber of an evanescent mode: `ω²/g = - κ tan(κ h)`, with `ω²/g = k tanh(k h)`. -/
def IsEvanescent (k h κ : ℝ) : Prop := k * tanh (k * h) = -(κ * tan (κ * h))

/-- The interval of the mode of a given number. -/
def modeInterval (i : ℕ) : Set ℝ := Ioo ((2 * i + 1) * π / 2) ((i + 1) * π)

/-- The contract of `brentq`: an exception without a change of sign, otherwise a root of the function in the
bracket, if the function is continuous. -/
structure BrentqSpec (brentq : (ℝ → ℝ) → ℝ → ℝ → Option ℝ) : Prop where
  refused : ∀ f a b, 0 < f a * f b → brentq f a b = none
  found : ∀ f a b, a ≤ b → ContinuousOn f (Icc a b) → f a * f b ≤ 0 → ∃ x ∈ Icc a b, f x = 0 ∧ brentq f a b = some x

/-- There are such functions. -/
theorem brentq_exists : ∃ brentq, BrentqSpec brentq := by
  classical
  refine ⟨fun f a b => if 0 < f a * f b then none else
    if h : ∃ x ∈ Icc a b, f x = 0 then some h.choose else none, ?_, ?_⟩
  · intro f a b h; simp [h]
  · intro f a b hab hf h
    have h' : ¬ 0 < f a * f b := not_lt.2 h
    have hx : ∃ x ∈ Icc a b, f x = 0 := by
      rcases mul_nonpos_iff.1 h with ⟨h1, h2⟩ | ⟨h1, h2⟩
      · obtain ⟨x, hx, e⟩ := intermediate_value_Icc' hab hf (show (0 : ℝ) ∈ Icc (f b) (f a) from ⟨h2, h1⟩)
        exact ⟨x, hx, e⟩
      · obtain ⟨x, hx, e⟩ := intermediate_value_Icc hab hf (show (0 : ℝ) ∈ Icc (f a) (f b) from ⟨h1, h2⟩)
        exact ⟨x, hx, e⟩
    exact ⟨hx.choose, hx.choose_spec.1, hx.choose_spec.2, by rw [if_neg h', dif_pos hx]⟩

/-! ## The function on an interval -/

theorem cos_ne {i : ℕ} {y : ℝ} (h1 : (2 * i + 1) * π / 2 < y) (h2 : y < (2 * i + 3) * π / 2) : cos y ≠ 0 := by
  intro h
  obtain ⟨k, hk⟩ := cos_eq_zero_iff.1 h
  have hp := pi_pos
  rw [hk] at h1 h2
  have a : ((2 * i + 1 : ℤ) : ℝ) < (2 * k + 1 : ℤ) := by
    push_cast
    have := (div_lt_div_iff_of_pos_right (by norm_num : (0 : ℝ) < 2)).1 h1
    exact lt_of_mul_lt_mul_right this hp.le
  have b : ((2 * k + 1 : ℤ) : ℝ) < (2 * i + 3 : ℤ) := by
    push_cast
    have := (div_lt_div_iff_of_pos_right (by norm_num : (0 : ℝ) < 2)).1 h2
    exact lt_of_mul_lt_mul_right this hp.le
  have a := Int.cast_lt.1 a
  have b := Int.cast_lt.1 b
  omega

theorem rootFun_mono (K : ℝ) (i : ℕ) :
    StrictMonoOn (rootFun K) (Ioo ((2 * i + 1) * π / 2) ((2 * i + 3) * π / 2)) ∧
      ContinuousOn (rootFun K) (Ioo ((2 * i + 1) * π / 2) ((2 * i + 3) * π / 2)) := by
  have hd : ∀ y ∈ Ioo ((2 * i + 1) * π / 2) ((2 * i + 3) * π / 2),
      HasDerivAt (rootFun K) (1 * tan y + y * (1 / cos y ^ 2)) y := fun y hy =>
    ((hasDerivAt_id y).mul (hasDerivAt_tan (cos_ne hy.1 hy.2))).const_add K
  have hc : ContinuousOn (rootFun K) (Ioo ((2 * i + 1) * π / 2) ((2 * i + 3) * π / 2)) := fun y hy =>
    (hd y hy).continuousAt.continuousWithinAt
  refine ⟨strictMonoOn_of_deriv_pos (convex_Ioo _ _) hc fun y hy => ?_, hc⟩
  rw [interior_Ioo] at hy
  rw [(hd y hy).deriv]
  have hcos := cos_ne hy.1 hy.2
  have h2 : 0 < cos y ^ 2 := by positivity
  have e : 1 * tan y + y * (1 / cos y ^ 2) = (sin y * cos y + y) / cos y ^ 2 := by
    rw [tan_eq_sin_div_cos]; field_simp
  rw [e]
  refine div_pos ?_ h2
  have hy1 : 1 < y := by
    have h3 := pi_gt_three
    have : (0 : ℝ) ≤ i := Nat.cast_nonneg i
    nlinarith [hy.1]
  nlinarith [sin_sq_add_cos_sq y, sq_nonneg (sin y + cos y)]

theorem modeInterval_sub (i : ℕ) : modeInterval i ⊆ Ioo ((2 * i + 1) * π / 2) ((2 * i + 3) * π / 2) := fun y hy => by
  refine ⟨hy.1, hy.2.trans ?_⟩
  have := pi_pos
  nlinarith

/-- **C106**: at any frequency each interval has exactly one root. -/
theorem unique_root (K : ℝ) (hK : 0 < K) (i : ℕ) : ∃! y, y ∈ modeInterval i ∧ rootFun K y = 0 := by
  obtain ⟨hm, hc⟩ := rootFun_mono K i
  have hp := pi_pos
  have hi : (0 : ℝ) ≤ i := Nat.cast_nonneg i
  have tan_at : ∀ t, tan ((i + 1) * π - t) = - tan t := fun t => by
    have := tan_add_nat_mul_pi (-t) (i + 1)
    rw [tan_neg] at this
    rw [← this]
    congr 1
    push_cast
    ring
  have mem : ∀ c, 0 < c → (i + 1) * π - arctan c ∈ modeInterval i := fun c hc => by
    have h1 := arctan_lt_pi_div_two c
    have h2 := arctan_pos.2 hc
    constructor
    · linarith
    · linarith
  have c1 : 0 < 2 * K / π := by positivity
  have c2 : 0 < K / ((i + 1) * π) := by positivity
  have le : rootFun K ((i + 1) * π - arctan (2 * K / π)) ≤ 0 := by
    rw [rootFun, tan_at, tan_arctan]
    have h1 := (mem _ c1).1
    have h3 : π / 2 ≤ (i + 1) * π - arctan (2 * K / π) := by nlinarith
    have h4 : K = π / 2 * (2 * K / π) := by field_simp
    nlinarith [mul_le_mul_of_nonneg_right h3 c1.le]
  have ge : 0 ≤ rootFun K ((i + 1) * π - arctan (K / ((i + 1) * π))) := by
    rw [rootFun, tan_at, tan_arctan]
    have h2 := (mem _ c2).2.le
    have h4 : K = (i + 1) * π * (K / ((i + 1) * π)) := by field_simp
    nlinarith [mul_le_mul_of_nonneg_right h2 c2.le]
  have sub := modeInterval_sub i
  have conn : (modeInterval i).OrdConnected := ordConnected_Ioo
  obtain ⟨y, hy, e⟩ := (isPreconnected_Ioo (a := (2 * i + 1) * π / 2) (b := (i + 1) * π)).intermediate_value
    (mem _ c1) (mem _ c2) (hc.mono sub) (show (0 : ℝ) ∈ Icc _ _ from ⟨le, ge⟩)
  refine ⟨y, ⟨hy, e⟩, fun z hz => ?_⟩
  exact (hm.injOn (sub hz.1) (sub hy) (hz.2.trans e.symm))

/-! ## The brackets -/

theorem gap_small : 0 < bracketGap ∧ bracketGap < π / 6 ∧ bracketGap < 1 / 2 := by
  have h3 := pi_gt_three
  refine ⟨by unfold bracketGap; positivity, ?_, ?_⟩ <;> unfold bracketGap <;> norm_num <;> linarith

theorem tan_gap : 0 < tan bracketGap ∧ tan bracketGap ^ 2 < 1 / 3 := by
  obtain ⟨h1, h2, -⟩ := gap_small
  have hp := pi_pos
  have pos : 0 < tan bracketGap := tan_pos_of_pos_of_lt_pi_div_two h1 (by linarith)
  refine ⟨pos, ?_⟩
  have := tan_lt_tan_of_lt_of_lt_pi_div_two (by linarith : -(π / 2) < bracketGap) (by linarith : π / 6 < π / 2) h2
  rw [tan_pi_div_six] at this
  calc tan bracketGap ^ 2 < (1 / √3) ^ 2 := by gcongr
    _ = 1 / 3 := by rw [div_pow, Real.sq_sqrt (by norm_num)]; norm_num

theorem bracket_order (i : ℕ) : (2 * i + 1) * π / 2 < bracketLow i ∧ bracketLow i < bracketHigh i ∧
    bracketHigh i < (i + 1) * π ∧ π / 2 < bracketLow i ∧ bracketHigh i < 2 * bracketLow i := by
  obtain ⟨h1, h2, h4⟩ := gap_small
  have hp := pi_gt_three
  have hi : (0 : ℝ) ≤ i := Nat.cast_nonneg i
  have hip : 0 ≤ i * π := by positivity
  unfold bracketLow bracketHigh
  refine ⟨?_, ?_, ?_, ?_, ?_⟩ <;> linarith

theorem rootFun_low (K : ℝ) (i : ℕ) : rootFun K (bracketLow i) = K - bracketLow i / tan bracketGap := by
  have : tan (bracketLow i) = -(tan bracketGap)⁻¹ := by
    have h := tan_add_nat_mul_pi (π / 2 - -bracketGap) i
    rw [tan_pi_div_two_sub, tan_neg, inv_neg] at h
    rw [← h]
    congr 1
    unfold bracketLow
    ring
  rw [rootFun, this]
  ring

theorem rootFun_high (K : ℝ) (i : ℕ) : rootFun K (bracketHigh i) = K - bracketHigh i * tan bracketGap := by
  have : tan (bracketHigh i) = -tan bracketGap := by
    have h := tan_add_nat_mul_pi (-bracketGap) (i + 1)
    rw [tan_neg] at h
    rw [← h]
    congr 1
    unfold bracketHigh
    push_cast
    ring
  rw [rootFun, this]
  ring

/-- The frequencies for which the root of a given number is in its bracket. -/
def InBracket (K : ℝ) (i : ℕ) : Prop := bracketHigh i * tan bracketGap ≤ K ∧ K ≤ bracketLow i / tan bracketGap

theorem sign_iff (K : ℝ) (i : ℕ) :
    rootFun K (bracketLow i) * rootFun K (bracketHigh i) ≤ 0 ↔ InBracket K i := by
  obtain ⟨t1, t2⟩ := tan_gap
  obtain ⟨-, -, -, b1, b2⟩ := bracket_order i
  have hp := pi_pos
  have key : bracketHigh i * tan bracketGap < bracketLow i / tan bracketGap := by
    rw [lt_div_iff₀ t1]
    nlinarith
  rw [rootFun_low, rootFun_high, mul_nonpos_iff]
  unfold InBracket
  constructor
  · rintro (⟨h1, h2⟩ | ⟨h1, h2⟩)
    · exfalso; linarith
    · exact ⟨by linarith, by linarith⟩
  · rintro ⟨h1, h2⟩
    right
    exact ⟨by linarith, by linarith⟩

/-- **C106**: a root is searched successfully exactly when the frequency is neither too low nor too high. -/
theorem root_ok_iff {brentq : (ℝ → ℝ) → ℝ → ℝ → Option ℝ} (hb : BrentqSpec brentq) (k h : ℝ) (i : ℕ) :
    (root brentq k h i).isSome ↔ InBracket (omega2h k h) i := by
  rw [← sign_iff, root, Option.isSome_map]
  obtain ⟨o1, o2, o3, -, -⟩ := bracket_order i
  have sub : Icc (bracketLow i) (bracketHigh i) ⊆ modeInterval i := fun y hy =>
    ⟨o1.trans_le hy.1, hy.2.trans_lt o3⟩
  constructor
  · intro hs
    by_contra hn
    rw [hb.refused _ _ _ (not_le.1 hn)] at hs
    cases hs
  · intro hs
    obtain ⟨x, -, -, e⟩ := hb.found _ _ _ o2.le
      ((rootFun_mono (omega2h k h) i).2.mono (sub.trans (modeInterval_sub i))) hs
    rw [e]; rfl

theorem evanescent_iff {k h : ℝ} (hh : 0 < h) (y : ℝ) : rootFun (omega2h k h) y = 0 ↔ IsEvanescent k h (y / h) := by
  unfold rootFun omega2h IsEvanescent
  rw [div_mul_cancel₀ y hh.ne']
  constructor
  · intro e
    field_simp
    linarith
  · intro e
    field_simp at e
    linarith

/-- **C106**: a root that is found is the wavenumber of the evanescent mode of its number. -/
theorem root_spec {brentq : (ℝ → ℝ) → ℝ → ℝ → Option ℝ} (hb : BrentqSpec brentq) (k h : ℝ) (hh : 0 < h) (i : ℕ)
    {κ : ℝ} (hr : root brentq k h i = some κ) : IsEvanescent k h κ ∧ κ * h ∈ modeInterval i ∧
      ∀ κ', IsEvanescent k h κ' → κ' * h ∈ modeInterval i → κ' = κ := by
  obtain ⟨o1, o2, o3, -, -⟩ := bracket_order i
  have sub : Icc (bracketLow i) (bracketHigh i) ⊆ modeInterval i := fun y hy =>
    ⟨o1.trans_le hy.1, hy.2.trans_lt o3⟩
  have hs : rootFun (omega2h k h) (bracketLow i) * rootFun (omega2h k h) (bracketHigh i) ≤ 0 :=
    (sign_iff _ _).2 ((root_ok_iff hb k h i).1 (by rw [hr]; rfl))
  obtain ⟨x, hx, hx0, e⟩ := hb.found _ _ _ o2.le
    ((rootFun_mono (omega2h k h) i).2.mono (sub.trans (modeInterval_sub i))) hs
  rw [root, e] at hr
  cases hr
  have hm : x / h * h = x := div_mul_cancel₀ x hh.ne'
  refine ⟨(evanescent_iff hh x).1 hx0, by rw [hm]; exact sub hx, fun κ' h1 h2 => ?_⟩
  have h1' : rootFun (omega2h k h) (κ' * h) = 0 := by
    rw [evanescent_iff hh, mul_div_cancel_right₀ κ' hh.ne']; exact h1
  have := (rootFun_mono (omega2h k h) i).1.injOn (modeInterval_sub i h2) (modeInterval_sub i (sub hx))
    (h1'.trans hx0.symm)
  rw [← this]
  exact (mul_div_cancel_right₀ κ' hh.ne').symm

theorem mapM_some_iff {α β : Type} (f : α → Option β) (l : List α) :
    (l.mapM f).isSome ↔ ∀ x ∈ l, (f x).isSome := by
  induction l with
  | nil => simp
  | cons a l ih =>
    rw [List.mapM_cons]
    cases ha : f a with
    | none => simp [ha]
    | some b =>
      cases hl : l.mapM f with
      | none => rw [hl] at ih; simpa [ha, hl] using ih
      | some bs => rw [hl] at ih; simpa [ha, hl] using ih

theorem mapM_getElem {α β : Type} (f : α → Option β) (l : List α) (bs : List β) (h : l.mapM f = some bs) :
    bs.length = l.length ∧ ∀ (i : ℕ) (x : α), l[i]? = some x → f x = bs[i]? := by
  induction l generalizing bs with
  | nil => simp at h; subst h; simp
  | cons a l ih =>
    rw [List.mapM_cons] at h
    cases ha : f a with
    | none => simp [ha] at h
    | some b =>
      cases hl : l.mapM f with
      | none => simp [ha, hl] at h
      | some cs =>
        simp [ha, hl] at h
        subst h
        obtain ⟨h1, h2⟩ := ih cs hl
        refine ⟨by simp [h1], fun i x hx => ?_⟩
        cases i with
        | zero => simp at hx; subst hx; simpa using ha
        | succ i => simp at hx; simpa using h2 i x hx

/-- **C106**: the roots are computed exactly when the frequency is not below what the last bracket allows and not above
what the first one allows. -/
theorem roots_ok_iff {brentq : (ℝ → ℝ) → ℝ → ℝ → Option ℝ} (hb : BrentqSpec brentq) (nk : ℕ) (k h : ℝ) :
    (dispersionRoots brentq nk k h).isSome ↔ nk ≤ 1 ∨
      (bracketHigh (nk - 2) * tan bracketGap ≤ omega2h k h ∧ omega2h k h ≤ bracketLow 0 / tan bracketGap) := by
  rw [dispersionRoots, Option.isSome_map, mapM_some_iff]
  simp only [List.mem_range, root_ok_iff hb]
  obtain ⟨t1, -⟩ := tan_gap
  have hp := pi_pos
  constructor
  · intro h
    by_cases hn : nk ≤ 1
    · exact Or.inl hn
    · exact Or.inr ⟨(h (nk - 2) (by omega)).1, (h 0 (by omega)).2⟩
  · rintro (hn | ⟨h1, h2⟩) i hi
    · omega
    · constructor
      · refine le_trans ?_ h1
        have : (i : ℝ) ≤ ((nk - 2 : ℕ) : ℝ) := Nat.cast_le.2 (by omega)
        gcongr
        unfold bracketHigh
        nlinarith
      · refine h2.trans ?_
        gcongr
        unfold bracketLow
        have : (0 : ℝ) ≤ i := Nat.cast_nonneg i
        push_cast
        nlinarith

/-- **C106**: the first number is the wavenumber, the next ones are those of the evanescent modes, in order. -/
theorem roots_spec {brentq : (ℝ → ℝ) → ℝ → ℝ → Option ℝ} (hb : BrentqSpec brentq) (nk : ℕ) (k h : ℝ) (hh : 0 < h)
    {l : List ℝ} (hl : dispersionRoots brentq nk k h = some l) :
    l.length = max nk 1 ∧ l[0]? = some k ∧
      ∀ (i : ℕ) (κ : ℝ), l[i + 1]? = some κ → IsEvanescent k h κ ∧ κ * h ∈ modeInterval i := by
  obtain ⟨m, hm, rfl⟩ := Option.map_eq_some_iff.1 hl
  obtain ⟨h1, h2⟩ := mapM_getElem _ _ _ hm
  rw [List.length_range] at h1
  refine ⟨by simp [h1]; omega, rfl, fun i κ hκ => ?_⟩
  rw [List.getElem?_cons_succ] at hκ
  have hi : i < nk - 1 := by rw [← h1]; exact (List.getElem?_eq_some_iff.1 hκ).1
  have := h2 i i (by simp [hi])
  rw [hκ] at this
  obtain ⟨a, b, -⟩ := root_spec hb k h hh i this
  exact ⟨a, b⟩

/-- **C106**: the wavenumbers of the evanescent modes increase. -/
theorem roots_increase {brentq : (ℝ → ℝ) → ℝ → ℝ → Option ℝ} (hb : BrentqSpec brentq) (nk : ℕ) (k h : ℝ) (hh : 0 < h)
    {l : List ℝ} (hl : dispersionRoots brentq nk k h = some l) (i j : ℕ) (hij : i < j) (κ κ' : ℝ)
    (h1 : l[i + 1]? = some κ) (h2 : l[j + 1]? = some κ') : κ < κ' := by
  obtain ⟨-, -, hs⟩ := roots_spec hb nk k h hh hl
  have a := (hs i κ h1).2.2
  have b := (hs j κ' h2).2.1
  have hp := pi_pos
  have : ((i : ℝ) + 1) ≤ j := by exact_mod_cast hij
  have : κ * h < κ' * h := by nlinarith
  exact lt_of_mul_lt_mul_right this hh.le

/-- **C106**: for any depth and any number of roots above one, there are frequencies so low that no root is computed,
although there is one in each interval. -/
theorem roots_low_violated {brentq : (ℝ → ℝ) → ℝ → ℝ → Option ℝ} (hb : BrentqSpec brentq) (nk : ℕ) (hn : 2 ≤ nk)
    (h : ℝ) (hh : 0 < h) : ∃ k, 0 < k ∧ dispersionRoots brentq nk k h = none ∧
      ∀ i, ∃ κ, IsEvanescent k h κ ∧ κ * h ∈ modeInterval i := by
  obtain ⟨t1, -⟩ := tan_gap
  obtain ⟨-, o2, -, o4, -⟩ := bracket_order (nk - 2)
  have hp := pi_pos
  have hs : 0 < bracketHigh (nk - 2) * tan bracketGap := mul_pos (by linarith) t1
  have hk : 0 < bracketHigh (nk - 2) * tan bracketGap / h := div_pos hs hh
  refine ⟨bracketHigh (nk - 2) * tan bracketGap / h, hk, ?_, fun i => ?_⟩
  · rw [← Option.not_isSome_iff_eq_none, roots_ok_iff hb]
    rintro (h1 | ⟨h1, -⟩)
    · omega
    · unfold omega2h at h1
      rw [div_mul_cancel₀ _ hh.ne'] at h1
      have ht := tanh_lt_one (bracketHigh (nk - 2) * tan bracketGap)
      have e : bracketHigh (nk - 2) * tan bracketGap / h * tanh (bracketHigh (nk - 2) * tan bracketGap) * h =
          bracketHigh (nk - 2) * tan bracketGap * tanh (bracketHigh (nk - 2) * tan bracketGap) := by
        field_simp
      rw [e] at h1
      nlinarith
  · have hK : 0 < omega2h (bracketHigh (nk - 2) * tan bracketGap / h) h := by
      unfold omega2h
      have : 0 < tanh (bracketHigh (nk - 2) * tan bracketGap / h * h) := by
        rw [tanh_eq_sinh_div_cosh]
        exact div_pos (sinh_pos_iff.2 (mul_pos hk hh)) (cosh_pos _)
      positivity
    obtain ⟨y, ⟨hy, e⟩, -⟩ := unique_root _ hK i
    refine ⟨y / h, (evanescent_iff hh y).1 e, ?_⟩
    rwa [div_mul_cancel₀ y hh.ne']

/-! ## The number of roots -/

/-- **C106**: asking for more roots than the routine reads changes nothing for it. -/
theorem roots_more {brentq : (ℝ → ℝ) → ℝ → ℝ → Option ℝ} (nk nk' : ℕ) (h1 : fortranRoots ≤ nk) (h2 : nk ≤ nk') (k h : ℝ)
    {l l' : List ℝ} (hl : dispersionRoots brentq nk k h = some l) (hl' : dispersionRoots brentq nk' k h = some l') :
    rootsRead l = rootsRead l' := by
  obtain ⟨m, hm, rfl⟩ := Option.map_eq_some_iff.1 hl
  obtain ⟨m', hm', rfl⟩ := Option.map_eq_some_iff.1 hl'
  obtain ⟨e1, g1⟩ := mapM_getElem _ _ _ hm
  obtain ⟨e2, g2⟩ := mapM_getElem _ _ _ hm'
  rw [List.length_range] at e1 e2
  have hf : fortranRoots = 200 := rfl
  rw [rootsRead, rootsRead, if_neg (by simp; omega), if_neg (by simp; omega)]
  congr 1
  apply List.ext_getElem?
  intro i
  rw [List.getElem?_take, List.getElem?_take]
  split
  · cases i with
    | zero => rfl
    | succ i =>
      rw [List.getElem?_cons_succ, List.getElem?_cons_succ, ← g1 i i (List.getElem?_range (by omega)),
        ← g2 i i (List.getElem?_range (by omega))]
  · rfl

/-- **C106**: with fewer roots, the routine reads beyond the end of the array. -/
theorem roots_fewer_violated {brentq : (ℝ → ℝ) → ℝ → ℝ → Option ℝ} (hb : BrentqSpec brentq) (nk : ℕ)
    (hn : nk < fortranRoots) (k h : ℝ) (hh : 0 < h) {l : List ℝ} (hl : dispersionRoots brentq nk k h = some l) :
    rootsRead l = none := by
  have := (roots_spec hb nk k h hh hl).1
  rw [rootsRead, if_pos]
  rw [this]
  have hf : fortranRoots = 200 := rfl
  omega

/-- A frequency for which the roots are computed, and which meets the hypotheses above. -/
theorem exRoots {brentq : (ℝ → ℝ) → ℝ → ℝ → Option ℝ} (hb : BrentqSpec brentq) :
    (dispersionRoots brentq 3 1 1).isSome := by
  refine (roots_ok_iff hb 3 1 1).2 (Or.inr ?_)
  obtain ⟨g1, g2, g3⟩ := gap_small
  obtain ⟨t1, t2⟩ := tan_gap
  have hp3 := pi_gt_three
  have hp4 := pi_lt_four
  have e : omega2h 1 1 = tanh 1 := by simp [omega2h]
  have hcos : 1 / 2 ≤ cos bracketGap := by
    have := one_sub_sq_div_two_le_cos (x := bracketGap)
    nlinarith
  have htan : tan bracketGap ≤ 2 * bracketGap := by
    rw [tan_eq_sin_div_cos, div_le_iff₀ (by linarith)]
    have := sin_le g1.le
    nlinarith
  have hsmall : bracketGap ≤ 1 / 100 := by unfold bracketGap; norm_num
  have hth : 1 / 3 ≤ tanh 1 := by
    rw [tanh_eq_sinh_div_cosh, le_div_iff₀ (cosh_pos _)]
    have h1 : (1 : ℝ) ≤ sinh 1 := self_le_sinh_iff.2 (by norm_num)
    have h2 := cosh_add_sinh 1
    have h3 := exp_one_lt_d9
    linarith
  have ht1 := tanh_lt_one 1
  rw [e]
  constructor
  · have : bracketHigh (3 - 2) ≤ 8 := by unfold bracketHigh; push_cast; linarith
    have : bracketHigh (3 - 2) * tan bracketGap ≤ 8 * (2 * bracketGap) := mul_le_mul this htan t1.le (by norm_num)
    linarith
  · have h1 : 1 ≤ bracketLow 0 := by unfold bracketLow; push_cast; linarith
    have h2 : tan bracketGap ≤ 1 := by linarith
    have : 1 ≤ bracketLow 0 / tan bracketGap := by rw [le_div_iff₀ t1]; linarith
    linarith

example : ∃ brentq, BrentqSpec brentq ∧ ∃ l, dispersionRoots brentq 3 1 1 = some l := by
  obtain ⟨b, hb⟩ := brentq_exists
  exact ⟨b, hb, Option.isSome_iff_exists.1 (exRoots hb)⟩

end Verif.Green
