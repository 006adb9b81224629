import Verif.Green.DispModel
import Mathlib.Analysis.SpecialFunctions.Trigonometric.DerivHyp
import Mathlib.Analysis.SpecialFunctions.Trigonometric.ArctanDeriv
import Mathlib.Analysis.SpecialFunctions.Log.Deriv
import Mathlib.Analysis.Complex.ExponentialBounds
import Mathlib.Analysis.Real.Pi.Bounds

/-!
# What the roots given by FinGreen3D are roots of

Specification: the dispersion relations `k tanh (k h) = K` and `m tan (m h) = -K`, for the number `K` asked for.
-/

namespace Verif.Green.Disp

open Real

/-- A wavenumber. -/
def IsWave (K h k : ℝ) : Prop := 0 < k ∧ k * tanh (k * h) = K

/-- The wavenumber of the evanescent mode `i`. -/
def IsMode (K h : ℝ) (i : ℕ) (m : ℝ) : Prop := (i - 1 / 2) * π < m * h ∧ m * h < i * π ∧ m * tan (m * h) = -K

/-- The number that the routine solves the relation for. -/
noncomputable def shifted (K : ℝ) : ℝ := 9810 / 9807 * K

theorem reduced_eq {K h : ℝ} (hK : 0 ≤ K) : reduced (omegaOf K) h = shifted K * h := by
  unfold reduced omegaOf gravityF gravityC shifted
  rw [mul_self_sqrt (by positivity)]
  ring

/-! ### The derivatives -/

/-- The first loop has the right first and second derivatives. -/
theorem wave_derivatives {x t : ℝ} (hx : 0 < x) (ht : x < t) :
    HasDerivAt (fun1 x) (dfun1 x t) t ∧ HasDerivAt (dfun1 x) (d2fun1 x t) t := by
  have h1 : t - x ≠ 0 := by linarith
  have h2 : t + x ≠ 0 := by linarith
  have h3 : t * t - x * x ≠ 0 := by nlinarith
  constructor
  · have hq : HasDerivAt (fun t : ℝ => (t + x) / (t - x)) ((1 * (t - x) - (t + x) * 1) / (t - x) ^ 2) t :=
      ((hasDerivAt_id t).add_const x).div ((hasDerivAt_id t).sub_const x) h1
    refine (((hq.log (div_ne_zero h2 h1)).div_const 2).sub (hasDerivAt_id t)).congr_deriv ?_
    unfold dfun1
    rw [show t * t - x * x = (t + x) * (t - x) by ring]
    field_simp
    ring
  · have hd : HasDerivAt (fun t : ℝ => t * t - x * x) (1 * t + t * 1) t :=
      ((hasDerivAt_id t).mul (hasDerivAt_id t)).sub_const _
    refine (((hasDerivAt_const t (-x)).div hd h3).sub_const 1).congr_deriv ?_
    unfold d2fun1
    field_simp
    ring

theorem arg_eq {x y : ℝ} (hy : 0 < y) : Complex.arg ⟨y, x⟩ = arctan (x / y) := by
  have h := Complex.tan_arg ⟨y, x⟩
  simp only at h
  have hr : |Complex.arg ⟨y, x⟩| < π / 2 := Complex.abs_arg_lt_pi_div_two_iff.2 (Or.inl hy)
  rw [← h, arctan_tan (by linarith [(abs_lt.1 hr).1]) (abs_lt.1 hr).2]

/-- The second loop has the right first derivative. -/
theorem mode_derivative {x t : ℝ} {i : ℕ} (hy : 0 < modeY i t) : HasDerivAt (fun2 x i) (dfun2 x i t) t := by
  have hY : HasDerivAt (modeY i) (-1) t := (hasDerivAt_id t).const_sub (i * π)
  have hev : (fun s => arctan (x / modeY i s) - s) =ᶠ[nhds t] fun2 x i := by
    have : ∀ᶠ s in nhds t, 0 < modeY i s := hY.continuousAt.eventually (lt_mem_nhds hy)
    filter_upwards [this] with s hs
    rw [fun2, arg_eq hs]
  have hq : HasDerivAt (fun s => x / modeY i s) ((0 * modeY i t - x * -1) / modeY i t ^ 2) t :=
    (hasDerivAt_const t x).div hY hy.ne'
  refine ((hq.arctan.sub (hasDerivAt_id t)).congr_of_eventuallyEq hev.symm).congr_deriv ?_
  unfold dfun2
  have h1 : modeY i t * modeY i t + x * x ≠ 0 := by nlinarith [mul_self_nonneg x, mul_pos hy hy]
  have h2 : 1 + (x / modeY i t) ^ 2 ≠ 0 := by positivity
  have := hy.ne'
  field_simp
  ring

/-- Its second derivative has the factor `Y`, where the code has `TRIAL`. -/
theorem mode_second_derivative {x t : ℝ} {i : ℕ} (hx : 0 < x) :
    HasDerivAt (dfun2 x i) (2 * x * modeY i t / ((modeY i t * modeY i t + x * x) * (modeY i t * modeY i t + x * x))) t := by
  have hY : HasDerivAt (modeY i) (-1) t := (hasDerivAt_id t).const_sub (i * π)
  have h1 : modeY i t * modeY i t + x * x ≠ 0 := by nlinarith [mul_self_nonneg (modeY i t), mul_pos hx hx]
  refine (((hasDerivAt_const t x).div ((hY.mul hY).add_const (x * x)) h1).sub_const 1).congr_deriv ?_
  simp only [Pi.mul_apply]
  field_simp
  ring

/-- The second derivative of the second loop is right at one point only. -/
theorem mode_second_derivative_iff {x t : ℝ} {i : ℕ} (hx : 0 < x) : HasDerivAt (dfun2 x i) (d2fun2 x i t) t ↔ t = i * π / 2 := by
  have h1 : 0 < modeY i t * modeY i t + x * x := by nlinarith [mul_self_nonneg (modeY i t), mul_pos hx hx]
  have key : d2fun2 x i t = 2 * x * modeY i t / ((modeY i t * modeY i t + x * x) * (modeY i t * modeY i t + x * x)) ↔ t = i * π / 2 := by
    unfold d2fun2
    rw [div_left_inj' (by positivity)]
    have : 2 * x ≠ 0 := by positivity
    rw [mul_right_inj' this]
    unfold modeY
    constructor <;> intro h <;> linarith
  constructor
  · intro h
    exact key.1 (h.unique (mode_second_derivative hx))
  · intro h
    rw [key.2 h]
    exact mode_second_derivative hx

/-- Where the roots of the evanescent modes are, it is wrong. -/
theorem mode_order_violated {x t : ℝ} {i : ℕ} (hi : 1 ≤ i) (hx : 0 < x) (ht : t < π / 2) : ¬ HasDerivAt (dfun2 x i) (d2fun2 x i t) t := by
  rw [mode_second_derivative_iff hx]
  have : (1 : ℝ) ≤ i := by exact_mod_cast hi
  have := pi_pos
  intro h
  nlinarith

/-! ### The equations -/

theorem tanh_eq_exp (t : ℝ) : tanh t = (exp (2 * t) - 1) / (exp (2 * t) + 1) := by
  rw [tanh_eq_sinh_div_cosh, sinh_eq, cosh_eq, show 2 * t = t + t by ring, exp_add, exp_neg]
  have := exp_pos t
  field_simp

/-- The zeros of the function of the first loop. -/
theorem wave_zero_iff {x t : ℝ} (hx : 0 < x) (ht : x < t) : fun1 x t = 0 ↔ t * tanh t = x := by
  have h1 : 0 < t - x := by linarith
  have h2 : 0 < t + x := by linarith
  have hE := exp_pos (2 * t)
  have e1 : fun1 x t = 0 ↔ (t + x) / (t - x) = exp (2 * t) := by
    unfold fun1
    constructor
    · intro h
      rw [← exp_log (div_pos h2 h1)]
      congr 1
      linarith
    · intro h
      rw [h, log_exp]
      ring
  rw [e1, tanh_eq_exp, div_eq_iff h1.ne', mul_div_assoc', div_eq_iff (by positivity)]
  constructor <;> intro h <;> linarith

/-- The zeros of the function of the second loop. -/
theorem mode_zero_iff {x t : ℝ} {i : ℕ} (hi : 1 ≤ i) (h1 : 0 < t) (h2 : t < π / 2) :
    fun2 x i t = 0 ↔ modeY i t * tan (modeY i t) = -x := by
  have hi' : (1 : ℝ) ≤ i := by exact_mod_cast hi
  have hy : 0 < modeY i t := by
    unfold modeY
    nlinarith [pi_pos]
  have ht : tan (modeY i t) = -tan t := by
    unfold modeY
    rw [show (i : ℝ) * π - t = -(t - i * π) by ring, tan_neg, tan_sub_nat_mul_pi]
  rw [ht]
  unfold fun2
  rw [arg_eq hy]
  constructor
  · intro h
    have : tan t = x / modeY i t := by rw [← tan_arctan (x / modeY i t)]; congr 1; linarith
    rw [this]
    field_simp
  · intro h
    have : x / modeY i t = tan t := by
      rw [div_eq_iff hy.ne']
      linarith
    rw [this, arctan_tan (by linarith) h2]
    ring

/-- The iterations stay at the zeros. -/
theorem zero_stays (f d d2 : ℝ → ℝ) {t : ℝ} (h : f t = 0) (n : ℕ) : iterate f d d2 (n + 1) t = some t := by
  have e : move t (f t) (d t) (d2 t) = t := by rw [h]; simp [move]
  simp only [iterate, e, sub_self, abs_zero]
  rw [if_neg (by norm_num)]

/-- They stay nowhere else, except where the correction cancels the step. -/
theorem stays_iff {t f d d2 : ℝ} (hd : d ≠ 0) : move t f d d2 = t ↔ f = 0 ∨ 2 * d ^ 2 + f * d2 = 0 := by
  unfold move
  have e : t - f / d * (1 + f / d * (d2 / d) / 2) = t ↔ f * (2 * d ^ 2 + f * d2) = 0 := by
    have e2 : f / d * (1 + f / d * (d2 / d) / 2) = f * (2 * d ^ 2 + f * d2) / (2 * d ^ 3) := by field_simp
    rw [e2]
    constructor
    · intro h
      have : f * (2 * d ^ 2 + f * d2) / (2 * d ^ 3) = 0 := by linarith
      rcases div_eq_zero_iff.1 this with h | h
      · exact h
      · exact absurd h (by positivity)
    · intro h
      rw [h]; simp
  rw [e, mul_eq_zero]

/-! ### The gravity -/

/-- The wavenumber that the first loop looks for: the relation is solved for another frequency. -/
theorem wave_relation {K h t : ℝ} (hK : 0 < K) (hh : 0 < h) (ht : shifted K * h < t) :
    fun1 (reduced (omegaOf K) h) t = 0 ↔ IsWave (shifted K) h (t / h) := by
  have hs : 0 < shifted K := by unfold shifted; positivity
  have hp : 0 < shifted K * h := by positivity
  rw [reduced_eq hK.le, wave_zero_iff hp ht]
  unfold IsWave
  rw [div_mul_cancel₀ _ hh.ne', div_mul_eq_mul_div, div_eq_iff hh.ne']
  exact ⟨fun e => ⟨div_pos (by linarith) hh, e⟩, fun e => e.2⟩

/-- The same for the evanescent modes. -/
theorem mode_relation {K h t : ℝ} {i : ℕ} (hK : 0 < K) (hh : 0 < h) (hi : 1 ≤ i) (h1 : 0 < t) (h2 : t < π / 2) :
    fun2 (reduced (omegaOf K) h) i t = 0 ↔ IsMode (shifted K) h i (modeY i t / h) := by
  rw [reduced_eq hK.le, mode_zero_iff hi h1 h2]
  unfold IsMode
  rw [div_mul_cancel₀ _ hh.ne', div_mul_eq_mul_div, div_eq_iff hh.ne']
  constructor
  · intro e
    refine ⟨?_, ?_, by linarith⟩
    · unfold modeY; linarith
    · unfold modeY; linarith
  · intro e
    linarith [e.2.2]

/-- None of these roots is a root of the relation asked for. -/
theorem gravity_violated {K h : ℝ} (hK : 0 < K) :
    (∀ k, IsWave (shifted K) h k → ¬ IsWave K h k) ∧ ∀ i m, IsMode (shifted K) h i m → ¬ IsMode K h i m := by
  have hne : shifted K ≠ K := by
    unfold shifted
    intro e
    linarith
  constructor
  · intro k a b
    exact hne (a.2.symm.trans b.2)
  · intro i m a b
    have := a.2.2.symm.trans b.2.2
    exact hne (by linarith)

theorem start_deep {x : ℝ} (hx : 14 ≤ x) : |start x - x| < 1 / 10 ^ 10 := by
  unfold start
  rw [if_neg (by intro h; linarith [h.2])]
  have he : x * exp (-2 * x) ≤ 14 * exp (-28) := by
    have h1 : x / 14 ≤ exp (x / 14 - 1) := by
      have := add_one_le_exp (x / 14 - 1)
      linarith
    have h2 : exp (x / 14 - 1) ≤ exp (2 * (x - 14)) := exp_le_exp.2 (by linarith)
    have h3 : x ≤ 14 * exp (2 * (x - 14)) := by linarith
    calc x * exp (-2 * x) ≤ 14 * exp (2 * (x - 14)) * exp (-2 * x) := mul_le_mul_of_nonneg_right h3 (exp_pos _).le
      _ = 14 * exp (-28) := by rw [mul_assoc, ← exp_add]; ring_nf
  have hs : exp (-28) ≤ 1 / 10 ^ 12 := by
    have e1 : exp (-28) = (exp 1 ^ 28)⁻¹ := by rw [← exp_nat_mul, ← exp_neg]; norm_num
    have e2 : (2.7182818283 : ℝ) ^ 28 ≤ exp 1 ^ 28 := pow_le_pow_left₀ (by norm_num) exp_one_gt_d9.le 28
    rw [e1, inv_eq_one_div]
    exact div_le_div_of_nonneg_left (by norm_num) (by norm_num) (le_trans (by norm_num) e2)
  have hp : 0 ≤ x * exp (-2 * x) := by positivity
  generalize x * exp (-2 * x) = T at *
  have hT : T ≤ 14 / 10 ^ 12 := by linarith
  rw [abs_lt]
  constructor <;> nlinarith

/-- In deep water the root is given exactly, by a formula that depends on the gravity. -/
theorem deep_root {K h : ℝ} (hK : 0 < K) (hh : 0 < h) (hd : 14 ≤ K * h) (n : ℕ) : firstRoot n (omegaOf K) h = some (shifted K) := by
  have hx : 14 ≤ shifted K * h := by unfold shifted; linarith
  simp only [firstRoot, reduced_eq hK.le]
  rw [if_pos (start_deep hx)]
  congr 1
  field_simp

/-- There the wavenumber is wrong by three parts in ten thousand. -/
theorem deep_violated {K h k : ℝ} (hK : 0 < K) (hh : 0 < h) (hd : 14 ≤ K * h) (hk : IsWave K h k) (n : ℕ) :
    ∃ r, firstRoot n (omegaOf K) h = some r ∧ 3e-4 * k < r - k ∧ r - k < 3.1e-4 * k := by
  refine ⟨shifted K, deep_root hK hh hd n, ?_⟩
  obtain ⟨k0, hk⟩ := hk
  have hkh : 0 < k * h := by positivity
  have t1 : tanh (k * h) < 1 := tanh_lt_one _
  have hKk : K < k := by rw [← hk]; nlinarith
  have h14 : 14 ≤ k * h := by nlinarith
  have t2 : 1 - 1 / 10 ^ 6 ≤ tanh (k * h) := by
    rw [tanh_eq_exp]
    have : (2 : ℝ) * 10 ^ 6 ≤ exp (2 * (k * h)) := by
      have e1 : exp 28 = exp 1 ^ 28 := by rw [← exp_nat_mul]; norm_num
      have e2 : (2.7182818283 : ℝ) ^ 28 ≤ exp 1 ^ 28 := pow_le_pow_left₀ (by norm_num) exp_one_gt_d9.le 28
      have e3 : exp 28 ≤ exp (2 * (k * h)) := exp_le_exp.2 (by linarith)
      rw [e1] at e3
      exact le_trans (by norm_num) (e2.trans e3)
    rw [le_div_iff₀ (by positivity)]
    linarith
  have hKlow : (1 - 1 / 10 ^ 6) * k ≤ K := by rw [← hk]; nlinarith
  unfold shifted
  norm_num at hKlow ⊢
  constructor <;> linarith

theorem modes_length (n : ℕ) (x h : ℝ) (m : ℕ) : ∀ (i : ℕ) (t : ℝ) (l : List ℝ), modes n x h m i t = some l → l.length = m := by
  induction m with
  | zero =>
    intro i t l e
    simp only [modes, Option.some.injEq] at e
    simp [← e]
  | succ m ih =>
    intro i t l e
    simp only [modes, Option.bind_eq_some_iff, Option.map_eq_some_iff] at e
    obtain ⟨t', -, l', e2, rfl⟩ := e
    simp [ih _ _ _ e2]

/-- When the loops end, as many roots as asked for are given; in deep water the first one is the one above. -/
theorem dispersion_roots_shape {K h : ℝ} {n nk : ℕ} {l : List ℝ} (hn : 1 ≤ nk) (e : dispersionRoots n nk K h = some l) :
    l.length = nk ∧ (0 < K → 0 < h → 14 ≤ K * h → l.head? = some (shifted K)) := by
  simp only [dispersionRoots, dispersion, Option.bind_eq_some_iff, Option.map_eq_some_iff] at e
  obtain ⟨k, e1, l', e2, rfl⟩ := e
  refine ⟨?_, ?_⟩
  · simp only [List.length_cons, modes_length _ _ _ _ _ _ _ e2]
    omega
  · intro hK hh hd
    rw [deep_root hK hh hd] at e1
    simpa using e1.symm

/-- Asked for the wavenumber alone in deep water, the function ends and gives it. -/
theorem dispersion_one_root {K h : ℝ} (hK : 0 < K) (hh : 0 < h) (hd : 14 ≤ K * h) (n : ℕ) :
    dispersionRoots n 1 K h = some [shifted K] := by
  simp [dispersionRoots, dispersion, deep_root hK hh hd, modes]

/-- A frequency and a depth in deep water. -/
example : (0 : ℝ) < 2 ∧ (0 : ℝ) < 10 ∧ (14 : ℝ) ≤ 2 * 10 := by norm_num

/-- A wavenumber with its frequency. -/
example : IsWave (2 * tanh (2 * 10)) 10 2 := ⟨by norm_num, rfl⟩

/-- A point of the loops. -/
example : (0 : ℝ) < 1 ∧ (1 : ℝ) < 2 ∧ 0 < modeY 1 1 ∧ (1 : ℝ) < π / 2 := by
  have := pi_gt_three
  refine ⟨by norm_num, by norm_num, ?_, by linarith⟩
  unfold modeY
  push_cast
  linarith

end Verif.Green.Disp
