import Verif.Tabulation.ExpE1Lemmas

/-!
# The other formulas of `exp_e1` on the negative real axis, and the values where the formulas meet
-/

namespace Verif.Tabulation.ExpE1

open Real Verif.Green.PolyBound Verif.Green.ExpInt Verif.Green.EulerGamma
open Verif.Green.Lwn (evq ev_cast)
open Verif.Green.FinK (tail_half')
open scoped Nat

theorem exp_bracket (q : ℚ) (K : ℕ) (h0 : 0 ≤ q) (h : 2 * q ≤ K + 1) :
    ((sums q (K + 1)).2.1 : ℝ) ≤ exp q ∧ exp q ≤ ((sums q (K + 1)).2.1 + (sums q K).1 : ℚ) := by
  have hq : (0 : ℝ) ≤ q := by exact_mod_cast h0
  have hK : 2 * (q : ℝ) ≤ K + 1 := by exact_mod_cast h
  have t := tail_half' _ _ (exp_sum (q : ℝ)) K (fun k _ => by positivity) (fun k hk => by
    rw [pow_succ, Nat.factorial_succ]
    push_cast
    have hk' : (K : ℝ) ≤ k := by exact_mod_cast hk
    rw [div_div, div_le_div_iff₀ (by positivity) (by positivity)]
    have h2 : (q : ℝ) * 2 ≤ k + 1 := by linarith
    calc (q : ℝ) ^ k * q * ((k ! : ℝ) * 2) = (q : ℝ) ^ k * (k ! : ℝ) * (q * 2) := by ring
      _ ≤ (q : ℝ) ^ k * (k ! : ℝ) * (k + 1) := mul_le_mul_of_nonneg_left h2 (by positivity)
      _ = _ := by ring)
  have s1 := (sums_eq q (K + 1)).2.1
  have s2 := (sums_eq q K).1
  constructor
  · rw [s1]; exact t.1
  · rw [Rat.cast_add, s1, s2]; exact t.2

theorem ein_bracket (x : ℝ) (K : ℕ) (h0 : 0 ≤ x) (h : 2 * x ≤ K + 1) :
    ∑ j ∈ Finset.range (K + 1), x ^ (j + 1) / (((j : ℝ) + 1) * (j + 1)!) ≤ ein x ∧
      ein x ≤ ∑ j ∈ Finset.range (K + 1), x ^ (j + 1) / (((j : ℝ) + 1) * (j + 1)!) + x ^ (K + 1) / (((K : ℝ) + 1) * (K + 1)!) :=
  tail_half' _ _ (ein_sum x) K (fun k _ => by positivity) (fun k hk => by
    rw [pow_succ _ (k + 1), Nat.factorial_succ (k + 1)]
    push_cast
    have hk' : (K : ℝ) ≤ k := by exact_mod_cast hk
    rw [div_div, div_le_div_iff₀ (by positivity) (by positivity)]
    have h1 : 2 * x ≤ k + 1 := by linarith
    have h2 : x * 2 * (k + 1) ≤ (k + 1 + 1) * (k + 1 + 1) := by nlinarith [(by positivity : (0 : ℝ) ≤ k)]
    calc x ^ (k + 1) * x * ((((k : ℝ) + 1) * (k + 1)!) * 2)
        = x ^ (k + 1) * (k + 1)! * (x * 2 * (k + 1)) := by ring
      _ ≤ x ^ (k + 1) * (k + 1)! * ((k + 1 + 1) * (k + 1 + 1)) := mul_le_mul_of_nonneg_left h2 (by positivity)
      _ = _ := by ring)

theorem ein_bracket_sums (q : ℚ) (K : ℕ) (h0 : 0 ≤ q) (h : 2 * q ≤ K + 1) :
    ((sums q (K + 1)).2.2 : ℝ) ≤ ein q ∧ ein q ≤ ((sums q (K + 1)).2.2 + (sums q (K + 1)).1 / (K + 1) : ℚ) := by
  have t := ein_bracket (q : ℝ) K (by exact_mod_cast h0) (by exact_mod_cast h)
  have s1 := (sums_eq q (K + 1)).2.2
  have s2 := (sums_eq q (K + 1)).1
  refine ⟨by rw [s1]; exact t.1, ?_⟩
  push_cast
  rw [s1, s2, div_div, mul_comm ((K + 1)! : ℝ)]
  exact t.2

/-! ### The value at -1/2 -/

theorem target_half : |target (-1 / 2) + 0.2754983| ≤ 1 / 10 ^ 7 := by
  obtain ⟨e1, e2⟩ := exp_bracket (1 / 2) 14 (by norm_num) (by norm_num)
  obtain ⟨i1, i2⟩ := ein_bracket_sums (1 / 2) 14 (by norm_num) (by norm_num)
  have l := abs_le.1 log_two_near_10
  have g := abs_le.1 gamma_near
  have c1 : (1.648721270 : ℚ) ≤ (sums (1 / 2) (14 + 1)).2.1 := by decide +kernel
  have c2 : (sums (1 / 2) (14 + 1)).2.1 + (sums (1 / 2) 14).1 ≤ (1.648721271 : ℚ) := by decide +kernel
  have c3 : (0.570151420 : ℚ) ≤ (sums (1 / 2) (14 + 1)).2.2 := by decide +kernel
  have c4 : (sums (1 / 2) (14 + 1)).2.2 + (sums (1 / 2) (14 + 1)).1 / ((14 : ℕ) + 1) ≤ (0.570151421 : ℚ) := by decide +kernel
  have c1 := (Rat.cast_le (K := ℝ)).mpr c1
  have c2 := (Rat.cast_le (K := ℝ)).mpr c2
  have c3 := (Rat.cast_le (K := ℝ)).mpr c3
  have c4 := (Rat.cast_le (K := ℝ)).mpr c4
  have a1 := c1.trans e1
  have a2 := e2.trans c2
  have a3 := c3.trans i1
  have a4 := i2.trans c4
  have hx : (((1 / 2 : ℚ)) : ℝ) = 1 / 2 := by push_cast; ring
  rw [hx] at a1 a2 a3 a4
  have ht : target (-1 / 2) * exp (1 / 2) = -(eulerMascheroniConstant - log 2 + ein (1 / 2)) := by
    unfold target bigEi
    rw [show -(-1 / 2 : ℝ) = 1 / 2 by ring, show log (1 / 2) = -log 2 by rw [one_div, log_inv]]
    have : exp (-1 / 2) * exp (1 / 2) = 1 := by rw [← exp_add]; norm_num
    linear_combination -(eulerMascheroniConstant - log 2 + ein (1 / 2)) * this
  clear e1 e2 i1 i2 c1 c2 c3 c4
  have hp : 0 < exp (1 / 2 : ℝ) := exp_pos _
  generalize exp (1 / 2 : ℝ) = E at *
  generalize ein (1 / 2) = I at *
  generalize target (-1 / 2) = T at *
  norm_num at a1 a2 a3 a4 l g
  rw [abs_le]
  constructor
  · by_contra hc
    have hc := not_le.1 hc
    nlinarith [mul_lt_mul_of_pos_right hc hp]
  · by_contra hc
    have hc := not_le.1 hc
    nlinarith [mul_lt_mul_of_pos_right hc hp]

theorem midRe_half : |midRe (-1 / 2) + 0.27495586| ≤ 1 / 10 ^ 8 := by
  have h : |evq topL (-1 / 2) / evq botL (-1 / 2) + 0.27495586| ≤ (1 / 10 ^ 8 : ℚ) := by decide +kernel
  have h := (Rat.cast_le (K := ℝ)).mpr h
  unfold midRe
  rw [show (-1 / 2 : ℝ) = ((-1 / 2 : ℚ) : ℝ) by push_cast; ring, ev_cast, ev_cast]
  generalize evq topL (-1 / 2) = a at *
  generalize evq botL (-1 / 2) = b at *
  push_cast at h ⊢
  norm_num at h ⊢
  exact h

theorem corr1_half : ev corr1 (-1 / 2) = (evq corr1 (-1 / 2) : ℚ) := by
  rw [← ev_cast]; push_cast; rfl

/-! ### The fourth case -/

theorem mid_first {z : ℝ} (h1 : -1 ≤ z) (h2 : z ≤ -1 / 2) : |midRe z - target z - ev corr1 z| ≤ 5e-5 := by
  refine decay (f := fun z => midRe z - target z - ev corr1 z) (ρ := rest corr1) (b := -1 / 2) h2
    (fun t ht => mid_deriv corr1 (by linarith [ht.2]) (bot_pos (by linarith [ht.1]) ht.2))
    (fun t ht => rest1 (by linarith [ht.1]) ht.2) ?_ le_rfl
  have a := abs_le.1 target_half
  have b := abs_le.1 midRe_half
  have c : |evq corr1 (-1 / 2) - 0.00054232| ≤ (1 / 10 ^ 8 : ℚ) := by decide +kernel
  have c := (Rat.cast_le (K := ℝ)).mpr c
  simp only [corr1_half]
  generalize evq corr1 (-1 / 2) = q at *
  push_cast at c
  have c := abs_le.1 c
  norm_num at a b c ⊢
  rw [abs_le]
  constructor <;> linarith [a.1, a.2, b.1, b.2, c.1, c.2]

theorem ev_at_int (l : List ℚ) (n : ℤ) : ev l (n : ℝ) = (evq l (n : ℚ) : ℚ) := by
  rw [← ev_cast]; push_cast; rfl

theorem mid_second {z : ℝ} (h1 : -2 ≤ z) (h2 : z ≤ -1) : |midRe z - target z - ev corr2 z| ≤ 5.1e-5 := by
  refine decay (f := fun z => midRe z - target z - ev corr2 z) (ρ := rest corr2) (b := -1) h2 (ε := 1e-5)
    (fun t ht => mid_deriv corr2 (by linarith [ht.2]) (bot_pos (by linarith [ht.1]) (by linarith [ht.2])))
    (fun t ht => rest2 (by linarith [ht.1]) ht.2) ?_ (by norm_num)
  have a := abs_le.1 (mid_first (z := -1) le_rfl (by norm_num))
  have c : |evq corr1 (-1) - evq corr2 (-1)| ≤ (1 / 10 ^ 6 : ℚ) := by decide +kernel
  have c := (Rat.cast_le (K := ℝ)).mpr c
  have e1 := ev_at_int corr1 (-1)
  have e2 := ev_at_int corr2 (-1)
  push_cast at c e1 e2
  rw [← e1, ← e2] at c
  have c := abs_le.1 c
  norm_num at a c ⊢
  rw [abs_le]
  constructor <;> linarith [a.1, a.2, c.1, c.2]

theorem mid_third {z : ℝ} (h1 : -16 ≤ z) (h2 : z ≤ -2) : |midRe z - target z| ≤ 1.05e-4 := by
  have key := decay (f := fun z => midRe z - target z - ev [0] z) (ρ := rest [0]) (b := -2) h2 (ε := 1.05e-4) (M := 1.05e-4)
    (fun t ht => mid_deriv [0] (by linarith [ht.2]) (bot_pos (by linarith [ht.1]) (by linarith [ht.2])))
    (fun t ht => rest3 (by linarith [ht.1]) ht.2) ?_ le_rfl
  · simpa [ev] using key
  have a := abs_le.1 (mid_second (z := -2) le_rfl (by norm_num))
  have c : |evq corr2 (-2) - 0.000051| ≤ (1 / 10 ^ 6 : ℚ) := by decide +kernel
  have c := (Rat.cast_le (K := ℝ)).mpr c
  have e2 := ev_at_int corr2 (-2)
  push_cast at c e2
  rw [← e2] at c
  have c := abs_le.1 c
  have e0 : ev [0] (-2 : ℝ) = 0 := by simp [ev]
  simp only [e0]
  norm_num at a c ⊢
  rw [abs_le]
  constructor <;> linarith [a.1, a.2, c.1, c.2]

/-! ### The first case -/

theorem far_value {z : ℝ} (hz : z < 0) : ev farL (1 / z) = -(asy 5 (-z) / -z) := by
  unfold asy
  simp only [Finset.sum_range_succ, Finset.sum_range_zero, ev, farL, Nat.factorial]
  push_cast
  have := hz.ne
  field_simp
  ring

/-- What is missing in the asymptotic sum. -/
noncomputable def missing (x : ℝ) : ℝ := bigEi x - exp x / x * asy 5 x

theorem missing_deriv {x : ℝ} (hx : 0 < x) : HasDerivAt missing (720 * exp x / x ^ 7) x := by
  refine ((bigEi_deriv x hx).sub (asy_deriv 5 x hx)).congr_deriv ?_
  simp only [Nat.factorial]
  push_cast
  ring

/-- The bound. -/
noncomputable def majorant (x : ℝ) : ℝ := 1500 * exp x / x ^ 7

theorem majorant_deriv {x : ℝ} (hx : 0 < x) : HasDerivAt majorant (1500 * exp x / x ^ 7 * (1 - 7 / x)) x := by
  refine (((hasDerivAt_exp x).const_mul 1500).div (hasDerivAt_pow 7 x) (pow_ne_zero _ hx.ne')).congr_deriv ?_
  push_cast
  field_simp

theorem missing_sixteen : 0 ≤ missing 16 ∧ missing 16 ≤ majorant 16 := by
  obtain ⟨e1, e2⟩ := exp_bracket 16 70 (by norm_num) (by norm_num)
  obtain ⟨i1, i2⟩ := ein_bracket_sums 16 70 (by norm_num) (by norm_num)
  have l := abs_le.1 log_two_near_10
  have g := abs_le.1 gamma_near
  have c1 : (8886110.5205 : ℚ) ≤ (sums 16 (70 + 1)).2.1 := by decide +kernel
  have c2 : (sums 16 (70 + 1)).2.1 + (sums 16 70).1 ≤ (8886110.5206 : ℚ) := by decide +kernel
  have c3 : (595557.6488 : ℚ) ≤ (sums 16 (70 + 1)).2.2 := by decide +kernel
  have c4 : (sums 16 (70 + 1)).2.2 + (sums 16 (70 + 1)).1 / ((70 : ℕ) + 1) ≤ (595557.6489 : ℚ) := by decide +kernel
  have c1 := (Rat.cast_le (K := ℝ)).mpr c1
  have c2 := (Rat.cast_le (K := ℝ)).mpr c2
  have c3 := (Rat.cast_le (K := ℝ)).mpr c3
  have c4 := (Rat.cast_le (K := ℝ)).mpr c4
  have a1 := c1.trans e1
  have a2 := e2.trans c2
  have a3 := c3.trans i1
  have a4 := i2.trans c4
  have hx : ((16 : ℚ) : ℝ) = 16 := by norm_num
  rw [hx] at a1 a2 a3 a4
  clear e1 e2 i1 i2 c1 c2 c3 c4
  have hl : log 16 = 4 * log 2 := by
    rw [show (16 : ℝ) = 2 ^ 4 by norm_num, log_pow]; norm_num
  unfold missing majorant bigEi asy
  simp only [Finset.sum_range_succ, Finset.sum_range_zero, Nat.factorial]
  rw [hl]
  generalize exp (16 : ℝ) = E at *
  generalize ein 16 = I at *
  norm_num at a1 a2 a3 a4 l g ⊢
  constructor <;> linarith [l.1, l.2, g.1, g.2]

theorem missing_bounds {x : ℝ} (hx : 16 ≤ x) : 0 ≤ missing x ∧ missing x ≤ majorant x := by
  obtain ⟨s1, s2⟩ := missing_sixteen
  have pos : ∀ t ∈ Set.Icc (16 : ℝ) x, 0 < t := fun t ht => by linarith [ht.1]
  constructor
  · have m : MonotoneOn missing (Set.Icc 16 x) := by
      refine monotoneOn_of_deriv_nonneg (convex_Icc _ _) (fun t ht => (missing_deriv (pos t ht)).continuousAt.continuousWithinAt)
        (fun t ht => (missing_deriv (pos t (interior_subset ht))).differentiableAt.differentiableWithinAt) fun t ht => ?_
      have ht' := pos t (interior_subset ht)
      rw [(missing_deriv ht').deriv]
      positivity
    exact s1.trans (m (Set.left_mem_Icc.2 hx) (Set.right_mem_Icc.2 hx) hx)
  · have m : MonotoneOn (fun t => majorant t - missing t) (Set.Icc 16 x) := by
      have hd := fun t (ht : t ∈ Set.Icc (16 : ℝ) x) => (majorant_deriv (pos t ht)).sub (missing_deriv (pos t ht))
      refine monotoneOn_of_deriv_nonneg (convex_Icc _ _) (fun t ht => (hd t ht).continuousAt.continuousWithinAt)
        (fun t ht => (hd t (interior_subset ht)).differentiableAt.differentiableWithinAt) fun t ht => ?_
      have ht' := interior_subset ht
      have hp := pos t ht'
      have e : deriv (fun t => majorant t - missing t) t = _ := (hd t ht').deriv
      rw [e]
      have h1 : 7 / t ≤ 7 / 16 := div_le_div_of_nonneg_left (by norm_num) (by norm_num) ht'.1
      have h2 : 0 ≤ exp t / t ^ 7 := by positivity
      have : 1500 * exp t / t ^ 7 * (1 - 7 / t) - 720 * exp t / t ^ 7 = exp t / t ^ 7 * (1500 * (1 - 7 / t) - 720) := by ring
      rw [this]
      exact mul_nonneg h2 (by linarith)
    have := m (Set.left_mem_Icc.2 hx) (Set.right_mem_Icc.2 hx) hx
    simp only at this
    linarith

theorem far_error {z : ℝ} (hz : z ≤ -16) : 0 ≤ ev farL (1 / z) - target z ∧ ev farL (1 / z) - target z ≤ 1500 / (-z) ^ 7 := by
  have h := missing_bounds (x := -z) (by linarith)
  have e : ev farL (1 / z) - target z = exp z * missing (-z) := by
    rw [far_value (by linarith)]
    unfold target missing
    have e : exp z * exp (-z) = 1 := by rw [← exp_add]; simp
    linear_combination (asy 5 (-z) / -z) * e
  rw [e]
  refine ⟨mul_nonneg (exp_pos _).le h.1, (mul_le_mul_of_nonneg_left h.2 (exp_pos _).le).trans_eq ?_⟩
  unfold majorant
  have e : exp z * exp (-z) = 1 := by rw [← exp_add]; simp
  linear_combination (1500 / (-z) ^ 7) * e

/-! ### The second case -/

/-- A partial sum of the exponential function. -/
def expT : List ℚ := [1, 1, 1 / 2, 1 / 6, 1 / 24, 1 / 120, 1 / 720, 1 / 5040]

/-- A partial sum of `ein (-z)`. -/
def einT : List ℚ := [0, -1, 1 / 4, -1 / 18, 1 / 96, -1 / 600, 1 / 4320, -1 / 35280, 1 / 322560]

theorem expT_near {z : ℝ} (h1 : -1 / 2 ≤ z) (h2 : z ≤ 0) : |exp z - ev expT z| ≤ 3e-7 * -z := by
  have ha : |z| = -z := abs_of_nonpos h2
  have h := Real.exp_bound (x := z) (by rw [ha]; linarith) (n := 8) (by norm_num)
  have e : ∑ m ∈ Finset.range 8, z ^ m / (m ! : ℝ) = ev expT z := by
    simp only [Finset.sum_range_succ, Finset.sum_range_zero, ev, expT, Nat.factorial]
    push_cast
    ring
  rw [e, ha] at h
  refine h.trans ?_
  have h7 : (-z) ^ 7 ≤ (1 / 2) ^ 7 := pow_le_pow_left₀ (by linarith) (by linarith) 7
  rw [pow_succ]
  simp only [Nat.factorial]
  push_cast
  have := mul_le_mul_of_nonneg_right h7 (show 0 ≤ -z by linarith)
  norm_num at this ⊢
  linarith

theorem einT_near {z : ℝ} (h1 : -1 / 2 ≤ z) (h2 : z ≤ 0) : |ein (-z) - ev einT z| ≤ 2e-8 := by
  have h := ein_bracket (-z) 7 (by linarith) (by push_cast; linarith)
  have e : ∑ j ∈ Finset.range (7 + 1), (-z) ^ (j + 1) / (((j : ℝ) + 1) * (j + 1)!) = ev einT z := by
    simp only [Finset.sum_range_succ, Finset.sum_range_zero, ev, einT, Nat.factorial]
    push_cast
    ring
  rw [e] at h
  have h8 : (-z) ^ (7 + 1) ≤ (1 / 2) ^ 8 := pow_le_pow_left₀ (by linarith) (by linarith) 8
  simp only [Nat.factorial] at h
  push_cast at h
  generalize (-z) ^ (7 + 1) = t at *
  norm_num at h h8 ⊢
  rw [abs_le]
  constructor <;> linarith [h.1, h.2]

/-- The quotient of the first difference by `z`. -/
def diff1 : List ℚ := (psub nearP (pmul nearR expT)).tail

/-- The second difference. -/
def diff2 : List ℚ := psub (pscale gammaL nearQ) (pmul (pmul nearR expT) (padd [gammaL] einT))

theorem ev_diff1 (z : ℝ) : z * ev diff1 z = ev nearP z - ev nearR z * ev expT z := by
  rw [← ev_pmul, ← ev_psub]
  have hc : psub nearP (pmul nearR expT) = 0 :: diff1 := by decide +kernel
  rw [hc]
  simp [ev]

theorem nearR_pos {z : ℝ} (h1 : -1 / 2 ≤ z) (h2 : z ≤ 0) : 0.9 ≤ ev nearR z := by
  have t : nonneg (psub nearR [9 / 10]) 8 (-1 / 4) (1 / 4) = true := by decide +kernel
  have a := nonneg_on _ 8 _ _ (by norm_num) t z (by push_cast; linarith) (by push_cast; linarith)
  rw [ev_psub] at a
  have e : ev [9 / 10] z = 9 / 10 := by simp [ev]
  rw [e] at a
  norm_num at a ⊢
  linarith

theorem diff_le (d : List ℚ) (e : ℚ) (t1 : nonneg (psub (pscale e nearR) d) 8 (-1 / 4) (1 / 4) = true)
    (t2 : nonneg (padd (pscale e nearR) d) 8 (-1 / 4) (1 / 4) = true) {z : ℝ} (h1 : -1 / 2 ≤ z) (h2 : z ≤ 0) :
    |ev d z / ev nearR z| ≤ e := by
  have a := nonneg_on _ 8 _ _ (by norm_num) t1 z (by push_cast; linarith) (by push_cast; linarith)
  have b := nonneg_on _ 8 _ _ (by norm_num) t2 z (by push_cast; linarith) (by push_cast; linarith)
  rw [ev_psub, ev_pscale] at a
  rw [ev_padd, ev_pscale] at b
  have hR : 0 < ev nearR z := by have := nearR_pos h1 h2; linarith
  rw [abs_div, abs_of_pos hR, div_le_iff₀ hR, abs_le]
  constructor <;> linarith

/-- The real part of the second case. -/
noncomputable def nearRe (z : ℝ) : ℝ := -(log (-z) * ev nearP z + gammaL * ev nearQ z) / ev nearR z

theorem log_part {x : ℝ} (h0 : 0 < x) (h1 : x ≤ 1 / 2) : |x * log x| ≤ 1 / 2 := by
  have hn : log x ≤ 0 := log_nonpos h0.le (by linarith)
  have h := log_le_sub_one_of_pos (inv_pos.2 h0)
  rw [log_inv] at h
  have := mul_le_mul_of_nonneg_left h h0.le
  rw [abs_of_nonpos (mul_nonpos_of_nonneg_of_nonpos h0.le hn)]
  have e : x * (x⁻¹ - 1) = 1 - x := by field_simp
  have h4 := log_le_sub_one_of_pos (show 0 < (2 * x)⁻¹ by positivity)
  have h5 : log (2 * x)⁻¹ = -log 2 - log x := by rw [log_inv, log_mul (by norm_num) h0.ne']; ring
  rw [h5] at h4
  have h6 := mul_le_mul_of_nonneg_left h4 h0.le
  have e2 : x * ((2 * x)⁻¹ - 1) = 1 / 2 - x := by field_simp
  have l2 : log 2 ≤ 1 := by have := log_two_lt_d9; linarith
  rw [e2] at h6
  nlinarith

theorem near_error {z : ℝ} (h1 : -1 / 2 ≤ z) (h2 : z < 0) : |nearRe z - target z| ≤ 4.5e-5 := by
  have hR := nearR_pos h1 h2.le
  have hR0 : ev nearR z ≠ 0 := by intro h; rw [h] at hR; norm_num at hR
  have d1 := diff_le diff1 6e-5 (by decide +kernel) (by decide +kernel) h1 h2.le
  have d2 := diff_le diff2 1e-5 (by decide +kernel) (by decide +kernel) h1 h2.le
  have t1 := expT_near h1 h2.le
  have t2 := einT_near h1 h2.le
  have g := gamma_near
  have hl := log_part (x := -z) (by linarith) (by linarith)
  have e1 : ev nearP z / ev nearR z - ev expT z = z * (ev diff1 z / ev nearR z) := by
    have := ev_diff1 z
    field_simp
    linarith
  have e2 : gammaL * ev nearQ z / ev nearR z - ev expT z * (gammaL + ev einT z) = ev diff2 z / ev nearR z := by
    have : ev diff2 z = gammaL * ev nearQ z - ev nearR z * ev expT z * (gammaL + ev einT z) := by
      unfold diff2
      rw [ev_psub, ev_pscale, ev_pmul, ev_pmul, ev_padd]
      have : ev [gammaL] z = gammaL := by simp [ev]
      rw [this]
    rw [this]
    field_simp
  have hexp : exp z ≤ 1 := by rw [exp_le_one_iff]; linarith
  have hexp0 := exp_pos z
  -- the constant part
  have hein0 : |ev einT z| ≤ 1 := by
    have t3 : nonneg (psub [1] einT) 8 (-1 / 4) (1 / 4) = true := by decide +kernel
    have t4 : nonneg (padd [1] einT) 8 (-1 / 4) (1 / 4) = true := by decide +kernel
    have a := nonneg_on _ 8 _ _ (by norm_num) t3 z (by push_cast; linarith) (by push_cast; linarith)
    have b := nonneg_on _ 8 _ _ (by norm_num) t4 z (by push_cast; linarith) (by push_cast; linarith)
    rw [ev_psub] at a
    rw [ev_padd] at b
    have e : ev [1] z = 1 := by simp [ev]
    rw [e] at a b
    rw [abs_le]; constructor <;> linarith
  have hgL : ((gammaL : ℚ) : ℝ) = 5772156649 / 10 ^ 10 := by unfold gammaL; push_cast; norm_num
  have key : nearRe z - target z = log (-z) * (-z) * (ev diff1 z / ev nearR z) + log (-z) * (exp z - ev expT z)
      - ev diff2 z / ev nearR z + (exp z - ev expT z) * (gammaL + ev einT z)
      + exp z * ((eulerMascheroniConstant - gammaL) + (ein (-z) - ev einT z)) := by
    have s1 : log (-z) * (-z) * (ev diff1 z / ev nearR z) = -(log (-z) * (ev nearP z / ev nearR z - ev expT z)) := by
      rw [e1]; ring
    rw [s1, ← e2]
    unfold nearRe target bigEi
    ring
  have b1 : |log (-z) * (-z) * (ev diff1 z / ev nearR z)| ≤ 1 / 2 * 6e-5 := by
    rw [abs_mul]
    have hl' : |log (-z) * -z| ≤ 1 / 2 := by rw [mul_comm]; exact hl
    have : |ev diff1 z / ev nearR z| ≤ 6e-5 := by push_cast at d1; exact d1
    exact mul_le_mul hl' this (abs_nonneg _) (by norm_num)
  have b2 : |log (-z) * (exp z - ev expT z)| ≤ 1 / 2 * 3e-7 := by
    rw [abs_mul]
    calc |log (-z)| * |exp z - ev expT z| ≤ |log (-z)| * (3e-7 * -z) := mul_le_mul_of_nonneg_left t1 (abs_nonneg _)
      _ = |-z * log (-z)| * 3e-7 := by rw [abs_mul, abs_of_pos (show 0 < -z by linarith)]; ring
      _ ≤ _ := mul_le_mul_of_nonneg_right hl (by norm_num)
  have b3 : |ev diff2 z / ev nearR z| ≤ 1e-5 := by push_cast at d2; exact d2
  have b4 : |(exp z - ev expT z) * (gammaL + ev einT z)| ≤ 3e-7 / 2 * 2 := by
    rw [abs_mul]
    refine mul_le_mul (t1.trans ?_) ?_ (abs_nonneg _) (by norm_num)
    · norm_num; linarith
    · have := abs_le.1 hein0
      rw [abs_le, hgL]
      constructor <;> linarith [this.1, this.2]
  have b5 : |exp z * ((eulerMascheroniConstant - gammaL) + (ein (-z) - ev einT z))| ≤ 1 * (2 / 10 ^ 9 + 2e-8) := by
    rw [abs_mul, abs_of_pos hexp0]
    refine mul_le_mul hexp ((abs_add_le _ _).trans (add_le_add ?_ t2)) (abs_nonneg _) (by norm_num)
    rw [hgL]
    exact g
  rw [key]
  have b1 := abs_le.1 b1
  have b2 := abs_le.1 b2
  have b3 := abs_le.1 b3
  have b4 := abs_le.1 b4
  have b5 := abs_le.1 b5
  clear key e1 e2
  generalize log (-z) * (-z) * (ev diff1 z / ev nearR z) = A1 at *
  generalize log (-z) * (exp z - ev expT z) = A2 at *
  generalize ev diff2 z / ev nearR z = A3 at *
  generalize (exp z - ev expT z) * (gammaL + ev einT z) = A4 at *
  generalize exp z * ((eulerMascheroniConstant - gammaL) + (ein (-z) - ev einT z)) = A5 at *
  norm_num at b1 b2 b3 b4 b5 ⊢
  rw [abs_le]
  constructor <;> linarith [b1.1, b1.2, b2.1, b2.2, b3.1, b3.2, b4.1, b4.2, b5.1, b5.2]

end Verif.Tabulation.ExpE1
