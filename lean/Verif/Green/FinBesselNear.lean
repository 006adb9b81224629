/-
The approximations of the functions of Bessel of FinGreen3D between 0 and 4.
-/
import Verif.Green.LwnNear
import Verif.Green.FinBesselModel
import Verif.Green.FinBesselSeries

namespace Verif.Green.FinBessel

open Real Verif.Green.Lwn Verif.Green.PolyBound
open scoped Nat

/-! ### Truncation for `x` between 0 and 4 -/

/-- The coefficients of the powers of `(x / 4) ^ 2`. -/
def sixteen (c : ℕ → ℚ) (k : ℕ) : ℚ := c k * 16 ^ k

/-- The first fourteen terms. -/
def first14 (c : ℕ → ℚ) : List ℚ := (List.range 14).map (sixteen c)

/-- The sum of the series as a function of `(x / 4) ^ 2`. -/
noncomputable def sum16 (c : ℕ → ℚ) (v : ℝ) : ℝ := ∑' k : ℕ, (sixteen c k : ℝ) * v ^ k

theorem sixteen_series (c : ℕ → ℚ) (m : ℕ) (x : ℝ) :
    ∑' k : ℕ, (c k : ℝ) * x ^ (2 * k + m) = x ^ m * sum16 c (x / 4 * (x / 4)) := by
  unfold sum16
  rw [← tsum_mul_left]
  refine tsum_congr fun k => ?_
  unfold sixteen
  push_cast
  rw [← sq, ← pow_mul, div_pow, pow_mul 4 2 k, pow_add]
  norm_num
  field_simp

theorem sixteen_summable (c : ℕ → ℚ) (hc : ∀ k, |(c k : ℝ)| ≤ 1 / k !) (v : ℝ) (hv : 0 ≤ v) :
    Summable fun k : ℕ => (sixteen c k : ℝ) * v ^ k := by
  have := series_summable _ hc 0 (4 * √v)
  refine this.congr fun k => ?_
  unfold sixteen
  push_cast
  rw [Nat.add_zero, mul_pow, pow_mul 4 2 k, pow_mul √v 2 k, sq_sqrt hv]
  norm_num
  ring

theorem truncate16 (c : ℕ → ℚ) (hc : ∀ k, |(c k : ℝ)| ≤ 1 / k !)
    (hr : ∀ k, 14 ≤ k → |sixteen c (k + 1)| ≤ |sixteen c k| / 2) (v : ℝ) (h0 : 0 ≤ v) (h1 : v ≤ 1) :
    |sum16 c v - ev (first14 c) v| ≤ v * (2 * |sixteen c 14|) := by
  have hs := sixteen_summable c hc v h0
  have e1 : sum16 c v = (sixteen c 0 : ℝ) + v * ∑' k : ℕ, (sixteen c (k + 1) : ℝ) * v ^ k := by
    unfold sum16
    rw [hs.tsum_eq_zero_add, ← tsum_mul_left]
    simp only [pow_zero, mul_one]
    congr 1
    exact tsum_congr fun k => by ring
  have e2 : ev (first14 c) v
      = (sixteen c 0 : ℝ) + v * ∑ k ∈ Finset.range 13, (sixteen c (k + 1) : ℝ) * v ^ k := by
    unfold first14
    rw [ev_range, Finset.sum_range_succ', Finset.mul_sum, add_comm]
    simp only [pow_zero, mul_one]
    congr 1
    exact Finset.sum_congr rfl fun k _ => by ring
  rcases h0.eq_or_lt with rfl | hp
  · rw [e1, e2]; simp
  have hs' : Summable fun k : ℕ => (sixteen c (k + 1) : ℝ) * v ^ k := by
    refine (((summable_nat_add_iff 1).mpr hs).mul_left v⁻¹).congr fun k => ?_
    rw [pow_succ]
    field_simp
  have := tail_bound (fun k => sixteen c (k + 1)) 13 (fun k hk => hr (k + 1) (by omega)) v
    (by rw [abs_of_nonneg h0]; exact h1) hs'
  rw [e1, e2, add_sub_add_left_eq_sub, ← mul_sub, abs_mul, abs_of_nonneg h0]
  exact mul_le_mul_of_nonneg_left this h0

theorem ratio16_J0 (k : ℕ) (hk : 14 ≤ k) : |sixteen cJ0 (k + 1)| ≤ |sixteen cJ0 k| / 2 := by
  have h14 : (14 : ℚ) ≤ k := by exact_mod_cast hk
  refine half_of_ratio _ _ (16 / (4 * ((k : ℚ) + 1) ^ 2)) ?_ (by positivity) ?_
  · unfold sixteen cJ0
    rw [Nat.factorial_succ]
    push_cast
    have : (k ! : ℚ) ≠ 0 := by positivity
    field_simp
    ring
  · rw [div_le_div_iff₀ (by positivity) (by norm_num)]
    nlinarith

theorem ratio16_J1 (k : ℕ) (hk : 14 ≤ k) : |sixteen cJ1 (k + 1)| ≤ |sixteen cJ1 k| / 2 := by
  have h14 : (14 : ℚ) ≤ k := by exact_mod_cast hk
  refine half_of_ratio _ _ (16 / (4 * ((k : ℚ) + 1) * ((k : ℚ) + 2))) ?_ (by positivity) ?_
  · unfold sixteen cJ1
    rw [Nat.factorial_succ (k + 1), Nat.factorial_succ k]
    push_cast
    have : (k ! : ℚ) ≠ 0 := by positivity
    field_simp
    ring
  · rw [div_le_div_iff₀ (by positivity) (by norm_num)]
    nlinarith

theorem harmonic_pos (k : ℕ) (hk : 1 ≤ k) : 1 ≤ harmonic k := by
  induction k, hk using Nat.le_induction with
  | base => simp
  | succ k hk ih => rw [harmonic_succ]; have : (0 : ℚ) ≤ ((k + 1 : ℕ) : ℚ)⁻¹ := by positivity
                    linarith

theorem harmonic_double (k : ℕ) (hk : 1 ≤ k) : harmonic (k + 1) ≤ 2 * harmonic k := by
  have h1 := harmonic_pos k hk
  rw [harmonic_succ]
  have : ((k + 1 : ℕ) : ℚ)⁻¹ ≤ 1 := by
    apply inv_le_one_of_one_le₀
    push_cast
    have : (0 : ℚ) ≤ k := by positivity
    linarith
  linarith

theorem ratio16_Y0 (k : ℕ) (hk : 14 ≤ k) : |sixteen cY0 (k + 1)| ≤ |sixteen cY0 k| / 2 := by
  have h14 : (14 : ℚ) ≤ k := by exact_mod_cast hk
  have hp := harmonic_pos k (by omega)
  have hd := harmonic_double k (by omega)
  have hn := harmonic_nonneg (k + 1)
  refine half_of_ratio _ _ (4 * (harmonic (k + 1) / harmonic k) / ((k : ℚ) + 1) ^ 2) ?_ (by positivity) ?_
  · unfold sixteen cY0
    rw [Nat.factorial_succ]
    generalize harmonic (k + 1) = a at *
    generalize harmonic k = b at *
    have hb : b ≠ 0 := by intro h; rw [h] at hp; norm_num at hp
    push_cast
    have : (k ! : ℚ) ≠ 0 := by positivity
    field_simp
    ring
  · have h2 : harmonic (k + 1) / harmonic k ≤ 2 := by rw [div_le_iff₀ (by linarith)]; exact hd
    rw [div_le_div_iff₀ (by positivity) (by norm_num)]
    nlinarith

theorem ratio16_Y1 (k : ℕ) (hk : 14 ≤ k) : |sixteen cY1 (k + 1)| ≤ |sixteen cY1 k| / 2 := by
  have h14 : (14 : ℚ) ≤ k := by exact_mod_cast hk
  have hp := harmonic_pos k (by omega)
  have hp1 := harmonic_pos (k + 1) (by omega)
  have hd := harmonic_double k (by omega)
  have hd1 := harmonic_double (k + 1) (by omega)
  have hn := harmonic_nonneg (k + 2)
  refine half_of_ratio _ _ (4 * ((harmonic (k + 1) + harmonic (k + 2)) / (harmonic k + harmonic (k + 1)))
    / (((k : ℚ) + 1) * (k + 2))) ?_ (by positivity) ?_
  · unfold sixteen cY1
    rw [Nat.factorial_succ (k + 1), Nat.factorial_succ k]
    generalize harmonic (k + 1 + 1) = d at *
    generalize harmonic (k + 1) = a at *
    generalize harmonic k = b at *
    have hb : b + a ≠ 0 := by intro h; linarith
    push_cast
    have : (k ! : ℚ) ≠ 0 := by positivity
    field_simp
    ring
  · have h2 : (harmonic (k + 1) + harmonic (k + 2)) / (harmonic k + harmonic (k + 1)) ≤ 2 := by
      rw [div_le_iff₀ (by linarith)]; linarith
    rw [div_le_div_iff₀ (by positivity) (by norm_num)]
    nlinarith

theorem unit4 (x : ℝ) (h0 : 0 ≤ x) (h4 : x ≤ 4) : 0 ≤ x / 4 * (x / 4) ∧ x / 4 * (x / 4) ≤ 1 :=
  ⟨by positivity, by nlinarith⟩

theorem besselJ0_sum (x : ℝ) : besselJ 0 x = sum16 cJ0 (x / 4 * (x / 4)) := by
  rw [besselJ_zero]; simpa using sixteen_series cJ0 0 x

theorem besselJ1_sum (x : ℝ) : besselJ 1 x = x * sum16 cJ1 (x / 4 * (x / 4)) := by
  rw [besselJ_one]; simpa using sixteen_series cJ1 1 x

theorem besselY0_sum (x : ℝ) : besselY0 x = 2 / π * ((log (x / 2) + eulerMascheroniConstant) * besselJ 0 x
    + sum16 cY0 (x / 4 * (x / 4))) := by
  rw [besselY0_eq]; congr 2; simpa using sixteen_series cY0 0 x

theorem besselY1_sum (x : ℝ) : besselY1 x = 2 / π * ((log (x / 2) + eulerMascheroniConstant) * besselJ 1 x - 1 / x
    + x * sum16 cY1 (x / 4 * (x / 4))) := by
  rw [besselY1_eq]; congr 2; simpa using sixteen_series cY1 1 x

theorem trunc_J0 (v : ℝ) (h0 : 0 ≤ v) (h1 : v ≤ 1) : |sum16 cJ0 v - ev (first14 cJ0) v| ≤ v * (1 / 10 ^ 12) := by
  refine (truncate16 cJ0 cJ0_small ratio16_J0 v h0 h1).trans (mul_le_mul_of_nonneg_left ?_ h0)
  have h : 2 * |sixteen cJ0 14| ≤ 1 / 10 ^ 12 := by decide +kernel
  have := (Rat.cast_le (K := ℝ)).mpr h
  push_cast at this
  simpa using this

theorem trunc_J1 (v : ℝ) (h0 : 0 ≤ v) (h1 : v ≤ 1) : |sum16 cJ1 v - ev (first14 cJ1) v| ≤ v * (1 / 10 ^ 12) := by
  refine (truncate16 cJ1 cJ1_small ratio16_J1 v h0 h1).trans (mul_le_mul_of_nonneg_left ?_ h0)
  have h : 2 * |sixteen cJ1 14| ≤ 1 / 10 ^ 12 := by decide +kernel
  have := (Rat.cast_le (K := ℝ)).mpr h
  push_cast at this
  simpa using this

theorem trunc_Y0 (v : ℝ) (h0 : 0 ≤ v) (h1 : v ≤ 1) : |sum16 cY0 v - ev (first14 cY0) v| ≤ v * (1 / 10 ^ 12) := by
  refine (truncate16 cY0 cY0_small ratio16_Y0 v h0 h1).trans (mul_le_mul_of_nonneg_left ?_ h0)
  have h : 2 * |sixteen cY0 14| ≤ 1 / 10 ^ 12 := by decide +kernel
  have := (Rat.cast_le (K := ℝ)).mpr h
  push_cast at this
  simpa using this

theorem trunc_Y1 (v : ℝ) (h0 : 0 ≤ v) (h1 : v ≤ 1) : |sum16 cY1 v - ev (first14 cY1) v| ≤ v * (1 / 10 ^ 12) := by
  refine (truncate16 cY1 cY1_small ratio16_Y1 v h0 h1).trans (mul_le_mul_of_nonneg_left ?_ h0)
  have h : 2 * |sixteen cY1 14| ≤ 1 / 10 ^ 12 := by decide +kernel
  have := (Rat.cast_le (K := ℝ)).mpr h
  push_cast at this
  simpa using this

theorem ev_one (e : ℚ) (y : ℝ) : ev [e] y = e := by simp [ev]

/-! ### The functions of the first kind -/

theorem j0_near (x : ℝ) (h0 : 0 ≤ x) (h4 : x ≤ 4) :
    |horner j0Near (x / 4 * (x / 4)) - besselJ 0 x| ≤ 29 / 10 ^ 10 := by
  obtain ⟨u0, u1⟩ := unit4 x h0 h4
  have h1 := trunc_J0 _ u0 u1
  have h2 := abs_le_unit (psub j0Near (first14 cJ0)) [28 / 10 ^ 10] 9 (by decide +kernel) (by decide +kernel) _ u0 u1
  rw [ev_psub, ev_one] at h2
  rw [horner_ev, besselJ0_sum]
  push_cast at h2
  rw [abs_le] at *
  constructor <;> norm_num at * <;> linarith [h1.1, h1.2, h2.1, h2.2]

/-- The polynomial is exact at 0. -/
theorem j0_near_small (x : ℝ) (h0 : 0 ≤ x) (h4 : x ≤ 4) :
    |horner j0Near (x / 4 * (x / 4)) - besselJ 0 x| ≤ 13 / 10 ^ 8 * (x / 4 * (x / 4)) := by
  obtain ⟨u0, u1⟩ := unit4 x h0 h4
  have h1 := trunc_J0 _ u0 u1
  have h2 := abs_le_unit (psub j0Near (first14 cJ0)).tail [1285 / 10 ^ 10] 9 (by decide +kernel) (by decide +kernel) _ u0 u1
  have e : psub j0Near (first14 cJ0) = 0 :: (psub j0Near (first14 cJ0)).tail := by decide +kernel
  rw [horner_ev, besselJ0_sum]
  have e2 : ev j0Near (x / 4 * (x / 4)) - ev (first14 cJ0) (x / 4 * (x / 4))
      = x / 4 * (x / 4) * ev (psub j0Near (first14 cJ0)).tail (x / 4 * (x / 4)) := by
    rw [← ev_psub, e]
    simp [ev]
  rw [ev_one] at h2
  generalize ev (psub j0Near (first14 cJ0)).tail (x / 4 * (x / 4)) = E at *
  generalize x / 4 * (x / 4) = v at *
  push_cast at h2
  have h3 : |v * E| ≤ v * (1285 / 10 ^ 10) := by
    rw [abs_mul, abs_of_nonneg u0]; exact mul_le_mul_of_nonneg_left h2 u0
  rw [← e2] at h3
  rw [abs_le] at *
  constructor <;> norm_num at * <;> linarith [h1.1, h1.2, h3.1, h3.2]

theorem j1_near (x : ℝ) (h0 : 0 ≤ x) (h4 : x ≤ 4) :
    |x / 4 * horner j1Near (x / 4 * (x / 4)) - besselJ 1 x| ≤ 7 / 10 ^ 11 * x := by
  obtain ⟨u0, u1⟩ := unit4 x h0 h4
  have h1 := trunc_J1 _ u0 u1
  have h2 := abs_le_unit (psub (pscale (1 / 4) j1Near) (first14 cJ1)) [67 / 10 ^ 12] 9
    (by decide +kernel) (by decide +kernel) _ u0 u1
  rw [ev_psub, ev_pscale, ev_one] at h2
  rw [horner_ev, besselJ1_sum]
  push_cast at h2
  rw [show x / 4 * ev j1Near (x / 4 * (x / 4)) - x * sum16 cJ1 (x / 4 * (x / 4))
    = x * (1 / 4 * ev j1Near (x / 4 * (x / 4)) - sum16 cJ1 (x / 4 * (x / 4))) by ring, abs_mul, abs_of_nonneg h0,
    mul_comm (7 / 10 ^ 11) x]
  refine mul_le_mul_of_nonneg_left ?_ h0
  rw [abs_le] at *
  constructor <;> norm_num at * <;> linarith [h1.1, h1.2, h2.1, h2.2]

theorem besselJ0_le (x : ℝ) (h0 : 0 ≤ x) (h4 : x ≤ 4) : |besselJ 0 x| ≤ 11 / 10 := by
  obtain ⟨u0, u1⟩ := unit4 x h0 h4
  have h1 := trunc_J0 _ u0 u1
  have h2 := abs_le_unit (first14 cJ0) [109 / 100] 9 (by decide +kernel) (by decide +kernel) _ u0 u1
  rw [ev_one] at h2
  rw [besselJ0_sum]
  push_cast at h2
  rw [abs_le] at *
  constructor <;> norm_num at * <;> linarith [h1.1, h1.2, h2.1, h2.2]

theorem besselJ1_le (x : ℝ) (h0 : 0 ≤ x) (h4 : x ≤ 4) : |besselJ 1 x| ≤ 51 / 100 * x := by
  obtain ⟨u0, u1⟩ := unit4 x h0 h4
  have h1 := trunc_J1 _ u0 u1
  have h2 := abs_le_unit (first14 cJ1) [505 / 1000] 9 (by decide +kernel) (by decide +kernel) _ u0 u1
  rw [ev_one] at h2
  rw [besselJ1_sum, abs_mul, abs_of_nonneg h0, mul_comm]
  refine mul_le_mul_of_nonneg_right ?_ h0
  push_cast at h2
  rw [abs_le] at *
  constructor <;> norm_num at * <;> linarith [h1.1, h1.2, h2.1, h2.2]

/-! ### The functions of the second kind -/

theorem log_small (z : ℝ) (h0 : 0 < z) (h2 : z ≤ 2) : |log z| * z ≤ 2 := by
  have h1 := log_le_sub_one_of_pos h0
  have h3 := log_le_sub_one_of_pos (inv_pos.mpr h0)
  rw [log_inv] at h3
  rcases abs_cases (log z) with ⟨e, _⟩ | ⟨e, _⟩ <;> rw [e]
  · nlinarith
  · have : -log z * z ≤ (z⁻¹ - 1) * z := mul_le_mul_of_nonneg_right h3 h0.le
    rw [sub_mul, inv_mul_cancel₀ h0.ne'] at this
    linarith

/-- The logarithm does not spoil the polynomial of order 0. -/
theorem log_error (x : ℝ) (h0 : 0 < x) (h4 : x ≤ 4) :
    |log (x / 2) * (horner j0Near (x / 4 * (x / 4)) - besselJ 0 x)| ≤ 62 / 10 ^ 10 := by
  have a := j0_near x h0.le h4
  have b := j0_near_small x h0.le h4
  have hd := abs_nonneg (horner j0Near (x / 4 * (x / 4)) - besselJ 0 x)
  rw [abs_mul]
  generalize |horner j0Near (x / 4 * (x / 4)) - besselJ 0 x| = d at *
  have hl := abs_nonneg (log (x / 2))
  rcases le_total (x / 2) (1 / 8) with h | h
  · have h3 := log_le_sub_one_of_pos (inv_pos.mpr (show 0 < x / 2 by positivity))
    rw [log_inv] at h3
    have h5 : |log (x / 2)| = -log (x / 2) := abs_of_nonpos (log_nonpos (by positivity) (by linarith))
    have h6 : |log (x / 2)| * (x / 2) ≤ 1 := by
      rw [h5]
      have : -log (x / 2) * (x / 2) ≤ ((x / 2)⁻¹ - 1) * (x / 2) := mul_le_mul_of_nonneg_right h3 (by positivity)
      rw [sub_mul, inv_mul_cancel₀ (by positivity)] at this
      linarith
    calc |log (x / 2)| * d ≤ |log (x / 2)| * (13 / 10 ^ 8 * (x / 4 * (x / 4))) := by gcongr
      _ = (|log (x / 2)| * (x / 2)) * (13 / 10 ^ 8 * (x / 8)) := by ring
      _ ≤ 1 * (13 / 10 ^ 8 * (x / 8)) := by gcongr
      _ ≤ _ := by norm_num; linarith
  · have h5 : |log (x / 2)| ≤ 21 / 10 := by
      have l2 := log_two_lt_d9
      have l8 : log (1 / 8) = -(3 * log 2) := by
        rw [show (1 / 8 : ℝ) = (2 ^ 3)⁻¹ by norm_num, log_inv, log_pow]; norm_num
      have lo := log_le_log (by norm_num) h
      have up : log (x / 2) ≤ log 2 := log_le_log (by positivity) (by linarith)
      rw [abs_le]
      constructor <;> linarith
    calc |log (x / 2)| * d ≤ 21 / 10 * (29 / 10 ^ 10) := by gcongr
      _ ≤ _ := by norm_num

theorem gamma_close : |eulerMascheroniConstant - ((5772156649 / 10 ^ 10 : ℚ) : ℝ)| ≤ 2 / 10 ^ 9 := by
  have := EulerGamma.gamma_near
  push_cast
  exact this

theorem halfPi_mul (P : ℝ) (hP : |P| ≤ 100) : |π / 2 * P - (halfPi : ℝ) * P| ≤ 1 / 10 ^ 12 := by
  rw [← sub_mul, abs_mul]
  calc |π / 2 - (halfPi : ℝ)| * |P| ≤ 1 / 10 ^ 19 * 100 :=
        mul_le_mul halfPi_close hP (abs_nonneg _) (by positivity)
    _ ≤ _ := by norm_num

theorem y0_near (x : ℝ) (h0 : 0 < x) (h4 : x ≤ 4) :
    |2 / π * log (x / 2) * horner j0Near (x / 4 * (x / 4)) + horner y0Near (x / 4 * (x / 4)) - besselY0 x|
      ≤ 1 / 10 ^ 8 := by
  obtain ⟨u0, u1⟩ := unit4 x h0.le h4
  have hl := log_error x h0 h4
  have hj := besselJ0_le x h0.le h4
  have tj := trunc_J0 _ u0 u1
  have ty := trunc_Y0 _ u0 u1
  have hg := gamma_close
  have h2 := abs_le_unit (psub (pscale halfPi y0Near) (padd (pscale (5772156649 / 10 ^ 10) (first14 cJ0)) (first14 cY0)))
    [69 / 10 ^ 10] 9 (by decide +kernel) (by decide +kernel) _ u0 u1
  have hP := abs_le_unit y0Near [10] 9 (by decide +kernel) (by decide +kernel) _ u0 u1
  rw [ev_psub, ev_padd, ev_pscale, ev_pscale, ev_one] at h2
  rw [ev_one] at hP
  rw [horner_ev y0Near, besselY0_sum]
  have hpi := halfPi_mul (ev y0Near (x / 4 * (x / 4))) (by push_cast at hP; linarith)
  rw [← besselJ0_sum] at tj
  generalize horner j0Near (x / 4 * (x / 4)) = B at *
  generalize ev y0Near (x / 4 * (x / 4)) = P at *
  generalize sum16 cY0 (x / 4 * (x / 4)) = S at *
  generalize ev (first14 cY0) (x / 4 * (x / 4)) = S' at *
  generalize ev (first14 cJ0) (x / 4 * (x / 4)) = J' at *
  generalize besselJ 0 x = J at *
  generalize log (x / 2) = L at *
  generalize x / 4 * (x / 4) = v at *
  have e : 2 / π * L * B + P - 2 / π * ((L + eulerMascheroniConstant) * J + S)
      = 2 / π * (L * (B - J) + (π / 2 * P - halfPi * P)
        + (halfPi * P - (((5772156649 / 10 ^ 10 : ℚ) : ℝ) * J' + S'))
        - ((5772156649 / 10 ^ 10 : ℚ) : ℝ) * (J - J') - (S - S')
        - (eulerMascheroniConstant - ((5772156649 / 10 ^ 10 : ℚ) : ℝ)) * J) := by
    have : π ≠ 0 := pi_ne_zero
    field_simp
    ring
  have hgJ : |(eulerMascheroniConstant - ((5772156649 / 10 ^ 10 : ℚ) : ℝ)) * J| ≤ 2 / 10 ^ 9 * (11 / 10) := by
    rw [abs_mul]
    exact mul_le_mul hg hj (abs_nonneg _) (by positivity)
  have hb : |L * (B - J) + (π / 2 * P - halfPi * P)
        + (halfPi * P - (((5772156649 / 10 ^ 10 : ℚ) : ℝ) * J' + S'))
        - ((5772156649 / 10 ^ 10 : ℚ) : ℝ) * (J - J') - (S - S')
        - (eulerMascheroniConstant - ((5772156649 / 10 ^ 10 : ℚ) : ℝ)) * J| ≤ 154 / 10 ^ 10 := by
    clear e hj hg hP
    generalize (eulerMascheroniConstant - ((5772156649 / 10 ^ 10 : ℚ) : ℝ)) * J = G at *
    generalize L * (B - J) = M at *
    push_cast at *
    rw [abs_le] at *
    constructor <;> norm_num at * <;> linarith [hl.1, hl.2, tj.1, tj.2, ty.1, ty.2, h2.1, h2.2, hpi.1, hpi.2, hgJ.1, hgJ.2]
  rw [e, abs_mul, abs_of_pos (by positivity)]
  calc 2 / π * _ ≤ 2 / 3.14 * (154 / 10 ^ 10) := by
        gcongr
        exact pi_gt_d2.le
    _ ≤ _ := by norm_num

theorem y1_near (x : ℝ) (h0 : 0 < x) (h4 : x ≤ 4) :
    |2 / π * log (x / 2) * (x / 4 * horner j1Near (x / 4 * (x / 4))) + horner y1Near (x / 4 * (x / 4)) / x - besselY1 x|
      ≤ 45 / 10 ^ 10 / x := by
  obtain ⟨u0, u1⟩ := unit4 x h0.le h4
  have hl := log_small (x / 2) (by positivity) (by linarith)
  have hj := j1_near x h0.le h4
  have tj := trunc_J1 _ u0 u1
  have ty := trunc_Y1 _ u0 u1
  have hg := gamma_close
  have h2 := abs_le_unit (psub (padd [1] (pscale halfPi y1Near))
    (0 :: pscale 16 (padd (pscale (5772156649 / 10 ^ 10) (first14 cJ1)) (first14 cY1))))
    [26 / 10 ^ 10] 9 (by decide +kernel) (by decide +kernel) _ u0 u1
  have hxJ := abs_le_unit (0 :: pscale 16 (first14 cJ1)) [13 / 10] 9 (by decide +kernel) (by decide +kernel) _ u0 u1
  have hP := abs_le_unit y1Near [20] 9 (by decide +kernel) (by decide +kernel) _ u0 u1
  have ec : ∀ (l : List ℚ) (y : ℝ), ev (0 :: l) y = y * ev l y := by intro l y; simp [ev]
  rw [ev_psub, ev_padd, ev_pscale, ev_one, ec, ev_pscale, ev_padd, ev_pscale, ev_one] at h2
  rw [ec, ev_pscale, ev_one] at hxJ
  rw [ev_one] at hP
  rw [horner_ev y1Near, besselY1_sum]
  have hpi := halfPi_mul (ev y1Near (x / 4 * (x / 4))) (by push_cast at hP; linarith)
  have hJ := besselJ1_sum x
  have hv : x * x = 16 * (x / 4 * (x / 4)) := by ring
  generalize x / 4 * horner j1Near (x / 4 * (x / 4)) = B at *
  generalize ev y1Near (x / 4 * (x / 4)) = P at *
  generalize sum16 cY1 (x / 4 * (x / 4)) = S at *
  generalize sum16 cJ1 (x / 4 * (x / 4)) = s at *
  generalize ev (first14 cY1) (x / 4 * (x / 4)) = S' at *
  generalize ev (first14 cJ1) (x / 4 * (x / 4)) = s' at *
  generalize besselJ 1 x = J at *
  generalize log (x / 2) = L at *
  generalize x / 4 * (x / 4) = v at *
  subst hJ
  have hgJ : |(eulerMascheroniConstant - ((5772156649 / 10 ^ 10 : ℚ) : ℝ)) * (v * (16 * s))|
      ≤ 2 / 10 ^ 9 * (14 / 10) := by
    rw [abs_mul]
    refine mul_le_mul hg ?_ (abs_nonneg _) (by positivity)
    have : |v * (16 * (s - s'))| ≤ 1 / 10 := by
      rw [abs_mul, abs_mul, abs_of_nonneg u0]
      calc v * (|(16 : ℝ)| * |s - s'|) ≤ 1 * (16 * (1 * (1 / 10 ^ 12))) := by
            norm_num
            norm_num at tj
            nlinarith [abs_nonneg (s - s')]
        _ ≤ _ := by norm_num
    push_cast at hxJ
    rw [abs_le] at *
    constructor <;> norm_num at * <;> nlinarith [this.1, this.2, hxJ.1, hxJ.2]
  have hL : |x * L * (B - x * s)| ≤ 12 / 10 ^ 10 := by
    rw [abs_mul, abs_mul, abs_of_pos h0]
    calc x * |L| * |B - x * s| ≤ x * |L| * (7 / 10 ^ 11 * x) := by gcongr
      _ = (|L| * (x / 2)) * (14 / 10 ^ 11 * x) := by ring
      _ ≤ 2 * (14 / 10 ^ 11 * 4) := by gcongr
      _ ≤ _ := by norm_num
  have hs : |16 * v * (((5772156649 / 10 ^ 10 : ℚ) : ℝ) * (s - s') + (S - S'))| ≤ 32 / 10 ^ 12 := by
    have h5 : |((5772156649 / 10 ^ 10 : ℚ) : ℝ) * (s - s') + (S - S')| ≤ 2 / 10 ^ 12 := by
      push_cast
      rw [abs_le] at *
      constructor <;> norm_num at * <;> linarith [tj.1, tj.2, ty.1, ty.2]
    rw [abs_mul, abs_of_nonneg (by positivity)]
    calc 16 * v * _ ≤ 16 * 1 * (2 / 10 ^ 12) := by gcongr
      _ ≤ _ := by norm_num
  have e : 2 / π * L * B + P / x - 2 / π * ((L + eulerMascheroniConstant) * (x * s) - 1 / x + x * S)
      = 2 / π * (x * L * (B - x * s) + (π / 2 * P - halfPi * P)
        + (1 + halfPi * P - v * (16 * (((5772156649 / 10 ^ 10 : ℚ) : ℝ) * s' + S')))
        - 16 * v * (((5772156649 / 10 ^ 10 : ℚ) : ℝ) * (s - s') + (S - S'))
        - (eulerMascheroniConstant - ((5772156649 / 10 ^ 10 : ℚ) : ℝ)) * (v * (16 * s))) / x := by
    have hpp : π ≠ 0 := pi_ne_zero
    have hv' : v = x * x / 16 := by linarith
    rw [hv']
    field_simp
    ring
  have hb : |x * L * (B - x * s) + (π / 2 * P - halfPi * P)
        + (1 + halfPi * P - v * (16 * (((5772156649 / 10 ^ 10 : ℚ) : ℝ) * s' + S')))
        - 16 * v * (((5772156649 / 10 ^ 10 : ℚ) : ℝ) * (s - s') + (S - S'))
        - (eulerMascheroniConstant - ((5772156649 / 10 ^ 10 : ℚ) : ℝ)) * (v * (16 * s))| ≤ 67 / 10 ^ 10 := by
    clear e
    generalize (eulerMascheroniConstant - ((5772156649 / 10 ^ 10 : ℚ) : ℝ)) * (v * (16 * s)) = G at *
    generalize x * L * (B - x * s) = M at *
    generalize 16 * v * (((5772156649 / 10 ^ 10 : ℚ) : ℝ) * (s - s') + (S - S')) = N at *
    push_cast at h2 ⊢
    rw [abs_le] at hL hs hgJ hpi h2 ⊢
    constructor <;> norm_num at * <;> linarith [hL.1, hL.2, hs.1, hs.2, h2.1, h2.2, hpi.1, hpi.2, hgJ.1, hgJ.2]
  rw [e, abs_div, abs_of_pos h0, abs_mul, abs_of_pos (show 0 < 2 / π by positivity)]
  refine div_le_div_of_nonneg_right ?_ h0.le
  calc 2 / π * _ ≤ 2 / 3.14 * (67 / 10 ^ 10) := by
        gcongr
        exact pi_gt_d2.le
    _ ≤ _ := by norm_num

end Verif.Green.FinBessel
