/-
Sixteen digits of the constant of Euler, from the modified functions of Bessel (the method of Brent and McMillan), and
the bound of the product of the functions of order 1 and 0.  Nothing here depends on the model, except the constant.
-/
import Verif.Green.FinKRatio
import Verif.Green.FinBesselNear

namespace Verif.Green.FinK

open Real Filter Topology Verif.Green.Lwn Verif.Green.PolyBound Verif.Green.FinBessel
open scoped Nat

theorem besselI1_le (x : ℝ) (hx : 0 < x) : besselI 1 x ≤ besselI 0 x := by
  have h := (series_summable _ cI1_small 1 x).hasSum
  rw [← besselI_one] at h
  have hI := besselI0_pos x hx
  have hm := hasSum_le (fun k => ?_) h
    (((term0_sum x).mul_left (1 / 2)).add ((term0_sum_inv x hx).mul_left (1 / 2 * (x / 2) ^ 2)))
  · have e : 1 / 2 * (x / 2) ^ 2 * ((besselI 0 x - 1) / (x / 2) ^ 2) = 1 / 2 * (besselI 0 x - 1) := by field_simp
    rw [e] at hm
    linarith
  · have e : (cI1 k : ℝ) * x ^ (2 * k + 1) = term0 x k * (x / 2 / (k + 1)) := by
      unfold cI1 term0 cI0
      rw [Nat.factorial_succ]
      push_cast
      have : (k ! : ℝ) ≠ 0 := by positivity
      field_simp
      ring
    have ht := term0_pos x hx k
    have h2 : x / 2 / ((k : ℝ) + 1) ≤ 1 / 2 + 1 / 2 * (x / 2) ^ 2 / ((k : ℝ) + 1) ^ 2 := by
      have : 0 ≤ 1 / 2 * (1 - x / 2 / ((k : ℝ) + 1)) ^ 2 := by positivity
      have e : 1 / 2 * (1 - x / 2 / ((k : ℝ) + 1)) ^ 2
          = 1 / 2 + 1 / 2 * (x / 2) ^ 2 / ((k : ℝ) + 1) ^ 2 - x / 2 / ((k : ℝ) + 1) := by field_simp; ring
      rw [e] at this
      linarith
    have := mul_le_mul_of_nonneg_left h2 ht.le
    rw [e]
    calc _ ≤ _ := this
      _ = _ := by ring

theorem besselI1_ge (x : ℝ) (hx : 0 < x) : x / 2 ≤ besselI 1 x := by
  have h := (series_summable _ cI1_small 1 x).hasSum
  rw [← besselI_one] at h
  have := sum_le_hasSum (Finset.range 1) (fun k _ => by unfold cI1; push_cast; positivity) h
  simp [cI1] at this
  linarith

/-- The quotient of the functions of order 0 is at most the inverse of `2 x I0 I1`. -/
theorem quot_le (x : ℝ) (hx : 0 < x) : quot x ≤ 1 / (2 * x * besselI 0 x * besselI 1 x) := by
  have hd : ∀ t : ℝ, 0 < t → HasDerivAt (fun t => 1 / (2 * (t * besselI 1 t * besselI 0 t)) - quot t)
      (-(1 / 2) * ((t * besselI 0 t ^ 2 + t * besselI 1 t ^ 2) / (t * besselI 1 t * besselI 0 t) ^ 2)
        - -(1 / (t * besselI 0 t ^ 2))) t := by
    intro t ht
    have h0 : 0 < besselI 0 t := by linarith [besselI0_pos t ht]
    have h1 := besselI1_pos t ht
    have h := ((hasDerivAt_const t (1 : ℝ)).div
      (((mul_besselI_one_deriv t).mul (besselI_zero_deriv t)).const_mul 2) (by
        simp only [Pi.mul_apply]; positivity)).sub (quot_deriv t ht)
    refine h.congr_deriv ?_
    simp only [Pi.mul_apply]
    field_simp
    ring
  have hneg : ∀ t : ℝ, 0 < t → -(1 / 2) * ((t * besselI 0 t ^ 2 + t * besselI 1 t ^ 2)
      / (t * besselI 1 t * besselI 0 t) ^ 2) - -(1 / (t * besselI 0 t ^ 2)) ≤ 0 := by
    intro t ht
    have h0 : 0 < besselI 0 t := by linarith [besselI0_pos t ht]
    have h1 := besselI1_pos t ht
    have hle := besselI1_le t ht
    have e : -(1 / 2) * ((t * besselI 0 t ^ 2 + t * besselI 1 t ^ 2)
      / (t * besselI 1 t * besselI 0 t) ^ 2) - -(1 / (t * besselI 0 t ^ 2))
      = -((besselI 0 t ^ 2 - besselI 1 t ^ 2) / (2 * t * besselI 1 t ^ 2 * besselI 0 t ^ 2)) := by
      field_simp
      ring
    rw [e, neg_nonpos]
    have : 0 ≤ besselI 0 t ^ 2 - besselI 1 t ^ 2 := by nlinarith
    positivity
  have hl : Tendsto (fun t => 1 / (2 * (t * besselI 1 t * besselI 0 t)) - quot t) atTop (𝓝 0) := by
    have h2 : Tendsto (fun x : ℝ => 1 / x) atTop (𝓝 0) := tendsto_const_nhds.div_atTop tendsto_id
    have h3 : Tendsto (fun t => 1 / (2 * (t * besselI 1 t * besselI 0 t))) atTop (𝓝 0) := by
      refine tendsto_of_tendsto_of_tendsto_of_le_of_le' tendsto_const_nhds h2 ?_ ?_
      · filter_upwards [eventually_gt_atTop 1] with t ht
        have h0 : 0 < besselI 0 t := by linarith [besselI0_pos t (by linarith)]
        have h1 := besselI1_pos t (by linarith)
        positivity
      · filter_upwards [eventually_gt_atTop 1] with t ht
        have h0 := besselI0_pos t (by linarith)
        have h1 := besselI1_ge t (by linarith)
        refine one_div_le_one_div_of_le (by linarith) ?_
        have a : t * (1 / 2) ≤ t * besselI 1 t := by
          apply mul_le_mul_of_nonneg_left _ (by linarith)
          linarith
        have b : t * (1 / 2) * 1 ≤ t * besselI 1 t * besselI 0 t :=
          mul_le_mul a h0 (by norm_num) (by nlinarith)
        linarith
    simpa using h3.sub quot_tendsto
  have h := nonneg_of_decreasing _ _ 0 hd hneg hl x hx
  have e : 2 * x * besselI 0 x * besselI 1 x = 2 * (x * besselI 1 x * besselI 0 x) := by ring
  rw [e]
  linarith

/-- The product of the functions of order 1 and 0 is at most one half of `1 / x`. -/
theorem product_half (x : ℝ) (hx : 0 < x) : besselI 1 x * besselK0 x ≤ 1 / (2 * x) := by
  have h := quot_le x hx
  have h0 : 0 < besselI 0 x := by linarith [besselI0_pos x hx]
  have h1 := besselI1_pos x hx
  unfold quot at h
  rw [div_le_div_iff₀ h0 (by positivity)] at h
  rw [le_div_iff₀ (by positivity)]
  nlinarith

theorem besselK1_pos (x : ℝ) (hx : 0 < x) : 0 < besselK1 x := by
  have w := wronskian x hx
  have h := product_half x hx
  have h0 : 0 < besselI 0 x := by linarith [besselI0_pos x hx]
  have e : 1 / x = 2 * (1 / (2 * x)) := by field_simp
  have hp : 0 < 1 / (2 * x) := by positivity
  by_contra hc
  have : besselI 0 x * besselK1 x ≤ 0 := mul_nonpos_of_nonneg_of_nonpos h0.le (not_lt.mp hc)
  linarith

/-! ### The constant of Euler -/

theorem tail_half (f : ℕ → ℝ) (T : ℝ) (hf : ∀ k, 0 ≤ f k) (hT : HasSum f T) (K : ℕ)
    (h : ∀ k, K ≤ k → f (k + 1) ≤ f k / 2) :
    ∑ j ∈ Finset.range (K + 1), f j ≤ T ∧ T ≤ ∑ j ∈ Finset.range (K + 1), f j + f K := by
  have hj : ∀ j, f (j + (K + 1)) ≤ f K * (1 / 2) * (1 / 2) ^ j := by
    intro j
    induction j with
    | zero => have := h K le_rfl; simp only [Nat.zero_add, pow_zero]; linarith
    | succ j ih =>
      have := h (j + (K + 1)) (by omega)
      rw [show j + 1 + (K + 1) = j + (K + 1) + 1 from by ring, pow_succ]
      linarith
  have hrest := (hasSum_nat_add_iff' (K + 1)).mpr hT
  have hg : HasSum (fun j : ℕ => f K * (1 / 2) * (1 / 2) ^ j) (f K) := by
    have := hasSum_geometric_two.mul_left (f K * (1 / 2))
    rw [show f K * (1 / 2) * 2 = f K from by ring] at this
    exact this
  have h1 := hasSum_le hj hrest hg
  have h0 : 0 ≤ T - ∑ i ∈ Finset.range (K + 1), f i := hrest.nonneg fun j => hf _
  exact ⟨by linarith, by linarith⟩

/-- The terms of the logarithm of 2. -/
def log2q (k : ℕ) : ℚ := 2 / (2 * k + 1) / 3 ^ (2 * k + 1)

theorem log_two : |log 2 - 0.693147180559945309417| ≤ 1 / 10 ^ 20 := by
  have h := hasSum_log_one_add_inv (show (0 : ℝ) < 1 by norm_num)
  have e : (fun k : ℕ => (2 : ℝ) * (1 / (2 * k + 1)) * (1 / (2 * 1 + 1)) ^ (2 * k + 1)) = fun k => ((log2q k : ℚ) : ℝ) := by
    funext k
    unfold log2q
    push_cast
    rw [div_pow, one_pow]
    norm_num
    field_simp
  rw [e, show (1 : ℝ) + 1⁻¹ = 2 by norm_num] at h
  have t := tail_half _ _ (fun k => by unfold log2q; push_cast; positivity) h 22 (fun k _ => by
    unfold log2q
    push_cast
    have hp : (0 : ℝ) < 3 ^ (2 * k + 1) := by positivity
    have e3 : (3 : ℝ) ^ (2 * (k + 1) + 1) = 9 * 3 ^ (2 * k + 1) := by ring
    rw [e3, div_div, div_div, div_div, div_le_div_iff₀ (by positivity) (by positivity)]
    nlinarith)
  have e2 : ∑ j ∈ Finset.range (22 + 1), ((log2q j : ℚ) : ℝ) = ((∑ j ∈ Finset.range (22 + 1), log2q j : ℚ) : ℝ) := by
    push_cast; rfl
  rw [e2] at t
  have t1 : 0.693147180559945309417 - 1 / 10 ^ 20 ≤ ∑ j ∈ Finset.range (22 + 1), log2q j := by decide +kernel
  have t2 : ∑ j ∈ Finset.range (22 + 1), log2q j + log2q 22 ≤ 0.693147180559945309417 + 1 / 10 ^ 20 := by decide +kernel
  have t1 := (Rat.cast_le (K := ℝ)).mpr t1
  have t2 := (Rat.cast_le (K := ℝ)).mpr t2
  rw [Rat.cast_add] at t2
  generalize ((∑ j ∈ Finset.range (22 + 1), log2q j : ℚ) : ℝ) = z at *
  generalize ((log2q 22 : ℚ) : ℝ) = w at *
  push_cast at t1 t2
  rw [abs_le]
  constructor <;> linarith [t.1, t.2]

/-- A harmonic number, a term of the series and the sum of the products so far, at a rational number. -/
def steph (y : ℚ) : ℕ → ℚ × ℚ × ℚ
  | 0 => (0, 1, 0)
  | k + 1 =>
    let p := steph y k
    let h := p.1 + 1 / ((k : ℚ) + 1)
    let r := y / (((k + 1) * (k + 1) : ℕ) : ℚ) * p.2.1
    (h, r, p.2.2 + r * h)

theorem steph_cast (y : ℚ) (k : ℕ) : (steph y k).1 = harmonic k ∧ ((steph y k).2.1 : ℝ) = rr (fun k => k * k) y k
    ∧ ((steph y k).2.2 : ℝ) = ∑ j ∈ Finset.range (k + 1), rr (fun k => k * k) y j * harmonic j := by
  induction k with
  | zero => simp [steph, rr]
  | succ k ih =>
    have h1 : (steph y (k + 1)).1 = harmonic (k + 1) := by
      rw [harmonic_succ, ← ih.1]
      simp only [steph]
      push_cast
      rw [one_div]
    have h2 : ((steph y (k + 1)).2.1 : ℝ) = rr (fun k => k * k) y (k + 1) := by
      simp only [steph, rr]
      rw [Rat.cast_mul, ih.2.1]
      push_cast
      ring
    refine ⟨h1, h2, ?_⟩
    rw [Finset.sum_range_succ, ← h1, ← h2, ← ih.2.2]
    simp only [steph]
    push_cast
    ring

theorem harmonic_value (q : ℚ) (k : ℕ) (lo up : ℚ)
    (t : decide (1 ≤ k ∧ 4 * (q * q / 4) ≤ ((k + 1) * (k + 1) : ℕ) ∧ lo ≤ (steph (q * q / 4) k).2.2
      ∧ (steph (q * q / 4) k).2.2 + (steph (q * q / 4) k).2.1 * (steph (q * q / 4) k).1 ≤ up) = true) :
    (lo : ℝ) ≤ ∑' k : ℕ, (cK0 k : ℝ) * (q : ℝ) ^ (2 * k) ∧ ∑' k : ℕ, (cK0 k : ℝ) * (q : ℝ) ^ (2 * k) ≤ up := by
  obtain ⟨t0, t1, t2, t3⟩ := of_decide_eq_true t
  obtain ⟨c1, c2, c3⟩ := steph_cast (q * q / 4) k
  rw [c1] at t3
  have t1 := (Rat.cast_le (K := ℝ)).mpr t1
  have t2 := (Rat.cast_le (K := ℝ)).mpr t2
  have t3 := (Rat.cast_le (K := ℝ)).mpr t3
  rw [c3] at t2
  rw [Rat.cast_add, Rat.cast_mul, c3, c2] at t3
  push_cast at t1 t2 t3
  have hs := harmonic_sum (q : ℝ)
  have e : (fun k : ℕ => term0 (q : ℝ) k * harmonic k)
      = fun k => rr (fun k => k * k) ((q : ℝ) * q / 4) k * harmonic k := by
    funext k
    rw [rr_sq]
    unfold term0 cI0
    push_cast
    rw [div_pow, show (q : ℝ) * q = q ^ 2 from by ring, ← pow_mul]
    congr 1
    field_simp
  rw [e] at hs
  have hq : 0 ≤ (q : ℝ) * q / 4 := by have := mul_self_nonneg (q : ℝ); linarith
  have hh : ∀ k, (0 : ℝ) ≤ harmonic k := fun k => by exact_mod_cast harmonic_nonneg k
  have h := tail_half _ _ (fun k => mul_nonneg (rr_nonneg _ _ hq k) (hh k)) hs k (fun j hj => by
    have h1 : ((harmonic (j + 1) : ℚ) : ℝ) ≤ 2 * harmonic j := by
      have := (Rat.cast_le (K := ℝ)).mpr (harmonic_double j (by omega))
      push_cast at this
      exact this
    have h2 : (q : ℝ) * q / 4 / (((j + 1) * (j + 1) : ℕ) : ℝ) ≤ 1 / 4 := by
      rw [div_le_iff₀ (by positivity)]
      have : (k : ℝ) ≤ j := by exact_mod_cast hj
      push_cast
      nlinarith
    have h3 := rr_nonneg (fun k => k * k) _ hq j
    have h4 : rr (fun k => k * k) ((q : ℝ) * q / 4) (j + 1) ≤ 1 / 4 * rr (fun k => k * k) ((q : ℝ) * q / 4) j := by
      simp only [rr]
      exact mul_le_mul_of_nonneg_right h2 h3
    calc _ ≤ 1 / 4 * rr (fun k => k * k) ((q : ℝ) * q / 4) j * (2 * harmonic j) :=
          mul_le_mul h4 h1 (hh _) (by positivity)
      _ = _ := by ring)
  exact ⟨by linarith [h.1], by linarith [h.2]⟩

theorem gamma_of (I R S Q g : ℚ) (hI : (I : ℝ) ≤ besselI 0 32 ∧ besselI 0 32 ≤ ((I + R : ℚ) : ℝ))
    (hS : (S : ℝ) ≤ ∑' k : ℕ, (cK0 k : ℝ) * (32 : ℝ) ^ (2 * k)
      ∧ ∑' k : ℕ, (cK0 k : ℝ) * (32 : ℝ) ^ (2 * k) ≤ ((S + Q : ℚ) : ℝ))
    (h1 : 10 ^ 12 ≤ besselI 1 32) (tI : 10 ^ 12 ≤ I) (tS : 0 ≤ S) (tQ : 0 ≤ Q)
    (t1 : (S + Q) / I - 4 * 0.693147180559945309406 ≤ g + 1 / 10 ^ 16)
    (t2 : g - 1 / 10 ^ 16 + 1 / 10 ^ 20 ≤ S / (I + R) - 4 * 0.693147180559945309428) :
    |eulerMascheroniConstant - g| ≤ 1 / 10 ^ 16 := by
  have tI := (Rat.cast_le (K := ℝ)).mpr tI
  have t1 := (Rat.cast_le (K := ℝ)).mpr t1
  have t2 := (Rat.cast_le (K := ℝ)).mpr t2
  have tS := (Rat.cast_le (K := ℝ)).mpr tS
  have tQ := (Rat.cast_le (K := ℝ)).mpr tQ
  push_cast at hI hS tI t1 t2 tS tQ
  have hx : (0 : ℝ) < 32 := by norm_num
  have h0 := quot_nonneg 32 hx
  have hq1 := quot_le 32 hx
  have hq : quot 32 = -(log (32 / 2) + eulerMascheroniConstant)
      + (∑' k : ℕ, (cK0 k : ℝ) * (32 : ℝ) ^ (2 * k)) / besselI 0 32 := by
    unfold quot
    rw [besselK0_eq]
    have : besselI 0 32 ≠ 0 := by linarith
    field_simp
  have hlog : log ((32 : ℝ) / 2) = 4 * log 2 := by
    rw [show (32 : ℝ) / 2 = 2 ^ 4 by norm_num, log_pow]; norm_num
  rw [hlog] at hq
  have l := abs_le.mp log_two
  have hq2 : quot 32 ≤ 1 / 10 ^ 20 := by
    refine hq1.trans (one_div_le_one_div_of_le (by positivity) ?_)
    have : (10 : ℝ) ^ 12 * 10 ^ 12 ≤ besselI 0 32 * besselI 1 32 :=
      mul_le_mul (by linarith) h1 (by positivity) (by linarith)
    calc (10 : ℝ) ^ 20 ≤ 64 * (10 ^ 12 * 10 ^ 12) := by norm_num
      _ ≤ 64 * (besselI 0 32 * besselI 1 32) := by linarith
      _ = _ := by ring
  have hp : (0 : ℝ) < I := by linarith
  have b1 : (∑' k : ℕ, (cK0 k : ℝ) * (32 : ℝ) ^ (2 * k)) / besselI 0 32 ≤ (S + Q) / I :=
    div_le_div₀ (by linarith) hS.2 hp hI.1
  have b2 : (S : ℝ) / (I + R) ≤ (∑' k : ℕ, (cK0 k : ℝ) * (32 : ℝ) ^ (2 * k)) / besselI 0 32 :=
    div_le_div₀ (by linarith) hS.1 (by linarith) hI.2
  rw [abs_le]
  constructor <;> linarith [l.1, l.2]

/-- The constant of the code is the constant of Euler up to one unit of the last digit. -/
theorem gamma_el : |eulerMascheroniConstant - el| ≤ 1 / 10 ^ 16 := by
  have hI := besselI0_value 32 80 (stepq (fun k => k * k) (32 * 32 / 4) 80).2
    ((stepq (fun k => k * k) (32 * 32 / 4) 80).2 + (stepq (fun k => k * k) (32 * 32 / 4) 80).1) (by decide +kernel)
  have hS := harmonic_value 32 80 (steph (32 * 32 / 4) 80).2.2
    ((steph (32 * 32 / 4) 80).2.2 + (steph (32 * 32 / 4) 80).2.1 * (steph (32 * 32 / 4) 80).1) (by decide +kernel)
  have h1 := (besselI1_value 32 (by norm_num) 80 (10 ^ 12) (10 ^ 13) (by decide +kernel)).1
  rw [show (((32 : ℚ)) : ℝ) = 32 by norm_num] at hI hS h1
  rw [show (((10 ^ 12 : ℚ)) : ℝ) = 10 ^ 12 by norm_num] at h1
  exact gamma_of _ _ _ _ el hI hS h1 (by decide +kernel) (by decide +kernel) (by decide +kernel) (by decide +kernel)
    (by decide +kernel)

end Verif.Green.FinK
