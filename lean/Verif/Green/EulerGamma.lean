/-
Nine digits of the constant of Euler, which is in the specification of the functions of Bessel of the second kind
(`Verif.Green.FinBesselSeries`).  Nothing here is a model of the code.
-/
import Mathlib.NumberTheory.Harmonic.EulerMascheroni
import Mathlib.Analysis.SpecialFunctions.Log.Deriv
import Mathlib.Analysis.SpecificLimits.Basic
import Mathlib.Tactic.Linarith
import Mathlib.Tactic.Ring
import Mathlib.Tactic.FieldSimp

namespace Verif.Green.EulerGamma

open Real Filter Topology

theorem log_lower (a : ℝ) (h : 0 < a) :
    2 * (1 / (2 * a + 1)) + 2 / 3 * (1 / (2 * a + 1)) ^ 3 + 2 / 5 * (1 / (2 * a + 1)) ^ 5 ≤ log (1 + a⁻¹) := by
  have hs := hasSum_log_one_add_inv h
  have hp : 0 < 1 / (2 * a + 1) := by positivity
  have := sum_le_hasSum (Finset.range 3) (fun k _ => by positivity) hs
  simp only [Finset.sum_range_succ, Finset.sum_range_zero] at this
  push_cast at this
  norm_num at this ⊢
  linarith

theorem log_upper (a : ℝ) (h : 0 < a) :
    log (1 + a⁻¹) ≤ 2 * (1 / (2 * a + 1)) + 2 / 3 * (1 / (2 * a + 1)) ^ 3
      + 2 / 5 * (1 / (2 * a + 1)) ^ 5 * (1 - (1 / (2 * a + 1)) ^ 2)⁻¹ := by
  have hs := hasSum_log_one_add_inv h
  have hp : 0 < 1 / (2 * a + 1) := by positivity
  have hl : 1 / (2 * a + 1) < 1 := by rw [div_lt_one (by positivity)]; linarith
  generalize 1 / (2 * a + 1) = v at *
  have h2 := (hasSum_nat_add_iff' 2).mpr hs
  have hg : HasSum (fun k : ℕ => 2 / 5 * v ^ 5 * (v ^ 2) ^ k) (2 / 5 * v ^ 5 * (1 - v ^ 2)⁻¹) :=
    (hasSum_geometric_of_lt_one (by positivity) (by nlinarith)).mul_left _
  have h3 := hasSum_le (fun k => ?_) h2 hg
  · simp only [Finset.sum_range_succ, Finset.sum_range_zero] at h3
    push_cast at h3
    norm_num at h3 ⊢
    linarith
  · push_cast
    rw [show v ^ (2 * (k + 2) + 1) = v ^ 5 * (v ^ 2) ^ k by rw [← pow_mul, ← pow_add]; congr 1; ring]
    have h4 : (1 : ℝ) / (2 * (k + 2) + 1) ≤ 1 / 5 := by
      apply one_div_le_one_div_of_le (by norm_num)
      have : (0 : ℝ) ≤ k := by positivity
      linarith
    have h5 : 0 ≤ v ^ 5 * (v ^ 2) ^ k := by positivity
    nlinarith

/-- The sequence of Euler with two corrections. -/
noncomputable def seq (n : ℕ) : ℝ := harmonic n - log n - 1 / (2 * n) + 1 / (12 * (n : ℝ) ^ 2)

theorem seq_step (n : ℕ) (hn : 128 ≤ n) :
    0 ≤ seq n - seq (n + 1) ∧ seq n - seq (n + 1) ≤ 2 / 10 ^ 8 * (1 / (n : ℝ) - 1 / ((n + 1 : ℕ) : ℝ)) := by
  have hn' : (128 : ℝ) ≤ n := by exact_mod_cast hn
  have hn0 : (0 : ℝ) < n := by linarith
  have hl : log ((n + 1 : ℕ) : ℝ) = log n + log (1 + (n : ℝ)⁻¹) := by
    rw [← log_mul (by positivity) (by positivity)]
    congr 1
    push_cast
    field_simp
  have e : seq n - seq (n + 1) = log (1 + (n : ℝ)⁻¹) - 1 / 2 * (1 / n + 1 / (n + 1))
      + 1 / 12 * (1 / (n : ℝ) ^ 2 - 1 / ((n : ℝ) + 1) ^ 2) := by
    unfold seq
    rw [hl, harmonic_succ]
    push_cast
    field_simp
    ring
  have lo := log_lower n hn0
  have up := log_upper n hn0
  rw [e]
  push_cast
  generalize (n : ℝ) = x at *
  generalize log (1 + x⁻¹) = L at *
  constructor
  · have : 0 ≤ 2 * (1 / (2 * x + 1)) + 2 / 3 * (1 / (2 * x + 1)) ^ 3 + 2 / 5 * (1 / (2 * x + 1)) ^ 5
        - 1 / 2 * (1 / x + 1 / (x + 1)) + 1 / 12 * (1 / x ^ 2 - 1 / (x + 1) ^ 2) := by
      have e2 : 2 * (1 / (2 * x + 1)) + 2 / 3 * (1 / (2 * x + 1)) ^ 3 + 2 / 5 * (1 / (2 * x + 1)) ^ 5
          - 1 / 2 * (1 / x + 1 / (x + 1)) + 1 / 12 * (1 / x ^ 2 - 1 / (x + 1) ^ 2)
          = (64 * x ^ 4 + 128 * x ^ 3 + 94 * x ^ 2 + 30 * x + 5) / (60 * x ^ 2 * (x + 1) ^ 2 * (2 * x + 1) ^ 5) := by
        field_simp
        ring
      rw [e2]
      positivity
    linarith
  · have : 2 * (1 / (2 * x + 1)) + 2 / 3 * (1 / (2 * x + 1)) ^ 3
        + 2 / 5 * (1 / (2 * x + 1)) ^ 5 * (1 - (1 / (2 * x + 1)) ^ 2)⁻¹
        - 1 / 2 * (1 / x + 1 / (x + 1)) + 1 / 12 * (1 / x ^ 2 - 1 / (x + 1) ^ 2)
        ≤ 2 / 10 ^ 8 * (1 / x - 1 / (x + 1)) := by
      have hd : (1 - (1 / (2 * x + 1)) ^ 2)⁻¹ = (2 * x + 1) ^ 2 / (4 * x * (x + 1)) := by
        rw [show 1 - (1 / (2 * x + 1)) ^ 2 = 4 * x * (x + 1) / (2 * x + 1) ^ 2 by field_simp; ring, inv_div]
      rw [hd]
      have e2 : 2 * (1 / (2 * x + 1)) + 2 / 3 * (1 / (2 * x + 1)) ^ 3
          + 2 / 5 * (1 / (2 * x + 1)) ^ 5 * ((2 * x + 1) ^ 2 / (4 * x * (x + 1)))
          - 1 / 2 * (1 / x + 1 / (x + 1)) + 1 / 12 * (1 / x ^ 2 - 1 / (x + 1) ^ 2)
          = (16 * x ^ 2 + 16 * x + 5) / (60 * x ^ 2 * (x + 1) ^ 2 * (2 * x + 1) ^ 3) := by
        field_simp
        ring
      have e3 : 2 / 10 ^ 8 * (1 / x - 1 / (x + 1)) = 2 / 10 ^ 8 / (x * (x + 1)) := by
        field_simp
        ring
      rw [e2, e3, div_le_div_iff₀ (by positivity) (by positivity)]
      have h1 : 16 * x ^ 2 + 16 * x + 5 ≤ 17 * (x * (x + 1)) := by nlinarith
      have h2 : (257 : ℝ) ^ 3 ≤ (2 * x + 1) ^ 3 := pow_le_pow_left₀ (by norm_num) (by linarith) 3
      have h3 : 0 < x * (x + 1) := by positivity
      calc (16 * x ^ 2 + 16 * x + 5) * (x * (x + 1)) ≤ 17 * (x * (x + 1)) * (x * (x + 1)) := by gcongr
        _ ≤ 2 / 10 ^ 8 * (60 * (x * (x + 1)) * (257 : ℝ) ^ 3) * (x * (x + 1)) := by
            apply mul_le_mul_of_nonneg_right _ h3.le
            nlinarith
        _ ≤ 2 / 10 ^ 8 * (60 * (x * (x + 1)) * (2 * x + 1) ^ 3) * (x * (x + 1)) := by gcongr
        _ = _ := by ring
    linarith

theorem seq_bounds (n : ℕ) (hn : 128 ≤ n) (m : ℕ) (h : n ≤ m) :
    0 ≤ seq n - seq m ∧ seq n - seq m ≤ 2 / 10 ^ 8 * (1 / (n : ℝ) - 1 / (m : ℝ)) := by
  induction m, h using Nat.le_induction with
  | base => simp
  | succ m h ih =>
      have := seq_step m (hn.trans h)
      constructor
      · linarith [ih.1, this.1]
      · linarith [ih.2, this.2]

theorem seq_tendsto : Tendsto seq atTop (𝓝 eulerMascheroniConstant) := by
  have h0 : Tendsto (fun n : ℕ => (1 : ℝ) / n) atTop (𝓝 0) := tendsto_one_div_atTop_nhds_zero_nat
  have h := ((tendsto_harmonic_sub_log).sub (h0.const_mul (1 / 2))).add ((h0.mul h0).const_mul (1 / 12))
  have e : (fun n : ℕ => (harmonic n : ℝ) - log n - 1 / 2 * (1 / n) + 1 / 12 * (1 / n * (1 / n))) = seq := by
    funext n
    unfold seq
    rcases Nat.eq_zero_or_pos n with rfl | hn
    · simp
    · field_simp
  rw [e] at h
  simpa using h

theorem gamma_near : |eulerMascheroniConstant - 5772156649 / 10 ^ 10| ≤ 2 / 10 ^ 9 := by
  have hb : ∀ᶠ m in atTop, seq m ≤ seq 128 ∧ seq 128 - 2 / 10 ^ 8 / 128 ≤ seq m := by
    filter_upwards [eventually_ge_atTop 128] with m hm
    have := seq_bounds 128 le_rfl m hm
    have hp : (0 : ℝ) ≤ 1 / m := by positivity
    push_cast at this
    constructor <;> linarith [this.1, this.2]
  have up := le_of_tendsto seq_tendsto (hb.mono fun _ h => h.1)
  have lo := ge_of_tendsto seq_tendsto (hb.mono fun _ h => h.2)
  have hh : |(harmonic 128 : ℚ) - 54331470925 / 10 ^ 10| ≤ 1 / 10 ^ 10 := by decide +kernel
  have hl := log_two_near_10
  have hlog : log ((128 : ℕ) : ℝ) = 7 * log 2 := by
    rw [show ((128 : ℕ) : ℝ) = 2 ^ 7 by norm_num, log_pow]; norm_num
  have hr : |(harmonic 128 : ℝ) - 54331470925 / 10 ^ 10| ≤ 1 / 10 ^ 10 := by
    have := (Rat.cast_le (K := ℝ)).mpr hh
    push_cast at this
    exact this
  have e : seq 128 = (harmonic 128 : ℝ) - 7 * log 2 - 1 / 256 + 1 / 196608 := by
    unfold seq
    rw [hlog]
    norm_num
  rw [abs_le] at hr hl ⊢
  rw [e] at up lo
  clear hh e hb hlog
  generalize (harmonic 128 : ℝ) = H at *
  norm_num at hr hl ⊢
  constructor <;> linarith

end Verif.Green.EulerGamma
