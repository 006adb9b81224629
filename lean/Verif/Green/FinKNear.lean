/-
The loop of the modified function of Bessel of the second kind (`Verif.Green.FinKModel.kLoop`): where it stops, and the
error which it makes.
-/
import Verif.Green.FinKFar

namespace Verif.Green.FinK

open Real Verif.Green.Lwn Verif.Green.PolyBound Verif.Green.FinBessel
open scoped Nat

/-- The terms of the loop. -/
noncomputable def tk (u ct : ℝ) (k : ℕ) : ℝ := rr (fun k => k * k) u k * (harmonic k + ct)

/-- The content of `BK0` after `k` turns. -/
noncomputable def bk (u ct : ℝ) (k : ℕ) : ℝ := ∑ j ∈ Finset.range k, tk u ct (j + 1)

theorem bk_succ (u ct : ℝ) (k : ℕ) : bk u ct (k + 1) = bk u ct k + tk u ct (k + 1) := Finset.sum_range_succ _ _

theorem kLoop_succ (x2 ct : ℝ) (n k : ℕ) (ww : ℝ) (P : Prop) [Decidable P]
    (hP : (bk (x2 / 4) ct (k + 1) ≠ 0 ∧ |(bk (x2 / 4) ct (k + 1) - ww) / bk (x2 / 4) ct (k + 1)| < 1 / 10 ^ 15) ↔ P) :
    kLoop x2 ct (n + 1) (k + 1) (harmonic k) (rr (fun k => k * k) (x2 / 4) k) (bk (x2 / 4) ct k) ww
      = if P then bk (x2 / 4) ct (k + 1)
        else kLoop x2 ct n (k + 2) (harmonic (k + 1)) (rr (fun k => k * k) (x2 / 4) (k + 1)) (bk (x2 / 4) ct (k + 1))
          (bk (x2 / 4) ct (k + 1)) := by
  have e1 : (harmonic k : ℝ) + 1 / ((k + 1 : ℕ) : ℝ) = harmonic (k + 1) := by
    rw [harmonic_succ]; push_cast; rw [one_div]
  have e2 : 0.25 * rr (fun k => k * k) (x2 / 4) k / (((k + 1 : ℕ) : ℝ) * ((k + 1 : ℕ) : ℝ)) * x2
      = rr (fun k => k * k) (x2 / 4) (k + 1) := by
    simp only [rr]; push_cast; ring
  have e3 : bk (x2 / 4) ct k + rr (fun k => k * k) (x2 / 4) (k + 1) * (harmonic (k + 1) + ct)
      = bk (x2 / 4) ct (k + 1) := (bk_succ _ _ _).symm
  simp only [kLoop, e1, e2, e3]
  by_cases h : P
  · rw [if_pos (hP.mpr h), if_pos h]
  · rw [if_neg (fun h' => h (hP.mp h')), if_neg h]

/-- After the first turn the loop stops at the last turn or when the term is small. -/
theorem kLoop_stop (x2 ct : ℝ) (n k : ℕ) (hn : 1 ≤ n) :
    ∃ m, k < m ∧ m ≤ k + n ∧
      kLoop x2 ct n (k + 1) (harmonic k) (rr (fun k => k * k) (x2 / 4) k) (bk (x2 / 4) ct k) (bk (x2 / 4) ct k)
        = bk (x2 / 4) ct m
      ∧ (m = k + n ∨ |tk (x2 / 4) ct m| < 1 / 10 ^ 15 * |bk (x2 / 4) ct m|) := by
  classical
  induction n generalizing k with
  | zero => omega
  | succ n ih =>
    rw [kLoop_succ x2 ct n k _ _ Iff.rfl]
    have e : bk (x2 / 4) ct (k + 1) - bk (x2 / 4) ct k = tk (x2 / 4) ct (k + 1) := by rw [bk_succ]; ring
    rw [e]
    by_cases h : bk (x2 / 4) ct (k + 1) ≠ 0 ∧ |tk (x2 / 4) ct (k + 1) / bk (x2 / 4) ct (k + 1)| < 1 / 10 ^ 15
    · rw [if_pos h]
      refine ⟨k + 1, by omega, by omega, rfl, Or.inr ?_⟩
      have h2 := h.2
      rw [abs_div, div_lt_iff₀ (abs_pos.mpr h.1)] at h2
      exact h2
    · rw [if_neg h]
      rcases Nat.eq_zero_or_pos n with h0 | h0
      · subst h0
        exact ⟨k + 1, by omega, by omega, rfl, Or.inl rfl⟩
      · obtain ⟨m, a, b, c, d⟩ := ih (k + 1) h0
        refine ⟨m, by omega, by omega, c, ?_⟩
        rcases d with d | d
        · left; omega
        · right; exact d

theorem tail_half' (f : ℕ → ℝ) (T : ℝ) (hT : HasSum f T) (K : ℕ) (hf : ∀ k, K ≤ k → 0 ≤ f k)
    (h : ∀ k, K ≤ k → f (k + 1) ≤ f k / 2) :
    ∑ j ∈ Finset.range (K + 1), f j ≤ T ∧ T ≤ ∑ j ∈ Finset.range (K + 1), f j + f K := by
  have hj : ∀ j, f (j + (K + 1)) ≤ f K * (1 / 2) * (1 / 2) ^ j := by
    intro j
    induction j with
    | zero => have := h K le_rfl; simp only [Nat.zero_add, pow_zero]; linarith
    | succ j ih =>
      have := h (j + (K + 1)) (by omega)
      rw [show j + 1 + (K + 1) = j + (K + 1) + 1 from by ring, pow_succ]
      linarith
  have hrest := (hasSum_nat_add_iff' (K + 1)).mpr hT
  have hg : HasSum (fun j : ℕ => f K * (1 / 2) * (1 / 2) ^ j) (f K) := by
    have := hasSum_geometric_two.mul_left (f K * (1 / 2))
    rw [show f K * (1 / 2) * 2 = f K from by ring] at this
    exact this
  have h1 := hasSum_le hj hrest hg
  have h0 : 0 ≤ T - ∑ i ∈ Finset.range (K + 1), f i := hrest.nonneg fun j => hf _ (by omega)
  exact ⟨by linarith, by linarith⟩

/-- The sum of all the terms. -/
theorem tk_sum (x : ℝ) : HasSum (tk (x * x / 4) (-(log (x / 2) + el)))
    (besselK0 x + (eulerMascheroniConstant - el) * besselI 0 x) := by
  have h1 := harmonic_sum x
  have h2 := (term0_sum x).mul_right (-(log (x / 2) + (el : ℝ)))
  have e : tk (x * x / 4) (-(log (x / 2) + el))
      = fun k => term0 x k * harmonic k + term0 x k * -(log (x / 2) + (el : ℝ)) := by
    funext k
    unfold tk
    rw [rr_sq]
    unfold term0 cI0
    push_cast
    rw [div_pow, show x * x = x ^ 2 from by ring, ← pow_mul]
    field_simp
  rw [e]
  have := h1.add h2
  rw [besselK0_eq]
  convert this using 1
  ring

theorem tk_range (u ct : ℝ) (m : ℕ) : ∑ j ∈ Finset.range (m + 1), tk u ct j = bk u ct m + ct := by
  rw [Finset.sum_range_succ']
  simp [bk, tk, rr]

theorem harmonic_mono (a b : ℕ) (h : a ≤ b) : (harmonic a : ℝ) ≤ harmonic b := by
  induction b with
  | zero => simp [Nat.le_zero.mp h]
  | succ b ih =>
    rcases Nat.lt_or_ge b a with h1 | h1
    · rw [show a = b + 1 by omega]
    · refine (ih h1).trans ?_
      rw [harmonic_succ]
      push_cast
      have : (0 : ℝ) ≤ ((b : ℝ) + 1)⁻¹ := by positivity
      linarith

/-- The terms are halved. -/
theorem tk_half (u ct q : ℝ) (k : ℕ) (hu : 0 ≤ u) (hq : 0 < q) (hk : q ≤ harmonic k + ct)
    (h : u / ((k + 1) * (k + 1)) * (1 + 1 / ((k + 1) * q)) ≤ 1 / 2) : tk u ct (k + 1) ≤ tk u ct k / 2 := by
  unfold tk
  have e : rr (fun k => k * k) u (k + 1) = u / ((k + 1) * (k + 1)) * rr (fun k => k * k) u k := by
    simp only [rr]; push_cast; rfl
  have eh : ((harmonic (k + 1) : ℚ) : ℝ) = harmonic k + 1 / (k + 1) := by
    rw [harmonic_succ]; push_cast; rw [one_div]
  have hr := rr_nonneg (fun k => k * k) u hu k
  rw [e, eh]
  have h2 : (harmonic k : ℝ) + 1 / (k + 1) + ct ≤ (harmonic k + ct) * (1 + 1 / ((k + 1) * q)) := by
    have : 1 / ((k : ℝ) + 1) = q * (1 / ((k + 1) * q)) := by field_simp
    have h3 : q * (1 / (((k : ℝ) + 1) * q)) ≤ (harmonic k + ct) * (1 / ((k + 1) * q)) :=
      mul_le_mul_of_nonneg_right hk (by positivity)
    linarith
  have h4 : 0 ≤ u / (((k : ℝ) + 1) * (k + 1)) * rr (fun k => k * k) u k := by positivity
  calc _ ≤ u / (((k : ℝ) + 1) * (k + 1)) * rr (fun k => k * k) u k * ((harmonic k + ct) * (1 + 1 / ((k + 1) * q))) :=
        mul_le_mul_of_nonneg_left h2 h4
    _ = (u / ((k + 1) * (k + 1)) * (1 + 1 / ((k + 1) * q))) * (rr (fun k => k * k) u k * (harmonic k + ct)) := by ring
    _ ≤ 1 / 2 * (rr (fun k => k * k) u k * (harmonic k + ct)) := by
        apply mul_le_mul_of_nonneg_right h
        exact mul_nonneg hr (by linarith)
    _ = _ := by ring

theorem besselI0_mono (x y : ℝ) (hx : 0 ≤ x) (hxy : x ≤ y) : besselI 0 x ≤ besselI 0 y := by
  refine hasSum_le (fun k => ?_) (term0_sum x) (term0_sum y)
  unfold term0
  gcongr
  unfold cI0
  positivity

theorem besselI0_nine : besselI 0 9 ≤ 1094 := by
  have h := (besselI0_value 9 40 1093 1094 (by decide +kernel)).2
  norm_num at h
  exact h

/-! ### Small arguments -/

theorem stop_small (x : ℝ) (h0 : 0 < x) (hc : log (x / 2) + el ≤ 1 / 2) (m : ℕ) (hm : 2 ≤ m) (hm50 : m ≤ 50)
    (hs : m = 50 ∨ |tk (x * x / 4) (-(log (x / 2) + el)) m| < 1 / 10 ^ 15 * |bk (x * x / 4) (-(log (x / 2) + el)) m|) :
    |bk (x * x / 4) (-(log (x / 2) + el)) m + -(log (x / 2) + el)
        - (besselK0 x + (eulerMascheroniConstant - el) * besselI 0 x)|
      ≤ 2 / 10 ^ 15 * (besselK0 x + (eulerMascheroniConstant - el) * besselI 0 x + 1 / 2) := by
  have hx1 : x / 2 ≤ 1 := by
    have h1 : log (x / 2) ≤ 0 := by
      have : ((1 / 2 : ℚ) : ℝ) ≤ el := (Rat.cast_le (K := ℝ)).mpr (by decide +kernel)
      push_cast at this
      linarith
    exact (log_nonpos_iff (by positivity)).mp h1
  have hu : x * x / 4 ≤ 1 := by nlinarith
  have hu0 : 0 ≤ x * x / 4 := by positivity
  have hT := tk_sum x
  generalize besselK0 x + (eulerMascheroniConstant - el) * besselI 0 x = T at *
  generalize hct : -(log (x / 2) + (el : ℝ)) = ct at *
  have hct' : -(1 / 2) ≤ ct := by linarith
  generalize x * x / 4 = u at *
  have h1 : ∀ k, 1 ≤ k → 1 / 2 ≤ (harmonic k : ℝ) + ct := fun k hk => by
    have := harmonic_mono 1 k hk
    norm_num at this
    linarith
  have hpos : ∀ k, 1 ≤ k → 0 ≤ tk u ct k := fun k hk =>
    mul_nonneg (rr_nonneg _ u hu0 k) (by linarith [h1 k hk])
  have hhalf : ∀ k, 1 ≤ k → tk u ct (k + 1) ≤ tk u ct k / 2 := by
    intro k hk
    refine tk_half u ct (1 / 2) k hu0 (by norm_num) (h1 k hk) ?_
    have hk' : (1 : ℝ) ≤ k := by exact_mod_cast hk
    have a : u / (((k : ℝ) + 1) * (k + 1)) ≤ 1 / 4 := by
      rw [div_le_iff₀ (by positivity)]; nlinarith
    have b : 1 / (((k : ℝ) + 1) * (1 / 2)) ≤ 1 := by
      rw [div_le_one (by positivity)]; linarith
    calc _ ≤ (1 : ℝ) / 4 * (1 + 1) := by
          refine mul_le_mul a (by linarith) (by positivity) (by norm_num)
      _ = _ := by norm_num
  have hb : ∀ k, 0 ≤ bk u ct k := fun k => Finset.sum_nonneg fun j _ => hpos (j + 1) (by omega)
  have t := tail_half' _ T hT m (fun k hk => hpos k (by omega)) (fun k hk => hhalf k (by omega))
  rw [tk_range] at t
  have hsmall : tk u ct m ≤ 2 / 10 ^ 15 * bk u ct m := by
    rcases hs with hs | hs
    · subst hs
      have hg : ∀ k, tk u ct (k + 1) ≤ tk u ct 1 * (1 / 2) ^ k := by
        intro k
        induction k with
        | zero => simp
        | succ k ih => have := hhalf (k + 1) (by omega); rw [pow_succ]; linarith
      have h50 := hg 49
      have hle : tk u ct 1 ≤ bk u ct 50 := by
        have := Finset.single_le_sum (f := fun j => tk u ct (j + 1)) (fun j _ => hpos (j + 1) (by omega))
          (show (0 : ℕ) ∈ Finset.range 50 by simp)
        simpa [bk] using this
      have hp1 := hpos 1 le_rfl
      have hb50 := hb 50
      calc tk u ct 50 ≤ tk u ct 1 * (1 / 2) ^ 49 := h50
        _ ≤ tk u ct 1 * (2 / 10 ^ 15) := mul_le_mul_of_nonneg_left (by norm_num) hp1
        _ ≤ _ := by rw [mul_comm]; exact mul_le_mul_of_nonneg_left hle (by norm_num)
    · rw [abs_of_nonneg (hpos m (by omega)), abs_of_nonneg (hb m)] at hs
      have := hb m
      norm_num at hs ⊢
      linarith
  have hbm := hb m
  rw [abs_le]
  have hbT : bk u ct m ≤ T + 1 / 2 := by linarith [t.1]
  norm_num at hsmall ⊢
  constructor <;> linarith [t.1, t.2]

/-! ### Larger arguments -/

theorem log_nine_half : log (9 / 2) ≤ 1.504078 := by
  have h := Verif.Green.EulerGamma.log_upper 8 (by norm_num)
  have e : log ((9 : ℝ) / 2) = 2 * log 2 + log (1 + (8 : ℝ)⁻¹) := by
    rw [show (9 : ℝ) / 2 = 2 ^ 2 * (1 + 8⁻¹) by norm_num, log_mul (by norm_num) (by norm_num), log_pow]
    norm_num
  rw [e]
  have l := (abs_le.mp log_two).2
  norm_num at h l ⊢
  linarith

theorem harm4 : (harmonic 4 : ℝ) = 25 / 12 := by
  have : harmonic 4 = 25 / 12 := by decide +kernel
  rw [this]; norm_num

theorem harm7 : (harmonic 7 : ℝ) = 363 / 140 := by
  have : harmonic 7 = 363 / 140 := by decide +kernel
  rw [this]; norm_num

theorem tk_one (u ct : ℝ) : tk u ct 1 = u * (1 + ct) := by
  unfold tk; rw [rr_sq]; norm_num

theorem tk_two (u ct : ℝ) : tk u ct 2 = u ^ 2 / 4 * (3 / 2 + ct) := by
  unfold tk; rw [rr_sq, show harmonic 2 = 3 / 2 by decide +kernel]; norm_num [Nat.factorial]

theorem tk_three (u ct : ℝ) : tk u ct 3 = u ^ 3 / 36 * (11 / 6 + ct) := by
  unfold tk; rw [rr_sq, show harmonic 3 = 11 / 6 by decide +kernel]; norm_num [Nat.factorial]

theorem bk_one (u ct : ℝ) : bk u ct 1 = u * (1 + ct) := by
  unfold bk; rw [Finset.sum_range_one, Nat.zero_add, tk_one]

theorem bk_two (u ct : ℝ) : bk u ct 2 = u * (1 + ct) + u ^ 2 / 4 * (3 / 2 + ct) := by
  simp [bk, Finset.sum_range_succ, tk_one, tk_two]

theorem bk_three (u ct : ℝ) : bk u ct 3 = u * (1 + ct) + u ^ 2 / 4 * (3 / 2 + ct) + u ^ 3 / 36 * (11 / 6 + ct) := by
  rw [bk_succ, bk_two, tk_three]

/-- The loop does not stop at turns 2 and 3 when the terms are not too small. -/
theorem guards (u ct : ℝ) (hu : 0.85 ≤ u) (hl : -2.0815 ≤ ct) (hl2 : ct ≤ -(1 / 2))
    (g2 : 1 / 10 ^ 13 ≤ |3 / 2 + ct|) (g3 : 1 / 10 ^ 13 ≤ |11 / 6 + ct|) :
    1 / 10 ^ 15 * |bk u ct 2| ≤ |tk u ct 2| ∧ 1 / 10 ^ 15 * |bk u ct 3| ≤ |tk u ct 3| := by
  have hu0 : 0 < u := by linarith
  have b1 : |u * (1 + ct)| ≤ u * 1.0815 := by
    rw [abs_mul, abs_of_pos hu0]
    refine mul_le_mul_of_nonneg_left ?_ hu0.le
    rw [abs_le]; norm_num at *; constructor <;> linarith
  have b2 : |u ^ 2 / 4 * (3 / 2 + ct)| ≤ u ^ 2 / 4 * 1 := by
    rw [abs_mul, abs_of_pos (by positivity)]
    refine mul_le_mul_of_nonneg_left ?_ (by positivity)
    rw [abs_le]; norm_num at *; constructor <;> linarith
  have c2 : |u ^ 2 / 4 * (3 / 2 + ct)| = u ^ 2 / 4 * |3 / 2 + ct| := by rw [abs_mul, abs_of_pos (by positivity)]
  have c3 : |u ^ 3 / 36 * (11 / 6 + ct)| = u ^ 3 / 36 * |11 / 6 + ct| := by rw [abs_mul, abs_of_pos (by positivity)]
  rw [bk_two, bk_three, tk_two, tk_three]
  constructor
  · have := abs_add_le (u * (1 + ct)) (u ^ 2 / 4 * (3 / 2 + ct))
    have h : u ^ 2 / 4 * (1 / 10 ^ 13) ≤ u ^ 2 / 4 * |3 / 2 + ct| := mul_le_mul_of_nonneg_left g2 (by positivity)
    rw [c2] at *
    norm_num at *
    nlinarith
  · have := (abs_add_le (u * (1 + ct) + u ^ 2 / 4 * (3 / 2 + ct)) (u ^ 3 / 36 * (11 / 6 + ct))).trans
      (add_le_add (abs_add_le _ _) le_rfl)
    have h : u ^ 3 / 36 * (1 / 10 ^ 13) ≤ u ^ 3 / 36 * |11 / 6 + ct| := mul_le_mul_of_nonneg_left g3 (by positivity)
    rw [c3] at *
    have h3 : 0.85 * (0.85 * u) ≤ u ^ 3 := by nlinarith [mul_pos hu0 hu0]
    have h4 : 0.85 * u ^ 2 ≤ u ^ 3 := by nlinarith [mul_pos hu0 hu0]
    norm_num at *
    nlinarith

theorem stop_large (x : ℝ) (h9 : x ≤ 9) (h0 : 0 < x) (hc : 1 / 2 < log (x / 2) + el)
    (g2 : 1 / 10 ^ 13 ≤ |log (x / 2) + el - 3 / 2|) (g3 : 1 / 10 ^ 13 ≤ |log (x / 2) + el - 11 / 6|)
    (m : ℕ) (hm : 2 ≤ m) (hm50 : m ≤ 50)
    (hs : m = 50 ∨ |tk (x * x / 4) (-(log (x / 2) + el)) m| < 1 / 10 ^ 15 * |bk (x * x / 4) (-(log (x / 2) + el)) m|) :
    |bk (x * x / 4) (-(log (x / 2) + el)) m + -(log (x / 2) + el)
        - (besselK0 x + (eulerMascheroniConstant - el) * besselI 0 x)|
      ≤ 1.5 / 10 ^ 13 := by
  have hel1 : ((0.577 : ℚ) : ℝ) ≤ el := (Rat.cast_le (K := ℝ)).mpr (by decide +kernel)
  have hel2 : (el : ℝ) ≤ ((0.5773 : ℚ) : ℝ) := (Rat.cast_le (K := ℝ)).mpr (by decide +kernel)
  push_cast at hel1 hel2
  have hup : log (x / 2) ≤ 1.504078 := (log_le_log (by positivity) (by linarith)).trans log_nine_half
  have hx1 : 0.9227 ≤ x / 2 := by
    have h1 : -0.0773 ≤ log (x / 2) := by norm_num at *; linarith
    have h2 := add_one_le_exp (-0.0773 : ℝ)
    have h3 := exp_le_exp.mpr h1
    rw [exp_log (by positivity)] at h3
    norm_num at *
    linarith
  have hu : x * x / 4 ≤ 20.25 := by norm_num; nlinarith
  have hul : 0.85 ≤ x * x / 4 := by norm_num at *; nlinarith
  have hT := tk_sum x
  have hT2 : besselK0 x + (eulerMascheroniConstant - el) * besselI 0 x ≤ 2 := by
    have hK : besselK0 x ≤ 1 / 2 := by
      have h1 := product_half x h0
      have h2 := besselI1_ge x h0
      have h3 := besselK0_nonneg x h0
      have h4 : x / 2 * besselK0 x ≤ 1 / (2 * x) := (mul_le_mul_of_nonneg_right h2 h3).trans h1
      rw [le_div_iff₀ (by positivity)] at h4
      norm_num at hul
      nlinarith
    have hI : besselI 0 x ≤ 10 ^ 5 := by
      have h1 := besselI0_mono x 9 h0.le h9
      linarith [besselI0_nine]
    have hg := (abs_le.mp gamma_el).2
    have hI0 := besselI0_pos x h0
    have : (eulerMascheroniConstant - el) * besselI 0 x ≤ 1 / 10 ^ 16 * 10 ^ 5 := by
      calc _ ≤ 1 / 10 ^ 16 * besselI 0 x := mul_le_mul_of_nonneg_right hg (by linarith)
        _ ≤ _ := mul_le_mul_of_nonneg_left hI (by norm_num)
    norm_num at this ⊢
    linarith
  generalize besselK0 x + (eulerMascheroniConstant - el) * besselI 0 x = T at *
  have g2' : 1 / 10 ^ 13 ≤ |3 / 2 + -(log (x / 2) + (el : ℝ))| := by rw [abs_sub_comm] at g2; exact g2
  have g3' : 1 / 10 ^ 13 ≤ |11 / 6 + -(log (x / 2) + (el : ℝ))| := by rw [abs_sub_comm] at g3; exact g3
  have hctl : -2.0815 ≤ -(log (x / 2) + (el : ℝ)) := by norm_num at *; linarith
  have hctu : -(log (x / 2) + (el : ℝ)) ≤ -(1 / 2) := by linarith
  generalize -(log (x / 2) + (el : ℝ)) = ct at *
  generalize x * x / 4 = u at *
  have hu0 : 0 < u := by norm_num at hul; linarith
  obtain ⟨G2, G3⟩ := guards u ct hul hctl hctu g2' g3'
  have h4 : ∀ k, 4 ≤ k → 0.0018 ≤ (harmonic k : ℝ) + ct := fun k hk => by
    have := harmonic_mono 4 k hk
    rw [harm4] at this
    norm_num at *
    linarith
  have h7 : ∀ k, 7 ≤ k → 1 / 2 ≤ (harmonic k : ℝ) + ct := fun k hk => by
    have := harmonic_mono 7 k hk
    rw [harm7] at this
    norm_num at *
    linarith
  have hpos : ∀ k, 4 ≤ k → 0 ≤ tk u ct k := fun k hk =>
    mul_nonneg (rr_nonneg _ u hu0.le k) (by have := h4 k hk; norm_num at this; linarith)
  have hhalf : ∀ k, 7 ≤ k → tk u ct (k + 1) ≤ tk u ct k / 2 := by
    intro k hk
    refine tk_half u ct (1 / 2) k hu0.le (by norm_num) (h7 k hk) ?_
    have hk' : (7 : ℝ) ≤ k := by exact_mod_cast hk
    have a : u / (((k : ℝ) + 1) * (k + 1)) ≤ 0.32 := by
      rw [div_le_iff₀ (by positivity)]; norm_num at hu ⊢; nlinarith
    have b : 1 / (((k : ℝ) + 1) * (1 / 2)) ≤ 1 / 4 := by
      rw [div_le_div_iff₀ (by positivity) (by norm_num)]; linarith
    calc _ ≤ (0.32 : ℝ) * (1 + 1 / 4) := by
          refine mul_le_mul a (by linarith) (by positivity) (by norm_num)
      _ ≤ _ := by norm_num
  have hb3 : -140 ≤ bk u ct 3 := by
    rw [bk_three]
    have a1 : -(u * 1.0815) ≤ u * (1 + ct) := by
      rw [← mul_neg]; refine mul_le_mul_of_nonneg_left ?_ hu0.le; norm_num at *; linarith
    have a2 : -(u ^ 2 / 4 * 0.5815) ≤ u ^ 2 / 4 * (3 / 2 + ct) := by
      rw [← mul_neg]; refine mul_le_mul_of_nonneg_left ?_ (by positivity); norm_num at *; linarith
    have a3 : -(u ^ 3 / 36 * 0.2482) ≤ u ^ 3 / 36 * (11 / 6 + ct) := by
      rw [← mul_neg]; refine mul_le_mul_of_nonneg_left ?_ (by positivity); norm_num at *; linarith
    have q2 : u ^ 2 ≤ 20.25 ^ 2 := pow_le_pow_left₀ hu0.le hu 2
    have q3 : u ^ 3 ≤ 20.25 ^ 3 := pow_le_pow_left₀ hu0.le hu 3
    norm_num at *
    linarith
  have hbl : ∀ k, 3 ≤ k → -140 ≤ bk u ct k := by
    intro k hk
    induction k with
    | zero => omega
    | succ k ih =>
      rcases Nat.lt_or_ge k 3 with h | h
      · rw [show k + 1 = 3 by omega]; exact hb3
      · rw [bk_succ]
        have := ih h
        have := hpos (k + 1) (by omega)
        linarith
  have hmono : ∀ j k, 3 ≤ j → bk u ct j ≤ bk u ct (j + k) := by
    intro j k hj
    induction k with
    | zero => exact le_rfl
    | succ k ih =>
      rw [← Nat.add_assoc, bk_succ]
      have := hpos (j + k + 1) (by omega)
      linarith
  have hbu : ∀ k, 3 ≤ k → bk u ct k ≤ 5 := by
    intro k hk
    have t := (tail_half' _ T hT (k + 7) (fun j hj => hpos j (by omega)) (fun j hj => hhalf j (by omega))).1
    rw [tk_range] at t
    have := hmono k 7 hk
    norm_num at hctl
    linarith
  have hba : ∀ k, 3 ≤ k → |bk u ct k| ≤ 140 := fun k hk => abs_le.mpr ⟨hbl k hk, by linarith [hbu k hk]⟩
  have hge : ∀ k, 4 ≤ k → k ≤ 6 → 1 / 10 ^ 15 * |bk u ct k| ≤ |tk u ct k| := by
    intro k hk hk6
    have hb := hba k (by omega)
    rw [abs_of_nonneg (hpos k hk)]
    have h1 : (0.85 : ℝ) ^ k / (k ! : ℝ) ^ 2 ≤ rr (fun k => k * k) u k := by
      rw [rr_sq]
      gcongr
    have h2 := h4 k hk
    have h3 : (0.85 : ℝ) ^ k / (k ! : ℝ) ^ 2 * 0.0018 ≤ tk u ct k := by
      unfold tk
      exact mul_le_mul h1 h2 (by norm_num) (rr_nonneg _ u hu0.le k)
    refine le_trans ?_ h3
    have h5 : (1 : ℝ) / 10 ^ 15 * 140 ≤ (0.85 : ℝ) ^ k / (k ! : ℝ) ^ 2 * 0.0018 := by
      interval_cases k <;> norm_num [Nat.factorial]
    linarith
  have hm7 : 7 ≤ m := by
    by_contra hlt
    rcases hs with hs | hs
    · omega
    · rcases (by omega : m = 2 ∨ m = 3 ∨ (4 ≤ m ∧ m ≤ 6)) with h | h | h
      · subst h; linarith
      · subst h; linarith
      · have := hge m h.1 h.2; linarith
  have t := tail_half' _ T hT m (fun k hk => hpos k (by omega)) (fun k hk => hhalf k (by omega))
  rw [tk_range] at t
  have hsmall : tk u ct m ≤ 1.4 / 10 ^ 13 := by
    rcases hs with hs | hs
    · subst hs
      have h1 : rr (fun k => k * k) u 50 ≤ (20.25 : ℝ) ^ 50 / (50 ! : ℝ) ^ 2 := by
        rw [rr_sq]
        gcongr
      have h2 : (harmonic 50 : ℝ) + ct ≤ 50 := by
        have := (Rat.cast_le (K := ℝ)).mpr (harmonic_le 50)
        push_cast at this
        linarith
      have h3 : tk u ct 50 ≤ (20.25 : ℝ) ^ 50 / (50 ! : ℝ) ^ 2 * 50 := by
        unfold tk
        refine mul_le_mul h1 h2 ?_ (by positivity)
        linarith [h7 50 (by norm_num)]
      refine h3.trans ?_
      have : (20.25 : ℚ) ^ 50 / (50 ! : ℚ) ^ 2 * 50 ≤ 1.4 / 10 ^ 13 := by decide +kernel
      have := (Rat.cast_le (K := ℝ)).mpr this
      push_cast at this
      exact this
    · rw [abs_of_nonneg (hpos m (by omega))] at hs
      have := hba m (by omega)
      norm_num at hs ⊢
      linarith
  rw [abs_le]
  norm_num at hsmall ⊢
  constructor <;> linarith [t.1, t.2, hpos m (by omega)]

/-- The value of the function decreases. -/
theorem besselK0_anti (x y : ℝ) (hx : 0 < x) (hxy : x ≤ y) : besselK0 y ≤ besselK0 x := by
  have h : AntitoneOn besselK0 (Set.Ici x) := by
    refine antitoneOn_of_deriv_nonpos (convex_Ici x) ?_ ?_ ?_
    · intro t ht
      exact (besselK0_deriv t (lt_of_lt_of_le hx ht)).continuousAt.continuousWithinAt
    · intro t ht
      rw [interior_Ici] at ht
      exact (besselK0_deriv t (hx.trans ht)).differentiableAt.differentiableWithinAt
    · intro t ht
      rw [interior_Ici] at ht
      rw [(besselK0_deriv t (hx.trans ht)).deriv]
      linarith [besselK1_pos t (hx.trans ht)]
  exact h (Set.self_mem_Ici) hxy hxy

/-- The function up to 9. -/
theorem besselK0_ge (x : ℝ) (h0 : 0 < x) (h9 : x ≤ 9) : 4.5 / 10 ^ 5 ≤ besselK0 x := by
  have h1 := besselK0_anti x 9.1 h0 (by norm_num at *; linarith)
  have h2 := (abs_le.mp (product_close 9.1 (by norm_num))).2
  have h3 := (pL_bounds 9.1 (by norm_num)).1
  have h4 : besselI 0 9.1 ≤ 1203 := by
    have h := (besselI0_value 9.1 40 1000 1203 (by decide +kernel)).2
    norm_num at h ⊢
    exact h
  have h5 := besselI0_pos 9.1 (by norm_num)
  have h6 : (1 : ℝ) / (2 * 9.1 * 1203) ≤ ev pL (1 / 9.1) / (2 * 9.1 * besselI 0 9.1) := by
    gcongr
  norm_num at *
  linarith

/-- The loop from the first turn on. -/
theorem kNear_stop (ww x : ℝ)
    (hw : ¬ |(x / 2) ^ 2 * (1 - (log (x / 2) + el)) - ww| < 1 / 10 ^ 15 * |(x / 2) ^ 2 * (1 - (log (x / 2) + el))|) :
    ∃ m, 2 ≤ m ∧ m ≤ 50 ∧
      kNear ww x = bk (x * x / 4) (-(log (x / 2) + el)) m + -(log (x / 2) + el)
      ∧ (m = 50 ∨ |tk (x * x / 4) (-(log (x / 2) + el)) m| < 1 / 10 ^ 15 * |bk (x * x / 4) (-(log (x / 2) + el)) m|) := by
  classical
  have e1 : (x / 2) ^ 2 * (1 - (log (x / 2) + (el : ℝ))) = bk (x * x / 4) (-(log (x / 2) + el)) 1 := by
    rw [bk_one]; ring
  rw [e1] at hw
  have hs := kLoop_succ (x * x) (-(log (x / 2) + el)) 49 0 ww _ Iff.rfl
  have hno : ¬ (bk (x * x / 4) (-(log (x / 2) + el)) (0 + 1) ≠ 0 ∧
      |(bk (x * x / 4) (-(log (x / 2) + el)) (0 + 1) - ww) / bk (x * x / 4) (-(log (x / 2) + el)) (0 + 1)|
        < 1 / 10 ^ 15) := by
    rintro ⟨a, b⟩
    rw [abs_div, div_lt_iff₀ (abs_pos.mpr a)] at b
    exact hw b
  rw [if_neg hno] at hs
  obtain ⟨m, a, b, c, d⟩ := kLoop_stop (x * x) (-(log (x / 2) + el)) 49 1 (by norm_num)
  refine ⟨m, a, b, ?_, ?_⟩
  · unfold kNear
    have e : kLoop (x * x) (-(log (x / 2) + el)) 50 1 0 1 0 ww
        = kLoop (x * x) (-(log (x / 2) + el)) (49 + 1) (0 + 1) (harmonic 0) (rr (fun k => k * k) (x * x / 4) 0)
          (bk (x * x / 4) (-(log (x / 2) + el)) 0) ww := by
      simp [rr, bk]
    simp only
    rw [e, hs, ← c]
  · rcases d with d | d
    · left; omega
    · right; exact d

/-- The error of the loop. -/
theorem kNear_close (ww x : ℝ) (h0 : 0 < x) (h9 : x ≤ 9)
    (hw : ¬ |(x / 2) ^ 2 * (1 - (log (x / 2) + el)) - ww| < 1 / 10 ^ 15 * |(x / 2) ^ 2 * (1 - (log (x / 2) + el))|)
    (g2 : 1 / 10 ^ 13 ≤ |log (x / 2) + el - 3 / 2|) (g3 : 1 / 10 ^ 13 ≤ |log (x / 2) + el - 11 / 6|) :
    |kNear ww x - besselK0 x| ≤ 1 / 10 ^ 8 * besselK0 x := by
  obtain ⟨m, a, b, c, d⟩ := kNear_stop ww x hw
  have hK := besselK0_ge x h0 h9
  have hI : besselI 0 x ≤ 1094 := (besselI0_mono x 9 h0.le h9).trans besselI0_nine
  have hI0 := besselI0_pos x h0
  have hg : |(eulerMascheroniConstant - el) * besselI 0 x| ≤ 1.1 / 10 ^ 13 := by
    rw [abs_mul, abs_of_pos (by linarith : 0 < besselI 0 x)]
    calc _ ≤ 1 / 10 ^ 16 * 1094 := mul_le_mul gamma_el hI (by linarith) (by norm_num)
      _ ≤ _ := by norm_num
  have hg := abs_le.mp hg
  rw [c]
  rcases le_or_gt (log (x / 2) + (el : ℝ)) (1 / 2) with hc | hc
  · have h := abs_le.mp (stop_small x h0 hc m a b d)
    rw [abs_le]
    norm_num at *
    constructor <;> linarith [h.1, h.2, hg.1, hg.2]
  · have h := abs_le.mp (stop_large x h9 h0 hc g2 g3 m a b d)
    rw [abs_le]
    norm_num at *
    constructor <;> linarith [h.1, h.2, hg.1, hg.2]

end Verif.Green.FinK
