import Verif.Tabulation.IntegLemmas

/-!
# Accuracy of the rule of Simpson on the integrands of the Green function
-/

namespace Verif.Tabulation.Integ

open Finset Real Verif.Blocks

theorem simpS_comb {M L : ℕ} (hL : L ≤ 2 * M) (a : ℕ → ℝ) (ha : ∀ m, m % 2 = 1 → a m = 0) :
    simpS π (2 * M + 1) (fun t => ∑ m ∈ range L, a m * cos t ^ m) =
      ∫ t in (-π / 2)..(π / 2), ∑ m ∈ range L, a m * cos t ^ m := by
  rw [simpS_sum, intervalIntegral.integral_finsetSum fun m _ => by apply Continuous.intervalIntegrable; fun_prop]
  refine sum_congr rfl fun m hm => ?_
  have hm' := mem_range.1 hm
  rw [simpS_mul, intervalIntegral.integral_const_mul]
  rcases Nat.mod_two_eq_zero_or_one m with h | h
  · obtain ⟨k, rfl⟩ : ∃ k, m = 2 * k := ⟨m / 2, by omega⟩
    rw [simpS_pow (by omega)]
  · rw [ha m h]
    simp

/-- A function near a combination of even powers is integrated well. -/
theorem simpS_near {M L : ℕ} (hM : 0 < M) (hL : L ≤ 2 * M) (a : ℕ → ℝ) (ha : ∀ m, m % 2 = 1 → a m = 0) {f : ℝ → ℝ} (hc : Continuous f)
    {ε : ℝ} (hf : ∀ t, |f t - ∑ m ∈ range L, a m * cos t ^ m| ≤ ε) :
    |simpS π (2 * M + 1) f - ∫ t in (-π / 2)..(π / 2), f t| ≤ 2 * π * ε := by
  have e := simpS_comb hL a ha
  set g : ℝ → ℝ := fun t => ∑ m ∈ range L, a m * cos t ^ m with hg
  have hgc : Continuous g := by rw [hg]; fun_prop
  have h1 : simpS π (2 * M + 1) f = simpS π (2 * M + 1) (fun t => f t - g t) + simpS π (2 * M + 1) g := by
    rw [← simpS_add]
    congr 1
    ext t
    ring
  have h2 : |simpS π (2 * M + 1) (fun t => f t - g t)| ≤ π * ε := simpS_le hM hf
  have h3 : ∫ t in (-π / 2)..(π / 2), f t = (∫ t in (-π / 2)..(π / 2), (f t - g t)) + ∫ t in (-π / 2)..(π / 2), g t := by
    rw [intervalIntegral.integral_sub (hc.intervalIntegrable _ _) (hgc.intervalIntegrable _ _)]
    ring
  have h4 : |∫ t in (-π / 2)..(π / 2), (f t - g t)| ≤ ε * π := by
    have h := intervalIntegral.norm_integral_le_of_norm_le_const (f := fun t => f t - g t) (a := -π / 2) (b := π / 2) (C := ε)
      (fun t _ => by rw [norm_eq_abs]; exact hf t)
    rw [norm_eq_abs] at h
    rwa [show π / 2 - -π / 2 = π by ring, abs_of_pos pi_pos] at h
  rw [h1, h3, e]
  rw [abs_le] at *
  constructor <;> linarith [h2.1, h2.2, h4.1, h4.2]

theorem I_pow_re_odd {m : ℕ} (h : m % 2 = 1) : (Complex.I ^ m).re = 0 := by
  obtain ⟨k, rfl⟩ : ∃ k, m = 2 * k + 1 := ⟨m / 2, by omega⟩
  rw [pow_succ, pow_mul, Complex.I_sq, show ((-1 : ℂ)) = ((-1 : ℝ) : ℂ) by simp, ← Complex.ofReal_pow, Complex.re_ofReal_mul,
    Complex.I_re, mul_zero]

theorem I_pow_im_even {m : ℕ} (h : m % 2 = 0) : (Complex.I ^ m).im = 0 := by
  obtain ⟨k, rfl⟩ : ∃ k, m = 2 * k := ⟨m / 2, by omega⟩
  rw [pow_mul, Complex.I_sq, show ((-1 : ℂ)) = ((-1 : ℝ) : ℂ) by simp, ← Complex.ofReal_pow]
  exact Complex.ofReal_im _

theorem exp_taylor (x r : ℝ) (hx : |x| ≤ r) (n : ℕ) (hr : 2 * r ≤ n + 1) :
    ‖Complex.exp (Complex.I * x) - ∑ m ∈ range n, (Complex.I * x) ^ m / m.factorial‖ ≤ 2 * (r ^ n / n.factorial) := by
  have hn : ‖Complex.I * (x : ℂ)‖ = |x| := by simp
  have h := Complex.exp_bound' (x := Complex.I * x) (n := n) (by
    rw [hn, div_le_iff₀ (by positivity)]
    push_cast
    linarith)
  rw [hn] at h
  refine h.trans ?_
  rw [mul_comm]
  gcongr

theorem term_eq (x : ℝ) (m : ℕ) : (Complex.I * x) ^ m / (m.factorial : ℂ) = ((x ^ m / m.factorial : ℝ) : ℂ) * Complex.I ^ m := by
  push_cast
  rw [mul_pow]
  ring

/-- The cosine of a cosine. -/
theorem simpS_cos_cos {M : ℕ} (hM : 0 < M) {r : ℝ} (hr : 0 ≤ r) (h : 2 * r ≤ 2 * M + 1) :
    |simpS π (2 * M + 1) (fun t => cos (r * cos t)) - ∫ t in (-π / 2)..(π / 2), cos (r * cos t)| ≤
      4 * π * (r ^ (2 * M) / (2 * M).factorial) := by
  have := simpS_near hM (le_refl (2 * M)) (fun m => r ^ m / m.factorial * (Complex.I ^ m).re)
    (fun m hm => by rw [I_pow_re_odd hm, mul_zero]) (f := fun t => cos (r * cos t)) (by fun_prop)
    (ε := 2 * (r ^ (2 * M) / (2 * M).factorial)) (fun t => ?_)
  · refine this.trans (le_of_eq (by ring))
  · have hx : |r * cos t| ≤ r := by
      rw [abs_mul, abs_of_nonneg hr]
      exact mul_le_of_le_one_right hr (abs_cos_le_one t)
    have h1 := exp_taylor (r * cos t) r hx (2 * M) (by push_cast; linarith)
    refine le_trans (le_of_eq ?_) ((Complex.abs_re_le_norm _).trans h1)
    congr 1
    rw [Complex.sub_re, Complex.re_sum, mul_comm Complex.I, Complex.exp_ofReal_mul_I_re]
    congr 1
    refine sum_congr rfl fun m _ => ?_
    rw [mul_comm _ Complex.I, term_eq, Complex.re_ofReal_mul]
    ring

/-- The sine of a cosine, times a cosine. -/
theorem simpS_cos_sin {M : ℕ} (hM : 0 < M) {r : ℝ} (hr : 0 ≤ r) (h : r ≤ M) :
    |simpS π (2 * M + 1) (fun t => cos t * sin (r * cos t)) - ∫ t in (-π / 2)..(π / 2), cos t * sin (r * cos t)| ≤
      4 * π * (r ^ (2 * M - 1) / (2 * M - 1).factorial) := by
  obtain ⟨L, hL⟩ : ∃ L, 2 * M = L + 1 := ⟨2 * M - 1, by omega⟩
  have hLe : 2 * M - 1 = L := by omega
  rw [hLe]
  have hLr : (L : ℝ) + 1 = 2 * M := by exact_mod_cast hL.symm
  have := simpS_near hM hL.ge (fun m => if m = 0 then 0 else r ^ (m - 1) / (m - 1).factorial * (Complex.I ^ (m - 1)).im)
    (fun m hm => by rw [if_neg (by omega), I_pow_im_even (by omega), mul_zero]) (f := fun t => cos t * sin (r * cos t)) (by fun_prop)
    (ε := 2 * (r ^ L / L.factorial)) (fun t => ?_)
  · refine this.trans (le_of_eq (by ring))
  · have hx : |r * cos t| ≤ r := by
      rw [abs_mul, abs_of_nonneg hr]
      exact mul_le_of_le_one_right hr (abs_cos_le_one t)
    have h1 := exp_taylor (r * cos t) r hx L (by linarith)
    have e : cos t * sin (r * cos t) - ∑ m ∈ range (L + 1),
          (if m = 0 then 0 else r ^ (m - 1) / (m - 1).factorial * (Complex.I ^ (m - 1)).im) * cos t ^ m =
        cos t * (Complex.exp (Complex.I * (r * cos t : ℝ)) - ∑ m ∈ range L, (Complex.I * (r * cos t : ℝ)) ^ m / m.factorial).im := by
      rw [sum_range_succ', Complex.sub_im, Complex.im_sum, mul_comm Complex.I, Complex.exp_ofReal_mul_I_im, mul_sub, mul_sum]
      simp only [Nat.succ_ne_zero, if_false, if_true, zero_mul, add_zero, Nat.add_sub_cancel]
      congr 1
      refine sum_congr rfl fun m _ => ?_
      rw [mul_comm _ Complex.I, term_eq, Complex.im_ofReal_mul]
      ring
    rw [e, abs_mul]
    calc _ ≤ 1 * _ := mul_le_mul_of_nonneg_right (abs_cos_le_one t) (abs_nonneg _)
      _ ≤ _ := by
        rw [one_mul]
        exact (Complex.abs_im_le_norm _).trans h1

/-- The effect of another value of `PI`. -/
theorem simpS_pi {p : ℝ} {M : ℕ} (hM : 0 < M) {f : ℝ → ℝ} {B C : ℝ} (hB : ∀ t, |f t| ≤ B) (hC : ∀ s t, |f s - f t| ≤ C * |s - t|) :
    |simpS p (2 * M + 1) f - simpS π (2 * M + 1) f| ≤ |p - π| * (B + π * C / 2) := by
  have hM' : (0 : ℝ) < M := by positivity
  have hC0 : 0 ≤ C := by
    have := hC 1 0
    simp at this
    exact (abs_nonneg _).trans this
  have hcast : (((2 * M + 1 : ℕ) : ℝ) - 1) = 2 * M := by push_cast; ring
  have hd : ∀ k, deltaTheta p (2 * M + 1) k = p / π * deltaTheta π (2 * M + 1) k := by
    intro k
    unfold deltaTheta
    have := pi_ne_zero
    split
    · field_simp
    · split <;> field_simp
  have hth : ∀ k ∈ range (2 * M + 1), |theta p (2 * M + 1) (k + 1) - theta π (2 * M + 1) (k + 1)| ≤ |p - π| / 2 := by
    intro k hk
    have hk' : (k : ℝ) ≤ 2 * M := by exact_mod_cast Nat.lt_succ_iff.1 (mem_range.1 hk)
    have e : theta p (2 * M + 1) (k + 1) - theta π (2 * M + 1) (k + 1) = (p - π) * ((k : ℝ) / (2 * M) - 1 / 2) := by
      unfold theta
      rw [hcast]
      push_cast
      ring
    rw [e, abs_mul]
    have h1 : 0 ≤ (k : ℝ) / (2 * M) := by positivity
    have h2 : (k : ℝ) / (2 * M) ≤ 1 := by rw [div_le_one (by positivity)]; exact hk'
    have h3 : |(k : ℝ) / (2 * M) - 1 / 2| ≤ 1 / 2 := by rw [abs_le]; constructor <;> linarith
    calc _ ≤ |p - π| * (1 / 2) := mul_le_mul_of_nonneg_left h3 (abs_nonneg _)
      _ = _ := by ring
  have hstep : ∀ k ∈ range (2 * M + 1), |deltaTheta p (2 * M + 1) (k + 1) * f (theta p (2 * M + 1) (k + 1)) -
      deltaTheta π (2 * M + 1) (k + 1) * f (theta π (2 * M + 1) (k + 1))| ≤
      deltaTheta π (2 * M + 1) (k + 1) * (|p - π| / π * B + C * (|p - π| / 2)) := by
    intro k hk
    have hpos := delta_nonneg pi_pos.le (n := 2 * M + 1) (by omega) (k + 1)
    rw [hd]
    have e : p / π * deltaTheta π (2 * M + 1) (k + 1) * f (theta p (2 * M + 1) (k + 1)) -
      deltaTheta π (2 * M + 1) (k + 1) * f (theta π (2 * M + 1) (k + 1)) = deltaTheta π (2 * M + 1) (k + 1) *
        ((p - π) / π * f (theta p (2 * M + 1) (k + 1)) + (f (theta p (2 * M + 1) (k + 1)) - f (theta π (2 * M + 1) (k + 1)))) := by
      have := pi_ne_zero
      field_simp
      ring
    rw [e, abs_mul, abs_of_nonneg hpos]
    refine mul_le_mul_of_nonneg_left ((abs_add_le _ _).trans (add_le_add ?_ ?_)) hpos
    · rw [abs_mul, abs_div, abs_of_pos pi_pos]
      exact mul_le_mul_of_nonneg_left (hB _) (by positivity)
    · exact (hC _ _).trans (mul_le_mul_of_nonneg_left (hth k hk) hC0)
  have e1 : simpS p (2 * M + 1) f - simpS π (2 * M + 1) f = ∑ k ∈ range (2 * M + 1),
      (deltaTheta p (2 * M + 1) (k + 1) * f (theta p (2 * M + 1) (k + 1)) -
      deltaTheta π (2 * M + 1) (k + 1) * f (theta π (2 * M + 1) (k + 1))) := by
    unfold simpS
    rw [sum_sub_distrib]
  rw [e1]
  refine (abs_sum_le_sum_abs _ _).trans ((sum_le_sum hstep).trans (le_of_eq ?_))
  rw [← sum_mul]
  have h1 := simpS_one hM
  unfold simpS at h1
  simp only [mul_one] at h1
  rw [h1]
  have := pi_ne_zero
  field_simp

/-- The sum of the kernel of Poisson at equidistant angles. -/
theorem sum_poisson {N : ℕ} (hN : 0 < N) {ρ : ℝ} (h0 : 0 ≤ ρ) (h1 : ρ < 1) :
    ∑ j ∈ range N, (1 - ρ ^ 2) / (1 + ρ ^ 2 - 2 * ρ * cos (2 * π * j / N)) = N * ((1 + ρ ^ N) / (1 - ρ ^ N)) := by
  have hN1 : ρ ^ N < 1 := pow_lt_one₀ h0 h1 hN.ne'
  have hNc : (1 - (ρ : ℂ) ^ N) ≠ 0 := by
    rw [← Complex.ofReal_pow, ← Complex.ofReal_one, ← Complex.ofReal_sub]
    exact_mod_cast (sub_pos.2 hN1).ne'
  have hW : ∀ j : ℕ, W N j = ⟨cos (2 * π * j / N), -sin (2 * π * j / N)⟩ := by
    intro j
    unfold W
    have : -(2 * (π : ℂ) * Complex.I * ((j : ℤ) : ℂ) / N) = ((-(2 * π * j / N) : ℝ) : ℂ) * Complex.I := by
      push_cast
      ring
    rw [this]
    apply Complex.ext
    · rw [Complex.exp_ofReal_mul_I_re, cos_neg]
    · rw [Complex.exp_ofReal_mul_I_im, sin_neg]
  have hWN : ∀ j : ℕ, W N j ^ N = 1 := by
    intro j
    rw [← W_mul_nat, W_eq_one_iff hN]
    exact Dvd.intro_left _ rfl
  have hne : ∀ j : ℕ, (1 - (ρ : ℂ) * W N j) ≠ 0 := by
    intro j h
    have : ((ρ : ℂ) * W N j) ^ N = 1 := by rw [← sub_eq_zero.1 h, one_pow]
    rw [mul_pow, hWN, mul_one] at this
    exact hNc (by rw [this, sub_self])
  have hinv : ∀ j : ℕ, 1 / (1 - (ρ : ℂ) * W N j) = (∑ m ∈ range N, (ρ : ℂ) ^ m * W N (m * j)) / (1 - (ρ : ℂ) ^ N) := by
    intro j
    have hg := geom_sum_mul_neg ((ρ : ℂ) * W N j) N
    rw [mul_pow, hWN, mul_one] at hg
    have hs : ∑ m ∈ range N, (ρ : ℂ) ^ m * W N (m * j) = ∑ m ∈ range N, ((ρ : ℂ) * W N j) ^ m := by
      refine sum_congr rfl fun m _ => ?_
      rw [mul_pow, mul_comm (m : ℤ), W_mul_nat]
    rw [hs, div_eq_div_iff (hne j) hNc, one_mul, hg]
  have hsum : ∑ j ∈ range N, 1 / (1 - (ρ : ℂ) * W N j) = N / (1 - (ρ : ℂ) ^ N) := by
    simp only [hinv]
    rw [← sum_div, sum_comm]
    congr 1
    simp only [← mul_sum]
    rw [sum_eq_single_of_mem 0 (mem_range.2 hN)]
    · simp [W_zero]
    · intro m hm hm0
      have := sum_W hN (m : ℤ)
      rw [if_neg] at this
      · rw [this, mul_zero]
      · intro hd
        have := Int.le_of_dvd (by omega) hd
        have := mem_range.1 hm
        omega
  have hre : ∀ j : ℕ, (1 - ρ ^ 2) / (1 + ρ ^ 2 - 2 * ρ * cos (2 * π * j / N)) = 2 * (1 / (1 - (ρ : ℂ) * W N j)).re - 1 := by
    intro j
    have hsq := sin_sq_add_cos_sq (2 * π * j / N)
    rw [hW]
    generalize cos (2 * π * j / N) = c at *
    generalize sin (2 * π * j / N) = s at *
    have hns : Complex.normSq (1 - (ρ : ℂ) * ⟨c, -s⟩) = 1 + ρ ^ 2 - 2 * ρ * c := by
      simp [Complex.normSq_apply]
      linear_combination ρ ^ 2 * hsq
    have hpos : 0 < 1 + ρ ^ 2 - 2 * ρ * c := by
      have hc : c ≤ 1 := by nlinarith
      nlinarith
    rw [one_div, Complex.inv_re, hns]
    have : (1 - (ρ : ℂ) * ⟨c, -s⟩).re = 1 - ρ * c := by simp
    rw [this, div_eq_iff hpos.ne', sub_mul, mul_assoc, div_mul_cancel₀ _ hpos.ne']
    ring
  simp only [hre]
  rw [sum_sub_distrib, ← mul_sum]
  have h := congrArg Complex.re hsum
  rw [Complex.re_sum] at h
  rw [h]
  have h2 : ((N : ℂ) / (1 - (ρ : ℂ) ^ N)) = ((N / (1 - ρ ^ N) : ℝ) : ℂ) := by push_cast; ring
  rw [h2, Complex.ofReal_re]
  have : 1 - ρ ^ N ≠ 0 := (sub_pos.2 hN1).ne'
  simp
  field_simp
  ring

/-- The rule of Simpson on the difference of the two variants. -/
theorem simpS_inverse {M : ℕ} (hM : 0 < M) {r z : ℝ} (hr : 0 < r) (hz : z < 0) :
    simpS π (2 * M + 1) (fun t => z / (z ^ 2 + r ^ 2 * cos t ^ 2)) =
      -(π / sqrt (r ^ 2 + z ^ 2)) *
        ((3 - 2 * (((sqrt (r ^ 2 + z ^ 2) + z) / r) ^ 2) ^ M + 3 * ((((sqrt (r ^ 2 + z ^ 2) + z) / r) ^ 2) ^ M) ^ 2) /
          (3 * (1 - ((((sqrt (r ^ 2 + z ^ 2) + z) / r) ^ 2) ^ M) ^ 2))) := by
  have hS2 : sqrt (r ^ 2 + z ^ 2) ^ 2 = r ^ 2 + z ^ 2 := sq_sqrt (by positivity)
  have hS0 : 0 < sqrt (r ^ 2 + z ^ 2) := sqrt_pos.2 (by positivity)
  set S := sqrt (r ^ 2 + z ^ 2) with hS
  have hSz : 0 < S + z := by
    by_contra hcon
    have : S ≤ -z := by linarith
    have : S ^ 2 ≤ (-z) ^ 2 := pow_le_pow_left₀ hS0.le this 2
    nlinarith [sq_pos_of_pos hr]
  have hSr : S + z < r := by
    by_contra hcon
    have : r - z ≤ S := by linarith
    have : (r - z) ^ 2 ≤ S ^ 2 := pow_le_pow_left₀ (by linarith) this 2
    nlinarith
  set ρ := ((S + z) / r) ^ 2 with hρ
  have hρ0 : 0 < ρ := by positivity
  have hρ1 : ρ < 1 := pow_lt_one₀ (by positivity) ((div_lt_one hr).2 hSr) two_ne_zero
  have hker : ∀ c : ℝ, c ≤ 1 → z / (z ^ 2 + r ^ 2 * ((1 - c) / 2)) = -(1 / S) * ((1 - ρ ^ 2) / (1 + ρ ^ 2 - 2 * ρ * c)) := by
    intro c hc
    have hz2 : 0 < z ^ 2 := by nlinarith
    have hd1 : 0 < z ^ 2 + r ^ 2 * ((1 - c) / 2) := by
      have : 0 ≤ r ^ 2 * ((1 - c) / 2) := mul_nonneg (sq_nonneg _) (by linarith)
      linarith
    have a1 : 1 + ρ ^ 2 - 2 * ρ * c = 4 * ρ / r ^ 2 * (z ^ 2 + r ^ 2 * ((1 - c) / 2)) := by
      have : (1 - ρ) ^ 2 = 4 * z ^ 2 * ρ / r ^ 2 := by
        rw [hρ]
        field_simp
        have e : r ^ 2 - (S + z) ^ 2 = -2 * z * (S + z) := by linear_combination -hS2
        rw [e]
        ring
      have e2 : 4 * ρ / r ^ 2 * (z ^ 2 + r ^ 2 * ((1 - c) / 2)) = 4 * z ^ 2 * ρ / r ^ 2 + 2 * ρ * (1 - c) := by
        field_simp
        ring
      rw [e2, ← this]
      ring
    have a2 : 1 - ρ ^ 2 = -4 * z * S * ρ / r ^ 2 := by
      have e : r ^ 2 - (S + z) ^ 2 = -2 * z * (S + z) := by linear_combination -hS2
      have e' : r ^ 2 + (S + z) ^ 2 = 2 * S * (S + z) := by linear_combination -hS2
      have : 1 - ρ ^ 2 = (r ^ 2 - (S + z) ^ 2) / r ^ 2 * ((r ^ 2 + (S + z) ^ 2) / r ^ 2) := by
        rw [hρ]
        field_simp
        ring
      rw [this, e, e', hρ]
      field_simp
      ring
    rw [a1, a2]
    field_simp
  have hsum : ∀ N : ℕ, 0 < N → ∑ k ∈ range N, z / (z ^ 2 + r ^ 2 * cos (node N k) ^ 2) = -(1 / S) * (N * ((1 + ρ ^ N) / (1 - ρ ^ N))) := by
    intro N hN
    rw [← sum_poisson hN hρ0.le hρ1, mul_sum]
    refine sum_congr rfl fun k _ => ?_
    rw [cos_sq_node, hker _ (cos_le_one _)]
  rw [simpS_split hM _ (by simp only [neg_div, cos_neg]), hsum _ (by omega), hsum _ hM, mul_comm 2 M, pow_mul]
  have hs1 : ρ ^ M < 1 := pow_lt_one₀ hρ0.le hρ1 hM.ne'
  have hs0 : 0 < ρ ^ M := by positivity
  have hM' : (M : ℝ) ≠ 0 := by positivity
  generalize ρ ^ M = s at *
  have n1 : 1 - s ≠ 0 := by linarith
  have n2 : 1 - s ^ 2 ≠ 0 := by nlinarith
  have n3 : 1 + s ≠ 0 := by linarith
  have e : (1 + s) / (1 - s) = (1 + s) ^ 2 / (1 - s ^ 2) := by
    rw [div_eq_div_iff n1 n2]
    ring
  rw [e]
  push_cast
  field_simp
  ring

end Verif.Tabulation.Integ
