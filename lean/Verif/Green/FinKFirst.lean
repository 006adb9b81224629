/-
The loops of the modified functions of Bessel of the first kind (`Verif.Green.FinKModel.iLoop`) give the sum of the
series up to one part in 10 ^ 15.
-/
import Verif.Green.FinKModel
import Verif.Green.FinKDecay

namespace Verif.Green.FinK

open Real Verif.Green.Lwn Verif.Green.PolyBound Verif.Green.FinBessel
open scoped Nat

/-- The terms of a series of quotients `y / d k`. -/
noncomputable def rr (d : ℕ → ℕ) (y : ℝ) : ℕ → ℝ
  | 0 => 1
  | k + 1 => y / d (k + 1) * rr d y k

/-- The sum of the first terms. -/
noncomputable def ss (d : ℕ → ℕ) (y : ℝ) (k : ℕ) : ℝ := ∑ j ∈ Finset.range (k + 1), rr d y j

theorem rr_nonneg (d : ℕ → ℕ) (y : ℝ) (hy : 0 ≤ y) (k : ℕ) : 0 ≤ rr d y k := by
  induction k with
  | zero => simp [rr]
  | succ k ih => simp only [rr]; positivity

theorem ss_ge_one (d : ℕ → ℕ) (y : ℝ) (hy : 0 ≤ y) (k : ℕ) : 1 ≤ ss d y k := by
  unfold ss
  have h : rr d y 0 ≤ ∑ j ∈ Finset.range (k + 1), rr d y j :=
    Finset.single_le_sum (fun j _ => rr_nonneg d y hy j) (by simp)
  simpa [rr] using h

theorem ss_succ (d : ℕ → ℕ) (y : ℝ) (k : ℕ) : ss d y (k + 1) = ss d y k + rr d y (k + 1) := by
  unfold ss
  rw [Finset.sum_range_succ]

/-- The rest of the series when the quotients are at most one half. -/
theorem rest_le (d : ℕ → ℕ) (hd : Monotone d) (y T : ℝ) (hy : 0 ≤ y) (hT : HasSum (rr d y) T) (k : ℕ)
    (hp : 0 < d (k + 1)) (h : 2 * y ≤ d (k + 1)) : ss d y k ≤ T ∧ T - ss d y k ≤ rr d y k := by
  have hj : ∀ j, rr d y (j + (k + 1)) ≤ rr d y k * (1 / 2) * (1 / 2) ^ j := by
    intro j
    have step : ∀ m, k ≤ m → rr d y (m + 1) ≤ rr d y m / 2 := by
      intro m hm
      have h1 : d (k + 1) ≤ d (m + 1) := hd (by omega)
      have h1' : (d (k + 1) : ℝ) ≤ d (m + 1) := by exact_mod_cast h1
      have hp' : (0 : ℝ) < d (k + 1) := by exact_mod_cast hp
      have h2 : y / d (m + 1) ≤ 1 / 2 := by
        rw [div_le_iff₀ (by linarith)]; linarith
      have := mul_le_mul_of_nonneg_right h2 (rr_nonneg d y hy m)
      simp only [rr]
      linarith
    induction j with
    | zero => have := step k le_rfl; simp only [Nat.zero_add, pow_zero]; linarith
    | succ j ih =>
      have := step (j + (k + 1)) (by omega)
      rw [show j + 1 + (k + 1) = j + (k + 1) + 1 from by ring, pow_succ]
      linarith
  have hrest := (hasSum_nat_add_iff' (k + 1)).mpr hT
  have hg : HasSum (fun j : ℕ => rr d y k * (1 / 2) * (1 / 2) ^ j) (rr d y k) := by
    have := hasSum_geometric_two.mul_left (rr d y k * (1 / 2))
    rw [show rr d y k * (1 / 2) * 2 = rr d y k from by ring] at this
    exact this
  have h1 := hasSum_le hj hrest hg
  have h0 : 0 ≤ T - ∑ i ∈ Finset.range (k + 1), rr d y i :=
    hrest.nonneg fun j => rr_nonneg d y hy _
  unfold ss
  exact ⟨by linarith, h1⟩

theorem iLoop_close (d : ℕ → ℕ) (hd : Monotone d) (hsq : ∀ k, k * k ≤ d k) (x2 T : ℝ) (h0 : 0 ≤ x2)
    (h1 : x2 ≤ 324) (hT : HasSum (rr d (x2 / 4)) T) (hlast : rr d (x2 / 4) 50 ≤ 1 / 10 ^ 15) (n k : ℕ)
    (hn : n + k = 50)
    (inv : ss d (x2 / 4) k ≤ (2 ^ (k + 1) - 1) * rr d (x2 / 4) k ∨ 2 * (x2 / 4) ≤ d (k + 1)) :
    iLoop d x2 n (k + 1) (rr d (x2 / 4) k) (ss d (x2 / 4) k) ≤ T
      ∧ T - iLoop d x2 n (k + 1) (rr d (x2 / 4) k) (ss d (x2 / 4) k) ≤ 1 / 10 ^ 15 * T := by
  have hy : (0 : ℝ) ≤ x2 / 4 := by linarith
  have fin : ∀ k, 2 * (x2 / 4) ≤ d (k + 1) → rr d (x2 / 4) k ≤ 1 / 10 ^ 15 * ss d (x2 / 4) k →
      ss d (x2 / 4) k ≤ T ∧ T - ss d (x2 / 4) k ≤ 1 / 10 ^ 15 * T := by
    intro k hk hr
    have hp : 0 < d (k + 1) := lt_of_lt_of_le (by positivity) (hsq (k + 1))
    obtain ⟨a, b⟩ := rest_le d hd _ T hy hT k hp hk
    refine ⟨a, ?_⟩
    have : (0 : ℝ) ≤ 1 / 10 ^ 15 := by positivity
    nlinarith
  induction n generalizing k with
  | zero =>
    simp only [iLoop]
    have hk : k = 50 := by omega
    subst hk
    refine fin 50 ?_ ?_
    · have := hsq 51
      have : ((51 * 51 : ℕ) : ℝ) ≤ d 51 := by exact_mod_cast this
      push_cast at this
      linarith
    · have := ss_ge_one d _ hy 50
      linarith
  | succ n ih =>
    simp only [iLoop]
    have er : 0.25 * rr d (x2 / 4) k * x2 / d (k + 1) = rr d (x2 / 4) (k + 1) := by simp only [rr]; ring
    rw [er, ← ss_succ]
    have inv' : ss d (x2 / 4) (k + 1) ≤ (2 ^ (k + 2) - 1) * rr d (x2 / 4) (k + 1)
        ∨ 2 * (x2 / 4) ≤ d (k + 2) := by
      by_cases hc : 2 * (x2 / 4) ≤ d (k + 1)
      · right
        have h2 : d (k + 1) ≤ d (k + 2) := hd (by omega)
        have : (d (k + 1) : ℝ) ≤ d (k + 2) := by exact_mod_cast h2
        linarith
      · left
        have inv := inv.resolve_right hc
        have hp : 0 < d (k + 1) := lt_of_lt_of_le (by positivity) (hsq (k + 1))
        have hp' : (0 : ℝ) < d (k + 1) := by exact_mod_cast hp
        have h2 : 1 / 2 ≤ x2 / 4 / d (k + 1) := by
          rw [le_div_iff₀ hp']; linarith [not_le.mp hc]
        have hr := mul_le_mul_of_nonneg_right h2 (rr_nonneg d (x2 / 4) hy k)
        have e : rr d (x2 / 4) (k + 1) = x2 / 4 / d (k + 1) * rr d (x2 / 4) k := rfl
        rw [← e] at hr
        rw [ss_succ]
        have hp2 : (1 : ℝ) ≤ 2 ^ (k + 1) := one_le_pow₀ (by norm_num)
        have : (2 ^ (k + 1) - 1) * rr d (x2 / 4) k ≤ (2 ^ (k + 1) - 1) * (2 * rr d (x2 / 4) (k + 1)) :=
          mul_le_mul_of_nonneg_left (by linarith) (by linarith)
        have e2 : (2 : ℝ) ^ (k + 2) = 2 * 2 ^ (k + 1) := by ring
        rw [e2]
        linarith
    split_ifs with hstop
    · have hs := ss_ge_one d _ hy (k + 1)
      have hr := rr_nonneg d _ hy (k + 1)
      rw [abs_of_nonneg (by positivity), div_lt_iff₀ (by linarith)] at hstop
      refine fin (k + 1) ?_ hstop.le
      by_contra hc
      have inv' := inv'.resolve_right hc
      have h2 := hsq (k + 2)
      have h2' : (((k + 2) * (k + 2) : ℕ) : ℝ) ≤ d (k + 2) := by exact_mod_cast h2
      push_cast at h2'
      have hlt : ((k : ℝ) + 2) * (k + 2) < 162 := by
        have := not_le.mp hc
        linarith
      have hk : k + 2 ≤ 12 := by
        by_contra hk
        have : (13 : ℝ) ≤ (k : ℝ) + 2 := by exact_mod_cast (by omega : 13 ≤ k + 2)
        nlinarith
      have hp : (2 : ℝ) ^ (k + 2) ≤ 2 ^ 12 := pow_le_pow_right₀ (by norm_num) hk
      have : (2 ^ (k + 2) - 1) * rr d (x2 / 4) (k + 1) ≤ 2 ^ 12 * rr d (x2 / 4) (k + 1) :=
        mul_le_mul_of_nonneg_right (by linarith) hr
      norm_num at this hstop
      linarith
    · exact ih (k + 1) (by omega) inv'

theorem rr_sq (y : ℝ) (k : ℕ) : rr (fun k => k * k) y k = y ^ k / (k ! : ℝ) ^ 2 := by
  induction k with
  | zero => simp [rr]
  | succ k ih =>
    simp only [rr, ih, Nat.factorial_succ, pow_succ]
    push_cast
    have : (k ! : ℝ) ≠ 0 := by positivity
    field_simp

theorem rr_one (y : ℝ) (k : ℕ) : rr (fun k => k * (k + 1)) y k = y ^ k / ((k ! : ℝ) * (k + 1)!) := by
  induction k with
  | zero => simp [rr]
  | succ k ih =>
    simp only [rr, ih]
    rw [Nat.factorial_succ (k + 1), Nat.factorial_succ k, pow_succ]
    push_cast
    have : (k ! : ℝ) ≠ 0 := by positivity
    field_simp

theorem sum_sq (x : ℝ) : HasSum (rr (fun k => k * k) (x * x / 4)) (besselI 0 x) := by
  have e : rr (fun k => k * k) (x * x / 4) = term0 x := by
    funext k
    rw [rr_sq]
    unfold term0 cI0
    push_cast
    rw [div_pow, show x * x = x ^ 2 from by ring, ← pow_mul]
    field_simp
  rw [e]
  exact term0_sum x

theorem sum_one (x : ℝ) (hx : 0 < x) : HasSum (rr (fun k => k * (k + 1)) (x * x / 4)) (besselI 1 x / (0.5 * x)) := by
  have h := (series_summable _ cI1_small 1 x).hasSum.div_const (0.5 * x)
  rw [← besselI_one] at h
  have e : rr (fun k => k * (k + 1)) (x * x / 4) = fun k => (cI1 k : ℝ) * x ^ (2 * k + 1) / (0.5 * x) := by
    funext k
    rw [rr_one]
    unfold cI1
    push_cast
    rw [div_pow, show x * x = x ^ 2 from by ring, ← pow_mul, pow_succ]
    have h1 : (k ! : ℝ) ≠ 0 := by positivity
    have h2 : ((k + 1)! : ℝ) ≠ 0 := by positivity
    field_simp
    norm_num
  rw [e]
  exact h

theorem last_small (d : ℕ → ℕ) (hsq : ∀ k, k * k ≤ d k) (y : ℝ) (h0 : 0 ≤ y) (h1 : y ≤ 81) :
    rr d y 50 ≤ 1 / 10 ^ 15 := by
  have h : ∀ k, rr d y k ≤ rr (fun k => k * k) 81 k := by
    intro k
    induction k with
    | zero => simp [rr]
    | succ k ih =>
      simp only [rr]
      have h2 := hsq (k + 1)
      have h2' : (((k + 1) * (k + 1) : ℕ) : ℝ) ≤ d (k + 1) := by exact_mod_cast h2
      have h3 : (0 : ℝ) < (((k + 1) * (k + 1) : ℕ) : ℝ) := by positivity
      have h4 : y / d (k + 1) ≤ 81 / (((k + 1) * (k + 1) : ℕ) : ℝ) :=
        div_le_div₀ (by norm_num) h1 h3 h2'
      exact mul_le_mul h4 ih (rr_nonneg d y h0 k) (by positivity)
  refine (h 50).trans ?_
  rw [rr_sq]
  have : ((81 : ℚ) ^ 50 / (50 ! : ℚ) ^ 2) ≤ 1 / 10 ^ 15 := by decide +kernel
  have := (Rat.cast_le (K := ℝ)).mpr this
  push_cast at this
  exact this

/-- The functions of the first kind for arguments up to 18. -/
theorem first_near (x : ℝ) (h0 : 0 < x) (h1 : x ≤ 18) :
    (firstKind x).1 ≤ besselI 0 x ∧ besselI 0 x - (firstKind x).1 ≤ 1 / 10 ^ 15 * besselI 0 x
    ∧ (firstKind x).2 ≤ besselI 1 x ∧ besselI 1 x - (firstKind x).2 ≤ 1 / 10 ^ 15 * besselI 1 x := by
  unfold firstKind
  rw [if_pos h1]
  have hx2 : 0 ≤ x * x := by positivity
  have hx3 : x * x ≤ 324 := by nlinarith
  have a := iLoop_close (fun k => k * k) (fun a b h => Nat.mul_le_mul h h) (fun k => le_rfl) (x * x) _ hx2 hx3
    (sum_sq x) (last_small _ (fun k => le_rfl) _ (by positivity) (by linarith)) 50 0 rfl (by
      left; simp [ss, rr]; norm_num)
  have b := iLoop_close (fun k => k * (k + 1)) (fun a b h => Nat.mul_le_mul h (by omega))
    (fun k => Nat.mul_le_mul le_rfl (by omega)) (x * x) _ hx2 hx3
    (sum_one x h0) (last_small _ (fun k => Nat.mul_le_mul le_rfl (by omega)) _ (by positivity) (by linarith)) 50 0 rfl (by
      left; simp [ss, rr]; norm_num)
  simp only [ss, rr, Nat.zero_add, Finset.range_one, Finset.sum_singleton] at a b
  have hp : (0 : ℝ) < 0.5 * x := by positivity
  generalize iLoop (fun k => k * k) (x * x) 50 1 1 1 = u at *
  generalize iLoop (fun k => k * (k + 1)) (x * x) 50 1 1 1 = v at *
  have b1 := b.1
  have b2 := b.2
  rw [le_div_iff₀ hp] at b1
  have b3 : (besselI 1 x / (0.5 * x) - v) * (0.5 * x) ≤ 1 / 10 ^ 15 * (besselI 1 x / (0.5 * x)) * (0.5 * x) :=
    mul_le_mul_of_nonneg_right b2 hp.le
  have e : besselI 1 x / (0.5 * x) * (0.5 * x) = besselI 1 x := by field_simp
  refine ⟨a.1, a.2, by linarith, ?_⟩
  calc besselI 1 x - 0.5 * x * v = (besselI 1 x / (0.5 * x) - v) * (0.5 * x) := by rw [sub_mul, e]; ring
    _ ≤ _ := b3
    _ = _ := by rw [mul_assoc, e]

end Verif.Green.FinK
