/-
The accuracy of the exponential integral `Ei` (`Verif.Green.ExpInt.eix`).
-/
import Verif.Green.ExpIntModel
import Verif.Green.ExpIntSpec
import Verif.Green.FinKNear

namespace Verif.Green.ExpInt

open Real Filter Verif.Green.Lwn Verif.Green.PolyBound Verif.Green.FinK
open scoped Nat Topology

/-- The terms of the loop. -/
noncomputable def uu (x : ℝ) (k : ℕ) : ℝ := x ^ k / ((k + 1) * (k + 1)!)

/-- The sums of the loop. -/
noncomputable def us (x : ℝ) (k : ℕ) : ℝ := ∑ j ∈ Finset.range (k + 1), uu x j

theorem uu_nonneg (x : ℝ) (hx : 0 ≤ x) (k : ℕ) : 0 ≤ uu x k := by unfold uu; positivity

theorem us_succ (x : ℝ) (k : ℕ) : us x (k + 1) = us x k + uu x (k + 1) := Finset.sum_range_succ _ _

theorem us_ge (x : ℝ) (hx : 0 ≤ x) (j k : ℕ) (h : j ≤ k) : uu x j ≤ us x k :=
  Finset.single_le_sum (f := uu x) (fun j _ => uu_nonneg x hx j) (by simp; omega)

theorem us_ge_one (x : ℝ) (hx : 0 ≤ x) (k : ℕ) : 1 ≤ us x k := by
  have := us_ge x hx 0 k (by omega)
  simpa [uu] using this

theorem uu_succ (x : ℝ) (k : ℕ) : uu x (k + 1) = uu x k * ((k + 1 : ℕ) : ℝ) * x / (((k + 1 : ℕ) : ℝ) + 1) ^ 2 := by
  unfold uu
  rw [Nat.factorial_succ (k + 1), pow_succ]
  push_cast
  have : ((k + 1)! : ℝ) ≠ 0 := by positivity
  have : (k : ℝ) + 1 ≠ 0 := by positivity
  have : (k : ℝ) + 1 + 1 ≠ 0 := by positivity
  field_simp

theorem uu_sum (x : ℝ) (hx : x ≠ 0) : HasSum (uu x) (ein x / x) := by
  have h := (ein_sum x).div_const x
  have e : (fun k : ℕ => x ^ (k + 1) / (((k : ℝ) + 1) * (k + 1)!) / x) = uu x := by
    funext k
    unfold uu
    rw [pow_succ]
    field_simp
  rw [e] at h
  exact h

/-- The terms are halved when the quotient is at most one half. -/
theorem uu_half (x : ℝ) (hx : 0 ≤ x) (k : ℕ) (h : 2 * x * (k + 1) ≤ ((k : ℝ) + 2) ^ 2) : uu x (k + 1) ≤ uu x k / 2 := by
  rw [uu_succ]
  push_cast
  have hu := uu_nonneg x hx k
  rw [div_le_div_iff₀ (by positivity) (by norm_num)]
  have e : uu x k * ((k : ℝ) + 1) * x * 2 = uu x k * (2 * x * (k + 1)) := by ring
  rw [e, show ((k : ℝ) + 1 + 1) = k + 2 by ring]
  exact mul_le_mul_of_nonneg_left h hu

theorem half_later (x : ℝ) (hx : 0 ≤ x) (k j : ℕ) (hj : k ≤ j) (h : 2 * x * (k + 1) ≤ ((k : ℝ) + 2) ^ 2) :
    2 * x * (j + 1) ≤ ((j : ℝ) + 2) ^ 2 := by
  have hj' : (k : ℝ) ≤ j := by exact_mod_cast hj
  have hk : (0 : ℝ) ≤ k := by positivity
  have h1 : 2 * x * (k + 1) * (j + 1) ≤ ((k : ℝ) + 2) ^ 2 * (j + 1) := mul_le_mul_of_nonneg_right h (by positivity)
  have h2 : ((k : ℝ) + 2) ^ 2 * (j + 1) ≤ ((j : ℝ) + 2) ^ 2 * (k + 1) := by
    nlinarith [mul_nonneg hk (sub_nonneg.mpr hj'), mul_nonneg (sub_nonneg.mpr hj') (by positivity : (0 : ℝ) ≤ k * j)]
  have h3 : 2 * x * (j + 1) * (k + 1) ≤ ((j : ℝ) + 2) ^ 2 * (k + 1) := by linarith
  exact le_of_mul_le_mul_right h3 (by positivity)

theorem eiLoop_close (x T : ℝ) (h0 : 0 ≤ x) (h40 : x ≤ 40) (hT : HasSum (uu x) T) (n k : ℕ) (hn : n + k = 100)
    (inv : us x k ≤ ((k : ℝ) + 1) * 2 ^ (k + 4 - ⌊x⌋₊) * uu x k ∨ 2 * x * (k + 1) ≤ ((k : ℝ) + 2) ^ 2) :
    eiLoop x n (k + 1) (uu x k) (us x k) ≤ T ∧ T - eiLoop x n (k + 1) (uu x k) (us x k) ≤ 2 / 10 ^ 15 * T := by
  have fin : ∀ k : ℕ, 2 * x * ((k : ℝ) + 1) ≤ ((k : ℝ) + 2) ^ 2 → uu x k ≤ 2 / 10 ^ 15 * us x k →
      us x k ≤ T ∧ T - us x k ≤ 2 / 10 ^ 15 * T := by
    intro k hk hr
    obtain ⟨a, b⟩ := tail_half' (uu x) T hT k (fun j _ => uu_nonneg x h0 j)
      (fun j hj => uu_half x h0 j (half_later x h0 k j hj hk))
    change us x k ≤ T at a
    change T ≤ us x k + uu x k at b
    refine ⟨a, ?_⟩
    have : 2 / 10 ^ 15 * us x k ≤ 2 / 10 ^ 15 * T := mul_le_mul_of_nonneg_left a (by norm_num)
    linarith
  induction n generalizing k with
  | zero =>
    simp only [eiLoop]
    have hk : k = 100 := by omega
    subst hk
    refine fin 100 (by push_cast; linarith) ?_
    have h1 := us_ge x h0 38 100 (by norm_num)
    have h2 : uu x 100 ≤ 2 / 10 ^ 15 * uu x 38 := by
      unfold uu
      have e : x ^ 100 = x ^ 38 * x ^ 62 := by rw [← pow_add]
      have h62 : x ^ 62 ≤ 40 ^ 62 := pow_le_pow_left₀ h0 h40 62
      have h38 : 0 ≤ x ^ 38 := by positivity
      have h3 : x ^ 100 ≤ x ^ 38 * 40 ^ 62 := by rw [e]; exact mul_le_mul_of_nonneg_left h62 h38
      generalize x ^ 100 = a at *
      generalize x ^ 38 = b at *
      have c : (40 : ℚ) ^ 62 / ((100 + 1) * (100 + 1)!) ≤ 2 / 10 ^ 15 * (1 / ((38 + 1) * (38 + 1)!)) := by decide +kernel
      have c := (Rat.cast_le (K := ℝ)).mpr c
      push_cast at c
      push_cast
      calc a / ((100 + 1) * ((100 + 1)! : ℝ)) ≤ b * 40 ^ 62 / ((100 + 1) * ((100 + 1)! : ℝ)) := by gcongr
        _ = b * (40 ^ 62 / ((100 + 1) * ((100 + 1)! : ℝ))) := by ring
        _ ≤ b * (2 / 10 ^ 15 * (1 / ((38 + 1) * ((38 + 1)! : ℝ)))) := mul_le_mul_of_nonneg_left c h38
        _ = _ := by ring
    have : 2 / 10 ^ 15 * uu x 38 ≤ 2 / 10 ^ 15 * us x 100 := mul_le_mul_of_nonneg_left h1 (by norm_num)
    linarith
  | succ n ih =>
    simp only [eiLoop]
    rw [← uu_succ, ← us_succ]
    have hfl : (⌊x⌋₊ : ℝ) ≤ x := Nat.floor_le h0
    have hfl2 : x < ⌊x⌋₊ + 1 := Nat.lt_floor_add_one x
    have inv' : us x (k + 1) ≤ (((k + 1 : ℕ) : ℝ) + 1) * 2 ^ (k + 1 + 4 - ⌊x⌋₊) * uu x (k + 1)
        ∨ 2 * x * (((k + 1 : ℕ) : ℝ) + 1) ≤ (((k + 1 : ℕ) : ℝ) + 2) ^ 2 := by
      by_cases hc : 2 * x * (k + 1) ≤ ((k : ℝ) + 2) ^ 2
      · right
        exact half_later x h0 k (k + 1) (by omega) hc
      · left
        have inv := inv.resolve_right hc
        have hu := uu_nonneg x h0 k
        have hk0 : (0 : ℝ) ≤ k := by positivity
        rw [us_succ]
        have hq : uu x (k + 1) * ((k : ℝ) + 2) ^ 2 = uu x k * (x * (k + 1)) := by
          rw [uu_succ]; push_cast; rw [show ((k : ℝ) + 1 + 1) = k + 2 by ring]; field_simp
        rcases Nat.lt_or_ge ⌊x⌋₊ (k + 5) with hlt | hge
        · have ee : k + 1 + 4 - ⌊x⌋₊ = (k + 4 - ⌊x⌋₊) + 1 := by omega
          rw [ee, pow_succ]
          have hr : uu x k ≤ 2 * uu x (k + 1) := by
            have : uu x k * ((k : ℝ) + 2) ^ 2 ≤ 2 * uu x (k + 1) * ((k : ℝ) + 2) ^ 2 := by
              rw [mul_assoc 2, hq]
              have := mul_le_mul_of_nonneg_left (not_le.mp hc).le hu
              linarith
            exact le_of_mul_le_mul_right this (by positivity)
          have hp : (1 : ℝ) ≤ 2 ^ (k + 4 - ⌊x⌋₊) := one_le_pow₀ (by norm_num)
          have hu' := uu_nonneg x h0 (k + 1)
          generalize (2 : ℝ) ^ (k + 4 - ⌊x⌋₊) = P at *
          have h1 : ((k : ℝ) + 1) * P * uu x k ≤ ((k : ℝ) + 1) * P * (2 * uu x (k + 1)) :=
            mul_le_mul_of_nonneg_left hr (by positivity)
          push_cast
          nlinarith
        · have ee : k + 1 + 4 - ⌊x⌋₊ = 0 := by omega
          have ee' : k + 4 - ⌊x⌋₊ = 0 := by omega
          rw [ee', pow_zero, mul_one] at inv
          rw [ee, pow_zero, mul_one]
          have hxk : (k : ℝ) + 5 ≤ x := by
            have : ((k + 5 : ℕ) : ℝ) ≤ ⌊x⌋₊ := by exact_mod_cast hge
            push_cast at this
            linarith
          have hr : uu x k ≤ uu x (k + 1) := by
            have : uu x k * ((k : ℝ) + 2) ^ 2 ≤ uu x (k + 1) * ((k : ℝ) + 2) ^ 2 := by
              rw [hq]
              refine mul_le_mul_of_nonneg_left ?_ hu
              nlinarith
            exact le_of_mul_le_mul_right this (by positivity)
          have : ((k : ℝ) + 1) * uu x k ≤ ((k : ℝ) + 1) * uu x (k + 1) := mul_le_mul_of_nonneg_left hr (by positivity)
          push_cast
          linarith
    split_ifs with hstop
    · have hs := us_ge_one x h0 (k + 1)
      have hr := uu_nonneg x h0 (k + 1)
      rw [abs_of_nonneg (by positivity), div_le_iff₀ (by linarith)] at hstop
      refine fin (k + 1) ?_ (by norm_num at hstop ⊢; linarith)
      by_contra hc
      have inv' := inv'.resolve_right hc
      have hc := not_le.mp hc
      push_cast at hc
      -- the turn is at most twice the argument
      have hk2 : (k : ℝ) + 4 < 2 * x := by
        have hk0 : (0 : ℝ) ≤ k := by positivity
        by_contra h
        have h := not_lt.mp h
        nlinarith
      have hk3 : k + 4 < 2 * (⌊x⌋₊ + 1) := by
        have : ((k + 4 : ℕ) : ℝ) < ((2 * (⌊x⌋₊ + 1) : ℕ) : ℝ) := by push_cast; linarith
        exact_mod_cast this
      have hX : ⌊x⌋₊ ≤ 40 := by
        have : (⌊x⌋₊ : ℝ) ≤ (40 : ℕ) := by push_cast; linarith
        exact_mod_cast this
      have hp : (2 : ℝ) ^ (k + 1 + 4 - ⌊x⌋₊) ≤ 2 ^ 42 := pow_le_pow_right₀ (by norm_num) (by omega)
      have hk4 : (((k + 1 : ℕ) : ℝ) + 1) ≤ 79 := by
        have : k + 2 ≤ 79 := by omega
        have : ((k + 2 : ℕ) : ℝ) ≤ (79 : ℕ) := by exact_mod_cast this
        push_cast at this ⊢
        linarith
      have : (((k + 1 : ℕ) : ℝ) + 1) * 2 ^ (k + 1 + 4 - ⌊x⌋₊) * uu x (k + 1) ≤ 79 * 2 ^ 42 * uu x (k + 1) := by
        refine mul_le_mul_of_nonneg_right ?_ hr
        exact mul_le_mul hk4 hp (by positivity) (by norm_num)
      have := inv'.trans this
      clear inv'
      generalize us x (k + 1) = a at *
      generalize uu x (k + 1) = b at *
      norm_num at this hstop
      linarith
    · exact ih (k + 1) (by omega) inv'

/-- Arguments up to 40. -/
theorem ei_near (x : ℝ) (h0 : 0 < x) (h1 : x ≤ 40) : |eix x - bigEi x| ≤ 2 / 10 ^ 15 * (1 + ein x) := by
  have h := eiLoop_close x (ein x / x) h0.le h1 (uu_sum x h0.ne') 100 0 (by norm_num) (by
    left
    simp only [us, Finset.sum_range_one, uu]
    have : (1 : ℝ) ≤ 2 ^ (0 + 4 - ⌊x⌋₊) := one_le_pow₀ (by norm_num)
    simpa using this)
  have e1 : uu x 0 = 1 := by simp [uu]
  have e2 : us x 0 = 1 := by simp [us, uu]
  rw [e1, e2] at h
  unfold eix bigEi
  rw [if_neg h0.ne', if_pos h1]
  simp only [Nat.zero_add] at h
  have hm1 := mul_le_mul_of_nonneg_left h.1 h0.le
  have hm2 := mul_le_mul_of_nonneg_left h.2 h0.le
  have ex : x * (ein x / x) = ein x := by field_simp
  have ex2 : x * (2 / 10 ^ 15 * (ein x / x)) = 2 / 10 ^ 15 * ein x := by field_simp
  rw [mul_sub, ex, ex2] at hm2
  rw [ex] at hm1
  have hg := abs_le.mp gamma_el
  have hd : ((ga : ℚ) : ℝ) = el - 1 / 10 ^ 16 := by
    have : ga = el - 1 / 10 ^ 16 := by decide +kernel
    rw [this]; push_cast; rfl
  have hp : 0 ≤ ein x := by
    unfold ein
    exact tsum_nonneg fun k => by positivity
  generalize x * eiLoop x 100 1 1 1 = L at *
  rw [hd, abs_le]
  norm_num at *
  constructor <;> linarith [hg.1, hg.2]

/-! ### Arguments above 40 -/

/-- The asymptotic sum with `n` terms after the first one. -/
noncomputable def asy (n : ℕ) (x : ℝ) : ℝ := ∑ k ∈ Finset.range (n + 1), (k ! : ℝ) / x ^ k

theorem asy_loop (x : ℝ) (n : ℕ) :
    (List.range n).foldl (fun (a : ℝ × ℝ) i =>
      let r := a.1 * ((i + 1 : ℕ) : ℝ) / x
      (r, a.2 + r)) (1, 1) = ((n ! : ℝ) / x ^ n, asy n x) := by
  induction n with
  | zero => simp [asy]
  | succ n ih =>
    rw [List.range_succ, List.foldl_append, ih]
    simp only [List.foldl_cons, List.foldl_nil]
    have e : (n ! : ℝ) / x ^ n * ((n + 1 : ℕ) : ℝ) / x = ((n + 1)! : ℝ) / x ^ (n + 1) := by
      rw [Nat.factorial_succ, pow_succ]
      push_cast
      rw [div_mul_eq_mul_div, div_div]
      ring_nf
    rw [e]
    unfold asy
    rw [Finset.sum_range_succ _ (n + 1)]

theorem asy_deriv (n : ℕ) (x : ℝ) (hx : 0 < x) :
    HasDerivAt (fun x => exp x / x * asy n x) (exp x / x - exp x * ((n + 1)! : ℝ) / x ^ (n + 2)) x := by
  induction n with
  | zero =>
    have h := (hasDerivAt_exp x).div (hasDerivAt_id x) hx.ne'
    have e : (fun x : ℝ => exp x / x * asy 0 x) = fun x => exp x / x := by
      funext x; simp [asy]
    rw [e]
    refine h.congr_deriv ?_
    simp only [id_eq, Nat.zero_add, Nat.factorial_one, Nat.cast_one, mul_one]
    field_simp
  | succ n ih =>
    have h1 : HasDerivAt (fun x : ℝ => exp x * ((n + 1)! : ℝ) / x ^ (n + 2))
        (exp x * ((n + 1)! : ℝ) / x ^ (n + 2) - exp x * ((n + 2)! : ℝ) / x ^ (n + 3)) x := by
      have h := ((hasDerivAt_exp x).mul_const ((n + 1)! : ℝ)).div (hasDerivAt_pow (n + 2) x) (pow_ne_zero _ hx.ne')
      refine h.congr_deriv ?_
      rw [Nat.factorial_succ (n + 1), show n + 2 - 1 = n + 1 from rfl]
      push_cast
      field_simp
      ring
    have e : (fun x : ℝ => exp x / x * asy (n + 1) x)
        = fun x => exp x / x * asy n x + exp x * ((n + 1)! : ℝ) / x ^ (n + 2) := by
      funext x
      unfold asy
      rw [Finset.sum_range_succ _ (n + 1), mul_add]
      congr 1
      by_cases hx0 : x = 0
      · simp [hx0]
      · rw [pow_succ x (n + 1)]
        field_simp
    rw [e]
    refine (ih.add h1).congr_deriv ?_
    ring

/-- Partial sums of the series of the exponential function and of `ein`, in rational numbers. -/
def sums (q : ℚ) : ℕ → ℚ × ℚ × ℚ
  | 0 => (1, 0, 0)
  | k + 1 =>
    let a := sums q k
    let t := a.1 * q / (k + 1)
    (t, a.2.1 + a.1, a.2.2 + t / (k + 1))

theorem sums_eq (q : ℚ) (k : ℕ) : ((sums q k).1 : ℝ) = (q : ℝ) ^ k / k ! ∧
    ((sums q k).2.1 : ℝ) = ∑ j ∈ Finset.range k, (q : ℝ) ^ j / j ! ∧
    ((sums q k).2.2 : ℝ) = ∑ j ∈ Finset.range k, (q : ℝ) ^ (j + 1) / (((j : ℝ) + 1) * (j + 1)!) := by
  induction k with
  | zero => simp [sums]
  | succ k ih =>
    obtain ⟨a, b, c⟩ := ih
    have h1 : ((sums q (k + 1)).1 : ℝ) = (q : ℝ) ^ (k + 1) / (k + 1)! := by
      simp only [sums]
      push_cast
      rw [a, Nat.factorial_succ, pow_succ]
      push_cast
      field_simp
    refine ⟨h1, ?_, ?_⟩
    · simp only [sums]
      push_cast
      rw [a, b, Finset.sum_range_succ]
    · rw [Finset.sum_range_succ, ← c]
      have e : ((sums q (k + 1)).2.2 : ℝ) = (sums q k).2.2 + (sums q (k + 1)).1 / ((k : ℝ) + 1) := by
        simp only [sums]; push_cast; rfl
      rw [e, h1, div_div, mul_comm ((k + 1)! : ℝ)]

theorem exp_forty : ((sums 40 201).2.1 : ℝ) ≤ exp 40 ∧ exp 40 ≤ ((sums 40 201).2.1 + (sums 40 200).1 : ℚ) := by
  have h := tail_half' _ _ (exp_sum 40) 200 (fun k _ => by positivity) (fun k hk => by
    rw [pow_succ, Nat.factorial_succ]
    push_cast
    have hk' : (200 : ℝ) ≤ k := by exact_mod_cast hk
    have hp : (0 : ℝ) < (k ! : ℝ) := by positivity
    rw [div_div, div_le_div_iff₀ (by positivity) (by positivity)]
    have : (0 : ℝ) < 40 ^ k := by positivity
    have h2 : (40 : ℝ) * 2 ≤ k + 1 := by linarith
    calc (40 : ℝ) ^ k * 40 * ((k ! : ℝ) * 2) = 40 ^ k * (k ! : ℝ) * (40 * 2) := by ring
      _ ≤ 40 ^ k * (k ! : ℝ) * (k + 1) := mul_le_mul_of_nonneg_left h2 (by positivity)
      _ = _ := by ring)
  have s1 := (sums_eq 40 201).2.1
  have s2 := (sums_eq 40 200).1
  push_cast at s1 s2
  constructor
  · rw [s1]; exact h.1
  · push_cast; rw [s1, s2]; exact h.2

theorem ein_forty : ((sums 40 201).2.2 : ℝ) ≤ ein 40 ∧ ein 40 ≤ ((sums 40 201).2.2 + 1 : ℚ) := by
  have h := tail_half' _ _ (ein_sum 40) 200 (fun k _ => by positivity) (fun k hk => by
    rw [pow_succ _ (k + 1), Nat.factorial_succ (k + 1)]
    push_cast
    have hk' : (200 : ℝ) ≤ k := by exact_mod_cast hk
    have hp : (0 : ℝ) < ((k + 1)! : ℝ) := by positivity
    rw [div_div, div_le_div_iff₀ (by positivity) (by positivity)]
    have h2 : (40 : ℝ) * 2 * (k + 1) ≤ (k + 1 + 1) * (k + 1 + 1) := by nlinarith
    have h3 : (0 : ℝ) < 40 ^ (k + 1) * (k + 1)! := by positivity
    calc (40 : ℝ) ^ (k + 1) * 40 * ((((k : ℝ) + 1) * (k + 1)!) * 2)
        = 40 ^ (k + 1) * (k + 1)! * (40 * 2 * (k + 1)) := by ring
      _ ≤ 40 ^ (k + 1) * (k + 1)! * ((k + 1 + 1) * (k + 1 + 1)) := mul_le_mul_of_nonneg_left h2 h3.le
      _ = _ := by ring)
  have s1 := (sums_eq 40 201).2.2
  push_cast at s1
  have hlast : (40 : ℝ) ^ (200 + 1) / (((200 : ℕ) : ℝ) + 1) / ((200 + 1)! : ℝ) ≤ 1 := by
    have : (40 : ℚ) ^ (200 + 1) / (((200 : ℕ) : ℚ) + 1) / ((200 + 1)! : ℚ) ≤ 1 := by decide +kernel
    have := (Rat.cast_le (K := ℝ)).mpr this
    push_cast at this
    push_cast
    exact this
  rw [div_div] at hlast
  constructor
  · rw [s1]; exact h.1
  · push_cast; rw [s1]; linarith [h.2]

/-- The asymptotic sum at 40. -/
theorem asy_forty : 0 ≤ bigEi 40 - exp 40 / 40 * asy 20 40
    ∧ bigEi 40 - exp 40 / 40 * asy 20 40 ≤ 3 * (exp 40 * (21 ! : ℝ) / 40 ^ 22) := by
  obtain ⟨e1, e2⟩ := exp_forty
  obtain ⟨i1, i2⟩ := ein_forty
  have hg1 := one_half_lt_eulerMascheroniConstant
  have hg2 := eulerMascheroniConstant_lt_two_thirds
  have hl1 : 0 ≤ log 40 := log_nonneg (by norm_num)
  have hl2 : log 40 ≤ 19 := by
    have h2 : log 40 = log 2 + log 20 := by
      rw [← log_mul (by norm_num) (by norm_num)]; norm_num
    have h3 := log_le_sub_one_of_pos (show (0 : ℝ) < 20 by norm_num)
    have h4 := log_le_sub_one_of_pos (show (0 : ℝ) < 2 by norm_num)
    have h5 : log 20 = log 4 + log 5 := by
      rw [← log_mul (by norm_num) (by norm_num)]; norm_num
    have h6 := log_le_sub_one_of_pos (show (0 : ℝ) < 4 by norm_num)
    have h7 := log_le_sub_one_of_pos (show (0 : ℝ) < 5 by norm_num)
    linarith
  have ha : asy 20 40 = ((∑ k ∈ Finset.range 21, (k ! : ℚ) / 40 ^ k : ℚ) : ℝ) := by
    unfold asy; push_cast; rfl
  unfold bigEi
  rw [ha]
  have hA : (0 : ℚ) ≤ ∑ k ∈ Finset.range 21, (k ! : ℚ) / 40 ^ k := by positivity
  have hA' : (0 : ℝ) ≤ ((∑ k ∈ Finset.range 21, (k ! : ℚ) / 40 ^ k : ℚ) : ℝ) := by exact_mod_cast hA
  constructor
  · have c : ((sums 40 201).2.1 + (sums 40 200).1) / 40 * (∑ k ∈ Finset.range 21, (k ! : ℚ) / 40 ^ k)
        ≤ (sums 40 201).2.2 + 1 / 2 := by decide +kernel
    have c := (Rat.cast_le (K := ℝ)).mpr c
    rw [Rat.cast_mul, Rat.cast_div, Rat.cast_add _ (1 / 2)] at c
    have c2 := mul_le_mul_of_nonneg_right (div_le_div_of_nonneg_right e2 (show (0 : ℝ) ≤ 40 by norm_num)) hA'
    push_cast at c c2 ⊢
    linarith
  · have c : (sums 40 201).2.2 + 1 + 20
        ≤ (sums 40 201).2.1 / 40 * (∑ k ∈ Finset.range 21, (k ! : ℚ) / 40 ^ k) + 3 * ((sums 40 201).2.1 * (21 ! : ℚ) / 40 ^ 22) := by
      decide +kernel
    have c := (Rat.cast_le (K := ℝ)).mpr c
    have c2 := mul_le_mul_of_nonneg_right (div_le_div_of_nonneg_right e1 (show (0 : ℝ) ≤ 40 by norm_num)) hA'
    have c3 : ((sums 40 201).2.1 : ℝ) * (21 ! : ℝ) / 40 ^ 22 ≤ exp 40 * (21 ! : ℝ) / 40 ^ 22 := by gcongr
    push_cast at c c2 i2 ⊢
    linarith

/-- Arguments above 40. -/
theorem ei_far (x : ℝ) (hx : 40 < x) : eix x ≤ bigEi x ∧ bigEi x - eix x ≤ 4 / 10 ^ 14 * (exp x / x) := by
  have h0 : 0 < x := by linarith
  have ee : eix x = exp x / x * asy 20 x := by
    unfold eix
    rw [if_neg h0.ne', if_neg (by linarith), asy_loop]
  rw [ee]
  have hd : ∀ t : ℝ, 0 < t → HasDerivAt (fun t => bigEi t - exp t / t * asy 20 t) (exp t * (21 ! : ℝ) / t ^ 22) t := by
    intro t ht
    have := (bigEi_deriv t ht).sub (asy_deriv 20 t ht)
    refine this.congr_deriv ?_
    ring
  obtain ⟨a, b⟩ := asy_forty
  have hmono : MonotoneOn (fun t => bigEi t - exp t / t * asy 20 t) (Set.Ici 40) := by
    refine monotoneOn_of_deriv_nonneg (convex_Ici 40) ?_ ?_ ?_
    · intro t ht
      have ht : (40 : ℝ) ≤ t := ht
      exact (hd t (by linarith)).continuousAt.continuousWithinAt
    · intro t ht
      rw [interior_Ici] at ht
      have ht : (40 : ℝ) < t := ht
      exact (hd t (by linarith)).differentiableAt.differentiableWithinAt
    · intro t ht
      rw [interior_Ici] at ht
      have ht : (40 : ℝ) < t := ht
      rw [(hd t (by linarith)).deriv]
      have : (0 : ℝ) < t := by linarith
      positivity
  have hlo := hmono Set.self_mem_Ici hx.le hx.le
  have hd2 : ∀ t : ℝ, 0 < t → HasDerivAt (fun t => (bigEi t - exp t / t * asy 20 t) - 3 * (exp t * (21 ! : ℝ) / t ^ 22))
      (exp t * (21 ! : ℝ) / t ^ 22 * (1 - 3 * (1 - 22 / t))) t := by
    intro t ht
    have h1 := ((hasDerivAt_exp t).mul_const ((21 ! : ℕ) : ℝ)).div (hasDerivAt_pow 22 t) (pow_ne_zero _ ht.ne')
    refine ((hd t ht).sub (h1.const_mul 3)).congr_deriv ?_
    generalize ((21 ! : ℕ) : ℝ) = F
    push_cast
    field_simp
  have hanti : AntitoneOn (fun t => (bigEi t - exp t / t * asy 20 t) - 3 * (exp t * (21 ! : ℝ) / t ^ 22)) (Set.Ici 40) := by
    refine antitoneOn_of_deriv_nonpos (convex_Ici 40) ?_ ?_ ?_
    · intro t ht
      have ht : (40 : ℝ) ≤ t := ht
      exact (hd2 t (by linarith)).continuousAt.continuousWithinAt
    · intro t ht
      rw [interior_Ici] at ht
      have ht : (40 : ℝ) < t := ht
      exact (hd2 t (by linarith)).differentiableAt.differentiableWithinAt
    · intro t ht
      rw [interior_Ici] at ht
      have ht : (40 : ℝ) < t := ht
      rw [(hd2 t (by linarith)).deriv]
      have h1 : (0 : ℝ) < t := by linarith
      have h2 : 22 / t ≤ 22 / 40 := div_le_div_of_nonneg_left (by norm_num) (by norm_num) ht.le
      refine mul_nonpos_of_nonneg_of_nonpos (by positivity) ?_
      norm_num at h2
      linarith
  have hup := hanti Set.self_mem_Ici hx.le hx.le
  simp only at hlo hup
  refine ⟨by linarith, ?_⟩
  have hb : 3 * (exp x * (21 ! : ℝ) / x ^ 22) ≤ 4 / 10 ^ 14 * (exp x / x) := by
    have e1 : exp x * (21 ! : ℝ) / x ^ 22 = exp x / x * ((21 ! : ℝ) / x ^ 21) := by
      rw [pow_succ]; field_simp
    have h21 : (21 ! : ℝ) / x ^ 21 ≤ (21 ! : ℝ) / 40 ^ 21 :=
      div_le_div_of_nonneg_left (by positivity) (by positivity) (pow_le_pow_left₀ (by norm_num) hx.le 21)
    have h3 : (21 ! : ℝ) / 40 ^ 21 ≤ 1.3 / 10 ^ 14 := by norm_num [Nat.factorial]
    have hp : 0 < exp x / x := by positivity
    rw [e1]
    have := mul_le_mul_of_nonneg_left (h21.trans h3) hp.le
    norm_num at this ⊢
    linarith
  linarith

end Verif.Green.ExpInt
