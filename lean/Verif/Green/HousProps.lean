import Verif.Green.HousModel
import Mathlib.Tactic.LinearCombination
import Mathlib.Tactic.FieldSimp
import Mathlib.Algebra.Order.BigOperators.Ring.Finset

/-!
# C115: the least squares solver of the Fortran code
-/

namespace Verif.Green.Hous

open Finset

/-! ## Specification -/

/-- The square of the norm of the residual of a linear system with `nl` lines and `n` unknowns, with its right hand side in the
next column. -/
noncomputable def residual (nl n : ℕ) (a : ℕ → ℕ → ℝ) (x : ℕ → ℝ) : ℝ :=
  ∑ i ∈ range nl, (∑ j ∈ range n, a i j * x j - a i n) ^ 2

/-- The columns are independent. -/
def Independent (nl n : ℕ) (a : ℕ → ℕ → ℝ) : Prop :=
  ∀ x : ℕ → ℝ, (∀ i < nl, ∑ j ∈ range n, a i j * x j = 0) → ∀ j < n, x j = 0

/-! ## Lemmas -/

/-- The scalar product of two columns. -/
noncomputable def gram (nl : ℕ) (a : ℕ → ℕ → ℝ) (i j : ℕ) : ℝ := ∑ r ∈ range nl, a r i * a r j

theorem sum_sq_gram (nl n : ℕ) (a : ℕ → ℕ → ℝ) (z : ℕ → ℝ) :
    ∑ r ∈ range nl, (∑ j ∈ range n, a r j * z j) ^ 2 = ∑ i ∈ range n, ∑ j ∈ range n, z i * z j * gram nl a i j := by
  have h : ∀ r, (∑ j ∈ range n, a r j * z j) ^ 2 = ∑ i ∈ range n, ∑ j ∈ range n, z i * z j * (a r i * a r j) := by
    intro r
    rw [sq, sum_mul_sum]
    refine sum_congr rfl fun i _ => sum_congr rfl fun j _ => ?_
    ring
  simp only [h, gram, mul_sum]
  rw [sum_comm]
  refine sum_congr rfl fun i _ => ?_
  rw [sum_comm]

theorem residual_eq (nl n : ℕ) (a : ℕ → ℕ → ℝ) (x : ℕ → ℝ) :
    residual nl n a x = ∑ r ∈ range nl, (∑ j ∈ range (n + 1), a r j * Function.update x n (-1) j) ^ 2 := by
  refine sum_congr rfl fun r _ => ?_
  have h : ∑ j ∈ range n, a r j * Function.update x n (-1) j = ∑ j ∈ range n, a r j * x j :=
    sum_congr rfl fun j hj => by rw [Function.update_of_ne (by have := mem_range.1 hj; omega)]
  rw [sum_range_succ, Function.update_self, h]
  ring

/-- The vector of the reflection. -/
noncomputable def reflector (nl k : ℕ) (a : ℕ → ℕ → ℝ) (r : ℕ) : ℝ :=
  if r < k then 0 else if r = k then a k k - pivot nl k a else a r k

theorem sum_from {nl k : ℕ} (hk : k < nl) (f : ℕ → ℝ) (h0 : ∀ r < k, f r = 0) :
    ∑ r ∈ range nl, f r = f k + ∑ r ∈ Ico (k + 1) nl, f r := by
  rw [range_eq_Ico, ← sum_Ico_consecutive f (Nat.zero_le k) hk.le, sum_eq_zero (fun r hr => h0 r (mem_Ico.1 hr).2), zero_add,
    sum_eq_sum_Ico_succ_bot hk]

theorem pivot_sq (nl k : ℕ) (a : ℕ → ℕ → ℝ) : pivot nl k a ^ 2 = ∑ i ∈ Ico k nl, a i k ^ 2 := by
  have h : columnNorm nl k a ^ 2 = ∑ i ∈ Ico k nl, a i k ^ 2 := Real.sq_sqrt (sum_nonneg fun _ _ => sq_nonneg _)
  unfold pivot
  split_ifs <;> rw [← h] <;> ring

theorem pivot_ne {nl k : ℕ} {a : ℕ → ℕ → ℝ} : pivot nl k a ≠ 0 ↔ ∃ i, k ≤ i ∧ i < nl ∧ a i k ≠ 0 := by
  rw [← pow_ne_zero_iff two_ne_zero, pivot_sq, Ne, sum_eq_zero_iff_of_nonneg fun _ _ => sq_nonneg _]
  push Not
  constructor
  · rintro ⟨i, hi, h⟩
    exact ⟨i, (mem_Ico.1 hi).1, (mem_Ico.1 hi).2, fun h' => h (by rw [h']; ring)⟩
  · rintro ⟨i, h1, h2, h3⟩
    exact ⟨i, mem_Ico.2 ⟨h1, h2⟩, pow_ne_zero 2 h3⟩

theorem eta_pos {nl k : ℕ} {a : ℕ → ℕ → ℝ} (h : pivot nl k a ≠ 0) : 0 < eta nl k a := by
  have h1 : pivot nl k a * a k k ≤ 0 := by
    have h0 : 0 ≤ columnNorm nl k a := Real.sqrt_nonneg _
    unfold pivot
    split_ifs with h2 h3
    · simp [h2]
    · nlinarith
    · push Not at h3
      nlinarith
  have h2 : 0 < pivot nl k a ^ 2 := by positivity
  unfold eta
  nlinarith

/-- The columns before `k` are zero under the diagonal. -/
def Tri (nl k : ℕ) (a : ℕ → ℕ → ℝ) : Prop := ∀ j < k, ∀ i, j < i → i < nl → a i j = 0

theorem houseStep_eq {nl ncc k : ℕ} {a : ℕ → ℕ → ℝ} (hk : k < nl) (ht : Tri nl k a) (hp : pivot nl k a ≠ 0) {r j : ℕ}
    (hr : r < nl) (hj : j ≤ ncc) :
    houseStep nl ncc a k r j = a r j - reflector nl k a r * (∑ i ∈ range nl, reflector nl k a i * a i j) / eta nl k a := by
  have he := (eta_pos hp).ne'
  have hw : ∑ i ∈ range nl, reflector nl k a i * a i j = product nl k a j := by
    rw [sum_from hk _ fun i hi => by simp [reflector, hi]]
    unfold product
    congr 1
    · simp [reflector]
    · refine sum_congr rfl fun i hi => ?_
      have := (mem_Ico.1 hi).1
      simp [reflector, show ¬ i < k by omega, show i ≠ k by omega]
  rw [hw]
  unfold houseStep
  rcases lt_trichotomy j k with h | h | h
  · rw [if_neg (by omega), if_neg (by omega)]
    have : product nl k a j = 0 := by
      unfold product
      rw [ht j h k h hk, sum_eq_zero]
      · ring
      · intro i hi
        have := mem_Ico.1 hi
        rw [ht j h i (by omega) (by omega), mul_zero]
    rw [this]
    ring
  · subst h
    rw [if_neg (by omega), if_pos rfl]
    have hprod : product nl j a j = eta nl j a := by
      have h1 := pivot_sq nl j a
      rw [sum_eq_sum_Ico_succ_bot hk] at h1
      unfold product eta
      rw [sum_congr rfl (g := fun i => a i j ^ 2) fun i _ => by ring]
      linear_combination -h1
    rw [hprod, mul_div_assoc, div_self he, mul_one]
    unfold reflector
    rcases lt_trichotomy r j with h' | h' | h'
    · simp [h', h'.ne, show ¬ j < r by omega]
    · subst h'
      simp
    · simp [show ¬ r < j by omega, h'.ne', h', hr]
  · rw [if_pos ⟨h, hj⟩]
    unfold reflector
    rcases lt_trichotomy r k with h' | h' | h'
    · simp [h', h'.ne, show ¬ k < r by omega]
    · subst h'
      simp only [if_true, lt_irrefl, if_false]
      have : eta nl r a = pivot nl r a * (pivot nl r a - a r r) := rfl
      have h2 : pivot nl r a - a r r ≠ 0 := fun h0 => he (by rw [this, h0, mul_zero])
      rw [this]
      field_simp
      ring
    · simp only [h'.ne', if_false, h', hr, and_self, if_true, show ¬ r < k by omega]

theorem houseStep_gram {nl ncc k : ℕ} {a : ℕ → ℕ → ℝ} (hk : k < nl) (ht : Tri nl k a) (hp : pivot nl k a ≠ 0) {i j : ℕ}
    (hi : i ≤ ncc) (hj : j ≤ ncc) : gram nl (houseStep nl ncc a k) i j = gram nl a i j := by
  have he := (eta_pos hp).ne'
  set v := reflector nl k a with hv
  set w : ℕ → ℝ := fun j => ∑ i ∈ range nl, v i * a i j with hw
  have hvv : ∑ r ∈ range nl, v r ^ 2 = 2 * eta nl k a := by
    rw [sum_from hk _ fun i hi => by simp [hv, reflector, hi]]
    have h1 := pivot_sq nl k a
    rw [sum_eq_sum_Ico_succ_bot hk] at h1
    rw [sum_congr rfl (g := fun i => a i k ^ 2) fun i hi => by
      have := (mem_Ico.1 hi).1
      simp [hv, reflector, show ¬ i < k by omega, show i ≠ k by omega]]
    simp only [hv, reflector, lt_irrefl, if_false, if_true, eta]
    linear_combination -h1
  unfold gram
  rw [sum_congr rfl (g := fun r => a r i * a r j - (v r * a r j) * (w i / eta nl k a) - (v r * a r i) * (w j / eta nl k a) +
    v r ^ 2 * (w i * w j / eta nl k a ^ 2)) fun r hr => by
      rw [houseStep_eq hk ht hp (mem_range.1 hr) hi, houseStep_eq hk ht hp (mem_range.1 hr) hj]
      simp only [← hv]
      show (a r i - v r * w i / eta nl k a) * (a r j - v r * w j / eta nl k a) = _
      ring]
  rw [sum_add_distrib, sum_sub_distrib, sum_sub_distrib, ← sum_mul, ← sum_mul, ← sum_mul, hvv]
  show _ - w j * (w i / eta nl k a) - w i * (w j / eta nl k a) + _ = _
  field_simp
  ring

theorem houseStep_tri {nl ncc k : ℕ} {a : ℕ → ℕ → ℝ} (ht : Tri nl k a) : Tri nl (k + 1) (houseStep nl ncc a k) := by
  intro j hj i h1 h2
  unfold houseStep
  rcases (by omega : j < k ∨ j = k) with h | rfl
  · rw [if_neg (by omega), if_neg (by omega)]
    exact ht j h i h1 h2
  · rw [if_neg (by omega), if_pos rfl, if_neg (by omega), if_pos ⟨h1, h2⟩]

theorem houseStep_diag {nl ncc k j : ℕ} {a : ℕ → ℕ → ℝ} (hj : j < k) : houseStep nl ncc a k j j = a j j := by
  unfold houseStep
  rw [if_neg (by omega), if_neg (by omega)]

theorem houseStep_pivot {nl ncc k : ℕ} {a : ℕ → ℕ → ℝ} : houseStep nl ncc a k k k = pivot nl k a := by
  unfold houseStep
  rw [if_neg (by omega), if_pos rfl, if_pos rfl]

/-- The end of the program solves triangular systems. -/
theorem backSub_spec {a : ℕ → ℕ → ℝ} {n : ℕ} {b : ℕ → ℝ} (hd : ∀ r < n, a r r ≠ 0) (m : ℕ) (c : ℕ → ℝ) (hm : m ≤ n)
    (h1 : ∀ r, m ≤ r → r < n → ∑ j ∈ Ico r n, a r j * c j = b r) (h2 : ∀ r < m, c r = b r) :
    ∀ r < n, ∑ j ∈ Ico r n, a r j * backSub a n m c j = b r := by
  induction m generalizing c with
  | zero => exact fun r hr => h1 r (Nat.zero_le r) hr
  | succ m ih =>
    rw [backSub]
    refine ih _ (by omega) ?_ ?_
    · intro r hr hrn
      rcases (by omega : r = m ∨ m + 1 ≤ r) with rfl | h
      · have h : ∀ v : ℝ, ∑ j ∈ Ico (r + 1) n, a r j * Function.update c r v j = ∑ j ∈ Ico (r + 1) n, a r j * c j :=
          fun v => sum_congr rfl fun j hj => by rw [Function.update_of_ne (by have := mem_Ico.1 hj; omega)]
        rw [sum_eq_sum_Ico_succ_bot hrn, Function.update_self, h, h2 r (by omega)]
        have := hd r hrn
        field_simp
        ring
      · rw [← h1 r h hrn]
        refine sum_congr rfl fun j hj => ?_
        rw [Function.update_of_ne (by have := mem_Ico.1 hj; omega)]
    · intro r hr
      rw [Function.update_of_ne (by omega), h2 r (by omega)]

theorem tri_sum {nl n : ℕ} {a : ℕ → ℕ → ℝ} (ht : Tri nl n a) {r : ℕ} (hr : r < nl) (x : ℕ → ℝ) :
    ∑ j ∈ range n, a r j * x j = ∑ j ∈ Ico r n, a r j * x j := by
  rcases le_or_gt r n with h | h
  · rw [range_eq_Ico, ← sum_Ico_consecutive _ (Nat.zero_le r) h, sum_eq_zero, zero_add]
    intro j hj
    have := mem_Ico.1 hj
    rw [ht j (by omega) r this.2 hr, zero_mul]
  · rw [Ico_eq_empty (by omega), sum_empty, sum_eq_zero]
    intro j hj
    have := mem_range.1 hj
    rw [ht j this r (by omega) hr, zero_mul]

/-- What holds after `k` steps. -/
structure Reduced (nl ncc k : ℕ) (a₀ a : ℕ → ℕ → ℝ) : Prop where
  gram : ∀ i ≤ ncc, ∀ j ≤ ncc, gram nl a i j = gram nl a₀ i j
  tri : Tri nl k a
  diag : ∀ j < k, a j j ≠ 0

theorem Reduced.pivot {nl ncc k : ℕ} {a₀ a : ℕ → ℕ → ℝ} (hr : Reduced nl ncc k a₀ a) (hk : k < ncc)
    (hi : Independent nl ncc a₀) : pivot nl k a ≠ 0 := by
  rw [pivot_ne]
  by_contra hcon
  push Not at hcon
  -- a combination of the columns that vanishes
  set y := backSub a k k (fun r => a r k) with hy
  have hys := backSub_spec (b := fun r => a r k) hr.diag k (fun r => a r k) le_rfl (fun r h1 h2 => absurd h1 (by omega))
    (fun _ _ => rfl)
  set z : ℕ → ℝ := fun j => if j < k then y j else if j = k then -1 else 0 with hz
  have hzero : ∀ r < nl, ∑ j ∈ range ncc, a r j * z j = 0 := by
    intro r hrn
    rw [range_eq_Ico, ← sum_Ico_consecutive _ (Nat.zero_le (k + 1)) hk, sum_eq_zero (s := Ico (k + 1) ncc) (fun j hj => by
      have := (mem_Ico.1 hj).1
      simp [hz, show ¬ j < k by omega, show j ≠ k by omega]), add_zero, ← range_eq_Ico, sum_range_succ,
      sum_congr rfl (g := fun j => a r j * y j) fun j hj => by simp [hz, mem_range.1 hj], tri_sum hr.tri hrn]
    have hzk : z k = -1 := by simp [hz]
    rw [hzk]
    rcases lt_or_ge r k with h | h
    · rw [hys r h]
      ring
    · rw [Ico_eq_empty (by omega), sum_empty, hcon r h hrn]
      ring
  have hq : ∑ r ∈ range nl, (∑ j ∈ range ncc, a₀ r j * z j) ^ 2 = 0 := by
    rw [sum_sq_gram, sum_congr rfl fun i hi => sum_congr rfl fun j hj => by
      rw [← hr.gram i (mem_range.1 hi).le j (mem_range.1 hj).le], ← sum_sq_gram]
    exact sum_eq_zero fun r h => by rw [hzero r (mem_range.1 h)]; ring
  have h0 : z k = 0 := hi z (fun i h => by
    have := (sum_eq_zero_iff_of_nonneg fun _ _ => sq_nonneg _).1 hq i (mem_range.2 h)
    exact pow_eq_zero_iff two_ne_zero |>.1 this) k hk
  simp [hz] at h0

theorem Reduced.step {nl ncc k : ℕ} {a₀ a : ℕ → ℕ → ℝ} (hr : Reduced nl ncc k a₀ a) (hk : k < ncc) (hn : ncc ≤ nl)
    (hp : Hous.pivot nl k a ≠ 0) : Reduced nl ncc (k + 1) a₀ (houseStep nl ncc a k) where
  gram i h1 j h2 := by rw [houseStep_gram (by omega) hr.tri hp h1 h2, hr.gram i h1 j h2]
  tri := houseStep_tri hr.tri
  diag j hj := by
    rcases (by omega : j < k ∨ j = k) with h | rfl
    · rw [houseStep_diag h]
      exact hr.diag j h
    · rw [houseStep_pivot]
      exact hp

theorem reduced {nl ncc : ℕ} {a : ℕ → ℕ → ℝ} (hn : ncc ≤ nl) (hi : Independent nl ncc a) (k : ℕ) (hk : k ≤ ncc) :
    Reduced nl ncc k a ((List.range k).foldl (houseStep nl ncc) a) := by
  induction k with
  | zero => exact ⟨fun _ _ _ _ => rfl, fun j hj => absurd hj (by omega), fun j hj => absurd hj (by omega)⟩
  | succ k ih =>
    rw [List.range_succ, List.foldl_append]
    have h := ih (by omega)
    exact h.step (by omega) hn (h.pivot (by omega) hi)

theorem Reduced.residual {nl ncc k : ℕ} {a₀ a : ℕ → ℕ → ℝ} (hr : Reduced nl ncc k a₀ a) (x : ℕ → ℝ) :
    residual nl ncc a x = Hous.residual nl ncc a₀ x := by
  rw [residual_eq, residual_eq, sum_sq_gram, sum_sq_gram]
  refine sum_congr rfl fun i hi => sum_congr rfl fun j hj => ?_
  rw [hr.gram i (by have := mem_range.1 hi; omega) j (by have := mem_range.1 hj; omega)]

/-! ## Theorems -/

/-- C115: the solver finds the least squares solution, and there is no other. -/
theorem housrs_least_squares {nl ncc : ℕ} {a : ℕ → ℕ → ℝ} (hn : ncc ≤ nl) (hi : Independent nl ncc a) :
    ∃ x, housrs a nl ncc = some x ∧ (∀ y, residual nl ncc a x ≤ residual nl ncc a y) ∧
      ∀ y, residual nl ncc a y = residual nl ncc a x → ∀ j < ncc, y j = x j := by
  have hr : Reduced nl ncc ncc a (triangle nl ncc a) := reduced hn hi ncc le_rfl
  set t := triangle nl ncc a with ht
  set x := backSub t ncc ncc fun i => t i ncc with hx
  have hxs := backSub_spec (b := fun i => t i ncc) hr.diag ncc (fun i => t i ncc) le_rfl (fun r h1 h2 => absurd h1 (by omega))
    (fun _ _ => rfl)
  have hsplit : ∀ y, residual nl ncc a y = ∑ r ∈ range ncc, (∑ j ∈ range ncc, t r j * y j - t r ncc) ^ 2 +
      ∑ r ∈ Ico ncc nl, t r ncc ^ 2 := by
    intro y
    rw [← hr.residual, residual, range_eq_Ico, ← sum_Ico_consecutive _ (Nat.zero_le ncc) hn, ← range_eq_Ico]
    congr 1
    refine sum_congr rfl fun r h => ?_
    have := mem_Ico.1 h
    rw [tri_sum hr.tri this.2, Ico_eq_empty (by omega), sum_empty]
    ring
  have hzero : ∑ r ∈ range ncc, (∑ j ∈ range ncc, t r j * x j - t r ncc) ^ 2 = 0 := by
    refine sum_eq_zero fun r h => ?_
    have := mem_range.1 h
    rw [tri_sum hr.tri (by omega), hxs r this]
    ring
  refine ⟨x, ?_, ?_, ?_⟩
  · rw [housrs, if_neg (by omega)]
  · intro y
    rw [hsplit x, hsplit y, hzero, zero_add]
    exact le_add_of_nonneg_left (sum_nonneg fun _ _ => sq_nonneg _)
  · intro y hy
    rw [hsplit x, hsplit y, hzero, zero_add] at hy
    have h0 : ∑ r ∈ range ncc, (∑ j ∈ range ncc, t r j * y j - t r ncc) ^ 2 = 0 := by linarith
    have hrow : ∀ w : ℕ → ℝ, ∑ r ∈ range ncc, (∑ j ∈ range ncc, t r j * w j - t r ncc) ^ 2 = 0 → ∀ r < ncc,
        ∑ j ∈ range ncc, t r j * w j = t r ncc := by
      intro w hw r h
      have := (sum_eq_zero_iff_of_nonneg fun _ _ => sq_nonneg _).1 hw r (mem_range.2 h)
      exact sub_eq_zero.1 (pow_eq_zero_iff two_ne_zero |>.1 this)
    have hdiff : ∀ r < nl, ∑ j ∈ range ncc, t r j * (y j - x j) = 0 := by
      intro r h
      rcases lt_or_ge r ncc with h' | h'
      · simp only [mul_sub, sum_sub_distrib, hrow y h0 r h', hrow x hzero r h', sub_self]
      · rw [tri_sum hr.tri h (fun j => y j - x j), Ico_eq_empty (by omega), sum_empty]
    have hq : ∑ r ∈ range nl, (∑ j ∈ range ncc, a r j * (y j - x j)) ^ 2 = 0 := by
      rw [sum_sq_gram nl ncc a (fun j => y j - x j), sum_congr rfl fun i hi => sum_congr rfl fun j hj => by
        rw [← hr.gram i (mem_range.1 hi).le j (mem_range.1 hj).le], ← sum_sq_gram]
      exact sum_eq_zero fun r h => by rw [hdiff r (mem_range.1 h)]; ring
    intro j hj
    exact sub_eq_zero.1 (hi (fun j => y j - x j) (fun i h => by
      have := (sum_eq_zero_iff_of_nonneg fun _ _ => sq_nonneg _).1 hq i (mem_range.2 h)
      exact pow_eq_zero_iff two_ne_zero |>.1 this) j hj)

/-- C115: a system that has a solution is solved. -/
theorem housrs_solves {nl ncc : ℕ} {a : ℕ → ℕ → ℝ} (hn : ncc ≤ nl) (hi : Independent nl ncc a) {s : ℕ → ℝ}
    (hs : ∀ i < nl, ∑ j ∈ range ncc, a i j * s j = a i ncc) : ∃ x, housrs a nl ncc = some x ∧ ∀ j < ncc, x j = s j := by
  obtain ⟨x, h1, h2, h3⟩ := housrs_least_squares hn hi
  refine ⟨x, h1, fun j hj => ?_⟩
  have h0 : residual nl ncc a s = 0 := sum_eq_zero fun i h => by rw [hs i (mem_range.1 h)]; ring
  have h4 : residual nl ncc a x = 0 := le_antisymm (h0 ▸ h2 s) (sum_nonneg fun _ _ => sq_nonneg _)
  exact (h3 s (by rw [h0, h4]) j hj).symm

/-- C115: the program stops when there are more unknowns than lines, and only then. -/
theorem housrs_stop_iff (a : ℕ → ℕ → ℝ) (nl ncc : ℕ) : housrs a nl ncc = none ↔ nl < ncc := by
  unfold housrs
  split_ifs with h <;> simp [h]

/-- C115: no division by zero happens exactly when the columns are independent. The check of the code is commented out. -/
theorem housrs_pivots_iff {nl ncc : ℕ} (a : ℕ → ℕ → ℝ) (hn : ncc ≤ nl) :
    (∀ k < ncc, pivot nl k ((List.range k).foldl (houseStep nl ncc) a) ≠ 0) ↔ Independent nl ncc a := by
  constructor
  · intro h
    have hred : ∀ k ≤ ncc, Reduced nl ncc k a ((List.range k).foldl (houseStep nl ncc) a) := by
      intro k
      induction k with
      | zero => exact fun _ => ⟨fun _ _ _ _ => rfl, fun j hj => absurd hj (by omega), fun j hj => absurd hj (by omega)⟩
      | succ k ih =>
        intro hk
        have h' := ih (by omega)
        rw [List.range_succ, List.foldl_append]
        exact h'.step (by omega) hn (h k (by omega))
    have hr := hred ncc le_rfl
    set t := (List.range ncc).foldl (houseStep nl ncc) a
    intro x hx
    have hq : ∑ r ∈ range nl, (∑ j ∈ range ncc, t r j * x j) ^ 2 = 0 := by
      rw [sum_sq_gram, sum_congr rfl fun i hi => sum_congr rfl fun j hj => by
        rw [hr.gram i (mem_range.1 hi).le j (mem_range.1 hj).le], ← sum_sq_gram]
      exact sum_eq_zero fun r h => by rw [hx r (mem_range.1 h)]; ring
    have hrow : ∀ r < ncc, ∑ j ∈ Ico r ncc, t r j * x j = 0 := by
      intro r h
      have := (sum_eq_zero_iff_of_nonneg fun _ _ => sq_nonneg _).1 hq r (mem_range.2 (by omega))
      rw [← tri_sum hr.tri (by omega)]
      exact pow_eq_zero_iff two_ne_zero |>.1 this
    have key : ∀ m j, j < ncc → ncc - j ≤ m → x j = 0 := by
      intro m
      induction m with
      | zero => intro j h1 h2; omega
      | succ m ih =>
        intro j h1 h2
        have h3 := hrow j h1
        rw [sum_eq_sum_Ico_succ_bot h1, sum_eq_zero (s := Ico (j + 1) ncc), add_zero] at h3
        · exact (mul_eq_zero.1 h3).resolve_left (hr.diag j h1)
        · intro i hi
          have := mem_Ico.1 hi
          rw [ih i this.2 (by omega), mul_zero]
    exact fun j hj => key ncc j hj (by omega)
  · intro hi k hk
    exact (reduced hn hi k hk.le).pivot hk hi

/-- Two lines and one unknown. -/
example : ∃ x, housrs (fun i j => if j = 0 then i + 1 else 5 * i) 2 1 = some x ∧ x 0 = 2 := by
  have hi : Independent 2 1 (fun i j => if j = 0 then (i : ℝ) + 1 else 5 * i) := by
    intro x hx j hj
    have := hx 0 (by norm_num)
    obtain rfl : j = 0 := by omega
    simpa using this
  obtain ⟨x, h1, h2, h3⟩ := housrs_least_squares (by norm_num) hi
  refine ⟨x, h1, ?_⟩
  have h4 := h2 (fun _ => 2)
  norm_num [residual, sum_range_succ] at h4
  have h5 : (x 0 - 2) ^ 2 ≤ 0 := by nlinarith
  have := pow_eq_zero_iff two_ne_zero |>.1 (le_antisymm h5 (sq_nonneg _))
  linarith

/-- C115: a square system with independent columns is solved. -/
theorem housrs_square {n : ℕ} {a : ℕ → ℕ → ℝ} (hi : Independent n n a) :
    ∃ x, housrs a n n = some x ∧ ∀ i < n, ∑ j ∈ range n, a i j * x j = a i n := by
  have hr : Reduced n n n a (triangle n n a) := reduced le_rfl hi n le_rfl
  set t := triangle n n a with ht
  have hxs := backSub_spec (b := fun i => t i n) hr.diag n (fun i => t i n) le_rfl (fun r h1 h2 => absurd h1 (by omega))
    (fun _ _ => rfl)
  refine ⟨backSub t n n fun i => t i n, by rw [housrs, if_neg (by omega)], fun i h => ?_⟩
  have hz : residual n n a (backSub t n n fun i => t i n) = 0 := by
    rw [← hr.residual]
    refine sum_eq_zero fun r h => ?_
    have := mem_range.1 h
    rw [tri_sum hr.tri this, hxs r this]
    ring
  have := (sum_eq_zero_iff_of_nonneg fun _ _ => sq_nonneg _).1 hz i (mem_range.2 h)
  exact sub_eq_zero.1 (pow_eq_zero_iff two_ne_zero |>.1 this)


end Verif.Green.Hous
