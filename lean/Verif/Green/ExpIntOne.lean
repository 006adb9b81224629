/-
The accuracy of the exponential integral of order 1 (`Verif.Green.ExpInt.e1xa`).
-/
import Verif.Green.ExpIntModel
import Verif.Green.ExpIntSpec
import Verif.Green.FinKGamma

namespace Verif.Green.ExpInt

open Real Filter Verif.Green.Lwn Verif.Green.PolyBound Verif.Green.FinK
open scoped Nat Topology

/-- The first terms of the series at `-x`. -/
def einL : List ℚ :=
  [0, -1, 1 / 4, -1 / 18, 1 / 96, -1 / 600, 1 / 4320, -1 / 35280, 1 / 322560, -1 / 3265920, 1 / 36288000,
    -1 / 439084800, 1 / 5748019200]

theorem factorial_ge (k : ℕ) : 13 ! * 2 ^ k ≤ (k + 13)! := by
  induction k with
  | zero => simp
  | succ k ih =>
    rw [pow_succ, show k + 1 + 13 = (k + 13) + 1 from by ring, Nat.factorial_succ]
    calc 13 ! * (2 ^ k * 2) = 2 * (13 ! * 2 ^ k) := by ring
      _ ≤ (k + 13 + 1) * (k + 13)! := Nat.mul_le_mul (by omega) ih

theorem ein_near (x : ℝ) (h0 : 0 ≤ x) (h1 : x ≤ 1) : |ein (-x) - ev einL x| ≤ 1 / 10 ^ 9 := by
  have h := (hasSum_nat_add_iff' 12).mpr (ein_sum (-x))
  have e : ∑ k ∈ Finset.range 12, (-x) ^ (k + 1) / (((k : ℝ) + 1) * (k + 1)!) = ev einL x := by
    simp only [Finset.sum_range_succ, Finset.sum_range_zero, einL, ev, Nat.factorial]
    push_cast
    ring
  rw [e] at h
  have hg : HasSum (fun k : ℕ => 1 / (13 ! : ℝ) * (1 / 2) ^ k) (1 / (13 ! : ℝ) * 2) := hasSum_geometric_two.mul_left _
  have hb := tsum_of_norm_bounded hg (f := fun k : ℕ => (-x) ^ (k + 12 + 1) / ((((k + 12 : ℕ) : ℝ) + 1) * (k + 12 + 1)!))
    (fun k => by
      rw [norm_div, norm_pow, norm_neg, Real.norm_eq_abs, Real.norm_eq_abs, abs_of_nonneg h0, abs_of_pos (by positivity)]
      have f1 : (13 ! : ℝ) * 2 ^ k ≤ (k + 12 + 1)! := by exact_mod_cast factorial_ge k
      have f2 : x ^ (k + 12 + 1) ≤ 1 := pow_le_one₀ h0 h1
      have f3 : (1 : ℝ) ≤ ((k + 12 : ℕ) : ℝ) + 1 := by linarith [(Nat.cast_nonneg (k + 12) : (0 : ℝ) ≤ ((k + 12 : ℕ) : ℝ))]
      have f4 : (0 : ℝ) < 13 ! * 2 ^ k := by positivity
      calc _ ≤ 1 / ((((k + 12 : ℕ) : ℝ) + 1) * (k + 12 + 1)!) := by gcongr
        _ ≤ 1 / (13 ! * 2 ^ k) := by
          apply one_div_le_one_div_of_le f4
          nlinarith
        _ = _ := by rw [one_div_pow, one_div_mul_one_div])
  rw [h.tsum_eq, Real.norm_eq_abs] at hb
  refine hb.trans ?_
  norm_num [Nat.factorial]

/-- Arguments up to 1. -/
theorem e1_near (x : ℝ) (h0 : 0 < x) (h1 : x ≤ 1) : |e1xa x - expInt 1 x| ≤ 2.4 / 10 ^ 7 := by
  unfold e1xa
  rw [if_neg h0.ne', if_pos h1, expInt_one x h0, horner_ev]
  unfold seriesE1
  have a := abs_le.mp (ein_near x h0.le h1)
  have b := abs_le.mp gamma_el
  have c := abs_le.mp (abs_le_unit (padd e1Near (padd [el] einL)) [2.35 / 10 ^ 7] 8 (by decide +kernel) (by decide +kernel) x h0.le h1)
  rw [ev_padd, ev_padd] at c
  simp only [ev, mul_zero, add_zero] at c
  push_cast at c
  rw [abs_le]
  norm_num at *
  constructor <;> linarith [a.1, a.2, b.1, b.2, c.1, c.2]

/-! ### Arguments above 1 -/

/-- The approximation as a quotient of polynomials in `1 / x`. -/
noncomputable def ratE (x : ℝ) : ℝ := ev es1.reverse (1 / x) / ev es2.reverse (1 / x)

theorem ratE_eq (x : ℝ) (hx : 0 < x) : exp (-x) / x * horner es1 x / horner es2 x = exp (-x) / x * ratE x := by
  unfold ratE
  rw [mul_div_assoc]
  congr 1
  have h2 : horner es2 x ≠ 0 := by
    have : 0 < horner es2 x := by simp only [horner, es2]; push_cast; positivity
    exact this.ne'
  have h3 : ev es2.reverse (1 / x) ≠ 0 := by
    have : 0 < ev es2.reverse (1 / x) := by
      simp only [ev, es2, List.reverse_cons, List.reverse_nil, List.nil_append, List.cons_append]; push_cast; positivity
    exact this.ne'
  rw [div_eq_div_iff h2 h3]
  simp only [horner, ev, es1, es2, List.reverse_cons, List.reverse_nil, List.nil_append, List.cons_append]
  push_cast
  field_simp
  ring

theorem den_pos (x : ℝ) (hx : 0 < x) : 0 < ev es2.reverse (1 / x) := by
  simp only [ev, es2, List.reverse_cons, List.reverse_nil, List.nil_append, List.cons_append]; push_cast; positivity

/-- The rest of the differential equation, times the square of the denominator. -/
def restL (d : ℚ) : List ℚ :=
  psub (padd (pmul (pmul (padd es1.reverse (pscale d es2.reverse)) es2.reverse) [1, 1])
      (pshift 2 (psub (pmul (pder es1.reverse) es2.reverse) (pmul es1.reverse (pder es2.reverse)))))
    (pmul es2.reverse es2.reverse)

theorem shifted_deriv (d : ℚ) (x : ℝ) (hx : 0 < x) :
    HasDerivAt (fun x => exp (-x) / x * (ratE x + d))
      (-(exp (-x) / x) - exp (-x) / x * (ev (restL d) (1 / x) / ev es2.reverse (1 / x) ^ 2)) x := by
  have h1 := hasDerivAt_inverse es1.reverse x hx.ne'
  have h2 := hasDerivAt_inverse es2.reverse x hx.ne'
  have hd := den_pos x hx
  have h3 := (h1.div h2 hd.ne').add_const (d : ℝ)
  have he : HasDerivAt (fun x : ℝ => exp (-x)) (-exp (-x)) x := by
    have := (hasDerivAt_neg x).exp
    simpa using this
  have h4 := (he.div (hasDerivAt_id x) hx.ne').mul h3
  refine h4.congr_deriv ?_
  simp only [restL, ev_psub, ev_padd, ev_pmul, ev_pscale, ev_pshift, id]
  have e11 : ev [1, 1] (1 / x) = 1 + 1 / x := by simp [ev]
  rw [e11]
  simp only [Pi.div_apply, id_eq]
  generalize ev es1.reverse (1 / x) = N at *
  generalize ev es2.reverse (1 / x) = D at *
  generalize ev (pder es1.reverse) (1 / x) = N' at *
  generalize ev (pder es2.reverse) (1 / x) = D' at *
  have := hd.ne'
  field_simp
  ring

theorem shifted_tendsto (d : ℚ) : Tendsto (fun x : ℝ => exp (-x) / x * (ratE x + d)) atTop (𝓝 0) := by
  have hi : Tendsto (fun x : ℝ => 1 / x) atTop (𝓝 0) := by
    simpa [one_div] using tendsto_inv_atTop_zero (𝕜 := ℝ)
  have h1 : Tendsto (fun x : ℝ => ev es1.reverse (1 / x)) atTop (𝓝 (ev es1.reverse 0)) :=
    (hasDerivAt_ev es1.reverse 0).continuousAt.tendsto.comp hi
  have h2 : Tendsto (fun x : ℝ => ev es2.reverse (1 / x)) atTop (𝓝 (ev es2.reverse 0)) :=
    (hasDerivAt_ev es2.reverse 0).continuousAt.tendsto.comp hi
  have h3 : ev es2.reverse 0 ≠ 0 := by
    simp [ev, es2]
  have he := tendsto_exp_neg_atTop_nhds_zero.mul hi
  have := he.mul ((h1.div h2 h3).add_const (d : ℝ))
  simp only [zero_mul] at this
  refine this.congr fun x => ?_
  unfold ratE
  simp only [Pi.div_apply]
  ring

/-- Arguments above 1. -/
theorem e1_far (x : ℝ) (hx : 1 < x) : |e1xa x - expInt 1 x| ≤ 2.6 / 10 ^ 7 * (exp (-x) / x) := by
  have h0 : 0 < x := by linarith
  have hs : ∀ t : ℝ, 1 < t → 0 ≤ 1 / t ∧ 1 / t ≤ 1 := fun t ht =>
    ⟨by positivity, by rw [div_le_one (by linarith)]; exact ht.le⟩
  have up : 0 ≤ exp (-x) / x * (ratE x + ((2.6 / 10 ^ 7 : ℚ) : ℝ)) - expInt 1 x := by
    refine nonneg_of_decreasing (fun t => exp (-t) / t * (ratE t + ((2.6 / 10 ^ 7 : ℚ) : ℝ)) - expInt 1 t) _ 1
      (fun t ht => (shifted_deriv (2.6 / 10 ^ 7) t (by linarith)).sub (expInt_one_deriv t (by linarith))) ?_ ?_ x hx
    · intro t ht
      have ht0 : 0 < t := by linarith
      have hn := nonneg_unit (restL (2.6 / 10 ^ 7)) 10 (by decide +kernel) (1 / t) (hs t ht).1 (hs t ht).2
      have hd := den_pos t ht0
      have : 0 ≤ exp (-t) / t * (ev (restL (2.6 / 10 ^ 7)) (1 / t) / ev es2.reverse (1 / t) ^ 2) := by positivity
      linarith
    · have := (shifted_tendsto (2.6 / 10 ^ 7)).sub expInt_one_tendsto
      rw [sub_zero] at this
      exact this
  have lo : 0 ≤ expInt 1 x - exp (-x) / x * (ratE x + ((-(2.6 / 10 ^ 7) : ℚ) : ℝ)) := by
    refine nonneg_of_decreasing (fun t => expInt 1 t - exp (-t) / t * (ratE t + ((-(2.6 / 10 ^ 7) : ℚ) : ℝ))) _ 1
      (fun t ht => (expInt_one_deriv t (by linarith)).sub (shifted_deriv (-(2.6 / 10 ^ 7)) t (by linarith))) ?_ ?_ x hx
    · intro t ht
      have ht0 : 0 < t := by linarith
      have hn := nonneg_unit (pscale (-1) (restL (-(2.6 / 10 ^ 7)))) 10 (by decide +kernel) (1 / t) (hs t ht).1 (hs t ht).2
      rw [ev_pscale] at hn
      push_cast at hn
      have hd := den_pos t ht0
      have : 0 ≤ exp (-t) / t * (-ev (restL (-(2.6 / 10 ^ 7))) (1 / t) / ev es2.reverse (1 / t) ^ 2) := by
        have : 0 ≤ -ev (restL (-(2.6 / 10 ^ 7))) (1 / t) := by linarith
        positivity
      rw [neg_div, mul_neg] at this
      linarith
    · have := expInt_one_tendsto.sub (shifted_tendsto (-(2.6 / 10 ^ 7)))
      rw [sub_zero] at this
      exact this
  unfold e1xa
  rw [if_neg h0.ne', if_neg (by linarith), ratE_eq x h0]
  push_cast at up lo
  rw [abs_le]
  constructor <;> linarith

end Verif.Green.ExpInt
