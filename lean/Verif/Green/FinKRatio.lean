/-
The quotient of the modified functions of Bessel of the first kind of order 1 and 0 for arguments above 9, from its
equation of Riccati.  Nothing here depends on the model, except that the coefficients come from it.
-/
import Verif.Green.FinKFirst
import Verif.Green.LwnFar
import Mathlib.Analysis.Calculus.MeanValue

namespace Verif.Green.FinK

open Real Filter Topology Verif.Green.Lwn Verif.Green.PolyBound Verif.Green.FinBessel
open scoped Nat

/-! ### Numbers -/

/-- A term of the series and the sum of the terms so far, at a rational number. -/
def stepq (d : ℕ → ℕ) (y : ℚ) : ℕ → ℚ × ℚ
  | 0 => (1, 1)
  | k + 1 =>
    let p := stepq d y k
    let r := y / d (k + 1) * p.1
    (r, p.2 + r)

theorem stepq_cast (d : ℕ → ℕ) (y : ℚ) (k : ℕ) :
    ((stepq d y k).1 : ℝ) = rr d y k ∧ ((stepq d y k).2 : ℝ) = ss d y k := by
  induction k with
  | zero => simp [stepq, rr, ss]
  | succ k ih =>
    have h1 : ((stepq d y (k + 1)).1 : ℝ) = rr d y (k + 1) := by
      simp only [stepq, rr]
      push_cast
      rw [ih.1]
    refine ⟨h1, ?_⟩
    rw [ss_succ, ← h1, ← ih.2]
    simp only [stepq]
    push_cast
    ring

theorem mono_sq : Monotone fun k : ℕ => k * k := fun _ _ h => Nat.mul_le_mul h h

theorem mono_one : Monotone fun k : ℕ => k * (k + 1) := fun _ _ h => Nat.mul_le_mul h (by omega)

theorem besselI0_value (q : ℚ) (k : ℕ) (lo up : ℚ)
    (t : decide (2 * (q * q / 4) ≤ ((k + 1) * (k + 1) : ℕ) ∧ lo ≤ (stepq (fun k => k * k) (q * q / 4) k).2
      ∧ (stepq (fun k => k * k) (q * q / 4) k).2 + (stepq (fun k => k * k) (q * q / 4) k).1 ≤ up) = true) :
    (lo : ℝ) ≤ besselI 0 q ∧ besselI 0 q ≤ up := by
  have t := of_decide_eq_true t
  obtain ⟨t1, t2, t3⟩ := t
  have c := stepq_cast (fun k => k * k) (q * q / 4) k
  have t1 := (Rat.cast_le (K := ℝ)).mpr t1
  have t2 := (Rat.cast_le (K := ℝ)).mpr t2
  have t3 := (Rat.cast_le (K := ℝ)).mpr t3
  push_cast at t1 t2 t3 c
  have h := rest_le (fun k => k * k) mono_sq ((q : ℝ) * q / 4) _
    (by have := mul_self_nonneg (q : ℝ); linarith) (sum_sq q) k (by positivity)
    (by push_cast; linarith)
  rw [c.2] at t2 t3
  rw [c.1] at t3
  exact ⟨by linarith, by linarith⟩

theorem besselI1_value (q : ℚ) (hq : 0 < q) (k : ℕ) (lo up : ℚ)
    (t : decide (2 * (q * q / 4) ≤ ((k + 1) * (k + 1 + 1) : ℕ)
      ∧ lo ≤ q / 2 * (stepq (fun k => k * (k + 1)) (q * q / 4) k).2
      ∧ q / 2 * ((stepq (fun k => k * (k + 1)) (q * q / 4) k).2 + (stepq (fun k => k * (k + 1)) (q * q / 4) k).1) ≤ up)
      = true) :
    (lo : ℝ) ≤ besselI 1 q ∧ besselI 1 q ≤ up := by
  have t := of_decide_eq_true t
  obtain ⟨t1, t2, t3⟩ := t
  have c := stepq_cast (fun k => k * (k + 1)) (q * q / 4) k
  have t1 := (Rat.cast_le (K := ℝ)).mpr t1
  have t2 := (Rat.cast_le (K := ℝ)).mpr t2
  have t3 := (Rat.cast_le (K := ℝ)).mpr t3
  push_cast at t1 t2 t3 c
  have hq' : (0 : ℝ) < q := by exact_mod_cast hq
  have h := rest_le (fun k => k * (k + 1)) mono_one ((q : ℝ) * q / 4) _ (by positivity) (sum_one q hq') k
    (by positivity) (by push_cast; linarith)
  rw [c.2] at t2 t3
  rw [c.1] at t3
  obtain ⟨h1, h2⟩ := h
  generalize ss (fun k => k * (k + 1)) ((q : ℝ) * q / 4) k = u at *
  generalize rr (fun k => k * (k + 1)) ((q : ℝ) * q / 4) k = v at *
  rw [le_div_iff₀ (by positivity)] at h1
  have h3 : besselI 1 q / (0.5 * q) ≤ u + v := by linarith
  rw [div_le_iff₀ (by positivity)] at h3
  constructor <;> nlinarith

/-! ### The quotient -/

/-- The quotient of the functions of the first kind. -/
noncomputable def rat (x : ℝ) : ℝ := besselI 1 x / besselI 0 x

theorem rat_deriv (x : ℝ) (hx : 0 < x) : HasDerivAt rat (1 - rat x / x - rat x ^ 2) x := by
  have hI := besselI0_pos x hx
  have h := (besselI_one_deriv x hx).div (besselI_zero_deriv x) (by linarith)
  refine h.congr_deriv ?_
  have : besselI 0 x ≠ 0 := by linarith
  unfold rat
  field_simp

/-- The polynomial of the coefficients `A1` in `1 / x`. -/
def pL : List ℚ := 1 :: a1Far.flatMap fun a => [0, a]

/-- The numerator of the approximation of the quotient. -/
def nL : List ℚ := padd [1] (padd (pscale (-1 / 2) (pshift 2 (pder pL))) (pscale (-1 / 2) (pshift 1 pL)))

/-- The rest of the equation of Riccati, times the square of the denominator. -/
def rhoL : List ℚ :=
  padd (pscale (-1) (pshift 2 (psub (pmul (pder nL) pL) (pmul nL (pder pL)))))
    (padd (pscale (-1) (pmul pL pL)) (padd (pshift 1 (pmul nL pL)) (pmul nL nL)))

/-- The approximation of the quotient. -/
noncomputable def sat (x : ℝ) : ℝ := ev nL (1 / x) / ev pL (1 / x)

theorem hasDerivAt_inverse (l : List ℚ) (x : ℝ) (hx : x ≠ 0) :
    HasDerivAt (fun x => ev l (1 / x)) (-((1 / x) ^ 2 * ev (pder l) (1 / x))) x := by
  have h1 : HasDerivAt (fun x : ℝ => 1 / x) (-(1 / x) ^ 2) x := by
    have h := (hasDerivAt_const x (1 : ℝ)).div (hasDerivAt_id x) hx
    refine h.congr_deriv ?_
    simp only [id]
    field_simp
    norm_num
  refine ((hasDerivAt_ev l (1 / x)).comp x h1).congr_deriv ?_
  ring

/-- Test of a lower bound of a polynomial between 0 and `1 / 9`. -/
theorem lower9 (l : List ℚ) (a : ℚ) (n : ℕ) (t : nonneg (psub l [a]) n (1 / 18) (1 / 18) = true) (x : ℝ) (hx : 9 ≤ x) :
    (a : ℝ) ≤ ev l (1 / x) := by
  have h1 : 1 / x ≤ 1 / 9 := one_div_le_one_div_of_le (by norm_num) hx
  have h0 : 0 ≤ 1 / x := by positivity
  have := nonneg_on _ n _ _ (by norm_num) t (1 / x) (by push_cast; linarith) (by push_cast; linarith)
  rw [ev_psub] at this
  simp [ev] at this
  simpa using this

theorem upper9 (l : List ℚ) (a : ℚ) (n : ℕ) (t : nonneg (psub [a] l) n (1 / 18) (1 / 18) = true) (x : ℝ) (hx : 9 ≤ x) :
    ev l (1 / x) ≤ a := by
  have h1 : 1 / x ≤ 1 / 9 := one_div_le_one_div_of_le (by norm_num) hx
  have h0 : 0 ≤ 1 / x := by positivity
  have := nonneg_on _ n _ _ (by norm_num) t (1 / x) (by push_cast; linarith) (by push_cast; linarith)
  rw [ev_psub] at this
  simp [ev] at this
  simpa using this

theorem pL_bounds (x : ℝ) (hx : 9 ≤ x) : 1 ≤ ev pL (1 / x) ∧ ev pL (1 / x) ≤ 1.002 := by
  have h1 : 1 ≤ ev pL (1 / x) := by
    have e : pL = 1 :: 0 :: pL.drop 2 := by decide +kernel
    have h := lower9 (pL.drop 2) 0 6 (by decide +kernel) x hx
    rw [e]
    simp only [ev]
    push_cast at h ⊢
    have hy : 0 ≤ 1 / x := by positivity
    have : 0 ≤ 1 / x * (0 + 1 / x * ev (pL.drop 2) (1 / x)) := by
      rw [zero_add]
      exact mul_nonneg hy (mul_nonneg hy h)
    linarith
  have h2 := upper9 pL 1.002 6 (by decide +kernel) x hx
  norm_num at h2 ⊢
  norm_num at h1
  exact ⟨h1, h2⟩

theorem sat_lower (x : ℝ) (hx : 9 ≤ x) : 0.94 ≤ sat x := by
  have hp := (pL_bounds x hx).1
  have h := lower9 (psub nL (pscale 0.94 pL)) 0 6 (by decide +kernel) x hx
  rw [ev_psub, ev_pscale] at h
  unfold sat
  rw [le_div_iff₀ (by linarith)]
  norm_num at h ⊢
  linarith

theorem rho_small (x : ℝ) (hx : 9 ≤ x) : |ev rhoL (1 / x)| ≤ 0.5 * (1 / x) ^ 8 := by
  have e : rhoL = pshift 8 (rhoL.drop 8) := by decide +kernel
  rw [e, ev_pshift, abs_mul, abs_of_nonneg (by positivity), mul_comm]
  refine mul_le_mul_of_nonneg_right ?_ (by positivity)
  have h1 := lower9 (rhoL.drop 8) (-0.5) 6 (by decide +kernel) x hx
  have h2 := upper9 (rhoL.drop 8) 0.5 6 (by decide +kernel) x hx
  rw [abs_le]
  push_cast at h1 h2
  norm_num at h1 h2 ⊢
  constructor <;> linarith

theorem sat_deriv (x : ℝ) (hx : 9 ≤ x) :
    HasDerivAt sat (1 - sat x / x - sat x ^ 2 + ev rhoL (1 / x) / ev pL (1 / x) ^ 2) x := by
  have hp := (pL_bounds x hx).1
  have hx0 : x ≠ 0 := by linarith
  have h := (hasDerivAt_inverse nL x hx0).div (hasDerivAt_inverse pL x hx0) (by linarith)
  refine h.congr_deriv ?_
  unfold sat
  have e : ev rhoL (1 / x) = -((1 / x) ^ 2 * (ev (pder nL) (1 / x) * ev pL (1 / x)
      - ev nL (1 / x) * ev (pder pL) (1 / x))) - ev pL (1 / x) ^ 2 + 1 / x * (ev nL (1 / x) * ev pL (1 / x))
      + ev nL (1 / x) ^ 2 := by
    unfold rhoL
    simp only [ev_padd, ev_pscale, ev_pshift, ev_psub, ev_pmul]
    push_cast
    ring
  rw [e]
  have : ev pL (1 / x) ≠ 0 := by linarith
  generalize ev pL (1 / x) = p at *
  generalize ev nL (1 / x) = m at *
  generalize ev (pder pL) (1 / x) = p' at *
  generalize ev (pder nL) (1 / x) = m' at *
  field_simp
  ring

theorem rat_nine : |rat 9 - sat 9| ≤ 1 / 2 * (1 / 9) ^ 8 := by
  have h0 := besselI0_value 9 40 1093.588354511374 1093.588354511375 (by decide +kernel)
  have h1 := besselI1_value 9 (by norm_num) 40 1030.914722516956 1030.914722516957 (by decide +kernel)
  unfold rat sat
  have ep : ev pL (1 / 9) = (evq pL (1 / 9) : ℚ) := by rw [← ev_cast]; norm_num
  have en : ev nL (1 / 9) = (evq nL (1 / 9) : ℚ) := by rw [← ev_cast]; norm_num
  have t : |evq nL (1 / 9) / evq pL (1 / 9) - 0.9426899273179| ≤ 1 / 10 ^ 12 := by decide +kernel
  have t := (Rat.cast_le (K := ℝ)).mpr t
  push_cast at t h0 h1
  rw [ep, en]
  generalize ((evq nL (1 / 9) : ℚ) : ℝ) / ((evq pL (1 / 9) : ℚ) : ℝ) = z at *
  have hl : (0.94268992373 : ℝ) ≤ besselI 1 9 / besselI 0 9 := by
    rw [le_div_iff₀ (by linarith)]; linarith
  have hu : besselI 1 9 / besselI 0 9 ≤ 0.94268992375 := by
    rw [div_le_iff₀ (by linarith)]; linarith
  rw [abs_le] at *
  norm_num at *
  constructor <;> linarith

theorem rat_close (x : ℝ) (hx : 9 ≤ x) : |rat x - sat x| ≤ 1 / 2 * (1 / x) ^ 8 := by
  have hB : ∀ t : ℝ, t ≠ 0 → HasDerivAt (fun t : ℝ => 1 / 2 * (1 / t) ^ 8) (-(4 * (1 / t) ^ 9)) t := by
    intro t ht
    have h1 : HasDerivAt (fun x : ℝ => 1 / x) (-(1 / t) ^ 2) t := by
      have h := (hasDerivAt_const t (1 : ℝ)).div (hasDerivAt_id t) ht
      refine h.congr_deriv ?_
      simp only [id]
      field_simp
      norm_num
    refine ((h1.pow 8).const_mul (1 / 2)).congr_deriv ?_
    norm_num
    ring
  have hd : ∀ t : ℝ, 9 ≤ t → HasDerivAt (fun t => rat t - sat t)
      (-(rat t - sat t) * (1 / t + (rat t + sat t)) - ev rhoL (1 / t) / ev pL (1 / t) ^ 2) t := by
    intro t ht
    refine ((rat_deriv t (by linarith)).sub (sat_deriv t ht)).congr_deriv ?_
    ring
  have hc : ContinuousOn (fun t => rat t - sat t) (Set.Icc 9 x) := fun t ht =>
    (hd t ht.1).continuousAt.continuousWithinAt
  have hcB : ContinuousOn (fun t : ℝ => 1 / 2 * (1 / t) ^ 8) (Set.Icc 9 x) := fun t ht =>
    (hB t (by have := ht.1; linarith)).continuousAt.continuousWithinAt
  have key : ∀ t : ℝ, 9 ≤ t → |ev rhoL (1 / t) / ev pL (1 / t) ^ 2| ≤ 0.5 * (1 / t) ^ 8 := by
    intro t ht
    have hp := (pL_bounds t ht).1
    rw [abs_div, abs_of_nonneg (show 0 ≤ ev pL (1 / t) ^ 2 by positivity)]
    refine (div_le_self (abs_nonneg _) ?_).trans (rho_small t ht)
    nlinarith
  have nine := abs_le.mp rat_nine
  rw [abs_le]
  constructor
  · have h := image_le_of_deriv_right_lt_deriv_boundary' (f := fun t => -(rat t - sat t))
      (f' := fun t => -(-(rat t - sat t) * (1 / t + (rat t + sat t)) - ev rhoL (1 / t) / ev pL (1 / t) ^ 2))
      (a := 9) (b := x) (B := fun t : ℝ => 1 / 2 * (1 / t) ^ 8) (B' := fun t => -(4 * (1 / t) ^ 9))
      hc.neg (fun t ht => (hd t ht.1).neg.hasDerivWithinAt) (by show -(rat 9 - sat 9) ≤ 1 / 2 * (1 / 9) ^ 8; linarith) hcB
      (fun t ht => (hB t (by have := ht.1; linarith)).hasDerivWithinAt) (fun t ht he => ?_) (Set.right_mem_Icc.mpr hx)
    · have h : -(rat x - sat x) ≤ 1 / 2 * (1 / x) ^ 8 := h
      linarith
    · have ht9 : (9 : ℝ) ≤ t := ht.1
      have he : -(rat t - sat t) = 1 / 2 * (1 / t) ^ 8 := he
      have k := abs_le.mp (key t ht9)
      have hs := sat_lower t ht9
      have hr : rat t = sat t - 1 / 2 * (1 / t) ^ 8 := by linarith
      have hy : 1 / t ≤ 1 / 9 := one_div_le_one_div_of_le (by norm_num) ht9
      have hy0 : 0 < 1 / t := by positivity
      show -(-(rat t - sat t) * (1 / t + (rat t + sat t)) - ev rhoL (1 / t) / ev pL (1 / t) ^ 2) < -(4 * (1 / t) ^ 9)
      rw [he, hr]
      generalize ev rhoL (1 / t) / ev pL (1 / t) ^ 2 = w at *
      generalize sat t = s at *
      generalize 1 / t = y at *
      have hy8 : 0 < y ^ 8 := by positivity
      have hsm : y ^ 8 ≤ 1 / 9 * 1 := by
        calc y ^ 8 = y * y ^ 7 := by ring
          _ ≤ 1 / 9 * 1 := by gcongr; exact pow_le_one₀ hy0.le (by linarith)
      have h9 : y ^ 9 = y * y ^ 8 := by ring
      rw [h9]
      have h : 0.5 < 1 / 2 * (y + (s - 1 / 2 * y ^ 8 + s)) - 4 * y := by nlinarith
      have := mul_lt_mul_of_pos_right h hy8
      linarith
  · have h := image_le_of_deriv_right_lt_deriv_boundary' (f := fun t => rat t - sat t)
      (f' := fun t => -(rat t - sat t) * (1 / t + (rat t + sat t)) - ev rhoL (1 / t) / ev pL (1 / t) ^ 2)
      (a := 9) (b := x) (B := fun t : ℝ => 1 / 2 * (1 / t) ^ 8) (B' := fun t => -(4 * (1 / t) ^ 9))
      hc (fun t ht => (hd t ht.1).hasDerivWithinAt) (by show rat 9 - sat 9 ≤ 1 / 2 * (1 / 9) ^ 8; linarith) hcB
      (fun t ht => (hB t (by have := ht.1; linarith)).hasDerivWithinAt) (fun t ht he => ?_) (Set.right_mem_Icc.mpr hx)
    · exact h
    · have ht9 : (9 : ℝ) ≤ t := ht.1
      have he : rat t - sat t = 1 / 2 * (1 / t) ^ 8 := he
      have k := abs_le.mp (key t ht9)
      have hs := sat_lower t ht9
      have hr : rat t = sat t + 1 / 2 * (1 / t) ^ 8 := by linarith
      have hy : 1 / t ≤ 1 / 9 := one_div_le_one_div_of_le (by norm_num) ht9
      have hy0 : 0 < 1 / t := by positivity
      show -(rat t - sat t) * (1 / t + (rat t + sat t)) - ev rhoL (1 / t) / ev pL (1 / t) ^ 2 < -(4 * (1 / t) ^ 9)
      rw [he, hr]
      generalize ev rhoL (1 / t) / ev pL (1 / t) ^ 2 = w at *
      generalize sat t = s at *
      generalize 1 / t = y at *
      have hy8 : 0 < y ^ 8 := by positivity
      have h9 : y ^ 9 = y * y ^ 8 := by ring
      rw [h9]
      have h : 0.5 < 1 / 2 * (y + (s + 1 / 2 * y ^ 8 + s)) - 4 * y := by linarith
      have := mul_lt_mul_of_pos_right h hy8
      linarith

/-- The product of the functions of order 0 for arguments above 9. -/
theorem product_close (x : ℝ) (hx : 9 < x) :
    |ev pL (1 / x) / (2 * x * besselI 0 x) - besselK0 x| ≤ 1.2 / 10 ^ 8 * besselK0 x := by
  have hg : ∀ t : ℝ, 9 < t → HasDerivAt (fun t => ev pL (1 / t) / (2 * t * besselI 0 t ^ 2))
      ((ev nL (1 / t) - 1 - ev pL (1 / t) * rat t) / (t * besselI 0 t ^ 2)) t := by
    intro t ht
    have ht0 : 0 < t := by linarith
    have hI := besselI0_pos t ht0
    have h := (hasDerivAt_inverse pL t ht0.ne').div
      (((hasDerivAt_id t).const_mul 2).mul ((besselI_zero_deriv t).pow 2)) (by
        simp only [id, Pi.mul_apply, Pi.pow_apply]
        have : 0 < besselI 0 t := by linarith
        positivity)
    refine h.congr_deriv ?_
    have en : ev nL (1 / t) = 1 - 1 / 2 * ((1 / t) ^ 2 * ev (pder pL) (1 / t)) - 1 / 2 * (1 / t * ev pL (1 / t)) := by
      unfold nL
      simp only [ev_padd, ev_pscale, ev_pshift, ev]
      push_cast
      ring
    rw [en]
    unfold rat
    simp only [id, Pi.mul_apply, Pi.pow_apply]
    have : besselI 0 t ≠ 0 := by linarith
    generalize ev pL (1 / t) = p
    generalize ev (pder pL) (1 / t) = p'
    norm_num
    field_simp
    ring
  have hn : ∀ t : ℝ, 9 < t → |(ev nL (1 / t) - 1 - ev pL (1 / t) * rat t) / (t * besselI 0 t ^ 2)
      + 1 / (t * besselI 0 t ^ 2)| ≤ 1.2 / 10 ^ 8 * (1 / (t * besselI 0 t ^ 2)) := by
    intro t ht
    have ht0 : 0 < t := by linarith
    have hI := besselI0_pos t ht0
    obtain ⟨p1, p2⟩ := pL_bounds t ht.le
    have hc := rat_close t ht.le
    have hpos : 0 < t * besselI 0 t ^ 2 := by
      have : 0 < besselI 0 t := by linarith
      positivity
    have e : (ev nL (1 / t) - 1 - ev pL (1 / t) * rat t) / (t * besselI 0 t ^ 2) + 1 / (t * besselI 0 t ^ 2)
        = -(ev pL (1 / t) * (rat t - sat t)) * (1 / (t * besselI 0 t ^ 2)) := by
      have : ev nL (1 / t) = ev pL (1 / t) * sat t := by
        unfold sat
        rw [mul_div_cancel₀]
        linarith
      rw [this]
      field_simp
      ring
    rw [e, abs_mul, abs_of_pos (show 0 < 1 / (t * besselI 0 t ^ 2) by positivity), abs_neg, abs_mul,
      abs_of_pos (by linarith : 0 < ev pL (1 / t))]
    refine mul_le_mul_of_nonneg_right ?_ (by positivity)
    have hy : 1 / t ≤ 1 / 9 := one_div_le_one_div_of_le (by norm_num) ht.le
    have hy8 : (1 / t) ^ 8 ≤ (1 / 9) ^ 8 := pow_le_pow_left₀ (by positivity) hy 8
    calc ev pL (1 / t) * |rat t - sat t| ≤ 1.002 * (1 / 2 * (1 / 9) ^ 8) := by
          refine mul_le_mul p2 (by linarith) (abs_nonneg _) (by norm_num)
      _ ≤ _ := by norm_num
  have hl : Tendsto (fun t => ev pL (1 / t) / (2 * t * besselI 0 t ^ 2)) atTop (𝓝 0) := by
    have h2 : Tendsto (fun x : ℝ => 2 / x) atTop (𝓝 0) := tendsto_const_nhds.div_atTop tendsto_id
    refine tendsto_of_tendsto_of_tendsto_of_le_of_le' tendsto_const_nhds h2 ?_ ?_
    · filter_upwards [eventually_gt_atTop 9] with t ht
      have := (pL_bounds t ht.le).1
      have hI := besselI0_pos t (by linarith)
      have : 0 < besselI 0 t := by linarith
      positivity
    · filter_upwards [eventually_gt_atTop 9] with t ht
      have p2 := (pL_bounds t ht.le).2
      have hI := besselI0_pos t (by linarith)
      refine div_le_div₀ (by norm_num) (by norm_num at p2 ⊢; linarith) (by linarith) ?_
      have : 1 ≤ besselI 0 t ^ 2 := one_le_pow₀ hI
      nlinarith
  have h := quot_close _ _ 9 (1.2 / 10 ^ 8) (by norm_num) hg hn hl x hx
  have hI := besselI0_pos x (by linarith)
  have hpos : 0 < besselI 0 x := by linarith
  unfold quot at h
  have h2 := mul_le_mul_of_nonneg_right h hpos.le
  rw [← abs_of_pos hpos, ← abs_mul, abs_of_pos hpos] at h2
  have e1 : (ev pL (1 / x) / (2 * x * besselI 0 x ^ 2) - besselK0 x / besselI 0 x) * besselI 0 x
      = ev pL (1 / x) / (2 * x * besselI 0 x) - besselK0 x := by
    field_simp
  have e2 : 1.2 / 10 ^ 8 * (besselK0 x / besselI 0 x) * besselI 0 x = 1.2 / 10 ^ 8 * besselK0 x := by
    field_simp
  rwa [e1, e2] at h2

end Verif.Green.FinK
