/-
The asymptotic expansions of the modified functions of Bessel (`Verif.Green.FinKModel.firstKind` above 18).
-/
import Verif.Green.FinKGamma
import Mathlib.Analysis.Real.Pi.Bounds
import Mathlib.Analysis.Complex.ExponentialBounds

namespace Verif.Green.FinK

open Real Filter Topology Verif.Green.Lwn Verif.Green.PolyBound Verif.Green.FinBessel

/-! ### The expansions as polynomials -/

/-- The coefficients with a first coefficient 1. -/
def coef (l : List ℚ) : ℕ → ℚ
  | 0 => 1
  | k + 1 => l.getD k 0

/-- The polynomial of an expansion. -/
def eL (l : List ℚ) (n : ℕ) : List ℚ := (List.range (n + 1)).map (coef l)

theorem expansion_ev (l : List ℚ) (n : ℕ) (y : ℝ) : expansion l n y = ev (eL l n) y := by
  unfold eL
  rw [ev_range, Finset.sum_range_succ']
  simp only [coef, pow_zero]
  unfold expansion
  induction n with
  | zero => simp
  | succ n ih =>
    rw [List.range_succ, List.foldl_append, ih, Finset.sum_range_succ]
    simp only [List.foldl_cons, List.foldl_nil]
    ring

theorem ev_even (l : List ℚ) (y : ℝ) : ev (l.flatMap fun a => [0, a]) y = y * ev l (y * y) := by
  induction l with
  | nil => simp [ev]
  | cons a l ih =>
    simp only [List.flatMap_cons, List.cons_append, List.nil_append, ev, ih]
    push_cast
    ring

theorem expansion_pL (x : ℝ) : expansion a1Far 8 (1 / (x * x)) = ev pL (1 / x) := by
  rw [expansion_ev, show eL a1Far 8 = 1 :: a1Far by decide +kernel]
  simp only [pL, ev, ev_even]
  rw [show 1 / (x * x) = 1 / x * (1 / x) by rw [one_div_mul_one_div]]
  ring

theorem bound18 (l m : List ℚ) (n : ℕ) (h : ℚ) (hh : 0 < h)
    (t : (nonneg (psub m l) n (h / 2) (h / 2) && nonneg (padd m l) n (h / 2) (h / 2)) = true) (x : ℝ)
    (hx : 1 / (h : ℝ) ≤ x) : |ev l (1 / x)| ≤ ev m (1 / x) := by
  rw [Bool.and_eq_true] at t
  have hh' : (0 : ℝ) < h := by exact_mod_cast hh
  have hp : 0 < 1 / (h : ℝ) := by positivity
  have h1 : 1 / x ≤ h := by
    have := one_div_le_one_div_of_le hp hx
    rwa [one_div_one_div] at this
  have h0 : 0 ≤ 1 / x := by
    have : 0 < x := lt_of_lt_of_le hp hx
    positivity
  have a := nonneg_on _ n (h / 2) (h / 2) (by linarith) t.1 (1 / x) (by push_cast; linarith) (by push_cast; linarith)
  have b := nonneg_on _ n (h / 2) (h / 2) (by linarith) t.2 (1 / x) (by push_cast; linarith) (by push_cast; linarith)
  rw [ev_psub] at a
  rw [ev_padd] at b
  rw [abs_le]
  constructor <;> linarith

theorem bound18' (l : List ℚ) (m : ℚ) (n : ℕ) (h : ℚ) (hh : 0 < h)
    (t : (nonneg (psub [m] l) n (h / 2) (h / 2) && nonneg (padd [m] l) n (h / 2) (h / 2)) = true) (x : ℝ)
    (hx : 1 / (h : ℝ) ≤ x) : |ev l (1 / x)| ≤ m := by
  have := bound18 l [m] n h hh t x hx
  simpa [ev] using this

/-! ### The logarithm of the function of order 0 -/

/-- The rest of the logarithmic derivative. -/
def mL : List ℚ :=
  psub (pmul nL (eL aFar 12)) (pmul pL (psub (eL aFar 12) (padd (pscale (1 / 2) (pshift 1 (eL aFar 12)))
    (pshift 2 (pder (eL aFar 12))))))

theorem mL_small (x : ℝ) (hx : 18 ≤ x) : |ev mL (1 / x)| ≤ 4 / 10 ^ 6 * (1 / x) ^ 5 := by
  have e : mL = pshift 5 (mL.drop 5) := by decide +kernel
  have hx0 : 0 < x := by linarith
  rw [e, ev_pshift, abs_mul, abs_of_nonneg (by positivity), mul_comm]
  refine mul_le_mul_of_nonneg_right ?_ (by positivity)
  have := bound18' (mL.drop 5) (4 / 10 ^ 6) 6 (1 / 18) (by norm_num) (by decide +kernel) x (by norm_num; exact hx)
  push_cast at this
  exact this

theorem a12_bounds (x : ℝ) (hx : 18 ≤ x) : 1 ≤ ev (eL aFar 12) (1 / x) ∧ ev (eL aFar 12) (1 / x) ≤ 1.01 := by
  have hx0 : 0 < x := by linarith
  have e : eL aFar 12 = 1 :: aFar := by decide +kernel
  have h1 := lower9 aFar 0 6 (by decide +kernel) x (by linarith)
  have h2 := bound18' (eL aFar 12) 1.01 6 (1 / 18) (by norm_num) (by decide +kernel) x (by norm_num; exact hx)
  have h3 := (abs_le.mp h2).2
  refine ⟨?_, by push_cast at h3; exact h3⟩
  rw [e]
  simp only [ev]
  push_cast at h1 ⊢
  have : 0 ≤ 1 / x * ev aFar (1 / x) := mul_nonneg (by positivity) h1
  linarith

/-- The logarithm of the function of order 0 without its expansion. -/
noncomputable def zed (x : ℝ) : ℝ := log (besselI 0 x) - x + 1 / 2 * log x - log (ev (eL aFar 12) (1 / x))

theorem zed_deriv (x : ℝ) (hx : 18 ≤ x) :
    HasDerivAt zed (rat x - sat x + ev mL (1 / x) / (ev pL (1 / x) * ev (eL aFar 12) (1 / x))) x := by
  have hx0 : 0 < x := by linarith
  have hI : besselI 0 x ≠ 0 := by linarith [besselI0_pos x hx0]
  have ha : ev (eL aFar 12) (1 / x) ≠ 0 := by linarith [(a12_bounds x hx).1]
  have hp : ev pL (1 / x) ≠ 0 := by linarith [(pL_bounds x (by linarith)).1]
  have h := ((((besselI_zero_deriv x).log hI).sub (hasDerivAt_id x)).add
    ((hasDerivAt_log hx0.ne').const_mul (1 / 2))).sub ((hasDerivAt_inverse (eL aFar 12) x hx0.ne').log ha)
  refine h.congr_deriv ?_
  have em : ev mL (1 / x) = ev nL (1 / x) * ev (eL aFar 12) (1 / x) - ev pL (1 / x) * (ev (eL aFar 12) (1 / x)
      - (1 / 2 * (1 / x * ev (eL aFar 12) (1 / x)) + (1 / x) ^ 2 * ev (pder (eL aFar 12)) (1 / x))) := by
    unfold mL
    simp only [ev_psub, ev_pmul, ev_padd, ev_pscale, ev_pshift]
    push_cast
    ring
  rw [em]
  unfold rat sat
  generalize ev pL (1 / x) = p at *
  generalize ev nL (1 / x) = n at *
  generalize ev (pder (eL aFar 12)) (1 / x) = a' at *
  generalize ev (eL aFar 12) (1 / x) = a at *
  field_simp
  ring

theorem zed_slope (x : ℝ) (hx : 18 ≤ x) :
    |rat x - sat x + ev mL (1 / x) / (ev pL (1 / x) * ev (eL aFar 12) (1 / x))| ≤ 1 / 10 ^ 4 * (1 / x) ^ 5 := by
  have hx0 : 0 < x := by linarith
  have h1 := rat_close x (by linarith)
  have h2 := mL_small x hx
  have ha := (a12_bounds x hx).1
  have hp := (pL_bounds x (by linarith)).1
  have h3 : |ev mL (1 / x) / (ev pL (1 / x) * ev (eL aFar 12) (1 / x))| ≤ |ev mL (1 / x)| := by
    rw [abs_div]
    refine div_le_self (abs_nonneg _) ?_
    rw [abs_of_nonneg (by positivity)]
    nlinarith
  have hy : 1 / x ≤ 1 / 18 := one_div_le_one_div_of_le (by norm_num) hx
  have hy3 : (1 / x) ^ 3 ≤ (1 / 18) ^ 3 := pow_le_pow_left₀ (by positivity) hy 3
  have e8 : (1 / x) ^ 8 = (1 / x) ^ 3 * (1 / x) ^ 5 := by ring
  have hp5 : 0 < (1 / x) ^ 5 := by positivity
  have h4 : 1 / 2 * (1 / x) ^ 8 ≤ 9 / 10 ^ 5 * (1 / x) ^ 5 := by
    rw [e8]
    have : 1 / 2 * (1 / x) ^ 3 ≤ 9 / 10 ^ 5 := by norm_num at hy3 ⊢; linarith
    calc 1 / 2 * ((1 / x) ^ 3 * (1 / x) ^ 5) = 1 / 2 * (1 / x) ^ 3 * (1 / x) ^ 5 := by ring
      _ ≤ _ := mul_le_mul_of_nonneg_right this hp5.le
  calc _ ≤ |rat x - sat x| + |ev mL (1 / x) / (ev pL (1 / x) * ev (eL aFar 12) (1 / x))| := abs_add_le _ _
    _ ≤ 9 / 10 ^ 5 * (1 / x) ^ 5 + 4 / 10 ^ 6 * (1 / x) ^ 5 := by linarith
    _ ≤ _ := by nlinarith

theorem zed_close (x : ℝ) (hx : 18 ≤ x) : |zed x - zed 18| ≤ 2.5 / 10 ^ 10 := by
  have hB : ∀ t : ℝ, t ≠ 0 → HasDerivAt (fun t : ℝ => 1 / (4 * 10 ^ 4) * (1 / t) ^ 4) (-(1 / 10 ^ 4 * (1 / t) ^ 5)) t := by
    intro t ht
    have h1 : HasDerivAt (fun x : ℝ => 1 / x) (-(1 / t) ^ 2) t := by
      have h := (hasDerivAt_const t (1 : ℝ)).div (hasDerivAt_id t) ht
      refine h.congr_deriv ?_
      simp only [id]
      field_simp
      norm_num
    refine ((h1.pow 4).const_mul (1 / (4 * 10 ^ 4))).congr_deriv ?_
    norm_num
    ring
  have anti : ∀ f f' : ℝ → ℝ, (∀ t, 18 ≤ t → HasDerivAt f (f' t) t) → (∀ t, 18 ≤ t → f' t ≤ 0) → f x ≤ f 18 := by
    intro f f' hd hn
    have : AntitoneOn f (Set.Ici 18) := by
      refine antitoneOn_of_deriv_nonpos (convex_Ici 18) ?_ ?_ ?_
      · exact fun t ht => (hd t ht).continuousAt.continuousWithinAt
      · rw [interior_Ici]
        exact fun t ht => (hd t (le_of_lt ht)).differentiableAt.differentiableWithinAt
      · rw [interior_Ici]
        intro t ht
        rw [(hd t (le_of_lt ht)).deriv]
        exact hn t (le_of_lt ht)
    exact this Set.self_mem_Ici hx hx
  have h1 := anti (fun t => zed t + 1 / (4 * 10 ^ 4) * (1 / t) ^ 4) _
    (fun t ht => (zed_deriv t ht).add (hB t (by linarith))) (fun t ht => by
      have := (abs_le.mp (zed_slope t ht)).2
      linarith)
  have h2 := anti (fun t => -zed t + 1 / (4 * 10 ^ 4) * (1 / t) ^ 4) _
    (fun t ht => (zed_deriv t ht).neg.add (hB t (by linarith))) (fun t ht => by
      have := (abs_le.mp (zed_slope t ht)).1
      linarith)
  have hx4 : 0 ≤ (1 / x) ^ 4 := by positivity
  generalize (1 / x) ^ 4 = w at *
  rw [abs_le]
  norm_num at h1 h2 hx4 ⊢
  constructor <;> linarith

/-! ### The value at 18 -/

theorem exp_eighteen : |exp 36 / (363916618873 / 133877442384) ^ 36 - 1| ≤ 1 / 10 ^ 16 := by
  have h := abs_le.mp exp_one_near_20
  have e : exp 36 = exp 1 ^ 36 := by rw [← exp_nat_mul]; norm_num
  set q : ℝ := 363916618873 / 133877442384 with hq
  have hq1 : 1 ≤ q := by rw [hq]; norm_num
  rw [e, ← div_pow]
  have hu : exp 1 / q ≤ 1 + 1 / 10 ^ 20 := by
    rw [div_le_iff₀ (by linarith)]
    nlinarith
  have hl : 1 - 1 / 10 ^ 20 ≤ exp 1 / q := by
    rw [le_div_iff₀ (by linarith)]
    nlinarith
  generalize exp 1 / q = v at *
  have a : v ^ 36 ≤ (1 + 1 / 10 ^ 20) ^ 36 := pow_le_pow_left₀ (by norm_num at hl ⊢; linarith) hu 36
  have b : (1 - 1 / 10 ^ 20 : ℝ) ^ 36 ≤ v ^ 36 := pow_le_pow_left₀ (by norm_num) hl 36
  generalize v ^ 36 = w at *
  rw [abs_le]
  norm_num at a b ⊢
  constructor <;> linarith

theorem zed_eighteen : |zed 18 + 1 / 2 * log (2 * π)| ≤ 1 / 10 ^ 11 := by
  have hI := besselI0_value 18 60 6218412.42078100294 6218412.42078100295 (by decide +kernel)
  have ea : ev (eL aFar 12) (1 / 18) = (evq (eL aFar 12) (1 / 18) : ℚ) := by rw [← ev_cast]; norm_num
  have ta : |evq (eL aFar 12) (1 / 18) - 1.0071752259277349| ≤ 1 / 10 ^ 15 := by decide +kernel
  have ta := (Rat.cast_le (K := ℝ)).mpr ta
  push_cast at hI ta
  rw [← ea] at ta
  have hx := abs_le.mp exp_eighteen
  have hpl := pi_gt_d20
  have hpu := pi_lt_d20
  have e : zed 18 + 1 / 2 * log (2 * π)
      = 1 / 2 * log (besselI 0 18 ^ 2 * (36 * π) / (exp 36 * ev (eL aFar 12) (1 / 18) ^ 2)) := by
    unfold zed
    have ha : 0 < ev (eL aFar 12) (1 / 18) := by linarith [(a12_bounds 18 le_rfl).1]
    have hI0 : 0 < besselI 0 18 := by linarith
    have hpi := pi_pos
    rw [log_div (by positivity) (by positivity), log_mul (show besselI 0 18 ^ 2 ≠ 0 by positivity) (by positivity),
      log_mul (exp_pos 36).ne' (by positivity), log_pow, log_pow, log_exp,
      show 36 * π = 18 * (2 * π) by ring, log_mul (by norm_num : (18 : ℝ) ≠ 0) (by positivity)]
    push_cast
    ring
  rw [e]
  generalize ev (eL aFar 12) (1 / 18) = a at *
  generalize besselI 0 18 = i at *
  obtain ⟨ta1, ta2⟩ := abs_le.mp ta
  obtain ⟨hx1, hx2⟩ := hx
  set w : ℝ := exp 36 / (363916618873 / 133877442384) ^ 36 with hw
  have ew : exp 36 = w * (363916618873 / 133877442384) ^ 36 := by
    rw [hw]; field_simp
  rw [ew]
  have hi1 := hI.1
  have hi2 := hI.2
  have i1 : (6218412.42078100294 : ℝ) ^ 2 ≤ i ^ 2 := pow_le_pow_left₀ (by norm_num) hi1 2
  have i2 : i ^ 2 ≤ (6218412.42078100295 : ℝ) ^ 2 := pow_le_pow_left₀ (by linarith) hi2 2
  have a1 : (1.0071752259277339 : ℝ) ^ 2 ≤ a ^ 2 := pow_le_pow_left₀ (by norm_num) (by linarith) 2
  have a2 : a ^ 2 ≤ (1.0071752259277359 : ℝ) ^ 2 := pow_le_pow_left₀ (by linarith) (by linarith) 2
  have w1 : (1 - 1 / 10 ^ 16 : ℝ) ≤ w := by linarith
  have w2 : w ≤ 1 + 1 / 10 ^ 16 := by linarith
  have up : i ^ 2 * (36 * π) / (w * (363916618873 / 133877442384) ^ 36 * a ^ 2) ≤ 1 + 1 / 10 ^ 11 := by
    calc _ ≤ (6218412.42078100295 : ℝ) ^ 2 * (36 * 3.14159265358979323847)
          / ((1 - 1 / 10 ^ 16) * (363916618873 / 133877442384) ^ 36 * 1.0071752259277339 ^ 2) := by gcongr
      _ ≤ _ := by norm_num
  have lo : 1 - 1 / 10 ^ 11 ≤ i ^ 2 * (36 * π) / (w * (363916618873 / 133877442384) ^ 36 * a ^ 2) := by
    have hw0 : 0 < w := lt_of_lt_of_le (by norm_num) w1
    have ha0 : 0 < a ^ 2 := lt_of_lt_of_le (by norm_num) a1
    calc (1 - 1 / 10 ^ 11 : ℝ) ≤ (6218412.42078100294 : ℝ) ^ 2 * (36 * 3.14159265358979323846)
          / ((1 + 1 / 10 ^ 16) * (363916618873 / 133877442384) ^ 36 * 1.0071752259277359 ^ 2) := by norm_num
      _ ≤ _ := by gcongr
  generalize i ^ 2 * (36 * π) / (w * (363916618873 / 133877442384) ^ 36 * a ^ 2) = t at *
  have ht : 0 < t := lt_of_lt_of_le (by norm_num) lo
  have l1 := log_le_sub_one_of_pos ht
  have l2 := one_sub_inv_le_log_of_pos ht
  have l3 : t⁻¹ ≤ 1 + 2 / 10 ^ 11 := by
    rw [inv_le_comm₀ ht (by norm_num)]
    refine le_trans ?_ lo
    norm_num
  rw [abs_le]
  norm_num at *
  constructor <;> linarith

/-! ### The functions of the first kind above 18 -/

theorem terms_far (x : ℝ) (hx : 18 < x) :
    |ev (eL aFar (termsFar x)) (1 / x) - ev (eL aFar 12) (1 / x)| ≤ 1 / 10 ^ 12
    ∧ |ev (eL bFar (termsFar x)) (1 / x) * ev pL (1 / x) - ev (eL aFar (termsFar x)) (1 / x) * ev nL (1 / x)|
      ≤ 1 / 10 ^ 11 := by
  unfold termsFar
  split_ifs with h50 h35
  · have a := bound18' (psub (eL aFar 7) (eL aFar 12)) (1 / 10 ^ 12) 8 (1 / 50) (by norm_num) (by decide +kernel) x
      (by norm_num; exact h50)
    have b := bound18' (psub (pmul (eL bFar 7) pL) (pmul (eL aFar 7) nL)) (1 / 10 ^ 11) 8 (1 / 50) (by norm_num)
      (by decide +kernel) x (by norm_num; exact h50)
    simp only [ev_psub, ev_pmul] at a b
    push_cast at a b
    exact ⟨a, b⟩
  · have a := bound18' (psub (eL aFar 9) (eL aFar 12)) (1 / 10 ^ 12) 8 (1 / 35) (by norm_num) (by decide +kernel) x
      (by norm_num; exact h35)
    have b := bound18' (psub (pmul (eL bFar 9) pL) (pmul (eL aFar 9) nL)) (1 / 10 ^ 11) 8 (1 / 35) (by norm_num)
      (by decide +kernel) x (by norm_num; exact h35)
    simp only [ev_psub, ev_pmul] at a b
    push_cast at a b
    exact ⟨a, b⟩
  · have b := bound18' (psub (pmul (eL bFar 12) pL) (pmul (eL aFar 12) nL)) (1 / 10 ^ 11) 8 (1 / 18) (by norm_num)
      (by decide +kernel) x (by norm_num; exact hx.le)
    simp only [ev_psub, ev_pmul] at b
    push_cast at b
    exact ⟨by simp, b⟩

theorem first_far (x : ℝ) (hx : 18 < x) :
    |(firstKind x).1 - besselI 0 x| ≤ 6 / 10 ^ 10 * besselI 0 x
    ∧ |(firstKind x).2 - besselI 1 x| ≤ 8 / 10 ^ 10 * besselI 1 x := by
  unfold firstKind
  rw [if_neg (by linarith)]
  simp only [expansion_ev]
  have hx0 : 0 < x := by linarith
  obtain ⟨t1, t2⟩ := terms_far x hx
  have hz := zed_close x hx.le
  have hz18 := zed_eighteen
  obtain ⟨a1, a2⟩ := a12_bounds x hx.le
  obtain ⟨p1, p2⟩ := pL_bounds x (by linarith)
  have hI : 0 < besselI 0 x := by linarith [besselI0_pos x hx0]
  have hr := rat_close x (by linarith)
  have hs := sat_lower x (by linarith)
  have e1 : besselI 1 x = rat x * besselI 0 x := by unfold rat; field_simp
  have hsP : ev nL (1 / x) = sat x * ev pL (1 / x) := by unfold sat; field_simp
  set ca := exp x / √(2 * π * x) with hca
  have eca : ca * ev (eL aFar 12) (1 / x) = besselI 0 x * exp (-(zed x + 1 / 2 * log (2 * π))) := by
    have hlog : log (ca * ev (eL aFar 12) (1 / x)) = log (besselI 0 x) - (zed x + 1 / 2 * log (2 * π)) := by
      have hpi := pi_pos
      rw [hca, log_mul (by positivity) (by linarith), log_div (by positivity) (by positivity), log_exp,
        log_sqrt (by positivity), log_mul (by positivity) (by positivity)]
      unfold zed
      ring
    have hpos : 0 < ca * ev (eL aFar 12) (1 / x) := by
      have := pi_pos
      rw [hca]; positivity
    rw [← exp_log hpos, hlog, sub_eq_add_neg, exp_add, exp_log hI]
  have hw : |-(zed x + 1 / 2 * log (2 * π))| ≤ 2.6 / 10 ^ 10 := by
    rw [abs_neg]
    calc |zed x + 1 / 2 * log (2 * π)| = |(zed x - zed 18) + (zed 18 + 1 / 2 * log (2 * π))| := by ring_nf
      _ ≤ _ := abs_add_le _ _
      _ ≤ _ := by norm_num at hz hz18 ⊢; linarith
  have hexp := abs_exp_sub_one_le (x := -(zed x + 1 / 2 * log (2 * π))) (hw.trans (by norm_num))
  generalize exp (-(zed x + 1 / 2 * log (2 * π))) = v at *
  have hv := abs_le.mp (hexp.trans (mul_le_mul_of_nonneg_left hw (by norm_num)))
  have hca0 : 0 < ca := by
    have := pi_pos
    rw [hca]; positivity
  generalize ev (eL aFar (termsFar x)) (1 / x) = a at *
  generalize ev (eL bFar (termsFar x)) (1 / x) = b at *
  generalize ev (eL aFar 12) (1 / x) = a12 at *
  generalize ev pL (1 / x) = p at *
  generalize ev nL (1 / x) = n at *
  have hcale : ca ≤ besselI 0 x * 1.001 := by
    have : ca * 1 ≤ ca * a12 := mul_le_mul_of_nonneg_left a1 hca0.le
    have : besselI 0 x * v ≤ besselI 0 x * 1.001 := mul_le_mul_of_nonneg_left (by norm_num at hv ⊢; linarith) hI.le
    linarith
  have g1 : |ca * a - besselI 0 x| ≤ 5.3 / 10 ^ 10 * besselI 0 x := by
    have e : ca * a - besselI 0 x = besselI 0 x * (v - 1) + ca * (a - a12) := by
      rw [mul_sub, mul_sub, eca]; ring
    rw [e]
    calc _ ≤ |besselI 0 x * (v - 1)| + |ca * (a - a12)| := abs_add_le _ _
      _ = besselI 0 x * |v - 1| + ca * |a - a12| := by rw [abs_mul, abs_mul, abs_of_pos hI, abs_of_pos hca0]
      _ ≤ besselI 0 x * (2 * (2.6 / 10 ^ 10)) + besselI 0 x * 1.001 * (1 / 10 ^ 12) := by
          gcongr
          exact abs_le.mpr hv
      _ ≤ _ := by norm_num; linarith
  have hy8 : 1 / 2 * (1 / x) ^ 8 ≤ 5 / 10 ^ 11 := by
    have hy : 1 / x ≤ 1 / 18 := one_div_le_one_div_of_le (by norm_num) hx.le
    have : (1 / x) ^ 8 ≤ (1 / 18) ^ 8 := pow_le_pow_left₀ (by positivity) hy 8
    norm_num at this ⊢
    linarith
  have hr' := abs_le.mp (hr.trans hy8)
  have hrat : 0.93 ≤ rat x := by norm_num at hs hr' ⊢; linarith
  have hrat1 : rat x ≤ 1 := by
    unfold rat
    rw [div_le_one hI]
    exact besselI1_le x hx0
  refine ⟨g1.trans (by norm_num; linarith), ?_⟩
  have e : (ca * b - besselI 1 x) * p = ca * (b * p - a * n) + ca * a * (p * (sat x - rat x))
      + p * rat x * (ca * a - besselI 0 x) := by
    rw [e1, hsP]; ring
  have hcaa : 0 ≤ ca * a := by
    have := (abs_le.mp t1).1
    have : 0 ≤ a := by norm_num at this; linarith
    positivity
  have hcaa2 : ca * a ≤ besselI 0 x * 1.001 := by
    have := (abs_le.mp g1).2
    norm_num at this ⊢
    linarith
  have hb : |(ca * b - besselI 1 x) * p| ≤ p * (7 / 10 ^ 10 * besselI 0 x) := by
    rw [e]
    calc _ ≤ |ca * (b * p - a * n)| + |ca * a * (p * (sat x - rat x))| + |p * rat x * (ca * a - besselI 0 x)| :=
          (abs_add_le _ _).trans (add_le_add (abs_add_le _ _) le_rfl)
      _ = ca * |b * p - a * n| + ca * a * (p * |sat x - rat x|) + p * rat x * |ca * a - besselI 0 x| := by
          rw [abs_mul, abs_mul, abs_mul (p * rat x), abs_mul p, abs_of_pos hca0, abs_of_nonneg hcaa,
            abs_of_pos (by linarith : 0 < p), abs_of_pos (by positivity : 0 < p * rat x)]
      _ ≤ besselI 0 x * 1.001 * (1 / 10 ^ 11) + besselI 0 x * 1.001 * (p * (5 / 10 ^ 11))
          + p * 1 * (5.3 / 10 ^ 10 * besselI 0 x) := by
          have : |sat x - rat x| ≤ 5 / 10 ^ 11 := by rw [abs_sub_comm]; exact hr.trans hy8
          gcongr
      _ ≤ _ := by
          have : besselI 0 x ≤ p * besselI 0 x := by nlinarith
          norm_num
          nlinarith
  rw [abs_mul, abs_of_pos (by linarith : 0 < p), mul_comm] at hb
  have hb := le_of_mul_le_mul_left hb (by linarith : 0 < p)
  refine hb.trans ?_
  rw [e1]
  have : 0.93 * besselI 0 x ≤ rat x * besselI 0 x := mul_le_mul_of_nonneg_right hrat hI.le
  norm_num at this ⊢
  linarith

end Verif.Green.FinK
