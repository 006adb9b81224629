/-
The modified functions of Bessel of the second kind of the Green function of finite depth (`FinGreen3D.f90`, routine
`IK01A`): their accuracy, and the arguments for which they are wrong.

The functions are specified in `Verif.Green.FinKSeries` by their series, and characterised below by their differential
equations, their Wronskian and their behaviour at infinity.
-/
import Verif.Green.FinKNear

namespace Verif.Green.FinK

open Real Verif.Green.Lwn Verif.Green.PolyBound Verif.Green.FinBessel

/-! ### Specification -/

/-- The function of order 1 is minus the derivative of the function of order 0. -/
theorem second_kind_zero (x : ℝ) (hx : 0 < x) : HasDerivAt besselK0 (-besselK1 x) x := besselK0_deriv x hx

/-- The derivative of the function of order 1. -/
theorem second_kind_one (x : ℝ) (hx : 0 < x) : HasDerivAt besselK1 (-besselK0 x - besselK1 x / x) x :=
  besselK1_deriv x hx

/-- The functions of the second kind are the solutions which vanish at infinity. -/
theorem second_kind_decay : Filter.Tendsto (fun x => besselK0 x / besselI 0 x) Filter.atTop (nhds 0) := quot_tendsto

/-- The local variable `WW`, which the routine reads before it has given it a value, contains the value of the first
term of the series. -/
def Remembered (ww x : ℝ) : Prop :=
  |(x / 2) ^ 2 * (1 - (log (x / 2) + el)) - ww| < 1 / 10 ^ 15 * |(x / 2) ^ 2 * (1 - (log (x / 2) + el))|

/-- The argument is very close to one of two numbers, 5.0323… and 7.0231…, at which a term of the series vanishes. -/
def Exceptional (x : ℝ) : Prop :=
  |log (x / 2) + el - 3 / 2| < 1 / 10 ^ 13 ∨ |log (x / 2) + el - 11 / 6| < 1 / 10 ^ 13

/-! ### Accuracy -/

/-- The functions of the first kind which the routine computes for itself. -/
theorem first_kind (x : ℝ) (h0 : 0 < x) :
    |(firstKind x).1 - besselI 0 x| ≤ 6 / 10 ^ 10 * besselI 0 x
    ∧ |(firstKind x).2 - besselI 1 x| ≤ 8 / 10 ^ 10 * besselI 1 x := by
  rcases le_or_gt x 18 with h | h
  · obtain ⟨a, b, c, d⟩ := first_near x h0 h
    have i0 := besselI0_pos x h0
    have i1 := besselI1_pos x h0
    rw [abs_sub_comm, abs_of_nonneg (by linarith), abs_sub_comm, abs_of_nonneg (by linarith)]
    norm_num at *
    constructor <;> linarith
  · exact first_far x h

/-- The error which the functions of the first kind and of order 0 give to the function of order 1. -/
theorem order_one (x b0 b1 k0 : ℝ) (hx : 0 < x) (h0 : |b0 - besselI 0 x| ≤ 6 / 10 ^ 10 * besselI 0 x)
    (h1 : |b1 - besselI 1 x| ≤ 8 / 10 ^ 10 * besselI 1 x) (h2 : |k0 - besselK0 x| ≤ 1.3 / 10 ^ 8 * besselK0 x) :
    |(1 / x - b1 * k0) / b0 - besselK1 x| ≤ 1.5 / 10 ^ 8 * besselK1 x := by
  have i0 : 0 < besselI 0 x := by linarith [besselI0_pos x hx]
  have i1 := besselI1_pos x hx
  have p0 := besselK0_nonneg x hx
  have p1 := besselK1_pos x hx
  have w := wronskian x hx
  have hh := product_half x hx
  have hle : besselI 1 x * besselK0 x ≤ besselI 0 x * besselK1 x := by
    have : 1 / x = 2 * (1 / (2 * x)) := by field_simp
    linarith
  rw [← w]
  generalize besselI 0 x = I0 at *
  generalize besselI 1 x = I1 at *
  generalize besselK0 x = K0 at *
  generalize besselK1 x = K1 at *
  have hb0 : (1 - 6 / 10 ^ 10) * I0 ≤ b0 := by linarith [(abs_le.mp h0).1]
  have hb0' : 0 < b0 := lt_of_lt_of_le (by norm_num at *; linarith) hb0
  have e : (I0 * K1 + I1 * K0 - b1 * k0) / b0 - K1
      = (-(K1 * (b0 - I0)) - (b1 - I1) * K0 - (b1 - I1) * (k0 - K0) - I1 * (k0 - K0)) / b0 := by
    field_simp; ring
  have a1 : |K1 * (b0 - I0)| ≤ 6 / 10 ^ 10 * (I0 * K1) := by
    rw [abs_mul, abs_of_pos p1]; nlinarith
  have a2 : |(b1 - I1) * K0| ≤ 8 / 10 ^ 10 * (I1 * K0) := by
    rw [abs_mul, abs_of_nonneg p0]; nlinarith
  have a3 : |(b1 - I1) * (k0 - K0)| ≤ 2 / 10 ^ 17 * (I1 * K0) := by
    rw [abs_mul]
    calc _ ≤ (8 / 10 ^ 10 * I1) * (1.3 / 10 ^ 8 * K0) := mul_le_mul h1 h2 (abs_nonneg _) (by positivity)
      _ = (8 / 10 ^ 10 * (1.3 / 10 ^ 8)) * (I1 * K0) := by ring
      _ ≤ _ := mul_le_mul_of_nonneg_right (by norm_num) (by positivity)
  have a4 : |I1 * (k0 - K0)| ≤ 1.3 / 10 ^ 8 * (I1 * K0) := by
    rw [abs_mul, abs_of_pos i1]; nlinarith
  rw [e, abs_div, abs_of_pos hb0', div_le_iff₀ hb0']
  have a1 := abs_le.mp a1
  have a2 := abs_le.mp a2
  have a3 := abs_le.mp a3
  have a4 := abs_le.mp a4
  have hI : 0 ≤ I0 * K1 := by positivity
  have hr : 1.48 / 10 ^ 8 * (I0 * K1) ≤ 1.5 / 10 ^ 8 * K1 * b0 := by
    have h5 : K1 * ((1 - 6 / 10 ^ 10) * I0) ≤ K1 * b0 := mul_le_mul_of_nonneg_left hb0 p1.le
    norm_num at *
    linarith
  refine le_trans ?_ hr
  generalize I0 * K1 = A at *
  generalize I1 * K0 = B at *
  rw [abs_le]
  norm_num at *
  constructor <;> linarith [a1.1, a1.2, a2.1, a2.2, a3.1, a3.2, a4.1, a4.2]

/-- The functions of the second kind have a relative error below 1.3e-8 and 1.5e-8 for every positive argument, except
very close to two numbers, and when the memory contains a particular value. -/
theorem accuracy (ww x : ℝ) (hx : 0 < x) (hm : x ≤ 9 → ¬ Remembered ww x) (he : x ≤ 9 → ¬ Exceptional x) :
    |(ik01a ww x).1 - besselK0 x| ≤ 1.3 / 10 ^ 8 * besselK0 x
    ∧ |(ik01a ww x).2 - besselK1 x| ≤ 1.5 / 10 ^ 8 * besselK1 x := by
  obtain ⟨f0, f1⟩ := first_kind x hx
  have hK := besselK0_nonneg x hx
  have hk : |(ik01a ww x).1 - besselK0 x| ≤ 1.3 / 10 ^ 8 * besselK0 x := by
    unfold ik01a
    rw [if_neg hx.ne']
    simp only
    rcases le_or_gt x 9 with h | h
    · rw [if_pos h]
      have he := he h
      unfold Exceptional at he
      push Not at he
      refine (kNear_close ww x hx h (hm h) he.1 he.2).trans ?_
      refine mul_le_mul_of_nonneg_right (by norm_num) hK
    · rw [if_neg (by linarith), expansion_pL]
      have p := abs_le.mp (product_close x h)
      have i0 : 0 < besselI 0 x := by linarith [besselI0_pos x hx]
      generalize (firstKind x).1 = b0 at *
      generalize ev pL (1 / x) = P at *
      have hb0 : (1 - 6 / 10 ^ 10) * besselI 0 x ≤ b0 := by linarith [(abs_le.mp f0).1]
      have hb0' : 0 < b0 := lt_of_lt_of_le (by norm_num at *; linarith) hb0
      have e : 0.5 / x * P / b0 - besselK0 x
          = ((P / (2 * x * besselI 0 x) - besselK0 x) * besselI 0 x - besselK0 x * (b0 - besselI 0 x)) / b0 := by
        field_simp; ring
      rw [e, abs_div, abs_of_pos hb0', div_le_iff₀ hb0']
      have q1 : |(P / (2 * x * besselI 0 x) - besselK0 x) * besselI 0 x| ≤ 1.2 / 10 ^ 8 * (besselK0 x * besselI 0 x) := by
        rw [abs_mul, abs_of_pos i0, ← mul_assoc]
        exact mul_le_mul_of_nonneg_right (abs_le.mpr p) i0.le
      have q2 : |besselK0 x * (b0 - besselI 0 x)| ≤ 6 / 10 ^ 10 * (besselK0 x * besselI 0 x) := by
        rw [abs_mul, abs_of_nonneg hK, mul_left_comm]
        exact mul_le_mul_of_nonneg_left f0 hK
      have q3 : besselK0 x * ((1 - 6 / 10 ^ 10) * besselI 0 x) ≤ besselK0 x * b0 := mul_le_mul_of_nonneg_left hb0 hK
      have q4 : 0 ≤ besselK0 x * besselI 0 x := by positivity
      have q1 := abs_le.mp q1
      have q2 := abs_le.mp q2
      generalize (P / (2 * x * besselI 0 x) - besselK0 x) * besselI 0 x = A at *
      generalize besselK0 x * (b0 - besselI 0 x) = B at *
      rw [abs_le]
      norm_num at *
      constructor <;> linarith [q1.1, q1.2, q2.1, q2.2]
  refine ⟨hk, ?_⟩
  have e : (ik01a ww x).2 = (1 / x - (firstKind x).2 * (ik01a ww x).1) / (firstKind x).1 := by
    unfold ik01a; rw [if_neg hx.ne']
  rw [e]
  exact order_one x _ _ _ hx f0 f1 hk

/-- The values which are returned satisfy the Wronskian with the functions of the first kind. -/
theorem returned_wronskian (ww x : ℝ) (hx : 0 < x) :
    (firstKind x).1 * (ik01a ww x).2 + (firstKind x).2 * (ik01a ww x).1 = 1 / x := by
  have f0 := (abs_le.mp (first_kind x hx).1).1
  have i0 := besselI0_pos x hx
  have hb0 : (firstKind x).1 ≠ 0 := by
    have : 0 < (firstKind x).1 := by norm_num at *; linarith
    exact this.ne'
  have e : (ik01a ww x).2 = (1 / x - (firstKind x).2 * (ik01a ww x).1) / (firstKind x).1 := by
    unfold ik01a; rw [if_neg hx.ne']
  rw [e]
  field_simp
  ring

/-- The value at zero, where the functions are infinite. -/
theorem at_zero (ww : ℝ) : ik01a ww 0 = (10 ^ 300, 10 ^ 300) := by
  unfold ik01a; rw [if_pos rfl]

/-! ### The memory -/

/-- Memory which contains zero does no harm. -/
theorem zero_memory (x : ℝ) : ¬ Remembered 0 x := by
  unfold Remembered
  rw [sub_zero]
  intro h
  have := abs_nonneg ((x / 2) ^ 2 * (1 - (log (x / 2) + (el : ℝ))))
  generalize |(x / 2) ^ 2 * (1 - (log (x / 2) + (el : ℝ)))| = a at *
  norm_num at h
  linarith

theorem kNear_first (ww x : ℝ) : kNear ww x = (open Classical in if Remembered ww x
      then (x / 2) ^ 2 * (1 - (log (x / 2) + el))
      else kLoop (x * x) (-(log (x / 2) + el)) 49 2 (harmonic 1) (rr (fun k => k * k) (x * x / 4) 1)
          (bk (x * x / 4) (-(log (x / 2) + el)) 1) (bk (x * x / 4) (-(log (x / 2) + el)) 1))
    + -(log (x / 2) + el) := by
  classical
  have e1 : (x / 2) ^ 2 * (1 - (log (x / 2) + (el : ℝ))) = bk (x * x / 4) (-(log (x / 2) + el)) 1 := by
    rw [bk_one]; ring
  have hs := kLoop_succ (x * x) (-(log (x / 2) + el)) 49 0 ww (Remembered ww x) (by
    unfold Remembered
    rw [e1, Nat.zero_add]
    constructor
    · rintro ⟨a, b⟩
      rwa [abs_div, div_lt_iff₀ (abs_pos.mpr a)] at b
    · intro h
      have a : bk (x * x / 4) (-(log (x / 2) + el)) 1 ≠ 0 := by
        intro h0
        rw [h0] at h
        simp at h
        exact absurd h (not_lt.mpr (abs_nonneg _))
      refine ⟨a, ?_⟩
      rwa [abs_div, div_lt_iff₀ (abs_pos.mpr a)])
  have e : kLoop (x * x) (-(log (x / 2) + el)) 50 1 0 1 0 ww
      = kLoop (x * x) (-(log (x / 2) + el)) (49 + 1) (0 + 1) (harmonic 0) (rr (fun k => k * k) (x * x / 4) 0)
        (bk (x * x / 4) (-(log (x / 2) + el)) 0) ww := by
    simp [rr, bk]
  unfold kNear
  simp only
  rw [e, hs, e1]

/-- Otherwise the result does not depend on the memory. -/
theorem memory_irrelevant (ww ww' x : ℝ) (h : x ≤ 9 → ¬ Remembered ww x) (h' : x ≤ 9 → ¬ Remembered ww' x) :
    ik01a ww x = ik01a ww' x := by
  unfold ik01a
  by_cases h0 : x = 0
  · rw [if_pos h0, if_pos h0]
  · rw [if_neg h0, if_neg h0]
    simp only
    by_cases h9 : x ≤ 9
    · rw [if_pos h9, if_pos h9, kNear_first, kNear_first, if_neg (h h9), if_neg (h' h9)]
    · rw [if_neg h9, if_neg h9]

/-- For every argument up to 9 there is a content of the memory for which only one term of the series is used. -/
theorem memory_one_term (x : ℝ) (h0 : 0 < x) (h9 : x ≤ 9) (hne : log (x / 2) + el ≠ 1) :
    (ik01a ((x / 2) ^ 2 * (1 - (log (x / 2) + el))) x).1
      = (x / 2) ^ 2 * (1 - (log (x / 2) + el)) - (log (x / 2) + el) := by
  have hr : Remembered ((x / 2) ^ 2 * (1 - (log (x / 2) + el))) x := by
    unfold Remembered
    rw [sub_self, abs_zero]
    have : (x / 2) ^ 2 * (1 - (log (x / 2) + (el : ℝ))) ≠ 0 :=
      mul_ne_zero (by positivity) (fun h => hne (by linarith))
    have := abs_pos.mpr this
    positivity
  unfold ik01a
  rw [if_neg h0.ne']
  simp only
  rw [if_pos h9, kNear_first, if_pos hr]
  ring

/-- The result depends on memory to which the routine has given no value: for some contents it is negative, although
the function is positive. -/
theorem memory_violated : ∃ ww : ℝ, (ik01a ww 2).1 < -0.15 ∧ 0 ≤ besselK0 2
    ∧ |(ik01a 0 2).1 - besselK0 2| ≤ 1.3 / 10 ^ 8 * besselK0 2 := by
  have hel1 : ((0.577 : ℚ) : ℝ) ≤ el := (Rat.cast_le (K := ℝ)).mpr (by decide +kernel)
  have hel2 : (el : ℝ) ≤ ((0.5773 : ℚ) : ℝ) := (Rat.cast_le (K := ℝ)).mpr (by decide +kernel)
  push_cast at hel1 hel2
  refine ⟨(2 / 2) ^ 2 * (1 - (log (2 / 2) + el)), ?_, besselK0_nonneg 2 (by norm_num), ?_⟩
  · rw [memory_one_term 2 (by norm_num) (by norm_num) (by norm_num at *; linarith)]
    norm_num at *
    linarith
  · refine (accuracy 0 2 (by norm_num) (fun _ => zero_memory 2) (fun _ => ?_)).1
    unfold Exceptional
    push Not
    constructor
    · rw [abs_sub_comm, le_abs]; left; norm_num at *; linarith
    · rw [abs_sub_comm, le_abs]; left; norm_num at *; linarith

/-! ### The exceptional arguments -/

theorem exceptional_le (c : ℝ) (hc : c ≤ 11 / 6) : 2 * exp (c - el) ≤ 9 := by
  have hel1 : ((0.577 : ℚ) : ℝ) ≤ el := (Rat.cast_le (K := ℝ)).mpr (by decide +kernel)
  push_cast at hel1
  have l := (abs_le.mp log_two).1
  have h : c - el ≤ log 4 := by
    rw [show (4 : ℝ) = 2 ^ 2 by norm_num, log_pow]
    norm_num at *
    linarith
  have := exp_le_exp.mpr h
  rw [exp_log (by norm_num)] at this
  linarith

/-- Where the second term of the series vanishes the loop stops after it, and the result is negative although the
function is positive. -/
theorem second_term_violated (ww : ℝ) :
    (ik01a ww (2 * exp (3 / 2 - el))).1 = -(exp (3 / 2 - el) ^ 2 / 2) - 3 / 2
    ∧ (ik01a ww (2 * exp (3 / 2 - el))).1 < -1.5 ∧ 0 ≤ besselK0 (2 * exp (3 / 2 - el)) := by
  classical
  have hE := exp_pos (3 / 2 - (el : ℝ))
  have hl : log (2 * exp (3 / 2 - (el : ℝ)) / 2) + el = 3 / 2 := by
    rw [mul_div_cancel_left₀ _ (by norm_num : (2 : ℝ) ≠ 0), log_exp]; ring
  have h9 := exceptional_le (3 / 2) (by norm_num)
  have hval : (ik01a ww (2 * exp (3 / 2 - el))).1 = -(exp (3 / 2 - el) ^ 2 / 2) - 3 / 2 := by
    unfold ik01a
    rw [if_neg (by positivity)]
    simp only
    rw [if_pos h9, kNear_first, hl]
    generalize exp (3 / 2 - (el : ℝ)) = E at *
    have eu : 2 * E * (2 * E) / 4 = E ^ 2 := by ring
    have hb1 : bk (E ^ 2) (-(3 / 2)) 1 = -(E ^ 2 / 2) := by rw [bk_one]; ring
    have hb2 : bk (E ^ 2) (-(3 / 2)) 2 = -(E ^ 2 / 2) := by rw [bk_two]; ring
    split_ifs with h
    · field_simp; ring
    · have hs := kLoop_succ (2 * E * (2 * E)) (-(3 / 2)) 48 1 (bk (2 * E * (2 * E) / 4) (-(3 / 2)) 1) True (by
        rw [eu, hb1]
        simp only [Nat.reduceAdd]
        rw [hb2, sub_self, zero_div, abs_zero]
        simp only [iff_true]
        exact ⟨by have : 0 < E ^ 2 := by positivity
                  linarith, by norm_num⟩)
      rw [if_pos trivial] at hs
      simp only [Nat.reduceAdd] at hs
      rw [hs, eu, hb2]
      ring
  refine ⟨hval, ?_, besselK0_nonneg _ (by positivity)⟩
  rw [hval]
  have : 0 < exp (3 / 2 - (el : ℝ)) ^ 2 := by positivity
  norm_num
  linarith

/-- Where the third term vanishes the loop stops after it at the latest, and the result is negative. -/
theorem third_term_violated (ww : ℝ) :
    (ik01a ww (2 * exp (11 / 6 - el))).1 < -11 / 6 ∧ 0 ≤ besselK0 (2 * exp (11 / 6 - el)) := by
  classical
  have hE := exp_pos (11 / 6 - (el : ℝ))
  have hl : log (2 * exp (11 / 6 - (el : ℝ)) / 2) + el = 11 / 6 := by
    rw [mul_div_cancel_left₀ _ (by norm_num : (2 : ℝ) ≠ 0), log_exp]; ring
  have h9 := exceptional_le (11 / 6) le_rfl
  refine ⟨?_, besselK0_nonneg _ (by positivity)⟩
  unfold ik01a
  rw [if_neg (by positivity)]
  simp only
  rw [if_pos h9, kNear_first, hl]
  generalize exp (11 / 6 - (el : ℝ)) = E at *
  have eu : 2 * E * (2 * E) / 4 = E ^ 2 := by ring
  have hE2 : 0 < E ^ 2 := by positivity
  have hE4 : 0 < (E ^ 2) ^ 2 := by positivity
  have hb1 : bk (E ^ 2) (-(11 / 6)) 1 < 0 := by rw [bk_one]; linarith
  have hb2 : bk (E ^ 2) (-(11 / 6)) 2 < 0 := by rw [bk_two]; linarith
  have hb3 : bk (E ^ 2) (-(11 / 6)) 3 = bk (E ^ 2) (-(11 / 6)) 2 := by rw [bk_three, bk_two]; ring
  split_ifs with h
  · have : (2 * E / 2) ^ 2 * (1 - 11 / 6) < 0 := by
      rw [mul_div_cancel_left₀ _ (by norm_num : (2 : ℝ) ≠ 0)]; linarith
    linarith
  · have hs := kLoop_succ (2 * E * (2 * E)) (-(11 / 6)) 48 1 (bk (2 * E * (2 * E) / 4) (-(11 / 6)) 1) _ Iff.rfl
    simp only [Nat.reduceAdd] at hs
    rw [hs, eu]
    split_ifs with h2
    · linarith
    · have hs := kLoop_succ (2 * E * (2 * E)) (-(11 / 6)) 47 2 (bk (2 * E * (2 * E) / 4) (-(11 / 6)) 2) True (by
        rw [eu]
        simp only [Nat.reduceAdd]
        rw [hb3, sub_self, zero_div, abs_zero]
        simp only [iff_true]
        exact ⟨hb2.ne, by norm_num⟩)
      rw [if_pos trivial] at hs
      simp only [Nat.reduceAdd] at hs
      rw [eu] at hs
      rw [hs, hb3]
      linarith

/-! ### Cases -/

example : ¬ Remembered 0 1 := zero_memory 1

example : 0 < (10 : ℝ) ∧ ((10 : ℝ) ≤ 9 → ¬ Remembered 7 10) ∧ ((10 : ℝ) ≤ 9 → ¬ Exceptional 10) :=
  ⟨by norm_num, fun h => by norm_num at h, fun h => by norm_num at h⟩

/-- An argument below 9 which is not exceptional. -/
example : ¬ Exceptional 2 := by
  have hel2 : (el : ℝ) ≤ ((0.5773 : ℚ) : ℝ) := (Rat.cast_le (K := ℝ)).mpr (by decide +kernel)
  push_cast at hel2
  unfold Exceptional
  push Not
  constructor
  · rw [abs_sub_comm, le_abs]; left; norm_num at *; linarith
  · rw [abs_sub_comm, le_abs]; left; norm_num at *; linarith

example : log (2 / 2) + (el : ℝ) ≠ 1 := by
  have hel2 : (el : ℝ) ≤ ((0.5773 : ℚ) : ℝ) := (Rat.cast_le (K := ℝ)).mpr (by decide +kernel)
  push_cast at hel2
  norm_num at *
  linarith

end Verif.Green.FinK
