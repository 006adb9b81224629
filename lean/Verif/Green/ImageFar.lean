import Verif.Green.ImageProps
import Mathlib.Topology.Algebra.InfiniteSum.Real
import Mathlib.Topology.Algebra.InfiniteSum.NatInt
import Mathlib.Analysis.SpecificLimits.Basic
import Mathlib.Analysis.Normed.Group.InfiniteSum

/-!
# How well the polynomial stands for the images that are far away

The specification is the sum of all the images, each pair of images less the same pair seen from the middle (otherwise the sum diverges).
-/

namespace Verif.Green.Image

open Finset

/-- The two images at rank `l`, less their value at the origin. -/
noncomputable def pair (t z : ℝ) (l : ℕ) : ℝ :=
  1 / Real.sqrt (t ^ 2 + (z + 2 * l) ^ 2) + 1 / Real.sqrt (t ^ 2 + (z - 2 * l) ^ 2) - 1 / l

/-- All the images of one family. -/
noncomputable def family (t z : ℝ) : ℝ := 1 / Real.sqrt (t ^ 2 + z ^ 2) + ∑' l : ℕ, pair t z (l + 1)

/-- All the images of the two families, reflected in the free surface and in the bottom. -/
noncomputable def allImages (r zf zp h : ℝ) : ℝ := (family (r / h) ((zf - zp) / h) + family (r / h) ((zf + zp + 2 * h) / h)) / h

/-- The polynomial of one family. -/
noncomputable def farPoly (t z : ℝ) : ℝ := ∑ m ∈ range 5, ∑ n ∈ range 5, amn m n * t ^ (2 * m) * z ^ (2 * n)

/-- The images the polynomial stands for. -/
noncomputable def far (t z : ℝ) : ℝ := ∑' l : ℕ, pair t z (l + 2)

/-- `1 / ((l-1) l (l+1))` summed from `l = k + 2`. -/
theorem telescope (k : ℕ) :
    HasSum (fun l : ℕ => 1 / (((l : ℝ) + k + 1) * (l + k + 2) * (l + k + 3))) (1 / (2 * ((k : ℝ) + 1) * (k + 2))) := by
  rw [hasSum_iff_tendsto_nat_of_nonneg (fun l => by positivity)]
  have hs : ∀ n : ℕ, ∑ l ∈ range n, 1 / (((l : ℝ) + k + 1) * (l + k + 2) * (l + k + 3)) =
      1 / (2 * ((k : ℝ) + 1) * (k + 2)) - 1 / (2 * ((n : ℝ) + k + 1) * (n + k + 2)) := by
    intro n
    induction n with
    | zero => simp
    | succ n ih =>
      rw [sum_range_succ, ih]
      push_cast
      have : (0 : ℝ) ≤ n := Nat.cast_nonneg n
      have : (0 : ℝ) ≤ k := Nat.cast_nonneg k
      field_simp
      ring
  simp only [hs]
  have h0 : Filter.Tendsto (fun n : ℕ => 1 / (2 * ((n : ℝ) + k + 1) * (n + k + 2))) Filter.atTop (nhds 0) := by
    refine squeeze_zero (fun n => by positivity) (fun n => ?_) tendsto_one_div_add_atTop_nhds_zero_nat
    have : (0 : ℝ) ≤ n := Nat.cast_nonneg n
    have : (0 : ℝ) ≤ k := Nat.cast_nonneg k
    apply one_div_le_one_div_of_le (by positivity)
    nlinarith [mul_nonneg ‹(0 : ℝ) ≤ n› ‹(0 : ℝ) ≤ k›]
  simpa using h0.const_sub (1 / (2 * ((k : ℝ) + 1) * (k + 2)))

/-- The pair on the axis. -/
noncomputable def axisTerm (z : ℝ) (l : ℕ) : ℝ := z ^ 2 / (((l : ℝ) + 2) * (4 * ((l : ℝ) + 2) ^ 2 - z ^ 2))

theorem inv_sqrt_near {t a : ℝ} (ha : 0 < a) :
    0 ≤ 1 / a - 1 / Real.sqrt (t ^ 2 + a ^ 2) ∧ 1 / a - 1 / Real.sqrt (t ^ 2 + a ^ 2) ≤ t ^ 2 / (2 * a ^ 3) := by
  set s := Real.sqrt (t ^ 2 + a ^ 2) with hs
  have hsq : s ^ 2 = t ^ 2 + a ^ 2 := Real.sq_sqrt (by positivity)
  have has : a ≤ s := Real.le_sqrt_of_sq_le (by nlinarith [sq_nonneg t])
  have hs0 : 0 < s := ha.trans_le has
  constructor
  · exact sub_nonneg.2 (one_div_le_one_div_of_le ha has)
  · have e : 1 / a - 1 / s = t ^ 2 / (a * s * (s + a)) := by
      have : t ^ 2 = (s - a) * (s + a) := by nlinarith
      rw [this]
      field_simp
    rw [e]
    apply div_le_div_of_nonneg_left (sq_nonneg t) (by positivity)
    have h1 : a * a ≤ a * s := by nlinarith
    have h2 : 2 * a ≤ s + a := by linarith
    calc 2 * a ^ 3 = (a * a) * (2 * a) := by ring
      _ ≤ (a * s) * (s + a) := mul_le_mul h1 h2 (by positivity) (by positivity)

theorem pair_near {t z : ℝ} (hz : |z| ≤ 2) (l : ℕ) :
    |pair t z (l + 2) - axisTerm z l| ≤ t ^ 2 * (1 / (((l : ℝ) + 1) * (l + 2) * (l + 3))) := by
  obtain ⟨hz1, hz2⟩ := abs_le.1 hz
  have hl : (0 : ℝ) ≤ l := Nat.cast_nonneg l
  have ha : 0 < z + 2 * ((l : ℝ) + 2) := by linarith
  have hb : 0 < 2 * ((l : ℝ) + 2) - z := by linarith
  obtain ⟨a1, a2⟩ := inv_sqrt_near (t := t) ha
  obtain ⟨b1, b2⟩ := inv_sqrt_near (t := t) hb
  have hx : axisTerm z l = 1 / (z + 2 * ((l : ℝ) + 2)) + 1 / (2 * ((l : ℝ) + 2) - z) - 1 / ((l : ℝ) + 2) := by
    unfold axisTerm
    have h4 : (4 * ((l : ℝ) + 2) ^ 2 - z ^ 2) = (z + 2 * ((l : ℝ) + 2)) * (2 * ((l : ℝ) + 2) - z) := by ring
    rw [h4]
    field_simp
    ring
  have hp : pair t z (l + 2) = 1 / Real.sqrt (t ^ 2 + (z + 2 * ((l : ℝ) + 2)) ^ 2) +
      1 / Real.sqrt (t ^ 2 + (2 * ((l : ℝ) + 2) - z) ^ 2) - 1 / ((l : ℝ) + 2) := by
    unfold pair
    push_cast
    rw [show (z - 2 * ((l : ℝ) + 2)) ^ 2 = (2 * ((l : ℝ) + 2) - z) ^ 2 by ring]
  have hc : ∀ a : ℝ, 2 * ((l : ℝ) + 1) ≤ a → t ^ 2 / (2 * a ^ 3) ≤ t ^ 2 * (1 / (((l : ℝ) + 1) * (l + 2) * (l + 3))) / 2 := by
    intro a h
    have h0 : (0 : ℝ) < 2 * ((l : ℝ) + 1) := by linarith
    have h3 : (2 * ((l : ℝ) + 1)) ^ 3 ≤ a ^ 3 := pow_le_pow_left₀ h0.le h 3
    rw [show t ^ 2 * (1 / (((l : ℝ) + 1) * (l + 2) * (l + 3))) / 2 = t ^ 2 / (2 * (((l : ℝ) + 1) * (l + 2) * (l + 3))) by
      field_simp]
    apply div_le_div_of_nonneg_left (sq_nonneg t) (by positivity)
    nlinarith [mul_nonneg hl hl, mul_nonneg (mul_nonneg hl hl) hl]
  have ca := hc _ (show 2 * ((l : ℝ) + 1) ≤ z + 2 * ((l : ℝ) + 2) by linarith)
  have cb := hc _ (show 2 * ((l : ℝ) + 1) ≤ 2 * ((l : ℝ) + 2) - z by linarith)
  rw [hx, hp, abs_le]
  constructor <;> linarith

theorem axisTerm_bound {z : ℝ} (hz : |z| ≤ 2) (l : ℕ) :
    0 ≤ axisTerm z l ∧ axisTerm z l ≤ 1 / (((l : ℝ) + 1) * (l + 2) * (l + 3)) := by
  have hz2 : z ^ 2 ≤ 4 := by
    rw [← sq_abs]
    nlinarith [abs_nonneg z]
  have hl : (0 : ℝ) ≤ l := Nat.cast_nonneg l
  have hd : 0 < 4 * ((l : ℝ) + 2) ^ 2 - z ^ 2 := by nlinarith
  unfold axisTerm
  refine ⟨by positivity, ?_⟩
  rw [div_le_div_iff₀ (by positivity) (by positivity)]
  have : z ^ 2 * (((l : ℝ) + 1) * (l + 3)) ≤ 4 * ((l : ℝ) + 2) ^ 2 - z ^ 2 := by nlinarith [mul_nonneg hl hl]
  nlinarith [mul_le_mul_of_nonneg_left this (show (0 : ℝ) ≤ l + 2 by linarith)]

theorem bound_hasSum : HasSum (fun l : ℕ => 1 / (((l : ℝ) + 1) * (l + 2) * (l + 3))) (1 / 4) := by
  have h := telescope 0
  norm_num at h ⊢
  exact h

theorem axisTerm_summable {z : ℝ} (hz : |z| ≤ 2) : Summable (axisTerm z) :=
  Summable.of_nonneg_of_le (fun l => (axisTerm_bound hz l).1) (fun l => (axisTerm_bound hz l).2) bound_hasSum.summable

theorem pair_diff_summable {t z : ℝ} (hz : |z| ≤ 2) : Summable fun l => pair t z (l + 2) - axisTerm z l :=
  Summable.of_norm_bounded (bound_hasSum.summable.mul_left (t ^ 2)) fun l => by
    rw [Real.norm_eq_abs]
    exact pair_near hz l

theorem pair_summable {t z : ℝ} (hz : |z| ≤ 2) : Summable fun l => pair t z (l + 2) := by
  have := (pair_diff_summable (t := t) hz).add (axisTerm_summable hz)
  simpa using this

/-- Off the axis the far images change little. -/
theorem far_near_axis {t z : ℝ} (hz : |z| ≤ 2) : |far t z - ∑' l, axisTerm z l| ≤ t ^ 2 / 4 := by
  unfold far
  rw [← (pair_summable hz).tsum_sub (axisTerm_summable hz), ← Real.norm_eq_abs]
  have h := bound_hasSum.mul_left (t ^ 2)
  refine (tsum_of_norm_bounded h fun l => ?_).trans (by linarith)
  rw [Real.norm_eq_abs]
  exact pair_near hz l

/-- What the polynomial stands for at the height of the free surface. -/
theorem axis_two : ∑' l, axisTerm 2 l = 1 / 4 := by
  have : axisTerm 2 = fun l : ℕ => 1 / (((l : ℝ) + 1) * (l + 2) * (l + 3)) := by
    funext l
    unfold axisTerm
    have hl : (0 : ℝ) ≤ l := Nat.cast_nonneg l
    rw [show (4 * ((l : ℝ) + 2) ^ 2 - 2 ^ 2) = 4 * ((l + 1) * (l + 3)) by ring]
    field_simp
    norm_num
  rw [this]
  exact bound_hasSum.tsum_eq

theorem axis_zero : ∑' l, axisTerm 0 l = 0 := by simp [axisTerm]

/-- The code is the sum of all the images with the polynomials in place of the far ones. -/
theorem imgs_sub_all {r zf zp h : ℝ} (h2 : |(zf - zp) / h| ≤ 2) (h3 : |(zf + zp + 2 * h) / h| ≤ 2) :
    imgs r zf zp h - allImages r zf zp h =
      ((farPoly (r / h) ((zf - zp) / h) - far (r / h) ((zf - zp) / h)) +
        (farPoly (r / h) ((zf + zp + 2 * h) / h) - far (r / h) ((zf + zp + 2 * h) / h))) / h := by
  unfold imgs allImages
  generalize (zf - zp) / h = a at *
  generalize (zf + zp + 2 * h) / h = b at *
  generalize r / h = t at *
  have hf : ∀ z : ℝ, |z| ≤ 2 → family t z = 1 / Real.sqrt (t ^ 2 + z ^ 2) + pair t z 1 + far t z := by
    intro z hz
    have hs : Summable fun l : ℕ => pair t z (l + 1) := (summable_nat_add_iff 1).1 (by simpa using pair_summable hz)
    unfold family far
    rw [hs.tsum_eq_zero_add]
    ring_nf
  have hpoly : ∑ m ∈ range 5, ∑ n ∈ range 5, amn m n * t ^ (2 * m) * (a ^ (2 * n) + b ^ (2 * n)) = farPoly t a + farPoly t b := by
    unfold farPoly
    simp only [mul_add, sum_add_distrib]
  have hn : ∑ l ∈ range 3, (1 / rs t (a + shift l) + 1 / rs t (b + shift l)) - 2 =
      (1 / Real.sqrt (t ^ 2 + a ^ 2) + pair t a 1) + (1 / Real.sqrt (t ^ 2 + b ^ 2) + pair t b 1) := by
    simp only [sum_range_succ, sum_range_zero, shift, rs, pair]
    norm_num
    simp only [← sub_eq_add_neg]
    ring
  rw [hf a h2, hf b h3, ← sub_div]
  congr 1
  unfold imgsOf
  rw [hpoly, hn]
  ring

theorem farPoly_axis (z : ℝ) :
    farPoly 0 z = 0.05051418 * z ^ 2 + 0.00230838 * z ^ 4 + 0.00012934 * z ^ 6 + 0.00000913 * z ^ 8 := by
  unfold farPoly
  simp only [sum_range_succ, sum_range_zero, amn, amnCols]
  norm_num

/-- Off the axis the polynomial changes little. -/
theorem farPoly_near_axis {t z : ℝ} (ht : |t| ≤ 1) (hz : |z| ≤ 2) : |farPoly t z - farPoly 0 z| ≤ t ^ 2 / 10 := by
  have e : farPoly t z - farPoly 0 z = ∑ m ∈ range 4, ∑ n ∈ range 5, amn (m + 1) n * t ^ (2 * (m + 1)) * z ^ (2 * n) := by
    have hx : ∀ f : ℕ → ℝ, ∑ m ∈ range 5, f m = ∑ m ∈ range 4, f (m + 1) + f 0 := fun f => sum_range_succ' f 4
    unfold farPoly
    rw [hx (fun m => ∑ n ∈ range 5, amn m n * t ^ (2 * m) * z ^ (2 * n)),
      hx (fun m => ∑ n ∈ range 5, amn m n * 0 ^ (2 * m) * z ^ (2 * n))]
    simp
  rw [e]
  have hb : ∀ m n : ℕ, |amn (m + 1) n * t ^ (2 * (m + 1)) * z ^ (2 * n)| ≤ |amn (m + 1) n| * 4 ^ n * t ^ 2 := by
    intro m n
    have h1 : |t ^ (2 * (m + 1))| ≤ t ^ 2 := by
      rw [abs_pow, ← sq_abs t]
      exact pow_le_pow_of_le_one (abs_nonneg t) ht (by omega)
    have h2 : |z ^ (2 * n)| ≤ 4 ^ n := by
      rw [abs_pow, pow_mul]
      exact pow_le_pow_left₀ (by positivity) (by nlinarith [abs_nonneg z]) n
    rw [abs_mul, abs_mul]
    calc |amn (m + 1) n| * |t ^ (2 * (m + 1))| * |z ^ (2 * n)| ≤ |amn (m + 1) n| * t ^ 2 * 4 ^ n :=
          mul_le_mul (mul_le_mul_of_nonneg_left h1 (abs_nonneg _)) h2 (abs_nonneg _) (by positivity)
      _ = _ := by ring
  calc _ ≤ ∑ m ∈ range 4, ∑ n ∈ range 5, |amn (m + 1) n| * 4 ^ n * t ^ 2 :=
        (abs_sum_le_sum_abs _ _).trans (sum_le_sum fun m _ => (abs_sum_le_sum_abs _ _).trans (sum_le_sum fun n _ => hb m n))
    _ = (∑ m ∈ range 4, ∑ n ∈ range 5, |amn (m + 1) n| * 4 ^ n) * t ^ 2 := by simp only [sum_mul]
    _ ≤ (1 / 10) * t ^ 2 := by
        refine mul_le_mul_of_nonneg_right ?_ (sq_nonneg t)
        simp only [sum_range_succ, sum_range_zero, amn, amnCols]
        norm_num [abs_of_nonneg, abs_of_neg, abs_of_pos]
    _ = t ^ 2 / 10 := by ring

/-- For two points on the free surface the images are wrong by about 0.0004, in proportion of the depth: this error does not go to zero with the
distance of the points. -/
theorem images_surface_violated {r h : ℝ} (hh : 0 < h) (hr : |r / h| ≤ 1) :
    (39 / 100000 - (r / h) ^ 2) / h ≤ allImages r 0 0 h - imgs r 0 0 h := by
  have h2 : |((0 : ℝ) - 0) / h| ≤ 2 := by simp
  have e3 : ((0 : ℝ) + 0 + 2 * h) / h = 2 := by field_simp; ring
  have h3 : |((0 : ℝ) + 0 + 2 * h) / h| ≤ 2 := by rw [e3]; norm_num
  have key := imgs_sub_all (r := r) h2 h3
  rw [e3, show ((0 : ℝ) - 0) / h = 0 by simp] at key
  have z0 : |(0 : ℝ)| ≤ 2 := by norm_num
  have z2 : |(2 : ℝ)| ≤ 2 := by norm_num
  have a0 := abs_le.1 (farPoly_near_axis hr z0)
  have a2 := abs_le.1 (farPoly_near_axis hr z2)
  have b0 := abs_le.1 (far_near_axis (t := r / h) z0)
  have b2 := abs_le.1 (far_near_axis (t := r / h) z2)
  rw [axis_zero] at b0
  rw [axis_two] at b2
  rw [farPoly_axis] at a0 a2
  norm_num at a0 a2 b0 b2
  rw [← neg_sub (imgs r 0 0 h), key, ← neg_div]
  apply div_le_div_of_nonneg_right _ hh.le
  have := sq_nonneg (r / h)
  norm_num at *
  linarith [a0.1, a0.2, a2.1, a2.2, b0.1, b0.2, b2.1, b2.2]

/-- The sum of `1 / l ^ (p + 3)` from `l = 2`. -/
noncomputable def zeta (p : ℕ) : ℝ := ∑' l : ℕ, 1 / ((l : ℝ) + 2) ^ (p + 3)

theorem zeta_term_le (p k l : ℕ) :
    1 / ((l : ℝ) + k + 2) ^ (p + 3) ≤ 1 / ((k : ℝ) + 2) ^ p * (1 / (((l : ℝ) + k + 1) * (l + k + 2) * (l + k + 3))) := by
  have hl : (0 : ℝ) ≤ l := Nat.cast_nonneg l
  have hk : (0 : ℝ) ≤ k := Nat.cast_nonneg k
  rw [← one_div_mul_one_div_rev, ← one_div_mul_one_div_rev, one_div_mul_one_div_rev, one_div_mul_one_div_rev, one_div_mul_one_div_rev]
  apply one_div_le_one_div_of_le (by positivity)
  have h1 : ((k : ℝ) + 2) ^ p ≤ ((l : ℝ) + k + 2) ^ p := pow_le_pow_left₀ (by positivity) (by linarith) p
  have h2 : ((l : ℝ) + k + 1) * (l + k + 2) * (l + k + 3) ≤ ((l : ℝ) + k + 2) ^ 3 := by
    nlinarith [mul_nonneg hl hk]
  have h3 := mul_le_mul h1 h2 (by positivity) (by positivity)
  rw [← pow_add] at h3
  linarith [h3]

theorem zeta_summable (p : ℕ) : Summable fun l : ℕ => 1 / ((l : ℝ) + 2) ^ (p + 3) := by
  refine Summable.of_nonneg_of_le (fun l => by positivity) (fun l => ?_) ((telescope 0).summable.mul_left (1 / ((0 : ℕ) + 2 : ℝ) ^ p))
  simpa using zeta_term_le p 0 l

theorem zeta_split (p k : ℕ) :
    zeta p = ∑ l ∈ range k, 1 / ((l : ℝ) + 2) ^ (p + 3) + ∑' l : ℕ, 1 / ((l : ℝ) + k + 2) ^ (p + 3) := by
  unfold zeta
  rw [← (zeta_summable p).sum_add_tsum_nat_add k]
  push_cast
  rfl

theorem zeta_tail_summable (p k : ℕ) : Summable fun l : ℕ => 1 / ((l : ℝ) + k + 2) ^ (p + 3) := by
  have := (summable_nat_add_iff k).2 (zeta_summable p)
  push_cast at this
  exact this

theorem zeta_le (p k : ℕ) :
    zeta p ≤ ∑ l ∈ range k, 1 / ((l : ℝ) + 2) ^ (p + 3) + 1 / ((k : ℝ) + 2) ^ p * (1 / (2 * ((k : ℝ) + 1) * (k + 2))) := by
  rw [zeta_split p k]
  have h := (telescope k).mul_left (1 / ((k : ℝ) + 2) ^ p)
  have := (zeta_tail_summable p k).tsum_le_tsum (zeta_term_le p k) h.summable
  rw [h.tsum_eq] at this
  linarith

theorem le_zeta (p k : ℕ) : ∑ l ∈ range k, 1 / ((l : ℝ) + 2) ^ (p + 3) ≤ zeta p := by
  rw [zeta_split p k]
  have : 0 ≤ ∑' l : ℕ, 1 / ((l : ℝ) + k + 2) ^ (p + 3) := tsum_nonneg fun l => by positivity
  linarith

theorem le_zeta_three (k : ℕ) :
    ∑ l ∈ range k, 1 / ((l : ℝ) + 2) ^ 3 + 1 / (2 * ((k : ℝ) + 2) * (k + 3)) ≤ zeta 0 := by
  rw [zeta_split 0 k]
  have h := telescope (k + 1)
  have := h.summable.tsum_le_tsum (fun l => ?_) (zeta_tail_summable 0 k)
  · rw [h.tsum_eq] at this
    push_cast at this
    have e : 1 / (2 * ((k : ℝ) + 1 + 1) * (k + 1 + 2)) = 1 / (2 * ((k : ℝ) + 2) * (k + 3)) := by ring_nf
    simp only [zero_add] at this ⊢
    linarith
  · have hl : (0 : ℝ) ≤ l := Nat.cast_nonneg l
    have hk : (0 : ℝ) ≤ k := Nat.cast_nonneg k
    apply one_div_le_one_div_of_le (by positivity)
    push_cast
    nlinarith [mul_nonneg hl hk, mul_nonneg hl hl, mul_nonneg hk hk]

/-- What remains of the pair on the axis after four terms. -/
noncomputable def restTerm (z : ℝ) (l : ℕ) : ℝ := z ^ 10 / (256 * ((l : ℝ) + 2) ^ 9 * (4 * ((l : ℝ) + 2) ^ 2 - z ^ 2))

theorem restTerm_bound {z : ℝ} (hz : |z| ≤ 1) (l : ℕ) : 0 ≤ restTerm z l ∧ restTerm z l ≤ 1 / 960 * (1 / ((l : ℝ) + 2) ^ (8 + 3)) := by
  have hl : (0 : ℝ) ≤ l := Nat.cast_nonneg l
  have hz2 : z ^ 2 ≤ 1 := by
    rw [← sq_abs]
    nlinarith [abs_nonneg z]
  have hz10 : z ^ 10 ≤ 1 := by
    rw [show z ^ 10 = (z ^ 2) ^ 5 by ring]
    exact pow_le_one₀ (sq_nonneg z) hz2
  have hz0 : 0 ≤ z ^ 10 := by positivity
  have hd : 15 / 4 * ((l : ℝ) + 2) ^ 2 ≤ 4 * ((l : ℝ) + 2) ^ 2 - z ^ 2 := by nlinarith
  have hd0 : 0 < 15 / 4 * ((l : ℝ) + 2) ^ 2 := by positivity
  unfold restTerm
  have hdp := hd0.trans_le hd
  refine ⟨by positivity, ?_⟩
  rw [one_div_mul_one_div_rev]
  refine div_le_div₀ zero_le_one hz10 (by positivity) ?_
  calc ((l : ℝ) + 2) ^ (8 + 3) * 960 = 256 * ((l : ℝ) + 2) ^ 9 * (15 / 4 * ((l : ℝ) + 2) ^ 2) := by ring
    _ ≤ _ := mul_le_mul_of_nonneg_left hd (by positivity)

theorem axis_expand {z : ℝ} (hz : |z| ≤ 1) : ∃ e : ℝ, 0 ≤ e ∧ e ≤ 1 / 960 * zeta 8 ∧
    ∑' l, axisTerm z l = z ^ 2 / 4 * zeta 0 + z ^ 4 / 16 * zeta 2 + z ^ 6 / 64 * zeta 4 + z ^ 8 / 256 * zeta 6 + e := by
  have hr : Summable (restTerm z) := Summable.of_nonneg_of_le (fun l => (restTerm_bound hz l).1) (fun l => (restTerm_bound hz l).2)
    ((zeta_summable 8).mul_left _)
  refine ⟨∑' l, restTerm z l, tsum_nonneg fun l => (restTerm_bound hz l).1, ?_, ?_⟩
  · unfold zeta
    rw [← tsum_mul_left]
    exact hr.tsum_le_tsum (fun l => (restTerm_bound hz l).2) ((zeta_summable 8).mul_left _)
  · have e : axisTerm z = fun l : ℕ => z ^ 2 / 4 * (1 / ((l : ℝ) + 2) ^ (0 + 3)) + z ^ 4 / 16 * (1 / ((l : ℝ) + 2) ^ (2 + 3)) +
        z ^ 6 / 64 * (1 / ((l : ℝ) + 2) ^ (4 + 3)) + z ^ 8 / 256 * (1 / ((l : ℝ) + 2) ^ (6 + 3)) + restTerm z l := by
      funext l
      have hl : (0 : ℝ) ≤ l := Nat.cast_nonneg l
      have hz2 : z ^ 2 ≤ 1 := by
        rw [← sq_abs]
        nlinarith [abs_nonneg z]
      have hd : 4 * ((l : ℝ) + 2) ^ 2 - z ^ 2 ≠ 0 := by nlinarith
      unfold axisTerm restTerm
      have hx : (l : ℝ) + 2 ≠ 0 := by positivity
      generalize (l : ℝ) + 2 = x at *
      generalize hD : 4 * x ^ 2 - z ^ 2 = D at *
      field_simp
      rw [← hD]
      ring
    have s := fun (c : ℝ) (p : ℕ) => (zeta_summable p).hasSum.mul_left c
    rw [e]
    exact (((((s (z ^ 2 / 4) 0).add (s (z ^ 4 / 16) 2)).add (s (z ^ 6 / 64) 4)).add (s (z ^ 8 / 256) 6)).add hr.hasSum).tsum_eq

theorem axis_accuracy {z : ℝ} (hz : |z| ≤ 1) : |farPoly 0 z - ∑' l, axisTerm z l| ≤ 5 / 1000000 := by
  obtain ⟨e, e0, e1, he⟩ := axis_expand hz
  have u0 := zeta_le 0 100
  have l0 := le_zeta_three 100
  have u2 := zeta_le 2 20
  have l2 := le_zeta 2 20
  have u4 := zeta_le 4 10
  have l4 := le_zeta 4 10
  have u6 := zeta_le 6 6
  have l6 := le_zeta 6 6
  have u8 := zeta_le 8 2
  have c0 : |0.05051418 - zeta 0 / 4| ≤ 3.6 / 10 ^ 7 := by
    simp only [sum_range_succ, sum_range_zero] at u0 l0
    rw [abs_le]
    norm_num at u0 l0 ⊢
    constructor <;> linarith
  have c2 : |0.00230838 - zeta 2 / 16| ≤ 6.8 / 10 ^ 7 := by
    simp only [sum_range_succ, sum_range_zero] at u2 l2
    rw [abs_le]
    norm_num at u2 l2 ⊢
    constructor <;> linarith
  have c4 : |0.00012934 - zeta 4 / 64| ≤ 1.2 / 10 ^ 6 := by
    simp only [sum_range_succ, sum_range_zero] at u4 l4
    rw [abs_le]
    norm_num at u4 l4 ⊢
    constructor <;> linarith
  have c6 : |0.00000913 - zeta 6 / 256| ≤ 1.5 / 10 ^ 6 := by
    simp only [sum_range_succ, sum_range_zero] at u6 l6
    rw [abs_le]
    norm_num at u6 l6 ⊢
    constructor <;> linarith
  have c8 : 1 / 960 * zeta 8 ≤ 5.2 / 10 ^ 7 := by
    simp only [sum_range_succ, sum_range_zero] at u8
    norm_num at u8 ⊢
    linarith
  have hp : ∀ n : ℕ, 0 ≤ z ^ (2 * n) ∧ z ^ (2 * n) ≤ 1 := by
    intro n
    rw [pow_mul]
    refine ⟨by positivity, pow_le_one₀ (sq_nonneg z) ?_⟩
    rw [← sq_abs]
    nlinarith [abs_nonneg z]
  have hm : ∀ (c d : ℝ) (n : ℕ), |c| ≤ d → -d ≤ c * z ^ (2 * n) ∧ c * z ^ (2 * n) ≤ d := by
    intro c d n h
    obtain ⟨p0, p1⟩ := hp n
    have : |c * z ^ (2 * n)| ≤ d := by
      rw [abs_mul, abs_of_nonneg p0]
      nlinarith [abs_nonneg c]
    exact abs_le.1 this
  have m0 := hm _ _ 1 c0
  have m2 := hm _ _ 2 c2
  have m4 := hm _ _ 3 c4
  have m6 := hm _ _ 4 c6
  clear u0 l0 u2 l2 u4 l4 u6 l6 u8 c0 c2 c4 c6 hm hp
  rw [he, farPoly_axis]
  have eq : 0.05051418 * z ^ 2 + 0.00230838 * z ^ 4 + 0.00012934 * z ^ 6 + 0.00000913 * z ^ 8 -
      (z ^ 2 / 4 * zeta 0 + z ^ 4 / 16 * zeta 2 + z ^ 6 / 64 * zeta 4 + z ^ 8 / 256 * zeta 6 + e) =
      (0.05051418 - zeta 0 / 4) * z ^ (2 * 1) + (0.00230838 - zeta 2 / 16) * z ^ (2 * 2) + (0.00012934 - zeta 4 / 64) * z ^ (2 * 3) +
        (0.00000913 - zeta 6 / 256) * z ^ (2 * 4) - e := by ring
  rw [eq, abs_le]
  generalize (0.05051418 - zeta 0 / 4) * z ^ (2 * 1) = x0 at *
  generalize (0.00230838 - zeta 2 / 16) * z ^ (2 * 2) = x2 at *
  generalize (0.00012934 - zeta 4 / 64) * z ^ (2 * 3) = x4 at *
  generalize (0.00000913 - zeta 6 / 256) * z ^ (2 * 4) = x6 at *
  have e2 := e1.trans c8
  clear e1 c8 he eq
  norm_num at *
  constructor <;> linarith [m0.1, m0.2, m2.1, m2.2, m4.1, m4.2, m6.1, m6.2]

/-- When the sum of the two heights is below minus the depth, the images are accurate to a hundred thousandth and the square of the ratio of the horizontal
distance and the depth. What is missing: the polynomial follows the far images in that ratio too, which is not used here. -/
theorem images_accuracy_partial {r zf zp h : ℝ} (hh : 0 < h) (hr : |r / h| ≤ 1) (hf : -h ≤ zf) (hp : -h ≤ zp) (hs : zf + zp ≤ -h) :
    |imgs r zf zp h - allImages r zf zp h| ≤ (1 / 100000 + (r / h) ^ 2) / h := by
  have h2 : |(zf - zp) / h| ≤ 1 := by
    rw [abs_div, abs_of_pos hh, div_le_one hh, abs_le]
    constructor <;> linarith
  have h3 : |(zf + zp + 2 * h) / h| ≤ 1 := by
    rw [abs_div, abs_of_pos hh, div_le_one hh, abs_le]
    constructor <;> linarith
  rw [imgs_sub_all (h2.trans one_le_two) (h3.trans one_le_two), abs_div, abs_of_pos hh]
  apply div_le_div_of_nonneg_right _ hh.le
  have one : ∀ z : ℝ, |z| ≤ 1 → |farPoly (r / h) z - far (r / h) z| ≤ 5 / 1000000 + (r / h) ^ 2 / 2 := by
    intro z hz
    have a := abs_le.1 (farPoly_near_axis hr (hz.trans one_le_two))
    have b := abs_le.1 (far_near_axis (t := r / h) (hz.trans one_le_two))
    have c := abs_le.1 (axis_accuracy hz)
    have := sq_nonneg (r / h)
    rw [abs_le]
    constructor <;> linarith [a.1, a.2, b.1, b.2, c.1, c.2]
  refine (abs_add_le _ _).trans ?_
  linarith [one _ h2, one _ h3]

/-- A depth of ten, a point on the bottom and one at mid-depth. -/
example : (0 : ℝ) < 10 ∧ |(1 : ℝ) / 10 / 10| ≤ 1 ∧ (-10 : ℝ) ≤ -10 ∧ (-10 : ℝ) ≤ -5 ∧ (-10 : ℝ) + -5 ≤ -10 := by
  norm_num [abs_of_pos]

/-- At a distance of one hundredth of the depth the error on the free surface is at least 0.00029, against at most 0.00011 near the bottom. -/
example : (29 : ℝ) / 100000 ≤ allImages (1 / 100) 0 0 1 - imgs (1 / 100) 0 0 1 := by
  have := images_surface_violated (r := 1 / 100) (h := 1) one_pos (by norm_num [abs_of_pos])
  norm_num at this ⊢
  linarith

/-- What is left when the source and its image in the free surface are excluded (`FinGreen3D.f90:637-645`) stays bounded when the points come together, also
on the free surface: it is at most three divided by the depth, when the sum of the heights is at least minus the depth. -/
theorem images_bounded {r zf zp h : ℝ} (hh : 0 < h) (hr : |r / h| ≤ 1) (hf : -h ≤ zf) (hf0 : zf ≤ 0) (hp : -h ≤ zp) (hp0 : zp ≤ 0)
    (hs : -h ≤ zf + zp) :
    |imgs r zf zp h - (1 / √(r ^ 2 + (zf - zp) ^ 2) + 1 / √(r ^ 2 + (zf + zp) ^ 2))| ≤ 3 / h := by
  have hsc : ∀ c : ℝ, 1 / √(r ^ 2 + c ^ 2) = 1 / rs (r / h) (c / h) / h := by
    intro c
    have : r ^ 2 + c ^ 2 = h ^ 2 * ((r / h) ^ 2 + (c / h) ^ 2) := by field_simp
    rw [this, Real.sqrt_mul (sq_nonneg h), Real.sqrt_sq hh.le, rs, div_div, mul_comm h]
  have e3 : (zf + zp) / h = (zf + zp + 2 * h) / h - 2 := by field_simp; ring
  rw [hsc, hsc, e3, imgs]
  have a1 : |(zf - zp) / h| ≤ 1 := by
    rw [abs_div, abs_of_pos hh, div_le_one hh, abs_le]
    constructor <;> linarith
  have a2 : 1 ≤ (zf + zp + 2 * h) / h := by
    rw [le_div_iff₀ hh]
    linarith
  have a3 : (zf + zp + 2 * h) / h ≤ 2 := by
    rw [div_le_iff₀ hh]
    linarith
  generalize (zf - zp) / h = a at *
  generalize (zf + zp + 2 * h) / h = b at *
  generalize r / h = t at *
  have hpoly : ∑ m ∈ range 5, ∑ n ∈ range 5, amn m n * t ^ (2 * m) * (a ^ (2 * n) + b ^ (2 * n)) = farPoly t a + farPoly t b := by
    unfold farPoly
    simp only [mul_add, sum_add_distrib]
  have hn : ∑ l ∈ range 3, (1 / rs t (a + shift l) + 1 / rs t (b + shift l)) =
      1 / rs t a + 1 / rs t (b - 2) + (1 / rs t (a - 2) + 1 / rs t (a + 2) + 1 / rs t b + 1 / rs t (b + 2)) := by
    simp only [sum_range_succ, sum_range_zero, shift]
    norm_num
    simp only [← sub_eq_add_neg]
    ring
  have hterm : ∀ c : ℝ, 1 ≤ |c| → 0 ≤ 1 / rs t c ∧ 1 / rs t c ≤ 1 := by
    intro c hc
    have h1 : 1 ≤ rs t c := by
      rw [rs, Real.one_le_sqrt, ← sq_abs c]
      nlinarith [sq_nonneg t]
    exact ⟨by positivity, by rw [div_le_one (by linarith)]; exact h1⟩
  obtain ⟨a4, a5⟩ := abs_le.1 a1
  have t1 := hterm (a - 2) (by rw [abs_of_neg (by linarith)]; linarith)
  have t2 := hterm (a + 2) (by rw [abs_of_pos (by linarith)]; linarith)
  have t3 := hterm b (by rw [abs_of_pos (by linarith)]; linarith)
  have t4 := hterm (b + 2) (by rw [abs_of_pos (by linarith)]; linarith)
  have hpl : ∀ z : ℝ, |z| ≤ 2 → -(1 / 10) ≤ farPoly t z ∧ farPoly t z ≤ 1 / 2 := by
    intro z hz
    have q := abs_le.1 (farPoly_near_axis hr hz)
    have t2 : t ^ 2 ≤ 1 := by
      rw [← sq_abs]
      nlinarith [abs_nonneg t]
    have z2 : z ^ 2 ≤ 4 := by
      rw [← sq_abs]
      nlinarith [abs_nonneg z]
    have z0 : 0 ≤ z ^ 2 := sq_nonneg z
    have z4 : z ^ 4 ≤ 16 := by nlinarith [show z ^ 4 = z ^ 2 * z ^ 2 by ring]
    have z40 : 0 ≤ z ^ 4 := by positivity
    have z6 : z ^ 6 ≤ 64 := by nlinarith [show z ^ 6 = z ^ 4 * z ^ 2 by ring]
    have z60 : 0 ≤ z ^ 6 := by positivity
    have z8 : z ^ 8 ≤ 256 := by nlinarith [show z ^ 8 = z ^ 6 * z ^ 2 by ring]
    have z80 : 0 ≤ z ^ 8 := by positivity
    rw [farPoly_axis] at q
    norm_num at q
    constructor <;> linarith [q.1, q.2]
  have pa := hpl a (a1.trans one_le_two)
  have pb := hpl b (by rw [abs_of_pos (by linarith)]; exact a3)
  unfold imgsOf
  rw [hpoly, hn, ← add_div, ← sub_div, abs_div, abs_of_pos hh]
  apply div_le_div_of_nonneg_right _ hh.le
  rw [abs_le]
  constructor <;> linarith [t1.1, t1.2, t2.1, t2.2, t3.1, t3.2, t4.1, t4.2, pa.1, pa.2, pb.1, pb.2]

/-- Two points on the free surface. -/
example : (0 : ℝ) < 10 ∧ |(1 : ℝ) / 10| ≤ 1 ∧ (-10 : ℝ) ≤ 0 ∧ (-10 : ℝ) ≤ 0 + 0 := by norm_num [abs_of_pos]

end Verif.Green.Image
