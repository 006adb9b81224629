import Verif.Green.ImageModel
import Mathlib.Analysis.Calculus.Deriv.Pow
import Mathlib.Analysis.Calculus.Deriv.Inv
import Mathlib.Analysis.SpecialFunctions.Pow.Deriv

/-!
# The derivatives of the image sources
-/

namespace Verif.Green.Image

open Finset

theorem rs_pos {t a : ℝ} (h : t ≠ 0 ∨ a ≠ 0) : 0 < t ^ 2 + a ^ 2 := by
  rcases h with h | h
  · have := sq_pos_of_ne_zero h
    positivity
  · have := sq_pos_of_ne_zero h
    positivity

theorem rs_comm (t a : ℝ) : rs t a = rs a t := by rw [rs, rs, add_comm]

theorem inv_rs_deriv {t a : ℝ} (h : t ≠ 0 ∨ a ≠ 0) : HasDerivAt (fun t => 1 / rs t a) (-(t / rs t a ^ 3)) t := by
  have hp := rs_pos h
  have hs : 0 < rs t a := Real.sqrt_pos.2 hp
  have h1 : HasDerivAt (fun t : ℝ => t ^ 2 + a ^ 2) (2 * t) t := by
    simpa using (hasDerivAt_pow 2 t).add_const (a ^ 2)
  have h2 : HasDerivAt (fun t => rs t a) (2 * t / (2 * rs t a)) t := h1.sqrt hp.ne'
  refine (((hasDerivAt_const t (1 : ℝ)).div h2 hs.ne')).congr_deriv ?_
  field_simp
  ring

/-- The point and its images are not at the same place. -/
def Apart (t1 t2 t3 : ℝ) : Prop := t1 ≠ 0 ∨ ∀ l < 3, t2 + shift l ≠ 0 ∧ t3 + shift l ≠ 0

theorem Apart.left {t1 t2 t3 : ℝ} (h : Apart t1 t2 t3) {l : ℕ} (hl : l ∈ range 3) : t1 ≠ 0 ∨ t2 + shift l ≠ 0 :=
  h.imp id fun e => (e l (mem_range.1 hl)).1

theorem Apart.right {t1 t2 t3 : ℝ} (h : Apart t1 t2 t3) {l : ℕ} (hl : l ∈ range 3) : t1 ≠ 0 ∨ t3 + shift l ≠ 0 :=
  h.imp id fun e => (e l (mem_range.1 hl)).2

theorem imgsOf_deriv_r {t1 t2 t3 : ℝ} (h : Apart t1 t2 t3) : HasDerivAt (fun t => imgsOf t t2 t3) (dgsrOf t1 t2 t3) t1 := by
  have h1 : HasDerivAt (fun t => ∑ l ∈ range 3, (1 / rs t (t2 + shift l) + 1 / rs t (t3 + shift l)))
      (∑ l ∈ range 3, (-(t1 / rs t1 (t2 + shift l) ^ 3) + -(t1 / rs t1 (t3 + shift l) ^ 3))) t1 :=
    HasDerivAt.fun_sum fun l hl => (inv_rs_deriv (h.left hl)).add (inv_rs_deriv (h.right hl))
  have h2 : HasDerivAt (fun t : ℝ => ∑ m ∈ range 5, ∑ n ∈ range 5, amn m n * t ^ (2 * m) * (t2 ^ (2 * n) + t3 ^ (2 * n)))
      (∑ m ∈ range 5, ∑ n ∈ range 5, amn m n * (((2 * m : ℕ) : ℝ) * t1 ^ (2 * m - 1)) * (t2 ^ (2 * n) + t3 ^ (2 * n))) t1 :=
    HasDerivAt.fun_sum fun m _ => HasDerivAt.fun_sum fun n _ => ((hasDerivAt_pow (2 * m) t1).const_mul _).mul_const _
  refine ((h1.sub_const 2).add h2).congr_deriv ?_
  unfold dgsrOf
  congr 1
  · rw [← sum_neg_distrib]
    exact sum_congr rfl fun l _ => by ring
  · rw [sum_range_succ' _ 4]
    simp only [mul_zero, Nat.cast_zero, zero_mul, sum_const_zero, add_zero]
    refine sum_congr rfl fun m _ => sum_congr rfl fun n _ => ?_
    rw [show 2 * (m + 1) - 1 = 2 * m + 1 by omega]
    push_cast
    ring

theorem imgsOf_deriv_z {t1 t2 t3 : ℝ} (h : Apart t1 t2 t3) :
    HasDerivAt (fun s => imgsOf t1 (t2 + s) (t3 + s)) (dgszOf t1 t2 t3) 0 := by
  have hid : ∀ a : ℝ, HasDerivAt (fun s : ℝ => a + s) 1 0 := fun a => (hasDerivAt_id (0 : ℝ)).const_add a
  have hinv : ∀ a : ℝ, (t1 ≠ 0 ∨ a ≠ 0) → HasDerivAt (fun s => 1 / rs t1 (a + s)) (-(a / rs t1 a ^ 3)) 0 := by
    intro a ha
    have e : (fun s => 1 / rs t1 (a + s)) = (fun u => 1 / rs u t1) ∘ fun s => a + s := by
      funext s
      simp only [Function.comp]
      rw [rs_comm]
    rw [e]
    have h1 : HasDerivAt (fun u => 1 / rs u t1) (-((a + 0) / rs (a + 0) t1 ^ 3)) (a + 0) :=
      inv_rs_deriv (by rw [add_zero]; exact ha.symm)
    refine (HasDerivAt.comp (0 : ℝ) h1 (hid a)).congr_deriv ?_
    rw [add_zero, mul_one, rs_comm]
  have h1 : HasDerivAt (fun s => ∑ l ∈ range 3, (1 / rs t1 (t2 + s + shift l) + 1 / rs t1 (t3 + s + shift l)))
      (∑ l ∈ range 3, (-((t2 + shift l) / rs t1 (t2 + shift l) ^ 3) + -((t3 + shift l) / rs t1 (t3 + shift l) ^ 3))) 0 := by
    refine HasDerivAt.fun_sum fun l hl => ?_
    have a := hinv _ (h.left hl)
    have b := hinv _ (h.right hl)
    simp only [add_right_comm _ (shift l)] at a b
    exact a.add b
  have hpow : ∀ (a : ℝ) (n : ℕ), HasDerivAt (fun s : ℝ => (a + s) ^ (2 * n)) (((2 * n : ℕ) : ℝ) * a ^ (2 * n - 1)) 0 := by
    intro a n
    refine ((hid a).pow (2 * n)).congr_deriv ?_
    rw [add_zero, mul_one]
  have h2 : HasDerivAt (fun s : ℝ => ∑ m ∈ range 5, ∑ n ∈ range 5, amn m n * t1 ^ (2 * m) * ((t2 + s) ^ (2 * n) + (t3 + s) ^ (2 * n)))
      (∑ m ∈ range 5, ∑ n ∈ range 5, amn m n * t1 ^ (2 * m) *
        (((2 * n : ℕ) : ℝ) * t2 ^ (2 * n - 1) + ((2 * n : ℕ) : ℝ) * t3 ^ (2 * n - 1))) 0 :=
    HasDerivAt.fun_sum fun m _ => HasDerivAt.fun_sum fun n _ => ((hpow t2 n).add (hpow t3 n)).const_mul _
  refine ((h1.sub_const 2).add h2).congr_deriv ?_
  unfold dgszOf
  congr 1
  · rw [← sum_neg_distrib]
    exact sum_congr rfl fun l _ => by ring
  · refine sum_congr rfl fun m _ => ?_
    rw [sum_range_succ' _ 4]
    simp only [mul_zero, Nat.cast_zero, zero_mul, add_zero]
    refine sum_congr rfl fun n _ => ?_
    rw [show 2 * (n + 1) - 1 = 2 * n + 1 by omega]
    push_cast
    ring

/-- `DGSR` is the derivative of `IMGS` with respect to the horizontal distance. -/
theorem images_deriv_r {r zf zp h : ℝ} (hh : h ≠ 0) (ha : Apart (r / h) ((zf - zp) / h) ((zf + zp + 2 * h) / h)) :
    HasDerivAt (fun r => imgs r zf zp h) (dgsr r zf zp h) r := by
  have h1 := imgsOf_deriv_r ha
  have h2 : HasDerivAt (fun r : ℝ => r / h) (1 / h) r := (hasDerivAt_id r).div_const h
  refine ((HasDerivAt.comp r h1 h2).div_const h).congr_deriv ?_
  unfold dgsr
  field_simp

/-- `DGSZ` is the derivative of `IMGS` with respect to the first height. -/
theorem images_deriv_z {r zf zp h : ℝ} (hh : h ≠ 0) (ha : Apart (r / h) ((zf - zp) / h) ((zf + zp + 2 * h) / h)) :
    HasDerivAt (fun z => imgs r z zp h) (dgsz r zf zp h) zf := by
  have h1 := imgsOf_deriv_z ha
  have h2 : HasDerivAt (fun z : ℝ => (z - zf) / h) (1 / h) zf := ((hasDerivAt_id zf).sub_const zf).div_const h
  rw [show (0 : ℝ) = (zf - zf) / h by simp] at h1
  refine (((HasDerivAt.comp zf h1 h2).div_const h).congr_deriv ?_).congr_of_eventuallyEq ?_
  · unfold dgsz
    field_simp
  · refine Filter.Eventually.of_forall fun z => ?_
    simp only [imgs, Function.comp]
    congr 2 <;> field_simp <;> ring

/-- Exchanging the two points does not change the value. -/
theorem images_symmetric (r zf zp h : ℝ) : imgs r zf zp h = imgs r zp zf h := by
  unfold imgs
  rw [show (zp - zf) / h = -((zf - zp) / h) by ring, add_comm zp zf]
  generalize (zf - zp) / h = a
  congr 1
  unfold imgsOf
  have hr : ∀ t x : ℝ, rs t (-x) = rs t x := fun t x => by rw [rs, rs, neg_sq]
  congr 1
  · simp only [sum_range_succ, sum_range_zero, shift]
    have e0 := hr (r / h) (a + 2 * ((2 : ℕ) - 1))
    have e1 := hr (r / h) (a + 2 * ((1 : ℕ) - 1))
    have e2 := hr (r / h) (a + 2 * ((0 : ℕ) - 1))
    rw [show -a + 2 * (((0 : ℕ) : ℝ) - 1) = -(a + 2 * ((2 : ℕ) - 1)) by push_cast; ring,
      show -a + 2 * (((1 : ℕ) : ℝ) - 1) = -(a + 2 * ((1 : ℕ) - 1)) by push_cast; ring,
      show -a + 2 * (((2 : ℕ) : ℝ) - 1) = -(a + 2 * ((0 : ℕ) - 1)) by push_cast; ring, e0, e1, e2]
    ring
  · refine sum_congr rfl fun m _ => sum_congr rfl fun n _ => ?_
    rw [(even_two_mul n).neg_pow]

/-- Two points below each other at some distance. -/
example : Apart (1 / 10) ((-1 - -2) / 10) ((-1 + -2 + 2 * 10) / 10) := Or.inl (by norm_num)

end Verif.Green.Image
