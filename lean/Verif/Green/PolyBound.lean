/-
Polynomials with rational coefficients as lists, and a test that such a polynomial is nonnegative on an
interval.  These are tools of the proofs about the approximations of Bessel and Struve functions
(`Verif.Green.LwnModel`); nothing here is a model of the code.
-/
import Mathlib.Data.Rat.Cast.Order
import Mathlib.Data.Real.Basic
import Mathlib.Tactic.Linarith
import Mathlib.Tactic.Ring
import Mathlib.Tactic.FieldSimp
import Mathlib.Tactic.Push
import Mathlib.Tactic.NormNum

namespace Verif.Green.PolyBound

/-- The value at `y` of the polynomial of coefficients `l`, lowest degree first. -/
def ev : List ℚ → ℝ → ℝ
  | [], _ => 0
  | a :: l, y => (a : ℝ) + y * ev l y

/-- Sum of two polynomials. -/
def padd : List ℚ → List ℚ → List ℚ
  | [], m => m
  | l, [] => l
  | a :: l, b :: m => (a + b) :: padd l m

/-- Product by a number. -/
def pscale (c : ℚ) (l : List ℚ) : List ℚ := l.map (c * ·)

/-- Product of two polynomials. -/
def pmul : List ℚ → List ℚ → List ℚ
  | [], _ => []
  | a :: l, m => padd (pscale a m) (0 :: pmul l m)

/-- Difference of two polynomials. -/
def psub (l m : List ℚ) : List ℚ := padd l (pscale (-1) m)

/-- `y ^ k` times the polynomial. -/
def pshift (k : ℕ) (l : List ℚ) : List ℚ := List.replicate k 0 ++ l

/-- The polynomial `c * y ^ k`. -/
def mono (c : ℚ) (k : ℕ) : List ℚ := pshift k [c]

theorem ev_padd (l m : List ℚ) (y : ℝ) : ev (padd l m) y = ev l y + ev m y := by
  induction l generalizing m with
  | nil => simp [padd, ev]
  | cons a l ih =>
    cases m with
    | nil => simp [padd, ev]
    | cons b m => simp only [padd, ev, ih]; push_cast; ring

theorem ev_pscale (c : ℚ) (l : List ℚ) (y : ℝ) : ev (pscale c l) y = c * ev l y := by
  induction l with
  | nil => simp [pscale, ev]
  | cons a l ih =>
    simp only [pscale, List.map_cons, ev] at *
    rw [ih]; push_cast; ring

theorem ev_pmul (l m : List ℚ) (y : ℝ) : ev (pmul l m) y = ev l y * ev m y := by
  induction l with
  | nil => simp [pmul, ev]
  | cons a l ih => simp only [pmul, ev_padd, ev_pscale, ev, ih]; push_cast; ring

theorem ev_psub (l m : List ℚ) (y : ℝ) : ev (psub l m) y = ev l y - ev m y := by
  rw [psub, ev_padd, ev_pscale]; push_cast; ring

theorem ev_pshift (k : ℕ) (l : List ℚ) (y : ℝ) : ev (pshift k l) y = y ^ k * ev l y := by
  induction k with
  | zero => simp [pshift]
  | succ k ih =>
    rw [pshift, List.replicate_succ, List.cons_append, ev]
    rw [pshift] at ih
    rw [ih]; push_cast; ring

theorem ev_mono (c : ℚ) (k : ℕ) (y : ℝ) : ev (mono c k) y = c * y ^ k := by
  rw [mono, ev_pshift]; simp [ev]; ring

/-- The polynomial `u ↦ l (c + h * u)`. -/
def recentre (c h : ℚ) : List ℚ → List ℚ
  | [] => []
  | a :: l => padd [a] (pmul [c, h] (recentre c h l))

theorem ev_recentre (c h : ℚ) (l : List ℚ) (u : ℝ) :
    ev (recentre c h l) u = ev l (c + h * u) := by
  induction l with
  | nil => simp [recentre, ev]
  | cons a l ih => simp only [recentre, ev_padd, ev_pmul, ev, ih]; ring

/-- The sum of the absolute values of the coefficients. -/
def size : List ℚ → ℚ
  | [] => 0
  | a :: l => |a| + size l

theorem size_nonneg (l : List ℚ) : 0 ≤ size l := by
  induction l with
  | nil => simp [size]
  | cons a l ih => simp only [size]; positivity

theorem abs_ev_le (l : List ℚ) (u : ℝ) (hu : |u| ≤ 1) : |ev l u| ≤ size l := by
  induction l with
  | nil => simp [ev, size]
  | cons a l ih =>
    simp only [ev, size]
    push_cast
    refine (abs_add_le _ _).trans (add_le_add (by simp) ?_)
    rw [abs_mul]
    calc |u| * |ev l u| ≤ 1 * |ev l u| := mul_le_mul_of_nonneg_right hu (abs_nonneg _)
      _ ≤ _ := by rw [one_mul]; exact ih

/-- Is the constant coefficient larger than all the others together? -/
def dominant : List ℚ → Bool
  | [] => true
  | a :: l => decide (size l ≤ a)

theorem dominant_nonneg (l : List ℚ) (h : dominant l = true) (u : ℝ) (hu : |u| ≤ 1) : 0 ≤ ev l u := by
  cases l with
  | nil => simp [ev]
  | cons a l =>
    simp only [dominant, decide_eq_true_eq] at h
    have h1 := abs_ev_le l u hu
    have h2 : |u * ev l u| ≤ size l := by
      rw [abs_mul]
      calc |u| * |ev l u| ≤ 1 * |ev l u| := mul_le_mul_of_nonneg_right hu (abs_nonneg _)
        _ ≤ _ := by rw [one_mul]; exact h1
    have h3 : ((size l : ℚ) : ℝ) ≤ a := by exact_mod_cast h
    have h4 := (abs_le.mp h2).1
    simp only [ev]
    linarith

/-- Is the polynomial nonnegative between `c - h` and `c + h`?  The interval is cut in two, at most `n`
times. -/
def nonneg (l : List ℚ) : ℕ → ℚ → ℚ → Bool
  | 0, c, h => dominant (recentre c h l)
  | n + 1, c, h => dominant (recentre c h l) ||
      (nonneg l n (c - h / 2) (h / 2) && nonneg l n (c + h / 2) (h / 2))

theorem dominant_on (l : List ℚ) (c h : ℚ) (hh : 0 < h) (t : dominant (recentre c h l) = true) (y : ℝ)
    (h1 : (c : ℝ) - h ≤ y) (h2 : y ≤ c + h) : 0 ≤ ev l y := by
  have hh' : (0 : ℝ) < h := by exact_mod_cast hh
  have := dominant_nonneg _ t ((y - c) / h) (by
    rw [abs_div, abs_of_pos hh', div_le_one hh', abs_le]; constructor <;> linarith)
  rw [ev_recentre] at this
  have e : (c : ℝ) + h * ((y - c) / h) = y := by field_simp; ring
  rwa [e] at this

theorem nonneg_on (l : List ℚ) (n : ℕ) (c h : ℚ) (hh : 0 < h) (t : nonneg l n c h = true) (y : ℝ)
    (h1 : (c : ℝ) - h ≤ y) (h2 : y ≤ c + h) : 0 ≤ ev l y := by
  induction n generalizing c h with
  | zero => exact dominant_on l c h hh t y h1 h2
  | succ n ih =>
    simp only [nonneg, Bool.or_eq_true, Bool.and_eq_true] at t
    rcases t with t | ⟨ta, tb⟩
    · exact dominant_on l c h hh t y h1 h2
    · rcases le_total y c with hy | hy
      · refine ih _ _ (by linarith) ta ?_ ?_ <;> push_cast <;> linarith
      · refine ih _ _ (by linarith) tb ?_ ?_ <;> push_cast <;> linarith

/-- The test on the interval from 0 to 1. -/
theorem nonneg_unit (l : List ℚ) (n : ℕ) (t : nonneg l n (1 / 2) (1 / 2) = true) (y : ℝ)
    (h1 : 0 ≤ y) (h2 : y ≤ 1) : 0 ≤ ev l y := by
  refine nonneg_on l n _ _ (by norm_num) t y ?_ ?_ <;> push_cast <;> linarith

/-- Bound of the absolute value on the interval from 0 to 1. -/
theorem abs_le_unit (l m : List ℚ) (n : ℕ) (t1 : nonneg (psub m l) n (1 / 2) (1 / 2) = true)
    (t2 : nonneg (padd m l) n (1 / 2) (1 / 2) = true) (y : ℝ) (h1 : 0 ≤ y) (h2 : y ≤ 1) :
    |ev l y| ≤ ev m y := by
  have a := nonneg_unit _ n t1 y h1 h2
  have b := nonneg_unit _ n t2 y h1 h2
  rw [ev_psub] at a
  rw [ev_padd] at b
  rw [abs_le]; constructor <;> linarith

end Verif.Green.PolyBound
