/-
A test that a polynomial with integer coefficients is nonnegative on an interval, for larger degrees than
`Verif.Green.PolyBound`.  A tool of proofs; nothing here is a model of the code.
-/
import Verif.Green.PolyBound

namespace Verif.Green.IntPoly

open Verif.Green.PolyBound (ev)

/-- The value at `y` of the polynomial of coefficients `l`, lowest degree first. -/
def iev : List ℤ → ℝ → ℝ
  | [], _ => 0
  | a :: l, y => (a : ℝ) + y * iev l y

/-- The polynomial `k + (p + w u) * l`. -/
def step (p w : ℤ) : ℤ → List ℤ → List ℤ
  | k, [] => [k]
  | k, a :: l => (k + p * a) :: step p w (w * a) l

theorem iev_step (p w k : ℤ) (l : List ℤ) (u : ℝ) : iev (step p w k l) u = k + (p + w * u) * iev l u := by
  induction l generalizing k with
  | nil => simp [step, iev]
  | cons a l ih => simp only [step, iev, ih]; push_cast; ring

/-- The polynomial at `(p + w u) / q`, times a power of `q`, and that power. -/
def recentreI (p w q : ℤ) : List ℤ → List ℤ × ℤ
  | [] => ([], 1)
  | a :: l => (step p w (a * ((recentreI p w q l).2 * q)) (recentreI p w q l).1, (recentreI p w q l).2 * q)

theorem recentreI_pos (p w q : ℤ) (hq : 0 < q) (l : List ℤ) : 0 < (recentreI p w q l).2 := by
  induction l with
  | nil => simp [recentreI]
  | cons a l ih => simp only [recentreI]; positivity

theorem iev_recentreI (p w q : ℤ) (hq : 0 < q) (l : List ℤ) (u : ℝ) :
    iev (recentreI p w q l).1 u = (recentreI p w q l).2 * iev l ((p + w * u) / q) := by
  have hq' : (q : ℝ) ≠ 0 := by exact_mod_cast hq.ne'
  induction l with
  | nil => simp [recentreI, iev]
  | cons a l ih =>
    simp only [recentreI, iev, iev_step, ih]
    push_cast
    field_simp

/-- The sum of the absolute values of the coefficients. -/
def sizeI : List ℤ → ℕ
  | [] => 0
  | a :: l => a.natAbs + sizeI l

theorem abs_iev_le (l : List ℤ) (u : ℝ) (hu : |u| ≤ 1) : |iev l u| ≤ sizeI l := by
  induction l with
  | nil => simp [iev, sizeI]
  | cons a l ih =>
    simp only [iev, sizeI]
    push_cast
    refine (abs_add_le _ _).trans (add_le_add (by rw [Nat.cast_natAbs]; push_cast; exact le_refl _) ?_)
    rw [abs_mul]
    calc |u| * |iev l u| ≤ 1 * |iev l u| := mul_le_mul_of_nonneg_right hu (abs_nonneg _)
      _ ≤ _ := by rw [one_mul]; exact ih

/-- Is the constant coefficient larger than all the others together? -/
def dominantI : List ℤ → Bool
  | [] => true
  | a :: l => decide ((sizeI l : ℤ) ≤ a)

theorem dominantI_nonneg (l : List ℤ) (h : dominantI l = true) (u : ℝ) (hu : |u| ≤ 1) : 0 ≤ iev l u := by
  cases l with
  | nil => simp [iev]
  | cons a l =>
    simp only [dominantI, decide_eq_true_eq] at h
    have h1 := abs_iev_le l u hu
    have h2 : ((sizeI l : ℕ) : ℝ) ≤ (a : ℝ) := by exact_mod_cast h
    simp only [iev]
    have h3 : |u * iev l u| ≤ |iev l u| := by
      rw [abs_mul]
      exact (mul_le_mul_of_nonneg_right hu (abs_nonneg _)).trans_eq (one_mul _)
    have := (abs_le.1 (h3.trans h1)).1
    linarith

/-- Is the polynomial nonnegative between `(p - w) / q` and `(p + w) / q`? At most `n` bisections. -/
def nonnegI (l : List ℤ) : ℕ → ℤ → ℤ → ℤ → Bool
  | 0, p, w, q => dominantI (recentreI p w q l).1
  | n + 1, p, w, q => dominantI (recentreI p w q l).1 || (nonnegI l n (2 * p - w) w (2 * q) && nonnegI l n (2 * p + w) w (2 * q))

theorem nonnegI_on (l : List ℤ) (n : ℕ) (p w q : ℤ) (hw : 0 < w) (hq : 0 < q) (h : nonnegI l n p w q = true) (y : ℝ)
    (h1 : (p - w : ℝ) ≤ q * y) (h2 : q * y ≤ (p + w : ℝ)) : 0 ≤ iev l y := by
  have key : ∀ (p q : ℤ), 0 < q → dominantI (recentreI p w q l).1 = true → (p - w : ℝ) ≤ q * y → q * y ≤ (p + w : ℝ) →
      0 ≤ iev l y := by
    intro p q hq hd h1 h2
    have hw' : (0 : ℝ) < w := by exact_mod_cast hw
    have hq' : (0 : ℝ) < q := by exact_mod_cast hq
    have hu : |(q * y - p) / w| ≤ 1 := by
      rw [abs_le]
      constructor
      · rw [le_div_iff₀ hw']; linarith
      · rw [div_le_iff₀ hw']; linarith
    have := dominantI_nonneg _ hd _ hu
    rw [iev_recentreI p w q hq] at this
    have e : ((p : ℝ) + w * ((q * y - p) / w)) / q = y := by field_simp; ring
    rw [e] at this
    have hQ : (0 : ℝ) < (recentreI p w q l).2 := by exact_mod_cast recentreI_pos p w q hq l
    exact nonneg_of_mul_nonneg_right this hQ
  induction n generalizing p q with
  | zero => exact key p q hq h h1 h2
  | succ n ih =>
    simp only [nonnegI, Bool.or_eq_true, Bool.and_eq_true] at h
    rcases h with h | ⟨ha, hb⟩
    · exact key p q hq h h1 h2
    · rcases le_total (q * y) (p : ℝ) with hc | hc
      · exact ih (2 * p - w) (2 * q) (by omega) ha (by push_cast; linarith) (by push_cast; linarith)
      · exact ih (2 * p + w) (2 * q) (by omega) hb (by push_cast; linarith) (by push_cast; linarith)

/-- Are the integers `l` the coefficients of `m` times `s`? -/
def scaled (s : ℕ) : List ℚ → List ℤ → Bool
  | [], [] => true
  | a :: m, b :: l => decide (a * s = b) && scaled s m l
  | _, _ => false

theorem iev_scaled (s : ℕ) (m : List ℚ) (l : List ℤ) (h : scaled s m l = true) (y : ℝ) : iev l y = s * ev m y := by
  induction m generalizing l with
  | nil => cases l <;> simp_all [scaled, iev, ev]
  | cons a m ih =>
    cases l with
    | nil => simp [scaled] at h
    | cons b l =>
      simp only [scaled, Bool.and_eq_true, decide_eq_true_eq] at h
      have hb : (b : ℝ) = (a : ℝ) * s := by exact_mod_cast h.1.symm
      simp only [iev, ev, ih l h.2, hb]
      ring

end Verif.Green.IntPoly
