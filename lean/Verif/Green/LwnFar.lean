/-
The approximations of the functions of Bessel and Struve beyond 3.
-/
import Mathlib.Analysis.SpecialFunctions.Trigonometric.Series
import Verif.Green.LwnNear
import Verif.Green.LwnOsc

namespace Verif.Green.Lwn

open Real Verif.Green.PolyBound
open scoped Nat

/-! ### Numbers -/

/-- The value of a polynomial at a rational number. -/
def evq : List ℚ → ℚ → ℚ
  | [], _ => 0
  | a :: l, y => a + y * evq l y

theorem ev_cast (l : List ℚ) (q : ℚ) : ev l (q : ℝ) = (evq l q : ℚ) := by
  induction l with
  | nil => simp [ev, evq]
  | cons a l ih => simp only [ev, evq, ih]; push_cast; ring

theorem at3_three (l : List ℚ) : at3 l 3 = (evq l 1 : ℚ) := by
  unfold at3
  rw [← ev_cast]
  norm_num

/-- Coefficients of the cosine and of the sine. -/
def cCos (k : ℕ) : ℚ := (-1) ^ k / ((2 * k)! : ℚ)

/-- Coefficients of the sine. -/
def cSin (k : ℕ) : ℚ := (-1) ^ k / ((2 * k + 1)! : ℚ)

theorem ratio_cos (k : ℕ) : |cCos (k + 1)| ≤ |cCos k| / 2 := by
  refine half_of_ratio _ _ (1 / ((2 * (k : ℚ) + 1) * (2 * k + 2))) ?_ (by positivity) ?_
  · unfold cCos
    rw [show 2 * (k + 1) = (2 * k + 1) + 1 from by ring, Nat.factorial_succ, Nat.factorial_succ]
    push_cast
    have : ((2 * k)! : ℚ) ≠ 0 := by positivity
    field_simp
    ring
  · rw [div_le_div_iff₀ (by positivity) (by norm_num)]
    have : (0 : ℚ) ≤ k := by positivity
    nlinarith

theorem ratio_sin (k : ℕ) : |cSin (k + 1)| ≤ |cSin k| / 2 := by
  refine half_of_ratio _ _ (1 / ((2 * (k : ℚ) + 2) * (2 * k + 3))) ?_ (by positivity) ?_
  · unfold cSin
    rw [show 2 * (k + 1) + 1 = (2 * k + 1 + 1) + 1 from by ring, Nat.factorial_succ (2 * k + 1 + 1),
      Nat.factorial_succ (2 * k + 1)]
    push_cast
    have : ((2 * k + 1)! : ℚ) ≠ 0 := by positivity
    field_simp
    ring
  · rw [div_le_div_iff₀ (by positivity) (by norm_num)]
    have : (0 : ℚ) ≤ k := by positivity
    nlinarith

/-- The number is the cosine of `q` up to `10 ^ (-9)`. -/
def cosTest (q C : ℚ) : Bool :=
  decide (|q| ≤ 1 ∧ |evq ((List.range 8).map cCos) (q ^ 2) - C| + 2 * |cCos 8| ≤ 1 / 10 ^ 9)

/-- The number is the sine of `q` up to `10 ^ (-9)`. -/
def sinTest (q S : ℚ) : Bool :=
  decide (|q| ≤ 1 ∧ |q * evq ((List.range 8).map cSin) (q ^ 2) - S| + 2 * |cSin 8| ≤ 1 / 10 ^ 9)

theorem sq_le_one_of_abs (q : ℝ) (h : |q| ≤ 1) : |q ^ 2| ≤ 1 := by
  rw [abs_pow]; exact pow_le_one₀ (abs_nonneg q) h

theorem cos_close (q C : ℚ) (t : ℝ) (h : cosTest q C = true) (ht : |t - q| ≤ 1 / 10 ^ 9) :
    |cos t - C| ≤ 2 / 10 ^ 9 := by
  obtain ⟨h1, h2⟩ := of_decide_eq_true h
  have h1' : |(q : ℝ)| ≤ 1 := by exact_mod_cast h1
  have hs : HasSum (fun k => (cCos k : ℝ) * ((q : ℝ) ^ 2) ^ k) (cos q) := by
    convert Real.hasSum_cos (q : ℝ) using 1
    funext k
    unfold cCos
    push_cast
    rw [pow_mul]
    ring
  have h3 := tail_bound cCos 8 (fun k _ => ratio_cos k) ((q : ℝ) ^ 2) (sq_le_one_of_abs _ h1')
    hs.summable
  rw [hs.tsum_eq, ← ev_range] at h3
  have e : ev ((List.range 8).map cCos) ((q : ℝ) ^ 2)
      = (evq ((List.range 8).map cCos) (q ^ 2) : ℚ) := by
    rw [← ev_cast]; push_cast; rfl
  rw [e] at h3
  generalize evq ((List.range 8).map cCos) (q ^ 2) = E at *
  generalize cCos 8 = c8 at *
  have h2' : |(E : ℝ) - C| + 2 * |(c8 : ℝ)| ≤ 1 / 10 ^ 9 := by
    have := (Rat.cast_le (K := ℝ)).mpr h2
    push_cast at this
    exact this
  have h4 : |cos t - cos q| ≤ |t - q| := abs_cos_sub_cos_le t q
  push_cast at h3
  have h5 : |cos t - (C : ℝ)| ≤ |cos t - cos q| + |cos (q : ℝ) - E| + |(E : ℝ) - C| :=
    (abs_sub_le _ (E : ℝ) _).trans (by have := abs_sub_le (cos t) (cos q) (E : ℝ); linarith)
  have e9 : (2 : ℝ) / 10 ^ 9 = 1 / 10 ^ 9 + 1 / 10 ^ 9 := by norm_num
  linarith

theorem sin_close (q S : ℚ) (t : ℝ) (h : sinTest q S = true) (ht : |t - q| ≤ 1 / 10 ^ 9) :
    |sin t - S| ≤ 2 / 10 ^ 9 := by
  obtain ⟨h1, h2⟩ := of_decide_eq_true h
  have h1' : |(q : ℝ)| ≤ 1 := by exact_mod_cast h1
  have hs : HasSum (fun k => q * ((cSin k : ℝ) * ((q : ℝ) ^ 2) ^ k)) (sin q) := by
    convert Real.hasSum_sin (q : ℝ) using 1
    funext k
    unfold cSin
    push_cast
    rw [pow_succ (q : ℝ) (2 * k), pow_mul]
    ring
  have hsm : Summable fun k => (cSin k : ℝ) * ((q : ℝ) ^ 2) ^ k := by
    refine Summable.of_norm_bounded (summable_geometric_two.mul_left 1) fun k => ?_
    have hk : |(cSin k : ℝ)| ≤ (1 / 2) ^ k := by
      induction k with
      | zero => simp [cSin]
      | succ k ih =>
        have : |(cSin (k + 1) : ℝ)| ≤ |(cSin k : ℝ)| / 2 := by exact_mod_cast ratio_sin k
        rw [pow_succ]; linarith
    rw [norm_mul, norm_pow, Real.norm_eq_abs, Real.norm_eq_abs, one_mul]
    calc |(cSin k : ℝ)| * |(q : ℝ) ^ 2| ^ k ≤ (1 / 2) ^ k * 1 := by
          gcongr
          exact pow_le_one₀ (abs_nonneg _) (sq_le_one_of_abs _ h1')
      _ = _ := mul_one _
  have h3 := tail_bound cSin 8 (fun k _ => ratio_sin k) ((q : ℝ) ^ 2) (sq_le_one_of_abs _ h1') hsm
  rw [← ev_range] at h3
  have e : ev ((List.range 8).map cSin) ((q : ℝ) ^ 2)
      = (evq ((List.range 8).map cSin) (q ^ 2) : ℚ) := by
    rw [← ev_cast]; push_cast; rfl
  have e2 : sin (q : ℝ) = q * ∑' k, (cSin k : ℝ) * ((q : ℝ) ^ 2) ^ k := by
    rw [← tsum_mul_left]; exact hs.tsum_eq.symm
  rw [e] at h3
  generalize evq ((List.range 8).map cSin) (q ^ 2) = E at *
  generalize cSin 8 = c8 at *
  have h2' : |(q : ℝ) * E - S| + 2 * |(c8 : ℝ)| ≤ 1 / 10 ^ 9 := by
    have := (Rat.cast_le (K := ℝ)).mpr h2
    push_cast at this
    exact this
  have h4 : |sin t - sin q| ≤ |t - q| := abs_sin_sub_sin_le t q
  push_cast at h3
  have h6 : |sin (q : ℝ) - q * E| ≤ 2 * |(c8 : ℝ)| := by
    rw [e2, ← mul_sub, abs_mul]
    calc _ ≤ 1 * (2 * |(c8 : ℝ)|) := mul_le_mul h1' h3 (abs_nonneg _) (by norm_num)
      _ = _ := one_mul _
  have h5 : |sin t - (S : ℝ)| ≤ |sin t - sin q| + |sin (q : ℝ) - q * E| + |(q : ℝ) * E - S| :=
    (abs_sub_le _ ((q : ℝ) * E) _).trans
      (by have := abs_sub_le (sin t) (sin q) ((q : ℝ) * E); linarith)
  have e9 : (2 : ℝ) / 10 ^ 9 = 1 / 10 ^ 9 + 1 / 10 ^ 9 := by norm_num
  linarith

/-- A value of the square root of 3. -/
def root3 : ℚ := 1.7320508075

theorem root3_close : |√3 - (root3 : ℝ)| ≤ 1 / 10 ^ 9 := by
  have h1 : (root3 : ℝ) ≤ √3 := by
    apply le_sqrt_of_sq_le
    unfold root3; norm_num
  have h2 : √3 ≤ (root3 : ℝ) + 1 / 10 ^ 9 := by
    rw [sqrt_le_left (by unfold root3; norm_num)]
    unfold root3; norm_num
  rw [abs_le]; constructor <;> linarith [show (0 : ℝ) < 1 / 10 ^ 9 by positivity]

/-- The tests made at the point 3. -/
def threeTest (a b C S g eg f : ℚ) : Bool :=
  decide (|a * C + b * S - root3 * g| + (|a| + |b|) * (2 / 10 ^ 9) + |g| * (1 / 10 ^ 9)
    + |root3| * eg + 1 / 10 ^ 9 * eg ≤ f)

theorem three_close (a b C S g eg f : ℚ) (c s G : ℝ) (t : threeTest a b C S g eg f = true)
    (hc : |c - C| ≤ 2 / 10 ^ 9) (hs : |s - S| ≤ 2 / 10 ^ 9) (hG : |G - g| ≤ eg) :
    |a * c + b * s - √3 * G| ≤ f := by
  have h := of_decide_eq_true t
  have h' : |(a : ℝ) * C + b * S - root3 * g| + (|(a : ℝ)| + |(b : ℝ)|) * (2 / 10 ^ 9)
      + |(g : ℝ)| * (1 / 10 ^ 9) + |(root3 : ℝ)| * eg + 1 / 10 ^ 9 * eg ≤ f := by
    have := (Rat.cast_le (K := ℝ)).mpr h
    push_cast at this
    exact this
  have h1 : |(a : ℝ) * (c - C)| ≤ |(a : ℝ)| * (2 / 10 ^ 9) := by rw [abs_mul]; gcongr
  have h2 : |(b : ℝ) * (s - S)| ≤ |(b : ℝ)| * (2 / 10 ^ 9) := by rw [abs_mul]; gcongr
  have h3 : |(g : ℝ) * (√3 - root3)| ≤ |(g : ℝ)| * (1 / 10 ^ 9) := by
    rw [abs_mul]; gcongr; exact root3_close
  have h4 : |(root3 : ℝ) * (G - g)| ≤ |(root3 : ℝ)| * eg := by rw [abs_mul]; gcongr
  have h5 : |(√3 - root3) * (G - g)| ≤ 1 / 10 ^ 9 * eg := by
    rw [abs_mul]
    exact mul_le_mul root3_close hG (abs_nonneg _) (by positivity)
  have e : (a : ℝ) * c + b * s - √3 * G = (a * C + b * S - root3 * g) + a * (c - C) + b * (s - S)
      - g * (√3 - root3) - root3 * (G - g) - (√3 - root3) * (G - g) := by ring
  rw [e]
  have h6 := le_abs_self ((a : ℝ) * C + b * S - root3 * g)
  have h7 := neg_abs_le ((a : ℝ) * C + b * S - root3 * g)
  rw [abs_le] at h1 h2 h3 h4 h5
  rw [abs_le]
  constructor <;> linarith [h1.1, h1.2, h2.1, h2.2, h3.1, h3.2, h4.1, h4.2, h5.1, h5.2]

/-! ### The comparison -/

theorem at3_le (l : List ℚ) (a b : ℚ) (n : ℕ)
    (t1 : nonneg (psub (padd [a] (mono b 12)) l) n (1 / 2) (1 / 2) = true)
    (t2 : nonneg (padd (padd [a] (mono b 12)) l) n (1 / 2) (1 / 2) = true) (x : ℝ) (hx : 3 ≤ x) :
    |at3 l x| ≤ a + b * (3 / x) ^ 24 := by
  have hx0 : 0 < x := by linarith
  have h3 : 3 / x ≤ 1 := by rw [div_le_one hx0]; exact hx
  have := abs_le_unit _ _ n t1 t2 ((3 / x) ^ 2) (by positivity) (pow_le_one₀ (by positivity) h3)
  rw [ev_padd, ev_mono, ← pow_mul] at this
  unfold at3
  simpa [ev] using this

theorem far_general (amp ph : List ℚ) (phi : ℝ) (ν κ : ℚ) (hκ : κ = 1 / 4 - ν) (hκ3 : |κ| < 3)
    (D D1 D2 : ℝ → ℝ) (hD : ∀ x, 3 ≤ x → HasDerivAt D (D1 x) x)
    (hD1 : ∀ x, 3 ≤ x → HasDerivAt D1 (D2 x) x) (ri ri1 : ℝ → ℝ)
    (hri : ∀ x, 3 ≤ x → HasDerivAt ri (ri1 x) x) (hmono : ∀ s t, 3 ≤ s → s ≤ t → ri s ≤ ri t)
    (hI : ∀ x, 3 ≤ x → √x * |D2 x + D1 x / x + (1 - ν / x ^ 2) * D x| ≤ ri1 x) (a b : ℝ)
    (ha : 0 ≤ a) (hb : 0 ≤ b)
    (hA : ∀ x, 3 ≤ x → |at3 (cosPart amp ph κ) x| + |at3 (sinPart amp ph) x| ≤ a + b * (3 / x) ^ 24)
    (N : ℝ) (h3 : |wavy amp ph phi 3 - √3 * D 3|
      + |wavy1 amp ph phi 3 - √3 * (D 3 / 6 + D1 3)| ≤ N) (X : ℝ) (hX : 3 ≤ X) :
    |wavy amp ph phi X - √X * D X| ≤ (N + (a + b / 25) / 3 + (ri X - ri 3)) / (1 - |(κ : ℝ)| / 3) := by
  let r : ℝ → ℝ := fun x => ri x - (a * (3 / x) + b * (3 / x) ^ 25 / 25) / 3
  have hd3 : ∀ x : ℝ, x ≠ 0 → HasDerivAt (fun x : ℝ => 3 / x) (-(3 / x ^ 2)) x := by
    intro x hx
    have h := (hasDerivAt_const x (3 : ℝ)).div (hasDerivAt_id x) hx
    refine h.congr_deriv ?_
    simp only [id]
    ring
  have hr : ∀ x, 3 ≤ x → HasDerivAt r (ri1 x + (a + b * (3 / x) ^ 24) / x ^ 2) x := by
    intro x hx
    have hx0 : x ≠ 0 := by intro h; linarith
    have h := (hri x hx).sub ((((hd3 x hx0).const_mul a).add
      ((((hd3 x hx0).pow 25).const_mul b).div_const 25)).div_const 3)
    refine h.congr_deriv ?_
    norm_num
    ring
  have hrm : ∀ s t, 3 ≤ s → s ≤ t → r s ≤ r t := by
    intro s t hs hst
    have h1 := hmono s t hs hst
    have hs0 : 0 < s := by linarith
    have ht0 : 0 < t := by linarith
    have h2 : 3 / t ≤ 3 / s := div_le_div_of_nonneg_left (by norm_num) hs0 hst
    have h4 : (3 / t) ^ 25 ≤ (3 / s) ^ 25 := pow_le_pow_left₀ (by positivity) h2 25
    have h5 := mul_le_mul_of_nonneg_left h2 ha
    have h6 := mul_le_mul_of_nonneg_left h4 hb
    simp only [r]
    linarith
  have h33 : √3 * √3 = (3 : ℝ) := mul_self_sqrt (by norm_num)
  have h3p : 0 < √(3 : ℝ) := sqrt_pos.mpr (by norm_num)
  have key := oscillator (fun x => wavy amp ph phi x - √x * D x)
    (fun x => wavy1 amp ph phi x - (D x / (2 * √x) + √x * D1 x))
    (fun x => wavy2 amp ph phi x - √x * (D2 x + D1 x / x - D x / (4 * x ^ 2))) r
    (fun x => ri1 x + (a + b * (3 / x) ^ 24) / x ^ 2) |(κ : ℝ)| N (abs_nonneg _)
    (by exact_mod_cast hκ3)
    (fun x hx => (hasDerivAt_wavy amp ph phi x (by intro h; linarith)).sub
      (hasDerivAt_sqrt_mul D D1 x (by linarith) (hD x hx)))
    (fun x hx => (hasDerivAt_wavy1 amp ph phi x (by intro h; linarith)).sub
      (hasDerivAt_sqrt_mul' D D1 (D2 x) x (by linarith) (hD x hx) (hD1 x hx)))
    hr hrm ?_ ?_ X hX
  · refine key.trans (div_le_div_of_nonneg_right ?_ ?_)
    · simp only [r]
      have hX0 : 0 < X := by linarith
      have : 0 ≤ a * (3 / X) := by positivity
      have : 0 ≤ b * (3 / X) ^ 25 := by positivity
      norm_num
      linarith
    · have : |(κ : ℝ)| < 3 := by exact_mod_cast hκ3
      linarith
  · intro x hx
    have hx0 : 0 < x := by linarith
    have e : wavy2 amp ph phi x - √x * (D2 x + D1 x / x - D x / (4 * x ^ 2))
        + (wavy amp ph phi x - √x * D x)
        = (wavy2 amp ph phi x + (1 + κ / x ^ 2) * wavy amp ph phi x)
          - √x * (D2 x + D1 x / x + (1 - ν / x ^ 2) * D x)
          - κ / x ^ 2 * (wavy amp ph phi x - √x * D x) := by
      rw [hκ]
      push_cast
      field_simp
      ring
    rw [e]
    have g1 := wavy_residual amp ph phi κ x hx
    have g2 : (|at3 (cosPart amp ph κ) x| + |at3 (sinPart amp ph) x|) / x ^ 2
        ≤ (a + b * (3 / x) ^ 24) / x ^ 2 := div_le_div_of_nonneg_right (hA x hx) (by positivity)
    have g3 := hI x hx
    have g4 : |√x * (D2 x + D1 x / x + (1 - ν / x ^ 2) * D x)|
        = √x * |D2 x + D1 x / x + (1 - ν / x ^ 2) * D x| := by
      rw [abs_mul, abs_of_nonneg (sqrt_nonneg x)]
    have g5 : |κ / x ^ 2 * (wavy amp ph phi x - √x * D x)|
        = |(κ : ℝ)| / x ^ 2 * |wavy amp ph phi x - √x * D x| := by
      rw [abs_mul, abs_div, abs_of_pos (show 0 < x ^ 2 by positivity)]
    refine (abs_sub _ _).trans ?_
    have := abs_sub (wavy2 amp ph phi x + (1 + κ / x ^ 2) * wavy amp ph phi x)
      (√x * (D2 x + D1 x / x + (1 - ν / x ^ 2) * D x))
    linarith
  · have e : D 3 / (2 * √3) + √3 * D1 3 = √3 * (D 3 / 6 + D1 3) := by
      have h : D 3 / (2 * √3) = √3 * (D 3 / 6) := by
        rw [div_eq_iff (by positivity)]
        linear_combination (-(D 3) / 3) * h33
      rw [h]; ring
    rw [e]
    exact h3

end Verif.Green.Lwn
