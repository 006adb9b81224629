import Verif.Green.RankineModel
import Mathlib.Analysis.SpecialFunctions.Sqrt
import Mathlib.Analysis.SpecialFunctions.Log.Deriv
import Mathlib.Analysis.SpecialFunctions.Trigonometric.ArctanDeriv
import Mathlib.Analysis.Calculus.Deriv.Abs
import Mathlib.Tactic.FieldSimp
import Mathlib.Tactic.Ring
import Mathlib.Tactic.LinearCombination
import Mathlib.Tactic.Linarith
import Mathlib.Tactic.NormNum
import Mathlib.Tactic.SplitIfs

/-!
# C58: the Rankine terms and their gradients

The gradient returned with each Rankine term is the derivative of the returned value along every curve, either of the point
or of the panel according to the variable that is asked for.
-/

namespace Verif.Green

open Verif.Geometry V3

/-! ## Curves -/

/-- The curve `γ` has the speed `v` at `τ`. -/
structure Speed (γ : ℝ → V3 ℝ) (v : V3 ℝ) (τ : ℝ) : Prop where
  x : HasDerivAt (fun t => (γ t).x) v.x τ
  y : HasDerivAt (fun t => (γ t).y) v.y τ
  z : HasDerivAt (fun t => (γ t).z) v.z τ

/-- `g` is the gradient at `p` of the function `F` of a point: the derivative of `F` along every curve through `p`. -/
def Gradient (F : V3 ℝ → ℝ) (p g : V3 ℝ) : Prop :=
  ∀ (γ : ℝ → V3 ℝ) (v : V3 ℝ) (τ : ℝ), γ τ = p → Speed γ v τ → HasDerivAt (fun t => F (γ t)) (dot g v) τ

/-- A straight line is a curve. -/
theorem speed_line (p v : V3 ℝ) (τ : ℝ) : Speed (fun t => p + (t - τ) • v) v τ where
  x := by simpa using ((hasDerivAt_id τ).sub_const τ).mul_const v.x |>.const_add p.x
  y := by simpa using ((hasDerivAt_id τ).sub_const τ).mul_const v.y |>.const_add p.y
  z := by simpa using ((hasDerivAt_id τ).sub_const τ).mul_const v.z |>.const_add p.z

/-- A gradient is unique. -/
theorem gradient_unique {F : V3 ℝ → ℝ} {p g g' : V3 ℝ} (h : Gradient F p g) (h' : Gradient F p g') : g = g' := by
  have key : ∀ v, dot g v = dot g' v := fun v =>
    (h _ v 0 (by ext <;> simp) (speed_line p v 0)).unique (h' _ v 0 (by ext <;> simp) (speed_line p v 0))
  have hx := key ⟨1, 0, 0⟩
  have hy := key ⟨0, 1, 0⟩
  have hz := key ⟨0, 0, 1⟩
  simp only [dot, mul_one, mul_zero, add_zero, zero_add] at hx hy hz
  ext <;> assumption

theorem Speed.sub_const {γ : ℝ → V3 ℝ} {v : V3 ℝ} {τ : ℝ} (h : Speed γ v τ) (p : V3 ℝ) :
    Speed (fun t => γ t - p) v τ :=
  ⟨by simpa using h.x.sub_const p.x, by simpa using h.y.sub_const p.y, by simpa using h.z.sub_const p.z⟩

theorem Speed.const_sub {γ : ℝ → V3 ℝ} {v : V3 ℝ} {τ : ℝ} (h : Speed γ v τ) (p : V3 ℝ) :
    Speed (fun t => p - γ t) (-v) τ :=
  ⟨by simpa using h.x.const_sub p.x, by simpa using h.y.const_sub p.y, by simpa using h.z.const_sub p.z⟩

theorem Speed.dot {γ : ℝ → V3 ℝ} {v : V3 ℝ} {τ : ℝ} (h : Speed γ v τ) (n : V3 ℝ) :
    HasDerivAt (fun t => V3.dot (γ t) n) (V3.dot n v) τ := by
  have := ((h.x.mul_const n.x).add (h.y.mul_const n.y)).add (h.z.mul_const n.z)
  refine this.congr_deriv ?_
  simp only [V3.dot]; ring

theorem Speed.norm {γ : ℝ → V3 ℝ} {v : V3 ℝ} {τ : ℝ} (h : Speed γ v τ) (h0 : V3.norm (γ τ) ≠ 0) :
    HasDerivAt (fun t => V3.norm (γ t)) (V3.dot ((V3.norm (γ τ))⁻¹ • γ τ) v) τ := by
  have h1 : HasDerivAt (fun t => V3.dot (γ t) (γ t)) (2 * V3.dot (γ τ) v) τ := by
    have := ((h.x.mul h.x).add (h.y.mul h.y)).add (h.z.mul h.z)
    refine this.congr_deriv ?_
    simp only [V3.dot]; ring
  have h2 : V3.dot (γ τ) (γ τ) ≠ 0 := fun hc => h0 (by rw [V3.norm, hc, Real.sqrt_zero])
  have := h1.sqrt h2
  refine this.congr_deriv ?_
  have h3 : Real.sqrt (V3.dot (γ τ) (γ τ)) ≠ 0 := h0
  unfold V3.norm
  rw [show V3.dot ((Real.sqrt (V3.dot (γ τ) (γ τ)))⁻¹ • γ τ) v = (Real.sqrt (V3.dot (γ τ) (γ τ)))⁻¹ * V3.dot (γ τ) v by
    simp [V3.dot]; ring]
  field_simp

/-! ## One point -/

theorem norm_nonneg' (v : V3 ℝ) : 0 ≤ V3.norm v := Real.sqrt_nonneg _

theorem norm_sub_comm (a b : V3 ℝ) : V3.norm (a - b) = V3.norm (b - a) := by
  simp only [V3.norm, V3.dot]
  congr 1
  simp
  ring

theorem norm_neg' (a : V3 ℝ) : V3.norm (-a) = V3.norm a := by
  simp [V3.norm, V3.dot]

theorem norm_sq (v : V3 ℝ) : V3.norm v ^ 2 = V3.dot v v := by
  rw [V3.norm, Real.sq_sqrt]
  simp only [V3.dot]
  nlinarith [mul_self_nonneg v.x, mul_self_nonneg v.y, mul_self_nonneg v.z]

theorem onePoint_value {M c : V3 ℝ} {A : ℝ} {first : Bool} (h : 1e-7 < V3.norm (c - M)) :
    (onePoint M c A first).1 = A / V3.norm (c - M) := by
  simp only [onePoint]
  rw [if_pos h]

theorem onePoint_gradient {M c : V3 ℝ} {A : ℝ} (h : 1e-7 < V3.norm (c - M)) :
    Gradient (fun p => (onePoint p c A true).1) M (onePoint M c A true).2 := by
  intro γ v τ hγ hs
  subst hγ
  have h0 : V3.norm (c - γ τ) ≠ 0 := ne_of_gt (lt_trans (by norm_num) h)
  have hd := (hs.const_sub c).norm h0
  have hcont := hd.continuousAt
  have hev : (fun t => (onePoint (γ t) c A true).1) =ᶠ[nhds τ] fun t => A / V3.norm (c - γ t) := by
    filter_upwards [hcont.eventually (lt_mem_nhds h)] with t ht
    exact onePoint_value ht
  refine HasDerivAt.congr_of_eventuallyEq ?_ hev
  have := (hasDerivAt_const τ A).div hd h0
  refine this.congr_deriv ?_
  simp only [onePoint]
  rw [if_pos h]
  simp only [if_true]
  generalize V3.norm (c - γ τ) = r at h0
  simp only [V3.dot, smul_x, smul_y, smul_z, sub_x, sub_y, sub_z, neg_x, neg_y, neg_z]
  field_simp
  ring

/-- Gradient with respect to the second point, the center of the panel. -/
theorem onePoint_gradient_second {M c : V3 ℝ} {A : ℝ} (h : 1e-7 < V3.norm (c - M)) :
    Gradient (fun p => (onePoint M p A false).1) c (onePoint M c A false).2 := by
  intro γ v τ hγ hs
  subst hγ
  have h0 : V3.norm (γ τ - M) ≠ 0 := ne_of_gt (lt_trans (by norm_num) h)
  have hd := (hs.sub_const M).norm h0
  have hcont := hd.continuousAt
  have hev : (fun t => (onePoint M (γ t) A false).1) =ᶠ[nhds τ] fun t => A / V3.norm (γ t - M) := by
    filter_upwards [hcont.eventually (lt_mem_nhds h)] with t ht
    exact onePoint_value ht
  refine HasDerivAt.congr_of_eventuallyEq ?_ hev
  have := (hasDerivAt_const τ A).div hd h0
  refine this.congr_deriv ?_
  simp only [onePoint]
  rw [if_pos h]
  simp only [Bool.false_eq_true, if_false]
  generalize V3.norm (γ τ - M) = r at h0
  simp only [V3.dot, smul_x, smul_y, smul_z, sub_x, sub_y, sub_z, neg_x, neg_y, neg_z]
  field_simp
  ring

/-- The value per unit of area is symmetric in the two points. -/
theorem onePoint_symmetric (M c : V3 ℝ) (A : ℝ) (first first' : Bool) :
    (onePoint M c A first).1 = (onePoint c M A first').1 := by
  simp only [onePoint]
  rw [norm_sub_comm c M]
  split_ifs <;> rfl

/-- The gradients with respect to the two points are exchanged with the points. -/
theorem onePoint_symmetric_gradient (M c : V3 ℝ) (A : ℝ) (first : Bool) :
    (onePoint M c A first).2 = (onePoint c M A !first).2 := by
  simp only [onePoint]
  rw [norm_sub_comm c M]
  have e : M - c = -(c - M) := by ext <;> simp
  rw [e]
  by_cases h : V3.norm (-(c - M)) > 1e-7
  · rw [if_pos h, if_pos h]
    cases first <;> ext <;> simp <;> ring
  · rw [if_neg h, if_neg h]
    cases first <;> ext <;> simp

example : (1e-7 : ℝ) < V3.norm (⟨3, 4, -1⟩ - ⟨0, 0, -1⟩ : V3 ℝ) := by
  have : V3.norm (⟨3, 4, -1⟩ - ⟨0, 0, -1⟩ : V3 ℝ) = 5 := by
    simp only [V3.norm, V3.dot, sub_x, sub_y, sub_z]
    rw [show ((3 : ℝ) - 0) * (3 - 0) + (4 - 0) * (4 - 0) + (-1 - -1) * (-1 - -1) = 5 ^ 2 by norm_num]
    exact Real.sqrt_sq (by norm_num)
  rw [this]; norm_num

/-! ## Reflections -/

theorem Speed.reflect {γ : ℝ → V3 ℝ} {v : V3 ℝ} {τ : ℝ} (h : Speed γ v τ) (c : Reflection) :
    Speed (fun t => reflectPoint c (γ t)) ⟨v.x, v.y, c.s * v.z⟩ τ :=
  ⟨h.x, h.y, by simpa [reflectPoint] using (h.z.const_mul c.s).add_const c.t⟩

/-- The gradient of a function of the reflected point is the one of the code. -/
theorem gradient_reflect {F : V3 ℝ → ℝ} {M g : V3 ℝ} {c : Reflection} (h : Gradient F (reflectPoint c M) g) :
    Gradient (fun p => F (reflectPoint c p)) M (reflectGradient c true g) := by
  intro γ v τ hγ hs
  subst hγ
  have := h _ _ τ rfl (hs.reflect c)
  refine this.congr_deriv ?_
  simp only [reflectGradient, V3.dot, if_true]
  ring

/-- For the second variable the gradient is the opposite of the one with respect to the reflected point. -/
theorem reflectGradient_second {c : Reflection} (hc : c.s = 1 ∨ c.s = -1) (g : V3 ℝ) :
    reflectGradient c false g = -g := by
  rcases hc with h | h <;> ext <;> simp [reflectGradient, h]

theorem onePointReflected_gradient {M c : V3 ℝ} {A : ℝ} {k : Reflection} (h : 1e-7 < V3.norm (c - reflectPoint k M)) :
    Gradient (fun p => (onePointReflected p c A true k).1) M (onePointReflected M c A true k).2 :=
  gradient_reflect (onePoint_gradient h)

theorem onePointReflected_gradient_second {M c : V3 ℝ} {A : ℝ} {k : Reflection} (hk : k.s = 1 ∨ k.s = -1)
    (h : 1e-7 < V3.norm (c - reflectPoint k M)) :
    Gradient (fun p => (onePointReflected M p A false k).1) c (onePointReflected M c A false k).2 := by
  have h1 := onePoint_gradient_second (A := A) h
  have e1 : (fun p => (onePointReflected M p A false k).1) = fun p => (onePoint (reflectPoint k M) p A false).1 := by
    funext p
    simp only [onePointReflected, onePoint]
  have e2 : (onePointReflected M c A false k).2 = (onePoint (reflectPoint k M) c A false).2 := by
    simp only [onePointReflected]
    rw [reflectGradient_second hk]
    simp [onePoint]
  rw [e1, e2]
  exact h1

/-- The reflection that exchanges the roles of the two points: the same for the mirrors, the opposite for the shifts. -/
noncomputable def Reflection.swap (k : Reflection) : Reflection := ⟨k.s, -k.s * k.t⟩

/-- The term is symmetric in the two points for the mirrors, and the terms of opposite shifts are exchanged. -/
theorem onePointReflected_symmetric {k : Reflection} (hk : k.s = 1 ∨ k.s = -1) (M c : V3 ℝ) (A : ℝ) (first first' : Bool) :
    (onePointReflected M c A first k).1 = (onePointReflected c M A first' k.swap).1 := by
  have e : V3.norm (c - reflectPoint k M) = V3.norm (M - reflectPoint k.swap c) := by
    simp only [V3.norm, V3.dot, reflectPoint, Reflection.swap]
    congr 1
    rcases hk with h | h <;> simp [h] <;> ring
  simp only [onePointReflected, onePoint]
  rw [e]
  split_ifs <;> rfl

/-- The mirrors are symmetric. -/
theorem mirror_symmetric (t : ℝ) (M c : V3 ℝ) (A : ℝ) (first first' : Bool) :
    (onePointReflected M c A first ⟨-1, t⟩).1 = (onePointReflected c M A first' ⟨-1, t⟩).1 := by
  have := onePointReflected_symmetric (k := ⟨-1, t⟩) (Or.inr rfl) M c A first first'
  simpa [Reflection.swap] using this

/-- The sum of the terms of two opposite shifts is symmetric. -/
theorem shifts_symmetric (t : ℝ) (M c : V3 ℝ) (A : ℝ) (first first' : Bool) :
    (onePointReflected M c A first ⟨1, t⟩).1 + (onePointReflected M c A first ⟨1, -t⟩).1 =
      (onePointReflected c M A first' ⟨1, t⟩).1 + (onePointReflected c M A first' ⟨1, -t⟩).1 := by
  have h1 := onePointReflected_symmetric (k := ⟨1, t⟩) (Or.inl rfl) M c A first first'
  have h2 := onePointReflected_symmetric (k := ⟨1, -t⟩) (Or.inl rfl) M c A first first'
  simp only [Reflection.swap, neg_mul, one_mul, neg_neg] at h1 h2
  rw [h1, h2, add_comm]

/-- A shift alone is not symmetric. -/
theorem shift_not_symmetric_violated : ∃ (t : ℝ) (M c : V3 ℝ), ∀ first first',
    (onePointReflected M c 1 first ⟨1, t⟩).1 ≠ (onePointReflected c M 1 first' ⟨1, t⟩).1 := by
  refine ⟨-4, ⟨0, 0, -1⟩, ⟨0, 0, -2⟩, ?_⟩
  intro first first'
  have e1 : V3.norm ((⟨0, 0, -2⟩ : V3 ℝ) - reflectPoint ⟨1, -4⟩ ⟨0, 0, -1⟩) = 3 := by
    simp only [V3.norm, V3.dot, reflectPoint, sub_x, sub_y, sub_z]
    rw [show ((0 : ℝ) - 0) * (0 - 0) + (0 - 0) * (0 - 0) + (-2 - (1 * -1 + -4)) * (-2 - (1 * -1 + -4)) = 3 ^ 2 by norm_num]
    exact Real.sqrt_sq (by norm_num)
  have e2 : V3.norm ((⟨0, 0, -1⟩ : V3 ℝ) - reflectPoint ⟨1, -4⟩ ⟨0, 0, -2⟩) = 5 := by
    simp only [V3.norm, V3.dot, reflectPoint, sub_x, sub_y, sub_z]
    rw [show ((0 : ℝ) - 0) * (0 - 0) + (0 - 0) * (0 - 0) + (-1 - (1 * -2 + -4)) * (-1 - (1 * -2 + -4)) = 5 ^ 2 by norm_num]
    exact Real.sqrt_sq (by norm_num)
  simp only [onePointReflected]
  rw [onePoint_value (by rw [e1]; norm_num), onePoint_value (by rw [e2]; norm_num), e1, e2]
  norm_num

end Verif.Green
