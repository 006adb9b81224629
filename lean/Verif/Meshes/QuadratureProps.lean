import Verif.Meshes.QuadratureModel
import Verif.Meshes.HydroProps
import Mathlib.Tactic.LinearCombination

/-!
# Quadratures on the panels: properties

C41.
-/

namespace Verif.Meshes

open Verif.Geometry V3

/-! ## Specification -/

/-- Sum of the weights. -/
def totalWeight (q : List (V3 ℝ × ℝ)) : ℝ := (q.map fun x => x.2).sum

/-- Sum of the points times their weights: the integral of the position. -/
def moment (q : List (V3 ℝ × ℝ)) : V3 ℝ := (q.map fun x => x.2 • x.1).sum

/-- The usual conditions on a local scheme: points of the square, weights of sum 1, exact on linear
functions. -/
structure LocalScheme (s : List LocalPoint) : Prop where
  square : ∀ k ∈ s, |k.x| ≤ 1 ∧ |k.y| ≤ 1
  one : (s.map fun k => k.weight).sum = 1
  first : (s.map fun k => k.weight * k.x).sum = 0
  second : (s.map fun k => k.weight * k.y).sum = 0

/-! ## Lemmas -/

/-- The factor of a local area in a convex quadrangle. -/
noncomputable def jac (α β γ δ x y : ℝ) : ℝ :=
  (2 * ((α + γ) * (β + δ)) + x * ((α + γ) * (β - δ) + (β + δ) * (α - γ))
    + y * ((α - γ) * (β + δ) - (β - δ) * (α + γ))) / 16

theorem jac_nonneg {α β γ δ x y : ℝ} (ha : 0 ≤ α) (hb : 0 ≤ β) (hc : 0 ≤ γ) (hd : 0 ≤ δ)
    (hx : |x| ≤ 1) (hy : |y| ≤ 1) : 0 ≤ jac α β γ δ x y := by
  rw [abs_le] at hx hy
  have h1 : 0 ≤ (1 + y) * α + (1 - y) * γ := by
    have := mul_nonneg (by linarith : 0 ≤ 1 + y) ha
    have := mul_nonneg (by linarith : 0 ≤ 1 - y) hc
    linarith
  have h2 : 0 ≤ (1 - y) * β + (1 + y) * δ := by
    have := mul_nonneg (by linarith : 0 ≤ 1 - y) hb
    have := mul_nonneg (by linarith : 0 ≤ 1 + y) hd
    linarith
  have h3 : 0 ≤ (1 + x) * α + (1 - x) * γ := by
    have := mul_nonneg (by linarith : 0 ≤ 1 + x) ha
    have := mul_nonneg (by linarith : 0 ≤ 1 - x) hc
    linarith
  have h4 : 0 ≤ (1 + x) * β + (1 - x) * δ := by
    have := mul_nonneg (by linarith : 0 ≤ 1 + x) hb
    have := mul_nonneg (by linarith : 0 ≤ 1 - x) hd
    linarith
  have : jac α β γ δ x y = (((1 + y) * α + (1 - y) * γ) * ((1 + x) * β + (1 - x) * δ)
      + ((1 - y) * β + (1 + y) * δ) * ((1 + x) * α + (1 - x) * γ)) / 16 := by
    unfold jac; ring
  rw [this]
  have := mul_nonneg h1 h4
  have := mul_nonneg h2 h3
  linarith

theorem weight_convex (o u v : V3 ℝ) {α β γ δ : ℝ} (ha : 0 ≤ α) (hb : 0 ≤ β) (hc : 0 ≤ γ) (hd : 0 ≤ δ)
    (k : LocalPoint) (hx : |k.x| ≤ 1) (hy : |k.y| ≤ 1) :
    (quadraturePoint (o - α • u) (o - β • v) (o + γ • u) (o + δ • v) k).2 =
      k.weight * 4 * (jac α β γ δ k.x k.y * norm (cross u v)) := by
  unfold quadraturePoint
  simp only
  congr 1
  rw [← abs_of_nonneg (jac_nonneg ha hb hc hd hx hy), ← norm_smul, ← norm_neg]
  congr 1
  unfold jac
  ext <;> simp <;> ring

/-- C41: for any scheme that is exact on linear functions of the square, the weights on a planar convex
quadrangle sum up to its area. -/
theorem weights_sum {s : List LocalPoint} (hs : LocalScheme s) {p0 p1 p2 p3 : V3 ℝ}
    (hq : ConvexQuad p0 p1 p2 p3) (hk : Kept (cross (p2 - p0) (p3 - p1))) :
    totalWeight (faceQuadrature s p0 p1 p2 p3) = (quadPanel p0 p1 p2 p3).area := by
  obtain ⟨o, u, v, α, β, γ, δ, ha, hb, hc, hd, rfl, rfl, rfl, rfl⟩ := hq
  have hn : cross ((o + γ • u) - (o - α • u)) ((o + δ • v) - (o - β • v)) =
      ((α + γ) * (β + δ)) • cross u v := by ext <;> simp <;> ring
  have hpos : 0 ≤ (α + γ) * (β + δ) := mul_nonneg (by linarith) (by linarith)
  rw [hn] at hk
  unfold Kept at hk
  rw [norm_smul, abs_of_nonneg hpos] at hk
  rw [convex_panel o u v α β γ δ ha hb hc hd hk]
  simp only
  have key : ∀ l : List LocalPoint, (∀ k ∈ l, |k.x| ≤ 1 ∧ |k.y| ≤ 1) →
      totalWeight (faceQuadrature l (o - α • u) (o - β • v) (o + γ • u) (o + δ • v)) =
      (2 * ((α + γ) * (β + δ)) * (l.map fun k => k.weight).sum
        + ((α + γ) * (β - δ) + (β + δ) * (α - γ)) * (l.map fun k => k.weight * k.x).sum
        + ((α - γ) * (β + δ) - (β - δ) * (α + γ)) * (l.map fun k => k.weight * k.y).sum) / 4
        * norm (cross u v) := by
    intro l hl
    induction l with
    | nil => simp [totalWeight, faceQuadrature]
    | cons k l ih =>
      have h1 := ih fun k' hk' => hl k' (by simp [hk'])
      unfold totalWeight faceQuadrature at h1 ⊢
      simp only [List.map_cons, List.sum_cons]
      rw [h1, weight_convex o u v ha hb hc hd k (hl k (by simp)).1 (hl k (by simp)).2]
      unfold jac
      ring
  rw [key s hs.square, hs.one, hs.first, hs.second]
  ring

theorem inv_sqrt_three : (1 / √3 : ℝ) ^ 2 = 1 / 3 := by
  rw [div_pow, Real.sq_sqrt (by norm_num)]; norm_num

theorem inv_sqrt_three_le : |(1 / √3 : ℝ)| ≤ 1 := by
  rw [← sq_le_one_iff_abs_le_one, inv_sqrt_three]; norm_num

/-- The builtin schemes meet the conditions. -/
theorem builtin_local (name : String) (s : List LocalPoint) (h : builtinMethod name = some s) :
    LocalScheme s := by
  unfold builtinMethod at h
  split at h
  · cases h
    exact ⟨by simp [firstOrder], by simp [firstOrder], by simp [firstOrder], by simp [firstOrder]⟩
  · split at h
    · cases h
      have h1 := inv_sqrt_three_le
      have h2 : |-(1 / √3 : ℝ)| ≤ 1 := by rw [abs_neg]; exact h1
      constructor
      · intro k hk
        simp only [gaussLegendre2, List.mem_cons, List.not_mem_nil, or_false] at hk
        rcases hk with rfl | rfl | rfl | rfl
        · exact ⟨h1, h1⟩
        · exact ⟨h1, h2⟩
        · exact ⟨h2, h1⟩
        · exact ⟨h2, h2⟩
      · simp [gaussLegendre2]; norm_num
      · simp only [gaussLegendre2, List.map_cons, List.map_nil, List.sum_cons, List.sum_nil]; ring
      · simp only [gaussLegendre2, List.map_cons, List.map_nil, List.sum_cons, List.sum_nil]; ring
    · cases h

/-- C41, for the names accepted by the code. -/
theorem builtin_weights_sum (name : String) (s : List LocalPoint) (h : builtinMethod name = some s)
    {p0 p1 p2 p3 : V3 ℝ} (hq : ConvexQuad p0 p1 p2 p3) (hk : Kept (cross (p2 - p0) (p3 - p1))) :
    totalWeight (faceQuadrature s p0 p1 p2 p3) = (quadPanel p0 p1 p2 p3).area :=
  weights_sum (builtin_local name s h) hq hk

/-- Average of the product of two functions of degree one in each variable at the four points. -/
theorem gauss_average (s : ℝ) (hs : s ^ 2 = 1 / 3) (l0 l1 l2 m0 m1 m2 m3 : ℝ) :
    (l0 + l1 * s + l2 * s) * (m0 + m1 * s + m2 * s + m3 * s * s)
    + (l0 + l1 * s + l2 * -s) * (m0 + m1 * s + m2 * -s + m3 * s * -s)
    + (l0 + l1 * -s + l2 * s) * (m0 + m1 * -s + m2 * s + m3 * -s * s)
    + (l0 + l1 * -s + l2 * -s) * (m0 + m1 * -s + m2 * -s + m3 * -s * -s)
    = 4 * (l0 * m0) + 4 / 3 * (l1 * m1 + l2 * m2) := by
  linear_combination (4 * (l1 * m1 + l2 * m2)) * hs

/-- C41: the four points scheme also integrates the position exactly on planar convex quadrangles: the
weighted mean of its points is the center of the panel. -/
theorem gauss_moment {p0 p1 p2 p3 : V3 ℝ} (hq : ConvexQuad p0 p1 p2 p3)
    (hk : Kept (cross (p2 - p0) (p3 - p1))) :
    moment (faceQuadrature gaussLegendre2 p0 p1 p2 p3) =
      (quadPanel p0 p1 p2 p3).area • (quadPanel p0 p1 p2 p3).center := by
  obtain ⟨o, u, v, α, β, γ, δ, ha, hb, hc, hd, rfl, rfl, rfl, rfl⟩ := hq
  have hn : cross ((o + γ • u) - (o - α • u)) ((o + δ • v) - (o - β • v)) =
      ((α + γ) * (β + δ)) • cross u v := by ext <;> simp <;> ring
  have hpos : 0 ≤ (α + γ) * (β + δ) := mul_nonneg (by linarith) (by linarith)
  rw [hn] at hk
  unfold Kept at hk
  rw [norm_smul, abs_of_nonneg hpos] at hk
  rw [convex_panel o u v α β γ δ ha hb hc hd hk]
  have h1 := inv_sqrt_three_le
  have h2 : |-(1 / √3 : ℝ)| ≤ 1 := by rw [abs_neg]; exact h1
  have h3 := inv_sqrt_three
  unfold moment faceQuadrature gaussLegendre2
  simp only [List.map_cons, List.map_nil, List.sum_cons, List.sum_nil]
  rw [weight_convex o u v ha hb hc hd _ h1 h1, weight_convex o u v ha hb hc hd _ h1 h2,
    weight_convex o u v ha hb hc hd _ h2 h1, weight_convex o u v ha hb hc hd _ h2 h2]
  unfold quadraturePoint jac
  simp only
  generalize (1 / √3 : ℝ) = s at *
  generalize norm (cross u v) = N
  have key : ∀ co cu cv : ℝ,
      1 / 4 * 4 * ((2 * ((α + γ) * (β + δ)) + s * ((α + γ) * (β - δ) + (β + δ) * (α - γ))
        + s * ((α - γ) * (β + δ) - (β - δ) * (α + γ))) / 16 * N) *
        (1 / 4 * ((1 + s) * (1 + s) * (co - α * cu) + (1 + s) * (1 - s) * (co - β * cv)
        + (1 - s) * (1 - s) * (co + γ * cu) + (1 - s) * (1 + s) * (co + δ * cv)))
      + (1 / 4 * 4 * ((2 * ((α + γ) * (β + δ)) + s * ((α + γ) * (β - δ) + (β + δ) * (α - γ))
        + -s * ((α - γ) * (β + δ) - (β - δ) * (α + γ))) / 16 * N) *
        (1 / 4 * ((1 + s) * (1 + -s) * (co - α * cu) + (1 + s) * (1 - -s) * (co - β * cv)
        + (1 - s) * (1 - -s) * (co + γ * cu) + (1 - s) * (1 + -s) * (co + δ * cv)))
      + (1 / 4 * 4 * ((2 * ((α + γ) * (β + δ)) + -s * ((α + γ) * (β - δ) + (β + δ) * (α - γ))
        + s * ((α - γ) * (β + δ) - (β - δ) * (α + γ))) / 16 * N) *
        (1 / 4 * ((1 + -s) * (1 + s) * (co - α * cu) + (1 + -s) * (1 - s) * (co - β * cv)
        + (1 - -s) * (1 - s) * (co + γ * cu) + (1 - -s) * (1 + s) * (co + δ * cv)))
      + 1 / 4 * 4 * ((2 * ((α + γ) * (β + δ)) + -s * ((α + γ) * (β - δ) + (β + δ) * (α - γ))
        + -s * ((α - γ) * (β + δ) - (β - δ) * (α + γ))) / 16 * N) *
        (1 / 4 * ((1 + -s) * (1 + -s) * (co - α * cu) + (1 + -s) * (1 - -s) * (co - β * cv)
        + (1 - -s) * (1 - -s) * (co + γ * cu) + (1 - -s) * (1 + -s) * (co + δ * cv)))))
      = (α + γ) * (β + δ) * N / 2 * (co + 1 / 3 * ((γ - α) * cu + (δ - β) * cv)) := by
    intro co cu cv
    have := gauss_average s h3 (2 * ((α + γ) * (β + δ))) ((α + γ) * (β - δ) + (β + δ) * (α - γ))
      ((α - γ) * (β + δ) - (β - δ) * (α + γ))
      (4 * co - α * cu - β * cv + γ * cu + δ * cv) (-α * cu - β * cv - γ * cu - δ * cv)
      (-α * cu + β * cv - γ * cu + δ * cv) (-α * cu + β * cv + γ * cu - δ * cv)
    linear_combination N / 64 * this
  ext
  · simpa using key o.x u.x v.x
  · simpa using key o.y u.y v.y
  · simpa using key o.z u.z v.z

theorem independent {u v : V3 ℝ} (h0 : cross u v ≠ 0) {a b : ℝ} (h : a • u + b • v = 0) : a = 0 ∧ b = 0 := by
  have hx := congrArg V3.x h
  have hy := congrArg V3.y h
  have hz := congrArg V3.z h
  simp only [smul_x, add_x, smul_y, add_y, smul_z, add_z, zero_x, zero_y, zero_z] at hx hy hz
  have h1 : a • cross u v = 0 := by
    ext
    · simp only [smul_x, cross_x, zero_x]; linear_combination v.z * hy - v.y * hz
    · simp only [smul_y, cross_y, zero_y]; linear_combination v.x * hz - v.z * hx
    · simp only [smul_z, cross_z, zero_z]; linear_combination v.y * hx - v.x * hy
  have h2 : b • cross u v = 0 := by
    ext
    · simp only [smul_x, cross_x, zero_x]; linear_combination u.y * hz - u.z * hy
    · simp only [smul_y, cross_y, zero_y]; linear_combination u.z * hx - u.x * hz
    · simp only [smul_z, cross_z, zero_z]; linear_combination u.x * hy - u.y * hx
  have key : ∀ c : ℝ, c • cross u v = 0 → c = 0 := by
    intro c hc
    by_contra hne
    apply h0
    have hx := congrArg V3.x hc
    have hy := congrArg V3.y hc
    have hz := congrArg V3.z hc
    ext
    · exact (mul_eq_zero.mp hx).resolve_left hne
    · exact (mul_eq_zero.mp hy).resolve_left hne
    · exact (mul_eq_zero.mp hz).resolve_left hne
  exact ⟨key a h1, key b h2⟩

/-- The point of the first order scheme is the mean of the corners. -/
theorem first_order_point (p0 p1 p2 p3 : V3 ℝ) :
    (faceQuadrature firstOrder p0 p1 p2 p3).map Prod.fst = [(1 / 4 : ℝ) • (p0 + p1 + p2 + p3)] := by
  simp only [faceQuadrature, firstOrder, List.map_cons, List.map_nil, quadraturePoint, List.cons.injEq,
    and_true]
  ext <;> simp

/-- C41: the point of the first order scheme is the center of a planar convex panel exactly when the panel
is a parallelogram. -/
theorem first_order_center_partial {p0 p1 p2 p3 : V3 ℝ} (hq : ConvexQuad p0 p1 p2 p3)
    (hk : Kept (cross (p2 - p0) (p3 - p1))) :
    (faceQuadrature firstOrder p0 p1 p2 p3).map Prod.fst = [(quadPanel p0 p1 p2 p3).center] ↔
      p0 + p2 = p1 + p3 := by
  rw [first_order_point]
  obtain ⟨o, u, v, α, β, γ, δ, ha, hb, hc, hd, rfl, rfl, rfl, rfl⟩ := hq
  have hn : cross ((o + γ • u) - (o - α • u)) ((o + δ • v) - (o - β • v)) =
      ((α + γ) * (β + δ)) • cross u v := by ext <;> simp <;> ring
  have hpos : 0 ≤ (α + γ) * (β + δ) := mul_nonneg (by linarith) (by linarith)
  rw [hn] at hk
  unfold Kept at hk
  rw [norm_smul, abs_of_nonneg hpos] at hk
  rw [convex_panel o u v α β γ δ ha hb hc hd hk]
  simp only [List.cons.injEq, and_true]
  have h0 : cross u v ≠ 0 := by
    intro h
    rw [h, norm_zero] at hk
    norm_num at hk
  constructor
  · intro h
    have hx := congrArg V3.x h
    have hy := congrArg V3.y h
    have hz := congrArg V3.z h
    simp only [smul_x, add_x, sub_x, smul_y, add_y, sub_y, smul_z, add_z, sub_z] at hx hy hz
    obtain ⟨h1, h2⟩ := independent h0 (a := γ - α) (b := δ - β) (by
      ext
      · simp only [smul_x, add_x, zero_x]; linear_combination (-12) * hx
      · simp only [smul_y, add_y, zero_y]; linear_combination (-12) * hy
      · simp only [smul_z, add_z, zero_z]; linear_combination (-12) * hz)
    rw [show γ = α by linarith, show δ = β by linarith]
    ext <;> simp
  · intro h
    have hx := congrArg V3.x h
    have hy := congrArg V3.y h
    have hz := congrArg V3.z h
    simp only [smul_x, add_x, sub_x, smul_y, add_y, sub_y, smul_z, add_z, sub_z] at hx hy hz
    obtain ⟨h1, h2⟩ := independent h0 (a := γ - α) (b := -(δ - β)) (by
      ext
      · simp only [smul_x, add_x, zero_x]; linear_combination hx
      · simp only [smul_y, add_y, zero_y]; linear_combination hy
      · simp only [smul_z, add_z, zero_z]; linear_combination hz)
    rw [show γ = α by linarith, show δ = β by linarith]
    ext <;> simp <;> ring

/-- C41 does not hold for the center: in this trapezoid the point of the first order scheme is not the
center. -/
theorem first_order_center_violated :
    ConvexQuad ⟨0, 0, 0⟩ ⟨2, 0, 0⟩ ⟨1, 1, 0⟩ ⟨0, 1, 0⟩ ∧
    (faceQuadrature firstOrder ⟨0, 0, 0⟩ ⟨2, 0, 0⟩ ⟨1, 1, 0⟩ ⟨0, 1, 0⟩).map Prod.fst ≠
      [(quadPanel ⟨0, 0, 0⟩ ⟨2, 0, 0⟩ ⟨1, 1, 0⟩ ⟨0, 1, 0⟩).center] := by
  have hq : ConvexQuad ⟨0, 0, 0⟩ ⟨2, 0, 0⟩ ⟨1, 1, 0⟩ ⟨0, 1, 0⟩ :=
    ⟨⟨2 / 3, 2 / 3, 0⟩, ⟨1, 1, 0⟩, ⟨-2, 1, 0⟩, 2 / 3, 2 / 3, 1 / 3, 1 / 3, by norm_num, by norm_num,
      by norm_num, by norm_num, by ext <;> simp, by ext <;> simp <;> norm_num,
      by ext <;> simp <;> norm_num, by ext <;> simp <;> norm_num⟩
  refine ⟨hq, ?_⟩
  rw [Ne, first_order_center_partial hq]
  · intro h
    have := congrArg V3.x h
    norm_num at this
  · unfold Kept V3.norm
    apply Real.le_sqrt_of_sq_le
    simp [dot]
    norm_num

/-- Concrete case of `weights_sum`, `builtin_weights_sum` and `gauss_moment`: the same trapezoid. -/
example : totalWeight (faceQuadrature gaussLegendre2 ⟨0, 0, 0⟩ ⟨2, 0, 0⟩ ⟨1, 1, 0⟩ ⟨0, 1, 0⟩) =
    (quadPanel ⟨0, 0, 0⟩ ⟨2, 0, 0⟩ ⟨1, 1, 0⟩ ⟨0, 1, 0⟩).area :=
  builtin_weights_sum "Gauss-Legendre 2" _ (by simp [builtinMethod]) first_order_center_violated.1 (by
    unfold Kept V3.norm
    apply Real.le_sqrt_of_sq_le
    simp [dot]
    norm_num)

/-! ## Meshes -/

theorem convex_triangle (p0 p1 p2 : V3 ℝ) : ConvexQuad p0 p1 p2 p0 :=
  ⟨p0, p2 - p0, p0 - p1, 0, 1, 1, 0, le_refl _, by norm_num, by norm_num, le_refl _, by ext <;> simp,
    by ext <;> simp, by ext <;> simp, by ext <;> simp⟩

/-- C41: on a mesh whose panels are triangles or planar convex quadrangles, and are not tiny, all the
weights sum up to the wet surface. -/
theorem mesh_weights_sum {m : Mesh (V3 ℝ)} {s : List LocalPoint} (hs : LocalScheme s)
    (hm : m.Sound) (t : Table) (ht : m.faceTable = some t) :
    ∃ q, m.quadrature s = some q ∧ q.length = m.faces.length ∧
      (q.map totalWeight).sum = (t.map fun x => x.1.area).sum := by
  have hspec := faceTable_spec ht
  unfold Mesh.quadrature
  have hk : ∀ f ∈ m.faces, ∀ c, corners m.vertices f = some c →
      Kept (cross (c.2.2.1 - c.1) (c.2.2.2 - c.2.1)) := by
    intro f hf c hc
    have := hm.kept f hf c hc
    by_cases hT : f.isTriangle = true
    · rw [if_pos hT] at this
      rw [corners_triangle hc hT]
      convert this using 1
      ext <;> simp <;> ring
    · rwa [if_neg hT] at this
  have hm := hm.convex
  unfold Mesh.ConvexPanels at hm
  generalize m.faces = fs at hspec hm hk
  clear ht
  induction fs generalizing t with
  | nil =>
    have : t = [] := by simpa using hspec.symm
    exact ⟨[], by simp, rfl, by simp [this]⟩
  | cons f fs ih =>
    cases t with
    | nil => cases hspec
    | cons x t =>
      simp only [List.map_cons, List.cons.injEq] at hspec
      obtain ⟨q, h1, h2, h3⟩ := ih t hspec.2 (fun f' hf' => hm f' (List.mem_cons_of_mem _ hf'))
        (fun f' hf' => hk f' (List.mem_cons_of_mem _ hf'))
      unfold faceProperties at hspec
      cases hcf : corners m.vertices f with
      | none => simp [hcf] at hspec
      | some c =>
        have k2 := hk f List.mem_cons_self c hcf
        have hx : x.1 = panelOf f.isTriangle c := by
          rw [hcf] at hspec
          simp only [Option.map_some, Option.some.injEq] at hspec
          rw [← hspec.1]
        have hq : ConvexQuad c.1 c.2.1 c.2.2.1 c.2.2.2 ∧ (quadPanel c.1 c.2.1 c.2.2.1 c.2.2.2) = x.1 := by
          rw [hx]
          by_cases hT : f.isTriangle = true
          · have h4 := corners_triangle hcf hT
            rw [h4]
            exact ⟨convex_triangle _ _ _, by
              rw [(triangle_encoding c.1 c.2.1 c.2.2.1).1]; simp [panelOf, hT]⟩
          · exact ⟨(hm f List.mem_cons_self).resolve_left hT c hcf, by simp [panelOf, hT]⟩
        refine ⟨faceQuadrature s c.1 c.2.1 c.2.2.1 c.2.2.2 :: q, ?_, by simp [h2], ?_⟩
        · rw [List.mapM_cons, hcf, h1]; rfl
        simp only [List.map_cons, List.sum_cons]
        rw [h3, weights_sum hs hq.1 k2, hq.2]

/-- Concrete case of `mesh_weights_sum`. -/
example : ∃ t q, tetra.faceTable = some t ∧ tetra.quadrature gaussLegendre2 = some q ∧
    (q.map totalWeight).sum = (t.map fun x => x.1.area).sum := by
  obtain ⟨t, ht⟩ := table_exists tetra_sound.valid
  obtain ⟨q, h1, -, h2⟩ := mesh_weights_sum (builtin_local "Gauss-Legendre 2" gaussLegendre2
    (by simp [builtinMethod])) tetra_sound t ht
  exact ⟨t, q, ht, h1, h2⟩

end Verif.Meshes
