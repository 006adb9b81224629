import Verif.Meshes.ExtractProps
import Verif.Geometry.PlaneProps

/-!
# C31: geometry of the panels

Area, normal and center of the panels, encodings of triangles, flips, triangulations and motions.
-/

namespace Verif.Meshes

open Verif.Geometry V3

/-! ## Lemmas on norms -/

theorem norm_neg (v : V3 ℝ) : norm (-v) = norm v := by
  unfold V3.norm; congr 1; simp [dot]

theorem norm_smul (c : ℝ) (v : V3 ℝ) : norm (c • v) = |c| * norm v := by
  unfold V3.norm
  rw [show dot (c • v) (c • v) = c ^ 2 * dot v v by simp [dot]; ring, Real.sqrt_mul (sq_nonneg c),
    Real.sqrt_sq_eq_abs]

theorem norm_zero : norm (0 : V3 ℝ) = 0 := norm_eq_zero.2 rfl

theorem norm_of_dot {v w : V3 ℝ} (h : dot v v = dot w w) : norm v = norm w := by
  unfold V3.norm; rw [h]

theorem cross_self (v : V3 ℝ) : cross v v = 0 := by ext <;> simp <;> ring

theorem cross_zero (v : V3 ℝ) : cross v 0 = 0 := by ext <;> simp <;> ring

theorem zero_cross (v : V3 ℝ) : cross 0 v = 0 := by ext <;> simp <;> ring

theorem one_smul' (v : V3 ℝ) : (1 : ℝ) • v = v := by ext <;> simp <;> ring

theorem zero_smul' (v : V3 ℝ) : (0 : ℝ) • v = 0 := by ext <;> simp <;> ring

theorem smul_smul' (a b : ℝ) (v : V3 ℝ) : a • b • v = (a * b) • v := by ext <;> simp <;> ring

/-- A panel is taken into account when its normal is not smaller than the threshold of the code. -/
def Kept (n : V3 ℝ) : Prop := 1e-12 ≤ norm n

theorem kept_pos {n : V3 ℝ} (h : Kept n) : 0 < norm n := lt_of_lt_of_le (by norm_num) h

theorem not_small {n : V3 ℝ} (h : Kept n) : ¬ |norm n| < 1e-12 := by
  rw [abs_of_nonneg (norm_nonneg n)]; exact not_lt.2 h

theorem small_of_not_kept {n : V3 ℝ} (h : ¬ Kept n) : |norm n| < 1e-12 := by
  rw [abs_of_nonneg (norm_nonneg n)]; exact not_le.1 h

theorem triangle_kept {p0 p1 p2 : V3 ℝ} (h : Kept (cross (p1 - p0) (p2 - p0))) :
    trianglePanel p0 p1 p2 = ⟨norm (cross (p1 - p0) (p2 - p0)) / 2,
      (1 / norm (cross (p1 - p0) (p2 - p0))) • cross (p1 - p0) (p2 - p0),
      (1 / 3 : ℝ) • (p0 + p1 + p2)⟩ := by
  unfold trianglePanel
  simp only
  rw [if_neg (not_small h)]

theorem triangle_null {p0 p1 p2 : V3 ℝ} (h : ¬ Kept (cross (p1 - p0) (p2 - p0))) :
    trianglePanel p0 p1 p2 = .null := by
  unfold trianglePanel
  simp only
  rw [if_pos (small_of_not_kept h)]

theorem quad_kept {p0 p1 p2 p3 : V3 ℝ} (h : Kept (cross (p2 - p0) (p3 - p1))) :
    quadPanel p0 p1 p2 p3 =
      ⟨norm (cross (p1 - p0) (p2 - p0)) * 0.5 + norm (cross (p3 - p0) (p2 - p0)) * 0.5,
      (1 / norm (cross (p2 - p0) (p3 - p1))) • cross (p2 - p0) (p3 - p1),
      (1 / (norm (cross (p1 - p0) (p2 - p0)) * 0.5 + norm (cross (p3 - p0) (p2 - p0)) * 0.5)) •
        ((norm (cross (p1 - p0) (p2 - p0)) * 0.5) • (1 / 3 : ℝ) • (p0 + p1 + p2) +
          (norm (cross (p3 - p0) (p2 - p0)) * 0.5) • (1 / 3 : ℝ) • (p2 + p3 + p0))⟩ := by
  unfold quadPanel
  simp only
  rw [if_neg (not_small h)]

theorem quad_null {p0 p1 p2 p3 : V3 ℝ} (h : ¬ Kept (cross (p2 - p0) (p3 - p1))) :
    quadPanel p0 p1 p2 p3 = .null := by
  unfold quadPanel
  simp only
  rw [if_pos (small_of_not_kept h)]

/-! ## Encodings of triangles -/

/-- A triangle does not depend on its first corner. -/
theorem triangle_cycle (p0 p1 p2 : V3 ℝ) : trianglePanel p1 p2 p0 = trianglePanel p0 p1 p2 := by
  have hc : cross (p2 - p1) (p0 - p1) = cross (p1 - p0) (p2 - p0) := by ext <;> simp <;> ring
  by_cases h : Kept (cross (p1 - p0) (p2 - p0))
  · rw [triangle_kept h, triangle_kept (hc.symm ▸ h), hc]
    congr 2; abel
  · rw [triangle_null h, triangle_null (hc.symm ▸ h)]

/-- A quadrangle one half of which is flat. -/
theorem quad_eq_triangle {p0 p1 p2 p3 q0 q1 q2 : V3 ℝ}
    (hn : cross (p2 - p0) (p3 - p1) = cross (q1 - q0) (q2 - q0))
    (h : (cross (p1 - p0) (p2 - p0) = 0 ∧ norm (cross (p3 - p0) (p2 - p0)) = norm (cross (q1 - q0) (q2 - q0)) ∧
        p2 + p3 + p0 = q0 + q1 + q2) ∨
      (cross (p3 - p0) (p2 - p0) = 0 ∧ norm (cross (p1 - p0) (p2 - p0)) = norm (cross (q1 - q0) (q2 - q0)) ∧
        p0 + p1 + p2 = q0 + q1 + q2)) :
    quadPanel p0 p1 p2 p3 = trianglePanel q0 q1 q2 := by
  by_cases hk : Kept (cross (q1 - q0) (q2 - q0))
  · have hpos := kept_pos hk
    rw [triangle_kept hk, quad_kept (hn.symm ▸ hk), hn]
    rcases h with ⟨h1, h2, h3⟩ | ⟨h1, h2, h3⟩
    · rw [h1, h2, h3, norm_zero, zero_mul, zero_smul', zero_add, zero_add, smul_smul']
      have hz : 1 / (norm (cross (q1 - q0) (q2 - q0)) * 0.5) * (norm (cross (q1 - q0) (q2 - q0)) * 0.5) = 1 := by
        field_simp
      rw [hz, one_smul']
      congr 1
      norm_num
      ring
    · rw [h1, h2, h3, norm_zero, zero_mul, zero_smul', add_zero, add_zero, smul_smul']
      have hz : 1 / (norm (cross (q1 - q0) (q2 - q0)) * 0.5) * (norm (cross (q1 - q0) (q2 - q0)) * 0.5) = 1 := by
        field_simp
      rw [hz, one_smul']
      congr 1
      norm_num
      ring
  · rw [triangle_null hk, quad_null (hn.symm ▸ hk)]

/-- **C31**: a triangle stored as a quadrangle with any corner repeated has the same area, normal and
center as the triangle. -/
theorem triangle_encoding (p0 p1 p2 : V3 ℝ) :
    quadPanel p0 p1 p2 p0 = trianglePanel p0 p1 p2 ∧ quadPanel p0 p0 p1 p2 = trianglePanel p0 p1 p2 ∧
    quadPanel p0 p1 p1 p2 = trianglePanel p0 p1 p2 ∧ quadPanel p0 p1 p2 p2 = trianglePanel p0 p1 p2 := by
  refine ⟨?_, ?_, ?_, ?_⟩
  · refine quad_eq_triangle (by ext <;> simp <;> ring) (.inr ⟨?_, rfl, rfl⟩)
    rw [sub_self, zero_cross]
  · refine quad_eq_triangle rfl (.inl ⟨?_, ?_, by abel⟩)
    · rw [sub_self, zero_cross]
    · rw [← norm_neg]; congr 1; ext <;> simp <;> ring
  · refine quad_eq_triangle (by ext <;> simp <;> ring) (.inl ⟨cross_self _, ?_, by abel⟩)
    rw [← norm_neg]; congr 1; ext <;> simp <;> ring
  · refine quad_eq_triangle (by ext <;> simp <;> ring) (.inr ⟨cross_self _, rfl, rfl⟩)

/-! ## Flips -/

/-- The panel seen from the other side. -/
def Panel.reversed (p : Panel) : Panel := ⟨p.area, -p.normal, p.center⟩

theorem reversed_null : Panel.null.reversed = Panel.null := by
  unfold Panel.reversed Panel.null
  congr 1
  ext <;> simp <;> ring

/-- **C31**: flipping a triangle changes the sign of its normal and nothing else. The face `(a, b, c, a)`
becomes `(a, c, b, a)`. -/
theorem triangle_flip (p0 p1 p2 : V3 ℝ) : trianglePanel p0 p2 p1 = (trianglePanel p0 p1 p2).reversed := by
  have hc : cross (p2 - p0) (p1 - p0) = - cross (p1 - p0) (p2 - p0) := by ext <;> simp <;> ring
  have hk : Kept (cross (p2 - p0) (p1 - p0)) ↔ Kept (cross (p1 - p0) (p2 - p0)) := by
    unfold Kept; rw [hc, norm_neg]
  by_cases h : Kept (cross (p1 - p0) (p2 - p0))
  · rw [triangle_kept h, triangle_kept (hk.2 h), hc, norm_neg]
    unfold Panel.reversed
    congr 1
    · ext <;> simp <;> ring
    · congr 1; abel
  · rw [triangle_null h, triangle_null fun h' => h (hk.1 h'), reversed_null]

/-- Specification: a planar convex quadrangle, whose diagonals cross at a point `o`. -/
def ConvexQuad (p0 p1 p2 p3 : V3 ℝ) : Prop :=
  ∃ (o u v : V3 ℝ) (α β γ δ : ℝ), 0 ≤ α ∧ 0 ≤ β ∧ 0 ≤ γ ∧ 0 ≤ δ ∧
    p0 = o - α • u ∧ p1 = o - β • v ∧ p2 = o + γ • u ∧ p3 = o + δ • v

/-- The properties of a convex quadrangle in closed form. -/
theorem convex_panel (o u v : V3 ℝ) (α β γ δ : ℝ) (ha : 0 ≤ α) (hb : 0 ≤ β) (hc : 0 ≤ γ) (hd : 0 ≤ δ)
    (hk : 1e-12 ≤ (α + γ) * (β + δ) * norm (cross u v)) :
    quadPanel (o - α • u) (o - β • v) (o + γ • u) (o + δ • v) =
      ⟨(α + γ) * (β + δ) * norm (cross u v) / 2, (1 / norm (cross u v)) • cross u v,
        o + (1 / 3 : ℝ) • ((γ - α) • u + (δ - β) • v)⟩ := by
  have hn : cross ((o + γ • u) - (o - α • u)) ((o + δ • v) - (o - β • v)) =
      ((α + γ) * (β + δ)) • cross u v := by ext <;> simp <;> ring
  have h1 : cross ((o - β • v) - (o - α • u)) ((o + γ • u) - (o - α • u)) =
      (β * (α + γ)) • cross u v := by ext <;> simp <;> ring
  have h2 : cross ((o + δ • v) - (o - α • u)) ((o + γ • u) - (o - α • u)) =
      (-(δ * (α + γ))) • cross u v := by ext <;> simp <;> ring
  have hN : norm (((α + γ) * (β + δ)) • cross u v) = (α + γ) * (β + δ) * norm (cross u v) := by
    rw [norm_smul, abs_of_nonneg (by positivity)]
  have hN1 : norm ((β * (α + γ)) • cross u v) = β * (α + γ) * norm (cross u v) := by
    rw [norm_smul, abs_of_nonneg (by positivity)]
  have hN2 : norm ((-(δ * (α + γ))) • cross u v) = δ * (α + γ) * norm (cross u v) := by
    rw [norm_smul, abs_neg, abs_of_nonneg (by positivity)]
  have hpos : 0 < (α + γ) * (β + δ) * norm (cross u v) := lt_of_lt_of_le (by norm_num) hk
  have hac : α + γ ≠ 0 := by rintro h; simp [h] at hpos
  have hbd : β + δ ≠ 0 := by rintro h; simp [h] at hpos
  have hne : norm (cross u v) ≠ 0 := by rintro h; simp [h] at hpos
  have hK : Kept (cross ((o + γ • u) - (o - α • u)) ((o + δ • v) - (o - β • v))) := by
    unfold Kept; rw [hn, hN]; exact hk
  rw [quad_kept hK, h1, h2, hn, hN, hN1, hN2]
  have hs : β * (α + γ) * norm (cross u v) * 0.5 + δ * (α + γ) * norm (cross u v) * 0.5 =
      (α + γ) * (β + δ) * norm (cross u v) / 2 := by ring
  rw [hs]
  generalize norm (cross u v) = n at *
  congr 1
  · rw [smul_smul']; congr 1; field_simp
  · ext <;> simp <;> field_simp <;> ring

/-- **C31** for planar convex quadrangles: flipping changes the sign of the normal and nothing else.
Missing: warped quadrangles, see `quad_flip_violated`. -/
theorem quad_flip_partial (p0 p1 p2 p3 : V3 ℝ) (h : ConvexQuad p0 p1 p2 p3) :
    quadPanel p3 p2 p1 p0 = (quadPanel p0 p1 p2 p3).reversed := by
  have hcr : cross (p1 - p3) (p0 - p2) = - cross (p2 - p0) (p3 - p1) := by ext <;> simp <;> ring
  have hk : Kept (cross (p1 - p3) (p0 - p2)) ↔ Kept (cross (p2 - p0) (p3 - p1)) := by
    unfold Kept; rw [hcr, norm_neg]
  by_cases hK : Kept (cross (p2 - p0) (p3 - p1))
  · obtain ⟨o, u, v, α, β, γ, δ, ha, hb, hc, hd, rfl, rfl, rfl, rfl⟩ := h
    have hn : cross ((o + γ • u) - (o - α • u)) ((o + δ • v) - (o - β • v)) =
        ((α + γ) * (β + δ)) • cross u v := by ext <;> simp <;> ring
    unfold Kept at hK
    rw [hn, norm_smul, abs_of_nonneg (by positivity)] at hK
    rw [convex_panel o u v α β γ δ ha hb hc hd hK]
    have e : cross (-v) (-u) = - cross u v := by ext <;> simp <;> ring
    have hK' : 1e-12 ≤ (δ + β) * (γ + α) * norm (cross (-v) (-u)) := by
      rw [e, norm_neg]; linarith
    have := convex_panel o (-v) (-u) δ γ β α hd hc hb ha hK'
    rw [show o - δ • (-v) = o + δ • v by ext <;> simp, show o - γ • (-u) = o + γ • u by ext <;> simp,
      show o + β • (-v) = o - β • v by ext <;> simp <;> ring,
      show o + α • (-u) = o - α • u by ext <;> simp <;> ring] at this
    rw [this, e, norm_neg]
    unfold Panel.reversed
    congr 1
    · ring
    · ext <;> simp <;> ring
    · ext <;> simp <;> ring
  · rw [quad_null hK, quad_null fun h' => hK (hk.1 h'), reversed_null]

/-- **C31 is violated** for warped quadrangles: the area is computed by splitting along one diagonal, and
flipping exchanges the diagonals. -/
theorem quad_flip_violated : ∃ p0 p1 p2 p3 : V3 ℝ,
    (quadPanel p3 p2 p1 p0).area ≠ (quadPanel p0 p1 p2 p3).area := by
  -- a unit square with one corner raised
  refine ⟨⟨0, 0, 0⟩, ⟨1, 0, 0⟩, ⟨1, 1, 1⟩, ⟨0, 1, 0⟩, ?_⟩
  have k1 : Kept (cross ((⟨1, 1, 1⟩ : V3 ℝ) - ⟨0, 0, 0⟩) (⟨0, 1, 0⟩ - ⟨1, 0, 0⟩)) := by
    unfold Kept V3.norm
    apply Real.le_sqrt_of_sq_le
    simp [dot]; norm_num
  have k2 : Kept (cross ((⟨1, 0, 0⟩ : V3 ℝ) - ⟨0, 1, 0⟩) (⟨0, 0, 0⟩ - ⟨1, 1, 1⟩)) := by
    unfold Kept V3.norm
    apply Real.le_sqrt_of_sq_le
    simp [dot]; norm_num
  rw [quad_kept k1, quad_kept k2]
  simp only
  have e1 : norm (cross ((⟨1, 0, 0⟩ : V3 ℝ) - ⟨0, 0, 0⟩) (⟨1, 1, 1⟩ - ⟨0, 0, 0⟩)) = √2 := by
    unfold V3.norm; congr 1; simp [dot]; norm_num
  have e2 : norm (cross ((⟨0, 1, 0⟩ : V3 ℝ) - ⟨0, 0, 0⟩) (⟨1, 1, 1⟩ - ⟨0, 0, 0⟩)) = √2 := by
    unfold V3.norm; congr 1; simp [dot]; norm_num
  have e3 : norm (cross ((⟨1, 1, 1⟩ : V3 ℝ) - ⟨0, 1, 0⟩) (⟨1, 0, 0⟩ - ⟨0, 1, 0⟩)) = √3 := by
    unfold V3.norm; congr 1; simp [dot]; norm_num
  have e4 : norm (cross ((⟨0, 0, 0⟩ : V3 ℝ) - ⟨0, 1, 0⟩) (⟨1, 0, 0⟩ - ⟨0, 1, 0⟩)) = 1 := by
    unfold V3.norm; simp [dot]
  rw [e1, e2, e3, e4]
  intro h
  have h2 : √2 ^ 2 = 2 := Real.sq_sqrt (by norm_num)
  have h3 : √3 ^ 2 = 3 := Real.sq_sqrt (by norm_num)
  have h4 : √3 = 2 * √2 - 1 := by linarith
  rw [h4] at h3
  have h5 : √2 = 3 / 2 := by nlinarith
  rw [h5] at h2
  norm_num at h2

/-- Concrete case of `quad_flip_partial`: a trapezium. -/
example : ConvexQuad ⟨0, 0, 0⟩ ⟨2, 0, 0⟩ ⟨1, 1, 0⟩ ⟨0, 1, 0⟩ :=
  ⟨⟨2 / 3, 2 / 3, 0⟩, ⟨1, 1, 0⟩, ⟨-2, 1, 0⟩, 2 / 3, 2 / 3, 1 / 3, 1 / 3, by norm_num, by norm_num, by norm_num,
    by norm_num, by ext <;> simp, by ext <;> simp <;> norm_num, by ext <;> simp <;> norm_num,
    by ext <;> simp <;> norm_num⟩

/-! ## Triangulation -/

/-- **C31**: the area of a quadrangle is the sum of the areas of the two triangles of
`triangulate_quadrangles`, and its center is their barycenter, when none of the three panels is
degenerate. -/
theorem triangulation (p0 p1 p2 p3 : V3 ℝ) (h : Kept (cross (p2 - p0) (p3 - p1)))
    (h1 : Kept (cross (p1 - p0) (p2 - p0))) (h2 : Kept (cross (p2 - p0) (p3 - p0))) :
    (quadPanel p0 p1 p2 p3).area = (trianglePanel p0 p1 p2).area + (trianglePanel p0 p2 p3).area ∧
    (quadPanel p0 p1 p2 p3).area • (quadPanel p0 p1 p2 p3).center =
      (trianglePanel p0 p1 p2).area • (trianglePanel p0 p1 p2).center +
      (trianglePanel p0 p2 p3).area • (trianglePanel p0 p2 p3).center := by
  have e : norm (cross (p3 - p0) (p2 - p0)) = norm (cross (p2 - p0) (p3 - p0)) := by
    rw [← norm_neg]; congr 1; ext <;> simp <;> ring
  have q1 := kept_pos h1
  have q2 := kept_pos h2
  rw [quad_kept h, triangle_kept h1, triangle_kept h2, e]
  generalize norm (cross (p1 - p0) (p2 - p0)) = n1 at *
  generalize norm (cross (p2 - p0) (p3 - p0)) = n2 at *
  have hne : n1 * 0.5 + n2 * 0.5 ≠ 0 := by positivity
  refine ⟨by ring, ?_⟩
  simp only
  rw [smul_smul', mul_one_div, div_self hne, one_smul']
  ext <;> simp <;> ring

/-- **C31** for planar convex quadrangles: the area vector (area times normal) is the sum of those of the
two triangles. Missing: warped quadrangles, see `triangulation_vector_violated`. -/
theorem triangulation_vector_partial (p0 p1 p2 p3 : V3 ℝ) (hq : ConvexQuad p0 p1 p2 p3)
    (h : Kept (cross (p2 - p0) (p3 - p1)))
    (h1 : Kept (cross (p1 - p0) (p2 - p0))) (h2 : Kept (cross (p2 - p0) (p3 - p0))) :
    (quadPanel p0 p1 p2 p3).area • (quadPanel p0 p1 p2 p3).normal =
      (trianglePanel p0 p1 p2).area • (trianglePanel p0 p1 p2).normal +
      (trianglePanel p0 p2 p3).area • (trianglePanel p0 p2 p3).normal := by
  have t1 := kept_pos h1
  have t2 := kept_pos h2
  rw [triangle_kept h1, triangle_kept h2]
  simp only [smul_smul']
  rw [show norm (cross (p1 - p0) (p2 - p0)) / 2 * (1 / norm (cross (p1 - p0) (p2 - p0))) = 1 / 2 by field_simp,
    show norm (cross (p2 - p0) (p3 - p0)) / 2 * (1 / norm (cross (p2 - p0) (p3 - p0))) = 1 / 2 by field_simp]
  obtain ⟨o, u, v, α, β, γ, δ, ha, hb, hc, hd, rfl, rfl, rfl, rfl⟩ := hq
  have hn : cross ((o + γ • u) - (o - α • u)) ((o + δ • v) - (o - β • v)) =
      ((α + γ) * (β + δ)) • cross u v := by ext <;> simp <;> ring
  unfold Kept at h
  rw [hn, norm_smul, abs_of_nonneg (by positivity)] at h
  rw [convex_panel o u v α β γ δ ha hb hc hd h]
  have hpos : 0 < (α + γ) * (β + δ) * norm (cross u v) := lt_of_lt_of_le (by norm_num) h
  have hne : norm (cross u v) ≠ 0 := by rintro h; simp [h] at hpos
  simp only [smul_smul']
  rw [show (α + γ) * (β + δ) * norm (cross u v) / 2 * (1 / norm (cross u v)) = (α + γ) * (β + δ) / 2 by
    field_simp]
  ext <;> simp <;> ring

/-- **C31 is violated** for warped quadrangles: the area vector changes by triangulation. -/
theorem triangulation_vector_violated : ∃ p0 p1 p2 p3 : V3 ℝ,
    Kept (cross (p1 - p0) (p2 - p0)) ∧ Kept (cross (p2 - p0) (p3 - p0)) ∧
    (quadPanel p0 p1 p2 p3).area • (quadPanel p0 p1 p2 p3).normal ≠
      (trianglePanel p0 p1 p2).area • (trianglePanel p0 p1 p2).normal +
      (trianglePanel p0 p2 p3).area • (trianglePanel p0 p2 p3).normal := by
  refine ⟨⟨0, 0, 0⟩, ⟨1, 0, 0⟩, ⟨1, 1, 1⟩, ⟨0, 1, 0⟩, ?_⟩
  have k1 : Kept (cross ((⟨1, 1, 1⟩ : V3 ℝ) - ⟨0, 0, 0⟩) (⟨0, 1, 0⟩ - ⟨1, 0, 0⟩)) := by
    unfold Kept V3.norm
    apply Real.le_sqrt_of_sq_le
    simp [dot]; norm_num
  have k2 : Kept (cross ((⟨1, 0, 0⟩ : V3 ℝ) - ⟨0, 0, 0⟩) (⟨1, 1, 1⟩ - ⟨0, 0, 0⟩)) := by
    unfold Kept V3.norm
    apply Real.le_sqrt_of_sq_le
    simp [dot]; norm_num
  have k3 : Kept (cross ((⟨1, 1, 1⟩ : V3 ℝ) - ⟨0, 0, 0⟩) (⟨0, 1, 0⟩ - ⟨0, 0, 0⟩)) := by
    unfold Kept V3.norm
    apply Real.le_sqrt_of_sq_le
    simp [dot]; norm_num
  refine ⟨k2, k3, ?_⟩
  have e1 : norm (cross ((⟨1, 0, 0⟩ : V3 ℝ) - ⟨0, 0, 0⟩) (⟨1, 1, 1⟩ - ⟨0, 0, 0⟩)) = √2 := by
    unfold V3.norm; congr 1; simp [dot]; norm_num
  have e2 : norm (cross ((⟨0, 1, 0⟩ : V3 ℝ) - ⟨0, 0, 0⟩) (⟨1, 1, 1⟩ - ⟨0, 0, 0⟩)) = √2 := by
    unfold V3.norm; congr 1; simp [dot]; norm_num
  have e3 : norm (cross ((⟨1, 1, 1⟩ : V3 ℝ) - ⟨0, 0, 0⟩) (⟨0, 1, 0⟩ - ⟨0, 0, 0⟩)) = √2 := by
    unfold V3.norm; congr 1; simp [dot]; norm_num
  have e4 : norm (cross ((⟨1, 1, 1⟩ : V3 ℝ) - ⟨0, 0, 0⟩) (⟨0, 1, 0⟩ - ⟨1, 0, 0⟩)) = √6 := by
    unfold V3.norm; congr 1; simp [dot]; norm_num
  rw [quad_kept k1, triangle_kept k2, triangle_kept k3, e1, e2, e3, e4]
  intro h
  have hz := congrArg V3.z h
  have h2 : √2 ^ 2 = 2 := Real.sq_sqrt (by norm_num)
  have h6 : √6 ^ 2 = 6 := Real.sq_sqrt (by norm_num)
  have p2 : √2 ≠ 0 := by positivity
  have p6 : √6 ≠ 0 := by positivity
  simp at hz
  field_simp at hz
  nlinarith [Real.sqrt_nonneg 2, Real.sqrt_nonneg 6]

/-- Concrete case of the triangulation theorems: the trapezium above is kept, as are its halves. -/
example : Kept (cross ((⟨1, 1, 0⟩ : V3 ℝ) - ⟨0, 0, 0⟩) (⟨0, 1, 0⟩ - ⟨2, 0, 0⟩)) ∧
    Kept (cross ((⟨2, 0, 0⟩ : V3 ℝ) - ⟨0, 0, 0⟩) (⟨1, 1, 0⟩ - ⟨0, 0, 0⟩)) ∧
    Kept (cross ((⟨1, 1, 0⟩ : V3 ℝ) - ⟨0, 0, 0⟩) (⟨0, 1, 0⟩ - ⟨0, 0, 0⟩)) := by
  unfold Kept V3.norm
  refine ⟨?_, ?_, ?_⟩ <;> (apply Real.le_sqrt_of_sq_le; simp [dot]; norm_num)

end Verif.Meshes
