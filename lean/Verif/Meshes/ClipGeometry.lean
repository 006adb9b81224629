import Verif.Meshes.ClipModel
import Mathlib.Tactic.LinearCombination
import Mathlib.Tactic.FieldSimp
import Mathlib.Tactic.Positivity
import Mathlib.Tactic.Linarith
import Mathlib.Data.Set.Lattice

/-!
# Triangles and quadrangles cut by a plane

The sets of points of flat panels, and what a plane keeps of them.
-/

namespace Verif.Meshes

open Verif.Geometry V3

/-- The points of a triangle. -/
def triangle (a b c : V3 ℝ) : Set (V3 ℝ) :=
  {x | ∃ u v w : ℝ, 0 ≤ u ∧ 0 ≤ v ∧ 0 ≤ w ∧ u + v + w = 1 ∧ x = u • a + v • b + w • c}

/-- The points of a flat convex quadrangle. -/
def quadrangle (a b c d : V3 ℝ) : Set (V3 ℝ) :=
  {x | ∃ u v w z : ℝ, 0 ≤ u ∧ 0 ≤ v ∧ 0 ≤ w ∧ 0 ≤ z ∧ u + v + w + z = 1 ∧ x = u • a + v • b + w • c + z • d}

/-- A quadrangle is flat and convex when its diagonals cross each other. Two consecutive edges may be aligned. -/
def FlatConvex (a b c d : V3 ℝ) : Prop :=
  ∃ s t : ℝ, 0 ≤ s ∧ s ≤ 1 ∧ 0 ≤ t ∧ t ≤ 1 ∧ (1 - s) • a + s • c = (1 - t) • b + t • d

/-- The kept side of the plane. -/
def under (P : Plane) : Set (V3 ℝ) := {x | P.distanceToPoint x ≤ 0}

/-- The point of the line `p q` on the plane. -/
noncomputable def zeroPoint (P : Plane) (p q : V3 ℝ) : V3 ℝ :=
  (1 - P.distanceToPoint p / (P.distanceToPoint p - P.distanceToPoint q)) • p +
    (P.distanceToPoint p / (P.distanceToPoint p - P.distanceToPoint q)) • q

theorem edge_intersection (P : Plane) (p q : V3 ℝ)
    (h : (0 ≤ P.distanceToPoint p ∧ P.distanceToPoint q < 0) ∨ (P.distanceToPoint p < 0 ∧ 0 ≤ P.distanceToPoint q)) :
    P.getEdgeIntersection p q = .point (zeroPoint P p q) := by
  have h1 : dot p P.normal - P.s = P.distanceToPoint p := by
    simp only [Plane.s, Plane.distanceToPoint, dot]
    ring
  have h2 : dot p P.normal - dot q P.normal = P.distanceToPoint p - P.distanceToPoint q := by
    simp only [Plane.distanceToPoint]
    ring
  have h3 : 0 ≤ P.distanceToPoint p / (P.distanceToPoint p - P.distanceToPoint q) ∧
      P.distanceToPoint p / (P.distanceToPoint p - P.distanceToPoint q) ≤ 1 := by
    rcases h with ⟨hp, hq⟩ | ⟨hp, hq⟩
    · have : 0 < P.distanceToPoint p - P.distanceToPoint q := by linarith
      exact ⟨by positivity, by rw [div_le_one this]; linarith⟩
    · have : P.distanceToPoint p - P.distanceToPoint q < 0 := by linarith
      exact ⟨div_nonneg_of_nonpos hp.le this.le, by rw [div_le_one_of_neg this]; linarith⟩
  simp only [Plane.getEdgeIntersection, h1, h2]
  rw [if_neg (by push Not; exact h3)]
  rfl

theorem zeroPoint_comm (P : Plane) (p q : V3 ℝ) (h : P.distanceToPoint p ≠ P.distanceToPoint q) :
    zeroPoint P p q = zeroPoint P q p := by
  have h1 : P.distanceToPoint p - P.distanceToPoint q ≠ 0 := sub_ne_zero.mpr h
  have h2 : P.distanceToPoint q - P.distanceToPoint p ≠ 0 := sub_ne_zero.mpr h.symm
  simp only [zeroPoint]
  ext <;> simp <;> field_simp <;> ring

/-- A corner on the plane is the intersection. -/
theorem zeroPoint_of_zero (P : Plane) (p q : V3 ℝ) (h : P.distanceToPoint p = 0) : zeroPoint P p q = p := by
  simp only [zeroPoint, h, zero_div]
  ext <;> simp

theorem zeroPoint_of_zero' (P : Plane) (p q : V3 ℝ) (h : P.distanceToPoint q = 0) (hp : P.distanceToPoint p ≠ 0) :
    zeroPoint P p q = q := by
  simp only [zeroPoint, h, sub_zero, div_self hp]
  ext <;> simp

/-! ## Convex sets -/

/-- A convex set. -/
def Conv (S : Set (V3 ℝ)) : Prop := ∀ x ∈ S, ∀ y ∈ S, ∀ t : ℝ, 0 ≤ t → t ≤ 1 → (1 - t) • x + t • y ∈ S

theorem conv_under (P : Plane) : Conv (under P) := by
  intro x hx y hy t h0 h1
  simp only [under, Set.mem_setOf_eq] at *
  have : P.distanceToPoint ((1 - t) • x + t • y) = (1 - t) * P.distanceToPoint x + t * P.distanceToPoint y := by
    simp only [Plane.distanceToPoint, dot, add_x, add_y, add_z, smul_x, smul_y, smul_z]
    ring
  rw [this]
  nlinarith

theorem conv_inter {S T : Set (V3 ℝ)} (hS : Conv S) (hT : Conv T) : Conv (S ∩ T) :=
  fun x hx y hy t h0 h1 => ⟨hS x hx.1 y hy.1 t h0 h1, hT x hx.2 y hy.2 t h0 h1⟩

theorem conv_triangle (a b c : V3 ℝ) : Conv (triangle a b c) := by
  rintro x ⟨u, v, w, hu, hv, hw, h, rfl⟩ y ⟨u', v', w', hu', hv', hw', h', rfl⟩ t h0 h1
  have h2 : 0 ≤ 1 - t := by linarith
  refine ⟨(1 - t) * u + t * u', (1 - t) * v + t * v', (1 - t) * w + t * w', by positivity, by positivity, by positivity,
    by linear_combination (1 - t) * h + t * h', ?_⟩
  ext <;> simp <;> ring

theorem conv_quadrangle (a b c d : V3 ℝ) : Conv (quadrangle a b c d) := by
  rintro x ⟨u, v, w, z, hu, hv, hw, hz, h, rfl⟩ y ⟨u', v', w', z', hu', hv', hw', hz', h', rfl⟩ t h0 h1
  have h2 : 0 ≤ 1 - t := by linarith
  refine ⟨(1 - t) * u + t * u', (1 - t) * v + t * v', (1 - t) * w + t * w', (1 - t) * z + t * z', by positivity,
    by positivity, by positivity, by positivity, by linear_combination (1 - t) * h + t * h', ?_⟩
  ext <;> simp <;> ring

theorem triangle_subset {S : Set (V3 ℝ)} (hS : Conv S) {a b c : V3 ℝ} (ha : a ∈ S) (hb : b ∈ S) (hc : c ∈ S) :
    triangle a b c ⊆ S := by
  rintro x ⟨u, v, w, hu, hv, hw, h, rfl⟩
  by_cases h0 : v + w = 0
  · have hv0 : v = 0 := by linarith
    have hw0 : w = 0 := by linarith
    have hu1 : u = 1 := by linarith
    subst hv0 hw0 hu1
    have : (1 : ℝ) • a + (0 : ℝ) • b + (0 : ℝ) • c = a := by ext <;> simp
    rw [this]
    exact ha
  · have h1 : 0 < v + w := lt_of_le_of_ne (by linarith) (Ne.symm h0)
    have hbc : (1 - w / (v + w)) • b + (w / (v + w)) • c ∈ S :=
      hS b hb c hc _ (by positivity) (by rw [div_le_one h1]; linarith)
    have := hS a ha _ hbc (v + w) h1.le (by linarith)
    have e : (1 - (v + w)) • a + (v + w) • ((1 - w / (v + w)) • b + (w / (v + w)) • c) = u • a + v • b + w • c := by
      have : u = 1 - (v + w) := by linarith
      subst this
      ext <;> simp <;> field_simp <;> ring
    rw [← e]
    exact this

theorem quadrangle_subset {S : Set (V3 ℝ)} (hS : Conv S) {a b c d : V3 ℝ} (ha : a ∈ S) (hb : b ∈ S) (hc : c ∈ S)
    (hd : d ∈ S) : quadrangle a b c d ⊆ S := by
  rintro x ⟨u, v, w, z, hu, hv, hw, hz, h, rfl⟩
  by_cases h0 : v + w + z = 0
  · have hv0 : v = 0 := by linarith
    have hw0 : w = 0 := by linarith
    have hz0 : z = 0 := by linarith
    have hu1 : u = 1 := by linarith
    subst hv0 hw0 hz0 hu1
    have : (1 : ℝ) • a + (0 : ℝ) • b + (0 : ℝ) • c + (0 : ℝ) • d = a := by ext <;> simp
    rw [this]
    exact ha
  · have h1 : 0 < v + w + z := lt_of_le_of_ne (by linarith) (Ne.symm h0)
    have hbc : (v / (v + w + z)) • b + (w / (v + w + z)) • c + (z / (v + w + z)) • d ∈ S :=
      triangle_subset hS hb hc hd ⟨_, _, _, by positivity, by positivity, by positivity, by field_simp, rfl⟩
    have := hS a ha _ hbc (v + w + z) h1.le (by linarith)
    have e : (1 - (v + w + z)) • a + (v + w + z) • ((v / (v + w + z)) • b + (w / (v + w + z)) • c +
        (z / (v + w + z)) • d) = u • a + v • b + w • c + z • d := by
      have : u = 1 - (v + w + z) := by linarith
      subst this
      ext <;> simp <;> field_simp <;> ring
    rw [← e]
    exact this

/-! ## Corners -/

theorem triangle_corners (a b c : V3 ℝ) : a ∈ triangle a b c ∧ b ∈ triangle a b c ∧ c ∈ triangle a b c :=
  ⟨⟨1, 0, 0, by norm_num, by norm_num, by norm_num, by norm_num, by ext <;> simp⟩,
    ⟨0, 1, 0, by norm_num, by norm_num, by norm_num, by norm_num, by ext <;> simp⟩,
    ⟨0, 0, 1, by norm_num, by norm_num, by norm_num, by norm_num, by ext <;> simp⟩⟩

theorem quadrangle_corners (a b c d : V3 ℝ) :
    a ∈ quadrangle a b c d ∧ b ∈ quadrangle a b c d ∧ c ∈ quadrangle a b c d ∧ d ∈ quadrangle a b c d :=
  ⟨⟨1, 0, 0, 0, by norm_num, by norm_num, by norm_num, by norm_num, by norm_num, by ext <;> simp⟩,
    ⟨0, 1, 0, 0, by norm_num, by norm_num, by norm_num, by norm_num, by norm_num, by ext <;> simp⟩,
    ⟨0, 0, 1, 0, by norm_num, by norm_num, by norm_num, by norm_num, by norm_num, by ext <;> simp⟩,
    ⟨0, 0, 0, 1, by norm_num, by norm_num, by norm_num, by norm_num, by norm_num, by ext <;> simp⟩⟩

theorem triangle_rotate (a b c : V3 ℝ) : triangle a b c = triangle b c a := by
  have key : ∀ a b c : V3 ℝ, triangle a b c ⊆ triangle b c a := fun a b c => by
    obtain ⟨h1, h2, h3⟩ := triangle_corners b c a
    exact triangle_subset (conv_triangle _ _ _) h3 h1 h2
  exact Set.Subset.antisymm (key a b c) ((key b c a).trans (key c a b))

theorem quadrangle_rotate (a b c d : V3 ℝ) : quadrangle a b c d = quadrangle b c d a := by
  have key : ∀ a b c d : V3 ℝ, quadrangle a b c d ⊆ quadrangle b c d a := fun a b c d => by
    obtain ⟨h1, h2, h3, h4⟩ := quadrangle_corners b c d a
    exact quadrangle_subset (conv_quadrangle _ _ _ _) h4 h1 h2 h3
  exact Set.Subset.antisymm (key a b c d) (((key b c d a).trans (key c d a b)).trans (key d a b c))

/-- A quadrangle with two equal corners. -/
theorem quadrangle_last (a b c : V3 ℝ) : quadrangle a b c a = triangle a b c := by
  obtain ⟨h1, h2, h3⟩ := triangle_corners a b c
  obtain ⟨k1, k2, k3, -⟩ := quadrangle_corners a b c a
  exact Set.Subset.antisymm (quadrangle_subset (conv_triangle _ _ _) h1 h2 h3 h1)
    (triangle_subset (conv_quadrangle _ _ _ _) k1 k2 k3)

theorem FlatConvex.rotate {a b c d : V3 ℝ} (h : FlatConvex a b c d) : FlatConvex b c d a := by
  obtain ⟨s, t, hs0, hs1, ht0, ht1, h⟩ := h
  refine ⟨t, 1 - s, ht0, ht1, by linarith, by linarith, ?_⟩
  rw [← h]
  ext <;> simp <;> ring

theorem FlatConvex.dist {a b c d : V3 ℝ} (P : Plane) (h : FlatConvex a b c d) :
    ∃ s t : ℝ, 0 ≤ s ∧ s ≤ 1 ∧ 0 ≤ t ∧ t ≤ 1 ∧ (1 - s) • a + s • c = (1 - t) • b + t • d ∧
      (1 - s) * P.distanceToPoint a + s * P.distanceToPoint c =
        (1 - t) * P.distanceToPoint b + t * P.distanceToPoint d := by
  obtain ⟨s, t, hs0, hs1, ht0, ht1, h⟩ := h
  refine ⟨s, t, hs0, hs1, ht0, ht1, h, ?_⟩
  have hx := congrArg V3.x h
  have hy := congrArg V3.y h
  have hz := congrArg V3.z h
  simp only [add_x, add_y, add_z, smul_x, smul_y, smul_z] at hx hy hz
  simp only [Plane.distanceToPoint, dot]
  linear_combination P.normal.x * hx + P.normal.y * hy + P.normal.z * hz

theorem dist_pair (P : Plane) (a b : V3 ℝ) (t : ℝ) :
    P.distanceToPoint ((1 - t) • a + t • b) = (1 - t) * P.distanceToPoint a + t * P.distanceToPoint b := by
  simp only [Plane.distanceToPoint, dot, add_x, add_y, add_z, smul_x, smul_y, smul_z]
  ring

theorem zeroPoint_mem {P : Plane} {p q : V3 ℝ} {S : Set (V3 ℝ)} (hS : Conv S) (hp : p ∈ S) (hq : q ∈ S)
    (h : (0 ≤ P.distanceToPoint p ∧ P.distanceToPoint q < 0) ∨ (P.distanceToPoint p < 0 ∧ 0 ≤ P.distanceToPoint q)) :
    zeroPoint P p q ∈ S ∩ under P := by
  have hd : P.distanceToPoint (zeroPoint P p q) = 0 := by
    have : P.distanceToPoint p - P.distanceToPoint q ≠ 0 := by
      rcases h with h | h <;> intro hc <;> linarith [h.1, h.2]
    rw [zeroPoint, dist_pair]
    field_simp
    ring
  refine ⟨?_, by rw [under, Set.mem_setOf_eq, hd]⟩
  refine hS p hp q hq _ ?_ ?_
  · rcases h with ⟨h1, h2⟩ | ⟨h1, h2⟩
    · have : 0 < P.distanceToPoint p - P.distanceToPoint q := by linarith
      positivity
    · exact div_nonneg_of_nonpos h1.le (by linarith)
  · rcases h with ⟨h1, h2⟩ | ⟨h1, h2⟩
    · rw [div_le_one (by linarith)]
      linarith
    · rw [div_le_one_of_neg (by linarith)]
      linarith

theorem dist_triple (P : Plane) (a b c : V3 ℝ) (u v w : ℝ) (h : u + v + w = 1) :
    P.distanceToPoint (u • a + v • b + w • c) =
      u * P.distanceToPoint a + v * P.distanceToPoint b + w * P.distanceToPoint c := by
  simp only [Plane.distanceToPoint, dot, add_x, add_y, add_z, smul_x, smul_y, smul_z]
  linear_combination (P.point.x * P.normal.x + P.point.y * P.normal.y + P.point.z * P.normal.z) * h

theorem dist_quadruple (P : Plane) (a b c d : V3 ℝ) (u v w z : ℝ) (h : u + v + w + z = 1) :
    P.distanceToPoint (u • a + v • b + w • c + z • d) =
      u * P.distanceToPoint a + v * P.distanceToPoint b + w * P.distanceToPoint c + z * P.distanceToPoint d := by
  simp only [Plane.distanceToPoint, dot, add_x, add_y, add_z, smul_x, smul_y, smul_z]
  linear_combination (P.point.x * P.normal.x + P.point.y * P.normal.y + P.point.z * P.normal.z) * h

/-! ## Triangles -/

/-- One corner under the plane. -/
theorem triangle_tip (P : Plane) (a b c : V3 ℝ) (ha : P.distanceToPoint a < 0) (hb : 0 ≤ P.distanceToPoint b)
    (hc : 0 ≤ P.distanceToPoint c) :
    triangle (zeroPoint P a c) a (zeroPoint P a b) = triangle a b c ∩ under P := by
  obtain ⟨h1, h2, h3⟩ := triangle_corners a b c
  refine Set.Subset.antisymm (triangle_subset (conv_inter (conv_triangle _ _ _) (conv_under P))
    (zeroPoint_mem (conv_triangle _ _ _) h1 h3 (.inr ⟨ha, hc⟩)) ⟨h1, ha.le⟩
    (zeroPoint_mem (conv_triangle _ _ _) h1 h2 (.inr ⟨ha, hb⟩))) ?_
  rintro x ⟨⟨u, v, w, hu, hv, hw, h, rfl⟩, hx⟩
  rw [under, Set.mem_setOf_eq, dist_triple P a b c u v w h] at hx
  simp only [zeroPoint]
  generalize P.distanceToPoint a = da at *
  generalize P.distanceToPoint b = db at *
  generalize P.distanceToPoint c = dc at *
  have e1 : da - db < 0 := by linarith
  have e2 : da - dc < 0 := by linarith
  have e1' := e1.ne
  have e2' := e2.ne
  have e3 := ha.ne
  refine ⟨w * (da - dc) / da, (u * da + v * db + w * dc) / da, v * (da - db) / da,
    div_nonneg_of_nonpos (by nlinarith) ha.le, div_nonneg_of_nonpos hx ha.le, div_nonneg_of_nonpos (by nlinarith) ha.le,
    ?_, ?_⟩
  · field_simp
    linear_combination da * h
  · ext <;> simp <;> field_simp <;> ring

/-- One corner above the plane. -/
theorem triangle_trunk (P : Plane) (a b c : V3 ℝ) (ha : 0 ≤ P.distanceToPoint a) (hb : P.distanceToPoint b < 0)
    (hc : P.distanceToPoint c < 0) :
    quadrangle (zeroPoint P a b) b c (zeroPoint P a c) = triangle a b c ∩ under P := by
  obtain ⟨h1, h2, h3⟩ := triangle_corners a b c
  refine Set.Subset.antisymm (quadrangle_subset (conv_inter (conv_triangle _ _ _) (conv_under P))
    (zeroPoint_mem (conv_triangle _ _ _) h1 h2 (.inl ⟨ha, hb⟩)) ⟨h2, hb.le⟩ ⟨h3, hc.le⟩
    (zeroPoint_mem (conv_triangle _ _ _) h1 h3 (.inl ⟨ha, hc⟩))) ?_
  rintro x ⟨⟨u, v, w, hu, hv, hw, h, rfl⟩, hx⟩
  rw [under, Set.mem_setOf_eq, dist_triple P a b c u v w h] at hx
  simp only [zeroPoint]
  generalize P.distanceToPoint a = da at *
  generalize P.distanceToPoint b = db at *
  generalize P.distanceToPoint c = dc at *
  have e1 : 0 < da - db := by linarith
  have e2 : 0 < da - dc := by linarith
  have e1' := e1.ne'
  have e2' := e2.ne'
  have e3 := hb.ne
  have e4 := hc.ne
  -- the weight `u` is shared between the two intersections
  obtain ⟨p, q, hp, hq, hpq, hp', hq'⟩ : ∃ p q : ℝ, 0 ≤ p ∧ 0 ≤ q ∧ p + q = u ∧ p * da + v * db ≤ 0 ∧ q * da + w * dc ≤ 0 := by
    by_cases h0 : u * da + v * db ≤ 0
    · exact ⟨u, 0, hu, le_refl _, by ring, h0, by nlinarith⟩
    · have hda : 0 < da := by
        rcases ha.lt_or_eq with h' | h'
        · exact h'
        · exfalso
          rw [← h'] at h0
          nlinarith
      refine ⟨-(v * db) / da, u + v * db / da, div_nonneg (by nlinarith) ha, ?_, by ring, ?_, ?_⟩
      · rw [← sub_nonneg, sub_zero]
        have : u + v * db / da = (u * da + v * db) / da := by field_simp
        rw [this]
        exact div_nonneg (by linarith) ha
      · field_simp
        linarith
      · have : (u + v * db / da) * da + w * dc = u * da + v * db + w * dc := by field_simp
        rw [this]
        exact hx
  subst hpq
  refine ⟨p * (db - da) / db, (p * da + v * db) / db, (q * da + w * dc) / dc, q * (dc - da) / dc,
    div_nonneg_of_nonpos (by nlinarith) hb.le, div_nonneg_of_nonpos hp' hb.le, div_nonneg_of_nonpos hq' hc.le,
    div_nonneg_of_nonpos (by nlinarith) hc.le, ?_, ?_⟩
  · field_simp
    linear_combination db * dc * h
  · ext <;> simp <;> field_simp <;> ring

/-! ## Quadrangles -/

/-- A flat convex quadrangle is cut in two triangles by a diagonal. -/
theorem quadrangle_split (a b c d : V3 ℝ) (h : FlatConvex a b c d) :
    quadrangle a b c d = triangle a b d ∪ triangle b c d := by
  obtain ⟨k1, k2, k3, k4⟩ := quadrangle_corners a b c d
  refine Set.Subset.antisymm ?_ (Set.union_subset (triangle_subset (conv_quadrangle _ _ _ _) k1 k2 k4)
    (triangle_subset (conv_quadrangle _ _ _ _) k2 k3 k4))
  rintro x ⟨u, v, w, z, hu, hv, hw, hz, hsum, rfl⟩
  obtain ⟨s, t, hs0, hs1, ht0, ht1, h⟩ := h
  have hx := congrArg V3.x h
  have hy := congrArg V3.y h
  have hz' := congrArg V3.z h
  simp only [add_x, add_y, add_z, smul_x, smul_y, smul_z] at hx hy hz'
  by_cases hc : w * (1 - s) ≤ u * s
  · -- the weight of `c` can be removed
    by_cases hs : s = 0
    · subst hs
      have hw0 : w = 0 := by nlinarith
      subst hw0
      left
      exact ⟨u, v, z, hu, hv, hz, by linarith, by ext <;> simp⟩
    · have hs' : 0 < s := lt_of_le_of_ne hs0 (Ne.symm hs)
      left
      have h1 : 0 ≤ w / s := by positivity
      have h2 : 0 ≤ 1 - t := by linarith
      refine ⟨u - w / s * (1 - s), v + w / s * (1 - t), z + w / s * t, ?_, by positivity, by positivity, ?_, ?_⟩
      · have : u - w / s * (1 - s) = (u * s - w * (1 - s)) / s := by field_simp
        rw [this]
        exact div_nonneg (by linarith) hs0
      · field_simp
        linear_combination s * hsum
      · ext
        · simp
          field_simp
          linear_combination w * hx
        · simp
          field_simp
          linear_combination w * hy
        · simp
          field_simp
          linear_combination w * hz'
  · have hc : u * s < w * (1 - s) := not_le.mp hc
    have hs' : 0 < 1 - s := by
      rcases hs1.lt_or_eq with h' | h'
      · linarith
      · exfalso
        subst h'
        nlinarith
    right
    have h1 : 0 ≤ u / (1 - s) := by positivity
    have h2 : 0 ≤ 1 - t := by linarith
    have hne := hs'.ne'
    refine ⟨v + u / (1 - s) * (1 - t), w - u / (1 - s) * s, z + u / (1 - s) * t, by positivity, ?_, by positivity, ?_, ?_⟩
    · have : w - u / (1 - s) * s = (w * (1 - s) - u * s) / (1 - s) := by field_simp
      rw [this]
      exact div_nonneg (by linarith) hs'.le
    · field_simp
      linear_combination (1 - s) * hsum
    · ext
      · simp
        field_simp
        linear_combination u * hx
      · simp
        field_simp
        linear_combination u * hy
      · simp
        field_simp
        linear_combination u * hz'

/-- One corner above the plane. -/
theorem quadrangle_one_above (P : Plane) (a b c d : V3 ℝ) (h : FlatConvex a b c d) (ha : 0 ≤ P.distanceToPoint a)
    (hb : P.distanceToPoint b < 0) (hc : P.distanceToPoint c < 0) (hd : P.distanceToPoint d < 0) :
    quadrangle (zeroPoint P a b) b d (zeroPoint P a d) ∪ triangle b c d = quadrangle a b c d ∩ under P := by
  rw [quadrangle_split a b c d h, Set.union_inter_distrib_right, triangle_trunk P a b d ha hb hd]
  congr 1
  refine (Set.inter_eq_left.mpr ?_).symm
  exact triangle_subset (conv_under P) hb.le hc.le hd.le

/-- One corner under the plane. -/
theorem quadrangle_one_below (P : Plane) (a b c d : V3 ℝ) (h : FlatConvex a b c d) (ha : P.distanceToPoint a < 0)
    (hb : 0 ≤ P.distanceToPoint b) (hc : 0 ≤ P.distanceToPoint c) (hd : 0 ≤ P.distanceToPoint d) :
    triangle (zeroPoint P a d) a (zeroPoint P a b) = quadrangle a b c d ∩ under P := by
  rw [triangle_tip P a b d ha hb hd]
  obtain ⟨k1, k2, k3, k4⟩ := quadrangle_corners a b c d
  refine Set.Subset.antisymm (Set.inter_subset_inter_left _ (triangle_subset (conv_quadrangle _ _ _ _) k1 k2 k4)) ?_
  rintro x ⟨⟨u, v, w, z, hu, hv, hw, hz, hsum, rfl⟩, hx⟩
  refine ⟨?_, hx⟩
  rw [under, Set.mem_setOf_eq, dist_quadruple P a b c d u v w z hsum] at hx
  obtain ⟨s, t, hs0, hs1, ht0, ht1, h, hdist⟩ := h.dist P
  have hs : 0 < s := by
    rcases hs0.lt_or_eq with h' | h'
    · exact h'
    · exfalso
      subst h'
      have : 0 ≤ 1 - t := by linarith
      nlinarith [mul_nonneg this hb, mul_nonneg ht0 hd]
  have hx' := congrArg V3.x h
  have hy := congrArg V3.y h
  have hz' := congrArg V3.z h
  simp only [add_x, add_y, add_z, smul_x, smul_y, smul_z] at hx' hy hz'
  have h2 : 0 ≤ 1 - t := by linarith
  have h1 : 0 ≤ w / s := by positivity
  refine ⟨u - w / s * (1 - s), v + w / s * (1 - t), z + w / s * t, ?_, by positivity, by positivity, ?_, ?_⟩
  · by_contra hneg
    push Not at hneg
    have e : u * P.distanceToPoint a + v * P.distanceToPoint b + w * P.distanceToPoint c + z * P.distanceToPoint d =
        (u - w / s * (1 - s)) * P.distanceToPoint a + (v + w / s * (1 - t)) * P.distanceToPoint b +
          (z + w / s * t) * P.distanceToPoint d := by
      field_simp
      linear_combination w * hdist
    have g1 : 0 < (u - w / s * (1 - s)) * P.distanceToPoint a := mul_pos_of_neg_of_neg hneg ha
    have g2 : 0 ≤ (v + w / s * (1 - t)) * P.distanceToPoint b := by positivity
    have g3 : 0 ≤ (z + w / s * t) * P.distanceToPoint d := by positivity
    linarith
  · field_simp
    linear_combination s * hsum
  · ext
    · simp
      field_simp
      linear_combination w * hx'
    · simp
      field_simp
      linear_combination w * hy
    · simp
      field_simp
      linear_combination w * hz'

/-- Two consecutive corners under the plane. -/
theorem quadrangle_two_below (P : Plane) (a b c d : V3 ℝ) (h : FlatConvex a b c d) (ha : 0 ≤ P.distanceToPoint a)
    (hb : P.distanceToPoint b < 0) (hc : P.distanceToPoint c < 0) (hd : 0 ≤ P.distanceToPoint d) :
    quadrangle (zeroPoint P a b) b c (zeroPoint P c d) = quadrangle a b c d ∩ under P := by
  obtain ⟨k1, k2, k3, k4⟩ := quadrangle_corners a b c d
  refine Set.Subset.antisymm (quadrangle_subset (conv_inter (conv_quadrangle _ _ _ _) (conv_under P))
    (zeroPoint_mem (conv_quadrangle _ _ _ _) k1 k2 (.inl ⟨ha, hb⟩)) ⟨k2, hb.le⟩ ⟨k3, hc.le⟩
    (zeroPoint_mem (conv_quadrangle _ _ _ _) k3 k4 (.inr ⟨hc, hd⟩))) ?_
  rintro x ⟨⟨u, v, w, z, hu, hv, hw, hz, hsum, rfl⟩, hx⟩
  rw [under, Set.mem_setOf_eq, dist_quadruple P a b c d u v w z hsum] at hx
  -- it is enough to find weights such that both pairs of corners are under the plane
  have key : ∀ u v w z : ℝ, 0 ≤ u → 0 ≤ z → u + v + w + z = 1 → u * P.distanceToPoint a + v * P.distanceToPoint b ≤ 0 →
      w * P.distanceToPoint c + z * P.distanceToPoint d ≤ 0 →
      u • a + v • b + w • c + z • d ∈ quadrangle (zeroPoint P a b) b c (zeroPoint P c d) := by
    intro u v w z hu hz hsum h1 h2
    simp only [zeroPoint]
    generalize P.distanceToPoint a = da at *
    generalize P.distanceToPoint b = db at *
    generalize P.distanceToPoint c = dc at *
    generalize P.distanceToPoint d = dd at *
    have e1 : 0 < da - db := by linarith
    have e2 : dc - dd < 0 := by linarith
    have e1' := e1.ne'
    have e2' := e2.ne
    have e3 := hb.ne
    have e4 := hc.ne
    refine ⟨u * (db - da) / db, (u * da + v * db) / db, (w * dc + z * dd) / dc, z * (dc - dd) / dc,
      div_nonneg_of_nonpos (by nlinarith) hb.le, div_nonneg_of_nonpos h1 hb.le, div_nonneg_of_nonpos h2 hc.le,
      div_nonneg_of_nonpos (by nlinarith) hc.le, ?_, ?_⟩
    · field_simp
      linear_combination db * dc * hsum
    · ext <;> simp <;> field_simp <;> ring
  by_cases h1 : u * P.distanceToPoint a + v * P.distanceToPoint b ≤ 0
  · by_cases h2 : w * P.distanceToPoint c + z * P.distanceToPoint d ≤ 0
    · exact key u v w z hu hz hsum h1 h2
    · obtain ⟨s, t, hs0, hs1, ht0, ht1, h, hdist⟩ := h.dist P
      have hx' := congrArg V3.x h
      have hy := congrArg V3.y h
      have hz' := congrArg V3.z h
      simp only [add_x, add_y, add_z, smul_x, smul_y, smul_z] at hx' hy hz'
      push Not at h2
      generalize P.distanceToPoint a = da at *
      generalize P.distanceToPoint b = db at *
      generalize P.distanceToPoint c = dc at *
      generalize P.distanceToPoint d = dd at *
      have hD : 0 < t * dd - s * dc := by
        rcases hs0.lt_or_eq with h' | h'
        · nlinarith [mul_nonneg ht0 hd, mul_pos_of_neg_of_neg (neg_neg_of_pos h') hc]
        · subst h'
          rcases ht0.lt_or_eq with h'' | h''
          · rcases hd.lt_or_eq with h3 | h3
            · nlinarith [mul_pos h'' h3]
            · exfalso
              rw [← h3] at h2
              nlinarith
          · exfalso
            subst h''
            simp at hdist
            linarith
      obtain ⟨k, hk, hk0⟩ : ∃ k, k * (t * dd - s * dc) = w * dc + z * dd ∧ 0 ≤ k :=
        ⟨(w * dc + z * dd) / (t * dd - s * dc), div_mul_cancel₀ _ hD.ne', by positivity⟩
      have e : u • a + v • b + w • c + z • d =
          (u + k * (1 - s)) • a + (v - k * (1 - t)) • b + (w + k * s) • c + (z - k * t) • d := by
        ext
        · simp
          linear_combination -k * hx'
        · simp
          linear_combination -k * hy
        · simp
          linear_combination -k * hz'
      have h4 : (w + k * s) * dc + (z - k * t) * dd = 0 := by linear_combination -hk
      rw [e]
      refine key _ _ _ _ ?_ ?_ ?_ ?_ h4.le
      · have : 0 ≤ 1 - s := by linarith
        positivity
      · by_contra hneg
        push Not at hneg
        have g1 : 0 ≤ w + k * s := by positivity
        have g3 := mul_nonpos_of_nonneg_of_nonpos g1 hc.le
        rcases hd.lt_or_eq with h3 | h3
        · linarith [mul_neg_of_neg_of_pos hneg h3]
        · rw [← h3] at h2
          linarith [mul_nonpos_of_nonneg_of_nonpos hw hc.le]
      · linarith
      · have : (u + k * (1 - s)) * da + (v - k * (1 - t)) * db = u * da + v * db + w * dc + z * dd := by
          linear_combination hk + k * hdist
        linarith
  · obtain ⟨s, t, hs0, hs1, ht0, ht1, h, hdist⟩ := h.dist P
    have hx' := congrArg V3.x h
    have hy := congrArg V3.y h
    have hz' := congrArg V3.z h
    simp only [add_x, add_y, add_z, smul_x, smul_y, smul_z] at hx' hy hz'
    push Not at h1
    generalize P.distanceToPoint a = da at *
    generalize P.distanceToPoint b = db at *
    generalize P.distanceToPoint c = dc at *
    generalize P.distanceToPoint d = dd at *
    have hs2 : 0 ≤ 1 - s := by linarith
    have ht2 : 0 ≤ 1 - t := by linarith
    have hda : 0 < da := by
      rcases ha.lt_or_eq with h3 | h3
      · exact h3
      · exfalso
        rw [← h3] at h1
        nlinarith
    have hD : 0 < (1 - s) * da - (1 - t) * db := by
      rcases hs2.lt_or_eq with h' | h'
      · nlinarith [mul_pos h' hda]
      · rcases ht2.lt_or_eq with h'' | h''
        · nlinarith [mul_pos h'' (neg_pos.mpr hb)]
        · exfalso
          have hs3 : s = 1 := by linarith
          have ht3 : t = 1 := by linarith
          subst hs3 ht3
          simp at hdist
          linarith
    obtain ⟨k, hk, hk0⟩ : ∃ k, k * ((1 - s) * da - (1 - t) * db) = u * da + v * db ∧ 0 ≤ k :=
      ⟨(u * da + v * db) / ((1 - s) * da - (1 - t) * db), div_mul_cancel₀ _ hD.ne', by positivity⟩
    have e : u • a + v • b + w • c + z • d =
        (u - k * (1 - s)) • a + (v + k * (1 - t)) • b + (w - k * s) • c + (z + k * t) • d := by
      ext
      · simp
        linear_combination k * hx'
      · simp
        linear_combination k * hy
      · simp
        linear_combination k * hz'
    have h4 : (u - k * (1 - s)) * da + (v + k * (1 - t)) * db = 0 := by linear_combination -hk
    rw [e]
    refine key _ _ _ _ ?_ ?_ ?_ h4.le ?_
    · by_contra hneg
      push Not at hneg
      have g1 : 0 ≤ v + k * (1 - t) := by positivity
      have g2 := mul_neg_of_neg_of_pos hneg hda
      have g3 := mul_nonpos_of_nonneg_of_nonpos g1 hb.le
      linarith
    · positivity
    · linarith
    · have : (w - k * s) * dc + (z + k * t) * dd = u * da + v * db + w * dc + z * dd := by
        linear_combination hk - k * hdist
      linarith

end Verif.Meshes
