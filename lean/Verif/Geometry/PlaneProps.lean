import Verif.Geometry.RotationProps

/-!
# C25 and C26: mirrors, and motions of axes and planes
-/

namespace Verif.Geometry

open V3 Real

/-! ## Specification -/

/-- Signed distance of a point to a plane with a unit normal. -/
def Plane.signedDist (P : Plane) (p : V3 ℝ) : ℝ :=
  (p.x - P.point.x) * P.normal.x + (p.y - P.point.y) * P.normal.y + (p.z - P.point.z) * P.normal.z

/-- `q` is the mirror image of `p`: opposite signed distance, and the same orthogonal projection on the
plane. -/
def MirrorImage (P : Plane) (p q : V3 ℝ) : Prop :=
  P.signedDist q = - P.signedDist p ∧
    p - P.signedDist p • P.normal = q - P.signedDist q • P.normal

/-- `distance_to_point` is the signed distance. -/
theorem distanceToPoint_eq (P : Plane) (p : V3 ℝ) : P.distanceToPoint p = P.signedDist p := by
  simp only [Plane.distanceToPoint, Plane.signedDist, dot]; ring

/-- A point has one mirror image. -/
theorem mirrorImage_iff (P : Plane) (hP : dot P.normal P.normal = 1) (p q : V3 ℝ) :
    MirrorImage P p q ↔ q = p - (2 * P.signedDist p) • P.normal := by
  constructor
  · rintro ⟨h1, h2⟩
    have h3 : q = p - P.signedDist p • P.normal + P.signedDist q • P.normal := by rw [h2]; abel
    rw [h3, h1]
    ext <;> simp <;> ring
  · intro h
    have h1 : P.signedDist q = - P.signedDist p := by
      rw [h]
      unfold dot at hP
      simp only [Plane.signedDist, sub_x, sub_y, sub_z, smul_x, smul_y, smul_z]
      linear_combination (-2 * ((p.x - P.point.x) * P.normal.x + (p.y - P.point.y) * P.normal.y +
        (p.z - P.point.z) * P.normal.z)) * hP
    refine ⟨h1, ?_⟩
    rw [h1, h]
    ext <;> simp <;> ring

/-! ## C25 -/

/-- **C25**: the code computes the mirror image exactly when the origin is not on the side of the normal.
(`Plane.c` is an absolute value.) The condition does not depend on the point. -/
theorem mirror_iff (P : Plane) (hP : dot P.normal P.normal = 1) (p : V3 ℝ) :
    MirrorImage P p (P.mirrorPoint p) ↔ P.signedDist 0 ≤ 0 := by
  rw [mirrorImage_iff P hP]
  have hs : P.signedDist 0 = - dot P.normal P.point := by
    simp only [Plane.signedDist, dot, zero_x, zero_y, zero_z]; ring
  have hd : P.signedDist p = dot p P.normal - dot P.normal P.point := by
    simp only [Plane.signedDist, dot]; ring
  unfold Plane.mirrorPoint Plane.c
  rw [hs, hd]
  constructor
  · intro h
    have hx := congrArg V3.x h
    have hy := congrArg V3.y h
    have hz := congrArg V3.z h
    simp only [sub_x, sub_y, sub_z, smul_x, smul_y, smul_z] at hx hy hz
    have h0 : |dot P.normal P.point| = dot P.normal P.point := by
      have hP' : P.normal.x * P.normal.x + P.normal.y * P.normal.y + P.normal.z * P.normal.z = 1 := hP
      generalize |dot P.normal P.point| = c at *
      generalize dot P.normal P.point = s at *
      linear_combination (P.normal.x * hx + P.normal.y * hy + P.normal.z * hz) / 2 - (c - s) * hP'
    have := abs_eq_self.1 h0
    linarith
  · intro h
    rw [abs_of_nonneg (by linarith)]

/-- **C25** on the planes for which the mirror is right: fixed points, opposite distances and involution.
Missing: the planes such that the origin is strictly on the side of the normal, see `mirror_violated`. -/
theorem mirror_partial (P : Plane) (hP : dot P.normal P.normal = 1) (h0 : P.signedDist 0 ≤ 0)
    (p : V3 ℝ) :
    (P.signedDist p = 0 → P.mirrorPoint p = p) ∧
    P.signedDist (P.mirrorPoint p) = - P.signedDist p ∧
    P.mirrorPoint (P.mirrorPoint p) = p := by
  have h1 := (mirrorImage_iff P hP _ _).1 ((mirror_iff P hP p).2 h0)
  have h2 := ((mirror_iff P hP p).2 h0).1
  have h3 := (mirrorImage_iff P hP _ _).1 ((mirror_iff P hP (P.mirrorPoint p)).2 h0)
  refine ⟨fun h => ?_, h2, ?_⟩
  · rw [h1, h]; ext <;> simp
  · rw [h3, h2, h1]; ext <;> simp <;> ring

/-- Reflecting a vector twice gives it back, and the component along the normal is negated. -/
theorem mirrorVector_spec (P : Plane) (hP : dot P.normal P.normal = 1) (v : V3 ℝ) :
    P.mirrorVector (P.mirrorVector v) = v ∧ dot (P.mirrorVector v) P.normal = - dot v P.normal ∧
    ∀ w, dot w P.normal = 0 → dot (P.mirrorVector v) w = dot v w := by
  have hP' : P.normal.x * P.normal.x + P.normal.y * P.normal.y + P.normal.z * P.normal.z = 1 := hP
  refine ⟨?_, ?_, ?_⟩
  · unfold Plane.mirrorVector
    ext <;> simp [dot]
    · linear_combination (norm := (simp only [dot]; ring1)) (4 * dot v P.normal * P.normal.x) * hP'
    · linear_combination (norm := (simp only [dot]; ring1)) (4 * dot v P.normal * P.normal.y) * hP'
    · linear_combination (norm := (simp only [dot]; ring1)) (4 * dot v P.normal * P.normal.z) * hP'
  · simp only [Plane.mirrorVector, dot, sub_x, sub_y, sub_z, smul_x, smul_y, smul_z]
    linear_combination (-2 * (v.x * P.normal.x + v.y * P.normal.y + v.z * P.normal.z)) * hP'
  · intro w hw
    have hw' : w.x * P.normal.x + w.y * P.normal.y + w.z * P.normal.z = 0 := hw
    simp only [Plane.mirrorVector, dot, sub_x, sub_y, sub_z, smul_x, smul_y, smul_z]
    linear_combination (-2 * (v.x * P.normal.x + v.y * P.normal.y + v.z * P.normal.z)) * hw'

/-- Reflections keep scalar products. -/
theorem mirrorVector_dot (P : Plane) (hP : dot P.normal P.normal = 1) (v w : V3 ℝ) :
    dot (P.mirrorVector v) (P.mirrorVector w) = dot v w := by
  have hP' : P.normal.x * P.normal.x + P.normal.y * P.normal.y + P.normal.z * P.normal.z = 1 := hP
  simp only [Plane.mirrorVector, dot, sub_x, sub_y, sub_z, smul_x, smul_y, smul_z]
  linear_combination (4 * (v.x * P.normal.x + v.y * P.normal.y + v.z * P.normal.z) *
    (w.x * P.normal.x + w.y * P.normal.y + w.z * P.normal.z)) * hP'

/-- Reflections reverse vector products. -/
theorem mirrorVector_cross (P : Plane) (hP : dot P.normal P.normal = 1) (v w : V3 ℝ) :
    cross (P.mirrorVector v) (P.mirrorVector w) = - P.mirrorVector (cross v w) := by
  have hP' : P.normal.x * P.normal.x + P.normal.y * P.normal.y + P.normal.z * P.normal.z = 1 := hP
  ext <;> simp [Plane.mirrorVector, dot]
  · linear_combination (norm := (simp only [cross_x]; ring1)) (-2 * (cross v w).x) * hP'
  · linear_combination (norm := (simp only [cross_y]; ring1)) (-2 * (cross v w).y) * hP'
  · linear_combination (norm := (simp only [cross_z]; ring1)) (-2 * (cross v w).z) * hP'

theorem mirrorPoint_sub (P : Plane) (p q : V3 ℝ) :
    P.mirrorPoint p - P.mirrorPoint q = P.mirrorVector (p - q) := by
  ext <;> simp [Plane.mirrorPoint, Plane.mirrorVector, dot] <;> ring

/-- **C25** for axes: the points of the mirrored axis are the mirrored points. -/
theorem axis_mirror (a : Axis) (P : Plane) (t : ℝ) : (a.mirror P).at t = P.mirrorPoint (a.at t) := by
  ext <;> simp [Axis.mirror, Axis.at, Plane.mirrorPoint, Plane.mirrorVector, dot] <;> ring

/-- **C25** for planes: signed distances to the mirrored plane. -/
theorem plane_mirror (P Q : Plane) (hQ : dot Q.normal Q.normal = 1) (p : V3 ℝ) :
    (P.mirror Q).signedDist (Q.mirrorPoint p) = P.signedDist p := by
  have h (P : Plane) (p : V3 ℝ) : P.signedDist p = dot (p - P.point) P.normal := rfl
  rw [h, h]
  change dot (Q.mirrorPoint p - Q.mirrorPoint P.point) (Q.mirrorVector P.normal) = _
  rw [mirrorPoint_sub, mirrorVector_dot Q hQ]

/-- **C25 is violated**: the plane `z = -1` with its normal upwards does not fix its own points: they
are moved to `z = 3`. -/
theorem mirror_violated : ∃ P : Plane, dot P.normal P.normal = 1 ∧ ∃ p, P.signedDist p = 0 ∧
    P.mirrorPoint p ≠ p ∧ P.mirrorPoint p = ⟨p.x, p.y, 3⟩ := by
  refine ⟨⟨ez, ⟨0, 0, -1⟩⟩, by simp [dot, ez], ⟨5, 6, -1⟩, by simp [Plane.signedDist, ez], ?_, ?_⟩
  · intro h
    have := congrArg V3.z h
    simp [Plane.mirrorPoint, Plane.c, dot, ez] at this
    norm_num at this
  · ext <;> simp [Plane.mirrorPoint, Plane.c, dot, ez]
    norm_num

/-- Concrete case of `mirror_partial`: the plane `x = 2`. -/
example : dot (⟨ex, ⟨2, 0, 0⟩⟩ : Plane).normal ex = 1 ∧ (⟨ex, ⟨2, 0, 0⟩⟩ : Plane).signedDist 0 ≤ 0 ∧
    (⟨ex, ⟨2, 0, 0⟩⟩ : Plane).mirrorPoint ⟨5, 1, 1⟩ = ⟨-1, 1, 1⟩ := by
  refine ⟨by simp [dot, ex], by simp [Plane.signedDist, ex], ?_⟩
  ext <;> simp [Plane.mirrorPoint, Plane.c, dot, ex]
  norm_num

/-! ## C26 -/

/-- **C26**: translated axes and planes. -/
theorem translate_axis (a : Axis) (v : V3 ℝ) (t : ℝ) : (a.translate v).at t = a.at t + v := by
  ext <;> simp [Axis.translate, Axis.at] <;> ring

/-- **C26**: translated planes. -/
theorem translate_plane (P : Plane) (v p : V3 ℝ) :
    (P.translate v).signedDist (p + v) = P.signedDist p := by
  simp only [Plane.translate, Plane.signedDist, add_x, add_y, add_z]; ring

/-- **C26**: the points of a rotated axis are the rotated points. -/
theorem rotate_axis (a b : Axis) (θ t : ℝ) : (a.rotate b θ).at t = b.rotatePoint θ (a.at t) := by
  have h : b.rotatePoint θ (a.at t) = b.rotatePoint θ a.point + b.rotateVector θ (t • a.vector) := by
    have h2 := rotatePoint_sub b θ (a.at t) a.point
    rw [show a.at t - a.point = t • a.vector by unfold Axis.at; abel] at h2
    rw [← h2]; abel
  rw [h, rotateVector_smul]
  rfl

theorem rotate_plane_signedDist (P : Plane) (b : Axis) (hb : dot b.vector b.vector = 1) (θ : ℝ)
    (p : V3 ℝ) : (P.rotate b θ).signedDist (b.rotatePoint θ p) = P.signedDist p +
      dot (b.point - b.rotateVector θ b.point) (b.rotateVector θ P.normal) := by
  have h (P : Plane) (p : V3 ℝ) : P.signedDist p = dot (p - P.point) P.normal := rfl
  rw [h, h]
  change dot (b.rotatePoint θ p - b.rotateVector θ P.point) (b.rotateVector θ P.normal) = _
  have h2 : b.rotatePoint θ p - b.rotateVector θ P.point =
      b.rotateVector θ (p - P.point) + (b.point - b.rotateVector θ b.point) := by
    unfold Axis.rotatePoint
    rw [rotateVector_sub, rotateVector_sub]; abel
  rw [h2, ← rotateVector_dot b hb θ (p - P.point) P.normal]
  simp only [dot, add_x, add_y, add_z]; ring

/-- **C26**: exactly when the code moves a plane like its points. -/
theorem rotate_plane_iff (P : Plane) (b : Axis) (hb : dot b.vector b.vector = 1) (θ : ℝ) :
    (∀ p, (P.rotate b θ).signedDist (b.rotatePoint θ p) = P.signedDist p) ↔
      dot (b.point - b.rotateVector θ b.point) (b.rotateVector θ P.normal) = 0 := by
  constructor
  · intro h
    have := h 0
    rw [rotate_plane_signedDist P b hb] at this
    linarith
  · intro h p
    rw [rotate_plane_signedDist P b hb, h, add_zero]

/-- **C26** for the axes through the origin. Missing: the other axes, whose position is ignored, see
`rotate_plane_violated` and `rotate_plane_iff`. -/
theorem rotate_plane_partial (P : Plane) (b : Axis) (hb : dot b.vector b.vector = 1) (θ s : ℝ)
    (h0 : b.at s = 0) (p : V3 ℝ) :
    (P.rotate b θ).signedDist (b.rotatePoint θ p) = P.signedDist p := by
  refine (rotate_plane_iff P b hb θ).2 ?_ p
  have h1 : b.point = (-s) • b.vector := by
    have hx := congrArg V3.x h0
    have hy := congrArg V3.y h0
    have hz := congrArg V3.z h0
    simp only [Axis.at, add_x, add_y, add_z, smul_x, smul_y, smul_z, zero_x, zero_y, zero_z] at hx hy hz
    ext <;> simp <;> linarith
  have h2 : b.rotateVector θ b.point = b.point := by
    rw [h1, rotateVector_smul]
    congr 1
    rw [rotateVector_eq]
    ext <;> simp <;> ring
  rw [h2, sub_self]
  simp [dot]

/-- **C26 is violated**: half a turn around the vertical axis at `x = 1` sends the plane `x = 0` to the
plane `x = 2`, but the code keeps it in place. -/
theorem rotate_plane_violated : ∃ (P : Plane) (b : Axis), dot P.normal P.normal = 1 ∧
    dot b.vector b.vector = 1 ∧ ∃ p θ, P.signedDist p = 0 ∧
    (P.rotate b θ).signedDist (b.rotatePoint θ p) ≠ 0 ∧ (P.rotate b θ).point = P.point := by
  have hR : ∀ v : V3 ℝ, (⟨ez, ex⟩ : Axis).rotateVector π v = ⟨-v.x, -v.y, v.z⟩ := by
    intro v
    rw [rotateVector_eq]
    ext <;> simp [ez] <;> ring
  refine ⟨⟨ex, 0⟩, ⟨ez, ex⟩, by simp [dot, ex], by simp [dot, ez], 0, π, by simp [Plane.signedDist], ?_, ?_⟩
  · rw [rotate_plane_signedDist _ _ (by simp [dot, ez]), hR]
    simp [dot, ex, Plane.signedDist]
  · change (⟨ez, ex⟩ : Axis).rotateVector π 0 = 0
    rw [hR]; ext <;> simp

/-- Concrete case: a plane rotated around an axis through the origin but given by another point. -/
example : dot (⟨ez, ⟨0, 0, 3⟩⟩ : Axis).vector ez = 1 ∧ (⟨ez, ⟨0, 0, 3⟩⟩ : Axis).at (-3) = 0 := by
  refine ⟨by simp [dot, ez], ?_⟩
  ext <;> simp [Axis.at, ez]

/-! ## Intersection with an edge -/

/-- The point returned by `get_edge_intersection` is in the plane and on the edge, and the error is raised
only when the two ends are strictly on one side. -/
theorem edge_intersection (P : Plane) (p0 p1 : V3 ℝ) (h : P.signedDist p0 ≠ P.signedDist p1) :
    match P.getEdgeIntersection p0 p1 with
    | .point q => P.signedDist q = 0 ∧ ∃ t : ℝ, 0 ≤ t ∧ t ≤ 1 ∧ q = p0 + t • (p1 - p0)
    | .outside => 0 < P.signedDist p0 * P.signedDist p1 := by
  have e (p : V3 ℝ) : dot p P.normal = P.signedDist p + P.s := by
    simp only [Plane.signedDist, Plane.s, dot]; ring
  have hne : P.signedDist p0 - P.signedDist p1 ≠ 0 := sub_ne_zero.2 h
  have ht : (dot p0 P.normal - P.s) / (dot p0 P.normal - dot p1 P.normal) =
      P.signedDist p0 / (P.signedDist p0 - P.signedDist p1) := by
    rw [e, e]; congr 1 <;> ring
  unfold Plane.getEdgeIntersection
  simp only [ht]
  have haff (t : ℝ) : P.signedDist ((1 - t) • p0 + t • p1) =
      (1 - t) * P.signedDist p0 + t * P.signedDist p1 := by
    simp only [Plane.signedDist, add_x, add_y, add_z, smul_x, smul_y, smul_z]; ring
  generalize hd0 : P.signedDist p0 = a at *
  generalize hd1 : P.signedDist p1 = b at *
  split
  next q hq =>
    split at hq
    · cases hq
    · rename_i hc
      push Not at hc
      injection hq with hq
      subst hq
      refine ⟨?_, a / (a - b), hc.1, hc.2, ?_⟩
      · rw [haff]; field_simp; ring
      · ext <;> simp <;> ring
  next hq =>
    split at hq
    · rename_i hc
      rcases hc with hc | hc
      · rcases lt_or_gt_of_ne hne with hn | hn
        · have := (div_neg_iff.1 hc)
          rcases this with ⟨h1, h2⟩ | ⟨h1, h2⟩
          · nlinarith
          · linarith
        · rcases div_neg_iff.1 hc with ⟨h1, h2⟩ | ⟨h1, h2⟩
          · linarith
          · nlinarith
      · rcases lt_or_gt_of_ne hne with hn | hn
        · have h2 : a < a - b := by
            rw [gt_iff_lt, lt_div_iff_of_neg hn] at hc; linarith
          nlinarith
        · have h2 : a - b < a := by
            rw [gt_iff_lt, lt_div_iff₀ hn] at hc; linarith
          nlinarith
    · cases hq

/-- Concrete case: an edge through the plane `z = 0`. -/
example : (⟨ez, 0⟩ : Plane).signedDist ⟨0, 0, -1⟩ ≠ (⟨ez, 0⟩ : Plane).signedDist ⟨1, 0, 3⟩ := by
  simp [Plane.signedDist, ez]; norm_num

end Verif.Geometry
