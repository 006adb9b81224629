import Verif.Meshes.IntegralModel
import Verif.Meshes.HealProps
import Mathlib.Algebra.BigOperators.Group.List.Lemmas
import Mathlib.Algebra.Order.Group.Abs

/-!
# C40: volumes and area vectors of closed surfaces
-/

namespace Verif.Meshes

open Verif.Geometry V3

/-! ## Specification -/

/-- A triangle in space. -/
abbrev Tri := V3 ℝ × V3 ℝ × V3 ℝ

/-- The triangles of a panel: itself, or the halves of a quadrangle. -/
def piecesOf (tri : Bool) (c : V3 ℝ × V3 ℝ × V3 ℝ × V3 ℝ) : List Tri :=
  if tri then [(c.1, c.2.1, c.2.2.1)] else [(c.1, c.2.1, c.2.2.1), (c.1, c.2.2.1, c.2.2.2)]

/-- All the triangles of a mesh. -/
def Mesh.pieces (m : Mesh (V3 ℝ)) : List Tri :=
  m.faces.flatMap fun F => match corners m.vertices F with
    | some c => piecesOf F.isTriangle c
    | none => []

/-- The oriented sides of triangles. -/
def segments {V : Type} (ts : List (V × V × V)) : List (V × V) :=
  ts.flatMap fun t => [(t.1, t.2.1), (t.2.1, t.2.2), (t.2.2, t.1)]

/-- A closed and consistently oriented surface: each side is followed as many times in one direction as in
the other. -/
def ClosedSurface {V : Type} (ts : List (V × V × V)) : Prop := ((segments ts).map Prod.swap).Perm (segments ts)

/-- Volume enclosed by triangles: signed volumes of the tetrahedra with a common apex. -/
noncomputable def enclosed (o : V3 ℝ) (ts : List Tri) : ℝ :=
  (ts.map fun t => dot (t.1 - o) (cross (t.2.1 - o) (t.2.2 - o)) / 6).sum

/-- The panels of a mesh are not degenerate, and its quadrangles are planar and convex. -/
structure Mesh.Sound (m : Mesh (V3 ℝ)) : Prop where
  valid : m.Valid
  convex : m.ConvexPanels
  kept : ∀ F ∈ m.faces, ∀ c, corners m.vertices F = some c →
    if F.isTriangle then Kept (cross (c.2.1 - c.1) (c.2.2.1 - c.1))
    else Kept (cross (c.2.2.1 - c.1) (c.2.2.2 - c.2.1))

/-! ## Sums over pieces -/

theorem sum_segments (ts : List Tri) (g : Tri → ℝ) (w : V3 ℝ → V3 ℝ → ℝ)
    (hg : ∀ t : Tri, g t = w t.1 t.2.1 + w t.2.1 t.2.2 + w t.2.2 t.1) :
    (ts.map g).sum = ((segments ts).map fun s => w s.1 s.2).sum := by
  induction ts with
  | nil => rfl
  | cons t ts ih =>
    unfold segments at *
    simp only [List.map_cons, List.sum_cons, List.flatMap_cons, List.map_append, List.sum_append, ih, hg,
      List.map_nil, List.sum_nil]
    ring

/-- Discrete Stokes theorem: a quantity of triangles which is a sum of antisymmetric quantities of their
sides vanishes on closed surfaces. -/
theorem closed_sum {ts : List Tri} (hc : ClosedSurface ts) (g : Tri → ℝ) (w : V3 ℝ → V3 ℝ → ℝ)
    (hg : ∀ t : Tri, g t = w t.1 t.2.1 + w t.2.1 t.2.2 + w t.2.2 t.1) (hw : ∀ p q, w q p = - w p q) :
    (ts.map g).sum = 0 := by
  rw [sum_segments ts g w hg]
  have h1 := (hc.map fun s => w s.1 s.2).sum_eq
  rw [List.map_map] at h1
  have h2 : ((segments ts).map ((fun s : V3 ℝ × V3 ℝ => w s.1 s.2) ∘ Prod.swap)) =
      (segments ts).map fun s => -(w s.1 s.2) := List.map_congr_left fun s _ => hw s.1 s.2
  rw [h2] at h1
  have h3 : ((segments ts).map fun s => -(w s.1 s.2)).sum = -((segments ts).map fun s => w s.1 s.2).sum := by
    generalize segments ts = l
    induction l with
    | nil => simp
    | cons s l ih => simp only [List.map_cons, List.sum_cons, ih]; ring
  rw [h3] at h1
  linarith

/-- Twice the area vector of a triangle. -/
def Tri.vec (t : Tri) : V3 ℝ := cross (t.2.1 - t.1) (t.2.2 - t.1)

theorem panel_vector {m : Mesh (V3 ℝ)} (hm : m.Sound) {F : Face} (hF : F ∈ m.faces) {c}
    (hc : corners m.vertices F = some c) (q : V3 ℝ → V3 ℝ → ℝ)
    (hq : ∀ (a : ℝ) n v, q (a • n) v = a * q n v)
    (hq2 : ∀ n v v', q n (v + v') = q n v + q n v') (hq3 : ∀ n (a : ℝ) v, q n (a • v) = a * q n v) :
    q (panelOf F.isTriangle c).normal (panelOf F.isTriangle c).center * (panelOf F.isTriangle c).area =
      ((piecesOf F.isTriangle c).map fun t => q ((1 / 2 : ℝ) • Tri.vec t) ((1 / 3 : ℝ) • (t.1 + t.2.1 + t.2.2))).sum := by
  have hk := hm.kept F hF c hc
  cases ht : F.isTriangle with
  | true =>
    rw [ht, if_pos rfl] at hk
    have hpos := kept_pos hk
    show q (trianglePanel _ _ _).normal (trianglePanel _ _ _).center * (trianglePanel _ _ _).area = _
    rw [triangle_kept hk]
    simp only [piecesOf, if_true, List.map_cons, List.map_nil, List.sum_cons, List.sum_nil, add_zero, Tri.vec]
    simp only [hq, hq3]
    field_simp
  | false =>
    rw [ht] at hk
    simp only [Bool.false_eq_true, if_false] at hk
    have hcv := (hm.convex F hF).resolve_left (by rw [ht]; simp) c hc
    obtain ⟨p0, p1, p2, p3⟩ := c
    show q (quadPanel _ _ _ _).normal (quadPanel _ _ _ _).center * (quadPanel _ _ _ _).area = _
    obtain ⟨o, u, v, α, β, γ, δ, ha, hb, hg, hd, h0, h1, h2, h3⟩ := hcv
    simp only at h0 h1 h2 h3 hk
    subst h0 h1 h2 h3
    have hn : cross ((o + γ • u) - (o - α • u)) ((o + δ • v) - (o - β • v)) =
        ((α + γ) * (β + δ)) • cross u v := by ext <;> simp <;> ring
    unfold Kept at hk
    rw [hn, norm_smul, abs_of_nonneg (by positivity)] at hk
    rw [convex_panel o u v α β γ δ ha hb hg hd hk]
    have hpos : 0 < (α + γ) * (β + δ) * norm (cross u v) := lt_of_lt_of_le (by norm_num) hk
    have hne : norm (cross u v) ≠ 0 := by rintro h; simp [h] at hpos
    have v1 : cross ((o - β • v) - (o - α • u)) ((o + γ • u) - (o - α • u)) =
        (β * (α + γ)) • cross u v := by ext <;> simp <;> ring
    have v2 : cross ((o + γ • u) - (o - α • u)) ((o + δ • v) - (o - α • u)) =
        (δ * (α + γ)) • cross u v := by ext <;> simp <;> ring
    simp only [piecesOf, Bool.false_eq_true, if_false, List.map_cons, List.map_nil, List.sum_cons,
      List.sum_nil, add_zero, Tri.vec]
    rw [v1, v2]
    have e1 : o - α • u + (o - β • v) + (o + γ • u) = (3 : ℝ) • o + (γ - α) • u + (-β) • v := by
      ext <;> simp <;> ring
    have e2 : o - α • u + (o + γ • u) + (o + δ • v) = (3 : ℝ) • o + (γ - α) • u + δ • v := by
      ext <;> simp <;> ring
    rw [e1, e2]
    simp only [hq, hq2, hq3]
    field_simp
    ring

theorem table_sum {m : Mesh (V3 ℝ)} {t : Table} (ht : m.faceTable = some t) (q : Panel → ℝ) (g : Tri → ℝ)
    (h : ∀ F ∈ m.faces, ∀ c, corners m.vertices F = some c →
      q (panelOf F.isTriangle c) = ((piecesOf F.isTriangle c).map g).sum) :
    (t.map fun x => q x.1).sum = (m.pieces.map g).sum := by
  have hs := faceTable_spec ht
  unfold Mesh.pieces
  clear ht
  generalize m.faces = fs at hs h
  induction fs generalizing t with
  | nil =>
    cases t with
    | nil => rfl
    | cons => cases hs
  | cons F fs ih =>
    cases t with
    | nil => cases hs
    | cons x t =>
      simp only [List.map_cons, List.cons.injEq] at hs
      rw [List.map_cons, List.sum_cons, List.flatMap_cons, List.map_append, List.sum_append,
        ih hs.2 fun F' hF' => h F' (List.mem_cons_of_mem _ hF')]
      congr 1
      have h1 := hs.1
      unfold faceProperties at h1
      obtain ⟨c, hc, hx⟩ := Option.map_eq_some_iff.1 h1
      rw [hc]
      simp only
      rw [← hx]
      exact h F List.mem_cons_self c hc

/-- The two kinds of sums needed below, over the panels of a mesh. -/
theorem linear_integral {m : Mesh (V3 ℝ)} (hm : m.Sound) {t : Table} (ht : m.faceTable = some t)
    (q : V3 ℝ → V3 ℝ → ℝ)
    (hq : ∀ (a : ℝ) n v, q (a • n) v = a * q n v)
    (hq2 : ∀ n v v', q n (v + v') = q n v + q n v') (hq3 : ∀ n (a : ℝ) v, q n (a • v) = a * q n v) :
    surfaceIntegral t (fun p => q p.normal p.center) =
      (m.pieces.map fun t => q ((1 / 2 : ℝ) • Tri.vec t) ((1 / 3 : ℝ) • (t.1 + t.2.1 + t.2.2))).sum :=
  table_sum ht (fun p => q p.normal p.center * p.area) _ fun _ hF _ hc => panel_vector hm hF hc q hq hq2 hq3

theorem panel_area_vector {m : Mesh (V3 ℝ)} (hm : m.Sound) {F : Face} (hF : F ∈ m.faces) {c}
    (hc : corners m.vertices F = some c) (q : V3 ℝ → ℝ) (hq : ∀ (a : ℝ) n, q (a • n) = a * q n) :
    q (panelOf F.isTriangle c).normal * (panelOf F.isTriangle c).area =
      ((piecesOf F.isTriangle c).map fun t => q ((1 / 2 : ℝ) • Tri.vec t)).sum := by
  have hk := hm.kept F hF c hc
  cases ht : F.isTriangle with
  | true =>
    rw [ht, if_pos rfl] at hk
    have hpos := kept_pos hk
    show q (trianglePanel _ _ _).normal * (trianglePanel _ _ _).area = _
    rw [triangle_kept hk]
    simp only [piecesOf, if_true, List.map_cons, List.map_nil, List.sum_cons, List.sum_nil, add_zero, Tri.vec]
    simp only [hq]
    field_simp
  | false =>
    rw [ht] at hk
    simp only [Bool.false_eq_true, if_false] at hk
    have hcv := (hm.convex F hF).resolve_left (by rw [ht]; simp) c hc
    obtain ⟨p0, p1, p2, p3⟩ := c
    show q (quadPanel _ _ _ _).normal * (quadPanel _ _ _ _).area = _
    obtain ⟨o, u, v, α, β, γ, δ, ha, hb, hg, hd, h0, h1, h2, h3⟩ := hcv
    simp only at h0 h1 h2 h3 hk
    subst h0 h1 h2 h3
    have hn : cross ((o + γ • u) - (o - α • u)) ((o + δ • v) - (o - β • v)) =
        ((α + γ) * (β + δ)) • cross u v := by ext <;> simp <;> ring
    unfold Kept at hk
    rw [hn, norm_smul, abs_of_nonneg (by positivity)] at hk
    rw [convex_panel o u v α β γ δ ha hb hg hd hk]
    have hpos : 0 < (α + γ) * (β + δ) * norm (cross u v) := lt_of_lt_of_le (by norm_num) hk
    have hne : norm (cross u v) ≠ 0 := by rintro h; simp [h] at hpos
    have v1 : cross ((o - β • v) - (o - α • u)) ((o + γ • u) - (o - α • u)) =
        (β * (α + γ)) • cross u v := by ext <;> simp <;> ring
    have v2 : cross ((o + γ • u) - (o - α • u)) ((o + δ • v) - (o - α • u)) =
        (δ * (α + γ)) • cross u v := by ext <;> simp <;> ring
    simp only [piecesOf, Bool.false_eq_true, if_false, List.map_cons, List.map_nil, List.sum_cons,
      List.sum_nil, add_zero, Tri.vec]
    rw [v1, v2]
    simp only [hq]
    field_simp

theorem normal_integral {m : Mesh (V3 ℝ)} (hm : m.Sound) {t : Table} (ht : m.faceTable = some t)
    (q : V3 ℝ → ℝ) (hq : ∀ (a : ℝ) n, q (a • n) = a * q n) :
    surfaceIntegral t (fun p => q p.normal) = (m.pieces.map fun t => q ((1 / 2 : ℝ) • Tri.vec t)).sum :=
  table_sum ht (fun p => q p.normal * p.area) _ fun _ hF _ hc => panel_area_vector hm hF hc q hq

/-! ## C40 -/

/-- **C40**: on a closed surface the area vectors of the panels add up to zero. -/
theorem closed_area_vector (m : Mesh (V3 ℝ)) (hm : m.Sound) (hc : ClosedSurface m.pieces) (t : Table)
    (ht : m.faceTable = some t) :
    surfaceIntegral t (fun p => p.normal.x) = 0 ∧ surfaceIntegral t (fun p => p.normal.y) = 0 ∧
    surfaceIntegral t (fun p => p.normal.z) = 0 := by
  refine ⟨?_, ?_, ?_⟩
  · rw [normal_integral hm ht (fun n => n.x) (fun a n => by simp)]
    refine closed_sum hc _ (fun p q => (1 / 2) * (cross p q).x) (fun t => ?_) (fun p q => ?_)
    · simp [Tri.vec]; ring
    · simp; ring
  · rw [normal_integral hm ht (fun n => n.y) (fun a n => by simp)]
    refine closed_sum hc _ (fun p q => (1 / 2) * (cross p q).y) (fun t => ?_) (fun p q => ?_)
    · simp [Tri.vec]; ring
    · simp; ring
  · rw [normal_integral hm ht (fun n => n.z) (fun a n => by simp)]
    refine closed_sum hc _ (fun p q => (1 / 2) * (cross p q).z) (fun t => ?_) (fun p q => ?_)
    · simp [Tri.vec]; ring
    · simp; ring

theorem sum_sub_map (ts : List Tri) (g h : Tri → ℝ) :
    (ts.map fun t => g t - h t).sum = (ts.map g).sum - (ts.map h).sum := by
  induction ts with
  | nil => simp
  | cons t ts ih => simp only [List.map_cons, List.sum_cons, ih]; ring

/-- The enclosed volume does not depend on the apex of the tetrahedra. -/
theorem enclosed_apex {ts : List Tri} (hc : ClosedSurface ts) (o : V3 ℝ) : enclosed o ts = enclosed 0 ts := by
  have := closed_sum hc (fun t => dot (t.1 - o) (cross (t.2.1 - o) (t.2.2 - o)) / 6 -
      dot (t.1 - 0) (cross (t.2.1 - 0) (t.2.2 - 0)) / 6) (fun p q => - dot o (cross p q) / 6)
    (fun t => by simp [dot]; ring) (fun p q => by simp [dot]; ring)
  rw [sum_sub_map] at this
  unfold enclosed
  linarith

/-- **C40**: on a closed surface, the three formulas for the volume give the enclosed volume. -/
theorem closed_volumes (m : Mesh (V3 ℝ)) (hm : m.Sound) (hc : ClosedSurface m.pieces) (t : Table)
    (ht : m.faceTable = some t) (o : V3 ℝ) :
    (volumes t).x = enclosed o m.pieces ∧ (volumes t).y = enclosed o m.pieces ∧
    (volumes t).z = enclosed o m.pieces ∧ volume t = enclosed o m.pieces := by
  rw [enclosed_apex hc o]
  have hx : (volumes t).x = enclosed 0 m.pieces := by
    show surfaceIntegral t (fun p => p.normal.x * p.center.x) = _
    rw [linear_integral hm ht (fun n v => n.x * v.x) (fun a n v => by simp; ring)
      (fun n v v' => by simp; ring) (fun n a v => by simp; ring)]
    rw [← sub_eq_zero]
    unfold enclosed
    rw [← sum_sub_map]
    refine closed_sum hc _ (fun p q => (1 / 18) *
      ((q.z - p.z) * (2 * p.x * p.y + 2 * q.x * q.y + p.x * q.y + q.x * p.y) -
        (q.y - p.y) * (2 * p.x * p.z + 2 * q.x * q.z + p.x * q.z + q.x * p.z))) (fun t => ?_) (fun p q => ?_)
    · simp [Tri.vec, dot]; ring
    · ring
  have hy : (volumes t).y = enclosed 0 m.pieces := by
    show surfaceIntegral t (fun p => p.normal.y * p.center.y) = _
    rw [linear_integral hm ht (fun n v => n.y * v.y) (fun a n v => by simp; ring)
      (fun n v v' => by simp; ring) (fun n a v => by simp; ring)]
    rw [← sub_eq_zero]
    unfold enclosed
    rw [← sum_sub_map]
    refine closed_sum hc _ (fun p q => (1 / 18) *
      ((q.x - p.x) * (2 * p.y * p.z + 2 * q.y * q.z + p.y * q.z + q.y * p.z) -
        (q.z - p.z) * (2 * p.y * p.x + 2 * q.y * q.x + p.y * q.x + q.y * p.x))) (fun t => ?_) (fun p q => ?_)
    · simp [Tri.vec, dot]; ring
    · ring
  have hz : (volumes t).z = enclosed 0 m.pieces := by
    show surfaceIntegral t (fun p => p.normal.z * p.center.z) = _
    rw [linear_integral hm ht (fun n v => n.z * v.z) (fun a n v => by simp; ring)
      (fun n v v' => by simp; ring) (fun n a v => by simp; ring)]
    rw [← sub_eq_zero]
    unfold enclosed
    rw [← sum_sub_map]
    refine closed_sum hc _ (fun p q => (1 / 18) *
      ((q.y - p.y) * (2 * p.z * p.x + 2 * q.z * q.x + p.z * q.x + q.z * p.x) -
        (q.x - p.x) * (2 * p.z * p.y + 2 * q.z * q.y + p.z * q.y + q.z * p.y))) (fun t => ?_) (fun p q => ?_)
    · simp [Tri.vec, dot]; ring
    · ring
  refine ⟨hx, hy, hz, ?_⟩
  unfold volume
  rw [hx, hy, hz]; ring

end Verif.Meshes
