import Verif.Meshes.MotionProps
import Mathlib.Algebra.BigOperators.Group.List.Basic

/-!
# C31 for whole meshes: flipping and triangulating
-/

namespace Verif.Meshes

open Verif.Geometry V3

/-- Sum over the panels of a mesh of a quantity attached to the panels. -/
noncomputable def Mesh.total (m : Mesh (V3 ℝ)) (q : Panel → ℝ) : ℝ :=
  (m.faces.map fun F => match corners m.vertices F with
    | some c => q (panelOf F.isTriangle c)
    | none => 0).sum

/-- **C31**: flipping the normals of a mesh whose quadrangles are planar and convex reverses every panel.
Missing: warped quadrangles, see `quad_flip_violated`. -/
theorem flip_mesh_partial (m : Mesh (V3 ℝ)) (hm : m.ConvexPanels) (i : ℕ) (p : Panel)
    (hp : m.panelAt i = some p) : m.flipNormals.panelAt i = some p.reversed := by
  rw [panelAt_eq] at hp ⊢
  simp only [Option.bind_eq_some_iff, Option.map_eq_some_iff] at hp ⊢
  obtain ⟨F, hF, c, hc, rfl⟩ := hp
  refine ⟨F.flip, by simp [Mesh.flipNormals, hF], (c.2.2.2, c.2.2.1, c.2.1, c.1), ?_, ?_⟩
  · change corners m.vertices F.flip = _
    rw [corners_flip, hc]; rfl
  · rw [flip_isTriangle]
    unfold panelOf
    by_cases ht : F.isTriangle = true
    · rw [if_pos ht, if_pos ht]
      simp only
      rw [corners_triangle hc ht]
      exact triangle_flip c.1 c.2.1 c.2.2.1
    · rw [if_neg ht, if_neg ht]
      rcases hm F (List.mem_of_getElem? hF) with h' | h'
      · exact absurd h' ht
      · exact quad_flip_partial _ _ _ _ (h' c hc)

/-- No panel of the mesh, and no half of its quadrangles, is degenerate. -/
def Mesh.Regular (m : Mesh (V3 ℝ)) : Prop := ∀ F ∈ m.faces, F.isTriangle = false → ∀ c,
  corners m.vertices F = some c → Kept (cross (c.2.2.1 - c.1) (c.2.2.2 - c.2.1)) ∧
    Kept (cross (c.2.1 - c.1) (c.2.2.1 - c.1)) ∧ Kept (cross (c.2.2.1 - c.1) (c.2.2.2 - c.1))

theorem corners_halves {vs : List (V3 ℝ)} {F : Face} {c} (hc : corners vs F = some c) :
    corners vs ⟨F.a, F.b, F.c, F.a⟩ = some (c.1, c.2.1, c.2.2.1, c.1) ∧
    corners vs ⟨F.a, F.c, F.d, F.a⟩ = some (c.1, c.2.2.1, c.2.2.2, c.1) := by
  unfold corners at *
  split at hc
  · rename_i p0 p1 p2 p3 h0 h1 h2 h3
    rw [← Option.some.inj hc]
    simp [h0, h1, h2, h3]
  · cases hc

/-- A quantity which adds up on the two halves of every quadrangle adds up on the mesh. -/
theorem total_triangulate (m : Mesh (V3 ℝ)) (hv : m.Valid) (q : Panel → ℝ)
    (hq : ∀ F ∈ m.faces, F.isTriangle = false → ∀ c, corners m.vertices F = some c →
      q (quadPanel c.1 c.2.1 c.2.2.1 c.2.2.2) =
        q (trianglePanel c.1 c.2.1 c.2.2.1) + q (trianglePanel c.1 c.2.2.1 c.2.2.2)) :
    m.triangulateQuadrangles.total q = m.total q := by
  unfold Mesh.total Mesh.triangulateQuadrangles
  simp only [List.map_append, List.sum_append, List.map_map]
  have key : ∀ l : List Face, (∀ F ∈ l, F ∈ m.faces) →
      (l.map ((fun F : Face => match corners m.vertices F with
        | some c => q (panelOf F.isTriangle c)
        | none => 0) ∘ fun f => if f.isTriangle then f else ⟨f.a, f.c, f.d, f.a⟩)).sum +
      ((l.filter fun f => !f.isTriangle).map ((fun F : Face => match corners m.vertices F with
        | some c => q (panelOf F.isTriangle c)
        | none => 0) ∘ fun f => ⟨f.a, f.b, f.c, f.a⟩)).sum =
      (l.map fun F : Face => match corners m.vertices F with
        | some c => q (panelOf F.isTriangle c)
        | none => 0).sum := by
    intro l
    induction l with
    | nil => intro _; simp
    | cons F l ih =>
      intro hl
      have ih' := ih fun G hG => hl G (List.mem_cons_of_mem _ hG)
      have hF := hl F List.mem_cons_self
      by_cases ht : F.isTriangle = true
      · simp only [List.map_cons, List.sum_cons, List.filter_cons, ht, Bool.not_true, Bool.false_eq_true,
          if_false, Function.comp_apply, if_true]
        rw [add_assoc, ih']
      · have ht' : F.isTriangle = false := by simpa using ht
        have hc : ∃ c, corners m.vertices F = some c := by
          have hv' := hv F hF
          simp only [Face.toList, List.mem_cons, List.not_mem_nil, or_false, forall_eq_or_imp, forall_eq] at hv'
          unfold corners
          rw [List.getElem?_eq_getElem hv'.1, List.getElem?_eq_getElem hv'.2.1,
            List.getElem?_eq_getElem hv'.2.2.1, List.getElem?_eq_getElem hv'.2.2.2]
          exact ⟨_, rfl⟩
        obtain ⟨c, hc⟩ := hc
        obtain ⟨c1, c2⟩ := corners_halves hc
        have t1 : (⟨F.a, F.b, F.c, F.a⟩ : Face).isTriangle = true := by simp [Face.isTriangle]
        have t2 : (⟨F.a, F.c, F.d, F.a⟩ : Face).isTriangle = true := by simp [Face.isTriangle]
        have e := hq F hF ht' c hc
        simp only [List.map_cons, List.sum_cons, List.filter_cons, ht', Bool.not_false,
          if_true, Function.comp_apply, Bool.false_eq_true, if_false, c1, c2, hc, t1, t2]
        rw [← ih']
        simp only [panelOf, if_true, Bool.false_eq_true, if_false]
        rw [e]
        simp only [Function.comp_def]
        ring
  exact key m.faces fun _ h => h

/-- **C31**: triangulating a mesh keeps its area and the first moments of its area. -/
theorem triangulate_mesh (m : Mesh (V3 ℝ)) (hv : m.Valid) (hr : m.Regular) :
    m.triangulateQuadrangles.total Panel.area = m.total Panel.area ∧
    m.triangulateQuadrangles.total (fun p => p.area * p.center.x) = m.total (fun p => p.area * p.center.x) ∧
    m.triangulateQuadrangles.total (fun p => p.area * p.center.y) = m.total (fun p => p.area * p.center.y) ∧
    m.triangulateQuadrangles.total (fun p => p.area * p.center.z) = m.total (fun p => p.area * p.center.z) := by
  refine ⟨?_, ?_, ?_, ?_⟩ <;> refine total_triangulate m hv _ fun F hF ht c hc => ?_ <;>
    obtain ⟨h, h1, h2⟩ := hr F hF ht c hc <;>
    have := triangulation c.1 c.2.1 c.2.2.1 c.2.2.2 h h1 h2
  · exact this.1
  · simpa using congrArg V3.x this.2
  · simpa using congrArg V3.y this.2
  · simpa using congrArg V3.z this.2

/-- **C31** when the quadrangles are planar and convex: triangulating a mesh keeps its total area vector.
Missing: warped quadrangles, see `triangulation_vector_violated`. -/
theorem triangulate_mesh_vector_partial (m : Mesh (V3 ℝ)) (hv : m.Valid) (hr : m.Regular)
    (hm : m.ConvexPanels) :
    m.triangulateQuadrangles.total (fun p => p.area * p.normal.x) = m.total (fun p => p.area * p.normal.x) ∧
    m.triangulateQuadrangles.total (fun p => p.area * p.normal.y) = m.total (fun p => p.area * p.normal.y) ∧
    m.triangulateQuadrangles.total (fun p => p.area * p.normal.z) = m.total (fun p => p.area * p.normal.z) := by
  have key : ∀ F ∈ m.faces, F.isTriangle = false → ∀ c, corners m.vertices F = some c → _ :=
    fun F hF ht c hc =>
      have hc' : ConvexQuad c.1 c.2.1 c.2.2.1 c.2.2.2 := by
        rcases hm F hF with h' | h'
        · rw [ht] at h'; cases h'
        · exact h' c hc
      triangulation_vector_partial c.1 c.2.1 c.2.2.1 c.2.2.2 hc' (hr F hF ht c hc).1
        (hr F hF ht c hc).2.1 (hr F hF ht c hc).2.2
  refine ⟨?_, ?_, ?_⟩ <;> refine total_triangulate m hv _ fun F hF ht c hc => ?_ <;>
    have := key F hF ht c hc
  · simpa using congrArg V3.x this
  · simpa using congrArg V3.y this
  · simpa using congrArg V3.z this

/-- After the triangulation all the panels are triangles. -/
theorem triangulate_all (m : Mesh (V3 ℝ)) : ∀ F ∈ m.triangulateQuadrangles.faces, F.isTriangle = true := by
  intro F hF
  simp only [Mesh.triangulateQuadrangles, List.mem_append, List.mem_map] at hF
  rcases hF with ⟨G, _, rfl⟩ | ⟨G, _, rfl⟩
  · split
    · assumption
    · simp [Face.isTriangle]
  · simp [Face.isTriangle]

/-- Concrete case: a unit square. -/
example : (⟨[⟨0, 0, 0⟩, ⟨1, 0, 0⟩, ⟨1, 1, 0⟩, ⟨0, 1, 0⟩], [⟨0, 1, 2, 3⟩]⟩ : Mesh (V3 ℝ)).Valid ∧
    (⟨[⟨0, 0, 0⟩, ⟨1, 0, 0⟩, ⟨1, 1, 0⟩, ⟨0, 1, 0⟩], [⟨0, 1, 2, 3⟩]⟩ : Mesh (V3 ℝ)).Regular := by
  constructor
  · intro F hF i hi
    simp only [List.mem_cons, List.not_mem_nil, or_false] at hF
    subst hF
    simp only [Face.toList, List.mem_cons, List.not_mem_nil, or_false] at hi
    simp only [List.length_cons, List.length_nil]
    omega
  · intro F hF _ c hc
    simp only [List.mem_cons, List.not_mem_nil, or_false] at hF
    subst hF
    rw [← Option.some.inj hc]
    unfold Kept V3.norm
    refine ⟨?_, ?_, ?_⟩ <;> (apply Real.le_sqrt_of_sq_le; simp [dot]; norm_num)

end Verif.Meshes
