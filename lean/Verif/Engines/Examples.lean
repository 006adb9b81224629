import Verif.Engines.NestProps

/-!
# Symmetries that are found equal although they are not (C21)
-/

namespace Verif.Engines

open Verif.Geometry Verif.Meshes Verif.Blocks V3

/-- The sum of the corners. -/
def sum4 (c : V3 ℝ × V3 ℝ × V3 ℝ × V3 ℝ) : V3 ℝ := c.1 + c.2.1 + c.2.2.1 + c.2.2.2

/-- A function of two panels: the squared distance between the sums of their corners. -/
def gap : Shape → Shape → ℝ
  | (_, some c), (_, some d) => dot (sum4 c - sum4 d) (sum4 c - sum4 d)
  | _, _ => 0

/-- It is invariant under all motions. -/
theorem gap_invariant (μ : Motion) (hμ : μ.Unit) : Invariant gap μ := by
  rintro ⟨a, oa⟩ ⟨b, ob⟩
  cases oa with
  | none => rfl
  | some c =>
    cases ob with
    | none => rfl
    | some d =>
      obtain ⟨c1, c2, c3, c4⟩ := c
      obtain ⟨d1, d2, d3, d4⟩ := d
      cases μ with
      | translate v =>
        simp only [moveShape, gap, sum4, Motion.point, Option.map_some]
        congr 1 <;> abel
      | rotate x θ =>
        simp only [moveShape, gap, sum4, Motion.point, Option.map_some]
        have h : x.rotatePoint θ c1 + x.rotatePoint θ c2 + x.rotatePoint θ c3 + x.rotatePoint θ c4 -
            (x.rotatePoint θ d1 + x.rotatePoint θ d2 + x.rotatePoint θ d3 + x.rotatePoint θ d4) =
            x.rotateVector θ (c1 + c2 + c3 + c4 - (d1 + d2 + d3 + d4)) := by
          have e : c1 + c2 + c3 + c4 - (d1 + d2 + d3 + d4) = (c1 - d1) + (c2 - d2) + (c3 - d3) + (c4 - d4) := by abel
          rw [e, rotateVector_add, rotateVector_add, rotateVector_add, ← rotatePoint_sub, ← rotatePoint_sub,
            ← rotatePoint_sub, ← rotatePoint_sub]
          abel
        rw [h, rotateVector_dot x hμ]
      | mirror P =>
        have hP : P.normal.x * P.normal.x + P.normal.y * P.normal.y + P.normal.z * P.normal.z = 1 := hμ
        simp only [moveShape, gap, sum4, Option.map_some]
        have h : P.mirrorPoint c4 + P.mirrorPoint c3 + P.mirrorPoint c2 + P.mirrorPoint c1 -
            (P.mirrorPoint d4 + P.mirrorPoint d3 + P.mirrorPoint d2 + P.mirrorPoint d1) =
            P.mirrorVector (c1 + c2 + c3 + c4 - (d1 + d2 + d3 + d4)) := by
          ext <;> simp [Plane.mirrorPoint, Plane.mirrorVector, dot] <;> ring
        rw [h]
        generalize c1 + c2 + c3 + c4 - (d1 + d2 + d3 + d4) = w
        simp only [Plane.mirrorVector, dot, sub_x, sub_y, sub_z, smul_x, smul_y, smul_z]
        linear_combination (4 * (w.x * P.normal.x + w.y * P.normal.y + w.z * P.normal.z) ^ 2) * hP

/-- A vertical square of side 2. -/
noncomputable def square : Mesh (V3 ℝ) :=
  ⟨[⟨1, 0, -1⟩, ⟨3, 0, -1⟩, ⟨3, 0, -3⟩, ⟨1, 0, -3⟩], [⟨0, 1, 2, 3⟩]⟩

theorem square_shapes : square.shapes = [(false, some (⟨1, 0, -1⟩, ⟨3, 0, -1⟩, ⟨3, 0, -3⟩, ⟨1, 0, -3⟩))] := rfl

/-- Three squares around the vertical axis of the given direction. -/
noncomputable def wheel (a : Axis) : Tree :=
  .node (.axial a) [.leaf square, .leaf ((Motion.rotate a (2 * 1 * Real.pi / 3)).mesh square),
    .leaf ((Motion.rotate a (2 * 2 * Real.pi / 3)).mesh square)]

/-- The axis upwards. -/
def up : Axis := ⟨⟨0, 0, 1⟩, ⟨0, 0, 0⟩⟩
/-- The axis downwards. -/
def down : Axis := ⟨⟨0, 0, -1⟩, ⟨0, 0, 0⟩⟩

theorem wheel_mk (a : Axis) (ha : dot a.vector a.vector = 1) :
    mkSymmetric Tree.copy (.axial a) (.leaf square) 2 = some (wheel a) := by
  classical
  rw [mkSymmetric, if_pos ⟨trivial, by norm_num⟩]
  have : (Tree.leaf square).copy = some (.leaf square) := rfl
  rw [this, Option.map_some, sym_copy_unit (show (Sym.axial a).Unit from ha)]
  simp only [wheel, List.range_succ, List.range_zero, List.nil_append, List.map_append, List.map_cons, List.map_nil,
    List.singleton_append, Sym.step, Tree.move]
  norm_num

theorem wheel_made (a : Axis) (ha : dot a.vector a.vector = 1) : Made (wheel a) := by
  refine .nested _ (.symmetric (.axial a) (by simp) ha (by simp) _ _ 2 (.leaf square) (by simp) (wheel_mk a ha) ?_)
  intro x hx
  simp [syms] at hx

theorem up_down : sameSymmetry (.axial up) 3 (.axial down) 3 := by
  refine ⟨⟨?_, ?_⟩, rfl⟩
  · simp [Axis.contains, parallelVectors, up, down, V3.norm, dot, cross]
    norm_num
  · simp [parallelVectors, up, down, V3.norm, dot, cross]
    norm_num

theorem wheel_build : ∃ b0 b1 b2 : HMat ℝ, build false gap (fun _ _ => none) (wheel up) (wheel down) =
    structured .circulant [b0, b1, b2] ∧ b0 = evaluate gap (.leaf square) (.leaf square) ∧
    (∀ b ∈ [b0, b1, b2], b.WF ∧ b.shape = (1, 1)) := by
  refine ⟨evaluate gap (.leaf square) (.leaf square),
    evaluate gap (.leaf square) (.leaf ((Motion.rotate down (2 * 1 * Real.pi / 3)).mesh square)),
    evaluate gap (.leaf square) (.leaf ((Motion.rotate down (2 * 2 * Real.pi / 3)).mesh square)), ?_, rfl, ?_⟩
  · rw [wheel, wheel, build]
    unfold combine
    rw [if_pos (show sameSymmetry (.axial up) [_, _, _].length (.axial down) [_, _, _].length from up_down)]
    simp only [Bool.false_eq_true, if_false, buildAll, build, List.map_cons, List.map_nil, List.getD_cons_zero]
  · intro b hb
    simp only [List.mem_cons, List.not_mem_nil, or_false] at hb
    rcases hb with rfl | rfl | rfl <;> exact ⟨trivial, rfl⟩

theorem structured_shape {k : Kind} {b : HMat ℝ} (l : List (HMat ℝ)) (h : b.shape = (1, 1)) :
    (structured k (b :: l)).shape =
      (1 * (nbBlocks k (l.length + 1)).getD 0, 1 * (nbBlocks k (l.length + 1)).getD 0) := by
  rw [structured, List.getD_cons_zero, h, HMat.shape, List.length_cons]

theorem structured_wf {k : Kind} {l : List (HMat ℝ)} {n : ℕ} (hk : Admissible k n) (hl : l.length = specStored k n)
    (hb : ∀ b ∈ l, b.WF ∧ b.shape = (1, 1)) (h0 : l ≠ []) : (structured k l).WF := by
  have h1 : (l.getD 0 missing).shape = (1, 1) := by
    cases l with
    | nil => exact absurd rfl h0
    | cons x xs => exact (hb x List.mem_cons_self).2
  refine ⟨⟨n, hk, hl⟩, fun i hi => ?_⟩
  have : l.getD i missing ∈ l := by
    rw [List.getD_eq_getElem?_getD, List.getElem?_eq_getElem hi]
    exact List.getElem_mem hi
  rw [h1]
  exact hb _ this

/-- C21: two axes with opposite directions are found equal. The matrix between two meshes with three parts around these axes is
not the one of the Green function, although it is invariant under all motions. -/
theorem opposite_axes_violated : ∃ (G : Shape → Shape → ℝ) (a b : Axis) (m : Mesh (V3 ℝ)) (t1 t2 : Tree) (r c : ℕ),
    (∀ μ : Motion, μ.Unit → Invariant G μ) ∧ dot a.vector a.vector = 1 ∧ dot b.vector b.vector = 1 ∧
    mkSymmetric Tree.copy (.axial a) (.leaf m) 2 = some t1 ∧ mkSymmetric Tree.copy (.axial b) (.leaf m) 2 = some t2 ∧
    r < t1.nbFaces ∧ c < t2.nbFaces ∧
    ∀ F F' : Arr ℝ, (build false G (fun _ _ => none) t1 t2).fullMatrix F r c ≠ (evaluate G t1 t2).fullMatrix F' r c := by
  have hu : dot up.vector up.vector = 1 := by simp [up, dot]
  have hd : dot down.vector down.vector = 1 := by simp [down, dot]
  refine ⟨gap, up, down, square, wheel up, wheel down, 1, 1, gap_invariant, hu, hd, wheel_mk up hu, wheel_mk down hd, ?_, ?_, ?_⟩
  · rw [← panels_length]
    simp [panels, wheel, Tree.leaves, leavesAll, shapes_move, square_shapes]
  · rw [← panels_length]
    simp [panels, wheel, Tree.leaves, leavesAll, shapes_move, square_shapes]
  · intro F F'
    obtain ⟨b0, b1, b2, hb, h0, hs⟩ := wheel_build
    have hwf : (structured Kind.circulant [b0, b1, b2]).WF :=
      structured_wf (n := 3) (by simp [Admissible]) rfl hs (by simp)
    have e1 : (build false gap (fun _ _ => none) (wheel up) (wheel down)).fullMatrix F 1 1 = 0 := by
      rw [hb, full_matrix_eq_entry _ hwf F 1 1]
      · have : (structured Kind.circulant [b0, b1, b2]).entry 1 1 = b0.entry 0 0 := by
          simp only [structured, List.getD_cons_zero, (hs b0 List.mem_cons_self).2, HMat.entry]
          rfl
        rw [this, h0]
        simp only [evaluate, HMat.entry, panels, Tree.leaves, List.flatMap_cons, List.flatMap_nil, List.append_nil,
          square_shapes, List.getElem?_cons_zero, gap, sum4]
        simp [dot]
      · rw [structured_shape _ (hs b0 List.mem_cons_self).2, List.length_cons, List.length_cons, List.length_nil]
        decide
      · rw [structured_shape _ (hs b0 List.mem_cons_self).2, List.length_cons, List.length_cons, List.length_nil]
        decide
    have e2 : (evaluate gap (wheel up) (wheel down)).fullMatrix F' 1 1 = 192 := by
      have h := evaluate_represents (E := Eq) (G := gap) (fun _ => rfl) (wheel up) (wheel down)
      have hn : ∀ a, (wheel a).nbFaces = 3 := by
        intro a
        rw [← panels_length]
        simp [panels, wheel, Tree.leaves, leavesAll, shapes_move, square_shapes]
      rw [full_matrix_eq_entry _ h.wf F' 1 1 (by rw [h.shape, hn]; norm_num) (by rw [h.shape]; simp only [hn]; norm_num)]
      have hp : ∀ a, (panels (wheel a))[1]? = some (moveShape (.rotate a (2 * 1 * Real.pi / 3))
          (false, some (⟨1, 0, -1⟩, ⟨3, 0, -1⟩, ⟨3, 0, -3⟩, ⟨1, 0, -3⟩))) := by
        intro a
        simp [panels, wheel, Tree.leaves, leavesAll, shapes_move, square_shapes]
      rw [h.entry 1 1 _ _ (hp up) (hp down)]
      have hsin : Real.sin (2 * 1 * Real.pi / 3) ^ 2 = 3 / 4 := by
        have e : 2 * 1 * Real.pi / 3 = Real.pi - Real.pi / 3 := by ring
        rw [e, Real.sin_pi_sub, Real.sin_pi_div_three, div_pow, Real.sq_sqrt (by norm_num)]
        norm_num
      simp only [moveShape, gap, sum4, Option.map_some, Motion.point, Axis.rotatePoint, rotateVector_eq, up, down]
      generalize Real.sin (2 * 1 * Real.pi / 3) = s at *
      generalize Real.cos (2 * 1 * Real.pi / 3) = c at *
      simp only [dot, cross, add_x, add_y, add_z, sub_x, sub_y, sub_z, smul_x, smul_y, smul_z]
      linear_combination 256 * hsin
    rw [e1, e2]
    norm_num

/-! ## Reflections -/

/-- A square and its image. -/
noncomputable def pair (P : Plane) : Tree := .node (.reflection P) [.leaf square, .leaf ((Motion.mirror P).mesh square)]

/-- The plane x = -1. -/
def behind : Plane := ⟨⟨1, 0, 0⟩, ⟨-1, 0, 0⟩⟩
/-- The plane x = 0. -/
def middle : Plane := ⟨⟨1, 0, 0⟩, ⟨0, 0, 0⟩⟩

theorem pair_mk (P : Plane) (hP : dot P.normal P.normal = 1) (hz : P.normal.z = 0) :
    mkSymmetric Tree.copy (.reflection P) (.leaf square) 1 = some (pair P) := by
  classical
  rw [mkSymmetric, if_pos ⟨hz, le_rfl⟩]
  have : (Tree.leaf square).copy = some (.leaf square) := rfl
  rw [this, Option.map_some, sym_copy_unit (show (Sym.reflection P).Unit from hP)]
  rfl

theorem behind_equal : sameSymmetry (.reflection behind) 2 (.reflection (middle.translate ⟨-1, 0, 0⟩)) 2 := by
  refine ⟨?_, ?_, ?_⟩
  · simp [Plane.contains, orthogonalVectors, behind, middle, Plane.translate, dot]
    norm_num
  · simp [parallelVectors, behind, middle, Plane.translate, V3.norm, dot, cross]
    norm_num
  · simp [behind, middle, Plane.translate, dot]

/-- C21, because of C25: a mesh and its image built with the plane x = -1 are in fact symmetric with respect to the plane x = 1. A
mesh built with the plane x = 0 and then translated is stored with the plane x = -1. The matrix between both is not the one of
the Green function. -/
theorem misplaced_plane_violated : ∃ (G : Shape → Shape → ℝ) (P Q : Plane) (v : V3 ℝ) (m : Mesh (V3 ℝ)) (t1 t2 : Tree) (r c : ℕ),
    (∀ μ : Motion, μ.Unit → Invariant G μ) ∧ dot P.normal P.normal = 1 ∧ dot Q.normal Q.normal = 1 ∧
    mkSymmetric Tree.copy (.reflection P) (.leaf m) 1 = some t1 ∧ mkSymmetric Tree.copy (.reflection Q) (.leaf m) 1 = some t2 ∧
    r < t1.nbFaces ∧ c < t2.nbFaces ∧
    ∀ (basic : Bool) (F F' : Arr ℝ), (build basic G (fun _ _ => none) t1 (t2.move (.translate v))).fullMatrix F r c ≠
      (evaluate G t1 (t2.move (.translate v))).fullMatrix F' r c := by
  have hb : dot behind.normal behind.normal = 1 := by simp [behind, dot]
  have hm : dot middle.normal middle.normal = 1 := by simp [middle, dot]
  have hn : ∀ P, (pair P).nbFaces = 2 := by
    intro P
    rw [← panels_length]
    simp [panels, pair, Tree.leaves, leavesAll, shapes_move, square_shapes]
  have hn2 : ∀ P v, ((pair P).move (.translate v)).nbFaces = 2 := by
    intro P v
    rw [← panels_length]
    simp [panels, pair, Tree.leaves, leavesAll, shapes_move, square_shapes, Tree.move, moveAll]
  refine ⟨gap, behind, middle, ⟨-1, 0, 0⟩, square, pair behind, pair middle, 1, 1, gap_invariant, hb, hm,
    pair_mk _ hb rfl, pair_mk _ hm rfl, by rw [hn]; norm_num, by rw [hn]; norm_num, ?_⟩
  intro basic F F'
  have hbuild : ∃ b0 b1 : HMat ℝ, build basic gap (fun _ _ => none) (pair behind) ((pair middle).move (.translate ⟨-1, 0, 0⟩)) =
      structured .symToeplitz [b0, b1] ∧
      b0 = evaluate gap (.leaf square) (.leaf ((Motion.translate ⟨-1, 0, 0⟩).mesh square)) ∧
      (∀ b ∈ [b0, b1], b.WF ∧ b.shape = (1, 1)) := by
    refine ⟨evaluate gap (.leaf square) (.leaf ((Motion.translate ⟨-1, 0, 0⟩).mesh square)), 
      evaluate gap (.leaf square) (.leaf ((Motion.translate ⟨-1, 0, 0⟩).mesh ((Motion.mirror middle).mesh square))), ?_, rfl, ?_⟩
    · rw [pair, pair, Tree.move, build]
      unfold combine
      have hsym : (Motion.translate ⟨-1, 0, 0⟩).sym (.reflection middle) = .reflection (middle.translate ⟨-1, 0, 0⟩) := rfl
      rw [moveAll, moveAll, moveAll, hsym,
        if_pos (show sameSymmetry (.reflection behind) [_, _].length (.reflection (middle.translate ⟨-1, 0, 0⟩)) [_, _].length from behind_equal)]
      simp only [buildAll, build, List.map_cons, List.map_nil, List.getD_cons_zero, Tree.move, List.getD_cons_succ, ite_self]
    · intro b hb
      simp only [List.mem_cons, List.not_mem_nil, or_false] at hb
      rcases hb with rfl | rfl <;> exact ⟨trivial, rfl⟩
  obtain ⟨b0, b1, hbd, h0, hs⟩ := hbuild
  have hwf : (structured Kind.symToeplitz [b0, b1]).WF := structured_wf (n := 2) (by simp [Admissible]) rfl hs (by simp)
  have e1 : (build basic gap (fun _ _ => none) (pair behind) ((pair middle).move (.translate ⟨-1, 0, 0⟩))).fullMatrix F 1 1 = 16 := by
    rw [hbd, full_matrix_eq_entry _ hwf F 1 1]
    · have : (structured Kind.symToeplitz [b0, b1]).entry 1 1 = b0.entry 0 0 := by
        simp only [structured, List.getD_cons_zero, (hs b0 List.mem_cons_self).2, HMat.entry]
        rfl
      rw [this, h0]
      simp only [evaluate, HMat.entry, panels, Tree.leaves, List.flatMap_cons, List.flatMap_nil, List.append_nil,
        shapes_move, square_shapes, List.map_cons, List.map_nil, List.getElem?_cons_zero, gap, sum4, moveShape, Option.map_some, Motion.point]
      simp [dot]
      norm_num
    · rw [structured_shape _ (hs b0 List.mem_cons_self).2, List.length_cons, List.length_nil]
      decide
    · rw [structured_shape _ (hs b0 List.mem_cons_self).2, List.length_cons, List.length_nil]
      decide
  have e2 : (evaluate gap (pair behind) ((pair middle).move (.translate ⟨-1, 0, 0⟩))).fullMatrix F' 1 1 = 144 := by
    have h := evaluate_represents (E := Eq) (G := gap) (fun _ => rfl) (pair behind) ((pair middle).move (.translate ⟨-1, 0, 0⟩))
    rw [full_matrix_eq_entry _ h.wf F' 1 1 (by rw [h.shape, hn]; norm_num) (by rw [h.shape, hn2]; norm_num)]
    have hp1 : (panels (pair behind))[1]? = some (moveShape (.mirror behind)
        (false, some (⟨1, 0, -1⟩, ⟨3, 0, -1⟩, ⟨3, 0, -3⟩, ⟨1, 0, -3⟩))) := by
      simp [panels, pair, Tree.leaves, leavesAll, shapes_move, square_shapes]
    have hp2 : (panels ((pair middle).move (.translate ⟨-1, 0, 0⟩)))[1]? = some (moveShape (.translate ⟨-1, 0, 0⟩) (moveShape (.mirror middle)
        (false, some (⟨1, 0, -1⟩, ⟨3, 0, -1⟩, ⟨3, 0, -3⟩, ⟨1, 0, -3⟩)))) := by
      simp [panels, pair, Tree.leaves, leavesAll, shapes_move, square_shapes, Tree.move, moveAll]
    rw [h.entry 1 1 _ _ hp1 hp2]
    have hc1 : behind.c = 1 := by simp [Plane.c, behind, dot]
    have hc2 : middle.c = 0 := by simp [Plane.c, middle, dot]
    simp only [moveShape, gap, sum4, Option.map_some, Motion.point, Plane.mirrorPoint, hc1, hc2]
    simp only [behind, middle, dot, add_x, add_y, add_z, sub_x, sub_y, sub_z, smul_x, smul_y, smul_z]
    norm_num
  rw [e1, e2]
  norm_num

/-! ## The hypotheses can be met -/

/-- Translations of a square, then mirrored. -/
example : ∃ t : Tree, Made t ∧ t.nbFaces = 6 ∧
    (∀ x ∈ syms t, x.1 ≠ .plain → ∀ k, 1 ≤ k → k < x.2 → Invariant gap ((real x.1 x.2).step x.2 k)) ∧
    (∀ x ∈ syms t, ∀ y ∈ syms t, sameSymmetry x.1 x.2 y.1 y.2 → SameSteps (real x.1 x.2) (real y.1 y.2) x.2) := by
  classical
  let P : Plane := ⟨⟨0, 1, 0⟩, ⟨0, 0, 0⟩⟩
  let v : V3 ℝ := ⟨4, 0, 0⟩
  have hP : dot P.normal P.normal = 1 := by simp [P, dot]
  obtain ⟨t, ht⟩ : ∃ t, mkSymmetric Tree.copy (.translation v) (.leaf square) 2 = some t := by
    rw [mkSymmetric, if_pos ⟨rfl, by norm_num⟩]
    exact ⟨_, rfl⟩
  have hnt : Nested t := .symmetric (.translation v) (by simp) trivial (by simp) _ _ 2 (.leaf square) (by simp) ht (by simp [syms])
  have hct : t.copy = some t := (nested_coherent hnt).1 _ le_rfl
  have hst : syms t = [(.translation v, 3)] := by
    rw [mkSymmetric, if_pos ⟨rfl, by norm_num⟩] at ht
    cases ht
    rfl
  obtain ⟨T, hT⟩ : ∃ T, mkSymmetric Tree.copy (.reflection P) t 1 = some T := by
    rw [mkSymmetric, if_pos ⟨rfl, by norm_num⟩, hct]
    exact ⟨_, rfl⟩
  have hnT : Nested T := by
    refine .symmetric (.reflection P) (by simp) hP ?_ _ _ 1 hnt (by simp) hT ?_
    · intro Q hQ
      cases hQ
      simp [Plane.s, P, dot]
    · rw [hst]
      simp [Sym.step, FitsReal]
  have hv : P.mirrorVector v = v := by
    ext <;> simp [Plane.mirrorVector, P, v, dot]
  have hsT : syms T = [(.reflection P, 2), (.translation v, 3), (.translation v, 3)] := by
    have hT' := hT
    rw [mkSymmetric, if_pos ⟨rfl, by norm_num⟩, hct, Option.map_some, sym_copy_unit (show (Sym.reflection P).Unit from hP)] at hT'
    cases hT'
    rw [mkSymmetric, if_pos ⟨rfl, by norm_num⟩] at ht
    cases ht
    simp only [syms, symsAll, List.length_cons, List.range_succ, List.range_zero,
      List.nil_append, List.map_cons, List.map_nil, List.singleton_append, Tree.move, moveAll,
      Motion.sym, Sym.step, hv, Sym.copy]
    rfl
  have hfaces : T.nbFaces = 6 := by
    have hT' := hT
    rw [mkSymmetric, if_pos ⟨rfl, by norm_num⟩, hct, Option.map_some] at hT'
    cases hT'
    rw [mkSymmetric, if_pos ⟨rfl, by norm_num⟩] at ht
    cases ht
    rw [← panels_length]
    simp [panels_node, List.range_succ, panels, Tree.leaves, leaves_move, leavesAll, shapes_move, square_shapes, leavesAll_eq]
  refine ⟨T, .nested T hnT, hfaces, ?_, ?_⟩
  · intro x hx hne k _ _
    rw [hsT] at hx
    simp only [List.mem_cons, List.not_mem_nil, or_false] at hx
    rcases hx with rfl | rfl | rfl
    · exact gap_invariant _ (step_unit (real_unit (s := .reflection P) hP _) _ _)
    · exact gap_invariant _ trivial
    · exact gap_invariant _ trivial
  · intro x hx y hy h k _ _ p
    rw [hsT] at hx hy
    simp only [List.mem_cons, List.not_mem_nil, or_false] at hx hy
    rcases hx with rfl | rfl | rfl <;> rcases hy with rfl | rfl | rfl <;> first | rfl | exact absurd h (by simp [sameSymmetry])

end Verif.Engines
