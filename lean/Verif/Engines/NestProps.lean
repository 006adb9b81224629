import Verif.Engines.Props

/-!
# Meshes for which the symmetries can be used (C21)

Nested symmetric meshes as built by the constructors, and then moved, have parts that are images of each other.
-/

namespace Verif.Engines

open Verif.Geometry Verif.Meshes Verif.Blocks V3

/-! ## Specification -/

/-- The reflection through the points of a plane. -/
def mirrorAt (P : Plane) (p : V3 ℝ) : V3 ℝ := p - (2 * (dot p P.normal - dot P.point P.normal)) • P.normal

open Classical in
/-- The symmetry of the points: for a plane, the reflection through the plane, which is not the one computed with this plane
when the origin is on the side of the normal (see C25), but is the one computed with the opposite normal. -/
noncomputable def real : Sym → ℕ → Sym
  | .reflection P, _ => .reflection (if 0 ≤ P.s then P else ⟨-P.normal, P.point⟩)
  | s, _ => s

/-- When a motion commutes with the symmetry. Rotations move planes as if the axis went through the origin (see C26), and
mirrors reverse the sense of rotation. -/
def FitsReal (μ : Motion) (s : Sym) (n : ℕ) : Prop :=
  match μ, s with
  | .rotate a θ, .reflection P => dot a.point (a.rotateVector θ P.normal) = dot a.point P.normal
  | .mirror _, .axial _ => n ≤ 2
  | _, _ => True

/-- The meshes made by the constructors. -/
inductive Nested : Tree → Prop
  | leaf (m : Mesh (V3 ℝ)) : Nested (.leaf m)
  | collection (ps : List Tree) (hn : 1 ≤ ps.length) (h : ∀ t ∈ ps, Nested t) : Nested (.node .plain ps)
  | symmetric (s : Sym) (hs : s ≠ .plain) (hu : s.Unit) (hside : ∀ P, s = .reflection P → 0 ≤ P.s) (t T : Tree) (nb : ℕ)
      (ht : Nested t) (hr : ∀ P, s = .reflection P → nb = 1) (hmk : mkSymmetric Tree.copy s t nb = some T)
      (hf : ∀ x ∈ syms t, ∀ k, 1 ≤ k → k ≤ nb → FitsReal (s.step (nb + 1) k) x.1 x.2) : Nested T

/-- The meshes made by the constructors, moved and put together any number of times. -/
inductive Made : Tree → Prop
  | nested (t : Tree) (h : Nested t) : Made t
  | moved (μ : Motion) (hμ : μ.Unit) (t : Tree) (ht : Made t) (hf : ∀ x ∈ syms t, FitsReal μ x.1 x.2) : Made (t.move μ)
  | collection (ps : List Tree) (hn : 1 ≤ ps.length) (h : ∀ t ∈ ps, Made t) : Made (.node .plain ps)

/-! ## Motions -/

theorem mirrorAt_eq (P : Plane) (h : 0 ≤ P.s) (p : V3 ℝ) : P.mirrorPoint p = mirrorAt P p := by
  have h' : 0 ≤ dot P.normal P.point := h
  rw [Plane.mirrorPoint, mirrorAt, Plane.c, abs_of_nonneg h', show dot P.normal P.point = dot P.point P.normal by
    simp only [dot]; ring]

theorem real_step (P : Plane) (n k : ℕ) (p : V3 ℝ) : ((real (.reflection P) n).step n k).point p = mirrorAt P p := by
  simp only [real, Sym.step, Motion.point]
  split
  · rename_i h
    exact mirrorAt_eq P h p
  · rename_i h
    have h' : dot P.normal P.point < 0 := not_le.mp h
    have h2 : 0 ≤ dot (-P.normal) P.point := by
      simp only [dot, neg_x, neg_y, neg_z] at h' ⊢
      linarith
    rw [mirrorAt_eq ⟨-P.normal, P.point⟩ h2]
    ext <;> simp [mirrorAt, dot] <;> ring

theorem commute_mirrorAt (μ : Motion) (P P' : Plane) (n : ℕ) (hμ : μ.Unit) (hf : FitsReal μ (.reflection P) n)
    (hP' : μ.sym (.reflection P) = .reflection P') (p : V3 ℝ) : μ.point (mirrorAt P p) = mirrorAt P' (μ.point p) := by
  cases μ with
  | translate v =>
    simp only [Motion.sym, Sym.reflection.injEq] at hP'
    subst hP'
    ext <;> simp [Motion.point, mirrorAt, Plane.translate, dot] <;> ring
  | rotate a θ =>
    simp only [Motion.sym, Sym.reflection.injEq] at hP'
    subst hP'
    have ha : dot a.vector a.vector = 1 := hμ
    simp only [FitsReal] at hf
    have hn : (P.rotate a θ).normal = a.rotateVector θ P.normal := rfl
    have hp : (P.rotate a θ).point = a.rotateVector θ P.point := rfl
    simp only [Motion.point, mirrorAt]
    rw [hn, hp, rotateVector_dot a ha]
    have h1 : dot (a.rotatePoint θ p) (a.rotateVector θ P.normal) = dot p P.normal := by
      have h2 : dot (a.rotatePoint θ p) (a.rotateVector θ P.normal) =
          dot (a.rotateVector θ (p - a.point)) (a.rotateVector θ P.normal) +
            dot a.point (a.rotateVector θ P.normal) := by
        simp only [Axis.rotatePoint, dot, add_x, add_y, add_z]
        ring
      rw [h2, rotateVector_dot a ha, hf]
      simp only [dot, sub_x, sub_y, sub_z]
      ring
    rw [h1]
    have h3 := rotatePoint_sub a θ (p - (2 * (dot p P.normal - dot P.point P.normal)) • P.normal) p
    have h4 : p - (2 * (dot p P.normal - dot P.point P.normal)) • P.normal - p =
        (-(2 * (dot p P.normal - dot P.point P.normal))) • P.normal := by
      ext <;> simp
    rw [h4, rotateVector_smul] at h3
    have h5 : a.rotatePoint θ (p - (2 * (dot p P.normal - dot P.point P.normal)) • P.normal) =
        a.rotatePoint θ p + (-(2 * (dot p P.normal - dot P.point P.normal))) • a.rotateVector θ P.normal := by
      rw [← h3]
      abel
    rw [h5]
    ext <;> simp <;> ring
  | mirror Q =>
    simp only [Motion.sym, Sym.reflection.injEq] at hP'
    subst hP'
    have hQ : Q.normal.x * Q.normal.x + Q.normal.y * Q.normal.y + Q.normal.z * Q.normal.z = 1 := hμ
    have hd : ∀ q, dot (Q.mirrorPoint q) (Q.mirrorVector P.normal) = dot q P.normal - 2 * Q.c * dot Q.normal P.normal := by
      intro q
      simp only [Plane.mirrorPoint, Plane.mirrorVector, dot, sub_x, sub_y, sub_z, smul_x, smul_y, smul_z]
      generalize Q.c = c
      linear_combination (4 * (q.x * Q.normal.x + q.y * Q.normal.y + q.z * Q.normal.z - c) *
        (P.normal.x * Q.normal.x + P.normal.y * Q.normal.y + P.normal.z * Q.normal.z)) * hQ
    have h3 : ∀ (c : ℝ) (w : V3 ℝ), Q.mirrorPoint (p - c • w) = Q.mirrorPoint p - c • Q.mirrorVector w := by
      intro c w
      ext <;> simp [Plane.mirrorPoint, Plane.mirrorVector, dot] <;> ring
    simp only [Motion.point, mirrorAt, Plane.mirror]
    rw [hd, hd, h3]
    congr 2
    ring

theorem real_class {s : Sym} (hs : s ≠ .plain) (n : ℕ) : SameClass s (real s n) := by
  cases s with
  | plain => exact absurd rfl hs
  | _ => trivial

theorem real_unit {s : Sym} (hu : s.Unit) (n : ℕ) : (real s n).Unit := by
  cases s with
  | reflection P =>
    have h : dot P.normal P.normal = 1 := hu
    simp only [real, Sym.Unit]
    split
    · exact h
    · simp only [dot, neg_x, neg_y, neg_z] at h ⊢
      linarith
  | _ => exact hu

theorem commute_real (μ : Motion) (s : Sym) (n k : ℕ) (hs : s ≠ .plain) (hμ : μ.Unit) (hk : 1 ≤ k) (hkn : k < n)
    (hf : FitsReal μ s n) (p : V3 ℝ) :
    μ.point (((real s n).step n k).point p) = ((real (μ.sym s) n).step n k).point (μ.point p) := by
  cases s with
  | plain => exact absurd rfl hs
  | reflection P =>
    obtain ⟨P', hP'⟩ : ∃ P', μ.sym (.reflection P) = .reflection P' := by
      cases μ <;> exact ⟨_, rfl⟩
    rw [hP', real_step, real_step]
    exact commute_mirrorAt μ P P' n hμ hf hP' p
  | translation v =>
    have := commute μ (.translation v) n k hμ hk hkn (by cases μ <;> trivial) p
    cases μ <;> exact this
  | axial a =>
    have := commute μ (.axial a) n k hμ hk hkn (by cases μ <;> first | trivial | exact hf) p
    cases μ <;> exact this

theorem real_face {s : Sym} (hs : s ≠ .plain) (μ : Motion) (n k : ℕ) (f : Face) :
    μ.face (((real s n).step n k).face f) = ((real (μ.sym s) n).step n k).face (μ.face f) := by
  cases s with
  | plain => exact absurd rfl hs
  | reflection P => cases μ <;> simp only [real, Sym.step, Motion.sym, Motion.face, id]
  | translation v => cases μ <;> rfl
  | axial a => cases μ <;> rfl

theorem coherent_moved {μ : Motion} (hμ : μ.Unit) {t : Tree} (h : Coherent real t) (hf : ∀ x ∈ syms t, FitsReal μ x.1 x.2) :
    Coherent real (t.move μ) := by
  induction h with
  | leaf m => exact .leaf _
  | plain ps hn _ ih =>
    have hsym : μ.sym .plain = .plain := by cases μ <;> rfl
    rw [Tree.move, hsym, moveAll_eq]
    refine .plain _ (by simpa using hn) fun t ht => ?_
    obtain ⟨u, hu, rfl⟩ := List.mem_map.mp ht
    exact ih u hu fun x hx => hf x (syms_mem hu hx)
  | symmetric s t rest hs hu _ _ hr hk ih ih2 =>
    have hs0 : s ≠ .plain := by
      rintro rfl
      exact hs.elim
    rw [Tree.move, moveAll, moveAll_eq]
    refine .symmetric _ _ _ (real_class (sym_ne_plain hs0) _) ?_ (ih fun x hx => hf x (syms_mem List.mem_cons_self hx)) ?_ ?_ ?_
    · refine real_unit (sym_unit hμ ?_) _
      cases s with
      | reflection P =>
        simp only [real, Sym.Unit] at hu ⊢
        split at hu
        · exact hu
        · simp only [dot, neg_x, neg_y, neg_z] at hu ⊢
          linarith
      | _ => exact hu
    · intro u hu
      obtain ⟨w, hw, rfl⟩ := List.mem_map.mp hu
      exact ih2 w hw fun x hx => hf x (syms_mem (List.mem_cons_of_mem _ hw) hx)
    · intro P hP
      rw [List.length_map]
      cases s with
      | reflection P' => exact hr P' rfl
      | plain => exact absurd rfl hs0
      | translation v => cases μ <;> cases hP
      | axial a => cases μ <;> cases hP
    · intro k u hku
      rw [List.getElem?_map, Option.map_eq_some_iff] at hku
      obtain ⟨w, hw, rfl⟩ := hku
      have hkl : k < rest.length := (List.getElem?_eq_some_iff.mp hw).1
      have hf0 : FitsReal μ s (rest.length + 1) := hf (s, (t :: rest).length) (by rw [syms]; exact List.mem_cons_self)
      rw [leaves_move, leaves_move, hk k w hw, List.length_map, List.map_map, List.map_map]
      refine List.map_congr_left fun m _ => ?_
      simp only [Function.comp, mesh_eq, List.map_map]
      congr 1
      · exact List.map_congr_left fun p _ => commute_real μ s _ _ hs0 hμ (by omega) (by omega) hf0 p
      · exact List.map_congr_left fun f _ => real_face hs0 μ _ _ f

/-! ## Constructors -/

theorem mapM_self {f : Tree → Option Tree} {ps : List Tree} (h : ∀ t ∈ ps, f t = some t) : ps.mapM f = some ps := by
  induction ps with
  | nil => rfl
  | cons t ts ih =>
    rw [List.mapM_cons, h t List.mem_cons_self, ih fun u hu => h u (List.mem_cons_of_mem _ hu)]
    rfl

theorem step_unit {s : Sym} (hu : s.Unit) (n k : ℕ) : (s.step n k).Unit := by
  cases s <;> first | trivial | exact hu

/-- A mesh made by the constructors is equal to its copies, and its parts are images of each other. -/
theorem nested_coherent {t : Tree} (h : Nested t) : (∀ n, t.depth ≤ n → t.copyN n = some t) ∧ Coherent real t := by
  classical
  induction h with
  | leaf m =>
    refine ⟨fun n hn => ?_, .leaf m⟩
    obtain ⟨k, rfl⟩ : ∃ k, n = k + 1 := ⟨n - 1, by simp only [Tree.depth] at hn; omega⟩
    rfl
  | collection ps hn _ ih =>
    refine ⟨fun n hd => ?_, .plain ps hn fun t ht => (ih t ht).2⟩
    simp only [Tree.depth] at hd
    obtain ⟨k, rfl⟩ : ∃ k, n = k + 1 := ⟨n - 1, by omega⟩
    rw [Tree.copyN, mapM_self fun t ht => (ih t ht).1 k (by have := depthAll_le ht; omega)]
    rfl
  | symmetric s hs hu hside t T nb ht hr hmk hf ih =>
    have hcopy : t.copy = some t := ih.1 t.depth le_rfl
    have hT := hmk
    rw [mkSymmetric] at hT
    split at hT
    · rename_i hacc
      rw [hcopy, Option.map_some, Option.some.injEq, sym_copy_unit hu] at hT
      have hreal : real s (nb + 1) = s := by
        cases s with
        | reflection P => simp only [real, if_pos (hside P rfl)]
        | _ => rfl
      have hlen : ((List.range nb).map fun i => t.move (s.step (nb + 1) (i + 1))).length = nb := by simp
      constructor
      · intro n hd
        rw [← hT, depth_symmetric hs] at hd
        obtain ⟨k, rfl⟩ : ∃ k, n = k + 1 := ⟨n - 1, by omega⟩
        rw [← hT, copyN_symmetric hs, recopy, ih.1 k (by omega)]
        simp only
        rw [sym_passed_unit hu, hlen, repetitions_eq hr, mkSymmetric, if_pos hacc, ih.1 k (by omega), Option.map_some,
          sym_copy_unit hu]
      · rw [← hT]
        refine .symmetric s t _ ?_ ?_ ih.2 ?_ ?_ ?_
        · rw [hlen, hreal]
          have := real_class hs (nb + 1)
          rw [hreal] at this
          exact this
        · rw [hlen, hreal]
          exact hu
        · intro u hu'
          obtain ⟨i, hi, rfl⟩ := List.mem_map.mp hu'
          rw [List.mem_range] at hi
          exact coherent_moved (step_unit hu _ _) ih.2 fun x hx => hf x hx (i + 1) (by omega) (by omega)
        · intro P hP
          rw [hlen]
          exact hr P hP
        · intro k u hk
          rw [List.getElem?_map, Option.map_eq_some_iff] at hk
          obtain ⟨i, hi, rfl⟩ := hk
          have hlt : k < nb := by
            have := (List.getElem?_eq_some_iff.mp hi).1
            simpa using this
          rw [List.getElem?_range hlt, Option.some.injEq] at hi
          subst hi
          rw [leaves_move, hlen, hreal]
    · cases hT

/-- C21: the meshes made by the constructors, moved and put together have parts that are images of each other. -/
theorem made_coherent {t : Tree} (h : Made t) : Coherent real t := by
  induction h with
  | nested t h => exact (nested_coherent h).2
  | moved μ hμ t _ hf ih => exact coherent_moved hμ ih hf
  | collection ps hn _ ih => exact .plain ps hn ih

section
variable {R : Type} [Inhabited R] {G : Shape → Shape → R}

/-- C21, for the meshes made by the constructors, moved and put together: the expanded matrix is the matrix computed without
symmetries. Missing: motions that do not commute with the symmetries, see `FitsReal`, and symmetries that the code finds
equal although they are not, see `opposite_axes_violated` and `misplaced_plane_violated`. -/
theorem made_matrix_partial (basic : Bool) (t1 t2 : Tree) (h1 : Made t1) (h2 : Made t2)
    (hinv : ∀ x ∈ syms t1, x.1 ≠ .plain → ∀ k, 1 ≤ k → k < x.2 → Invariant G ((real x.1 x.2).step x.2 k))
    (hsame : ∀ x ∈ syms t1, ∀ y ∈ syms t2, sameSymmetry x.1 x.2 y.1 y.2 → SameSteps (real x.1 x.2) (real y.1 y.2) x.2)
    (F F' : Arr R) (r c : ℕ) (hr : r < t1.nbFaces) (hc : c < t2.nbFaces) :
    (build basic G (fun _ _ => none) t1 t2).fullMatrix F r c = (evaluate G t1 t2).fullMatrix F' r c :=
  full_matrix_partial real real basic t1 t2 (made_coherent h1) (made_coherent h2) hinv hsame F F' r c hr hc

end

end Verif.Engines
