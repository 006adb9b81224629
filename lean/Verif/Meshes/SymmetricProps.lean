import Verif.Meshes.SymmetricModel
import Verif.Meshes.TreeProps
import Verif.Geometry.PlaneProps

/-!
# Symmetric meshes: copies and regular arrays of meshes (C35, C37)
-/

namespace Verif.Meshes

open Verif.Geometry V3

/-! ## Specification -/

/-- The motion of a point. -/
noncomputable def Motion.point : Motion → V3 ℝ → V3 ℝ
  | .translate v => fun p => p + v
  | .rotate a θ => a.rotatePoint θ
  | .mirror P => P.mirrorPoint

/-- The vectors of the axes and planes have unit length, as the constructors of `Axis` and `Plane` ensure. -/
def Motion.Unit : Motion → Prop
  | .translate _ => True
  | .rotate a _ => dot a.vector a.vector = 1
  | .mirror P => dot P.normal P.normal = 1

/-- Same for the object stored in a symmetric mesh. -/
def Sym.Unit : Sym → Prop
  | .plain => True
  | .reflection P => dot P.normal P.normal = 1
  | .translation _ => True
  | .axial a => dot a.vector a.vector = 1

mutual
/-- A condition on the symmetric collections met when a tree is copied, with their number of parts: those of
all parts of plain collections, and those of the first part of symmetric ones. -/
def Tree.Main (g : Sym → ℕ → Prop) : Tree → Prop
  | .leaf _ => True
  | .node .plain ps => MainAll g ps
  | .node (.reflection P) ps => g (.reflection P) ps.length ∧ MainHead g ps
  | .node (.translation v) ps => g (.translation v) ps.length ∧ MainHead g ps
  | .node (.axial a) ps => g (.axial a) ps.length ∧ MainHead g ps
/-- The condition for several trees. -/
def MainAll (g : Sym → ℕ → Prop) : List Tree → Prop
  | [] => True
  | t :: ts => t.Main g ∧ MainAll g ts
/-- The condition for the first of several trees. -/
def MainHead (g : Sym → ℕ → Prop) : List Tree → Prop
  | [] => True
  | t :: _ => t.Main g
end

/-- All these planes are vertical and all these translations horizontal. -/
def Tree.Upright (t : Tree) : Prop := t.Main fun s _ => s.Accepted

/-- When a motion commutes with the symmetry of a collection of `n` parts. For planes this fails when the code
places the moved plane on the other side of the origin (see C25) or turns it around an axis far from the
origin (see C26); for axes, mirroring reverses the sense of rotation, which changes the parts when there are
more than two. -/
def Fits (μ : Motion) (s : Sym) (n : ℕ) : Prop :=
  match μ, s with
  | .translate v, .reflection P => (P.translate v).c = P.c + dot P.normal v
  | .rotate a θ, .reflection P => dot a.point (a.rotateVector θ P.normal) = dot a.point P.normal
  | .mirror Q, .reflection P => (P.mirror Q).c = P.c - 2 * Q.c * dot Q.normal P.normal
  | .mirror _, .axial _ => n ≤ 2
  | _, _ => True

/-! ## Motions and points -/

/-- The faces of a moved mesh. -/
def Motion.face : Motion → Face → Face
  | .mirror _ => Face.flip
  | _ => id

theorem mesh_eq (μ : Motion) (m : Mesh (V3 ℝ)) :
    μ.mesh m = ⟨m.vertices.map μ.point, m.faces.map μ.face⟩ := by
  cases μ with
  | translate v => simp [Motion.mesh, Mesh.translate, Motion.point, Motion.face]
  | rotate a θ => simp [Motion.mesh, Mesh.rotate, Motion.point, Motion.face]
  | mirror P => simp [Motion.mesh, Mesh.mirror, Motion.point, Motion.face, Mesh.flipNormals]

theorem rotate_conjugate (a b : Axis) (ha : dot a.vector a.vector = 1) (θ φ : ℝ) (v : V3 ℝ) :
    a.rotateVector θ (b.rotateVector φ v) = (b.rotate a θ).rotateVector φ (a.rotateVector θ v) := by
  have hv : (b.rotate a θ).vector = a.rotateVector θ b.vector := rfl
  rw [rotateVector_eq b, rotateVector_eq (b.rotate a θ), hv, rotateVector_cross a ha, rotateVector_cross a ha,
    rotateVector_add, rotateVector_add, rotateVector_smul, rotateVector_smul]

theorem mirror_conjugate (Q : Plane) (b : Axis) (hQ : dot Q.normal Q.normal = 1) (φ : ℝ) (v : V3 ℝ) :
    Q.mirrorVector (b.rotateVector φ v) = (b.mirror Q).rotateVector (-φ) (Q.mirrorVector v) := by
  have hv : (b.mirror Q).vector = Q.mirrorVector b.vector := rfl
  have hneg : ∀ u w : V3 ℝ, cross u (-w) = - cross u w := by
    intro u w
    ext <;> simp <;> ring
  rw [rotateVector_eq b, rotateVector_eq (b.mirror Q), hv, mirrorVector_cross Q hQ, hneg,
    mirrorVector_cross Q hQ, Real.sin_neg, Real.cos_neg]
  ext <;> simp [Plane.mirrorVector, dot] <;> ring

theorem rotateVector_pi_neg (b : Axis) (v : V3 ℝ) : b.rotateVector (-Real.pi) v = b.rotateVector Real.pi v := by
  rw [rotateVector_eq, rotateVector_eq]
  simp

theorem commute (μ : Motion) (s : Sym) (n k : ℕ) (hμ : μ.Unit) (hk : 1 ≤ k) (hkn : k < n)
    (hf : Fits μ s n) (p : V3 ℝ) :
    μ.point ((s.step n k).point p) = ((μ.sym s).step n k).point (μ.point p) := by
  cases s with
  | plain =>
    cases μ <;> simp [Sym.step, Motion.point, Motion.sym]
  | reflection P =>
    cases μ with
    | translate v =>
      simp only [Fits] at hf
      simp only [Sym.step, Motion.sym, Motion.point, Plane.mirrorPoint, hf]
      ext <;> simp [dot, Plane.translate] <;> ring
    | rotate a θ =>
      have ha : dot a.vector a.vector = 1 := hμ
      simp only [Fits] at hf
      have hc : (P.rotate a θ).c = P.c := by
        simp only [Plane.c, Plane.rotate]
        rw [show (a.rotationMatrix θ).mulVec P.normal = a.rotateVector θ P.normal from rfl,
          show (a.rotationMatrix θ).mulVec P.point = a.rotateVector θ P.point from rfl, rotateVector_dot a ha]
      simp only [Sym.step, Motion.sym, Motion.point, Plane.mirrorPoint, hc]
      have hn : (P.rotate a θ).normal = a.rotateVector θ P.normal := rfl
      rw [hn]
      have h1 : dot (a.rotatePoint θ p) (a.rotateVector θ P.normal) = dot p P.normal := by
        have h2 : dot (a.rotatePoint θ p) (a.rotateVector θ P.normal) =
            dot (a.rotateVector θ (p - a.point)) (a.rotateVector θ P.normal) +
              dot a.point (a.rotateVector θ P.normal) := by
          simp only [Axis.rotatePoint, dot, add_x, add_y, add_z]
          ring
        rw [h2, rotateVector_dot a ha, hf]
        simp only [dot, sub_x, sub_y, sub_z]
        ring
      rw [h1]
      have h3 := rotatePoint_sub a θ (p - (2 * (dot p P.normal - P.c)) • P.normal) p
      have h4 : p - (2 * (dot p P.normal - P.c)) • P.normal - p =
          (-(2 * (dot p P.normal - P.c))) • P.normal := by
        ext <;> simp
      rw [h4, rotateVector_smul] at h3
      have h5 : a.rotatePoint θ (p - (2 * (dot p P.normal - P.c)) • P.normal) =
          a.rotatePoint θ p + (-(2 * (dot p P.normal - P.c))) • a.rotateVector θ P.normal := by
        rw [← h3]
        abel
      rw [h5]
      ext <;> simp <;> ring
    | mirror Q =>
      have hQ : Q.normal.x * Q.normal.x + Q.normal.y * Q.normal.y + Q.normal.z * Q.normal.z = 1 := hμ
      simp only [Fits] at hf
      simp only [Sym.step, Motion.sym, Motion.point]
      have h1 : ∀ q, (P.mirror Q).mirrorPoint q =
          q - (2 * (dot q (Q.mirrorVector P.normal) - (P.c - 2 * Q.c * dot Q.normal P.normal))) •
            Q.mirrorVector P.normal := by
        intro q
        rw [Plane.mirrorPoint, hf]
        rfl
      rw [h1]
      have h2 : dot (Q.mirrorPoint p) (Q.mirrorVector P.normal) =
          dot p P.normal - 2 * Q.c * dot Q.normal P.normal := by
        simp only [Plane.mirrorPoint, Plane.mirrorVector, dot, sub_x, sub_y, sub_z, smul_x, smul_y, smul_z]
        generalize Q.c = c
        linear_combination (4 * (p.x * Q.normal.x + p.y * Q.normal.y + p.z * Q.normal.z - c) *
          (P.normal.x * Q.normal.x + P.normal.y * Q.normal.y + P.normal.z * Q.normal.z)) * hQ
      have h3 : ∀ (c : ℝ) (w : V3 ℝ), Q.mirrorPoint (p - c • w) = Q.mirrorPoint p - c • Q.mirrorVector w := by
        intro c w
        ext <;> simp [Plane.mirrorPoint, Plane.mirrorVector, dot] <;> ring
      rw [h2, show P.mirrorPoint p = p - (2 * (dot p P.normal - P.c)) • P.normal from rfl, h3]
      congr 2
      ring
  | translation t =>
    cases μ with
    | translate v =>
      simp only [Sym.step, Motion.sym, Motion.point]
      abel
    | rotate a θ =>
      simp only [Sym.step, Motion.sym, Motion.point, Axis.rotatePoint]
      rw [show p + (k : ℝ) • t - a.point = (p - a.point) + (k : ℝ) • t by abel, rotateVector_add,
        rotateVector_smul]
      abel
    | mirror Q =>
      simp only [Sym.step, Motion.sym, Motion.point]
      ext <;> simp [Plane.mirrorPoint, Plane.mirrorVector, dot] <;> ring
  | axial b =>
    cases μ with
    | translate v =>
      simp only [Sym.step, Motion.sym, Motion.point, Axis.rotatePoint, Axis.translate]
      rw [show p + v - (b.point + v) = p - b.point by abel]
      have : ∀ w, (⟨b.vector, b.point + v⟩ : Axis).rotateVector (2 * k * Real.pi / n) w =
          b.rotateVector (2 * k * Real.pi / n) w := fun w => rfl
      rw [this]
      abel
    | rotate a θ =>
      have ha : dot a.vector a.vector = 1 := hμ
      simp only [Sym.step, Motion.sym, Motion.point]
      have h1 : ∀ q, (b.rotate a θ).rotatePoint (2 * k * Real.pi / n) q =
          (b.rotate a θ).rotateVector (2 * k * Real.pi / n) (q - a.rotatePoint θ b.point) +
            a.rotatePoint θ b.point := fun q => rfl
      rw [h1, rotatePoint_sub, ← rotate_conjugate a b ha]
      have h2 := rotatePoint_sub a θ (b.rotatePoint (2 * k * Real.pi / n) p) b.point
      rw [show b.rotatePoint (2 * k * Real.pi / n) p - b.point =
        b.rotateVector (2 * k * Real.pi / n) (p - b.point) by rw [Axis.rotatePoint]; abel] at h2
      rw [← h2]
      abel
    | mirror Q =>
      have hQ : dot Q.normal Q.normal = 1 := hμ
      simp only [Fits] at hf
      obtain rfl : n = 2 := by omega
      obtain rfl : k = 1 := by omega
      simp only [Sym.step, Motion.sym, Motion.point]
      have hang : 2 * ((1 : ℕ) : ℝ) * Real.pi / ((2 : ℕ) : ℝ) = Real.pi := by
        push_cast
        ring
      rw [hang]
      have h1 : ∀ q, (b.mirror Q).rotatePoint Real.pi q =
          (b.mirror Q).rotateVector Real.pi (q - Q.mirrorPoint b.point) + Q.mirrorPoint b.point := fun q => rfl
      rw [h1, mirrorPoint_sub, ← rotateVector_pi_neg, ← mirror_conjugate Q b hQ]
      have h2 := mirrorPoint_sub Q (b.rotatePoint Real.pi p) b.point
      rw [show b.rotatePoint Real.pi p - b.point = b.rotateVector Real.pi (p - b.point) by
        rw [Axis.rotatePoint]; abel] at h2
      rw [← h2]
      abel

/-! ## Leaves of moved trees -/

mutual
theorem leaves_move (μ : Motion) : ∀ t : Tree, (t.move μ).leaves = t.leaves.map μ.mesh
  | .leaf m => rfl
  | .node s ps => by rw [Tree.move, Tree.leaves, Tree.leaves, leavesAll_move μ ps]
theorem leavesAll_move (μ : Motion) : ∀ ps : List Tree, leavesAll (moveAll μ ps) = (leavesAll ps).map μ.mesh
  | [] => rfl
  | t :: ts => by simp only [moveAll, leavesAll, List.map_append, leaves_move μ t, leavesAll_move μ ts]
end

theorem moveAll_eq (μ : Motion) (ps : List Tree) : moveAll μ ps = ps.map (Tree.move μ) := by
  induction ps with
  | nil => rfl
  | cons t ts ih => rw [moveAll, ih, List.map_cons]

theorem mainAll_iff (g : Sym → ℕ → Prop) (ps : List Tree) : MainAll g ps ↔ ∀ t ∈ ps, t.Main g := by
  induction ps with
  | nil => simp [MainAll]
  | cons t ts ih => simp [MainAll, ih]

theorem commute_face (μ : Motion) (s : Sym) (n k : ℕ) (hs : s ≠ .plain) (f : Face) :
    μ.face ((s.step n k).face f) = ((μ.sym s).step n k).face (μ.face f) := by
  cases s with
  | plain => exact absurd rfl hs
  | _ => cases μ <;> rfl

theorem commute_mesh (μ : Motion) (s : Sym) (n k : ℕ) (hs : s ≠ .plain) (hμ : μ.Unit) (hk : 1 ≤ k)
    (hkn : k < n) (hf : Fits μ s n) (m : Mesh (V3 ℝ)) :
    μ.mesh ((s.step n k).mesh m) = ((μ.sym s).step n k).mesh (μ.mesh m) := by
  simp only [mesh_eq, List.map_map]
  congr 1
  · exact List.map_congr_left fun p _ => commute μ s n k hμ hk hkn hf p
  · exact List.map_congr_left fun f _ => commute_face μ s n k hs f

/-! ## Sliced trees -/

/-- The parts of the symmetric collections are the images of the first part. -/
inductive Sliced : Tree → Prop
  | leaf (m : Mesh (V3 ℝ)) : Sliced (.leaf m)
  | plain (ps : List Tree) (h : ∀ t ∈ ps, Sliced t) : Sliced (.node .plain ps)
  | symmetric (s : Sym) (hs : s ≠ .plain) (hu : s.Unit) (t : Tree) (rest : List Tree) (ht : Sliced t)
      (hn : 1 ≤ rest.length) (hr : ∀ P, s = .reflection P → rest.length = 1)
      (h : ∀ (k : ℕ) (u : Tree), rest[k]? = some u →
        u.leaves = t.leaves.map (s.step (rest.length + 1) (k + 1)).mesh) :
      Sliced (.node s (t :: rest))

theorem main_symmetric {g : Sym → ℕ → Prop} {s : Sym} (hs : s ≠ .plain) (t : Tree) (rest : List Tree) :
    (Tree.node s (t :: rest)).Main g ↔ g s (rest.length + 1) ∧ t.Main g := by
  cases s with
  | plain => exact absurd rfl hs
  | _ => simp [Tree.Main, MainHead]

theorem sym_ne_plain {μ : Motion} {s : Sym} (hs : s ≠ .plain) : μ.sym s ≠ .plain := by
  cases s with
  | plain => exact absurd rfl hs
  | _ => cases μ <;> simp [Motion.sym]

theorem sym_unit {μ : Motion} {s : Sym} (hμ : μ.Unit) (hs : s.Unit) : (μ.sym s).Unit := by
  cases s with
  | plain => cases μ <;> trivial
  | translation t => cases μ <;> trivial
  | reflection P =>
    have hP : dot P.normal P.normal = 1 := hs
    cases μ with
    | translate v => exact hP
    | rotate a θ => exact (rotateVector_dot a hμ θ P.normal P.normal).trans hP
    | mirror Q => exact (mirrorVector_dot Q hμ P.normal P.normal).trans hP
  | axial b =>
    have hb : dot b.vector b.vector = 1 := hs
    cases μ with
    | translate v => exact hb
    | rotate a θ => exact (rotateVector_dot a hμ θ b.vector b.vector).trans hb
    | mirror Q => exact (mirrorVector_dot Q hμ b.vector b.vector).trans hb

theorem coherent_move {μ : Motion} (hμ : μ.Unit) {t : Tree} (h : Sliced t) (hf : t.Main (Fits μ)) :
    Sliced (t.move μ) := by
  induction h with
  | leaf m => exact .leaf _
  | plain ps _ ih =>
    have hsym : μ.sym .plain = .plain := by cases μ <;> rfl
    rw [Tree.move, hsym, moveAll_eq]
    refine .plain _ fun t ht => ?_
    obtain ⟨u, hu, rfl⟩ := List.mem_map.mp ht
    exact ih u hu ((mainAll_iff _ _).mp hf u hu)
  | symmetric s hs hu t rest _ hn hr hk ih =>
    obtain ⟨hf1, hf2⟩ := (main_symmetric hs t rest).mp hf
    rw [Tree.move, moveAll, moveAll_eq]
    refine .symmetric _ (sym_ne_plain hs) (sym_unit hμ hu) _ _ (ih hf2) (by simpa using hn) ?_ ?_
    · intro P hP
      rw [List.length_map]
      cases s with
      | reflection P' => exact hr P' rfl
      | plain => exact absurd rfl hs
      | translation v => cases μ <;> cases hP
      | axial a => cases μ <;> cases hP
    · intro k u hku
      rw [List.getElem?_map, Option.map_eq_some_iff] at hku
      obtain ⟨w, hw, rfl⟩ := hku
      have hkl : k < rest.length := by
        by_contra hc
        rw [List.getElem?_eq_none (by omega)] at hw
        cases hw
      rw [leaves_move, leaves_move, hk k w hw, List.length_map, List.map_map, List.map_map]
      exact List.map_congr_left fun m _ =>
        commute_mesh μ s _ _ hs hμ (by omega) (by omega) hf1 m

/-! ## Copies -/

theorem normalize_unit {v : V3 ℝ} (h : dot v v = 1) : (V3.norm v)⁻¹ • v = v := by
  have : V3.norm v = 1 := by rw [V3.norm, h, Real.sqrt_one]
  rw [this]
  ext <;> simp

theorem sym_copy_unit {s : Sym} (hs : s.Unit) : s.copy = s := by
  cases s with
  | reflection P => simp only [Sym.copy, mkPlane, normalize_unit (show dot P.normal P.normal = 1 from hs)]
  | axial a => simp only [Sym.copy, mkAxis, normalize_unit (show dot a.vector a.vector = 1 from hs)]
  | _ => rfl

theorem sym_passed_unit {s : Sym} (hs : s.Unit) : s.passed = s := by
  cases s with
  | axial a => simp only [Sym.passed, mkAxis, normalize_unit (show dot a.vector a.vector = 1 from hs)]
  | _ => rfl

theorem depthAll_le {ps : List Tree} {t : Tree} (h : t ∈ ps) : t.depth ≤ depthAll ps := by
  induction ps with
  | nil => cases h
  | cons u us ih =>
    rw [depthAll]
    rcases List.mem_cons.mp h with rfl | h
    · exact le_max_left _ _
    · exact le_trans (ih h) (le_max_right _ _)

theorem depthAll_bound {ps : List Tree} {n : ℕ} (h : ∀ t ∈ ps, t.depth ≤ n) : depthAll ps ≤ n := by
  induction ps with
  | nil => simp [depthAll]
  | cons u us ih =>
    rw [depthAll]
    exact max_le (h u List.mem_cons_self) (ih fun t ht => h t (List.mem_cons_of_mem _ ht))

theorem depth_symmetric {s : Sym} (hs : s ≠ .plain) (t : Tree) (rest : List Tree) :
    (Tree.node s (t :: rest)).depth = t.depth + 1 := by
  cases s with
  | plain => exact absurd rfl hs
  | _ => simp [Tree.depth, depthHead]

theorem copyN_symmetric {s : Sym} (hs : s ≠ .plain) (n : ℕ) (t : Tree) (rest : List Tree) :
    Tree.copyN (n + 1) (.node s (t :: rest)) = recopy (Tree.copyN n) s t (rest.length + 1) := by
  cases s with
  | plain => exact absurd rfl hs
  | _ => simp [Tree.copyN]

theorem repetitions_eq {s : Sym} {n : ℕ} (h : ∀ P, s = .reflection P → n = 1) : s.repetitions (n + 1) = n := by
  cases s with
  | reflection P => exact (h P rfl).symm
  | _ => rfl

/-- What a copy must be. -/
def GoodCopy (t c : Tree) : Prop :=
  c.leaves = t.leaves ∧ Sliced c ∧ c.Upright ∧ c.depth ≤ t.depth ∧ ∀ g, t.Main g → c.Main g

theorem mk_coherent {copy : Tree → Option Tree} {s : Sym} (hs : s ≠ .plain) (hu : s.Unit) {h c t : Tree} {nb : ℕ}
    (hh : Sliced h) (hc : copy h = some c) (hl : c.leaves = h.leaves)
    (hr : ∀ P, s = .reflection P → nb = 1) (hmk : mkSymmetric copy s h nb = some t) :
    Sliced t ∧ ∃ rest, t = .node s (h :: rest) ∧ rest.length = nb := by
  classical
  rw [mkSymmetric] at hmk
  split at hmk
  · rename_i hacc
    rw [hc, Option.map_some, Option.some.injEq, sym_copy_unit hu] at hmk
    subst hmk
    refine ⟨.symmetric s hs hu h _ hh (by simpa using hacc.2) (by simpa using hr) ?_, _, rfl, by simp⟩
    intro k u hk
    rw [List.getElem?_map, Option.map_eq_some_iff] at hk
    obtain ⟨i, hi, rfl⟩ := hk
    have hi' : i = k := by
      have hlt : k < nb := by
        by_contra hc'
        rw [List.getElem?_eq_none (by simpa using hc')] at hi
        cases hi
      rw [List.getElem?_range hlt] at hi
      exact (Option.some.inj hi).symm
    subst hi'
    rw [leaves_move, hl, List.length_map, List.length_range]
  · cases hmk

theorem mapM_copy {f : Tree → Option Tree} {ps : List Tree} (h : ∀ t ∈ ps, ∃ c, f t = some c ∧ GoodCopy t c) :
    ∃ cs, ps.mapM f = some cs ∧ leavesAll cs = leavesAll ps ∧ (∀ c ∈ cs, ∃ t ∈ ps, GoodCopy t c) := by
  induction ps with
  | nil => exact ⟨[], rfl, rfl, by simp⟩
  | cons t ts ih =>
    obtain ⟨c, hc, hg⟩ := h t List.mem_cons_self
    obtain ⟨cs, h1, h2, h3⟩ := ih fun u hu => h u (List.mem_cons_of_mem _ hu)
    refine ⟨c :: cs, ?_, ?_, ?_⟩
    · simp [List.mapM_cons, hc, h1]
    · rw [leavesAll, leavesAll, hg.1, h2]
    · intro x hx
      rcases List.mem_cons.mp hx with rfl | hx
      · exact ⟨t, List.mem_cons_self, hg⟩
      · obtain ⟨u, hu, hgu⟩ := h3 x hx
        exact ⟨u, List.mem_cons_of_mem _ hu, hgu⟩

theorem mapM_none {f : Tree → Option Tree} {ps : List Tree} {t : Tree} (ht : t ∈ ps) (h : f t = none) :
    ps.mapM f = none := by
  induction ps with
  | nil => cases ht
  | cons u us ih =>
    rw [List.mapM_cons]
    rcases List.mem_cons.mp ht with rfl | ht
    · simp [h]
    · cases f u with
      | none => rfl
      | some c => simp [ih ht]

theorem copy_coherent (n : ℕ) : ∀ t : Tree, Sliced t → t.depth ≤ n →
    (t.Upright → ∃ c, t.copyN n = some c ∧ GoodCopy t c) ∧ (¬ t.Upright → t.copyN n = none) := by
  induction n with
  | zero =>
    intro t ht hd
    exfalso
    cases ht with
    | leaf m => simp [Tree.depth] at hd
    | plain ps _ => simp [Tree.depth] at hd
    | symmetric s hs _ t rest _ _ _ _ => rw [depth_symmetric hs] at hd; omega
  | succ n ih =>
    intro t ht hd
    cases ht with
    | leaf m =>
      refine ⟨fun _ => ⟨.leaf m, rfl, rfl, .leaf m, trivial, le_rfl, fun _ h => h⟩, fun h => absurd ?_ h⟩
      trivial
    | plain ps hps =>
      have hdep : ∀ u ∈ ps, u.depth ≤ n := by
        intro u hu
        have := depthAll_le hu
        rw [Tree.depth] at hd
        omega
      have hup : (Tree.node .plain ps).Upright ↔ ∀ u ∈ ps, u.Upright := mainAll_iff _ _
      constructor
      · intro hu
        obtain ⟨cs, h1, h2, h3⟩ := mapM_copy fun u hm => (ih u (hps u hm) (hdep u hm)).1 (hup.mp hu u hm)
        refine ⟨.node .plain cs, by rw [Tree.copyN, h1, Option.map_some], h2, ?_, ?_, ?_, ?_⟩
        · refine .plain cs fun c hc => ?_
          obtain ⟨u, -, hg⟩ := h3 c hc
          exact hg.2.1
        · refine (mainAll_iff _ _).mpr fun c hc => ?_
          obtain ⟨u, -, hg⟩ := h3 c hc
          exact hg.2.2.1
        · rw [Tree.depth, Tree.depth]
          refine Nat.succ_le_succ (depthAll_bound fun c hc => ?_)
          obtain ⟨u, hu, hg⟩ := h3 c hc
          exact le_trans hg.2.2.2.1 (depthAll_le hu)
        · intro g hmain
          refine (mainAll_iff _ _).mpr fun c hc => ?_
          obtain ⟨u, hu, hg⟩ := h3 c hc
          exact hg.2.2.2.2 g ((mainAll_iff _ _).mp hmain u hu)
      · intro hu
        rw [hup] at hu
        push Not at hu
        obtain ⟨u, hm, hnu⟩ := hu
        rw [Tree.copyN, mapM_none hm ((ih u (hps u hm) (hdep u hm)).2 hnu), Option.map_none]
    | symmetric s hs hu t rest ht hn hr hk =>
      rw [depth_symmetric hs] at hd
      have hup : (Tree.node s (t :: rest)).Upright ↔ s.Accepted ∧ t.Upright := main_symmetric hs t rest
      obtain ⟨i1, i2⟩ := ih t ht (by omega)
      rw [copyN_symmetric hs, recopy, sym_passed_unit hu, repetitions_eq hr]
      by_cases htu : t.Upright
      · obtain ⟨c, hc, hg⟩ := i1 htu
        rw [hc]
        simp only
        obtain ⟨c', hc', hg'⟩ := (ih c hg.2.1 (by have := hg.2.2.2.1; omega)).1 hg.2.2.1
        constructor
        · intro hua
          have hacc := (hup.mp hua).1
          have hmk : ∃ x, mkSymmetric (Tree.copyN n) s c rest.length = some x := by
            rw [mkSymmetric, if_pos ⟨hacc, hn⟩, hc']
            exact ⟨_, rfl⟩
          obtain ⟨x, hx⟩ := hmk
          obtain ⟨hcoh, rest', rfl, hl⟩ := mk_coherent hs hu hg.2.1 hc' hg'.1 hr hx
          refine ⟨_, hx, ?_, hcoh, (main_symmetric hs c rest').mpr ⟨hacc, hg.2.2.1⟩, ?_, ?_⟩
          · rw [Tree.leaves, Tree.leaves, leavesAll, leavesAll, hg.1]
            congr 1
            cases hcoh with
            | plain _ _ => exact absurd rfl hs
            | symmetric _ _ _ _ _ _ _ _ hk' =>
              rw [leavesAll_eq, leavesAll_eq, List.flatMap_def, List.flatMap_def]
              congr 1
              apply List.ext_getElem?
              intro i
              rw [List.getElem?_map, List.getElem?_map]
              by_cases hi : i < rest.length
              · have e1 := hk i _ (List.getElem?_eq_getElem hi)
                have e2 := hk' i _ (List.getElem?_eq_getElem (by omega))
                rw [List.getElem?_eq_getElem hi, List.getElem?_eq_getElem (by omega), Option.map_some,
                  Option.map_some, e1, e2, hg.1, hl]
              · rw [List.getElem?_eq_none (by omega), List.getElem?_eq_none (by omega)]
          · rw [depth_symmetric hs, depth_symmetric hs]
            have := hg.2.2.2.1
            omega
          · intro g hmain
            obtain ⟨m1, m2⟩ := (main_symmetric hs t rest).mp hmain
            exact (main_symmetric hs c rest').mpr ⟨by rw [hl]; exact m1, hg.2.2.2.2 g m2⟩
        · intro hna
          have hacc : ¬ s.Accepted := fun h => hna (hup.mpr ⟨h, htu⟩)
          rw [mkSymmetric, if_neg fun h => hacc h.1]
      · rw [i2 htu]
        exact ⟨fun h => absurd (hup.mp h).2 htu, fun _ => rfl⟩

/-! ## C35 -/

/-- The trees obtained from meshes by the constructors and any sequence of motions that commute with the
symmetries, and of copies. -/
inductive Built : Tree → Prop
  | leaf (m : Mesh (V3 ℝ)) : Built (.leaf m)
  | collection (ps : List Tree) (h : ∀ t ∈ ps, Built t) : Built (.node .plain ps)
  | symmetric (s : Sym) (hs : s ≠ .plain) (hu : s.Unit) (h t : Tree) (nb : ℕ) (hh : Built h)
      (hr : ∀ P, s = .reflection P → nb = 1) (hmk : mkSymmetric Tree.copy s h nb = some t) : Built t
  | moved (μ : Motion) (hμ : μ.Unit) (t : Tree) (ht : Built t) (hf : t.Main (Fits μ)) : Built (t.move μ)
  | copied (t c : Tree) (ht : Built t) (hc : t.copy = some c) : Built c

theorem built_coherent {t : Tree} (h : Built t) : Sliced t := by
  induction h with
  | leaf m => exact .leaf m
  | collection ps _ ih => exact .plain ps ih
  | symmetric s hs hu h t nb _ hr hmk ih =>
    have h1 := copy_coherent h.depth h ih le_rfl
    by_cases hup : h.Upright
    · obtain ⟨c, hc, hg⟩ := h1.1 hup
      exact (mk_coherent hs hu ih hc hg.1 hr hmk).1
    · have hn : h.copy = none := h1.2 hup
      rw [mkSymmetric, hn] at hmk
      split at hmk <;> cases hmk
  | moved μ hμ t _ hf ih => exact coherent_move hμ ih hf
  | copied t c _ hc ih =>
    have h1 := copy_coherent t.depth t ih le_rfl
    by_cases hup : t.Upright
    · obtain ⟨c', hc', hg⟩ := h1.1 hup
      rw [Tree.copy, hc'] at hc
      cases hc
      exact hg.2.1
    · rw [Tree.copy, h1.2 hup] at hc
      cases hc

/-- C35 for the motions that commute with the symmetries: after any such history, copying fails exactly when
some plane is not vertical or some translation not horizontal, and otherwise gives the same meshes in the same
order. Missing: motions that do not commute with the symmetries as written in the code, see `Fits`. -/
theorem copy_partial (t : Tree) (h : Built t) :
    (t.copy = none ↔ ¬ t.Upright) ∧ ∀ c, t.copy = some c → c.leaves = t.leaves := by
  have h1 := copy_coherent t.depth t (built_coherent h) le_rfl
  by_cases hup : t.Upright
  · obtain ⟨c, hc, hg⟩ := h1.1 hup
    have hc : t.copy = some c := hc
    refine ⟨⟨fun hn => ?_, fun hn => absurd hup hn⟩, fun c' hc' => ?_⟩
    · rw [hc] at hn
      cases hn
    · rw [hc] at hc'
      cases hc'
      exact hg.1
  · have hn : t.copy = none := h1.2 hup
    refine ⟨⟨fun _ => hup, fun _ => hn⟩, fun c hc => ?_⟩
    rw [hn] at hc
    cases hc


/-! ## Conditions for reflections -/

/-- Moved planes that keep the origin on the side opposite to the normal commute with translations. -/
theorem fits_translate (P : Plane) (v : V3 ℝ) (n : ℕ) (h0 : P.signedDist 0 ≤ 0)
    (h1 : (P.translate v).signedDist 0 ≤ 0) : Fits (.translate v) (.reflection P) n := by
  have e0 : dot P.normal P.point = - P.signedDist 0 := by
    simp only [Plane.signedDist, dot, zero_x, zero_y, zero_z]
    ring
  have e1 : dot (P.translate v).normal (P.translate v).point = - (P.translate v).signedDist 0 := by
    simp only [Plane.signedDist, dot, zero_x, zero_y, zero_z]
    ring
  have e2 : dot (P.translate v).normal (P.translate v).point = dot P.normal P.point + dot P.normal v := by
    simp only [Plane.translate, dot, add_x, add_y, add_z]
    ring
  rw [Fits, Plane.c, Plane.c, abs_of_nonneg (by linarith), abs_of_nonneg (by linarith), e2]

/-- Rotations around an axis through the origin commute with reflections. -/
theorem fits_rotate (P : Plane) (a : Axis) (θ : ℝ) (n : ℕ) (h : a.point = 0) :
    Fits (.rotate a θ) (.reflection P) n := by
  rw [Fits, h]
  simp [dot]

theorem copy_slices (s : Sym) (hs : s ≠ .plain) (m : Mesh (V3 ℝ)) (rest : List Tree) (hacc : s.Accepted)
    (hu : s.Unit) (hn : 1 ≤ rest.length) (hr : ∀ P, s = .reflection P → rest.length = 1) :
    (Tree.node s (.leaf m :: rest)).copy = some (.node s (.leaf m :: (List.range rest.length).map fun i =>
      .leaf ((s.step (rest.length + 1) (i + 1)).mesh m))) := by
  rw [Tree.copy, depth_symmetric hs, copyN_symmetric hs, recopy]
  simp only [Tree.depth, Tree.copyN, sym_passed_unit hu, repetitions_eq hr]
  rw [mkSymmetric, if_pos ⟨hacc, hn⟩]
  simp only [Tree.copyN, Option.map_some, sym_copy_unit hu, Tree.move]

/-- Moving a mesh made of a half and its mirror image through a vertical plane, by a motion that keeps the plane
vertical: the copy of the moved mesh has the same meshes exactly when the motion fits the reflection. -/
theorem copy_reflection_iff (μ : Motion) (hμ : μ.Unit) (P P' : Plane) (hP : dot P.normal P.normal = 1)
    (m : Mesh (V3 ℝ)) (hm : m.vertices ≠ []) (hP' : μ.sym (.reflection P) = .reflection P')
    (hz : P'.normal.z = 0) :
    ∃ c, ((Tree.node (.reflection P) [.leaf m, .leaf (m.mirror P)]).move μ).copy = some c ∧
      (c.leaves = ((Tree.node (.reflection P) [.leaf m, .leaf (m.mirror P)]).move μ).leaves ↔
        Fits μ (.reflection P) 2) := by
  have hu' : dot P'.normal P'.normal = 1 := by
    have h := sym_unit (s := .reflection P) hμ hP
    rw [hP'] at h
    exact h
  have hmove : (Tree.node (.reflection P) [.leaf m, .leaf (m.mirror P)]).move μ =
      .node (.reflection P') [.leaf (μ.mesh m), .leaf (μ.mesh (m.mirror P))] := by
    simp only [Tree.move, moveAll, hP']
  rw [hmove, copy_slices (.reflection P') (by simp) _ _ hz hu' (by simp) (by simp)]
  refine ⟨_, rfl, ?_⟩
  simp only [List.length_singleton, List.range_one, List.map_cons, List.map_nil, Tree.leaves, leavesAll,
    List.append_nil, List.singleton_append, List.cons.injEq, true_and, and_true]
  constructor
  · intro h
    obtain ⟨p, hp⟩ : ∃ p, m.vertices[0]? = some p := by
      cases hv : m.vertices with
      | nil => exact absurd hv hm
      | cons p ps => exact ⟨p, by simp⟩
    have h1 := congrArg (fun m => m.vertices[0]?) h
    simp only [mesh_eq, Sym.step, show m.mirror P = (Motion.mirror P).mesh m from rfl, List.getElem?_map,
      hp, Option.map_some, Option.some.injEq] at h1
    have h1 : P'.mirrorPoint (μ.point p) = μ.point (P.mirrorPoint p) := h1
    have hun : ∀ c d : ℝ, (∀ w : V3 ℝ, w - (2 * c) • P'.normal = w - (2 * d) • P'.normal → c = d) := by
      intro c d w hw
      have hx := congrArg V3.x hw
      have hy := congrArg V3.y hw
      have hzz := congrArg V3.z hw
      simp only [sub_x, sub_y, sub_z, smul_x, smul_y, smul_z] at hx hy hzz
      have hu'' : P'.normal.x * P'.normal.x + P'.normal.y * P'.normal.y + P'.normal.z * P'.normal.z = 1 := hu'
      have : 2 * (c - d) * 1 = 0 := by
        rw [← hu'']
        linear_combination (-P'.normal.x) * hx + (-P'.normal.y) * hy + (-P'.normal.z) * hzz
      linarith
    cases μ with
    | translate v =>
      simp only [Motion.sym, Sym.reflection.injEq] at hP'
      subst hP'
      simp only [Motion.point, Plane.mirrorPoint] at h1
      have h2 := hun (dot (p + v) (P.translate v).normal - (P.translate v).c) (dot p P.normal - P.c) (p + v) (by
        rw [h1]
        ext <;> simp [Plane.translate] <;> ring)
      have h3 : dot (p + v) (P.translate v).normal = dot p P.normal + dot P.normal v := by
        simp only [Plane.translate, dot, add_x, add_y, add_z]
        ring
      rw [Fits]
      linarith
    | rotate a θ =>
      have ha : dot a.vector a.vector = 1 := hμ
      simp only [Motion.sym, Sym.reflection.injEq] at hP'
      subst hP'
      have hc : (P.rotate a θ).c = P.c := by
        simp only [Plane.c, Plane.rotate]
        rw [show (a.rotationMatrix θ).mulVec P.normal = a.rotateVector θ P.normal from rfl,
          show (a.rotationMatrix θ).mulVec P.point = a.rotateVector θ P.point from rfl, rotateVector_dot a ha]
      simp only [Motion.point] at h1
      rw [Plane.mirrorPoint, hc, show (P.rotate a θ).normal = a.rotateVector θ P.normal from rfl] at h1
      have h3 := rotatePoint_sub a θ (P.mirrorPoint p) p
      have h4 : P.mirrorPoint p - p = (-(2 * (dot p P.normal - P.c))) • P.normal := by
        ext <;> simp [Plane.mirrorPoint]
      rw [h4, rotateVector_smul] at h3
      have h2 := hun (dot (a.rotatePoint θ p) (a.rotateVector θ P.normal) - P.c) (dot p P.normal - P.c)
        (a.rotatePoint θ p) (by
          rw [show (P.rotate a θ).normal = a.rotateVector θ P.normal from rfl, h1]
          have h5 : a.rotatePoint θ (P.mirrorPoint p) =
              a.rotatePoint θ p + (-(2 * (dot p P.normal - P.c))) • a.rotateVector θ P.normal := by
            rw [← h3]
            abel
          rw [h5]
          ext <;> simp <;> ring)
      have h6 : dot (a.rotatePoint θ p) (a.rotateVector θ P.normal) =
          dot (a.rotateVector θ (p - a.point)) (a.rotateVector θ P.normal) +
            dot a.point (a.rotateVector θ P.normal) := by
        simp only [Axis.rotatePoint, dot, add_x, add_y, add_z]
        ring
      have h7 : dot (p - a.point) P.normal = dot p P.normal - dot a.point P.normal := by
        simp only [dot, sub_x, sub_y, sub_z]
        ring
      rw [h6, rotateVector_dot a ha, h7] at h2
      rw [Fits]
      linarith
    | mirror Q =>
      have hQ : Q.normal.x * Q.normal.x + Q.normal.y * Q.normal.y + Q.normal.z * Q.normal.z = 1 := hμ
      simp only [Motion.sym, Sym.reflection.injEq] at hP'
      subst hP'
      simp only [Motion.point] at h1
      rw [Plane.mirrorPoint, show (P.mirror Q).normal = Q.mirrorVector P.normal from rfl] at h1
      have h2' : dot (Q.mirrorPoint p) (Q.mirrorVector P.normal) =
          dot p P.normal - 2 * Q.c * dot Q.normal P.normal := by
        simp only [Plane.mirrorPoint, Plane.mirrorVector, dot, sub_x, sub_y, sub_z, smul_x, smul_y, smul_z]
        generalize Q.c = c
        linear_combination (4 * (p.x * Q.normal.x + p.y * Q.normal.y + p.z * Q.normal.z - c) *
          (P.normal.x * Q.normal.x + P.normal.y * Q.normal.y + P.normal.z * Q.normal.z)) * hQ
      have h3 : Q.mirrorPoint (P.mirrorPoint p) =
          Q.mirrorPoint p - (2 * (dot p P.normal - P.c)) • Q.mirrorVector P.normal := by
        rw [show P.mirrorPoint p = p - (2 * (dot p P.normal - P.c)) • P.normal from rfl]
        generalize 2 * (dot p P.normal - P.c) = c
        ext <;> simp [Plane.mirrorPoint, Plane.mirrorVector, dot] <;> ring
      have h2 := hun (dot (Q.mirrorPoint p) (Q.mirrorVector P.normal) - (P.mirror Q).c) (dot p P.normal - P.c)
        (Q.mirrorPoint p) (by
          rw [show (P.mirror Q).normal = Q.mirrorVector P.normal from rfl, h1, h3])
      rw [h2'] at h2
      rw [Fits]
      linarith
  · intro hf
    have := commute_mesh μ (.reflection P) 2 1 (by simp) hμ le_rfl (by omega) hf m
    rw [hP'] at this
    exact this.symm

/-! ## Violations -/

/-- A triangle on the side of positive `x`. -/
noncomputable def sampleHalf : Mesh (V3 ℝ) := ⟨[⟨1, 0, 0⟩, ⟨2, 0, 0⟩, ⟨2, 1, -1⟩], [⟨0, 1, 2, 0⟩]⟩

/-- C35 does not hold for all motions. A mesh that is symmetric with respect to the plane `x = 0` and then
translated by `(-1, 0, 0)` has a copy with another second half. Rotated by a quarter of turn around the `x`
axis, a mesh symmetric with respect to the plane `y = 0` cannot be copied. A mesh with a symmetry of revolution
made of four parts, after a reflection, has a copy with its parts in another order. -/
theorem copy_violated :
    (∃ c, ((Tree.node (.reflection ⟨ex, 0⟩) [.leaf sampleHalf, .leaf (sampleHalf.mirror ⟨ex, 0⟩)]).move
        (.translate ⟨-1, 0, 0⟩)).copy = some c ∧
      c.leaves ≠ ((Tree.node (.reflection ⟨ex, 0⟩) [.leaf sampleHalf, .leaf (sampleHalf.mirror ⟨ex, 0⟩)]).move
        (.translate ⟨-1, 0, 0⟩)).leaves) ∧
    (mkSymmetric Tree.copy (.reflection ⟨ey, 0⟩) (.leaf sampleHalf) 1).map
      (fun t => (t.move (.rotate ⟨ex, 0⟩ (Real.pi / 2))).copy) = some none ∧
    ∃ t c, mkSymmetric Tree.copy (.axial ⟨ez, 0⟩) (.leaf sampleHalf) 3 = some t ∧
      (t.move (.mirror ⟨ex, 0⟩)).copy = some c ∧ c.leaves ≠ (t.move (.mirror ⟨ex, 0⟩)).leaves := by
  refine ⟨?_, ?_, ?_⟩
  · obtain ⟨c, h1, h2⟩ := copy_reflection_iff (.translate ⟨-1, 0, 0⟩) trivial ⟨ex, 0⟩ _ (by simp [ex, dot])
      sampleHalf (by simp [sampleHalf]) rfl (by simp [Plane.translate, ex])
    refine ⟨c, h1, fun h => ?_⟩
    have := h2.mp h
    simp [Fits, Plane.c, Plane.translate, ex, dot] at this
    norm_num at this
  · have hleaf : Tree.copy (.leaf sampleHalf) = some (.leaf sampleHalf) := rfl
    rw [mkSymmetric, if_pos ⟨by simp [Sym.Accepted, ey], le_rfl⟩, hleaf, Option.map_some, Option.map_some]
    congr 1
    rw [Tree.move, moveAll, Tree.copy, depth_symmetric (by simp [Motion.sym, Sym.copy]),
      copyN_symmetric (by simp [Motion.sym, Sym.copy]), recopy]
    simp only [Tree.move, Tree.depth, Tree.copyN]
    rw [mkSymmetric, if_neg]
    rintro ⟨h, -⟩
    rw [sym_copy_unit (show Sym.Unit (.reflection ⟨ey, 0⟩) by simp [Sym.Unit, ey, dot])] at h
    have h' : (Axis.rotateVector ⟨ex, 0⟩ (Real.pi / 2) ey).z = 0 := h
    rw [rotateVector_eq] at h'
    simp [ex, ey] at h'
  · have hu : Sym.Unit (.axial ⟨ez, 0⟩) := by simp [Sym.Unit, ez, dot]
    have hleaf : Tree.copy (.leaf sampleHalf) = some (.leaf sampleHalf) := rfl
    have hcopy := copy_slices (.axial ((⟨ez, 0⟩ : Axis).mirror ⟨ex, 0⟩)) (by simp)
      ((Motion.mirror ⟨ex, 0⟩).mesh sampleHalf)
      (moveAll (.mirror ⟨ex, 0⟩) ((List.range 3).map fun i =>
        .leaf (((Sym.axial ⟨ez, 0⟩).step 4 (i + 1)).mesh sampleHalf))) trivial
      (by simp [Sym.Unit, Axis.mirror, Plane.mirrorVector, ez, ex, dot]) (by simp [moveAll_eq]) (by simp)
    refine ⟨.node (.axial ⟨ez, 0⟩) (.leaf sampleHalf :: (List.range 3).map fun i =>
      .leaf (((Sym.axial ⟨ez, 0⟩).step 4 (i + 1)).mesh sampleHalf)), _, ?_, hcopy, ?_⟩
    · rw [mkSymmetric, if_pos ⟨trivial, by omega⟩, hleaf, Option.map_some, sym_copy_unit hu]
      simp only [Tree.move]
    · intro h
      have h1 := congrArg (fun l => l[1]?.map fun m => m.vertices[0]?) h
      simp only [moveAll_eq, List.length_map, List.length_range, Tree.leaves, leavesAll, Tree.move, leavesAll_eq,
        List.singleton_append, List.getElem?_cons_succ] at h1
      simp only [List.range, List.range.loop, List.map_cons, List.map_nil, List.flatMap_cons, Tree.leaves,
        Tree.move, List.singleton_append, List.getElem?_cons_succ, List.getElem?_cons_zero, mesh_eq, Sym.step, Option.map_some, sampleHalf,
        Option.some.injEq, Motion.point] at h1
      have e : 2 * ((0 + 1 : ℕ) : ℝ) * Real.pi / (3 + 1 : ℕ) = Real.pi / 2 := by push_cast; ring
      rw [e] at h1
      have h2 := congrArg V3.y h1
      simp [Axis.rotatePoint, rotateVector_eq, Plane.mirrorPoint, Plane.c, Axis.mirror, Plane.mirrorVector, ez, ex,
        dot] at h2

/-- Concrete case of `copy_partial`: a mesh symmetric with respect to a plane, turned around the vertical
axis. -/
example : ∃ t, mkSymmetric Tree.copy (.reflection ⟨ex, 0⟩) (.leaf sampleHalf) 1 = some t ∧
    Built (t.move (.rotate ⟨ez, 0⟩ 1)) ∧ (t.move (.rotate ⟨ez, 0⟩ 1)).Upright := by
  have hleaf : Tree.copy (.leaf sampleHalf) = some (.leaf sampleHalf) := rfl
  have hmk : ∃ rest, mkSymmetric Tree.copy (.reflection ⟨ex, 0⟩) (.leaf sampleHalf) 1 =
      some (.node (.reflection ⟨ex, 0⟩) (.leaf sampleHalf :: rest)) := by
    rw [mkSymmetric, if_pos ⟨by simp [Sym.Accepted, ex], le_rfl⟩, hleaf, Option.map_some,
      sym_copy_unit (by simp [Sym.Unit, ex, dot])]
    exact ⟨_, rfl⟩
  obtain ⟨rest, hmk⟩ := hmk
  refine ⟨_, hmk, ?_, ?_⟩
  · refine .moved _ (by simp [Motion.Unit, ez, dot]) _ (.symmetric (.reflection ⟨ex, 0⟩) (by simp)
      (by simp [Sym.Unit, ex, dot]) _ _ 1 (.leaf _) (fun _ _ => rfl) hmk) ?_
    exact (main_symmetric (by simp) _ _).mpr ⟨fits_rotate _ _ _ _ rfl, trivial⟩
  · rw [Tree.Upright, Tree.move, moveAll]
    refine (main_symmetric (by simp [Motion.sym]) _ _).mpr ⟨?_, trivial⟩
    have : (Axis.rotateVector ⟨ez, 0⟩ 1 ex).z = 0 := by
      rw [rotateVector_eq]
      simp [ez, ex]
    exact this

mutual
theorem main_move (μ : Motion) (g : Sym → ℕ → Prop) :
    ∀ t : Tree, t.Main (fun s n => g (μ.sym s) n) → (t.move μ).Main g
  | .leaf m, _ => by rw [Tree.move]; trivial
  | .node s ps, h => by
    have hlen : (moveAll μ ps).length = ps.length := by rw [moveAll_eq, List.length_map]
    rw [Tree.move]
    cases s with
    | plain =>
      rw [show μ.sym .plain = .plain by cases μ <;> rfl, Tree.Main]
      exact mainAll_move μ g ps h
    | reflection P =>
      have h1 : g (μ.sym (.reflection P)) (moveAll μ ps).length := by rw [hlen]; exact h.1
      have h2 := mainHead_move μ g ps h.2
      cases μ <;> exact ⟨h1, h2⟩
    | translation v =>
      have h1 : g (μ.sym (.translation v)) (moveAll μ ps).length := by rw [hlen]; exact h.1
      have h2 := mainHead_move μ g ps h.2
      cases μ <;> exact ⟨h1, h2⟩
    | axial a =>
      have h1 : g (μ.sym (.axial a)) (moveAll μ ps).length := by rw [hlen]; exact h.1
      have h2 := mainHead_move μ g ps h.2
      cases μ <;> exact ⟨h1, h2⟩
theorem mainAll_move (μ : Motion) (g : Sym → ℕ → Prop) :
    ∀ ps : List Tree, MainAll (fun s n => g (μ.sym s) n) ps → MainAll g (moveAll μ ps)
  | [], _ => by rw [moveAll]; trivial
  | t :: ts, h => by
    rw [moveAll]
    exact ⟨main_move μ g t h.1, mainAll_move μ g ts h.2⟩
theorem mainHead_move (μ : Motion) (g : Sym → ℕ → Prop) :
    ∀ ps : List Tree, MainHead (fun s n => g (μ.sym s) n) ps → MainHead g (moveAll μ ps)
  | [], _ => by rw [moveAll]; trivial
  | t :: ts, h => by
    rw [moveAll]
    exact main_move μ g t h
end

theorem upright_translate (v : V3 ℝ) (t : Tree) (h : t.Upright) : (t.move (.translate v)).Upright := by
  refine main_move _ _ t ?_
  have : (fun (s : Sym) (_ : ℕ) => (Motion.sym (.translate v) s).Accepted) = fun s _ => s.Accepted := by
    funext s _
    cases s <;> rfl
  rw [this]
  exact h

/-! ## C37: regular arrays of meshes -/

theorem leaves_symmetric {s : Sym} (hs : s ≠ .plain) {t : Tree} {rest : List Tree}
    (h : Sliced (.node s (t :: rest))) :
    (Tree.node s (t :: rest)).leaves = t.leaves ++ (List.range rest.length).flatMap fun k =>
      t.leaves.map (s.step (rest.length + 1) (k + 1)).mesh := by
  cases h with
  | plain _ _ => exact absurd rfl hs
  | symmetric _ _ _ _ _ _ _ _ hk =>
    rw [Tree.leaves, leavesAll, leavesAll_eq, List.flatMap_def, List.flatMap_def]
    congr 2
    apply List.ext_getElem?
    intro i
    rw [List.getElem?_map, List.getElem?_map]
    by_cases hi : i < rest.length
    · rw [List.getElem?_eq_getElem hi, List.getElem?_range hi, Option.map_some, Option.map_some,
        hk i _ (List.getElem?_eq_getElem hi)]
    · rw [List.getElem?_eq_none (by omega), List.getElem?_eq_none (by simpa using hi)]
      rfl

theorem translate_zero (m : Mesh (V3 ℝ)) : m.translate 0 = m := by
  have : (fun p : V3 ℝ => p + 0) = id := by
    funext p
    simp
  simp only [Mesh.translate, this, List.map_id]

theorem translate_translate (m : Mesh (V3 ℝ)) (u v : V3 ℝ) : (m.translate u).translate v = m.translate (u + v) := by
  simp only [Mesh.translate, List.map_map]
  congr 1
  apply List.map_congr_left
  intro p _
  simp only [Function.comp]
  abel

theorem mk_translation {h : Tree} (hc : Sliced h) (hu : h.Upright) (v : V3 ℝ) (hz : v.z = 0) (n : ℕ)
    (hn : 2 ≤ n) :
    ∃ t, mkSymmetric Tree.copy (.translation v) h (n - 1) = some t ∧ Sliced t ∧ t.Upright ∧
      t.leaves = (List.range n).flatMap fun k : ℕ => h.leaves.map (·.translate ((k : ℝ) • v)) := by
  obtain ⟨c, h1, h2⟩ := (copy_coherent h.depth h hc le_rfl).1 hu
  have hmk : ∃ t, mkSymmetric Tree.copy (.translation v) h (n - 1) = some t := by
    rw [mkSymmetric, if_pos ⟨hz, by omega⟩, show h.copy = some c from h1]
    exact ⟨_, rfl⟩
  obtain ⟨t, ht⟩ := hmk
  obtain ⟨hct, rest, rfl, hl⟩ := mk_coherent (s := .translation v) (by simp) trivial hc h1 h2.1 (by simp) ht
  refine ⟨_, ht, hct, (main_symmetric (by simp) _ _).mpr ⟨hz, hu⟩, ?_⟩
  rw [leaves_symmetric (by simp) hct, hl]
  obtain ⟨k, rfl⟩ : ∃ k, n = k + 1 := ⟨n - 1, by omega⟩
  rw [Nat.add_sub_cancel, List.range_succ_eq_map, List.flatMap_cons, List.flatMap_map]
  congr 1
  rw [show ((0 : ℕ) : ℝ) • v = 0 by ext <;> simp]
  simp only [translate_zero, List.map_id']

theorem flatMap_translate (n : ℕ) (ls : List (Mesh (V3 ℝ))) (f : ℕ → V3 ℝ) (w : V3 ℝ) :
    ((List.range n).flatMap fun k => ls.map (·.translate (f k))).map (·.translate w) =
      (List.range n).flatMap fun k => ls.map (·.translate (f k + w)) := by
  simp only [List.map_flatMap, List.map_map]
  congr 1
  funext k
  apply List.map_congr_left
  intro m _
  exact translate_translate m _ _

/-- C37 for the meshes: a regular array with `nx` times `ny` bodies is made of the base mesh translated by
`i` steps in the first direction and `j` steps in the second, with `i` varying first. -/
theorem regular_array (base : Tree) (hc : Built base) (hu : base.Upright) (d : ℝ) (nx ny : ℕ) (hx : 1 ≤ nx)
    (hy : 1 ≤ ny) :
    ∃ t, regularArray base d nx ny = some t ∧
      t.leaves = (List.range ny).flatMap fun j : ℕ => (List.range nx).flatMap fun i : ℕ =>
        base.leaves.map (·.translate ⟨i * d, j * d, 0⟩) := by
  have hcoh := built_coherent hc
  have hline : ∃ l, (if nx = 1 then some base
      else mkSymmetric Tree.copy (.translation ⟨d, 0, 0⟩) base (nx - 1)) = some l ∧ Sliced l ∧ l.Upright ∧
      l.leaves = (List.range nx).flatMap fun i : ℕ => base.leaves.map (·.translate ⟨i * d, 0, 0⟩) := by
    by_cases h1 : nx = 1
    · subst h1
      refine ⟨base, by simp, hcoh, hu, ?_⟩
      have : (⟨0, 0, 0⟩ : V3 ℝ) = 0 := rfl
      simp [this, translate_zero]
    · obtain ⟨t, a1, a2, a3, a4⟩ := mk_translation hcoh hu ⟨d, 0, 0⟩ rfl nx (by omega)
      refine ⟨t, by rw [if_neg h1]; exact a1, a2, a3, ?_⟩
      rw [a4]
      congr 1
      funext k
      congr 2
      ext m
      congr 1
      ext <;> simp
  obtain ⟨l, h1, h2, h3, h4⟩ := hline
  rw [regularArray]
  simp only [h1]
  by_cases hy1 : ny = 1
  · subst hy1
    refine ⟨l, by simp, ?_⟩
    rw [h4]
    simp
  · obtain ⟨t, a1, a2, a3, a4⟩ := mk_translation h2 h3 ⟨0, d, 0⟩ rfl ny (by omega)
    refine ⟨t, by rw [if_neg hy1]; exact a1, ?_⟩
    rw [a4, h4]
    congr 1
    funext j
    rw [flatMap_translate]
    congr 1
    funext i
    congr 2
    ext m
    congr 1
    ext <;> simp

/-- Concrete case of `regular_array`. -/
example : ∃ t, regularArray (.leaf sampleHalf) 10 3 2 = some t ∧ t.leaves.length = 6 := by
  obtain ⟨t, h1, h2⟩ := regular_array (.leaf sampleHalf) (.leaf _) trivial 10 3 2 (by omega) (by omega)
  exact ⟨t, h1, by rw [h2]; simp [List.length_flatMap, Tree.leaves]⟩

end Verif.Meshes
