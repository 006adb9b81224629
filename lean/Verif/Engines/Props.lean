import Verif.Engines.Model
import Verif.Meshes.SymmetricProps
import Verif.Blocks.FullProps
import Mathlib.Data.List.GetD

/-!
# Symmetries do not change the interaction matrix (C21)
-/

namespace Verif.Engines

open Verif.Geometry Verif.Meshes Verif.Blocks V3

/-! ## Specification -/

/-- The motion of a panel: the corners are moved, and their order is reversed by mirrors. -/
noncomputable def moveShape (μ : Motion) : Shape → Shape
  | (b, o) => (b, o.map fun c =>
      match μ with
      | .mirror P => (P.mirrorPoint c.2.2.2, P.mirrorPoint c.2.2.1, P.mirrorPoint c.2.1, P.mirrorPoint c.1)
      | μ => (μ.point c.1, μ.point c.2.1, μ.point c.2.2.1, μ.point c.2.2.2))

variable {R : Type}

/-- The Green function does not change when both panels are moved. -/
def Invariant (G : Shape → Shape → R) (μ : Motion) : Prop := ∀ a b, G (moveShape μ a) (moveShape μ b) = G a b

mutual
/-- The symmetric collections of a tree, with their numbers of parts. -/
def syms : Tree → List (Sym × ℕ)
  | .leaf _ => []
  | .node s ps => (s, ps.length) :: symsAll ps
/-- Those of several trees. -/
def symsAll : List Tree → List (Sym × ℕ)
  | [] => []
  | t :: ts => syms t ++ symsAll ts
end

/-- Two symmetries with the same motions. -/
def SameSteps (s s' : Sym) (n : ℕ) : Prop := ∀ k, 1 ≤ k → k < n → ∀ p, (s.step n k).point p = (s'.step n k).point p

/-- Two symmetries of the same class, which is not the one of plain collections. -/
def SameClass : Sym → Sym → Prop
  | .reflection _, .reflection _ => True
  | .translation _, .translation _ => True
  | .axial _, .axial _ => True
  | _, _ => False

/-- The parts of the symmetric collections, at all levels, are the images of the first part. The motions are those of
symmetries `τ s n`, which need not be the symmetry `s` stored in a collection of `n` parts. -/
inductive Coherent (τ : Sym → ℕ → Sym) : Tree → Prop
  | leaf (m : Mesh (V3 ℝ)) : Coherent τ (.leaf m)
  | plain (ps : List Tree) (hn : 1 ≤ ps.length) (h : ∀ t ∈ ps, Coherent τ t) : Coherent τ (.node .plain ps)
  | symmetric (s : Sym) (t : Tree) (rest : List Tree) (hs : SameClass s (τ s (rest.length + 1)))
      (hu : (τ s (rest.length + 1)).Unit) (ht : Coherent τ t)
      (hrest : ∀ u ∈ rest, Coherent τ u) (hr : ∀ P, s = .reflection P → rest.length = 1)
      (h : ∀ (k : ℕ) (u : Tree), rest[k]? = some u →
        u.leaves = t.leaves.map ((τ s (rest.length + 1)).step (rest.length + 1) (k + 1)).mesh) :
      Coherent τ (.node s (t :: rest))

/-- The matrix has consistent blocks, the shape of a matrix between the panels of two meshes, and its coefficients are as
given by the Green function up to the relation `E`. -/
structure Represents (E : R → R → Prop) (G : Shape → Shape → R) (M : HMat R) (t1 t2 : Tree) : Prop where
  wf : M.WF
  shape : M.shape = (t1.nbFaces, t2.nbFaces)
  entry : ∀ (r c : ℕ) a b, (panels t1)[r]? = some a → (panels t2)[c]? = some b → E (M.entry r c) (G a b)

/-! ## Panels -/

theorem panels_length (t : Tree) : (panels t).length = t.nbFaces := shapes_length t

theorem panels_node (s : Sym) (ps : List Tree) : panels (.node s ps) = ps.flatMap panels := by
  rw [panels, Tree.leaves, leavesAll_eq, List.flatMap_assoc]
  rfl

theorem corners_map (f : V3 ℝ → V3 ℝ) (vs : List (V3 ℝ)) (F : Face) :
    corners (vs.map f) F = (corners vs F).map fun c => (f c.1, f c.2.1, f c.2.2.1, f c.2.2.2) := by
  simp only [corners, List.getElem?_map]
  cases vs[F.a]? <;> cases vs[F.b]? <;> cases vs[F.c]? <;> cases vs[F.d]? <;> rfl

theorem corners_flip {V : Type} (vs : List V) (F : Face) :
    corners vs F.flip = (corners vs F).map fun c => (c.2.2.2, c.2.2.1, c.2.1, c.1) := by
  simp only [corners, Face.flip]
  cases vs[F.a]? <;> cases vs[F.b]? <;> cases vs[F.c]? <;> cases vs[F.d]? <;> rfl

theorem shapes_move (μ : Motion) (m : Mesh (V3 ℝ)) : (μ.mesh m).shapes = m.shapes.map (moveShape μ) := by
  rw [mesh_eq]
  simp only [Mesh.shapes, List.map_map]
  refine List.map_congr_left fun F _ => ?_
  simp only [Function.comp, moveShape]
  rw [corners_map]
  cases μ with
  | translate v => rfl
  | rotate a θ => rfl
  | mirror P =>
    simp only [Motion.face, Motion.point, corners_flip, Option.map_map]
    congr 1
    simp only [Face.isTriangle, Face.flip]
    exact Bool.beq_comm

theorem panels_move {μ : Motion} {t u : Tree} (h : u.leaves = t.leaves.map μ.mesh) :
    panels u = (panels t).map (moveShape μ) := by
  rw [panels, panels, h, List.flatMap_map, List.map_flatMap]
  congr 1
  funext m
  exact shapes_move μ m

theorem moveShape_eq {μ ν : Motion} (h : ∀ p, μ.point p = ν.point p) (hm : (∃ P, μ = .mirror P) ↔ ∃ P, ν = .mirror P) (a : Shape) :
    moveShape μ a = moveShape ν a := by
  obtain ⟨b, o⟩ := a
  cases μ with
  | mirror P =>
    obtain ⟨Q, rfl⟩ := hm.mp ⟨P, rfl⟩
    simp only [moveShape]
    congr 2
    funext c
    have h : ∀ p, P.mirrorPoint p = Q.mirrorPoint p := h
    rw [h, h, h, h]
  | translate v =>
    cases ν with
    | mirror Q =>
      obtain ⟨P, hP⟩ := hm.mpr ⟨Q, rfl⟩
      cases hP
    | _ =>
      simp only [moveShape]
      congr 2
      funext c
      rw [h, h, h, h]
  | rotate v θ =>
    cases ν with
    | mirror Q =>
      obtain ⟨P, hP⟩ := hm.mpr ⟨Q, rfl⟩
      cases hP
    | _ =>
      simp only [moveShape]
      congr 2
      funext c
      rw [h, h, h, h]

/-! ## Places in a list of lists -/

theorem flatMap_locate {A B : Type} (g : A → List B) (l : List A) (r : ℕ) (b : B) (h : (l.flatMap g)[r]? = some b) :
    ∃ a, l[(locate (l.map fun a => (g a).length) r).1]? = some a ∧
      (g a)[(locate (l.map fun a => (g a).length) r).2]? = some b := by
  induction l generalizing r with
  | nil => simp at h
  | cons x l ih =>
    rw [List.flatMap_cons] at h
    rw [List.map_cons, locate]
    by_cases hr : r < (g x).length
    · rw [if_pos hr]
      rw [List.getElem?_append_left hr] at h
      exact ⟨x, rfl, h⟩
    · rw [if_neg hr]
      rw [List.getElem?_append_right (by omega)] at h
      exact ih _ h

theorem flatMap_divMod {A B : Type} (g : A → List B) (l : List A) (p : ℕ) (hp : ∀ a ∈ l, (g a).length = p) (r : ℕ) (b : B)
    (h : (l.flatMap g)[r]? = some b) : ∃ a, l[r / p]? = some a ∧ (g a)[r % p]? = some b := by
  induction l generalizing r with
  | nil => simp at h
  | cons x l ih =>
    rw [List.flatMap_cons] at h
    have hx := hp x List.mem_cons_self
    by_cases hr : r < p
    · rw [List.getElem?_append_left (by omega)] at h
      rw [Nat.div_eq_of_lt hr, Nat.mod_eq_of_lt hr]
      exact ⟨x, rfl, h⟩
    · rw [List.getElem?_append_right (by omega), hx] at h
      obtain ⟨a, h1, h2⟩ := ih (fun a ha => hp a (List.mem_cons_of_mem _ ha)) _ h
      have hpos : 0 < p := by
        rcases Nat.eq_zero_or_pos p with h0 | h0
        · subst h0
          exfalso
          have : ∀ l : List A, (∀ a ∈ l, (g a).length = 0) → l.flatMap g = [] := by
            intro l hl
            rw [List.flatMap_eq_nil_iff]
            exact fun a ha => List.length_eq_zero_iff.mp (hl a ha)
          rw [this l fun a ha => hp a (List.mem_cons_of_mem _ ha)] at h
          simp at h
        · exact h0
      refine ⟨a, ?_, ?_⟩
      · rw [Nat.div_eq_sub_div hpos (by omega), List.getElem?_cons_succ]
        exact h1
      · rw [Nat.mod_eq_sub_mod (by omega)]
        exact h2

/-! ## Matrices -/

section
variable [Inhabited R] {E : R → R → Prop} {G : Shape → Shape → R}

theorem evaluate_represents (hE : ∀ x, E x x) (t1 t2 : Tree) : Represents E G (evaluate G t1 t2) t1 t2 := by
  refine ⟨trivial, rfl, fun r c a b ha hb => ?_⟩
  simp only [evaluate, HMat.entry, ha, hb]
  exact hE _

/-- What the table of blocks must be. -/
def Table (E : R → R → Prop) (G : Shape → Shape → R) (blocks : List (List (HMat R))) (ps1 ps2 : List Tree) : Prop :=
  blocks.length = ps1.length ∧ ∀ i t, ps1[i]? = some t → (blocks.getD i []).length = ps2.length ∧
    ∀ j u, ps2[j]? = some u → Represents E G ((blocks.getD i []).getD j missing) t u

theorem generic_represents {blocks : List (List (HMat R))} {ps1 ps2 : List Tree} (h : Table E G blocks ps1 ps2)
    (h1 : ps1 ≠ []) (h2 : ps2 ≠ []) (s1 s2 : Sym) :
    Represents E G (generic blocks) (.node s1 ps1) (.node s2 ps2) := by
  obtain ⟨u0, hu0⟩ : ∃ u, ps2[0]? = some u := by
    cases ps2 with
    | nil => exact absurd rfl h2
    | cons u _ => exact ⟨u, rfl⟩
  obtain ⟨t0, ht0⟩ : ∃ u, ps1[0]? = some u := by
    cases ps1 with
    | nil => exact absurd rfl h1
    | cons u _ => exact ⟨u, rfl⟩
  have hhs : (blocks.map fun l => (l.getD 0 missing).shape.1) = ps1.map fun t => (panels t).length := by
    apply List.ext_getElem?
    intro i
    rw [List.getElem?_map, List.getElem?_map]
    rcases Nat.lt_or_ge i ps1.length with hi | hi
    · have e1 := List.getElem?_eq_getElem hi
      have e2 := List.getElem?_eq_getElem (show i < blocks.length by rw [h.1]; exact hi)
      have := ((h.2 i _ e1).2 0 u0 hu0).shape
      rw [show blocks.getD i [] = blocks[i]'(by rw [h.1]; exact hi) by
        rw [List.getD_eq_getElem?_getD, e2, Option.getD_some]] at this
      rw [e1, e2, Option.map_some, Option.map_some, this, panels_length]
    · rw [List.getElem?_eq_none (by rw [h.1]; omega), List.getElem?_eq_none (by omega)]
      rfl
  have hws : ((blocks.getD 0 []).map fun M => M.shape.2) = ps2.map fun t => (panels t).length := by
    apply List.ext_getElem?
    intro j
    rw [List.getElem?_map, List.getElem?_map]
    rcases Nat.lt_or_ge j ps2.length with hj | hj
    · have e1 := List.getElem?_eq_getElem hj
      have e2 := List.getElem?_eq_getElem (show j < (blocks.getD 0 []).length by rw [(h.2 0 t0 ht0).1]; exact hj)
      have := ((h.2 0 t0 ht0).2 j _ e1).shape
      rw [List.getD_eq_getElem?_getD, e2, Option.getD_some] at this
      rw [e1, e2, Option.map_some, Option.map_some, this, panels_length]
    · rw [List.getElem?_eq_none (by rw [(h.2 0 t0 ht0).1]; omega), List.getElem?_eq_none (by omega)]
      rfl
  refine ⟨?_, ?_, ?_⟩
  · rw [generic, hhs, hws]
    intro i j hi hj
    rw [List.length_map] at hi hj
    have e1 := List.getElem?_eq_getElem hi
    have e2 := List.getElem?_eq_getElem hj
    have := (h.2 i _ e1).2 j _ e2
    refine ⟨this.wf, ?_⟩
    rw [this.shape, List.getD_eq_getElem?_getD, List.getElem?_map, List.getD_eq_getElem?_getD, List.getElem?_map, e1, e2]
    simp only [Option.map_some, Option.getD_some, panels_length]
  · rw [generic, hhs, hws, HMat.shape]
    simp only [panels_length, Tree.nbFaces, nbFacesAll_eq]
  · intro r c a b ha hb
    rw [panels_node] at ha hb
    rw [generic, hhs, hws, HMat.entry]
    obtain ⟨t, h1, h2⟩ := flatMap_locate panels ps1 r a ha
    obtain ⟨u, h3, h4⟩ := flatMap_locate panels ps2 c b hb
    exact ((h.2 _ t h1).2 _ u h3).entry _ _ a b h2 h4

/-- A structured matrix whose stored blocks are those of pairs of parts given by `rep`. -/
theorem structured_represents {k : Kind} {n : ℕ} (hn : Admissible k n) {l : List (HMat R)} (hl : l.length = specStored k n)
    {ps1 ps2 : List Tree} (h1 : ps1.length = n) (h2 : ps2.length = n) {p q : ℕ} (act : ℕ → Shape → Shape)
    {A B : List Shape} (hA : A.length = p) (hB : B.length = q)
    (hp1 : ∀ i t, ps1[i]? = some t → panels t = A.map (act i))
    (hp2 : ∀ i t, ps2[i]? = some t → panels t = B.map (act i))
    (rep : ℕ → ℕ × ℕ)
    (hrep : ∀ idx, idx < specStored k n → ∃ t u, ps1[(rep idx).1]? = some t ∧ ps2[(rep idx).2]? = some u ∧
      Represents E G (l.getD idx missing) t u)
    (hG : ∀ i j a b, i < n → j < n → G (act i a) (act j b) =
      G (act (rep (specBlock k n i j)).1 a) (act (rep (specBlock k n i j)).2 b)) (s1 s2 : Sym) :
    Represents E G (structured k l) (.node s1 ps1) (.node s2 ps2) := by
  have hnb := (block_positions k n hn).1
  have hstored : 0 < specStored k n := by
    have := specBlock_lt k n 0 0 hn hn.1 hn.1
    omega
  have hlen1 : ∀ t ∈ ps1, (panels t).length = p := by
    intro t ht
    obtain ⟨i, hi, rfl⟩ := List.getElem_of_mem ht
    rw [hp1 i _ (List.getElem?_eq_getElem hi), List.length_map, hA]
  have hlen2 : ∀ t ∈ ps2, (panels t).length = q := by
    intro t ht
    obtain ⟨i, hi, rfl⟩ := List.getElem_of_mem ht
    rw [hp2 i _ (List.getElem?_eq_getElem hi), List.length_map, hB]
  have hshape : ∀ idx, idx < specStored k n → (l.getD idx missing).WF ∧ (l.getD idx missing).shape = (p, q) := by
    intro idx hi
    obtain ⟨t, u, e1, e2, hr⟩ := hrep idx hi
    refine ⟨hr.wf, ?_⟩
    rw [hr.shape, ← panels_length, ← panels_length, hlen1 t (List.mem_of_getElem? e1), hlen2 u (List.mem_of_getElem? e2)]
  have hs0 := (hshape 0 hstored).2
  have hst : structured k l = .str k p q (specStored k n) fun i => l.getD i missing := by
    rw [structured, hs0, hl]
  have hsum : ∀ (ps : List Tree) (m : ℕ), (∀ t ∈ ps, (panels t).length = m) → nbFacesAll ps = m * ps.length := by
    intro ps m hm
    rw [nbFacesAll_eq]
    induction ps with
    | nil => simp
    | cons t ts ih =>
      rw [List.map_cons, List.sum_cons, ih fun t ht => hm t (List.mem_cons_of_mem _ ht), ← panels_length,
        hm t List.mem_cons_self, List.length_cons]
      ring
  rw [hst]
  refine ⟨⟨⟨n, hn, rfl⟩, hshape⟩, ?_, ?_⟩
  · rw [HMat.shape, hnb, Tree.nbFaces, Tree.nbFaces, hsum ps1 p hlen1, hsum ps2 q hlen2, h1, h2]
    rfl
  · intro r c a b ha hb
    rw [panels_node] at ha hb
    obtain ⟨t, ht, ha'⟩ := flatMap_divMod panels ps1 p hlen1 r a ha
    obtain ⟨u, hu, hb'⟩ := flatMap_divMod panels ps2 q hlen2 c b hb
    rw [HMat.entry, hnb, Option.getD_some]
    have hi : r / p < n := by rw [← h1]; exact (List.getElem?_eq_some_iff.mp ht).1
    have hj : c / q < n := by rw [← h2]; exact (List.getElem?_eq_some_iff.mp hu).1
    obtain ⟨t', u', e1, e2, hr⟩ := hrep _ (specBlock_lt k n _ _ hn hi hj)
    rw [hp1 _ t ht, List.getElem?_map] at ha'
    rw [hp2 _ u hu, List.getElem?_map] at hb'
    obtain ⟨x, hx, rfl⟩ := Option.map_eq_some_iff.mp ha'
    obtain ⟨y, hy, rfl⟩ := Option.map_eq_some_iff.mp hb'
    rw [hG _ _ x y hi hj]
    refine hr.entry _ _ _ _ ?_ ?_
    · rw [hp1 _ t' e1, List.getElem?_map, hx]
      rfl
    · rw [hp2 _ u' e2, List.getElem?_map, hy]
      rfl

/-! ## Motions of panels -/

theorem translate_shape_comp (u v : V3 ℝ) (a : Shape) :
    moveShape (.translate u) (moveShape (.translate v) a) = moveShape (.translate (v + u)) a := by
  obtain ⟨b, o⟩ := a
  cases o with
  | none => rfl
  | some c => simp only [moveShape, Motion.point, Option.map_some, add_assoc]

theorem translate_shape_zero (a : Shape) : moveShape (.translate 0) a = a := by
  obtain ⟨b, o⟩ := a
  cases o with
  | none => rfl
  | some c => simp only [moveShape, Motion.point, Option.map_some, add_zero]

theorem rotate_shape_comp (x : Axis) (hx : dot x.vector x.vector = 1) (θ φ : ℝ) (a : Shape) :
    moveShape (.rotate x φ) (moveShape (.rotate x θ) a) = moveShape (.rotate x (θ + φ)) a := by
  obtain ⟨b, o⟩ := a
  cases o with
  | none => rfl
  | some c => simp only [moveShape, Motion.point, Option.map_some, rotation_comp x hx]

theorem rotate_shape_zero (x : Axis) (a : Shape) : moveShape (.rotate x 0) a = a := by
  obtain ⟨b, o⟩ := a
  cases o with
  | none => rfl
  | some c => simp only [moveShape, Motion.point, Option.map_some, rotation_zero]

theorem rotate_shape_turn (x : Axis) (θ : ℝ) (a : Shape) :
    moveShape (.rotate x (θ + 2 * Real.pi)) a = moveShape (.rotate x θ) a := by
  refine moveShape_eq (fun p => ?_) (by simp) a
  simp only [Motion.point, Axis.rotatePoint, rotateVector_eq, Real.cos_add_two_pi, Real.sin_add_two_pi]

theorem mirror_shape_twice (P : Plane) (hP : dot P.normal P.normal = 1) (a : Shape) :
    moveShape (.mirror P) (moveShape (.mirror P) a) = a := by
  have h : ∀ p, P.mirrorPoint (P.mirrorPoint p) = p := by
    intro p
    simp only [dot] at hP
    ext
    · simp only [Plane.mirrorPoint, dot, sub_x, sub_y, sub_z, smul_x, smul_y, smul_z]
      linear_combination (4 * P.normal.x * (p.x * P.normal.x + p.y * P.normal.y + p.z * P.normal.z - P.c)) * hP
    · simp only [Plane.mirrorPoint, dot, sub_x, sub_y, sub_z, smul_x, smul_y, smul_z]
      linear_combination (4 * P.normal.y * (p.x * P.normal.x + p.y * P.normal.y + p.z * P.normal.z - P.c)) * hP
    · simp only [Plane.mirrorPoint, dot, sub_x, sub_y, sub_z, smul_x, smul_y, smul_z]
      linear_combination (4 * P.normal.z * (p.x * P.normal.x + p.y * P.normal.y + p.z * P.normal.z - P.c)) * hP
  obtain ⟨b, o⟩ := a
  cases o with
  | none => rfl
  | some c => simp only [moveShape, Option.map_some, h]

/-- The motion of the part number `k`, which is nothing for the first one. -/
noncomputable def act (s : Sym) (n k : ℕ) (a : Shape) : Shape := if k = 0 then a else moveShape (s.step n k) a

theorem act_translation (v : V3 ℝ) (n k : ℕ) (a : Shape) : act (.translation v) n k a = moveShape (.translate ((k : ℝ) • v)) a := by
  rw [act]
  split
  · rename_i h
    subst h
    have : ((0 : ℕ) : ℝ) • v = 0 := by ext <;> simp
    rw [this, translate_shape_zero]
  · rfl

theorem act_axial (x : Axis) (n k : ℕ) (a : Shape) : act (.axial x) n k a = moveShape (.rotate x (2 * k * Real.pi / n)) a := by
  rw [act]
  split
  · rename_i h
    subst h
    have : 2 * ((0 : ℕ) : ℝ) * Real.pi / n = 0 := by simp
    rw [this, rotate_shape_zero]
  · rfl

theorem act_invariant {s : Sym} {n : ℕ} (h : ∀ k, 1 ≤ k → k < n → Invariant G (s.step n k)) {k : ℕ} (hk : k < n)
    (a b : Shape) : G (act s n k a) (act s n k b) = G a b := by
  rw [act, act]
  split
  · rfl
  · exact h k (by omega) hk a b

theorem parts_act {s : Sym} {t : Tree} {rest : List Tree} (h : ∀ (k : ℕ) (u : Tree), rest[k]? = some u →
    u.leaves = t.leaves.map (s.step (rest.length + 1) (k + 1)).mesh) (i : ℕ) (u : Tree)
    (hu : (t :: rest)[i]? = some u) : panels u = (panels t).map (act s (rest.length + 1) i) := by
  cases i with
  | zero =>
    simp only [List.getElem?_cons_zero, Option.some.injEq] at hu
    subst hu
    exact ((List.map_congr_left fun a _ => (if_pos rfl : act s _ 0 a = a)).trans (List.map_id' _)).symm
  | succ i =>
    rw [List.getElem?_cons_succ] at hu
    rw [panels_move (h i u hu)]
    refine List.map_congr_left fun a _ => ?_
    rw [act, if_neg (by omega)]

theorem act_same {s s' : Sym} {n : ℕ} (h : SameSteps s s' n) (hm : ∀ k, (∃ P, s.step n k = .mirror P) ↔ ∃ P, s'.step n k = .mirror P)
    (k : ℕ) (hk : k < n) (a : Shape) : act s n k a = act s' n k a := by
  rw [act, act]
  split
  · rfl
  · exact moveShape_eq (h k (by omega) hk) (hm k) a

/-! ## Tables of blocks -/

theorem buildAll_get (basic : Bool) (aca : Tree → Tree → Option (HMat R)) (ps1 ps2 : List Tree) :
    (buildAll basic G aca ps1 ps2).length = ps1.length ∧ ∀ i t, ps1[i]? = some t →
      (buildAll basic G aca ps1 ps2).getD i [] = ps2.map fun u => build basic G aca t u := by
  induction ps1 with
  | nil => simp [buildAll]
  | cons x xs ih =>
    rw [buildAll]
    refine ⟨by simp [ih.1], fun i t ht => ?_⟩
    cases i with
    | zero =>
      simp only [List.getElem?_cons_zero, Option.some.injEq] at ht
      subst ht
      rfl
    | succ i =>
      rw [List.getElem?_cons_succ] at ht
      rw [List.getD_cons_succ]
      exact ih.2 i t ht

theorem table_of {basic : Bool} {aca : Tree → Tree → Option (HMat R)} {ps1 ps2 : List Tree}
    (h : ∀ t ∈ ps1, ∀ u ∈ ps2, Represents E G (build basic G aca t u) t u) :
    Table E G (buildAll basic G aca ps1 ps2) ps1 ps2 := by
  obtain ⟨h1, h2⟩ := buildAll_get (G := G) basic aca ps1 ps2
  refine ⟨h1, fun i t ht => ?_⟩
  rw [h2 i t ht]
  refine ⟨by simp, fun j u hu => ?_⟩
  rw [List.getD_eq_getElem?_getD, List.getElem?_map, hu]
  exact h t (List.mem_of_getElem? ht) u (List.mem_of_getElem? hu)

theorem syms_mem {s : Sym} {ps : List Tree} {t : Tree} (h : t ∈ ps) {x : Sym × ℕ} (hx : x ∈ syms t) :
    x ∈ syms (.node s ps) := by
  rw [syms]
  refine List.mem_cons_of_mem _ ?_
  induction ps with
  | nil => cases h
  | cons u us ih =>
    rw [symsAll, List.mem_append]
    rcases List.mem_cons.mp h with rfl | h
    · exact Or.inl hx
    · exact Or.inr (ih h)

/-- The stored blocks of a Toeplitz matrix. -/
def toeplitzRep (n idx : ℕ) : ℕ × ℕ := if idx < n then (0, idx) else (2 * n - 1 - idx, 0)

theorem reflection_case {blocks : List (List (HMat R))} {P Q : Plane} (hu : dot P.normal P.normal = 1) {t1 u1 t2 u2 : Tree}
    (h1 : u1.leaves = t1.leaves.map (Motion.mirror P).mesh) (h2 : u2.leaves = t2.leaves.map (Motion.mirror Q).mesh)
    (hsame : ∀ p, (Motion.mirror P).point p = (Motion.mirror Q).point p) (hinv : Invariant G (.mirror P))
    (ht : Table E G blocks [t1, u1] [t2, u2]) (s1 s2 : Sym) :
    Represents E G (structured .symToeplitz [(blocks.getD 0 []).getD 0 missing, (blocks.getD 0 []).getD 1 missing])
      (.node s1 [t1, u1]) (.node s2 [t2, u2]) := by
  have hP : ∀ k, (Sym.reflection P).step 2 k = .mirror P := fun _ => rfl
  refine structured_represents (n := 2) (act := act (.reflection P) 2) (A := panels t1) (B := panels t2)
    (rep := fun k => (0, k)) (by simp [Admissible]) rfl rfl rfl rfl rfl ?_ ?_ ?_ ?_ s1 s2
  · exact parts_act (rest := [u1]) (by
      intro k u hk
      cases k with
      | zero => simp only [List.getElem?_cons_zero, Option.some.injEq] at hk; subst hk; exact h1
      | succ k => simp at hk)
  · intro i t hi
    rw [parts_act (s := .reflection Q) (rest := [u2]) (by
      intro k u hk
      cases k with
      | zero => simp only [List.getElem?_cons_zero, Option.some.injEq] at hk; subst hk; exact h2
      | succ k => simp at hk) i t hi]
    have hi2 : i < 2 := (List.getElem?_eq_some_iff.mp hi).1
    refine List.map_congr_left fun a _ => ?_
    exact (act_same (s := .reflection P) (s' := .reflection Q) (fun _ _ _ => hsame) (by simp [Sym.step]) i hi2 a).symm
  · intro idx hidx
    have hrow := ht.2 0 t1 rfl
    simp only [specStored] at hidx
    rcases (show idx = 0 ∨ idx = 1 by omega) with rfl | rfl
    · exact ⟨t1, t2, rfl, rfl, hrow.2 0 t2 rfl⟩
    · exact ⟨t1, u2, rfl, rfl, hrow.2 1 u2 rfl⟩
  · intro i j a b hi hj
    rcases (show i = 0 ∨ i = 1 by omega) with rfl | rfl <;> rcases (show j = 0 ∨ j = 1 by omega) with rfl | rfl
    · rfl
    · rfl
    · show G (moveShape (.mirror P) a) b = G a (moveShape (.mirror P) b)
      rw [← hinv a (moveShape (.mirror P) b), mirror_shape_twice P hu]
    · exact hinv a b

theorem translation_case {blocks : List (List (HMat R))} {v w : V3 ℝ} {t1 t2 : Tree} {rest1 rest2 : List Tree}
    (hlen : rest1.length = rest2.length)
    (h1 : ∀ (k : ℕ) (u : Tree), rest1[k]? = some u →
      u.leaves = t1.leaves.map ((Sym.translation v).step (rest1.length + 1) (k + 1)).mesh)
    (h2 : ∀ (k : ℕ) (u : Tree), rest2[k]? = some u →
      u.leaves = t2.leaves.map ((Sym.translation w).step (rest2.length + 1) (k + 1)).mesh)
    (hsame : SameSteps (.translation v) (.translation w) (rest1.length + 1))
    (hinv : ∀ k, 1 ≤ k → k < rest1.length + 1 → Invariant G ((Sym.translation v).step (rest1.length + 1) k))
    (ht : Table E G blocks (t1 :: rest1) (t2 :: rest2)) (s1 s2 : Sym) :
    Represents E G (structured .toeplitz (blocks.getD 0 [] ++ (blocks.tail.reverse.map fun l => l.getD 0 missing)))
      (.node s1 (t1 :: rest1)) (.node s2 (t2 :: rest2)) := by
  have hrow := ht.2 0 t1 rfl
  have hbl : blocks.length = rest1.length + 1 := ht.1
  refine structured_represents (n := rest1.length + 1) (act := act (.translation v) (rest1.length + 1)) (A := panels t1)
    (B := panels t2) (rep := toeplitzRep (rest1.length + 1)) (by simp [Admissible]) ?_ rfl
    (by simp [hlen]) rfl rfl (parts_act h1) ?_ ?_ ?_ s1 s2
  · rw [List.length_append, hrow.1, List.length_map, List.length_reverse, List.length_tail, hbl]
    simp only [specStored, List.length_cons]
    omega
  · intro i t hi
    rw [parts_act h2 i t hi, ← hlen]
    have hi2 : i < rest1.length + 1 := by
      have := (List.getElem?_eq_some_iff.mp hi).1
      simpa [hlen] using this
    refine List.map_congr_left fun a _ => ?_
    exact (act_same hsame (by simp [Sym.step]) i hi2 a).symm
  · intro idx hidx
    simp only [specStored] at hidx
    rw [toeplitzRep]
    split
    · rename_i hlt
      obtain ⟨u, hu⟩ : ∃ u, (t2 :: rest2)[idx]? = some u :=
        ⟨_, List.getElem?_eq_getElem (by simp only [List.length_cons]; omega)⟩
      refine ⟨t1, u, rfl, hu, ?_⟩
      rw [List.getD_append _ _ _ _ (by rw [hrow.1]; simp only [List.length_cons]; omega)]
      exact hrow.2 idx u hu
    · rename_i hge
      obtain ⟨u, hu⟩ : ∃ u, (t1 :: rest1)[2 * (rest1.length + 1) - 1 - idx]? = some u :=
        ⟨_, List.getElem?_eq_getElem (by simp only [List.length_cons]; omega)⟩
      refine ⟨u, t2, hu, rfl, ?_⟩
      have hb := (ht.2 _ u hu).2 0 t2 rfl
      have hl0 : (blocks.getD 0 []).length = rest1.length + 1 := by rw [hrow.1]; simp [hlen]
      rw [List.getD_append_right _ _ _ _ (by omega), hl0, List.getD_eq_getElem?_getD, List.getElem?_map,
        List.getElem?_reverse (by rw [List.length_tail]; omega), List.length_tail, hbl, List.getElem?_tail]
      have e : rest1.length + 1 - 1 - 1 - (idx - (rest1.length + 1)) + 1 = 2 * (rest1.length + 1) - 1 - idx := by omega
      rw [e, List.getElem?_eq_getElem (by omega)]
      rw [List.getD_eq_getElem?_getD (l := blocks), List.getElem?_eq_getElem (by omega)] at hb
      exact hb
  · intro i j a b hi hj
    have key : ∀ k l x, act (.translation v) (rest1.length + 1) k (act (.translation v) (rest1.length + 1) l x) =
        act (.translation v) (rest1.length + 1) (l + k) x := by
      intro k l x
      rw [act_translation, act_translation, act_translation, translate_shape_comp]
      congr 2
      ext <;> simp <;> ring
    rcases Nat.le_total i j with hij | hij
    · rw [specBlock]
      simp only [if_pos hij, toeplitzRep, if_pos (show j - i < rest1.length + 1 by omega)]
      have := act_invariant hinv hi (act (.translation v) (rest1.length + 1) 0 a)
        (act (.translation v) (rest1.length + 1) (j - i) b)
      rw [key, key, Nat.zero_add, Nat.sub_add_cancel hij] at this
      exact this
    · rcases Nat.eq_or_lt_of_le hij with rfl | hlt
      · rw [specBlock]
        simp only [le_refl, if_true, Nat.sub_self, toeplitzRep, if_pos (show 0 < rest1.length + 1 by omega)]
        have := act_invariant hinv hi (act (.translation v) (rest1.length + 1) 0 a)
          (act (.translation v) (rest1.length + 1) 0 b)
        rw [key, key, Nat.zero_add] at this
        exact this
      · rw [specBlock]
        simp only [if_neg (show ¬ i ≤ j by omega), toeplitzRep,
          if_neg (show ¬ 2 * (rest1.length + 1) - 1 - (i - j) < rest1.length + 1 by omega)]
        have e : 2 * (rest1.length + 1) - 1 - (2 * (rest1.length + 1) - 1 - (i - j)) = i - j := by omega
        rw [e]
        have := act_invariant hinv hj (act (.translation v) (rest1.length + 1) (i - j) a)
          (act (.translation v) (rest1.length + 1) 0 b)
        rw [key, key, Nat.zero_add, Nat.sub_add_cancel hij] at this
        exact this

theorem axial_case {blocks : List (List (HMat R))} {x y : Axis} (hx : dot x.vector x.vector = 1) {t1 t2 : Tree}
    {rest1 rest2 : List Tree} (hlen : rest1.length = rest2.length)
    (h1 : ∀ (k : ℕ) (u : Tree), rest1[k]? = some u →
      u.leaves = t1.leaves.map ((Sym.axial x).step (rest1.length + 1) (k + 1)).mesh)
    (h2 : ∀ (k : ℕ) (u : Tree), rest2[k]? = some u →
      u.leaves = t2.leaves.map ((Sym.axial y).step (rest2.length + 1) (k + 1)).mesh)
    (hsame : SameSteps (.axial x) (.axial y) (rest1.length + 1))
    (hinv : ∀ k, 1 ≤ k → k < rest1.length + 1 → Invariant G ((Sym.axial x).step (rest1.length + 1) k))
    (ht : Table E G blocks (t1 :: rest1) (t2 :: rest2)) (s1 s2 : Sym) :
    Represents E G (structured .circulant (blocks.getD 0 []))
      (.node s1 (t1 :: rest1)) (.node s2 (t2 :: rest2)) := by
  have hrow := ht.2 0 t1 rfl
  refine structured_represents (n := rest1.length + 1) (act := act (.axial x) (rest1.length + 1)) (A := panels t1)
    (B := panels t2) (rep := fun k => (0, k)) (by simp [Admissible]) ?_ rfl
    (by simp [hlen]) rfl rfl (parts_act h1) ?_ ?_ ?_ s1 s2
  · rw [hrow.1]
    simp [specStored, hlen]
  · intro i t hi
    rw [parts_act h2 i t hi, ← hlen]
    have hi2 : i < rest1.length + 1 := by
      have := (List.getElem?_eq_some_iff.mp hi).1
      simpa [hlen] using this
    refine List.map_congr_left fun a _ => ?_
    exact (act_same hsame (by simp [Sym.step]) i hi2 a).symm
  · intro idx hidx
    simp only [specStored] at hidx
    obtain ⟨u, hu⟩ : ∃ u, (t2 :: rest2)[idx]? = some u :=
      ⟨_, List.getElem?_eq_getElem (by simp only [List.length_cons]; omega)⟩
    exact ⟨t1, u, rfl, hu, hrow.2 idx u hu⟩
  · intro i j a b hi hj
    have hpos : ((rest1.length + 1 : ℕ) : ℝ) ≠ 0 := by positivity
    have key : ∀ k l z, act (.axial x) (rest1.length + 1) k (act (.axial x) (rest1.length + 1) l z) =
        act (.axial x) (rest1.length + 1) (l + k) z := by
      intro k l z
      rw [act_axial, act_axial, act_axial, rotate_shape_comp x hx]
      congr 2
      push_cast
      ring
    have turn : ∀ k z, act (.axial x) (rest1.length + 1) (k + (rest1.length + 1)) z = act (.axial x) (rest1.length + 1) k z := by
      intro k z
      rw [act_axial, act_axial, ← rotate_shape_turn x (2 * (k : ℝ) * Real.pi / ((rest1.length + 1 : ℕ) : ℝ))]
      congr 2
      rw [Nat.cast_add k]
      field_simp
    rw [specBlock]
    rcases Nat.lt_or_ge j i with hij | hij
    · simp only [if_neg (show ¬ i ≤ j by omega)]
      have := act_invariant hinv hi (act (.axial x) (rest1.length + 1) 0 a)
        (act (.axial x) (rest1.length + 1) (rest1.length + 1 - (i - j)) b)
      rw [key, key, Nat.zero_add, show rest1.length + 1 - (i - j) + i = j + (rest1.length + 1) by omega, turn] at this
      exact this
    · simp only [if_pos (show i ≤ j by omega)]
      have := act_invariant hinv hi (act (.axial x) (rest1.length + 1) 0 a)
        (act (.axial x) (rest1.length + 1) (j - i) b)
      rw [key, key, Nat.zero_add, Nat.sub_add_cancel hij] at this
      exact this

/-! ## Theorem -/

theorem combine_plain {basic : Bool} {aca : Tree → Tree → Option (HMat R)} (hE : ∀ x, E x x)
    (haca : ∀ t u M, aca t u = some M → Represents E G M t u) {s1 s2 : Sym} {ps1 ps2 : List Tree}
    {blocks : List (List (HMat R))} (ht : Table E G blocks ps1 ps2) (h1 : ps1 ≠ []) (h2 : ps2 ≠ []) :
    Represents E G (if basic then evaluate G (.node s1 ps1) (.node s2 ps2) else
      match aca (.node s1 ps1) (.node s2 ps2) with
      | some M => M
      | none => generic blocks) (.node s1 ps1) (.node s2 ps2) := by
  split
  · exact evaluate_represents hE _ _
  · split
    · rename_i M hM
      exact haca _ _ _ hM
    · exact generic_represents ht h1 h2 s1 s2

theorem leaf_case {basic : Bool} {aca : Tree → Tree → Option (HMat R)} (hE : ∀ x, E x x)
    (haca : ∀ t u M, aca t u = some M → Represents E G M t u) (t1 t2 : Tree) :
    Represents E G (if basic then evaluate G t1 t2 else
      match aca t1 t2 with
      | some M => M
      | none => evaluate G t1 t2) t1 t2 := by
  split
  · exact evaluate_represents hE _ _
  · split
    · rename_i M hM
      exact haca _ _ _ hM
    · exact evaluate_represents hE _ _

theorem coherent_node {τ : Sym → ℕ → Sym} {s : Sym} {ps : List Tree} (h : Coherent τ (.node s ps)) :
    ps ≠ [] ∧ ∀ t ∈ ps, Coherent τ t := by
  cases h with
  | plain _ hn h => exact ⟨by intro h0; subst h0; simp at hn, h⟩
  | symmetric _ t rest hs hu ht hrest hr h =>
    refine ⟨by simp, fun u hu => ?_⟩
    rcases List.mem_cons.mp hu with rfl | hu
    · exact ht
    · exact hrest u hu

/-- C21: the matrix built with symmetries is the matrix of the Green function, up to the error `E` made in the low rank blocks,
for all nestings of symmetries and collections whose parts are images of each other, when the Green function is invariant
under the motions of the first mesh.

What is missing: two symmetries that the code finds equal must have the same motions. This is not always true, see
`opposite_axes_violated` and `misplaced_plane_violated`. -/
theorem build_represents_partial (τ1 τ2 : Sym → ℕ → Sym) (basic : Bool) (aca : Tree → Tree → Option (HMat R)) (hE : ∀ x, E x x)
    (haca : ∀ t u M, aca t u = some M → Represents E G M t u) (t1 : Tree) (h1 : Coherent τ1 t1) :
    ∀ t2, Coherent τ2 t2 →
    (∀ x ∈ syms t1, x.1 ≠ .plain → ∀ k, 1 ≤ k → k < x.2 → Invariant G ((τ1 x.1 x.2).step x.2 k)) →
    (∀ x ∈ syms t1, ∀ y ∈ syms t2, sameSymmetry x.1 x.2 y.1 y.2 → SameSteps (τ1 x.1 x.2) (τ2 y.1 y.2) x.2) →
    Represents E G (build basic G aca t1 t2) t1 t2 := by
  have node : ∀ (s1 : Sym) (ps1 : List Tree), Coherent τ1 (.node s1 ps1) →
      (∀ t ∈ ps1, ∀ t2, Coherent τ2 t2 →
        (∀ x ∈ syms t, x.1 ≠ .plain → ∀ k, 1 ≤ k → k < x.2 → Invariant G ((τ1 x.1 x.2).step x.2 k)) →
        (∀ x ∈ syms t, ∀ y ∈ syms t2, sameSymmetry x.1 x.2 y.1 y.2 → SameSteps (τ1 x.1 x.2) (τ2 y.1 y.2) x.2) →
        Represents E G (build basic G aca t t2) t t2) →
      ∀ t2, Coherent τ2 t2 →
      (∀ x ∈ syms (.node s1 ps1), x.1 ≠ .plain → ∀ k, 1 ≤ k → k < x.2 → Invariant G ((τ1 x.1 x.2).step x.2 k)) →
      (∀ x ∈ syms (.node s1 ps1), ∀ y ∈ syms t2, sameSymmetry x.1 x.2 y.1 y.2 →
        SameSteps (τ1 x.1 x.2) (τ2 y.1 y.2) x.2) →
      Represents E G (build basic G aca (.node s1 ps1) t2) (.node s1 ps1) t2 := by
    intro s1 ps1 hc1 ih t2 hc2 hinv hsame
    cases t2 with
    | leaf m =>
      rw [build]
      exact leaf_case hE haca _ _
    | node s2 ps2 =>
      have ht : Table E G (buildAll basic G aca ps1 ps2) ps1 ps2 := by
        refine table_of fun t htm u hum => ?_
        exact ih t htm u ((coherent_node hc2).2 u hum) (fun x hx => hinv x (syms_mem htm hx))
          fun x hx y hy => hsame x (syms_mem htm hx) y (syms_mem hum hy)
      have hplain := combine_plain (basic := basic) hE haca (s1 := s1) (s2 := s2) ht (coherent_node hc1).1 (coherent_node hc2).1
      have hinv0 := hinv (s1, ps1.length) (by rw [syms]; exact List.mem_cons_self)
      have hsame0 := hsame (s1, ps1.length) (by rw [syms]; exact List.mem_cons_self) (s2, ps2.length)
        (by rw [syms]; exact List.mem_cons_self)
      simp only at hinv0 hsame0
      rw [build]
      unfold combine
      simp only
      split
      · rename_i hs
        have hss := hsame0 hs
        cases hc1 with
        | plain _ _ _ => exact hplain
        | symmetric _ a1 rest1 hs1 hu1 ha1 hrest1 hr1 himg1 =>
          cases hc2 with
          | plain _ _ _ => cases s1 <;> exact absurd hs (by simp [sameSymmetry])
          | symmetric _ a2 rest2 hs2 hu2 ha2 hrest2 hr2 himg2 =>
            rw [List.length_cons, List.length_cons] at hss
            rw [List.length_cons] at hinv0
            cases s1 with
            | plain => cases s2 <;> exact absurd hs (by simp [sameSymmetry])
            | reflection P =>
              cases s2 with
              | reflection Q =>
                obtain ⟨b1, rfl⟩ := List.length_eq_one_iff.mp (hr1 P rfl)
                obtain ⟨b2, rfl⟩ := List.length_eq_one_iff.mp (hr2 Q rfl)
                have hinv1 := hinv0 (by simp) 1 le_rfl (by simp)
                have h1 := himg1 0 b1 rfl
                have h2 := himg2 0 b2 rfl
                have h3 := hss 1 le_rfl (by simp)
                generalize τ1 (.reflection P) ([b1].length + 1) = s1' at *
                generalize τ2 (.reflection Q) ([b2].length + 1) = s2' at *
                cases s1' with
                | reflection P' =>
                  cases s2' with
                  | reflection Q' => exact reflection_case hu1 h1 h2 h3 hinv1 ht _ _
                  | _ => exact hs2.elim
                | _ => exact hs1.elim
              | _ => exact absurd hs (by simp [sameSymmetry])
            | translation v =>
              cases s2 with
              | translation w =>
                have hlen : rest1.length = rest2.length := by
                  have := hs.2
                  simpa using this
                simp only
                split
                · rename_i hb
                  rw [if_pos hb] at hplain
                  exact hplain
                · have hinv1 := hinv0 (by simp)
                  generalize τ1 (.translation v) (rest1.length + 1) = s1' at *
                  generalize τ2 (.translation w) (rest2.length + 1) = s2' at *
                  cases s1' with
                  | translation P' =>
                    cases s2' with
                    | translation Q' => exact translation_case hlen himg1 himg2 hss hinv1 ht _ _
                    | _ => exact hs2.elim
                  | _ => exact hs1.elim
              | _ => exact absurd hs (by simp [sameSymmetry])
            | axial v =>
              cases s2 with
              | axial w =>
                have hlen : rest1.length = rest2.length := by
                  have := hs.2
                  simpa using this
                simp only
                split
                · rename_i hb
                  rw [if_pos hb] at hplain
                  exact hplain
                · have hinv1 := hinv0 (by simp)
                  generalize τ1 (.axial v) (rest1.length + 1) = s1' at *
                  generalize τ2 (.axial w) (rest2.length + 1) = s2' at *
                  cases s1' with
                  | axial P' =>
                    cases s2' with
                    | axial Q' => exact axial_case hu1 hlen himg1 himg2 hss hinv1 ht _ _
                    | _ => exact hs2.elim
                  | _ => exact hs1.elim
              | _ => exact absurd hs (by simp [sameSymmetry])
      · exact hplain
  induction h1 with
  | leaf m =>
    intro t2 _ _ _
    cases t2 with
    | leaf m2 =>
      rw [build]
      exact leaf_case hE haca _ _
    | node s ps =>
      rw [build]
      exact leaf_case hE haca _ _
  | plain ps hn h ih => exact node .plain ps (.plain ps hn h) ih
  | symmetric s t rest hs hu ht hrest hr h ih1 ih2 =>
    refine node s (t :: rest) (.symmetric s t rest hs hu ht hrest hr h) fun u hu => ?_
    rcases List.mem_cons.mp hu with rfl | hu
    · exact ih1
    · exact ih2 u hu

/-- C21, for the expanded matrix: without low rank block it is the matrix computed without symmetries. -/
theorem full_matrix_partial (τ1 τ2 : Sym → ℕ → Sym) (basic : Bool) (t1 t2 : Tree) (h1 : Coherent τ1 t1) (h2 : Coherent τ2 t2)
    (hinv : ∀ x ∈ syms t1, x.1 ≠ .plain → ∀ k, 1 ≤ k → k < x.2 → Invariant G ((τ1 x.1 x.2).step x.2 k))
    (hsame : ∀ x ∈ syms t1, ∀ y ∈ syms t2, sameSymmetry x.1 x.2 y.1 y.2 → SameSteps (τ1 x.1 x.2) (τ2 y.1 y.2) x.2)
    (F F' : Arr R) (r c : ℕ) (hr : r < t1.nbFaces) (hc : c < t2.nbFaces) :
    (build basic G (fun _ _ => none) t1 t2).fullMatrix F r c = (evaluate G t1 t2).fullMatrix F' r c := by
  have h := build_represents_partial (E := Eq) τ1 τ2 basic (fun _ _ => none) (fun _ => rfl) (by simp) t1 h1 t2 h2 hinv hsame
  have h0 := evaluate_represents (E := Eq) (G := G) (fun _ => rfl) t1 t2
  rw [full_matrix_eq_entry _ h.wf F r c (by rw [h.shape]; exact hr) (by rw [h.shape]; exact hc),
    full_matrix_eq_entry _ h0.wf F' r c (by rw [h0.shape]; exact hr) (by rw [h0.shape]; exact hc)]
  obtain ⟨a, ha⟩ : ∃ a, (panels t1)[r]? = some a := ⟨_, List.getElem?_eq_getElem (by rw [panels_length]; exact hr)⟩
  obtain ⟨b, hb⟩ : ∃ b, (panels t2)[c]? = some b := ⟨_, List.getElem?_eq_getElem (by rw [panels_length]; exact hc)⟩
  exact (h.entry r c a b ha hb).trans (h0.entry r c a b ha hb).symm

end

end Verif.Engines
