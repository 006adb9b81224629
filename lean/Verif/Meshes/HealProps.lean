import Verif.Meshes.HealModel
import Verif.Meshes.CacheProps
import Mathlib.Data.List.Nodup
import Mathlib.Data.List.Dedup
import Mathlib.Data.Finset.Card
import Mathlib.Data.Fintype.Card
import Mathlib.Tactic.SplitIfs

/-!
# C71: consistent orientation of the normals
-/

namespace Verif.Meshes

open Verif.Geometry V3

/-! ## Specification -/

/-- The side `u → v` of a panel, in the direction in which the panel is described. -/
def Side (f : Face) (u v : ℕ) : Prop :=
  (f.a = u ∧ f.b = v) ∨ (f.b = u ∧ f.c = v) ∨ (f.c = u ∧ f.d = v) ∨ (f.d = u ∧ f.a = v ∧ u ≠ v)

/-- A proper triangle (first corner repeated at the end) or quadrangle. -/
def Proper (f : Face) : Prop :=
  f.a ≠ f.b ∧ f.b ≠ f.c ∧ f.c ≠ f.a ∧ (f.a = f.d ∨ (f.a ≠ f.d ∧ f.b ≠ f.d ∧ f.c ≠ f.d))

/-- The corner belongs to the panel. -/
def Corner (f : Face) (u : ℕ) : Prop := u = f.a ∨ u = f.b ∨ u = f.c ∨ u = f.d

/-- A conformal mesh: proper panels, and two different panels with at least two common corners have exactly
two of them, which form a side of both. -/
structure Conformal (fs : List Face) : Prop where
  proper : ∀ f ∈ fs, Proper f
  common : ∀ (i j : ℕ) f g, i ≠ j → fs[i]? = some f → fs[j]? = some g → ∀ u v, u ≠ v →
    Corner f u → Corner g u → Corner f v → Corner g v →
    (∀ w, Corner f w → Corner g w → w = u ∨ w = v) ∧ (Side f u v ∨ Side f v u) ∧ (Side g u v ∨ Side g v u)

/-- A panel, reversed or not. -/
def Face.flipIf (b : Bool) (f : Face) : Face := if b then f.flip else f

/-- A consistent orientation: no side is followed in the same direction by two panels. -/
def Consistent (fs : List Face) : Prop :=
  ∀ (i j : ℕ) f g, i ≠ j → fs[i]? = some f → fs[j]? = some g → ∀ u v, Side f u v → ¬ Side g u v

/-- Some panels of the first mesh have been reversed to get the second one. -/
def Reversed (τ : ℕ → Bool) (fs gs : List Face) : Prop := ∀ i : ℕ, gs[i]? = fs[i]?.map (Face.flipIf (τ i))

/-- Some panels can be reversed to get a consistent orientation. -/
def Orientable (fs : List Face) : Prop := ∃ σ gs, Reversed σ fs gs ∧ Consistent gs

/-! ## Two neighbours -/

theorem side_flip (f : Face) (hf : Proper f) (u v : ℕ) : Side f.flip u v ↔ Side f v u := by
  obtain ⟨a, b, c, d⟩ := f
  obtain ⟨h1, h2, h3, h4⟩ := hf
  simp only [Side, Face.flip] at *
  constructor
  · rintro (⟨rfl, rfl⟩ | ⟨rfl, rfl⟩ | ⟨rfl, rfl⟩ | ⟨rfl, rfl, h⟩)
    · simp
    · simp
    · simp
    · refine .inr (.inr (.inr ⟨rfl, rfl, h.symm⟩))
  · rintro (⟨rfl, rfl⟩ | ⟨rfl, rfl⟩ | ⟨rfl, rfl⟩ | ⟨rfl, rfl, h⟩)
    · simp
    · simp
    · simp
    · refine .inr (.inr (.inr ⟨rfl, rfl, h.symm⟩))

theorem proper_flip {f : Face} (hf : Proper f) : Proper f.flip := by
  obtain ⟨a, b, c, d⟩ := f
  obtain ⟨h1, h2, h3, h4⟩ := hf
  simp only [Proper, Face.flip] at *
  rcases h4 with h4 | ⟨h4, h5, h6⟩
  · subst h4
    exact ⟨fun h => h3 h.symm, fun h => h2 h.symm, fun h => h1 h.symm, .inl rfl⟩
  · exact ⟨fun h => h6 h.symm, fun h => h2 h.symm, h5, .inr ⟨fun h => h4 h.symm, fun h => h3 h, fun h => h1 h.symm⟩⟩

theorem corner_flip (f : Face) (u : ℕ) : Corner f.flip u ↔ Corner f u := by
  unfold Corner Face.flip; tauto

theorem proper_flipIf {f : Face} (hf : Proper f) (b : Bool) : Proper (f.flipIf b) := by
  cases b
  · exact hf
  · exact proper_flip hf

theorem side_ne {f : Face} (hf : Proper f) {u v : ℕ} (h : Side f u v) : u ≠ v := by
  obtain ⟨a, b, c, d⟩ := f
  obtain ⟨h1, h2, h3, h4⟩ := hf
  simp only [Side] at *
  rcases h with ⟨rfl, rfl⟩ | ⟨rfl, rfl⟩ | ⟨rfl, rfl⟩ | ⟨rfl, rfl, h⟩
  · exact h1
  · exact h2
  · rcases h4 with rfl | h4
    · exact h3
    · exact h4.2.2
  · exact h

theorem side_corner {f : Face} {u v : ℕ} (h : Side f u v) : Corner f u ∧ Corner f v := by
  unfold Side at h; unfold Corner
  rcases h with ⟨rfl, rfl⟩ | ⟨rfl, rfl⟩ | ⟨rfl, rfl⟩ | ⟨rfl, rfl, h⟩ <;> simp

/-- A panel does not follow a side in both directions. -/
theorem side_asymm {f : Face} (hf : Proper f) {u v : ℕ} (h : Side f u v) : ¬ Side f v u := by
  obtain ⟨a, b, c, d⟩ := f
  obtain ⟨h1, h2, h3, h4⟩ := hf
  simp only [Side] at *
  rcases h4 with rfl | ⟨h4, h5, h6⟩
  · rintro (⟨h, h'⟩ | ⟨h, h'⟩ | ⟨h, h'⟩ | ⟨h, h', _⟩) <;>
    rcases h with ⟨k, k'⟩ | ⟨k, k'⟩ | ⟨k, k'⟩ | ⟨k, k', _⟩ <;> omega
  · rintro (⟨h, h'⟩ | ⟨h, h'⟩ | ⟨h, h'⟩ | ⟨h, h', _⟩) <;>
    rcases h with ⟨k, k'⟩ | ⟨k, k'⟩ | ⟨k, k'⟩ | ⟨k, k', _⟩ <;> omega

theorem mem_sides {f : Face} (hf : Proper f) (u v : ℕ) : (u, v) ∈ f.sides ↔ Side f u v := by
  obtain ⟨a, b, c, d⟩ := f
  obtain ⟨h1, h2, h3, h4⟩ := hf
  simp only [Side] at *
  rcases h4 with rfl | ⟨h4, h5, h6⟩
  · have ht : Face.isTriangle ⟨a, b, c, a⟩ = true := by simp [Face.isTriangle]
    simp only [Face.sides, ht, if_true, List.mem_cons, List.not_mem_nil, or_false, Prod.mk.injEq]
    omega
  · have ht : Face.isTriangle ⟨a, b, c, d⟩ = false := by simpa [Face.isTriangle] using h4
    simp only [Face.sides, ht, Bool.false_eq_true, if_false, List.mem_cons, List.not_mem_nil, or_false, Prod.mk.injEq]
    omega

theorem mem_ring (f : Face) (u : ℕ) : u ∈ f.ring ↔ Corner f u := by
  unfold Face.ring Corner Face.isTriangle
  split
  · rename_i h
    have h : f.a = f.d := by simpa using h
    rw [← h]
    simp; tauto
  · simp

theorem mem_toList (f : Face) (u : ℕ) : u ∈ f.toList ↔ Corner f u := by
  unfold Face.toList Corner; simp

theorem succ_in_ring {f : Face} (hf : Proper f) {u : ℕ} (hu : Corner f u) (v : ℕ) :
    ((f.ring.rotate (f.toList.idxOf u))[1]? = some v ↔ Side f u v) ∧
    ((f.ring.rotate (f.toList.idxOf u)).getLast? = some v ↔ Side f v u) := by
  obtain ⟨a, b, c, d⟩ := f
  obtain ⟨h1, h2, h3, h4⟩ := hf
  simp only [Side, Corner, Face.toList] at *
  rcases h4 with rfl | ⟨h4, h5, h6⟩
  · have ht : Face.isTriangle ⟨a, b, c, a⟩ = true := by simp [Face.isTriangle]
    simp only [Face.ring, ht, if_true]
    rcases hu with rfl | rfl | rfl | rfl
    · simp; omega
    · simp [h1, Ne.symm h1, List.rotate_cons_succ]; omega
    · simp [h2, Ne.symm h3, List.rotate_cons_succ, h3]
      try omega
    · simp; omega
  · have ht : Face.isTriangle ⟨a, b, c, d⟩ = false := by simpa [Face.isTriangle] using h4
    simp only [Face.ring, ht, Bool.false_eq_true, if_false]
    rcases hu with rfl | rfl | rfl | rfl
    · simp; omega
    · simp [h1, List.rotate_cons_succ]; omega
    · simp [h2, Ne.symm h3, List.rotate_cons_succ, h3]; omega
    · simp [h4, h5, h6, List.rotate_cons_succ]; omega

/-- Two panels have exactly the common corners `u` and `v`, and these form a side of both. -/
structure Neighbours (f g : Face) (u v : ℕ) : Prop where
  ne : u ≠ v
  fu : Corner f u
  fv : Corner f v
  gu : Corner g u
  gv : Corner g v
  only : ∀ w, Corner f w → Corner g w → w = u ∨ w = v
  fside : Side f u v ∨ Side f v u
  gside : Side g u v ∨ Side g v u

/-- The two panels follow a common side in the same direction. -/
def Agree (f g : Face) : Prop := ∃ u v, Side f u v ∧ Side g u v

theorem agree_iff {f g : Face} (hf : Proper f) (hg : Proper g) {u v : ℕ} (h : Neighbours f g u v) :
    Agree f g ↔ (Side f u v ↔ Side g u v) := by
  constructor
  · rintro ⟨x, y, hx, hy⟩
    have n1 := h.only x (side_corner hx).1 (side_corner hy).1
    have n2 := h.only y (side_corner hx).2 (side_corner hy).2
    have n3 := side_ne hf hx
    rcases n1 with rfl | rfl <;> rcases n2 with rfl | rfl
    · exact absurd rfl n3
    · exact ⟨fun _ => hy, fun _ => hx⟩
    · exact ⟨fun h' => absurd h' (side_asymm hf hx), fun h' => absurd h' (side_asymm hg hy)⟩
    · exact absurd rfl n3
  · intro hiff
    by_cases h1 : Side f u v
    · exact ⟨u, v, h1, hiff.1 h1⟩
    · exact ⟨v, u, h.fside.resolve_left h1, h.gside.resolve_left fun h2 => h1 (hiff.2 h2)⟩

theorem neighbours_flip_left {f g : Face} (hf : Proper f) {u v : ℕ} (h : Neighbours f g u v) :
    Neighbours f.flip g u v where
  ne := h.ne
  fu := (corner_flip f u).2 h.fu
  fv := (corner_flip f v).2 h.fv
  gu := h.gu
  gv := h.gv
  only := fun w hw => h.only w ((corner_flip f w).1 hw)
  fside := by rw [side_flip f hf, side_flip f hf]; exact h.fside.symm
  gside := h.gside

theorem Neighbours.symm {f g : Face} {u v : ℕ} (h : Neighbours f g u v) : Neighbours g f u v :=
  ⟨h.ne, h.gu, h.gv, h.fu, h.fv, fun w h1 h2 => h.only w h2 h1, h.gside, h.fside⟩

theorem agree_symm {f g : Face} : Agree f g ↔ Agree g f :=
  ⟨fun ⟨u, v, h, h'⟩ => ⟨u, v, h', h⟩, fun ⟨u, v, h, h'⟩ => ⟨u, v, h', h⟩⟩

theorem agree_flip_left {f g : Face} (hf : Proper f) (hg : Proper g) {u v : ℕ} (h : Neighbours f g u v) :
    Agree f.flip g ↔ ¬ Agree f g := by
  rw [agree_iff (proper_flip hf) hg (neighbours_flip_left hf h), agree_iff hf hg h, side_flip f hf]
  have h1 : Side f v u ↔ ¬ Side f u v :=
    ⟨fun h' => side_asymm hf h', fun h' => h.fside.resolve_left h'⟩
  rw [h1]
  by_cases h2 : Side f u v <;> by_cases h3 : Side g u v <;> simp [h2, h3]

theorem neighbours_flipIf {f g : Face} (hf : Proper f) (hg : Proper g) {u v : ℕ} (h : Neighbours f g u v)
    (a b : Bool) : Neighbours (f.flipIf a) (g.flipIf b) u v := by
  cases a <;> cases b
  · exact h
  · exact (neighbours_flip_left hg h.symm).symm
  · exact neighbours_flip_left hf h
  · exact (neighbours_flip_left hg (neighbours_flip_left hf h).symm).symm

theorem agree_flipIf {f g : Face} (hf : Proper f) (hg : Proper g) {u v : ℕ} (h : Neighbours f g u v)
    (a b : Bool) : Agree (f.flipIf a) (g.flipIf b) ↔ (Agree f g ↔ a = b) := by
  have h2 : Agree f g.flip ↔ ¬ Agree f g := by
    rw [agree_symm, agree_flip_left hg hf h.symm, agree_symm]
  cases a <;> cases b
  · simp [Face.flipIf]
  · simp [Face.flipIf, h2]
  · simp [Face.flipIf, agree_flip_left hf hg h]
  · have := agree_flip_left hf (proper_flip hg) (neighbours_flip_left hg h.symm).symm
    simp [Face.flipIf, this, h2]

theorem commonVertices_eq {f g : Face} {u v : ℕ} (h : Neighbours f g u v) :
    commonVertices f g = [u, v] ∨ commonVertices f g = [v, u] := by
  have hm : ∀ w, w ∈ commonVertices f g ↔ w = u ∨ w = v := by
    intro w
    unfold commonVertices
    rw [List.mem_filter, List.mem_dedup, mem_toList, List.contains_iff_mem, mem_toList]
    constructor
    · exact fun ⟨h1, h2⟩ => h.only w h1 h2
    · rintro (rfl | rfl)
      · exact ⟨h.fu, h.gu⟩
      · exact ⟨h.fv, h.gv⟩
  have hn : (commonVertices f g).Nodup := (List.nodup_dedup _).filter _
  have hp : (commonVertices f g).Perm [u, v] := by
    rw [List.perm_ext_iff_of_nodup hn (by simp [h.ne])]
    intro w; rw [hm]; simp
  have hl := hp.length_eq
  match hc : commonVertices f g, hl with
  | [x, y], _ =>
    rw [hc] at hn hm
    have h1 := (hm x).1 (by simp)
    have h2 := (hm y).1 (by simp)
    have h3 : x ≠ y := by simpa using hn
    rcases h1 with rfl | rfl <;> rcases h2 with rfl | rfl
    · exact absurd rfl h3
    · exact .inl rfl
    · exact .inr rfl
    · exact absurd rfl h3

theorem Neighbours.swap {f g : Face} {u v : ℕ} (h : Neighbours f g u v) : Neighbours f g v u :=
  ⟨h.ne.symm, h.fv, h.fu, h.gv, h.gu, fun w h1 h2 => (h.only w h1 h2).symm, h.fside.symm, h.gside.symm⟩

theorem sameDirection_iff {f g : Face} (hf : Proper f) (hg : Proper g) {u v : ℕ} (h : Neighbours f g u v) :
    sameDirection f g u v = true ↔ Agree f g := by
  rw [agree_iff hf hg h]
  unfold sameDirection
  simp only
  by_cases hs : Side f u v
  · rw [if_pos (by simpa using ((succ_in_ring hf h.fu v).1).2 hs)]
    rw [beq_iff_eq, (succ_in_ring hg h.gu v).1]
    simp [hs]
  · rw [if_neg (by simpa using fun h' => hs (((succ_in_ring hf h.fu v).1).1 h'))]
    rw [beq_iff_eq, (succ_in_ring hg h.gu v).2]
    have h1 := side_asymm hg (u := v) (v := u)
    have h2 := h.gside
    by_cases h3 : Side g u v <;> simp [hs, h3] at h1 h2 ⊢
    · exact h1
    · exact h2

/-! ## The flood -/

/-- What the flood needs: a symmetric relation between different existing faces, which share exactly a
side. -/
structure Linked (nb : ℕ → List ℕ) (fs : List Face) : Prop where
  symm : ∀ i j, j ∈ nb i → i ∈ nb j
  neighbours : ∀ i j, j ∈ nb i → ∃ f g u v, fs[i]? = some f ∧ fs[j]? = some g ∧ Neighbours f g u v ∧ i ≠ j

/-- Invariant of the flood. `τ` says which faces have been reversed, `σ` is some consistent orientation; the
set `old` is what had been visited before the last restart. -/
structure FloodInv (nb : ℕ → List ℕ) (fs : List Face) (σ : ℕ → Bool) (ex : List ℕ) (s : Flood)
    (τ : ℕ → Bool) (old : List ℕ) (c : Bool) : Prop where
  faces : Reversed τ fs s.faces
  old_visited : ∀ i ∈ old, i ∈ s.visited
  old_closed : ∀ i ∈ old, ∀ j ∈ nb i, j ∈ old
  old_same : ∀ i ∈ old, ∀ j ∈ nb i, (σ i ^^ τ i) = (σ j ^^ τ j)
  same : ∀ i ∈ s.visited, i ∉ old → (σ i ^^ τ i) = c
  stack : ∀ i ∈ s.stack, i ∈ s.visited ∧ i ∉ old
  done : ∀ i ∈ s.visited, i ∉ old → i ∉ s.stack → i ∉ ex → ∀ j ∈ nb i, j ∈ s.visited
  nodup : s.visited.Nodup
  bound : ∀ i ∈ s.visited, i < fs.length

theorem Reversed.length_eq {τ : ℕ → Bool} {fs gs : List Face} (h : Reversed τ fs gs) :
    gs.length = fs.length := by
  apply Nat.le_antisymm
  · by_contra hc
    have := h fs.length
    rw [List.getElem?_eq_none (Nat.le_refl _), List.getElem?_eq_getElem (by omega)] at this
    cases this
  · by_contra hc
    have := h gs.length
    rw [List.getElem?_eq_none (Nat.le_refl _), List.getElem?_eq_getElem (by omega)] at this
    cases this

theorem flipIf_flip (b : Bool) (f : Face) : (f.flipIf b).flip = f.flipIf !b := by
  cases b <;> rfl

theorem visit_inv {nb : ℕ → List ℕ} {fs : List Face} (hl : Linked nb fs) (hp : ∀ f ∈ fs, Proper f)
    {σ : ℕ → Bool} (hσ : ∀ i j f g, j ∈ nb i → fs[i]? = some f → fs[j]? = some g →
      (Agree f g ↔ ¬ σ i = σ j))
    {i j : ℕ} (hij : j ∈ nb i) {s : Flood} {τ : ℕ → Bool} {old : List ℕ} {c : Bool}
    (h : FloodInv nb fs σ [i] s τ old c) (hi : i ∈ s.visited) (hio : i ∉ old) :
    ∃ τ', FloodInv nb fs σ [i] (s.visit i j) τ' old c ∧ j ∈ (s.visit i j).visited ∧
      (∀ x ∈ s.visited, x ∈ (s.visit i j).visited) ∧
      (s.visit i j).stack.length + s.visited.length = s.stack.length + (s.visit i j).visited.length := by
  unfold Flood.visit
  by_cases hj : j ∈ s.visited
  · rw [if_pos hj]
    exact ⟨τ, h, hj, fun x hx => hx, rfl⟩
  · rw [if_neg hj]
    obtain ⟨f, g, u, v, hf, hg, hn, hne⟩ := hl.neighbours i j hij
    have pf := hp f (List.mem_of_getElem? hf)
    have pg := hp g (List.mem_of_getElem? hg)
    have hfi : s.faces[i]? = some (f.flipIf (τ i)) := by rw [h.faces i, hf]; rfl
    have hgj : s.faces[j]? = some (g.flipIf (τ j)) := by rw [h.faces j, hg]; rfl
    have hjl : j < s.faces.length := (List.getElem?_eq_some_iff.1 hgj).1
    have hjo : j ∉ old := fun hc => hj (h.old_visited j hc)
    have hagree := agree_flipIf pf pg hn (τ i) (τ j)
    rw [hσ i j f g hij hf hg] at hagree
    have hN := neighbours_flipIf pf pg hn (τ i) (τ j)
    have key : ∀ x y, (x = u ∧ y = v) ∨ (x = v ∧ y = u) →
        (sameDirection (f.flipIf (τ i)) (g.flipIf (τ j)) x y = true ↔
          Agree (f.flipIf (τ i)) (g.flipIf (τ j))) := by
      rintro x y (⟨rfl, rfl⟩ | ⟨rfl, rfl⟩)
      · exact sameDirection_iff (proper_flipIf pf _) (proper_flipIf pg _) hN
      · exact sameDirection_iff (proper_flipIf pf _) (proper_flipIf pg _) hN.swap
    have main : ∀ x y, (x = u ∧ y = v) ∨ (x = v ∧ y = u) → ∃ τ', FloodInv nb fs σ [i]
        ⟨if sameDirection (f.flipIf (τ i)) (g.flipIf (τ j)) x y then s.faces.set j (g.flipIf (τ j)).flip
          else s.faces, j :: s.visited, j :: s.stack⟩ τ' old c := by
      intro x y hxy
      have hk := key x y hxy
      generalize sameDirection (f.flipIf (τ i)) (g.flipIf (τ j)) x y = b at hk
      have hci := h.same i hi hio
      have hdj : (σ j ^^ (τ j ^^ b)) = c := by
        rw [← hci]
        rw [hagree] at hk
        revert hk
        generalize σ i = a1; generalize σ j = a2; generalize τ i = a3; generalize τ j = a4
        revert a1 a2 a3 a4 b
        decide
      refine ⟨fun k => if k = j then τ j ^^ b else τ k, ?_, ?_, ?_, ?_, ?_, ?_, ?_, ?_, ?_⟩
      · intro k
        by_cases hkj : k = j
        · subst hkj
          simp only [if_true]
          cases b with
          | true =>
            simp only [if_true, List.getElem?_set_self hjl, hg, Option.map_some, Option.some.injEq]
            rw [flipIf_flip]; simp
          | false => simp [hgj, hg]
        · simp only [if_neg hkj]
          cases b with
          | true =>
            simp only [if_true]
            rw [List.getElem?_set_ne (Ne.symm hkj)]; exact h.faces k
          | false => simpa using h.faces k
      · exact fun k hk => List.mem_cons_of_mem _ (h.old_visited k hk)
      · exact h.old_closed
      · intro a ha b' hb
        have h1 : a ≠ j := fun e => hjo (e ▸ ha)
        have h2 : b' ≠ j := fun e => hjo (e ▸ h.old_closed a ha b' hb)
        simp only [if_neg h1, if_neg h2]
        exact h.old_same a ha b' hb
      · intro k hk hko
        by_cases hkj : k = j
        · subst hkj; simp only [if_true]; exact hdj
        · simp only [if_neg hkj]
          exact h.same k ((List.mem_cons.1 hk).resolve_left hkj) hko
      · intro k hk
        rcases List.mem_cons.1 hk with rfl | hk
        · exact ⟨List.mem_cons_self, hjo⟩
        · exact ⟨List.mem_cons_of_mem _ (h.stack k hk).1, (h.stack k hk).2⟩
      · intro k hk hko hks hke l hkl
        have h1 : k ≠ j := fun e => hks (e ▸ List.mem_cons_self)
        exact List.mem_cons_of_mem _ (h.done k ((List.mem_cons.1 hk).resolve_left h1) hko
          (fun h' => hks (List.mem_cons_of_mem _ h')) hke l hkl)
      · exact List.nodup_cons.2 ⟨hj, h.nodup⟩
      · intro k hk
        rcases List.mem_cons.1 hk with rfl | hk
        · exact (List.getElem?_eq_some_iff.1 hg).1
        · exact h.bound k hk
    rw [hfi, hgj]
    simp only
    have fin : ∀ s' : Flood, s'.visited = j :: s.visited → s'.stack = j :: s.stack →
        j ∈ s'.visited ∧ (∀ x ∈ s.visited, x ∈ s'.visited) ∧
        s'.stack.length + s.visited.length = s.stack.length + s'.visited.length := by
      intro s' h1 h2
      rw [h1, h2]
      exact ⟨List.mem_cons_self, fun x hx => List.mem_cons_of_mem _ hx, by simp; omega⟩
    rcases commonVertices_eq hN with hc | hc
    · rw [hc]
      obtain ⟨τ', ht⟩ := main u v (.inl ⟨rfl, rfl⟩)
      exact ⟨τ', ht, fin _ rfl rfl⟩
    · rw [hc]
      obtain ⟨τ', ht⟩ := main v u (.inr ⟨rfl, rfl⟩)
      exact ⟨τ', ht, fin _ rfl rfl⟩

theorem visits_inv {nb : ℕ → List ℕ} {fs : List Face} (hl : Linked nb fs) (hp : ∀ f ∈ fs, Proper f)
    {σ : ℕ → Bool} (hσ : ∀ i j f g, j ∈ nb i → fs[i]? = some f → fs[j]? = some g →
      (Agree f g ↔ ¬ σ i = σ j))
    {i : ℕ} (l : List ℕ) (hil : ∀ j ∈ l, j ∈ nb i) {s : Flood} {τ : ℕ → Bool} {old : List ℕ} {c : Bool}
    (h : FloodInv nb fs σ [i] s τ old c) (hi : i ∈ s.visited) (hio : i ∉ old) :
    ∃ τ', FloodInv nb fs σ [i] (l.foldl (Flood.visit i) s) τ' old c ∧
      (∀ j ∈ l, j ∈ (l.foldl (Flood.visit i) s).visited) ∧
      (∀ x ∈ s.visited, x ∈ (l.foldl (Flood.visit i) s).visited) ∧
      (l.foldl (Flood.visit i) s).stack.length + s.visited.length =
        s.stack.length + (l.foldl (Flood.visit i) s).visited.length := by
  induction l generalizing s τ with
  | nil => exact ⟨τ, h, by simp, fun x hx => hx, rfl⟩
  | cons j l ih =>
    obtain ⟨τ1, h1, h2, h3, h4⟩ := visit_inv hl hp hσ (hil j List.mem_cons_self) h hi hio
    obtain ⟨τ2, k1, k2, k3, k4⟩ := ih (fun x hx => hil x (List.mem_cons_of_mem _ hx)) h1 (h3 i hi)
    refine ⟨τ2, k1, fun x hx => ?_, fun x hx => k3 x (h3 x hx), ?_⟩
    · rcases List.mem_cons.1 hx with rfl | hx
      · exact k3 x h2
      · exact k2 x hx
    · simp only [List.foldl_cons]
      omega

theorem length_le_of_bound {l : List ℕ} {n : ℕ} (hn : l.Nodup) (hb : ∀ i ∈ l, i < n) : l.length ≤ n := by
  have := hn.length_le_of_subset (l₂ := List.range n) fun i hi => List.mem_range.2 (hb i hi)
  simpa using this

theorem all_of_length {l : List ℕ} {n : ℕ} (hn : l.Nodup) (hb : ∀ i ∈ l, i < n) (hl : n ≤ l.length) :
    ∀ i, i < n → i ∈ l := by
  intro i hi
  by_contra hc
  have := length_le_of_bound (l := i :: l) (n := n) (List.nodup_cons.2 ⟨hc, hn⟩) fun k hk => by
    rcases List.mem_cons.1 hk with rfl | hk
    · exact hi
    · exact hb k hk
  simp at this
  omega

/-- At the end of the flood the faces have been reversed so as to differ from the orientation `σ` in the
same way as their neighbours. -/
theorem run_inv {nb : ℕ → List ℕ} {fs : List Face} (hl : Linked nb fs) (hp : ∀ f ∈ fs, Proper f)
    {σ : ℕ → Bool} (hσ : ∀ i j f g, j ∈ nb i → fs[i]? = some f → fs[j]? = some g →
      (Agree f g ↔ ¬ σ i = σ j))
    (n : ℕ) {s : Flood} {τ : ℕ → Bool} {old : List ℕ} {c : Bool} (h : FloodInv nb fs σ [] s τ old c)
    (hn : 2 * (fs.length - s.visited.length) + s.stack.length ≤ n) :
    ∃ τ', Reversed τ' fs (Flood.run nb n s).faces ∧
      ∀ i j, j ∈ nb i → (σ i ^^ τ' i) = (σ j ^^ τ' j) := by
  have final : ∀ {s : Flood} {τ : ℕ → Bool} {old : List ℕ} {c : Bool}, FloodInv nb fs σ [] s τ old c →
      s.stack = [] → (∀ i, i < fs.length → i ∈ s.visited) → ∀ i j, j ∈ nb i →
      (σ i ^^ τ i) = (σ j ^^ τ j) := by
    intro s τ old c h hs hv i j hij
    obtain ⟨f, g, _, _, hf, hg, _, _⟩ := hl.neighbours i j hij
    by_cases hio : i ∈ old
    · exact h.old_same i hio j hij
    · have hjo : j ∉ old := fun hc => hio (h.old_closed j hc i (hl.symm i j hij))
      rw [h.same i (hv i (List.getElem?_eq_some_iff.1 hf).1) hio,
        h.same j (hv j (List.getElem?_eq_some_iff.1 hg).1) hjo]
  induction n generalizing s τ old c with
  | zero =>
    have h1 : s.stack.length = 0 := by omega
    have h2 : fs.length ≤ s.visited.length := by omega
    exact ⟨τ, h.faces, final h (List.length_eq_zero_iff.1 h1) (all_of_length h.nodup h.bound h2)⟩
  | succ n ih =>
    unfold Flood.run
    cases hs : s.stack with
    | cons i st =>
      simp only
      have hi := h.stack i (by rw [hs]; exact List.mem_cons_self)
      have h' : FloodInv nb fs σ [i] { s with stack := st } τ old c :=
        { faces := h.faces
          old_visited := h.old_visited
          old_closed := h.old_closed
          old_same := h.old_same
          same := h.same
          stack := fun k hk => h.stack k (by rw [hs]; exact List.mem_cons_of_mem _ hk)
          done := fun k hk hko hks hke => h.done k hk hko
            (by rw [hs]; intro hc; rcases List.mem_cons.1 hc with rfl | hc
                · exact hke (List.mem_cons_self)
                · exact hks hc) (by simp)
          nodup := h.nodup
          bound := h.bound }
      obtain ⟨τ', k1, k2, k3, k4⟩ := visits_inv hl hp hσ (nb i) (fun j hj => hj) h' hi.1 hi.2
      have k5 : FloodInv nb fs σ [] ((nb i).foldl (Flood.visit i) { s with stack := st }) τ' old c :=
        { k1 with
          done := by
            intro k hk hko hks _ j hj
            by_cases hki : k = i
            · subst hki; exact k2 j hj
            · exact k1.done k hk hko hks (by simpa using hki) j hj }
      refine ih k5 ?_
      simp only [hs, List.length_cons] at hn
      simp only at k4
      have := length_le_of_bound k5.nodup k5.bound
      have := h.nodup.length_le_of_subset k3
      omega
    | nil =>
      simp only
      cases hfind : (List.range s.faces.length).find? fun i => !s.visited.contains i with
      | none =>
        refine ⟨τ, h.faces, final h hs fun i hi => ?_⟩
        have := List.find?_eq_none.1 hfind i (List.mem_range.2 (by rw [h.faces.length_eq]; exact hi))
        simpa using this
      | some i =>
        have hiv : i ∉ s.visited := by simpa using List.find?_some hfind
        have hil : i < fs.length := by
          have := List.mem_range.1 (List.mem_of_find?_eq_some hfind)
          rwa [h.faces.length_eq] at this
        have closed : ∀ k ∈ s.visited, ∀ j ∈ nb k, j ∈ s.visited := by
          intro k hk j hj
          by_cases hko : k ∈ old
          · exact h.old_visited j (h.old_closed k hko j hj)
          · exact h.done k hk hko (by rw [hs]; simp) (by simp) j hj
        have h' : FloodInv nb fs σ [] { s with visited := i :: s.visited, stack := [i] } τ s.visited
            (σ i ^^ τ i) :=
          { faces := h.faces
            old_visited := fun k hk => List.mem_cons_of_mem _ hk
            old_closed := closed
            old_same := by
              intro k hk j hj
              by_cases hko : k ∈ old
              · exact h.old_same k hko j hj
              · have hjo : j ∉ old := fun hc => hko (h.old_closed j hc k (hl.symm k j hj))
                rw [h.same k hk hko, h.same j (closed k hk j hj) hjo]
            same := by
              intro k hk hko
              rcases List.mem_cons.1 hk with rfl | hk
              · rfl
              · exact absurd hk hko
            stack := by
              intro k hk
              rw [List.mem_singleton.1 hk]
              exact ⟨List.mem_cons_self, hiv⟩
            done := by
              intro k hk hko hks
              rcases List.mem_cons.1 hk with rfl | hk
              · exact absurd (List.mem_singleton.2 rfl) hks
              · exact absurd hk hko
            nodup := List.nodup_cons.2 ⟨hiv, h.nodup⟩
            bound := by
              intro k hk
              rcases List.mem_cons.1 hk with rfl | hk
              · exact hil
              · exact h.bound k hk }
        refine ih h' ?_
        have hlt : s.visited.length < fs.length := by
          have := length_le_of_bound h'.nodup h'.bound
          simpa using this
        simp only [List.length_cons, List.length_nil]
        rw [hs] at hn
        simp only [List.length_nil] at hn
        omega

/-! ## The connectivity -/

theorem mem_facesWith {fs : List Face} {u v i : ℕ} :
    i ∈ facesWith fs u v ↔ ∃ f, fs[i]? = some f ∧ Corner f u ∧ Corner f v := by
  unfold facesWith
  rw [List.mem_filter, List.mem_range]
  constructor
  · rintro ⟨h1, h2⟩
    rw [List.getElem?_eq_getElem h1] at h2 ⊢
    refine ⟨_, rfl, ?_⟩
    simpa [mem_ring] using h2
  · rintro ⟨f, hf, h1, h2⟩
    refine ⟨(List.getElem?_eq_some_iff.1 hf).1, ?_⟩
    rw [hf]
    simpa [mem_ring] using ⟨h1, h2⟩

theorem facesWith_nodup (fs : List Face) (u v : ℕ) : (facesWith fs u v).Nodup := List.nodup_range.filter _

theorem mem_vertexPairs {nv : ℕ} {fs : List Face} {u v : ℕ} :
    (u, v) ∈ vertexPairs nv fs ↔ u < nv ∧ v < nv ∧ joined fs u v = true := by
  unfold vertexPairs
  simp only [List.mem_flatMap, List.mem_map, List.mem_filter, List.mem_range, Prod.mk.injEq]
  constructor
  · rintro ⟨a, ha, b, ⟨hb, hj⟩, rfl, rfl⟩
    exact ⟨ha, hb, hj⟩
  · rintro ⟨h1, h2, h3⟩
    exact ⟨u, h1, v, ⟨h2, h3⟩, rfl, rfl⟩

theorem mem_adjacent {nv : ℕ} {fs : List Face} {i j : ℕ} :
    j ∈ adjacent nv fs i ↔ j < fs.length ∧ ∃ u v, (u, v) ∈ vertexPairs nv fs ∧
      (facesWith fs u v = [i, j] ∨ facesWith fs u v = [j, i]) := by
  unfold adjacent
  rw [List.mem_filter, List.mem_range, List.any_eq_true]
  constructor
  · rintro ⟨h1, ⟨u, v⟩, h2, h3⟩
    exact ⟨h1, u, v, h2, by simpa using h3⟩
  · rintro ⟨h1, u, v, h2, h3⟩
    exact ⟨h1, ⟨u, v⟩, h2, by simpa using h3⟩

theorem joined_iff {fs : List Face} (hp : ∀ f ∈ fs, Proper f) {u v : ℕ} :
    joined fs u v = true ↔ ∃ f ∈ fs, Side f u v ∨ Side f v u := by
  unfold joined
  rw [List.any_eq_true]
  constructor
  · rintro ⟨f, hf, h⟩
    rw [Bool.or_eq_true, List.contains_iff_mem, List.contains_iff_mem, mem_sides (hp f hf),
      mem_sides (hp f hf)] at h
    exact ⟨f, hf, h⟩
  · rintro ⟨f, hf, h⟩
    refine ⟨f, hf, ?_⟩
    rw [Bool.or_eq_true, List.contains_iff_mem, List.contains_iff_mem, mem_sides (hp f hf),
      mem_sides (hp f hf)]
    exact h

theorem adjacent_linked {nv : ℕ} {fs : List Face} (hc : Conformal fs) : Linked (adjacent nv fs) fs where
  symm := by
    intro i j h
    obtain ⟨_, u, v, h2, h3⟩ := mem_adjacent.1 h
    have hi : i ∈ facesWith fs u v := by rcases h3 with h3 | h3 <;> simp [h3]
    obtain ⟨f, hf, _⟩ := mem_facesWith.1 hi
    exact mem_adjacent.2 ⟨(List.getElem?_eq_some_iff.1 hf).1, u, v, h2, h3.symm⟩
  neighbours := by
    intro i j h
    obtain ⟨_, u, v, h2, h3⟩ := mem_adjacent.1 h
    have hi : i ∈ facesWith fs u v := by rcases h3 with h3 | h3 <;> simp [h3]
    have hj : j ∈ facesWith fs u v := by rcases h3 with h3 | h3 <;> simp [h3]
    have hij : i ≠ j := by
      have hn := facesWith_nodup fs u v
      rcases h3 with h3 | h3 <;> rw [h3] at hn
      · simpa using hn
      · exact fun e => by simp [e] at hn
    obtain ⟨f, hf, hfu, hfv⟩ := mem_facesWith.1 hi
    obtain ⟨g, hg, hgu, hgv⟩ := mem_facesWith.1 hj
    have huv : u ≠ v := by
      obtain ⟨e, he, hs⟩ := (joined_iff hc.proper).1 (mem_vertexPairs.1 h2).2.2
      rcases hs with hs | hs
      · exact side_ne (hc.proper e he) hs
      · exact (side_ne (hc.proper e he) hs).symm
    obtain ⟨c1, c2, c3⟩ := hc.common i j f g hij hf hg u v huv hfu hgu hfv hgv
    exact ⟨f, g, u, v, hf, hg, ⟨huv, hfu, hfv, hgu, hgv, c1, c2, c3⟩, hij⟩

theorem foldlM_none {A B : Type} (f : B → A → Option B) (l : List A) (p : A) (hp : p ∈ l)
    (h : ∀ b, f b p = none) (b : B) : l.foldlM f b = none := by
  induction l generalizing b with
  | nil => cases hp
  | cons a l ih =>
    rw [List.foldlM_cons]
    rcases List.mem_cons.1 hp with rfl | hp
    · rw [h b]; rfl
    · cases f b a with
      | none => rfl
      | some b' => exact ih hp b'

/-- When the connectivity has been computed, two panels with a common side have been recognized as
neighbours. -/
theorem adjacent_of_side {nv : ℕ} {fs : List Face} (hc : Conformal fs) {d : List (ℕ × ℕ)}
    (hd : boundaryEdges nv fs = some d) (hv : ∀ f ∈ fs, ∀ u, Corner f u → u < nv) {i j : ℕ} {f g : Face}
    (hij : i ≠ j) (hf : fs[i]? = some f) (hg : fs[j]? = some g) {u v : ℕ} (hs : Side f u v)
    (hgu : Corner g u) (hgv : Corner g v) : j ∈ adjacent nv fs i := by
  have hfm := List.mem_of_getElem? hf
  have hp : (u, v) ∈ vertexPairs nv fs := mem_vertexPairs.2 ⟨hv f hfm u (side_corner hs).1,
    hv f hfm v (side_corner hs).2, (joined_iff hc.proper).2 ⟨f, hfm, .inl hs⟩⟩
  have hi : i ∈ facesWith fs u v := mem_facesWith.2 ⟨f, hf, side_corner hs⟩
  have hj : j ∈ facesWith fs u v := mem_facesWith.2 ⟨g, hg, hgu, hgv⟩
  refine mem_adjacent.2 ⟨(List.getElem?_eq_some_iff.1 hg).1, u, v, hp, ?_⟩
  match hfw : facesWith fs u v with
  | [] => rw [hfw] at hi; cases hi
  | [x] =>
    rw [hfw] at hi hj
    exact absurd ((List.mem_singleton.1 hi).trans (List.mem_singleton.1 hj).symm) hij
  | [x, y] =>
    rw [hfw] at hi hj
    simp only [List.mem_cons, List.not_mem_nil, or_false] at hi hj
    rcases hi with rfl | rfl <;> rcases hj with rfl | rfl
    · exact absurd rfl hij
    · exact .inl rfl
    · exact .inr rfl
    · exact absurd rfl hij
  | x :: y :: z :: r =>
    exfalso
    unfold boundaryEdges at hd
    rw [foldlM_none _ _ (u, v) hp (fun b => by simp only [hfw])] at hd
    cases hd

/-! ## C71 -/

theorem makeConsistent_eq {m m' : Mesh (V3 ℝ)} (h : m.makeConsistent = some m') :
    m.faces ≠ [] ∧ (∃ d, boundaryEdges m.vertices.length m.faces = some d) ∧
    m' = { m with faces := floodFaces (adjacent m.vertices.length m.faces) m.faces } := by
  unfold Mesh.makeConsistent at h
  split at h
  · cases h
  · rename_i hne
    split at h
    · cases h
    · rename_i d hd
      injection h with h
      exact ⟨hne, ⟨d, hd⟩, h.symm⟩

/-- **C71**: on a conformal mesh that can be consistently oriented, whatever the initial orientation of each
panel, the first part of `heal_normals` reverses some panels in order to get a consistent orientation: no
side is followed in the same direction by two panels. The vertices do not change. -/
theorem heal_normals_consistent (m m' : Mesh (V3 ℝ)) (hv : m.Valid) (hc : Conformal m.faces)
    (ho : Orientable m.faces) (h : m.makeConsistent = some m') :
    m'.vertices = m.vertices ∧ (∃ τ, Reversed τ m.faces m'.faces) ∧ Consistent m'.faces := by
  obtain ⟨hne, ⟨d, hd⟩, rfl⟩ := makeConsistent_eq h
  have hl := adjacent_linked (nv := m.vertices.length) hc
  obtain ⟨σ, gs, hσ, hgs⟩ := ho
  have hagree : ∀ i j f g, j ∈ adjacent m.vertices.length m.faces i → m.faces[i]? = some f →
      m.faces[j]? = some g → (Agree f g ↔ ¬ σ i = σ j) := by
    intro i j f g hij hf hg
    obtain ⟨f', g', u, v, hf', hg', hn, hne⟩ := hl.neighbours i j hij
    rw [hf] at hf'; rw [hg] at hg'
    injection hf' with hf'; injection hg' with hg'
    subst hf' hg'
    have pf := hc.proper f (List.mem_of_getElem? hf)
    have pg := hc.proper g (List.mem_of_getElem? hg)
    have := agree_flipIf pf pg hn (σ i) (σ j)
    have hno : ¬ Agree (f.flipIf (σ i)) (g.flipIf (σ j)) := by
      rintro ⟨x, y, h1, h2⟩
      refine hgs i j _ _ hne ?_ ?_ x y h1 h2
      · rw [hσ i, hf]; rfl
      · rw [hσ j, hg]; rfl
    rw [this] at hno
    by_cases hA : Agree f g <;> simp [hA] at hno ⊢ <;> exact hno
  have hpos : 0 < m.faces.length := List.length_pos_iff.2 hne
  have hinv : FloodInv (adjacent m.vertices.length m.faces) m.faces σ [] ⟨m.faces, [0], [0]⟩
      (fun _ => false) [] (σ 0) :=
    { faces := fun i => by
        show m.faces[i]? = _
        cases m.faces[i]? <;> rfl
      old_visited := by simp
      old_closed := by simp
      old_same := by simp
      same := by simp
      stack := by simp
      done := by simp
      nodup := by simp
      bound := by simpa using hpos }
  obtain ⟨τ, h1, h2⟩ := run_inv hl hc.proper hagree (2 * m.faces.length + 1) hinv (by simp)
  refine ⟨rfl, ⟨τ, h1⟩, ?_⟩
  intro i j f g hij hf hg u v hs hs'
  simp only at hf hg
  unfold floodFaces at hf hg
  rw [h1 i] at hf
  rw [h1 j] at hg
  obtain ⟨f0, hf0, rfl⟩ := Option.map_eq_some_iff.1 hf
  obtain ⟨g0, hg0, rfl⟩ := Option.map_eq_some_iff.1 hg
  have pf := hc.proper f0 (List.mem_of_getElem? hf0)
  have pg := hc.proper g0 (List.mem_of_getElem? hg0)
  have cor : ∀ (k : Face) (b : Bool) (x : ℕ), Corner (k.flipIf b) x → Corner k x := by
    intro k b x hx
    cases b
    · exact hx
    · exact (corner_flip k x).1 hx
  have hgu := cor _ _ _ (side_corner hs').1
  have hgv := cor _ _ _ (side_corner hs').2
  have hside : Side f0 u v ∨ Side f0 v u := by
    revert hs
    cases τ i
    · exact Or.inl
    · intro hs; exact .inr ((side_flip f0 pf u v).1 hs)
  have hvv : ∀ f ∈ m.faces, ∀ u, Corner f u → u < m.vertices.length := fun f hf u hu =>
    hv f hf u ((mem_toList f u).2 hu)
  have hadj : j ∈ adjacent m.vertices.length m.faces i := by
    rcases hside with hs | hs
    · exact adjacent_of_side hc hd hvv hij hf0 hg0 hs hgu hgv
    · exact adjacent_of_side hc hd hvv hij hf0 hg0 hs hgv hgu
  obtain ⟨f', g', x, y, hf', hg', hn, _⟩ := hl.neighbours i j hadj
  rw [hf0] at hf'; rw [hg0] at hg'
  injection hf' with hf'; injection hg' with hg'
  subst hf' hg'
  have hA : Agree (f0.flipIf (τ i)) (g0.flipIf (τ j)) := ⟨u, v, hs, hs'⟩
  rw [agree_flipIf pf pg hn, hagree i j f0 g0 hadj hf0 hg0] at hA
  have hd := h2 i j hadj
  revert hA hd
  generalize σ i = a1; generalize σ j = a2; generalize τ i = a3; generalize τ j = a4
  revert a1 a2 a3 a4
  decide

/-- Whatever the mesh, the flood only reverses some panels. -/
theorem run_reverses (nb : ℕ → List ℕ) (fs : List Face) (n : ℕ) (s : Flood) (τ : ℕ → Bool)
    (h : Reversed τ fs s.faces) : ∃ τ', Reversed τ' fs (Flood.run nb n s).faces := by
  have hvisit : ∀ (i j : ℕ) (s : Flood) (τ : ℕ → Bool), Reversed τ fs s.faces →
      ∃ τ', Reversed τ' fs (s.visit i j).faces := by
    intro i j s τ h
    unfold Flood.visit
    split
    · exact ⟨τ, h⟩
    · split
      · rename_i f g hf hg
        split
        · simp only
          split
          · have hjl : j < s.faces.length := (List.getElem?_eq_some_iff.1 hg).1
            refine ⟨fun k => if k = j then !τ j else τ k, fun k => ?_⟩
            by_cases hkj : k = j
            · subst hkj
              rw [List.getElem?_set_self hjl]
              rw [h k] at hg
              obtain ⟨g0, h1, rfl⟩ := Option.map_eq_some_iff.1 hg
              simp [h1, flipIf_flip]
            · rw [List.getElem?_set_ne (Ne.symm hkj)]
              simp only [if_neg hkj]
              exact h k
          · exact ⟨τ, h⟩
        · exact ⟨τ, h⟩
      · exact ⟨τ, h⟩
  have hvisits : ∀ (i : ℕ) (l : List ℕ) (s : Flood) (τ : ℕ → Bool), Reversed τ fs s.faces →
      ∃ τ', Reversed τ' fs (l.foldl (Flood.visit i) s).faces := by
    intro i l
    induction l with
    | nil => exact fun s τ h => ⟨τ, h⟩
    | cons j l ih =>
      intro s τ h
      obtain ⟨τ', h'⟩ := hvisit i j s τ h
      exact ih _ τ' h'
  induction n generalizing s τ with
  | zero => exact ⟨τ, h⟩
  | succ n ih =>
    unfold Flood.run
    split
    · rename_i i st _
      obtain ⟨τ', h'⟩ := hvisits i (nb i) { s with stack := st } τ h
      exact ih _ τ' h'
    · split
      · exact ih _ τ h
      · exact ⟨τ, h⟩

/-- **C71** without any assumption on the mesh: `heal_normals` only reverses some panels. -/
theorem heal_normals_reverses {K W Q : Type} (o o' : Obj K W Q) (h : o.healNormals = some o') :
    o'.mesh.vertices = o.mesh.vertices ∧ ∃ τ, Reversed τ o.mesh.faces o'.mesh.faces := by
  unfold Obj.healNormals Obj.transform at h
  simp only at h
  split at h
  · cases h
  · rename_i m hm
    obtain ⟨_, _, rfl⟩ := makeConsistent_eq hm
    split at h
    · cases h
    · rename_i m' hm'
      injection h with h
      subst h
      obtain ⟨t, _, rfl⟩ := Option.map_eq_some_iff.1 hm'
      obtain ⟨τ, hτ⟩ := run_reverses (adjacent o.mesh.vertices.length o.mesh.faces) o.mesh.faces
        (2 * o.mesh.faces.length + 1) ⟨o.mesh.faces, [0], [0]⟩ (fun _ => false)
        (fun i => by show o.mesh.faces[i]? = _; cases o.mesh.faces[i]? <;> rfl)
      unfold Mesh.makeOutward
      split
      · refine ⟨rfl, fun i => !τ i, fun i => ?_⟩
        show (List.map Face.flip (floodFaces _ _))[i]? = _
        rw [List.getElem?_map]
        unfold floodFaces
        rw [hτ i]
        cases o.mesh.faces[i]? with
        | none => rfl
        | some f => simp [flipIf_flip]
      · exact ⟨rfl, τ, hτ⟩

theorem consistent_flip {fs : List Face} (hp : ∀ f ∈ fs, Proper f) (h : Consistent fs) :
    Consistent (fs.map Face.flip) := by
  intro i j f g hij hf hg u v hs hs'
  rw [List.getElem?_map] at hf hg
  obtain ⟨f0, hf0, rfl⟩ := Option.map_eq_some_iff.1 hf
  obtain ⟨g0, hg0, rfl⟩ := Option.map_eq_some_iff.1 hg
  rw [side_flip f0 (hp f0 (List.mem_of_getElem? hf0))] at hs
  rw [side_flip g0 (hp g0 (List.mem_of_getElem? hg0))] at hs'
  exact h i j f0 g0 hij hf0 hg0 v u hs hs'

theorem proper_reversed {τ : ℕ → Bool} {fs gs : List Face} (h : Reversed τ fs gs)
    (hp : ∀ f ∈ fs, Proper f) : ∀ f ∈ gs, Proper f := by
  intro f hf
  obtain ⟨i, hi⟩ := List.mem_iff_getElem?.1 hf
  rw [h i] at hi
  obtain ⟨g, hg, rfl⟩ := Option.map_eq_some_iff.1 hi
  exact proper_flipIf (hp g (List.mem_of_getElem? hg)) _

/-- **C71** for the whole of `heal_normals`. -/
theorem heal_normals {K W Q : Type} (o o' : Obj K W Q) (hv : o.mesh.Valid) (hc : Conformal o.mesh.faces)
    (ho : Orientable o.mesh.faces) (h : o.healNormals = some o') : Consistent o'.mesh.faces := by
  unfold Obj.healNormals Obj.transform at h
  simp only at h
  split at h
  · cases h
  · rename_i m hm
    obtain ⟨_, ⟨τ, h2⟩, h3⟩ := heal_normals_consistent o.mesh m hv hc ho hm
    split at h
    · cases h
    · rename_i m' hm'
      injection h with h
      subst h
      obtain ⟨t, _, rfl⟩ := Option.map_eq_some_iff.1 hm'
      unfold Mesh.makeOutward
      split
      · exact consistent_flip (proper_reversed h2 hc.proper) h3
      · exact h3

/-- Concrete case: two triangles that follow their common side in the same direction. -/
example : Conformal [⟨0, 1, 2, 0⟩, ⟨1, 2, 3, 1⟩] ∧ ¬ Consistent [⟨0, 1, 2, 0⟩, ⟨1, 2, 3, 1⟩] ∧
    Orientable [⟨0, 1, 2, 0⟩, ⟨1, 2, 3, 1⟩] ∧
    floodFaces (adjacent 4 [⟨0, 1, 2, 0⟩, ⟨1, 2, 3, 1⟩]) [⟨0, 1, 2, 0⟩, ⟨1, 2, 3, 1⟩] =
      [⟨0, 1, 2, 0⟩, ⟨1, 3, 2, 1⟩] := by
  have two : ∀ {f0 f1 : Face} {i : ℕ} {f : Face}, [f0, f1][i]? = some f → (i = 0 ∧ f = f0) ∨ (i = 1 ∧ f = f1) := by
    intro f0 f1 i f h
    match i, h with
    | 0, h => left; simpa using h.symm
    | 1, h => right; simpa using h.symm
    | (n + 2), h => simp at h
  refine ⟨⟨?_, ?_⟩, ?_, ⟨fun i => i == 1, [⟨0, 1, 2, 0⟩, ⟨1, 3, 2, 1⟩], ?_, ?_⟩, by decide⟩
  · intro f hf
    simp only [List.mem_cons, List.not_mem_nil, or_false] at hf
    rcases hf with rfl | rfl <;> simp [Proper]
  · intro i j f g hij hf hg u v huv
    rcases two hf with ⟨rfl, rfl⟩ | ⟨rfl, rfl⟩ <;> rcases two hg with ⟨rfl, rfl⟩ | ⟨rfl, rfl⟩
    · exact absurd rfl hij
    · intro h1 h2 h3 h4
      simp only [Corner] at h1 h2 h3 h4
      have hu : u = 1 ∨ u = 2 := by omega
      have hv : v = 1 ∨ v = 2 := by omega
      clear h1 h2 h3 h4
      refine ⟨fun w h5 h6 => ?_, ?_⟩
      · simp only [Corner] at h5 h6; omega
      · rcases hu with rfl | rfl <;> rcases hv with rfl | rfl <;> simp [Side] at huv ⊢
    · intro h1 h2 h3 h4
      simp only [Corner] at h1 h2 h3 h4
      have hu : u = 1 ∨ u = 2 := by omega
      have hv : v = 1 ∨ v = 2 := by omega
      clear h1 h2 h3 h4
      refine ⟨fun w h5 h6 => ?_, ?_⟩
      · simp only [Corner] at h5 h6; omega
      · rcases hu with rfl | rfl <;> rcases hv with rfl | rfl <;> simp [Side] at huv ⊢
    · exact absurd rfl hij
  · intro h
    refine h 0 1 ⟨0, 1, 2, 0⟩ ⟨1, 2, 3, 1⟩ (by decide) rfl rfl 1 2 ?_ ?_ <;> simp [Side]
  · intro i
    match i with
    | 0 => rfl
    | 1 => rfl
    | n + 2 => rfl
  · intro i j f g hij hf hg u v
    rcases two hf with ⟨rfl, rfl⟩ | ⟨rfl, rfl⟩ <;> rcases two hg with ⟨rfl, rfl⟩ | ⟨rfl, rfl⟩
    · exact absurd rfl hij
    · intro h1 h2
      simp only [Side] at *
      omega
    · intro h1 h2
      simp only [Side] at *
      omega
    · exact absurd rfl hij

end Verif.Meshes
