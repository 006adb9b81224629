import Verif.Engines.Props
import Verif.Geometry.RelationProps

/-!
# C21: when the symmetries of two collections are used
-/

namespace Verif.Engines

open Verif.Geometry V3 Verif.Meshes Verif.Blocks

variable {R : Type} [Inhabited R]

/-- Two lengths are close, with the tolerances of the library numpy. -/
def CloseLengths (a b : ℝ) : Prop := |a - b| ≤ 1 / 10 ^ 8 + |b| / 10 ^ 5

theorem allclose1_iff (a b : ℝ) : allclose1 a b ↔ CloseLengths a b := by
  unfold allclose1 CloseLengths
  rw [show (1e-8 : ℝ) + 1e-5 * |b| = 1 / 10 ^ 8 + |b| / 10 ^ 5 by ring]

/-- Without low rank blocks, the hierarchical engine makes a block Toeplitz matrix from two collections with symmetries of
translation exactly when they have as many parts and the coordinates of their vectors are close. -/
theorem translations_used_iff (G : Shape → Shape → R) (u v : V3 ℝ) (ps1 ps2 : List Tree) :
    (∃ p q n f, build false G (fun _ _ => none) (.node (.translation u) ps1) (.node (.translation v) ps2) =
      .str .toeplitz p q n f) ↔
      ps1.length = ps2.length ∧ CloseLengths u.x v.x ∧ CloseLengths u.y v.y ∧ CloseLengths u.z v.z := by
  have hs : sameSymmetry (.translation u) ps1.length (.translation v) ps2.length ↔
      ps1.length = ps2.length ∧ CloseLengths u.x v.x ∧ CloseLengths u.y v.y ∧ CloseLengths u.z v.z := by
    simp only [sameSymmetry, allclose, allclose1_iff]
    tauto
  rw [← hs]
  constructor
  · rintro ⟨p, q, n, f, h⟩
    by_contra hn
    simp only [build, combine, if_neg hn, Bool.false_eq_true, if_false, generic] at h
    cases h
  · intro h
    simp only [build, combine, if_pos h, Bool.false_eq_true, if_false]
    exact ⟨_, _, _, _, rfl⟩

/-- The same for reflections, in both engines: the planes must be equal for `==`. -/
theorem reflections_used_iff (basic : Bool) (G : Shape → Shape → R) (P Q : Plane) (ps1 ps2 : List Tree) :
    (∃ p q n f, build basic G (fun _ _ => none) (.node (.reflection P) ps1) (.node (.reflection Q) ps2) =
      .str .symToeplitz p q n f) ↔ P.equal Q := by
  have hs : sameSymmetry (.reflection P) ps1.length (.reflection Q) ps2.length ↔ P.equal Q := Iff.rfl
  rw [← hs]
  constructor
  · rintro ⟨p, q, n, f, h⟩
    by_contra hn
    cases basic
    · simp only [build, combine, if_neg hn, Bool.false_eq_true, if_false, generic] at h
      cases h
    · simp only [build, combine, if_neg hn, if_true, evaluate] at h
      cases h
  · intro h
    simp only [build, combine, if_pos h]
    exact ⟨_, _, _, _, rfl⟩

/-- The same for rotations, in the hierarchical engine: the axes must be equal for `==`, and the numbers of parts too. -/
theorem rotations_used_iff (G : Shape → Shape → R) (a b : Axis) (ps1 ps2 : List Tree) :
    (∃ p q n f, build false G (fun _ _ => none) (.node (.axial a) ps1) (.node (.axial b) ps2) =
      .str .circulant p q n f) ↔ a.equal b ∧ ps1.length = ps2.length := by
  have hs : sameSymmetry (.axial a) ps1.length (.axial b) ps2.length ↔ a.equal b ∧ ps1.length = ps2.length := Iff.rfl
  rw [← hs]
  constructor
  · rintro ⟨p, q, n, f, h⟩
    by_contra hn
    simp only [build, combine, if_neg hn, Bool.false_eq_true, if_false, generic] at h
    cases h
  · intro h
    simp only [build, combine, if_pos h, Bool.false_eq_true, if_false]
    exact ⟨_, _, _, _, rfl⟩

/-- Concrete case of `translations_used_iff`: opposite vectors are not the same, and vectors that differ by a millionth
are. -/
example (G : Shape → Shape → R) (ps : List Tree) :
    (¬ ∃ p q n f, build false G (fun _ _ => none) (.node (.translation ⟨1, 0, 0⟩) ps) (.node (.translation ⟨-1, 0, 0⟩) ps) =
      .str .toeplitz p q n f) ∧
    ∃ p q n f, build false G (fun _ _ => none) (.node (.translation ⟨1, 0, 0⟩) ps)
      (.node (.translation ⟨1 + 1 / 10 ^ 6, 0, 0⟩) ps) = .str .toeplitz p q n f := by
  rw [translations_used_iff, translations_used_iff]
  constructor
  · rintro ⟨-, h, -⟩
    norm_num [CloseLengths] at h
  · refine ⟨rfl, ?_, ?_, ?_⟩ <;> norm_num [CloseLengths, abs_of_pos]

/-- Concrete cases of `reflections_used_iff` and `rotations_used_iff`: the same vertical plane is used and the opposite one is
not; around the same axis, two parts and three parts are not used together. -/
example (basic : Bool) (G : Shape → Shape → R) (t : Tree) :
    (∃ p q n f, build basic G (fun _ _ => none) (.node (.reflection ⟨ex, 0⟩) [t, t]) (.node (.reflection ⟨ex, 0⟩) [t, t]) =
      .str .symToeplitz p q n f) ∧
    (¬ ∃ p q n f, build basic G (fun _ _ => none) (.node (.reflection ⟨ex, 0⟩) [t, t])
      (.node (.reflection ⟨⟨-1, 0, 0⟩, 0⟩) [t, t]) = .str .symToeplitz p q n f) ∧
    (∃ p q n f, build false G (fun _ _ => none) (.node (.axial ⟨ez, 0⟩) [t, t, t]) (.node (.axial ⟨ez, 0⟩) [t, t, t]) =
      .str .circulant p q n f) ∧
    ¬ ∃ p q n f, build false G (fun _ _ => none) (.node (.axial ⟨ez, 0⟩) [t, t]) (.node (.axial ⟨ez, 0⟩) [t, t, t]) =
      .str .circulant p q n f := by
  have h := equality_refl ⟨ez, 0⟩ ⟨ex, 0⟩ (by norm_num [ex, dot])
  rw [reflections_used_iff, reflections_used_iff, rotations_used_iff, rotations_used_iff]
  refine ⟨h.2, ?_, ⟨h.1, rfl⟩, ?_⟩
  · rintro ⟨-, -, h⟩
    norm_num [ex, dot] at h
  · rintro ⟨-, h⟩
    simp at h

end Verif.Engines
