import Verif.Files.MeshFilesLemmas

/-!
# Rounding of the coordinates in mesh files (C43)
-/

namespace Verif.Files

open Verif.Geometry Verif.Meshes

/-! ## Specification -/

/-- `y` is `x` rounded to six digits after the point. -/
def Rounded6 (x y : ℚ) : Prop := |y - x| ≤ 1 / 2 / 10 ^ 6 ∧ ∃ k : ℤ, y = k / 10 ^ 6

/-- `y` is `x` rounded to seven significant digits. -/
def Digits7 (x y : ℚ) : Prop := |y - x| ≤ |x| * (1 / 2 / 10 ^ 6) ∧ ∃ k e : ℤ, |k| < 10 ^ 7 ∧ y = k * 10 ^ e

/-- A relation on the three coordinates. -/
def Near (R : ℚ → ℚ → Prop) (v w : V3 ℚ) : Prop := R v.x w.x ∧ R v.y w.y ∧ R v.z w.z

/-- The same faces on vertices with related coordinates. -/
def SameMesh (R : ℚ → ℚ → Prop) (m m' : Mesh (V3 ℚ)) : Prop :=
  m'.faces = m.faces ∧ List.Forall₂ (Near R) m.vertices m'.vertices

/-- The same panels in the same order, with related coordinates, whatever the numbering of the vertices. -/
def SamePanels (R : ℚ → ℚ → Prop) (m m' : Mesh (V3 ℚ)) : Prop :=
  List.Forall₂ (fun f f' => List.Forall₂ (fun i i' => ∃ v w, m.vertices[i]? = some v ∧ m'.vertices[i']? = some w ∧
    Near R v w) f.toList f'.toList) m.faces m'.faces

/-- The range of the finite floating point numbers, that are zero or between `5e-324` and `1.8e308`. -/
def InRange (x : ℚ) : Prop := x = 0 ∨ (1 / 10 ^ 330 ≤ |x| ∧ |x| ≤ 10 ^ 330)

/-- All the coordinates satisfy a condition. -/
def AllCoords (P : ℚ → Prop) (m : Mesh (V3 ℚ)) : Prop := ∀ v ∈ m.vertices, P v.x ∧ P v.y ∧ P v.z

/-! ## Proofs -/

theorem sameMesh_map {R : ℚ → ℚ → Prop} {g : ℚ → ℚ} (h : ∀ x, R x (g x)) (m : Mesh (V3 ℚ)) :
    SameMesh R m (mapMesh g m) := by
  refine ⟨rfl, ?_⟩
  show List.Forall₂ (Near R) m.vertices (m.vertices.map (mapV g))
  rw [List.forall₂_map_right_iff]
  exact List.forall₂_same.2 fun v _ => ⟨h _, h _, h _⟩

theorem fixed_rounded (x : ℚ) : Rounded6 x (fixedValue x) := fixedValue_rounded x

theorem sci_rounded (x : ℚ) : Digits7 x (sciValue x) := sciValue_rounded x

/-- The same vertices and faces give the same panels. -/
theorem sameMesh_panels {R : ℚ → ℚ → Prop} {m m' : Mesh (V3 ℚ)} (hv : m.Valid) (h : SameMesh R m m') :
    SamePanels R m m' := by
  unfold SamePanels
  rw [h.1]
  refine List.forall₂_same.2 fun f hf => List.forall₂_same.2 fun i hi => ?_
  have hlt := hv f hf i hi
  have hlt' : i < m'.vertices.length := by rw [← h.2.length_eq]; exact hlt
  exact ⟨m.vertices[i], m'.vertices[i], List.getElem?_eq_getElem hlt, List.getElem?_eq_getElem hlt', h.2.get hlt hlt'⟩

theorem nearestEven_lt_iff {q : ℚ} (hq : 0 ≤ q) (k : ℕ) : nearestEven q < 2 * (k + 1) ↔ q < 2 * (k + 1) - 1 / 2 := by
  have h1 := Nat.floor_le hq
  have h2 := Nat.lt_floor_add_one q
  unfold nearestEven
  simp only
  set n := ⌊q⌋₊ with hn
  have key : ∀ a b : ℕ, a < b → (a : ℚ) + 1 ≤ b := fun a b h => by exact_mod_cast h
  constructor
  · intro h
    by_contra hc
    rw [not_lt] at hc
    have hn1 : 2 * (k + 1) ≤ n + 1 := by
      have : ((2 * (k + 1) : ℕ) : ℚ) < ((n + 2 : ℕ) : ℚ) := by push_cast; linarith
      have : 2 * (k + 1) < n + 2 := by exact_mod_cast this
      omega
    by_cases hge : 2 * (k + 1) ≤ n
    · split_ifs at h <;> omega
    · have hn2 : n = 2 * k + 1 := by omega
      have hnq : (n : ℚ) = 2 * k + 1 := by rw [hn2]; push_cast; ring
      split_ifs at h with a b c
      · linarith
      · omega
      · omega
      · omega
  · intro h
    have hn1 : n ≤ 2 * k + 1 := by
      have : (n : ℚ) < ((2 * k + 2 : ℕ) : ℚ) := by push_cast; linarith
      have : n < 2 * k + 2 := by exact_mod_cast this
      omega
    rcases Nat.lt_or_ge n (2 * k + 1) with hlt | hge
    · split_ifs <;> omega
    · have hn2 : n = 2 * k + 1 := by omega
      have hnq : (n : ℚ) = 2 * k + 1 := by rw [hn2]; push_cast; ring
      rw [if_pos (by linarith)]
      omega

/-- The numbers shorter than their field with the format `.6f` of width 16. -/
def Fits16 (x : ℚ) : Prop := -(10 ^ 7 - 1 / 2 / 10 ^ 6) < x ∧ x < 10 ^ 8 - 1 / 2 / 10 ^ 6

/-- The numbers shorter than their field with the format `.6f` of width 18. -/
def Fits18 (x : ℚ) : Prop := -(10 ^ 9 - 1 / 2 / 10 ^ 6) < x ∧ x < 10 ^ 10 - 1 / 2 / 10 ^ 6

theorem showFixed_fits (x : ℚ) (d : ℕ) : (showFixed x).length < d + 10 ↔
    -(10 ^ (d + 1) - 1 / 2 / 10 ^ 6) < x ∧ x < 10 ^ (d + 2) - 1 / 2 / 10 ^ 6 := by
  have hpow : ∀ n : ℕ, ∃ k : ℕ, 10 ^ (n + 1) = 2 * (k + 1) := fun n => ⟨5 * 10 ^ n - 1, by
    have : 0 < 10 ^ n := by positivity
    rw [pow_succ]; omega⟩
  have hcut : ∀ n : ℕ, nearestEven (|x| * 10 ^ 6) < 10 ^ (n + 7) ↔ |x| < 10 ^ (n + 1) - 1 / 2 / 10 ^ 6 := by
    intro n
    obtain ⟨k, hk⟩ := hpow (n + 6)
    have hk' : n + 7 = n + 6 + 1 := by omega
    rw [hk', hk, nearestEven_lt_iff (by positivity)]
    have hq : (2 * ((k : ℚ) + 1)) = 10 ^ (n + 1) * 10 ^ 6 := by
      have : ((10 ^ (n + 6 + 1) : ℕ) : ℚ) = ((2 * (k + 1) : ℕ) : ℚ) := by rw [hk]
      push_cast at this
      rw [← this]; ring
    rw [hq]
    constructor <;> intro h <;> nlinarith
  rw [showFixed_short]
  have p1 : (1 : ℚ) ≤ 10 ^ (d + 1) := one_le_pow₀ (by norm_num)
  have p2 : (1 : ℚ) ≤ 10 ^ (d + 2) := one_le_pow₀ (by norm_num)
  by_cases hx : x < 0
  · rw [if_pos hx, hcut, abs_of_neg hx]
    constructor
    · intro h; constructor <;> linarith
    · intro h; linarith [h.1]
  · rw [not_lt] at hx
    rw [if_neg (not_lt.2 hx), show d + 8 = (d + 1) + 7 by ring, hcut, abs_of_nonneg hx]
    constructor
    · intro h; constructor <;> linarith
    · intro h; linarith [h.2]

theorem fits16_iff (x : ℚ) : (showFixed x).length < 16 ↔ Fits16 x := showFixed_fits x 6

theorem fits18_iff (x : ℚ) : (showFixed x).length < 18 ↔ Fits18 x := showFixed_fits x 8

/-- The exponents of the finite floating point numbers have at most three digits. -/
theorem inRange_short {x : ℚ} (h : InRange x) : (showSci x).length ≤ 14 := by
  apply showSci_length
  rcases h with rfl | ⟨h1, h2⟩
  · simp [sciParts]
  · have hx : x ≠ 0 := by
      rintro rfl
      rw [abs_zero] at h1
      exact absurd h1 (not_le.2 (by positivity))
    have hpos : 0 < |x| := abs_pos.2 hx
    have lo : -330 ≤ Int.log 10 |x| := by
      have : Int.log 10 ((10 : ℚ) ^ (-330 : ℤ)) = -330 := by
        have := Int.log_zpow (R := ℚ) (b := 10) (by decide) (-330)
        exact_mod_cast this
      rw [← this]
      refine Int.log_mono_right (zpow_pos (by norm_num) _) ?_
      rw [zpow_neg, ← one_div]
      exact_mod_cast h1
    have hi : Int.log 10 |x| ≤ 330 := by
      have : Int.log 10 ((10 : ℚ) ^ (330 : ℤ)) = 330 := by
        have := Int.log_zpow (R := ℚ) (b := 10) (by decide) 330
        exact_mod_cast this
      rw [← this]
      refine Int.log_mono_right hpos ?_
      exact_mod_cast h2
    rw [sciParts, if_neg hx]
    simp only
    split_ifs
    · simp only; omega
    · simp only; omega

theorem allCoords_mem {P : ℚ → Prop} {m : Mesh (V3 ℚ)} (h : AllCoords P m) {v : V3 ℚ} (hv : v ∈ m.vertices) :
    ∀ x ∈ coords v, P x := by
  have := h v hv
  simp [coords, this]

/-- The usual sizes are in the range. -/
theorem inRange_usual {x : ℚ} (h : x = 0 ∨ (1 / 10 ^ 6 ≤ |x| ∧ |x| ≤ 10 ^ 6)) : InRange x := by
  rcases h with h | ⟨h1, h2⟩
  · exact Or.inl h
  · have hp : (10 : ℚ) ^ 6 ≤ 10 ^ 330 := pow_le_pow_right₀ (by norm_num) (by norm_num)
    exact Or.inr ⟨le_trans (one_div_le_one_div_of_le (by positivity) hp) h1, le_trans h2 hp⟩


end Verif.Files
