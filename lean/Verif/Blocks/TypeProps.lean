import Verif.Blocks.TypeModel
import Mathlib.Tactic.Linarith
import Mathlib.Tactic.FinCases

/-!
# Which types of numbers the products of block matrices accept and keep

Specification: the product of two numpy arrays never fails because of the types, and it is complex as soon as one of the two arrays is.
-/

namespace Verif.Blocks

/-- What full arrays give: a kind at least as high as both. -/
theorem promote_kind (a b : Num) : (a.promote b).kind = max a.kind b.kind := by cases a <;> cases b <;> rfl

/-- The matrices made of generic block matrices and arrays. -/
def PMat.Plain : PMat → Prop
  | .arr _ => True
  | .gen h w b => 0 < h ∧ 0 < w ∧ ∀ i, i < h → ∀ j, j < w → (b i j).Plain
  | .toep .. | .circ .. => False

/-- The matrix has an array of some type somewhere. -/
def PMat.Holds : PMat → Num → Prop
  | .arr t, s => t = s
  | .gen h w b, s => ∃ i, i < h ∧ ∃ j, j < w ∧ (b i j).Holds s
  | .toep n b, s => ∃ i, i < n ∧ (b i).Holds s
  | .circ n b, s => ∃ i, i < n ∧ (b i).Holds s

theorem plain_kind (np2 : Bool) (M : PMat) (hM : M.Plain) (v : Num) :
    (∃ t, M.prodType np2 v = some t ∧ t.kind ≤ v.kind) ↔ ∀ s, M.Holds s → s.kind ≤ v.kind := by
  induction M with
  | arr t =>
    simp only [PMat.prodType, PMat.Holds, Option.some.injEq]
    constructor
    · rintro ⟨t', rfl, h⟩ s rfl
      rw [promote_kind] at h
      omega
    · intro h
      refine ⟨_, rfl, ?_⟩
      rw [promote_kind]
      have := h t rfl
      omega
  | gen h w b ih =>
    simp only [PMat.prodType, PMat.Holds]
    constructor
    · rintro ⟨t, e, -⟩ s ⟨i, hi, j, hj, hs⟩
      split_ifs at e with hc
      exact (ih i j (hM.2.2 i hi j hj)).1 (hc i hi j hj) s hs
    · intro e
      refine ⟨v, ?_, le_rfl⟩
      rw [if_pos]
      intro i hi j hj
      exact (ih i j (hM.2.2 i hi j hj)).2 fun s hs => e s ⟨i, hi, j, hj, hs⟩
  | toep n b _ => exact hM.elim
  | circ n b _ => exact hM.elim

/-- A generic block matrix can be multiplied by a vector exactly when none of its arrays is of a higher kind than the vector, and then the
result has the type of the vector. -/
theorem product_type_iff (np2 : Bool) (h w : ℕ) (b : ℕ → ℕ → PMat) (hM : (PMat.gen h w b).Plain) (v : Num) :
    ((PMat.gen h w b).prodType np2 v = some v ↔ ∀ s, (PMat.gen h w b).Holds s → s.kind ≤ v.kind) ∧
    ((PMat.gen h w b).prodType np2 v = none ↔ ∃ s, (PMat.gen h w b).Holds s ∧ v.kind < s.kind) := by
  have key := plain_kind np2 _ hM v
  have two : (PMat.gen h w b).prodType np2 v = some v ∨ (PMat.gen h w b).prodType np2 v = none := by
    simp only [PMat.prodType]
    split_ifs
    · exact Or.inl rfl
    · exact Or.inr rfl
  have e1 : (PMat.gen h w b).prodType np2 v = some v ↔ ∀ s, (PMat.gen h w b).Holds s → s.kind ≤ v.kind := by
    rw [← key]
    constructor
    · intro e
      exact ⟨v, e, le_rfl⟩
    · rintro ⟨t, e, -⟩
      rcases two with e' | e'
      · exact e'
      · rw [e'] at e
        cases e
  refine ⟨e1, ?_⟩
  constructor
  · intro e
    by_contra hc
    push Not at hc
    rw [e1.2 hc] at e
    cases e
  · rintro ⟨s, hs, hlt⟩
    rcases two with e | e
    · have := e1.1 e s hs
      omega
    · exact e

/-- The product of a complex block matrix and a real vector fails, whereas that of the full array is complex. -/
theorem complex_real_violated (np2 : Bool) (h w : ℕ) (b : ℕ → ℕ → PMat) (hM : (PMat.gen h w b).Plain) (v : Num) (hv : v.kind ≤ 2)
    (s : Num) (hs : (PMat.gen h w b).Holds s) (h3 : s.kind = 3) :
    (PMat.gen h w b).prodType np2 v = none ∧ (PMat.arr s).prodType np2 v = some (s.promote v) ∧ (s.promote v).kind = 3 := by
  refine ⟨(product_type_iff np2 h w b hM v).2.2 ⟨s, hs, by omega⟩, rfl, ?_⟩
  rw [promote_kind]
  omega

/-- When a circulant matrix gives real numbers although one of the two is complex. -/
theorem circulant_real_iff (np2 : Bool) (m v : Num) :
    ((circType np2 m v).kind < 3 ∧ (m.promote v).kind = 3) ↔
      (m = .complex64 ∨ v = .complex64) ∧ m ≠ .complex128 ∧ v ≠ .complex128 := by
  cases np2 <;> cases m <;> cases v <;> decide

/-- The same for a Toeplitz matrix: the matrix is complex of single precision and the vector is real. -/
theorem toeplitz_real_iff (np2 : Bool) (m v : Num) :
    ((circType np2 m (toepVector v)).kind < 3 ∧ (m.promote v).kind = 3) ↔ m = .complex64 ∧ v.kind ≤ 2 := by
  cases np2 <;> cases m <;> cases v <;> decide

/-- The values are right exactly when they are real or one of the two types is complex of double precision. -/
theorem circulant_value_iff (m v : Num) (z : ℂ) : circValue m v z = z ↔ z.im = 0 ∨ m = .complex128 ∨ v = .complex128 := by
  unfold circValue
  split_ifs with h
  · exact ⟨fun _ => Or.inr h, fun _ => rfl⟩
  · constructor
    · intro e
      left
      rw [← e]
      simp
    · rintro (e | e)
      · apply Complex.ext <;> simp [e]
      · exact absurd e h

/-- Complex matrices of single precision lose the imaginary part of their products with real vectors, in both structures. -/
theorem single_precision_violated (np2 : Bool) (n : ℕ) (v : Num) (hv : v.kind ≤ 2) :
    (∃ t, (PMat.circ n fun _ => .arr .complex64).prodType np2 v = some t ∧ t.kind = 2) ∧
    (∃ t, (PMat.toep n fun _ => .arr .complex64).prodType np2 v = some t ∧ t.kind = 2) ∧
    circValue .complex64 v Complex.I = 0 ∧ circValue .complex64 (toepVector v) Complex.I = 0 := by
  have hne : v ≠ .complex128 := by rintro rfl; simp [Num.kind] at hv
  have hne' : toepVector v ≠ .complex128 := by
    cases v <;> simp_all [Num.kind, toepVector, Num.promote, Num.wide, Num.of]
  refine ⟨⟨_, rfl, ?_⟩, ⟨_, rfl, ?_⟩, ?_, ?_⟩
  · show (circType np2 .complex64 v).kind = 2
    clear hne hne'
    revert hv
    cases np2 <;> cases v <;> decide
  · show (circType np2 .complex64 (toepVector v)).kind = 2
    clear hne hne'
    revert hv
    cases np2 <;> cases v <;> decide
  · simp [circValue, hne]
  · simp [circValue, hne']

/-- With double precision the structured products have the kind of the product of full arrays, except that integers become real numbers. -/
theorem double_precision_kind (np2 : Bool) (m v : Num) (hm : m ≠ .complex64) (hv : v ≠ .complex64) :
    (circType np2 m v).kind = max 2 (m.promote v).kind ∧ (circType np2 m (toepVector v)).kind = max 2 (m.promote v).kind := by
  cases np2 <;> cases m <;> cases v <;> first | exact absurd rfl hm | exact absurd rfl hv | decide

/-- A complex matrix of two blocks by two, and a real vector. -/
example : (PMat.gen 2 2 fun _ _ => .arr .complex128).Plain ∧ (PMat.gen 2 2 fun _ _ => .arr .complex128).Holds .complex128 ∧
    Num.float64.kind ≤ 2 ∧ Num.complex128.kind = 3 := by
  refine ⟨⟨by norm_num, by norm_num, fun _ _ _ _ => trivial⟩, ⟨0, by norm_num, 0, by norm_num, rfl⟩, by decide, by decide⟩

end Verif.Blocks
