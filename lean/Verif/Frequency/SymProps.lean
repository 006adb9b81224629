import Verif.Frequency.SymModel
import Mathlib.Topology.Algebra.Order.Field
import Mathlib.Topology.Instances.Real.Lemmas
import Mathlib.Tactic.FieldSimp
import Mathlib.Tactic.Ring
import Mathlib.Algebra.Module.Basic

/-!
# Symbolic arithmetic is ordinary arithmetic (C05)
-/

namespace Verif.Frequency

/-! ## Specification -/

/-- Ordinary value when the symbol `"0"` is replaced by `ε` and `"∞"` by its inverse. -/
def SV.eval {F : Type} [Field F] (ε : F) : SV F → F
  | .num x => x
  | .sym .zero v => ε * v.eval ε
  | .sym .infty v => ε⁻¹ * v.eval ε

/-! ## Properties -/

theorem eval_numMul {F : Type} [Field F] (ε x : F) (b : SV F) :
    (SV.numMul x b).eval ε = x * b.eval ε := by
  induction b with
  | num y => rfl
  | sym s v ih => cases s <;> simp only [SV.numMul, SV.eval, ih] <;> ring

/-- **C05, products.** -/
theorem sym_mul {F : Type} [Field F] (ε : F) (a b : SV F) :
    (a.mul b).eval ε = a.eval ε * b.eval ε := by
  induction a with
  | num x => exact eval_numMul ε x b
  | sym s v ih => cases s <;> simp only [SV.mul, SV.eval, ih] <;> ring

theorem eval_numDiv {F : Type} [Field F] (ε x : F) (b : SV F) :
    (SV.numDiv x b).eval ε = x / b.eval ε := by
  induction b with
  | num y => rfl
  | sym s v ih =>
    cases s <;> simp only [SV.numDiv, Symb.flip, SV.eval, ih, div_eq_mul_inv, mul_inv_rev, inv_inv]
      <;> ring

/-- **C05, quotients**, for any non-zero value of the symbol. -/
theorem sym_div {F : Type} [Field F] (ε : F) (hε : ε ≠ 0) (a b : SV F) :
    (a.div b).eval ε = a.eval ε / b.eval ε := by
  induction a generalizing b with
  | num x => exact eval_numDiv ε x b
  | sym s v ih =>
    cases b with
    | num y => cases s <;> simp only [SV.div, SV.eval, ih] <;> ring
    | sym s' v' =>
      simp only [SV.div]
      split
      · rename_i h
        subst h
        rw [ih]
        cases s
        · simp only [SV.eval]; rw [mul_div_mul_left _ _ hε]
        · simp only [SV.eval]; rw [mul_div_mul_left _ _ (inv_ne_zero hε)]
      · cases s <;> simp only [SV.eval, ih] <;> ring

example : (2 : ℚ) ≠ 0 := by norm_num

/-- **C05, squares.** -/
theorem sym_pow {F : Type} [Field F] (ε : F) (a b : SV F) (n : ℕ) (h : a.pow n = some b) :
    b.eval ε = a.eval ε ^ n := by
  unfold SV.pow at h
  split at h
  · rename_i hn
    subst hn
    rw [← Option.some.inj h, sym_mul, pow_two]
  · cases h

example : ((SV.sym .zero (.num (3 : ℚ))).pow 2).isSome := by rfl

/-- **C05, quotients of quantities with the same symbol** are plain numbers, the quotient of the
values. -/
theorem sym_div_same {F : Type} [Field F] (s : Symb) (x y : F) :
    (SV.sym s (.num x)).div (.sym s (.num y)) = .num (x / y) := by
  simp [SV.div, SV.numDiv]

/-- A force `ω² x` divided by `ω * ω` gives back the plain number `x`: nested symbols simplify. This
is how the added mass is computed at zero and infinite frequency. -/
theorem sym_square_div_square {F : Type} [Field F] (s : Symb) (x : F) :
    (SV.sym s (.sym s (.num x))).div ((SV.sym s (.num 1)).mul (.sym s (.num 1))) = .num x := by
  simp [SV.div, SV.mul, SV.numMul, SV.numDiv]

open Filter Topology

/-- **C05, conversion to a number.** When the conversion gives a finite number, it is the limit of
the ordinary value as the symbol `"0"` tends to zero; when it gives an infinity, the ordinary value
tends to this infinity. -/
theorem sym_float_is_limit (a : SV ℝ) :
    (∀ x, a.toFloat = .fin x → Tendsto (fun ε => a.eval ε) (𝓝[>] 0) (𝓝 x)) ∧
    (a.toFloat = .pinf → Tendsto (fun ε => a.eval ε) (𝓝[>] 0) atTop) ∧
    (a.toFloat = .ninf → Tendsto (fun ε => a.eval ε) (𝓝[>] 0) atBot) := by
  have hid : Tendsto (fun ε : ℝ => ε) (𝓝[>] 0) (𝓝 0) := nhdsWithin_le_nhds
  have hinv : Tendsto (fun ε : ℝ => ε⁻¹) (𝓝[>] 0) atTop := tendsto_inv_nhdsGT_zero
  induction a with
  | num x =>
    refine ⟨fun y h => ?_, fun h => by simp [SV.toFloat] at h, fun h => by simp [SV.toFloat] at h⟩
    simp only [SV.toFloat, PyFloat.fin.injEq] at h
    subst h
    exact tendsto_const_nhds
  | sym s v ih =>
    obtain ⟨i1, i2, i3⟩ := ih
    cases s with
    | zero =>
      simp only [SV.toFloat]
      generalize hv : v.toFloat = f at i1 i2 i3
      cases f with
      | fin y =>
        refine ⟨fun x h => ?_, fun h => by simp [PyFloat.zeroMul] at h,
          fun h => by simp [PyFloat.zeroMul] at h⟩
        simp only [PyFloat.zeroMul, PyFloat.fin.injEq] at h
        subst h
        have := hid.mul (i1 y rfl)
        simpa [SV.eval] using this
      | _ => simp [PyFloat.zeroMul]
    | infty =>
      simp only [SV.toFloat]
      generalize hv : v.toFloat = f at i1 i2 i3
      cases f with
      | fin y =>
        simp only [PyFloat.infMul]
        by_cases hp : 0 < y
        · simp only [hp, if_true]
          refine ⟨fun x h => by simp at h, fun _ => ?_, fun h => by simp at h⟩
          exact hinv.atTop_mul_pos hp (i1 y rfl)
        · by_cases hn : y < 0
          · simp only [hp, hn, if_true, if_false]
            refine ⟨fun x h => by simp at h, fun h => by simp at h, fun _ => ?_⟩
            exact hinv.atTop_mul_neg hn (i1 y rfl)
          · simp [hp, hn]
      | pinf =>
        refine ⟨fun x h => by simp [PyFloat.infMul] at h, fun _ => ?_,
          fun h => by simp [PyFloat.infMul] at h⟩
        exact hinv.atTop_mul_atTop₀ (i2 rfl)
      | ninf =>
        refine ⟨fun x h => by simp [PyFloat.infMul] at h, fun h => by simp [PyFloat.infMul] at h,
          fun _ => ?_⟩
        exact hinv.atTop_mul_atBot₀ (i3 rfl)
      | nan => simp [PyFloat.infMul]

example : (SV.sym .infty (.num 2)).toFloat = .pinf ∧ (SV.sym .zero (.num 2)).toFloat = .fin 0 := by
  simp [SV.toFloat, PyFloat.infMul, PyFloat.zeroMul]

/-- **C05 is violated by the conversion of products of different symbols**: the product of zero and
infinite frequency stands for the number one whatever the value of the symbol, but converts to
NaN. -/
theorem sym_float_product_violated :
    ((SV.sym .zero (.num (1 : ℝ))).mul (.sym .infty (.num 1))).toFloat = .nan ∧
    ∀ ε : ℝ, ε ≠ 0 → ((SV.sym .zero (.num (1 : ℝ))).mul (.sym .infty (.num 1))).eval ε = 1 := by
  refine ⟨?_, ?_⟩
  · simp [SV.mul, SV.numMul, SV.toFloat, PyFloat.infMul, PyFloat.zeroMul]
  · intro ε hε
    rw [sym_mul]
    simp [SV.eval, hε]

/-- The ordinary value of a vector with a symbol. -/
def evalVec {F V : Type} [Field F] [AddCommGroup V] [Module F V] (ε : F) : Option Symb × V → V
  | (none, v) => v
  | (some .zero, v) => ε • v
  | (some .infty, v) => ε⁻¹ • v

/-- **C05, functions of symbolic vectors.** A decorated homogeneous function (resolution of a linear
system, integral of a pressure) acts on the ordinary value. -/
theorem wrapped_homogeneous {F V W : Type} [Field F] [AddCommGroup V] [Module F V] [AddCommGroup W]
    [Module F W] (f : V → W) (hf : ∀ (c : F) v, f (c • v) = c • f v) (ε : F) (x : Option Symb × V) :
    evalVec ε (wrapped f x) = f (evalVec ε x) := by
  obtain ⟨s, v⟩ := x
  cases s with
  | none => rfl
  | some s => cases s <;> exact (hf _ _).symm

example : ∀ (c v : ℚ), (fun v => 3 * v) (c • v) = c • (fun v => 3 * v) v := by
  intro c v; simp; ring

end Verif.Frequency
