import Mathlib.Algebra.Field.Basic
import Mathlib.Data.Real.Basic

/-!
# Symbolic products with zero and infinity

Model of `SymbolicMultiplication`, `capytaine/tools/symbolic_multiplication.py:14-125`.
-/

namespace Verif.Frequency

/-- The two symbols `"0"` and `"∞"`. -/
inductive Symb where
  | zero
  | infty
  deriving DecidableEq

/-- Values handled by the library: plain numbers, or a symbol with a value
(`symbolic_multiplication.py:16-20`), which may itself contain a symbol. -/
inductive SV (F : Type) where
  | num (x : F)
  | sym (s : Symb) (v : SV F)

/-- `"∞"` for `"0"` and conversely, `symbolic_multiplication.py:66-69`. -/
def Symb.flip : Symb → Symb
  | .zero => .infty
  | .infty => .zero

/-- `x * b` for a plain number `x`: `__rmul__`, `symbolic_multiplication.py:48-49`. -/
def SV.numMul {F : Type} [Mul F] (x : F) : SV F → SV F
  | .num y => .num (x * y)
  | .sym s v => .sym s (numMul x v)

/-- `a * b`: `__mul__`, `symbolic_multiplication.py:45-46`. -/
def SV.mul {F : Type} [Mul F] : SV F → SV F → SV F
  | .num x, b => SV.numMul x b
  | .sym s v, b => .sym s (v.mul b)

/-- `x / b` for a plain number `x`: `__rtruediv__`, `symbolic_multiplication.py:63-71`. -/
def SV.numDiv {F : Type} [Div F] (x : F) : SV F → SV F
  | .num y => .num (x / y)
  | .sym s v => .sym s.flip (numDiv x v)

/-- `a / b`: `__truediv__`, `symbolic_multiplication.py:57-61`. -/
def SV.div {F : Type} [Div F] : SV F → SV F → SV F
  | .num x, b => SV.numDiv x b
  | .sym s v, .num y => .sym s (v.div (.num y))
  | .sym s v, .sym s' v' => if s = s' then v.div v' else .sym s (v.div (.sym s' v'))

/-- `a ** n`: `__pow__`, `symbolic_multiplication.py:51-55`; `none` is `NotImplementedError`. -/
def SV.pow {F : Type} [Mul F] (a : SV F) (n : ℕ) : Option (SV F) :=
  if n = 2 then some (a.mul a) else none

/-- Floating point numbers with infinities and NaN, with exact finite numbers. -/
inductive PyFloat where
  | fin (x : ℝ)
  | pinf
  | ninf
  | nan

open Classical in
/-- `0.0 * x`, IEEE arithmetic. -/
noncomputable def PyFloat.zeroMul : PyFloat → PyFloat
  | .fin _ => .fin 0
  | _ => .nan

open Classical in
/-- `np.inf * x`, IEEE arithmetic. -/
noncomputable def PyFloat.infMul : PyFloat → PyFloat
  | .fin x => if 0 < x then .pinf else if x < 0 then .ninf else .nan
  | .pinf => .pinf
  | .ninf => .ninf
  | .nan => .nan

/-- `float(a)`: `__float__`, `symbolic_multiplication.py:99-105`. -/
noncomputable def SV.toFloat : SV ℝ → PyFloat
  | .num x => .fin x
  | .sym .zero v => v.toFloat.zeroMul
  | .sym .infty v => v.toFloat.infMul

/-- `supporting_symbolic_multiplication`, `symbolic_multiplication.py:112-125`: a symbol around a
vector is kept and the function is applied to the vector. The first argument of the function is left
out. -/
def wrapped {V W : Type} (f : V → W) : Option Symb × V → Option Symb × W
  | (s, v) => (s, f v)

end Verif.Frequency
