import Mathlib.Tactic.Ring
import Mathlib.Tactic.LinearCombination
import Mathlib.Tactic.FieldSimp
import Mathlib.Data.Real.Basic

/-!
# Vectors with three coordinates

Rows of the `(n, 3)` arrays of the library. No modelling decision here beyond exact arithmetic.
-/

namespace Verif.Geometry

/-- Three coordinates. -/
@[ext] structure V3 (R : Type) where
  x : R
  y : R
  z : R
  deriving DecidableEq

namespace V3

variable {R : Type}

instance [Add R] : Add (V3 R) := ⟨fun a b => ⟨a.x + b.x, a.y + b.y, a.z + b.z⟩⟩
instance [Sub R] : Sub (V3 R) := ⟨fun a b => ⟨a.x - b.x, a.y - b.y, a.z - b.z⟩⟩
instance [Neg R] : Neg (V3 R) := ⟨fun a => ⟨-a.x, -a.y, -a.z⟩⟩
instance [Zero R] : Zero (V3 R) := ⟨⟨0, 0, 0⟩⟩
instance [Mul R] : SMul R (V3 R) := ⟨fun c a => ⟨c * a.x, c * a.y, c * a.z⟩⟩

@[simp] theorem add_x [Add R] (a b : V3 R) : (a + b).x = a.x + b.x := rfl
@[simp] theorem add_y [Add R] (a b : V3 R) : (a + b).y = a.y + b.y := rfl
@[simp] theorem add_z [Add R] (a b : V3 R) : (a + b).z = a.z + b.z := rfl
@[simp] theorem sub_x [Sub R] (a b : V3 R) : (a - b).x = a.x - b.x := rfl
@[simp] theorem sub_y [Sub R] (a b : V3 R) : (a - b).y = a.y - b.y := rfl
@[simp] theorem sub_z [Sub R] (a b : V3 R) : (a - b).z = a.z - b.z := rfl
@[simp] theorem neg_x [Neg R] (a : V3 R) : (-a).x = -a.x := rfl
@[simp] theorem neg_y [Neg R] (a : V3 R) : (-a).y = -a.y := rfl
@[simp] theorem neg_z [Neg R] (a : V3 R) : (-a).z = -a.z := rfl
@[simp] theorem zero_x [Zero R] : (0 : V3 R).x = 0 := rfl
@[simp] theorem zero_y [Zero R] : (0 : V3 R).y = 0 := rfl
@[simp] theorem zero_z [Zero R] : (0 : V3 R).z = 0 := rfl
@[simp] theorem smul_x [Mul R] (c : R) (a : V3 R) : (c • a).x = c * a.x := rfl
@[simp] theorem smul_y [Mul R] (c : R) (a : V3 R) : (c • a).y = c * a.y := rfl
@[simp] theorem smul_z [Mul R] (c : R) (a : V3 R) : (c • a).z = c * a.z := rfl

/-- Scalar product, `np.dot` of two vectors or `np.sum(a * b, axis=1)` row by row. -/
def dot [Add R] [Mul R] (a b : V3 R) : R := a.x * b.x + a.y * b.y + a.z * b.z

/-- Vector product, `np.cross`. -/
def cross [Sub R] [Mul R] (a b : V3 R) : V3 R :=
  ⟨a.y * b.z - a.z * b.y, a.z * b.x - a.x * b.z, a.x * b.y - a.y * b.x⟩

@[simp] theorem cross_x [Sub R] [Mul R] (a b : V3 R) : (cross a b).x = a.y * b.z - a.z * b.y := rfl
@[simp] theorem cross_y [Sub R] [Mul R] (a b : V3 R) : (cross a b).y = a.z * b.x - a.x * b.z := rfl
@[simp] theorem cross_z [Sub R] [Mul R] (a b : V3 R) : (cross a b).z = a.x * b.y - a.y * b.x := rfl

instance [AddCommGroup R] : AddCommGroup (V3 R) where
  add_assoc a b c := by ext <;> simp [add_assoc]
  zero_add a := by ext <;> simp
  add_zero a := by ext <;> simp
  nsmul := nsmulRec
  zsmul := zsmulRec
  neg_add_cancel a := by ext <;> simp
  add_comm a b := by ext <;> simp [add_comm]
  sub_eq_add_neg a b := by ext <;> simp [sub_eq_add_neg]

end V3

end Verif.Geometry
