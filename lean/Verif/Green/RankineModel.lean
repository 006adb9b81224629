import Verif.Geometry.TransformModel
import Mathlib.Analysis.SpecialFunctions.Log.Basic
import Mathlib.Analysis.SpecialFunctions.Trigonometric.Arctan

/-!
# Rankine terms

Model of `green_functions/libDelhommeau/src/Green_Rankine.f90`, function by function, with exact numbers. Divisions by zero
give zero here, where the code gives infinite values or NaN: the theorems are stated away from them.
-/

namespace Verif.Green

open Verif.Geometry V3

/-- What is known of a panel (arguments of `integral_of_Rankine`, `Green_Rankine.f90:23-27`). -/
structure Face where
  nodes : Fin 4 → V3 ℝ
  center : V3 ℝ
  normal : V3 ℝ
  area : ℝ
  radius : ℝ

/-- `one_point_integral_of_Rankine` (`Green_Rankine.f90:150-187`). -/
noncomputable def onePoint (M center : V3 ℝ) (area : ℝ) (first : Bool) : ℝ × V3 ℝ :=
  let vo := center - M
  let ro := V3.norm vo
  let g : ℝ × V3 ℝ := if ro > 1e-7 then (area / ro, (area / ro / ro ^ 2) • vo) else (0, 0)
  (g.1, if first then g.2 else -g.2)

/-- `sign(ONE, x)`. -/
noncomputable def fsign (x : ℝ) : ℝ := if 0 ≤ x then 1 else -1

/-- `GZ` (`Green_Rankine.f90:88`). -/
noncomputable def gz (M : V3 ℝ) (f : Face) : ℝ := dot (M - f.center) f.normal

/-- `DK` (`Green_Rankine.f90:99`): the length of a side. -/
noncomputable def dk (f : Face) (l : Fin 4) : ℝ := V3.norm (f.nodes (l + 1) - f.nodes l)

/-- `RR` (`Green_Rankine.f90:91`). -/
noncomputable def rr (M : V3 ℝ) (f : Face) (l : Fin 4) : ℝ := V3.norm (M - f.nodes l)

/-- `DRX` (`Green_Rankine.f90:92`). -/
noncomputable def drx (M : V3 ℝ) (f : Face) (l : Fin 4) : V3 ℝ := (rr M f l)⁻¹ • (M - f.nodes l)

/-- `GYX` (`Green_Rankine.f90:101-105`). -/
noncomputable def gyx (f : Face) (l : Fin 4) : V3 ℝ :=
  cross f.normal ((dk f l)⁻¹ • (f.nodes (l + 1) - f.nodes l))

/-- `GY` (`Green_Rankine.f90:106`). -/
noncomputable def gy (M : V3 ℝ) (f : Face) (l : Fin 4) : ℝ := dot (M - f.nodes l) (gyx f l)

/-- The contribution of one side (`Green_Rankine.f90:98-141`) to `int_G` and `int_nabla_G`. -/
noncomputable def side (M : V3 ℝ) (f : Face) (l : Fin 4) : ℝ × V3 ℝ :=
  let GZ := gz M f
  let DK := dk f l
  if DK ≥ 1e-3 * f.radius then
    let GYX := gyx f l
    let GY := gy M f l
    let R := rr M f (l + 1) + rr M f l
    let ANT := 2 * GY * DK
    let DNT := R ^ 2 - DK * DK + 2 * |GZ| * R
    let ANL := R + DK
    let DNL := R - DK
    let ALDEN := Real.log (ANL / DNL)
    let AT := if |GZ| ≥ 1e-4 * f.radius then Real.arctan (ANT / DNT) else 0
    let ANLX := drx M f (l + 1) + drx M f l
    let ANTX := (2 * DK) • GYX
    let DNTX := (2 * (R + |GZ|)) • ANLX + (2 * fsign GZ * R) • f.normal
    (if |GY| < 1e-5 then -(2 * AT * |GZ|) else GY * ALDEN - 2 * AT * |GZ|,
      ALDEN • GYX - (2 * fsign GZ * AT) • f.normal + (GY * (DNL - ANL) / (ANL * DNL)) • ANLX
        - (2 * |GZ| / (ANT * ANT + DNT * DNT)) • (DNT • ANTX - ANT • DNTX))
  else (0, 0)

/-- `exact_integral_of_Rankine` (`Green_Rankine.f90:57-146`). -/
noncomputable def exact (M : V3 ℝ) (f : Face) (first : Bool) : ℝ × V3 ℝ :=
  let g := (side M f 0).2 + (side M f 1).2 + (side M f 2).2 + (side M f 3).2
  ((side M f 0).1 + (side M f 1).1 + (side M f 2).1 + (side M f 3).1, if first then g else -g)

/-- `integral_of_Rankine` (`Green_Rankine.f90:17-53`). -/
noncomputable def rankine (M : V3 ℝ) (f : Face) (first : Bool) : ℝ × V3 ℝ :=
  if V3.norm (M - f.center) > 7 * f.radius then onePoint M f.center f.area first else exact M f first

/-- `reflection_coefs`: the vertical coordinate `z` of the point becomes `s z + t`. -/
structure Reflection where
  s : ℝ
  t : ℝ

/-- `reflected_M` (`Green_Rankine.f90:260-261`, `310-311`). -/
def reflectPoint (c : Reflection) (M : V3 ℝ) : V3 ℝ := ⟨M.x, M.y, c.s * M.z + c.t⟩

/-- What is done of the gradient (`Green_Rankine.f90:275-283`, `318-325`). -/
noncomputable def reflectGradient (c : Reflection) (first : Bool) (g : V3 ℝ) : V3 ℝ :=
  let g' : V3 ℝ := ⟨g.x, g.y, c.s * g.z⟩
  if first then g' else ⟨-g'.x, -g'.y, if c.s > 0 then -g'.z else g'.z⟩

/-- `one_point_integral_of_reflected_Rankine` (`Green_Rankine.f90:289-327`). -/
noncomputable def onePointReflected (M center : V3 ℝ) (area : ℝ) (first : Bool) (c : Reflection) : ℝ × V3 ℝ :=
  let r := onePoint (reflectPoint c M) center area true
  (r.1, reflectGradient c first r.2)

/-- `exact_integral_of_reflected_Rankine` (`Green_Rankine.f90:236-285`). -/
noncomputable def exactReflected (M : V3 ℝ) (f : Face) (first : Bool) (c : Reflection) : ℝ × V3 ℝ :=
  let r := exact (reflectPoint c M) f true
  (r.1, reflectGradient c first r.2)

/-- `integral_of_reflected_Rankine` (`Green_Rankine.f90:191-232`). -/
noncomputable def rankineReflected (M : V3 ℝ) (f : Face) (first : Bool) (c : Reflection) : ℝ × V3 ℝ :=
  let h := Real.sqrt ((M.x - f.center.x) ^ 2 + (M.y - f.center.y) ^ 2)
  let r1 := Real.sqrt (h ^ 2 + (c.s * M.z + c.t - f.center.z) ^ 2)
  if r1 > 7 * f.radius then onePointReflected M f.center f.area first c else exactReflected M f first c

end Verif.Green
