import Verif.Green.AssemblyModel
import Mathlib.Analysis.SpecialFunctions.Log.Basic
import Mathlib.Analysis.SpecialFunctions.Trigonometric.DerivHyp

/-!
# The wave part of the Green function

Model of `green_functions/libDelhommeau/src/Green_wave.f90`, without the two optional libraries.

Simplifications: numbers are exact; the five elementary integrals are functions of `r` and `z`, whichever way they are computed
(tables, asymptotic expression or quadrature, see `Verif/Tabulation`).
-/

namespace Verif.Green

open Verif.Geometry V3

/-- The five elementary integrals (`Green_wave.f90:287-301`). -/
structure Tables where
  i1 : ℝ → ℝ → ℝ
  i2 : ℝ → ℝ → ℝ
  i3 : ℝ → ℝ → ℝ
  i4 : ℝ → ℝ → ℝ
  i5 : ℝ → ℝ → ℝ

/-- `r` (`Green_wave.f90:150`, `259`). -/
noncomputable def radial (k : ℝ) (x ξ : V3 ℝ) : ℝ := k * Real.sqrt ((x.x - ξ.x) ^ 2 + (x.y - ξ.y) ^ 2)

/-- `z` (`Green_wave.f90:151`, `260`). -/
def vertical (k : ℝ) (x ξ : V3 ℝ) : ℝ := k * (x.z + ξ.z)

/-- `hypot`. -/
noncomputable def hypot (r z : ℝ) : ℝ := Real.sqrt (r ^ 2 + z ^ 2)

/-- `drdx1` or `drdx2`, where `d` is the difference of the coordinates and `r` is in double precision
(`Green_wave.f90:263-270`). -/
noncomputable def drdx (k d r : ℝ) : ℝ := if |r| > 16 / 2 ^ 52 then k ^ 2 * d / r else 0

/-- `WAVE_PART_INFINITE_DEPTH` (`Green_wave.f90:226-332`). -/
noncomputable def wavePoint (T : Tables) (g : Singularities) (k : ℝ) (x ξ : V3 ℝ) : ℂ × V3 ℂ :=
  let r := radial k x ξ
  let z := vertical k x ξ
  let r1 := hypot r z
  let drdx1 := drdx k (x.x - ξ.x) r
  let drdx2 := drdx k (x.y - ξ.y) r
  let dGdr : ℂ := ⟨T.i4 r z, T.i5 r z⟩
  let res : ℂ × V3 ℂ := match g with
    | .lowFreq =>
      let G : ℂ := ⟨T.i1 r z, T.i3 r z⟩
      (G, ⟨drdx1 * dGdr, drdx2 * dGdr, k * (G + ((2 / r1 : ℝ) : ℂ))⟩)
    | .lowFreqWithRankinePart =>
      let G : ℂ := ⟨T.i1 r z, T.i3 r z⟩
      (G, ⟨drdx1 * dGdr, drdx2 * dGdr, k * G⟩)
    | .highFreq =>
      let G : ℂ := ⟨T.i2 r z, T.i3 r z⟩
      (G, ⟨drdx1 * dGdr - ((2 * drdx1 * r / r1 ^ 3 : ℝ) : ℂ), drdx2 * dGdr - ((2 * drdx2 * r / r1 ^ 3 : ℝ) : ℂ),
        k * G - ((2 * k * z / r1 ^ 3 : ℝ) : ℂ)⟩)
  (k * res.1, (k : ℂ) • res.2)

/-- What is known of a panel: its center, its area and its quadrature points with their weights. -/
structure Source where
  center : V3 ℝ
  area : ℝ
  quad : List (V3 ℝ × ℝ)

/-- `integral_of_singularity_on_free_surface` (`Green_wave.f90:192-222`), with a value for Euler's constant. -/
noncomputable def onSurface (euler area k : ℝ) : ℂ × V3 ℂ :=
  let G : ℂ := ((k * area : ℝ) : ℂ) * ⟨(1 - Real.log (k ^ 2 * area / Real.pi)) + 2 * (euler - Real.log 2), -2 * Real.pi⟩
  (G, ⟨0, 0, k * (G + ((4 * Real.sqrt (Real.pi * area) : ℝ) : ℂ))⟩)

/-- The loop on the quadrature points (`Green_wave.f90:164-181`). -/
noncomputable def quadrature (T : Tables) (g : Singularities) (k : ℝ) (x : V3 ℝ) (quad : List (V3 ℝ × ℝ)) : ℂ × V3 ℂ :=
  quad.foldl (fun acc q => (acc.1 + (wavePoint T g k x q.1).1 * (q.2 : ℂ), acc.2 + (q.2 : ℂ) • (wavePoint T g k x q.1).2)) (0, 0)

open Classical in
/-- `integral_of_wave_part_infinite_depth` (`Green_wave.f90:115-188`). -/
noncomputable def waveInfinite (euler : ℝ) (T : Tables) (g : Singularities) (k : ℝ) (x : V3 ℝ) (s : Source) (first : Bool) :
    ℂ × V3 ℂ :=
  let res := if |radial k x s.center| < 1e-10 ∧ |vertical k x s.center| < 1e-10 then onSurface euler s.area k
    else quadrature T g k x s.quad
  (res.1, if first then res.2 else ⟨-res.2.x, -res.2.y, res.2.z⟩)

/-- `symmetric_of_vector` (`Green_wave.f90:336-342`). -/
def flipped (n : V3 ℂ) : V3 ℂ := ⟨n.x, n.y, -n.z⟩

/-- `sea_bottom_symmetric_of_point` (`Green_wave.f90:344-351`). -/
def bottomPoint (h : ℝ) (x : V3 ℝ) : V3 ℝ := ⟨x.x, x.y, -x.z - 2 * h⟩

/-- `sea_bottom_symmetric_of_face` (`Green_wave.f90:353-370`). -/
def Source.bottom (s : Source) (h : ℝ) : Source where
  center := bottomPoint h s.center
  area := s.area
  quad := s.quad.map fun q => (bottomPoint h q.1, q.2)

/-- `A` (`Green_wave.f90:423-425`). -/
noncomputable def amplitude (k h : ℝ) : ℝ :=
  let AMH := k * h
  let AKH := AMH * Real.tanh AMH
  (AMH + AKH) ^ 2 / (4 * AMH * (AMH ^ 2 - AKH ^ 2 + AKH))

/-- The four infinite depth problems (`Green_wave.f90:431-502`). -/
noncomputable def waveFour (euler : ℝ) (T : Tables) (k h : ℝ) (x : V3 ℝ) (s : Source) (first : Bool) : ℂ × V3 ℂ :=
  let A : ℂ := (amplitude k h : ℂ)
  let a := waveInfinite euler T .lowFreq k x s first
  let b := waveInfinite euler T .lowFreq k (bottomPoint h x) s first
  let c := waveInfinite euler T .lowFreq k x (s.bottom h) first
  let d := waveInfinite euler T .lowFreq k (bottomPoint h x) (s.bottom h) first
  (0 + A * a.1 + A * b.1 + A * c.1 + A * d.1,
    0 + A • a.2 + A • (if first then flipped b.2 else b.2) + A • (if first then c.2 else flipped c.2) + A • flipped d.2)

/-- A real vector as a complex one. -/
def toC (v : V3 ℝ) : V3 ℂ := ⟨v.x, v.y, v.z⟩

/-- One term of the Prony decomposition (`Green_wave.f90:507-554`). -/
noncomputable def pronyTerm (h : ℝ) (x : V3 ℝ) (f : Face) (first : Bool) (acc : ℂ × V3 ℂ) (t : ℝ × ℝ) : ℂ × V3 ℂ :=
  let add (acc : ℂ × V3 ℂ) (r : ℝ × V3 ℝ) : ℂ × V3 ℂ :=
    (acc.1 + ((t.2 / 2 : ℝ) : ℂ) * (r.1 : ℂ), acc.2 + ((t.2 / 2 : ℝ) : ℂ) • toC r.2)
  add (add (add (add acc (rankineReflected x f first ⟨1, h * t.1 - 2 * h⟩)) (rankineReflected x f first ⟨-1, -h * t.1⟩))
    (rankineReflected x f first ⟨-1, h * t.1 - 4 * h⟩)) (rankineReflected x f first ⟨1, -h * t.1 + 2 * h⟩)

/-- `integral_of_wave_part_finite_depth` (`Green_wave.f90:372-555`). The source is the panel `f`. -/
noncomputable def waveFinite (euler : ℝ) (T : Tables) (k h : ℝ) (prony : List (ℝ × ℝ)) (x : V3 ℝ) (f : Face)
    (quad : List (V3 ℝ × ℝ)) (first : Bool) : ℂ × V3 ℂ :=
  prony.foldl (pronyTerm h x f first) (waveFour euler T k h x ⟨f.center, f.area, quad⟩ first)

end Verif.Green
