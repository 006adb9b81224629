import Verif.PostPro.PointsModel
import Mathlib.Analysis.Complex.Exponential
import Mathlib.Analysis.Complex.Trigonometric
import Mathlib.Analysis.SpecialFunctions.Trigonometric.Basic

/-!
# Older post-processing functions, pressure of the solver and far field

Model of `get_potential_on_mesh` and `get_free_surface_elevation` (`capytaine/bem/solver.py:478-565`), of the pressure computed during
the resolution (`capytaine/bem/solver.py:119-164`) and of `compute_kochin` (`capytaine/post_pro/kochin.py:10-54`).
-/

namespace Verif.PostPro

open Verif.Geometry

variable {Panel : Type}

/-- `mesh.extract_faces(list(range(i, j)))`, `capytaine/bem/solver.py:523-525`. -/
def extractRange (mesh : List Panel) (i j : Nat) : List Panel :=
  (List.range' i (j - i)).filterMap fun k => mesh[k]?

/-- `phi[i:i+chunk_size] = values`, `capytaine/bem/solver.py:530`: the slice stops at the end of the array, and the number of values has
to be its length. Elements that are not yet written are `none`. -/
def setSlice (phi : List (Option ℂ)) (i j : Nat) (values : List ℂ) : Option (List (Option ℂ)) :=
  if values.length = min j phi.length - i then some (phi.take i ++ values.map some ++ phi.drop j) else none

/-- `range(0, nb, chunk_size)` for a positive size, `capytaine/bem/solver.py:522`. -/
def chunkStarts (nb chunk : Nat) : List Nat := (List.range ((nb + chunk - 1) / chunk)).map (· * chunk)

/-- One pass of the loop on the chunks, `capytaine/bem/solver.py:522-530`. -/
def chunkStep (K : Kernel Panel) (r : Res Panel) (mesh : List Panel) (chunk : Nat) (phi : List (Option ℂ)) (i : Nat) :
    Option (List (Option ℂ)) :=
  match potentialRows K r r.wavenumber ((extractRange mesh i (min (i + chunk) mesh.length)).map K.center) with
  | none => none
  | some values => setSlice phi i (i + chunk) values

/-- `get_potential_on_mesh`, `capytaine/bem/solver.py:478-534`. A size equal to zero is an error of `range`. With a negative size
the loop is empty and the array is not initialised. -/
def getPotentialOnMesh (K : Kernel Panel) (r : Res Panel) (mesh : List Panel) (chunk : ℤ) : Option (List (Option ℂ)) :=
  if r.sources = none then none
  else if chunk > mesh.length then (potentialRows K r r.wavenumber (mesh.map K.center)).map fun v => v.map some
  else if chunk = 0 then none
  else if chunk < 0 then some (List.replicate mesh.length none)
  else (chunkStarts mesh.length chunk.toNat).foldlM (chunkStep K r mesh chunk.toNat) (List.replicate mesh.length none)

open Classical in
/-- `get_free_surface_elevation`, `capytaine/bem/solver.py:536-565`, with the default size of chunks. -/
noncomputable def getElevation (K : Kernel Panel) (r : Res Panel) (mesh : List Panel) : Option (List (Option ℂ)) :=
  if r.speed ≠ 0 then none
  else (getPotentialOnMesh K r mesh 50).map fun v => v.map fun x => x.map fun x => Complex.I * r.omega / r.g * x

open Classical in
/-- The pressure on the hull computed by `solve` with the indirect method from the sources, `capytaine/bem/solver.py:119-122,143-164`.
`none` stands for the errors of the shapes. -/
noncomputable def solvePressure (K : Kernel Panel) (r : Res Panel) : Option (List ℂ) :=
  let omega := if r.speed ≠ 0 then r.encounterOmega else r.omega
  let wavenumber := if r.speed ≠ 0 then r.encounterWavenumber else r.wavenumber
  match potentialRows K r wavenumber (r.panels.map K.center) with
  | none => none
  | some phi =>
    let p := phi.map fun x => Complex.I * omega * r.rho * x
    if r.speed ≠ 0 then
      match computeGradient K r (.mesh r.panels) with
      | none => none
      | some v => some ((List.zipWith (· + ·) p ((firstComponent v).flat.map fun x : ℂ => r.rho * r.speed * x)).take r.hull.length)
    else some (p.take r.hull.length)

/-- The vertical profile, `capytaine/post_pro/kochin.py:42-45`. The depth is `none` when infinite, `k * h` is then not less than 20
(or NaN for a zero wavenumber) and the exponential is used. -/
noncomputable def kochinProfile (k : ℝ) (h : Option ℝ) (z : ℝ) : ℝ :=
  match h with
  | some h => if 0 ≤ k * h ∧ k * h < 20 then Real.cosh (k * (z + h)) / Real.cosh (k * h) else Real.exp (k * z)
  | none => Real.exp (k * z)

/-- One coefficient of `zs`, `capytaine/post_pro/kochin.py:40,50`. -/
noncomputable def kochinCoeff (k : ℝ) (h : Option ℝ) (refX refY theta : ℝ) (c : V3 ℝ) (area : ℝ) : ℂ :=
  kochinProfile k h c.z * Complex.exp (-Complex.I * k * (((c.x - refX) * Real.cos theta + (c.y - refY) * Real.sin theta : ℝ) : ℂ)) * area

/-- `compute_kochin` for one angle, `capytaine/post_pro/kochin.py:10-54`. The coefficients are the ones of the panels of the hull, the
sources the ones of all the panels: the product is an error when there is a lid. -/
noncomputable def computeKochin (center : Panel → V3 ℝ) (area : Panel → ℝ) (r : Res Panel) (h : Option ℝ) (refX refY theta : ℝ) :
    Option ℂ :=
  match r.sources with
  | none => none
  | some σ =>
    if σ.length = r.hull.length then
      some (rowProduct (fun q => kochinCoeff r.wavenumber h refX refY theta (center q) (area q)) r.hull σ / (4 * Real.pi))
    else none

end Verif.PostPro
