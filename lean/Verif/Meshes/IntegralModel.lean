import Verif.Meshes.CacheModel
import Mathlib.Algebra.BigOperators.Group.List.Basic

/-!
# Surface integrals

Model of `capytaine/meshes/surface_integrals.py`, on the arrays of panel data. The methods of
`FloatingBody` (`bodies/bodies.py:281-325`) call these ones.
-/

namespace Verif.Meshes

open Verif.Geometry V3

/-- `surface_integral` (`meshes/surface_integrals.py:12-14`) of an array given as a function of the panel
data. -/
noncomputable def surfaceIntegral (t : Table) (data : Panel → ℝ) : ℝ :=
  (t.map fun x => data x.1 * x.1.area).sum

/-- `waterplane_integral` (`meshes/surface_integrals.py:16-18`). -/
noncomputable def waterplaneIntegral (t : Table) (data : Panel → ℝ) : ℝ :=
  surfaceIntegral t fun p => p.normal.z * data p

/-- `wet_surface_area` (`meshes/surface_integrals.py:20-23`). -/
noncomputable def wetSurfaceArea (t : Table) : ℝ := surfaceIntegral t fun _ => 1

/-- `volumes` (`meshes/surface_integrals.py:25-29`). -/
noncomputable def volumes (t : Table) : V3 ℝ :=
  ⟨surfaceIntegral t fun p => p.normal.x * p.center.x, surfaceIntegral t fun p => p.normal.y * p.center.y,
    surfaceIntegral t fun p => p.normal.z * p.center.z⟩

/-- `volume` (`meshes/surface_integrals.py:31-34`), the mean of the three. -/
noncomputable def volume (t : Table) : ℝ := ((volumes t).x + (volumes t).y + (volumes t).z) / 3

/-- `disp_mass` (`meshes/surface_integrals.py:36-37`). -/
noncomputable def dispMass (rho : ℝ) (t : Table) : ℝ := rho * volume t

/-- `center_of_buoyancy` (`meshes/surface_integrals.py:39-43`). The division by a null volume gives zero
here instead of not-a-number. -/
noncomputable def centerOfBuoyancy (t : Table) : V3 ℝ :=
  ⟨(surfaceIntegral t fun p => p.normal.x * p.center.x ^ 2) / (2 * volume t),
    (surfaceIntegral t fun p => p.normal.y * p.center.y ^ 2) / (2 * volume t),
    (surfaceIntegral t fun p => p.normal.z * p.center.z ^ 2) / (2 * volume t)⟩

/-- `waterplane_area` (`meshes/surface_integrals.py:45-49`). -/
noncomputable def waterplaneArea (t : Table) : ℝ := -waterplaneIntegral t fun _ => 1

open Classical in
/-- `waterplane_center` (`meshes/surface_integrals.py:51-63`): the two horizontal coordinates. -/
noncomputable def waterplaneCenter (t : Table) : Option (ℝ × ℝ) :=
  if |waterplaneArea t| < 1e-10 then none
  else some (-waterplaneIntegral t (fun p => p.center.x) / waterplaneArea t,
    -waterplaneIntegral t (fun p => p.center.y) / waterplaneArea t)

end Verif.Meshes
