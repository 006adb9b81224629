import Verif.Bodies.MinceModel

/-!
# Bounding cube

Model of `squared_axis_aligned_bbox` of `capytaine/meshes/meshes.py`.
-/

namespace Verif.Meshes

open Verif.Geometry

/-- `axis_aligned_bbox` of a single mesh (`meshes/meshes.py:398-412`). The extent of an empty list is `(0, 0)`, which is the
box of a mesh with no vertices. -/
noncomputable def Mesh.box (m : Mesh (V3 ℝ)) : (ℝ × ℝ) × (ℝ × ℝ) × (ℝ × ℝ) :=
  (extent (m.vertices.map V3.x), extent (m.vertices.map V3.y), extent (m.vertices.map V3.z))

/-- `squared_axis_aligned_bbox` (`meshes/meshes.py:414-432`), as three pairs. -/
noncomputable def Mesh.cube (m : Mesh (V3 ℝ)) : (ℝ × ℝ) × (ℝ × ℝ) × (ℝ × ℝ) :=
  let (x, y, z) := m.box
  let x0 := (x.1 + x.2) * 0.5
  let y0 := (y.1 + y.2) * 0.5
  let z0 := (z.1 + z.2) * 0.5
  let d := max (max ((x.2 - x.1) * 0.5) ((y.2 - y.1) * 0.5)) ((z.2 - z.1) * 0.5)
  ((x0 - d, x0 + d), (y0 - d, y0 + d), (z0 - d, z0 + d))

end Verif.Meshes
