import Verif.Meshes.MotionProps

/-!
# Quadratures on the panels

Model of `capytaine/meshes/quadratures.py`. The schemes of the optional package `quadpy` are any list of
points and weights.
-/

namespace Verif.Meshes

open Verif.Geometry V3

/-- A point of a local scheme, in `[-1, 1]²`, with its weight. -/
structure LocalPoint where
  x : ℝ
  y : ℝ
  weight : ℝ

/-- `"First order"` (`meshes/quadratures.py:15`). -/
noncomputable def firstOrder : List LocalPoint := [⟨0, 0, 1⟩]

/-- `"Gauss-Legendre 2"` (`meshes/quadratures.py:16-22`). -/
noncomputable def gaussLegendre2 : List LocalPoint :=
  [⟨1 / √3, 1 / √3, 1 / 4⟩, ⟨1 / √3, -(1 / √3), 1 / 4⟩, ⟨-(1 / √3), 1 / √3, 1 / 4⟩,
    ⟨-(1 / √3), -(1 / √3), 1 / 4⟩]

/-- The body of the loop on the points (`meshes/quadratures.py:66-78`), for the corners of one face. -/
noncomputable def quadraturePoint (p0 p1 p2 p3 : V3 ℝ) (k : LocalPoint) : V3 ℝ × ℝ :=
  let point := (1 / 4 : ℝ) •
    (((1 + k.x) * (1 + k.y)) • p0 + ((1 + k.x) * (1 - k.y)) • p1 + ((1 - k.x) * (1 - k.y)) • p2
      + ((1 - k.x) * (1 + k.y)) • p3)
  let dxidx := (1 / 4 : ℝ) • ((1 + k.y) • p0 + (1 - k.y) • p1 - (1 - k.y) • p2 - (1 + k.y) • p3)
  let dxidy := (1 / 4 : ℝ) • ((1 + k.x) • p0 - (1 + k.x) • p1 - (1 - k.x) • p2 + (1 - k.x) • p3)
  (point, k.weight * 4 * norm (cross dxidx dxidy))

/-- `compute_quadrature_on_faces` (`meshes/quadratures.py:26-80`) on one face. -/
noncomputable def faceQuadrature (scheme : List LocalPoint) (p0 p1 p2 p3 : V3 ℝ) : List (V3 ℝ × ℝ) :=
  scheme.map (quadraturePoint p0 p1 p2 p3)

/-- `builtin_methods[method]` (`meshes/quadratures.py:14-23`, `45-57`), `none` for the `ValueError`. -/
noncomputable def builtinMethod (name : String) : Option (List LocalPoint) :=
  if name = "First order" then some firstOrder
  else if name = "Gauss-Legendre 2" then some gaussLegendre2
  else none

/-- `compute_quadrature_on_faces(mesh.vertices[mesh.faces, :], method)` (`meshes/meshes.py:336-337`). -/
noncomputable def Mesh.quadrature (m : Mesh (V3 ℝ)) (scheme : List LocalPoint) :
    Option (List (List (V3 ℝ × ℝ))) :=
  m.faces.mapM fun f => (corners m.vertices f).map fun c =>
    faceQuadrature scheme c.1 c.2.1 c.2.2.1 c.2.2.2

end Verif.Meshes
