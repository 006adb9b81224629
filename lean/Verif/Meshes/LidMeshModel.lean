import Verif.Meshes.PredefinedModel

/-!
# The mesh of a lid

Model of `Mesh.generate_lid` (`capytaine/meshes/meshes.py:764-834`). The real numbers are exact. As for the predefined
meshes, the mesh is taken before the call of `heal_mesh`. Names are left out.
-/

namespace Verif.Meshes

open Verif.Geometry V3

/-- `values.min()` and `values.max()` (`meshes/meshes.py:790-793`), `ValueError` on an empty array. -/
noncomputable def extremes : List ℝ → Option (ℝ × ℝ)
  | [] => none
  | a :: l => some (l.foldl min a, l.foldl max a)

/-- One entry of `side_of_hull_edges` (`meshes/meshes.py:808-813`): the side of a point with respect to the edge from
`a` to `b`, seen from above. -/
def edgeSide (q a b : V3 ℝ) : ℝ := (q.x - a.x) * (b.y - a.y) - (q.y - a.y) * (b.x - a.x)

/-- One row of `side_of_hull_edges`: the four edges of a panel, in order (`meshes/meshes.py:808`). -/
def edgeSides (q : V3 ℝ) (c : V3 ℝ × V3 ℝ × V3 ℝ × V3 ℝ) : List ℝ :=
  [edgeSide q c.1 c.2.1, edgeSide q c.2.1 c.2.2.1, edgeSide q c.2.2.1 c.2.2.2, edgeSide q c.2.2.2 c.1]

/-- One entry of `point_is_above_panel` (`meshes/meshes.py:815`). -/
def AbovePanel (q : V3 ℝ) (c : V3 ℝ × V3 ℝ × V3 ℝ × V3 ℝ) : Prop :=
  (∀ s ∈ edgeSides q c, s ≤ 0) ∨ ∀ s ∈ edgeSides q c, 0 ≤ s

/-- `hull_faces` (`meshes/meshes.py:807`) with the three coordinates. The indices of the faces of a mesh always exist. -/
def Mesh.allCorners (m : Mesh (V3 ℝ)) : List (V3 ℝ × V3 ℝ × V3 ℝ × V3 ℝ) := m.faces.filterMap (corners m.vertices)

open Classical in
/-- One entry of `nb_panels_below_point` (`meshes/meshes.py:823`). -/
noncomputable def panelsBelow (hull : Mesh (V3 ℝ)) (q : V3 ℝ) : ℕ := hull.allCorners.countP fun c => AbovePanel q c

/-- `needs_lid` (`meshes/meshes.py:824`). -/
noncomputable def needsLid (hull : Mesh (V3 ℝ)) (points : List (V3 ℝ)) : List ℕ :=
  (List.range points.length).filter fun k => ((points[k]?).map fun q => panelsBelow hull q % 2 == 1).getD false

/-- The candidate panels that are kept (`meshes/meshes.py:826-831`). -/
noncomputable def lidOfGrid (hull grid : Mesh (V3 ℝ)) : Mesh (V3 ℝ) :=
  let faces := grid.faces.filter fun f => f.toList.all fun k => (needsLid hull grid.vertices).contains k
  if faces = [] then ⟨[], []⟩ else ⟨grid.vertices, faces⟩

/-- `generate_lid` (`meshes/meshes.py:764-834`). `clipped` is the part of the hull below the lid
(`meshes/meshes.py:783`, see `Mesh.clip`) and `r` is `faces_max_radius`, by default the mean of the radiuses of its
panels (`meshes/meshes.py:795-796`). -/
noncomputable def generateLid (clipped : Option (Mesh (V3 ℝ))) (z r : ℝ) : Option (Mesh (V3 ℝ)) :=
  match clipped with
  | none => none
  | some hull =>
    if hull.faces = [] then some ⟨[], []⟩
    else
      match extremes (hull.vertices.map V3.x), extremes (hull.vertices.map V3.y) with
      | some ex, some ey =>
        (meshRectangle (1.1 * (ey.2 - ey.1), 1.1 * (ex.2 - ex.1)) ⟨(ex.2 + ex.1) / 2, (ey.2 + ey.1) / 2, z⟩ (5, 5) (some r)
          ⟨0, 0, -1⟩).map (lidOfGrid hull)
      | _, _ => none

end Verif.Meshes
