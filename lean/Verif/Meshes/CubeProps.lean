import Verif.Meshes.CubeModel
import Verif.Bodies.MinceProps

/-!
# C111: the bounding cube of a mesh
-/

namespace Verif.Meshes

open Verif.Geometry

/-! ## Specification -/

/-- The cube of center `c` and of half side `r`, with sides parallel to the axes. -/
def InCube (c : V3 ℝ) (r : ℝ) (p : V3 ℝ) : Prop := |p.x - c.x| ≤ r ∧ |p.y - c.y| ≤ r ∧ |p.z - c.z| ≤ r

/-- `c` is the middle of the box of the vertices: each vertex has its mirror image in the box. -/
def IsMiddle (l : List ℝ) (c : ℝ) : Prop := ∃ a b, IsLeast {x | x ∈ l} a ∧ IsGreatest {x | x ∈ l} b ∧ c - a = b - c

/-! ## Theorems -/

/-- C111: the six numbers are those of the smallest cubes that hold the mesh, and among them the one which has the middle of
the mesh as its center. -/
theorem cube_spec (m : Mesh (V3 ℝ)) (h : m.vertices ≠ []) :
    ∃ (c : V3 ℝ) (r : ℝ), m.cube = ((c.x - r, c.x + r), (c.y - r, c.y + r), (c.z - r, c.z + r)) ∧
      IsMiddle (m.vertices.map V3.x) c.x ∧ IsMiddle (m.vertices.map V3.y) c.y ∧ IsMiddle (m.vertices.map V3.z) c.z ∧
      (∀ v ∈ m.vertices, InCube c r v) ∧ ∀ c' r', (∀ v ∈ m.vertices, InCube c' r' v) → r ≤ r' := by
  obtain ⟨x1, x2⟩ := extent_spec (m.vertices.map V3.x) (by simpa using h)
  obtain ⟨y1, y2⟩ := extent_spec (m.vertices.map V3.y) (by simpa using h)
  obtain ⟨z1, z2⟩ := extent_spec (m.vertices.map V3.z) (by simpa using h)
  simp only [Mesh.cube, Mesh.box]
  generalize extent (m.vertices.map V3.x) = X at *
  generalize extent (m.vertices.map V3.y) = Y at *
  generalize extent (m.vertices.map V3.z) = Z at *
  set d := max (max ((X.2 - X.1) * 0.5) ((Y.2 - Y.1) * 0.5)) ((Z.2 - Z.1) * 0.5) with hd
  have dx : (X.2 - X.1) * 0.5 ≤ d := (le_max_left _ _).trans (le_max_left _ _)
  have dy : (Y.2 - Y.1) * 0.5 ≤ d := (le_max_right _ _).trans (le_max_left _ _)
  have dz : (Z.2 - Z.1) * 0.5 ≤ d := le_max_right _ _
  norm_num at dx dy dz
  refine ⟨⟨(X.1 + X.2) * 0.5, (Y.1 + Y.2) * 0.5, (Z.1 + Z.2) * 0.5⟩, d, rfl, ⟨_, _, x1, x2, by ring⟩,
    ⟨_, _, y1, y2, by ring⟩, ⟨_, _, z1, z2, by ring⟩, fun v hv => ?_, fun c r hr => ?_⟩
  · have a1 := x1.2 (show v.x ∈ _ from List.mem_map_of_mem hv)
    have a2 := x2.2 (show v.x ∈ _ from List.mem_map_of_mem hv)
    have b1 := y1.2 (show v.y ∈ _ from List.mem_map_of_mem hv)
    have b2 := y2.2 (show v.y ∈ _ from List.mem_map_of_mem hv)
    have c1 := z1.2 (show v.z ∈ _ from List.mem_map_of_mem hv)
    have c2 := z2.2 (show v.z ∈ _ from List.mem_map_of_mem hv)
    refine ⟨abs_le.mpr ⟨?_, ?_⟩, abs_le.mpr ⟨?_, ?_⟩, abs_le.mpr ⟨?_, ?_⟩⟩ <;> norm_num <;> linarith
  · obtain ⟨u1, hu1, e1⟩ := List.mem_map.mp x1.1
    obtain ⟨u2, hu2, e2⟩ := List.mem_map.mp x2.1
    obtain ⟨v1, hv1, f1⟩ := List.mem_map.mp y1.1
    obtain ⟨v2, hv2, f2⟩ := List.mem_map.mp y2.1
    obtain ⟨w1, hw1, g1⟩ := List.mem_map.mp z1.1
    obtain ⟨w2, hw2, g2⟩ := List.mem_map.mp z2.1
    have a1 := abs_le.mp (hr u1 hu1).1
    have a2 := abs_le.mp (hr u2 hu2).1
    have b1 := abs_le.mp (hr v1 hv1).2.1
    have b2 := abs_le.mp (hr v2 hv2).2.1
    have c1 := abs_le.mp (hr w1 hw1).2.2
    have c2 := abs_le.mp (hr w2 hw2).2.2
    rw [hd]
    refine max_le (max_le ?_ ?_) ?_ <;> norm_num <;> linarith [a1.1, a2.2, b1.1, b2.2, c1.1, c2.2]

/-- C111: the three sides are equal, and the box is inside the cube. -/
theorem cube_sides (m : Mesh (V3 ℝ)) :
    m.cube.1.2 - m.cube.1.1 = m.cube.2.1.2 - m.cube.2.1.1 ∧ m.cube.1.2 - m.cube.1.1 = m.cube.2.2.2 - m.cube.2.2.1 ∧
      m.cube.1.1 ≤ m.box.1.1 ∧ m.box.1.2 ≤ m.cube.1.2 ∧ m.cube.2.1.1 ≤ m.box.2.1.1 ∧ m.box.2.1.2 ≤ m.cube.2.1.2 ∧
      m.cube.2.2.1 ≤ m.box.2.2.1 ∧ m.box.2.2.2 ≤ m.cube.2.2.2 := by
  unfold Mesh.cube
  generalize m.box = b
  obtain ⟨x, y, z⟩ := b
  simp only
  set d := max (max ((x.2 - x.1) * 0.5) ((y.2 - y.1) * 0.5)) ((z.2 - z.1) * 0.5)
  have dx : (x.2 - x.1) * 0.5 ≤ d := (le_max_left _ _).trans (le_max_left _ _)
  have dy : (y.2 - y.1) * 0.5 ≤ d := (le_max_right _ _).trans (le_max_left _ _)
  have dz : (z.2 - z.1) * 0.5 ≤ d := le_max_right _ _
  norm_num at dx dy dz
  refine ⟨by ring, by ring, ?_, ?_, ?_, ?_, ?_, ?_⟩ <;> norm_num <;> linarith

/-- C111: a mesh with no vertices gives the origin. -/
theorem cube_empty (fs : List Face) : (⟨[], fs⟩ : Mesh (V3 ℝ)).cube = ((0, 0), (0, 0), (0, 0)) := by
  simp [Mesh.cube, Mesh.box, extent]

/-- Concrete case of `cube_spec`: two vertices, with a box that is longer in the second direction. -/
example : (⟨[⟨0, 0, 0⟩, ⟨2, 6, 4⟩], []⟩ : Mesh (V3 ℝ)).vertices ≠ [] ∧
    (⟨[⟨0, 0, 0⟩, ⟨2, 6, 4⟩], []⟩ : Mesh (V3 ℝ)).cube = ((-2, 4), (0, 6), (-1, 5)) := by
  refine ⟨by simp, ?_⟩
  norm_num [Mesh.cube, Mesh.box, extent]

end Verif.Meshes
