import Mathlib.Analysis.SpecialFunctions.Trigonometric.Basic
import Mathlib.Algebra.Order.Floor.Semiring
import Verif.Meshes.SymmetricModel

/-!
# Predefined meshes

Model of `capytaine/meshes/predefined/rectangles.py`, `cylinders.py`, `spheres.py`, of `from_profile`
(`capytaine/meshes/symmetric.py:277-329`) and of the grid of a free surface
(`capytaine/post_pro/free_surfaces.py:58-80`). The real numbers are exact. The meshes are taken before the calls
of `heal_mesh`, `merge_duplicates` and `heal_triangles`, that join the vertices at the same place and remove the
flat panels. Names are left out. The variants with a symmetry (`reflection_symmetry`, `translation_symmetry`,
`axial_symmetry`) are left out, except the sphere, that is always built from its slices. `none` stands for
`AssertionError`, `ZeroDivisionError` or `IndexError`.
-/

namespace Verif.Meshes

open Verif.Geometry V3

/-! ## Grids -/

/-- `np.linspace(a, b, n + 1)[k]`. -/
noncomputable def linspace (a b : ℝ) (n k : ℕ) : ℝ := a + (k : ℝ) * ((b - a) / n)

/-- An array of nodes listed with `product`: the second index is the fastest (`predefined/rectangles.py:96`,
`predefined/cylinders.py:91`, `187-189`, `193`, `293`, `post_pro/free_surfaces.py:65-66`). -/
def gridNodes {V : Type} (rows cols : ℕ) (P : ℕ → ℕ → V) : List V :=
  (List.range rows).flatMap fun i => (List.range cols).map fun j => P i j

/-- `(j+i*(n+1), j+1+i*(n+1), j+1+(i+1)*(n+1), j+(i+1)*(n+1))` (`predefined/rectangles.py:97`,
`predefined/cylinders.py:92`, `295`, `post_pro/free_surfaces.py:69-72`). -/
def cell (n i j : ℕ) : Face := ⟨j + i * (n + 1), j + 1 + i * (n + 1), j + 1 + (i + 1) * (n + 1), j + (i + 1) * (n + 1)⟩

/-- `(j+i*(n+1), j+(i+1)*(n+1), j+1+(i+1)*(n+1), j+1+i*(n+1))` (`predefined/cylinders.py:194`). -/
def cellBack (n i j : ℕ) : Face :=
  ⟨j + i * (n + 1), j + (i + 1) * (n + 1), j + 1 + (i + 1) * (n + 1), j + 1 + i * (n + 1)⟩

/-- An array of panels listed with `product` (`predefined/rectangles.py:97-98`, `predefined/cylinders.py:92-93`,
`194-195`, `295-296`, `post_pro/free_surfaces.py:68-72`). -/
def gridFaces (c : ℕ → ℕ → Face) (rows cols : ℕ) : List Face :=
  (List.range rows).flatMap fun i => (List.range cols).map fun j => c i j

/-- A grid of panels: `Mesh(nodes, panels)` (`predefined/rectangles.py:96-100`, `predefined/cylinders.py:91-95`,
`post_pro/free_surfaces.py:65-74`). -/
def gridMesh (rows cols : ℕ) (P : ℕ → ℕ → V3 ℝ) : Mesh (V3 ℝ) :=
  ⟨gridNodes (rows + 1) (cols + 1) P, gridFaces (cell cols) rows cols⟩

/-- `mesh.rotate_around_center_to_align_vectors(center, mesh.faces_normals[0], normal)`
(`predefined/rectangles.py:104`, `predefined/cylinders.py:99`), `IndexError` without panel. -/
noncomputable def Mesh.alignNormal (m : Mesh (V3 ℝ)) (center normal : V3 ℝ) : Option (Mesh (V3 ℝ)) :=
  (m.panelAt 0).map fun p => { m with vertices := m.vertices.map (alignedPoint center p.normal normal) }

/-! ## Resolutions -/

/-- `int(np.ceil(x / (np.sqrt(2) * faces_max_radius)))` (`predefined/rectangles.py:62-63`, `162-164`,
`predefined/cylinders.py:61-62`, `152-154`, `259-261`, `predefined/spheres.py:48`). A negative maximal radius gives
zero here and a negative number in the code. -/
noncomputable def refined (x r : ℝ) : ℕ := ⌈x / (√2 * r)⌉₊

/-- `np.hypot(x, y)/2` (`predefined/rectangles.py:60`, `predefined/cylinders.py:59`). -/
noncomputable def halfDiagonal (x y : ℝ) : ℝ := √(x ^ 2 + y ^ 2) / 2

open Classical in
/-- The resolution of a rectangle (`predefined/rectangles.py:57-63`). -/
noncomputable def rectangleResolution (width height : ℝ) (res : ℕ × ℕ) (maxRadius : Option ℝ) : ℕ × ℕ :=
  match maxRadius with
  | none => res
  | some r =>
    if halfDiagonal (width / res.1) (height / res.2) > r then (refined width r, refined height r) else res

open Classical in
/-- The resolution of a parallelepiped (`predefined/rectangles.py:151-164`). -/
noncomputable def boxResolution (size : ℝ × ℝ × ℝ) (res : ℕ × ℕ × ℕ) (maxRadius : Option ℝ) : ℕ × ℕ × ℕ :=
  match maxRadius with
  | none => res
  | some r =>
    let dw := size.1 / res.1
    let dh := size.2.2 / res.2.2
    let dth := size.2.1 / res.2.1
    if max (halfDiagonal dw dh) (max (halfDiagonal dw dth) (halfDiagonal dth dh)) > r then
      (refined size.1 r, refined size.2.1 r, refined size.2.2 r)
    else res

open Classical in
/-- The resolution of a disk (`predefined/cylinders.py:55-62`). -/
noncomputable def diskResolution (radius : ℝ) (res : ℕ × ℕ) (maxRadius : Option ℝ) : ℕ × ℕ :=
  match maxRadius with
  | none => res
  | some r =>
    if halfDiagonal (radius / res.1) (2 * Real.pi * radius / res.2) > r then
      (refined radius r, refined (2 * Real.pi * radius) r)
    else res

open Classical in
/-- The resolution of a cylinder (`predefined/cylinders.py:144-154`, `251-261`): the division by zero raises
`ZeroDivisionError` when the sizes are Python numbers. -/
noncomputable def cylinderResolution (length radius : ℝ) (res : ℕ × ℕ × ℕ) (maxRadius : Option ℝ) :
    Option (ℕ × ℕ × ℕ) :=
  match maxRadius with
  | none => some res
  | some r =>
    if res.1 = 0 ∨ res.2.1 = 0 ∨ res.2.2 = 0 then none
    else
      let dr := radius / res.1
      let dtheta := 2 * Real.pi * radius / res.2.1
      let dz := length / res.2.2
      if max (halfDiagonal dr dtheta) (halfDiagonal dtheta dz) > r then
        some (refined radius r, 2 * refined (Real.pi * radius) r, refined length r)
      else some res

open Classical in
/-- The resolution of a sphere (`predefined/spheres.py:43-48`). -/
noncomputable def sphereResolution (radius : ℝ) (res : ℕ × ℕ) (maxRadius : Option ℝ) : ℕ × ℕ :=
  match maxRadius with
  | none => res
  | some r =>
    let perimeter := 2 * Real.pi * radius
    if halfDiagonal (perimeter / res.1) (perimeter / res.2) > r then (refined perimeter r, refined perimeter r)
    else res

/-! ## Rectangles -/

/-- The nodes of a rectangle (`predefined/rectangles.py:94-96`). -/
noncomputable def rectangleNode (width height : ℝ) (nw nh i j : ℕ) : V3 ℝ :=
  ⟨0, linspace (-width / 2) (width / 2) nw i, linspace (-height / 2) (height / 2) nh j⟩

open Classical in
/-- `mesh_rectangle` without symmetry (`predefined/rectangles.py:16-106`). -/
noncomputable def meshRectangle (size : ℝ × ℝ) (center : V3 ℝ) (res : ℕ × ℕ) (maxRadius : Option ℝ) (normal : V3 ℝ) :
    Option (Mesh (V3 ℝ)) :=
  if 0 < size.1 ∧ 0 < size.2 ∧ 0 < res.1 ∧ 0 < res.2 then
    let n := rectangleResolution size.1 size.2 res maxRadius
    ((gridMesh n.1 n.2 (rectangleNode size.1 size.2 n.1 n.2)).translate center).alignNormal center normal
  else none

/-- The names of the sides of a parallelepiped (`predefined/rectangles.py:127-130`). -/
inductive BoxSide where
  | left | right | front | back | top | bottom
  deriving DecidableEq

/-- The rectangle of a side (`predefined/rectangles.py:226-255`), for sizes `(width, thickness, height)` and numbers
of panels `(nw, nth, nh)`. -/
noncomputable def boxSide (size : ℝ × ℝ × ℝ) (n : ℕ × ℕ × ℕ) : BoxSide → Option (Mesh (V3 ℝ))
  | .left => meshRectangle (size.2.1, size.2.2) ⟨-size.1 / 2, 0, 0⟩ (n.2.1, n.2.2) none ⟨-1, 0, 0⟩
  | .right => meshRectangle (size.2.1, size.2.2) ⟨size.1 / 2, 0, 0⟩ (n.2.1, n.2.2) none ⟨1, 0, 0⟩
  | .front => meshRectangle (size.1, size.2.2) ⟨0, -size.2.1 / 2, 0⟩ (n.1, n.2.2) none ⟨0, -1, 0⟩
  | .back => meshRectangle (size.1, size.2.2) ⟨0, size.2.1 / 2, 0⟩ (n.1, n.2.2) none ⟨0, 1, 0⟩
  | .top => meshRectangle (size.2.1, size.1) ⟨0, 0, size.2.2 / 2⟩ (n.2.1, n.1) none ⟨0, 0, 1⟩
  | .bottom => meshRectangle (size.2.1, size.1) ⟨0, 0, -size.2.2 / 2⟩ (n.2.1, n.1) none ⟨0, 0, -1⟩

open Classical in
/-- `mesh_parallelepiped` without symmetry (`predefined/rectangles.py:109-261`). -/
noncomputable def meshParallelepiped (size : ℝ × ℝ × ℝ) (center : V3 ℝ) (res : ℕ × ℕ × ℕ) (maxRadius : Option ℝ)
    (missing : List BoxSide) : Option (Mesh (V3 ℝ)) :=
  if (0 < size.1 ∧ 0 < size.2.1 ∧ 0 < size.2.2) ∧ 0 < res.1 ∧ 0 < res.2.1 ∧ 0 < res.2.2 then
    let n := boxResolution size res maxRadius
    match (([.left, .right, .front, .back, .top, .bottom].filter fun s => s ∉ missing).mapM (boxSide size n)) with
    | none => none
    | some sides => (Tree.node .plain (sides.map .leaf)).assembled.map fun m => m.translate center
  else none

/-! ## Disks and cylinders -/

/-- The nodes of a disk (`predefined/cylinders.py:89-91`). -/
noncomputable def diskNode (radius thetaMax : ℝ) (nr ntheta i j : ℕ) : V3 ℝ :=
  ⟨0, linspace 0 radius nr i * Real.sin (linspace 0 thetaMax ntheta j),
    -linspace 0 radius nr i * Real.cos (linspace 0 thetaMax ntheta j)⟩

open Classical in
/-- `mesh_disk` without symmetry (`predefined/cylinders.py:19-101`). -/
noncomputable def meshDisk (radius : ℝ) (center normal : V3 ℝ) (res : ℕ × ℕ) (maxRadius : Option ℝ) (thetaMax : ℝ) :
    Option (Mesh (V3 ℝ)) :=
  if 0 < radius ∧ 0 < res.1 ∧ 0 < res.2 then
    let n := diskResolution radius res maxRadius
    ((gridMesh n.1 n.2 (diskNode radius thetaMax n.1 n.2)).translate center).alignNormal center normal
  else none

/-- Radius and height of the rings of nodes of a vertical cylinder, from the bottom (`predefined/cylinders.py:183-193`). -/
noncomputable def cylinderRings (length radius : ℝ) (nr nz : ℕ) : List (ℝ × ℝ) :=
  if nr > 0 then
    (List.range (nr + 1)).map (fun i => (linspace 0 radius nr i, -length / 2)) ++
    (List.range (nz + 1)).map (fun i => (radius, linspace (-length / 2) (length / 2) nz i)) ++
    (List.range (nr + 1)).reverse.map (fun i => (linspace 0 radius nr i, length / 2))
  else (List.range (nz + 1)).map (fun i => (radius, linspace (-length / 2) (length / 2) nz i))

/-- The nodes of a ring, `(r*sin(t), r*cos(t), z)` (`predefined/cylinders.py:187-189`, `193`). -/
noncomputable def ringNodes (thetaMax : ℝ) (ntheta : ℕ) (ring : ℝ × ℝ) : List (V3 ℝ) :=
  (List.range (ntheta + 1)).map fun j =>
    ⟨ring.1 * Real.sin (linspace 0 thetaMax ntheta j), ring.1 * Real.cos (linspace 0 thetaMax ntheta j), ring.2⟩

/-- The nodes and the panels of a vertical cylinder (`predefined/cylinders.py:182-197`): `len(r_range)` is `nr + 1`,
or zero for an open cylinder. -/
noncomputable def verticalCylinder (length radius thetaMax : ℝ) (nr ntheta nz : ℕ) : Mesh (V3 ℝ) :=
  ⟨(cylinderRings length radius nr nz).flatMap (ringNodes thetaMax ntheta),
    gridFaces (cellBack ntheta) (nz + 2 * if nr > 0 then nr + 1 else 0) ntheta⟩

open Classical in
/-- `mesh_vertical_cylinder` without symmetry (`predefined/cylinders.py:104-202`). -/
noncomputable def meshVerticalCylinder (length radius : ℝ) (center : V3 ℝ) (res : ℕ × ℕ × ℕ) (maxRadius : Option ℝ)
    (thetaMax : ℝ) : Option (Mesh (V3 ℝ)) :=
  if 0 < length ∧ 0 < radius then
    (cylinderResolution length radius res maxRadius).map fun n =>
      (verticalCylinder length radius thetaMax n.1 n.2.1 n.2.2).translate center
  else none

/-- The nodes of the lateral surface of a horizontal cylinder (`predefined/cylinders.py:291-293`). -/
noncomputable def wallNode (length radius thetaMax : ℝ) (ntheta nx i j : ℕ) : V3 ℝ :=
  ⟨linspace (-length / 2) (length / 2) nx i, radius * Real.sin (linspace 0 thetaMax ntheta j),
    -radius * Real.cos (linspace 0 thetaMax ntheta j)⟩

/-- The lateral surface of a horizontal cylinder (`predefined/cylinders.py:291-298`): the panels are listed along the
cylinder first. -/
noncomputable def openCylinder (length radius thetaMax : ℝ) (ntheta nx : ℕ) : Mesh (V3 ℝ) :=
  ⟨gridNodes (nx + 1) (ntheta + 1) (wallNode length radius thetaMax ntheta nx),
    gridFaces (fun i j => cell ntheta j i) ntheta nx⟩

/-- `yOz_Plane` (`meshes/geometry.py:407`). -/
noncomputable def yOzPlane : Plane := mkPlane ex 0

open Classical in
/-- `mesh_horizontal_cylinder` without symmetry (`predefined/cylinders.py:205-314`). -/
noncomputable def meshHorizontalCylinder (length radius : ℝ) (center : V3 ℝ) (res : ℕ × ℕ × ℕ) (maxRadius : Option ℝ)
    (thetaMax : ℝ) : Option (Mesh (V3 ℝ)) :=
  if 0 < length ∧ 0 < radius then
    match cylinderResolution length radius res maxRadius with
    | none => none
    | some n =>
      let wall := openCylinder length radius thetaMax n.2.1 n.2.2
      if 0 < n.1 then
        match meshDisk radius ⟨-length / 2, 0, 0⟩ ⟨-1, 0, 0⟩ (n.1, n.2.1) none thetaMax with
        | none => none
        | some side =>
          (Tree.node .plain [.leaf wall, .leaf side, .leaf (side.mirror yOzPlane)]).assembled.map
            fun m => m.translate center
      else some (wall.translate center)
  else none

/-! ## Surfaces of revolution -/

/-- A slice of a surface of revolution (`meshes/symmetric.py:320-325`). -/
noncomputable def profileSlice (profile : List (V3 ℝ)) (a : Axis) (angle : ℝ) : Mesh (V3 ℝ) :=
  ⟨profile ++ profile.map (a.rotatePoint angle),
    (List.range (profile.length - 1)).map fun i =>
      ⟨i, i + profile.length, i + profile.length + 1, i + 1⟩⟩

/-- `AxialSymmetricMesh.from_profile` for a list of points (`meshes/symmetric.py:277-329`). The `assert` on the number
of repetitions fails for less than two slices. -/
noncomputable def fromProfile (profile : List (V3 ℝ)) (a : Axis) (nphi : ℕ) : Option Tree :=
  mkSymmetric some (.axial a) (.leaf (profileSlice profile a (2 * Real.pi / nphi))) (nphi - 1)

/-- `Axis(vector=[0, 0, 1], point=[0, 0, 0])` (`predefined/spheres.py:53`). -/
noncomputable def ozAxis : Axis := mkAxis ez 0

/-- The points of a meridian (`predefined/spheres.py:50-51`). -/
noncomputable def meridian (radius : ℝ) (ntheta : ℕ) : List (V3 ℝ) :=
  (List.range (ntheta + 1)).map fun k =>
    ⟨radius * Real.sin (linspace 0 Real.pi ntheta k), 0, -(radius * Real.cos (linspace 0 Real.pi ntheta k))⟩

/-- `mesh_sphere` without symmetry (`predefined/spheres.py:16-62`). -/
noncomputable def meshSphere (radius : ℝ) (center : V3 ℝ) (res : ℕ × ℕ) (maxRadius : Option ℝ) : Option (Mesh (V3 ℝ)) :=
  let n := sphereResolution radius res maxRadius
  match fromProfile (meridian radius n.1) ozAxis n.2 with
  | none => none
  | some t => t.assembled.map fun m => m.translate center

/-! ## Free surfaces -/

/-- The grid of a free surface (`post_pro/free_surfaces.py:58-74`). -/
noncomputable def freeSurfaceMesh (x0 x1 : ℝ) (nx : ℕ) (y0 y1 : ℝ) (ny : ℕ) : Mesh (V3 ℝ) :=
  gridMesh nx ny fun i j => ⟨linspace x0 x1 nx i, linspace y0 y1 ny j, 0⟩

/-- `FreeSurface.area` (`post_pro/free_surfaces.py:76-80`). -/
def freeSurfaceArea (x0 x1 y0 y1 : ℝ) : ℝ := |x1 - x0| * |y1 - y0|

end Verif.Meshes
