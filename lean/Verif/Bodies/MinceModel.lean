import Verif.Bodies.SliceModel
import Mathlib.Data.Nat.Log

/-!
# Mincing bodies

Model of `minced` of `capytaine/bodies/bodies.py` and of `axis_aligned_bbox` of meshes and collections. Numbers of slices
are natural numbers.
-/

namespace Verif.Meshes

open Verif.Geometry V3

/-- `x.min(), x.max()` of an array of coordinates (`meshes/meshes.py:406-412`, `meshes/collections.py:304-310`); zeros for an
empty array. -/
noncomputable def extent : List ℝ → ℝ × ℝ
  | [] => (0, 0)
  | x :: xs => (xs.foldl min x, xs.foldl max x)

/-- `axis_aligned_bbox` (`meshes/meshes.py:398-412`, `meshes/collections.py:296-310`), as three pairs. `none` when the
vertices cannot be read. -/
noncomputable def Tree.bbox (t : Tree) : Option (List (ℝ × ℝ)) :=
  if t.nbVertices > 0 then
    t.vertices.map fun vs => [extent (vs.map V3.x), extent (vs.map V3.y), extent (vs.map V3.z)]
  else some [(0, 0), (0, 0), (0, 0)]

end Verif.Meshes

namespace Verif.Bodies

open Verif.Geometry Verif.Meshes V3

/-- `_slice_positions_at_depth(i)` (`bodies/bodies.py:939-949`), for `i` at least one. -/
noncomputable def slicePositions (i : ℕ) : List ℝ :=
  (List.range (2 ^ (i - 1))).map fun k => ((2 * k + 1 : ℕ) : ℝ) / 2 ^ i

/-- `planes_in_dir` (`bodies/bodies.py:954-964`): one list for each depth. `int(np.log2(n))` is exact here. `none` is
the `OverflowError` for `n = 0`. -/
noncomputable def planesAlong (direction : V3 ℝ) (n : ℕ) (size : ℝ × ℝ) : Option (List (List Plane)) :=
  if n = 0 then none
  else some ((List.range (Nat.log 2 n)).map fun d => (slicePositions (d + 1)).map fun r =>
    mkPlane direction ((size.1 + r * (size.2 - size.1)) • direction))

/-- `chain.from_iterable(zip_longest(*lists))`, without the values `None` (`bodies/bodies.py:967-969`). -/
def intermingle {A : Type} (lists : List (List A)) : List A :=
  (List.range ((lists.map List.length).foldr max 0)).flatMap fun i => lists.filterMap fun l => l[i]?

/-- All the planes in the order of the slicing (`bodies/bodies.py:951-970`). -/
noncomputable def mincePlanes (nb : ℕ × ℕ × ℕ) (bbox : List (ℝ × ℝ)) : Option (List Plane) :=
  ((List.zip [((⟨1, 0, 0⟩ : V3 ℝ), nb.1), (⟨0, 1, 0⟩, nb.2.1), (⟨0, 0, 1⟩, nb.2.2)] bbox).mapM fun p =>
    planesAlong p.1.1 p.1.2 p.2).map fun lists => (intermingle lists).flatten

/-- The loop on the planes (`bodies/bodies.py:968-971`). -/
noncomputable def sliceAlong (heal : Bool → Mesh (V3 ℝ) → Mesh (V3 ℝ)) (down : Mesh (V3 ℝ) → Mesh (V3 ℝ))
    (order : List ℕ → List ℕ) : List Plane → Body → Option Body
  | [], b => some b
  | P :: Ps, b => (b.slicedByPlane heal down order P).bind (sliceAlong heal down order Ps)

/-- `minced(nb_slices)` (`bodies/bodies.py:918-972`). -/
noncomputable def Body.minced (heal : Bool → Mesh (V3 ℝ) → Mesh (V3 ℝ)) (down : Mesh (V3 ℝ) → Mesh (V3 ℝ))
    (order : List ℕ → List ℕ) (nb : ℕ × ℕ × ℕ) (b : Body) : Option Body :=
  (b.copy ("copy_of_".toList ++ b.name)).bind fun c =>
    b.mesh.bbox.bind fun bbox => (mincePlanes nb bbox).bind fun planes => sliceAlong heal down order planes c

end Verif.Bodies
