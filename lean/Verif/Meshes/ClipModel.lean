import Verif.Meshes.TreeModel

/-!
# Clipping of a single mesh

Model of `capytaine/meshes/clipper.py`, of `remove_degenerated_faces` and of `Mesh.clip`. The boundary edges that
`_clip_crown` collects are never used and are left out.
-/

namespace Verif.Meshes

open Verif.Geometry V3

/-- Position of a vertex with respect to the plane. The last two are the vertices at exactly the tolerance, that
belong to none of the three masks. -/
inductive PlaneSide where
  | above
  | on
  | below
  | limitAbove
  | limitBelow
  deriving DecidableEq

open Classical in
/-- The three masks of `_vertices_positions_wrt_plane` (`meshes/clipper.py:71-79`) for a vertex at the distance `d`. -/
noncomputable def sideOf (tol d : ℝ) : PlaneSide :=
  if d > tol then .above
  else if |d| < tol then .on
  else if d < -tol then .below
  else if d < 0 then .limitBelow
  else .limitAbove

/-- `vertices_distances[face[1]] < 0.` (`meshes/clipper.py:261`, `285`, `330`), for a vertex that is not in the mask
`on`. -/
def PlaneSide.negative : PlaneSide → Bool
  | .below => true
  | .limitBelow => true
  | _ => false

/-- A corner of a new panel: a corner of the rolled face, or one of the intersections computed for this face. -/
inductive CutCorner where
  | old (i : ℕ)
  | cut (k : ℕ)
  deriving DecidableEq

/-- What is done with a face of the crown: `np.roll(face, -roll)`, the edges to intersect with the plane, the new
panels. -/
structure Plan where
  roll : ℕ
  cuts : List (ℕ × ℕ)
  pieces : List (List CutCorner)
  deriving DecidableEq

/-- `np.where(mask[face])[0]` (`meshes/clipper.py:148-150`). -/
def whereSide (s : PlaneSide) (l : List PlaneSide) : List ℕ := (List.range l.length).filter fun i => l[i]? == some s

/-- `list(face)`. -/
def wholeFace (n : ℕ) : List CutCorner := (List.range n).map .old

/-- `face.append(face[0])` after `list(face)`. -/
def closedFace (n : ℕ) : List CutCorner := wholeFace n ++ [.old 0]

/-- The table of `_clip_crown` (`meshes/clipper.py:159-450`), from the numbers of corners above, on and below the plane.
`none` stands for the exception of the last case, and for the `ValueError` of the cases `102` and `201` when there are
not three corners. -/
def plan (l : List PlaneSide) : Option Plan :=
  let va := whereSide .above l
  let vo := whereSide .on l
  let vb := whereSide .below l
  match va.length, vo.length, vb.length with
  | 2, 0, 2 =>
    let r := if va.getD 1 0 = va.getD 0 0 + 1 then va.getD 1 0 else 0
    some ⟨r, [(0, 1), (2, 3)], [[.cut 0, .old 1, .old 2, .cut 1]]⟩
  | 3, 0, 1 => some ⟨vb.getD 0 0, [(0, 3), (0, 1)], [[.cut 0, .old 0, .cut 1, .cut 0]]⟩
  | 1, 0, 3 =>
    some ⟨va.getD 0 0, [(0, 1), (0, 3)], [[.cut 0, .old 1, .old 3, .cut 1], [.old 1, .old 2, .old 3, .old 1]]⟩
  | 1, 0, 2 =>
    if l.length = 3 then some ⟨va.getD 0 0, [(0, 1), (0, 2)], [[.cut 0, .old 1, .old 2, .cut 1]]⟩ else none
  | 2, 0, 1 =>
    if l.length = 3 then some ⟨vb.getD 0 0, [(0, 2), (0, 1)], [[.cut 0, .old 0, .cut 1, .cut 0]]⟩ else none
  | 2, 1, 1 =>
    let r := vo.getD 0 0
    if ((l.rotate r).getD 1 .on).negative then some ⟨r, [(1, 2)], [[.old 0, .old 1, .cut 0, .old 0]]⟩
    else some ⟨r, [(2, 3)], [[.cut 0, .old 3, .old 0, .cut 0]]⟩
  | 1, 1, 2 =>
    let r := vo.getD 0 0
    if ((l.rotate r).getD 1 .on).negative then some ⟨r, [(2, 3)], [[.old 0, .old 1, .old 2, .cut 0]]⟩
    else some ⟨r, [(1, 2)], [[.cut 0, .old 2, .old 3, .old 0]]⟩
  | 0, 1, 3 => some ⟨0, [], [wholeFace l.length]⟩
  | 2, 1, 0 => some ⟨0, [], []⟩
  | 3, 1, 0 => some ⟨0, [], []⟩
  | 1, 1, 1 =>
    let r := vo.getD 0 0
    if ((l.rotate r).getD 1 .on).negative then some ⟨r, [(1, 2)], [[.old 0, .old 1, .cut 0, .old 0]]⟩
    else some ⟨r, [(1, 2)], [[.cut 0, .old 2, .old 0, .cut 0]]⟩
  | 1, 2, 0 => some ⟨0, [], []⟩
  | 0, 2, 1 => some ⟨vb.getD 0 0, [], [closedFace l.length]⟩
  | 0, 2, 2 =>
    let r := if vo.getD 1 0 = vo.getD 0 0 + 1 then vo.getD 1 0 else 0
    some ⟨r, [], [wholeFace l.length]⟩
  | 0, 1, 2 => some ⟨0, [], [closedFace l.length]⟩
  | 2, 2, 0 => some ⟨0, [], []⟩
  | 1, 2, 1 => some ⟨va.getD 0 0, [], [[.old 1, .old 2, .old 3, .old 1]]⟩
  | 3, 0, 0 => some ⟨0, [], []⟩
  | 4, 0, 0 => some ⟨0, [], []⟩
  | 0, 0, 3 => some ⟨0, [], [closedFace l.length]⟩
  | 0, 0, 4 => some ⟨0, [], [wholeFace l.length]⟩
  | 0, 3, 0 => some ⟨0, [], []⟩
  | 0, 4, 0 => some ⟨0, [], []⟩
  | _, _, _ => none

/-- `get_face` (`meshes/meshes.py:176-192`). -/
def Face.getFace (f : Face) : List ℕ := if f.isTriangle then [f.a, f.b, f.c] else [f.a, f.b, f.c, f.d]

/-- `plane.get_edge_intersection` on two corners of the rolled face. `none` for `RuntimeError`. -/
noncomputable def cutEdge (P : Plane) (pts : List (V3 ℝ)) (e : ℕ × ℕ) : Option (V3 ℝ) :=
  match pts[e.1]?, pts[e.2]? with
  | some p, some q =>
    match P.getEdgeIntersection p q with
    | .point x => some x
    | .outside => none
  | _, _ => none

/-- The number of a vertex of a new panel. -/
def CutCorner.resolve (ids : List ℕ) (n : ℕ) : CutCorner → Option ℕ
  | .old i => ids[i]?
  | .cut k => some (n + k)

/-- A row of the array of faces: four numbers (`meshes/meshes.py:117-127`). -/
def toFace : List ℕ → Option Face
  | [a, b, c, d] => some ⟨a, b, c, d⟩
  | _ => none

/-- One turn of the loop of `_clip_crown` (`meshes/clipper.py:144-450`): the new faces and the new vertices, the
first of which has the number `n`. -/
noncomputable def clipFace (tol : ℝ) (P : Plane) (vs : List (V3 ℝ)) (n : ℕ) (f : Face) :
    Option (List Face × List (V3 ℝ)) :=
  let ids := f.getFace
  match select vs ids with
  | none => none
  | some pts =>
    match plan (pts.map fun p => sideOf tol (P.distanceToPoint p)) with
    | none => none
    | some pl =>
      match pl.cuts.mapM (cutEdge P (pts.rotate pl.roll)),
        pl.pieces.mapM (fun c => (c.mapM (CutCorner.resolve (ids.rotate pl.roll) n)).bind toFace) with
      | some new, some fs => some (fs, new)
      | _, _ => none

/-- The loop of `_clip_crown` on the faces from the number `i`: new faces, their `relative_faces_ids` and the new
vertices. -/
noncomputable def clipLoop (tol : ℝ) (P : Plane) (vs : List (V3 ℝ)) :
    List Face → (i n : ℕ) → Option (List Face × List ℕ × List (V3 ℝ))
  | [], _, _ => some ([], [], [])
  | f :: fs, i, n =>
    match clipFace tol P vs n f with
    | none => none
    | some (gs, new) =>
      match clipLoop tol P vs fs (i + 1) (n + new.length) with
      | none => none
      | some (gs', is, new') => some (gs ++ gs', List.replicate gs.length i ++ is, new ++ new')

/-- `_clip_crown` (`meshes/clipper.py:120-465`): the new mesh and the numbers of the faces it comes from. The masks of
the crown are computed again from its vertices, which are those of the source. -/
noncomputable def clipCrown (tol : ℝ) (P : Plane) (crown : Mesh (V3 ℝ)) (faceIds : List ℕ) :
    Option (Mesh (V3 ℝ) × List ℕ) :=
  match clipLoop tol P crown.vertices crown.faces 0 crown.vertices.length with
  | none => none
  | some (fs, is, new) => (select faceIds is).map fun ids => (⟨crown.vertices ++ new, fs⟩, ids)

/-- The numbers of the faces with their four corners on a given side (`meshes/clipper.py:88-94`). -/
noncomputable def Mesh.facesOn (tol : ℝ) (P : Plane) (s : PlaneSide) (m : Mesh (V3 ℝ)) (f : Face) : Bool :=
  f.toList.all fun i => m.vertices[i]?.map (fun p => sideOf tol (P.distanceToPoint p)) == some s

/-- `np.where` of a mask of faces (`meshes/clipper.py:96-100`). -/
def Mesh.whereFaces (m : Mesh (V3 ℝ)) (p : Face → Bool) : List ℕ :=
  (List.range m.faces.length).filter fun i => (m.faces[i]?.map p) == some true

/-- The mean of the areas of the panels. -/
noncomputable def Mesh.meanArea (m : Mesh (V3 ℝ)) : ℝ :=
  (m.faceProps.filterMap fun o => o.map fun x => x.1.area).sum / m.faces.length

open Classical in
/-- `remove_degenerated_faces` (`meshes/quality.py:337-367`). The mean area of a mesh without panels is not a
number, and no panel is compared with it. -/
noncomputable def Mesh.removeDegeneratedFaces (rtol : ℝ) (m : Mesh (V3 ℝ)) : Mesh (V3 ℝ) :=
  { m with faces := m.faces.filter fun f =>
      match faceProperties m.vertices f with
      | some x => !decide (x.1.area < m.meanArea * rtol)
      | none => true }

/-- The partition and the clipping of the crown (`meshes/clipper.py:51-62`). The upper part is not used. See
`Mesh.mergeDuplicates` for `sort` and `atol`. -/
noncomputable def clipParts (sort : (ℕ → ℝ) → List ℕ → List ℕ) (atol tol : ℝ) (P : Plane) (m : Mesh (V3 ℝ)) :
    Option (Mesh (V3 ℝ) × List ℕ) :=
  let lowerIds := m.whereFaces (m.facesOn tol P .below)
  let crownIds := m.whereFaces fun f => !(m.facesOn tol P .above f || m.facesOn tol P .below f)
  match m.extractFaces lowerIds, m.extractFaces crownIds with
  | some lower, some crown =>
    if crown.1.faces.length > 0 then
      match clipCrown tol P crown.1 crownIds with
      | none => none
      | some c => ((Tree.node .plain [.leaf lower.1, .leaf c.1]).merged sort atol).map fun r => (r, lowerIds ++ c.2)
    else some (lower.1, lowerIds)
  | _, _ => none

open Classical in
/-- `clip` (`meshes/clipper.py:17-68`) and `Mesh.clip` (`meshes/meshes.py:601-608`): the clipped mesh and its
`faces_ids`. `none` when an exception is raised. The tolerances of the code are `tol = 1e-12`, `atol = 1e-8` and
`rtol = 1e-5`. -/
noncomputable def Mesh.clip (sort : (ℕ → ℝ) → List ℕ → List ℕ) (atol tol rtol : ℝ) (P : Plane) (m : Mesh (V3 ℝ)) :
    Option (Mesh (V3 ℝ) × List ℕ) :=
  let sides := m.vertices.map fun p => sideOf tol (P.distanceToPoint p)
  let clipped :=
    if sides.count .above = m.vertices.length then some (⟨[], []⟩, [])
    else if sides.count .below + sides.count .on = m.vertices.length then some (m, List.range m.faces.length)
    else clipParts sort atol tol P m
  clipped.bind fun c => c.1.removeUnusedVertices.map fun r => (r.removeDegeneratedFaces rtol, c.2)

end Verif.Meshes
