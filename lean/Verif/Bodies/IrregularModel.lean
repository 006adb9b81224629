import Mathlib.Analysis.SpecialFunctions.Artanh
import Mathlib.Analysis.SpecialFunctions.Trigonometric.Basic
import Mathlib.Order.WithBot
import Verif.Meshes.ComponentsModel

/-!
# Irregular frequencies and lids

Model of `connected_components_of_waterline` (`capytaine/meshes/properties.py:270-276`), `lowest_lid_position`
(`capytaine/meshes/meshes.py:753-762`), `first_irregular_frequency_estimate` (`capytaine/bodies/bodies.py:1126-1162`)
and of the warning of the solver (`capytaine/bem/solver.py:277-283`). The real numbers are exact. The infinite values
of the code are `⊤` and `⊥`. The gravity is not negative. `none` stands for an exception.
-/

namespace Verif.Bodies

open Verif.Geometry Verif.Meshes

/-! ## The waterline -/

open Classical in
/-- `fs_faces_indices` (`meshes/properties.py:273-274`): the panels with a corner on the free surface. `np.isclose`
compares with the absolute tolerance `1e-8` since the second argument is zero. -/
noncomputable def waterlineIds (m : Mesh (V3 ℝ)) : List ℕ :=
  (List.range m.faces.length).filter fun i =>
    ((m.faces[i]?).map fun f => f.toList.any fun k =>
      ((m.vertices[k]?).map fun v => decide (|v.z| ≤ 1e-8)).getD false).getD false

open Classical in
/-- `connected_components_of_waterline` (`meshes/properties.py:270-276`) with `z=0.0`. `immersed` is `immersed_part`
(see `Mesh.clip`). -/
noncomputable def waterlineComponents (immersed : Mesh (V3 ℝ) → Option (Mesh (V3 ℝ))) (m : Mesh (V3 ℝ)) :
    Option (List (Mesh (V3 ℝ))) :=
  (if ∃ v ∈ m.vertices, 1e-8 < v.z then immersed m else some m).bind fun m' =>
    (m'.extractFaces (waterlineIds m')).bind fun crown => crown.1.connectedComponents

/-- The two nested loops of `meshes/meshes.py:755-756` and `bodies/bodies.py:1155-1156`: the components of the
waterlines of the components, in order. -/
noncomputable def allWaterlines (immersed : Mesh (V3 ℝ) → Option (Mesh (V3 ℝ))) (m : Mesh (V3 ℝ)) :
    Option (List (Mesh (V3 ℝ))) :=
  m.connectedComponents.bind fun comps => (comps.mapM (waterlineComponents immersed)).map List.flatten

/-- `values.max() - values.min()` (`meshes/meshes.py:757-758`), `ValueError` on an empty array. -/
noncomputable def extent : List ℝ → Option ℝ
  | [] => none
  | a :: l => some (l.foldl max a - l.foldl min a)

open Classical in
/-- `np.hypot(1/x_span, 1/y_span)` (`meshes/meshes.py:759`, `bodies/bodies.py:1159`): infinite when an extent is
zero. -/
noncomputable def wavenumberOf (m : Mesh (V3 ℝ)) : Option (WithTop ℝ) :=
  match extent (m.vertices.map V3.x), extent (m.vertices.map V3.y) with
  | some dx, some dy => some (if dx = 0 ∨ dy = 0 then ⊤ else ((√((1 / dx) ^ 2 + (1 / dy) ^ 2) : ℝ) : WithTop ℝ))
  | _, _ => none

/-! ## The lid -/

open Classical in
/-- `z_lid_comp` (`meshes/meshes.py:760`). For a ratio above one, also infinite, `np.arctanh` returns `nan`; then
`min(z_lid, nan)` is `z_lid`, as with the value zero since `z_lid` is never positive. For the ratio one the result is
infinite. -/
noncomputable def lidOfComponent (g omegaMax : ℝ) : WithTop ℝ → WithBot ℝ
  | ⊤ => ((0 : ℝ) : WithBot ℝ)
  | (p : ℝ) =>
    if omegaMax = 0 then ((0 : ℝ) : WithBot ℝ)
    else
      let r := Real.pi * g * p / omegaMax ^ 2
      if r < 1 then ((-Real.artanh r / (Real.pi * p) : ℝ) : WithBot ℝ)
      else if r = 1 then ⊥
      else ((0 : ℝ) : WithBot ℝ)

/-- `lowest_lid_position` (`meshes/meshes.py:753-762`). -/
noncomputable def lowestLidPosition (immersed : Mesh (V3 ℝ) → Option (Mesh (V3 ℝ))) (m : Mesh (V3 ℝ))
    (g omegaMax : ℝ) : Option (WithBot ℝ) :=
  (allWaterlines immersed m).bind fun comps => (comps.mapM wavenumberOf).map fun ps =>
    ((ps.map (lidOfComponent g omegaMax)).foldl min ((0 : ℝ) : WithBot ℝ)).map (0.9 * ·)

/-! ## The estimate -/

open Classical in
/-- `omega_comp` (`bodies/bodies.py:1160`). Without draft the division by zero gives an infinite value, and for an
infinite wavenumber the result is infinite or `nan`, that `min` does not keep (`bodies/bodies.py:1161`). -/
noncomputable def omegaOfComponent (g draft : ℝ) : WithTop ℝ → WithTop ℝ
  | ⊤ => ⊤
  | (p : ℝ) =>
    if draft = 0 then ⊤
    else ((√(Real.pi * g * p / Real.tanh (Real.pi * draft * p)) : ℝ) : WithTop ℝ)

/-- `abs(vertices[:, 2].min())` (`bodies/bodies.py:1145`, `1147`). -/
noncomputable def draftOf (m : Mesh (V3 ℝ)) : Option ℝ :=
  match m.vertices.map V3.z with
  | [] => none
  | a :: l => some |l.foldl min a|

open Classical in
/-- `first_irregular_frequency_estimate` (`bodies/bodies.py:1127-1162`), as computed at the first call. -/
noncomputable def irregularEstimate (immersed : Mesh (V3 ℝ) → Option (Mesh (V3 ℝ))) (hull : Mesh (V3 ℝ))
    (lid : Option (Mesh (V3 ℝ))) (g : ℝ) : Option (WithTop ℝ) :=
  (draftOf (lid.getD hull)).bind fun draft =>
    if lid.isSome ∧ draft < 1e-6 then some ⊤
    else (allWaterlines immersed hull).bind fun comps => (comps.mapM wavenumberOf).map fun ps =>
      (ps.map (omegaOfComponent g draft)).foldl min ⊤

/-- The test of `_check_wavelength_and_irregular_frequencies` (`bem/solver.py:281-282`). -/
def riskyAt (estimate omega : WithTop ℝ) : Prop := estimate < omega ∧ omega < ⊤

/-! ## The estimate is stored -/

/-- A body in a program: its hull, its lid, and the results of `first_irregular_frequency_estimate` kept by
`functools.lru_cache` for this body, one for each value of `g` (`bodies/bodies.py:1126-1127`). A body is its own
key, whatever its content, since `FloatingBody` does not define `__eq__`. The limit of 128 entries of the cache is
left out. -/
structure WarnedBody where
  hull : Mesh (V3 ℝ)
  lid : Option (Mesh (V3 ℝ))
  stored : List (ℝ × WithTop ℝ)

/-- The steps of a program: read the estimate, as the solver does (`bem/solver.py:282`), or assign an attribute. -/
inductive WarnedOp where
  | estimate (g : ℝ)
  | setLid (lid : Option (Mesh (V3 ℝ)))
  | setHull (hull : Mesh (V3 ℝ))

open Classical in
/-- The value returned by `first_irregular_frequency_estimate` in a state (`bodies/bodies.py:1126-1162`). -/
noncomputable def WarnedBody.read (immersed : Mesh (V3 ℝ) → Option (Mesh (V3 ℝ))) (b : WarnedBody) (g : ℝ) :
    Option (WithTop ℝ) :=
  match b.stored.find? fun e => e.1 = g with
  | some e => some e.2
  | none => irregularEstimate immersed b.hull b.lid g

open Classical in
/-- One step. A call that raises stores nothing. -/
noncomputable def WarnedBody.step (immersed : Mesh (V3 ℝ) → Option (Mesh (V3 ℝ))) (b : WarnedBody) :
    WarnedOp → WarnedBody
  | .estimate g =>
    match b.read immersed g with
    | some e => { b with stored := if b.stored.any fun x => x.1 = g then b.stored else b.stored ++ [(g, e)] }
    | none => b
  | .setLid l => { b with lid := l }
  | .setHull h => { b with hull := h }

/-- A program from the creation of the body. -/
noncomputable def WarnedBody.run (immersed : Mesh (V3 ℝ) → Option (Mesh (V3 ℝ))) (hull : Mesh (V3 ℝ))
    (lid : Option (Mesh (V3 ℝ))) (ops : List WarnedOp) : WarnedBody :=
  ops.foldl (WarnedBody.step immersed) ⟨hull, lid, []⟩

end Verif.Bodies
