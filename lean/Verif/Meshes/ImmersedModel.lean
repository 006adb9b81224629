import Verif.Meshes.ClipModel
import Verif.Frequency.FreqModel

/-!
# The immersed part of an object

Model of `keep_immersed_part` and `immersed_part` (`meshes/geometry.py:154-165`), for any object that can be
clipped.
-/

namespace Verif.Meshes

open Verif.Geometry Verif.Frequency V3

/-- The exceptions of `keep_immersed_part`: that of a clipping, or that of `_get_water_depth`. -/
inductive ImmersedError where
  | clip
  | depth (e : DepthError)
  deriving DecidableEq

/-- The plane of the free surface (`meshes/geometry.py:156`). -/
noncomputable def surfacePlane (fs : ℝ) : Plane := mkPlane ⟨0, 0, 1⟩ ⟨0, 0, fs⟩

/-- The plane of the sea bottom (`meshes/geometry.py:160`). -/
noncomputable def bottomPlane (fs depth : ℝ) : Plane := mkPlane ⟨0, 0, -1⟩ ⟨0, 0, fs - depth⟩

/-- `keep_immersed_part` in place (`meshes/geometry.py:154-161`), where `clip` gives the object after the
clipping and whether no exception was raised: the object after the call, and the exception. The free surface is at a
finite level; a depth that is not a number is left out. -/
noncomputable def keepImmersed {O : Type} (clip : Plane → O → O × Bool) (fs : ℝ) (waterDepth : Option Input)
    (seaBottom : Option (Option ℝ)) (o : O) : O × Option ImmersedError :=
  let a := clip (surfacePlane fs) o
  if a.2 then
    match getWaterDepth (fs : Input) waterDepth seaBottom with
    | .error e => (a.1, some (.depth e))
    | .ok none => (a.1, none)
    | .ok (some d) =>
      let b := clip (bottomPlane fs d) a.1
      (b.1, if b.2 then none else some .clip)
  else (a.1, some .clip)

/-- `immersed_part` (`meshes/geometry.py:163-165`, with `inplace=False`, `27-34`): the given object after the call,
and the new one or the exception. Objects are values here, so that a copy is the object itself. -/
noncomputable def immersedPart {O : Type} (clip : Plane → O → O × Bool) (fs : ℝ) (waterDepth : Option Input)
    (seaBottom : Option (Option ℝ)) (o : O) : O × Except ImmersedError O :=
  (o, match keepImmersed clip fs waterDepth seaBottom o with
    | (r, none) => .ok r
    | (_, some e) => .error e)

/-- `Mesh.clip` in place (`meshes/meshes.py:601-608`): the mesh is changed after everything has been computed. -/
noncomputable def clipInPlace (sort : (ℕ → ℝ) → List ℕ → List ℕ) (atol tol rtol : ℝ) (P : Plane) (m : Mesh (V3 ℝ)) :
    Mesh (V3 ℝ) × Bool :=
  match m.clip sort atol tol rtol P with
  | some r => (r.1, true)
  | none => (m, false)

end Verif.Meshes
