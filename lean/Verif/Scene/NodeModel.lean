import Verif.Meshes.Model
import Mathlib.Analysis.SpecialFunctions.Complex.Arg

/-!
# Data at the nodes and animations

Model of `compute_node_data` (`capytaine/ui/vtk/helpers.py:45-82`) and of the frames of an animation
(`capytaine/ui/vtk/animation.py:39-46`, `72-126`, `161-193`). The objects of VTK are left out: a frame is the list of the
positions of the points and the list of the scalars of the faces. The numbers are exact, except the counter of eight bits.
-/

namespace Verif.Scene

open Verif.Geometry Verif.Meshes

variable {V ι : Type}

/-- One more in an array of type `int8` (`ui/vtk/helpers.py:74`, `78`): 127 is followed by -128. -/
def inc8 (c : ℤ) : ℤ := if c = 127 then -128 else c + 1

/-- The two arrays filled by the loop (`ui/vtk/helpers.py:69-74`), as functions of the number of the vertex; `ι` is the type
of the indices of the other axes of the data. -/
structure Nodes (ι : Type) where
  count : ℕ → ℤ
  sum : ℕ → ι → ℂ

/-- The arrays before the loop (`ui/vtk/helpers.py:68-74`). -/
def Nodes.zero : Nodes ι := ⟨fun _ => 0, fun _ _ => 0⟩

/-- The body of the inner loop (`ui/vtk/helpers.py:77-79`), for the data `x` of the face. -/
noncomputable def Nodes.add (x : ι → ℂ) (s : Nodes ι) (v : ℕ) : Nodes ι :=
  ⟨Function.update s.count v (inc8 (s.count v)), Function.update s.sum v (s.sum v + x)⟩

/-- The body of the outer loop (`ui/vtk/helpers.py:76-79`). -/
noncomputable def Nodes.addFace (s : Nodes ι) (p : Face × (ι → ℂ)) : Nodes ι := p.1.toList.foldl (Nodes.add p.2) s

/-- `node_data /= nb_faces_near_nodes` for one vertex (`ui/vtk/helpers.py:81`): the result of the division by zero, which is
no number, is `none`. -/
noncomputable def Nodes.quotient (s : Nodes ι) (v : ℕ) : Option (ι → ℂ) :=
  if s.count v = 0 then none else some fun k => s.sum v k / (s.count v : ℂ)

/-- `compute_node_data` (`ui/vtk/helpers.py:45-82`) on a mesh that is already merged. The assertion fails (`none`) unless there
is one row of data for each face. The vertices of the faces are assumed to exist (`Mesh.Valid`). -/
noncomputable def nodeData (m : Mesh V) (data : List (ι → ℂ)) : Option (List (Option (ι → ℂ))) :=
  if data.length = m.faces.length then
    some ((List.range m.vertices.length).map ((m.faces.zip data).foldl Nodes.addFace Nodes.zero).quotient)
  else none

/-- `np.abs(z)*np.cos(np.angle(z) - 2*pi*i_frame/self.frames_per_loop)` (`ui/vtk/animation.py:99-101`, `111-113`). -/
noncomputable def current (z : ℂ) (i n : ℕ) : ℝ := ‖z‖ * Real.cos (z.arg - 2 * Real.pi * i / n)

/-- `int(fps * loop_duration)` for a positive duration (`ui/vtk/animation.py:41`). -/
noncomputable def framesPerLoop (fps : ℕ) (duration : ℝ) : ℕ := ⌊(fps : ℝ) * duration⌋₊

/-- The positions of the points at frame `i` (`ui/vtk/animation.py:97-107`). The points without data are `none`. -/
noncomputable def frame (m : Mesh (V3 ℝ)) (motion : List (Option (Fin 3 → ℂ))) (i n : ℕ) : List (Option (V3 ℝ)) :=
  List.zipWith (fun p d => d.map fun d => p + ⟨current (d 0) i n, current (d 1) i n, current (d 2) i n⟩) m.vertices motion

/-- `max(abs(faces_colors))` (`ui/vtk/animation.py:114`): raises `ValueError` without faces. -/
noncomputable def maxColor : List ℂ → Option ℝ
  | [] => none
  | z :: zs => some (zs.foldl (fun a w => max a ‖w‖) ‖z‖)

/-- The scalars of the faces at frame `i` (`ui/vtk/animation.py:109-118`). They are no numbers when the largest value is zero
(inner `none`). -/
noncomputable def colors (zs : List ℂ) (i n : ℕ) : Option (List (Option ℝ)) :=
  (maxColor zs).map fun mx => zs.map fun z => if mx = 0 then none else some ((current z i n + mx) / (2 * mx))

/-- The frame shown at each call of the callback (`ui/vtk/animation.py:188-193`): `self._current_frame % self.frames_per_loop`,
which raises `ZeroDivisionError` when the loop has no frame. -/
def shownFrame (call n : ℕ) : Option ℕ := if n = 0 then none else some (call % n)

/-- `faces_motion` of the free surface (`ui/vtk/animation.py:175`). -/
def elevationMotion (elevation : List ℂ) : List (Fin 3 → ℂ) := elevation.map fun e => ![0, 0, e]

end Verif.Scene
