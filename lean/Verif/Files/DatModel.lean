import Verif.Files.NumberedModel

/-!
# Writing meshes for Diodore

Model of `write_DAT` (`capytaine/io/mesh_writers.py:37-123`): the sections of the file, in the form in which `load_INP` finds
them, and the lines that are printed for the input file. Simplifications: the text of the file is left out, in which numbers
of more than seven digits fill their field of eight characters and are not found by the reader; the rounding of the
coordinates by the format `13.5E` is a parameter.
-/

namespace Verif.Files.Numbered

open Verif.Meshes

variable {V : Type}

/-- The nodes, numbered from one (`io/mesh_writers.py:61-76`). -/
def datNodes (round : V → V) (vs : List V) : List (ℕ × V) := vs.zipIdx.map fun p => (p.2 + 1, round p.1)

/-- The rows of the quadrangles, without their numbers (`io/mesh_writers.py:82-93`). -/
def datQuads (fs : List Face) : List (List ℕ) :=
  (fs.filter fun f => !f.isTriangle).map fun f => [f.a + 1, f.b + 1, f.c + 1, f.d + 1]

/-- The rows of the triangles, without their numbers (`io/mesh_writers.py:95-105`). -/
def datTriangles (fs : List Face) : List (List ℕ) :=
  (fs.filter fun f => f.isTriangle).map fun f => [f.a + 1, f.b + 1, f.c + 1]

/-- A section is written when there is a panel in it (`io/mesh_writers.py:112-119`). -/
def ifAny {A B : Type} (l : List A) (b : B) : List B := if l = [] then [] else [b]

/-- `write_DAT` (`io/mesh_writers.py:37-123`). -/
def writeDat (round : V → V) (m : Mesh V) : Dat V :=
  ⟨datNodes round m.vertices,
    ifAny (datQuads m.faces) (datQuads m.faces) ++ ifAny (datTriangles m.faces) (datTriangles m.faces)⟩

/-- The lines printed by `write_DAT` (`io/mesh_writers.py:107-119`), where the user has put the name of a frame. -/
def suggestedInp (name frame : String) (m : Mesh V) : List Field :=
  .node name frame false ::
    (ifAny (datQuads m.faces) (.element name) ++ ifAny (datTriangles m.faces) (.element name))

end Verif.Files.Numbered
