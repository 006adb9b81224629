import Verif.Meshes.Model
import Mathlib.Data.List.Basic
import Mathlib.Data.List.SplitOn
import Mathlib.Logic.Function.Basic

/-!
# Mesh files with numbered nodes

Model of `load_RAD`, `load_INP` and `load_MSH` (`capytaine/io/mesh_loaders.py:70-119`, `244-409`, `801-862`) and of
`load_from_meshio` (`capytaine/io/meshio.py:13-38`). The text of the files is taken after the regular expressions: rows of
numbers for the nodes and the elements, and the options of each section of a Diodore file. `None` stands for any exception.
The points are of any type with an addition.
-/

namespace Verif.Files.Numbered

open Verif.Meshes

variable {V : Type}

/-- The checks of a row of faces (`meshes/meshes.py:116-128`), for `n` vertices. -/
def checkedFace (n : ℕ) : List ℤ → Option Face
  | [a, b, c, d] =>
    if ∀ x ∈ [a, b, c, d], 0 ≤ x ∧ x < n then some ⟨a.toNat, b.toNat, c.toNat, d.toNat⟩ else none
  | _ => none

/-- `Mesh(vertices, faces)` for faces given as a list of rows (`meshes/meshes.py:44-62`, `116-128`): an empty list is an array
without a second axis and is refused. -/
def newMesh (vs : List V) (rows : List (List ℤ)) : Option (Mesh V) :=
  if rows = [] then none else (rows.mapM (checkedFace vs.length)).map (Mesh.mk vs)

/-- `load_RAD` (`io/mesh_loaders.py:70-119`): the numbers of the nodes are not used, and the regular expression of the section of
elements needs three rows. A row of elements has seven numbers, of which the last four are nodes. -/
def loadRad (nodes : List (ℕ × V)) (elems : List (List ℕ)) : Option (Mesh V) :=
  if nodes = [] ∨ elems.length < 3 then none
  else newMesh (nodes.map Prod.snd) (elems.map fun r => (r.drop 3).map fun k : ℕ => (k : ℤ) - 1)

/-- `l[-n:]` (`io/mesh_loaders.py:847`, `853`). -/
def lastOnes {A : Type} (n : ℕ) (l : List A) : List A := l.drop (l.length - n)

/-- The rows of a type of element (`io/mesh_loaders.py:845-846`, `851-852`): the type is the second number of the row. -/
def ofType (t : ℕ) (elems : List (List ℕ)) : List (List ℕ) := elems.filter fun r => r[1]? == some t && decide (2 < r.length)

/-- `triangle.append(triangle[0])` (`io/mesh_loaders.py:848`). -/
def closeTriangle {A : Type} (l : List A) : List A := l ++ l.take 1

/-- `load_MSH` without the library meshio, for a version before 4 (`io/mesh_loaders.py:825-858`): the numbers of the nodes are not
used, and the triangles come before the quadrangles. -/
def loadMsh (nodes : List (ℕ × V)) (elems : List (List ℕ)) : Option (Mesh V) :=
  newMesh (nodes.map Prod.snd)
    (((ofType 2 elems).map (fun r => closeTriangle (lastOnes 3 r)) ++ (ofType 3 elems).map (lastOnes 4)).map
      fun r => r.map fun k : ℕ => (k : ℤ) - 1)

/-- `load_from_meshio` (`io/meshio.py:13-38`) before the healing of the mesh: the quadrangles come before the triangles, which
repeat their third vertex. The indices start from 0. Without panels `np.concatenate` fails. -/
def fromMeshio (points : List V) (quads triangles : List (List ℕ)) : Option (Mesh V) :=
  newMesh points ((quads ++ triangles.map fun t => t ++ lastOnes 1 t).map fun r => r.map fun k : ℕ => (k : ℤ))

/-! ## Diodore -/

/-- The sections of a `.DAT` file (`io/mesh_loaders.py:306-364`): one section of nodes with their numbers, and sections of elements
given by the numbers of their nodes. -/
structure Dat (V : Type) where
  nodes : List (ℕ × V)
  sections : List (List (List ℕ))

/-- A line of the `.INP` file (`io/mesh_loaders.py:281-304`): the name of the `.DAT` file and, for the nodes, the name of the frame
and whether `INCREMENT` is another word than `NO`. -/
inductive Field where
  | node (input : String) (frame : String) (increment : Bool)
  | element (input : String)
  deriving DecidableEq

/-- `field['INPUT']` (`io/mesh_loaders.py:295`, `369`). -/
def Field.input : Field → String
  | .node f _ _ => f
  | .element f => f

/-- The array `id_new` after the loop (`io/mesh_loaders.py:344-347`). -/
def renumbering (nodes : List (ℕ × V)) : ℕ → ℤ :=
  (nodes.map Prod.fst).zipIdx.foldl (fun a p => Function.update a p.1 ((p.2 : ℤ) + 1)) fun _ => -1

/-- `id_new[k]` (`io/mesh_loaders.py:344`, `356`): the array stops at the largest number of a node. -/
def idNew (nodes : List (ℕ × V)) (k : ℕ) : Option ℤ :=
  if ∃ p ∈ nodes, k ≤ p.1 then some (renumbering nodes k) else none

/-- The nodes of an element (`io/mesh_loaders.py:354-360`). -/
def convertElement (nodes : List (ℕ × V)) (ids : List ℕ) : Option (List ℤ) :=
  (ids.mapM (idNew nodes)).map fun l => if l.length = 3 then closeTriangle l else l

/-- The sections of elements of a file (`io/mesh_loaders.py:349-361`). -/
def Dat.converted (d : Dat V) : Option (List (List (List ℤ))) :=
  if d.nodes = [] then none else d.sections.mapM fun s => s.mapM (convertElement d.nodes)

/-- What is left by the first loop: whether the files are there, and the last number of a node read (`idx`), from the last file in
the order of their first use (`io/mesh_loaders.py:295-302`, `317-364`). -/
def leftover (files : String → Option (Dat V)) (layout : List Field) : Option ℕ :=
  if ∀ f ∈ layout, ∃ d ∈ files f.input, d.converted.isSome then
    (layout.map Field.input).reverse.dedup.reverse.getLast?.bind fun f => (files f).bind fun d => d.nodes.getLast?.map Prod.fst
  else none

/-- The variables of the last loop (`io/mesh_loaders.py:366-407`). -/
structure InpState (V : Type) where
  vertices : Option (List V)
  increment : Option Bool
  faces : List (List ℤ)
  used : String → ℕ

/-- One step of the last loop (`io/mesh_loaders.py:368-407`). A second section of nodes is assigned to the row `idx` of the vertices
or is added at the end; the numbers of the elements are shifted by the number of nodes, counted after the addition. -/
def inpStep [Add V] (files : String → Option (Dat V)) (frames : String → Option V) (idx : ℕ) (s : InpState V) :
    Field → Option (InpState V)
  | .node f fr inc =>
    (files f).bind fun d => (frames fr).bind fun t =>
      match s.vertices with
      | none => some { s with vertices := some (d.nodes.map fun p => p.2 + t), increment := some false }
      | some vs =>
        if inc then some { s with vertices := some (vs ++ d.nodes.map fun p => p.2 + t), increment := some true }
        else match d.nodes with
          | [p] =>
            if idx < vs.length then some { s with vertices := some (vs.set idx (p.2 + t)), increment := some false } else none
          | _ => none
  | .element f =>
    (files f).bind fun d => d.converted.bind fun cs => cs[s.used f]?.bind fun rows => s.increment.map fun inc =>
      { s with
        faces := s.faces ++ if inc then rows.map fun r => r.map fun k => k + (s.vertices.getD []).length else rows
        used := Function.update s.used f (if s.used f + 1 = cs.length then 0 else s.used f + 1) }

/-- The last loop (`io/mesh_loaders.py:368-407`). -/
def inpLoop [Add V] (files : String → Option (Dat V)) (frames : String → Option V) (idx : ℕ) (s : InpState V) :
    List Field → Option (InpState V)
  | [] => some s
  | f :: l => (inpStep files frames idx s f).bind fun s' => inpLoop files frames idx s' l

/-- `load_INP` (`io/mesh_loaders.py:244-409`). -/
def loadInp [Add V] (files : String → Option (Dat V)) (frames : String → Option V) (layout : List Field) : Option (Mesh V) :=
  (leftover files layout).bind fun idx =>
    (inpLoop files frames idx ⟨none, none, [], fun _ => 0⟩ layout).bind fun s =>
      s.vertices.bind fun vs => newMesh vs (s.faces.map fun r => r.map fun k => k - 1)

/-- The vector of a frame, `re.split(r'[, ]', text)` then `float` on each word (`io/mesh_loaders.py:275-278`), for a text without
blanks at its ends. -/
def frameVector (float : List Char → Option ℚ) (text : List Char) : Option (List ℚ) :=
  (text.splitOnP fun c => c == ',' || c == ' ').mapM float

end Verif.Files.Numbered
