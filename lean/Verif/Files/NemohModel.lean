import Verif.Files.MeshFilesModel
import Verif.Bodies.JoinModel
import Mathlib.Analysis.SpecialFunctions.Trigonometric.Basic

/-!
# Nemoh directories (C85)

Model of `capytaine/io/legacy.py`: `export_as_Nemoh_directory` and `import_cal_file`, at the level of the characters of
the files. `none` stands for any exception. The names of files are relative to the directory and a directory is a function from
names to contents. The constructors of the problems are not called: the checks of their arguments, the healing and the clipping
of the mesh are in other parts of the model. Bodies given by a Python script are left out.
-/

namespace Verif.Files

open Verif.Geometry Verif.Meshes

/-- Floating point numbers as rational numbers: their text, given by `str.format` without options, and the rounding done by
`float` after the reading of a decimal number. -/
structure PyFloats where
  repr : ℚ → Text
  round : ℚ → ℚ

/-- `float(t)` (`io/legacy.py:26-28`). -/
def PyFloats.read (P : PyFloats) (t : Text) : Option ℚ := (readFloat t).map P.round

/-- The motion of a dof that a Nemoh file can describe (`io/legacy.py:55-61`). -/
inductive CalDof
  | translation (direction : V3 ℚ)
  | rotation (direction point : V3 ℚ)
  deriving DecidableEq

/-- A body in a Nemoh file: the name given by `FloatingBody.from_file`, the mesh and the dofs. -/
structure CalBody where
  name : Text
  meshes : List Loaded
  dofs : List (Text × CalDof)

/-! ## Reading -/

/-- The number at the beginning of a line, `float(line.split()[0])` (`io/legacy.py:26-28`). -/
def firstFloat (P : PyFloats) (l : Text) : Option ℚ := (textWords l).head?.bind P.read

/-- The integer at the beginning of a line, `int(line.split()[0])` (`io/legacy.py:36`). -/
def firstInt (l : Text) : Option ℤ := (textWords l).head?.bind readInt

/-- Three numbers: other lengths are refused by `add_translation_dof` and `Axis` (`bodies/bodies.py:176`). -/
def threeFloats (P : PyFloats) (ts : List Text) : Option (V3 ℚ) := (ts.mapM P.read).bind toVertex

/-- The two numbers of the fifth line (`io/legacy.py:31`). -/
def twoFloats (P : PyFloats) (l : Text) : Option (ℚ × ℚ) :=
  match (textWords l).take 2 with
  | [a, b] => (P.read a).bind fun x => (P.read b).map fun y => (x, y)
  | _ => none

/-- `add_translation_dof` and `add_rotation_dof` without a name (`bodies/bodies.py:172-173`, `214-215`). -/
def addCalDof (dofs : List (Text × CalDof)) (d : CalDof) : List (Text × CalDof) :=
  Bodies.setItem dofs ("dof_".toList ++ showNat dofs.length ++
    match d with
    | .translation _ => "_translation".toList
    | .rotation _ _ => "_rotation".toList, d)

/-- One step of the loop on the dofs (`io/legacy.py:54-61`): the other types are ignored. -/
def calDofLine (P : PyFloats) (dofs : List (Text × CalDof)) (l : Text) : Option (List (Text × CalDof)) :=
  match textWords l with
  | [] => none
  | t :: ts =>
    match readInt t with
    | none => none
    | some k =>
      if k = 1 then (threeFloats P (ts.take 3)).map fun v => addCalDof dofs (.translation v)
      else if k = 2 then
        (threeFloats P (ts.take 3)).bind fun v => (threeFloats P ((ts.drop 3).take 3)).map fun p =>
          addCalDof dofs (.rotation v p)
      else some dofs

/-- One step of the loop on the forces (`io/legacy.py:65-70`): only the exceptions matter. -/
def calForceLine (P : PyFloats) (l : Text) : Option Unit :=
  match textWords l with
  | [] => none
  | t :: ts =>
    match readInt t with
    | none => none
    | some k =>
      if k = 1 then ((ts.take 3).mapM P.read).map fun _ => ()
      else if k = 2 then ((ts.take 6).mapM P.read).map fun _ => ()
      else some ()

/-- The loop on `n` lines of dofs (`io/legacy.py:53-61`), with the lines that follow. -/
def calDofs (P : PyFloats) : ℕ → List (Text × CalDof) → List Text → Option (List (Text × CalDof) × List Text)
  | 0, dofs, ls => some (dofs, ls)
  | n + 1, dofs, ls => (calDofLine P dofs (ls.headD [])).bind fun dofs => calDofs P n dofs ls.tail

/-- The loop on `n` lines of forces (`io/legacy.py:64-70`). -/
def calForces (P : PyFloats) : ℕ → List Text → Option (List Text)
  | 0, ls => some ls
  | n + 1, ls => (calForceLine P (ls.headD [])).bind fun _ => calForces P n ls.tail

/-- The extension given by `os.path.splitext` with its point, for a name without a separator of directories. Points at the
beginning of the name do not count. -/
def fileExtension (f : Text) : Text :=
  let ext := (f.reverse.takeWhile (· ≠ '.')).reverse
  let before := (f.reverse.dropWhile (· ≠ '.')).reverse
  if before.all (· = '.') then [] else '.' :: ext

/-- `FloatingBody.from_file` and `load_mesh` (`bodies/bodies.py:125-131`, `io/mesh_loaders.py:51-67`), for the formats that have
a model. The extension is not changed to lower case: the names in capitals are left out. -/
def loadMeshFile (files : Text → Option Text) (f : Text) : Option Loaded :=
  (files f).bind fun s =>
    let e := fileExtension f
    if e = ".dat".toList ∨ e = ".mar".toList ∨ e = ".nemoh".toList then loadMAR s
    else if e = ".nat".toList ∨ e = ".natural".toList then loadNAT s
    else if e = ".gdf".toList ∨ e = ".wamit".toList then loadGDF s
    else if e = ".nem".toList ∨ e = ".nemoh_mesh".toList then loadNEM s
    else if e = ".hst".toList ∨ e = ".hydrostar".toList then loadHST s
    else if e = ".pnl".toList ∨ e = ".hams".toList then loadPNL s
    else none

/-- One step of the loop on the bodies (`io/legacy.py:38-77`). -/
def calBody (P : PyFloats) (files : Text → Option Text) (ls : List Text) : Option (CalBody × List Text) :=
  (textWords (ls.getD 1 [])).head?.bind fun f =>
  (loadMeshFile files f).bind fun m =>
  (firstInt (ls.getD 3 [])).bind fun nd =>
  (calDofs P nd.toNat [] (ls.drop 4)).bind fun r =>
  (firstInt (r.2.headD [])).bind fun nf =>
  (calForces P nf.toNat r.2.tail).bind fun ls =>
  (firstInt (ls.headD [])).map fun na =>
    (⟨f, [m], r.1⟩, ls.tail.drop na.toNat)

/-- The loop on the bodies (`io/legacy.py:37-77`). -/
def calBodies (P : PyFloats) (files : Text → Option Text) : ℕ → List Text → Option (List CalBody × List Text)
  | 0, ls => some ([], ls)
  | n + 1, ls =>
    (calBody P files ls).bind fun r => (calBodies P files n r.2).map fun s => (r.1 :: s.1, s.2)

/-- `join_bodies` (`bodies/bodies.py:765-828`): the meshes, the names of the dofs and their motions. On the panels of the other
bodies the motions are zero. -/
def joinCal (bodies : List CalBody) : CalBody where
  name := (bodies.map CalBody.name).intersperse ['+'] |>.flatten
  meshes := bodies.flatMap CalBody.meshes
  dofs := (bodies.flatMap fun b => b.dofs.map fun d => (Bodies.newDofName b.name d.1, d.2)).foldl Bodies.setItem []

/-- `if nb_bodies > 1: ...` (`io/legacy.py:79-82`). -/
def mergeCal (n : ℕ) (bodies : List CalBody) : Option CalBody := if 1 < n then some (joinCal bodies) else bodies.head?

/-- `np.linspace(a, b, n)`: a negative number of points is refused. -/
def calLinspace (a b : ℚ) (n : ℤ) : Option (List ℚ) :=
  if n < 0 then none else some ((List.range n.toNat).map fun i : ℕ => a + i * ((b - a) / (n - 1)))

/-- `np.linspace(float(ws[1]), float(ws[2]), int(ws[0]))` (`io/legacy.py:88`, `102`, `111`). -/
def rangeOfWords (P : PyFloats) (ws : List Text) : Option (List ℚ) :=
  ws[1]?.bind fun a => (P.read a).bind fun a => ws[2]?.bind fun b => (P.read b).bind fun b =>
  ws[0]?.bind fun n => (readInt n).bind fun n => calLinspace a b n

/-- The frequencies (`io/legacy.py:85-98`). A period of zero is left out. -/
noncomputable def calOmegas (P : PyFloats) (l : Text) : Option (List ℝ) :=
  let ws := textWords (l.takeWhile (· ≠ '!'))
  if ws.length = 3 then (rangeOfWords P ws).map fun r => r.map fun x : ℚ => (x : ℝ)
  else
    (ws.head?.bind readInt).bind fun k =>
      if k = 1 then (rangeOfWords P ws.tail).map fun r => r.map fun x : ℚ => (x : ℝ)
      else if k = 2 then (rangeOfWords P ws.tail).map fun r => r.map fun x : ℚ => 2 * Real.pi * (x : ℝ)
      else if k = 3 then (rangeOfWords P ws.tail).map fun r => r.map fun x : ℚ => 2 * Real.pi / (x : ℝ)
      else none

/-- What a problem is about: a direction of waves or the name of a dof. -/
inductive CalTarget
  | diffraction (direction : ℝ)
  | radiation (dof : Text)

/-- A problem made from a Nemoh file (`io/legacy.py:115-121`); a missing depth is infinite. -/
structure CalProblem where
  body : CalBody
  rho : ℚ
  g : ℚ
  depth : Option ℚ
  omega : ℝ
  target : CalTarget

/-- The loops that make the problems (`io/legacy.py:115-121`). -/
def calProblems (body : CalBody) (rho g : ℚ) (depth : Option ℚ) (omegas directions : List ℝ) : List CalProblem :=
  omegas.flatMap fun w =>
    (directions.map fun b => ⟨body, rho, g, depth, w, .diffraction b⟩) ++
      body.dofs.map fun d => ⟨body, rho, g, depth, w, .radiation d.1⟩

/-- `import_cal_file` (`io/legacy.py:20-123`), from the content of the file. -/
noncomputable def importCal (P : PyFloats) (files : Text → Option Text) (s : Text) : Option (List CalProblem) :=
  let ls := textLines s
  (firstFloat P (ls.getD 1 [])).bind fun rho =>
  (firstFloat P (ls.getD 2 [])).bind fun g =>
  (firstFloat P (ls.getD 3 [])).bind fun depth =>
  (twoFloats P (ls.getD 4 [])).bind fun _ =>
  (firstInt (ls.getD 6 [])).bind fun nb =>
  (calBodies P files nb.toNat (ls.drop 7)).bind fun r =>
  (mergeCal nb.toNat r.1).bind fun body =>
  (calOmegas P (r.2.getD 1 [])).bind fun omegas =>
  (rangeOfWords P (textWords (r.2.getD 2 []))).bind fun directions =>
  (textWords (r.2.getD 5 [])).head?.bind fun _ =>
  (rangeOfWords P (textWords (r.2.getD 6 []))).map fun _ =>
    calProblems body rho g (if depth = 0 then none else some depth) omegas
      (directions.map fun b : ℚ => Real.pi / 180 * (b : ℝ))

/-! ## Writing -/

/-- The frequency of a problem: zero and infinity are symbolic (`bem/problems_and_results.py:118-129`). -/
inductive PbOmega
  | finite (w : ℚ)
  | zero
  | infinite

/-- The text of a frequency: `SymbolicMultiplication.__format__` for the symbolic ones
(`tools/symbolic_multiplication.py:22-23`). -/
def PbOmega.text (P : PyFloats) : PbOmega → Text
  | .finite w => P.repr w
  | .zero => "0×1.0".toList
  | .infinite => "∞×1.0".toList

/-- A radiation problem, with the motion of its dof, the speed and the presence of a free surface. -/
structure PbToExport where
  name : Text
  mesh : Mesh (V3 ℚ)
  rho : ℚ
  g : ℚ
  depth : Option ℚ
  omega : PbOmega
  motion : CalDof
  speed : ℚ
  freeSurface : Bool

/-- The range of frequencies (`io/legacy.py:157-164`): the number of steps and the texts of the two bounds. -/
def exportRange (P : PyFloats) (e : PbToExport) : Option (List ℚ) → Option (ℕ × Text × Text)
  | none => some (1, e.omega.text P, e.omega.text P)
  | some l => l.min?.bind fun a => l.max?.map fun b => (l.length, P.repr a, P.repr b)

/-- The name of the file of the mesh (`io/legacy.py:150`, `173`). -/
def meshFileName (e : PbToExport) : Text := e.name ++ ".dat".toList

/-- The text of the depth, 0 when it is infinite (`io/legacy.py:172`). -/
def depthText (P : PyFloats) : Option ℚ → Text
  | some d => P.repr d
  | none => ['0']

/-- The lines of the file (`io/legacy.py:168-180`, `191-214`): the dashes of the titles and two of the comments are
shortened. -/
def calLines (P : PyFloats) (e : PbToExport) (r : ℕ × Text × Text) : List Text :=
  ["--- Environment ---".toList,
    P.repr e.rho ++ "\t\t\t! RHO\t\t\t! KG/M**3\t! Fluid specific volume".toList,
    P.repr e.g ++ "\t\t\t\t! G\t\t\t! M/S**2\t! Gravity".toList,
    depthText P e.depth ++ "\t\t\t! DEPTH\t\t\t! M\t\t! Water depth".toList,
    "0.\t0.\t\t\t! XEFF YEFF\t\t! M\t\t! Wave measurement point".toList,
    "--- Description of floating bodies ---".toList,
    "1\t\t\t\t! Number of bodies".toList,
    "--- Body 1 ---".toList,
    meshFileName e,
    showNat e.mesh.vertices.length ++ ' ' :: showNat e.mesh.faces.length,
    "1\t\t\t\t! Number of degrees of freedom".toList,
    "1 0. 0. 1. 0. 0. 0.\t\t! Heave".toList,
    "1\t\t\t\t! Number of resulting generalised forces".toList,
    "1 0. 0. 1. 0. 0. 0.\t\t! Heave".toList,
    "0\t\t\t\t! Number of lines of additional information".toList,
    "--- Load cases to be solved ---".toList,
    showNat r.1 ++ ' ' :: (r.2.1 ++ ' ' :: (r.2.2 ++ " ! Frequencies range".toList)),
    "0\t0.\t0.\t\t! Number of wave directions, Min and Max (degrees)".toList,
    "--- Post processing ---".toList,
    "0\t0.1\t10.\t\t! IRF\t\t\t\t! IRF calculation (0 for no calculation), time step and duration".toList,
    "0\t\t\t\t! Show pressure".toList,
    "0\t0.\t180.\t\t! Kochin function\t\t! Number of directions of calculation (0 for no calculations), Min and Max".toList,
    "0\t0\t100.\t100.\t! Free surface elevation\t! Number of points in x direction (0 for no calcutions)".toList]

/-- `export_as_Nemoh_directory` (`io/legacy.py:126-188`) in an empty directory: the files are written in the order of the
mesh, `Nemoh.cal`, `input.txt` (whose content does not matter) and `ID.dat`. The new lines of the name are in the file too. A
name with a separator is in a directory that does not exist, and the file of the mesh cannot be opened. -/
def exportNemoh (P : PyFloats) (e : PbToExport) (range : Option (List ℚ)) : Option (Text → Option Text) :=
  if '/' ∈ e.name then none
  else (exportRange P e range).map fun r f =>
    if f = "ID.dat".toList then some "1\n.".toList
    else if f = "input.txt".toList then some []
    else if f = "Nemoh.cal".toList then some (unlines (calLines P e r))
    else if f = meshFileName e then some (writeMAR e.mesh)
    else none

/-- Import the file `Nemoh.cal` of a directory. -/
noncomputable def importDirectory (P : PyFloats) (files : Text → Option Text) : Option (List CalProblem) :=
  (files "Nemoh.cal".toList).bind (importCal P files)

end Verif.Files
