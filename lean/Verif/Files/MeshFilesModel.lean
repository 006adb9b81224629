import Mathlib.Data.List.Dedup
import Verif.Files.TextModel
import Verif.Meshes.Model

/-!
# Text formats of meshes

Model of the writers (`capytaine/io/mesh_writers.py`) and of the readers (`capytaine/io/mesh_loaders.py`) of the
formats MAR, NAT, NEM, GDF, HST and PNL, at the level of the characters of the files. The writers are given arrays
of three coordinates and of four indices, as those of a `Mesh`. The other formats use the library VTK, or have no
writer or no reader. `none` stands for any exception. Names of meshes and messages are left out.
-/

namespace Verif.Files

open Verif.Geometry Verif.Meshes

/-! ## The results of the readers -/

/-- The result of a reader: a mesh, alone or with its mirror images in the planes `yOz_Plane` (`mirrorX`) and
`xOz_Plane` (`mirrorY`), in a `ReflectionSymmetricMesh`. -/
structure Loaded where
  mesh : Mesh (V3 ℚ)
  mirrorX : Bool
  mirrorY : Bool

/-- A row of the array of vertices, of three coordinates (`meshes/meshes.py:102-107`). -/
def toVertex : List ℚ → Option (V3 ℚ)
  | [x, y, z] => some ⟨x, y, z⟩
  | _ => none

/-- A row of the array of faces, of four indices that are not negative (`meshes/meshes.py:121-126`). -/
def toFace : List ℤ → Option Face
  | [a, b, c, d] => if 0 ≤ a ∧ 0 ≤ b ∧ 0 ≤ c ∧ 0 ≤ d then some ⟨a.toNat, b.toNat, c.toNat, d.toNat⟩ else none
  | _ => none

/-- The construction of the arrays and of the `Mesh` from lists of rows (`meshes/meshes.py:44-68`, `102-131`). Rows of
various lengths are refused by `np.array`, and rows of the wrong length by the setters. An empty list gives an empty
array. -/
def mkMesh (rows : List (List ℚ)) (faces : List (List ℤ)) : Option (Mesh (V3 ℚ)) :=
  match rows.mapM toVertex, faces.mapM toFace with
  | some vs, some fs => if ∀ f ∈ fs, ∀ i ∈ f.toList, i < vs.length then some ⟨vs, fs⟩ else none
  | _, _ => none

/-- `faces - 1` (`io/mesh_loaders.py:690`). -/
def minusOne (rows : List (List ℤ)) : List (List ℤ) := rows.map fun r => r.map fun i => i - 1

/-- The three coordinates of a vertex. -/
def coords (v : V3 ℚ) : List ℚ := [v.x, v.y, v.z]

/-- The next lines of a file as lists of words, from `n` calls of `readline`: an empty list after the end
(`io/mesh_loaders.py:680-681`, `985-986`). -/
def rowWords (n : ℕ) (ls : List Text) : List (List Text) := (List.range n).map fun i => textWords (ls.getD i [])

/-! ## MAR (Nemoh) -/

/-- A line of a vertex (`io/mesh_writers.py:523-524`). -/
def marVertexLine (v : V3 ℚ × ℕ) : Text :=
  padLeft 6 (showNat (v.2 + 1)) ++ (coords v.1).flatMap fun x => padLeft 16 (showFixed x)

/-- A line of a face, in fields of ten characters (`io/mesh_writers.py:169`, `429`, `528-530`). -/
def faceLine (f : Face) : Text := f.toList.flatMap fun i => padLeft 10 (showNat (i + 1))

/-- `'\n'.join(lines) + '\n'` (`io/mesh_writers.py:149-160`, `528-531`): a blank line when there is no line. -/
def blockLines (ls : List Text) : List Text := if ls = [] then [[]] else ls

/-- `write_MAR` (`io/mesh_writers.py:503-534`). -/
def writeMAR (m : Mesh (V3 ℚ)) : Text :=
  unlines ([padLeft 6 (showNat 2) ++ padLeft 6 (showNat 0)] ++ m.vertices.zipIdx.map marVertexLine ++
    [(List.replicate 5 0).flatMap fun n => padLeft 6 (showNat n)] ++ blockLines (m.faces.map faceLine) ++
    [(List.replicate 4 0).flatMap fun n => padLeft 6 (showNat n)])

/-- The loop on the lines of the vertices (`io/mesh_loaders.py:768-773`): `line[0]` raises `IndexError` on a blank line
and at the end of the file. -/
def marVertices : List Text → Option (List (List ℚ) × List Text)
  | [] => none
  | l :: ls =>
    match textWords l with
    | [] => none
    | t :: ts =>
      if t = ['0'] then some ([], ls)
      else
        match ts.mapM readFloat, marVertices ls with
        | some r, some (rs, rest) => some (r :: rs, rest)
        | _, _ => none

/-- The loop on the lines of the faces (`io/mesh_loaders.py:777-782`). -/
def marFaces : List Text → Option (List (List ℤ))
  | [] => none
  | l :: ls =>
    match textWords l with
    | [] => none
    | t :: ts =>
      if t = ['0'] then some []
      else
        match (t :: ts).mapM readInt, marFaces ls with
        | some r, some rs => some (r :: rs)
        | _, _ => none

/-- `load_MAR` (`io/mesh_loaders.py:744-798`). -/
def loadMAR (s : Text) : Option Loaded :=
  match textLines s with
  | [] => none
  | header :: ls =>
    match textWords header with
    | [_, sym] =>
      match marVertices ls with
      | none => none
      | some (rows, rest) =>
        match marFaces rest with
        | none => none
        | some faces =>
          match readInt sym, mkMesh rows (minusOne faces) with
          | some k, some m => some ⟨m, false, k = 1⟩
          | _, _ => none
    | _ => none

/-! ## NAT -/

/-- `write_NAT` (`io/mesh_writers.py:402-431`): the numbers of rows are taken as the largest dimension of the arrays. -/
def writeNAT (m : Mesh (V3 ℚ)) : Text :=
  unlines ([padLeft 6 (showNat 0) ++ padLeft 6 (showNat 0),
      padLeft 6 (showNat (max m.vertices.length 3)) ++ padLeft 6 (showNat (max m.faces.length 4))] ++
    (m.vertices.map fun v => (coords v).flatMap fun x => padLeft 15 (showSci x)) ++ m.faces.map faceLine)

/-- `load_NAT` (`io/mesh_loaders.py:632-691`). -/
def loadNAT (s : Text) : Option Loaded :=
  let ls := textLines s
  match (textWords (ls.getD 1 [])).mapM readInt with
  | some [nv, nf] =>
    match (rowWords nv.toNat (ls.drop 2)).mapM fun r => r.mapM readFloat,
      (rowWords nf.toNat (ls.drop (2 + nv.toNat))).mapM fun r => r.mapM readInt with
    | some rows, some faces => (mkMesh rows (minusOne faces)).map fun m => ⟨m, false, false⟩
    | _, _ => none
  | _ => none

/-! ## NEM -/

/-- Words separated by tabulations. -/
def tabbed : List Text → Text
  | [] => []
  | [w] => w
  | w :: ws => w ++ '\t' :: tabbed ws

/-- `write_NEM` (`io/mesh_writers.py:434-461`). -/
def writeNEM (m : Mesh (V3 ℚ)) : Text :=
  unlines ([showNat m.vertices.length, showNat m.faces.length] ++
    (m.vertices.map fun v => tabbed ((coords v).map fun x => padLeft 15 (showFixed x))) ++
    m.faces.map fun f => tabbed (f.toList.map fun i => padLeft 10 (showNat (i + 1))))

/-- `load_NEM` (`io/mesh_loaders.py:959-995`). -/
def loadNEM (s : Text) : Option Loaded :=
  let ls := textLines s
  match readIntLine (ls.getD 0 []), readIntLine (ls.getD 1 []) with
  | some nv, some nf =>
    match (rowWords nv.toNat (ls.drop 2)).mapM fun r => r.mapM readFloat,
      (rowWords nf.toNat (ls.drop (2 + nv.toNat))).mapM fun r => r.mapM readInt with
    | some rows, some faces => (mkMesh rows (minusOne faces)).map fun m => ⟨m, false, false⟩
    | _, _ => none
  | _, _ => none

/-! ## GDF (WAMIT) -/

/-- The corners of a face, `vertices[cell[k], :]` (`io/mesh_writers.py:493-495`), `none` for `IndexError`. -/
def corners (m : Mesh (V3 ℚ)) (f : Face) : Option (List (V3 ℚ)) := f.toList.mapM fun i => m.vertices[i]?

/-- `write_GDF` (`io/mesh_writers.py:464-500`) with the default arguments, where `date` is the result of
`time.strftime('%c')`. -/
def writeGDF (date : Text) (m : Mesh (V3 ℚ)) : Option Text :=
  (m.faces.mapM (corners m)).map fun cs =>
    unlines (["GDF file generated by meshmagick on ".toList ++ date,
      padLeft 16 (showFixed 100) ++ padLeft 16 (showFixed (981 / 100)),
      padLeft 12 (showNat 0) ++ padLeft 12 (showNat 0),
      padLeft 12 (showNat (max m.faces.length 4))] ++
      cs.flatten.map fun v => (coords v).flatMap fun x => padLeft 16 (showSci x))

/-- The rows of `np.genfromtxt` (`io/mesh_loaders.py:722`, `1022`): the comments and the blank lines are removed. -/
def dataRows (ls : List Text) : List (List Text) :=
  (ls.map fun l => textWords (l.takeWhile (· ≠ '#'))).filter (· ≠ [])

/-- `np.genfromtxt` without `usecols` (`io/mesh_loaders.py:722`): all the values in order. Rows of various lengths
raise `ValueError`. A word that is not a number gives not-a-number, here `none`. -/
def dataValues (ls : List Text) : Option (List ℚ) :=
  if ∀ r ∈ dataRows ls, r.length = ((dataRows ls).headD []).length then (dataRows ls).flatten.mapM readFloat else none

/-- `reshape(-1, 3)` (`io/mesh_loaders.py:724`). -/
def chunk3 : List ℚ → Option (List (V3 ℚ))
  | [] => some []
  | x :: y :: z :: l => (chunk3 l).map fun vs => ⟨x, y, z⟩ :: vs
  | _ => none

/-- `reshape(-1, 4)` (`io/mesh_loaders.py:726`). -/
def chunk4 : List ℕ → Option (List Face)
  | [] => some []
  | a :: b :: c :: d :: l => (chunk4 l).map fun fs => ⟨a, b, c, d⟩ :: fs
  | _ => none

/-- The order of the rows in `np.unique`. -/
def rowLe (v w : V3 ℚ) : Bool := v.x < w.x ∨ v.x = w.x ∧ (v.y < w.y ∨ v.y = w.y ∧ v.z ≤ w.z)

/-- The rows given by `np.unique(…, axis=0)` (`io/mesh_loaders.py:725`). -/
def uniqueRows (l : List (V3 ℚ)) : List (V3 ℚ) := l.dedup.mergeSort rowLe

/-- `load_GDF` (`io/mesh_loaders.py:694-741`). -/
def loadGDF (s : Text) : Option Loaded :=
  let ls := textLines s
  match ((textWords (ls.getD 1 [])).take 2).mapM readFloat, ((textWords (ls.getD 2 [])).take 2).mapM readInt,
    ((textWords (ls.getD 3 [])).take 1).mapM readInt with
  | some [_, _], some [isx, isy], some [npan] =>
    match (dataValues (ls.drop 4)).bind chunk3 with
    | none => none
    | some pts =>
      match chunk4 (pts.map fun p => (uniqueRows pts).idxOf p) with
      | none => none
      | some faces =>
        if (faces.length : ℤ) = npan then
          some ⟨⟨uniqueRows pts, faces⟩, isx = 1, isy = 1⟩
        else none
  | _, _, _ => none

/-! ## HST (Hydrostar) -/

/-- A line of a vertex (`io/mesh_writers.py:150-155`). -/
def hstVertexLine (v : V3 ℚ × ℕ) : Text :=
  padLeft 10 (showNat (v.2 + 1)) ++ (coords v.1).flatMap fun x => padLeft 16 (showSci x)

/-- `write_HST` (`io/mesh_writers.py:126-179`). -/
def writeHST (m : Mesh (V3 ℚ)) : Text :=
  unlines (["PROJECT:".toList, "USERS:   meshmagick".toList, [], "NBODY   1".toList, "RHO   1025.0".toList,
      "GRAVITY   9.81".toList, []] ++
    ["COORDINATES".toList] ++ blockLines (m.vertices.zipIdx.map hstVertexLine) ++ ["ENDCOORDINATES".toList, []] ++
    ["PANEL TYPE 0".toList] ++ blockLines (m.faces.map faceLine) ++ ["ENDPANEL".toList, []] ++ ["ENDFILE".toList])

/-- `current_context` (`io/mesh_loaders.py:153`). -/
inductive HstContext where
  | outside | vertices | panels (kind : ℤ)
  deriving DecidableEq

/-- The variables of the loop of `load_HST` (`io/mesh_loaders.py:150-154`). `lastVertex` and `lastFace` are the values
that `x, y, z` and `v1, v2, v3, v4` keep from one line to the next. -/
structure HstState where
  ctx : HstContext := .outside
  vertices : List (List Text) := []
  faces : List (List Text) := []
  lastVertex : Option (List Text) := none
  lastFace : Option (List Text) := none
  symmetry : List Text := []

/-- The line of a vertex (`io/mesh_loaders.py:178-188`). -/
def HstState.addVertex (s : HstState) (ws : List Text) : Option HstState :=
  match ws with
  | [i, x, y, z] =>
    if readInt i = some ((s.vertices.length : ℤ) + 1) then
      some { s with vertices := s.vertices ++ [[x, y, z]], lastVertex := some [x, y, z] }
    else none
  | [x, y, z] => some { s with vertices := s.vertices ++ [[x, y, z]], lastVertex := some [x, y, z] }
  | _ => s.lastVertex.map fun v => { s with vertices := s.vertices ++ [v] }

/-- The line of a panel without index (`io/mesh_loaders.py:190-197`). -/
def HstState.addFace (s : HstState) (ws : List Text) : Option HstState :=
  match ws with
  | [a, b, c] => some { s with faces := s.faces ++ [[a, b, c, c]], lastFace := some [a, b, c, c] }
  | [a, b, c, d] => some { s with faces := s.faces ++ [[a, b, c, d]], lastFace := some [a, b, c, d] }
  | _ => s.lastFace.map fun f => { s with faces := s.faces ++ [f] }

/-- The line of a panel with its index (`io/mesh_loaders.py:199-211`). With another number of words the previous index is
kept, and is refused. -/
def HstState.addIndexedFace (s : HstState) (ws : List Text) : Option HstState :=
  match ws with
  | [i, a, b, c] =>
    if readInt i = some ((s.faces.length : ℤ) + 1) then
      some { s with faces := s.faces ++ [[a, b, c, c]], lastFace := some [a, b, c, c] }
    else none
  | [i, a, b, c, d] =>
    if readInt i = some ((s.faces.length : ℤ) + 1) then
      some { s with faces := s.faces ++ [[a, b, c, d]], lastFace := some [a, b, c, d] }
    else none
  | _ => none

/-- Does a line begin with a keyword? -/
def starts (k : String) (l : Text) : Bool := k.toList.isPrefixOf l

/-- The loop on the lines (`io/mesh_loaders.py:156-223`). The keyword `PROJECT` only gives a name. -/
def hstRead (s : HstState) : List Text → Option HstState
  | [] => some s
  | raw :: ls =>
    let line := raw.dropWhile isBlank
    if line = [] then hstRead s ls
    else if starts "COORDINATES" line then hstRead { s with ctx := .vertices } ls
    else if s.ctx = .vertices ∧ starts "ENDCOORDINATES" line then hstRead { s with ctx := .outside } ls
    else if starts "PANEL" line then
      match readIntLine (line.drop 10) with
      | none => none
      | some k => hstRead { s with ctx := .panels k } ls
    else if (s.ctx = .panels 0 ∨ s.ctx = .panels 1) ∧ starts "ENDPANEL" line then hstRead { s with ctx := .outside } ls
    else if s.ctx = .vertices then
      match s.addVertex (textWords line) with
      | none => none
      | some s' => hstRead s' ls
    else if s.ctx = .panels 0 then
      match s.addFace (textWords line) with
      | none => none
      | some s' => hstRead s' ls
    else if s.ctx = .panels 1 then
      match s.addIndexedFace (textWords line) with
      | none => none
      | some s' => hstRead s' ls
    else if starts "ENDFILE" line then some s
    else if starts "PROJECT" line then hstRead s ls
    else if starts "SYMMETRY" line then
      hstRead { s with symmetry := textWords ((line.drop 9).dropWhile (· = ':')) } ls
    else hstRead s ls

/-- `load_HST` (`io/mesh_loaders.py:122-233`). -/
def loadHST (s : Text) : Option Loaded :=
  match hstRead {} (textLines s) with
  | none => none
  | some st =>
    match st.vertices.mapM fun r => r.mapM readFloat, st.faces.mapM fun r => r.mapM readInt with
    | some rows, some faces =>
      (mkMesh rows (minusOne faces)).map fun m =>
        ⟨m, st.symmetry = [['2']], st.symmetry = [['1']] ∨ st.symmetry = [['2']]⟩
    | _, _ => none

/-! ## PNL (HAMS) -/

/-- A line of a vertex (`io/mesh_writers.py:646`). -/
def pnlVertexLine (v : V3 ℚ × ℕ) : Text :=
  padLeft 5 (showNat (v.2 + 1)) ++ (coords v.1).flatMap fun x => padLeft 18 (showFixed x)

/-- A line of a face (`io/mesh_writers.py:650-655`): three corners when the last two are the same. -/
def pnlFaceLine (f : Face × ℕ) : Text :=
  padLeft 5 (showNat (f.2 + 1)) ++
    if f.1.c = f.1.d then
      padLeft 5 (showNat 3) ++ [f.1.a, f.1.b, f.1.c].flatMap fun i => padLeft 10 (showNat (i + 1))
    else padLeft 5 (showNat 4) ++ f.1.toList.flatMap fun i => padLeft 10 (showNat (i + 1))

/-- Nine blanks and a number, four times (`io/mesh_writers.py:642`). -/
def pnlHeader (ns : List ℕ) : Text := ns.flatMap fun n => List.replicate 9 ' ' ++ showNat n

/-- `write_PNL` (`io/mesh_writers.py:621-658`). -/
def writePNL (m : Mesh (V3 ℚ)) : Text :=
  unlines (["    --------------Hull Mesh File---------------".toList, [],
      "    # Number of Panels, Nodes, X-Symmetry and Y-Symmetry".toList,
      pnlHeader [m.faces.length, m.vertices.length, 0, 0], [],
      "    #Start Definition of Node Coordinates     ! node_number   x   y   z".toList] ++
    m.vertices.zipIdx.map pnlVertexLine ++
    ["   #End Definition of Node Coordinates".toList, [],
      "   #Start Definition of Node Relations   ! panel_number  number_of_vertices   Vertex1_ID   Vertex2_ID   Vertex3_ID   (Vertex4_ID)".toList] ++
    m.faces.zipIdx.map pnlFaceLine ++
    ["   #End Definition of Node Relations".toList, [], "    --------------End Hull Mesh File---------------".toList])

/-- `np.genfromtxt` with `usecols=(1, 2, 3)` (`io/mesh_loaders.py:1022`): a row without these columns raises `ValueError`,
and a word that is not a number gives not-a-number, here `none`. A single row gives an array of dimension one, that is
not accepted as vertices of a mesh. -/
def pnlRows (ls : List Text) : Option (List (List ℚ)) :=
  if (dataRows ls).length = 1 then none
  else (dataRows ls).mapM fun r => if 4 ≤ r.length then ((r.drop 1).take 3).mapM readFloat else none

/-- The line of the face number `i` (`io/mesh_loaders.py:1029-1037`): a number of corners other than three and four
leaves the row of zeros. -/
def pnlFace (i : ℕ) (ws : List Text) : Option (List ℤ) :=
  match ws.mapM readInt with
  | some (index :: corners :: data) =>
    if index ≠ (i : ℤ) + 1 then none
    else if corners = 3 then
      match data with
      | [a, b, c] => some [a, b, c, c]
      | _ => none
    else if corners = 4 then (if data.length = 4 then some data else none)
    else some [0, 0, 0, 0]
  | _ => none

/-- `load_PNL` (`io/mesh_loaders.py:998-1053`). -/
def loadPNL (s : Text) : Option Loaded :=
  let ls := textLines s
  match (textWords (ls.getD 3 [])).mapM readInt with
  | some [nf, nv, xsym, ysym] =>
    if nf < 0 then none
    else
      match pnlRows ((List.range nv.toNat).map fun i => ls.getD (6 + i) []),
        ((List.range nf.toNat).mapM fun i => pnlFace i (textWords (ls.getD (9 + nv.toNat + i) []))) with
      | some rows, some faces =>
        (mkMesh rows (minusOne faces)).map fun m =>
          ⟨m, xsym = 1 ∧ (ysym = 0 ∨ ysym = 1), ysym = 1 ∧ (xsym = 0 ∨ xsym = 1)⟩
      | _, _ => none
  | _ => none

end Verif.Files
