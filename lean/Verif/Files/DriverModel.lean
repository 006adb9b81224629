import Verif.Files.NemohModel

/-!
# The names of the formats of meshes

Model of the functions `load_mesh` (`capytaine/io/mesh_loaders.py:51-67`) and `write_mesh`
(`capytaine/io/mesh_writers.py:14-34`), which choose a reader and a writer by the name of the format. The readers and the
writers themselves are arguments. Simplifications: the names of files have no directory, and `lower` is for ASCII.
-/

namespace Verif.Files.Driver

/-- The readers and writers, by the end of their names. -/
inductive Format where
  | mar | gdf | inp | dat | hst | nat | msh | rad | stl | vtu | vtp | vtk | tec | med | wrl | nem | pnl
  deriving DecidableEq

/-- `extension_dict` of the writers (`io/mesh_writers.py:661-692`). -/
def writerTable : List (Text × Format) :=
  [("mar".toList, .mar), ("nemoh".toList, .mar), ("wamit".toList, .gdf), ("gdf".toList, .gdf),
    ("diodore-inp".toList, .inp), ("inp".toList, .inp), ("diodore-dat".toList, .dat), ("hydrostar".toList, .hst),
    ("hst".toList, .hst), ("natural".toList, .nat), ("nat".toList, .nat), ("gmsh".toList, .msh), ("msh".toList, .msh),
    ("rad".toList, .rad), ("radioss".toList, .rad), ("stl".toList, .stl), ("vtu".toList, .vtu), ("vtp".toList, .vtp),
    ("paraview-legacy".toList, .vtk), ("vtk".toList, .vtk), ("tecplot".toList, .tec), ("tec".toList, .tec),
    ("med".toList, .med), ("salome".toList, .med), ("vrml".toList, .wrl), ("wrl".toList, .wrl), ("nem".toList, .nem),
    ("nemoh_mesh".toList, .nem), ("pnl".toList, .pnl), ("hams".toList, .pnl)]

/-- `extension_dict` of the readers (`io/mesh_loaders.py:1054-1086`). -/
def readerTable : List (Text × Format) :=
  [("dat".toList, .mar), ("mar".toList, .mar), ("nemoh".toList, .mar), ("wamit".toList, .gdf), ("gdf".toList, .gdf),
    ("diodore-inp".toList, .inp), ("inp".toList, .inp), ("diodore-dat".toList, .dat), ("hydrostar".toList, .hst),
    ("hst".toList, .hst), ("natural".toList, .nat), ("nat".toList, .nat), ("gmsh".toList, .msh), ("msh".toList, .msh),
    ("rad".toList, .rad), ("radioss".toList, .rad), ("stl".toList, .stl), ("vtu".toList, .vtu), ("vtp".toList, .vtp),
    ("paraview-legacy".toList, .vtk), ("vtk".toList, .vtk), ("tecplot".toList, .tec), ("tec".toList, .tec),
    ("med".toList, .med), ("salome".toList, .med), ("vrml".toList, .wrl), ("wrl".toList, .wrl), ("nem".toList, .nem),
    ("nemoh_mesh".toList, .nem), ("pnl".toList, .pnl), ("hams".toList, .pnl)]

/-- What is raised: the format or the file is not known, the writer or the reader is not implemented, or it raises another
exception. -/
inductive Failure where
  | unknown
  | notFound
  | notImplemented
  | inside
  deriving DecidableEq

/-- The writers that only raise `NotImplementedError` (`io/mesh_writers.py:540-541`, `605-618`). -/
def Format.noWriter : Format → Bool
  | .rad | .inp | .msh | .med | .wrl => true
  | _ => false

/-- The reader that only raises `NotImplementedError` (`io/mesh_loaders.py:236-241`). -/
def Format.noReader : Format → Bool
  | .dat => true
  | _ => false

variable {M R C : Type}

/-- `write_mesh` (`io/mesh_writers.py:29-34`): the content of the file. -/
def writeMesh (writer : Format → M → Option C) (m : M) (format : Text) : Except Failure C :=
  match writerTable.lookup format with
  | none => .error .unknown
  | some f =>
    if f.noWriter then .error .notImplemented
    else match writer f m with
      | none => .error .inside
      | some c => .ok c

/-- The name of the format, given or from the extension (`io/mesh_loaders.py:55-57`). The extension has only one point, at
the beginning. -/
def formatName (filename : Text) : Option Text → Text
  | some f => f
  | none => (((fileExtension filename).filter (· ≠ '.')).map Char.toLower)

/-- `load_mesh` of a file (`io/mesh_loaders.py:51-67`). -/
def loadMesh (reader : Format → C → Option R) (files : Text → Option C) (filename : Text) (format : Option Text) :
    Except Failure R :=
  match files filename with
  | none => .error .notFound
  | some c =>
    match readerTable.lookup (formatName filename format) with
    | none => .error .unknown
    | some f =>
      if f.noReader then .error .notImplemented
      else match reader f c with
        | none => .error .inside
        | some r => .ok r

end Verif.Files.Driver
