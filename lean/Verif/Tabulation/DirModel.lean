import Mathlib.Data.List.Basic

/-!
# The directory of the tables

Model of `cache_directory` (`capytaine/tools/cache_on_disk.py:11-26`) and of its use as the default value of
`tabulation_cache_dir` (`capytaine/green_functions/delhommeau.py:112`, `146-155`). A path is a list of characters. `normpath`
and `mkdir` are arguments.

Simplifications: `os.path.join` on Windows is for a second part that is neither absolute nor on a drive, as are all those
of this function; `strip` removes the white spaces of ASCII; the home directory does not end with a slash.
-/

namespace Verif.Tabulation.Dir

/-- A path. -/
abbrev Path := List Char

/-- The value of `sys.platform`, as far as it matters (`tools/cache_on_disk.py:14`, `17`, `20`). -/
inductive Platform where
  | windows
  | mac
  | other
  deriving DecidableEq

/-- What the function reads (`tools/cache_on_disk.py:12-22`): the platform, three environment variables, and the home
directory, from `os.path.expanduser`. -/
structure Env where
  platform : Platform
  cacheDir : Option Path
  localAppData : Option Path
  xdg : Option Path
  home : Path

/-- The separators of the platform; the first one is written by `os.path.join`. -/
def Platform.seps : Platform → List Char
  | .windows => ['\\', '/', ':']
  | _ => ['/']

/-- The separator written by `os.path.join`. -/
def Platform.sep : Platform → Char
  | .windows => '\\'
  | _ => '/'

/-- `os.path.join(a, b)`: an absolute second part replaces the first one. -/
def join (p : Platform) (a b : Path) : Path :=
  match b.head? with
  | some c => if c ∈ p.seps then b else glue p a b
  | none => glue p a b
where
  /-- The two parts with a separator between them, unless there is nothing before it or there is one already. -/
  glue (p : Platform) (a b : Path) : Path :=
    match a.getLast? with
    | none => b
    | some c => if c ∈ p.seps then a ++ b else a ++ p.sep :: b

/-- The path of `cache_directory` (`tools/cache_on_disk.py:12-24`). `none` when `LOCALAPPDATA` is not defined on Windows:
`os.path.normpath(None)` raises `TypeError`. -/
def cachePath (normpath : Path → Path) (version : Path) (e : Env) : Option Path :=
  match e.cacheDir with
  | some d => some (join e.platform d version)
  | none =>
    match e.platform with
    | .windows => e.localAppData.map fun d =>
        join .windows (join .windows (join .windows (normpath d) "capytaine".toList) "Cache".toList) version
    | .mac => some (join .mac (join .mac (e.home ++ "/Library/Caches".toList) "capytaine".toList) version)
    | .other =>
      let path := e.xdg.getD []
      let path := if path.all Char.isWhitespace then e.home ++ "/.cache".toList else path
      some (join .other (join .other path "capytaine".toList) version)

/-- `cache_directory` (`tools/cache_on_disk.py:11-26`): the directory is made. `none` when an exception is raised. -/
def cacheDirectory (normpath : Path → Path) (mkdir : Path → Bool) (version : Path) (e : Env) : Option Path :=
  match cachePath normpath version e with
  | some p => if mkdir p then some p else none
  | none => none

/-- The argument `tabulation_cache_dir` of `Delhommeau` (`green_functions/delhommeau.py:112`). -/
inductive Argument where
  | absent
  | given (dir : Option Path)

/-- The directory of the tables in `Delhommeau(...)` (`green_functions/delhommeau.py:112`, `146-155`): the default value is
evaluated with the environment at the import of the module. The outer `none` is an exception at the import, and the inner
one means that the tables are not saved. -/
def tablesDirectory (normpath : Path → Path) (mkdir : Path → Bool) (version : Path) (atImport : Env) (_atCall : Env)
    (a : Argument) : Option (Option Path) :=
  match cacheDirectory normpath mkdir version atImport with
  | none => none
  | some default =>
    match a with
    | .absent => some (some default)
    | .given d => some d

/-- The path of a file of tables (`green_functions/delhommeau.py:216`). -/
def tablesFile (p : Platform) (dir filename : Path) : Path := join p dir filename

end Verif.Tabulation.Dir
