import Verif.Datasets.AssembleModel

/-!
# Data on the meshes, attributes and kinds of inputs of a dataset

Model of `_detect_bemio_results`, of the option `mesh` and of the argument `attrs` of `assemble_dataset`
(`capytaine/io/xarray.py:167-193`, `355-357`, `458-491`).
-/

namespace Verif.Datasets

/-! ## Kinds of inputs -/

/-- An object, of which only the module of its class is known (`io/xarray.py:176`, `186`); `none` if it has no
`__module__`, as numbers and strings. -/
structure Obj where
  module : Option (List Char)

/-- The word looked for in the module of a result (`io/xarray.py:176`). -/
def ownWord : List Char := ['c', 'a', 'p', 'y', 't', 'a', 'i', 'n', 'e']

/-- The word looked for in the module of bemio data (`io/xarray.py:186`). -/
def bemioWord : List Char := ['b', 'e', 'm', 'i', 'o', '.', 'i', 'o']

/-- What can be given as results: a list, tuple or array, an iterator without a length, a dictionary whose keys
do not include 0, or an object that is not iterable (`io/xarray.py:173-191`). -/
inductive Given where
  | sequence (items : List Obj)
  | iterator
  | mapping (n : ℕ)
  | single (o : Obj)

/-- The answer of `_detect_bemio_results`, or its exception. -/
inductive Detected where
  | capytaine
  | bemio
  | valueError
  | typeError
  deriving DecidableEq

/-- `word in o.__module__`, with a missing attribute as `false`: both end in the same exception
(`io/xarray.py:176-181`, `186-191`). -/
def Obj.inModule (word : List Char) (o : Obj) : Bool :=
  match o.module with
  | some m => decide (word <:+: m)
  | none => false

/-- `_detect_bemio_results` (`io/xarray.py:167-193`). Only the first item is read. -/
def detect : Given → Detected
  | .sequence [] => .valueError
  | .sequence (o :: _) => if o.inModule ownWord then .capytaine else .typeError
  | .iterator => .typeError
  | .mapping n => if n = 0 then .valueError else .typeError
  | .single o => if o.inModule bemioWord then .bemio else .typeError

/-! ## Data on the meshes -/

/-- `mesh.quadrature_method`: not set, named by a string, or an object of `quadpy` with or without a name
(`io/xarray.py:466-468`). -/
inductive Quad where
  | unset
  | string (s : String)
  | named (name : String)
  | unnamed (text : String)

/-- `name_or_str` (`io/xarray.py:466-467`). -/
def Quad.text : Quad → String
  | .unset => "None"
  | .string s => s
  | .named n => n
  | .unnamed t => t

/-- The body of a result: its name, the panels of its hull and the method of its mesh. -/
structure MBody where
  name : String
  faces : ℕ
  method : Quad

/-- The coordinates `nb_faces` and `quadrature_method`: one value per body of the dataset, or one value. -/
inductive MeshCoords where
  | perBody (labels : List Cell) (faces : List ℕ) (methods : List String)
  | single (faces : ℕ) (method : String)

/-- `nb_faces[name]` where the dictionary is filled by going over the bodies: the last body of this name
(`io/xarray.py:464`, `468`, `471-472`). -/
def lookupBody (order : List MBody) : Cell → Option MBody
  | .str s => order.reverse.find? fun b => decide (b.name = s)
  | .num _ => none

/-- The coordinates added by `mesh=True` (`io/xarray.py:458-479`), for the bodies in the order in which Python goes
over the set of bodies; `none` is an exception. A dataset without dimension `body_name` has a scalar
`body_name`, or none, over which one cannot iterate. -/
def meshCoords {V : Type} (order : List MBody) (d : DS V) : Option MeshCoords :=
  if (order.map MBody.name).dedup.length > 1 then
    (d.index .bodyName).bind fun ls =>
      (ls.mapM (lookupBody order)).map fun bs =>
        .perBody ls (bs.map MBody.faces) (bs.map fun b => b.method.text)
  else order.getLast?.map fun b => .single b.faces b.method.text

/-! ## Attributes -/

/-- A dictionary of attributes. -/
abbrev Attrs := String → Option String

/-- `attrs[key] = value`. -/
def Attrs.set (a : Attrs) (key value : String) : Attrs := fun k => if k = key then some value else a k

/-- The attributes given by the caller after the call, and those of the dataset
(`io/xarray.py:355-357`, `489-490`). -/
def attributes (given : Option Attrs) (time version : String) : Option Attrs × Attrs :=
  let own := (given.getD fun _ => none).set "creation_of_dataset" time
  (given.map fun _ => own, own.set "capytaine_version" version)

end Verif.Datasets
