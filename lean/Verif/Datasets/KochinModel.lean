import Verif.Datasets.AssembleModel

/-!
# Datasets of Kochin functions

Model of `kochin_data_array` (`io/xarray.py:271-309`), with the columns, frames and datasets of `AssembleModel.lean` and the contract of
`Dataset.__setitem__`.

Simplifications: those of `AssembleModel.lean`; the values computed by `compute_kochin` are a parameter.
-/

namespace Verif.Datasets

/-- The rows of the data frame: one for each result and each angle, with the angle and the value in place of the forces
(`xarray.py:282-287`). `zip` stops at the end of the shorter list. -/
def kochinRows {R V : Type} (record : R → Rec V) (compute : R → List Cell → List V) (thetas : List Cell) (results : List R) : List (Rec V) :=
  results.flatMap fun r => (thetas.zip (compute r thetas)).map fun q =>
    { record r with cell := fun c => if c = .theta then q.1 else (record r).cell c
                    value := fun _ => q.2 }

/-- `dataset[name] = array` (`xarray.py:298`, `307`): the labels of the dataset are kept, a dimension that it lacks is added, and a scalar
coordinate of the array is dropped when the dataset has a coordinate of the same name. -/
noncomputable def setVar {V : Type} (d : DS V) (w : Var) (e : DS V) (v : Var) : DS V where
  index c := (d.index c).or (e.index c)
  scalar c := if ((d.index c).or (e.index c)).isSome then none else (d.scalar c).or (e.scalar c)
  var u := if u = w then e.var v else d.var u

/-- The Kochin functions of the radiation results (`xarray.py:291-298`). -/
noncomputable def kochinRadiation {V : Type} (rs : List (Rec V)) : DS V :=
  fromFrame [.kochin] [.freq .omega, .radiatingDof, .theta] (envCols ++ [.direction]) rs

/-- The Kochin functions of the diffraction results (`xarray.py:300-307`). -/
noncomputable def kochinDiffracted {V : Type} (rs : List (Rec V)) : DS V :=
  fromFrame [.kochin] [.freq .omega, .direction, .theta] envCols rs

/-- The radiation results in the new dataset (`xarray.py:289-298`). -/
noncomputable def kochinFirst {V : Type} (rs : List (Rec V)) : DS V :=
  if ofKind .radiation rs = [] then DS.empty else setVar DS.empty .kochin (kochinRadiation (ofKind .radiation rs)) .kochin

/-- The diffraction results added to it (`xarray.py:300-309`). -/
noncomputable def kochinSecond {V : Type} (rs : List (Rec V)) : DS V :=
  if ofKind .diffraction rs = [] then kochinFirst rs
  else setVar (kochinFirst rs) .kochinDiffraction (kochinDiffracted (ofKind .diffraction rs)) .kochin

/-- `kochin_data_array` (`xarray.py:271-309`); `none` is the `KeyError` of a data frame without rows, which has no column `kind`. The
cases without a free surface are not set apart. -/
noncomputable def kochinData {R V : Type} (record : R → Rec V) (compute : R → List Cell → List V) (thetas : List Cell) (results : List R) :
    Option (DS V) :=
  if (kochinRows record compute thetas results).isEmpty then none else some (kochinSecond (kochinRows record compute thetas results))

end Verif.Datasets
