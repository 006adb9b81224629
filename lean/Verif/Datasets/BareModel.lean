import Verif.PostPro.PointsModel

/-!
# Bare matrices

Model of `assemble_matrices` (`io/xarray.py:494-527`) on the values of a variable of a dataset, with the contracts of
`DataArray.values` and of numpy's `squeeze`, `atleast_2d` and `atleast_1d`.
-/

namespace Verif.Datasets

open Verif.PostPro

variable {α V : Type}

/-- The labels of the cells of an array in C order, for `ds.added_mass.values` (`xarray.py:513`): one label along each dimension, the last one changes
first. -/
def tuples : List (List α) → List (List α)
  | [] => [[]]
  | l :: ls => l.flatMap fun x => (tuples ls).map fun t => x :: t

/-- `ds.added_mass.values` (`xarray.py:513`, `518`, `523`): the array of the values at the labels along the dimensions. -/
def valuesOf (labels : List (List α)) (val : List α → V) : ND V := ⟨labels.map List.length, (tuples labels).map val⟩

/-- `.squeeze()` (`xarray.py:513`, `518`, `523`): the axes of size one are left out. -/
def squeezeAxes (a : ND V) : ND V := ⟨a.shape.filter fun n => n ≠ 1, a.flat⟩

/-- `np.atleast_2d` (`xarray.py:513`, `518`): axes are added in front. -/
def atLeast2 (a : ND V) : ND V := match a.shape with
  | [] => ⟨[1, 1], a.flat⟩
  | [n] => ⟨[1, n], a.flat⟩
  | s => ⟨s, a.flat⟩

/-- `np.atleast_1d` (`xarray.py:523`). -/
def atLeast1 (a : ND V) : ND V := match a.shape with
  | [] => ⟨[1], a.flat⟩
  | s => ⟨s, a.flat⟩

/-- The matrices of added mass and damping (`xarray.py:512-520`); `none` when the dataset lacks the variable. -/
def bareMatrix (var : Option (List (List α) × (List α → V))) : Option (ND V) :=
  var.map fun x => atLeast2 (squeezeAxes (valuesOf x.1 x.2))

/-- The excitation forces (`xarray.py:522-525`). -/
def bareForce (var : Option (List (List α) × (List α → V))) : Option (ND V) :=
  var.map fun x => atLeast1 (squeezeAxes (valuesOf x.1 x.2))

end Verif.Datasets
