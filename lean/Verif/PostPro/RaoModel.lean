import Verif.Blocks.SolveProps

/-!
# Response amplitude operator and impedance

Model of `capytaine/post_pro/rao.py` and `capytaine/post_pro/impedance.py`, for one frequency and one wave
direction (all the operations are done for each value of the other coordinates).

Dofs are numbered; a matrix `A` of the dataset has the value `A r i` for the radiating dof `r` and the
influenced dof `i`. Simplification: the labels of the dofs are the same and in the same order in all
arrays, so that the alignment done by xarray is trivial.
-/

namespace Verif.PostPro

/-- The part of the dataset which is read. `encounterOmega` is absent from datasets without forward
speed. -/
structure Data where
  omega : ℝ
  encounterOmega : Option ℝ
  inertia : ℕ → ℕ → ℂ
  addedMass : ℕ → ℕ → ℂ
  damping : ℕ → ℕ → ℂ
  hydrostatic : ℕ → ℕ → ℂ
  excitation : ℕ → ℂ

/-- `omega`, `impedance.py:38-41` and `87-90`. -/
noncomputable def Data.w (d : Data) : ℂ := ((d.encounterOmega.getD d.omega : ℝ) : ℂ)

/-- `rao_transfer_function`, `impedance.py:11-54`. -/
noncomputable def transfer (d : Data) (dissipation stiffness : Option (ℕ → ℕ → ℂ)) : ℕ → ℕ → ℂ :=
  let H := fun r i => -d.w ^ 2 * (d.inertia r i + d.addedMass r i) - Complex.I * d.w * d.damping r i
    + d.hydrostatic r i
  let H := match dissipation with
    | none => H
    | some C => fun r i => H r i - Complex.I * d.w * C r i
  match stiffness with
  | none => H
  | some S => fun r i => H r i + S r i

/-- `impedance`, `impedance.py:57-91`. -/
noncomputable def impedance (d : Data) (dissipation stiffness : Option (ℕ → ℕ → ℂ)) : ℕ → ℕ → ℂ :=
  fun r i => 1 / (-Complex.I * d.w) * transfer d dissipation stiffness r i

/-- `rao`, `rao.py:14-60`: `solve` stands for `np.linalg.solve`, applied to the matrix whose lines are
the radiating dofs and whose columns are the influenced dofs (line 48) and to the vector of the
excitation force by influenced dof (line 49). -/
noncomputable def rao (solve : (ℕ → ℕ → ℂ) → (ℕ → ℂ) → Option (ℕ → ℂ)) (d : Data)
    (dissipation stiffness : Option (ℕ → ℕ → ℂ)) : Option (ℕ → ℂ) :=
  solve (transfer d dissipation stiffness) d.excitation

end Verif.PostPro
