import Verif.LowRank.Model

/-!
# The adaptive cross approximation of one matrix

Model of the functions of `capytaine/matrices/low_rank.py` that call the approximation of several matrices with one matrix only, and of what
becomes of an array of integers.
-/

namespace Verif.LowRank

variable {m n : ℕ}

/-- `from_rows_and_cols_functions_with_ACA` (`matrices/low_rank.py:149-188`), for functions that return the rows and columns of `A`. -/
noncomputable def rowsColsAca (A : Fin m → Fin n → ℂ) (maxRank : Option ℕ) (tol : ℝ) : Outcome 1 m n :=
  multiAca (fun _ => A) 0 maxRank tol

/-- `from_full_matrix_with_ACA` (`matrices/low_rank.py:79-108`), for an array of real or complex numbers. -/
noncomputable def fullAca (A : Matrix (Fin m) (Fin n) ℂ) (maxRank : Option ℕ) (tol : ℝ) : Outcome 1 m n :=
  rowsColsAca (fun i j => A i j) maxRank tol

/-- `from_function_with_ACA` (`matrices/low_rank.py:111-146`), with a type of data that can hold the values of the function. -/
noncomputable def functionAca (f : ℕ → ℕ → ℂ) (m n : ℕ) (maxRank : Option ℕ) (tol : ℝ) : Outcome 1 m n :=
  rowsColsAca (fun i j => f i j) maxRank tol

/-- The conversion of `new_col/pivot` to the type of `left` when it holds integers (`matrices/low_rank.py:240,278-281`): the quotient is
truncated. The pivot `1e-12` that replaces zero is met for a row of zeros only, where the cross is zero whatever the column; the column
is taken as zero there. -/
def intCol (A : Fin (m + 1) → Fin (n + 1) → ℤ) (j : Fin (n + 1)) : Fin (m + 1) → ℤ := fun a => (A a j).tdiv (A 0 j)

/-- `from_full_matrix_with_ACA(full_matrix, max_rank=1)` for an array of integers (`matrices/low_rank.py:105-108,240-281,309`): the `dtype` of the
factors is that of the array. The column that is read, with the array of the result. -/
noncomputable def intAcaOne (A : Fin (m + 1) → Fin (n + 1) → ℤ) : Option (Fin (n + 1) × (Fin (m + 1) → Fin (n + 1) → ℤ)) :=
  ((pickCol (fun b => (A 0 b : ℂ)) (List.finRange (n + 1))).bind (pop (List.finRange (n + 1)))).map fun p =>
    (p.1, fun a b => intCol A p.1 a * A 0 b)

end Verif.LowRank
