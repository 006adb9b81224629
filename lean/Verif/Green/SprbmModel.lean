import Mathlib.Analysis.SpecialFunctions.Complex.Log

/-!
# The roots of a polynomial in the Fortran code (C117)

Model of `SPRBM` in `green_functions/libDelhommeau/src/old_Prony_decomposition.f90`, over the real numbers (the code is in single
precision). A polynomial is the list of its coefficients from the constant one. `SPQFB`, which looks for a quadratic factor
`x² + q2 x + q1` from a guess `(q1, q2)`, is a parameter: no value when it fails. The coefficients of the product of the factors
found, which `SPRBM` computes to set an error code that it does not return, are left out.
-/

namespace Verif.Green.Sprbm

/-- The end of the program, or the roots in `RR` and `RC` and the number of roots that were not written. -/
inductive Outcome where
  | stop
  | roots (found : List ℂ) (missing : ℕ)

open Classical in
/-- The leading coefficients that are zero are removed (`old_Prony_decomposition.f90:373-376`). -/
noncomputable def trimmed (c : List ℝ) : List ℝ := (c.reverse.dropWhile fun x => x = 0).reverse

/-- The four guesses with the same absolute values (`old_Prony_decomposition.f90:413-426`). -/
noncomputable def signs (f : ℝ × ℝ → Option (ℝ × ℝ)) (q : ℝ × ℝ) : Option (ℝ × ℝ) :=
  f q <|> if q.1 = 0 ∧ q.2 = 0 then none else f (-q.1, q.2) <|> f (-q.1, -q.2) <|> f (q.1, -q.2)

/-- The loop on `L` (`old_Prony_decomposition.f90:412-428`). -/
noncomputable def search (f : ℝ × ℝ → Option (ℝ × ℝ)) : ℕ → ℝ × ℝ → Option (ℝ × ℝ)
  | 0, _ => none
  | l + 1, q => signs f q <|> search f l (1 + q.1, 1 + q.2)

/-- The successive values of `H` (`old_Prony_decomposition.f90:438-443`), for coefficients from the highest one. -/
def horner (q1 q2 : ℝ) : ℝ → ℝ → List ℝ → List ℝ
  | _, _, [] => []
  | b, a, x :: xs => (-q1 * b - q2 * a + x) :: horner q1 q2 a (-q1 * b - q2 * a + x) xs

/-- The polynomial left after the division (`old_Prony_decomposition.f90:435-445`, `469`). -/
def deflate (q1 q2 : ℝ) (p : List ℝ) : List ℝ := (horner q1 q2 0 0 (p.reverse.take (p.length - 2))).reverse

/-- The roots of a quadratic factor (`old_Prony_decomposition.f90:452-468`). -/
noncomputable def quadRoots (q1 q2 : ℝ) : List ℂ :=
  let h := -0.5 * q2
  let a := h * h - q1
  let b := Real.sqrt |a|
  if a ≤ 0 then [⟨h, b⟩, ⟨h, -b⟩]
  else
    let b' := h + if 0 ≤ h then b else -b
    [⟨q1 / b', 0⟩, ⟨b', 0⟩]

/-- The loop from label 9 (`old_Prony_decomposition.f90:399-470`). The first argument bounds the number of jumps. -/
noncomputable def rootLoop (spqfb : List ℝ → ℝ × ℝ → Option (ℝ × ℝ)) : ℕ → ℝ × ℝ → List ℝ → List ℂ × ℕ
  | 0, _, p => ([], p.length - 1)
  | fuel + 1, q, p =>
    if p.length < 2 then ([], 0)
    else if p.length = 2 then ([⟨-p.getD 0 0, 0⟩], 0)
    else
      match search (spqfb p) 10 q with
      | none => ([], p.length - 1)
      | some r =>
        let t := rootLoop spqfb fuel r (deflate r.1 r.2 p)
        (quadRoots r.1 r.2 ++ t.1, t.2)

open Classical in
/-- `SPRBM` (`old_Prony_decomposition.f90:361-499`). -/
noncomputable def sprbm (spqfb : List ℝ → ℝ × ℝ → Option (ℝ × ℝ)) (c : List ℝ) : Outcome :=
  let t := trimmed c
  if t.length ≤ 1 then .stop
  else
    let zeros := (t.takeWhile fun x => x = 0).length
    let pol := (t.drop zeros).map fun x => x / t.getLastD 0
    if ∃ x ∈ pol, 10 ^ 27 ≤ |x| then .stop
    else
      let r := rootLoop spqfb pol.length (0, 0) pol
      .roots (List.replicate zeros 0 ++ r.1) r.2

end Verif.Green.Sprbm
