import Verif.PostPro.RaoModel

/-!
# The RAO (C57)
-/

namespace Verif.PostPro

open Finset
open Verif.Blocks (Solves Injective)

/-- The equation of motion in the frequency domain (time dependency `exp(-iωt)`) for `n` dofs: for each
dof `i`, the inertia of the motion `X` along the dofs, the radiation forces on dof `i` due to the
motions along all dofs `r`, the hydrostatic and additional forces balance the excitation force. -/
def EquationOfMotion (n : ℕ) (d : Data) (w : ℂ) (dissipation stiffness : ℕ → ℕ → ℂ) (X : ℕ → ℂ) : Prop :=
  ∀ i, i < n →
    ∑ r ∈ range n, (-w ^ 2 * d.inertia r i) * X r
    + ∑ r ∈ range n, (-w ^ 2 * d.addedMass r i - Complex.I * w * d.damping r i) * X r
    + ∑ r ∈ range n, d.hydrostatic r i * X r
    + ∑ r ∈ range n, (stiffness r i - Complex.I * w * dissipation r i) * X r = d.excitation i

/-- Contract of `np.linalg.solve` for systems of size `n`. -/
def SolveSound (n : ℕ) (solve : (ℕ → ℕ → ℂ) → (ℕ → ℂ) → Option (ℕ → ℂ)) : Prop :=
  ∀ A b x, solve A b = some x → Solves n n A x b

/-- The matrix of an optional argument. -/
def orZero (A : Option (ℕ → ℕ → ℂ)) : ℕ → ℕ → ℂ := A.getD fun _ _ => 0

theorem transfer_eq (d : Data) (C S : Option (ℕ → ℕ → ℂ)) (r i : ℕ) : transfer d C S r i =
    -d.w ^ 2 * d.inertia r i + (-d.w ^ 2 * d.addedMass r i - Complex.I * d.w * d.damping r i)
      + d.hydrostatic r i + (orZero S r i - Complex.I * d.w * orZero C r i) := by
  unfold transfer orZero
  cases C <;> cases S <;> simp only [Option.getD_none, Option.getD_some] <;> ring

theorem equation_iff (n : ℕ) (d : Data) (C S : Option (ℕ → ℕ → ℂ)) (X : ℕ → ℂ) :
    EquationOfMotion n d d.w (orZero C) (orZero S) X ↔
      ∀ i, i < n → ∑ r ∈ range n, transfer d C S r i * X r = d.excitation i := by
  unfold EquationOfMotion
  refine forall_congr' fun i => forall_congr' fun _ => ?_
  rw [← sum_add_distrib, ← sum_add_distrib, ← sum_add_distrib]
  have : ∀ r ∈ range n, -d.w ^ 2 * d.inertia r i * X r +
      (-d.w ^ 2 * d.addedMass r i - Complex.I * d.w * d.damping r i) * X r + d.hydrostatic r i * X r +
      (orZero S r i - Complex.I * d.w * orZero C r i) * X r = transfer d C S r i * X r := by
    intro r _
    rw [transfer_eq]
    ring
  rw [sum_congr rfl this]

/-- **C57, partial.** When the transfer matrix is symmetric (no forward speed, symmetric additional
matrices), the RAO satisfies the equation of motion, at the encounter frequency when there is one.
Missing: non-symmetric matrices, see `rao_violated`. -/
theorem rao_partial (n : ℕ) (solve) (hsolve : SolveSound n solve) (d : Data)
    (C S : Option (ℕ → ℕ → ℂ)) (hsym : ∀ r i, r < n → i < n → transfer d C S r i = transfer d C S i r)
    (X : ℕ → ℂ) (h : rao solve d C S = some X) :
    EquationOfMotion n d ((d.encounterOmega.getD d.omega : ℝ) : ℂ) (orZero C) (orZero S) X := by
  change EquationOfMotion n d d.w (orZero C) (orZero S) X
  rw [equation_iff]
  intro i hi
  rw [← hsolve _ _ _ h i hi]
  exact sum_congr rfl fun r hr => by rw [hsym r i (mem_range.1 hr) hi]

/-- The data with the roles of the radiating and influenced dofs exchanged. -/
def Data.transposed (d : Data) : Data :=
  ⟨d.omega, d.encounterOmega, fun r i => d.inertia i r, fun r i => d.addedMass i r,
    fun r i => d.damping i r, fun r i => d.hydrostatic i r, d.excitation⟩

/-- **C57, what the code solves in general.** The RAO satisfies the equation of motion of the transposed
matrices, in which the roles of radiating and influenced dofs are exchanged. -/
theorem rao_solves_transposed (n : ℕ) (solve) (hsolve : SolveSound n solve) (d : Data)
    (C S : Option (ℕ → ℕ → ℂ)) (X : ℕ → ℂ) (h : rao solve d C S = some X) :
    EquationOfMotion n d.transposed
      ((d.encounterOmega.getD d.omega : ℝ) : ℂ) (fun r i => orZero C i r) (fun r i => orZero S i r) X := by
  intro i hi
  have := hsolve _ _ _ h i hi
  simp only [Data.transposed]
  rw [← this, ← sum_add_distrib, ← sum_add_distrib, ← sum_add_distrib]
  refine sum_congr rfl fun r _ => ?_
  rw [transfer_eq]
  unfold Data.w
  ring

/-- **C57, linearity.** When the matrix is injective, the RAO is linear in the excitation force. -/
theorem rao_linear (n : ℕ) (solve) (hsolve : SolveSound n solve) (d : Data) (C S : Option (ℕ → ℕ → ℂ))
    (hinj : Injective n n (transfer d C S)) (f1 f2 : ℕ → ℂ) (α β : ℂ) (X1 X2 X3 : ℕ → ℂ)
    (h1 : rao solve { d with excitation := f1 } C S = some X1)
    (h2 : rao solve { d with excitation := f2 } C S = some X2)
    (h3 : rao solve { d with excitation := fun i => α * f1 i + β * f2 i } C S = some X3) :
    ∀ i, i < n → X3 i = α * X1 i + β * X2 i := by
  intro i hi
  refine sub_eq_zero.1 (hinj (fun i => X3 i - (α * X1 i + β * X2 i)) ?_ i hi)
  intro r hr
  have e1 : ∑ c ∈ range n, transfer d C S r c * X1 c = f1 r := hsolve _ _ _ h1 r hr
  have e2 : ∑ c ∈ range n, transfer d C S r c * X2 c = f2 r := hsolve _ _ _ h2 r hr
  have e3 : ∑ c ∈ range n, transfer d C S r c * X3 c = α * f1 r + β * f2 r := hsolve _ _ _ h3 r hr
  rw [sum_congr rfl fun c _ => show transfer d C S r c * (X3 c - (α * X1 c + β * X2 c)) =
    transfer d C S r c * X3 c - (α * (transfer d C S r c * X1 c) + β * (transfer d C S r c * X2 c)) by
      ring]
  rw [sum_sub_distrib, sum_add_distrib, ← mul_sum, ← mul_sum, e1, e2, e3]
  ring

/-- **C57, impedance.** The impedance times `-iω` is the transfer matrix; the force is impedance times
velocity. -/
theorem impedance_spec (d : Data) (C S : Option (ℕ → ℕ → ℂ)) (hw : d.encounterOmega.getD d.omega ≠ 0)
    (r i : ℕ) : impedance d C S r i * (-Complex.I * ((d.encounterOmega.getD d.omega : ℝ) : ℂ)) =
      transfer d C S r i := by
  have hw' : d.w ≠ 0 := by unfold Data.w; exact_mod_cast hw
  change impedance d C S r i * (-Complex.I * d.w) = _
  unfold impedance
  have : -Complex.I * d.w ≠ 0 := mul_ne_zero (neg_ne_zero.2 Complex.I_ne_zero) hw'
  field_simp

/-! ### A system of two dofs -/

/-- Two dofs coupled by a non-symmetric hydrostatic matrix `[[1, 0], [1, 1]]`; zero inertia. -/
noncomputable def coupled (k : ℂ) : Data :=
  { omega := 1, encounterOmega := none, inertia := fun _ _ => 0, addedMass := fun _ _ => 0,
    damping := fun _ _ => 0, excitation := fun i => if i = 0 then 1 else 0,
    hydrostatic := fun r i => if r = i then 1 else if r = 1 ∧ i = 0 then k else 0 }

/-- Solution of the lower triangular systems `[[1, 0], [k, 1]]`. -/
noncomputable def solve2 : (ℕ → ℕ → ℂ) → (ℕ → ℂ) → Option (ℕ → ℂ) := fun A b =>
  open Classical in
  if A 0 0 = 1 ∧ A 0 1 = 0 ∧ A 1 1 = 1 then some fun i => if i = 0 then b 0 else b 1 - A 1 0 * b 0
  else none

theorem solve2_sound : SolveSound 2 solve2 := by
  intro A b x h
  unfold solve2 at h
  split at h
  · rename_i hc
    simp only [Option.some.injEq] at h
    subst h
    intro r hr
    rw [sum_range_succ, sum_range_one]
    have : r = 0 ∨ r = 1 := by omega
    rcases this with rfl | rfl
    · simp [hc]
    · simp [hc]
  · cases h

theorem coupled_transfer (k : ℂ) (r i : ℕ) :
    transfer (coupled k) none none r i = if r = i then 1 else if r = 1 ∧ i = 0 then k else 0 := by
  simp [transfer, coupled]

theorem coupled_rao (k : ℂ) :
    rao solve2 (coupled k) none none = some fun i => if i = 0 then 1 else -k := by
  unfold rao solve2
  rw [if_pos (by simp [coupled_transfer])]
  simp only [coupled_transfer, Option.some.injEq]
  funext i
  by_cases h : i = 0 <;> simp [h, coupled]

/-- The hypotheses of `rao_partial` and `rao_linear` are met by the uncoupled system. -/
example : SolveSound 2 solve2 ∧ (∀ r i, r < 2 → i < 2 →
      transfer (coupled 0) none none r i = transfer (coupled 0) none none i r) ∧
    (∃ X, rao solve2 (coupled 0) none none = some X) ∧
    Injective 2 2 (transfer (coupled 0) none none) := by
  refine ⟨solve2_sound, ?_, ⟨_, coupled_rao 0⟩, ?_⟩
  · intro r i _ _
    rw [coupled_transfer, coupled_transfer]
    by_cases h : r = i
    · simp [h]
    · simp [h, Ne.symm h]
  · intro y h c hc
    have h0 := h 0 (by omega)
    have h1 := h 1 (by omega)
    simp [coupled_transfer, sum_range_succ] at h0 h1
    have : c = 0 ∨ c = 1 := by omega
    rcases this with rfl | rfl <;> assumption

/-- **C57 is violated** for matrices that are not symmetric: dof 0 is excited, dof 0 feels the motion of
dof 1 but dof 1 does not feel the motion of dof 0. The computed motion of dof 1 is not null and does not
balance the forces. -/
theorem rao_violated : ∃ X, rao solve2 (coupled 1) none none = some X ∧
    ¬ EquationOfMotion 2 (coupled 1) ((((coupled 1).encounterOmega.getD (coupled 1).omega : ℝ)) : ℂ)
      (fun _ _ => 0) (fun _ _ => 0) X := by
  refine ⟨_, coupled_rao 1, ?_⟩
  intro h
  have := h 1 (by omega)
  simp [coupled, sum_range_succ] at this

end Verif.PostPro
