import Verif.Problems.EqProps
import Verif.Frequency.SymProps
import Verif.Blocks.SolveProps

/-!
# Linearity of the forces (C13), added mass and damping (C14), lids at zero frequency (C63)
-/

namespace Verif.Problems

open Verif.Frequency Verif.Geometry Finset
open Verif.Blocks (Solves Injective)

/-! ## Ordinary value of symbolic vectors -/

/-- Ordinary vector when the symbol `"0"` is replaced by `ε` and `"∞"` by its inverse. -/
noncomputable def evalV (ε : ℂ) : SVec → (ℕ → ℂ)
  | .num v => v
  | .sym .zero v => fun i => ε * evalV ε v i
  | .sym .infty v => fun i => ε⁻¹ * evalV ε v i

/-- Homogeneous functions commute with the evaluation. -/
theorem evalV_map (f : (ℕ → ℂ) → (ℕ → ℂ)) (hf : ∀ c v, f (fun i => c * v i) = fun i => c * f v i)
    (ε : ℂ) (x : SVec) : evalV ε (SV.map f x) = f (evalV ε x) := by
  induction x with
  | num v => rfl
  | sym s v ih => cases s <;> simp only [SV.map, evalV, ih, hf]

theorem eval_map (f : (ℕ → ℂ) → ℂ) (hf : ∀ c v, f (fun i => c * v i) = c * f v)
    (ε : ℂ) (x : SVec) : (SV.map f x).eval ε = f (evalV ε x) := by
  induction x with
  | num v => rfl
  | sym s v ih => cases s <;> simp only [SV.map, evalV, SV.eval, ih, hf]

theorem evalV_smulVec (ε : ℂ) (a : SV ℂ) (x : SVec) :
    evalV ε (a.smulVec x) = fun i => a.eval ε * evalV ε x i := by
  induction a with
  | num c =>
    exact evalV_map (fun v i => c * v i) (by intro d v; funext i; ring) ε x
  | sym s v ih =>
    funext i
    cases s <;> simp only [SV.smulVec, evalV, SV.eval, ih] <;> ring

theorem matVec_smul (N : ℕ) (A : ℕ → ℕ → ℂ) (c : ℂ) (v : ℕ → ℂ) :
    matVec N A (fun i => c * v i) = fun i => c * matVec N A v i := by
  funext i
  unfold matVec
  split
  · rw [mul_sum]; exact sum_congr rfl fun j _ => by ring
  · ring

theorem force_smul (b : Body) (d : ℕ → V3 ℝ) (c : ℂ) (v : ℕ → ℂ) :
    force b d (fun i => c * v i) = c * force b d v := by
  unfold force
  rw [mul_sum]; exact sum_congr rfl fun j _ => by ring

/-- A solution found by the linear solver solves the system for the ordinary values. -/
theorem wrappedSolve_sound (N : ℕ) (K : ℕ → ℕ → ℂ) (lin : (ℕ → ℂ) → Option (ℕ → ℂ))
    (hlin : ∀ b x, lin b = some x → Solves N N K x b) (bc x : SVec)
    (h : wrappedSolve lin bc = some x) (ε : ℂ) : Solves N N K (evalV ε x) (evalV ε bc) := by
  cases bc with
  | num v =>
    simp only [wrappedSolve, Option.map_eq_some_iff] at h
    obtain ⟨y, hy, rfl⟩ := h
    exact hlin v y hy
  | sym s v =>
    cases v with
    | sym s' v' => simp [wrappedSolve] at h
    | num v =>
      simp only [wrappedSolve, Option.map_eq_some_iff] at h
      obtain ⟨y, hy, rfl⟩ := h
      intro r hr
      have := hlin v y hy r hr
      cases s <;> simp only [evalV] <;> rw [← this, mul_sum] <;>
        exact sum_congr rfl fun j _ => by ring

/-- The system determines the solution. -/
theorem solves_linear {N : ℕ} {K : ℕ → ℕ → ℂ} (hK : Injective N N K) {x1 x2 x3 b1 b2 b3 : ℕ → ℂ}
    (α β : ℂ) (h1 : Solves N N K x1 b1) (h2 : Solves N N K x2 b2) (h3 : Solves N N K x3 b3)
    (hb : ∀ i, i < N → b3 i = α * b1 i + β * b2 i) :
    ∀ i, i < N → x3 i = α * x1 i + β * x2 i := by
  intro i hi
  have := hK (fun i => x3 i - (α * x1 i + β * x2 i)) (by
    intro r hr
    have e1 := h1 r hr
    have e2 := h2 r hr
    have e3 := h3 r hr
    have : ∑ c ∈ range N, K r c * (x3 c - (α * x1 c + β * x2 c)) =
        ∑ c ∈ range N, K r c * x3 c - (α * ∑ c ∈ range N, K r c * x1 c +
          β * ∑ c ∈ range N, K r c * x2 c) := by
      rw [mul_sum, mul_sum, ← sum_add_distrib, ← sum_sub_distrib]
      exact sum_congr rfl fun j _ => by ring
    rw [this, e1, e2, e3, hb r hr]
    ring) i hi
  exact sub_eq_zero.1 this

/-! ## Linearity -/

/-- The frequency, when symbols have a value. -/
noncomputable def omegaAt (ε : ℂ) (q : Quantity) : ℂ := (quantitySV (fun x => (x : ℂ)) q).eval ε

theorem radiationBC_eval (b : Base) (hs : b.speed = 0) (name : String) (dof : ℕ → V3 ℝ) (bc : SVec)
    (h : radiationBC b name dof = .ok bc) (ε : ℂ) :
    evalV ε bc = fun i => -Complex.I * omegaAt ε b.enc.omega * dofDotN b.body dof i := by
  have h' : bc = (SV.numMul (-Complex.I) (quantitySV (fun x => (x : ℂ)) b.enc.omega)).smulVec
      (.num (dofDotN b.body dof)) := by
    unfold radiationBC at h
    simp only [hs, ne_eq, not_true_eq_false, if_false] at h
    split at h
    · cases h
    · rename_i v hv
      rw [Except.ok.inj hv]
      exact (Except.ok.inj h).symm
    · rename_i s v hv
      split at h
      · rw [Except.ok.inj hv]
        exact (Except.ok.inj h).symm
      · cases h
  rw [h', evalV_smulVec]
  funext i
  rw [eval_numMul]
  rfl

theorem solveIndirect_eval (S : ℕ → ℕ → ℂ) (lin) (grad) (p : Problem) (hs : p.base.speed = 0)
    (sol : Solution) (h : solveIndirect S lin grad p = some sol) :
    ∃ sources, wrappedSolve lin p.bc = some sources ∧ sol.sources = some sources ∧
      sol.potential = SV.map (matVec p.base.body.total S) sources ∧
      sol.pressure = ((SV.numMul Complex.I (quantitySV (fun x => (x : ℂ)) p.base.freq.omega)).mul
        (.num (p.base.rho : ℂ))).smulVec sol.potential ∧
      sol.forces = p.base.body.dofs.map fun d => (d.1, SV.map (force p.base.body d.2) sol.pressure) := by
  unfold solveIndirect at h
  simp only [hs, ne_eq, not_true_eq_false, if_false, solveOmega] at h
  cases hw : wrappedSolve lin p.bc with
  | none => rw [hw] at h; simp at h
  | some sources =>
    rw [hw] at h
    simp only [Option.some.injEq] at h
    subst h
    exact ⟨sources, rfl, rfl, rfl, rfl, rfl⟩

theorem solveDirect_eval (S : ℕ → ℕ → ℂ) (lin) (p : Problem)
    (sol : Solution) (h : solveDirect S lin p = some sol) :
    wrappedSolve lin (SV.map (matVec p.base.body.total S) p.bc) = some sol.potential ∧
      sol.sources = none ∧
      sol.pressure = ((SV.numMul Complex.I (quantitySV (fun x => (x : ℂ)) p.base.freq.omega)).mul
        (.num (p.base.rho : ℂ))).smulVec sol.potential ∧
      sol.forces = p.base.body.dofs.map fun d => (d.1, SV.map (force p.base.body d.2) sol.pressure) := by
  have hs : p.base.speed = 0 := by
    by_contra hne
    unfold solveDirect at h
    simp [hne] at h
  unfold solveDirect at h
  simp only [hs, ne_eq, not_true_eq_false, if_false, solveOmega] at h
  cases hw : wrappedSolve lin (SV.map (matVec p.base.body.total S) p.bc) with
  | none => rw [hw] at h; simp at h
  | some potential =>
    rw [hw] at h
    simp only [Option.some.injEq] at h
    subst h
    exact ⟨rfl, rfl, rfl, rfl⟩

theorem dofDotN_linear (b : Body) (d1 d2 d3 : ℕ → V3 ℝ) (α β : ℝ)
    (hd : ∀ i, i < b.n → d3 i = α • d1 i + β • d2 i) (i : ℕ) :
    dofDotN b d3 i = α * dofDotN b d1 i + β * dofDotN b d2 i := by
  unfold dofDotN
  split
  · rename_i hi
    rw [hd i hi]
    simp only [V3.dot, V3.add_x, V3.add_y, V3.add_z, V3.smul_x, V3.smul_y, V3.smul_z]
    push_cast
    ring
  · ring

theorem force_congr (b : Body) (d : ℕ → V3 ℝ) {p q : ℕ → ℂ} (h : ∀ i, i < b.n → p i = q i) :
    force b d p = force b d q := by
  unfold force
  exact sum_congr rfl fun i hi => by rw [h i (mem_range.1 hi)]

theorem force_linear (b : Body) (d : ℕ → V3 ℝ) (α β : ℂ) (p q : ℕ → ℂ) :
    force b d (fun i => α * p i + β * q i) = α * force b d p + β * force b d q := by
  unfold force
  rw [mul_sum, mul_sum, ← sum_add_distrib]
  exact sum_congr rfl fun i _ => by ring

theorem matVec_linear (N : ℕ) (A : ℕ → ℕ → ℂ) (α β : ℂ) {x y z : ℕ → ℂ}
    (h : ∀ i, i < N → z i = α * x i + β * y i) (i : ℕ) :
    matVec N A z i = α * matVec N A x i + β * matVec N A y i := by
  unfold matVec
  split
  · rw [mul_sum, mul_sum, ← sum_add_distrib]
    exact sum_congr rfl fun j hj => by rw [h j (mem_range.1 hj)]; ring
  · ring

/-- **C13, radiating dof, partial.** Without forward speed, when the motion of the third problem is the
combination `α d₁ + β d₂` of the motions of the first two ones, then the pressure and the force on each
influenced dof are the same combination; this holds for ordinary frequencies as well as for symbolic
ones (for every value `ε` of the symbol). `K` is the matrix of the linear system, on which the only
assumption is that it is injective; `lin` any linear solver. Missing: forward speed, see
`radiation_speed_violated`. -/
theorem radiation_linear_partial (S K : ℕ → ℕ → ℂ) (lin) (grad) (b : Base) (hs : b.speed = 0)
    (hlin : ∀ v x, lin v = some x → Solves b.body.total b.body.total K x v)
    (hK : Injective b.body.total b.body.total K) (d1 d2 d3 : ℕ → V3 ℝ) (n1 n2 n3 : String) (α β : ℝ)
    (hd : ∀ i, i < b.body.n → d3 i = α • d1 i + β • d2 i) (bc1 bc2 bc3 : SVec)
    (h1 : radiationBC b n1 d1 = .ok bc1) (h2 : radiationBC b n2 d2 = .ok bc2)
    (h3 : radiationBC b n3 d3 = .ok bc3) (s1 s2 s3 : Solution)
    (e1 : solveIndirect S lin grad ⟨b, .radiation n1, bc1⟩ = some s1)
    (e2 : solveIndirect S lin grad ⟨b, .radiation n2, bc2⟩ = some s2)
    (e3 : solveIndirect S lin grad ⟨b, .radiation n3, bc3⟩ = some s3) (ε : ℂ) :
    (∀ i, i < b.body.total →
      evalV ε s3.pressure i = α * evalV ε s1.pressure i + β * evalV ε s2.pressure i) ∧
    ∀ j (hj : j < b.body.dofs.length), ∃ f1 f2 f3,
      s1.forces[j]? = some ((b.body.dofs[j]'hj).1, f1) ∧
      s2.forces[j]? = some ((b.body.dofs[j]'hj).1, f2) ∧
      s3.forces[j]? = some ((b.body.dofs[j]'hj).1, f3) ∧
      f3.eval ε = α * f1.eval ε + β * f2.eval ε := by
  obtain ⟨x1, a1, b1, c1, p1, g1⟩ := solveIndirect_eval S lin grad _ hs s1 e1
  obtain ⟨x2, a2, b2, c2, p2, g2⟩ := solveIndirect_eval S lin grad _ hs s2 e2
  obtain ⟨x3, a3, b3, c3, p3, g3⟩ := solveIndirect_eval S lin grad _ hs s3 e3
  have r1 := wrappedSolve_sound _ K lin hlin _ _ a1 ε
  have r2 := wrappedSolve_sound _ K lin hlin _ _ a2 ε
  have r3 := wrappedSolve_sound _ K lin hlin _ _ a3 ε
  have hx := solves_linear hK (α := α) (β := β) r1 r2 r3 (by
    intro i _
    simp only [radiationBC_eval b hs n1 d1 bc1 h1 ε, radiationBC_eval b hs n2 d2 bc2 h2 ε,
      radiationBC_eval b hs n3 d3 bc3 h3 ε, dofDotN_linear b.body d1 d2 d3 α β hd i]
    ring)
  have hp : ∀ i, evalV ε s3.pressure i = α * evalV ε s1.pressure i + β * evalV ε s2.pressure i := by
    intro i
    have q : ∀ (s : Solution) (x : SVec),
        s.potential = SV.map (matVec b.body.total S) x →
        s.pressure = ((SV.numMul Complex.I (quantitySV (fun x => (x : ℂ)) b.freq.omega)).mul
          (.num (b.rho : ℂ))).smulVec s.potential →
        evalV ε s.pressure i = ((SV.numMul Complex.I (quantitySV (fun x => (x : ℂ)) b.freq.omega)).mul
          (.num (b.rho : ℂ))).eval ε * matVec b.body.total S (evalV ε x) i := by
      intro s x hc hpr
      rw [hpr, evalV_smulVec, hc, evalV_map _ (matVec_smul _ S)]
    rw [q s1 x1 c1 p1, q s2 x2 c2 p2, q s3 x3 c3 p3, matVec_linear _ S α β hx i]
    ring
  refine ⟨fun i _ => hp i, ?_⟩
  intro j hj
  refine ⟨SV.map (force b.body (b.body.dofs[j]'hj).2) s1.pressure,
    SV.map (force b.body (b.body.dofs[j]'hj).2) s2.pressure,
    SV.map (force b.body (b.body.dofs[j]'hj).2) s3.pressure, ?_, ?_, ?_, ?_⟩
  · rw [g1]; simp [hj]
  · rw [g2]; simp [hj]
  · rw [g3]; simp [hj]
  · rw [eval_map _ (force_smul _ _), eval_map _ (force_smul _ _), eval_map _ (force_smul _ _),
      ← force_linear]
    exact force_congr _ _ fun i _ => hp i

/-- **C13, radiating dof, direct method.** The same with the direct method, where the linear system is
`K φ = S b`. This method refuses problems with forward speed. -/
theorem radiation_linear_direct (S K : ℕ → ℕ → ℂ) (lin) (b : Base)
    (hlin : ∀ v x, lin v = some x → Solves b.body.total b.body.total K x v)
    (hK : Injective b.body.total b.body.total K) (d1 d2 d3 : ℕ → V3 ℝ) (n1 n2 n3 : String) (α β : ℝ)
    (hd : ∀ i, i < b.body.n → d3 i = α • d1 i + β • d2 i) (bc1 bc2 bc3 : SVec)
    (h1 : radiationBC b n1 d1 = .ok bc1) (h2 : radiationBC b n2 d2 = .ok bc2)
    (h3 : radiationBC b n3 d3 = .ok bc3) (s1 s2 s3 : Solution)
    (e1 : solveDirect S lin ⟨b, .radiation n1, bc1⟩ = some s1)
    (e2 : solveDirect S lin ⟨b, .radiation n2, bc2⟩ = some s2)
    (e3 : solveDirect S lin ⟨b, .radiation n3, bc3⟩ = some s3) (ε : ℂ) :
    (∀ i, i < b.body.total →
      evalV ε s3.pressure i = α * evalV ε s1.pressure i + β * evalV ε s2.pressure i) ∧
    ∀ j (hj : j < b.body.dofs.length), ∃ f1 f2 f3,
      s1.forces[j]? = some ((b.body.dofs[j]'hj).1, f1) ∧
      s2.forces[j]? = some ((b.body.dofs[j]'hj).1, f2) ∧
      s3.forces[j]? = some ((b.body.dofs[j]'hj).1, f3) ∧
      f3.eval ε = α * f1.eval ε + β * f2.eval ε := by
  have hs : b.speed = 0 := by
    by_contra hne
    unfold solveDirect at e1
    simp [hne] at e1
  obtain ⟨a1, c1, p1, g1⟩ := solveDirect_eval S lin _ s1 e1
  obtain ⟨a2, c2, p2, g2⟩ := solveDirect_eval S lin _ s2 e2
  obtain ⟨a3, c3, p3, g3⟩ := solveDirect_eval S lin _ s3 e3
  have r1 := wrappedSolve_sound _ K lin hlin _ _ a1 ε
  have r2 := wrappedSolve_sound _ K lin hlin _ _ a2 ε
  have r3 := wrappedSolve_sound _ K lin hlin _ _ a3 ε
  rw [evalV_map _ (matVec_smul _ S)] at r1 r2 r3
  have hx := solves_linear hK (α := α) (β := β) r1 r2 r3 (by
    intro i _
    refine matVec_linear _ S α β ?_ i
    intro i _
    simp only [radiationBC_eval b hs n1 d1 bc1 h1 ε, radiationBC_eval b hs n2 d2 bc2 h2 ε,
      radiationBC_eval b hs n3 d3 bc3 h3 ε, dofDotN_linear b.body d1 d2 d3 α β hd i]
    ring)
  have hp : ∀ i, i < b.body.total →
      evalV ε s3.pressure i = α * evalV ε s1.pressure i + β * evalV ε s2.pressure i := by
    intro i hi
    rw [p1, p2, p3, evalV_smulVec, evalV_smulVec, evalV_smulVec]
    beta_reduce
    rw [hx i hi]
    ring
  refine ⟨hp, ?_⟩
  intro j hj
  refine ⟨SV.map (force b.body (b.body.dofs[j]'hj).2) s1.pressure,
    SV.map (force b.body (b.body.dofs[j]'hj).2) s2.pressure,
    SV.map (force b.body (b.body.dofs[j]'hj).2) s3.pressure, ?_, ?_, ?_, ?_⟩
  · rw [g1]; simp [hj]
  · rw [g2]; simp [hj]
  · rw [g3]; simp [hj]
  · rw [eval_map _ (force_smul _ _), eval_map _ (force_smul _ _), eval_map _ (force_smul _ _),
      ← force_linear]
    exact force_congr _ _ fun i hi => hp i (by unfold Body.total; omega)

/-- **C13, influenced dof.** Whatever the pressure, the force on a combination of dofs is the
combination of the forces. -/
theorem influenced_linear (b : Body) (e1 e2 e3 : ℕ → V3 ℝ) (α β : ℝ)
    (hd : ∀ i, i < b.n → e3 i = α • e1 i + β • e2 i) (pressure : SVec) (ε : ℂ) :
    (SV.map (force b e3) pressure).eval ε = α * (SV.map (force b e1) pressure).eval ε +
      β * (SV.map (force b e2) pressure).eval ε := by
  rw [eval_map _ (force_smul _ _), eval_map _ (force_smul _ _), eval_map _ (force_smul _ _)]
  unfold force
  rw [mul_sum, mul_sum, ← sum_add_distrib]
  refine sum_congr rfl fun i hi => ?_
  rw [hd i (mem_range.1 hi)]
  simp only [V3.dot, V3.add_x, V3.add_y, V3.add_z, V3.smul_x, V3.smul_y, V3.smul_z]
  push_cast
  ring

/-! ### A concrete case: one panel, `K` and `S` the identity -/

/-- One horizontal panel whose dofs are twice the same motion, the second one doubled. The names differ
by case only. -/
noncomputable def pitchBody : Body :=
  { oid := 1, name := "panel", n := 1, lid := 0, center := fun _ => ⟨0, 0, 0⟩,
    normal := fun _ => ⟨0, 0, 1⟩, area := fun _ => 1,
    dofs := [("Pitch", fun _ => ⟨0, 0, 1⟩), ("pitch", fun _ => ⟨0, 0, 2⟩)] }

/-- Identity matrix. -/
def idMat : ℕ → ℕ → ℂ := fun i j => if i = j then 1 else 0

/-- The solver for the identity matrix. -/
def idSolve : (ℕ → ℂ) → Option (ℕ → ℂ) := some

theorem idSolve_sound (N : ℕ) (v x : ℕ → ℂ) (h : idSolve v = some x) : Solves N N idMat x v := by
  intro r hr
  simp only [idSolve, Option.some.injEq] at h
  subst h
  simp [idMat, hr]

theorem idMat_injective (N : ℕ) : Injective N N idMat := by
  intro y h c hc
  have := h c hc
  simpa [idMat, hc] using this

/-- The hypotheses of `radiation_linear_partial` are met by this body, without forward speed. -/
example : ∃ bc1 bc2 s1 s2,
    radiationBC (unitBase pitchBody 0 0 1) "Pitch" (fun _ => ⟨0, 0, 1⟩) = .ok bc1 ∧
    radiationBC (unitBase pitchBody 0 0 1) "pitch" (fun _ => ⟨0, 0, 2⟩) = .ok bc2 ∧
    solveIndirect idMat idSolve idMat ⟨unitBase pitchBody 0 0 1, .radiation "Pitch", bc1⟩ = some s1 ∧
    solveIndirect idMat idSolve idMat ⟨unitBase pitchBody 0 0 1, .radiation "pitch", bc2⟩ = some s2 ∧
    (∀ _ : ℕ, (⟨0, 0, 2⟩ : V3 ℝ) = (2 : ℝ) • ⟨0, 0, 1⟩ + (0 : ℝ) • ⟨0, 0, 1⟩) := by
  have hbc : ∀ (name : String) (d : ℕ → V3 ℝ), radiationBC (unitBase pitchBody 0 0 1) name d =
      .ok (.num fun i => -Complex.I * ((1 : ℝ) : ℂ) * dofDotN pitchBody d i) := by
    intro name d
    simp [radiationBC, unitBase, quantitySV, SV.numMul, SV.smulVec, SV.map]
  refine ⟨_, _, _, _, hbc _ _, hbc _ _, rfl, rfl, ?_⟩
  intro _
  ext <;> simp

/-- The direct method also solves these problems. -/
example (v : ℕ → ℂ) : ∃ s, solveDirect idMat idSolve
    ⟨unitBase pitchBody 0 0 1, .radiation "Pitch", .num v⟩ = some s := by
  unfold solveDirect
  simp [unitBase, SV.map, wrappedSolve, idSolve]

/-- **C13 is violated with forward speed**: the term due to forward speed is chosen by the name of the
dof and does not depend on the motion. A body with a motion called `Pitch` and the double of this
motion called `pitch` gets a force for the second one which is not the double of the first one. -/
theorem radiation_speed_violated : ∃ bc1 bc2 s1 s2 f1 f2,
    radiationBC (unitBase pitchBody (1 / 2) 0 (1 / 2)) "Pitch" (fun _ => ⟨0, 0, 1⟩) = .ok bc1 ∧
    radiationBC (unitBase pitchBody (1 / 2) 0 (1 / 2)) "pitch" (fun _ => ⟨0, 0, 2⟩) = .ok bc2 ∧
    solveIndirect idMat idSolve (fun _ _ => 0)
      ⟨unitBase pitchBody (1 / 2) 0 (1 / 2), .radiation "Pitch", bc1⟩ = some s1 ∧
    solveIndirect idMat idSolve (fun _ _ => 0)
      ⟨unitBase pitchBody (1 / 2) 0 (1 / 2), .radiation "pitch", bc2⟩ = some s2 ∧
    s1.forces[0]? = some ("Pitch", .num f1) ∧ s2.forces[0]? = some ("Pitch", .num f2) ∧ f2 ≠ 2 * f1 := by
  have hd1 : ddofdxDotN "Pitch" pitchBody = some fun i => ((pitchBody.normal i).z : ℂ) := by
    unfold ddofdxDotN; rw [if_pos (by decide)]
  have hd2 : ddofdxDotN "pitch" pitchBody = some fun i => ((pitchBody.normal i).z : ℂ) := by
    unfold ddofdxDotN; rw [if_pos (by decide)]
  have hbc : ∀ (name : String) (d : ℕ → V3 ℝ),
      ddofdxDotN name pitchBody = some (fun i => ((pitchBody.normal i).z : ℂ)) →
      radiationBC (unitBase pitchBody (1 / 2) 0 (1 / 2)) name d = .ok (.num fun i =>
        -Complex.I * (((1 / 2 : ℝ)) : ℂ) * dofDotN pitchBody d i +
          if i < pitchBody.n then (((1 / 2 : ℝ)) : ℂ) * ((pitchBody.normal i).z : ℂ) else 0) := by
    intro name d h
    have h' : ddofdxDotN name (unitBase pitchBody (1 / 2) 0 (1 / 2)).body =
      some (fun i => ((pitchBody.normal i).z : ℂ)) := h
    unfold radiationBC
    simp only [h']
    simp [unitBase, quantitySV, SV.numMul, SV.smulVec, SV.map, concretize]
  have hsol : ∀ (name : String) (v : ℕ → ℂ), ∃ s,
      solveIndirect idMat idSolve (fun _ _ => 0)
        ⟨unitBase pitchBody (1 / 2) 0 (1 / 2), .radiation name, .num v⟩ = some s ∧
      s.forces[0]? = some ("Pitch", .num (Complex.I * (1 / 2) * v 0 * (-1))) := by
    intro name v
    refine ⟨_, rfl, ?_⟩
    simp only [unitBase, pitchBody, List.map_cons, List.getElem?_cons_zero]
    simp [SV.map, force, concretize, matVec, Body.total, idMat, SV.smulVec, quantitySV, SV.numMul,
      SV.mul, solveOmega, V3.dot]
  obtain ⟨s1, hs1, hf1⟩ := hsol "Pitch" (fun i =>
        -Complex.I * (((1 / 2 : ℝ)) : ℂ) * dofDotN pitchBody (fun _ => ⟨0, 0, 1⟩) i +
          if i < pitchBody.n then (((1 / 2 : ℝ)) : ℂ) * ((pitchBody.normal i).z : ℂ) else 0)
  obtain ⟨s2, hs2, hf2⟩ := hsol "pitch" (fun i =>
        -Complex.I * (((1 / 2 : ℝ)) : ℂ) * dofDotN pitchBody (fun _ => ⟨0, 0, 2⟩) i +
          if i < pitchBody.n then (((1 / 2 : ℝ)) : ℂ) * ((pitchBody.normal i).z : ℂ) else 0)
  refine ⟨_, _, s1, s2, _, _, hbc "Pitch" _ hd1, hbc "pitch" _ hd2, hs1, hs2, hf1, hf2, ?_⟩
  intro hc
  have := congrArg Complex.im hc
  simp [dofDotN, pitchBody, V3.dot] at this
  try norm_num at this

/-! ## Added mass and damping -/

/-- **C14, ordinary frequencies.** The force is recovered from the coefficients. -/
theorem force_recovered (F : ℂ) (w speed : ℝ) (hw : w ≠ 0) : ∃ A B : ℝ,
    addedMass (.num F) (.real w) = .fin A ∧ radiationDamping (.num F) (.real w) speed = .fin B ∧
    F = (w : ℂ) ^ 2 * A + Complex.I * w * B := by
  refine ⟨F.re / (w * w), F.im / w, rfl, ?_, ?_⟩
  · simp [radiationDamping, symbolic, SV.map, quantitySV, SV.div, SV.numDiv, SV.toFloat]
  · apply Complex.ext
    · have : F.re = w ^ 2 * (F.re / (w * w)) := by field_simp
      simp only [Complex.add_re, Complex.mul_re, Complex.I_re, Complex.I_im, Complex.ofReal_re,
        Complex.ofReal_im, Complex.mul_im]
      rw [← Complex.ofReal_pow, Complex.ofReal_re, Complex.ofReal_im]
      linarith
    · have : F.im = w * (F.im / w) := by field_simp
      simp only [Complex.add_im, Complex.mul_re, Complex.I_re, Complex.I_im, Complex.ofReal_re,
        Complex.ofReal_im, Complex.mul_im]
      rw [← Complex.ofReal_pow, Complex.ofReal_re, Complex.ofReal_im]
      linarith

/-- **C14, zero and infinite frequencies.** For every radiation problem at zero or infinite
frequency and every dof, the added mass is a finite number `A` and the damping is zero. Moreover `A` is
what the definition `Re F / ω²` gives for any ordinary frequency put in place of the symbol (with the
same influence matrices). -/
theorem symbolic_coefficients (newton) (a : Args) (hspeed : a.speed = 0) (body : Body)
    (d : Option String) (p : Problem) (hp : mkRadiation newton a body d = .ok p)
    (hsym : symbolic p.base.freq.omega = true) (S : ℕ → ℕ → ℂ) (lin) (grad) (sol : Solution)
    (h : solveIndirect S lin grad p = some sol) (name : String) (F : SV ℂ)
    (hF : (name, F) ∈ sol.forces) :
    ∃ A : ℝ, addedMass F p.base.enc.omega = .fin A ∧
      radiationDamping F p.base.enc.omega p.base.speed = .fin 0 ∧
      ∀ ε : ℝ, ε ≠ 0 → A = (F.eval (ε : ℂ)).re / (omegaAt ε p.base.enc.omega ^ 2).re := by
  unfold mkRadiation at hp
  cases hb : base newton a body with
  | error e => rw [hb] at hp; simp at hp
  | ok b =>
    rw [hb] at hp
    simp only at hp
    split at hp
    · cases hp
    · split at hp
      · cases hp
      · rename_i dof hdof
        split at hp
        · cases hp
        · rename_i bc hbc
          simp only [Except.ok.injEq] at hp
          subst hp
          have hb' : b.speed = 0 ∧ b.enc.omega = b.freq.omega := by
            unfold base at hb
            split at hb
            · cases hb
            · split at hb
              · cases hb
              · split at hb
                · cases hb
                · split at hb
                  · cases hb
                  · rw [hspeed, encounter_no_speed] at hb
                    simp only [Except.ok.injEq] at hb
                    rw [← hb]
                    exact ⟨rfl, rfl⟩
          obtain ⟨hs, he⟩ := hb'
          simp only at hsym ⊢
          rw [he, hs]
          obtain ⟨sy, hq⟩ : ∃ sy : Symb, ∀ {F : Type} [One F] (r : ℝ → F),
              quantitySV r b.freq.omega = .sym sy (.num 1) := by
            cases hom : b.freq.omega with
            | real x => rw [hom] at hsym; simp [symbolic] at hsym
            | zero => exact ⟨.zero, fun _ => rfl⟩
            | infty => exact ⟨.infty, fun _ => rfl⟩
          have hbc' : bc = .sym sy (.num fun i => -Complex.I * 1 * dofDotN b.body dof i) := by
            unfold radiationBC at hbc
            simp only [hs, he, ne_eq, not_true_eq_false, if_false, hq, SV.numMul, SV.smulVec, SV.map]
              at hbc
            split at hbc
            · exact (Except.ok.inj hbc).symm
            · cases hbc
          obtain ⟨x, a1, a2, a3, a4, a5⟩ := solveIndirect_eval S lin grad _ hs sol h
          simp only [hbc', wrappedSolve, Option.map_eq_some_iff] at a1
          obtain ⟨y, hy, rfl⟩ := a1
          simp only [hq, SV.map] at a3 a4
          rw [a5, a4, a3] at hF
          simp only [SV.numMul, SV.mul, SV.smulVec, SV.map, List.mem_map, Prod.mk.injEq] at hF
          obtain ⟨e, _, _, rfl⟩ := hF
          generalize force b.body e.2 _ = G
          refine ⟨G.re, ?_, ?_, ?_⟩
          · simp [addedMass, SV.map, hq, SV.mul, SV.numMul, SV.div, SV.numDiv, SV.toFloat]
          · simp [radiationDamping, hsym]
          · intro ε hε
            have hε' : (ε : ℂ) ≠ 0 := by exact_mod_cast hε
            unfold omegaAt
            rw [hq]
            cases sy
            · simp only [SV.eval, mul_one]
              rw [← mul_assoc, ← Complex.ofReal_mul, Complex.re_ofReal_mul, ← Complex.ofReal_pow,
                Complex.ofReal_re]
              field_simp
            · simp only [SV.eval, mul_one]
              rw [← mul_assoc, ← Complex.ofReal_inv, ← Complex.ofReal_mul, Complex.re_ofReal_mul,
                ← Complex.ofReal_pow, Complex.ofReal_re]
              field_simp

/-! ## Bodies with a lid at zero or infinite frequency -/

/-- Zero frequency. -/
noncomputable def zeroArgs : Args :=
  { freeSurface := ((0 : ℝ) : Input), waterDepth := none, seaBottom := none,
    omega := some ((0 : ℝ) : Input), period := none, wavenumber := none, wavelength := none,
    speed := 0, rho := 1, g := 1, direction := 0 }

theorem zero_base (newton) (body : Body) (hn : body.n ≠ 0) : base newton zeroArgs body =
    .ok ⟨body, ((0 : ℝ) : Input), ⊤, ⟨.zero, .infty, .zero, .infty, .omega⟩,
      ⟨.zero, .infty, .zero, .infty, 0⟩, 0, 1, 1, 0⟩ := by
  refine base_ok newton zeroArgs body ⊤ ⟨.zero, .infty, .zero, .infty, .omega⟩
    ⟨.zero, .infty, .zero, .infty, 0⟩ unit_depth ?_ (by simp [zeroArgs]) hn ?_
  · simp only [getFrequencies, frequenciesFrom, zeroArgs]
    rw [if_neg (by simp), if_pos (by simp)]
  · change encounter newton 1 ⊤ _ 0 0 = _
    rw [encounter_no_speed]

theorem zero_problem (newton) (body : Body) (hn : body.n ≠ 0) (hlid : body.lid = 0) (name : String)
    (dof : ℕ → V3 ℝ) (rest) (hd : body.dofs = (name, dof) :: rest) :
    ∃ p, mkRadiation newton zeroArgs body none = .ok p ∧ symbolic p.base.freq.omega = true := by
  unfold mkRadiation
  rw [zero_base newton body hn]
  simp only [hd, Option.getD_none, List.lookup_cons_self]
  simp only [radiationBC, quantitySV, SV.numMul, SV.smulVec, SV.map, ne_eq, not_true_eq_false, if_false,
    hlid, if_true]
  exact ⟨_, rfl, rfl⟩

/-- The hypotheses of `symbolic_coefficients` are met. -/
example (newton) : ∃ p sol, mkRadiation newton zeroArgs panelBody none = .ok p ∧
    symbolic p.base.freq.omega = true ∧ solveIndirect idMat idSolve idMat p = some sol ∧
    sol.forces.length = 1 := by
  obtain ⟨p, hp, hs⟩ := zero_problem newton panelBody (by simp [panelBody]) rfl "Surge" _ [] rfl
  have : ∃ s v, p.bc = .sym s (.num v) ∧ p.base.body = panelBody := by
    unfold mkRadiation at hp
    rw [zero_base newton panelBody (by simp [panelBody])] at hp
    have hl : panelBody.dofs.lookup "Surge" = some fun _ => ⟨1, 0, 0⟩ := rfl
    have hd : panelBody.dofs = [("Surge", fun _ => ⟨1, 0, 0⟩)] := rfl
    simp only [hd, Option.getD_none, List.lookup_cons_self] at hp
    simp only [radiationBC, quantitySV, SV.numMul, SV.smulVec, SV.map, ne_eq, not_true_eq_false, if_false]
      at hp
    rw [show panelBody.lid = 0 from rfl] at hp
    simp only [if_true, Except.ok.injEq] at hp
    rw [← hp]
    exact ⟨_, _, rfl, rfl⟩
  obtain ⟨s, v, hbc, hbody⟩ := this
  have hw : wrappedSolve idSolve p.bc = some (.sym s (.num v)) := by rw [hbc]; rfl
  have hsol : ∃ sol, solveIndirect idMat idSolve idMat p = some sol ∧ sol.forces.length = 1 := by
    unfold solveIndirect
    simp only [hw]
    exact ⟨_, rfl, by simp [hbody, panelBody]⟩
  obtain ⟨sol, h1, h2⟩ := hsol
  exact ⟨p, sol, hp, hs, h1, h2⟩

/-- **C63 is violated**: a radiation problem at zero frequency for a body with a lid is refused with an
error, whereas it is accepted for the same body without lid. -/
theorem lid_zero_frequency_violated (newton) :
    (∃ p, mkRadiation newton zeroArgs panelBody none = .ok p) ∧
    mkRadiation newton zeroArgs { panelBody with lid := 1 } none = .error .lidWithSymbol := by
  refine ⟨?_, ?_⟩
  · obtain ⟨p, hp, _⟩ := zero_problem newton panelBody (by simp [panelBody]) rfl "Surge" _ [] rfl
    exact ⟨p, hp⟩
  · unfold mkRadiation
    rw [zero_base newton _ (by simp [panelBody])]
    have hd : panelBody.dofs = [("Surge", fun _ => ⟨1, 0, 0⟩)] := rfl
    simp only [hd, Option.getD_none, List.lookup_cons_self]
    simp only [radiationBC, quantitySV, SV.numMul, SV.smulVec, SV.map, ne_eq, not_true_eq_false, if_false]
    rfl

/-- **C63, partial.** Without lid, the problem is accepted for every body with panels and dofs. -/
theorem zero_frequency_partial (newton) (body : Body) (hn : body.n ≠ 0) (hlid : body.lid = 0)
    (hd : body.dofs ≠ []) : ∃ p, mkRadiation newton zeroArgs body none = .ok p := by
  obtain ⟨⟨name, dof⟩, rest, h⟩ := List.exists_cons_of_ne_nil hd
  obtain ⟨p, hp, _⟩ := zero_problem newton body hn hlid name dof rest h
  exact ⟨p, hp⟩

end Verif.Problems
