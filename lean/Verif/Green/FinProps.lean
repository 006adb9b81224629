import Verif.Green.FinModel
import Verif.Green.RootsProps
import Mathlib.Analysis.Calculus.Deriv.Inv
import Mathlib.Analysis.SpecialFunctions.Integrals.Basic
import Mathlib.MeasureTheory.Integral.IntervalIntegral.FundThmCalculus

/-!
# C113: the gradient of the finite depth Green function FinGreen3D
-/

namespace Verif.Green.Fin

open Verif.Geometry Real

/-! ## Specification -/

/-- A wavenumber of waves at depth `h`: a root of the dispersion relation. -/
def IsWave (V h k : ℝ) : Prop := k * sinh (k * h) = V * cosh (k * h)

/-- A rate of a mode that decays along the surface. -/
def IsEvanescent (V h k : ℝ) : Prop := k * sin (k * h) = -V * cos (k * h)

/-- What is assumed of the approximations of the Bessel functions, at a point: their derivatives. -/
structure Bessel.Waves (B : Bessel) (x : ℝ) : Prop where
  j : HasDerivAt B.j0 (-B.j1 x) x
  y : HasDerivAt B.y0 (-B.y1 x) x

/-- The same for the modified function. -/
structure Bessel.Decays (B : Bessel) (x : ℝ) : Prop where
  k : HasDerivAt B.k0 (-B.k1 x) x
  k1 : ContinuousAt B.k1 x

/-- No mode is exactly at the threshold that ends the loop. -/
def NoTie (t : Grn ℝ) : Prop := |t.g| ≠ 1 / 10 ^ 6 ∧ |t.gr| ≠ 1 / 10 ^ 6 ∧ |t.gz| ≠ 1 / 10 ^ 6

/-! ## Lemmas on derivatives -/

theorem der_shift (k h z : ℝ) : HasDerivAt (fun z => k * (z + h)) k z := by
  simpa using ((hasDerivAt_id z).add_const h).const_mul k

theorem der_cosh (k h z : ℝ) : HasDerivAt (fun z => cosh (k * (z + h))) (k * sinh (k * (z + h))) z := by
  simpa [mul_comm] using (der_shift k h z).cosh

theorem der_sinh (k h z : ℝ) : HasDerivAt (fun z => sinh (k * (z + h))) (k * cosh (k * (z + h))) z := by
  simpa [mul_comm] using (der_shift k h z).sinh

theorem der_cos (k h z : ℝ) : HasDerivAt (fun z => cos (k * (z + h))) (-k * sin (k * (z + h))) z := by
  simpa [mul_comm] using (der_shift k h z).cos

theorem der_sin (k h z : ℝ) : HasDerivAt (fun z => sin (k * (z + h))) (k * cos (k * (z + h))) z := by
  simpa [mul_comm] using (der_shift k h z).sin

theorem der_scaled {f : ℝ → ℝ} {f' k r : ℝ} (hf : HasDerivAt f f' (k * r)) : HasDerivAt (fun r => f (k * r)) (k * f') r := by
  have h : HasDerivAt (fun r : ℝ => k * r) k r := by simpa using (hasDerivAt_id r).const_mul k
  simpa [mul_comm, Function.comp_def] using hf.comp r h

theorem dist_pos {r : ℝ} (hr : r ≠ 0) (d : ℝ) : 0 < dist r d := by
  unfold dist
  positivity

theorem dist_comm (r d : ℝ) : dist r (-d) = dist r d := by simp [dist]

theorem der_inv_dist {r d : ℝ} {u v : ℝ → ℝ} {u' v' t : ℝ} (hu : HasDerivAt u u' t) (hv : HasDerivAt v v' t) (e1 : u t = r)
    (e2 : v t = d) (hr : r ≠ 0) :
    HasDerivAt (fun t => 1 / dist (u t) (v t)) (-((r * u' + d * v') / dist r d / dist r d ^ 2)) t := by
  have hp := dist_pos hr d
  have h1 : HasDerivAt (fun t => u t ^ 2 + v t ^ 2) (2 * r * u' + 2 * d * v') t := by
    have := (hu.fun_pow 2).fun_add (hv.fun_pow 2)
    simpa [e1, e2] using this
  have hne : u t ^ 2 + v t ^ 2 ≠ 0 := by rw [e1, e2]; positivity
  have h2 := h1.sqrt hne
  rw [e1, e2] at h2
  have h3 := h2.fun_inv (by rw [e1, e2]; exact hp.ne')
  simp only [e1, e2] at h3
  simp only [one_div]
  refine h3.congr_deriv ?_
  show -((2 * r * u' + 2 * d * v') / (2 * dist r d)) / dist r d ^ 2 = _
  field_simp

/-! ## Lemmas on the loop -/

open Classical in
/-- The modes that the loop goes over. -/
noncomputable def usedModes (term : ℝ → Grn ℝ) : List ℝ → List ℝ
  | [] => []
  | k :: ks => if (term k).small then [k] else k :: usedModes term ks

theorem usedModes_prefix (term : ℝ → Grn ℝ) (ks : List ℝ) : usedModes term ks <+: ks := by
  induction ks with
  | nil => exact List.prefix_refl _
  | cons k ks ih =>
    unfold usedModes
    split_ifs
    · exact ⟨ks, rfl⟩
    · exact (List.prefix_cons_inj k).2 ih

theorem usedModes_congr {t t' : ℝ → Grn ℝ} {ks : List ℝ} (h : ∀ k ∈ ks, (t k).small ↔ (t' k).small) :
    usedModes t ks = usedModes t' ks := by
  induction ks with
  | nil => rfl
  | cons k ks ih =>
    unfold usedModes
    rw [ih fun k hk => h k (List.mem_cons_of_mem _ hk)]
    have e := h k List.mem_cons_self
    by_cases hs : (t k).small
    · rw [if_pos hs, if_pos (e.1 hs)]
    · rw [if_neg hs, if_neg fun h => hs (e.2 h)]

/-- The sum of the modes of a list. -/
def modeSum (f : ℝ → ℝ) (ks : List ℝ) : ℝ := (ks.map f).sum

theorem addModes_eq (term : ℝ → Grn ℝ) (acc : Grn ℂ) (ks : List ℝ) :
    addModes term acc ks = acc.plus ⟨modeSum (fun k => (term k).g) (usedModes term ks),
      modeSum (fun k => (term k).gr) (usedModes term ks), modeSum (fun k => (term k).gz) (usedModes term ks)⟩ := by
  induction ks generalizing acc with
  | nil => simp [addModes, usedModes, Grn.plus, modeSum]
  | cons k ks ih =>
    unfold addModes usedModes
    split_ifs
    · simp [Grn.plus, modeSum]
    · rw [ih]
      simp [Grn.plus, modeSum, add_assoc]

theorem der_modeSum {f : ℝ → ℝ → ℝ} {f' : ℝ → ℝ} {t : ℝ} {ks : List ℝ} (h : ∀ k ∈ ks, HasDerivAt (fun t => f t k) (f' k) t) :
    HasDerivAt (fun t => modeSum (f t) ks) (modeSum f' ks) t := by
  induction ks with
  | nil => simpa [modeSum] using hasDerivAt_const t (0 : ℝ)
  | cons k ks ih =>
    simp only [modeSum, List.map_cons, List.sum_cons]
    exact (h k List.mem_cons_self).fun_add (ih fun k hk => h k (List.mem_cons_of_mem _ hk))

theorem small_locally {f : ℝ → Grn ℝ} {t : ℝ} (h : NoTie (f t)) (h1 : ContinuousAt (fun t => (f t).g) t)
    (h2 : ContinuousAt (fun t => (f t).gr) t) (h3 : ContinuousAt (fun t => (f t).gz) t) :
    ∀ᶠ u in nhds t, (f u).small ↔ (f t).small := by
  have key : ∀ {u : ℝ → ℝ}, ContinuousAt u t → |u t| ≠ 1 / 10 ^ 6 →
      ∀ᶠ v in nhds t, |u v| < 1 / 10 ^ 6 ↔ |u t| < 1 / 10 ^ 6 := by
    intro u hu hne
    rcases lt_or_gt_of_ne hne with hl | hl
    · filter_upwards [hu.abs.eventually_lt continuousAt_const hl] with v hv
      exact iff_of_true hv hl
    · filter_upwards [continuousAt_const.eventually_lt hu.abs hl] with v hv
      exact iff_of_false (not_lt.2 hv.le) (not_lt.2 hl.le)
  filter_upwards [key h1 h.1, key h2 h.2.1, key h3 h.2.2] with v a b c
  simp only [Grn.small]
  exact and_congr a (and_congr b c)

theorem usedModes_locally {f : ℝ → ℝ → Grn ℝ} {t : ℝ} {ks : List ℝ} (h : ∀ k ∈ ks, NoTie (f t k))
    (h1 : ∀ k ∈ ks, ContinuousAt (fun t => (f t k).g) t) (h2 : ∀ k ∈ ks, ContinuousAt (fun t => (f t k).gr) t)
    (h3 : ∀ k ∈ ks, ContinuousAt (fun t => (f t k).gz) t) : ∀ᶠ u in nhds t, usedModes (f u) ks = usedModes (f t) ks := by
  have : ∀ᶠ u in nhds t, ∀ k ∈ ks, (f u k).small ↔ (f t k).small := by
    induction ks with
    | nil => simp
    | cons k ks ih =>
      have a := small_locally (f := fun t => f t k) (h k List.mem_cons_self) (h1 k List.mem_cons_self)
        (h2 k List.mem_cons_self) (h3 k List.mem_cons_self)
      have b := ih (fun k hk => h k (List.mem_cons_of_mem _ hk)) (fun k hk => h1 k (List.mem_cons_of_mem _ hk))
        (fun k hk => h2 k (List.mem_cons_of_mem _ hk)) (fun k hk => h3 k (List.mem_cons_of_mem _ hk))
      filter_upwards [a, b] with u ha hb j hj
      rcases List.mem_cons.1 hj with rfl | hj
      · exact ha
      · exact hb j hj
  filter_upwards [this] with u hu
  exact usedModes_congr hu

/-! ## Derivatives of the parts -/

theorem propagating_z (B : Bessel) (k h r zf zp : ℝ) :
    HasDerivAt (fun z => (propagating B k h r z zp).g) (propagating B k h r zf zp).gz zf := by
  have h1 : HasDerivAt (fun z => π / norm0 k h * cosh (k * (z + h)) * cosh (k * (zp + h)))
      (k * (π / norm0 k h * sinh (k * (zf + h)) * cosh (k * (zp + h)))) zf :=
    (((der_cosh k h zf).const_mul (π / norm0 k h)).mul_const (cosh (k * (zp + h)))).congr_deriv (by ring)
  have h2 := h1.ofReal_comp.mul_const (Complex.I * B.j0 (k * r) - B.y0 (k * r))
  refine h2.congr_deriv ?_
  simp only [propagating]
  push_cast
  ring

theorem propagating_r {B : Bessel} {k h r : ℝ} (hB : B.Waves (k * r)) (zf zp : ℝ) :
    HasDerivAt (fun r => (propagating B k h r zf zp).g) (propagating B k h r zf zp).gr r := by
  have hj := (der_scaled hB.j).ofReal_comp
  have hy := (der_scaled hB.y).ofReal_comp
  have h1 := ((hj.const_mul Complex.I).fun_sub hy).const_mul
    (((π / norm0 k h * cosh (k * (zf + h)) * cosh (k * (zp + h)) : ℝ) : ℂ))
  refine h1.congr_deriv ?_
  simp only [propagating]
  push_cast
  ring

theorem mode_z (B : Bessel) (h r zf zp k : ℝ) : HasDerivAt (fun z => (mode B h r z zp k).g) (mode B h r zf zp k).gz zf :=
  (((der_cos k h zf).const_mul (modeCoef k h * B.k0 (k * r))).mul_const (cos (k * (zp + h)))).congr_deriv (by
    simp only [mode]; ring)

theorem mode_r {B : Bessel} {h r k : ℝ} (hB : B.Decays (k * r)) (zf zp : ℝ) :
    HasDerivAt (fun r => (mode B h r zf zp k).g) (mode B h r zf zp k).gr r :=
  ((((der_scaled hB.k).const_mul (modeCoef k h)).mul_const (cos (k * (zf + h)))).mul_const (cos (k * (zp + h)))).congr_deriv (by
    simp only [mode]; ring)

theorem singular_z {r : ℝ} (hr : r ≠ 0) (zf zp : ℝ) :
    HasDerivAt (fun z => 1 / dist r (z - zp) + 1 / dist r (z + zp))
      (-((zf - zp) / dist r (zf - zp) / dist r (zf - zp) ^ 2 + (zf + zp) / dist r (zf + zp) / dist r (zf + zp) ^ 2)) zf := by
  have a := der_inv_dist (hasDerivAt_const zf r) ((hasDerivAt_id zf).sub_const zp) rfl rfl hr
  have b := der_inv_dist (hasDerivAt_const zf r) ((hasDerivAt_id zf).add_const zp) rfl rfl hr
  refine (a.fun_add b).congr_deriv ?_
  simp only [id]
  ring

theorem singular_r {r : ℝ} (hr : r ≠ 0) (zf zp : ℝ) :
    HasDerivAt (fun r => 1 / dist r (zf - zp) + 1 / dist r (zf + zp))
      (-(r / dist r (zf - zp) / dist r (zf - zp) ^ 2 + r / dist r (zf + zp) / dist r (zf + zp) ^ 2)) r := by
  have a := der_inv_dist (hasDerivAt_id r) (hasDerivAt_const r (zf - zp)) rfl rfl hr
  have b := der_inv_dist (hasDerivAt_id r) (hasDerivAt_const r (zf + zp)) rfl rfl hr
  refine (a.fun_add b).congr_deriv ?_
  simp only [id]
  ring

/-- The value with the modes of a given list. -/
noncomputable def eigenWith (B : Bessel) (wvn : ℕ → ℝ) (ks : List ℝ) (h r zf zp : ℝ) : Grn ℂ :=
  removeSingular ((propagating B (wvn 1) h r zf zp).plus ⟨modeSum (fun k => (mode B h r zf zp k).g) ks,
    modeSum (fun k => (mode B h r zf zp k).gr) ks, modeSum (fun k => (mode B h r zf zp k).gz) ks⟩) r zf zp

theorem eigen_eq (B : Bessel) (wvn : ℕ → ℝ) (h r zf zp : ℝ) :
    eigen B wvn h r zf zp = eigenWith B wvn (usedModes (mode B h r zf zp) (eigenRoots wvn)) h r zf zp := by
  rw [eigen, addModes_eq]
  rfl

theorem eigenWith_z (B : Bessel) (wvn : ℕ → ℝ) (ks : List ℝ) {h r : ℝ} (hr : r ≠ 0) (zf zp : ℝ) :
    HasDerivAt (fun z => (eigenWith B wvn ks h r z zp).g) (eigenWith B wvn ks h r zf zp).gz zf := by
  have a := propagating_z B (wvn 1) h r zf zp
  have b := (der_modeSum (ks := ks) fun k _ => mode_z B h r zf zp k).ofReal_comp
  have c := (singular_z hr zf zp).ofReal_comp
  refine ((a.fun_add b).fun_sub c).congr_deriv ?_
  simp only [eigenWith, removeSingular, Grn.plus]
  push_cast
  ring

theorem eigenWith_r {B : Bessel} {wvn : ℕ → ℝ} {ks : List ℝ} {h r : ℝ} (hr : r ≠ 0) (hw : B.Waves (wvn 1 * r))
    (hk : ∀ k ∈ ks, B.Decays (k * r)) (zf zp : ℝ) :
    HasDerivAt (fun r => (eigenWith B wvn ks h r zf zp).g) (eigenWith B wvn ks h r zf zp).gr r := by
  have a := propagating_r (h := h) hw zf zp
  have b := (der_modeSum (ks := ks) fun k hk' => mode_r (h := h) (hk k hk') zf zp).ofReal_comp
  have c := (singular_r hr zf zp).ofReal_comp
  refine ((a.fun_add b).fun_sub c).congr_deriv ?_
  simp only [eigenWith, removeSingular, Grn.plus]
  push_cast
  ring

/-! ## Theorems: the series -/

/-- The modes are those of the roots number 2 to 10. -/
theorem of_modes {wvn : ℕ → ℝ} {P : ℝ → Prop} (h : ∀ n, 2 ≤ n → n ≤ 10 → P (wvn n)) : ∀ k ∈ eigenRoots wvn, P k := by
  intro k hk
  simp only [eigenRoots, List.mem_map, List.mem_range] at hk
  obtain ⟨i, hi, rfl⟩ := hk
  exact h (i + 2) (by omega) (by omega)

/-- C113: the third value is the derivative of the first one along the vertical coordinate of the first point. -/
theorem eigen_vertical (B : Bessel) (wvn : ℕ → ℝ) {h r : ℝ} (hr : r ≠ 0) (zf zp : ℝ)
    (ht : ∀ n, 2 ≤ n → n ≤ 10 → NoTie (mode B h r zf zp (wvn n))) :
    HasDerivAt (fun z => (eigen B wvn h r z zp).g) (eigen B wvn h r zf zp).gz zf := by
  replace ht : ∀ k ∈ eigenRoots wvn, NoTie (mode B h r zf zp k) := of_modes (P := fun k => NoTie (mode B h r zf zp k)) ht
  have hloc := usedModes_locally (f := fun z => mode B h r z zp) (t := zf) ht
    (fun k _ => (mode_z B h r zf zp k).continuousAt)
    (fun k _ => by simp only [mode]; fun_prop) (fun k _ => by simp only [mode]; fun_prop)
  have hd := eigenWith_z B wvn (usedModes (mode B h r zf zp) (eigenRoots wvn)) (h := h) hr zf zp
  rw [eigen_eq B wvn h r zf zp]
  refine hd.congr_of_eventuallyEq ?_
  filter_upwards [hloc] with z hz
  rw [eigen_eq, hz]

/-- C113: the second value is the derivative of the first one along the horizontal distance. -/
theorem eigen_radial {B : Bessel} {wvn : ℕ → ℝ} {h r : ℝ} (hr : r ≠ 0) (hw : B.Waves (wvn 1 * r))
    (hk : ∀ n, 2 ≤ n → n ≤ 10 → B.Decays (wvn n * r)) (zf zp : ℝ)
    (ht : ∀ n, 2 ≤ n → n ≤ 10 → NoTie (mode B h r zf zp (wvn n))) :
    HasDerivAt (fun r => (eigen B wvn h r zf zp).g) (eigen B wvn h r zf zp).gr r := by
  replace hk : ∀ k ∈ eigenRoots wvn, B.Decays (k * r) := of_modes (P := fun k => B.Decays (k * r)) hk
  replace ht : ∀ k ∈ eigenRoots wvn, NoTie (mode B h r zf zp k) := of_modes (P := fun k => NoTie (mode B h r zf zp k)) ht
  have hc0 : ∀ k ∈ eigenRoots wvn, ContinuousAt (fun r => B.k0 (k * r)) r := fun k h => (der_scaled (hk k h).k).continuousAt
  have hc1 : ∀ k ∈ eigenRoots wvn, ContinuousAt (fun r => B.k1 (k * r)) r := fun k h =>
    ContinuousAt.comp (f := fun r => k * r) (hk k h).k1 (by fun_prop)
  have hloc := usedModes_locally (f := fun r => mode B h r zf zp) (t := r) ht
    (fun k h => (mode_r (hk k h) zf zp).continuousAt)
    (fun k h => by simp only [mode]; have := hc1 k h; fun_prop) (fun k h => by simp only [mode]; have := hc0 k h; fun_prop)
  have hd := eigenWith_r (h := h) (ks := usedModes (mode B h r zf zp) (eigenRoots wvn)) hr hw
    (fun k h => hk k ((usedModes_prefix _ _).subset h)) zf zp
  rw [eigen_eq B wvn h r zf zp]
  refine hd.congr_of_eventuallyEq ?_
  filter_upwards [hloc] with z hz
  rw [eigen_eq, hz]

/-- C113: with the Rankine terms of the matrices, nothing goes through the sea bottom. -/
theorem eigen_bottom (B : Bessel) (wvn : ℕ → ℝ) (h r zp : ℝ) :
    (eigen B wvn h r (-h) zp).gz = (((-h - zp) / dist r (-h - zp) / dist r (-h - zp) ^ 2 +
      (-h + zp) / dist r (-h + zp) / dist r (-h + zp) ^ 2 : ℝ) : ℂ) := by
  rw [eigen_eq]
  have h0 : ∀ ks, modeSum (fun k => (mode B h r (-h) zp k).gz) ks = 0 := by
    intro ks
    simp [modeSum, mode]
  simp [eigenWith, removeSingular, Grn.plus, propagating, h0]

/-- C113: with the Rankine terms, the condition at the free surface holds, for any number of modes. -/
theorem eigen_free_surface (B : Bessel) {wvn : ℕ → ℝ} {V h : ℝ} (r zp : ℝ) (h1 : IsWave V h (wvn 1))
    (h2 : ∀ n, 2 ≤ n → n ≤ 10 → IsEvanescent V h (wvn n)) :
    (eigen B wvn h r 0 zp).gz - (((0 - zp) / dist r (0 - zp) / dist r (0 - zp) ^ 2 +
      (0 + zp) / dist r (0 + zp) / dist r (0 + zp) ^ 2 : ℝ) : ℂ) =
    V * ((eigen B wvn h r 0 zp).g + ((1 / dist r (0 - zp) + 1 / dist r (0 + zp) : ℝ) : ℂ)) := by
  replace h2 := of_modes h2
  rw [eigen_eq]
  generalize hks : usedModes (mode B h r 0 zp) (eigenRoots wvn) = ks
  have hk : ∀ k ∈ ks, IsEvanescent V h k := fun k h => h2 k ((usedModes_prefix _ _).subset (hks ▸ h))
  have hm : modeSum (fun k => (mode B h r 0 zp k).gz) ks = V * modeSum (fun k => (mode B h r 0 zp k).g) ks := by
    clear hks h2
    induction ks with
    | nil => simp [modeSum]
    | cons k ks ih =>
      have e := hk k List.mem_cons_self
      unfold IsEvanescent at e
      have ih := ih fun k hk' => hk k (List.mem_cons_of_mem _ hk')
      simp only [modeSum, List.map_cons, List.sum_cons] at ih ⊢
      rw [ih, mul_add]
      congr 1
      simp only [mode, zero_add]
      linear_combination (-modeCoef k h * B.k0 (k * r) * cos (k * (zp + h))) * e
  have hp : (propagating B (wvn 1) h r 0 zp).gz = V * (propagating B (wvn 1) h r 0 zp).g := by
    unfold IsWave at h1
    have h1' : ((wvn 1 : ℝ) : ℂ) * ((sinh (wvn 1 * h) : ℝ) : ℂ) = (V : ℂ) * ((cosh (wvn 1 * h) : ℝ) : ℂ) := by
      exact_mod_cast h1
    simp only [propagating, zero_add, Complex.ofReal_mul]
    linear_combination ((π / norm0 (wvn 1) h : ℝ) : ℂ) * ((cosh (wvn 1 * (zp + h)) : ℝ) : ℂ) *
      (Complex.I * B.j0 (wvn 1 * r) - B.y0 (wvn 1 * r)) * h1'
  simp only [eigenWith, removeSingular, Grn.plus, hm, hp]
  push_cast
  ring

/-- The value does not change when the points are exchanged, for the same modes. -/
theorem eigenWith_symm (B : Bessel) (wvn : ℕ → ℝ) (ks : List ℝ) (h r zf zp : ℝ) :
    (eigenWith B wvn ks h r zf zp).g = (eigenWith B wvn ks h r zp zf).g := by
  have e : dist r (zf - zp) = dist r (zp - zf) := by rw [← dist_comm, neg_sub]
  have hm : modeSum (fun k => (mode B h r zf zp k).g) ks = modeSum (fun k => (mode B h r zp zf k).g) ks := by
    unfold modeSum
    congr 1
    exact List.map_congr_left fun k _ => by simp only [mode]; ring
  simp only [eigenWith, removeSingular, Grn.plus, hm, e, add_comm zf zp, propagating]
  push_cast
  ring

/-! ## Theorems: the coefficients of the series -/

/-- C113: the coefficient of the waves is that of a mode of unit norm over the depth. -/
theorem norm0_eq {k h : ℝ} (hk : k ≠ 0) (hh : h ≠ 0) : norm0 k h = ∫ z in (-h)..0, cosh (k * (z + h)) ^ 2 := by
  have hF : ∀ z : ℝ, HasDerivAt (fun z => (z + cosh (k * (z + h)) * sinh (k * (z + h)) / k) / 2) (cosh (k * (z + h)) ^ 2) z := by
    intro z
    have := ((hasDerivAt_id z).fun_add (((der_cosh k h z).fun_mul (der_sinh k h z)).div_const k)).div_const 2
    refine this.congr_deriv ?_
    have hs := cosh_sq (k * (z + h))
    field_simp
    linear_combination -hs
  rw [intervalIntegral.integral_eq_sub_of_hasDerivAt (fun z _ => hF z) (by
    apply Continuous.intervalIntegrable; fun_prop)]
  unfold norm0
  rw [show 2 * k * h = 2 * (k * h) by ring, sinh_two_mul]
  simp
  field_simp
  ring

/-- The same for the other modes. -/
theorem modeCoef_eq {k h : ℝ} (hk : k ≠ 0) (hh : h ≠ 0) : modeCoef k h = 2 / ∫ z in (-h)..0, cos (k * (z + h)) ^ 2 := by
  have hF : ∀ z : ℝ, HasDerivAt (fun z => (z + cos (k * (z + h)) * sin (k * (z + h)) / k) / 2) (cos (k * (z + h)) ^ 2) z := by
    intro z
    have := ((hasDerivAt_id z).fun_add (((der_cos k h z).fun_mul (der_sin k h z)).div_const k)).div_const 2
    refine this.congr_deriv ?_
    have hs := sin_sq_add_cos_sq (k * (z + h))
    field_simp
    linear_combination -hs
  rw [intervalIntegral.integral_eq_sub_of_hasDerivAt (fun z _ => hF z) (by
    apply Continuous.intervalIntegrable; fun_prop)]
  unfold modeCoef
  rw [show 2 * k * h = 2 * (k * h) by ring, sin_two_mul]
  simp only [zero_add, neg_add_cancel, mul_zero, cos_zero, sin_zero, zero_div, add_zero]
  have e : cos (k * h) * sin (k * h) / k / 2 - -h / 2 = h / 2 * (1 + 2 * sin (k * h) * cos (k * h) / (2 * (k * h))) := by
    field_simp
    ring
  rw [e]
  generalize 1 + 2 * sin (k * h) * cos (k * h) / (2 * (k * h)) = c
  rcases eq_or_ne c 0 with rfl | hc
  · simp
  · field_simp
    ring

/-- C113: different modes are orthogonal, by the equation that gives their rates. -/
theorem modes_orthogonal {V h k l : ℝ} (hk : IsEvanescent V h k) (hl : IsEvanescent V h l) (hne : k ^ 2 ≠ l ^ 2) :
    ∫ z in (-h)..0, cos (k * (z + h)) * cos (l * (z + h)) = 0 := by
  have hd : k ^ 2 - l ^ 2 ≠ 0 := sub_ne_zero.2 hne
  have hF : ∀ z : ℝ, HasDerivAt (fun z => (k * (sin (k * (z + h)) * cos (l * (z + h))) -
      l * (cos (k * (z + h)) * sin (l * (z + h)))) / (k ^ 2 - l ^ 2)) (cos (k * (z + h)) * cos (l * (z + h))) z := by
    intro z
    have := ((((der_sin k h z).fun_mul (der_cos l h z)).const_mul k).fun_sub
      (((der_cos k h z).fun_mul (der_sin l h z)).const_mul l)).div_const (k ^ 2 - l ^ 2)
    refine this.congr_deriv ?_
    field_simp
    ring
  rw [intervalIntegral.integral_eq_sub_of_hasDerivAt (fun z _ => hF z) (by
    apply Continuous.intervalIntegrable; fun_prop)]
  unfold IsEvanescent at hk hl
  simp only [zero_add, neg_add_cancel, mul_zero, sin_zero, cos_zero, zero_mul, sub_zero, zero_div]
  rw [div_eq_zero_iff]
  left
  linear_combination cos (l * h) * hk - cos (k * h) * hl

/-- C113: the two ways of writing the coefficients of the modes agree. -/
theorem pidcock_coef {V h k : ℝ} (hk : IsEvanescent V h k) (hk0 : k ≠ 0) (hh : h ≠ 0) :
    4 * pidcockCoef V k h = modeCoef k h := by
  unfold IsEvanescent at hk
  have hs := sin_sq_add_cos_sq (k * h)
  have hq : k ^ 2 + V ^ 2 ≠ 0 := by positivity
  have key : (k ^ 2 + V ^ 2) * (sin (k * h) * cos (k * h)) = -V * k := by
    linear_combination (k * cos (k * h) + V * sin (k * h)) * hk - V * k * hs
  unfold pidcockCoef modeCoef
  rw [show 2 * k * h = 2 * (k * h) by ring, sin_two_mul]
  have e : 1 + 2 * sin (k * h) * cos (k * h) / (2 * (k * h)) = ((k ^ 2 + V ^ 2) * h - V) / (k ^ 2 + V ^ 2) / h := by
    field_simp
    linear_combination key
  rw [e]
  rcases eq_or_ne ((k ^ 2 + V ^ 2) * h - V) 0 with h0 | h0
  · simp [h0]
  · field_simp

/-! ## Theorems: the four methods -/

theorem normC_eq (k h : ℝ) : normC h (-Complex.I * k) = (norm0 k h : ℝ) := by
  unfold normC norm0
  have e : 2 * (-Complex.I * (k : ℂ)) * h = -(((2 * k * h : ℝ) : ℂ) * Complex.I) := by push_cast; ring
  rw [e, Complex.sin_neg, Complex.sin_mul_I, neg_div_neg_eq, mul_div_mul_right _ _ Complex.I_ne_zero]
  push_cast
  rfl

/-- The imaginary part is the same for all methods. -/
theorem fingreen_im (B : Bessel) (rest : ℝ → ℝ → ℝ → Grn ℝ) (wvn : ℕ → ℝ) (h r zf zp : ℝ) :
    (fingreen B rest wvn h r zf zp).g.im =
      π / norm0 (wvn 1) h * cosh (wvn 1 * (zf + h)) * cosh (wvn 1 * (zp + h)) * B.j0 (wvn 1 * r) ∧
    (fingreen B rest wvn h r zf zp).gz.im =
      wvn 1 * (π / norm0 (wvn 1) h * sinh (wvn 1 * (zf + h)) * cosh (wvn 1 * (zp + h))) * B.j0 (wvn 1 * r) := by
  have key : ∀ a b c : ℝ, ((a : ℂ) * (Complex.I * b - c)).im = a * b := by
    intro a b c
    simp
  have n1 : ∀ c u v w n : ℝ, (-4 * (π : ℂ) * (c - Complex.I / 4 / (n : ℂ) * u * v * w)).im = π / n * v * w * u := by
    intro c u v w n
    have : -4 * (π : ℂ) * (c - Complex.I / 4 / (n : ℂ) * u * v * w) =
        ((-4 * π * c : ℝ) : ℂ) + ((π / n * v * w * u : ℝ) : ℂ) * Complex.I := by
      push_cast; ring
    rw [this]
    simp
  have n2 : ∀ c q u v w n : ℝ, (-4 * (π : ℂ) * (c - Complex.I * q / 4 / (n : ℂ) * u * v * w)).im =
      q * (π / n * v * w) * u := by
    intro c q u v w n
    have : -4 * (π : ℂ) * (c - Complex.I * q / 4 / (n : ℂ) * u * v * w) =
        ((-4 * π * c : ℝ) : ℂ) + ((q * (π / n * v * w) * u : ℝ) : ℂ) * Complex.I := by
      push_cast; ring
    rw [this]
    simp
  have c1 : (linton B (rest r zf zp) (wvn 1) h r zf zp).g.im =
      π / norm0 (wvn 1) h * cosh (wvn 1 * (zf + h)) * cosh (wvn 1 * (zp + h)) * B.j0 (wvn 1 * r) := by
    simp only [linton, normC_eq]
    exact n1 _ _ _ _ _
  have c2 : (linton B (rest r zf zp) (wvn 1) h r zf zp).gz.im =
      wvn 1 * (π / norm0 (wvn 1) h * sinh (wvn 1 * (zf + h)) * cosh (wvn 1 * (zp + h))) * B.j0 (wvn 1 * r) := by
    simp only [linton, normC_eq]
    exact n2 _ _ _ _ _ _
  have c3 : (pidcock B (rest r zf zp) (wvn 1) h r zf zp).g.im =
      π / norm0 (wvn 1) h * cosh (wvn 1 * (zf + h)) * cosh (wvn 1 * (zp + h)) * B.j0 (wvn 1 * r) := by
    simp only [pidcock, Grn.plus, Complex.add_im, key, Complex.ofReal_im, add_zero]
  have c4 : (pidcock B (rest r zf zp) (wvn 1) h r zf zp).gz.im =
      wvn 1 * (π / norm0 (wvn 1) h * sinh (wvn 1 * (zf + h)) * cosh (wvn 1 * (zp + h))) * B.j0 (wvn 1 * r) := by
    simp only [pidcock, Grn.plus, Complex.add_im, ← Complex.ofReal_mul, key, Complex.ofReal_im, add_zero]
    ring
  have c5 : (eigene B (rest r zf zp) (wvn 1) h r zf zp).g.im =
      π / norm0 (wvn 1) h * cosh (wvn 1 * (zf + h)) * cosh (wvn 1 * (zp + h)) * B.j0 (wvn 1 * r) := by
    simp only [eigene, propagating, Grn.plus, Complex.add_im, key, Complex.ofReal_im, add_zero]
  have c6 : (eigene B (rest r zf zp) (wvn 1) h r zf zp).gz.im =
      wvn 1 * (π / norm0 (wvn 1) h * sinh (wvn 1 * (zf + h)) * cosh (wvn 1 * (zp + h))) * B.j0 (wvn 1 * r) := by
    simp only [eigene, propagating, Grn.plus, Complex.add_im, ← Complex.ofReal_mul, key, Complex.ofReal_im, add_zero]
  have c7 : (eigen B wvn h r zf zp).g.im =
      π / norm0 (wvn 1) h * cosh (wvn 1 * (zf + h)) * cosh (wvn 1 * (zp + h)) * B.j0 (wvn 1 * r) := by
    rw [eigen_eq]
    simp only [eigenWith, removeSingular, propagating, Grn.plus, Complex.add_im, Complex.sub_im, key, Complex.ofReal_im,
      add_zero, sub_zero]
  have c8 : (eigen B wvn h r zf zp).gz.im =
      wvn 1 * (π / norm0 (wvn 1) h * sinh (wvn 1 * (zf + h)) * cosh (wvn 1 * (zp + h))) * B.j0 (wvn 1 * r) := by
    rw [eigen_eq]
    simp only [eigenWith, removeSingular, propagating, Grn.plus, Complex.add_im, ← Complex.ofReal_mul, key,
      Complex.ofReal_im, add_zero]
  unfold fingreen
  dsimp only
  split_ifs <;> first | exact ⟨c1, c2⟩ | exact ⟨c3, c4⟩ | exact ⟨c5, c6⟩ | exact ⟨c7, c8⟩

/-- At more than half a depth the series is used. -/
theorem fingreen_far (B : Bessel) (rest : ℝ → ℝ → ℝ → Grn ℝ) (wvn : ℕ → ℝ) {h r : ℝ} (hr : 5 / 10 ≤ |r / h|) (zf zp : ℝ) :
    fingreen B rest wvn h r zf zp = eigen B wvn h r zf zp := by
  have h0 : r ≠ 0 := by
    rintro rfl
    norm_num at hr
  unfold fingreen
  rw [if_neg (by linarith), if_neg (by linarith), if_neg (by linarith)]
  simp [h0]

/-! ## Theorems: the gradient in the matrices -/

/-- The point at another height. -/
def atHeight (x : V3 ℝ) (z : ℝ) : V3 ℝ := ⟨x.x, x.y, z⟩

theorem norm0_pos {k h : ℝ} (hk : k ≠ 0) (hh : 0 < h) : 0 < norm0 k h := by
  unfold norm0
  have : 0 < sinh (2 * k * h) / (2 * k * h) := by
    rcases lt_or_gt_of_ne hk with h1 | h1
    · have : 2 * k * h < 0 := by nlinarith
      exact div_pos_of_neg_of_neg (sinh_neg_iff.2 this) this
    · have : 0 < 2 * k * h := by positivity
      exact div_pos (sinh_pos_iff.2 this) this
  positivity

/-- C113: for the adjoint double layer, the gradient is asked at the collocation point `x`. The imaginary part of its vertical
component is right exactly when the two points are at the same height (or at a zero of the Bessel function). -/
theorem adjoint_vertical_iff (B : Bessel) (rest : ℝ → ℝ → ℝ → Grn ℝ) {wvn : ℕ → ℝ} {h : ℝ} (hk : wvn 1 ≠ 0) (hh : 0 < h)
    (x ξ : V3 ℝ) :
    HasDerivAt (fun z => (finPoint (fingreen B rest wvn h) true (atHeight x z) ξ).1.im)
      (finPoint (fingreen B rest wvn h) true x ξ).2.z.im x.z ↔ x.z = ξ.z ∨ B.j0 (wvn 1 * horizontal x ξ) = 0 := by
  have hn := (norm0_pos hk hh).ne'
  have hd : HasDerivAt (fun z => (finPoint (fingreen B rest wvn h) true (atHeight x z) ξ).1.im)
      (π / norm0 (wvn 1) h * cosh (wvn 1 * (ξ.z + h)) * (wvn 1 * sinh (wvn 1 * (x.z + h))) *
        B.j0 (wvn 1 * horizontal x ξ)) x.z := by
    have := ((der_cosh (wvn 1) h x.z).const_mul (π / norm0 (wvn 1) h * cosh (wvn 1 * (ξ.z + h)))).mul_const
      (B.j0 (wvn 1 * horizontal x ξ))
    refine this.congr_of_eventuallyEq (Filter.Eventually.of_forall fun z => ?_)
    exact (fingreen_im B rest wvn h (horizontal x ξ) ξ.z z).1
  have hv : (finPoint (fingreen B rest wvn h) true x ξ).2.z.im = _ :=
    (fingreen_im B rest wvn h (horizontal x ξ) ξ.z x.z).2
  have hs : sinh (wvn 1 * (ξ.z - x.z)) = sinh (wvn 1 * (ξ.z + h)) * cosh (wvn 1 * (x.z + h)) -
      cosh (wvn 1 * (ξ.z + h)) * sinh (wvn 1 * (x.z + h)) := by
    rw [← sinh_sub]
    congr 1
    ring
  have hiff : HasDerivAt (fun z => (finPoint (fingreen B rest wvn h) true (atHeight x z) ξ).1.im)
      (finPoint (fingreen B rest wvn h) true x ξ).2.z.im x.z ↔
      wvn 1 * (π / norm0 (wvn 1) h) * B.j0 (wvn 1 * horizontal x ξ) * sinh (wvn 1 * (ξ.z - x.z)) = 0 := by
    constructor
    · intro h'
      have e := h'.unique hd
      rw [hv] at e
      rw [hs]
      linear_combination e
    · intro h'
      rw [hs] at h'
      refine hd.congr_deriv ?_
      rw [hv]
      linear_combination -h'
  rw [hiff]
  have hp : wvn 1 * (π / norm0 (wvn 1) h) ≠ 0 := mul_ne_zero hk (div_ne_zero pi_ne_zero hn)
  rw [mul_eq_zero, mul_eq_zero, or_iff_right hp, sinh_eq_zero, mul_eq_zero, or_iff_right hk, sub_eq_zero, or_comm, eq_comm]

/-- C113: the same for the double layer, where the gradient is asked at the source `ξ`. -/
theorem direct_vertical_iff (B : Bessel) (rest : ℝ → ℝ → ℝ → Grn ℝ) {wvn : ℕ → ℝ} {h : ℝ} (hk : wvn 1 ≠ 0) (hh : 0 < h)
    (x ξ : V3 ℝ) :
    HasDerivAt (fun z => (finPoint (fingreen B rest wvn h) false x (atHeight ξ z)).1.im)
      (finPoint (fingreen B rest wvn h) false x ξ).2.z.im ξ.z ↔ x.z = ξ.z ∨ B.j0 (wvn 1 * horizontal x ξ) = 0 := by
  have hsym : horizontal ξ x = horizontal x ξ := by
    unfold horizontal
    congr 1
    ring
  have := adjoint_vertical_iff B rest hk hh ξ x
  rw [hsym, eq_comm (a := ξ.z)] at this
  rw [← this]
  have e1 : (fun z => (finPoint (fingreen B rest wvn h) false x (atHeight ξ z)).1.im) =
      fun z => (finPoint (fingreen B rest wvn h) true (atHeight ξ z) x).1.im := by
    funext z
    show (fingreen B rest wvn h (horizontal x ξ) x.z z).g.im = (fingreen B rest wvn h (horizontal ξ x) x.z z).g.im
    rw [hsym]
  have e2 : (finPoint (fingreen B rest wvn h) false x ξ).2.z.im = (finPoint (fingreen B rest wvn h) true ξ x).2.z.im := by
    show (fingreen B rest wvn h (horizontal x ξ) x.z ξ.z).gz.im = (fingreen B rest wvn h (horizontal ξ x) x.z ξ.z).gz.im
    rw [hsym]
  rw [e1, e2]

/-- C113: the vertical component is the derivative at the other point. -/
theorem vertical_other (F : ℝ → ℝ → ℝ → Grn ℂ) (x ξ : V3 ℝ)
    (h1 : HasDerivAt (fun z => (F (horizontal x ξ) z x.z).g) (F (horizontal x ξ) ξ.z x.z).gz ξ.z)
    (h2 : HasDerivAt (fun z => (F (horizontal x ξ) z ξ.z).g) (F (horizontal x ξ) x.z ξ.z).gz x.z) :
    HasDerivAt (fun z => (finPoint F true x (atHeight ξ z)).1) (finPoint F true x ξ).2.z ξ.z ∧
    HasDerivAt (fun z => (finPoint F false (atHeight x z) ξ).1) (finPoint F false x ξ).2.z x.z :=
  ⟨h1, h2⟩

theorem der_horizontal {a b : ℝ} (h : sqrt (a ^ 2 + b ^ 2) ≠ 0) {u v : ℝ → ℝ} {u' v' t : ℝ} (hu : HasDerivAt u u' t)
    (hv : HasDerivAt v v' t) (e1 : u t = a) (e2 : v t = b) :
    HasDerivAt (fun t => sqrt (u t ^ 2 + v t ^ 2)) ((a * u' + b * v') / sqrt (a ^ 2 + b ^ 2)) t := by
  have hne : u t ^ 2 + v t ^ 2 ≠ 0 := by
    rw [e1, e2]
    intro h0
    exact h (by rw [h0, sqrt_zero])
  have := ((hu.fun_pow 2).fun_add (hv.fun_pow 2)).sqrt hne
  simp only [e1, e2] at this
  refine this.congr_deriv ?_
  field_simp
  simp
  ring

/-- C113: the horizontal components are the derivatives at the right point. -/
theorem horizontal_right (F : ℝ → ℝ → ℝ → Grn ℂ) (x ξ : V3 ℝ) (hr : tiny < horizontal x ξ)
    (h1 : HasDerivAt (fun r => (F r ξ.z x.z).g) (F (horizontal x ξ) ξ.z x.z).gr (horizontal x ξ))
    (h2 : HasDerivAt (fun r => (F r x.z ξ.z).g) (F (horizontal x ξ) x.z ξ.z).gr (horizontal x ξ)) :
    HasDerivAt (fun t => (finPoint F true ⟨t, x.y, x.z⟩ ξ).1) (finPoint F true x ξ).2.x x.x ∧
    HasDerivAt (fun t => (finPoint F true ⟨x.x, t, x.z⟩ ξ).1) (finPoint F true x ξ).2.y x.y ∧
    HasDerivAt (fun t => (finPoint F false x ⟨t, ξ.y, ξ.z⟩).1) (finPoint F false x ξ).2.x ξ.x ∧
    HasDerivAt (fun t => (finPoint F false x ⟨ξ.x, t, ξ.z⟩).1) (finPoint F false x ξ).2.y ξ.y := by
  have ht : 0 < tiny := by unfold tiny; positivity
  have h0 : horizontal x ξ ≠ 0 := (ht.trans hr).ne'
  have hab : |horizontal x ξ| > tiny := by rw [abs_of_pos (ht.trans hr)]; exact hr
  have key : ∀ {R : ℝ → ℝ} {R' t : ℝ} (zf zp : ℝ),
      HasDerivAt (fun r => (F r zf zp).g) (F (horizontal x ξ) zf zp).gr (horizontal x ξ) →
      HasDerivAt R R' t → R t = horizontal x ξ →
      HasDerivAt (fun t => (F (R t) zf zp).g) ((R' : ℂ) * (F (horizontal x ξ) zf zp).gr) t := by
    intro R R' t zf zp hF' hR e
    rw [← e] at hF' ⊢
    have := HasDerivAt.scomp t hF' hR
    simpa [Function.comp_def] using this
  refine ⟨?_, ?_, ?_, ?_⟩
  · have := key ξ.z x.z h1 (der_horizontal (a := x.x - ξ.x) (b := x.y - ξ.y) h0 ((hasDerivAt_id x.x).sub_const ξ.x)
      (hasDerivAt_const _ _) rfl rfl) rfl
    refine this.congr_deriv ?_
    simp only [finPoint, if_pos hab, if_true]
    simp [horizontal]
  · have := key ξ.z x.z h1 (der_horizontal (a := x.x - ξ.x) (b := x.y - ξ.y) h0 (hasDerivAt_const _ _)
      ((hasDerivAt_id x.y).sub_const ξ.y) rfl rfl) rfl
    refine this.congr_deriv ?_
    simp only [finPoint, if_pos hab, if_true]
    simp [horizontal]
  · have := key x.z ξ.z h2 (der_horizontal (a := x.x - ξ.x) (b := x.y - ξ.y) h0 ((hasDerivAt_id ξ.x).const_sub x.x)
      (hasDerivAt_const _ _) rfl rfl) rfl
    refine this.congr_deriv ?_
    simp only [finPoint, if_pos hab, if_true]
    simp [horizontal]
  · have := key x.z ξ.z h2 (der_horizontal (a := x.x - ξ.x) (b := x.y - ξ.y) h0 (hasDerivAt_const _ _)
      ((hasDerivAt_id ξ.y).const_sub x.y) rfl rfl) rfl
    refine this.congr_deriv ?_
    simp only [finPoint, if_pos hab, if_true]
    simp [horizontal]

/-- C113: the whole gradient between points at more than half a depth: its horizontal components are the derivatives at the
requested point, and its vertical component is the derivative at the other point. -/
theorem far_gradient {B : Bessel} (rest : ℝ → ℝ → ℝ → Grn ℝ) {wvn : ℕ → ℝ} {h : ℝ} (hh : 0 < h) (x ξ : V3 ℝ)
    (hfar : h / 2 < horizontal x ξ) (hr : tiny < horizontal x ξ) (hw : B.Waves (wvn 1 * horizontal x ξ))
    (hk : ∀ n, 2 ≤ n → n ≤ 10 → B.Decays (wvn n * horizontal x ξ))
    (t1 : ∀ n, 2 ≤ n → n ≤ 10 → NoTie (mode B h (horizontal x ξ) ξ.z x.z (wvn n)))
    (t2 : ∀ n, 2 ≤ n → n ≤ 10 → NoTie (mode B h (horizontal x ξ) x.z ξ.z (wvn n))) :
    (HasDerivAt (fun t => (finPoint (fingreen B rest wvn h) true ⟨t, x.y, x.z⟩ ξ).1)
        (finPoint (fingreen B rest wvn h) true x ξ).2.x x.x ∧
      HasDerivAt (fun t => (finPoint (fingreen B rest wvn h) true ⟨x.x, t, x.z⟩ ξ).1)
        (finPoint (fingreen B rest wvn h) true x ξ).2.y x.y ∧
      HasDerivAt (fun z => (finPoint (fingreen B rest wvn h) true x (atHeight ξ z)).1)
        (finPoint (fingreen B rest wvn h) true x ξ).2.z ξ.z) ∧
    (HasDerivAt (fun t => (finPoint (fingreen B rest wvn h) false x ⟨t, ξ.y, ξ.z⟩).1)
        (finPoint (fingreen B rest wvn h) false x ξ).2.x ξ.x ∧
      HasDerivAt (fun t => (finPoint (fingreen B rest wvn h) false x ⟨ξ.x, t, ξ.z⟩).1)
        (finPoint (fingreen B rest wvn h) false x ξ).2.y ξ.y ∧
      HasDerivAt (fun z => (finPoint (fingreen B rest wvn h) false (atHeight x z) ξ).1)
        (finPoint (fingreen B rest wvn h) false x ξ).2.z x.z) := by
  have hpos : 0 < horizontal x ξ := by linarith
  have hfar' : ∀ {r : ℝ}, h / 2 < r → 5 / 10 ≤ |r / h| := by
    intro r h'
    rw [abs_of_pos (div_pos (by linarith) hh), le_div_iff₀ hh]
    linarith
  have hz : ∀ zf zp : ℝ, (∀ n, 2 ≤ n → n ≤ 10 → NoTie (mode B h (horizontal x ξ) zf zp (wvn n))) →
      HasDerivAt (fun z => (fingreen B rest wvn h (horizontal x ξ) z zp).g)
        (fingreen B rest wvn h (horizontal x ξ) zf zp).gz zf := by
    intro zf zp ht
    simp only [fingreen_far B rest wvn (hfar' hfar)]
    exact eigen_vertical B wvn hpos.ne' zf zp ht
  have hrad : ∀ zf zp : ℝ, (∀ n, 2 ≤ n → n ≤ 10 → NoTie (mode B h (horizontal x ξ) zf zp (wvn n))) →
      HasDerivAt (fun r => (fingreen B rest wvn h r zf zp).g)
        (fingreen B rest wvn h (horizontal x ξ) zf zp).gr (horizontal x ξ) := by
    intro zf zp ht
    rw [fingreen_far B rest wvn (hfar' hfar)]
    refine (eigen_radial hpos.ne' hw hk zf zp ht).congr_of_eventuallyEq ?_
    filter_upwards [lt_mem_nhds hfar] with r h'
    rw [fingreen_far B rest wvn (hfar' h')]
  obtain ⟨a, b, c, d⟩ := horizontal_right (fingreen B rest wvn h) x ξ hr (hrad _ _ t1) (hrad _ _ t2)
  obtain ⟨e, f⟩ := vertical_other (fingreen B rest wvn h) x ξ (hz _ _ t1) (hz _ _ t2)
  exact ⟨⟨a, b, e⟩, c, d, f⟩

/-- C113: the coefficients of a panel are the sums over its quadrature points. -/
theorem fin_integral (F : ℝ → ℝ → ℝ → Grn ℂ) (first : Bool) (x : V3 ℝ) (quad : List (V3 ℝ × ℝ)) :
    (finIntegral F first x quad).1 = (quad.map fun q => (finPoint F first x q.1).1 * (q.2 : ℂ)).sum ∧
    (finIntegral F first x quad).2.x = (quad.map fun q => (finPoint F first x q.1).2.x * (q.2 : ℂ)).sum ∧
    (finIntegral F first x quad).2.y = (quad.map fun q => (finPoint F first x q.1).2.y * (q.2 : ℂ)).sum ∧
    (finIntegral F first x quad).2.z = (quad.map fun q => (finPoint F first x q.1).2.z * (q.2 : ℂ)).sum := by
  have key : ∀ (l : List (V3 ℝ × ℝ)) (acc : ℂ × V3 ℂ),
      let f := l.foldl (fun acc q =>
        let t := finPoint F first x q.1
        (acc.1 + t.1 * (q.2 : ℂ), (⟨acc.2.x + t.2.x * q.2, acc.2.y + t.2.y * q.2, acc.2.z + t.2.z * q.2⟩ : V3 ℂ))) acc
      f.1 = acc.1 + (l.map fun q => (finPoint F first x q.1).1 * (q.2 : ℂ)).sum ∧
      f.2.x = acc.2.x + (l.map fun q => (finPoint F first x q.1).2.x * (q.2 : ℂ)).sum ∧
      f.2.y = acc.2.y + (l.map fun q => (finPoint F first x q.1).2.y * (q.2 : ℂ)).sum ∧
      f.2.z = acc.2.z + (l.map fun q => (finPoint F first x q.1).2.z * (q.2 : ℂ)).sum := by
    intro l
    induction l with
    | nil => intro acc; simp
    | cons q l ih =>
      intro acc
      have := ih (acc.1 + (finPoint F first x q.1).1 * (q.2 : ℂ), ⟨acc.2.x + (finPoint F first x q.1).2.x * q.2,
        acc.2.y + (finPoint F first x q.1).2.y * q.2, acc.2.z + (finPoint F first x q.1).2.z * q.2⟩)
      simp only [List.foldl_cons, List.map_cons, List.sum_cons]
      simp only [add_assoc] at this ⊢
      exact this
  have := key quad (0, ⟨0, 0, 0⟩)
  simpa [finIntegral] using this

/-! ## Cases that meet the hypotheses -/

/-- Functions with the derivatives that are asked. -/
noncomputable def exBessel : Bessel := ⟨cos, sin, sin, fun x => -cos x, fun _ => 1, fun _ => 0⟩

theorem exBessel_waves (x : ℝ) : exBessel.Waves x :=
  ⟨hasDerivAt_cos x, by simpa [exBessel] using hasDerivAt_sin x⟩

theorem exBessel_decays (x : ℝ) : exBessel.Decays x :=
  ⟨by simpa [exBessel] using hasDerivAt_const x (1 : ℝ), continuousAt_const⟩

/-- A wavenumber for the waves and the rates `π`, `2π`, ... for the modes, with a depth `1`. -/
noncomputable def exWvn : ℕ → ℝ := fun i => if i = 1 then 1 else i * π

theorem exWvn_mem {i : ℕ} (h : 2 ≤ i) : exWvn i = i * π := by
  rw [exWvn, if_neg (by omega)]

theorem exWvn_noTie {n : ℕ} (h : 2 ≤ n) (r : ℝ) : NoTie (mode exBessel 1 r (-1) 0 (exWvn n)) ∧
    NoTie (mode exBessel 1 r 0 (-1) (exWvn n)) := by
  rw [exWvn_mem h]
  have h1 : sin (2 * (n * π)) = 0 := by
    rw [show 2 * (n * π) = ((2 * n : ℕ) : ℝ) * π by push_cast; ring]
    exact sin_nat_mul_pi _
  have h2 : |cos (n * π)| = 1 := by
    rw [cos_nat_mul_pi]
    simp
  have h3 : sin (n * π) = 0 := sin_nat_mul_pi n
  constructor
  · refine ⟨?_, ?_, ?_⟩ <;> simp [mode, modeCoef, exBessel, h1, h2, h3, abs_mul] <;> norm_num
  · refine ⟨?_, ?_, ?_⟩ <;> simp [mode, modeCoef, exBessel, h1, h2, h3, abs_mul] <;> norm_num

/-- The hypotheses of `eigen_vertical`, `eigen_radial`, `horizontal_right`, `vertical_other` and `far_gradient` are met. -/
example (rest : ℝ → ℝ → ℝ → Grn ℝ) :
    HasDerivAt (fun z => (finPoint (fingreen exBessel rest exWvn 1) true ⟨1, 0, 0⟩ (atHeight ⟨0, 0, -1⟩ z)).1)
      (finPoint (fingreen exBessel rest exWvn 1) true ⟨1, 0, 0⟩ ⟨0, 0, -1⟩).2.z (-1) :=
  (far_gradient rest one_pos ⟨1, 0, 0⟩ ⟨0, 0, -1⟩ (by norm_num [horizontal]) (by norm_num [horizontal, tiny])
    (exBessel_waves _) (fun _ _ _ => exBessel_decays _) (fun _ h _ => (exWvn_noTie h _).1)
    (fun _ h _ => (exWvn_noTie h _).2)).1.2.2

/-- C113: the vertical component is not the derivative that is asked. -/
theorem vertical_violated (rest : ℝ → ℝ → ℝ → Grn ℝ) :
    ∃ (B : Bessel) (wvn : ℕ → ℝ) (h : ℝ) (x ξ : V3 ℝ), 0 < h ∧ (∀ t, B.Waves t) ∧ (∀ t, B.Decays t) ∧
      ¬ HasDerivAt (fun z => (finPoint (fingreen B rest wvn h) true (atHeight x z) ξ).1)
        (finPoint (fingreen B rest wvn h) true x ξ).2.z x.z ∧
      ¬ HasDerivAt (fun z => (finPoint (fingreen B rest wvn h) false x (atHeight ξ z)).1)
        (finPoint (fingreen B rest wvn h) false x ξ).2.z ξ.z := by
  have hc : cos (1 : ℝ) ≠ 0 := (cos_pos_of_mem_Ioo ⟨by linarith [pi_gt_three], by linarith [pi_gt_three]⟩).ne'
  have him : ∀ {f : ℝ → ℂ} {f' : ℂ} {t : ℝ}, HasDerivAt f f' t → HasDerivAt (fun t => (f t).im) f'.im t := by
    intro f f' t hf
    exact (Complex.imCLM.hasFDerivAt.comp_hasDerivAt t hf)
  have h0 : ¬ ((0 : ℝ) = -1 ∨ exBessel.j0 (exWvn 1 * horizontal ⟨1, 0, 0⟩ ⟨0, 0, -1⟩) = 0) := by
    simpa [exBessel, exWvn, horizontal] using hc
  have hw : exWvn 1 ≠ 0 := by simp [exWvn]
  refine ⟨exBessel, exWvn, 1, ⟨1, 0, 0⟩, ⟨0, 0, -1⟩, one_pos, exBessel_waves, exBessel_decays, ?_, ?_⟩
  · exact fun h' => h0 ((adjoint_vertical_iff exBessel rest hw one_pos ⟨1, 0, 0⟩ ⟨0, 0, -1⟩).1 (him h'))
  · exact fun h' => h0 ((direct_vertical_iff exBessel rest hw one_pos ⟨1, 0, 0⟩ ⟨0, 0, -1⟩).1 (him h'))

/-- Waves and modes of the same frequency: the hypotheses of `eigen_free_surface`, `modes_orthogonal` and `pidcock_coef` are
met, with as many modes as one wants. -/
theorem exFrequency : ∃ V : ℝ, 0 < V ∧ IsWave V 1 1 ∧ ∃ k : ℕ → ℝ, StrictMono k ∧ ∀ i, 0 < k i ∧ IsEvanescent V 1 (k i) := by
  have hV : 0 < tanh (1 : ℝ) := by
    rw [tanh_eq_sinh_div_cosh]
    exact div_pos (sinh_pos_iff.2 one_pos) (cosh_pos 1)
  choose k hk hu using unique_root (tanh 1) hV
  refine ⟨tanh 1, hV, ?_, k, ?_, ?_⟩
  · simp [IsWave, tanh_eq_sinh_div_cosh, (cosh_pos 1).ne']
  · refine strictMono_nat_of_lt_succ fun i => ?_
    have h1 := (hk i).1.2
    have h2 := (hk (i + 1)).1.1
    push_cast at h2
    nlinarith [pi_pos]
  · intro i
    have hp := pi_pos
    have h1 := (hk i).1.1
    have h2 := (hk i).1.2
    have hi : (0 : ℝ) ≤ i := Nat.cast_nonneg i
    have hc : cos (k i) ≠ 0 := by
      intro h0
      obtain ⟨n, hn⟩ := cos_eq_zero_iff.1 h0
      rw [hn] at h1 h2
      have a : (2 * (i : ℝ) + 1) < 2 * n + 1 := by
        by_contra hcon
        push Not at hcon
        nlinarith
      have b : (2 * (n : ℝ) + 1) < 2 * (i + 1) := by
        by_contra hcon
        push Not at hcon
        nlinarith
      have a' : (i : ℤ) < n := by
        have : (i : ℝ) < n := by linarith
        exact_mod_cast this
      have b' : 2 * n + 1 < 2 * ((i : ℤ) + 1) := by exact_mod_cast b
      omega
    refine ⟨by nlinarith, ?_⟩
    have h3 := (hk i).2
    unfold rootFun at h3
    rw [tan_eq_sin_div_cos] at h3
    unfold IsEvanescent
    rw [mul_one]
    field_simp at h3
    linarith

example : ∃ (wvn : ℕ → ℝ) (V : ℝ), 0 < V ∧ IsWave V 1 (wvn 1) ∧
    ∀ n, 2 ≤ n → n ≤ 10 → IsEvanescent V 1 (wvn n) := by
  obtain ⟨V, hV, hw, k, -, hk⟩ := exFrequency
  refine ⟨fun i => if i = 1 then 1 else k i, V, hV, by simpa using hw, fun n hn _ => ?_⟩
  simpa [show n ≠ 1 by omega] using (hk n).2

example : ∃ k l : ℝ, k ≠ l ∧ ∫ z in (-1)..0, cos (k * (z + 1)) * cos (l * (z + 1)) = 0 := by
  obtain ⟨V, -, -, k, hm, hk⟩ := exFrequency
  have h01 : k 0 < k 1 := hm one_pos
  have hp := (hk 0).1
  exact ⟨k 0, k 1, h01.ne, modes_orthogonal (hk 0).2 (hk 1).2 (by nlinarith)⟩

end Verif.Green.Fin
