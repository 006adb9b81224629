import Verif.Green.WaveModel
import Verif.Green.NearProps
import Mathlib.Analysis.Complex.RealDeriv

/-!
# C78: the gradient of the wave part is the derivative of its value

The elementary integrals are known by a contract: the derivatives of the first and third ones at the points where they are used
are given by the fourth and fifth ones, and by the differential equation of the Green function in `z`. The derivation of the
gradient in the two variables, in deep water and in finite depth, is proved from it.
-/

namespace Verif.Green

open Verif.Geometry V3

/-! ## Specification -/

/-- `g` is the gradient at `p` of the function `F`, with complex values: the derivative of `F` along every curve through `p`. -/
def CGradient (F : V3 ℝ → ℂ) (p : V3 ℝ) (g : V3 ℂ) : Prop :=
  ∀ (γ : ℝ → V3 ℝ) (v : V3 ℝ) (τ : ℝ), γ τ = p → Speed γ v τ →
    HasDerivAt (fun t => F (γ t)) (g.x * (v.x : ℂ) + g.y * (v.y : ℂ) + g.z * (v.z : ℂ)) τ

/-- The contract of the elementary integrals at `(r, z)`. -/
def ConsistentAt (T : Tables) (r z : ℝ) : Prop :=
  ∀ (ρ ζ : ℝ → ℝ) (ρ' ζ' τ : ℝ), ρ τ = r → ζ τ = z → HasDerivAt ρ ρ' τ → HasDerivAt ζ ζ' τ →
    HasDerivAt (fun t => (⟨T.i1 (ρ t) (ζ t), T.i3 (ρ t) (ζ t)⟩ : ℂ))
      ((⟨T.i4 r z, T.i5 r z⟩ : ℂ) * (ρ' : ℂ) + ((⟨T.i1 r z, T.i3 r z⟩ : ℂ) + ((2 / hypot r z : ℝ) : ℂ)) * (ζ' : ℂ)) τ

/-- The relation between the two first elementary integrals. -/
def Paired (T : Tables) : Prop := ∀ r z, T.i2 r z = T.i1 r z + 2 / hypot r z

theorem CGradient.add {F G : V3 ℝ → ℂ} {p : V3 ℝ} {a b : V3 ℂ} (hF : CGradient F p a) (hG : CGradient G p b) :
    CGradient (fun q => F q + G q) p (a + b) := by
  intro γ v τ hγ hs
  refine ((hF γ v τ hγ hs).add (hG γ v τ hγ hs)).congr_deriv ?_
  simp
  ring

theorem CGradient.congr {F : V3 ℝ → ℂ} {p : V3 ℝ} {a b : V3 ℂ} (hF : CGradient F p a) (h : a = b) : CGradient F p b := h ▸ hF

theorem CGradient.const (c : ℂ) (p : V3 ℝ) : CGradient (fun _ => c) p 0 := by
  intro γ v τ _ _
  refine (hasDerivAt_const τ c).congr_deriv ?_
  simp

theorem CGradient.smul {F : V3 ℝ → ℂ} {p : V3 ℝ} {a : V3 ℂ} (hF : CGradient F p a) (c : ℂ) :
    CGradient (fun q => c * F q) p (c • a) := by
  intro γ v τ hγ hs
  refine ((hF γ v τ hγ hs).const_mul c).congr_deriv ?_
  simp
  ring

/-- Real gradients. -/
theorem CGradient.ofReal {F : V3 ℝ → ℝ} {p a : V3 ℝ} (hF : Gradient F p a) : CGradient (fun q => (F q : ℂ)) p (toC a) := by
  intro γ v τ hγ hs
  refine (hF γ v τ hγ hs).ofReal_comp.congr_deriv ?_
  simp [toC, V3.dot]

/-- Moving the point by a reflection through a horizontal plane. -/
theorem CGradient.bottom {F : V3 ℝ → ℂ} {p : V3 ℝ} {a : V3 ℂ} {h : ℝ} (hF : CGradient F (bottomPoint h p) a) :
    CGradient (fun q => F (bottomPoint h q)) p (flipped a) := by
  intro γ v τ hγ hs
  refine (hF (fun t => bottomPoint h (γ t)) ⟨v.x, v.y, -v.z⟩ τ (by rw [hγ])
    ⟨hs.x, hs.y, (hs.z.neg.sub_const (2 * h))⟩).congr_deriv ?_
  simp [flipped]

/-! ## One point -/

theorem radial_deriv {k τ : ℝ} {γ : ℝ → V3 ℝ} {v ξ : V3 ℝ} (hs : Speed γ v τ) (hr : radial k (γ τ) ξ ≠ 0) :
    HasDerivAt (fun t => radial k (γ t) ξ)
      (k ^ 2 * ((γ τ).x - ξ.x) / radial k (γ τ) ξ * v.x + k ^ 2 * ((γ τ).y - ξ.y) / radial k (γ τ) ξ * v.y) τ := by
  have hk : k ≠ 0 := by rintro rfl; simp [radial] at hr
  have hq : ((γ τ).x - ξ.x) ^ 2 + ((γ τ).y - ξ.y) ^ 2 ≠ 0 := by
    intro h
    apply hr
    rw [radial, h, Real.sqrt_zero, mul_zero]
  have hsq : Real.sqrt (((γ τ).x - ξ.x) ^ 2 + ((γ τ).y - ξ.y) ^ 2) ≠ 0 := by
    intro h
    apply hr
    rw [radial, h, mul_zero]
  have d := ((((hs.x.sub_const ξ.x).pow 2).add ((hs.y.sub_const ξ.y).pow 2)).sqrt hq).const_mul k
  refine d.congr_deriv ?_
  simp only [radial, Pi.add_apply, Pi.pow_apply]
  field_simp
  ring

theorem vertical_deriv {k τ : ℝ} {γ : ℝ → V3 ℝ} {v ξ : V3 ℝ} (hs : Speed γ v τ) :
    HasDerivAt (fun t => vertical k (γ t) ξ) (k * v.z) τ := (hs.z.add_const ξ.z).const_mul k

theorem hypot_ne {r z : ℝ} (hr : r ≠ 0) : r ^ 2 + z ^ 2 ≠ 0 := by positivity

/-- The derivative of `2 / r1`. -/
theorem inv_hypot_deriv {ρ ζ : ℝ → ℝ} {ρ' ζ' τ : ℝ} (hρ : HasDerivAt ρ ρ' τ) (hζ : HasDerivAt ζ ζ' τ) (h0 : ρ τ ≠ 0) :
    HasDerivAt (fun t => 2 / hypot (ρ t) (ζ t))
      (-(2 * ρ τ / hypot (ρ τ) (ζ τ) ^ 3) * ρ' - 2 * ζ τ / hypot (ρ τ) (ζ τ) ^ 3 * ζ') τ := by
  have hq : ρ τ ^ 2 + ζ τ ^ 2 ≠ 0 := hypot_ne h0
  have hs : Real.sqrt (ρ τ ^ 2 + ζ τ ^ 2) ≠ 0 := by
    rw [Real.sqrt_ne_zero']
    positivity
  have d := (((hρ.pow 2).add (hζ.pow 2)).sqrt hq)
  have d2 := (hasDerivAt_const τ (2 : ℝ)).div d hs
  refine d2.congr_deriv ?_
  simp only [hypot, Pi.add_apply, Pi.pow_apply]
  field_simp
  ring

theorem mk_add (a b c : ℝ) : (⟨a + b, c⟩ : ℂ) = ⟨a, c⟩ + (b : ℂ) := by
  apply Complex.ext
  · rw [Complex.add_re, Complex.ofReal_re]
  · rw [Complex.add_im, Complex.ofReal_im, add_zero]

/-- The term that is integrated with the reflected Rankine source in one of the variants. -/
noncomputable def missing (g : Singularities) (k : ℝ) (x ξ : V3 ℝ) : V3 ℂ :=
  match g with
  | .lowFreqWithRankinePart => ⟨0, 0, ((2 * k * (k / hypot (radial k x ξ) (vertical k x ξ)) : ℝ) : ℂ)⟩
  | _ => 0

theorem wavePoint_gradient {T : Tables} (g : Singularities) {k : ℝ} {x ξ : V3 ℝ}
    (hc : ConsistentAt T (radial k x ξ) (vertical k x ξ)) (hp : g = .highFreq → Paired T)
    (hr : 16 / 2 ^ 52 < |radial k x ξ|) :
    CGradient (fun p => (wavePoint T g k p ξ).1) x ((wavePoint T g k x ξ).2 + missing g k x ξ) := by
  intro γ v τ hγ hs
  subst hγ
  have hr0 : radial k (γ τ) ξ ≠ 0 := by
    intro h
    rw [h, abs_zero] at hr
    norm_num at hr
  have dr := radial_deriv hs hr0
  have dz : HasDerivAt (fun t => vertical k (γ t) ξ) (k * v.z) τ := vertical_deriv hs
  have d := hc _ _ _ _ τ rfl rfl dr dz
  have e : ∀ d, drdx k d (radial k (γ τ) ξ) = k ^ 2 * d / radial k (γ τ) ξ := by
    intro d
    rw [drdx, if_pos hr]
  cases g with
  | lowFreq =>
    refine (d.const_mul (k : ℂ)).congr_deriv ?_
    simp only [wavePoint, e, missing]
    generalize (⟨T.i4 _ _, T.i5 _ _⟩ : ℂ) = D
    generalize (⟨T.i1 _ _, T.i3 _ _⟩ : ℂ) = G
    simp only [add_x, add_y, add_z, smul_x, smul_y, smul_z]
    have z0 : (0 : V3 ℂ).x = 0 ∧ (0 : V3 ℂ).y = 0 ∧ (0 : V3 ℂ).z = 0 := ⟨rfl, rfl, rfl⟩
    rw [z0.1, z0.2.1, z0.2.2]
    push_cast
    ring
  | lowFreqWithRankinePart =>
    refine (d.const_mul (k : ℂ)).congr_deriv ?_
    simp only [wavePoint, e, missing]
    generalize (⟨T.i4 _ _, T.i5 _ _⟩ : ℂ) = D
    generalize (⟨T.i1 _ _, T.i3 _ _⟩ : ℂ) = G
    simp only [add_x, add_y, add_z, smul_x, smul_y, smul_z]
    push_cast
    ring
  | highFreq =>
    have hP := hp rfl
    have di := (inv_hypot_deriv dr dz hr0).ofReal_comp
    have ev : (fun t => (wavePoint T .highFreq k (γ t) ξ).1) = fun t =>
        (k : ℂ) * ((⟨T.i1 (radial k (γ t) ξ) (vertical k (γ t) ξ), T.i3 (radial k (γ t) ξ) (vertical k (γ t) ξ)⟩ : ℂ) +
          ((2 / hypot (radial k (γ t) ξ) (vertical k (γ t) ξ) : ℝ) : ℂ)) := by
      funext t
      simp only [wavePoint]
      rw [hP, mk_add]
    rw [ev]
    refine ((d.add di).const_mul (k : ℂ)).congr_deriv ?_
    simp only [wavePoint, e, missing]
    rw [hP, mk_add]
    generalize (⟨T.i4 _ _, T.i5 _ _⟩ : ℂ) = D
    generalize (⟨T.i1 _ _, T.i3 _ _⟩ : ℂ) = G
    simp only [add_x, add_y, add_z, smul_x, smul_y, smul_z]
    have z0 : (0 : V3 ℂ).x = 0 ∧ (0 : V3 ℂ).y = 0 ∧ (0 : V3 ℂ).z = 0 := ⟨rfl, rfl, rfl⟩
    rw [z0.1, z0.2.1, z0.2.2]
    push_cast
    ring

theorem radial_symm (k : ℝ) (x ξ : V3 ℝ) : radial k x ξ = radial k ξ x := by
  unfold radial
  congr 2
  ring

theorem vertical_symm (k : ℝ) (x ξ : V3 ℝ) : vertical k x ξ = vertical k ξ x := by unfold vertical; ring

theorem drdx_neg (k d r : ℝ) : drdx k (-d) r = -drdx k d r := by
  unfold drdx
  split_ifs <;> ring

/-- The two points have the same role: the value is symmetric, the horizontal components of the gradient change sign. -/
theorem wavePoint_symmetric (T : Tables) (g : Singularities) (k : ℝ) (x ξ : V3 ℝ) :
    (wavePoint T g k x ξ).1 = (wavePoint T g k ξ x).1 ∧
    (wavePoint T g k x ξ).2 = ⟨-(wavePoint T g k ξ x).2.x, -(wavePoint T g k ξ x).2.y, (wavePoint T g k ξ x).2.z⟩ := by
  have e1 : x.x - ξ.x = -(ξ.x - x.x) := by ring
  have e2 : x.y - ξ.y = -(ξ.y - x.y) := by ring
  cases g <;> (simp only [wavePoint, radial_symm k x ξ, vertical_symm k x ξ]; rw [e1, e2]; simp only [drdx_neg]) <;>
    refine ⟨by trivial, ?_⟩ <;> ext <;> simp <;> ring

theorem missing_symm (g : Singularities) (k : ℝ) (x ξ : V3 ℝ) : missing g k x ξ = missing g k ξ x := by
  cases g <;> simp [missing, radial_symm k x ξ, vertical_symm k x ξ]

/-- The change of variable of the derivative. -/
def second (n : V3 ℂ) : V3 ℂ := ⟨-n.x, -n.y, n.z⟩

theorem wavePoint_gradient_second {T : Tables} (g : Singularities) {k : ℝ} {x ξ : V3 ℝ}
    (hc : ConsistentAt T (radial k x ξ) (vertical k x ξ)) (hp : g = .highFreq → Paired T)
    (hr : 16 / 2 ^ 52 < |radial k x ξ|) :
    CGradient (fun q => (wavePoint T g k x q).1) ξ (second (wavePoint T g k x ξ).2 + missing g k x ξ) := by
  have h := wavePoint_gradient g (x := ξ) (ξ := x) (by rw [radial_symm, vertical_symm]; exact hc) hp (by rw [radial_symm]; exact hr)
  have e : (fun q => (wavePoint T g k x q).1) = fun q => (wavePoint T g k q x).1 := by
    funext q
    exact (wavePoint_symmetric T g k x q).1
  have e2 : second (wavePoint T g k x ξ).2 = (wavePoint T g k ξ x).2 := by
    rw [(wavePoint_symmetric T g k x ξ).2]
    ext <;> simp [second]
  rw [e, e2, missing_symm]
  exact h

/-! ## A panel in deep water -/

/-- The panel moved without being turned. -/
def Source.translate (s : Source) (w : V3 ℝ) : Source where
  center := s.center + w
  area := s.area
  quad := s.quad.map fun q => (q.1 + w, q.2)

theorem quadrature_eq (T : Tables) (g : Singularities) (k : ℝ) (x : V3 ℝ) (quad : List (V3 ℝ × ℝ)) :
    quadrature T g k x quad = ((quad.map fun q => (q.2 : ℂ) * (wavePoint T g k x q.1).1).sum,
      (quad.map fun q => (q.2 : ℂ) • (wavePoint T g k x q.1).2).foldr (· + ·) 0) := by
  have key : ∀ (l : List (V3 ℝ × ℝ)) (acc : ℂ × V3 ℂ),
      l.foldl (fun acc q => (acc.1 + (wavePoint T g k x q.1).1 * (q.2 : ℂ), acc.2 + (q.2 : ℂ) • (wavePoint T g k x q.1).2)) acc =
      (acc.1 + (l.map fun q => (q.2 : ℂ) * (wavePoint T g k x q.1).1).sum,
        acc.2 + (l.map fun q => (q.2 : ℂ) • (wavePoint T g k x q.1).2).foldr (· + ·) 0) := by
    intro l
    induction l with
    | nil => intro acc; ext <;> simp
    | cons q r ih =>
      intro acc
      rw [List.foldl_cons, ih]
      refine Prod.ext ?_ ?_
      · simp
        ring
      · simp only [List.map_cons, List.foldr_cons]
        ext <;> simp <;> ring
  unfold quadrature
  rw [key]
  refine Prod.ext ?_ ?_
  · simp
  · ext <;> simp

/-- The sum over the panel of the terms that are integrated with the reflected Rankine source. -/
noncomputable def missingOn (g : Singularities) (k : ℝ) (x : V3 ℝ) (quad : List (V3 ℝ × ℝ)) : V3 ℂ :=
  (quad.map fun q => (q.2 : ℂ) • missing g k x q.1).foldr (· + ·) 0

/-- The elementary integrals are consistent at all the points that are used, and the field point is not exactly above one of the
quadrature points. -/
def Fine (T : Tables) (k : ℝ) (x : V3 ℝ) (s : Source) : Prop :=
  (1e-10 < |radial k x s.center| ∨ 1e-10 < |vertical k x s.center|) ∧
  ∀ q ∈ s.quad, ConsistentAt T (radial k x q.1) (vertical k x q.1) ∧ 16 / 2 ^ 52 < |radial k x q.1|

theorem quadrature_gradient {T : Tables} (g : Singularities) {k : ℝ} {x : V3 ℝ} {quad : List (V3 ℝ × ℝ)}
    (h : ∀ q ∈ quad, ConsistentAt T (radial k x q.1) (vertical k x q.1) ∧ 16 / 2 ^ 52 < |radial k x q.1|)
    (hp : g = .highFreq → Paired T) :
    CGradient (fun p => (quadrature T g k p quad).1) x ((quadrature T g k x quad).2 + missingOn g k x quad) := by
  simp only [quadrature_eq]
  induction quad with
  | nil =>
    intro γ v τ _ _
    refine (hasDerivAt_const τ (0 : ℂ)).congr_deriv ?_
    simp [missingOn]
  | cons q r ih =>
    have h1 := (wavePoint_gradient g (h q (by simp)).1 hp (h q (by simp)).2).smul (q.2 : ℂ)
    have h2 := ih (fun a ha => h a (by simp [ha]))
    have h3 := h1.add h2
    simp only [List.map_cons, List.sum_cons, List.foldr_cons, missingOn] at h3 ⊢
    refine h3.congr ?_
    ext <;> simp <;> ring

theorem quadrature_gradient_second {T : Tables} (g : Singularities) {k : ℝ} {x : V3 ℝ} {quad : List (V3 ℝ × ℝ)}
    (h : ∀ q ∈ quad, ConsistentAt T (radial k x q.1) (vertical k x q.1) ∧ 16 / 2 ^ 52 < |radial k x q.1|)
    (hp : g = .highFreq → Paired T) :
    CGradient (fun w => (quadrature T g k x (quad.map fun q => (q.1 + w, q.2))).1) 0
      (second (quadrature T g k x quad).2 + missingOn g k x quad) := by
  simp only [quadrature_eq, List.map_map]
  induction quad with
  | nil =>
    intro γ v τ _ _
    refine (hasDerivAt_const τ (0 : ℂ)).congr_deriv ?_
    simp [missingOn, second]
  | cons q r ih =>
    have h0 := wavePoint_gradient_second g (h q (by simp)).1 hp (h q (by simp)).2
    have h0' : CGradient (fun w => (wavePoint T g k x (q.1 + w)).1) 0 (second (wavePoint T g k x q.1).2 + missing g k x q.1) := by
      intro γ v τ hγ hs
      exact h0 (fun t => q.1 + γ t) v τ (by rw [hγ]; ext <;> simp) ⟨hs.x.const_add q.1.x, hs.y.const_add q.1.y, hs.z.const_add q.1.z⟩
    have h1 := h0'.smul (q.2 : ℂ)
    have h2 := ih (fun a ha => h a (by simp [ha]))
    have h3 := h1.add h2
    simp only [List.map_cons, List.sum_cons, List.foldr_cons, missingOn, Function.comp_def] at h3 ⊢
    refine h3.congr ?_
    ext <;> simp [second] <;> ring

theorem radial_continuous {k τ : ℝ} {γ : ℝ → V3 ℝ} {v ξ : V3 ℝ} (hs : Speed γ v τ) :
    ContinuousAt (fun t => radial k (γ t) ξ) τ := by
  unfold radial
  exact continuousAt_const.mul (Real.continuous_sqrt.continuousAt.comp
    (((hs.x.continuousAt.sub continuousAt_const).pow 2).add ((hs.y.continuousAt.sub continuousAt_const).pow 2)))

/-- In deep water, for the three variants, the gradient with respect to the field point is the derivative of the value. -/
theorem waveInfinite_gradient {euler : ℝ} {T : Tables} (g : Singularities) {k : ℝ} {x : V3 ℝ} {s : Source} (h : Fine T k x s)
    (hp : g = .highFreq → Paired T) :
    CGradient (fun p => (waveInfinite euler T g k p s true).1) x ((waveInfinite euler T g k x s true).2 + missingOn g k x s.quad) := by
  have hne : ∀ y : V3 ℝ, (1e-10 < |radial k y s.center| ∨ 1e-10 < |vertical k y s.center|) →
      waveInfinite euler T g k y s true = quadrature T g k y s.quad := by
    intro y hy
    unfold waveInfinite
    simp only [if_true]
    rw [if_neg]
    rintro ⟨h1, h2⟩
    rcases hy with hy | hy <;> linarith
  rw [hne x h.1]
  intro γ v τ hγ hs
  subst hγ
  refine (quadrature_gradient g h.2 hp γ v τ rfl hs).congr_of_eventuallyEq ?_
  rcases h.1 with h1 | h1
  · filter_upwards [(radial_continuous (k := k) (ξ := s.center) hs).abs.eventually (lt_mem_nhds h1)] with t ht
    rw [hne _ (Or.inl ht)]
  · filter_upwards [(vertical_deriv (k := k) (ξ := s.center) hs).continuousAt.abs.eventually (lt_mem_nhds h1)] with t ht
    rw [hne _ (Or.inr ht)]

/-- The same when the panel is moved. -/
theorem waveInfinite_gradient_second {euler : ℝ} {T : Tables} (g : Singularities) {k : ℝ} {x : V3 ℝ} {s : Source} (h : Fine T k x s)
    (hp : g = .highFreq → Paired T) :
    CGradient (fun w => (waveInfinite euler T g k x (s.translate w) false).1) 0
      ((waveInfinite euler T g k x s false).2 + missingOn g k x s.quad) := by
  have hne : ∀ s' : Source, (1e-10 < |radial k x s'.center| ∨ 1e-10 < |vertical k x s'.center|) →
      waveInfinite euler T g k x s' false = ((quadrature T g k x s'.quad).1, second (quadrature T g k x s'.quad).2) := by
    intro y hy
    have : ¬ (|radial k x y.center| < 1e-10 ∧ |vertical k x y.center| < 1e-10) := by
      rintro ⟨h1, h2⟩
      rcases hy with hy | hy <;> linarith
    unfold waveInfinite
    simp only [if_neg this]
    rfl
  rw [hne s h.1]
  intro γ v τ hγ hs
  refine (quadrature_gradient_second g h.2 hp γ v τ hγ hs).congr_of_eventuallyEq ?_
  have hs' : Speed (fun t => s.center + γ t) v τ :=
    ⟨hs.x.const_add s.center.x, hs.y.const_add s.center.y, hs.z.const_add s.center.z⟩
  have h0 : s.center + γ τ = s.center := by rw [hγ]; ext <;> simp
  rcases h.1 with h1 | h1
  · have hc : ContinuousAt (fun t => radial k x (s.center + γ t)) τ := by
      simp only [radial_symm k x]
      exact radial_continuous hs'
    have h1' : 1e-10 < |radial k x (s.center + γ τ)| := by rw [h0]; exact h1
    filter_upwards [hc.abs.eventually (lt_mem_nhds h1')] with t ht
    have := hne (s.translate (γ t)) (Or.inl ht)
    rw [this]
    rfl
  · have hc : ContinuousAt (fun t => vertical k x (s.center + γ t)) τ := by
      simp only [vertical_symm k x]
      exact (vertical_deriv (ξ := x) hs').continuousAt
    have h1' : 1e-10 < |vertical k x (s.center + γ τ)| := by rw [h0]; exact h1
    filter_upwards [hc.abs.eventually (lt_mem_nhds h1')] with t ht
    have := hne (s.translate (γ t)) (Or.inr ht)
    rw [this]
    rfl

/-! ## Finite depth -/

theorem missingOn_low (k : ℝ) (x : V3 ℝ) (quad : List (V3 ℝ × ℝ)) : missingOn .lowFreq k x quad = 0 := by
  induction quad with
  | nil => rfl
  | cons q r ih =>
    simp only [missingOn, List.map_cons, List.foldr_cons] at ih ⊢
    rw [ih]
    ext <;> simp [missing]

theorem low_gradient {euler : ℝ} {T : Tables} {k : ℝ} {x : V3 ℝ} {s : Source} (h : Fine T k x s) :
    CGradient (fun p => (waveInfinite euler T .lowFreq k p s true).1) x (waveInfinite euler T .lowFreq k x s true).2 := by
  refine (waveInfinite_gradient .lowFreq h (by intro e; cases e)).congr ?_
  rw [missingOn_low]
  ext <;> simp

theorem low_gradient_second {euler : ℝ} {T : Tables} {k : ℝ} {x : V3 ℝ} {s : Source} (h : Fine T k x s) :
    CGradient (fun w => (waveInfinite euler T .lowFreq k x (s.translate w) false).1) 0
      (waveInfinite euler T .lowFreq k x s false).2 := by
  refine (waveInfinite_gradient_second .lowFreq h (by intro e; cases e)).congr ?_
  rw [missingOn_low]
  ext <;> simp

/-- All the images of the point and of the panel are fine. -/
structure FineFour (T : Tables) (k h : ℝ) (x : V3 ℝ) (s : Source) : Prop where
  a : Fine T k x s
  b : Fine T k (bottomPoint h x) s
  c : Fine T k x (s.bottom h)
  d : Fine T k (bottomPoint h x) (s.bottom h)

theorem waveFour_gradient {euler : ℝ} {T : Tables} {k h : ℝ} {x : V3 ℝ} {s : Source} (hf : FineFour T k h x s) :
    CGradient (fun p => (waveFour euler T k h p s true).1) x (waveFour euler T k h x s true).2 := by
  have ha := (low_gradient (euler := euler) hf.a).smul (amplitude k h : ℂ)
  have hb := (low_gradient (euler := euler) hf.b).bottom.smul (amplitude k h : ℂ)
  have hc := (low_gradient (euler := euler) hf.c).smul (amplitude k h : ℂ)
  have hd := (low_gradient (euler := euler) hf.d).bottom.smul (amplitude k h : ℂ)
  have := ((((CGradient.const 0 x).add ha).add hb).add hc).add hd
  exact this

theorem translate_bottom (s : Source) (h : ℝ) (w : V3 ℝ) : (s.translate w).bottom h = (s.bottom h).translate ⟨w.x, w.y, -w.z⟩ := by
  unfold Source.translate Source.bottom
  simp only [Source.mk.injEq, List.map_map, true_and]
  refine ⟨?_, ?_⟩
  · ext <;> simp [bottomPoint]
    ring
  · apply List.map_congr_left
    intro q _
    simp only [Function.comp, Prod.mk.injEq, and_true]
    ext <;> simp [bottomPoint]
    ring

theorem CGradient.flip {F : V3 ℝ → ℂ} {a : V3 ℂ} (hF : CGradient F 0 a) :
    CGradient (fun w => F ⟨w.x, w.y, -w.z⟩) 0 (flipped a) := by
  intro γ v τ hγ hs
  refine (hF (fun t => ⟨(γ t).x, (γ t).y, -(γ t).z⟩) ⟨v.x, v.y, -v.z⟩ τ (by simp only [hγ]; ext <;> simp)
    ⟨hs.x, hs.y, hs.z.neg⟩).congr_deriv ?_
  simp [flipped]

theorem waveFour_gradient_second {euler : ℝ} {T : Tables} {k h : ℝ} {x : V3 ℝ} {s : Source} (hf : FineFour T k h x s) :
    CGradient (fun w => (waveFour euler T k h x (s.translate w) false).1) 0 (waveFour euler T k h x s false).2 := by
  have ha := (low_gradient_second (euler := euler) hf.a).smul (amplitude k h : ℂ)
  have hb := (low_gradient_second (euler := euler) hf.b).smul (amplitude k h : ℂ)
  have hc := (low_gradient_second (euler := euler) hf.c).flip.smul (amplitude k h : ℂ)
  have hd := (low_gradient_second (euler := euler) hf.d).flip.smul (amplitude k h : ℂ)
  have := ((((CGradient.const 0 0).add ha).add hb).add hc).add hd
  simp only [← translate_bottom] at this
  exact this

/-- The shifted points of one term of the Prony decomposition are regular for the Rankine integral. -/
def RegularTerm (h : ℝ) (x : V3 ℝ) (f : Face) (t : ℝ × ℝ) : Prop :=
  ∀ c ∈ [(⟨1, h * t.1 - 2 * h⟩ : Reflection), ⟨-1, -h * t.1⟩, ⟨-1, h * t.1 - 4 * h⟩, ⟨1, -h * t.1 + 2 * h⟩],
    Regular (reflectPoint c x) f

theorem pronyTerm_gradient {h : ℝ} {x : V3 ℝ} {f : Face} {t : ℝ × ℝ} (ht : RegularTerm h x f t) {F : V3 ℝ → ℂ × V3 ℂ}
    (hF : CGradient (fun p => (F p).1) x (F x).2) :
    CGradient (fun p => (pronyTerm h p f true (F p) t).1) x (pronyTerm h x f true (F x) t).2 := by
  have r := fun c hc => (CGradient.ofReal (rankineReflected_gradient (ht c hc))).smul ((t.2 / 2 : ℝ) : ℂ)
  exact (((hF.add (r _ (by simp))).add (r _ (by simp))).add (r _ (by simp))).add (r ⟨1, -h * t.1 + 2 * h⟩ (by simp))

theorem pronyTerm_gradient_second {h : ℝ} {x : V3 ℝ} {f : Face} {t : ℝ × ℝ} (ht : RegularTerm h x f t) {F : V3 ℝ → ℂ × V3 ℂ}
    {a : ℂ × V3 ℂ} (hF : CGradient (fun w => (F w).1) 0 a.2) :
    CGradient (fun w => (pronyTerm h x (f.translate w) false (F w) t).1) 0 (pronyTerm h x f false a t).2 := by
  have r := fun c hc hc' => (CGradient.ofReal (rankineReflected_gradient_second (c := c) hc' (ht c hc))).smul ((t.2 / 2 : ℝ) : ℂ)
  exact (((hF.add (r _ (by simp) (by simp))).add (r _ (by simp) (by simp))).add (r _ (by simp) (by simp))).add
    (r ⟨1, -h * t.1 + 2 * h⟩ (by simp) (by simp))

/-- In finite depth, the gradient with respect to the field point is the derivative of the value. -/
theorem waveFinite_gradient {euler : ℝ} {T : Tables} {k h : ℝ} {prony : List (ℝ × ℝ)} {x : V3 ℝ} {f : Face}
    {quad : List (V3 ℝ × ℝ)} (hf : FineFour T k h x ⟨f.center, f.area, quad⟩) (hr : ∀ t ∈ prony, RegularTerm h x f t) :
    CGradient (fun p => (waveFinite euler T k h prony p f quad true).1) x (waveFinite euler T k h prony x f quad true).2 := by
  have key : ∀ (l : List (ℝ × ℝ)) (F : V3 ℝ → ℂ × V3 ℂ), (∀ t ∈ l, RegularTerm h x f t) →
      CGradient (fun p => (F p).1) x (F x).2 →
      CGradient (fun p => (l.foldl (pronyTerm h p f true) (F p)).1) x (l.foldl (pronyTerm h x f true) (F x)).2 := by
    intro l
    induction l with
    | nil => intro F _ hF; exact hF
    | cons t r ih =>
      intro F hl hF
      simp only [List.foldl_cons]
      exact ih (fun p => pronyTerm h p f true (F p) t) (fun u hu => hl u (by simp [hu]))
        (pronyTerm_gradient (hl t (by simp)) hF)
  exact key prony _ hr (waveFour_gradient hf)

/-- In finite depth, the gradient with respect to the panel is the derivative of the value when the panel is moved. -/
theorem waveFinite_gradient_second {euler : ℝ} {T : Tables} {k h : ℝ} {prony : List (ℝ × ℝ)} {x : V3 ℝ} {f : Face}
    {quad : List (V3 ℝ × ℝ)} (hf : FineFour T k h x ⟨f.center, f.area, quad⟩) (hr : ∀ t ∈ prony, RegularTerm h x f t) :
    CGradient (fun w => (waveFinite euler T k h prony x (f.translate w) (quad.map fun q => (q.1 + w, q.2)) false).1) 0
      (waveFinite euler T k h prony x f quad false).2 := by
  have key : ∀ (l : List (ℝ × ℝ)) (F : V3 ℝ → ℂ × V3 ℂ) (a : ℂ × V3 ℂ), (∀ t ∈ l, RegularTerm h x f t) →
      CGradient (fun w => (F w).1) 0 a.2 →
      CGradient (fun w => (l.foldl (pronyTerm h x (f.translate w) false) (F w)).1) 0 (l.foldl (pronyTerm h x f false) a).2 := by
    intro l
    induction l with
    | nil => intro F a _ hF; exact hF
    | cons t r ih =>
      intro F a hl hF
      simp only [List.foldl_cons]
      exact ih (fun w => pronyTerm h x (f.translate w) false (F w) t) _ (fun u hu => hl u (by simp [hu]))
        (pronyTerm_gradient_second (hl t (by simp)) hF)
  exact key prony (fun w => waveFour euler T k h x ((⟨f.center, f.area, quad⟩ : Source).translate w) false) _ hr
    (waveFour_gradient_second hf)

/-! ## A concrete case -/

/-- Elementary integrals that are consistent at the points used below. -/
noncomputable def demoTables : Tables where
  i1 _ z := 2 / Real.sqrt 29 / 64 * ((z + 2) * (z + 4) ^ 2 * (z + 6) ^ 2) + 2 / Real.sqrt 41 / 16 * ((z + 2) ^ 2 * (z + 4) * (z + 6) ^ 2) +
    2 / Real.sqrt 61 / 64 * ((z + 2) ^ 2 * (z + 4) ^ 2 * (z + 6))
  i2 r z := (2 / Real.sqrt 29 / 64 * ((z + 2) * (z + 4) ^ 2 * (z + 6) ^ 2) + 2 / Real.sqrt 41 / 16 * ((z + 2) ^ 2 * (z + 4) * (z + 6) ^ 2) +
    2 / Real.sqrt 61 / 64 * ((z + 2) ^ 2 * (z + 4) ^ 2 * (z + 6))) + 2 / hypot r z
  i3 _ _ := 0
  i4 _ _ := 0
  i5 _ _ := 0

theorem demo_paired : Paired demoTables := fun _ _ => rfl

theorem mk_real (a : ℝ) : (⟨a, 0⟩ : ℂ) = (a : ℂ) := rfl

theorem demo_consistent (z : ℝ) (hz : z = -2 ∨ z = -4 ∨ z = -6) : ConsistentAt demoTables 5 z := by
  intro ρ ζ ρ' ζ' τ hρ hζ _ dζ
  have a := dζ.add_const 2
  have b := dζ.add_const 4
  have c := dζ.add_const 6
  have d := ((((a.mul (b.pow 2)).mul (c.pow 2)).const_mul (2 / Real.sqrt 29 / 64)).add
    ((((a.pow 2).mul b).mul (c.pow 2)).const_mul (2 / Real.sqrt 41 / 16))).add
    ((((a.pow 2).mul (b.pow 2)).mul c).const_mul (2 / Real.sqrt 61 / 64))
  refine (HasDerivAt.congr_deriv d.ofReal_comp ?_).congr_of_eventuallyEq ?_
  · simp only [demoTables, hypot, Pi.add_apply, Pi.mul_apply, Pi.pow_apply, hζ]
    rcases hz with rfl | rfl | rfl
    · have : (5 : ℝ) ^ 2 + (-2) ^ 2 = 29 := by norm_num
      rw [this]
      simp only [mk_real]
      rw [← Complex.ofReal_add, ← Complex.ofReal_mul, ← Complex.ofReal_mul, ← Complex.ofReal_add]
      congr 1
      simp
      ring
    · have : (5 : ℝ) ^ 2 + (-4) ^ 2 = 41 := by norm_num
      rw [this]
      simp only [mk_real]
      rw [← Complex.ofReal_add, ← Complex.ofReal_mul, ← Complex.ofReal_mul, ← Complex.ofReal_add]
      congr 1
      simp
      ring
    · have : (5 : ℝ) ^ 2 + (-6) ^ 2 = 61 := by norm_num
      rw [this]
      simp only [mk_real]
      rw [← Complex.ofReal_add, ← Complex.ofReal_mul, ← Complex.ofReal_mul, ← Complex.ofReal_add]
      congr 1
      simp
      ring
  · filter_upwards with t
    apply Complex.ext
    · simp only [demoTables, Complex.ofReal_re, Pi.add_apply, Pi.mul_apply, Pi.pow_apply]
    · simp only [demoTables, Complex.ofReal_im]

theorem demo_radial (a b : ℝ) : radial 1 ⟨3, 4, a⟩ ⟨0, 0, b⟩ = 5 := by
  have : ((3 : ℝ) - 0) ^ 2 + (4 - 0) ^ 2 = 5 ^ 2 := by norm_num
  simp only [radial]
  rw [this, Real.sqrt_sq (by norm_num), one_mul]

/-- A small square seen from the distance five, in a depth of two. -/
noncomputable def smallSquare : Face where
  nodes := ![⟨-1 / 10, -1 / 10, -1⟩, ⟨1 / 10, -1 / 10, -1⟩, ⟨1 / 10, 1 / 10, -1⟩, ⟨-1 / 10, 1 / 10, -1⟩]
  center := ⟨0, 0, -1⟩
  normal := ⟨0, 0, 1⟩
  area := 1 / 25
  radius := 1 / 5

theorem demo_fine (a b : ℝ) (h : a + b = -2 ∨ a + b = -4 ∨ a + b = -6) :
    Fine demoTables 1 ⟨3, 4, a⟩ ⟨⟨0, 0, b⟩, 1 / 25, [(⟨0, 0, b⟩, 1 / 25)]⟩ := by
  refine ⟨Or.inl (by rw [demo_radial]; norm_num), ?_⟩
  intro q hq
  simp only [List.mem_singleton] at hq
  subst hq
  simp only
  rw [demo_radial]
  refine ⟨demo_consistent _ ?_, by norm_num⟩
  simpa [vertical] using h

theorem demo_fineFour : FineFour demoTables 1 2 ⟨3, 4, -1⟩ ⟨smallSquare.center, smallSquare.area, [(⟨0, 0, -1⟩, 1 / 25)]⟩ where
  a := demo_fine (-1) (-1) (by norm_num)
  b := by
    have := demo_fine (-3) (-1) (by norm_num)
    have e : bottomPoint 2 ⟨3, 4, -1⟩ = ⟨3, 4, -3⟩ := by ext <;> norm_num [bottomPoint]
    rw [e]; exact this
  c := by
    have := demo_fine (-1) (-3) (by norm_num)
    have e : bottomPoint 2 ⟨0, 0, -1⟩ = ⟨0, 0, -3⟩ := by ext <;> norm_num [bottomPoint]
    simp only [Source.bottom, List.map_cons, List.map_nil, e]
    have e' : bottomPoint 2 smallSquare.center = ⟨0, 0, -3⟩ := e
    rw [e']; exact this
  d := by
    have := demo_fine (-3) (-3) (by norm_num)
    have e : bottomPoint 2 ⟨0, 0, -1⟩ = ⟨0, 0, -3⟩ := by ext <;> norm_num [bottomPoint]
    have e2 : bottomPoint 2 ⟨3, 4, -1⟩ = ⟨3, 4, -3⟩ := by ext <;> norm_num [bottomPoint]
    simp only [Source.bottom, List.map_cons, List.map_nil, e]
    have e' : bottomPoint 2 smallSquare.center = ⟨0, 0, -3⟩ := e
    rw [e', e2]; exact this

theorem demo_regular (t : ℝ × ℝ) : RegularTerm 2 ⟨3, 4, -1⟩ smallSquare t := by
  intro c _
  have h5 : 5 ≤ V3.norm (reflectPoint c ⟨3, 4, -1⟩ - smallSquare.center) := by
    unfold V3.norm
    apply Real.le_sqrt_of_sq_le
    simp [V3.dot, reflectPoint, smallSquare]
    nlinarith [mul_self_nonneg (-c.s + c.t + 1)]
  have hr : smallSquare.radius = 1 / 5 := rfl
  exact Or.inl ⟨by rw [hr]; linarith, by norm_num; linarith⟩

/-- The hypotheses of the theorems in finite depth hold for this panel, this point and any Prony decomposition. -/
example (euler : ℝ) (prony : List (ℝ × ℝ)) :
    CGradient (fun p => (waveFinite euler demoTables 1 2 prony p smallSquare [(⟨0, 0, -1⟩, 1 / 25)] true).1) ⟨3, 4, -1⟩
      (waveFinite euler demoTables 1 2 prony ⟨3, 4, -1⟩ smallSquare [(⟨0, 0, -1⟩, 1 / 25)] true).2 :=
  waveFinite_gradient demo_fineFour fun t _ => demo_regular t


end Verif.Green
