import Verif.Green.CoeffProps

/-!
# C79: the variants of the Green function

The three values of `gf_singularities` are three ways to split the same function: they give the same matrices, up to the way in
which the reflected source is integrated on the panel. In finite depth this fails for the last of them.
-/

namespace Verif.Green

open Verif.Geometry V3

/-- The coefficients in deep water for a wavenumber which is neither zero nor infinite. -/
noncomputable def deepCoeffs (g : Singularities) : ℝ × ℝ × ℝ := match g with
  | .highFreq => (1, -1, 1)
  | _ => (1, 1, 1)

/-- They are those which are selected. -/
theorem deepCoeffs_selected (g : Singularities) {k : ℝ} (hk : k ≠ 0) :
    call (.delhommeau g) ⟨0, ⊤, (k : WithTop ℝ), false⟩ = .ok ⟨deepCoeffs g, ⊤⟩ := by
  have h0 : (k : WithTop ℝ) ≠ 0 := by
    intro h
    exact hk (WithTop.coe_injective (h : (k : WithTop ℝ) = ((0 : ℝ) : WithTop ℝ)))
  have h1 : (k : WithTop ℝ) ≠ ⊤ := WithTop.coe_ne_top
  simp only [call, delhommeauCall]
  rw [if_neg zero_ne_top']
  cases g <;> simp [bind, Except.bind, deepCoeffs, h0]

/-- The integral of the source reflected in the free surface, computed with the quadrature points. -/
noncomputable def reflectedQuadrature (x : V3 ℝ) (first : Bool) (quad : List (V3 ℝ × ℝ)) : ℝ × V3 ℝ :=
  quad.foldr (fun q acc => ((onePointReflected x q.1 q.2 first ⟨-1, 0⟩).1 + acc.1, (onePointReflected x q.1 q.2 first ⟨-1, 0⟩).2 + acc.2))
    (0, 0)

theorem hypot_norm {k : ℝ} (hk : 0 < k) (x ξ : V3 ℝ) :
    hypot (radial k x ξ) (vertical k x ξ) = k * V3.norm (ξ - reflectPoint ⟨-1, 0⟩ x) := by
  have e : radial k x ξ ^ 2 + vertical k x ξ ^ 2 =
      k ^ 2 * V3.dot (ξ - reflectPoint ⟨-1, 0⟩ x) (ξ - reflectPoint ⟨-1, 0⟩ x) := by
    unfold radial vertical
    rw [mul_pow, Real.sq_sqrt (by positivity)]
    simp [V3.dot, reflectPoint]
    ring
  unfold hypot V3.norm
  rw [e, Real.sqrt_mul (sq_nonneg k), Real.sqrt_sq hk.le]

theorem drdx_far {k d r : ℝ} (h : 16 / 2 ^ 52 < |r|) : drdx k d r = k ^ 2 * d / r := if_pos h

/-- The variants at one point. -/
theorem wavePoint_high {T : Tables} (hp : Paired T) {k : ℝ} (hk : 0 < k) {x ξ : V3 ℝ} (hr : 16 / 2 ^ 52 < |radial k x ξ|)
    (hd : 1e-7 < V3.norm (ξ - reflectPoint ⟨-1, 0⟩ x)) :
    (wavePoint T .highFreq k x ξ).1 = (wavePoint T .lowFreq k x ξ).1 + ((2 * (onePointReflected x ξ 1 true ⟨-1, 0⟩).1 : ℝ) : ℂ) ∧
    (wavePoint T .highFreq k x ξ).2 =
      (wavePoint T .lowFreq k x ξ).2 + (2 : ℂ) • toC (onePointReflected x ξ 1 true ⟨-1, 0⟩).2 := by
  have hd0 : 0 < V3.norm (ξ - reflectPoint ⟨-1, 0⟩ x) := lt_trans (by norm_num) hd
  have hr0 : radial k x ξ ≠ 0 := by
    intro h
    rw [h, abs_zero] at hr
    norm_num at hr
  have hy := hypot_norm hk x ξ
  have hv : vertical k x ξ = k * (x.z + ξ.z) := rfl
  simp only [onePointReflected, onePoint, if_pos hd, wavePoint, hp _ _, reflectGradient, if_true, drdx_far hr, hy, mk_add]
  generalize hdd : V3.norm (ξ - reflectPoint ⟨-1, 0⟩ x) = d at *
  generalize hrr : radial k x ξ = r at *
  generalize (⟨T.i1 _ _, T.i3 _ _⟩ : ℂ) = G
  generalize (⟨T.i4 _ _, T.i5 _ _⟩ : ℂ) = D
  have kc : (k : ℂ) ≠ 0 := by exact_mod_cast hk.ne'
  have dc : (d : ℂ) ≠ 0 := by exact_mod_cast hd0.ne'
  have rc : (r : ℂ) ≠ 0 := by exact_mod_cast hr0
  refine ⟨?_, ?_⟩
  · push_cast
    field_simp
  · rw [hv]
    ext
    all_goals
      simp [toC, reflectPoint]
      field_simp
      ring

theorem wavePoint_withRankine {T : Tables} {k : ℝ} (hk : 0 < k) {x ξ : V3 ℝ} (hd : 1e-7 < V3.norm (ξ - reflectPoint ⟨-1, 0⟩ x)) :
    (wavePoint T .lowFreqWithRankinePart k x ξ).1 = (wavePoint T .lowFreq k x ξ).1 ∧
    (wavePoint T .lowFreq k x ξ).2 = (wavePoint T .lowFreqWithRankinePart k x ξ).2 +
      (⟨0, 0, ((2 * k * (onePointReflected x ξ 1 true ⟨-1, 0⟩).1 : ℝ) : ℂ)⟩ : V3 ℂ) := by
  have hd0 : 0 < V3.norm (ξ - reflectPoint ⟨-1, 0⟩ x) := lt_trans (by norm_num) hd
  have hy := hypot_norm hk x ξ
  simp only [onePointReflected, onePoint, if_pos hd, wavePoint, hy]
  generalize V3.norm (ξ - reflectPoint ⟨-1, 0⟩ x) = d at *
  have kc : (k : ℂ) ≠ 0 := by exact_mod_cast hk.ne'
  have dc : (d : ℂ) ≠ 0 := by exact_mod_cast hd0.ne'
  refine ⟨trivial, ?_⟩
  ext
  · simp
  · simp
  · simp
    field_simp

theorem onePoint_area (x ξ : V3 ℝ) (w : ℝ) : (onePointReflected x ξ w true ⟨-1, 0⟩).1 = w * (onePointReflected x ξ 1 true ⟨-1, 0⟩).1 ∧
    (onePointReflected x ξ w true ⟨-1, 0⟩).2 = w • (onePointReflected x ξ 1 true ⟨-1, 0⟩).2 := by
  simp only [onePointReflected, onePoint, reflectGradient, if_true]
  split_ifs
  · refine ⟨by ring, ?_⟩
    ext <;> simp <;> ring
  · refine ⟨by simp, ?_⟩
    ext <;> simp

/-- The points are not too close to the image of the field point, and it is not exactly above one of them. -/
def Apart (k : ℝ) (x : V3 ℝ) (quad : List (V3 ℝ × ℝ)) : Prop :=
  ∀ q ∈ quad, 16 / 2 ^ 52 < |radial k x q.1| ∧ 1e-7 < V3.norm (q.1 - reflectPoint ⟨-1, 0⟩ x)

theorem quadrature_high {T : Tables} (hp : Paired T) {k : ℝ} (hk : 0 < k) {x : V3 ℝ} {quad : List (V3 ℝ × ℝ)} (h : Apart k x quad) :
    (quadrature T .highFreq k x quad).1 = (quadrature T .lowFreq k x quad).1 + ((2 * (reflectedQuadrature x true quad).1 : ℝ) : ℂ) ∧
    (quadrature T .highFreq k x quad).2 =
      (quadrature T .lowFreq k x quad).2 + (2 : ℂ) • toC (reflectedQuadrature x true quad).2 := by
  rw [quadrature_eq, quadrature_eq]
  induction quad with
  | nil =>
    refine ⟨by simp [reflectedQuadrature], ?_⟩
    ext <;> simp [reflectedQuadrature, toC]
  | cons q r ih =>
    obtain ⟨i1, i2⟩ := ih (fun q' hq => h q' (List.mem_cons_of_mem _ hq))
    obtain ⟨h1, h2⟩ := h q (by simp)
    obtain ⟨w1, w2⟩ := wavePoint_high hp hk h1 h2
    obtain ⟨a1, a2⟩ := onePoint_area x q.1 q.2
    simp only at i1 i2
    simp only [List.map_cons, List.sum_cons, List.foldr_cons]
    rw [i1, i2, w1, w2]
    have e : reflectedQuadrature x true (q :: r) =
      ((onePointReflected x q.1 q.2 true ⟨-1, 0⟩).1 + (reflectedQuadrature x true r).1,
        (onePointReflected x q.1 q.2 true ⟨-1, 0⟩).2 + (reflectedQuadrature x true r).2) := rfl
    rw [e, a1, a2]
    refine ⟨by push_cast; ring, ?_⟩
    ext <;> simp [toC] <;> ring

theorem quadrature_withRankine {T : Tables} {k : ℝ} (hk : 0 < k) {x : V3 ℝ} {quad : List (V3 ℝ × ℝ)} (h : Apart k x quad) :
    (quadrature T .lowFreqWithRankinePart k x quad).1 = (quadrature T .lowFreq k x quad).1 ∧
    (quadrature T .lowFreq k x quad).2 = (quadrature T .lowFreqWithRankinePart k x quad).2 +
      (⟨0, 0, ((2 * k * (reflectedQuadrature x true quad).1 : ℝ) : ℂ)⟩ : V3 ℂ) := by
  rw [quadrature_eq, quadrature_eq]
  induction quad with
  | nil =>
    refine ⟨by simp, ?_⟩
    ext <;> simp [reflectedQuadrature]
  | cons q r ih =>
    obtain ⟨i1, i2⟩ := ih (fun q' hq => h q' (List.mem_cons_of_mem _ hq))
    obtain ⟨w1, w2⟩ := wavePoint_withRankine (T := T) hk (h q (by simp)).2
    obtain ⟨a1, a2⟩ := onePoint_area x q.1 q.2
    simp only at i1 i2
    simp only [List.map_cons, List.sum_cons, List.foldr_cons]
    rw [i1, i2, w1, w2]
    have e : (reflectedQuadrature x true (q :: r)).1 =
      (onePointReflected x q.1 q.2 true ⟨-1, 0⟩).1 + (reflectedQuadrature x true r).1 := rfl
    rw [e, a1]
    refine ⟨rfl, ?_⟩
    ext <;> simp <;> ring

theorem reflectedQuadrature_second (x : V3 ℝ) (quad : List (V3 ℝ × ℝ)) :
    (reflectedQuadrature x false quad).1 = (reflectedQuadrature x true quad).1 ∧
    toC (reflectedQuadrature x false quad).2 = second (toC (reflectedQuadrature x true quad).2) := by
  induction quad with
  | nil =>
    refine ⟨rfl, ?_⟩
    ext <;> simp [reflectedQuadrature, toC, second]
  | cons q r ih =>
    have e (b) : reflectedQuadrature x b (q :: r) = ((onePointReflected x q.1 q.2 b ⟨-1, 0⟩).1 + (reflectedQuadrature x b r).1,
        (onePointReflected x q.1 q.2 b ⟨-1, 0⟩).2 + (reflectedQuadrature x b r).2) := rfl
    obtain ⟨i1, i2⟩ := ih
    rw [e, e]
    refine ⟨by simp only [i1]; rfl, ?_⟩
    have ix := congrArg V3.x i2
    have iy := congrArg V3.y i2
    have iz := congrArg V3.z i2
    simp only [toC, second] at ix iy iz
    have hneg : ¬ ((-1 : ℝ) > 0) := by norm_num
    ext
    · simp [toC, second, onePointReflected, reflectGradient, ix]
      ring
    · simp [toC, second, onePointReflected, reflectGradient, iy]
      ring
    · simp only [add_z, toC, second, onePointReflected, reflectGradient, if_true, Bool.false_eq_true, if_false, if_neg hneg]
      push_cast
      rw [iz]

theorem wave_high {euler : ℝ} {T : Tables} (hp : Paired T) {k : ℝ} (hk : 0 < k) {x : V3 ℝ} {s : Source} (h : Apart k x s.quad)
    (hs : ¬ (|radial k x s.center| < 1e-10 ∧ |vertical k x s.center| < 1e-10)) (first : Bool) :
    (waveInfinite euler T .highFreq k x s first).1 =
      (waveInfinite euler T .lowFreq k x s first).1 + ((2 * (reflectedQuadrature x first s.quad).1 : ℝ) : ℂ) ∧
    (waveInfinite euler T .highFreq k x s first).2 =
      (waveInfinite euler T .lowFreq k x s first).2 + (2 : ℂ) • toC (reflectedQuadrature x first s.quad).2 := by
  obtain ⟨h1, h2⟩ := quadrature_high hp hk h
  unfold waveInfinite
  simp only [if_neg hs]
  cases first with
  | true => exact ⟨h1, h2⟩
  | false =>
    obtain ⟨r1, r2⟩ := reflectedQuadrature_second x s.quad
    rw [r1, r2, h1, h2]
    refine ⟨rfl, ?_⟩
    ext <;> simp [second] <;> ring

theorem wave_withRankine {euler : ℝ} {T : Tables} {k : ℝ} (hk : 0 < k) {x : V3 ℝ} {s : Source} (h : Apart k x s.quad)
    (hs : ¬ (|radial k x s.center| < 1e-10 ∧ |vertical k x s.center| < 1e-10)) (first : Bool) :
    (waveInfinite euler T .lowFreqWithRankinePart k x s first).1 = (waveInfinite euler T .lowFreq k x s first).1 ∧
    (waveInfinite euler T .lowFreq k x s first).2 = (waveInfinite euler T .lowFreqWithRankinePart k x s first).2 +
      (⟨0, 0, ((2 * k * (reflectedQuadrature x first s.quad).1 : ℝ) : ℂ)⟩ : V3 ℂ) := by
  obtain ⟨h1, h2⟩ := quadrature_withRankine (T := T) hk h
  unfold waveInfinite
  simp only [if_neg hs]
  cases first with
  | true => exact ⟨h1, h2⟩
  | false =>
    rw [(reflectedQuadrature_second x s.quad).1, h1, h2]
    refine ⟨rfl, ?_⟩
    ext <;> simp

/-! ## Deep water -/

section Deep

variable {euler : ℝ} {T : Tables} {m : FiniteDepth} {prony : List (ℝ × ℝ)} {k : ℝ} {n1 n2 : ℕ} {points : ℕ → V3 ℝ}
  {panels : ℕ → Face} {quads : ℕ → List (V3 ℝ × ℝ)} {normals : ℕ → V3 ℝ} {same adjoint early : Bool} {i j : ℕ}

/-- What separates the first variant from the second one: the quadrature of the reflected source instead of its integral. -/
theorem variants_high (hp : Paired T) (hk : 0 < k) (h : Apart k (points i) (quads j))
    (hs : ¬ (|radial k (points i) (panels j).center| < 1e-10 ∧ |vertical k (points i) (panels j).center| < 1e-10)) :
    specS (delhommeauInputs euler T .highFreq m prony none k (deepCoeffs .highFreq) n1 n2 points panels quads normals same adjoint
      early) i j -
    specS (delhommeauInputs euler T .lowFreq m prony none k (deepCoeffs .lowFreq) n1 n2 points panels quads normals same adjoint
      early) i j =
      2 / (-4 * (Real.pi : ℂ)) * (((reflectedQuadrature (points i) adjoint (quads j)).1 : ℂ) -
        ((rankineReflected (points i) (panels j) adjoint ⟨-1, 0⟩).1 : ℂ)) ∧
    specGradient (delhommeauInputs euler T .highFreq m prony none k (deepCoeffs .highFreq) n1 n2 points panels quads normals same
      adjoint early) i j -
    specGradient (delhommeauInputs euler T .lowFreq m prony none k (deepCoeffs .lowFreq) n1 n2 points panels quads normals same
      adjoint early) i j =
      (2 / (-4 * (Real.pi : ℂ))) • (toC (reflectedQuadrature (points i) adjoint (quads j)).2 -
        toC (rankineReflected (points i) (panels j) adjoint ⟨-1, 0⟩).2) := by
  obtain ⟨h1, h2⟩ := wave_high (euler := euler) (s := ⟨(panels j).center, (panels j).area, quads j⟩) hp hk h hs adjoint
  constructor
  · simp only [specS, specReflections, delhommeauInputs, Inputs.coeff, deepCoeffs]
    rw [h1]
    simp
    ring
  · unfold specGradient
    rw [show specAngle (delhommeauInputs euler T .highFreq m prony none k (deepCoeffs .highFreq) n1 n2 points panels
      quads normals same adjoint early) i j = specAngle (delhommeauInputs euler T .lowFreq m prony none k (deepCoeffs .lowFreq) n1 n2
      points panels quads normals same adjoint early) i j from rfl]
    generalize specAngle _ _ _ = a
    simp only [specReflections, delhommeauInputs, Inputs.coeff, deepCoeffs, specVertical]
    rw [h2]
    cases adjoint <;> ext <;> simp <;> ring

/-- What separates the third variant from the second one: the integral of the reflected source instead of its quadrature. -/
theorem variants_withRankine (hk : 0 < k) (h : Apart k (points i) (quads j))
    (hs : ¬ (|radial k (points i) (panels j).center| < 1e-10 ∧ |vertical k (points i) (panels j).center| < 1e-10)) :
    specS (delhommeauInputs euler T .lowFreqWithRankinePart m prony none k (deepCoeffs .lowFreqWithRankinePart) n1 n2 points panels
      quads normals same adjoint early) i j =
    specS (delhommeauInputs euler T .lowFreq m prony none k (deepCoeffs .lowFreq) n1 n2 points panels quads normals same adjoint
      early) i j ∧
    specGradient (delhommeauInputs euler T .lowFreqWithRankinePart m prony none k (deepCoeffs .lowFreqWithRankinePart) n1 n2 points
      panels quads normals same adjoint early) i j -
    specGradient (delhommeauInputs euler T .lowFreq m prony none k (deepCoeffs .lowFreq) n1 n2 points panels quads normals same
      adjoint early) i j =
      (1 / (-4 * (Real.pi : ℂ))) • (⟨0, 0, 2 * k * (((rankineReflected (points i) (panels j) adjoint ⟨-1, 0⟩).1 : ℂ) -
        ((reflectedQuadrature (points i) adjoint (quads j)).1 : ℂ))⟩ : V3 ℂ) := by
  obtain ⟨h1, h2⟩ := wave_withRankine (euler := euler) (T := T) (s := ⟨(panels j).center, (panels j).area, quads j⟩) hk h hs adjoint
  constructor
  · simp only [specS, specReflections, delhommeauInputs, Inputs.coeff, deepCoeffs]
    rw [h1]
  · unfold specGradient
    rw [show specAngle (delhommeauInputs euler T .lowFreqWithRankinePart m prony none k (deepCoeffs .lowFreqWithRankinePart) n1 n2 points panels
      quads normals same adjoint early) i j = specAngle (delhommeauInputs euler T .lowFreq m prony none k (deepCoeffs .lowFreq) n1 n2
      points panels quads normals same adjoint early) i j from rfl]
    generalize specAngle _ _ _ = a
    simp only [specReflections, delhommeauInputs, Inputs.coeff, deepCoeffs, specVertical]
    rw [h2]
    cases adjoint <;> ext <;> simp <;> ring

/-- The matrices of two sets of inputs are the same at a position. -/
def SameEntry (p p' : Inputs) (i j : ℕ) : Prop := specS p i j = specS p' i j ∧ ∀ c, specK p i j c = specK p' i j c

theorem sameEntry_of {g g' : Singularities} {h : Option ℝ} {c c' : ℝ × ℝ × ℝ}
    (hS : specS (delhommeauInputs euler T g m prony h k c n1 n2 points panels quads normals same adjoint early) i j =
      specS (delhommeauInputs euler T g' m prony h k c' n1 n2 points panels quads normals same adjoint early) i j)
    (hG : specGradient (delhommeauInputs euler T g m prony h k c n1 n2 points panels quads normals same adjoint early) i j =
      specGradient (delhommeauInputs euler T g' m prony h k c' n1 n2 points panels quads normals same adjoint early) i j) :
    SameEntry (delhommeauInputs euler T g m prony h k c n1 n2 points panels quads normals same adjoint early)
      (delhommeauInputs euler T g' m prony h k c' n1 n2 points panels quads normals same adjoint early) i j := by
  refine ⟨hS, fun c => ?_⟩
  unfold specK
  rw [hG]
  rfl

theorem far_reflected (hf : 7 * (panels j).radius < V3.norm ((panels j).center - reflectPoint ⟨-1, 0⟩ (points i))) :
    rankineReflected (points i) (panels j) adjoint ⟨-1, 0⟩ =
      onePointReflected (points i) (panels j).center (panels j).area adjoint ⟨-1, 0⟩ := by
  have e : Real.sqrt (Real.sqrt (((points i).x - (panels j).center.x) ^ 2 + ((points i).y - (panels j).center.y) ^ 2) ^ 2 +
      (-1 * (points i).z + 0 - (panels j).center.z) ^ 2) = V3.norm ((panels j).center - reflectPoint ⟨-1, 0⟩ (points i)) := by
    rw [Real.sq_sqrt (by positivity)]
    unfold V3.norm
    congr 1
    simp [V3.dot, reflectPoint]
    ring
  unfold rankineReflected
  simp only
  rw [e, if_pos hf]

/-- In deep water, for a panel that is far enough from the image of the point and integrated with its center, the three variants
give the same entries. -/
theorem variants_agree (hp : Paired T) (hk : 0 < k) (hq : quads j = [((panels j).center, (panels j).area)])
    (hr : 16 / 2 ^ 52 < |radial k (points i) (panels j).center|)
    (hf : 7 * (panels j).radius < V3.norm ((panels j).center - reflectPoint ⟨-1, 0⟩ (points i)))
    (hd : 1e-7 < V3.norm ((panels j).center - reflectPoint ⟨-1, 0⟩ (points i)))
    (hs : ¬ (|radial k (points i) (panels j).center| < 1e-10 ∧ |vertical k (points i) (panels j).center| < 1e-10))
    (g g' : Singularities) :
    SameEntry (delhommeauInputs euler T g m prony none k (deepCoeffs g) n1 n2 points panels quads normals same adjoint early)
      (delhommeauInputs euler T g' m prony none k (deepCoeffs g') n1 n2 points panels quads normals same adjoint early) i j := by
  have ha : Apart k (points i) (quads j) := by
    rw [hq]
    intro q hq'
    simp at hq'
    subst hq'
    exact ⟨hr, hd⟩
  have hR : reflectedQuadrature (points i) adjoint (quads j) = rankineReflected (points i) (panels j) adjoint ⟨-1, 0⟩ := by
    rw [far_reflected hf, hq]
    unfold reflectedQuadrature
    ext <;> simp
  have key : ∀ g, SameEntry
      (delhommeauInputs euler T g m prony none k (deepCoeffs g) n1 n2 points panels quads normals same adjoint early)
      (delhommeauInputs euler T .lowFreq m prony none k (deepCoeffs .lowFreq) n1 n2 points panels quads normals same adjoint early)
      i j := by
    intro g
    cases g with
    | lowFreq => exact ⟨rfl, fun _ => rfl⟩
    | highFreq =>
      obtain ⟨h1, h2⟩ := variants_high (euler := euler) (m := m) (prony := prony) (n1 := n1) (n2 := n2) (normals := normals)
        (same := same) (adjoint := adjoint) (early := early) hp hk ha hs
      rw [hR, _root_.sub_self, mul_zero, sub_eq_zero] at h1
      rw [hR] at h2
      refine sameEntry_of h1 ?_
      have hx := congrArg V3.x h2
      have hy := congrArg V3.y h2
      have hz := congrArg V3.z h2
      simp only [sub_x, sub_y, sub_z, smul_x, smul_y, smul_z] at hx hy hz
      simp only [_root_.sub_self, mul_zero, sub_eq_zero] at hx hy hz
      ext
      · exact hx
      · exact hy
      · exact hz
    | lowFreqWithRankinePart =>
      obtain ⟨h1, h2⟩ := variants_withRankine (euler := euler) (T := T) (m := m) (prony := prony) (n1 := n1) (n2 := n2)
        (normals := normals) (same := same) (adjoint := adjoint) (early := early) hk ha hs
      rw [hR] at h2
      refine sameEntry_of h1 ?_
      have hx := congrArg V3.x h2
      have hy := congrArg V3.y h2
      have hz := congrArg V3.z h2
      simp only [sub_x, sub_y, sub_z, smul_x, smul_y, smul_z] at hx hy hz
      simp only [_root_.sub_self, mul_zero, sub_eq_zero] at hx hy hz
      ext
      · exact hx
      · exact hy
      · exact hz
  obtain ⟨a, b⟩ := key g
  obtain ⟨a', b'⟩ := key g'
  exact ⟨a.trans a'.symm, fun c => (b c).trans (b' c).symm⟩

/-! ## Finite depth -/

/-- In finite depth the value does not depend on the variant, nor do the derivatives for the two first ones. -/
theorem finite_depth_variants_partial (h : ℝ) (g g' : Singularities) :
    specS (delhommeauInputs euler T g m prony (some h) k (1, 1, 1) n1 n2 points panels quads normals same adjoint early) i j =
      specS (delhommeauInputs euler T g' m prony (some h) k (1, 1, 1) n1 n2 points panels quads normals same adjoint early) i j ∧
    (g ≠ .lowFreqWithRankinePart → g' ≠ .lowFreqWithRankinePart →
      SameEntry (delhommeauInputs euler T g m prony (some h) k (1, 1, 1) n1 n2 points panels quads normals same adjoint early)
        (delhommeauInputs euler T g' m prony (some h) k (1, 1, 1) n1 n2 points panels quads normals same adjoint early) i j) := by
  refine ⟨rfl, fun h1 h2 => sameEntry_of rfl ?_⟩
  cases g <;> cases g' <;> first | exact absurd rfl h1 | exact absurd rfl h2 | rfl

/-- In finite depth, with the last variant, the vertical derivative has the term of the reflected source twice. -/
theorem finite_depth_twice (h : ℝ) :
    specGradient (delhommeauInputs euler T .lowFreqWithRankinePart .newer prony (some h) k (1, 1, 1) n1 n2 points panels quads
      normals same adjoint early) i j =
    specGradient (delhommeauInputs euler T .lowFreq .newer prony (some h) k (1, 1, 1) n1 n2 points panels quads normals same
      adjoint early) i j +
    (1 / (-4 * (Real.pi : ℂ))) •
      (⟨0, 0, 2 * k * ((rankineReflected (points i) (panels j) adjoint ⟨-1, 0⟩).1 : ℂ)⟩ : V3 ℂ) := by
  unfold specGradient
  rw [show specAngle (delhommeauInputs euler T .lowFreqWithRankinePart .newer prony (some h) k (1, 1, 1) n1 n2 points panels
    quads normals same adjoint early) i j = specAngle (delhommeauInputs euler T .lowFreq .newer prony (some h) k (1, 1, 1) n1 n2
    points panels quads normals same adjoint early) i j from rfl]
  generalize specAngle _ _ _ = a
  simp only [specReflections, delhommeauInputs, Inputs.coeff, specVertical]
  cases adjoint <;> ext <;> simp <;> ring

/-- They agree only when there is nothing to add. -/
theorem finite_depth_iff (h : ℝ) :
    specGradient (delhommeauInputs euler T .lowFreqWithRankinePart .newer prony (some h) k (1, 1, 1) n1 n2 points panels quads
      normals same adjoint early) i j =
    specGradient (delhommeauInputs euler T .lowFreq .newer prony (some h) k (1, 1, 1) n1 n2 points panels quads normals same
      adjoint early) i j ↔ k = 0 ∨ (rankineReflected (points i) (panels j) adjoint ⟨-1, 0⟩).1 = 0 := by
  rw [finite_depth_twice]
  constructor
  · intro he
    have hz := congrArg V3.z he
    simp [Real.pi_ne_zero] at hz
    exact hz
  · rintro (h0 | h0) <;> rw [h0] <;> ext <;> simp

end Deep

/-! ## Concrete cases -/

theorem demo_reflected : V3.norm (smallSquare.center - reflectPoint ⟨-1, 0⟩ ⟨3, 4, -1⟩) = Real.sqrt 29 := by
  unfold V3.norm
  congr 1
  norm_num [V3.dot, smallSquare, reflectPoint]

theorem five_lt : 5 < Real.sqrt 29 := Real.lt_sqrt_of_sq_lt (by norm_num)

/-- The hypotheses of `variants_agree` hold for a small panel seen from a point at a distance. -/
example : Paired demoTables ∧ 16 / 2 ^ 52 < |radial 1 ⟨3, 4, -1⟩ smallSquare.center| ∧
    7 * smallSquare.radius < V3.norm (smallSquare.center - reflectPoint ⟨-1, 0⟩ ⟨3, 4, -1⟩) ∧
    1e-7 < V3.norm (smallSquare.center - reflectPoint ⟨-1, 0⟩ ⟨3, 4, -1⟩) ∧
    ¬ (|radial 1 ⟨3, 4, -1⟩ smallSquare.center| < 1e-10 ∧ |vertical 1 ⟨3, 4, -1⟩ smallSquare.center| < 1e-10) := by
  have hr : radial 1 ⟨3, 4, -1⟩ smallSquare.center = 5 := demo_radial _ _
  have h5 := five_lt
  rw [demo_reflected, hr]
  refine ⟨demo_paired, by norm_num, ?_, by norm_num; linarith, fun h => ?_⟩
  · have : smallSquare.radius = 1 / 5 := rfl
    rw [this]
    linarith
  · have := h.1
    norm_num at this

/-- In finite depth, the last variant is not the same Green function. -/
theorem finite_depth_violated : ∃ (points : ℕ → V3 ℝ) (panels : ℕ → Face), ∀ (euler : ℝ) (T : Tables) (prony : List (ℝ × ℝ)) (h : ℝ)
    (quads : ℕ → List (V3 ℝ × ℝ)) (normals : ℕ → V3 ℝ) (same adjoint : Bool),
    specK (delhommeauInputs euler T .lowFreqWithRankinePart .newer prony (some h) 1 (1, 1, 1) 1 1 points panels quads normals same
      adjoint false) 0 0 2 ≠
    specK (delhommeauInputs euler T .lowFreq .newer prony (some h) 1 (1, 1, 1) 1 1 points panels quads normals same
      adjoint false) 0 0 2 := by
  refine ⟨fun _ => ⟨3, 4, -1⟩, fun _ => smallSquare, fun euler T prony h quads normals same adjoint he => ?_⟩
  have h5 := five_lt
  have ht := finite_depth_twice (euler := euler) (T := T) (prony := prony) (k := 1) (n1 := 1) (n2 := 1)
    (points := fun _ => ⟨3, 4, -1⟩) (panels := fun _ => smallSquare) (quads := quads) (normals := normals) (same := same)
    (adjoint := adjoint) (early := false) (i := 0) (j := 0) h
  have hz := congrArg V3.z ht
  have he' : (specGradient (delhommeauInputs euler T .lowFreqWithRankinePart .newer prony (some h) 1 (1, 1, 1) 1 1
      (fun _ => ⟨3, 4, -1⟩) (fun _ => smallSquare) quads normals same adjoint false) 0 0).z =
    (specGradient (delhommeauInputs euler T .lowFreq .newer prony (some h) 1 (1, 1, 1) 1 1
      (fun _ => ⟨3, 4, -1⟩) (fun _ => smallSquare) quads normals same adjoint false) 0 0).z := by
    simpa [specK, delhommeauInputs] using he
  rw [he'] at hz
  have hfar : 7 * smallSquare.radius < V3.norm (smallSquare.center - reflectPoint ⟨-1, 0⟩ ⟨3, 4, -1⟩) := by
    rw [demo_reflected]
    have : smallSquare.radius = 1 / 5 := rfl
    rw [this]
    linarith
  have hv := far_reflected (points := fun _ => (⟨3, 4, -1⟩ : V3 ℝ)) (panels := fun _ => smallSquare) (i := 0) (j := 0)
    (adjoint := adjoint) hfar
  have hval : (rankineReflected ⟨3, 4, -1⟩ smallSquare adjoint ⟨-1, 0⟩).1 = 1 / 25 / Real.sqrt 29 := by
    have := congrArg Prod.fst hv
    rw [this]
    simp only [onePointReflected, onePoint]
    rw [demo_reflected, if_pos (by norm_num; linarith)]
    rfl
  rw [hval] at hz
  have h29 : Real.sqrt 29 ≠ 0 := by positivity
  simp [Real.pi_ne_zero, h29] at hz

end Verif.Green
