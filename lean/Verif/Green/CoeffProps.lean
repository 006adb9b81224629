import Verif.Green.CoeffModel
import Verif.Green.AssemblyProps
import Verif.Green.WaveProps

/-!
# C60: zero and infinite frequencies, refused inputs; C79: the variants of the singularities
-/

namespace Verif.Green

open Verif.Geometry V3

/-! ## Specification -/

/-- The fluid domains that a problem may ask for. -/
structure Admissible (q : Request) : Prop where
  surface : q.freeSurface = 0 ∨ q.freeSurface = ⊤
  bottom : q.freeSurface = ⊤ → q.depth = ⊤
  depth : 0 ≤ q.depth

/-- What a Green function is able to compute. -/
def Supported (gf : GreenFunction) (q : Request) : Prop :=
  match gf with
  | .delhommeau g => (q.freeSurface = ⊤ ∨ q.depth = ⊤ ∨ (q.wavenumber ≠ 0 ∧ q.wavenumber ≠ ⊤)) ∧
      (q.surfacePanels = false ∨ g = .lowFreq) ∧
      (g = .lowFreqWithRankinePart → q.freeSurface = 0 → q.wavenumber ≠ ⊤)
  | .liangWu => q.depth = ⊤
  | .finGreen3D => q.freeSurface = 0 ∧ q.depth ≠ ⊤ ∧ q.wavenumber ≠ 0 ∧ q.wavenumber ≠ ⊤
  | .hams => q.depth = ⊤ ∨ (q.freeSurface = 0 ∧ q.wavenumber ≠ 0 ∧ q.wavenumber ≠ ⊤)

theorem zero_ne_top' : (0 : WithTop ℝ) ≠ ⊤ := by exact WithTop.coe_ne_top (a := (0 : ℝ))

/-- The tests of the problems accept exactly the admissible inputs. -/
theorem checkData_iff (q : Request) : checkData q = none ↔ Admissible q := by
  unfold checkData
  constructor
  · intro h
    split_ifs at h with h1 h2 h3
    refine ⟨h1, fun ht => ?_, not_lt.1 h3⟩
    by_contra hd
    exact h2 ⟨ht, hd⟩
  · rintro ⟨hs, hb, hd⟩
    rw [if_neg (not_not.2 hs), if_neg (fun h => h.2 (hb h.1)), if_neg (not_lt.2 hd)]

theorem liangWu_supported {q : Request} (h : Admissible q) : (∃ c, liangWuCall q = .ok c) ↔ q.depth = ⊤ := by
  unfold liangWuCall
  rcases h.surface with hs | hs
  · rw [if_neg (by rw [hs]; exact zero_ne_top')]
    by_cases hd : q.depth = ⊤
    · rw [if_neg (by rw [hd]; simp)]
      split_ifs <;> simp [hd]
    · rw [if_pos ⟨hs, lt_top_iff_ne_top.2 hd⟩]
      simp [hd]
  · rw [if_pos hs]
    simp [h.bottom hs]

theorem finGreen_supported {q : Request} (h : Admissible q) :
    (∃ c, finGreenCall q = .ok c) ↔ q.freeSurface = 0 ∧ q.depth ≠ ⊤ ∧ q.wavenumber ≠ 0 ∧ q.wavenumber ≠ ⊤ := by
  unfold finGreenCall
  rcases h.surface with hs | hs
  · have hst : q.freeSurface ≠ ⊤ := by rw [hs]; exact zero_ne_top'
    by_cases hd : q.depth = ⊤
    · rw [if_pos (Or.inr hd)]
      simp [hd]
    · rw [if_neg (by simp [hst, hd]), if_pos ⟨hs, lt_top_iff_ne_top.2 hd⟩]
      split_ifs with h1 h2
      · simp [h1]
      · simp [h2]
      · simp [hs, hd, h1, h2]
  · rw [if_pos (Or.inl hs)]
    simp [hs]

/-- On admissible inputs, the matrices are computed exactly in the supported cases. -/
theorem call_ok_iff (gf : GreenFunction) {q : Request} (h : Admissible q) : (∃ c, call gf q = .ok c) ↔ Supported gf q := by
  cases gf with
  | liangWu => exact liangWu_supported h
  | finGreen3D => exact finGreen_supported h
  | hams =>
    unfold call Supported
    by_cases hd : q.depth = ⊤
    · simp only [if_pos hd]
      rw [liangWu_supported h]
      simp [hd]
    · simp only [if_neg hd]
      rw [finGreen_supported h]
      simp [hd]
  | delhommeau g =>
    unfold call delhommeauCall Supported
    simp only
    rcases h.surface with hs | hs
    · have hst : q.freeSurface ≠ ⊤ := by rw [hs]; exact zero_ne_top'
      rw [if_neg hst]
      by_cases hd : q.depth = ⊤
      · rw [if_pos hd]
        simp only [bind, Except.bind]
        by_cases hp : q.surfacePanels = true ∧ g ≠ .lowFreq
        · rw [if_pos hp]
          simp [hp.1, hp.2]
        · rw [if_neg hp]
          have hp' : q.surfacePanels = false ∨ g = .lowFreq := by
            by_contra hc
            push Not at hc
            exact hp ⟨by simpa using hc.1, hc.2⟩
          by_cases hk : g = .lowFreqWithRankinePart ∧ q.wavenumber = ⊤
          · rw [if_pos]
            · simp [hk, hs]
            · refine ⟨Or.inl ?_, hk⟩
              split_ifs <;> simp
          · rw [if_neg (fun hh => hk hh.2)]
            simp only [hd, hp', true_or, or_true, true_and]
            constructor
            · intro _ hg _ hkt
              exact hk ⟨hg, hkt⟩
            · intro _
              exact ⟨_, rfl⟩
      · rw [if_neg hd]
        by_cases hk : q.wavenumber = 0 ∨ q.wavenumber = ⊤
        · rw [if_pos hk]
          simp only [bind, Except.bind]
          simp only [hst, hd, false_or]
          constructor
          · rintro ⟨c, hc⟩; cases hc
          · rintro ⟨⟨h1, h2⟩, _⟩
            rcases hk with hk | hk
            · exact absurd hk h1
            · exact absurd hk h2
        · rw [if_neg hk]
          push Not at hk
          simp only [bind, Except.bind]
          by_cases hp : q.surfacePanels = true ∧ g ≠ .lowFreq
          · rw [if_pos hp]
            simp [hp.1, hp.2]
          · rw [if_neg hp, if_neg (fun hh => hk.2 hh.2.2)]
            have hp' : q.surfacePanels = false ∨ g = .lowFreq := by
              by_contra hc
              push Not at hc
              exact hp ⟨by simpa using hc.1, hc.2⟩
            simp [hk, hp']
    · rw [if_pos hs]
      simp only [bind, Except.bind]
      by_cases hp : q.surfacePanels = true ∧ g ≠ .lowFreq
      · rw [if_pos hp]
        simp [hp.1, hp.2]
      · rw [if_neg hp, if_neg (by simp)]
        have hp' : q.surfacePanels = false ∨ g = .lowFreq := by
          by_contra hc
          push Not at hc
          exact hp ⟨by simpa using hc.1, hc.2⟩
        have hs0 : q.freeSurface ≠ 0 := by rw [hs]; exact zero_ne_top'.symm
        simp [hs, hp']

/-- The admissible inputs that are not supported are refused as such, except in one case. -/
theorem refused_explicitly_partial (gf : GreenFunction) {q : Request} (h : Admissible q) (e : Failure) (he : call gf q = .error e) :
    e = .notImplemented ∨
      (e = .nan ∧ gf = .delhommeau .lowFreqWithRankinePart ∧ q.freeSurface = 0 ∧ q.depth = ⊤ ∧ q.wavenumber = ⊤) := by
  have hl : ∀ e, liangWuCall q = .error e → e = .notImplemented := by
    intro e he
    unfold liangWuCall at he
    split_ifs at he
    injection he with he
    exact he.symm
  have hf : ∀ e, finGreenCall q = .error e → e = .notImplemented := by
    intro e he
    unfold finGreenCall at he
    split_ifs at he with h1 h2 h3 h4
    all_goals injection he with he
    · exact he.symm
    · exact he.symm
    · exact he.symm
    · push Not at h1
      exfalso
      apply h2
      exact ⟨h.surface.resolve_right h1.1, lt_top_iff_ne_top.2 h1.2⟩
  cases gf with
  | liangWu => exact Or.inl (hl e he)
  | finGreen3D => exact Or.inl (hf e he)
  | hams =>
    unfold call at he
    simp only at he
    split_ifs at he
    · exact Or.inl (hl e he)
    · exact Or.inl (hf e he)
  | delhommeau g =>
    unfold call delhommeauCall at he
    simp only at he
    rcases h.surface with hs | hs
    · have hst : q.freeSurface ≠ ⊤ := by rw [hs]; exact zero_ne_top'
      rw [if_neg hst] at he
      by_cases hd : q.depth = ⊤
      · rw [if_pos hd] at he
        simp only [bind, Except.bind] at he
        split_ifs at he with h1 h2 h3 h4 h5
        all_goals injection he with he
        all_goals first
          | exact Or.inl he.symm
          | (rename_i hh; exact Or.inr ⟨he.symm, by rw [hh.2.1], hs, hd, hh.2.2⟩)
          | (right; refine ⟨he.symm, ?_, hs, hd, ?_⟩ <;> simp_all)
      · rw [if_neg hd] at he
        by_cases hk : q.wavenumber = 0 ∨ q.wavenumber = ⊤
        · rw [if_pos hk] at he
          simp only [bind, Except.bind] at he
          injection he with he
          exact Or.inl he.symm
        · rw [if_neg hk] at he
          simp only [bind, Except.bind] at he
          push Not at hk
          split_ifs at he with h1 h2
          all_goals injection he with he
          · exact Or.inl he.symm
          · exact absurd h2.2.2 hk.2
    · rw [if_pos hs] at he
      simp only [bind, Except.bind] at he
      split_ifs at he with h1 h2
      all_goals injection he with he
      · exact Or.inl he.symm
      · simp at h2

/-- With the last variant, the problem with an infinite frequency in deep water is not refused: the matrices are NaN. -/
theorem infinite_frequency_violated : ∃ q, Admissible q ∧ q.surfacePanels = false ∧ q.depth = ⊤ ∧ q.wavenumber = ⊤ ∧
    call (.delhommeau .lowFreqWithRankinePart) q = .error .nan ∧ (∃ c, call (.delhommeau .lowFreq) q = .ok c) ∧
    ∃ c, call (.delhommeau .highFreq) q = .ok c := by
  have ha : Admissible ⟨0, ⊤, ⊤, false⟩ := ⟨Or.inl rfl, fun _ => rfl, le_top⟩
  refine ⟨⟨0, ⊤, ⊤, false⟩, ha, rfl, rfl, rfl, ?_, ?_, ?_⟩
  · simp only [call, delhommeauCall]
    rw [if_neg zero_ne_top']
    simp [bind, Except.bind]
  · exact (call_ok_iff _ ha).2 ⟨Or.inr (Or.inl rfl), Or.inl rfl, by intro h; cases h⟩
  · exact (call_ok_iff _ ha).2 ⟨Or.inr (Or.inl rfl), Or.inl rfl, by intro h; cases h⟩

/-- Without the tests of the problems, inputs that are not supported are computed as if they were others: a free surface at
another height is put at zero, and a sea bottom is ignored. -/
theorem unchecked_violated :
    (∃ q, checkData q = some .notImplemented ∧ ∃ c, call (.delhommeau .lowFreq) q = .ok c ∧
      call (.delhommeau .lowFreq) { q with freeSurface := 0 } = .ok c) ∧
    (∃ q, q.depth ≠ ⊤ ∧ ∃ c, call .liangWu q = .ok c ∧ c.depth = ⊤) ∧
    (∃ q, q.depth ≠ ⊤ ∧ ∃ c, call (.delhommeau .lowFreq) q = .ok c ∧ c.coeffs = (1, 0, 0)) ∧
    ∃ q, call .finGreen3D q = .error .unboundLocal := by
  have h1 : ((1 : ℝ) : WithTop ℝ) ≠ ⊤ := WithTop.coe_ne_top
  have h10 : ((1 : ℝ) : WithTop ℝ) ≠ 0 := by
    intro h
    have := WithTop.coe_injective (h : ((1 : ℝ) : WithTop ℝ) = ((0 : ℝ) : WithTop ℝ))
    norm_num at this
  refine ⟨⟨⟨(1 : ℝ), ⊤, (1 : ℝ), false⟩, ?_, ⟨(1, 1, 1), ⊤⟩, ?_, ?_⟩, ⟨⟨(1 : ℝ), (1 : ℝ), (1 : ℝ), false⟩, h1, ⟨(1, 1, 1), ⊤⟩, ?_, rfl⟩,
    ⟨⟨⊤, (1 : ℝ), (1 : ℝ), false⟩, h1, ⟨(1, 0, 0), (1 : ℝ)⟩, ?_, rfl⟩, ⟨⟨(1 : ℝ), (1 : ℝ), (1 : ℝ), false⟩, ?_⟩⟩
  · unfold checkData
    rw [if_pos]
    push Not
    exact ⟨h10, h1⟩
  · simp only [call, delhommeauCall]
    rw [if_neg h1, if_neg h10, if_neg h1]
    simp [bind, Except.bind]
  · simp only [call, delhommeauCall]
    rw [if_neg zero_ne_top', if_neg h10, if_neg h1]
    simp [bind, Except.bind]
  · simp only [call, liangWuCall]
    rw [if_neg h1, if_neg (fun h => h10 h.1), if_neg h10, if_neg h1]
  · simp only [call, delhommeauCall]
    simp [bind, Except.bind]
  · simp only [call, finGreenCall]
    rw [if_neg (by simp), if_neg (fun h => h10 h.1)]

/-! ## The boundary conditions on the free surface -/

/-- The sum of the source and of its reflection in the free surface. -/
noncomputable def surfacePair (c1 c2 : ℝ) (f : Face) (p : V3 ℝ) : ℝ :=
  c1 * (rankine p f true).1 + c2 * (rankineReflected p f true ⟨-1, 0⟩).1

/-- A rigid surface: the normal derivative vanishes on it. -/
def RigidSurface (c1 c2 : ℝ) : Prop :=
  ∀ (f : Face) (M : V3 ℝ), M.z = 0 → Regular M f → ∃ g : V3 ℝ, Gradient (surfacePair c1 c2 f) M g ∧ g.z = 0

/-- The limit of high frequencies: the potential vanishes on the surface. -/
def PressureRelease (c1 c2 : ℝ) : Prop := ∀ (f : Face) (M : V3 ℝ), M.z = 0 → surfacePair c1 c2 f M = 0

theorem reflect_surface {M : V3 ℝ} (h : M.z = 0) : reflectPoint ⟨-1, 0⟩ M = M := by
  ext <;> simp [reflectPoint, h]

theorem rigid : RigidSurface 1 1 := by
  intro f M hM hr
  have h1 := rankine_gradient hr
  have h2 := rankineReflected_gradient (c := ⟨-1, 0⟩) (by rw [reflect_surface hM]; exact hr)
  refine ⟨(rankine M f true).2 + (rankineReflected M f true ⟨-1, 0⟩).2, ?_, ?_⟩
  · intro γ v τ hγ hs
    refine (((h1 γ v τ hγ hs).const_mul 1).add ((h2 γ v τ hγ hs).const_mul 1)).congr_deriv ?_
    rw [dot_add']
    ring
  · rw [rankineReflected_eq, reflect_surface hM]
    simp [reflectGradient]

theorem pressure_release : PressureRelease 1 (-1) := by
  intro f M hM
  unfold surfacePair
  rw [rankineReflected_eq, reflect_surface hM]
  ring

/-- The coefficients of each regime are those of its boundary condition, and the depth is the one of the problem. -/
structure Meaning (q : Request) (c : Call) : Prop where
  depth : c.depth = q.depth
  source : c.coeffs.1 = 1
  unbounded : q.freeSurface = ⊤ → c.coeffs.2 = (0, 0)
  zero : q.freeSurface = 0 → q.wavenumber = 0 → c.coeffs.2.2 = 0 ∧ RigidSurface c.coeffs.1 c.coeffs.2.1
  infinite : q.freeSurface = 0 → q.wavenumber = ⊤ → c.coeffs.2.2 = 0 ∧ PressureRelease c.coeffs.1 c.coeffs.2.1
  finite : q.freeSurface = 0 → q.wavenumber ≠ 0 → q.wavenumber ≠ ⊤ → c.coeffs.2.2 = 1 ∧ (c.coeffs.2.1 = 1 ∨ c.coeffs.2.1 = -1)

theorem liangWu_meaning {q : Request} (h : Admissible q) {c : Call} (hc : liangWuCall q = .ok c) : Meaning q c := by
  have hd := (liangWu_supported h).1 ⟨c, hc⟩
  unfold liangWuCall at hc
  rcases h.surface with hs | hs
  · have hst : q.freeSurface ≠ ⊤ := by rw [hs]; exact zero_ne_top'
    rw [if_neg hst, if_neg (by rw [hd]; simp)] at hc
    split_ifs at hc with h1 h2
    · injection hc with hc
      subst hc
      have hk : q.wavenumber ≠ ⊤ := by rw [h1]; exact zero_ne_top'
      exact ⟨hd.symm, rfl, fun h => absurd h hst, fun _ _ => ⟨rfl, rigid⟩, fun _ h => absurd h hk, fun _ h => absurd h1 h⟩
    · injection hc with hc
      subst hc
      exact ⟨hd.symm, rfl, fun h => absurd h hst, fun _ h => absurd h h1, fun _ _ => ⟨rfl, pressure_release⟩, fun _ _ h => absurd h2 h⟩
    · injection hc with hc
      subst hc
      exact ⟨hd.symm, rfl, fun h => absurd h hst, fun _ h => absurd h h1, fun _ h => absurd h h2, fun _ _ _ => ⟨rfl, Or.inl rfl⟩⟩
  · rw [if_pos hs] at hc
    injection hc with hc
    subst hc
    have hs0 : q.freeSurface ≠ 0 := by rw [hs]; exact zero_ne_top'.symm
    exact ⟨hd.symm, rfl, fun _ => rfl, fun h => absurd h hs0, fun h => absurd h hs0, fun h => absurd h hs0⟩

theorem finGreen_meaning {q : Request} (h : Admissible q) {c : Call} (hc : finGreenCall q = .ok c) : Meaning q c := by
  have hd := (finGreen_supported h).1 ⟨c, hc⟩
  have hst : q.freeSurface ≠ ⊤ := by rw [hd.1]; exact zero_ne_top'
  unfold finGreenCall at hc
  rw [if_neg (by push Not; exact ⟨hst, hd.2.1⟩), if_pos ⟨hd.1, lt_top_iff_ne_top.2 hd.2.1⟩, if_neg hd.2.2.1, if_neg hd.2.2.2] at hc
  injection hc with hc
  subst hc
  exact ⟨rfl, rfl, fun h => absurd h hst, fun _ h => absurd h hd.2.2.1, fun _ h => absurd h hd.2.2.2,
    fun _ _ _ => ⟨rfl, Or.inl rfl⟩⟩

theorem delhommeau_meaning {g : Singularities} {q : Request} (h : Admissible q) {c : Call} (hc : delhommeauCall g q = .ok c) :
    Meaning q c := by
  have hd := (call_ok_iff (.delhommeau g) h).1 ⟨c, hc⟩
  unfold delhommeauCall at hc
  rcases h.surface with hs | hs
  · have hst : q.freeSurface ≠ ⊤ := by rw [hs]; exact zero_ne_top'
    rw [if_neg hst] at hc
    by_cases hi : q.depth = ⊤
    · rw [if_pos hi] at hc
      simp only [bind, Except.bind] at hc
      by_cases h1 : q.wavenumber = 0
      · have hk : q.wavenumber ≠ ⊤ := by rw [h1]; exact zero_ne_top'
        simp only [if_pos h1] at hc
        split_ifs at hc
        injection hc with hc
        subst hc
        exact ⟨rfl, rfl, fun h => absurd h hst, fun _ _ => ⟨rfl, rigid⟩, fun _ h => absurd h hk, fun _ h => absurd h1 h⟩
      · by_cases h2 : q.wavenumber = ⊤
        · simp only [if_neg h1, if_pos h2] at hc
          split_ifs at hc
          injection hc with hc
          subst hc
          exact ⟨rfl, rfl, fun h => absurd h hst, fun _ h => absurd h h1, fun _ _ => ⟨rfl, pressure_release⟩,
            fun _ _ h => absurd h2 h⟩
        · simp only [if_neg h1, if_neg h2] at hc
          by_cases hg : g = .highFreq
          · simp only [if_pos hg] at hc
            split_ifs at hc
            injection hc with hc
            subst hc
            exact ⟨rfl, rfl, fun h => absurd h hst, fun _ h => absurd h h1, fun _ h => absurd h h2, fun _ _ _ => ⟨rfl, Or.inr rfl⟩⟩
          · simp only [if_neg hg] at hc
            split_ifs at hc
            all_goals
              injection hc with hc
              subst hc
              exact ⟨rfl, rfl, fun h => absurd h hst, fun _ h => absurd h h1, fun _ h => absurd h h2,
                fun _ _ _ => ⟨rfl, Or.inl rfl⟩⟩
    · rw [if_neg hi] at hc
      by_cases hk : q.wavenumber = 0 ∨ q.wavenumber = ⊤
      · rw [if_pos hk] at hc
        simp only [bind, Except.bind] at hc
        cases hc
      · rw [if_neg hk] at hc
        simp only [bind, Except.bind] at hc
        split_ifs at hc
        all_goals
          injection hc with hc
          subst hc
          push Not at hk
          exact ⟨rfl, rfl, fun h => absurd h hst, fun _ h => absurd h hk.1, fun _ h => absurd h hk.2,
            fun _ _ _ => ⟨rfl, Or.inl rfl⟩⟩
  · rw [if_pos hs] at hc
    simp only [bind, Except.bind] at hc
    have hs0 : q.freeSurface ≠ 0 := by rw [hs]; exact zero_ne_top'.symm
    split_ifs at hc
    all_goals
      injection hc with hc
      subst hc
      exact ⟨rfl, rfl, fun _ => rfl, fun h => absurd h hs0, fun h => absurd h hs0, fun h => absurd h hs0⟩

/-- On admissible inputs, the coefficients that are selected satisfy the boundary condition of the regime. -/
theorem call_meaning (gf : GreenFunction) {q : Request} (h : Admissible q) {c : Call} (hc : call gf q = .ok c) : Meaning q c := by
  cases gf with
  | liangWu => exact liangWu_meaning h hc
  | finGreen3D => exact finGreen_meaning h hc
  | delhommeau g => exact delhommeau_meaning h hc
  | hams =>
    unfold call at hc
    simp only at hc
    split_ifs at hc
    · exact liangWu_meaning h hc
    · exact finGreen_meaning h hc

/-- A problem is either refused, or computed with the coefficients of its regime. -/
theorem problem_meaning (gf : GreenFunction) (q : Request) (c : Call) (hc : problemCall gf q = .ok c) :
    Admissible q ∧ Supported gf q ∧ Meaning q c := by
  unfold problemCall at hc
  cases hq : checkData q with
  | some e => rw [hq] at hc; cases hc
  | none =>
    rw [hq] at hc
    have h := (checkData_iff q).1 hq
    exact ⟨h, (call_ok_iff gf h).1 ⟨c, hc⟩, call_meaning gf h hc⟩

/-- The problem with a rigid free surface in deep water is supported by three of the Green functions and not by the other. -/
example : Admissible ⟨0, ⊤, 0, false⟩ ∧ Supported (.delhommeau .lowFreq) ⟨0, ⊤, 0, false⟩ ∧ Supported .liangWu ⟨0, ⊤, 0, false⟩ ∧
    Supported .hams ⟨0, ⊤, 0, false⟩ ∧ ¬ Supported .finGreen3D ⟨0, ⊤, 0, false⟩ :=
  ⟨⟨Or.inl rfl, fun _ => rfl, le_top⟩, ⟨Or.inr (Or.inl rfl), Or.inl rfl, fun h => by cases h⟩, rfl, Or.inl rfl, fun h => h.2.1 rfl⟩

/-- A point of the free surface above the rectangle is regular after it has been lowered: the boundary conditions are about
something. -/
example : ∃ (f : Face) (M : V3 ℝ), M.z = 0 ∧ Regular M f :=
  ⟨smallSquare, ⟨3, 4, 0⟩, rfl, Or.inl (by
    have h5 : 5 ≤ V3.norm ((⟨3, 4, 0⟩ : V3 ℝ) - smallSquare.center) := by
      unfold V3.norm
      apply Real.le_sqrt_of_sq_le
      norm_num [V3.dot, smallSquare]
    have hr : smallSquare.radius = 1 / 5 := rfl
    exact ⟨by rw [hr]; linarith, by norm_num; linarith⟩)⟩

end Verif.Green
