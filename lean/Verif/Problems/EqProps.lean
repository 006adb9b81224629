import Verif.Problems.Model
import Verif.Frequency.FreqProps

/-!
# Equality of problems (C10)
-/

namespace Verif.Problems

open Verif.Frequency Verif.Geometry

/-- What is known of the attributes of a problem that has been created. -/
theorem base_spec (newton) (hN : NewtonSound newton) (a : Args) (hg : 0 < a.g)
    (hz : a.seaBottom ≠ some (some 0)) (body : Body) (b : Base) (h : base newton a body = .ok b) :
    b.body = body ∧ b.speed = a.speed ∧ b.direction = a.direction ∧ b.g = a.g ∧
      encounter newton b.g b.depth b.freq b.speed b.direction = some (.ok b.enc) ∧
      Consistent b.g b.depth b.freq := by
  unfold base at h
  cases hd : acceptedDepth a.freeSurface a.waterDepth a.seaBottom with
  | error e => rw [hd] at h; simp at h
  | ok depth =>
    rw [hd] at h
    simp only at h
    cases hf : getFrequencies newton a.g depth a.omega a.period a.wavenumber a.wavelength with
    | error e => rw [hf] at h; simp at h
    | ok f =>
      rw [hf] at h
      simp only at h
      split at h
      · cases h
      · split at h
        · cases h
        · cases he : encounter newton a.g depth f a.speed a.direction with
          | none => rw [he] at h; simp at h
          | some r =>
            rw [he] at h
            cases r with
            | error e => simp at h
            | ok enc =>
              simp only [Except.ok.injEq] at h
              subst h
              have hpos := (depth_positive_partial _ _ _ _ hd).2.1 hz
              exact ⟨rfl, rfl, rfl, rfl, he,
                (frequencies_consistent newton hN a.g hg depth hpos _ _ _ _ f hf).1⟩

/-- A quantity that is not the number zero. -/
def NonZero (q : Quantity) : Prop := q ≠ .real 0

theorem consistent_nonzero {g : ℝ} {depth : Input} {f : Frequencies} (h : Consistent g depth f) :
    NonZero f.omega ∧ NonZero f.period ∧ NonZero f.wavenumber ∧ NonZero f.wavelength := by
  have hpi : (0 : ℝ) < 2 * Real.pi := by positivity
  rcases h with ⟨h1, h2, h3, h4⟩ | ⟨h1, h2, h3, h4⟩ | ⟨w, T, k, l, hf, hw, hk, _⟩
  · rw [NonZero, NonZero, NonZero, NonZero, h1, h2, h3, h4]; simp
  · rw [NonZero, NonZero, NonZero, NonZero, h1, h2, h3, h4]; simp
  · rw [hf]
    refine ⟨?_, ?_, ?_, ?_⟩ <;> intro hc <;> injection hc with hc <;> subst hc <;> simp at hw hk

theorem toFloat_injective {p q : Quantity} (hp : NonZero p) (hq : NonZero q)
    (h : p.toFloat = q.toFloat) : p = q := by
  cases p <;> cases q <;> simp only [Quantity.toFloat] at h
  · rw [WithTop.coe_inj] at h; rw [h]
  · rw [WithTop.coe_inj] at h; rw [h] at hp; exact absurd rfl hp
  · exact absurd h (WithTop.coe_ne_top)
  · rw [WithTop.coe_inj] at h; rw [← h] at hq; exact absurd rfl hq
  · rfl
  · exact absurd h (WithTop.coe_ne_top)
  · exact absurd h.symm (WithTop.coe_ne_top)
  · exact absurd h.symm (WithTop.coe_ne_top)
  · rfl

/-- The attributes of equal problems. -/
theorem pyEq_spec (newton) {p q : Problem} (h : p.pyEq q)
    (hid : p.base.body.oid = q.base.body.oid → p.base.body = q.base.body)
    (hp : Consistent p.base.g p.base.depth p.base.freq)
    (hq : Consistent q.base.g q.base.depth q.base.freq)
    (hpe : encounter newton p.base.g p.base.depth p.base.freq p.base.speed p.base.direction =
      some (.ok p.base.enc))
    (hqe : encounter newton q.base.g q.base.depth q.base.freq q.base.speed q.base.direction =
      some (.ok q.base.enc)) :
    p.base.body = q.base.body ∧ p.base.depth = q.base.depth ∧ p.base.g = q.base.g ∧
      p.base.rho = q.base.rho ∧ p.base.speed = q.base.speed ∧ p.kind.dof? = q.kind.dof? ∧
      p.base.freq.omega = q.base.freq.omega ∧ p.base.freq.wavenumber = q.base.freq.wavenumber ∧
      (p.base.speed = 0 → p.base.enc.omega = q.base.enc.omega) ∧
      (p.base.direction = q.base.direction → p.base.enc = q.base.enc) := by
  simp only [Problem.pyEq, Problem.astuple, Prod.mk.injEq] at h
  obtain ⟨h1, h2, h3, h4, h5, h6, h7, h8, h9, h10, h11⟩ := h
  have np := consistent_nonzero hp
  have nq := consistent_nonzero hq
  have e1 := toFloat_injective np.1 nq.1 h4
  have e2 := toFloat_injective np.2.1 nq.2.1 h5
  have e3 := toFloat_injective np.2.2.1 nq.2.2.1 h6
  have e4 := toFloat_injective np.2.2.2 nq.2.2.2 h7
  refine ⟨hid h1, h3, h10, h9, h8, h11, e1, e3, ?_, ?_⟩
  · intro h0
    rw [h0, encounter_no_speed] at hpe
    rw [← h8, h0, encounter_no_speed] at hqe
    simp only [Option.some.injEq, Except.ok.injEq] at hpe hqe
    rw [← hpe, ← hqe]
    exact e1
  · intro hdir
    have : encounter newton p.base.g p.base.depth p.base.freq p.base.speed p.base.direction =
        encounter newton q.base.g q.base.depth q.base.freq q.base.speed q.base.direction := by
      rw [h10, h3, h8, hdir]
      simp only [encounter, e1, e2, e3, e4]
    rw [hpe, hqe] at this
    simpa using this

/-- **C10, partial, radiation problems.** Two radiation problems that compare equal have the same
boundary condition, when they have no forward speed or the same wave direction. (Bodies are not
changed between the creations of the problems: the same object means the same body.) Missing: problems
with forward speed and different wave directions, see `equal_radiation_violated`. -/
theorem equal_radiation_partial (newton) (hN : NewtonSound newton) (a a' : Args) (hg : 0 < a.g)
    (hg' : 0 < a'.g) (hz : a.seaBottom ≠ some (some 0)) (hz' : a'.seaBottom ≠ some (some 0))
    (body body' : Body) (hid : body.oid = body'.oid → body = body') (d d' : Option String)
    (p q : Problem) (hp : mkRadiation newton a body d = .ok p)
    (hq : mkRadiation newton a' body' d' = .ok q) (heq : p.pyEq q)
    (hdir : a.speed = 0 ∨ a.direction = a'.direction) : p.bc = q.bc := by
  have spec : ∀ (a : Args) (_ : 0 < a.g) (_ : a.seaBottom ≠ some (some 0)) (body : Body) (d : Option String)
      (p : Problem), mkRadiation newton a body d = .ok p → ∃ name dof,
      p.base.body = body ∧ p.base.speed = a.speed ∧ p.base.direction = a.direction ∧
      encounter newton p.base.g p.base.depth p.base.freq p.base.speed p.base.direction =
        some (.ok p.base.enc) ∧ Consistent p.base.g p.base.depth p.base.freq ∧
      p.kind = .radiation name ∧ body.dofs.lookup name = some dof ∧
      radiationBC p.base name dof = .ok p.bc := by
    intro a hg hz body d p hp
    unfold mkRadiation at hp
    cases hb : base newton a body with
    | error e => rw [hb] at hp; simp at hp
    | ok b =>
      rw [hb] at hp
      obtain ⟨s1, s2, s3, s4, s5, s6⟩ := base_spec newton hN a hg hz body b hb
      simp only at hp
      split at hp
      · cases hp
      · rename_i first _ _ _
        split at hp
        · cases hp
        · rename_i dof hdof
          split at hp
          · cases hp
          · rename_i bc hbc
            simp only [Except.ok.injEq] at hp
            subst hp
            exact ⟨_, _, s1, s2, s3, s5, s6, rfl, hdof, hbc⟩
  obtain ⟨n, dof, p1, p2, p3, p4, p5, p6, p7, p8⟩ := spec a hg hz body d p hp
  obtain ⟨n', dof', q1, q2, q3, q4, q5, q6, q7, q8⟩ := spec a' hg' hz' body' d' q hq
  obtain ⟨e1, e2, e3, e4, e5, e6, e7, e8, e9, e10⟩ := pyEq_spec newton heq
    (by rw [p1, q1]; exact hid) p5 q5 p4 q4
  have hname : n = n' := by
    rw [p6, q6] at e6
    simpa [Kind.dof?] using e6
  have hbody : body = body' := by rw [← p1, ← q1]; exact e1
  subst hname hbody
  rw [p7] at q7
  obtain rfl := Option.some.inj q7
  have hom : p.base.enc.omega = q.base.enc.omega := by
    rcases hdir with h0 | h0
    · exact e9 (by rw [p2]; exact h0)
    · rw [e10 (by rw [p3, q3]; exact h0)]
  have : radiationBC p.base n dof = radiationBC q.base n dof := by
    unfold radiationBC
    rw [e1, hom, e5]
  rw [p8, q8] at this
  exact Except.ok.inj this

/-- **C10, partial, diffraction problems.** Two diffraction problems that compare equal and have the
same wave direction have the same boundary condition. Missing: the wave direction is not compared, see
`equal_diffraction_violated`. -/
theorem equal_diffraction_partial (newton) (hN : NewtonSound newton) (a a' : Args) (hg : 0 < a.g)
    (hg' : 0 < a'.g) (hz : a.seaBottom ≠ some (some 0)) (hz' : a'.seaBottom ≠ some (some 0))
    (body body' : Body) (hid : body.oid = body'.oid → body = body')
    (p q : Problem) (hp : mkDiffraction newton a body = .ok p)
    (hq : mkDiffraction newton a' body' = .ok q) (heq : p.pyEq q)
    (hdir : a.direction = a'.direction) : p.bc = q.bc := by
  have spec : ∀ (a : Args) (_ : 0 < a.g) (_ : a.seaBottom ≠ some (some 0)) (body : Body)
      (p : Problem), mkDiffraction newton a body = .ok p →
      p.base.body = body ∧ p.base.speed = a.speed ∧ p.base.direction = a.direction ∧
      encounter newton p.base.g p.base.depth p.base.freq p.base.speed p.base.direction =
        some (.ok p.base.enc) ∧ Consistent p.base.g p.base.depth p.base.freq ∧
      p.bc = .num (diffractionBC p.base) := by
    intro a hg hz body p hp
    unfold mkDiffraction at hp
    cases hb : base newton a body with
    | error e => rw [hb] at hp; simp at hp
    | ok b =>
      rw [hb] at hp
      obtain ⟨s1, s2, s3, s4, s5, s6⟩ := base_spec newton hN a hg hz body b hb
      simp only at hp
      split at hp
      · cases hp
      · simp only [Except.ok.injEq] at hp
        subst hp
        exact ⟨s1, s2, s3, s5, s6, rfl⟩
  obtain ⟨p1, p2, p3, p4, p5, p6⟩ := spec a hg hz body p hp
  obtain ⟨q1, q2, q3, q4, q5, q6⟩ := spec a' hg' hz' body' q hq
  obtain ⟨e1, e2, e3, e4, e5, e6, e7, e8, e9, e10⟩ := pyEq_spec newton heq
    (by rw [p1, q1]; exact hid) p5 q5 p4 q4
  have hd : p.base.direction = q.base.direction := by rw [p3, q3]; exact hdir
  have henc := e10 hd
  have hairy : p.base.airy = q.base.airy := by
    simp only [Base.airy, e8, e2, e3, e7, e4, hd, henc]
  have hbc : diffractionBC p.base = diffractionBC q.base := by
    funext i
    unfold diffractionBC
    rw [e1, hairy]
  rw [p6, q6, hbc]

/-! ## Violations -/

/-- One panel at the origin facing the direction `x`, with one dof. -/
noncomputable def panelBody : Body :=
  { oid := 0, name := "panel", n := 1, lid := 0, center := fun _ => ⟨0, 0, 0⟩,
    normal := fun _ => ⟨1, 0, 0⟩, area := fun _ => 1, dofs := [("Surge", fun _ => ⟨1, 0, 0⟩)] }

/-- Infinite depth, `ω = g = 1`. -/
noncomputable def unitArgs (speed direction : ℝ) : Args :=
  { freeSurface := ((0 : ℝ) : Input), waterDepth := none, seaBottom := none,
    omega := some ((1 : ℝ) : Input), period := none, wavenumber := none, wavelength := none,
    speed := speed, rho := 1, g := 1, direction := direction }

theorem unit_depth : acceptedDepth ((0 : ℝ) : Input) none none = .ok ⊤ := by
  unfold acceptedDepth getWaterDepth
  simp

theorem unit_frequencies (newton) (w : ℝ) (hw : w ≠ 0) :
    getFrequencies newton 1 ⊤ (some ((w : ℝ) : Input)) none none none =
      .ok ⟨.real w, .real (2 * Real.pi / w), .real (w ^ 2), .real (2 * Real.pi / w ^ 2), .omega⟩ := by
  simp only [getFrequencies, frequenciesFrom]
  rw [if_neg (by simp), if_neg (by simp [hw]), if_neg (by simp)]
  simp only [if_true, WithTop.untopD_coe, div_one]

theorem base_ok (newton) (a : Args) (body : Body) (depth : Input) (f : Frequencies) (enc : Encounter)
    (hd : acceptedDepth a.freeSurface a.waterDepth a.seaBottom = .ok depth)
    (hf : getFrequencies newton a.g depth a.omega a.period a.wavenumber a.wavelength = .ok f)
    (hs : ¬ (a.speed ≠ 0 ∧ symbolic f.omega = true)) (hn : body.n ≠ 0)
    (he : encounter newton a.g depth f a.speed a.direction = some (.ok enc)) :
    base newton a body =
      .ok ⟨body, a.freeSurface, depth, f, enc, a.speed, a.rho, a.g, a.direction⟩ := by
  unfold base
  rw [hd]
  simp only
  rw [hf]
  simp only
  rw [if_neg hs, if_neg hn, he]

/-- The attributes of a problem created with `unitArgs`, when its encounter frequency is `w`. -/
noncomputable def unitBase (body : Body) (speed direction w : ℝ) : Base :=
  ⟨body, ((0 : ℝ) : Input), ⊤, ⟨.real 1, .real (2 * Real.pi / 1), .real (1 ^ 2),
    .real (2 * Real.pi / 1 ^ 2), .omega⟩, ⟨.real w, .real (2 * Real.pi / w), .real (w ^ 2),
    .real (2 * Real.pi / w ^ 2), direction⟩, speed, 1, 1, direction⟩

theorem unit_base (newton) (speed direction w : ℝ) (body : Body) (hn : body.n ≠ 0)
    (hw : 1 - 1 ^ 2 * speed * Real.cos direction = w) (hpos : 0 < w) :
    base newton (unitArgs speed direction) body = .ok (unitBase body speed direction w) := by
  refine base_ok newton _ body ⊤ _ _ unit_depth (unit_frequencies newton 1 one_ne_zero)
    (by simp [symbolic]) hn ?_
  change encounter newton 1 ⊤ _ speed direction = _
  by_cases hs : speed = 0
  · subst hs
    rw [encounter_no_speed]
    have : w = 1 := by rw [← hw]; ring
    rw [this]
  · unfold encounter
    rw [if_pos hs]
    simp only [hw, abs_of_pos hpos, unit_frequencies newton w hpos.ne', ge_iff_le]
    rw [if_pos hpos.le]

theorem mkDiffraction_ok (newton) (a : Args) (body : Body) (b : Base) (h : base newton a body = .ok b)
    (hs : symbolic b.freq.omega = false) :
    mkDiffraction newton a body = .ok ⟨b, .diffraction, .num (diffractionBC b)⟩ := by
  unfold mkDiffraction
  rw [h]
  simp [hs]

/-- **C10 is violated**: two diffraction problems for perpendicular wave directions compare equal,
but impose different boundary conditions. -/
theorem equal_diffraction_violated (newton) : ∃ p q : Problem,
    mkDiffraction newton (unitArgs 0 0) panelBody = .ok p ∧
    mkDiffraction newton (unitArgs 0 (Real.pi / 2)) panelBody = .ok q ∧ p.pyEq q ∧ p.bc ≠ q.bc := by
  have h := fun d => unit_base newton 0 d 1 panelBody (by simp [panelBody]) (by simp) one_pos
  refine ⟨_, _, mkDiffraction_ok newton _ _ _ (h 0) rfl, mkDiffraction_ok newton _ _ _ (h _) rfl, rfl, ?_⟩
  intro hc
  have hc' := congrFun (SV.num.inj hc) 0
  simp [diffractionBC, panelBody, Base.airy, Airy.velocity, Airy.velocityFactor, Airy.cih, Airy.wbar,
    Airy.Pb.shallow, realValue, unitBase] at hc'

/-- **C10 is violated**: a problem with a user-defined boundary condition compares equal to a
diffraction problem. -/
theorem equal_generic_violated (newton) : ∃ p q : Problem,
    mkDiffraction newton (unitArgs 0 0) panelBody = .ok p ∧
    mkGeneric newton (unitArgs 0 0) panelBody (fun _ => 0) = .ok q ∧ p.pyEq q ∧ p.bc ≠ q.bc := by
  have h := fun d => unit_base newton 0 d 1 panelBody (by simp [panelBody]) (by simp) one_pos
  refine ⟨_, ⟨unitBase panelBody 0 0 1, .generic, .num fun _ => 0⟩,
    mkDiffraction_ok newton _ _ _ (h 0) rfl, ?_, rfl, ?_⟩
  · unfold mkGeneric
    rw [h 0]
  · intro hc
    have hc' := congrFun (SV.num.inj hc) 0
    simp [diffractionBC, panelBody, Base.airy, Airy.velocity, Airy.velocityFactor, Airy.cih, Airy.wbar,
      Airy.Pb.shallow, realValue, unitBase] at hc'

theorem surge_lower : ddofdxDotN "Surge" panelBody = some fun _ => 0 := by
  unfold ddofdxDotN
  rw [if_neg (by decide), if_neg (by decide), if_pos (by decide)]

theorem speed_problem (newton) (direction w : ℝ)
    (hw : 1 - 1 ^ 2 * (1 / 2) * Real.cos direction = w) (hpos : 0 < w) :
    mkRadiation newton (unitArgs (1 / 2) direction) panelBody (some "Surge") =
      .ok ⟨unitBase panelBody (1 / 2) direction w, .radiation "Surge",
        .num fun i => (-Complex.I * (w : ℂ)) * dofDotN panelBody (fun _ => ⟨1, 0, 0⟩) i + 0⟩ := by
  unfold mkRadiation
  rw [unit_base newton (1 / 2) direction w panelBody (by simp [panelBody]) hw hpos]
  have hl : panelBody.dofs.lookup "Surge" = some fun _ => ⟨1, 0, 0⟩ := rfl
  have hd : panelBody.dofs = [("Surge", fun _ => ⟨1, 0, 0⟩)] := rfl
  have hbc : radiationBC (unitBase panelBody (1 / 2) direction w) "Surge" (fun _ => ⟨1, 0, 0⟩) =
      .ok (.num fun i => (-Complex.I * (w : ℂ)) * dofDotN panelBody (fun _ => ⟨1, 0, 0⟩) i + 0) := by
    unfold radiationBC
    have h3 : ddofdxDotN "Surge" (unitBase panelBody (1 / 2) direction w).body = some fun _ => 0 :=
      surge_lower
    simp only [h3]
    simp [unitBase, quantitySV, SV.numMul, SV.smulVec, SV.map, concretize]
  simp only [hd, Option.getD_some]
  simp only [← hd, hl, hbc]

/-- **C10 is violated with forward speed**: two radiation problems for different wave directions have
different encounter frequencies, hence different boundary conditions, but compare equal. -/
theorem equal_radiation_violated (newton) : ∃ p q : Problem,
    mkRadiation newton (unitArgs (1 / 2) 0) panelBody (some "Surge") = .ok p ∧
    mkRadiation newton (unitArgs (1 / 2) (Real.pi / 2)) panelBody (some "Surge") = .ok q ∧
    p.pyEq q ∧ p.bc ≠ q.bc := by
  refine ⟨_, _, speed_problem newton 0 (1 / 2) (by simp; norm_num) (by norm_num),
    speed_problem newton (Real.pi / 2) 1 (by simp) (by norm_num), rfl, ?_⟩
  intro hc
  have hc' := congrFun (SV.num.inj hc) 0
  simp [dofDotN, panelBody, V3.dot] at hc'

/-- The hypotheses of the partial theorems are met by these problems. -/
example : 0 < (unitArgs (1 / 2) 0).g ∧ (unitArgs (1 / 2) 0).seaBottom ≠ some (some 0) ∧
    ∃ p, mkRadiation exactNewton (unitArgs (1 / 2) 0) panelBody (some "Surge") = .ok p :=
  ⟨one_pos, by simp [unitArgs], _, speed_problem _ 0 (1 / 2) (by simp; norm_num) (by norm_num)⟩

end Verif.Problems
