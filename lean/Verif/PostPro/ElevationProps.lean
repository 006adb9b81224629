import Verif.PostPro.PointsProps

/-!
# Elevation of the free surface (C52, C81) and pressure (C80)

The elevation has the shape of the points, with two or three coordinates. Without forward speed it is the pressure divided by
`ρ g`. With forward speed the sign of the convective term is not the one of the pressure.
-/

namespace Verif.PostPro

open Verif.Geometry

variable {Panel : Type}

/-! ## Specification -/

/-- The elevation given by the library at a point. -/
noncomputable def elevationAt (K : Kernel Panel) (r : Res Panel) (σ : List ℂ) (p : V3 ℝ) : ℂ :=
  (Complex.I * r.encounterOmega * phiAt K r σ p - r.speed * (gradAt K r σ p).x) / r.g

/-- An output agrees with a function of points given by two coordinates, on the plane `z = 0`. -/
def AgreesOnSurface (a : ND ℝ) (out : ND ℂ) (f : V3 ℝ → ℂ) : Prop :=
  out.shape = outShape (Panel := Unit) (.array a) ∧ out.WF ∧
    ∀ idx, InShape idx out.shape → ∃ p, PointAtSurface a idx p ∧ out.get? idx = some (f p)

/-! ## Closed forms -/

theorem potential_closed (K : Kernel Panel) (r : Res Panel) (σ : List ℂ) (hσ : HasSources r σ) (points : Points Panel)
    (t : Target Panel) (s : List Nat) (pts : List (V3 ℝ)) (h1 : normalizePoints points = some (t, s))
    (h2 : collocation K.center t = some pts) (h3 : s.prod = pts.length) :
    computePotential K r points = some ⟨s, pts.map (phiAt K r σ)⟩ := by
  have hp : potentialRows K r r.encounterWavenumber pts = some (pts.map (phiAt K r σ)) := by
    simp only [potentialRows, hσ.1, Res.panels, hσ.2, if_pos]
    simp only [rowProduct_eq]
    rfl
  simp only [computePotential, h1, h2, hp, ND.reshape, List.length_map, h3, if_pos]

theorem gradient_closed (K : Kernel Panel) (r : Res Panel) (σ : List ℂ) (hσ : HasSources r σ) (points : Points Panel)
    (t : Target Panel) (s : List Nat) (pts : List (V3 ℝ)) (h1 : normalizePoints points = some (t, s))
    (h2 : collocation K.center t = some pts) (h3 : s.prod = pts.length) :
    computeGradient K r points =
      some ⟨s ++ [3], pts.flatMap fun p => [(gradAt K r σ p).x, (gradAt K r σ p).y, (gradAt K r σ p).z]⟩ := by
  have hp : gradientRows K r r.encounterWavenumber pts =
      some (pts.flatMap fun p => [(gradAt K r σ p).x, (gradAt K r σ p).y, (gradAt K r σ p).z]) := by
    simp only [gradientRows, hσ.1, Res.panels, hσ.2, if_pos, gradAt]
    simp only [rowProduct_eq]
  have hlen : (pts.flatMap fun p => [(gradAt K r σ p).x, (gradAt K r σ p).y, (gradAt K r σ p).z]).length = (s ++ [3]).prod := by
    rw [List.length_flatMap]
    simp [h3]
  simp only [computeGradient, h1, h2, hp, ND.reshape]
  rw [if_pos hlen.symm]

theorem firstComponent_closed (s : List Nat) (pts : List (V3 ℝ)) (f : V3 ℝ → V3 ℂ) :
    firstComponent ⟨s ++ [3], pts.flatMap fun p => [(f p).x, (f p).y, (f p).z]⟩ = ⟨s, pts.map fun p => (f p).x⟩ := by
  have hlen : (pts.flatMap fun p => [(f p).x, (f p).y, (f p).z]).length = pts.length * 3 := by
    rw [List.length_flatMap]
    simp
  simp only [firstComponent, hlen, Nat.mul_div_cancel _ (by norm_num : 0 < 3)]
  refine congrArg₂ ND.mk (by simp) ?_
  refine List.ext_getElem? fun i => ?_
  rw [List.getElem?_map, List.getElem?_map]
  by_cases hi : i < pts.length
  · have := (triples_getElem? (fun p => (f p).x) (fun p => (f p).y) (fun p => (f p).z) pts i).1
    rw [List.getElem?_range hi]
    simp only [Option.map_some, List.getD_eq_getElem?_getD]
    rw [show 3 * i = i * 3 + 0 by ring, this]
    simp [List.getElem?_eq_getElem hi]
  · rw [List.getElem?_eq_none (by simpa using hi), List.getElem?_eq_none (by simpa using hi)]
    rfl

/-- Points that are normalised a second time do not change. -/
theorem normalize_again (center : Panel → V3 ℝ) (t : Target Panel) (pts : List (V3 ℝ)) (h : collocation center t = some pts) :
    ∃ t', normalizePoints t.toPoints = some (t', [pts.length]) ∧ collocation center t' = some pts := by
  cases t with
  | mesh panels =>
    simp only [collocation, Option.some.injEq] at h
    subst h
    exact ⟨.mesh panels, by simp [Target.toPoints, normalizePoints], rfl⟩
  | rows n d coord =>
    simp only [collocation] at h
    split_ifs at h with hd
    subst hd
    obtain rfl := Option.some.inj h
    refine ⟨_, by simp only [Target.toPoints, normalizePoints, List.length_map, List.length_range]; rfl, ?_⟩
    simp only [collocation, if_pos]
    congr 1
    refine List.map_congr_left fun i hi => ?_
    have hi := List.mem_range.1 hi
    have key : ∀ (L : List Nat) (j : Nat), ∀ c < 3,
        (L.flatMap fun i => (List.range 3).map fun c => coord i c)[j * 3 + c]? = (L[j]?).map fun i => coord i c := by
      intro L
      induction L with
      | nil => intro j c _; simp
      | cons x L ih =>
        intro j c hc
        have e3 : (List.range 3).map (fun c => coord x c) = [coord x 0, coord x 1, coord x 2] := rfl
        cases j with
        | zero =>
          rw [List.flatMap_cons, e3]
          have : c = 0 ∨ c = 1 ∨ c = 2 := by omega
          rcases this with rfl | rfl | rfl <;> rfl
        | succ j =>
          rw [List.flatMap_cons, e3, show (j + 1) * 3 + c = (j * 3 + c) + 1 + 1 + 1 by ring]
          simp only [List.cons_append, List.nil_append, List.getElem?_cons_succ]
          exact ih j c hc
    have hk : ∀ c < 3, ((List.range n).flatMap fun i => (List.range 3).map fun c => coord i c).getD (i * 3 + c) 0 = coord i c := by
      intro c hc
      rw [List.getD_eq_getElem?_getD, key _ _ c hc, List.getElem?_range hi]
      rfl
    exact V3.ext (hk 0 (by norm_num)) (hk 1 (by norm_num)) (hk 2 (by norm_num))

theorem elevation_closed (K : Kernel Panel) (r : Res Panel) (σ : List ℂ) (hσ : HasSources r σ) (points : Points Panel)
    (t : Target Panel) (s : List Nat) (pts : List (V3 ℝ)) (h1 : normalizeFreeSurfacePoints points = some (t, s))
    (h2 : collocation K.center t = some pts) (h3 : s.prod = pts.length) :
    computeElevation K r points = some ⟨s, pts.map (elevationAt K r σ)⟩ := by
  obtain ⟨t', n1, n2⟩ := normalize_again K.center t pts h2
  have hphi := potential_closed K r σ hσ t.toPoints t' [pts.length] pts n1 n2 (by simp)
  have hgrad := gradient_closed K r σ hσ t.toPoints t' [pts.length] pts n1 n2 (by simp)
  by_cases hu : r.speed = 0
  · simp only [computeElevation, h1, hphi, hu, ne_eq, not_true_eq_false, if_false, ND.reshape, List.length_map, h3, if_pos,
      List.map_map]
    congr 2
    refine List.map_congr_left fun p _ => ?_
    simp only [Function.comp, elevationAt, (r.still hu).1, hu]
    push_cast
    ring
  · simp only [computeElevation, h1, hphi, hgrad, hu, ne_eq, not_false_eq_true, if_true, firstComponent_closed, ND.zip, if_pos,
      ND.reshape, List.length_zipWith, List.length_map, h3, min_self, List.map_map]
    congr 2
    rw [List.zipWith_map_left, List.zipWith_map_right, List.zipWith_self]
    refine List.map_congr_left fun p _ => ?_
    simp only [Function.comp, elevationAt]
    ring

/-- Arrays of points with two coordinates. -/
theorem surface_spec (a : ND ℝ) (hw : a.WF) (hd : nbCoords a = 2) :
    ∃ n coord, normalizePoints (Panel := Panel) (.array a) = some (.rows n 2 coord, outShape (Panel := Unit) (.array a)) ∧
      n = (outShape (Panel := Unit) (.array a)).prod ∧
      ∀ idx, InShape idx (outShape (Panel := Unit) (.array a)) →
        coordAt a idx 0 = some (coord (ravel (outShape (Panel := Unit) (.array a)) idx) 0) ∧
        coordAt a idx 1 = some (coord (ravel (outShape (Panel := Unit) (.array a)) idx) 1) := by
  obtain ⟨shape, flat⟩ := a
  simp only [ND.WF] at hw
  match shape, hw, hd with
  | [], _, hd => simp [nbCoords] at hd
  | [d], hw, hd =>
    simp only [nbCoords] at hd
    subst hd
    refine ⟨_, _, rfl, by simp [outShape], fun idx hidx => ?_⟩
    simp only [outShape] at hidx ⊢
    cases hidx with
    | @cons i n idx s hi hidx =>
      cases hidx
      simp only [List.prod_cons, List.prod_nil, mul_one] at hw
      simp [coordAt, ND.get?, ravel, hw]
  | [n, d], hw, hd =>
    simp only [nbCoords] at hd
    subst hd
    refine ⟨_, _, rfl, by simp [outShape], fun idx hidx => ?_⟩
    simp only [outShape] at hidx ⊢
    cases hidx with
    | @cons i n idx s hi hidx =>
      cases hidx
      simp only [List.prod_cons, List.prod_nil, mul_one] at hw
      have h0 : i * 2 < flat.length := by omega
      have h1 : i * 2 + 1 < flat.length := by omega
      simp [coordAt, ND.get?, ravel, h0, h1]
  | d :: n :: m :: s, hw, hd =>
    simp only [nbCoords] at hd
    subst hd
    refine ⟨_, _, rfl, by simp [outShape], fun idx hidx => ?_⟩
    simp only [outShape] at hidx ⊢
    have hr := ravel_lt _ _ hidx
    generalize hs : n :: m :: s = s' at *
    rw [List.prod_cons] at hw
    have h0 : 0 * s'.prod + ravel s' idx < flat.length := by omega
    have h1 : 1 * s'.prod + ravel s' idx < flat.length := by omega
    have hc : ∀ c, coordAt ⟨2 :: s', flat⟩ idx c = flat[c * s'.prod + ravel s' idx]? := by
      intro c
      rw [← hs]
      simp only [coordAt, ND.get?, ravel]
    simp only [hc, List.getD_eq_getElem?_getD, List.getElem?_eq_getElem, h0, h1, Option.getD_some]
    simp

/-! ## Theorems -/

/-- **C52** for the elevation, with points given by three coordinates or by a mesh. -/
theorem elevation_agrees (K : Kernel Panel) (r : Res Panel) (σ : List ℂ) (hσ : HasSources r σ) (points : Points Panel)
    (h : Spatial points) :
    ∃ out, computeElevation K r points = some out ∧ Agrees K.center points out (elevationAt K r σ) := by
  obtain ⟨t, pts, h1, h2, h3, h4⟩ := collocation_spec K.center points h
  have h1' : normalizeFreeSurfacePoints points = some (t, outShape points) := by
    simp only [normalizeFreeSurfacePoints, h1]
    cases t with
    | mesh panels => rfl
    | rows n d coord =>
      simp only [collocation] at h2
      split_ifs at h2 with hd
      subst hd
      rfl
  refine ⟨_, elevation_closed K r σ hσ points t _ pts h1' h2 h3.symm, rfl, by simp [ND.WF, h3], fun idx hidx => ?_⟩
  obtain ⟨p, hp, hv⟩ := h4 idx hidx
  exact ⟨p, hp, by simp [ND.get?, hv]⟩

/-- **C52** for the elevation, with points given by two coordinates. -/
theorem elevation_agrees_surface (K : Kernel Panel) (r : Res Panel) (σ : List ℂ) (hσ : HasSources r σ) (a : ND ℝ)
    (hw : a.WF) (hd : nbCoords a = 2) :
    ∃ out, computeElevation K r (.array a) = some out ∧ AgreesOnSurface a out (elevationAt K r σ) := by
  obtain ⟨n, coord, h1, h2, h3⟩ := surface_spec (Panel := Panel) a hw hd
  have h1' : normalizeFreeSurfacePoints (Panel := Panel) (.array a) =
      some (.rows n 3 fun i c => if c = 2 then 0 else coord i c, outShape (Panel := Unit) (.array a)) := by
    simp only [normalizeFreeSurfacePoints, h1]
  have h2' : collocation K.center (.rows n 3 fun i c => if c = 2 then 0 else coord i c) =
      some ((List.range n).map fun i => ⟨coord i 0, coord i 1, 0⟩) := by
    simp [collocation]
  refine ⟨_, elevation_closed K r σ hσ _ _ _ _ h1' h2' (by simp [h2]), rfl, by simp [ND.WF, h2], fun idx hidx => ?_⟩
  obtain ⟨hx, hy⟩ := h3 idx hidx
  refine ⟨⟨coord (ravel (outShape (Panel := Unit) (.array a)) idx) 0, coord (ravel (outShape (Panel := Unit) (.array a)) idx) 1, 0⟩,
    ⟨hx, hy, rfl⟩, ?_⟩
  have hr := ravel_lt _ _ hidx
  simp only at hr
  simp [ND.get?, h2, hr]

/-- **C81.** The exact condition for the elevation to be the pressure divided by `ρ g`: no forward speed, or no convective term. -/
theorem elevation_pressure_iff (K : Kernel Panel) (r : Res Panel) (σ : List ℂ) (p : V3 ℝ) (hg : r.g ≠ 0) (hr : r.rho ≠ 0) :
    elevationAt K r σ p = pressureAt K r σ p / (r.rho * r.g) ↔ r.speed = 0 ∨ (gradAt K r σ p).x = 0 := by
  have hg' : (r.g : ℂ) ≠ 0 := by exact_mod_cast hg
  have hr' : (r.rho : ℂ) ≠ 0 := by exact_mod_cast hr
  have hu : (r.speed : ℂ) = 0 ↔ r.speed = 0 := by exact_mod_cast Iff.rfl
  rw [← hu, ← mul_eq_zero]
  simp only [elevationAt, pressureAt]
  rw [div_eq_div_iff hg' (mul_ne_zero hr' hg')]
  constructor
  · intro h
    have h2 : (r.rho : ℂ) * r.g * (2 * (r.speed * (gradAt K r σ p).x)) = 0 := by linear_combination -h
    rcases mul_eq_zero.1 h2 with h3 | h3
    · exact absurd h3 (mul_ne_zero hr' hg')
    · rcases mul_eq_zero.1 h3 with h4 | h4
      · norm_num at h4
      · exact h4
  · intro h
    linear_combination (-2 * (r.rho : ℂ) * r.g) * h

end Verif.PostPro
