import Verif.PostPro.ElevationProps
import Verif.PostPro.FieldModel
import Mathlib.Tactic.Positivity

/-!
# Post-processing by chunks (C53), pressure of the solver (C80), elevation (C81) and far field (C82)
-/

namespace Verif.PostPro

open Verif.Geometry

variable {Panel : Type}

/-! ## Chunks -/

theorem extractRange_eq (mesh : List Panel) (i j : Nat) : extractRange mesh i j = (mesh.drop i).take (j - i) := by
  unfold extractRange
  generalize j - i = n
  induction n generalizing i with
  | zero => simp
  | succ n ih =>
    rw [List.range'_succ, List.filterMap_cons, ih (i + 1)]
    by_cases hi : i < mesh.length
    · rw [List.getElem?_eq_getElem hi, List.drop_eq_getElem_cons hi, List.take_succ_cons]
    · rw [List.getElem?_eq_none (by omega), List.drop_eq_nil_of_le (by omega), List.drop_eq_nil_of_le (by omega)]
      simp

/-- The potential at the centers of the panels for a wavenumber. -/
noncomputable def meshPotential (K : Kernel Panel) (r : Res Panel) (σ : List ℂ) (k : ℝ) (mesh : List Panel) : List ℂ :=
  mesh.map fun q => sumOver r.panels σ (K.S k (K.center q))

theorem rows_mesh (K : Kernel Panel) (r : Res Panel) (σ : List ℂ) (hσ : HasSources r σ) (k : ℝ) (mesh : List Panel) :
    potentialRows K r k (mesh.map K.center) = some (meshPotential K r σ k mesh) := by
  simp only [potentialRows, hσ.1, Res.panels, hσ.2, if_pos, List.map_map]
  congr 1
  refine List.map_congr_left fun q _ => ?_
  simp only [Function.comp, rowProduct_eq]
  rfl

theorem chunk_fold (K : Kernel Panel) (r : Res Panel) (σ : List ℂ) (hσ : HasSources r σ) (mesh : List Panel) (c : Nat) (hc : 0 < c) :
    ∀ n, n ≤ (mesh.length + c - 1) / c →
      ((List.range n).map (· * c)).foldlM (chunkStep K r mesh c) (List.replicate mesh.length none) =
        some (((meshPotential K r σ r.wavenumber mesh).take (n * c)).map some ++ List.replicate (mesh.length - n * c) none) := by
  intro n
  induction n with
  | zero => intro _; simp
  | succ n ih =>
    intro hn
    have hlt : n * c < mesh.length := by
      have h1 : (n + 1) * c ≤ mesh.length + c - 1 := le_trans (Nat.mul_le_mul_right c hn) (Nat.div_mul_le_self _ _)
      have h2 : (n + 1) * c = n * c + c := by ring
      omega
    rw [List.range_succ, List.map_append, List.foldlM_append, ih (by omega)]
    simp only [List.map_cons, List.map_nil, List.foldlM_cons, List.foldlM_nil, Option.bind_eq_bind, Option.bind_some]
    set T := meshPotential K r σ r.wavenumber mesh with hT
    have hTl : T.length = mesh.length := by simp [hT, meshPotential]
    have hvals : potentialRows K r r.wavenumber ((extractRange mesh (n * c) (min (n * c + c) mesh.length)).map K.center) =
        some ((T.drop (n * c)).take (min (n * c + c) mesh.length - n * c)) := by
      rw [extractRange_eq, rows_mesh K r σ hσ]
      simp [hT, meshPotential, List.map_take, List.map_drop]
    have hmin : (T.drop (n * c)).take (min (n * c + c) mesh.length - n * c) = (T.drop (n * c)).take c := by
      rw [List.take_eq_take_iff, List.length_drop, hTl]
      omega
    unfold chunkStep
    rw [hvals, hmin]
    simp only
    have hlen1 : ((T.take (n * c)).map some).length = n * c := by
      rw [List.length_map, List.length_take, hTl]
      omega
    have hphi : ((T.take (n * c)).map some ++ List.replicate (mesh.length - n * c) (none : Option ℂ)).length = mesh.length := by
      rw [List.length_append, hlen1, List.length_replicate]
      omega
    unfold setSlice
    rw [if_pos]
    · simp only [Option.bind_some, pure]
      congr 1
      have e1 : ((T.take (n * c)).map some ++ List.replicate (mesh.length - n * c) (none : Option ℂ)).take (n * c) =
          (T.take (n * c)).map some := by
        rw [List.take_append_of_le_length (by omega)]
        exact List.take_of_length_le (by omega)
      have e2 : ((T.take (n * c)).map some ++ List.replicate (mesh.length - n * c) (none : Option ℂ)).drop (n * c + c) =
          List.replicate (mesh.length - (n + 1) * c) none := by
        rw [List.drop_append, List.drop_eq_nil_of_le (by omega), hlen1, List.nil_append, List.drop_replicate]
        congr 1
        have : (n + 1) * c = n * c + c := by ring
        omega
      rw [e1, e2, ← List.map_append]
      congr 2
      rw [show (n + 1) * c = n * c + c by ring, List.take_add]
    · rw [hphi, List.length_take, List.length_drop, hTl]
      omega

/-- **C53.** For every size of chunks greater than zero, the potential on a mesh is the list of the values at the centers of its
panels, in order. It does not depend on the size. -/
theorem chunks_exact (K : Kernel Panel) (r : Res Panel) (σ : List ℂ) (hσ : HasSources r σ) (mesh : List Panel) (chunk : ℤ)
    (hc : 0 < chunk) :
    getPotentialOnMesh K r mesh chunk =
      some (mesh.map fun q => some (sumOver (r.hull ++ r.lid) σ (K.S r.wavenumber (K.center q)))) := by
  have hs : r.sources ≠ none := by rw [hσ.1]; simp
  have hmap : (meshPotential K r σ r.wavenumber mesh).map some =
      mesh.map fun q => some (sumOver (r.hull ++ r.lid) σ (K.S r.wavenumber (K.center q))) := by
    simp only [meshPotential, List.map_map]
    rfl
  unfold getPotentialOnMesh
  rw [if_neg hs]
  split_ifs with h1 h2 h3
  · rw [rows_mesh K r σ hσ, Option.map_some, hmap]
  · omega
  · omega
  · have hpos : 0 < chunk.toNat := by omega
    rw [chunkStarts, chunk_fold K r σ hσ mesh chunk.toNat hpos _ (le_refl _)]
    have hge : mesh.length ≤ (mesh.length + chunk.toNat - 1) / chunk.toNat * chunk.toNat := by
      have := Nat.div_add_mod (mesh.length + chunk.toNat - 1) chunk.toNat
      have h4 := Nat.mod_lt (mesh.length + chunk.toNat - 1) hpos
      rw [Nat.mul_comm] at this
      omega
    rw [List.take_of_length_le (by simpa [meshPotential] using hge), Nat.sub_eq_zero_of_le hge, hmap]
    simp

/-- The other sizes: zero is an error, and a negative size gives memory that is not initialised. -/
theorem chunks_invalid (K : Kernel Panel) (r : Res Panel) (σ : List ℂ) (hσ : HasSources r σ) (mesh : List Panel) (chunk : ℤ)
    (hc : chunk ≤ 0) :
    getPotentialOnMesh K r mesh chunk = if chunk = 0 then none else some (List.replicate mesh.length none) := by
  have hs : r.sources ≠ none := by rw [hσ.1]; simp
  unfold getPotentialOnMesh
  rw [if_neg hs, if_neg (by omega)]
  split_ifs with h1 h2
  · rfl
  · rfl
  · omega

/-- **C53.** The exact condition for the two functions to give the same potential on a mesh: the sum of the sources is the same for the
wavenumber of the waves and for the encounter wavenumber, at each panel. -/
theorem chunks_agree_iff (K : Kernel Panel) (r : Res Panel) (σ : List ℂ) (hσ : HasSources r σ) (mesh : List Panel) (chunk : ℤ)
    (hc : 0 < chunk) :
    (∃ out, computePotential K r (.mesh mesh) = some out ∧ getPotentialOnMesh K r mesh chunk = some (out.flat.map some)) ↔
      ∀ q ∈ mesh, sumOver (r.hull ++ r.lid) σ (K.S r.wavenumber (K.center q)) =
        sumOver (r.hull ++ r.lid) σ (K.S r.encounterWavenumber (K.center q)) := by
  have hcl := potential_closed K r σ hσ (.mesh mesh) (.mesh mesh) [mesh.length] (mesh.map K.center) rfl rfl (by simp)
  rw [hcl, chunks_exact K r σ hσ mesh chunk hc]
  constructor
  · rintro ⟨out, ho, h⟩ q hq
    obtain rfl := Option.some.inj ho
    have h := Option.some.inj h
    simp only [List.map_map] at h
    have := List.map_inj_left.1 h q hq
    exact Option.some.inj this
  · intro h
    refine ⟨_, rfl, ?_⟩
    simp only [List.map_map]
    congr 1
    refine List.map_congr_left fun q hq => ?_
    simp only [Function.comp, phiAt, Res.panels]
    rw [h q hq]

/-- **C53** without forward speed. -/
theorem chunks_agree (K : Kernel Panel) (r : Res Panel) (σ : List ℂ) (hσ : HasSources r σ) (hu : r.speed = 0) (mesh : List Panel)
    (chunk : ℤ) (hc : 0 < chunk) :
    ∃ out, computePotential K r (.mesh mesh) = some out ∧ getPotentialOnMesh K r mesh chunk = some (out.flat.map some) :=
  (chunks_agree_iff K r σ hσ mesh chunk hc).2 fun q _ => by rw [(r.still hu).2]

/-! ## Pressure of the solver -/

/-- **C80.** The pressure on the hull that is integrated by the solver is the one of `compute_pressure` on the mesh of the hull, with
and without forward speed, with and without lid. -/
theorem solver_pressure (K : Kernel Panel) (r : Res Panel) (σ : List ℂ) (hσ : HasSources r σ) :
    ∃ out, computePressure K r (.mesh r.hull) = some out ∧ solvePressure K r = some out.flat ∧
      out.flat = r.hull.map fun q => pressureAt K r σ (K.center q) := by
  have hcl := potential_closed K r σ hσ (.mesh r.hull) (.mesh r.hull) [r.hull.length] (r.hull.map K.center) rfl rfl (by simp)
  have hgr := gradient_closed K r σ hσ (.mesh r.hull) (.mesh r.hull) [r.hull.length] (r.hull.map K.center) rfl rfl (by simp)
  have hgp := gradient_closed K r σ hσ (.mesh r.panels) (.mesh r.panels) [r.panels.length] (r.panels.map K.center) rfl rfl (by simp)
  by_cases hu : r.speed = 0
  · have hval : ∀ p, Complex.I * r.omega * r.rho * phiAt K r σ p = pressureAt K r σ p := by
      intro p
      simp only [pressureAt, (r.still hu).1, hu]
      push_cast
      ring
    refine ⟨⟨[r.hull.length], (r.hull.map fun q => pressureAt K r σ (K.center q))⟩, ?_, ?_, rfl⟩
    · simp only [computePressure, hcl, hu, ne_eq, not_true_eq_false, if_false, List.map_map]
      congr 2
      exact List.map_congr_left fun q _ => hval _
    · simp only [solvePressure, hu, ne_eq, not_true_eq_false, if_false]
      rw [rows_mesh K r σ hσ]
      simp only [meshPotential, List.map_map, Res.panels, List.map_append, Option.some.injEq]
      rw [List.take_left' (by simp)]
      refine List.map_congr_left fun q _ => ?_
      rw [← hval]
      simp only [Function.comp, phiAt, (r.still hu).2, Res.panels]
  · have hval : ∀ p, Complex.I * r.encounterOmega * r.rho * phiAt K r σ p + r.rho * r.speed * (gradAt K r σ p).x =
        pressureAt K r σ p := by
      intro p
      simp only [pressureAt]
      ring
    refine ⟨⟨[r.hull.length], (r.hull.map fun q => pressureAt K r σ (K.center q))⟩, ?_, ?_, rfl⟩
    · simp only [computePressure, hcl, hgr, hu, ne_eq, not_false_eq_true, if_true, List.map_map, firstComponent_closed, ND.zip, if_pos]
      congr 2
      rw [List.zipWith_map_left, List.zipWith_map_right, List.zipWith_self]
      exact List.map_congr_left fun q _ => hval _
    · simp only [solvePressure, hu, ne_eq, not_false_eq_true, if_true, hgp, firstComponent_closed]
      rw [rows_mesh K r σ hσ]
      simp only [meshPotential, List.map_map, Option.some.injEq]
      rw [List.zipWith_map_left, List.zipWith_map_right, List.zipWith_self]
      simp only [Res.panels, List.map_append]
      rw [List.take_left' (by simp)]
      refine List.map_congr_left fun q _ => ?_
      rw [← hval]
      simp only [Function.comp, phiAt, Res.panels]

/-! ## Elevation -/

/-- **C81.** Without forward speed, the two functions for the elevation agree on every mesh, and the elevation is the pressure divided
by `ρ g`. -/
theorem elevations_agree (K : Kernel Panel) (r : Res Panel) (σ : List ℂ) (hσ : HasSources r σ) (hu : r.speed = 0) (mesh : List Panel) :
    ∃ out, computeElevation K r (.mesh mesh) = some out ∧ getElevation K r mesh = some (out.flat.map some) := by
  have hcl := elevation_closed K r σ hσ (.mesh mesh) (.mesh mesh) [mesh.length] (mesh.map K.center) rfl rfl (by simp)
  refine ⟨_, hcl, ?_⟩
  simp only [getElevation, hu, ne_eq, not_true_eq_false, if_false]
  rw [chunks_exact K r σ hσ mesh 50 (by norm_num)]
  simp only [Option.map_some, List.map_map, Option.some.injEq]
  refine List.map_congr_left fun q _ => ?_
  simp only [Function.comp, Option.map_some, Option.some.injEq, elevationAt, phiAt, Res.panels, (r.still hu).1, (r.still hu).2, hu]
  push_cast
  ring

/-! ## Far field -/

/-- **C82.** The exact condition for the far field to be computed: the sources are there, one per panel of the hull. With a lid
there are more sources, and the function fails. -/
theorem kochin_ok_iff (center : Panel → V3 ℝ) (area : Panel → ℝ) (r : Res Panel) (σ : List ℂ) (hσ : HasSources r σ) (h : Option ℝ)
    (x y θ : ℝ) : (∃ H, computeKochin center area r h x y θ = some H) ↔ r.lid = [] := by
  unfold computeKochin
  rw [hσ.1]
  have hl := hσ.2
  rw [List.length_append] at hl
  constructor
  · rintro ⟨H, hH⟩
    simp only at hH
    split_ifs at hH with h1
    exact List.length_eq_zero_iff.1 (by omega)
  · intro h0
    rw [h0] at hl
    simp only
    rw [if_pos (by simpa using hl)]
    exact ⟨_, rfl⟩

theorem sumOver_smul (c : ℂ) (f g : Panel → ℂ) : ∀ (panels : List Panel) (σ : List ℂ), (∀ q ∈ panels, f q = c * g q) →
    sumOver panels σ f = c * sumOver panels σ g := by
  intro panels
  induction panels with
  | nil => intro σ _; simp [sumOver]
  | cons p panels ih =>
    intro σ h
    cases σ with
    | nil => simp [sumOver]
    | cons s σ =>
      have := ih σ fun q hq => h q (List.mem_cons_of_mem _ hq)
      simp only [sumOver] at this ⊢
      simp only [List.zip_cons_cons, List.map_cons, List.sum_cons, this, h p (List.mem_cons_self)]
      ring

/-- **C82.** Moving the point of reference multiplies the far field by a phase. -/
theorem kochin_reference (center : Panel → V3 ℝ) (area : Panel → ℝ) (r : Res Panel) (h : Option ℝ) (x y dx dy θ : ℝ) (H : ℂ)
    (hH : computeKochin center area r h x y θ = some H) :
    computeKochin center area r h (x + dx) (y + dy) θ =
      some (Complex.exp (Complex.I * r.wavenumber * ((dx * Real.cos θ + dy * Real.sin θ : ℝ) : ℂ)) * H) := by
  unfold computeKochin at hH ⊢
  cases hs : r.sources with
  | none => simp [hs] at hH
  | some σ =>
    simp only [hs] at hH ⊢
    split_ifs at hH ⊢ with hl
    obtain rfl := Option.some.inj hH
    congr 1
    rw [rowProduct_eq, rowProduct_eq]
    rw [sumOver_smul (Complex.exp (Complex.I * r.wavenumber * ((dx * Real.cos θ + dy * Real.sin θ : ℝ) : ℂ)))
      _ (fun q => kochinCoeff r.wavenumber h x y θ (center q) (area q))]
    · ring
    · intro q _
      simp only [kochinCoeff]
      have e : -Complex.I * (r.wavenumber : ℂ) * ((((center q).x - (x + dx)) * Real.cos θ + ((center q).y - (y + dy)) * Real.sin θ : ℝ) : ℂ) =
          Complex.I * r.wavenumber * ((dx * Real.cos θ + dy * Real.sin θ : ℝ) : ℂ) +
          -Complex.I * (r.wavenumber : ℂ) * ((((center q).x - x) * Real.cos θ + ((center q).y - y) * Real.sin θ : ℝ) : ℂ) := by
        push_cast
        ring
      rw [e, Complex.exp_add]
      ring

/-- **C82.** Moving all the panels horizontally with the point of reference does not change the far field. -/
theorem kochin_translate (center : Panel → V3 ℝ) (area : Panel → ℝ) (r : Res Panel) (h : Option ℝ) (x y dx dy θ : ℝ) :
    computeKochin (fun q => ⟨(center q).x + dx, (center q).y + dy, (center q).z⟩) area r h (x + dx) (y + dy) θ =
      computeKochin center area r h x y θ := by
  unfold computeKochin kochinCoeff
  simp only [add_sub_add_right_eq_sub]

/-- **C82.** Between the bottom and the surface, the vertical profile differs by less than `exp(-20)` from the one of Airy waves, for all
wavenumbers and depths, whichever formula is used. -/
theorem kochin_profile_error (k h z : ℝ) (hk : 0 ≤ k) (hz : -h ≤ z) (hz0 : z ≤ 0) :
    |Real.cosh (k * (z + h)) / Real.cosh (k * h) - kochinProfile k (some h) z| ≤ Real.exp (-20) := by
  rcases lt_or_ge (k * h) 20 with hlt | hkh
  · have hp : kochinProfile k (some h) z = Real.cosh (k * (z + h)) / Real.cosh (k * h) := by
      simp only [kochinProfile]
      rw [if_pos ⟨mul_nonneg hk (by linarith), hlt⟩]
    rw [hp, sub_self, abs_zero]
    exact (Real.exp_pos _).le
  have hp : kochinProfile k (some h) z = Real.exp (k * z) := by
    simp only [kochinProfile]
    rw [if_neg]
    rintro ⟨-, h2⟩
    linarith
  rw [hp]
  have hc : 0 < Real.cosh (k * h) := Real.cosh_pos _
  have e1 : Real.cosh (k * (z + h)) - Real.exp (k * z) * Real.cosh (k * h) =
      (Real.exp (-(k * h)) * (Real.exp (-(k * z)) - Real.exp (k * z))) / 2 := by
    rw [Real.cosh_eq, Real.cosh_eq]
    have a1 : Real.exp (k * (z + h)) = Real.exp (k * z) * Real.exp (k * h) := by rw [← Real.exp_add]; ring_nf
    have a2 : Real.exp (-(k * (z + h))) = Real.exp (-(k * h)) * Real.exp (-(k * z)) := by rw [← Real.exp_add]; ring_nf
    rw [a1, a2]
    ring
  have e2 : Real.cosh (k * (z + h)) / Real.cosh (k * h) - Real.exp (k * z) =
      ((Real.exp (-(k * h)) * (Real.exp (-(k * z)) - Real.exp (k * z))) / 2) / Real.cosh (k * h) := by
    rw [← e1]
    field_simp
  have hkz : k * z ≤ 0 := mul_nonpos_of_nonneg_of_nonpos hk hz0
  have hkz' : -(k * h) ≤ k * z := by
    have := mul_le_mul_of_nonneg_left hz hk
    linarith [this, mul_neg k h]
  have hnn : 0 ≤ Real.exp (-(k * z)) - Real.exp (k * z) := by
    have : Real.exp (k * z) ≤ Real.exp (-(k * z)) := Real.exp_le_exp.2 (by linarith)
    linarith
  rw [e2, abs_of_nonneg (by positivity), div_le_iff₀ hc]
  have h1 : Real.exp (-(k * z)) - Real.exp (k * z) ≤ Real.exp (k * h) := by
    have : Real.exp (-(k * z)) ≤ Real.exp (k * h) := Real.exp_le_exp.2 (by linarith)
    linarith [Real.exp_pos (k * z)]
  have h2 : Real.exp (-(k * h)) ≤ Real.exp (-20) := Real.exp_le_exp.2 (by linarith)
  have h3 : Real.exp (k * h) / 2 ≤ Real.cosh (k * h) := by
    rw [Real.cosh_eq]
    linarith [Real.exp_pos (-(k * h))]
  calc Real.exp (-(k * h)) * (Real.exp (-(k * z)) - Real.exp (k * z)) / 2
      ≤ Real.exp (-20) * Real.exp (k * h) / 2 := by
        have := mul_le_mul h2 h1 hnn (Real.exp_pos _).le
        linarith
    _ = Real.exp (-20) * (Real.exp (k * h) / 2) := by ring
    _ ≤ Real.exp (-20) * Real.cosh (k * h) := mul_le_mul_of_nonneg_left h3 (Real.exp_pos _).le

/-! ## Cases -/

/-- A Green function that depends on the wavenumber, for panels that are points. -/
noncomputable def caseKernel : Kernel (V3 ℝ) where
  center := id
  S := fun k _ _ => k
  grad := fun _ _ _ => ⟨1, 0, 0⟩

/-- A body with one panel and its result, with or without forward speed. -/
def caseRes (speed ke : ℝ) (h : speed = 0 → (2 : ℝ) = 2 ∧ ke = 1) (lid : List (V3 ℝ)) : Res (V3 ℝ) where
  hull := [⟨0, 0, -1⟩]
  lid := lid
  sources := some (1 :: lid.map fun _ => 0)
  omega := 2
  encounterOmega := 2
  wavenumber := 1
  encounterWavenumber := ke
  speed := speed
  rho := 1000
  g := 9
  still := h

theorem caseRes_sources (speed ke : ℝ) (h : speed = 0 → (2 : ℝ) = 2 ∧ ke = 1) (lid : List (V3 ℝ)) :
    HasSources (caseRes speed ke h lid) (1 :: lid.map fun _ => 0) := ⟨rfl, by simp [caseRes, Nat.add_comm]⟩

/-- A grid of 2 × 1 × 2 points meets the hypotheses. -/
def caseGrid : ND ℝ := ⟨[3, 2, 1, 2], [0, 1, 2, 3, 4, 5, 6, 7, -1, -2, -3, -4]⟩

example : Spatial (Panel := V3 ℝ) (.array caseGrid) := ⟨by simp [ND.WF, caseGrid], rfl⟩

example : InShape [1, 0, 0] (outShape (Panel := V3 ℝ) (.array caseGrid)) ∧
    PointAt (Panel := V3 ℝ) id (.array caseGrid) [1, 0, 0] ⟨2, 6, -3⟩ := by
  constructor
  · simp [InShape, outShape, caseGrid]
  · simp [PointAt, coordAt, caseGrid, ND.get?, ravel]

/-- A list and a single point, with two coordinates. -/
example : (ND.mk [2, 2] [0, 1, 2, 3] : ND ℝ).WF ∧ nbCoords ⟨[2, 2], [0, 1, 2, 3]⟩ = 2 ∧
    (ND.mk [2] [5, 6] : ND ℝ).WF ∧ nbCoords ⟨[2], [5, 6]⟩ = 2 := by
  simp [ND.WF, nbCoords]

/-- The hypotheses on the result, with a lid and forward speed, and without. -/
example : HasSources (caseRes 1 3 (fun h => absurd h one_ne_zero) [⟨0, 0, 0⟩]) [1, 0] ∧
    HasSources (caseRes 0 1 (fun _ => ⟨rfl, rfl⟩) []) [1] ∧ (caseRes 0 1 (fun _ => ⟨rfl, rfl⟩) []).speed = 0 :=
  ⟨caseRes_sources _ _ _ _, caseRes_sources _ _ _ _, rfl⟩

/-- The far field of the case without lid exists. -/
example : ∃ H, computeKochin (Panel := V3 ℝ) id (fun _ => 1) (caseRes 0 1 (fun _ => ⟨rfl, rfl⟩) []) (some 10) 0 0 0 = some H :=
  (kochin_ok_iff id (fun _ => 1) _ _ (caseRes_sources 0 1 (fun _ => ⟨rfl, rfl⟩) []) _ _ _ _).2 rfl

/-- A depth at which the exponential is used. -/
example : (0 : ℝ) ≤ 2 ∧ -(15 : ℝ) ≤ -3 ∧ (-3 : ℝ) ≤ 0 ∧ (20 : ℝ) ≤ 2 * 15 := by norm_num

/-- **C53 is violated** with forward speed: the older function uses the wavenumber of the waves, the sources were computed with the
encounter wavenumber. -/
theorem chunks_speed_violated : ∃ (K : Kernel (V3 ℝ)) (r : Res (V3 ℝ)) (σ : List ℂ) (mesh : List (V3 ℝ)), HasSources r σ ∧
    ¬ ∃ out, computePotential K r (.mesh mesh) = some out ∧ getPotentialOnMesh K r mesh 50 = some (out.flat.map some) := by
  refine ⟨caseKernel, caseRes 1 3 (fun h => absurd h one_ne_zero) [], [1], [⟨0, 0, -1⟩], caseRes_sources _ _ _ _, ?_⟩
  rw [chunks_agree_iff _ _ _ (caseRes_sources 1 3 (fun h => absurd h one_ne_zero) []) _ _ (by norm_num)]
  intro h
  have := h _ (List.mem_cons_self)
  simp [sumOver, caseRes, caseKernel] at this

/-- **C81 is violated** with forward speed: the elevation is not the pressure divided by `ρ g`. -/
theorem elevation_speed_violated : ∃ (K : Kernel (V3 ℝ)) (r : Res (V3 ℝ)) (σ : List ℂ) (p : V3 ℝ), HasSources r σ ∧ r.g ≠ 0 ∧
    r.rho ≠ 0 ∧ elevationAt K r σ p ≠ pressureAt K r σ p / (r.rho * r.g) := by
  have hg : (caseRes 1 3 (fun h => absurd h one_ne_zero) []).g ≠ 0 := by norm_num [caseRes]
  have hr : (caseRes 1 3 (fun h => absurd h one_ne_zero) []).rho ≠ 0 := by norm_num [caseRes]
  refine ⟨caseKernel, caseRes 1 3 (fun h => absurd h one_ne_zero) [], [1], ⟨0, 0, -1⟩, caseRes_sources _ _ _ _, hg, hr, ?_⟩
  rw [Ne, elevation_pressure_iff _ _ _ _ hg hr]
  simp [caseRes, caseKernel, gradAt, sumOver, Res.panels]

/-- **C82 is violated** with a lid: the far field cannot be computed. -/
theorem kochin_lid_violated : ∃ (r : Res (V3 ℝ)) (σ : List ℂ), HasSources r σ ∧ ∀ h x y θ,
    computeKochin id (fun _ => 1) r h x y θ = none := by
  refine ⟨caseRes 0 1 (fun _ => ⟨rfl, rfl⟩) [⟨0, 0, 0⟩], [1, 0], caseRes_sources _ _ _ _, fun h x y θ => ?_⟩
  simp [computeKochin, caseRes]

end Verif.PostPro
