import Verif.Green.NearProps

/-!
# Points close to the plane of a panel

Closer to the plane of the panel than `1e-4` times its radius, the code removes the term `AT` from the integral, but keeps its
derivative (`Green_Rankine.f90:115-141`). The gradient returned is then not the derivative of the value returned.
-/

namespace Verif.Green

open Verif.Geometry V3

/-- The derivative of what remains of a side close to the plane of the panel. -/
noncomputable def sideFlat (M : V3 ℝ) (f : Face) (l : Fin 4) : V3 ℝ :=
  if dk f l < 1e-3 * f.radius then 0 else
  let R := rr M f (l + 1) + rr M f l
  Real.log ((R + dk f l) / (R - dk f l)) • gyx f l +
    (gy M f l * ((R - dk f l) - (R + dk f l)) / ((R + dk f l) * (R - dk f l))) • (drx M f (l + 1) + drx M f l)

/-- The other terms that the code returns for a side close to the plane of the panel. -/
noncomputable def sideExtra (M : V3 ℝ) (f : Face) (l : Fin 4) : V3 ℝ :=
  if dk f l < 1e-3 * f.radius then 0 else
  let R := rr M f (l + 1) + rr M f l
  let ANT := 2 * gy M f l * dk f l
  let DNT := R ^ 2 - dk f l * dk f l + 2 * |gz M f| * R
  (2 * |gz M f| / (ANT * ANT + DNT * DNT)) • (DNT • ((2 * dk f l) • gyx f l)
    - ANT • ((2 * (R + |gz M f|)) • (drx M f (l + 1) + drx M f l) + (2 * fsign (gz M f) * R) • f.normal))

theorem side_flat_gradient {M : V3 ℝ} {f : Face} {l : Fin 4} (hz : |gz M f| < 1e-4 * f.radius) (hc : Clear M f l) :
    Gradient (fun p => (side p f l).1) M (sideFlat M f l) := by
  intro γ v τ hγ hs
  subst hγ
  rcases lt_or_ge (dk f l) (1e-3 * f.radius) with hsmall | hbig
  · have e : ∀ p, side p f l = (0, 0) := fun p => side_neglected hsmall
    simp only [e, sideFlat, if_pos hsmall]
    refine (hasDerivAt_const τ (0 : ℝ)).congr_deriv ?_
    simp [V3.dot]
  obtain ⟨hgy, hA0, hB0, hD⟩ := hc.resolve_left (not_lt.2 hbig)
  have dGZ : HasDerivAt (fun t => gz (γ t) f) (V3.dot f.normal v) τ := (hs.sub_const f.center).dot f.normal
  have dGY : HasDerivAt (fun t => gy (γ t) f l) (V3.dot (gyx f l) v) τ := (hs.sub_const (f.nodes l)).dot (gyx f l)
  have dA : HasDerivAt (fun t => rr (γ t) f (l + 1)) (V3.dot (drx (γ τ) f (l + 1)) v) τ :=
    (hs.sub_const (f.nodes (l + 1))).norm hA0
  have dB : HasDerivAt (fun t => rr (γ t) f l) (V3.dot (drx (γ τ) f l) v) τ := (hs.sub_const (f.nodes l)).norm hB0
  have hev : (fun t => (side (γ t) f l).1) =ᶠ[nhds τ] fun t =>
      gy (γ t) f l * Real.log ((rr (γ t) f (l + 1) + rr (γ t) f l + dk f l) / (rr (γ t) f (l + 1) + rr (γ t) f l - dk f l)) := by
    filter_upwards [(dGZ.continuousAt.abs).eventually (gt_mem_nhds hz),
      (dGY.continuousAt.abs).eventually (lt_mem_nhds hgy)] with t h2 h3
    unfold side
    simp only
    rw [if_pos hbig]
    simp only
    rw [if_neg (not_lt.2 h3.le), if_neg (not_le.2 h2)]
    ring
  refine HasDerivAt.congr_of_eventuallyEq ?_ hev
  have hApos : 0 < rr (γ τ) f (l + 1) := lt_of_le_of_ne (norm_nonneg' _) (Ne.symm hA0)
  have hBpos : 0 < rr (γ τ) f l := lt_of_le_of_ne (norm_nonneg' _) (Ne.symm hB0)
  have hDpos : 0 ≤ dk f l := norm_nonneg' _
  have hlt : dk f l < rr (γ τ) f (l + 1) + rr (γ τ) f l := lt_of_le_of_ne (dk_le _ _ _) hD
  simp only [sideFlat, if_neg (not_lt.2 hbig), dot_add', dot_smul']
  generalize hd' : dk f l = d at *
  have dR := dA.add dB
  have hsum : 0 < rr (γ τ) f (l + 1) + rr (γ τ) f l + d := by linarith
  have hdif : 0 < rr (γ τ) f (l + 1) + rr (γ τ) f l - d := by linarith
  have dL := ((dR.add_const d).div (dR.sub_const d) hdif.ne').log (div_pos hsum hdif).ne'
  refine (dGY.mul dL).congr_deriv ?_
  simp only [Pi.add_apply, Pi.div_apply]
  generalize Real.log _ = Lg
  have h1 := hsum.ne'
  have h2 := hdif.ne'
  field_simp

theorem side_flat_extra {M : V3 ℝ} {f : Face} (l : Fin 4) (hz : |gz M f| < 1e-4 * f.radius) :
    (side M f l).2 = sideFlat M f l - sideExtra M f l := by
  rcases lt_or_ge (dk f l) (1e-3 * f.radius) with hsmall | hbig
  · rw [side_neglected hsmall, sideFlat, sideExtra, if_pos hsmall, if_pos hsmall]
    ext <;> simp
  · unfold side sideFlat sideExtra
    simp only
    rw [if_pos hbig, if_neg (not_lt.2 hbig), if_neg (not_lt.2 hbig)]
    simp only
    rw [if_neg (not_le.2 hz)]
    ext <;> simp

/-- Close to the plane of the panel, the gradient returned is the derivative of the value returned if and only if the terms in
excess vanish. -/
theorem exact_gradient_close_iff {M : V3 ℝ} {f : Face} (hz : |gz M f| < 1e-4 * f.radius) (hc : ∀ l, Clear M f l) :
    Gradient (fun p => (exact p f true).1) M (exact M f true).2 ↔
      sideExtra M f 0 + sideExtra M f 1 + sideExtra M f 2 + sideExtra M f 3 = 0 := by
  have hg : Gradient (fun p => (exact p f true).1) M (sideFlat M f 0 + sideFlat M f 1 + sideFlat M f 2 + sideFlat M f 3) := by
    intro γ v τ hγ hs
    have d := fun l => side_flat_gradient hz (hc l) γ v τ hγ hs
    refine ((((d 0).add (d 1)).add (d 2)).add (d 3)).congr_deriv ?_
    simp only [dot_add']
  have e : (exact M f true).2 = sideFlat M f 0 + sideFlat M f 1 + sideFlat M f 2 + sideFlat M f 3 -
      (sideExtra M f 0 + sideExtra M f 1 + sideExtra M f 2 + sideExtra M f 3) := by
    simp only [exact, if_true, side_flat_extra _ hz]
    ext <;> simp <;> ring
  constructor
  · intro h
    have := gradient_unique hg h
    rw [e] at this
    generalize sideExtra M f 0 + sideExtra M f 1 + sideExtra M f 2 + sideExtra M f 3 = w at *
    have hx := congrArg V3.x this
    have hy := congrArg V3.y this
    have hz := congrArg V3.z this
    simp at hx hy hz
    ext
    · show w.x = 0
      linarith
    · show w.y = 0
      linarith
    · show w.z = 0
      linarith
  · intro h
    rw [e, h]
    have : ∀ w : V3 ℝ, w - 0 = w := by intro w; ext <;> simp
    rw [this]
    exact hg

/-- Above the middle of a rectangle, as close as one wants to its plane, the gradient returned is not the derivative. -/
theorem close_gradient_violated (z : ℝ) (h0 : 0 < z) (h1 : z < 5e-4) :
    ¬ Gradient (fun p => (exact p rectangle true).1) ⟨0, 0, z⟩ (exact ⟨0, 0, z⟩ rectangle true).2 := by
  have hgz : gz ⟨0, 0, z⟩ rectangle = z := by simp [gz, V3.dot, rectangle]
  have hab : |gz ⟨0, 0, z⟩ rectangle| = z := by rw [hgz, abs_of_pos h0]
  have hr : ∀ k, rr ⟨0, 0, z⟩ rectangle k = Real.sqrt (25 + z ^ 2) := by
    intro k
    fin_cases k <;> simp [rr, V3.norm, V3.dot, rectangle] <;> congr 1 <;> ring
  have hs5 : 5 < Real.sqrt (25 + z ^ 2) := by
    rw [Real.lt_sqrt (by norm_num)]
    nlinarith
  have hdr : ∀ k, (drx ⟨0, 0, z⟩ rectangle k).z = (Real.sqrt (25 + z ^ 2))⁻¹ * z := by
    intro k
    unfold drx
    rw [hr]
    fin_cases k <;> simp [rectangle]
  have d0 : dk rectangle 0 = 6 := norm_eq (by norm_num) (by simp [V3.dot, rectangle]; norm_num)
  have d1 : dk rectangle 1 = 8 := norm_eq (by norm_num) (by simp [V3.dot, rectangle]; norm_num)
  have d2 : dk rectangle 2 = 6 := norm_eq (by norm_num) (by simp [V3.dot, rectangle]; norm_num)
  have d3 : dk rectangle 3 = 8 := norm_eq (by norm_num) (by simp [V3.dot, rectangle]; norm_num)
  have g0 : gy ⟨0, 0, z⟩ rectangle 0 = 4 := by rw [gy, gyx, d0]; simp [V3.dot, rectangle]; norm_num
  have g1 : gy ⟨0, 0, z⟩ rectangle 1 = 3 := by rw [gy, gyx, d1]; simp [V3.dot, rectangle]; norm_num
  have g2 : gy ⟨0, 0, z⟩ rectangle 2 = 4 := by rw [gy, gyx, d2]; simp [V3.dot, rectangle]; norm_num
  have g3 : gy ⟨0, 0, z⟩ rectangle 3 = 3 := by rw [gy, gyx, d3]; simp [V3.dot, rectangle]; norm_num
  have hdk : ∀ l, 6 ≤ dk rectangle l ∧ dk rectangle l ≤ 8 := by
    intro l
    have : l = 0 ∨ l = 1 ∨ l = 2 ∨ l = 3 := by omega
    rcases this with rfl | rfl | rfl | rfl
    · rw [d0]; norm_num
    · rw [d1]; norm_num
    · rw [d2]; norm_num
    · rw [d3]; norm_num
  have hgy : ∀ l, 3 ≤ gy ⟨0, 0, z⟩ rectangle l := by
    intro l
    have : l = 0 ∨ l = 1 ∨ l = 2 ∨ l = 3 := by omega
    rcases this with rfl | rfl | rfl | rfl
    · rw [g0]; norm_num
    · rw [g1]
    · rw [g2]; norm_num
    · rw [g3]
  have hyz : ∀ l, (gyx rectangle l).z = 0 := by
    intro l
    fin_cases l <;> simp [gyx, rectangle, V3.cross]
  have hclear : ∀ l, Clear ⟨0, 0, z⟩ rectangle l := by
    intro l
    right
    rw [hr, hr]
    refine ⟨?_, by linarith, by linarith, ?_⟩
    · rw [abs_of_pos (by linarith [hgy l])]
      have := hgy l
      norm_num at this ⊢
      linarith
    · have := (hdk l).2
      intro h
      linarith
  have hz : |gz ⟨0, 0, z⟩ rectangle| < 1e-4 * rectangle.radius := by
    rw [hab]
    norm_num [rectangle] at h1 ⊢
    linarith
  rw [exact_gradient_close_iff hz hclear]
  have hneg : ∀ l, (sideExtra ⟨0, 0, z⟩ rectangle l).z < 0 := by
    intro l
    have hb : ¬ dk rectangle l < 1e-3 * rectangle.radius := by
      have := (hdk l).1
      norm_num [rectangle] at this ⊢
      linarith
    have hf : fsign (gz ⟨0, 0, z⟩ rectangle) = 1 := by rw [hgz, fsign, if_pos h0.le]
    simp only [sideExtra, if_neg hb, hr, hab, hf]
    simp only [smul_z, sub_z, add_z, hdr, hyz]
    have hn : rectangle.normal.z = 1 := rfl
    rw [hn]
    generalize Real.sqrt (25 + z ^ 2) = s at *
    have hk := hdk l
    have hy := hgy l
    generalize dk rectangle l = d at *
    generalize gy ⟨0, 0, z⟩ rectangle l = y at *
    have hi : 0 < s⁻¹ := by positivity
    have hANT : 0 < 2 * y * d := by nlinarith
    have hfac : 0 < 2 * z / (2 * y * d * (2 * y * d) +
        ((s + s) ^ 2 - d * d + 2 * z * (s + s)) * ((s + s) ^ 2 - d * d + 2 * z * (s + s))) := by
      apply div_pos (by linarith)
      have := mul_pos hANT hANT
      nlinarith [mul_self_nonneg ((s + s) ^ 2 - d * d + 2 * z * (s + s))]
    have hin : 0 < 2 * (s + s + z) * (s⁻¹ * z + s⁻¹ * z) + 2 * 1 * (s + s) * 1 := by
      have : 0 < s⁻¹ * z := mul_pos hi h0
      have : 0 < s := by linarith
      positivity
    have := mul_pos hfac (mul_pos hANT hin)
    simp only [mul_zero, zero_sub]
    nlinarith
  intro h
  have := congrArg V3.z h
  simp only [add_z] at this
  have h0' : (0 : V3 ℝ).z = 0 := rfl
  rw [h0'] at this
  linarith [hneg 0, hneg 1, hneg 2, hneg 3]

end Verif.Green
