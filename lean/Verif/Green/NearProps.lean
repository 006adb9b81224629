import Verif.Green.RankineProps

/-!
# C77: the Rankine integral over a near panel and its gradient

The gradient returned by the exact formula is the derivative of the returned value, for a point that is far enough from the
plane of the panel and from the lines of its sides for the formula to be the general one.
-/

namespace Verif.Green

open Verif.Geometry V3

/-! ## Triangle inequality -/

theorem norm_triangle (u v : V3 ℝ) : V3.norm (u + v) ≤ V3.norm u + V3.norm v := by
  have hu := norm_nonneg' u
  have hv := norm_nonneg' v
  refine le_of_sq_le_sq ?_ (add_nonneg hu hv)
  have hcs : V3.dot u v ≤ V3.norm u * V3.norm v := by
    refine le_of_sq_le_sq' ?_ (mul_nonneg hu hv)
    rw [mul_pow, norm_sq, norm_sq]
    simp only [V3.dot]
    nlinarith [sq_nonneg (u.x * v.y - u.y * v.x), sq_nonneg (u.x * v.z - u.z * v.x), sq_nonneg (u.y * v.z - u.z * v.y)]
  have e : V3.norm (u + v) ^ 2 = V3.norm u ^ 2 + 2 * V3.dot u v + V3.norm v ^ 2 := by
    rw [norm_sq, norm_sq, norm_sq]
    simp only [V3.dot, add_x, add_y, add_z]; ring
  nlinarith
where
  le_of_sq_le_sq {a b : ℝ} (h : a ^ 2 ≤ b ^ 2) (hb : 0 ≤ b) : a ≤ b := by
    by_contra hc
    nlinarith [not_le.1 hc]
  le_of_sq_le_sq' {a b : ℝ} (h : a ^ 2 ≤ b ^ 2) (hb : 0 ≤ b) : a ≤ b := le_of_sq_le_sq h hb

/-- A side is shorter than the way through the point. -/
theorem dk_le (M : V3 ℝ) (f : Face) (l : Fin 4) : dk f l ≤ rr M f (l + 1) + rr M f l := by
  have := norm_triangle (f.nodes (l + 1) - M) (M - f.nodes l)
  have e : f.nodes (l + 1) - M + (M - f.nodes l) = f.nodes (l + 1) - f.nodes l := by ext <;> simp
  rw [e, norm_sub_comm (f.nodes (l + 1)) M] at this
  exact this

/-! ## One side -/

/-- The point is far enough from the side: the side is neglected, or the point is not on the line of the side (within the
tolerance of the code), nor on the side. -/
def Clear (M : V3 ℝ) (f : Face) (l : Fin 4) : Prop :=
  dk f l < 1e-3 * f.radius ∨
    (1e-5 < |gy M f l| ∧ rr M f (l + 1) ≠ 0 ∧ rr M f l ≠ 0 ∧ dk f l ≠ rr M f (l + 1) + rr M f l)

theorem side_neglected {M : V3 ℝ} {f : Face} {l : Fin 4} (h : dk f l < 1e-3 * f.radius) : side M f l = (0, 0) := by
  unfold side
  simp only
  rw [if_neg (not_le.2 h)]

theorem abs_deriv {g : ℝ → ℝ} {g' τ : ℝ} (h : HasDerivAt g g' τ) (h0 : g τ ≠ 0) :
    HasDerivAt (fun t => |g t|) (fsign (g τ) * g') τ := by
  rcases lt_or_gt_of_ne h0 with hn | hp
  · have : HasDerivAt (fun t => -g t) (-g') τ := h.neg
    refine (this.congr_of_eventuallyEq ?_).congr_deriv (by rw [fsign, if_neg (not_le.2 hn)]; ring)
    filter_upwards [h.continuousAt.eventually (gt_mem_nhds hn)] with t ht
    exact abs_of_neg ht
  · refine (h.congr_of_eventuallyEq ?_).congr_deriv (by rw [fsign, if_pos hp.le]; ring)
    filter_upwards [h.continuousAt.eventually (lt_mem_nhds hp)] with t ht
    exact abs_of_pos ht

/-- The general value of a side (`Green_Rankine.f90:133`). -/
noncomputable def sideValue (M : V3 ℝ) (f : Face) (l : Fin 4) : ℝ :=
  let R := rr M f (l + 1) + rr M f l
  gy M f l * Real.log ((R + dk f l) / (R - dk f l)) -
    2 * Real.arctan (2 * gy M f l * dk f l / (R ^ 2 - dk f l * dk f l + 2 * |gz M f| * R)) * |gz M f|

theorem side_general {M : V3 ℝ} {f : Face} {l : Fin 4} (h1 : 1e-3 * f.radius ≤ dk f l) (h2 : 1e-4 * f.radius < |gz M f|)
    (h3 : 1e-5 < |gy M f l|) : (side M f l).1 = sideValue M f l := by
  unfold side sideValue
  simp only
  rw [if_pos h1]
  simp only
  rw [if_neg (not_lt.2 h3.le), if_pos h2.le]

theorem dot_add' (a b v : V3 ℝ) : V3.dot (a + b) v = V3.dot a v + V3.dot b v := by simp [V3.dot]; ring
theorem dot_sub' (a b v : V3 ℝ) : V3.dot (a - b) v = V3.dot a v - V3.dot b v := by simp [V3.dot]; ring
theorem dot_smul' (c : ℝ) (a v : V3 ℝ) : V3.dot (c • a) v = c * V3.dot a v := by simp [V3.dot]; ring
theorem dot_neg' (a v : V3 ℝ) : V3.dot (-a) v = -V3.dot a v := by simp [V3.dot]; ring

theorem side_gradient {M : V3 ℝ} {f : Face} {l : Fin 4} (hrad : 0 ≤ f.radius) (hz : 1e-4 * f.radius < |gz M f|)
    (hc : Clear M f l) : Gradient (fun p => (side p f l).1) M (side M f l).2 := by
  intro γ v τ hγ hs
  subst hγ
  rcases lt_or_ge (dk f l) (1e-3 * f.radius) with hsmall | hbig
  · have e : ∀ p, side p f l = (0, 0) := fun p => side_neglected hsmall
    simp only [e]
    refine (hasDerivAt_const τ (0 : ℝ)).congr_deriv ?_
    simp [V3.dot]
  obtain ⟨hgy, hA0, hB0, hD⟩ := hc.resolve_left (not_lt.2 hbig)
  have hz0 : gz (γ τ) f ≠ 0 := by
    intro h
    rw [h, abs_zero] at hz
    nlinarith
  -- derivatives of the elements
  have dGZ : HasDerivAt (fun t => gz (γ t) f) (V3.dot f.normal v) τ := (hs.sub_const f.center).dot f.normal
  have dZ := abs_deriv dGZ hz0
  have dGY : HasDerivAt (fun t => gy (γ t) f l) (V3.dot (gyx f l) v) τ := (hs.sub_const (f.nodes l)).dot (gyx f l)
  have dA : HasDerivAt (fun t => rr (γ t) f (l + 1)) (V3.dot (drx (γ τ) f (l + 1)) v) τ :=
    (hs.sub_const (f.nodes (l + 1))).norm hA0
  have dB : HasDerivAt (fun t => rr (γ t) f l) (V3.dot (drx (γ τ) f l) v) τ := (hs.sub_const (f.nodes l)).norm hB0
  -- the general formula holds around the point
  have hev : (fun t => (side (γ t) f l).1) =ᶠ[nhds τ] fun t => sideValue (γ t) f l := by
    filter_upwards [dZ.continuousAt.eventually (lt_mem_nhds hz),
      (dGY.continuousAt.abs).eventually (lt_mem_nhds hgy)] with t h2 h3
    exact side_general hbig h2 h3
  refine HasDerivAt.congr_of_eventuallyEq ?_ hev
  -- signs
  have hApos : 0 < rr (γ τ) f (l + 1) := lt_of_le_of_ne (norm_nonneg' _) (Ne.symm hA0)
  have hBpos : 0 < rr (γ τ) f l := lt_of_le_of_ne (norm_nonneg' _) (Ne.symm hB0)
  have hDpos : 0 ≤ dk f l := norm_nonneg' _
  have hlt : dk f l < rr (γ τ) f (l + 1) + rr (γ τ) f l := lt_of_le_of_ne (dk_le _ _ _) hD
  have hZpos : 0 < |gz (γ τ) f| := abs_pos.2 hz0
  have grad : (side (γ τ) f l).2 =
      (let R := rr (γ τ) f (l + 1) + rr (γ τ) f l
       let GZ := gz (γ τ) f
       let GY := gy (γ τ) f l
       let ANT := 2 * GY * dk f l
       let DNT := R ^ 2 - dk f l * dk f l + 2 * |GZ| * R
       let ANLX := drx (γ τ) f (l + 1) + drx (γ τ) f l
       Real.log ((R + dk f l) / (R - dk f l)) • gyx f l - (2 * fsign GZ * Real.arctan (ANT / DNT)) • f.normal
         + (GY * ((R - dk f l) - (R + dk f l)) / ((R + dk f l) * (R - dk f l))) • ANLX
         - (2 * |GZ| / (ANT * ANT + DNT * DNT)) • (DNT • ((2 * dk f l) • gyx f l)
            - ANT • ((2 * (R + |GZ|)) • ANLX + (2 * fsign GZ * R) • f.normal))) := by
    unfold side
    simp only
    rw [if_pos hbig]
    simp only
    rw [if_pos hz.le]
  rw [grad]
  clear grad hev
  unfold sideValue
  simp only [dot_add', dot_sub', dot_smul']
  generalize V3.dot (gyx f l) v = gy' at *
  generalize V3.dot f.normal v = n' at *
  generalize V3.dot (drx (γ τ) f (l + 1)) v = a' at *
  generalize V3.dot (drx (γ τ) f l) v = b' at *
  generalize hs' : fsign (gz (γ τ) f) = s at *
  generalize hd' : dk f l = d at *
  have dR := dA.add dB
  have hR : (0 : ℝ) < rr (γ τ) f (l + 1) + rr (γ τ) f l := by linarith
  have hsum : 0 < rr (γ τ) f (l + 1) + rr (γ τ) f l + d := by linarith
  have hdif : 0 < rr (γ τ) f (l + 1) + rr (γ τ) f l - d := by linarith
  have hDNT : 0 < (rr (γ τ) f (l + 1) + rr (γ τ) f l) ^ 2 - d * d + 2 * |gz (γ τ) f| * (rr (γ τ) f (l + 1) + rr (γ τ) f l) := by
    have := mul_pos (mul_pos (two_pos) hZpos) hR
    nlinarith [mul_pos hsum hdif]
  have dL := ((dR.add_const d).div (dR.sub_const d) hdif.ne').log (div_pos hsum hdif).ne'
  have dDNT := ((dR.pow 2).sub_const (d * d)).add ((dZ.const_mul 2).mul dR)
  have dANT := (dGY.const_mul 2).mul_const d
  have dAT := (dANT.div dDNT hDNT.ne').arctan
  have dT := (dGY.mul dL).sub ((dAT.const_mul 2).mul dZ)
  refine dT.congr_deriv ?_
  simp only [Pi.add_apply, Pi.mul_apply, Pi.div_apply, Pi.pow_apply]
  generalize rr (γ τ) f (l + 1) = A at *
  generalize rr (γ τ) f l = B at *
  generalize gy (γ τ) f l = y at *
  generalize |gz (γ τ) f| = Z at *
  generalize Real.log _ = Lg
  generalize hDN : (A + B) ^ 2 - d * d + 2 * Z * (A + B) = D at *
  generalize Real.arctan _ = AT
  generalize hRR : A + B = R at *
  have h1 : R + d ≠ 0 := hsum.ne'
  have h2 : R - d ≠ 0 := hdif.ne'
  have h3 : D ≠ 0 := hDNT.ne'
  have h4 : 2 * y * d * (2 * y * d) + D * D ≠ 0 := by
    have := mul_self_nonneg (2 * y * d)
    have := mul_pos hDNT hDNT
    linarith
  have h5 : 1 + (2 * y * d / D) ^ 2 ≠ 0 := by positivity
  have e1 : ((a' + b') * (R - d) - (R + d) * (a' + b')) / (R - d) ^ 2 / ((R + d) / (R - d)) =
      (R - d - (R + d)) / ((R + d) * (R - d)) * (a' + b') := by
    field_simp
  have e2 : 1 / (1 + (2 * y * d / D) ^ 2) = D ^ 2 / (2 * y * d * (2 * y * d) + D * D) := by
    rw [div_eq_div_iff h5 h4]
    field_simp
    ring
  rw [e1, e2]
  field_simp
  ring

/-! ## The whole panel -/

/-- The point is clear of the plane of the panel and of all its sides. -/
structure AllClear (M : V3 ℝ) (f : Face) : Prop where
  radius : 0 ≤ f.radius
  plane : 1e-4 * f.radius < |gz M f|
  sides : ∀ l, Clear M f l

theorem exact_gradient {M : V3 ℝ} {f : Face} (h : AllClear M f) :
    Gradient (fun p => (exact p f true).1) M (exact M f true).2 := by
  intro γ v τ hγ hs
  have d := fun l => side_gradient h.radius h.plane (h.sides l) γ v τ hγ hs
  refine ((((d 0).add (d 1)).add (d 2)).add (d 3)).congr_deriv ?_
  simp only [exact, if_true, dot_add']

/-- The panel moved without being turned. -/
def Face.translate (f : Face) (w : V3 ℝ) : Face :=
  { f with nodes := fun l => f.nodes l + w, center := f.center + w }

theorem side_translate (M w : V3 ℝ) (f : Face) (l : Fin 4) : side M (f.translate w) l = side (M - w) f l := by
  have e1 : ∀ p : V3 ℝ, M - (p + w) = M - w - p := fun p => by ext <;> simp <;> ring
  have e2 : ∀ p q : V3 ℝ, q + w - (p + w) = q - p := fun p q => by ext <;> simp
  have hz : gz M (f.translate w) = gz (M - w) f := by simp only [gz, Face.translate, e1]
  have hd : dk (f.translate w) l = dk f l := by simp only [dk, Face.translate, e2]
  have hr : ∀ k, rr M (f.translate w) k = rr (M - w) f k := fun k => by simp only [rr, Face.translate, e1]
  have hx : ∀ k, drx M (f.translate w) k = drx (M - w) f k := fun k => by
    unfold drx; rw [hr]; simp only [Face.translate, e1]
  have hg : gyx (f.translate w) l = gyx f l := by
    unfold gyx; rw [hd]; simp only [Face.translate, e2]
  have hy : gy M (f.translate w) l = gy (M - w) f l := by
    unfold gy; rw [hg]; simp only [Face.translate, e1]
  unfold side
  simp only [hz, hd, hr, hx, hg, hy]
  rfl

theorem exact_translate (M w : V3 ℝ) (f : Face) (first : Bool) :
    exact M (f.translate w) first = exact (M - w) f first := by
  simp only [exact, side_translate]

/-- For the second variable: the derivative when the panel moves. -/
theorem exact_gradient_second {M : V3 ℝ} {f : Face} (h : AllClear M f) :
    Gradient (fun w => (exact M (f.translate w) false).1) 0 (exact M f false).2 := by
  intro γ v τ hγ hs
  have h1 := exact_gradient h (fun t => M - γ t) (-v) τ (by rw [hγ]; ext <;> simp) (hs.const_sub M)
  have e : (fun t => (exact M (f.translate (γ t)) false).1) = fun t => (exact (M - γ t) f true).1 := by
    funext t
    rw [exact_translate]
    rfl
  rw [e]
  refine h1.congr_deriv ?_
  simp only [exact, if_true, Bool.false_eq_true, if_false, dot_neg']
  simp [V3.dot]
  ring

/-! ## Near or far -/

/-- The point is well on one side of the change of formula, and clear of the panel if it is near. -/
def Regular (M : V3 ℝ) (f : Face) : Prop :=
  (7 * f.radius < V3.norm (M - f.center) ∧ 1e-7 < V3.norm (M - f.center)) ∨
    (V3.norm (M - f.center) < 7 * f.radius ∧ V3.norm (M - f.center) ≠ 0 ∧ AllClear M f)

theorem rankine_gradient {M : V3 ℝ} {f : Face} (h : Regular M f) :
    Gradient (fun p => (rankine p f true).1) M (rankine M f true).2 := by
  intro γ v τ hγ hs
  subst hγ
  have h0 : V3.norm (γ τ - f.center) ≠ 0 := by
    rcases h with h | h
    · exact ne_of_gt (lt_trans (by norm_num) h.2)
    · exact h.2.1
  have hc := ((hs.sub_const f.center).norm h0).continuousAt
  rcases h with ⟨h7, hp⟩ | ⟨h7, _, hcl⟩
  · have e : (rankine (γ τ) f true).2 = (onePoint (γ τ) f.center f.area true).2 := by
      unfold rankine; rw [if_pos h7]
    rw [e]
    refine (onePoint_gradient (by rw [norm_sub_comm]; exact hp) γ v τ rfl hs).congr_of_eventuallyEq ?_
    filter_upwards [hc.eventually (lt_mem_nhds h7)] with t ht
    unfold rankine; rw [if_pos ht]
  · have e : (rankine (γ τ) f true).2 = (exact (γ τ) f true).2 := by
      unfold rankine; rw [if_neg (not_lt.2 h7.le)]
    rw [e]
    refine (exact_gradient hcl γ v τ rfl hs).congr_of_eventuallyEq ?_
    filter_upwards [hc.eventually (gt_mem_nhds h7)] with t ht
    unfold rankine; rw [if_neg (not_lt.2 (le_of_lt ht))]

theorem onePoint_translate (M w : V3 ℝ) (c : V3 ℝ) (A : ℝ) (first : Bool) :
    onePoint M (c + w) A first = onePoint (M - w) c A first := by
  have e : c + w - M = c - (M - w) := by ext <;> simp <;> ring
  simp only [onePoint, e]

theorem rankine_translate (M w : V3 ℝ) (f : Face) (first : Bool) :
    rankine M (f.translate w) first = rankine (M - w) f first := by
  have e : M - (f.center + w) = M - w - f.center := by ext <;> simp <;> ring
  unfold rankine
  rw [exact_translate]
  simp only [Face.translate, e, onePoint_translate]

theorem rankine_value (M : V3 ℝ) (f : Face) (first : Bool) : (rankine M f first).1 = (rankine M f true).1 := by
  unfold rankine
  split_ifs <;> rfl

theorem rankine_second (M : V3 ℝ) (f : Face) : (rankine M f false).2 = -(rankine M f true).2 := by
  unfold rankine
  split_ifs <;> simp [onePoint, exact]

theorem rankine_gradient_second {M : V3 ℝ} {f : Face} (h : Regular M f) :
    Gradient (fun w => (rankine M (f.translate w) false).1) 0 (rankine M f false).2 := by
  intro γ v τ hγ hs
  have h1 := rankine_gradient h (fun t => M - γ t) (-v) τ (by rw [hγ]; ext <;> simp) (hs.const_sub M)
  have e : (fun t => (rankine M (f.translate (γ t)) false).1) = fun t => (rankine (M - γ t) f true).1 := by
    funext t
    rw [rankine_translate, rankine_value]
  rw [e]
  refine h1.congr_deriv ?_
  rw [rankine_second, dot_neg']
  simp [V3.dot]
  ring

/-- The reflected term is the term of the reflected point. -/
theorem rankineReflected_eq (M : V3 ℝ) (f : Face) (first : Bool) (c : Reflection) :
    rankineReflected M f first c = ((rankine (reflectPoint c M) f true).1,
      reflectGradient c first (rankine (reflectPoint c M) f true).2) := by
  have e : Real.sqrt (Real.sqrt ((M.x - f.center.x) ^ 2 + (M.y - f.center.y) ^ 2) ^ 2 + (c.s * M.z + c.t - f.center.z) ^ 2) =
      V3.norm (reflectPoint c M - f.center) := by
    rw [Real.sq_sqrt (by positivity)]
    simp only [V3.norm, V3.dot, reflectPoint, sub_x, sub_y, sub_z]
    congr 1; ring
  simp only [rankineReflected]
  rw [e]
  unfold rankine
  split_ifs <;> rfl

theorem rankineReflected_gradient {M : V3 ℝ} {f : Face} {c : Reflection} (h : Regular (reflectPoint c M) f) :
    Gradient (fun p => (rankineReflected p f true c).1) M (rankineReflected M f true c).2 := by
  simp only [rankineReflected_eq]
  exact gradient_reflect (rankine_gradient h)

theorem rankineReflected_gradient_second {M : V3 ℝ} {f : Face} {c : Reflection} (hc : c.s = 1 ∨ c.s = -1)
    (h : Regular (reflectPoint c M) f) :
    Gradient (fun w => (rankineReflected M (f.translate w) false c).1) 0 (rankineReflected M f false c).2 := by
  simp only [rankineReflected_eq, reflectGradient_second hc, ← rankine_second]
  have := rankine_gradient_second h
  simpa only [rankine_value _ _ false] using this

/-- A rectangle, and a point above it that meets the hypotheses. -/
noncomputable def rectangle : Face where
  nodes := ![⟨-3, -4, 0⟩, ⟨3, -4, 0⟩, ⟨3, 4, 0⟩, ⟨-3, 4, 0⟩]
  center := ⟨0, 0, 0⟩
  normal := ⟨0, 0, 1⟩
  area := 48
  radius := 5

theorem norm_eq {v : V3 ℝ} {r : ℝ} (hr : 0 ≤ r) (h : V3.dot v v = r ^ 2) : V3.norm v = r := by
  rw [V3.norm, h, Real.sqrt_sq hr]

theorem rectangle_regular : Regular ⟨0, 0, 12⟩ rectangle := by
  have hc : V3.norm ((⟨0, 0, 12⟩ : V3 ℝ) - rectangle.center) = 12 :=
    norm_eq (by norm_num) (by simp [V3.dot, rectangle]; norm_num)
  refine Or.inr ⟨by rw [hc]; norm_num [rectangle], by rw [hc]; norm_num, by norm_num [rectangle], ?_, ?_⟩
  · norm_num [gz, V3.dot, rectangle]
  · have r : ∀ k, rr ⟨0, 0, 12⟩ rectangle k = 13 := by
      intro k
      fin_cases k <;> exact norm_eq (by norm_num) (by simp [V3.dot, rectangle]; norm_num)
    have d0 : dk rectangle 0 = 6 := norm_eq (by norm_num) (by simp [V3.dot, rectangle]; norm_num)
    have d1 : dk rectangle 1 = 8 := norm_eq (by norm_num) (by simp [V3.dot, rectangle]; norm_num)
    have d2 : dk rectangle 2 = 6 := norm_eq (by norm_num) (by simp [V3.dot, rectangle]; norm_num)
    have d3 : dk rectangle 3 = 8 := norm_eq (by norm_num) (by simp [V3.dot, rectangle]; norm_num)
    have g0 : gy ⟨0, 0, 12⟩ rectangle 0 = 4 := by rw [gy, gyx, d0]; simp [V3.dot, rectangle]; norm_num
    have g1 : gy ⟨0, 0, 12⟩ rectangle 1 = 3 := by rw [gy, gyx, d1]; simp [V3.dot, rectangle]; norm_num
    have g2 : gy ⟨0, 0, 12⟩ rectangle 2 = 4 := by rw [gy, gyx, d2]; simp [V3.dot, rectangle]; norm_num
    have g3 : gy ⟨0, 0, 12⟩ rectangle 3 = 3 := by rw [gy, gyx, d3]; simp [V3.dot, rectangle]; norm_num
    intro l
    right
    rw [r, r]
    have : l = 0 ∨ l = 1 ∨ l = 2 ∨ l = 3 := by omega
    rcases this with rfl | rfl | rfl | rfl
    · rw [d0, g0]; norm_num
    · rw [d1, g1]; norm_num
    · rw [d2, g2]; norm_num
    · rw [d3, g3]; norm_num

end Verif.Green
