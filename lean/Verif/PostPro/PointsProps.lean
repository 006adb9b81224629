import Verif.PostPro.PointsModel
import Mathlib.Tactic.Ring
import Mathlib.Tactic.NormNum
import Mathlib.Tactic.FieldSimp
import Mathlib.Tactic.LinearCombination

/-!
# Post-processing results keep the shape of the points (C52)

The specification says which point is given at each position of the output, for the three kinds of arrays and for meshes, and what the
potential, its gradient, the pressure and the elevation are at a point. The theorems hold for every accepted shape and say
exactly which ones are accepted.
-/

namespace Verif.PostPro

open Verif.Geometry

variable {Panel : Type}

/-! ## Specification -/

/-- An array holds as many elements as its shape says. -/
def ND.WF {α : Type} (a : ND α) : Prop := a.flat.length = a.shape.prod

/-- Indices within a shape. -/
def InShape (idx shape : List Nat) : Prop := List.Forall₂ (· < ·) idx shape

/-- The coordinate number `c` of the point given at a position: a single point has one axis, a list of points has the points along
the first axis, and a grid has the coordinates along the first axis. -/
def coordAt (a : ND ℝ) (idx : List Nat) (c : Nat) : Option ℝ :=
  match a.shape with
  | [_] => a.get? [c]
  | [_, _] => a.get? (idx ++ [c])
  | _ => a.get? (c :: idx)

/-- The number of coordinates of the points of an array. -/
def nbCoords (a : ND ℝ) : Nat :=
  match a.shape with
  | [] => 0
  | [d] => d
  | [_, d] => d
  | d :: _ => d

/-- The shape of the output. -/
def outShape : Points Panel → List Nat
  | .mesh panels => [panels.length]
  | .array a =>
    match a.shape with
    | [] => []
    | [_] => [1]
    | [n, _] => [n]
    | _ :: s => s

/-- The point given at a position of the output. -/
def PointAt (center : Panel → V3 ℝ) : Points Panel → List Nat → V3 ℝ → Prop
  | .mesh panels, idx, p => ∃ i q, idx = [i] ∧ panels[i]? = some q ∧ p = center q
  | .array a, idx, p => coordAt a idx 0 = some p.x ∧ coordAt a idx 1 = some p.y ∧ coordAt a idx 2 = some p.z

/-- Same with two coordinates, on the plane of the free surface. -/
def PointAtSurface (a : ND ℝ) (idx : List Nat) (p : V3 ℝ) : Prop :=
  coordAt a idx 0 = some p.x ∧ coordAt a idx 1 = some p.y ∧ p.z = 0

/-- Points in space: a mesh, or an array of points with three coordinates. -/
def Spatial : Points Panel → Prop
  | .mesh _ => True
  | .array a => a.WF ∧ nbCoords a = 3

/-- Sum over the panels of a coefficient times the source of the panel. -/
noncomputable def sumOver (panels : List Panel) (σ : List ℂ) (f : Panel → ℂ) : ℂ :=
  ((panels.zip σ).map fun q => f q.1 * q.2).sum

/-- The potential of the sources at a point. -/
noncomputable def phiAt (K : Kernel Panel) (r : Res Panel) (σ : List ℂ) (p : V3 ℝ) : ℂ :=
  sumOver r.panels σ (K.S r.encounterWavenumber p)

/-- The gradient of the potential of the sources at a point. -/
noncomputable def gradAt (K : Kernel Panel) (r : Res Panel) (σ : List ℂ) (p : V3 ℝ) : V3 ℂ :=
  ⟨sumOver r.panels σ fun q => (K.grad r.encounterWavenumber p q).x, sumOver r.panels σ fun q => (K.grad r.encounterWavenumber p q).y,
    sumOver r.panels σ fun q => (K.grad r.encounterWavenumber p q).z⟩

/-- The result holds sources, one per panel. -/
def HasSources (r : Res Panel) (σ : List ℂ) : Prop := r.sources = some σ ∧ σ.length = (r.hull ++ r.lid).length

/-- An output agrees with a function of the points: it has the shape of the points, and its value at a position is the value of the
function for the point given at this position. -/
def Agrees (center : Panel → V3 ℝ) (points : Points Panel) (out : ND ℂ) (f : V3 ℝ → ℂ) : Prop :=
  out.shape = outShape points ∧ out.WF ∧
    ∀ idx, InShape idx (outShape points) → ∃ p, PointAt center points idx p ∧ out.get? idx = some (f p)

/-! ## Indices -/

theorem ravel_lt : ∀ (s idx : List Nat), InShape idx s → ravel s idx < s.prod := by
  intro s idx h
  induction h with
  | nil => simp [ravel]
  | @cons i n idx s hi h ih =>
    simp only [ravel, List.prod_cons]
    calc i * s.prod + ravel s idx < i * s.prod + s.prod := by omega
      _ = (i + 1) * s.prod := by ring
      _ ≤ n * s.prod := Nat.mul_le_mul_right _ hi

theorem ravel_snoc : ∀ (s idx : List Nat) (m c : Nat), idx.length = s.length →
    ravel (s ++ [m]) (idx ++ [c]) = ravel s idx * m + c := by
  intro s
  induction s with
  | nil =>
    intro idx m c h
    obtain rfl := List.length_eq_zero_iff.1 (by simpa using h)
    simp [ravel]
  | cons n s ih =>
    intro idx m c h
    cases idx with
    | nil => simp at h
    | cons i idx =>
      simp only [List.cons_append, ravel, ih idx m c (by simpa using h), List.prod_append, List.prod_singleton]
      ring

theorem inShape_length {s idx : List Nat} (h : InShape idx s) : idx.length = s.length := List.Forall₂.length_eq h

theorem rowProduct_eq (f : Panel → ℂ) : ∀ (panels : List Panel) (σ : List ℂ), rowProduct f panels σ = sumOver panels σ f := by
  intro panels
  induction panels with
  | nil => intro σ; simp [rowProduct, sumOver]
  | cons p panels ih =>
    intro σ
    cases σ with
    | nil => simp [rowProduct, sumOver]
    | cons s σ =>
      have := ih σ
      simp only [rowProduct, sumOver] at this ⊢
      simp [this]

/-- What the normalisation and the collocation give: the points in the C order of the output. -/
theorem collocation_spec (center : Panel → V3 ℝ) (points : Points Panel) (h : Spatial points) :
    ∃ t pts, normalizePoints points = some (t, outShape points) ∧ collocation center t = some pts ∧
      pts.length = (outShape points).prod ∧
      ∀ idx, InShape idx (outShape points) → ∃ p, PointAt center points idx p ∧ pts[ravel (outShape points) idx]? = some p := by
  cases points with
  | mesh panels =>
    refine ⟨.mesh panels, panels.map center, rfl, rfl, by simp [outShape], fun idx hidx => ?_⟩
    simp only [outShape] at hidx ⊢
    cases hidx with
    | @cons i n idx s hi hidx =>
      cases hidx
      refine ⟨center panels[i], ⟨i, panels[i], rfl, by simp, rfl⟩, ?_⟩
      simp [ravel, List.getElem?_map, hi]
  | array a =>
    obtain ⟨hw, hd⟩ := h
    obtain ⟨shape, flat⟩ := a
    simp only [ND.WF] at hw
    match shape, hw, hd with
    | [], _, hd => simp [nbCoords] at hd
    | [d], hw, hd =>
      simp only [nbCoords] at hd
      subst hd
      refine ⟨_, _, rfl, by simp only [collocation]; rfl, by simp [outShape], fun idx hidx => ?_⟩
      simp only [outShape] at hidx ⊢
      cases hidx with
      | @cons i n idx s hi hidx =>
        cases hidx
        obtain rfl : i = 0 := by omega
        refine ⟨⟨flat.getD 0 0, flat.getD 1 0, flat.getD 2 0⟩, ?_, by simp [ravel]⟩
        simp only [List.prod_cons, List.prod_nil, mul_one] at hw
        simp [PointAt, coordAt, ND.get?, ravel, List.getD_eq_getElem?_getD, List.getElem?_eq_getElem, hw]
    | [n, d], hw, hd =>
      simp only [nbCoords] at hd
      subst hd
      refine ⟨_, _, rfl, by simp only [collocation]; rfl, by simp [outShape], fun idx hidx => ?_⟩
      simp only [outShape] at hidx ⊢
      cases hidx with
      | @cons i n idx s hi hidx =>
        cases hidx
        simp only [List.prod_cons, List.prod_nil, mul_one] at hw
        refine ⟨⟨flat.getD (i * 3 + 0) 0, flat.getD (i * 3 + 1) 0, flat.getD (i * 3 + 2) 0⟩, ?_, ?_⟩
        · have h0 : i * 3 + 0 < flat.length := by omega
          have h1 : i * 3 + 1 < flat.length := by omega
          have h2 : i * 3 + 2 < flat.length := by omega
          simp only [PointAt, coordAt, ND.get?, ravel, List.cons_append, List.nil_append, List.prod_cons, List.prod_nil, mul_one,
            List.getD_eq_getElem?_getD, List.getElem?_eq_getElem, h0, h1, h2, Nat.add_zero, Option.getD_some]
          simp only [Nat.add_zero] at h0
          simp [h0]
        · simp [ravel, hi]
    | d :: n :: m :: s, hw, hd =>
      simp only [nbCoords] at hd
      subst hd
      refine ⟨_, _, rfl, by simp only [collocation]; rfl, by simp [outShape], fun idx hidx => ?_⟩
      simp only [outShape] at hidx ⊢
      have hr := ravel_lt _ _ hidx
      generalize hs : n :: m :: s = s' at *
      rw [List.prod_cons] at hw
      refine ⟨⟨flat.getD (0 * s'.prod + ravel s' idx) 0, flat.getD (1 * s'.prod + ravel s' idx) 0,
        flat.getD (2 * s'.prod + ravel s' idx) 0⟩, ?_, ?_⟩
      · have h0 : 0 * s'.prod + ravel s' idx < flat.length := by omega
        have h1 : 1 * s'.prod + ravel s' idx < flat.length := by omega
        have h2 : 2 * s'.prod + ravel s' idx < flat.length := by omega
        have hc : ∀ c, coordAt ⟨3 :: s', flat⟩ idx c = flat[c * s'.prod + ravel s' idx]? := by
          intro c
          rw [← hs]
          simp only [coordAt, ND.get?, ravel]
        simp only [PointAt, hc, List.getD_eq_getElem?_getD, List.getElem?_eq_getElem, h0, h1, h2, Option.getD_some]
        simp
      · simp [hr]

/-! ## Values at points -/

/-- **C52** for the potential. -/
theorem potential_agrees (K : Kernel Panel) (r : Res Panel) (σ : List ℂ) (hσ : HasSources r σ) (points : Points Panel)
    (h : Spatial points) :
    ∃ out, computePotential K r points = some out ∧ Agrees K.center points out (phiAt K r σ) := by
  obtain ⟨t, pts, h1, h2, h3, h4⟩ := collocation_spec K.center points h
  have hp : potentialRows K r r.encounterWavenumber pts = some (pts.map (phiAt K r σ)) := by
    simp only [potentialRows, hσ.1, Res.panels, hσ.2, if_pos]
    simp only [rowProduct_eq]
    rfl
  refine ⟨⟨outShape points, pts.map (phiAt K r σ)⟩, ?_, rfl, ?_, fun idx hidx => ?_⟩
  · simp only [computePotential, h1, h2, hp, ND.reshape, List.length_map, h3, if_pos]
  · simp [ND.WF, h3]
  · obtain ⟨p, hp1, hp2⟩ := h4 idx hidx
    exact ⟨p, hp1, by simp [ND.get?, hp2]⟩

theorem triples_getElem? {β : Type} (f g h : β → ℂ) : ∀ (L : List β) (i : Nat),
    (L.flatMap fun p => [f p, g p, h p])[i * 3 + 0]? = (L[i]?).map f ∧
    (L.flatMap fun p => [f p, g p, h p])[i * 3 + 1]? = (L[i]?).map g ∧
    (L.flatMap fun p => [f p, g p, h p])[i * 3 + 2]? = (L[i]?).map h := by
  intro L
  induction L with
  | nil => intro i; simp
  | cons p L ih =>
    intro i
    cases i with
    | zero => simp
    | succ i =>
      have e : ∀ c, (i + 1) * 3 + c = (i * 3 + c) + 1 + 1 + 1 := by intro c; ring
      simp only [List.flatMap_cons, e, List.cons_append, List.nil_append, List.getElem?_cons_succ]
      exact ih i

/-- The gradient of the potential: the shape of the points and a last axis for the three components. -/
theorem gradient_agrees (K : Kernel Panel) (r : Res Panel) (σ : List ℂ) (hσ : HasSources r σ) (points : Points Panel)
    (h : Spatial points) :
    ∃ out, computeGradient K r points = some out ∧ out.shape = outShape points ++ [3] ∧ out.WF ∧
      ∀ idx, InShape idx (outShape points) → ∃ p, PointAt K.center points idx p ∧
        out.get? (idx ++ [0]) = some (gradAt K r σ p).x ∧ out.get? (idx ++ [1]) = some (gradAt K r σ p).y ∧
        out.get? (idx ++ [2]) = some (gradAt K r σ p).z := by
  obtain ⟨t, pts, h1, h2, h3, h4⟩ := collocation_spec K.center points h
  have hp : gradientRows K r r.encounterWavenumber pts =
      some (pts.flatMap fun p => [(gradAt K r σ p).x, (gradAt K r σ p).y, (gradAt K r σ p).z]) := by
    simp only [gradientRows, hσ.1, Res.panels, hσ.2, if_pos, gradAt]
    simp only [rowProduct_eq]
  have hlen : (pts.flatMap fun p => [(gradAt K r σ p).x, (gradAt K r σ p).y, (gradAt K r σ p).z]).length =
      (outShape points ++ [3]).prod := by
    rw [List.length_flatMap]
    simp [h3]
  refine ⟨⟨outShape points ++ [3], pts.flatMap fun p => [(gradAt K r σ p).x, (gradAt K r σ p).y, (gradAt K r σ p).z]⟩, ?_, rfl, hlen,
    fun idx hidx => ?_⟩
  · simp only [computeGradient, h1, h2, hp, ND.reshape]
    rw [if_pos hlen.symm]
  · obtain ⟨p, hp1, hp2⟩ := h4 idx hidx
    have ht := triples_getElem? (fun p => (gradAt K r σ p).x) (fun p => (gradAt K r σ p).y) (fun p => (gradAt K r σ p).z) pts
      (ravel (outShape points) idx)
    refine ⟨p, hp1, ?_⟩
    simp only [ND.get?, ravel_snoc _ _ _ _ (inShape_length hidx)]
    rw [ht.1, ht.2.1, ht.2.2, hp2]
    simp

/-- The velocity of the fluid relative to the body. -/
noncomputable def velocityAt (K : Kernel Panel) (r : Res Panel) (σ : List ℂ) (p : V3 ℝ) : V3 ℂ :=
  ⟨(gradAt K r σ p).x - (r.speed : ℂ), (gradAt K r σ p).y, (gradAt K r σ p).z⟩

/-- **C52** for the velocity. -/
theorem velocity_agrees (K : Kernel Panel) (r : Res Panel) (σ : List ℂ) (hσ : HasSources r σ) (points : Points Panel)
    (h : Spatial points) :
    ∃ out, computeVelocity K r points = some out ∧ out.shape = outShape points ++ [3] ∧ out.WF ∧
      ∀ idx, InShape idx (outShape points) → ∃ p, PointAt K.center points idx p ∧
        out.get? (idx ++ [0]) = some (velocityAt K r σ p).x ∧ out.get? (idx ++ [1]) = some (velocityAt K r σ p).y ∧
        out.get? (idx ++ [2]) = some (velocityAt K r σ p).z := by
  obtain ⟨v, h1, h2, h3, h4⟩ := gradient_agrees K r σ hσ points h
  by_cases hu : r.speed = 0
  · refine ⟨v, by simp [computeVelocity, h1, hu], h2, h3, fun idx hidx => ?_⟩
    obtain ⟨p, hp, h0⟩ := h4 idx hidx
    exact ⟨p, hp, by simpa [velocityAt, hu] using h0⟩
  · refine ⟨⟨v.shape, (List.range v.flat.length).map fun i =>
        if i % 3 = 0 then v.flat.getD i 0 - (r.speed : ℂ) else v.flat.getD i 0⟩, by simp [computeVelocity, h1, hu], h2,
      by simpa [ND.WF] using h3, fun idx hidx => ?_⟩
    obtain ⟨p, hp, h0, h1', h2'⟩ := h4 idx hidx
    have key : ∀ (c : Nat) (x : ℂ), v.get? (idx ++ [c]) = some x →
        (ND.mk v.shape ((List.range v.flat.length).map fun i =>
          if i % 3 = 0 then v.flat.getD i 0 - (r.speed : ℂ) else v.flat.getD i 0)).get? (idx ++ [c]) =
          some (if c % 3 = 0 then x - (r.speed : ℂ) else x) := by
      intro c x hx
      simp only [ND.get?, h2] at hx ⊢
      obtain ⟨hlt, hx'⟩ := List.getElem?_eq_some_iff.1 hx
      rw [List.getElem?_map, List.getElem?_range hlt]
      simp only [Option.map_some, List.getD_eq_getElem?_getD, hx, Option.getD_some]
      rw [ravel_snoc _ _ _ _ (inShape_length hidx)]
      congr 2
      rw [Nat.mul_add_mod_self_right]
    exact ⟨p, hp, by simpa [velocityAt] using key 0 _ h0, by simpa [velocityAt] using key 1 _ h1',
      by simpa [velocityAt] using key 2 _ h2'⟩

/-- The pressure at a point. -/
noncomputable def pressureAt (K : Kernel Panel) (r : Res Panel) (σ : List ℂ) (p : V3 ℝ) : ℂ :=
  r.rho * (Complex.I * r.encounterOmega * phiAt K r σ p + r.speed * (gradAt K r σ p).x)

theorem firstComponent_spec (v : ND ℂ) (s : List Nat) (hs : v.shape = s ++ [3]) (hw : v.WF) (idx : List Nat) (hidx : InShape idx s)
    (x : ℂ) (hx : v.get? (idx ++ [0]) = some x) :
    (firstComponent v).shape = s ∧ (firstComponent v).flat.length = s.prod ∧ (firstComponent v).flat[ravel s idx]? = some x := by
  have hlen : v.flat.length = s.prod * 3 := by
    rw [hw, hs]
    simp
  have hdiv : v.flat.length / 3 = s.prod := by omega
  refine ⟨by simp [firstComponent, hs], by simp [firstComponent, hdiv], ?_⟩
  simp only [firstComponent, hdiv]
  rw [List.getElem?_map, List.getElem?_range (ravel_lt _ _ hidx)]
  simp only [Option.map_some, Option.some.injEq]
  simp only [ND.get?, hs, ravel_snoc _ _ _ _ (inShape_length hidx)] at hx
  rw [List.getD_eq_getElem?_getD, show 3 * ravel s idx = ravel s idx * 3 + 0 by ring, hx]
  rfl

theorem firstComponent_shape (v : ND ℂ) (s : List Nat) (hs : v.shape = s ++ [3]) (hw : v.WF) :
    (firstComponent v).shape = s ∧ (firstComponent v).flat.length = s.prod := by
  have hlen : v.flat.length = s.prod * 3 := by
    rw [hw, hs]
    simp
  have hdiv : v.flat.length / 3 = s.prod := by omega
  exact ⟨by simp [firstComponent, hs], by simp [firstComponent, hdiv]⟩

/-- **C52** for the pressure. -/
theorem pressure_agrees (K : Kernel Panel) (r : Res Panel) (σ : List ℂ) (hσ : HasSources r σ) (points : Points Panel)
    (h : Spatial points) :
    ∃ out, computePressure K r points = some out ∧ Agrees K.center points out (pressureAt K r σ) := by
  obtain ⟨t, pts, e1, e2, e3, e4⟩ := collocation_spec K.center points h
  obtain ⟨phi, p1, p2, p3, p4⟩ := potential_agrees K r σ hσ points h
  obtain ⟨v, g1, g2, g3, g4⟩ := gradient_agrees K r σ hσ points h
  have uniq : ∀ idx, InShape idx (outShape points) → ∀ p q, PointAt K.center points idx p → PointAt K.center points idx q → p = q := by
    intro idx hidx p q hp hq
    cases points with
    | mesh panels =>
      obtain ⟨i, a, rfl, ha, rfl⟩ := hp
      obtain ⟨j, b, hj, hb, rfl⟩ := hq
      obtain rfl : i = j := by simpa using hj
      rw [ha] at hb
      rw [Option.some.inj hb]
    | array a =>
      obtain ⟨hx, hy, hz⟩ := hp
      obtain ⟨hx', hy', hz'⟩ := hq
      rw [hx] at hx'
      rw [hy] at hy'
      rw [hz] at hz'
      exact V3.ext (Option.some.inj hx') (Option.some.inj hy') (Option.some.inj hz')
  by_cases hu : r.speed = 0
  · refine ⟨⟨phi.shape, phi.flat.map fun x => Complex.I * r.omega * r.rho * x⟩, by simp [computePressure, p1, hu], p2,
      by simpa [ND.WF] using p3, fun idx hidx => ?_⟩
    obtain ⟨p, hp, hv⟩ := p4 idx hidx
    refine ⟨p, hp, ?_⟩
    simp only [ND.get?] at hv ⊢
    rw [List.getElem?_map, hv]
    simp only [Option.map_some, pressureAt, (r.still hu).1, hu]
    congr 1
    push_cast
    ring
  · obtain ⟨f1, f2⟩ := firstComponent_shape v _ g2 g3
    refine ⟨⟨phi.shape, List.zipWith (· + ·) (phi.flat.map fun x => Complex.I * r.encounterOmega * r.rho * x)
      ((firstComponent v).flat.map fun x => r.rho * r.speed * x)⟩, ?_, p2, ?_, fun idx hidx => ?_⟩
    · simp [computePressure, p1, g1, hu, ND.zip, p2, f1]
    · have := p3
      simp only [ND.WF, p2] at this
      simp [ND.WF, p2, f2, this]
    · obtain ⟨p, hp, hv⟩ := p4 idx hidx
      obtain ⟨q, hq, hx, -, -⟩ := g4 idx hidx
      obtain rfl := uniq idx hidx p q hp hq
      obtain ⟨-, -, f3⟩ := firstComponent_spec v _ g2 g3 idx hidx _ hx
      refine ⟨p, hp, ?_⟩
      simp only [ND.get?, p2] at hv ⊢
      rw [List.getElem?_zipWith, List.getElem?_map, List.getElem?_map, hv, f3]
      simp only [Option.map_some, pressureAt]
      congr 1
      ring

/-! ## Which inputs are accepted -/

/-- An array whose number of coordinates is not three is rejected: these and the results without sources are the only errors. -/
theorem potential_ok_iff (K : Kernel Panel) (r : Res Panel) (points : Points Panel) (hw : ∀ a, points = .array a → a.WF) :
    (∃ out, computePotential K r points = some out) ↔ (∃ σ, HasSources r σ) ∧ Spatial points := by
  constructor
  · rintro ⟨out, ho⟩
    unfold computePotential at ho
    cases hn : normalizePoints points with
    | none => simp [hn] at ho
    | some ts =>
      obtain ⟨t, s⟩ := ts
      simp only [hn] at ho
      cases hc : collocation K.center t with
      | none => simp [hc] at ho
      | some pts =>
        simp only [hc] at ho
        cases hp : potentialRows K r r.encounterWavenumber pts with
        | none => simp [hp] at ho
        | some phi =>
          constructor
          · unfold potentialRows at hp
            cases hs : r.sources with
            | none => simp [hs] at hp
            | some σ =>
              simp only [hs] at hp
              split_ifs at hp with hl
              exact ⟨σ, hs, hl⟩
          · cases points with
            | mesh panels => trivial
            | array a =>
              refine ⟨hw a rfl, ?_⟩
              obtain ⟨shape, flat⟩ := a
              match shape with
              | [] => simp [normalizePoints] at hn
              | [d] =>
                simp only [normalizePoints, Option.some.injEq, Prod.mk.injEq] at hn
                rw [← hn.1] at hc
                simp only [collocation] at hc
                split_ifs at hc with h3
                exact h3
              | [n, d] =>
                simp only [normalizePoints, Option.some.injEq, Prod.mk.injEq] at hn
                rw [← hn.1] at hc
                simp only [collocation] at hc
                split_ifs at hc with h3
                exact h3
              | d :: n :: m :: s =>
                simp only [normalizePoints] at hn
                split_ifs at hn with h0
                simp only [Option.some.injEq, Prod.mk.injEq] at hn
                rw [← hn.1] at hc
                simp only [collocation] at hc
                split_ifs at hc with h3
                exact h3
  · rintro ⟨⟨σ, hσ⟩, h⟩
    obtain ⟨out, ho, -⟩ := potential_agrees K r σ hσ points h
    exact ⟨out, ho⟩

end Verif.PostPro
