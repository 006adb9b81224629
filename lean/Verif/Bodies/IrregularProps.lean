import Verif.Bodies.IrregularModel
import Verif.Meshes.ComponentsProps
import Verif.Meshes.BoxProps

/-!
# Irregular frequencies and lids (C87)
-/

namespace Verif.Bodies

open Verif.Geometry Verif.Meshes

/-! ## Specification -/

/-- `ω` is the lowest irregular frequency of a floating box of sizes `L` and `B` and draft `H`. -/
def BoxIrregular (g L B H ω : ℝ) : Prop :=
  0 ≤ ω ∧ ω ^ 2 * Real.tanh (Real.pi * H * √((1 / L) ^ 2 + (1 / B) ^ 2)) = Real.pi * g * √((1 / L) ^ 2 + (1 / B) ^ 2)

/-- `d` is the distance between the extreme values of the list. -/
def Extent (l : List ℝ) (d : ℝ) : Prop := ∃ a ∈ l, ∃ b ∈ l, (∀ x ∈ l, a ≤ x ∧ x ≤ b) ∧ d = b - a

/-- The sizes along `x` and `y` of the panels along a waterline. -/
def Sizes (c : Mesh (V3 ℝ)) (L B : ℝ) : Prop :=
  0 < L ∧ 0 < B ∧ Extent (c.vertices.map V3.x) L ∧ Extent (c.vertices.map V3.y) B

/-- The lowest point is at depth `H`. -/
def Lowest (m : Mesh (V3 ℝ)) (H : ℝ) : Prop := (∀ v ∈ m.vertices, -H ≤ v.z) ∧ ∃ v ∈ m.vertices, v.z = -H

/-- A clipping that only returns meshes. -/
def ClipsValid (immersed : Mesh (V3 ℝ) → Option (Mesh (V3 ℝ))) : Prop :=
  ∀ m m', m.Valid → immersed m = some m' → m'.Valid

/-! ## Lemmas -/

theorem foldl_min_le {A : Type} [LinearOrder A] (l : List A) (a x : A) :
    l.foldl min a ≤ x ↔ a ≤ x ∨ ∃ y ∈ l, y ≤ x := by
  induction l generalizing a with
  | nil => simp
  | cons b l ih => simp [ih, or_assoc]

theorem le_foldl_min {A : Type} [LinearOrder A] (l : List A) (a x : A) :
    x ≤ l.foldl min a ↔ x ≤ a ∧ ∀ y ∈ l, x ≤ y := by
  induction l generalizing a with
  | nil => simp
  | cons b l ih => simp [ih, and_assoc]

theorem foldl_min_mem {A : Type} [LinearOrder A] (l : List A) (a : A) : l.foldl min a ∈ a :: l := by
  rcases (foldl_min_le l a _).1 le_rfl with h | ⟨y, hy, h⟩
  · rw [le_antisymm ((le_foldl_min l a _).1 le_rfl).1 h]; simp
  · rw [le_antisymm (((le_foldl_min l a _).1 le_rfl).2 y hy) h]; simp [hy]

theorem foldl_max_bounds (l : List ℝ) (a : ℝ) : l.foldl max a ∈ a :: l ∧ ∀ x ∈ a :: l, x ≤ l.foldl max a := by
  induction l generalizing a with
  | nil => simp
  | cons b l ih =>
    obtain ⟨h1, h2⟩ := ih (max a b)
    refine ⟨?_, ?_⟩
    · rw [List.foldl_cons]
      rcases List.mem_cons.1 h1 with h | h
      · rw [h]; rcases max_choice a b with h | h <;> simp [h]
      · simp [h]
    · intro x hx
      rw [List.foldl_cons]
      have hm := h2 (max a b) (by simp)
      rcases List.mem_cons.1 hx with rfl | hx
      · exact (le_max_left _ _).trans hm
      · rcases List.mem_cons.1 hx with rfl | hx
        · exact (le_max_right _ _).trans hm
        · exact h2 x (by simp [hx])

theorem extent_spec {l : List ℝ} {d : ℝ} : extent l = some d ↔ Extent l d := by
  cases l with
  | nil => simp [extent, Extent]
  | cons a l =>
    have hM := foldl_max_bounds l a
    have hm := foldl_min_mem l a
    have hm' : ∀ x ∈ a :: l, l.foldl min a ≤ x := by
      intro x hx
      have := (le_foldl_min l a _).1 le_rfl
      rcases List.mem_cons.1 hx with rfl | hx
      · exact this.1
      · exact this.2 x hx
    simp only [extent, Option.some.injEq]
    constructor
    · rintro rfl
      exact ⟨_, hm, _, hM.1, fun x hx => ⟨hm' x hx, hM.2 x hx⟩, rfl⟩
    · rintro ⟨u, hu, v, hv, h, rfl⟩
      have h1 := le_antisymm (hm' u hu) (h _ hm).1
      have h2 := le_antisymm (hM.2 v hv) (h _ hM.1).2
      rw [h1, h2]

theorem Extent.unique {l : List ℝ} {d d' : ℝ} (h : Extent l d) (h' : Extent l d') : d = d' := by
  have := extent_spec.2 h
  rw [extent_spec.2 h'] at this
  exact (Option.some.inj this).symm

theorem Extent.nonneg {l : List ℝ} {d : ℝ} (h : Extent l d) : 0 ≤ d := by
  obtain ⟨a, ha, b, hb, h, rfl⟩ := h
  linarith [(h a ha).2]

theorem extent_isSome {l : List ℝ} (h : l ≠ []) : ∃ d, extent l = some d := by
  cases l with
  | nil => exact absurd rfl h
  | cons a l => exact ⟨_, rfl⟩

/-- The number `p` of the formulas. -/
noncomputable def boxNumber (L B : ℝ) : ℝ := √((1 / L) ^ 2 + (1 / B) ^ 2)

theorem boxNumber_pos {L B : ℝ} (hL : 0 < L) : 0 < boxNumber L B := by
  have : 0 < 1 / L := by positivity
  unfold boxNumber
  positivity

/-- A mesh with vertices has either sizes or no extent in one direction. -/
theorem wavenumber_cases {c : Mesh (V3 ℝ)} (h : c.vertices ≠ []) :
    (wavenumberOf c = some ⊤ ∧ ∀ L B, ¬ Sizes c L B) ∨
    ∃ L B, Sizes c L B ∧ wavenumberOf c = some ((boxNumber L B : ℝ) : WithTop ℝ) := by
  obtain ⟨dx, hx⟩ := extent_isSome (l := c.vertices.map V3.x) (by simpa using h)
  obtain ⟨dy, hy⟩ := extent_isSome (l := c.vertices.map V3.y) (by simpa using h)
  have ex := extent_spec.1 hx
  have ey := extent_spec.1 hy
  by_cases h0 : dx = 0 ∨ dy = 0
  · left
    refine ⟨by simp [wavenumberOf, hx, hy, h0], ?_⟩
    rintro L B ⟨h1, h2, h3, h4⟩
    rcases h0 with h0 | h0
    · exact h1.ne' (h3.unique ex |>.trans h0)
    · exact h2.ne' (h4.unique ey |>.trans h0)
  · right
    push Not at h0
    refine ⟨dx, dy, ⟨lt_of_le_of_ne ex.nonneg h0.1.symm, lt_of_le_of_ne ey.nonneg h0.2.symm, ex, ey⟩, ?_⟩
    simp [wavenumberOf, hx, hy, h0, boxNumber]

theorem sizes_unique {c : Mesh (V3 ℝ)} {L B L' B' : ℝ} (h : Sizes c L B) (h' : Sizes c L' B') : L = L' ∧ B = B' :=
  ⟨h.2.2.1.unique h'.2.2.1, h.2.2.2.unique h'.2.2.2⟩

theorem wavenumber_of_sizes {c : Mesh (V3 ℝ)} {L B : ℝ} (h : Sizes c L B) :
    wavenumberOf c = some ((boxNumber L B : ℝ) : WithTop ℝ) := by
  have : c.vertices ≠ [] := by
    intro h0
    obtain ⟨a, ha, -⟩ := h.2.2.1
    simp [h0] at ha
  rcases wavenumber_cases this with ⟨-, h1⟩ | ⟨L', B', h1, h2⟩
  · exact absurd h (h1 L B)
  · obtain ⟨rfl, rfl⟩ := sizes_unique h h1
    exact h2

/-- The wavenumbers of a list of waterlines. -/
theorem wavenumbers {cs : List (Mesh (V3 ℝ))} (h : ∀ c ∈ cs, c.vertices ≠ []) :
    ∃ ps, cs.mapM wavenumberOf = some ps ∧
      (∀ p : ℝ, (p : WithTop ℝ) ∈ ps ↔ ∃ c ∈ cs, ∃ L B, Sizes c L B ∧ p = boxNumber L B) := by
  induction cs with
  | nil => exact ⟨[], rfl, by simp⟩
  | cons c cs ih =>
    obtain ⟨ps, h1, h2⟩ := ih fun c hc => h c (by simp [hc])
    rcases wavenumber_cases (h c (by simp)) with ⟨h3, h4⟩ | ⟨L, B, h3, h4⟩
    · refine ⟨⊤ :: ps, by simp [List.mapM_cons, h1, h3], ?_⟩
      intro p
      simp only [List.mem_cons, WithTop.coe_ne_top, false_or, h2, exists_eq_or_imp]
      constructor
      · exact Or.inr
      · rintro (⟨L, B, h5, -⟩ | h5)
        · exact absurd h5 (h4 L B)
        · exact h5
    · refine ⟨((boxNumber L B : ℝ) : WithTop ℝ) :: ps, by simp [List.mapM_cons, h1, h4], ?_⟩
      intro p
      simp only [List.mem_cons, WithTop.coe_inj, h2, exists_eq_or_imp]
      constructor
      · rintro (h5 | h5)
        · exact .inl ⟨L, B, h3, h5⟩
        · exact .inr h5
      · rintro (⟨L', B', h5, h6⟩ | h5)
        · obtain ⟨rfl, rfl⟩ := sizes_unique h3 h5
          exact .inl h6
        · exact .inr h5

/-! ### The formulas -/

theorem tanh_lt_one (x : ℝ) : Real.tanh x < 1 := (Real.tanh_bijOn.mapsTo (Set.mem_univ x)).2

theorem tanh_le_iff {x y : ℝ} : Real.tanh x ≤ Real.tanh y ↔ x ≤ y := by
  have hx := Real.tanh_bijOn.mapsTo (Set.mem_univ x)
  have hy := Real.tanh_bijOn.mapsTo (Set.mem_univ y)
  rw [← Real.artanh_le_artanh_iff hx hy, Real.artanh_tanh, Real.artanh_tanh]

theorem tanh_pos_iff {x : ℝ} : 0 < Real.tanh x ↔ 0 < x := by
  have := tanh_le_iff (x := x) (y := 0)
  rw [Real.tanh_zero] at this
  rw [← not_le, ← not_le, this]

/-- The draft for which the box has the irregular frequency `ω`. -/
noncomputable def draftFor (g ω p : ℝ) : ℝ := Real.artanh (Real.pi * g * p / ω ^ 2) / (Real.pi * p)

theorem ratio_pos {g ω p : ℝ} (hg : 0 < g) (hω : 0 < ω) (hp : 0 < p) : 0 < Real.pi * g * p / ω ^ 2 := by
  have := Real.pi_pos
  positivity

theorem tanh_draftFor {g ω p : ℝ} (hg : 0 < g) (hω : 0 < ω) (hp : 0 < p) (h1 : Real.pi * g * p / ω ^ 2 < 1) :
    Real.tanh (Real.pi * draftFor g ω p * p) = Real.pi * g * p / ω ^ 2 := by
  have hr := ratio_pos hg hω hp
  have : Real.pi * draftFor g ω p * p = Real.artanh (Real.pi * g * p / ω ^ 2) := by
    have := Real.pi_pos
    unfold draftFor
    field_simp
  rw [this, Real.tanh_artanh ⟨by linarith, h1⟩]

theorem draftFor_pos {g ω p : ℝ} (hg : 0 < g) (hω : 0 < ω) (hp : 0 < p) (h1 : Real.pi * g * p / ω ^ 2 < 1) :
    0 < draftFor g ω p := by
  have := Real.pi_pos
  exact div_pos (Real.artanh_pos ⟨ratio_pos hg hω hp, h1⟩) (by positivity)

/-- The frequency of the box is given by the formula of the code. -/
theorem boxIrregular_iff {g L B H ω : ℝ} (hg : 0 < g) (hL : 0 < L) (hH : 0 < H) :
    BoxIrregular g L B H ω ↔
      ω = √(Real.pi * g * boxNumber L B / Real.tanh (Real.pi * H * boxNumber L B)) := by
  have hp := boxNumber_pos (B := B) hL
  have hpi := Real.pi_pos
  have ht : 0 < Real.tanh (Real.pi * H * boxNumber L B) := tanh_pos_iff.2 (by positivity)
  unfold BoxIrregular
  rw [show √((1 / L) ^ 2 + (1 / B) ^ 2) = boxNumber L B from rfl]
  constructor
  · rintro ⟨h0, h⟩
    rw [← h, mul_div_assoc, div_self ht.ne', mul_one, Real.sqrt_sq h0]
  · rintro rfl
    refine ⟨Real.sqrt_nonneg _, ?_⟩
    rw [Real.sq_sqrt (by positivity), div_mul_cancel₀ _ ht.ne']

/-- The draft of a box with a given irregular frequency. -/
theorem boxIrregular_draft {g L B H ω : ℝ} (hg : 0 < g) (hL : 0 < L) (hω : 0 < ω) :
    (0 < H ∧ BoxIrregular g L B H ω) ↔
      Real.pi * g * boxNumber L B / ω ^ 2 < 1 ∧ H = draftFor g ω (boxNumber L B) := by
  have hp := boxNumber_pos (B := B) hL
  have hpi := Real.pi_pos
  unfold BoxIrregular
  rw [show √((1 / L) ^ 2 + (1 / B) ^ 2) = boxNumber L B from rfl]
  constructor
  · rintro ⟨hH, -, h⟩
    have he : Real.pi * g * boxNumber L B / ω ^ 2 = Real.tanh (Real.pi * H * boxNumber L B) := by
      rw [← h]; field_simp
    refine ⟨he ▸ tanh_lt_one _, ?_⟩
    unfold draftFor
    rw [he, Real.artanh_tanh]
    field_simp
  · rintro ⟨h1, rfl⟩
    refine ⟨draftFor_pos hg hω hp h1, hω.le, ?_⟩
    rw [tanh_draftFor hg hω hp h1]
    field_simp

/-- When the frequency of the box of draft `H` is not below `ω`. -/
theorem le_boxFrequency {g p H ω : ℝ} (hg : 0 < g) (hω : 0 < ω) (hp : 0 < p) (hH : 0 < H) :
    ω ≤ √(Real.pi * g * p / Real.tanh (Real.pi * H * p)) ↔
      (Real.pi * g * p / ω ^ 2 < 1 → H ≤ draftFor g ω p) := by
  have hpi := Real.pi_pos
  have ht : 0 < Real.tanh (Real.pi * H * p) := tanh_pos_iff.2 (by positivity)
  rw [Real.le_sqrt' hω, le_div_iff₀ ht, ← le_div_iff₀' (by positivity)]
  constructor
  · intro h h1
    rw [← tanh_draftFor hg hω hp h1, tanh_le_iff] at h
    have : Real.pi * p * H ≤ Real.pi * p * draftFor g ω p := by linarith
    exact le_of_mul_le_mul_left this (by positivity)
  · intro h
    by_cases h1 : Real.pi * g * p / ω ^ 2 < 1
    · rw [← tanh_draftFor hg hω hp h1, tanh_le_iff]
      have := h h1
      gcongr
    · have := tanh_lt_one (Real.pi * H * p)
      linarith

/-! ### The waterlines -/

theorem components_valid {m : Mesh (V3 ℝ)} (hm : m.Valid) {ms : List (Mesh (V3 ℝ))} (h : m.connectedComponents = some ms) :
    ∀ c ∈ ms, c.Valid ∧ c.vertices ≠ [] := by
  obtain ⟨comps, meshes, h1, h2, h3, h4⟩ := connected_components_mesh m hm
  obtain ⟨comps', h5, -, h6, -⟩ := Meshes.connected_components m.faces
  rw [h1] at h5
  cases h5
  rw [h] at h2
  cases h2
  intro c hc
  obtain ⟨k, hk⟩ := List.mem_iff_getElem?.1 hc
  have hk' : k < comps.length := h3 ▸ (List.getElem?_eq_some_iff.1 hk).1
  obtain ⟨hv, hp⟩ := h4 k comps[k] c (List.getElem?_eq_getElem hk') hk
  refine ⟨hv, fun h0 => ?_⟩
  have hl : c.faces.length = comps[k].length := by
    have := congrArg List.length hp
    simpa [Mesh.panels] using this
  cases hf : c.faces with
  | nil =>
    rw [hf] at hl
    exact h6 _ (List.getElem_mem hk') (List.eq_nil_of_length_eq_zero hl.symm)
  | cons f fs =>
    have := hv f (by simp [hf]) f.a (by simp [Face.toList])
    simp [h0] at this

theorem waterlineIds_lt (m : Mesh (V3 ℝ)) : ∀ i ∈ waterlineIds m, i < m.faces.length := by
  intro i hi
  exact List.mem_range.1 (List.mem_filter.1 hi).1

theorem waterlines_nonempty {immersed : Mesh (V3 ℝ) → Option (Mesh (V3 ℝ))} (hi : ClipsValid immersed)
    {m : Mesh (V3 ℝ)} (hm : m.Valid) {cs : List (Mesh (V3 ℝ))} (h : allWaterlines immersed m = some cs) :
    ∀ c ∈ cs, c.vertices ≠ [] := by
  unfold allWaterlines at h
  obtain ⟨ms, h1, h2⟩ := Option.bind_eq_some_iff.1 h
  obtain ⟨css, h3, rfl⟩ := Option.map_eq_some_iff.1 h2
  intro c hc
  obtain ⟨l, hl, hcl⟩ := List.mem_flatten.1 hc
  obtain ⟨m1, hm1, h4⟩ := mapM_mem_rev h3 hl
  have hv := (components_valid hm h1 m1 hm1).1
  unfold waterlineComponents at h4
  obtain ⟨m2, h5, h6⟩ := Option.bind_eq_some_iff.1 h4
  have hv2 : m2.Valid := by
    by_cases hz : ∃ v ∈ m1.vertices, 1e-8 < v.z
    · rw [if_pos hz] at h5
      exact hi m1 m2 hv h5
    · rw [if_neg hz] at h5
      cases h5
      exact hv
  obtain ⟨x, h7, h8⟩ := Option.bind_eq_some_iff.1 h6
  obtain ⟨m', kept, h9, hv', -⟩ := extract_faces m2 hv2 _ (waterlineIds_lt m2)
  rw [h9] at h7
  cases h7
  exact (components_valid hv' h8 c hcl).2

/-! ### The draft -/

theorem draftOf_spec {m : Mesh (V3 ℝ)} {H : ℝ} (h : Lowest m H) : draftOf m = some |H| := by
  obtain ⟨h1, v, hv, h2⟩ := h
  unfold draftOf
  cases hz : m.vertices.map V3.z with
  | nil => simp at hz; simp [hz] at hv
  | cons a l =>
    simp only
    have hmin : l.foldl min a = -H := by
      apply le_antisymm
      · have := (foldl_min_le l a (-H)).2
        apply this
        have : -H ∈ a :: l := by rw [← hz, ← h2]; exact List.mem_map_of_mem hv
        rcases List.mem_cons.1 this with h | h
        · exact .inl h.ge
        · exact .inr ⟨_, h, le_rfl⟩
      · have hall : ∀ x ∈ a :: l, -H ≤ x := by
          rw [← hz]
          intro x hx
          obtain ⟨w, hw, rfl⟩ := List.mem_map.1 hx
          exact h1 w hw
        exact (le_foldl_min l a _).2 ⟨hall a (by simp), fun y hy => hall y (by simp [hy])⟩
    rw [hmin, abs_neg]

/-- The estimate from the list of waterlines. -/
theorem estimate_eq {immersed : Mesh (V3 ℝ) → Option (Mesh (V3 ℝ))} {hull : Mesh (V3 ℝ)} {lid : Option (Mesh (V3 ℝ))}
    {cs : List (Mesh (V3 ℝ))} (hc : allWaterlines immersed hull = some cs) (hne : ∀ c ∈ cs, c.vertices ≠ []) {g H : ℝ}
    (hg : 0 < g) (hH : Lowest (lid.getD hull) H) (h0 : 0 < H) (hl : lid.isSome → 1e-6 ≤ H) :
    ∃ e, irregularEstimate immersed hull lid g = some e ∧
      ∀ ω : ℝ, e ≤ ω ↔ ∃ c ∈ cs, ∃ L B ω', Sizes c L B ∧ BoxIrregular g L B H ω' ∧ ω' ≤ ω := by
  obtain ⟨ps, h1, h2⟩ := wavenumbers hne
  have hd := draftOf_spec hH
  rw [abs_of_pos h0] at hd
  have hn : ¬ (lid.isSome ∧ H < 1e-6) := fun h => absurd (hl h.1) (not_le.2 h.2)
  refine ⟨_, by unfold irregularEstimate; rw [hd, Option.bind_some, if_neg hn, hc, Option.bind_some, h1, Option.map_some], ?_⟩
  intro ω
  rw [foldl_min_le]
  constructor
  · rintro (h | ⟨y, hy, h⟩)
    · exact absurd h (by simp)
    · obtain ⟨p, hp, rfl⟩ := List.mem_map.1 hy
      cases p with
      | top => simp [omegaOfComponent] at h
      | coe p =>
        obtain ⟨c, hcm, L, B, hs, rfl⟩ := (h2 p).1 hp
        simp only [omegaOfComponent, if_neg h0.ne', WithTop.coe_le_coe] at h
        exact ⟨c, hcm, L, B, _, hs, (boxIrregular_iff hg hs.1 h0).2 rfl, h⟩
  · rintro ⟨c, hcm, L, B, ω', hs, hb, h⟩
    refine .inr ⟨_, List.mem_map_of_mem ((h2 _).2 ⟨c, hcm, L, B, hs, rfl⟩), ?_⟩
    rw [boxIrregular_iff hg hs.1 h0] at hb
    simp only [omegaOfComponent, if_neg h0.ne', WithTop.coe_le_coe]
    rw [← hb]
    exact h

/-! ## C87 -/

/-- C87: the panels considered along the waterline are those with a corner on the free surface, and two of them are
in the same group exactly when a chain of such panels that share vertices joins them. The hull is below the free
surface here; otherwise its immersed part is taken. -/
theorem waterline_groups (immersed : Mesh (V3 ℝ) → Option (Mesh (V3 ℝ))) (m : Mesh (V3 ℝ)) (hm : m.Valid)
    (hz : ∀ v ∈ m.vertices, v.z ≤ 1e-8) :
    ∃ crown kept cs comps, m.extractFaces (waterlineIds m) = some (crown, kept) ∧
      (∀ i, i ∈ waterlineIds m ↔ ∃ f, m.faces[i]? = some f ∧ ∃ k ∈ f.toList, ∃ v, m.vertices[k]? = some v ∧ |v.z| ≤ 1e-8) ∧
      waterlineComponents immersed m = some cs ∧ componentIds crown.faces = some comps ∧ cs.length = comps.length ∧
      (∀ (k : ℕ) (c : List ℕ) (m' : Mesh (V3 ℝ)), comps[k]? = some c → cs[k]? = some m' →
        m'.panels = c.map fun i => (crown.panels[i]?).getD none) ∧
      ∀ (i j : ℕ) (f g : Face), crown.faces[i]? = some f → crown.faces[j]? = some g →
        ((∃ c ∈ comps, i ∈ c ∧ j ∈ c) ↔ Joined crown.faces f g) := by
  obtain ⟨crown, kept, h1, hv, -⟩ := extract_faces m hm _ (waterlineIds_lt m)
  obtain ⟨comps, cs, h2, h3, h4, h5⟩ := connected_components_mesh crown hv
  obtain ⟨comps', h6, -, -, h7⟩ := Meshes.connected_components crown.faces
  rw [h2] at h6
  cases h6
  refine ⟨crown, kept, cs, comps, h1, ?_, ?_, h2, h4, fun k c m' hc hm' => (h5 k c m' hc hm').2, h7⟩
  · intro i
    unfold waterlineIds
    rw [List.mem_filter, List.mem_range]
    constructor
    · rintro ⟨hi, h⟩
      refine ⟨m.faces[i], List.getElem?_eq_getElem hi, ?_⟩
      rw [List.getElem?_eq_getElem hi] at h
      simp only [Option.map_some, Option.getD_some, List.any_eq_true] at h
      obtain ⟨k, hk, h⟩ := h
      refine ⟨k, hk, ?_⟩
      cases hvk : m.vertices[k]? with
      | none => simp [hvk] at h
      | some v => exact ⟨v, rfl, by simpa [hvk] using h⟩
    · rintro ⟨f, hf, k, hk, v, hvk, h⟩
      refine ⟨(List.getElem?_eq_some_iff.1 hf).1, ?_⟩
      rw [hf]
      simp only [Option.map_some, Option.getD_some, List.any_eq_true]
      exact ⟨k, hk, by simpa [hvk] using h⟩
  · unfold waterlineComponents
    rw [if_neg (by push Not; exact hz)]
    simp [h1, h3]

/-- C87: the estimate is the smallest of the irregular frequencies of the boxes with the sizes of the waterlines, and
with the draft of the hull or of the lid. It is infinite when no waterline has sizes. -/
theorem irregular_estimate {immersed : Mesh (V3 ℝ) → Option (Mesh (V3 ℝ))} (hi : ClipsValid immersed)
    {hull : Mesh (V3 ℝ)} (hm : hull.Valid) {lid : Option (Mesh (V3 ℝ))} {cs : List (Mesh (V3 ℝ))}
    (hc : allWaterlines immersed hull = some cs) {g H : ℝ} (hg : 0 < g) (hH : Lowest (lid.getD hull) H) (h0 : 0 < H)
    (hl : lid.isSome → 1e-6 ≤ H) :
    ∃ e, irregularEstimate immersed hull lid g = some e ∧
      ∀ ω : ℝ, e ≤ ω ↔ ∃ c ∈ cs, ∃ L B ω', Sizes c L B ∧ BoxIrregular g L B H ω' ∧ ω' ≤ ω :=
  estimate_eq hc (waterlines_nonempty hi hm hc) hg hH h0 hl

/-- C87: with a lid at the free surface, the estimate is infinite, whatever the hull. -/
theorem irregular_estimate_surface (immersed : Mesh (V3 ℝ) → Option (Mesh (V3 ℝ))) (hull lid : Mesh (V3 ℝ)) {g H : ℝ}
    (hH : Lowest lid H) (h : |H| < 1e-6) : irregularEstimate immersed hull (some lid) g = some ⊤ := by
  unfold irregularEstimate
  rw [Option.getD_some, draftOf_spec hH, Option.bind_some, if_pos ⟨rfl, h⟩]

/-- The warning of the solver for no frequency up to `ωmax`. -/
def SafeUpTo (e : WithTop ℝ) (ωmax : ℝ) : Prop := ∀ ω : ℝ, ω ≤ ωmax → ¬ riskyAt e ω

theorem safeUpTo_iff (e : WithTop ℝ) (ωmax : ℝ) : SafeUpTo e ωmax ↔ (ωmax : WithTop ℝ) ≤ e := by
  constructor
  · intro h
    by_contra hn
    exact h ωmax le_rfl ⟨not_le.1 hn, WithTop.coe_lt_top _⟩
  · intro h ω hω hr
    exact absurd hr.1 (not_lt.2 ((WithTop.coe_le_coe.2 hω).trans h))

/-- The lid of the code in terms of the drafts. -/
theorem lowest_lid_eq {immersed : Mesh (V3 ℝ) → Option (Mesh (V3 ℝ))} {hull : Mesh (V3 ℝ)} {cs : List (Mesh (V3 ℝ))}
    (hc : allWaterlines immersed hull = some cs) (hne : ∀ c ∈ cs, c.vertices ≠ []) {g ωmax z : ℝ}
    (hω : 0 < ωmax) (hz : lowestLidPosition immersed hull g ωmax = some (z : WithBot ℝ)) :
    ∃ D : ℝ, z = -(0.9 * D) ∧ 0 ≤ D ∧
      (∀ c ∈ cs, ∀ L B, Sizes c L B → Real.pi * g * boxNumber L B / ωmax ^ 2 < 1 → draftFor g ωmax (boxNumber L B) ≤ D) ∧
      (D = 0 ∨ ∃ c ∈ cs, ∃ L B, Sizes c L B ∧ Real.pi * g * boxNumber L B / ωmax ^ 2 < 1 ∧
        D = draftFor g ωmax (boxNumber L B)) := by
  obtain ⟨ps, h1, h2⟩ := wavenumbers hne
  unfold lowestLidPosition at hz
  rw [hc, Option.bind_some, h1, Option.map_some, Option.some.injEq] at hz
  set M := (ps.map (lidOfComponent g ωmax)).foldl min ((0 : ℝ) : WithBot ℝ) with hM
  cases hMv : M with
  | bot => rw [hMv] at hz; simp at hz
  | coe y =>
    rw [hMv] at hz
    simp only [WithBot.map_coe, WithBot.coe_inj] at hz
    have hle := (le_foldl_min (ps.map (lidOfComponent g ωmax)) ((0 : ℝ) : WithBot ℝ) M).1 hM.le
    rw [hMv] at hle
    refine ⟨-y, by rw [← hz]; ring, by have := WithBot.coe_le_coe.1 hle.1; linarith, ?_, ?_⟩
    · intro c hcm L B hs hr
      have := hle.2 _ (List.mem_map_of_mem ((h2 _).2 ⟨c, hcm, L, B, hs, rfl⟩))
      simp only [lidOfComponent, if_neg hω.ne', if_pos hr, WithBot.coe_le_coe] at this
      unfold draftFor
      rw [neg_div] at this
      linarith
    · have hmem := foldl_min_mem (ps.map (lidOfComponent g ωmax)) ((0 : ℝ) : WithBot ℝ)
      rw [← hM, hMv] at hmem
      rcases List.mem_cons.1 hmem with h | h
      · left
        have := WithBot.coe_inj.1 h
        simp [this]
      · obtain ⟨p, hp, h⟩ := List.mem_map.1 h
        cases p with
        | top =>
          left
          simp only [lidOfComponent, WithBot.coe_inj] at h
          simp [← h]
        | coe p =>
          obtain ⟨c, hcm, L, B, hs, rfl⟩ := (h2 p).1 hp
          simp only [lidOfComponent, if_neg hω.ne'] at h
          by_cases hr : Real.pi * g * boxNumber L B / ωmax ^ 2 < 1
          · right
            rw [if_pos hr, WithBot.coe_inj] at h
            refine ⟨c, hcm, L, B, hs, hr, ?_⟩
            unfold draftFor
            rw [← h, neg_div, neg_neg]
          · rw [if_neg hr] at h
            by_cases he : Real.pi * g * boxNumber L B / ωmax ^ 2 = 1
            · rw [if_pos he] at h; simp at h
            · rw [if_neg he, WithBot.coe_inj] at h
              left
              simp [← h]

/-- C87: a lid at the lowest position that is proposed for `ωmax`. The solver warns for no frequency up to `ωmax`
exactly when the lid is almost at the free surface, or when, for all pairs of waterlines, the depth for one of them
times 0.9 is at most the depth for the other one. The depth for a waterline is the draft of the box with its sizes
whose lowest irregular frequency is `ωmax`. -/
theorem lowest_lid_iff {immersed : Mesh (V3 ℝ) → Option (Mesh (V3 ℝ))} (hi : ClipsValid immersed)
    {hull lid : Mesh (V3 ℝ)} (hm : hull.Valid) {cs : List (Mesh (V3 ℝ))} (hc : allWaterlines immersed hull = some cs)
    {g ωmax z : ℝ} (hg : 0 < g) (hω : 0 < ωmax) (hz : lowestLidPosition immersed hull g ωmax = some (z : WithBot ℝ))
    (hl0 : lid.vertices ≠ []) (hl : ∀ v ∈ lid.vertices, v.z = z) :
    ∃ e, irregularEstimate immersed hull (some lid) g = some e ∧
      (SafeUpTo e ωmax ↔ -1e-6 < z ∨
        ∀ c ∈ cs, ∀ c' ∈ cs, ∀ L B L' B' H H', Sizes c L B → Sizes c' L' B' → 0 < H → 0 < H' →
          BoxIrregular g L B H ωmax → BoxIrregular g L' B' H' ωmax → 0.9 * H ≤ H') := by
  have hne := waterlines_nonempty hi hm hc
  obtain ⟨D, hzD, hD0, hD1, hD2⟩ := lowest_lid_eq hc hne hω hz
  obtain ⟨v, hv⟩ := List.exists_mem_of_ne_nil _ hl0
  have hlow : Lowest lid (-z) := ⟨fun w hw => by rw [hl w hw, neg_neg], v, hv, by rw [hl v hv, neg_neg]⟩
  by_cases hs : -1e-6 < z
  · have : |-z| < 1e-6 := by
      rw [abs_of_nonneg (by rw [hzD]; linarith)]
      linarith
    refine ⟨⊤, irregular_estimate_surface immersed hull lid hlow this, ?_⟩
    rw [safeUpTo_iff]
    simp [hs]
  · have hzn : 1e-6 ≤ -z := by linarith
    have hz0 : 0 < -z := by linarith
    obtain ⟨e, he1, he2⟩ := estimate_eq (lid := some lid) hc hne hg hlow hz0 fun _ => hzn
    refine ⟨e, he1, ?_⟩
    have key : SafeUpTo e ωmax ↔ ∀ c ∈ cs, ∀ L B, Sizes c L B → Real.pi * g * boxNumber L B / ωmax ^ 2 < 1 →
        -z ≤ draftFor g ωmax (boxNumber L B) := by
      rw [safeUpTo_iff]
      constructor
      · intro h c hcm L B hS
        rw [← le_boxFrequency hg hω (boxNumber_pos hS.1) hz0]
        have := (he2 _).2 ⟨c, hcm, L, B, _, hS, (boxIrregular_iff hg hS.1 hz0).2 rfl, le_rfl⟩
        exact WithTop.coe_le_coe.1 (h.trans this)
      · intro h
        cases e with
        | top => exact le_top
        | coe e =>
          obtain ⟨c, hcm, L, B, ω', hS, hb, hle⟩ := (he2 e).1 le_rfl
          rw [boxIrregular_iff hg hS.1 hz0] at hb
          have := (le_boxFrequency hg hω (boxNumber_pos hS.1) hz0).2 (h c hcm L B hS)
          rw [← hb] at this
          exact WithTop.coe_le_coe.2 (this.trans hle)
    rw [key]
    constructor
    · intro h
      right
      intro c hcm c' hcm' L B L' B' H H' hS hS' hH hH' hb hb'
      obtain ⟨h1, rfl⟩ := (boxIrregular_draft hg hS.1 hω).1 ⟨hH, hb⟩
      obtain ⟨h1', rfl⟩ := (boxIrregular_draft hg hS'.1 hω).1 ⟨hH', hb'⟩
      have h2 := h c' hcm' L' B' hS' h1'
      have h3 := hD1 c hcm L B hS h1
      linarith
    · rintro (h | h) c hcm L B hS h1
      · exact absurd h hs
      · obtain ⟨hH', hb'⟩ := (boxIrregular_draft hg hS.1 hω).2 ⟨h1, rfl⟩
        rcases hD2 with hD2 | ⟨c', hcm', L', B', hS', h1', hD2⟩
        · rw [hD2] at hzD; linarith
        · obtain ⟨hH, hb⟩ := (boxIrregular_draft hg hS'.1 hω).2 ⟨h1', rfl⟩
          have := h c' hcm' c hcm L' B' L B _ _ hS' hS hH hH' hb hb'
          rw [← hD2] at this
          linarith

/-- C87: with the lid at the proposed position, a hull with at most one waterline is safe up to `ωmax`. -/
theorem lowest_lid_single {immersed : Mesh (V3 ℝ) → Option (Mesh (V3 ℝ))} (hi : ClipsValid immersed)
    {hull lid : Mesh (V3 ℝ)} (hm : hull.Valid) {cs : List (Mesh (V3 ℝ))} (hc : allWaterlines immersed hull = some cs)
    (h1 : cs.length ≤ 1) {g ωmax z : ℝ} (hg : 0 < g) (hω : 0 < ωmax)
    (hz : lowestLidPosition immersed hull g ωmax = some (z : WithBot ℝ)) (hl0 : lid.vertices ≠ [])
    (hl : ∀ v ∈ lid.vertices, v.z = z) :
    ∃ e, irregularEstimate immersed hull (some lid) g = some e ∧ SafeUpTo e ωmax := by
  obtain ⟨e, he1, he2⟩ := lowest_lid_iff hi hm hc hg hω hz hl0 hl
  refine ⟨e, he1, he2.2 (.inr ?_)⟩
  intro c hcm c' hcm' L B L' B' H H' hS hS' hH hH' hb hb'
  have hcc : c = c' := by
    match cs, h1 with
    | [], _ => simp at hcm
    | [d], _ => simp at hcm hcm'; rw [hcm, hcm']
  subst hcc
  obtain ⟨rfl, rfl⟩ := sizes_unique hS hS'
  obtain ⟨-, rfl⟩ := (boxIrregular_draft hg hS.1 hω).1 ⟨hH, hb⟩
  obtain ⟨-, rfl⟩ := (boxIrregular_draft hg hS.1 hω).1 ⟨hH', hb'⟩
  linarith

/-- C87: for one waterline the proposed position is nine tenths of the depth `H` of the lid for which the estimate is
`ωmax`, and the solver warns at `ωmax` for all the lids that are lower than `H`. -/
theorem lowest_lid_best {immersed : Mesh (V3 ℝ) → Option (Mesh (V3 ℝ))} (hi : ClipsValid immersed)
    {hull : Mesh (V3 ℝ)} (hm : hull.Valid) {c : Mesh (V3 ℝ)} (hc : allWaterlines immersed hull = some [c])
    {g ωmax L B H : ℝ} (hg : 0 < g) (hω : 0 < ωmax) (hS : Sizes c L B) (hH : 0 < H) (hb : BoxIrregular g L B H ωmax) :
    lowestLidPosition immersed hull g ωmax = some ((-(0.9 * H) : ℝ) : WithBot ℝ) ∧
    ∀ (lid : Mesh (V3 ℝ)) (H' : ℝ), Lowest lid H' → H < H' → 1e-6 ≤ H' →
      ∃ e, irregularEstimate immersed hull (some lid) g = some e ∧ riskyAt e ωmax := by
  have hne := waterlines_nonempty hi hm hc
  obtain ⟨h1, rfl⟩ := (boxIrregular_draft hg hS.1 hω).1 ⟨hH, hb⟩
  constructor
  · unfold lowestLidPosition
    rw [hc, Option.bind_some]
    simp only [List.mapM_cons, List.mapM_nil, wavenumber_of_sizes hS]
    simp only [Option.bind_eq_bind, Option.bind_some, Option.pure_def, Option.map_some, List.map_cons, List.map_nil,
      List.foldl_cons, List.foldl_nil, Option.some.injEq]
    simp only [lidOfComponent, if_neg hω.ne', if_pos h1]
    have hneg : -Real.artanh (Real.pi * g * boxNumber L B / ωmax ^ 2) / (Real.pi * boxNumber L B)
        = -draftFor g ωmax (boxNumber L B) := by unfold draftFor; ring
    rw [hneg, min_eq_right (WithBot.coe_le_coe.2 (by linarith)), WithBot.map_coe]
    congr 1
    ring
  · intro lid H' hlow hlt h6
    have hH' : 0 < H' := hH.trans hlt
    obtain ⟨e, he1, he2⟩ := estimate_eq (lid := some lid) hc hne hg hlow hH' fun _ => h6
    refine ⟨e, he1, ?_, WithTop.coe_lt_top _⟩
    have hn : ¬ ωmax ≤ √(Real.pi * g * boxNumber L B / Real.tanh (Real.pi * H' * boxNumber L B)) := by
      rw [le_boxFrequency hg hω (boxNumber_pos hS.1) hH']
      exact fun h => absurd (h h1) (not_le.2 hlt)
    have := (he2 _).2 ⟨c, by simp, L, B, _, hS, (boxIrregular_iff hg hS.1 hH').2 rfl, le_rfl⟩
    exact lt_of_le_of_lt this (WithTop.coe_lt_coe.2 (not_le.1 hn))


/-! ### The stored estimate -/

/-- An assignment of an attribute. -/
def WarnedOp.assigns : WarnedOp → Prop
  | .estimate _ => False
  | .setLid _ => True
  | .setHull _ => True

theorem run_assign (immersed : Mesh (V3 ℝ) → Option (Mesh (V3 ℝ))) (ops : List WarnedOp)
    (h : ∀ o ∈ ops, o.assigns) (b : WarnedBody) : (ops.foldl (WarnedBody.step immersed) b).stored = b.stored := by
  induction ops generalizing b with
  | nil => rfl
  | cons o ops ih =>
    rw [List.foldl_cons, ih fun o' ho' => h o' (by simp [ho'])]
    have := h o (by simp)
    cases o with
    | estimate g => exact this.elim
    | setLid l => rfl
    | setHull l => rfl

/-- All the stored values are those of the current hull and lid. -/
def WarnedBody.Fresh (immersed : Mesh (V3 ℝ) → Option (Mesh (V3 ℝ))) (b : WarnedBody) : Prop :=
  ∀ x ∈ b.stored, irregularEstimate immersed b.hull b.lid x.1 = some x.2

theorem read_of_fresh {immersed : Mesh (V3 ℝ) → Option (Mesh (V3 ℝ))} {b : WarnedBody} (h : b.Fresh immersed) (g : ℝ) :
    b.read immersed g = irregularEstimate immersed b.hull b.lid g := by
  unfold WarnedBody.read
  cases hf : b.stored.find? fun e => decide (e.1 = g) with
  | none => rfl
  | some x =>
    have h1 := List.mem_of_find?_eq_some hf
    have h2 := List.find?_some hf
    simp only [decide_eq_true_eq] at h2
    simp only
    rw [← h2, h x h1]

theorem run_estimates (immersed : Mesh (V3 ℝ) → Option (Mesh (V3 ℝ))) (ops : List WarnedOp)
    (h : ∀ o ∈ ops, ¬ o.assigns) (b : WarnedBody) (hb : b.Fresh immersed) :
    (ops.foldl (WarnedBody.step immersed) b).Fresh immersed := by
  induction ops generalizing b with
  | nil => exact hb
  | cons o ops ih =>
    rw [List.foldl_cons]
    apply ih fun o' ho' => h o' (by simp [ho'])
    cases o with
    | setLid l => exact (h (.setLid l) (by simp) trivial).elim
    | setHull l => exact (h (.setHull l) (by simp) trivial).elim
    | estimate g =>
      simp only [WarnedBody.step]
      cases hr : b.read immersed g with
      | none => exact hb
      | some e =>
        simp only
        by_cases ha : (b.stored.any fun x => decide (x.1 = g)) = true
        · rw [if_pos ha]; exact hb
        · rw [if_neg ha]
          intro x hx
          rcases List.mem_append.1 hx with hx | hx
          · exact hb x hx
          · simp only [List.mem_singleton] at hx
            subst hx
            rw [← hr, read_of_fresh hb]

/-- C87: the estimate that is read is the one of the current hull and lid as long as neither is changed after the
first time that the estimate is asked for, by the user or by the solver. -/
theorem estimate_current (immersed : Mesh (V3 ℝ) → Option (Mesh (V3 ℝ))) (hull : Mesh (V3 ℝ)) (lid : Option (Mesh (V3 ℝ)))
    (changes reads : List WarnedOp) (h1 : ∀ o ∈ changes, o.assigns) (h2 : ∀ o ∈ reads, ¬ o.assigns) (g : ℝ) :
    (WarnedBody.run immersed hull lid (changes ++ reads)).read immersed g =
      irregularEstimate immersed (WarnedBody.run immersed hull lid (changes ++ reads)).hull
        (WarnedBody.run immersed hull lid (changes ++ reads)).lid g := by
  apply read_of_fresh
  unfold WarnedBody.run
  rw [List.foldl_append]
  apply run_estimates _ _ h2
  intro x hx
  rw [run_assign _ _ h1] at hx
  simp at hx

/-! ## Concrete cases -/

/-- A floating pyramid whose waterline has the sizes `15 s` and `20 s`. -/
noncomputable def pyramid (s x : ℝ) : List (V3 ℝ) :=
  [⟨x - 15 / 2 * s, -10 * s, 0⟩, ⟨x + 15 / 2 * s, -10 * s, 0⟩, ⟨x + 15 / 2 * s, 10 * s, 0⟩,
    ⟨x - 15 / 2 * s, 10 * s, 0⟩, ⟨x, 0, -1⟩]

/-- The sides of the pyramid. -/
def pyramidFaces : List Face := [⟨0, 4, 1, 0⟩, ⟨1, 4, 2, 1⟩, ⟨2, 4, 3, 2⟩, ⟨3, 4, 0, 3⟩]

/-- One pyramid. -/
noncomputable def oneBoat (s x : ℝ) : Mesh (V3 ℝ) := ⟨pyramid s x, pyramidFaces⟩

/-- Two pyramids, the first one ten times larger. -/
noncomputable def twoBoats : Mesh (V3 ℝ) :=
  ⟨pyramid 10 0 ++ pyramid 1 1000, pyramidFaces ++ pyramidFaces.map (Face.map (· + 5))⟩

/-- A square lid. -/
def squareLid (z : ℝ) : Mesh (V3 ℝ) := ⟨[⟨0, 0, z⟩, ⟨0, 1, z⟩, ⟨1, 1, z⟩, ⟨1, 0, z⟩], [⟨0, 1, 2, 3⟩]⟩

theorem oneBoat_valid (s x : ℝ) : (oneBoat s x).Valid := by
  simp [Mesh.Valid, oneBoat, pyramid, pyramidFaces, Face.toList]

theorem twoBoats_valid : twoBoats.Valid := by
  simp [Mesh.Valid, twoBoats, pyramid, pyramidFaces, Face.toList, Face.map]

theorem oneBoat_components (s x : ℝ) : (oneBoat s x).connectedComponents = some [oneBoat s x] := by
  have h : componentIds pyramidFaces = some [[0, 1, 2, 3]] := by decide
  unfold Mesh.connectedComponents
  rw [show (oneBoat s x).faces = pyramidFaces from rfl, h]
  rfl

theorem oneBoat_waterline (immersed : Mesh (V3 ℝ) → Option (Mesh (V3 ℝ))) (s x : ℝ) :
    waterlineComponents immersed (oneBoat s x) = some [oneBoat s x] := by
  unfold waterlineComponents
  rw [if_neg (by simp [oneBoat, pyramid]; norm_num), Option.bind_some]
  have h : waterlineIds (oneBoat s x) = [0, 1, 2, 3] := by
    have : (List.range (oneBoat s x).faces.length) = [0, 1, 2, 3] := rfl
    unfold waterlineIds
    rw [this]
    simp [oneBoat, pyramid, pyramidFaces, Face.toList]
    norm_num
  rw [h]
  have : (oneBoat s x).extractFaces [0, 1, 2, 3] = some (oneBoat s x, [0, 1, 2, 3, 4]) := rfl
  rw [this, Option.bind_some, oneBoat_components]

theorem oneBoat_waterlines (immersed : Mesh (V3 ℝ) → Option (Mesh (V3 ℝ))) (s x : ℝ) :
    allWaterlines immersed (oneBoat s x) = some [oneBoat s x] := by
  unfold allWaterlines
  rw [oneBoat_components, Option.bind_some]
  simp [List.mapM_cons, oneBoat_waterline]

theorem twoBoats_waterlines (immersed : Mesh (V3 ℝ) → Option (Mesh (V3 ℝ))) :
    allWaterlines immersed twoBoats = some [oneBoat 10 0, oneBoat 1 1000] := by
  have h : componentIds (pyramidFaces ++ pyramidFaces.map (Face.map (· + 5))) = some [[0, 1, 2, 3], [4, 5, 6, 7]] := by
    decide
  have h2 : twoBoats.connectedComponents = some [oneBoat 10 0, oneBoat 1 1000] := by
    unfold Mesh.connectedComponents
    rw [show twoBoats.faces = pyramidFaces ++ pyramidFaces.map (Face.map (· + 5)) from rfl, h]
    rfl
  unfold allWaterlines
  rw [h2, Option.bind_some]
  simp [List.mapM_cons, oneBoat_waterline]

theorem oneBoat_sizes {s : ℝ} (hs : 0 < s) (x : ℝ) : Sizes (oneBoat s x) (15 * s) (20 * s) := by
  refine ⟨by positivity, by positivity, ⟨x - 15 / 2 * s, by simp [oneBoat, pyramid], x + 15 / 2 * s,
    by simp [oneBoat, pyramid], ?_, by ring⟩, ⟨-10 * s, by simp [oneBoat, pyramid], 10 * s,
    by simp [oneBoat, pyramid], ?_, by ring⟩⟩
  · intro y hy
    simp [oneBoat, pyramid] at hy
    rcases hy with rfl | rfl | rfl | rfl <;> constructor <;> linarith
  · intro y hy
    simp [oneBoat, pyramid] at hy
    rcases hy with rfl | rfl | rfl <;> constructor <;> linarith

theorem oneBoat_number {s : ℝ} (hs : 0 < s) : boxNumber (15 * s) (20 * s) = 1 / (12 * s) := by
  unfold boxNumber
  rw [show (1 / (15 * s)) ^ 2 + (1 / (20 * s)) ^ 2 = (1 / (12 * s)) ^ 2 by field_simp; norm_num]
  exact Real.sqrt_sq (by positivity)

theorem squareLid_lowest (z : ℝ) : Lowest (squareLid z) (-z) := by
  constructor
  · simp [squareLid]
  · exact ⟨⟨0, 0, z⟩, by simp [squareLid], by simp⟩

/-- The clipping is not used by these meshes. -/
theorem clips_none : ClipsValid fun _ => none := fun _ _ _ h => by simp at h

/-- Concrete case of `irregular_estimate`: a boat without lid. -/
example : ∃ e, irregularEstimate (fun _ => none) (oneBoat 1 0) none 9.81 = some e ∧
    ∀ ω : ℝ, e ≤ ω ↔ ∃ c ∈ [oneBoat 1 0], ∃ L B ω', Sizes c L B ∧ BoxIrregular 9.81 L B 1 ω' ∧ ω' ≤ ω :=
  irregular_estimate (H := 1) clips_none (oneBoat_valid 1 0) (oneBoat_waterlines _ 1 0) (by norm_num)
    ⟨by simp [oneBoat, pyramid], ⟨0, 0, -1⟩, by simp [oneBoat, pyramid], by simp⟩ (by norm_num) (by simp)

/-- The frequency for which the lid of the small boat is 24 / π below the surface, with the gravity one. -/
noncomputable def boatOmega : ℝ := √(Real.pi * 1 * (1 / 12) / Real.tanh 2)

theorem boatOmega_pos : 0 < boatOmega := by
  have := tanh_pos_iff.2 (show (0 : ℝ) < 2 by norm_num)
  have := Real.pi_pos
  unfold boatOmega
  positivity

theorem boatOmega_ratio (s : ℝ) : Real.pi * 1 * (1 / (12 * s)) / boatOmega ^ 2 = Real.tanh 2 / s := by
  have h := tanh_pos_iff.2 (show (0 : ℝ) < 2 by norm_num)
  have hpi := Real.pi_pos
  unfold boatOmega
  rw [Real.sq_sqrt (by positivity)]
  field_simp

/-- The small boat alone. -/
theorem boat_box : BoxIrregular 1 15 20 (24 / Real.pi) boatOmega := by
  have h := (boxIrregular_draft (g := 1) (L := 15) (B := 20) (H := 24 / Real.pi) (ω := boatOmega) one_pos (by norm_num)
    boatOmega_pos).2
  refine (h ?_).2
  have hn : boxNumber 15 20 = 1 / (12 * 1) := by simpa using oneBoat_number one_pos
  have hr := boatOmega_ratio 1
  rw [hn]
  unfold draftFor
  rw [hr, div_one, Real.artanh_tanh]
  refine ⟨tanh_lt_one 2, ?_⟩
  have := Real.pi_pos
  field_simp
  norm_num

/-- Concrete case of `lowest_lid_best` and of `lowest_lid_single`: the boat has a lid at `-21.6 / π` and is safe. -/
example : ∃ z : ℝ, z < 0 ∧ lowestLidPosition (fun _ => none) (oneBoat 1 0) 1 boatOmega = some (z : WithBot ℝ) ∧
    ∃ e, irregularEstimate (fun _ => none) (oneBoat 1 0) (some (squareLid z)) 1 = some e ∧ SafeUpTo e boatOmega := by
  have hpi := Real.pi_pos
  have hH : 0 < 24 / Real.pi := by positivity
  have hz := (lowest_lid_best clips_none (oneBoat_valid 1 0) (oneBoat_waterlines _ 1 0) one_pos boatOmega_pos
    (by simpa using oneBoat_sizes one_pos 0) hH boat_box).1
  exact ⟨_, by linarith, hz, lowest_lid_single clips_none (oneBoat_valid 1 0) (oneBoat_waterlines _ 1 0) (by simp)
    one_pos boatOmega_pos hz (by simp [squareLid]) (by simp [squareLid])⟩

/-- C87: with two boats, the position proposed for the lid is too low: the solver still warns at the frequency that
was asked for. -/
theorem lowest_lid_violated (immersed : Mesh (V3 ℝ) → Option (Mesh (V3 ℝ))) (hi : ClipsValid immersed) :
    ∃ (hull lid : Mesh (V3 ℝ)) (g ωmax z : ℝ) (e : WithTop ℝ), hull.Valid ∧ 0 < g ∧ 0 < ωmax ∧
      lowestLidPosition immersed hull g ωmax = some (z : WithBot ℝ) ∧ (∀ v ∈ lid.vertices, v.z = z) ∧
      irregularEstimate immersed hull (some lid) g = some e ∧ ∃ ω : ℝ, ω ≤ ωmax ∧ riskyAt e ω := by
  have hpi := Real.pi_pos
  have hn1 : boxNumber 15 20 = 1 / (12 * 1) := by simpa using oneBoat_number one_pos
  have hn10 : boxNumber 150 200 = 1 / (12 * 10) := by
    have := oneBoat_number (s := 10) (by norm_num)
    norm_num at this ⊢
    exact this
  have hS1 : Sizes (oneBoat 1 1000) 15 20 := by simpa using oneBoat_sizes one_pos 1000
  have hS10 : Sizes (oneBoat 10 0) 150 200 := by
    have := oneBoat_sizes (s := 10) (by norm_num) 0
    norm_num at this
    exact this
  have ht2 := tanh_lt_one 2
  have ht0 := tanh_pos_iff.2 (show (0 : ℝ) < 2 by norm_num)
  have hr10 : Real.pi * 1 * boxNumber 150 200 / boatOmega ^ 2 < 1 := by
    rw [hn10, boatOmega_ratio]; linarith
  have hne := waterlines_nonempty hi twoBoats_valid (twoBoats_waterlines immersed)
  have hr1 : Real.pi * 1 * boxNumber 15 20 / boatOmega ^ 2 < 1 := by rw [hn1, boatOmega_ratio]; linarith
  have hpos : ∃ z : ℝ, lowestLidPosition immersed twoBoats 1 boatOmega = some (z : WithBot ℝ) := by
    unfold lowestLidPosition
    rw [twoBoats_waterlines, Option.bind_some]
    simp only [List.mapM_cons, List.mapM_nil, wavenumber_of_sizes hS1, wavenumber_of_sizes hS10]
    simp only [Option.bind_eq_bind, Option.bind_some, Option.pure_def, Option.map_some, List.map_cons, List.map_nil,
      List.foldl_cons, List.foldl_nil, Option.some.injEq]
    simp only [lidOfComponent, if_neg boatOmega_pos.ne', if_pos hr1, if_pos hr10]
    rw [← WithBot.coe_min, ← WithBot.coe_min, WithBot.map_coe]
    exact ⟨_, rfl⟩
  obtain ⟨z, hz⟩ := hpos
  obtain ⟨e, he1, he2⟩ := lowest_lid_iff (lid := squareLid z) hi twoBoats_valid (twoBoats_waterlines immersed) one_pos
    boatOmega_pos hz (by simp [squareLid]) (by simp [squareLid])
  refine ⟨twoBoats, squareLid z, 1, boatOmega, z, e, twoBoats_valid, one_pos, boatOmega_pos, hz, by simp [squareLid],
    he1, ?_⟩
  by_contra hcon
  have hsafe : SafeUpTo e boatOmega := fun ω hω hr => hcon ⟨ω, hω, hr⟩
  obtain ⟨D, hD, -, hD1, -⟩ := lowest_lid_eq (twoBoats_waterlines immersed) hne boatOmega_pos hz
  have hD2 := hD1 (oneBoat 1 1000) (by simp) 15 20 hS1 hr1
  have hd1 : draftFor 1 boatOmega (boxNumber 15 20) = 24 / Real.pi := by
    rw [hn1]
    unfold draftFor
    rw [boatOmega_ratio, div_one, Real.artanh_tanh]
    field_simp
    norm_num
  have hpi4 := Real.pi_lt_four
  rcases he2.1 hsafe with h | h
  · rw [hd1, div_le_iff₀ hpi] at hD2
    nlinarith
  · obtain ⟨hH10, hb10⟩ := (boxIrregular_draft one_pos (by norm_num : (0 : ℝ) < 150) boatOmega_pos).2 ⟨hr10, rfl⟩
    have h3 := h (oneBoat 1 1000) (by simp) (oneBoat 10 0) (by simp) 15 20 150 200 _ _ hS1 hS10
      (by positivity) hH10 boat_box hb10
    have hd10 : draftFor 1 boatOmega (boxNumber 150 200) = 120 / Real.pi * Real.artanh (Real.tanh 2 / 10) := by
      rw [hn10]
      unfold draftFor
      rw [boatOmega_ratio]
      generalize Real.artanh (Real.tanh 2 / 10) = u
      field_simp
      ring
    rw [hd10] at h3
    have ha : Real.artanh (Real.tanh 2 / 10) ≤ Real.artanh (1 / 10) :=
      Real.artanh_le_artanh (by linarith) (by norm_num) (by linarith)
    have hb : Real.artanh (1 / 10) ≤ 1 / 9 := by
      rw [Real.artanh_eq_half_log ⟨by norm_num, by norm_num⟩]
      have := Real.log_le_sub_one_of_pos (show (0 : ℝ) < (1 + 1 / 10) / (1 - 1 / 10) by norm_num)
      norm_num at this ⊢
      linarith
    have : 0.9 * 24 ≤ 120 * Real.artanh (Real.tanh 2 / 10) := by
      have h4 := mul_le_mul_of_nonneg_right h3 hpi.le
      field_simp at h4
      linarith
    norm_num at this
    linarith

/-- C87: once the estimate has been asked for, setting a lid does not change it: the solver warns although the lid is
at the free surface. -/
theorem estimate_stored_violated (immersed : Mesh (V3 ℝ) → Option (Mesh (V3 ℝ))) (hi : ClipsValid immersed) :
    ∃ (hull lid : Mesh (V3 ℝ)) (g : ℝ), hull.Valid ∧ irregularEstimate immersed hull (some lid) g = some ⊤ ∧
      ∃ e, (WarnedBody.run immersed hull none [.estimate g, .setLid (some lid)]).read immersed g = some e ∧
        ∃ ω : ℝ, riskyAt e ω := by
  obtain ⟨e, h1, h2⟩ := irregular_estimate (lid := none) (H := 1) (g := 1) hi (oneBoat_valid 1 0) (oneBoat_waterlines _ 1 0)
    one_pos ⟨by simp [oneBoat, pyramid], ⟨0, 0, -1⟩, by simp [oneBoat, pyramid], by simp⟩ one_pos (by simp)
  have hsz : Sizes (oneBoat 1 0) 15 20 := by simpa using oneBoat_sizes one_pos 0
  have hle := (h2 _).2 ⟨_, List.mem_singleton.2 rfl, 15, 20, _, hsz, (boxIrregular_iff one_pos (by norm_num) one_pos).2 rfl, le_rfl⟩
  refine ⟨oneBoat 1 0, squareLid 0, 1, oneBoat_valid 1 0,
    irregular_estimate_surface immersed _ _ (squareLid_lowest 0) (by norm_num), e, ?_, _,
    lt_of_le_of_lt hle (WithTop.coe_lt_coe.2 (lt_add_one _)), WithTop.coe_lt_top _⟩
  simp [WarnedBody.run, WarnedBody.step, WarnedBody.read, h1]

/-- Concrete case of `waterline_groups`, `estimate_current` and `lowest_lid_iff`. -/
example : (oneBoat 1 0).Valid ∧ (∀ v ∈ (oneBoat 1 0).vertices, v.z ≤ 1e-8) ∧
    (WarnedOp.setLid (some (squareLid 0))).assigns ∧ ¬ (WarnedOp.estimate 9.81).assigns := by
  refine ⟨oneBoat_valid 1 0, ?_, trivial, id⟩
  simp [oneBoat, pyramid]
  norm_num


end Verif.Bodies
