import Verif.Meshes.LidDownModel
import Verif.Meshes.MotionProps
import Verif.Meshes.ClipMeshProps
import Verif.Bodies.MinceProps

/-!
# C109: the normals of a lid go down
-/

namespace Verif.Meshes

open Verif.Geometry V3

/-! ## Specification -/

/-- The normals of the panels, in their order. -/
def HasNormal (m : Mesh (V3 ℝ)) (i : ℕ) (n : V3 ℝ) : Prop := ∃ p, m.panelAt i = some p ∧ p.normal = n

/-- All the normals are vertical and go up, up to the tolerance. -/
def AllUp (m : Mesh (V3 ℝ)) : Prop := ∀ i n, HasNormal m i n → |n.z - 1| ≤ 1e-8 + 1e-5

/-- All the normals go down. -/
def AllDown (m : Mesh (V3 ℝ)) : Prop := ∀ i n, HasNormal m i n → n.z < 0

/-- The same vertices with the opposite normals if all of them go up, otherwise the same mesh. -/
def Turned (m m' : Mesh (V3 ℝ)) : Prop :=
  (AllUp m ∧ m'.vertices = m.vertices ∧ ∀ i n, HasNormal m' i n ↔ HasNormal m i (-n)) ∨ (¬ AllUp m ∧ m' = m)

/-! ## Lemmas -/

theorem panel_valid {m : Mesh (V3 ℝ)} (hm : m.Valid) (i : ℕ) (hi : i < m.faces.length) : ∃ p, m.panelAt i = some p := by
  rw [panelAt_eq, List.getElem?_eq_getElem hi]
  obtain ⟨c, hc⟩ := corners_some (hm _ (List.getElem_mem hi))
  exact ⟨panelOf m.faces[i].isTriangle c, by simp [hc]⟩

theorem panel_lt {m : Mesh (V3 ℝ)} {i : ℕ} {p : Panel} (h : m.panelAt i = some p) : i < m.faces.length := by
  rw [panelAt_eq] at h
  obtain ⟨F, hF, -⟩ := Option.bind_eq_some_iff.mp h
  exact (List.getElem?_eq_some_iff.mp hF).1

theorem condition_iff {m : Mesh (V3 ℝ)} (hm : m.Valid) :
    (∀ o ∈ m.faceProps, ∃ x, o = some x ∧ closeFloat x.1.normal.z 1) ↔ AllUp m := by
  unfold AllUp HasNormal closeFloat
  simp only [abs_one, mul_one]
  constructor
  · rintro h i n ⟨p, hp, rfl⟩
    unfold Mesh.panelAt at hp
    split at hp
    · rename_i p' r hr
      cases hp
      obtain ⟨x, hx, hc⟩ := h _ (List.mem_of_getElem? hr)
      cases hx
      exact hc
    · cases hp
  · intro h o ho
    obtain ⟨i, hi⟩ := List.mem_iff_getElem?.mp ho
    have hlt : i < m.faces.length := by
      have := (List.getElem?_eq_some_iff.mp hi).1
      simpa [Mesh.faceProps] using this
    obtain ⟨p, hp⟩ := panel_valid hm i hlt
    have hp' := hp
    unfold Mesh.panelAt at hp'
    rw [hi] at hp'
    rcases o with _ | ⟨q, r⟩
    · cases hp'
    · cases hp'
      exact ⟨_, rfl, h i _ ⟨_, hp, rfl⟩⟩

theorem quad_normal_flip (p0 p1 p2 p3 : V3 ℝ) : (quadPanel p3 p2 p1 p0).normal = -(quadPanel p0 p1 p2 p3).normal := by
  have hc : cross (p1 - p3) (p0 - p2) = -cross (p2 - p0) (p3 - p1) := by ext <;> simp <;> ring
  have hn : norm (cross (p1 - p3) (p0 - p2)) = norm (cross (p2 - p0) (p3 - p1)) := by rw [hc, norm_neg]
  unfold quadPanel
  simp only [hn]
  split_ifs
  · simp [Panel.null]
  · rw [hc]
    ext <;> simp <;> ring

theorem normal_flipped {m : Mesh (V3 ℝ)} {i : ℕ} {n : V3 ℝ} (h : HasNormal m i n) : HasNormal m.flipNormals i (-n) := by
  obtain ⟨p, hp, rfl⟩ := h
  rw [panelAt_eq] at hp
  obtain ⟨F, hF, hp⟩ := Option.bind_eq_some_iff.mp hp
  obtain ⟨c, hc, rfl⟩ := Option.map_eq_some_iff.mp hp
  refine ⟨panelOf F.isTriangle (c.2.2.2, c.2.2.1, c.2.1, c.1), ?_, ?_⟩
  · rw [panelAt_eq]
    simp only [Mesh.flipNormals, List.getElem?_map, hF, Option.map_some, Option.bind_some, corners_flip, hc,
      flip_isTriangle]
  · unfold panelOf
    by_cases ht : F.isTriangle = true
    · simp only [ht, if_true]
      rw [corners_triangle hc ht, triangle_flip]
      rfl
    · simp only [ht, if_false, Bool.false_eq_true]
      exact quad_normal_flip _ _ _ _

theorem flip_flip (m : Mesh (V3 ℝ)) : m.flipNormals.flipNormals = m := by
  obtain ⟨vs, fs⟩ := m
  simp [Mesh.flipNormals, Face.flip, Function.comp_def]

theorem normals_flipped (m : Mesh (V3 ℝ)) (i : ℕ) (n : V3 ℝ) : HasNormal m.flipNormals i n ↔ HasNormal m i (-n) := by
  constructor
  · intro h
    have := normal_flipped h
    rwa [flip_flip] at this
  · intro h
    have := normal_flipped h
    rwa [neg_neg] at this

/-! ## Theorems -/

/-- C109: if all the normals go up, each of them is reversed, and the vertices are kept. -/
theorem lid_up_reversed (m : Mesh (V3 ℝ)) (hm : m.Valid) (h : AllUp m) :
    m.normalsDown.vertices = m.vertices ∧ m.normalsDown.faces.length = m.faces.length ∧
      ∀ i n, HasNormal m.normalsDown i n ↔ HasNormal m i (-n) := by
  have : m.normalsDown = m.flipNormals := by
    unfold Mesh.normalsDown
    rw [if_pos ((condition_iff hm).mpr h)]
  rw [this]
  exact ⟨rfl, by simp [Mesh.flipNormals], normals_flipped m⟩

/-- C109: in the other cases the mesh is kept as it is. -/
theorem lid_unchanged (m : Mesh (V3 ℝ)) (hm : m.Valid) (h : ¬ AllUp m) : m.normalsDown = m := by
  unfold Mesh.normalsDown
  rw [if_neg fun h' => h ((condition_iff hm).mp h')]

/-- C109: the meshes whose normals go down at the end. -/
theorem lid_down_iff (m : Mesh (V3 ℝ)) (hm : m.Valid) : AllDown m.normalsDown ↔ AllUp m ∨ AllDown m := by
  by_cases h : AllUp m
  · simp only [h, true_or, iff_true]
    intro i n hn
    have h1 := (abs_le.mp (h i _ (((lid_up_reversed m hm h).2.2 i n).mp hn))).1
    rw [neg_z] at h1
    norm_num at h1
    linarith
  · rw [lid_unchanged m hm h]
    simp [h]

/-- C109: nothing changes the second time. -/
theorem lid_down_twice (m : Mesh (V3 ℝ)) (hm : m.Valid) : m.normalsDown.normalsDown = m.normalsDown := by
  by_cases h : AllUp m
  · have hv : m.normalsDown.Valid := by
      have : m.normalsDown = m.flipNormals := by
        unfold Mesh.normalsDown
        rw [if_pos ((condition_iff hm).mpr h)]
      rw [this]
      intro f hf i hi
      obtain ⟨g, hg, rfl⟩ := List.mem_map.mp hf
      refine hm g hg i ?_
      simp only [Face.flip, Face.toList, List.mem_cons, List.not_mem_nil, or_false] at hi ⊢
      tauto
    by_cases h0 : m.normalsDown.faces = []
    · have : ∀ m : Mesh (V3 ℝ), m.faces = [] → m.normalsDown = m := by
        rintro ⟨vs, fs⟩ h
        simp only at h
        subst h
        simp [Mesh.normalsDown, Mesh.flipNormals]
      exact this _ h0
    · refine lid_unchanged _ hv fun h1 => ?_
      obtain ⟨p, hp⟩ := panel_valid hv 0 (List.length_pos_iff.mpr h0)
      have a := (lid_down_iff m hm).mpr (.inl h) 0 _ ⟨p, hp, rfl⟩
      have b := (abs_le.mp (h1 0 _ ⟨p, hp, rfl⟩)).1
      norm_num at b
      linarith
  · rw [lid_unchanged m hm h, lid_unchanged m hm h]

/-- C109 for the collections: each of the meshes is turned on its own. -/
theorem lid_parts_down (t : Tree) (hm : ∀ m ∈ t.leaves, m.Valid) :
    (∀ m ∈ (Tree.onLeaves Mesh.normalsDown t).leaves, AllDown m) ↔ ∀ m ∈ t.leaves, AllUp m ∨ AllDown m := by
  rw [Verif.Bodies.onLeaves_map]
  simp only [List.mem_map, forall_exists_index, and_imp, forall_apply_eq_imp_iff₂]
  exact forall₂_congr fun m h => lid_down_iff m (hm m h)

/-- C109: a single panel that does not go up, for instance a degenerate one, and the others keep going up. -/
theorem lid_mixed (m : Mesh (V3 ℝ)) (hm : m.Valid) {i j : ℕ} {u v : V3 ℝ} (hi : HasNormal m i u) (hu : u.z < 1 / 2)
    (hj : HasNormal m j v) : HasNormal m.normalsDown j v := by
  rw [lid_unchanged m hm fun h => ?_]
  · exact hj
  · have := (abs_le.mp (h i u hi)).1
    norm_num at this
    linarith

/-- C109: the lid of a body. An empty lid is dropped, any other one is turned. -/
theorem body_lid (lid : Option Tree) (hm : ∀ t ∈ lid, ∀ m ∈ t.leaves, m.Valid) :
    (bodyLid lid = none ↔ ∀ t ∈ lid, ∀ m ∈ t.leaves, m.faces = []) ∧
      ∀ t ∈ lid, ∀ t' ∈ bodyLid lid, List.Forall₂ Turned t.leaves t'.leaves ∧
        ((∀ m ∈ t.leaves, AllUp m ∨ AllDown m) ↔ ∀ m ∈ t'.leaves, AllDown m) := by
  rcases lid with _ | t
  · simp [bodyLid]
  · have h0 : t.nbFaces = 0 ↔ ∀ m ∈ t.leaves, m.faces = [] := by
      rw [nbFaces_eq]
      simp [List.sum_eq_zero_iff]
    constructor
    · simp only [bodyLid, Option.mem_def, Option.some.injEq, forall_eq', ← h0]
      split_ifs with h <;> simp [h]
    · intro s hs t' ht'
      simp only [Option.mem_def, Option.some.injEq] at hs
      subst hs
      simp only [bodyLid] at ht'
      split_ifs at ht' with h
      · cases ht'
      · simp only [Option.mem_def, Option.some.injEq] at ht'
        subst ht'
        refine ⟨?_, (lid_parts_down t fun m h => hm t rfl m h).symm⟩
        rw [Verif.Bodies.onLeaves_map, List.forall₂_map_right_iff, List.forall₂_same]
        intro m h1
        by_cases hu : AllUp m
        · have := lid_up_reversed m (hm t rfl m h1) hu
          exact .inl ⟨hu, this.1, this.2.2⟩
        · exact .inr ⟨hu, lid_unchanged m (hm t rfl m h1) hu⟩

/-! ## Examples -/

/-- A horizontal square, then a second one with the other orientation. -/
noncomputable def squareLid : Mesh (V3 ℝ) :=
  ⟨[⟨0, 0, 0⟩, ⟨1, 0, 0⟩, ⟨1, 1, 0⟩, ⟨0, 1, 0⟩], [⟨0, 1, 2, 3⟩]⟩

noncomputable def mixedLid : Mesh (V3 ℝ) :=
  ⟨[⟨0, 0, 0⟩, ⟨1, 0, 0⟩, ⟨1, 1, 0⟩, ⟨0, 1, 0⟩], [⟨0, 1, 2, 3⟩, ⟨3, 2, 1, 0⟩]⟩

theorem square_normal : (quadPanel ⟨0, 0, 0⟩ ⟨1, 0, 0⟩ ⟨1, 1, 0⟩ ⟨0, 1, 0⟩).normal = ⟨0, 0, 1⟩ := by
  have hc : cross ((⟨1, 1, 0⟩ : V3 ℝ) - ⟨0, 0, 0⟩) (⟨0, 1, 0⟩ - ⟨1, 0, 0⟩) = ⟨0, 0, 2⟩ := by ext <;> simp <;> norm_num
  have hn : norm (⟨0, 0, 2⟩ : V3 ℝ) = 2 := by
    unfold V3.norm
    rw [show dot (⟨0, 0, 2⟩ : V3 ℝ) ⟨0, 0, 2⟩ = 2 ^ 2 by simp [dot]; norm_num]
    exact Real.sqrt_sq (by norm_num)
  unfold quadPanel
  simp only [hc, hn]
  rw [if_neg (by norm_num)]
  ext <;> simp

theorem squareLid_valid : squareLid.Valid := by
  intro f hf i hi
  simp [squareLid, Face.toList] at hf ⊢
  subst hf
  simp [Face.toList] at hi
  omega

theorem mixedLid_valid : mixedLid.Valid := by
  intro f hf i hi
  simp [mixedLid] at hf ⊢
  rcases hf with rfl | rfl <;> simp [Face.toList] at hi <;> omega

theorem squareLid_normal : HasNormal squareLid 0 ⟨0, 0, 1⟩ :=
  ⟨quadPanel ⟨0, 0, 0⟩ ⟨1, 0, 0⟩ ⟨1, 1, 0⟩ ⟨0, 1, 0⟩, by
    rw [panelAt_eq]; simp [squareLid, corners, Face.isTriangle, panelOf], square_normal⟩

theorem squareLid_up : AllUp squareLid := by
  rintro i n ⟨p, hp, rfl⟩
  have hi : i = 0 := by
    have := panel_lt hp
    simp [squareLid] at this
    exact this
  subst hi
  obtain ⟨q, hq, hn⟩ := squareLid_normal
  rw [hp] at hq
  cases hq
  rw [hn]
  norm_num

theorem mixedLid_normals : HasNormal mixedLid 0 ⟨0, 0, 1⟩ ∧ HasNormal mixedLid 1 ⟨0, 0, -1⟩ :=
  ⟨⟨quadPanel ⟨0, 0, 0⟩ ⟨1, 0, 0⟩ ⟨1, 1, 0⟩ ⟨0, 1, 0⟩, by
    rw [panelAt_eq]; simp [mixedLid, corners, Face.isTriangle, panelOf], square_normal⟩,
   ⟨quadPanel ⟨0, 1, 0⟩ ⟨1, 1, 0⟩ ⟨1, 0, 0⟩ ⟨0, 0, 0⟩, by
    rw [panelAt_eq]; simp [mixedLid, corners, Face.isTriangle, panelOf], by
    rw [quad_normal_flip, square_normal]; ext <;> simp⟩⟩

/-- C109 fails: the normals of a horizontal lid do not always go down. -/
theorem lid_down_violated : ∃ m : Mesh (V3 ℝ), m.Valid ∧
    (∀ i n, HasNormal m i n → n = ⟨0, 0, 1⟩ ∨ n = ⟨0, 0, -1⟩) ∧ ¬ AllDown m.normalsDown := by
  refine ⟨mixedLid, mixedLid_valid, ?_, fun h => ?_⟩
  · rintro i n ⟨p, hp, rfl⟩
    have hi := panel_lt hp
    simp only [mixedLid, List.length_cons, List.length_nil] at hi
    obtain ⟨⟨p0, h0, e0⟩, ⟨p1, h1, e1⟩⟩ := mixedLid_normals
    have : i = 0 ∨ i = 1 := by omega
    rcases this with rfl | rfl
    · rw [hp] at h0; cases h0; exact .inl e0
    · rw [hp] at h1; cases h1; exact .inr e1
  · have := h 0 _ (lid_mixed mixedLid mixedLid_valid mixedLid_normals.2 (by norm_num) mixedLid_normals.1)
    norm_num at this

/-- The hypotheses of `lid_up_reversed`, `lid_down_iff`, `lid_down_twice`, `lid_parts_down` and `body_lid` hold for a
square lid, which is indeed reversed. -/
example : squareLid.Valid ∧ AllUp squareLid ∧ HasNormal squareLid.normalsDown 0 ⟨0, 0, -1⟩ := by
  refine ⟨squareLid_valid, squareLid_up, ?_⟩
  rw [(lid_up_reversed _ squareLid_valid squareLid_up).2.2]
  have : -(⟨0, 0, -1⟩ : V3 ℝ) = ⟨0, 0, 1⟩ := by ext <;> simp
  rw [this]
  exact squareLid_normal

/-- The hypothesis of `lid_unchanged` holds for the two squares. -/
example : mixedLid.Valid ∧ ¬ AllUp mixedLid := by
  refine ⟨mixedLid_valid, fun h => ?_⟩
  have := h 1 _ mixedLid_normals.2
  norm_num [abs_le] at this

end Verif.Meshes
