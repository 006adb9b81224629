import Verif.Engines.FarModel
import Verif.Meshes.TreeProps
import Verif.Meshes.MergeProps
import Verif.Meshes.PanelProps
import Verif.Green.NearProps

/-!
# C144: the meshes whose interaction is approximated
-/

namespace Verif.Engines.Far

open Verif.Geometry V3 Verif.Meshes

/-! ## Lemmas -/

theorem foldr_max_le {l : List ℝ} {b : ℝ} (hb : 0 ≤ b) (h : ∀ x ∈ l, x ≤ b) : l.foldr max 0 ≤ b := by
  induction l with
  | nil => simpa using hb
  | cons a l ih =>
    exact max_le (h a List.mem_cons_self) (ih fun x hx => h x (List.mem_cons_of_mem _ hx))

theorem le_foldr_max {l : List ℝ} {x : ℝ} (h : x ∈ l) : x ≤ l.foldr max 0 := by
  induction l with
  | nil => simp at h
  | cons a l ih =>
    rcases List.mem_cons.mp h with rfl | h
    · exact le_max_left _ _
    · exact (ih h).trans (le_max_right _ _)

theorem length_smul_center (vs : List (V3 ℝ)) : (vs.length : ℝ) • nodesCenter vs = vs.sum := by
  cases vs with
  | nil => ext <;> simp
  | cons v vs =>
    have h : ((v :: vs).length : ℝ) ≠ 0 := by
      simp only [List.length_cons, Nat.cast_add, Nat.cast_one]
      positivity
    unfold nodesCenter
    generalize ((v :: vs).length : ℝ) = n at *
    ext <;> simp [h]

theorem sum_differences (v : V3 ℝ) (l : List (V3 ℝ)) : (l.map fun w => v - w).sum = (l.length : ℝ) • v - l.sum := by
  induction l with
  | nil => ext <;> simp
  | cons a l ih =>
    rw [List.map_cons, List.sum_cons, ih, List.sum_cons]
    ext <;> simp <;> ring

theorem norm_sum_le {D : ℝ} (v : V3 ℝ) (l : List (V3 ℝ)) (h : ∀ w ∈ l, norm (v - w) ≤ D) :
    norm (l.map fun w => v - w).sum ≤ l.length * D := by
  induction l with
  | nil => simp [V3.norm, V3.dot]
  | cons a l ih =>
    rw [List.map_cons, List.sum_cons]
    refine (Verif.Green.norm_triangle _ _).trans ?_
    have h1 := h a List.mem_cons_self
    have h2 := ih fun w hw => h w (List.mem_cons_of_mem _ hw)
    simp only [List.length_cons, Nat.cast_add, Nat.cast_one]
    linarith

theorem center_near {D : ℝ} {v : V3 ℝ} {vs : List (V3 ℝ)} (hv : v ∈ vs) (h : ∀ w ∈ vs, norm (v - w) ≤ D) :
    norm (v - nodesCenter vs) ≤ D := by
  have hn : 0 < (vs.length : ℝ) := by
    exact_mod_cast List.length_pos_of_mem hv
  have e : v - nodesCenter vs = (1 / (vs.length : ℝ)) • (vs.map fun w => v - w).sum := by
    rw [sum_differences, nodesCenter]
    generalize (vs.length : ℝ) = n at *
    ext <;> simp <;> field_simp
  rw [e, norm_smul, abs_of_pos (by positivity)]
  have := norm_sum_le v vs h
  rw [one_div, inv_mul_le_iff₀ hn]
  exact this

theorem node_near (vs : List (V3 ℝ)) {v : V3 ℝ} (hv : v ∈ vs) : 2 * norm (v - nodesCenter vs) ≤ nodesDiameter vs := by
  unfold nodesDiameter
  have := le_foldr_max (List.mem_map.mpr ⟨v, hv, rfl⟩ : norm (v - nodesCenter vs) ∈ vs.map fun v => norm (v - nodesCenter vs))
  linarith

/-! ## Diameters -/

/-- No two nodes are farther from each other than the diameter, and the diameter is at most twice the largest distance
between two nodes. -/
theorem diameter_bounds (vs : List (V3 ℝ)) :
    (∀ v ∈ vs, ∀ w ∈ vs, norm (v - w) ≤ nodesDiameter vs) ∧
    ∀ D, 0 ≤ D → (∀ v ∈ vs, ∀ w ∈ vs, norm (v - w) ≤ D) → nodesDiameter vs ≤ 2 * D := by
  constructor
  · intro v hv w hw
    have h1 := node_near vs hv
    have h2 := node_near vs hw
    have h3 := Verif.Green.norm_triangle (v - nodesCenter vs) (nodesCenter vs - w)
    rw [sub_add_sub_cancel, Verif.Green.norm_sub_comm (nodesCenter vs) w] at h3
    linarith
  · intro D hD h
    unfold nodesDiameter
    have : (vs.map fun v => norm (v - nodesCenter vs)).foldr max 0 ≤ D := by
      refine foldr_max_le hD ?_
      intro x hx
      obtain ⟨v, hv, rfl⟩ := List.mem_map.mp hx
      exact center_near hv (h v hv)
    linarith

theorem norm_along (x : ℝ) : V3.norm ⟨x, 0, 0⟩ = |x| := by
  simp [V3.norm, V3.dot, Real.sqrt_mul_self_eq_abs]

/-- Three points on a line. -/
def aligned : List (V3 ℝ) := [⟨0, 0, 0⟩, ⟨1, 0, 0⟩, ⟨5, 0, 0⟩]

theorem aligned_center : nodesCenter aligned = ⟨2, 0, 0⟩ := by
  ext <;> simp [nodesCenter, aligned] <;> norm_num

/-- The diameter is not the largest distance between two nodes, as its documentation says: here it is 6 and all
distances are at most 5. -/
theorem diameter_violated : nodesDiameter aligned = 6 ∧ ∀ v ∈ aligned, ∀ w ∈ aligned, norm (v - w) ≤ 5 := by
  constructor
  · unfold nodesDiameter
    rw [aligned_center]
    have h : ∀ a b : ℝ, (⟨a, 0, 0⟩ : V3 ℝ) - ⟨b, 0, 0⟩ = ⟨a - b, 0, 0⟩ := fun a b => by ext <;> simp
    simp only [aligned, List.map_cons, List.map_nil, List.foldr_cons, List.foldr_nil, h, norm_along]
    norm_num [abs_of_neg]
  · have h : ∀ a b : ℝ, (⟨a, 0, 0⟩ : V3 ℝ) - ⟨b, 0, 0⟩ = ⟨a - b, 0, 0⟩ := fun a b => by ext <;> simp
    intro v hv w hw
    simp only [aligned, List.mem_cons, List.not_mem_nil, or_false] at hv hw
    rcases hv with rfl | rfl | rfl <;> rcases hw with rfl | rfl | rfl <;> rw [h, norm_along] <;> norm_num [abs_le]

/-! ## Centers of collections -/

mutual
theorem treeCenter_sum : ∀ t : Tree, (t.nbVertices : ℝ) • treeCenter t = (t.leaves.flatMap Mesh.vertices).sum
  | .leaf m => by
    rw [Tree.nbVertices, treeCenter, length_smul_center]
    simp [Tree.leaves]
  | .node s ps => by
    rw [Tree.nbVertices, treeCenter, Tree.leaves, ← weightedCenters_sum ps]
    by_cases h : nbVerticesAll ps = 0
    · have : ((leavesAll ps).flatMap Mesh.vertices).length = 0 := by
        rw [List.length_flatMap, ← nbVerticesAll_leaves, h]
      rw [weightedCenters_sum ps, List.eq_nil_of_length_eq_zero this, h]
      ext <;> simp
    · have h' : (nbVerticesAll ps : ℝ) ≠ 0 := Nat.cast_ne_zero.mpr h
      generalize (nbVerticesAll ps : ℝ) = n at *
      ext <;> simp [h']
theorem weightedCenters_sum : ∀ ps : List Tree, weightedCenters ps = ((leavesAll ps).flatMap Mesh.vertices).sum
  | [] => by simp [weightedCenters, leavesAll]
  | t :: ts => by
    rw [weightedCenters, treeCenter_sum t, weightedCenters_sum ts, leavesAll, List.flatMap_append, List.sum_append]
end

/-- The center of a collection is that of all its vertices together, however the collection is nested. -/
theorem collection_center (t : Tree) : treeCenter t = nodesCenter (t.leaves.flatMap Mesh.vertices) := by
  have hlen : ((t.leaves.flatMap Mesh.vertices).length : ℝ) = t.nbVertices := by
    rw [List.length_flatMap, nbVertices_eq]
  cases t with
  | leaf m => simp [treeCenter, Tree.leaves]
  | node s ps =>
    rw [treeCenter, weightedCenters_sum, nodesCenter, hlen]
    rfl

/-! ## Diameters of collections -/

theorem norm_le_twice {a : ℝ} {v : V3 ℝ} (hx : |v.x| ≤ a) (hy : |v.y| ≤ a) (hz : |v.z| ≤ a) : norm v ≤ 2 * a := by
  have ha : 0 ≤ a := (abs_nonneg _).trans hx
  refine Real.sqrt_le_iff.mpr ⟨by positivity, ?_⟩
  have h : ∀ t : ℝ, |t| ≤ a → t * t ≤ a * a := fun t ht => by
    rw [← abs_mul_abs_self t]
    exact mul_self_le_mul_self (abs_nonneg _) ht
  simp only [V3.dot]
  nlinarith [h _ hx, h _ hy, h _ hz]

/-- Two nodes of a collection are not farther from each other than the diameter of the collection, up to four times the
tolerance of the merging of the vertices; and the diameter is at most twice the largest distance between two nodes. -/
theorem collection_diameter (sort : (ℕ → ℝ) → List ℕ → List ℕ) (hs : ArgSort sort) {atol : ℝ} (ha : 0 ≤ atol) (t : Tree)
    (ht : t.Inhabited) (hv : ∀ m ∈ t.leaves, m.Valid) (hn : t.leaves.flatMap Mesh.vertices ≠ []) :
    ∃ d, treeDiameter sort atol t = some d ∧
      (∀ v ∈ t.leaves.flatMap Mesh.vertices, ∀ w ∈ t.leaves.flatMap Mesh.vertices, norm (v - w) ≤ d + 4 * atol) ∧
      ∀ D, 0 ≤ D → (∀ v ∈ t.leaves.flatMap Mesh.vertices, ∀ w ∈ t.leaves.flatMap Mesh.vertices, norm (v - w) ≤ D) →
        d ≤ 2 * D := by
  suffices h : ∃ r, t.merged sort atol = some r ∧ (∀ v ∈ r.vertices, v ∈ t.leaves.flatMap Mesh.vertices) ∧
      ∀ v ∈ t.leaves.flatMap Mesh.vertices, ∃ w ∈ r.vertices, norm (v - w) ≤ 2 * atol by
    obtain ⟨r, h1, h2, h3⟩ := h
    obtain ⟨b1, b2⟩ := diameter_bounds r.vertices
    refine ⟨nodesDiameter r.vertices, by simp [treeDiameter, h1], ?_, ?_⟩
    · intro v hv w hw
      obtain ⟨v', hv', ev⟩ := h3 v hv
      obtain ⟨w', hw', ew⟩ := h3 w hw
      have := b1 v' hv' w' hw'
      have t1 := Verif.Green.norm_triangle (v - v') (v' - w')
      have t2 := Verif.Green.norm_triangle (v - w') (w' - w)
      rw [sub_add_sub_cancel] at t1 t2
      rw [Verif.Green.norm_sub_comm w' w] at t2
      linarith
    · exact fun D hD h => b2 D hD fun v hv w hw => h v (h2 v hv) w (h2 w hw)
  cases t with
  | leaf m =>
    refine ⟨m, rfl, fun v hv => by simpa [Tree.leaves] using hv, fun v hv => ⟨v, by simpa [Tree.leaves] using hv, ?_⟩⟩
    have : norm (v - v) = 0 := by simp [V3.norm, V3.dot]
    rw [this]
    positivity
  | node s ps =>
    obtain ⟨m, h1, h2, h3, -⟩ := collection_concatenates _ ht hv
    obtain ⟨m1, ids, a1, -, -, a4, -⟩ := merge_duplicates sort hs atol ha m h2 (h3 ▸ hn)
    refine ⟨m1.healTriangles, by simp [Tree.merged, h1, a1], fun v hv => h3 ▸ a4 v hv, ?_⟩
    intro v hv
    obtain ⟨vs, ids', k1, -, k3, -⟩ := merge_rows (sort := sort) (atol := atol)
      (rows := m.vertices) (coords := [V3.x, V3.y, V3.z]) hs ha (h3 ▸ hn)
    have hm1 : m1.vertices = vs := by
      simp only [Mesh.mergeDuplicates, k1] at a1
      split at a1
      · cases a1
      · cases a1
        rfl
    rw [← h3] at hv
    obtain ⟨i, hi⟩ := List.mem_iff_getElem?.mp hv
    obtain ⟨k, w, -, hw, hnear⟩ := k3 i v hi
    refine ⟨w, ?_, norm_le_twice (hnear V3.x (by simp)) (hnear V3.y (by simp)) (hnear V3.z (by simp))⟩
    show w ∈ m1.vertices
    rw [hm1]
    exact List.mem_of_getElem? hw

/-! ## Distances -/

/-- When the test is true for both diameters, all the nodes are far from each other: with the default value, the distance
between two nodes is more than seven times each of the diameters. -/
theorem low_rank_separated_partial (d : ℝ) (a b : List (V3 ℝ))
    (ha : norm (nodesCenter a - nodesCenter b) > d * nodesDiameter a)
    (hb : norm (nodesCenter a - nodesCenter b) > d * nodesDiameter b) (v w : V3 ℝ) (hv : v ∈ a) (hw : w ∈ b) (hd : 1 ≤ d) :
    norm (v - w) > (d - 1) * nodesDiameter a ∧ norm (v - w) > (d - 1) * nodesDiameter b := by
  have h1 := node_near a hv
  have h2 := node_near b hw
  have n1 := Verif.Green.norm_nonneg' (v - nodesCenter a)
  have n2 := Verif.Green.norm_nonneg' (w - nodesCenter b)
  have t1 := Verif.Green.norm_triangle (nodesCenter a - v) (v - w)
  have t2 := Verif.Green.norm_triangle (nodesCenter a - v + (v - w)) (w - nodesCenter b)
  rw [show nodesCenter a - v + (v - w) + (w - nodesCenter b) = nodesCenter a - nodesCenter b by abel] at t2
  rw [Verif.Green.norm_sub_comm (nodesCenter a) v] at t1
  rcases le_total (nodesDiameter a) (nodesDiameter b) with h | h
  · constructor <;> nlinarith
  · constructor <;> nlinarith

/-- A small mesh and a large one that have a node in common. -/
def small : List (V3 ℝ) := [⟨0, 0, 0⟩, ⟨1, 0, 0⟩]
/-- The large one. -/
def large : List (V3 ℝ) := [⟨0, 0, 0⟩, ⟨100, 0, 0⟩]

/-- One of the diameters is enough for the test: meshes that touch each other are said to be far. -/
theorem low_rank_touching_violated : usesLowRank 8 small large ∧ ∃ v, v ∈ small ∧ v ∈ large := by
  have h : ∀ a b : ℝ, (⟨a, 0, 0⟩ : V3 ℝ) - ⟨b, 0, 0⟩ = ⟨a - b, 0, 0⟩ := fun a b => by ext <;> simp
  have c1 : nodesCenter small = ⟨1 / 2, 0, 0⟩ := by
    ext <;> simp [nodesCenter, small]
  have c2 : nodesCenter large = ⟨50, 0, 0⟩ := by
    ext <;> simp [nodesCenter, large] <;> norm_num
  refine ⟨Or.inl ?_, ⟨0, 0, 0⟩, by simp [small], by simp [large]⟩
  unfold nodesDiameter
  rw [c1, c2]
  simp only [small, List.map_cons, List.map_nil, List.foldr_cons, List.foldr_nil, h, norm_along]
  norm_num [abs_of_neg, abs_of_pos]

/-! ## Concrete cases -/

/-- Concrete case of `low_rank_separated_partial`: two short segments, at a distance of one hundred. -/
example : (8 : ℝ) * nodesDiameter small < norm (nodesCenter small - nodesCenter [⟨100, 0, 0⟩, ⟨101, 0, 0⟩]) ∧
    (8 : ℝ) * nodesDiameter [⟨100, 0, 0⟩, ⟨101, 0, 0⟩] < norm (nodesCenter small - nodesCenter [⟨100, 0, 0⟩, ⟨101, 0, 0⟩]) := by
  have h : ∀ a b : ℝ, (⟨a, 0, 0⟩ : V3 ℝ) - ⟨b, 0, 0⟩ = ⟨a - b, 0, 0⟩ := fun a b => by ext <;> simp
  have c1 : nodesCenter small = ⟨1 / 2, 0, 0⟩ := by
    ext <;> simp [nodesCenter, small]
  have c2 : nodesCenter [⟨100, 0, 0⟩, ⟨101, 0, 0⟩] = ⟨201 / 2, 0, 0⟩ := by
    ext <;> simp [nodesCenter] <;> norm_num
  unfold nodesDiameter
  rw [c1, c2]
  simp only [small, List.map_cons, List.map_nil, List.foldr_cons, List.foldr_nil, h, norm_along]
  norm_num [abs_of_neg, abs_of_pos]

/-- Concrete case of `collection_diameter`: two points, in two meshes. -/
example : ∃ d, treeDiameter insertionSort (1 / 10 ^ 8) (.node .plain [.leaf ⟨[⟨0, 0, 0⟩], []⟩, .leaf ⟨[⟨3, 0, 0⟩], []⟩]) = some d ∧
    3 ≤ d + 4 * (1 / 10 ^ 8) := by
  obtain ⟨d, h1, h2, -⟩ := collection_diameter insertionSort insertionSort_argSort (atol := 1 / 10 ^ 8) (by norm_num)
    (.node .plain [.leaf ⟨[⟨0, 0, 0⟩], []⟩, .leaf ⟨[⟨3, 0, 0⟩], []⟩]) (by simp [Tree.Inhabited, AllInhabited])
    (by simp [Tree.leaves, leavesAll, Mesh.Valid]) (by simp [Tree.leaves, leavesAll])
  refine ⟨d, h1, ?_⟩
  have := h2 ⟨0, 0, 0⟩ (by simp [Tree.leaves, leavesAll]) ⟨3, 0, 0⟩ (by simp [Tree.leaves, leavesAll])
  rw [show (⟨0, 0, 0⟩ : V3 ℝ) - ⟨3, 0, 0⟩ = ⟨-3, 0, 0⟩ by ext <;> simp, norm_along] at this
  norm_num at this
  linarith

/-- Concrete case of `collection_center`: a collection in a collection. -/
example : treeCenter (.node .plain [.leaf ⟨[⟨0, 0, 0⟩], []⟩, .node .plain [.leaf ⟨[⟨2, 0, 0⟩, ⟨4, 0, 0⟩], []⟩]]) = ⟨2, 0, 0⟩ := by
  rw [collection_center]
  ext <;> simp [nodesCenter, Tree.leaves, leavesAll] <;> norm_num

end Verif.Engines.Far
