import Verif.Engines.MemoModel
import Verif.Engines.FarProps
import Verif.Meshes.FaceSetProps
import Verif.Meshes.HealMeshProps

/-!
# C145: equal collections, and the diameters that are remembered
-/

namespace Verif.Engines.Far

open Verif.Geometry V3 Verif.Meshes

/-! ## Specification -/

/-- Two trees of the same shape, whatever the classes of the collections, with the same panels, each one as the set of its
corners, at the same leaves. -/
inductive Alike : Tree → Tree → Prop
  | leaf (m n : Mesh (V3 ℝ)) (h : panelSets m = panelSets n) : Alike (.leaf m) (.leaf n)
  | node (s s' : Sym) (ps qs : List Tree) (hl : ps.length = qs.length)
      (h : ∀ (k : ℕ) (t u : Tree), ps[k]? = some t → qs[k]? = some u → Alike t u) : Alike (.node s ps) (.node s' qs)

/-- All the vertices of the tree. -/
def nodesOf (t : Tree) : List (V3 ℝ) := t.leaves.flatMap Mesh.vertices

/-! ## Equality -/

mutual
theorem treeSame_alike : ∀ t u : Tree, (∀ m ∈ t.leaves, m.Valid) → (∀ m ∈ u.leaves, m.Valid) →
    (treeSame t u = true ↔ Alike t u)
  | .leaf m, .leaf n, ht, hu => by
    have hm := ht m (by simp [Tree.leaves])
    have hn := hu n (by simp [Tree.leaves])
    rw [treeSame, same_iff m n hm hn]
    exact ⟨fun h => .leaf _ _ h, fun h => by cases h; assumption⟩
  | .leaf _, .node _ _, _, _ => by
    simp only [treeSame]
    exact ⟨fun h => by simp at h, fun h => by cases h⟩
  | .node _ _, .leaf _, _, _ => by
    simp only [treeSame]
    exact ⟨fun h => by simp at h, fun h => by cases h⟩
  | .node s ps, .node s' qs, ht, hu => by
    rw [treeSame, treesSame_alike ps qs (by simpa [Tree.leaves] using ht) (by simpa [Tree.leaves] using hu)]
    exact ⟨fun h => .node _ _ _ _ h.1 h.2, fun h => by cases h; exact ⟨by assumption, by assumption⟩⟩
theorem treesSame_alike : ∀ ts us : List Tree, (∀ m ∈ leavesAll ts, m.Valid) → (∀ m ∈ leavesAll us, m.Valid) →
    (treesSame ts us = true ↔ ts.length = us.length ∧
      ∀ (k : ℕ) (t u : Tree), ts[k]? = some t → us[k]? = some u → Alike t u)
  | [], [], _, _ => by simp [treesSame]
  | [], _ :: _, _, _ => by simp [treesSame]
  | _ :: _, [], _, _ => by simp [treesSame]
  | t :: ts, u :: us, ht, hu => by
    rw [treesSame, Bool.and_eq_true,
      treeSame_alike t u (fun m hm => ht m (by simp [leavesAll, hm])) (fun m hm => hu m (by simp [leavesAll, hm])),
      treesSame_alike ts us (fun m hm => ht m (by simp [leavesAll, hm])) (fun m hm => hu m (by simp [leavesAll, hm]))]
    constructor
    · rintro ⟨h1, h2, h3⟩
      refine ⟨by simp [h2], ?_⟩
      intro k a b ha hb
      cases k with
      | zero => simp at ha hb; subst ha hb; exact h1
      | succ k => exact h3 k a b (by simpa using ha) (by simpa using hb)
    · rintro ⟨h2, h3⟩
      exact ⟨h3 0 t u rfl rfl, by simpa using h2, fun k a b ha hb => h3 (k + 1) a b (by simpa using ha) (by simpa using hb)⟩
end

/-- Two collections are equal exactly when they have the same shape and their leaves the same panels as sets of corners. The
classes of the collections, with their symmetries, are not compared. -/
theorem collections_equal_iff (t u : Tree) (ht : ∀ m ∈ t.leaves, m.Valid) (hu : ∀ m ∈ u.leaves, m.Valid) :
    treeSame t u = true ↔ Alike t u := treeSame_alike t u ht hu

mutual
theorem treeSame_self : ∀ t : Tree, treeSame t t = true
  | .leaf m => by simp [treeSame, Mesh.sameAs]
  | .node _ ps => by rw [treeSame]; exact treesSame_self ps
theorem treesSame_self : ∀ ts : List Tree, treesSame ts ts = true
  | [] => by simp [treesSame]
  | t :: ts => by rw [treesSame, treeSame_self t, treesSame_self ts]; rfl
end

/-- A collection is equal to the one of any other class with the same parts, and never to a single mesh, not even to the
mesh of all its panels. -/
theorem equality_blind (s s' : Sym) (ps : List Tree) (m : Mesh (V3 ℝ)) :
    treeSame (.node s ps) (.node s' ps) = true ∧ treeSame (.node s ps) (.leaf m) = false ∧
      treeSame (.leaf m) (.node s ps) = false := by
  refine ⟨?_, by simp only [treeSame], by simp only [treeSame]⟩
  rw [treeSame]
  exact treesSame_self ps

/-! ## The memory -/

variable {sort : (ℕ → ℝ) → List ℕ → List ℕ} {atol : ℝ}

/-- What is in a memory after a history. -/
def Filled (sort : (ℕ → ℝ) → List ℕ → List ℕ) (atol : ℝ) (history : List Tree) (mem : Memory) : Prop :=
  mem.length ≤ 1024 ∧ ∀ e ∈ mem, e.1 ∈ history ∧ treeDiameter sort atol e.1 = some e.2

theorem filled_read {history : List Tree} {mem mem' : Memory} {t : Tree} {d : ℝ} (h : Filled sort atol history mem)
    (hr : readDiameter sort atol mem t = some (mem', d)) : Filled sort atol (history ++ [t]) mem' := by
  obtain ⟨h1, h2⟩ := h
  have h2' : ∀ e ∈ mem, e.1 ∈ history ++ [t] ∧ treeDiameter sort atol e.1 = some e.2 := fun e he =>
    ⟨List.mem_append_left _ (h2 e he).1, (h2 e he).2⟩
  cases t with
  | leaf m =>
    simp only [readDiameter, Option.some.injEq, Prod.mk.injEq] at hr
    exact hr.1 ▸ ⟨h1, h2'⟩
  | node s ps =>
    simp only [readDiameter] at hr
    split at hr
    · rename_i e he
      simp only [Option.some.injEq, Prod.mk.injEq] at hr
      obtain ⟨rfl, -⟩ := hr
      have hmem := List.mem_of_find?_eq_some he
      have hp := List.find?_some he
      refine ⟨?_, ?_⟩
      · have h3 := List.length_eraseP_of_mem (p := fun e : Tree × ℝ => treeSame e.1 (.node s ps)) hmem (by simpa using hp)
        have h4 : 0 < mem.length := List.length_pos_of_mem hmem
        rw [List.length_cons, h3]
        omega
      · intro x hx
        rcases List.mem_cons.mp hx with rfl | hx
        · exact h2' _ hmem
        · exact h2' _ (List.mem_of_mem_eraseP hx)
    · obtain ⟨d', hd', hr⟩ := Option.map_eq_some_iff.mp hr
      simp only [Prod.mk.injEq] at hr
      obtain ⟨rfl, rfl⟩ := hr
      refine ⟨by simp [List.length_take], ?_⟩
      intro x hx
      rcases List.mem_cons.mp (List.mem_of_mem_take hx) with rfl | hx
      · exact ⟨by simp, hd'⟩
      · exact h2' _ hx

theorem filled_after (history : List Tree) : Filled sort atol history (memoryAfter sort atol history) := by
  induction history using List.reverseRecOn with
  | nil => simp [memoryAfter, Filled]
  | append_singleton l t ih =>
    rw [memoryAfter, List.foldl_append]
    simp only [List.foldl_cons, List.foldl_nil]
    change Filled sort atol (l ++ [t]) (match readDiameter sort atol (memoryAfter sort atol l) t with
      | some r => r.1
      | none => memoryAfter sort atol l)
    split
    · rename_i r hr
      exact filled_read ih hr
    · exact ⟨ih.1, fun x hx => ⟨List.mem_append_left _ (ih.2 x hx).1, (ih.2 x hx).2⟩⟩

/-- Whatever was read before, the memory has at most 1024 entries, and the diameter that is read is that of the mesh or of
a collection equal to it that was read before. -/
theorem diameter_of_equal (history : List Tree) (t : Tree) (mem : Memory) (d : ℝ)
    (h : readDiameter sort atol (memoryAfter sort atol history) t = some (mem, d)) :
    mem.length ≤ 1024 ∧ ∃ u, (u = t ∨ u ∈ history ∧ treeSame u t = true) ∧ treeDiameter sort atol u = some d := by
  have hf := filled_after (sort := sort) (atol := atol) history
  refine ⟨(filled_read hf h).1, ?_⟩
  cases t with
  | leaf m =>
    simp only [readDiameter, Option.some.injEq, Prod.mk.injEq] at h
    exact ⟨.leaf m, .inl rfl, by simp [treeDiameter, Tree.merged, h.2]⟩
  | node s ps =>
    simp only [readDiameter] at h
    split at h
    · rename_i e he
      simp only [Option.some.injEq, Prod.mk.injEq] at h
      have hmem := List.mem_of_find?_eq_some he
      have hp := List.find?_some he
      exact ⟨e.1, .inr ⟨(hf.2 e hmem).1, by simpa using hp⟩, h.2 ▸ (hf.2 e hmem).2⟩
    · obtain ⟨d', hd', h⟩ := Option.map_eq_some_iff.mp h
      simp only [Prod.mk.injEq] at h
      exact ⟨_, .inl rfl, h.2 ▸ hd'⟩

/-- When no equal collection was read before, the diameter is the right one. -/
theorem diameter_first (history : List Tree) (t : Tree) (hn : ∀ u ∈ history, treeSame u t = false) :
    (readDiameter sort atol (memoryAfter sort atol history) t).map Prod.snd = treeDiameter sort atol t := by
  have hf := filled_after (sort := sort) (atol := atol) history
  cases t with
  | leaf m => simp [readDiameter, treeDiameter, Tree.merged]
  | node s ps =>
    simp only [readDiameter]
    have : (memoryAfter sort atol history).find? (fun e => treeSame e.1 (.node s ps)) = none := by
      rw [List.find?_eq_none]
      intro e he
      simp [hn e.1 (hf.2 e he).1]
    rw [this]
    simp [Option.map_map, Function.comp_def]

/-! ## Which vertices equal collections have -/

theorem vertex_iff_panel (m : Mesh (V3 ℝ)) (hu : AllUsed m) (v : V3 ℝ) :
    v ∈ m.vertices ↔ ∃ s ∈ panelSets m, v ∈ s := by
  constructor
  · intro hv
    obtain ⟨k, hk⟩ := List.mem_iff_getElem?.mp hv
    obtain ⟨hlt, -⟩ := List.getElem?_eq_some_iff.mp hk
    obtain ⟨f, hf, hkf⟩ := hu k hlt
    exact ⟨_, ⟨f, hf, rfl⟩, k, hkf, hk⟩
  · rintro ⟨s, ⟨f, -, rfl⟩, i, -, hi⟩
    exact List.mem_of_getElem? hi

theorem leavesAll_eq_flatMap (ts : List Tree) : leavesAll ts = ts.flatMap Tree.leaves := by
  induction ts with
  | nil => rfl
  | cons t ts ih => simp [leavesAll, ih]

theorem alike_nodes {t u : Tree} (h : Alike t u) (ht : ∀ m ∈ t.leaves, AllUsed m) (hu : ∀ m ∈ u.leaves, AllUsed m)
    (v : V3 ℝ) : v ∈ nodesOf t ↔ v ∈ nodesOf u := by
  induction h with
  | leaf m n h =>
    simp only [nodesOf, Tree.leaves, List.flatMap_cons, List.flatMap_nil, List.append_nil]
    rw [vertex_iff_panel m (ht m (by simp [Tree.leaves])), vertex_iff_panel n (hu n (by simp [Tree.leaves])), h]
  | node s s' ps qs hl h ih =>
    have key : ∀ (xs : List Tree) (s : Sym), v ∈ nodesOf (.node s xs) ↔ ∃ (k : ℕ) (t : Tree), xs[k]? = some t ∧ v ∈ nodesOf t := by
      intro xs s
      simp only [nodesOf, Tree.leaves, leavesAll_eq_flatMap, List.mem_flatMap]
      constructor
      · rintro ⟨m, ⟨t, ht, hm⟩, hv⟩
        obtain ⟨k, hk⟩ := List.mem_iff_getElem?.mp ht
        exact ⟨k, t, hk, m, hm, hv⟩
      · rintro ⟨k, t, hk, m, hm, hv⟩
        exact ⟨m, ⟨t, List.mem_of_getElem? hk, hm⟩, hv⟩
    have sub : ∀ (xs : List Tree) (s : Sym) (k : ℕ) (t : Tree), (∀ m ∈ (Verif.Meshes.Tree.node s xs).leaves, AllUsed m) →
        xs[k]? = some t → ∀ m ∈ t.leaves, AllUsed m := by
      intro xs s k t hx hk m hm
      refine hx m ?_
      simp only [Tree.leaves, leavesAll_eq_flatMap, List.mem_flatMap]
      exact ⟨t, List.mem_of_getElem? hk, hm⟩
    rw [key, key]
    constructor
    · rintro ⟨k, t, hk, hv⟩
      have hlt : k < qs.length := hl ▸ (List.getElem?_eq_some_iff.mp hk).1
      have hq : qs[k]? = some qs[k] := List.getElem?_eq_getElem hlt
      exact ⟨k, _, hq, (ih k t _ hk hq (sub _ _ _ _ ht hk) (sub _ _ _ _ hu hq)).mp hv⟩
    · rintro ⟨k, u, hk, hv⟩
      have hlt : k < ps.length := hl ▸ (List.getElem?_eq_some_iff.mp hk).1
      have hp : ps[k]? = some ps[k] := List.getElem?_eq_getElem hlt
      exact ⟨k, _, hp, (ih k _ u hp hk (sub _ _ _ _ ht hp) (sub _ _ _ _ hu hk)).mpr hv⟩

/-- A collection that `diameter_of_nodes` accepts, where every vertex is used. -/
def Usable (t : Tree) : Prop :=
  t.Inhabited ∧ (∀ m ∈ t.leaves, m.Valid) ∧ (∀ m ∈ t.leaves, AllUsed m) ∧ nodesOf t ≠ []

/-- When the collections have no unused vertex, the diameter that is read is within the bounds of C144 whatever was read
before: at least the largest distance between two nodes, up to the tolerance, and at most twice this distance. Missing
from the full statement, which is that the diameter does not depend on the history: it is false
(`diameter_memory_violated`) without this hypothesis, and `diameter_memory_exact` needs another one. -/
theorem diameter_memory_partial (hs : ArgSort sort) (ha : 0 ≤ atol) (history : List Tree) (t : Tree)
    (hh : ∀ u ∈ history, Usable u) (ht : Usable t) :
    ∃ mem d, readDiameter sort atol (memoryAfter sort atol history) t = some (mem, d) ∧
      (∀ v ∈ nodesOf t, ∀ w ∈ nodesOf t, norm (v - w) ≤ d + 4 * atol) ∧
      ∀ D, 0 ≤ D → (∀ v ∈ nodesOf t, ∀ w ∈ nodesOf t, norm (v - w) ≤ D) → d ≤ 2 * D := by
  have hex : ∃ r, readDiameter sort atol (memoryAfter sort atol history) t = some r := by
    obtain ⟨d, hd, -⟩ := collection_diameter sort hs ha t ht.1 ht.2.1 ht.2.2.2
    cases t with
    | leaf m => exact ⟨_, rfl⟩
    | node s ps =>
      simp only [readDiameter]
      split
      · exact ⟨_, rfl⟩
      · exact ⟨((((.node s ps, d) :: memoryAfter sort atol history).take 1024, d)), by rw [hd]; rfl⟩
  obtain ⟨⟨mem, d⟩, hr⟩ := hex
  obtain ⟨-, u, hu, hd⟩ := diameter_of_equal history t mem d hr
  have hnodes : Usable u ∧ ∀ v, v ∈ nodesOf u ↔ v ∈ nodesOf t := by
    rcases hu with rfl | ⟨hmem, hsame⟩
    · exact ⟨ht, fun _ => Iff.rfl⟩
    · have hU := hh u hmem
      exact ⟨hU, alike_nodes ((collections_equal_iff u t hU.2.1 ht.2.1).mp hsame) hU.2.2.1 ht.2.2.1⟩
  obtain ⟨hU, hv⟩ := hnodes
  obtain ⟨d', hd', b1, b2⟩ := collection_diameter sort hs ha u hU.1 hU.2.1 hU.2.2.2
  rw [hd] at hd'
  cases hd'
  exact ⟨mem, d, hr, fun v h w h' => b1 v ((hv v).mpr h) w ((hv w).mpr h'),
    fun D hD h => b2 D hD fun v h1 w h2 => h v ((hv v).mp h1) w ((hv w).mp h2)⟩

/-! ## Vertices farther from each other than the tolerance -/

/-- Two different nodes differ by more than the tolerance in one coordinate. -/
def Apart (atol : ℝ) (vs : List (V3 ℝ)) : Prop :=
  ∀ v ∈ vs, ∀ w ∈ vs, |v.x - w.x| ≤ atol → |v.y - w.y| ≤ atol → |v.z - w.z| ≤ atol → v = w

theorem nodesDiameter_perm {vs ws : List (V3 ℝ)} (h : vs.Perm ws) : nodesDiameter vs = nodesDiameter ws := by
  have hc : nodesCenter vs = nodesCenter ws := by
    unfold nodesCenter
    rw [h.length_eq, h.sum_eq]
  unfold nodesDiameter
  rw [hc]
  haveI : LeftCommutative (max : ℝ → ℝ → ℝ) := ⟨max_left_comm⟩
  rw [(h.map fun v => norm (v - nodesCenter ws)).foldr_eq]

theorem merged_apart (hs : ArgSort sort) (ha : 0 ≤ atol) (s : Sym) (ps : List Tree)
    (hi : (Verif.Meshes.Tree.node s ps).Inhabited) (hv : ∀ m ∈ (Verif.Meshes.Tree.node s ps).leaves, m.Valid)
    (hn : nodesOf (.node s ps) ≠ []) (hap : Apart atol (nodesOf (.node s ps))) :
    ∃ r, (Verif.Meshes.Tree.node s ps).merged sort atol = some r ∧ r.vertices.Nodup ∧
      ∀ v, v ∈ r.vertices ↔ v ∈ nodesOf (.node s ps) := by
  obtain ⟨m, h1, h2, h3, -⟩ := collection_concatenates _ hi hv
  have h3' : m.vertices = nodesOf (.node s ps) := h3
  obtain ⟨m1, ids, a1, -, a3, a4, -⟩ := merge_duplicates sort hs atol ha m h2 (h3' ▸ hn)
  refine ⟨m1.healTriangles, by simp [Tree.merged, h1, a1], a3, fun v => ⟨fun hv => h3' ▸ a4 v hv, fun hv => ?_⟩⟩
  obtain ⟨vs, ids', k1, -, k3, -⟩ := merge_rows (sort := sort) (atol := atol)
    (rows := m.vertices) (coords := [V3.x, V3.y, V3.z]) hs ha (h3' ▸ hn)
  have hm1 : m1.vertices = vs := by
    simp only [Mesh.mergeDuplicates, k1] at a1
    split at a1
    · cases a1
    · cases a1
      rfl
  obtain ⟨i, hi⟩ := List.mem_iff_getElem?.mp (h3'.symm ▸ hv : v ∈ m.vertices)
  obtain ⟨k, w, -, hw, hnear⟩ := k3 i v hi
  have hw' : w ∈ m1.vertices := hm1 ▸ List.mem_of_getElem? hw
  have := hap v hv w (h3' ▸ a4 w hw') (hnear V3.x (by simp)) (hnear V3.y (by simp)) (hnear V3.z (by simp))
  show v ∈ m1.vertices
  rw [this]
  exact hw'

/-- When moreover the nodes of the collection are farther from each other than the tolerance of merging, the diameter that
is read does not depend on the history. -/
theorem diameter_memory_exact (hs : ArgSort sort) (ha : 0 ≤ atol) (history : List Tree) (t : Tree)
    (hh : ∀ u ∈ history, Usable u) (ht : Usable t) (hap : Apart atol (nodesOf t)) :
    (readDiameter sort atol (memoryAfter sort atol history) t).map Prod.snd = treeDiameter sort atol t := by
  obtain ⟨mem, d, hr, -⟩ := diameter_memory_partial hs ha history t hh ht
  obtain ⟨-, u, hu, hd⟩ := diameter_of_equal history t mem d hr
  rw [hr]
  show some d = _
  rw [← hd]
  rcases hu with rfl | ⟨hmem, hsame⟩
  · rfl
  · have hU := hh u hmem
    have hal := (collections_equal_iff u t hU.2.1 ht.2.1).mp hsame
    have hnodes := alike_nodes hal hU.2.2.1 ht.2.2.1
    have hapU : Apart atol (nodesOf u) := fun v hv w hw => hap v ((hnodes v).mp hv) w ((hnodes w).mp hw)
    cases t with
    | leaf n =>
      simp only [readDiameter, Option.some.injEq, Prod.mk.injEq] at hr
      rw [hd, ← hr.2]
      rfl
    | node s' qs =>
      cases u with
      | leaf m => cases hal
      | node s ps =>
        obtain ⟨r, r1, r2, r3⟩ := merged_apart hs ha s ps hU.1 hU.2.1 hU.2.2.2 hapU
        obtain ⟨r', r1', r2', r3'⟩ := merged_apart hs ha s' qs ht.1 ht.2.1 ht.2.2.2 hap
        have hperm : r.vertices.Perm r'.vertices :=
          (List.perm_ext_iff_of_nodup r2 r2').mpr fun v => (r3 v).trans ((hnodes v).trans (r3' v).symm)
        simp only [treeDiameter, r1, r1', Option.map_some, nodesDiameter_perm hperm]

/-! ## Violation -/

/-- A triangle. -/
def oneTriangle : Mesh (V3 ℝ) := ⟨[⟨0, 0, 0⟩, ⟨1, 0, 0⟩, ⟨0, 1, 0⟩], [⟨0, 1, 2, 0⟩]⟩

/-- The same triangle, and a vertex far away without any panel, as `heal_mesh` can leave (C143). -/
def withStray : Mesh (V3 ℝ) := ⟨[⟨0, 0, 0⟩, ⟨1, 0, 0⟩, ⟨0, 1, 0⟩, ⟨100, 0, 0⟩], [⟨0, 1, 2, 0⟩]⟩

/-- The diameter of a collection depends on what was read before: it is at most 4 for a triangle alone, and more than 99
when the same triangle with an unused vertex far away was read before. -/
theorem diameter_memory_violated (hs : ArgSort sort) :
    let t : Tree := .node .plain [.leaf oneTriangle]
    let u : Tree := .node .plain [.leaf withStray]
    (∃ r, readDiameter sort (1 / 10 ^ 8) (memoryAfter sort (1 / 10 ^ 8) []) t = some r ∧ r.2 ≤ 4) ∧
      ∃ r, readDiameter sort (1 / 10 ^ 8) (memoryAfter sort (1 / 10 ^ 8) [u]) t = some r ∧ 99 < r.2 := by
  intro t u
  have vs : oneTriangle.Valid := by simp [Mesh.Valid, oneTriangle, Face.toList]
  have vw : withStray.Valid := by simp [Mesh.Valid, withStray, Face.toList]
  obtain ⟨d, hd, -, hd2⟩ := collection_diameter sort hs (atol := 1 / 10 ^ 8) (by norm_num) t
    (by simp [t, Tree.Inhabited, AllInhabited]) (by simp [t, Tree.leaves, leavesAll, vs])
    (by simp [t, Tree.leaves, leavesAll, oneTriangle])
  obtain ⟨e, he, he1, -⟩ := collection_diameter sort hs (atol := 1 / 10 ^ 8) (by norm_num) u
    (by simp [u, Tree.Inhabited, AllInhabited]) (by simp [u, Tree.leaves, leavesAll, vw])
    (by simp [u, Tree.leaves, leavesAll, withStray])
  have hsame : treeSame u t = true := by
    rw [collections_equal_iff u t (by simp [u, Tree.leaves, leavesAll, vw]) (by simp [t, Tree.leaves, leavesAll, vs])]
    refine .node _ _ _ _ rfl ?_
    intro k a b ha hb
    cases k with
    | succ k => simp at ha
    | zero =>
      simp at ha hb
      subst ha hb
      refine .leaf _ _ ?_
      ext s
      simp [panelSets, IsPanelSet, withStray, oneTriangle, Face.toList]
  constructor
  · refine ⟨(([(t, d)] : Memory).take 1024, d), ?_, ?_⟩
    · simp only [memoryAfter, List.foldl_nil, t, readDiameter, List.find?_nil]
      rw [hd]
      rfl
    · show d ≤ 4
      have := hd2 2 (by norm_num) ?_
      · linarith
      · intro v hv w hw
        simp only [t, Tree.leaves, leavesAll, oneTriangle, List.append_nil, List.flatMap_cons, List.flatMap_nil, List.mem_cons,
          List.not_mem_nil, or_false] at hv hw
        unfold V3.norm
        rw [Real.sqrt_le_left (by norm_num)]
        rcases hv with rfl | rfl | rfl <;> rcases hw with rfl | rfl | rfl <;> simp [V3.dot] <;> norm_num
  · have hmem : memoryAfter sort (1 / 10 ^ 8) [u] = [(u, e)] := by
      simp only [memoryAfter, List.foldl_cons, List.foldl_nil, u, readDiameter, List.find?_nil]
      rw [he]
      rfl
    refine ⟨([(u, e)], e), ?_, ?_⟩
    · rw [hmem]
      show (match ([(u, e)] : Memory).find? fun x => treeSame x.1 t with
        | some e => some (e :: ([(u, _)] : Memory).eraseP fun e => treeSame e.1 t, e.2)
        | none => _) = _
      simp [hsame]
    · show 99 < e
      have := he1 ⟨0, 0, 0⟩ (by simp [u, Tree.leaves, leavesAll, withStray]) ⟨100, 0, 0⟩
        (by simp [u, Tree.leaves, leavesAll, withStray])
      rw [show (⟨0, 0, 0⟩ : V3 ℝ) - ⟨100, 0, 0⟩ = ⟨-100, 0, 0⟩ by ext <;> simp, norm_along] at this
      norm_num at this
      linarith

/-! ## Examples -/

theorem oneTriangle_usable (s : Sym) : Usable (.node s [.leaf oneTriangle]) := by
  refine ⟨by simp [Tree.Inhabited, AllInhabited], by simp [Tree.leaves, leavesAll, Mesh.Valid, oneTriangle, Face.toList], ?_,
    by simp [nodesOf, Tree.leaves, leavesAll, oneTriangle]⟩
  intro m hm k hk
  simp only [Tree.leaves, leavesAll, List.append_nil, List.mem_singleton] at hm
  subst hm
  refine ⟨⟨0, 1, 2, 0⟩, by simp [oneTriangle], ?_⟩
  simp only [oneTriangle, List.length_cons, List.length_nil] at hk
  simp only [Face.toList, List.mem_cons, List.not_mem_nil, or_false]
  omega

/-- Concrete case of `collections_equal_iff`: a triangle and the same one reversed. -/
example : treeSame (.node .plain [.leaf oneTriangle]) (.node (.translation ⟨1, 0, 0⟩) [.leaf ⟨oneTriangle.vertices, [⟨0, 2, 1, 0⟩]⟩]) = true := by
  rw [collections_equal_iff _ _ (by simp [Tree.leaves, leavesAll, Mesh.Valid, oneTriangle, Face.toList])
    (by simp [Tree.leaves, leavesAll, Mesh.Valid, oneTriangle, Face.toList])]
  refine .node _ _ _ _ rfl ?_
  intro k a b ha hb
  cases k with
  | succ k => simp at ha
  | zero =>
    simp at ha hb
    subst ha hb
    refine .leaf _ _ ?_
    ext s
    simp only [panelSets, IsPanelSet, oneTriangle, Face.toList, List.mem_singleton, exists_eq_left, Set.mem_ofPred_eq]
    have : ∀ v : V3 ℝ, (∃ i ∈ ([0, 1, 2, 0] : List ℕ), ([⟨0, 0, 0⟩, ⟨1, 0, 0⟩, ⟨0, 1, 0⟩] : List (V3 ℝ))[i]? = some v) ↔
        ∃ i ∈ ([0, 2, 1, 0] : List ℕ), ([⟨0, 0, 0⟩, ⟨1, 0, 0⟩, ⟨0, 1, 0⟩] : List (V3 ℝ))[i]? = some v := by
      intro v
      simp
      tauto
    simp only [this]

/-- Concrete case of `diameter_memory_partial`: an equal collection of another class was read before. -/
example : ∃ mem d, readDiameter insertionSort (1 / 10 ^ 8)
    (memoryAfter insertionSort (1 / 10 ^ 8) [.node (.translation ⟨1, 0, 0⟩) [.leaf oneTriangle]]) (.node .plain [.leaf oneTriangle]) =
      some (mem, d) ∧ 1 ≤ d + 4 * (1 / 10 ^ 8) := by
  obtain ⟨mem, d, h1, h2, -⟩ := diameter_memory_partial insertionSort_argSort (atol := 1 / 10 ^ 8) (by norm_num)
    [.node (.translation ⟨1, 0, 0⟩) [.leaf oneTriangle]] (.node .plain [.leaf oneTriangle])
    (by intro u hu; simp only [List.mem_singleton] at hu; exact hu ▸ oneTriangle_usable _) (oneTriangle_usable _)
  refine ⟨mem, d, h1, ?_⟩
  have := h2 ⟨0, 0, 0⟩ (by simp [nodesOf, Tree.leaves, leavesAll, oneTriangle]) ⟨1, 0, 0⟩
    (by simp [nodesOf, Tree.leaves, leavesAll, oneTriangle])
  rw [show (⟨0, 0, 0⟩ : V3 ℝ) - ⟨1, 0, 0⟩ = ⟨-1, 0, 0⟩ by ext <;> simp, norm_along] at this
  norm_num at this ⊢
  linarith

/-- Concrete case of `diameter_memory_exact`: the same collections. -/
example : (readDiameter insertionSort (1 / 10 ^ 8)
    (memoryAfter insertionSort (1 / 10 ^ 8) [.node (.translation ⟨1, 0, 0⟩) [.leaf oneTriangle]]) (.node .plain [.leaf oneTriangle])).map
      Prod.snd = treeDiameter insertionSort (1 / 10 ^ 8) (.node .plain [.leaf oneTriangle]) := by
  refine diameter_memory_exact insertionSort_argSort (by norm_num) _ _
    (by intro u hu; simp only [List.mem_singleton] at hu; exact hu ▸ oneTriangle_usable _) (oneTriangle_usable _) ?_
  intro v hv w hw hx hy _
  simp only [nodesOf, Tree.leaves, leavesAll, oneTriangle, List.append_nil, List.flatMap_cons, List.flatMap_nil, List.mem_cons,
    List.not_mem_nil, or_false] at hv hw
  rcases hv with rfl | rfl | rfl <;> rcases hw with rfl | rfl | rfl <;> first | rfl | (norm_num at hx; done) | (norm_num at hy; done)

/-- Concrete case of `diameter_first`: another triangle was read before. -/
example : treeSame (.node .plain [.leaf oneTriangle, .leaf oneTriangle]) (.node .plain [.leaf oneTriangle]) = false := by
  simp [treeSame, treesSame]

end Verif.Engines.Far
