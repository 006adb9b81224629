import Verif.Meshes.RoundProps

/-!
# C56: parallelepipeds, horizontal cylinders and free surfaces
-/

namespace Verif.Meshes

open Verif.Geometry V3

/-! ## Rectangles turned towards the directions of the axes -/

theorem gridMesh_move (R n : ℕ) (P : ℕ → ℕ → V3 ℝ) (f : V3 ℝ → V3 ℝ) :
    (gridMesh R n P).move f = gridMesh R n fun i j => f (P i j) := by
  simp only [gridMesh, Mesh.move, gridNodes, List.map_flatMap, List.map_map]
  rfl

theorem rotatePoint_add (v c q : V3 ℝ) (θ : ℝ) : (mkAxis v c).rotatePoint θ (q + c) = (mkAxis v c).rotateVector θ q + c := by
  unfold Axis.rotatePoint
  rw [show (mkAxis v c).point = c from rfl, show q + c - c = q by ext <;> simp]

theorem mkAxis_of_unit {v c : V3 ℝ} (h : dot v v = 1) : mkAxis v c = ⟨v, c⟩ := by
  unfold mkAxis V3.norm
  rw [h, Real.sqrt_one, inv_one]
  congr 1
  ext <;> simp

theorem align_left (c q : V3 ℝ) : alignedPoint c ⟨-1, 0, 0⟩ ⟨-1, 0, 0⟩ (q + c) = q + c := by
  have h : parallelSame (⟨-1, 0, 0⟩ : V3 ℝ) ⟨-1, 0, 0⟩ := by
    refine ⟨?_, by simp [dot]⟩
    unfold parallelVectors V3.norm
    norm_num [dot, cross]
  unfold alignedPoint alignRotation
  rw [if_pos h]

theorem align_right (c q : V3 ℝ) : alignedPoint c ⟨-1, 0, 0⟩ ⟨1, 0, 0⟩ (q + c) = ⟨-q.x, -q.y, q.z⟩ + c := by
  have h1 : ¬ parallelSame (⟨-1, 0, 0⟩ : V3 ℝ) ⟨1, 0, 0⟩ := by
    rintro ⟨-, h⟩
    norm_num [dot] at h
  have h2 : parallelVectors (⟨-1, 0, 0⟩ : V3 ℝ) ⟨1, 0, 0⟩ := by
    unfold parallelVectors V3.norm
    norm_num [dot, cross]
  have h3 : parallelVectors (⟨-1, 0, 0⟩ : V3 ℝ) ex := h2
  unfold alignedPoint alignRotation
  rw [if_neg h1, if_pos h2, if_pos h3]
  simp only
  rw [rotatePoint_add, rotateVector_eq, mkAxis_of_unit (by norm_num [dot, cross, ey])]
  ext <;> simp [cross, ey] <;> ring

theorem align_quarter (c q v : V3 ℝ) (hd : v.x = 0) (hv : dot v v = 1) :
    alignedPoint c ⟨-1, 0, 0⟩ v (q + c) =
      ⟨v.y * q.y + v.z * q.z, -v.y * q.x + (1 - v.y ^ 2) * q.y - v.y * v.z * q.z,
        -v.z * q.x - v.y * v.z * q.y + (1 - v.z ^ 2) * q.z⟩ + c := by
  have hu : dot (cross (⟨-1, 0, 0⟩ : V3 ℝ) v) (cross ⟨-1, 0, 0⟩ v) = 1 := by
    simp only [dot, hd] at hv
    simp only [dot, cross]
    linear_combination hv
  have h2 : ¬ parallelVectors (⟨-1, 0, 0⟩ : V3 ℝ) v := by
    unfold parallelVectors V3.norm
    rw [hu]
    norm_num
  have h1 : ¬ parallelSame (⟨-1, 0, 0⟩ : V3 ℝ) v := fun h => h2 h.1
  unfold alignedPoint alignRotation
  rw [if_neg h1, if_neg h2]
  have hdot : dot (⟨-1, 0, 0⟩ : V3 ℝ) v = 0 := by simp [dot, hd]
  rw [hdot, Real.arccos_zero]
  simp only
  rw [rotatePoint_add, rotateVector_eq, mkAxis_of_unit hu]
  have hv' : v.y ^ 2 + v.z ^ 2 = 1 := by
    simp only [dot, hd] at hv
    linarith
  ext
  · simp [cross]
    linear_combination (-q.x) * hv'
  · simp [cross]
    ring
  · simp [cross]
    ring

/-- The first panel of a rectangle is turned towards `-x`. -/
theorem rectangle_normal (w h : ℝ) {nw nh : ℕ} (hk : 1e-12 ≤ 2 * (w / nw) * (h / nh)) (hw : 0 < nw) (hh : 0 < nh) (center : V3 ℝ) :
    ∃ p, ((gridMesh nw nh (rectangleNode w h nw nh)).translate center).panelAt 0 = some p ∧ p.normal = ⟨-1, 0, 0⟩ := by
  have e := (grid_well_formed nw nh (rectangleNode w h nw nh)).2.2.2 0 hw 0 hh
  rw [show (0 : ℕ) + 0 * nh = 0 by omega] at e
  have e' : ((gridMesh nw nh (rectangleNode w h nw nh)).translate center).shapes[0]? =
      some (false, some ((quadAt (rectangleNode w h nw nh) 0 0).1 + center, (quadAt (rectangleNode w h nw nh) 0 0).2.1 + center,
        (quadAt (rectangleNode w h nw nh) 0 0).2.2.1 + center, (quadAt (rectangleNode w h nw nh) 0 0).2.2.2 + center)) := by
    rw [show (gridMesh nw nh (rectangleNode w h nw nh)).translate center =
      (gridMesh nw nh (rectangleNode w h nw nh)).move (fun p => p + center) from rfl, shapes_move, List.getElem?_map, e]
    rfl
  refine ⟨_, panelAt_of_shape e', ?_⟩
  simp only [panelOf]
  rw [if_neg (by simp)]
  unfold quadPanel
  simp only [quadAt, rectangleNode, linspace_succ]
  set a := linspace (-w / 2) (w / 2) nw 0
  set b := linspace (-h / 2) (h / 2) nh 0
  have ew : (w / 2 - -w / 2) / (nw : ℝ) = w / nw := by ring
  have eh : (h / 2 - -h / 2) / (nh : ℝ) = h / nh := by ring
  rw [ew, eh]
  have hc : cross ((⟨0, a + w / nw, b + h / nh⟩ : V3 ℝ) + center - (⟨0, a, b⟩ + center))
      (⟨0, a + w / nw, b⟩ + center - (⟨0, a, b + h / nh⟩ + center)) = ⟨-(2 * (w / nw) * (h / nh)), 0, 0⟩ := by
    ext <;> simp <;> ring
  rw [hc]
  set s := 2 * (w / nw) * (h / nh) with hs
  have hn : norm (⟨-s, 0, 0⟩ : V3 ℝ) = s := by
    unfold V3.norm
    rw [show dot (⟨-s, 0, 0⟩ : V3 ℝ) ⟨-s, 0, 0⟩ = s ^ 2 by simp [dot]; ring, Real.sqrt_sq (by linarith)]
  rw [hn, if_neg (by rw [abs_of_nonneg (by linarith)]; linarith)]
  have hs0 : s ≠ 0 := by intro h; rw [h] at hk; norm_num at hk
  simp only
  ext <;> simp [hs0]

/-- A rectangle turned towards a direction, as a grid. -/
theorem rectangle_grid (w h : ℝ) (nw nh : ℕ) (hk : 1e-12 ≤ 2 * (w / nw) * (h / nh)) (hw : 0 < w) (hh : 0 < h) (hnw : 0 < nw) (hnh : 0 < nh)
    (center normal : V3 ℝ) : meshRectangle (w, h) center (nw, nh) none normal =
      some (gridMesh nw nh fun i j => alignedPoint center ⟨-1, 0, 0⟩ normal (rectangleNode w h nw nh i j + center)) := by
  unfold meshRectangle
  rw [if_pos ⟨hw, hh, hnw, hnh⟩]
  simp only [rectangleResolution]
  obtain ⟨p, hp, hpn⟩ := rectangle_normal w h hk hnw hnh center
  unfold Mesh.alignNormal
  rw [hp, Option.map_some, hpn]
  congr 1
  have := gridMesh_move nw nh (rectangleNode w h nw nh) (fun q => alignedPoint center ⟨-1, 0, 0⟩ normal (q + center))
  rw [← this]
  simp [Mesh.move, Mesh.translate]

/-! ## Parallelepipeds -/

/-- The nodes of the sides of a parallelepiped around the origin, in the order of the panels. -/
noncomputable def boxNode (size : ℝ × ℝ × ℝ) (n : ℕ × ℕ × ℕ) : BoxSide → ℕ → ℕ → V3 ℝ :=
  let x := linspace (-size.1 / 2) (size.1 / 2) n.1
  let y := linspace (-size.2.1 / 2) (size.2.1 / 2) n.2.1
  let z := linspace (-size.2.2 / 2) (size.2.2 / 2) n.2.2
  fun
  | .left => fun i j => ⟨-size.1 / 2, y i, z j⟩
  | .right => fun i j => ⟨size.1 / 2, -y i, z j⟩
  | .front => fun i j => ⟨-x i, -size.2.1 / 2, z j⟩
  | .back => fun i j => ⟨x i, size.2.1 / 2, z j⟩
  | .top => fun i j => ⟨x j, y i, size.2.2 / 2⟩
  | .bottom => fun i j => ⟨-x j, y i, -size.2.2 / 2⟩

/-- The numbers of panels of a side along its two directions. -/
def sideResolution (n : ℕ × ℕ × ℕ) : BoxSide → ℕ × ℕ
  | .left | .right => (n.2.1, n.2.2)
  | .front | .back => (n.1, n.2.2)
  | .top | .bottom => (n.2.1, n.1)

/-- The panels are not too small to be seen by the computation of the normals. -/
def BoxKept (size : ℝ × ℝ × ℝ) (n : ℕ × ℕ × ℕ) : Prop :=
  1e-12 ≤ 2 * (size.2.1 / n.2.1) * (size.2.2 / n.2.2) ∧ 1e-12 ≤ 2 * (size.1 / n.1) * (size.2.2 / n.2.2) ∧
    1e-12 ≤ 2 * (size.2.1 / n.2.1) * (size.1 / n.1)

theorem boxSide_grid {size : ℝ × ℝ × ℝ} {n : ℕ × ℕ × ℕ} (hs : 0 < size.1 ∧ 0 < size.2.1 ∧ 0 < size.2.2)
    (hn : 0 < n.1 ∧ 0 < n.2.1 ∧ 0 < n.2.2) (hk : BoxKept size n) (s : BoxSide) :
    boxSide size n s = some (gridMesh (sideResolution n s).1 (sideResolution n s).2 (boxNode size n s)) := by
  obtain ⟨w, t, h⟩ := size
  obtain ⟨nw, nt, nh⟩ := n
  obtain ⟨hw, ht, hh⟩ := hs
  obtain ⟨n1, n2, n3⟩ := hn
  obtain ⟨k1, k2, k3⟩ := hk
  simp only at *
  cases s with
  | left =>
    simp only [boxSide]
    rw [rectangle_grid t h nt nh k1 ht hh n2 n3]
    simp only [align_left, sideResolution, boxNode, rectangleNode]
    congr 2
    funext i j
    ext <;> simp
  | right =>
    simp only [boxSide]
    rw [rectangle_grid t h nt nh k1 ht hh n2 n3]
    simp only [align_right, sideResolution, boxNode, rectangleNode]
    congr 2
    funext i j
    ext <;> simp
  | front =>
    simp only [boxSide]
    rw [rectangle_grid w h nw nh k2 hw hh n1 n3]
    simp only [align_quarter _ _ ⟨0, -1, 0⟩ rfl (by simp [dot]), sideResolution, boxNode, rectangleNode]
    congr 2
    funext i j
    ext <;> simp
  | back =>
    simp only [boxSide]
    rw [rectangle_grid w h nw nh k2 hw hh n1 n3]
    simp only [align_quarter _ _ ⟨0, 1, 0⟩ rfl (by simp [dot]), sideResolution, boxNode, rectangleNode]
    congr 2
    funext i j
    ext <;> simp
  | top =>
    simp only [boxSide]
    rw [rectangle_grid t w nt nw k3 ht hw n2 n1]
    simp only [align_quarter _ _ ⟨0, 0, 1⟩ rfl (by simp [dot]), sideResolution, boxNode, rectangleNode]
    congr 2
    funext i j
    ext <;> simp
  | bottom =>
    simp only [boxSide]
    rw [rectangle_grid t w nt nw k3 ht hw n2 n1]
    simp only [align_quarter _ _ ⟨0, 0, -1⟩ rfl (by simp [dot]), sideResolution, boxNode, rectangleNode]
    congr 2
    funext i j
    ext <;> simp

theorem linspace_opposite {a : ℝ} {n k : ℕ} (hn : 0 < n) (hk : k ≤ n) :
    -linspace (-a / 2) (a / 2) n k = linspace (-a / 2) (a / 2) n (n - k) := by
  unfold linspace
  have hn' : (n : ℝ) ≠ 0 := by exact_mod_cast hn.ne'
  rw [Nat.cast_sub hk]
  field_simp
  ring

/-- The sum over the border of a line taken backwards. -/
theorem lineSum_opposite {w : V3 ℝ → V3 ℝ → ℤ} (hw : Antisymm w) {a : ℝ} {n : ℕ} (hn : 0 < n) (f : ℝ → V3 ℝ) :
    lineSum w (fun i => f (-linspace (-a / 2) (a / 2) n i)) n = -lineSum w (fun i => f (linspace (-a / 2) (a / 2) n i)) n := by
  rw [← lineSum_reverse hw]
  exact lineSum_congr w fun k hk => by rw [linspace_opposite hn hk]

theorem assembled_leaves {ms : List (Mesh (V3 ℝ))} {m : Mesh (V3 ℝ)} (hv : ∀ m ∈ ms, m.Valid)
    (h : (Tree.node .plain (ms.map .leaf)).assembled = some m) :
    m.shapes = ms.flatMap Mesh.shapes ∧ m.Valid ∧ m.faces.length = (ms.map fun m => m.faces.length).sum := by
  have hl : (Tree.node .plain (ms.map .leaf)).leaves = ms := by
    simp only [Tree.leaves, leavesAll_eq, List.flatMap_map]
    induction ms with
    | nil => rfl
    | cons x l ih =>
      simp only [List.flatMap_cons, List.singleton_append, Tree.leaves, List.cons.injEq, true_and] at ih ⊢
      clear h hv
      induction l with
      | nil => rfl
      | cons y l ih2 => simp
  by_cases hne : ms = []
  · subst hne
    exact absurd h (by simp [Tree.assembled, Tree.vertices, Tree.array, concatenate, arrays])
  have hin : (Tree.node .plain (ms.map .leaf)).Inhabited := by
    simp only [Tree.Inhabited, allInhabited_iff]
    refine ⟨by simpa using hne, ?_⟩
    intro s hs
    obtain ⟨x, _, rfl⟩ := List.mem_map.1 hs
    simp [Tree.Inhabited]
  obtain ⟨m', h1, h2, _, h4, _, h6, _⟩ := collection_concatenates _ hin (by rw [hl]; exact hv)
  rw [h] at h1
  injection h1 with h1
  subst h1
  refine ⟨by rw [h4, hl], h2, ?_⟩
  rw [h6, nbFaces_eq, hl]

/-- The sides of a parallelepiped that are built. -/
def sidesBuilt (missing : List BoxSide) : List BoxSide :=
  [.left, .right, .front, .back, .top, .bottom].filter fun s => s ∉ missing

/-- A parallelepiped that can be built is made of grids. -/
theorem box_grids {size : ℝ × ℝ × ℝ} {center : V3 ℝ} {res : ℕ × ℕ × ℕ} {r : Option ℝ} {missing : List BoxSide} {m : Mesh (V3 ℝ)}
    (h : meshParallelepiped size center res r missing = some m) :
    (0 < size.1 ∧ 0 < size.2.1 ∧ 0 < size.2.2) ∧ (0 < res.1 ∧ 0 < res.2.1 ∧ 0 < res.2.2) ∧
    ∃ (sides : List (Mesh (V3 ℝ))) (m' : Mesh (V3 ℝ)), (sidesBuilt missing).mapM (boxSide size (boxResolution size res r)) = some sides ∧
      (Tree.node .plain (sides.map .leaf)).assembled = some m' ∧ m = m'.translate center := by
  unfold meshParallelepiped at h
  split_ifs at h with hp
  refine ⟨hp.1, hp.2, ?_⟩
  simp only at h
  split at h
  · exact absurd h (by simp)
  rename_i sides hs
  obtain ⟨m', hm', rfl⟩ := Option.map_eq_some_iff.1 h
  exact ⟨sides, m', hs, hm', rfl⟩

theorem mapM_of_some {A B : Type} {f : A → Option B} {g : A → B} (h : ∀ a, f a = some (g a)) (l : List A) :
    l.mapM f = some (l.map g) := by
  rw [show f = fun a => some (g a) from funext h]
  induction l with
  | nil => rfl
  | cons a l ih =>
    rw [List.mapM_cons, ih]
    rfl

/-- **C56**: a parallelepiped with its six sides is a closed surface, as soon as its panels are not so small that the
computation of the normals takes them for flat. -/
theorem box_closed {size : ℝ × ℝ × ℝ} {center : V3 ℝ} {res : ℕ × ℕ × ℕ} {r : Option ℝ} {m : Mesh (V3 ℝ)}
    (hr : ∀ x, r = some x → 0 < x) (hk : BoxKept size (boxResolution size res r))
    (h : meshParallelepiped size center res r [] = some m) : ClosedSurface m.pieces := by
  obtain ⟨hs, hn, sides, m', h1, h2, rfl⟩ := box_grids h
  have hn' : 0 < (boxResolution size res r).1 ∧ 0 < (boxResolution size res r).2.1 ∧ 0 < (boxResolution size res r).2.2 := by
    cases r with
    | none => exact hn
    | some x =>
      have hb := box_resolution hs.1 hs.2.1 hs.2.2 (hr x rfl) hn.1 hn.2.1 hn.2.2
      dsimp only at hb
      obtain ⟨⟨a, b, c, _⟩, _⟩ := hb
      exact ⟨a, b, c⟩
  set n := boxResolution size res r
  rw [mapM_of_some (boxSide_grid hs hn' hk)] at h1
  injection h1 with h1
  have hb : sidesBuilt [] = [.left, .right, .front, .back, .top, .bottom] := rfl
  rw [hb] at h1
  have hv : ∀ m ∈ sides, m.Valid := by
    intro m hm
    rw [← h1] at hm
    obtain ⟨s, _, rfl⟩ := List.mem_map.1 hm
    exact (grid_well_formed _ _ _).2.2.1
  obtain ⟨e1, _, _⟩ := assembled_leaves hv h2
  have hc : ClosedSurface m'.pieces := by
    refine closed_of_shapes _ fun w hw => ?_
    rw [e1, ← h1, List.flatMap_map, sum_map_flatMap]
    have hg : ∀ s, ((gridMesh (sideResolution n s).1 (sideResolution n s).2 (boxNode size n s)).shapes.map (shapeSum w)).sum =
        lineSum w (fun j => boxNode size n s 0 j) (sideResolution n s).2 - lineSum w (fun j => boxNode size n s (sideResolution n s).1 j) (sideResolution n s).2 +
          lineSum w (fun i => boxNode size n s i (sideResolution n s).2) (sideResolution n s).1 - lineSum w (fun i => boxNode size n s i 0) (sideResolution n s).1 := by
      intro s
      rw [grid_shapes, sum_grid, grid_border hw]
    simp only [hg, List.map_cons, List.map_nil, List.sum_cons, List.sum_nil]
    obtain ⟨n1, n2, n3⟩ := hn'
    simp only [sideResolution, boxNode, linspace_first, linspace_last n1, linspace_last n2, linspace_last n3]
    have x1 := fun b c => lineSum_opposite hw (a := size.1) n1 (fun x => (⟨x, b, c⟩ : V3 ℝ))
    have x2 := fun b c => lineSum_opposite hw (a := size.2.1) n2 (fun x => (⟨b, x, c⟩ : V3 ℝ))
    simp only [x1, x2]
    simp only [neg_div, neg_neg]
    ring
  rw [show m'.translate center = m'.move (fun p => p + center) from rfl, pieces_move]
  exact closed_move hc (fun p => p + center)

theorem mapM_mem_rev {A B : Type} {f : A → Option B} {l : List A} {r : List B} (h : l.mapM f = some r) {y : B} (hy : y ∈ r) :
    ∃ x ∈ l, f x = some y := by
  induction l generalizing r with
  | nil =>
    cases h
    cases hy
  | cons a l ih =>
    rw [List.mapM_cons] at h
    cases ha : f a with
    | none => rw [ha] at h; exact absurd h (by simp)
    | some b =>
      cases hl : l.mapM f with
      | none => rw [ha, hl] at h; exact absurd h (by simp)
      | some bs =>
        rw [ha, hl] at h
        simp at h
        subst h
        rcases List.mem_cons.1 hy with rfl | hy
        · exact ⟨a, by simp, ha⟩
        · obtain ⟨x, hx, e⟩ := ih hl hy
          exact ⟨x, by simp [hx], e⟩

/-- The sides are rectangles with the resolution of the parallelepiped. -/
theorem boxSide_rectangle (size : ℝ × ℝ × ℝ) (n : ℕ × ℕ × ℕ) (s : BoxSide) : ∃ (a b : ℝ) (c v : V3 ℝ),
    boxSide size n s = meshRectangle (a, b) c (sideResolution n s) none v ∧
    (s = .left ∨ s = .right → a = size.2.1 ∧ b = size.2.2) ∧ (s = .front ∨ s = .back → a = size.1 ∧ b = size.2.2) ∧
    (s = .top ∨ s = .bottom → a = size.2.1 ∧ b = size.1) := by
  cases s <;> exact ⟨_, _, _, _, rfl, by simp⟩

/-- A rectangle respects any bound on half the diagonal of its panels. -/
theorem rectangle_radius_bound {a b r : ℝ} {c v : V3 ℝ} {n : ℕ × ℕ} {m : Mesh (V3 ℝ)} (h : meshRectangle (a, b) c n none v = some m)
    (hd : halfDiagonal (a / n.1) (b / n.2) ≤ r) : m.RadiusAtMost r := by
  unfold meshRectangle at h
  split_ifs at h with hp
  obtain ⟨hw, hh, h1, h2⟩ := hp
  obtain ⟨f, L, hf, rfl⟩ := alignNormal_move h
  refine radius_move hf (radius_move (isometry_translate c) ?_)
  refine radius_of_trapezoids fun i _ j _ ha => ?_
  simp only [rectangleResolution] at *
  rw [rectangle_radius_eq (by positivity) (rectangle_trapezoid _ _ _ _ i j hw.le) ha]
  unfold halfDiagonal at hd ⊢
  rwa [add_comm] at hd

theorem radius_of_shapes {m : Mesh (V3 ℝ)} {ms : List (Mesh (V3 ℝ))} {r : ℝ} (h : m.shapes = ms.flatMap Mesh.shapes)
    (hr : ∀ x ∈ ms, x.RadiusAtMost r) : m.RadiusAtMost r := by
  intro p ρ hp ha
  obtain ⟨s, hs, c, hc, rfl, rfl⟩ := faceProps_mem.1 hp
  rw [h] at hs
  obtain ⟨x, hx, hsx⟩ := List.mem_flatMap.1 hs
  exact hr x hx _ _ (faceProps_mem.2 ⟨s, hsx, c, hc, rfl, rfl⟩) ha

/-- **C56**: the panels of a parallelepiped respect the requested maximal radius, whatever sides are missing. -/
theorem box_radius {size : ℝ × ℝ × ℝ} {center : V3 ℝ} {res : ℕ × ℕ × ℕ} {r : ℝ} {missing : List BoxSide} {m : Mesh (V3 ℝ)}
    (hr : 0 < r) (h : meshParallelepiped size center res (some r) missing = some m) : m.RadiusAtMost r := by
  obtain ⟨hs, hn, sides, m', h1, h2, rfl⟩ := box_grids h
  have hb := box_resolution hs.1 hs.2.1 hs.2.2 hr hn.1 hn.2.1 hn.2.2
  dsimp only at hb
  obtain ⟨⟨n1, n2, n3, d1, d2, d3⟩, _⟩ := hb
  have hv : ∀ x ∈ sides, x.Valid ∧ x.RadiusAtMost r := by
    intro x hx
    obtain ⟨s, _, e⟩ := mapM_mem_rev h1 hx
    obtain ⟨a, b, c, v, e', f1, f2, f3⟩ := boxSide_rectangle size (boxResolution size res (some r)) s
    rw [e'] at e
    refine ⟨(rectangle_panels e).2.1, rectangle_radius_bound e ?_⟩
    cases s with
    | left => obtain ⟨rfl, rfl⟩ := f1 (Or.inl rfl); assumption
    | right => obtain ⟨rfl, rfl⟩ := f1 (Or.inr rfl); assumption
    | front => obtain ⟨rfl, rfl⟩ := f2 (Or.inl rfl); assumption
    | back => obtain ⟨rfl, rfl⟩ := f2 (Or.inr rfl); assumption
    | top => obtain ⟨rfl, rfl⟩ := f3 (Or.inl rfl); assumption
    | bottom => obtain ⟨rfl, rfl⟩ := f3 (Or.inr rfl); assumption
  obtain ⟨e1, _, _⟩ := assembled_leaves (fun x hx => (hv x hx).1) h2
  exact radius_move (isometry_translate center) (radius_of_shapes e1 fun x hx => (hv x hx).2)

/-- **C56**: the panels of a parallelepiped refer to existing vertices, and each side that is not missing has the product
of its two resolutions as number of panels. -/
theorem box_panels {size : ℝ × ℝ × ℝ} {center : V3 ℝ} {res : ℕ × ℕ × ℕ} {r : Option ℝ} {missing : List BoxSide} {m : Mesh (V3 ℝ)}
    (h : meshParallelepiped size center res r missing = some m) :
    m.Valid ∧ m.faces.length = ((sidesBuilt missing).map fun s =>
      (sideResolution (boxResolution size res r) s).1 * (sideResolution (boxResolution size res r) s).2).sum ∧
    (missing = [] → r = none → m.faces.length = 2 * (res.2.1 * res.2.2 + res.1 * res.2.2 + res.2.1 * res.1)) := by
  obtain ⟨hs, hn, sides, m', h1, h2, rfl⟩ := box_grids h
  have hside : ∀ s x, boxSide size (boxResolution size res r) s = some x → x.Valid ∧
      x.faces.length = (sideResolution (boxResolution size res r) s).1 * (sideResolution (boxResolution size res r) s).2 := by
    intro s x e
    obtain ⟨a, b, c, v, e', _⟩ := boxSide_rectangle size (boxResolution size res r) s
    rw [e'] at e
    obtain ⟨p1, p2, p3⟩ := rectangle_panels e
    exact ⟨p2, p3 rfl⟩
  have hv : ∀ x ∈ sides, x.Valid := by
    intro x hx
    obtain ⟨s, _, e⟩ := mapM_mem_rev h1 hx
    exact (hside s x e).1
  obtain ⟨-, e2, e3⟩ := assembled_leaves hv h2
  have hcount : m'.faces.length = ((sidesBuilt missing).map fun s =>
      (sideResolution (boxResolution size res r) s).1 * (sideResolution (boxResolution size res r) s).2).sum := by
    rw [e3]
    congr 1
    clear e3 hv h2 e2 h
    generalize sidesBuilt missing = l at *
    induction l generalizing sides with
    | nil => cases h1; rfl
    | cons a l ih =>
      rw [List.mapM_cons] at h1
      cases ha : boxSide size (boxResolution size res r) a with
      | none => rw [ha] at h1; exact absurd h1 (by simp)
      | some b =>
        cases hl : l.mapM (boxSide size (boxResolution size res r)) with
        | none => rw [ha, hl] at h1; exact absurd h1 (by simp)
        | some bs =>
          rw [ha, hl] at h1
          simp at h1
          subst h1
          rw [List.map_cons, List.map_cons, ih bs hl, (hside a b ha).2]
  refine ⟨?_, hcount, ?_⟩
  · intro f hf i hi
    have := e2 f hf i hi
    simpa [Mesh.translate] using this
  · rintro rfl rfl
    rw [show (m'.translate center).faces.length = m'.faces.length from rfl, hcount]
    simp [sidesBuilt, sideResolution, boxResolution]
    ring

end Verif.Meshes
