import Verif.Meshes.ClosedProps
import Mathlib.Data.List.Forall2

/-!
# C40, C71 and C72: how volumes and other integrals follow the mesh
-/

namespace Verif.Meshes

open Verif.Geometry V3

/-- A mesh whose vertices have been moved. -/
def Mesh.move (m : Mesh (V3 ℝ)) (f : V3 ℝ → V3 ℝ) : Mesh (V3 ℝ) := ⟨m.vertices.map f, m.faces⟩

theorem pieces_move (m : Mesh (V3 ℝ)) (f : V3 ℝ → V3 ℝ) :
    (m.move f).pieces = m.pieces.map fun t => (f t.1, f t.2.1, f t.2.2) := by
  unfold Mesh.pieces Mesh.move
  simp only [corners_map]
  induction m.faces with
  | nil => rfl
  | cons F fs ih =>
    rw [List.flatMap_cons, List.flatMap_cons, List.map_append, ih]
    congr 1
    cases corners m.vertices F with
    | none => rfl
    | some c => cases h : F.isTriangle <;> simp [piecesOf]

theorem closed_move {V V' : Type} {ts : List (V × V × V)} (hc : ClosedSurface ts) (f : V → V') :
    ClosedSurface (ts.map fun t => (f t.1, f t.2.1, f t.2.2)) := by
  have hs : segments (ts.map fun t => (f t.1, f t.2.1, f t.2.2)) =
      (segments ts).map fun s => (f s.1, f s.2) := by
    unfold segments
    induction ts with
    | nil => rfl
    | cons t ts ih =>
      rw [List.map_cons, List.flatMap_cons, List.flatMap_cons, List.map_append]
      congr 1
      clear ih hc
      induction ts with
      | nil => rfl
      | cons t ts ih => rw [List.map_cons, List.flatMap_cons, List.flatMap_cons, List.map_append, ih]; rfl
  unfold ClosedSurface at *
  rw [hs, List.map_map]
  have h2 := hc.map fun s : V × V => (f s.1, f s.2)
  rw [List.map_map] at h2
  exact h2

theorem sound_move {m : Mesh (V3 ℝ)} (hm : m.Sound) {f L : V3 ℝ → V3 ℝ} {s : ℝ} (h : Isometry f L s) :
    (m.move f).Sound where
  valid := by
    intro F hF i hi
    simpa [Mesh.move] using hm.valid F hF i hi
  convex := by
    intro F hF
    rcases hm.convex F hF with h' | h'
    · exact .inl h'
    · refine .inr fun c hc => ?_
      unfold Mesh.move at hc
      rw [corners_map] at hc
      obtain ⟨c0, h0, rfl⟩ := Option.map_eq_some_iff.1 hc
      exact convex_moved h (h' c0 h0)
  kept := by
    intro F hF c hc
    unfold Mesh.move at hc
    rw [corners_map] at hc
    obtain ⟨c0, h0, rfl⟩ := Option.map_eq_some_iff.1 hc
    have := hm.kept F hF c0 h0
    simp only [h.sub, h.kept]
    exact this

theorem enclosed_move {f L : V3 ℝ → V3 ℝ} {s : ℝ} (h : Isometry f L s) (o : V3 ℝ) (ts : List Tri) :
    enclosed (f o) (ts.map fun t => (f t.1, f t.2.1, f t.2.2)) = s * enclosed o ts := by
  unfold enclosed
  induction ts with
  | nil => simp
  | cons t ts ih =>
    simp only [List.map_cons, List.sum_cons, ih, mul_add]
    congr 1
    rw [h.sub, h.sub, h.sub, h.cross]
    have : dot (L (t.1 - o)) (s • L (cross (t.2.1 - o) (t.2.2 - o))) =
        s * dot (L (t.1 - o)) (L (cross (t.2.1 - o) (t.2.2 - o))) := by simp [dot]; ring
    rw [this, h.dot]; ring

theorem table_exists {m : Mesh (V3 ℝ)} (hv : m.Valid) : ∃ t, m.faceTable = some t := by
  have : ∀ fs : List Face, (∀ F ∈ fs, F ∈ m.faces) → ∃ t : Table,
      fs.map (faceProperties m.vertices) = t.map some := by
    intro fs
    induction fs with
    | nil => exact fun _ => ⟨[], rfl⟩
    | cons F fs ih =>
      intro h
      obtain ⟨t, ht⟩ := ih fun G hG => h G (List.mem_cons_of_mem _ hG)
      have hF := hv F (h F List.mem_cons_self)
      have ha := hF F.a (by simp [Face.toList])
      have hb := hF F.b (by simp [Face.toList])
      have hc := hF F.c (by simp [Face.toList])
      have hd := hF F.d (by simp [Face.toList])
      have : ∃ x, faceProperties m.vertices F = some x := by
        unfold faceProperties corners
        rw [List.getElem?_eq_getElem ha, List.getElem?_eq_getElem hb, List.getElem?_eq_getElem hc,
          List.getElem?_eq_getElem hd]
        exact ⟨_, rfl⟩
      obtain ⟨x, hx⟩ := this
      exact ⟨x :: t, by rw [List.map_cons, List.map_cons, hx, ht]⟩
  obtain ⟨t, ht⟩ := this m.faces fun F hF => hF
  exact ⟨t, faceTable_of ht⟩

/-- **C40**: the volume of a closed mesh does not change when the mesh is moved, in particular when it is
translated or rotated. -/
theorem volume_moved (m : Mesh (V3 ℝ)) (hm : m.Sound) (hc : ClosedSurface m.pieces) (t t' : Table)
    {f L : V3 ℝ → V3 ℝ} (h : Isometry f L 1) (ht : m.faceTable = some t)
    (ht' : (m.move f).faceTable = some t') : volume t' = volume t := by
  have hc' : ClosedSurface (m.move f).pieces := by rw [pieces_move]; exact closed_move hc f
  rw [(closed_volumes m hm hc t ht 0).2.2.2, (closed_volumes _ (sound_move hm h) hc' t' ht' (f 0)).2.2.2,
    pieces_move, enclosed_move h]
  ring

/-- **C40**: translation of a closed mesh. -/
theorem volume_translate (m : Mesh (V3 ℝ)) (hm : m.Sound) (hc : ClosedSurface m.pieces) (v : V3 ℝ)
    (t t' : Table) (ht : m.faceTable = some t) (ht' : (m.translate v).faceTable = some t') :
    volume t' = volume t :=
  volume_moved m hm hc t t' (isometry_translate v) ht ht'

/-- **C40**: rotation of a closed mesh. -/
theorem volume_rotate (m : Mesh (V3 ℝ)) (hm : m.Sound) (hc : ClosedSurface m.pieces) (a : Axis)
    (ha : dot a.vector a.vector = 1) (θ : ℝ)
    (t t' : Table) (ht : m.faceTable = some t) (ht' : (m.rotate a θ).faceTable = some t') :
    volume t' = volume t :=
  volume_moved m hm hc t t' (isometry_rotate a ha θ) ht ht'

/-! ## Flips and reflections -/

theorem table_flip {m : Mesh (V3 ℝ)} (hm : m.ConvexPanels) {t : Table} (ht : m.faceTable = some t) :
    ∃ t', m.flipNormals.faceTable = some t' ∧ List.Forall₂ (fun x y => y.1 = x.1.reversed) t t' := by
  have hs := faceTable_spec ht
  suffices H : ∀ (fs : List Face) (t : Table), (∀ F ∈ fs, F ∈ m.faces) →
      fs.map (faceProperties m.vertices) = t.map some →
      ∃ t' : Table, (fs.map Face.flip).map (faceProperties m.vertices) = t'.map some ∧
        List.Forall₂ (fun x y => y.1 = x.1.reversed) t t' by
    obtain ⟨t', h1, h2⟩ := H m.faces t (fun F hF => hF) hs
    exact ⟨t', faceTable_of h1, h2⟩
  intro fs
  induction fs with
  | nil =>
    intro t _ h
    cases t with
    | nil => exact ⟨[], rfl, .nil⟩
    | cons => cases h
  | cons F fs ih =>
    intro t hF h
    cases t with
    | nil => cases h
    | cons x t =>
      simp only [List.map_cons, List.cons.injEq] at h
      obtain ⟨t', h1, h2⟩ := ih t (fun G hG => hF G (List.mem_cons_of_mem _ hG)) h.2
      have hx := h.1
      unfold faceProperties at hx
      obtain ⟨c, hc, hx⟩ := Option.map_eq_some_iff.1 hx
      have hcf : corners m.vertices F.flip = some (c.2.2.2, c.2.2.1, c.2.1, c.1) := by
        rw [corners_flip, hc]; rfl
      have hp : panelOf F.flip.isTriangle (c.2.2.2, c.2.2.1, c.2.1, c.1) =
          (panelOf F.isTriangle c).reversed := by
        rw [flip_isTriangle]
        unfold panelOf
        by_cases ht : F.isTriangle = true
        · rw [if_pos ht, if_pos ht]
          simp only
          rw [corners_triangle hc ht]
          exact triangle_flip c.1 c.2.1 c.2.2.1
        · rw [if_neg ht, if_neg ht]
          exact quad_flip_partial _ _ _ _ ((hm F (hF F List.mem_cons_self)).resolve_left ht c hc)
      refine ⟨(panelOf F.flip.isTriangle (c.2.2.2, c.2.2.1, c.2.1, c.1),
        radiusOf (panelOf F.flip.isTriangle (c.2.2.2, c.2.2.1, c.2.1, c.1)).center
          (c.2.2.2, c.2.2.1, c.2.1, c.1)) :: t', ?_, .cons ?_ h2⟩
      · rw [List.map_cons, List.map_cons, List.map_cons, h1]
        congr 1
        unfold faceProperties
        rw [hcf]; rfl
      · rw [← hx]; exact hp

theorem integral_reversed {t t' : Table} (h : List.Forall₂ (fun x y => y.1 = Panel.reversed x.1) t t')
    (q : V3 ℝ → V3 ℝ → ℝ) (hq : ∀ n v, q (-n) v = - q n v) :
    surfaceIntegral t' (fun p => q p.normal p.center) = - surfaceIntegral t (fun p => q p.normal p.center) := by
  unfold surfaceIntegral
  induction h with
  | nil => simp
  | cons h1 _ ih =>
    rw [List.map_cons, List.map_cons, List.sum_cons, List.sum_cons, ih, h1]
    simp only [Panel.reversed, hq]
    ring

/-- **C40**: flipping the normals changes the sign of the volumes. -/
theorem volumes_flip (m : Mesh (V3 ℝ)) (hm : m.ConvexPanels) (t : Table) (ht : m.faceTable = some t) :
    ∃ t', m.flipNormals.faceTable = some t' ∧ volumes t' = - volumes t ∧ volume t' = - volume t := by
  obtain ⟨t', h1, h2⟩ := table_flip hm ht
  have hv : volumes t' = - volumes t := by
    ext
    · exact integral_reversed h2 (fun n v => n.x * v.x) (fun n v => by simp)
    · exact integral_reversed h2 (fun n v => n.y * v.y) (fun n v => by simp)
    · exact integral_reversed h2 (fun n v => n.z * v.z) (fun n v => by simp)
  refine ⟨t', h1, hv, ?_⟩
  unfold volume
  rw [hv]
  simp
  ring

/-! ## Surfaces closed by the numbers of their vertices -/

/-- The triangles of a panel, as numbers of vertices. -/
def Face.pieces (F : Face) : List (ℕ × ℕ × ℕ) :=
  if F.isTriangle then [(F.a, F.b, F.c)] else [(F.a, F.b, F.c), (F.a, F.c, F.d)]

theorem pieces_index (m : Mesh (V3 ℝ)) (hv : m.Valid) :
    m.pieces = (m.faces.flatMap Face.pieces).map fun t =>
      (m.vertices.getD t.1 0, m.vertices.getD t.2.1 0, m.vertices.getD t.2.2 0) := by
  unfold Mesh.pieces
  have : ∀ fs : List Face, (∀ F ∈ fs, F ∈ m.faces) →
      (fs.flatMap fun F => match corners m.vertices F with
        | some c => piecesOf F.isTriangle c
        | none => []) = (fs.flatMap Face.pieces).map fun t =>
          (m.vertices.getD t.1 0, m.vertices.getD t.2.1 0, m.vertices.getD t.2.2 0) := by
    intro fs
    induction fs with
    | nil => exact fun _ => rfl
    | cons F fs ih =>
      intro h
      rw [List.flatMap_cons, List.flatMap_cons, List.map_append, ih fun G hG => h G (List.mem_cons_of_mem _ hG)]
      congr 1
      have hF := hv F (h F List.mem_cons_self)
      have ha := hF F.a (by simp [Face.toList])
      have hb := hF F.b (by simp [Face.toList])
      have hc := hF F.c (by simp [Face.toList])
      have hd := hF F.d (by simp [Face.toList])
      unfold corners
      rw [List.getElem?_eq_getElem ha, List.getElem?_eq_getElem hb, List.getElem?_eq_getElem hc,
        List.getElem?_eq_getElem hd]
      cases ht : F.isTriangle <;>
        simp [piecesOf, Face.pieces, ht, List.getD_eq_getElem?_getD, List.getElem?_eq_getElem, ha, hb, hc, hd]
  exact this m.faces fun F hF => hF

/-- A mesh whose sides, given by the numbers of the vertices, come in opposite pairs is closed. -/
theorem closed_of_index (m : Mesh (V3 ℝ)) (hv : m.Valid) (h : ClosedSurface (m.faces.flatMap Face.pieces)) :
    ClosedSurface m.pieces := by
  rw [pieces_index m hv]
  exact closed_move h fun i => m.vertices.getD i 0

/-! ## A concrete case -/

/-- Unit tetrahedron with outward normals. -/
def tetra : Mesh (V3 ℝ) where
  vertices := [⟨0, 0, 0⟩, ⟨1, 0, 0⟩, ⟨0, 1, 0⟩, ⟨0, 0, 1⟩]
  faces := [⟨1, 2, 3, 1⟩, ⟨0, 2, 1, 0⟩, ⟨0, 1, 3, 0⟩, ⟨0, 3, 2, 0⟩]

theorem tetra_valid : tetra.Valid := by
  intro F hF i hi
  simp only [tetra, List.mem_cons, List.not_mem_nil, or_false] at hF
  rcases hF with rfl | rfl | rfl | rfl <;> simp [Face.toList] at hi <;> simp [tetra] <;> omega

theorem tetra_sound : tetra.Sound where
  valid := tetra_valid
  convex := by
    intro F hF
    simp only [tetra, List.mem_cons, List.not_mem_nil, or_false] at hF
    left
    rcases hF with rfl | rfl | rfl | rfl <;> rfl
  kept := by
    intro F hF c hc
    simp only [tetra, List.mem_cons, List.not_mem_nil, or_false] at hF
    rcases hF with rfl | rfl | rfl | rfl <;> simp [corners, tetra] at hc <;> subst hc <;>
      simp only [Face.isTriangle, beq_self_eq_true, if_true] <;> unfold Kept V3.norm <;>
      apply Real.le_sqrt_of_sq_le <;> simp [dot] <;> norm_num

theorem tetra_closed : ClosedSurface tetra.pieces :=
  closed_of_index tetra tetra_valid (by unfold ClosedSurface; decide)

theorem tetra_pieces : tetra.pieces =
    [(⟨1, 0, 0⟩, ⟨0, 1, 0⟩, ⟨0, 0, 1⟩), (⟨0, 0, 0⟩, ⟨0, 1, 0⟩, ⟨1, 0, 0⟩),
      (⟨0, 0, 0⟩, ⟨1, 0, 0⟩, ⟨0, 0, 1⟩), (⟨0, 0, 0⟩, ⟨0, 0, 1⟩, ⟨0, 1, 0⟩)] := rfl

/-- Concrete case of `closed_volumes`, `closed_area_vector`, `volume_translate`, `volume_rotate` and
`volumes_flip`: the volume of the unit tetrahedron. -/
example : ∃ t, tetra.faceTable = some t ∧ volume t = 1 / 6 := by
  obtain ⟨t, ht⟩ := table_exists tetra_valid
  refine ⟨t, ht, ?_⟩
  rw [(closed_volumes tetra tetra_sound tetra_closed t ht 0).2.2.2, tetra_pieces]
  simp [enclosed, dot]

end Verif.Meshes
