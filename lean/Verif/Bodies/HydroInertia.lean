import Verif.Bodies.HydroProps

/-!
# The inertia matrix, the rotation center and the labelled matrices (C59)
-/

namespace Verif.Bodies

open Verif.Geometry Verif.Meshes V3

/-! ## The inertia matrix -/

theorem volumic_symmetric (t : Table) (c G : V3 ℝ) (r s : Rigid) :
    volumicInertia t c G r s = volumicInertia t c G s r := by
  cases r <;> cases s <;> rfl

/-- **C59**: the inertia matrix is symmetric and has the same labels on both sides, whatever the output type. -/
theorem inertia_symmetric (b : HydroBody) (rho : ℝ) (out : String) (M : LabelledMatrix) (h : b.inertia rho out = .ok M) :
    M.influenced = M.radiating ∧ ∀ i j, M.entry i j = M.entry j i := by
  have key : ∀ c G i j, b.inertiaEntry rho c G i j = b.inertiaEntry rho c G j i := by
    intro c G i j
    unfold HydroBody.inertiaEntry
    cases Rigid.ofName i <;> cases Rigid.ofName j <;> simp only
    rw [volumic_symmetric]
  unfold HydroBody.inertia at h
  split at h
  · cases h
  split at h
  · cases h
  dsimp only at h
  split_ifs at h <;> cases h <;> exact ⟨rfl, key _ _⟩

/-- The inertia of a body: which labels have a value, and the choice of the labels. -/
theorem inertia_spec (b : HydroBody) (rho : ℝ) (out : String) (G c : V3 ℝ) (hG : b.centerOfMass = some G)
    (hc : b.inferCenter = .ok c) :
    (b.inertia rho out = .error .value ↔ out ∉ ["body_dofs", "rigid_dofs", "all_dofs"]) ∧
    ∀ M, b.inertia rho out = .ok M →
      (∀ r s : Rigid, M.entry r.name s.name = some (b.density rho * volumicInertia b.table c G r s)) ∧
      (∀ i j, (M.entry i j).isSome ↔ i ∈ rigidNames ∧ j ∈ rigidNames) ∧
      (out = "body_dofs" → M.influenced = b.dofs.map (·.1)) ∧ (out = "rigid_dofs" → M.influenced = rigidNames) ∧
      (out = "all_dofs" → ∀ n, n ∈ M.influenced ↔ n ∈ rigidNames ∨ n ∈ b.dofs.map (·.1)) := by
  have e1 : ∀ r s : Rigid, b.inertiaEntry rho c G r.name s.name =
      some (b.density rho * volumicInertia b.table c G r s) := by
    intro r s
    unfold HydroBody.inertiaEntry
    rw [ofName_name, ofName_name]
  have hof : ∀ i, (Rigid.ofName i).isSome ↔ i ∈ rigidNames := by
    intro i
    constructor
    · intro h
      unfold Rigid.ofName at h
      split_ifs at h <;> first | (subst_vars; decide) | simp at h
    · intro h
      obtain ⟨r, rfl⟩ := name_of_mem h
      rw [ofName_name]; rfl
  have e2 : ∀ i j, (b.inertiaEntry rho c G i j).isSome ↔ i ∈ rigidNames ∧ j ∈ rigidNames := by
    intro i j
    rw [← hof, ← hof]
    unfold HydroBody.inertiaEntry
    cases Rigid.ofName i <;> cases Rigid.ofName j <;> simp
  unfold HydroBody.inertia
  rw [hG]
  simp only [hc]
  constructor
  · split_ifs with h1 h2 h3 <;> simp [*]
  · intro M h
    split_ifs at h with h1 h2 h3 <;> cases h
    · refine ⟨e1, e2, fun _ => rfl, fun h => ?_, fun h => ?_⟩ <;> rw [h1] at h <;> exact absurd h (by decide)
    · refine ⟨e1, e2, fun h => absurd h h1, fun _ => rfl, fun h => ?_⟩
      rw [h2] at h; exact absurd h (by decide)
    · refine ⟨e1, e2, fun h => absurd h h1, fun h => absurd h h2, fun _ n => ?_⟩
      show n ∈ rigidNames ++ (b.dofs.map (·.1)).filter (· ∉ rigidNames) ↔ _
      rw [List.mem_append, List.mem_filter, decide_eq_true_eq]
      tauto

/-- A second moment of the volume about `c`, as the mean of its three expressions as a surface integral. -/
noncomputable def secondMoment (t : Table) (c : V3 ℝ) (k : V3 ℝ → ℝ) (wx wy wz : ℝ) : ℝ :=
  (momentIntegral t c V3.x (fun r => k r ^ 2) / wx + momentIntegral t c V3.y (fun r => k r ^ 2) / wy +
    momentIntegral t c V3.z (fun r => k r ^ 2) / wz) / 3

/-- **C59**: the inertia matrix is the kinetic energy of a rigid body: `v` is the velocity of the rotation center,
`w` the rotation vector, with the mass at the center of mass and the second moments of the volume about the rotation
center. -/
theorem inertia_kinetic (t : Table) (c G v w : V3 ℝ) :
    let q : Rigid → ℝ := fun r => dot r.lin v + dot r.rot w
    let Sxx := secondMoment t c V3.x 3 1 1
    let Syy := secondMoment t c V3.y 1 3 1
    let Szz := secondMoment t c V3.z 1 1 3
    let Sxy := momentIntegral t c V3.z fun r => r.x * r.y
    let Syz := momentIntegral t c V3.x fun r => r.y * r.z
    let Szx := momentIntegral t c V3.y fun r => r.z * r.x
    (Rigid.all.map fun i => (Rigid.all.map fun j => q i * q j * volumicInertia t c G i j).sum).sum =
      volume t * dot v v + 2 * volume t * dot v (cross w (G - c)) +
      (dot w w * (Sxx + Syy + Szz) - (Sxx * w.x ^ 2 + Syy * w.y ^ 2 + Szz * w.z ^ 2 +
        2 * (Sxy * w.x * w.y + Syz * w.y * w.z + Szx * w.z * w.x))) := by
  simp [Rigid.all, volumicInertia, Rigid.lin, Rigid.rot, dot, inertiaDiag, inertiaXY, inertiaYZ, inertiaZX, secondMoment]
  ring

/-- The mass of the inertia matrix: the given mass, or the mass of water in the whole mesh. -/
theorem inertia_mass (b : HydroBody) (rho : ℝ) (hV : volume b.table ≠ 0) (c G : V3 ℝ) (r : Rigid)
    (hr : r.rot = ⟨0, 0, 0⟩) :
    b.density rho * volumicInertia b.table c G r r = b.mass.getD (dispMass rho b.table) := by
  have : volumicInertia b.table c G r r = volume b.table := by
    cases r <;> simp [Rigid.rot] at hr <;> rfl
  rw [this]
  unfold HydroBody.density dispMass
  cases b.mass with
  | none => rfl
  | some m => simp [hV]

/-! ## The computation of all the hydrostatics -/

/-- **C59**: `compute_hydrostatics` uses the displaced mass of the immersed part for the stiffness and the mass of
water in the whole mesh for the inertia. They are the same if and only if the volumes are the same, that is when the
body is given immersed. -/
theorem hydrostatics_mass_iff (b imm : HydroBody) (rho g : ℝ) (hrho : rho ≠ 0)
    (div : Option (List (String × List ℝ))) (h : Hydrostatics) (hh : computeHydrostatics b imm rho g div = .ok h)
    (hm : b.mass = none) (M : LabelledMatrix) (hM : h.inertia = some M) (r : Rigid) (hr : r.rot = ⟨0, 0, 0⟩) :
    M.entry r.name r.name = some h.dispMass ↔ volume b.table = volume imm.table := by
  unfold computeHydrostatics at hh
  split at hh
  · cases hh
  rename_i G hG
  split at hh
  · cases hh
  split_ifs at hh
  · split at hh
    · cases hh
    · rename_i M' hM'
      cases hh
      simp only [Option.some.injEq] at hM
      subst hM
      have hc : ∃ c, b.inferCenter = .ok c := by
        unfold HydroBody.inertia at hM'
        rw [hG] at hM'
        dsimp only at hM'
        split at hM'
        · cases hM'
        · rename_i c hc; exact ⟨c, hc⟩
      obtain ⟨c, hc⟩ := hc
      rw [((inertia_spec b rho "body_dofs" G c hG hc).2 M' hM').1 r r]
      have hv : volumicInertia b.table c G r r = volume b.table := by
        cases r <;> simp [Rigid.rot] at hr <;> rfl
      simp [HydroBody.density, hm, hv, dispMass, hrho]
  · cases hh; cases hM

/-! ## The labelled stiffness -/

theorem except_mapM_lookup {A : Type} [BEq A] [LawfulBEq A] {f : A → Except HydroError ℝ} :
    ∀ (l : List A) (r : List (A × ℝ)), (l.mapM fun x => (f x).map fun v => (x, v)) = .ok r →
      ∀ x ∈ l, ∃ v, f x = .ok v ∧ r.lookup x = some v
  | [], r, _, x, hx => absurd hx (by simp)
  | a :: l, r, h, x, hx => by
    rw [List.mapM_cons] at h
    cases hfa : f a with
    | error e => rw [hfa] at h; cases h
    | ok v =>
      rw [hfa] at h
      cases hl : (l.mapM fun x => (f x).map fun v => (x, v)) with
      | error e =>
        rw [hl] at h; cases h
      | ok r' =>
        rw [hl] at h
        cases h
        by_cases hxa : x = a
        · subst hxa
          exact ⟨v, hfa, by simp⟩
        · obtain ⟨v', h1, h2⟩ := except_mapM_lookup l r' hl x ((List.mem_cons.1 hx).resolve_left hxa)
          refine ⟨v', h1, ?_⟩
          rw [List.lookup_cons]
          have : (x == a) = false := by simpa using hxa
          rw [this]; exact h2

/-- **C59**: the stiffness matrix has the stiffness of each pair of dofs, and only fails when one of them does or
when there is no dof. -/
theorem stiffness_entry (b : HydroBody) (rho g : ℝ) (div : Option (List (String × List ℝ))) (K : LabelledMatrix)
    (h : b.stiffness rho g div = .ok K) :
    b.dofs ≠ [] ∧ K.influenced = b.dofs.map (·.1) ∧ K.radiating = b.dofs.map (·.1) ∧
    ∀ i ∈ b.dofs.map (·.1), ∀ j ∈ b.dofs.map (·.1), ∃ v, K.entry i j = some v ∧
      b.eachStiffness rho g (divergenceOf div b.table.length i) i j = .ok v := by
  unfold HydroBody.stiffness at h
  dsimp only at h
  split_ifs at h with hn
  split at h
  · cases h
  · rename_i l hl
    cases h
    refine ⟨fun h0 => hn (by rw [h0]; rfl), rfl, rfl, fun i hi j hj => ?_⟩
    obtain ⟨v, h1, h2⟩ := except_mapM_lookup _ l hl (i, j)
      (List.mem_flatMap.2 ⟨j, hj, List.mem_map.2 ⟨i, hi, rfl⟩⟩)
    exact ⟨v, h2, h1⟩

/-! ## The rotation center -/

/-- Motion of the panels in a rotation around `c`, as built by `add_rotation_dof`. -/
def rotationValues (t : Table) (c e : V3 ℝ) : List (V3 ℝ) := t.map fun x => cross (c - x.1.center) e

theorem guesses_rotation (t : Table) (c : V3 ℝ) :
    allGuesses t (rotationValues t c ⟨1, 0, 0⟩) (rotationValues t c ⟨0, 1, 0⟩) (rotationValues t c ⟨0, 0, 1⟩) =
      t.map fun _ => (c, c) := by
  unfold allGuesses rotationValues
  induction t with
  | nil => rfl
  | cons x t ih =>
    simp only [List.map_cons, List.zip_cons_cons]
    rw [ih]
    congr 1
    unfold centerGuesses
    ext <;> simp

/-- **C59**: the rotation center is found from the three rotation dofs, for every mesh with panels. -/
theorem infer_center (b : HydroBody) (c : V3 ℝ) (hn : b.table ≠ []) (h0 : b.rotationCenter = none)
    (hr : b.dofs.lookup "Roll" = some (rotationValues b.table c ⟨1, 0, 0⟩))
    (hp : b.dofs.lookup "Pitch" = some (rotationValues b.table c ⟨0, 1, 0⟩))
    (hy : b.dofs.lookup "Yaw" = some (rotationValues b.table c ⟨0, 0, 1⟩)) :
    b.inferCenter = .ok c := by
  unfold HydroBody.inferCenter
  rw [h0, hr, hp, hy]
  simp only [guesses_rotation]
  obtain ⟨x, t, ht⟩ := List.exists_cons_of_ne_nil hn
  rw [ht, List.map_cons]
  unfold checkGuesses
  have hcc : isClose3 c c := by
    refine ⟨?_, ?_, ?_⟩ <;> unfold isClose <;> rw [sub_self, abs_zero] <;> positivity
  dsimp only
  rw [if_pos]
  have : ∀ y ∈ (c, c) :: t.map (fun _ => (c, c)), y = (c, c) := by
    intro y hy
    simp only [List.mem_cons, List.mem_map] at hy
    rcases hy with rfl | ⟨_, _, rfl⟩ <;> rfl
  exact ⟨fun y hy => by rw [this y hy]; exact hcc, fun y hy => by rw [this y hy]; exact hcc⟩

/-- **C59**: conversely a center inferred from the dofs is the one of the rotations around the axes `y` and `z`, up
to the tolerance, on every panel. -/
theorem infer_sound (b : HydroBody) (c : V3 ℝ) (h0 : b.rotationCenter = none) (h : b.inferCenter = .ok c) :
    ∃ roll pitch yaw, b.dofs.lookup "Roll" = some roll ∧ b.dofs.lookup "Pitch" = some pitch ∧
      b.dofs.lookup "Yaw" = some yaw ∧
      ∀ (k : ℕ) x r p y, b.table[k]? = some x → roll[k]? = some r → pitch[k]? = some p → yaw[k]? = some y →
        |p.z - (cross (c - x.1.center) ⟨0, 1, 0⟩).z| ≤ 1e-8 + 1e-5 * |c.x| ∧
        |y.x - (cross (c - x.1.center) ⟨0, 0, 1⟩).x| ≤ 1e-8 + 1e-5 * |c.y| ∧
        |p.x - (cross (c - x.1.center) ⟨0, 1, 0⟩).x| ≤ 1e-8 + 1e-5 * |c.z| := by
  unfold HydroBody.inferCenter at h
  rw [h0] at h
  dsimp only at h
  split at h
  · rename_i roll pitch yaw hr hp hy
    refine ⟨roll, pitch, yaw, hr, hp, hy, fun k x r p y hx hr hp hy => ?_⟩
    have hmem : centerGuesses x r p y ∈ allGuesses b.table roll pitch yaw := by
      refine List.mem_map.2 ⟨(x, r, p, y), ?_, rfl⟩
      refine List.mem_of_getElem? (i := k) ?_
      rw [List.getElem?_zip_eq_some]
      refine ⟨hx, ?_⟩
      rw [List.getElem?_zip_eq_some]
      refine ⟨hr, ?_⟩
      rw [List.getElem?_zip_eq_some]
      exact ⟨hp, hy⟩
    unfold checkGuesses at h
    split at h
    · cases h
    · rename_i e l hl
      rw [hl] at hmem
      split_ifs at h with hcl
      cases h
      obtain ⟨h1, h2, h3⟩ := hcl.1 _ hmem
      unfold isClose centerGuesses at h1 h2 h3
      simp only at h1 h2 h3
      refine ⟨?_, ?_, ?_⟩
      · refine le_of_eq_of_le ?_ h1
        congr 1; simp; ring
      · refine le_of_eq_of_le ?_ h2
        congr 1; simp; ring
      · refine le_of_eq_of_le ?_ h3
        rw [← abs_neg]
        congr 1; simp; ring
  · cases h

/-! ## Where the code departs from the physical matrices -/

/-- Sums over the panels of a mesh of triangles. -/
theorem triangles_sum {m : Mesh (V3 ℝ)} (hm : m.Sound) (htri : ∀ F ∈ m.faces, F.isTriangle = true) {t : Table}
    (ht : m.faceTable = some t) (q : V3 ℝ → V3 ℝ → ℝ) (hq : ∀ (a : ℝ) n v, q (a • n) v = a * q n v) :
    (t.map fun x => q x.1.normal x.1.center * x.1.area).sum =
      (m.pieces.map fun t => q ((1 / 2 : ℝ) • Tri.vec t) ((1 / 3 : ℝ) • (t.1 + t.2.1 + t.2.2))).sum := by
  refine table_sum ht (fun p => q p.normal p.center * p.area) _ fun F hF c hcor => ?_
  have hk := hm.kept F hF c hcor
  rw [htri F hF, if_pos rfl] at hk
  have hpos := kept_pos hk
  rw [htri F hF]
  show q (trianglePanel _ _ _).normal (trianglePanel _ _ _).center * (trianglePanel _ _ _).area = _
  rw [triangle_kept hk]
  simp only [piecesOf, if_true, List.map_cons, List.map_nil, List.sum_cons, List.sum_nil, add_zero, Tri.vec, hq]
  field_simp

theorem tetra_triangles : ∀ F ∈ tetra.faces, F.isTriangle = true := by
  intro F hF
  simp only [tetra, List.mem_cons, List.not_mem_nil, or_false] at hF
  rcases hF with rfl | rfl | rfl | rfl <;> rfl

theorem keel_triangles : ∀ F ∈ keel.faces, F.isTriangle = true := by
  intro F hF
  simp only [keel, List.mem_cons, List.not_mem_nil, or_false] at hF
  rcases hF with rfl | rfl | rfl <;> rfl

theorem moment_triangles {m : Mesh (V3 ℝ)} (hm : m.Sound) (htri : ∀ F ∈ m.faces, F.isTriangle = true) {t : Table}
    (ht : m.faceTable = some t) (axis q : V3 ℝ → ℝ) (ha : ∀ (a : ℝ) n, axis (a • n) = a * axis n) :
    momentIntegral t 0 axis q = (m.pieces.map fun t => axis ((1 / 2 : ℝ) • Tri.vec t) *
      axis ((1 / 3 : ℝ) • (t.1 + t.2.1 + t.2.2)) * q ((1 / 3 : ℝ) • (t.1 + t.2.1 + t.2.2))).sum := by
  have := triangles_sum hm htri ht (fun n v => axis n * axis v * q v) (fun a n v => by rw [ha]; ring)
  unfold momentIntegral
  simp only [sub_zero]
  exact this

/-- Exact integral of the square of a linear coordinate over the volume enclosed by triangles. -/
noncomputable def enclosedSquare (k : V3 ℝ → ℝ) (ts : List Tri) : ℝ :=
  (ts.map fun t => dot t.1 (cross t.2.1 t.2.2) / 6 * ((k t.1 ^ 2 + k t.2.1 ^ 2 + k t.2.2 ^ 2 + k t.1 * k t.2.1 +
    k t.2.1 * k t.2.2 + k t.2.2 * k t.1) / 10)).sum

theorem tetra_diag {t : Table} (ht : tetra.faceTable = some t) :
    inertiaDiag t 0 = ⟨7 / 243, 7 / 243, 7 / 243⟩ := by
  have hI : ∀ axis q : V3 ℝ → ℝ, (∀ (a : ℝ) n, axis (a • n) = a * axis n) → momentIntegral t 0 axis q = _ :=
    fun axis q ha => moment_triangles tetra_sound tetra_triangles ht axis q ha
  unfold inertiaDiag
  simp only [hI V3.x _ (fun a n => rfl), hI V3.y _ (fun a n => rfl), hI V3.z _ (fun a n => rfl), tetra_pieces]
  ext <;> simp [Tri.vec] <;> norm_num

/-- **C59** does not hold for the values of the moments of inertia: one point per panel is not enough to integrate
cubic functions. The moment of inertia of the unit tetrahedron around an edge is `1/30`. -/
theorem inertia_quadrature_violated : ∃ t, tetra.faceTable = some t ∧
    enclosedSquare V3.y tetra.pieces + enclosedSquare V3.z tetra.pieces = 1 / 30 ∧
    ∀ G, volumicInertia t 0 G .roll .roll = 7 / 243 := by
  obtain ⟨t, ht⟩ := table_exists tetra_valid
  refine ⟨t, ht, ?_, fun G => ?_⟩
  · rw [tetra_pieces]
    simp [enclosedSquare, dot]; norm_num
  · show (inertiaDiag t 0).x = _
    rw [tetra_diag ht]

/-- **C59** does not hold for the sign of the inertia: as the moments of inertia do not depend on the center of mass,
the kinetic energy of some motions is negative, here when the center of mass is at a vertex of the tetrahedron. -/
theorem inertia_positive_violated : ∃ t, tetra.faceTable = some t ∧ ∃ q : Rigid → ℝ,
    (Rigid.all.map fun i => (Rigid.all.map fun j => q i * q j * volumicInertia t 0 ⟨0, 0, 1⟩ i j).sum).sum < 0 := by
  obtain ⟨t, ht⟩ := table_exists tetra_valid
  refine ⟨t, ht, fun r => if r = .surge then -1 else if r = .pitch then 1 else 0, ?_⟩
  have hV : volume t = 1 / 6 := by
    rw [(closed_volumes tetra tetra_sound tetra_closed t ht 0).2.2.2, tetra_pieces]
    simp [enclosed, dot]
  simp [Rigid.all, volumicInertia, tetra_diag ht, hV]
  norm_num

/-- **C59** does not hold exactly for inclined panels: the roll stiffness of half an octant. -/
theorem stiffness_quadrature_violated : ∃ t, keel.faceTable = some t ∧ ∀ G,
    rigidStiffness t 0 G (volume t) "Roll" "Roll" = 1 / 36 + weightRestoring (volume t) 0 G .roll .roll ∧
    pressureRestoring keel.pieces 0 .roll .roll + weightRestoring (volume t) 0 G .roll .roll =
      1 / 24 + weightRestoring (volume t) 0 G .roll .roll := by
  obtain ⟨t, ht⟩ := table_exists keel_sound.valid
  have hp : keel.pieces = [(⟨1, 0, 0⟩, ⟨0, 0, -1⟩, ⟨0, 1, 0⟩), (⟨0, 0, 0⟩, ⟨0, 0, -1⟩, ⟨1, 0, 0⟩),
      (⟨0, 0, 0⟩, ⟨0, 1, 0⟩, ⟨0, 0, -1⟩)] := rfl
  have hV : volume t = 1 / 6 := by
    rw [(hull_volumes keel keel_sound keelLid (by simp [keelLid]) keel_closed t ht 0).2.2.2, hp]
    simp [enclosed, dot, keelLid]
  refine ⟨t, ht, fun G => ⟨?_, ?_⟩⟩
  · have h1 := triangles_sum keel_sound keel_triangles ht (fun n v => n.z * (v.y - (0 : V3 ℝ).y) ^ 2)
      (fun a n v => by simp; ring)
    have h2 := triangles_sum keel_sound keel_triangles ht (fun n v => n.z * v.z ^ 2) (fun a n v => by simp; ring)
    simp only [rigidStiffness, centerOfBuoyancy, waterplaneIntegral, surfaceIntegral, hV]
    rw [h1, h2, hp]
    simp [Tri.vec, weightRestoring, Rigid.motion, Rigid.slope, Rigid.lin, Rigid.rot, dot]
    norm_num
    ring
  · rw [hp]
    simp [pressureRestoring, triFlux, Tri.vec, Rigid.motion, Rigid.lin, Rigid.rot, dot]
    norm_num

/-- One horizontal panel under water. -/
noncomputable def bottom : Table := [(⟨1, ⟨0, 0, -1⟩, ⟨0, 0, -1⟩⟩, 1)]

/-- **C59** does not hold for dofs named in lower case, which the constructors of dofs accept: they are not
recognised as rigid, and the weight is ignored. The two dofs of this body are the same rotation. -/
theorem stiffness_lowercase_violated : ∃ b : HydroBody, b.mass = none ∧
    b.dofs.lookup "Roll" = b.dofs.lookup "roll" ∧ (b.dofs.lookup "roll").isSome ∧
    b.eachStiffness 1 1 [0] "roll" "roll" = .ok 0 ∧ b.eachStiffness 1 1 [0] "Roll" "Roll" = .ok (-1 / 2) := by
  refine ⟨⟨bottom, [("Roll", rotationValues bottom 0 ⟨1, 0, 0⟩), ("roll", rotationValues bottom 0 ⟨1, 0, 0⟩)], none,
    some 0, some 0⟩, rfl, by simp [List.lookup], by simp [List.lookup], ?_, ?_⟩
  · unfold HydroBody.eachStiffness
    rw [if_neg (by decide), if_neg (by simp)]
    simp [List.lookup, newmanStiffness, rotationValues, bottom, dot]
  · simp [HydroBody.eachStiffness, rigidNames, HydroBody.inferCenter, rigidStiffness, waterplaneIntegral,
      surfaceIntegral, bottom, centerOfBuoyancy, volume, volumes]
    norm_num

/-- **C59** does not hold for a body with heave only and no rotation center: its stiffness needs no rotation center
but the code asks for one. -/
theorem stiffness_heave_violated (t : Table) (v : List (V3 ℝ)) (m : Option ℝ) (G : V3 ℝ) (rho g : ℝ) (d : List ℝ) :
    HydroBody.eachStiffness ⟨t, [("Heave", v)], m, some G, none⟩ rho g d "Heave" "Heave" = .error .value ∧
    ∀ c, rigidStiffness t c G (m.getD (dispMass rho t) / rho) "Heave" "Heave" = waterplaneArea t := by
  constructor
  · simp [HydroBody.eachStiffness, rigidNames, HydroBody.inferCenter, List.lookup]
  · intro c
    simp [rigidStiffness]

/-! ## Concrete cases -/

/-- The body made of half an octant with the six rigid dofs around the origin. -/
noncomputable def keelBody (t : Table) (G : V3 ℝ) : HydroBody :=
  ⟨t, [("Surge", t.map fun _ => ⟨1, 0, 0⟩), ("Sway", t.map fun _ => ⟨0, 1, 0⟩), ("Heave", t.map fun _ => ⟨0, 0, 1⟩),
    ("Roll", rotationValues t 0 ⟨1, 0, 0⟩), ("Pitch", rotationValues t 0 ⟨0, 1, 0⟩),
    ("Yaw", rotationValues t 0 ⟨0, 0, 1⟩)], none, some G, none⟩

theorem keel_table : ∃ x l, keel.faceTable = some (x :: l) := by
  obtain ⟨t, ht⟩ := table_exists keel_sound.valid
  cases t with
  | nil =>
    exfalso
    have h1 := (hull_waterplane keel keel_sound keelLid keel_closed [] ht).1
    simp [waterplaneArea, waterplaneIntegral, surfaceIntegral, keelLid, Tri.flatArea, Tri.vec] at h1
  | cons x l => exact ⟨x, l, ht⟩

/-- Concrete case of `infer_center`, `infer_sound`, `each_rigid`, `stiffness_symmetric`, `stiffness_symmetric_iff`,
`inertia_spec` and `inertia_symmetric`: the center is found for this body. -/
example : ∃ t, keel.faceTable = some t ∧ ∀ G, (keelBody t G).inferCenter = .ok 0 ∧
    (keelBody t G).centerOfMass = some G ∧ ∃ M, (keelBody t G).inertia 1000 "body_dofs" = .ok M := by
  obtain ⟨x, l, ht⟩ := keel_table
  refine ⟨x :: l, ht, fun G => ?_⟩
  have h := infer_center (keelBody (x :: l) G) 0 (by simp [keelBody]) rfl (by simp [keelBody, List.lookup])
    (by simp [keelBody, List.lookup]) (by simp [keelBody, List.lookup])
  refine ⟨h, rfl, ?_⟩
  unfold HydroBody.inertia
  rw [show (keelBody (x :: l) G).centerOfMass = some G from rfl]
  simp [h]

/-- Concrete case of `pressure_restoring` and `stiffness_restoring_partial`: the heave and roll stiffness of half an
octant, without any further hypothesis on the mesh. -/
example : ∃ t, keel.faceTable = some t ∧ rigidStiffness t 0 0 (volume t) "Heave" "Roll" = 1 / 6 := by
  obtain ⟨t, ht⟩ := table_exists keel_sound.valid
  refine ⟨t, ht, ?_⟩
  have := stiffness_restoring_partial keel keel_sound keelLid (by simp [keelLid]) keel_closed t ht 0 0 (volume t) rfl
    .heave .roll (fun h => by simp [Rigid.Tilts] at h) (fun h => by simp [Rigid.Tilts] at h)
  exact this.trans (by
    rw [show keel.pieces = [(⟨1, 0, 0⟩, ⟨0, 0, -1⟩, ⟨0, 1, 0⟩), (⟨0, 0, 0⟩, ⟨0, 0, -1⟩, ⟨1, 0, 0⟩),
      (⟨0, 0, 0⟩, ⟨0, 1, 0⟩, ⟨0, 0, -1⟩)] from rfl]
    simp [pressureRestoring, weightRestoring, triFlux, Tri.vec, Rigid.motion, Rigid.slope, Rigid.lin, Rigid.rot, dot]
    norm_num)

end Verif.Bodies
