import Verif.Meshes.ClipMeshProps

/-!
# Clipping of bodies

The clipping of single meshes of `Verif.Meshes.ClipModel` in the clipping of bodies of `Verif.Bodies.SliceModel`.
-/

namespace Verif.Bodies

open Verif.Geometry V3 Verif.Meshes

/-- `Mesh.clip` as the clipping of the single meshes of a body (`meshes/collections.py:271-279`,
`bodies/bodies.py:1011-1030`). What is returned for an exception does not matter below. -/
noncomputable def clipLeaf (sort : (ℕ → ℝ) → List ℕ → List ℕ) (atol tol rtol : ℝ) (P : Plane) (m : Mesh (V3 ℝ)) :
    Mesh (V3 ℝ) × List ℕ := (m.clip sort atol tol rtol P).getD (⟨[], []⟩, [])

/-- A mesh with usual panels, in a general position with respect to the plane. -/
structure Fair (tol : ℝ) (P : Plane) (m : Mesh (V3 ℝ)) : Prop where
  valid : m.Valid
  sharp : ∀ v ∈ m.vertices, Sharp tol P v
  panels : ∃ L, Shapes m L ∧ ∀ s ∈ L, Clippable tol P s.1 s.2

theorem removeDegenerated_valid {m : Mesh (V3 ℝ)} (h : m.Valid) (rtol : ℝ) : (m.removeDegeneratedFaces rtol).Valid := by
  classical
  intro f hf
  exact h f (List.mem_filter.mp hf).1

/-- C33 for bodies: for meshes with usual panels in a general position, clipping a body does not raise any exception as
long as each single mesh gets one original number for each panel. Each panel of the result is then a part of a panel of
the body which is under the plane, and each dof moves both in the same way. -/
theorem clip_body_partial (sort : (ℕ → ℝ) → List ℕ → List ℕ) (hs : ArgSort sort) {atol tol : ℝ} (ha : 0 ≤ atol)
    (htol : 0 < tol) (rtol : ℝ) (P : Plane) (b : Body) (hc : b.Consistent) (ht : b.mesh.Inhabited)
    (hm : ∀ m ∈ b.mesh.leaves, Fair tol P m) (hl : ∀ l, b.lid = some l → l.Inhabited ∧ ∀ m ∈ l.leaves, Fair tol P m)
    (hids : ∀ m ∈ b.mesh.leaves, ∀ r ids, m.clip sort atol tol rtol P = some (r, ids) → ids.length = r.faces.length) :
    ∃ x, b.clip (clipLeaf sort atol tol rtol P) = some x ∧ x.Consistent ∧
      x.dofs.map Prod.fst = b.dofs.map Prod.fst ∧
      ∀ (j : ℕ) (n : Name) (d : List (V3 ℂ)), b.dofs[j]? = some (n, d) → ∃ d', x.dofs[j]? = some (n, d') ∧
        ∀ (k : ℕ) s v, x.panels[k]? = some s → d'[k]? = some v →
          ∃ (i : ℕ) (p : _), b.panels[i]? = some p ∧ PieceOf atol P p s ∧ d[i]? = some v := by
  have hv : ∀ m, Fair tol P m → (clipLeaf sort atol tol rtol P m).1.Valid := by
    intro m hf
    obtain ⟨L, hL, hL'⟩ := hf.panels
    obtain ⟨r, ids, h1, h2, -⟩ := clip_ids_partial sort hs ha htol rtol P m hf.valid L hL hf.sharp hL'
    rw [clipLeaf, h1]
    exact removeDegenerated_valid h2 rtol
  obtain ⟨x, h1, -, h2, -, -, -, h3, h4⟩ := clip_body (clipLeaf sort atol tol rtol P) (PieceOf atol P) b hc ht
    (by
      intro m hmem
      refine ⟨hv m (hm m hmem), ?_⟩
      obtain ⟨L, hL, hL'⟩ := (hm m hmem).panels
      obtain ⟨r, ids, h1, -, h2, h3, h4⟩ :=
        clip_ids_partial sort hs ha htol rtol P m (hm m hmem).valid L hL (hm m hmem).sharp hL'
      have h5 := h4 (h3.mp (hids m hmem _ _ h1))
      rw [clipLeaf, h1, Option.getD_some, h5]
      exact h2)
    fun l hlid => ⟨(hl l hlid).1, fun m hmem => hv m ((hl l hlid).2 m hmem)⟩
  exact ⟨x, h1, h2, h3, h4⟩

theorem area_nonneg {vs : List (V3 ℝ)} {f : Face} {x : Panel × ℝ} (h : faceProperties vs f = some x) : 0 ≤ x.1.area := by
  obtain ⟨c, -, rfl⟩ := Option.map_eq_some_iff.mp h
  have hn : ∀ v : V3 ℝ, 0 ≤ V3.norm v := fun v => Real.sqrt_nonneg _
  simp only [panelOf]
  split
  · rw [trianglePanel]
    split
    · exact le_rfl
    · exact div_nonneg (hn _) (by norm_num)
  · rw [quadPanel]
    split
    · exact le_rfl
    · exact add_nonneg (mul_nonneg (hn _) (by norm_num)) (mul_nonneg (hn _) (by norm_num))

/-- Concrete case of `clip_body_partial` and of `clip_body` with a lid: the same square, half under the free
surface, as hull and as lid. -/
example (sort : (ℕ → ℝ) → List ℕ → List ℕ) (hs : ArgSort sort) : ∃ x,
    (⟨['a'], .leaf halfSunk, some (.leaf halfSunk), [(['d'], [⟨1, 0, 0⟩])], none, none, none, none⟩ : Body).clip
      (clipLeaf sort (1 / 10 ^ 8) (1 / 10 ^ 12) 0 freeSurface) = some x ∧ x.Consistent := by
  have hf : Fair (1 / 10 ^ 12) freeSurface halfSunk := ⟨halfSunk_valid, halfSunk_sharp, _, halfSunk_shapes, halfSunk_clippable⟩
  obtain ⟨x, h1, h2, -⟩ := clip_body_partial sort hs (atol := 1 / 10 ^ 8) (tol := 1 / 10 ^ 12) (by norm_num) (by norm_num) 0
    freeSurface ⟨['a'], .leaf halfSunk, some (.leaf halfSunk), [(['d'], [⟨1, 0, 0⟩])], none, none, none, none⟩
    (by intro d hd; simp only [List.mem_singleton] at hd; subst hd; rfl) trivial
    (by intro m hm; simp only [Tree.leaves, List.mem_singleton] at hm; subst hm; exact hf)
    (by
      intro l hl
      cases hl
      refine ⟨trivial, fun m hm => ?_⟩
      simp only [Tree.leaves, List.mem_singleton] at hm
      subst hm
      exact hf)
    (by
      intro m hm r ids h
      simp only [Tree.leaves, List.mem_singleton] at hm
      subst hm
      obtain ⟨L, hL, hL'⟩ := hf.panels
      obtain ⟨r', ids', h1, -, -, h3, -⟩ := clip_ids_partial sort hs (atol := 1 / 10 ^ 8) (tol := 1 / 10 ^ 12)
        (by norm_num) (by norm_num) 0 freeSurface halfSunk hf.valid L hL hf.sharp hL'
      rw [h] at h1
      cases h1
      rw [h3]
      intro f _ hx
      obtain ⟨x, hx, hx'⟩ := hx
      rw [mul_zero] at hx'
      exact absurd (area_nonneg hx) (not_le.mpr hx'))
  exact ⟨x, h1, h2⟩

end Verif.Bodies
