import Verif.Bodies.JoinProps

/-!
# Arrays of bodies

C37: in an array of copies of a body, each dof moves the panels of one copy, at the place of that copy.
-/

namespace Verif.Bodies

open Verif.Geometry Verif.Meshes V3

/-! ## Specification -/

/-- A tree whose copies can be placed at all the `sites`: it has been built by the operations of the library, its
symmetries are accepted by the constructors, they commute with the translations to the sites, and the
translated meshes are not changed by `f` (healing). -/
structure Placeable (f : Mesh (V3 ℝ) → Mesh (V3 ℝ)) (sites : List (V3 ℝ)) (t : Meshes.Tree) : Prop where
  built : Built t
  upright : t.Upright
  fits : ∀ v ∈ sites, t.Main (Fits (.translate v))
  steady : ∀ v ∈ sites, ∀ m ∈ t.leaves, f (m.translate v) = m.translate v

/-- A body whose copies can be placed at all the `sites`, with distinct real dofs whose names do not contain
`__`, and matrices with one row and column per dof. -/
structure PlaceableBody (heal down : Mesh (V3 ℝ) → Mesh (V3 ℝ)) (sites : List (V3 ℝ)) (b : Body) : Prop where
  mesh : Placeable heal sites b.mesh
  lid : ∀ l, b.lid = some l → Placeable down sites l ∧ 0 < l.nbFaces
  consistent : b.Consistent
  distinct : (b.dofs.map Prod.fst).Nodup
  plain : ∀ d ∈ b.dofs, ¬ ['_', '_'] <:+: d.1
  real : ∀ d ∈ b.dofs, ∀ v ∈ d.2, v.x.im = 0 ∧ v.y.im = 0 ∧ v.z.im = 0
  inertia : ∀ m, b.inertia = some m → m.cols = b.dofs.length ∧ m.rows.length = b.dofs.length
  stiffness : ∀ m, b.stiffness = some m → m.cols = b.dofs.length ∧ m.rows.length = b.dofs.length

/-! ## Copies at the sites -/

theorem nbFaces_of_leaves {t u : Meshes.Tree} {v : V3 ℝ} (h : u.leaves = t.leaves.map (·.translate v)) :
    u.nbFaces = t.nbFaces := by
  rw [nbFaces_eq, nbFaces_eq, h, List.map_map]
  rfl

theorem placeable_copy {f : Mesh (V3 ℝ) → Mesh (V3 ℝ)} {sites : List (V3 ℝ)} {t : Meshes.Tree}
    (h : Placeable f sites t) :
    ∃ c, t.copy = some c ∧ ∀ v ∈ sites, Sound f (c.move (.translate v)) ∧
      (c.move (.translate v)).leaves = t.leaves.map (·.translate v) := by
  obtain ⟨c, h1, h2⟩ := (copy_coherent t.depth t (built_coherent h.built) le_rfl).1 h.upright
  refine ⟨c, h1, fun v hv => ?_⟩
  have hl : (c.move (.translate v)).leaves = t.leaves.map (·.translate v) := by
    rw [leaves_move, h2.1]
    rfl
  refine ⟨⟨coherent_move (μ := .translate v) trivial h2.2.1 (h2.2.2.2.2 _ (h.fits v hv)), upright_translate v c h2.2.2.1, ?_⟩, hl⟩
  intro m hm
  rw [hl] at hm
  obtain ⟨m', hm', rfl⟩ := List.mem_map.mp hm
  exact h.steady v hv m' hm'

theorem mapM_some {A B : Type} {f : A → Option B} {g : A → B} {l : List A} (h : ∀ x ∈ l, f x = some (g x)) :
    l.mapM f = some (l.map g) := by
  induction l with
  | nil => rfl
  | cons x l ih =>
    rw [List.mapM_cons, h x List.mem_cons_self, ih fun y hy => h y (List.mem_cons_of_mem _ hy)]
    rfl

theorem placeable_bodies {heal down : Mesh (V3 ℝ) → Mesh (V3 ℝ)} {sites : List (Name × V3 ℝ)} {b : Body}
    (hm : Placeable heal (sites.map Prod.snd) b.mesh)
    (hl : ∀ l, b.lid = some l → Placeable down (sites.map Prod.snd) l ∧ 0 < l.nbFaces) (hc : b.Consistent) :
    ∃ g : Name × V3 ℝ → Body, (sites.mapM fun s => b.translated s.1 s.2) = some (sites.map g) ∧
      ∀ s ∈ sites, SoundBody heal down (g s) ∧ (g s).name = s.1 ∧ (g s).dofs = b.dofs ∧
        (g s).inertia = b.inertia ∧ (g s).stiffness = b.stiffness ∧
        (g s).mesh.leaves = b.mesh.leaves.map (·.translate s.2) := by
  obtain ⟨c, h1, h2⟩ := placeable_copy hm
  have hlid : ∃ cl : Option Meshes.Tree, (∀ name, b.copy name = some { b with name := name, mesh := c, lid := cl }) ∧
      ∀ s ∈ sites, ∀ l, cl.map (Meshes.Tree.move (.translate s.2)) = some l → Sound down l ∧ 0 < l.nbFaces := by
    cases hb : b.lid with
    | none =>
      refine ⟨none, fun name => ?_, by simp⟩
      rw [Body.copy, if_pos hc, h1, hb]
      rfl
    | some l =>
      obtain ⟨hp, hn⟩ := hl l hb
      obtain ⟨c', i1, i2⟩ := placeable_copy hp
      refine ⟨some c', fun name => ?_, ?_⟩
      · rw [Body.copy, if_pos hc, h1, hb, Option.map_some, i1]
      · intro s hs l' hl'
        rw [Option.map_some, Option.some.injEq] at hl'
        subst hl'
        obtain ⟨j1, j2⟩ := i2 s.2 (List.mem_map_of_mem hs)
        exact ⟨j1, by rw [nbFaces_of_leaves j2]; exact hn⟩
  obtain ⟨cl, i1, i2⟩ := hlid
  refine ⟨fun s => ({ b with name := s.1, mesh := c, lid := cl } : Body).translate s.2, mapM_some fun s _ => ?_, ?_⟩
  · rw [Body.translated, i1, Option.map_some]
  · intro s hs
    obtain ⟨j1, j2⟩ := h2 s.2 (List.mem_map_of_mem hs)
    exact ⟨⟨j1, i2 s hs⟩, rfl, rfl, rfl, rfl, j2⟩

theorem totalFaces_same {A : Type} (g : A → Body) (n : ℕ) (l : List A) (h : ∀ a ∈ l, (g a).mesh.nbFaces = n) :
    totalFaces (l.map g) = l.length * n := by
  induction l with
  | nil => simp [totalFaces]
  | cons a l ih =>
    rw [List.map_cons, totalFaces_cons, h a List.mem_cons_self, ih fun x hx => h x (List.mem_cons_of_mem _ hx),
      List.length_cons, Nat.succ_mul, Nat.add_comm]

theorem totalFaces_same_take {A : Type} (g : A → Body) (n : ℕ) (l : List A) (h : ∀ a ∈ l, (g a).mesh.nbFaces = n)
    {k : ℕ} (hk : k ≤ l.length) : totalFaces ((l.map g).take k) = k * n := by
  rw [← List.map_take, totalFaces_same g n _ fun a ha => h a (List.mem_of_mem_take ha), List.length_take,
    Nat.min_eq_left hk]

theorem newDofName_plain {n d : Name} (h : ¬ ['_', '_'] <:+: d) : newDofName n d = n ++ ['_', '_'] ++ d := by
  rw [newDofName, if_neg]
  rw [hasSeparator, decide_eq_true_eq]
  exact h

/-- Joining copies of a body placed at different sites. The names of the copies are distinct and can be read from
the names of the dofs. -/
theorem array_dofs (heal down : Mesh (V3 ℝ) → Mesh (V3 ℝ)) (sites : List (Name × V3 ℝ)) (b : Body)
    (h : PlaceableBody heal down (sites.map Prod.snd) b) (hn : (sites.map Prod.fst).Nodup)
    (hdec : ∀ s ∈ sites, ∀ s' ∈ sites, ∀ d d' : Name, s.1 ++ ['_', '_'] ++ d = s'.1 ++ ['_', '_'] ++ d' → s.1 = s'.1) :
    ∃ bodies x, (sites.mapM fun s => b.translated s.1 s.2) = some bodies ∧ joinBodies heal down bodies = some x ∧
      x.mesh.leaves = sites.flatMap (fun s => b.mesh.leaves.map (·.translate s.2)) ∧
      x.dofs.map Prod.fst = (sites.flatMap fun s => b.dofs.map fun d => s.1 ++ ['_', '_'] ++ d.1) ∧
      ∀ (k : ℕ) (s : Name × V3 ℝ), sites[k]? = some s → ∀ n d, (n, d) ∈ b.dofs →
        ∃ D, (s.1 ++ ['_', '_'] ++ n, D) ∈ x.dofs ∧ D.length = sites.length * b.mesh.nbFaces ∧
          ∀ k', k' < sites.length → ∀ q, q < b.mesh.nbFaces →
            D[k' * b.mesh.nbFaces + q]? = if k' = k then d[q]? else some 0 := by
  obtain ⟨g, h1, h2⟩ := placeable_bodies h.mesh h.lid h.consistent
  have hkeys : ((sites.map g).flatMap fun c => c.dofs.map fun d => newDofName c.name d.1) =
      sites.flatMap fun s => b.dofs.map fun d => s.1 ++ ['_', '_'] ++ d.1 := by
    rw [List.flatMap_map]
    refine List.flatMap_congr fun s hs => ?_
    obtain ⟨-, e1, e2, -⟩ := h2 s hs
    rw [e1, e2]
    exact List.map_congr_left fun d hd => newDofName_plain (h.plain d hd)
  have hnd : (sites.flatMap fun s => b.dofs.map fun d => s.1 ++ ['_', '_'] ++ d.1).Nodup := by
    rw [List.nodup_flatMap]
    refine ⟨fun s _ => ?_, ?_⟩
    · have h3 : ((b.dofs.map Prod.fst).map fun n => s.1 ++ ['_', '_'] ++ n).Nodup :=
        h.distinct.map fun a a' haa => List.append_cancel_left haa
      rw [List.map_map] at h3
      exact h3
    · have h3 := List.pairwise_map.mp hn
      refine h3.imp_of_mem fun {s s'} hs hs' hne => ?_
      intro k hk hk'
      obtain ⟨d, -, rfl⟩ := List.mem_map.mp hk
      obtain ⟨d', -, he⟩ := List.mem_map.mp hk'
      exact hne (hdec s hs s' hs' d.1 d'.1 he.symm)
  have hnb : ∀ s ∈ sites, (g s).mesh.nbFaces = b.mesh.nbFaces := fun s hs =>
    nbFaces_of_leaves (h2 s hs).2.2.2.2.2
  have hall : ∀ c ∈ sites.map g, ∃ s ∈ sites, g s = c := fun c hc => by
    obtain ⟨s, hs, he⟩ := List.mem_map.mp hc
    exact ⟨s, hs, he⟩
  have hsound : ∀ c ∈ sites.map g, SoundBody heal down c := by
    intro c hc
    obtain ⟨s, hs, rfl⟩ := hall c hc
    exact (h2 s hs).1
  obtain ⟨x, hx⟩ := join_succeeds heal down (sites.map g) hsound
    (by
      intro c hc
      obtain ⟨s, hs, rfl⟩ := hall c hc
      intro d hd
      rw [(h2 s hs).2.2.1] at hd
      rw [hnb s hs]
      exact h.consistent d hd)
    (by rw [hkeys]; exact hnd)
    (by
      intro c hc m hm
      obtain ⟨s, hs, rfl⟩ := hall c hc
      rw [(h2 s hs).2.2.2.1] at hm
      rw [(h2 s hs).2.2.1]
      exact h.inertia m hm)
    (by
      intro c hc m hm
      obtain ⟨s, hs, rfl⟩ := hall c hc
      rw [(h2 s hs).2.2.2.2.1] at hm
      rw [(h2 s hs).2.2.1]
      exact h.stiffness m hm)
  obtain ⟨p1, p2⟩ := join_dofs_partial heal down _ x hx (by rw [hkeys]; exact hnd) (by
    intro c hc d hd v hv
    obtain ⟨s, hs, rfl⟩ := hall c hc
    rw [(h2 s hs).2.2.1] at hd
    exact h.real d hd v hv)
  refine ⟨sites.map g, x, h1, hx, ?_, by rw [p1, hkeys], ?_⟩
  · rw [(join_panels heal down _ x hsound hx).1, List.flatMap_map]
    exact List.flatMap_congr fun s hs => (h2 s hs).2.2.2.2.2
  · intro k s hk n d hnd
    have hs : s ∈ sites := List.mem_of_getElem? hk
    have hkl : k < sites.length := by
      by_contra hc
      rw [List.getElem?_eq_none (by omega)] at hk
      cases hk
    obtain ⟨D, q1, q2, q3, q4⟩ := p2 k (g s) (by rw [List.getElem?_map, hk]; rfl) n d
      (by rw [(h2 s hs).2.2.1]; exact hnd)
    rw [(h2 s hs).2.1, newDofName_plain (h.plain _ hnd)] at q1
    rw [totalFaces_same g _ _ hnb] at q2 q4
    rw [totalFaces_same_take g _ _ hnb hkl.le] at q3 q4
    rw [hnb s hs] at q3 q4
    refine ⟨D, q1, q2, fun k' hk' q hq => ?_⟩
    have hlt : k' * b.mesh.nbFaces + q < sites.length * b.mesh.nbFaces := by
      have := Nat.mul_le_mul_right b.mesh.nbFaces (show k' + 1 ≤ sites.length from hk')
      rw [Nat.succ_mul] at this
      omega
    by_cases he : k' = k
    · rw [if_pos he, he]
      exact q3 q hq
    · rw [if_neg he]
      refine q4 _ hlt ?_
      rcases Nat.lt_or_gt_of_ne he with hlt' | hgt
      · left
        have := Nat.mul_le_mul_right b.mesh.nbFaces (show k' + 1 ≤ k from hlt')
        rw [Nat.succ_mul] at this
        omega
      · right
        have := Nat.mul_le_mul_right b.mesh.nbFaces (show k + 1 ≤ k' from hgt)
        rw [Nat.succ_mul] at this
        omega

/-! ## Names of the copies -/

theorem digits_inj {i j : ℕ} (h : digits i = digits j) : i = j := by
  have := congrArg (fun l => Nat.ofDigitChars 10 l 0) h
  simpa [digits, Nat.ofDigitChars_ten_toDigits] using this

theorem digits_underscore (i : ℕ) : '_' ∉ digits i := Nat.underscore_not_in_toDigits

theorem split_first {c : Char} {a a' r r' : Name} (h : c ∉ a) (h' : c ∉ a') (he : a ++ c :: r = a' ++ c :: r') :
    a = a' ∧ r = r' := by
  induction a generalizing a' with
  | nil =>
    cases a' with
    | nil => exact ⟨rfl, (List.cons.inj he).2⟩
    | cons y a' => exact absurd (List.cons.inj he).1 (fun e => h' (by rw [e]; exact List.mem_cons_self))
  | cons x a ih =>
    cases a' with
    | nil => exact absurd (List.cons.inj he).1 (fun e => h (by rw [e]; exact List.mem_cons_self))
    | cons y a' =>
      obtain ⟨e1, e2⟩ := List.cons.inj he
      obtain ⟨i1, i2⟩ := ih (fun hc => h (List.mem_cons_of_mem _ hc)) (fun hc => h' (List.mem_cons_of_mem _ hc)) e2
      exact ⟨by rw [e1, i1], i2⟩

theorem site_name {i j i' j' : ℕ} {d d' : Name}
    (h : (digits i ++ '_' :: digits j) ++ ['_', '_'] ++ d = (digits i' ++ '_' :: digits j') ++ ['_', '_'] ++ d') :
    i = i' ∧ j = j' := by
  have h1 : digits i ++ '_' :: (digits j ++ '_' :: ('_' :: d)) =
      digits i' ++ '_' :: (digits j' ++ '_' :: ('_' :: d')) := by simpa using h
  obtain ⟨e1, e2⟩ := split_first (digits_underscore _) (digits_underscore _) h1
  exact ⟨digits_inj e1, digits_inj (split_first (digits_underscore _) (digits_underscore _) e2).1⟩

theorem mem_arraySites {s : Name × V3 ℝ} {dist : ℝ} {nx ny : ℕ} :
    s ∈ arraySites dist nx ny ↔ ∃ i < nx, ∃ j < ny, s = (digits i ++ '_' :: digits j, ⟨i * dist, j * dist, 0⟩) := by
  simp only [arraySites, List.mem_flatMap, List.mem_range, List.mem_map]
  constructor
  · rintro ⟨j, hj, i, hi, rfl⟩
    exact ⟨i, hi, j, hj, rfl⟩
  · rintro ⟨i, hi, j, hj, rfl⟩
    exact ⟨j, hj, i, hi, rfl⟩

theorem arraySites_nodup (dist : ℝ) (nx ny : ℕ) : ((arraySites dist nx ny).map Prod.fst).Nodup := by
  rw [arraySites, List.map_flatMap]
  simp only [List.map_map]
  rw [List.nodup_flatMap]
  refine ⟨fun j _ => List.nodup_range.map fun i i' h => ?_, List.nodup_range.imp fun {j j'} hne => ?_⟩
  · exact (site_name (d := []) (d' := []) (congrArg (· ++ ['_', '_'] ++ []) h)).1
  · intro k hk hk'
    obtain ⟨i, -, rfl⟩ := List.mem_map.mp hk
    obtain ⟨i', -, he⟩ := List.mem_map.mp hk'
    exact hne (site_name (d := []) (d' := []) (congrArg (· ++ ['_', '_'] ++ []) he)).2.symm

/-- Element of a list made of blocks of the same length. -/
theorem flatMap_block {A : Type} (f : ℕ → List A) (w : ℕ) (hw : ∀ k, (f k).length = w) (n k q : ℕ) (hk : k < n)
    (hq : q < w) : ((List.range n).flatMap f)[k * w + q]? = (f k)[q]? := by
  have h := flatMap_getElem? f (fun _ => w) hw (List.range n) k q k (by simp [hk]) hq
  rw [← h]
  congr 2
  rw [List.map_const', List.sum_replicate, List.length_take, List.length_range, Nat.min_eq_left hk.le, smul_eq_mul]

theorem length_flatMap_block {A : Type} (f : ℕ → List A) (w : ℕ) (hw : ∀ k, (f k).length = w) (n : ℕ) :
    ((List.range n).flatMap f).length = n * w := by
  rw [List.length_flatMap, show (fun k => (f k).length) = fun _ => w from funext hw, List.map_const',
    List.sum_replicate, List.length_range, smul_eq_mul]

theorem arraySites_get (dist : ℝ) (nx ny i j : ℕ) (hi : i < nx) (hj : j < ny) :
    (arraySites dist nx ny)[j * nx + i]? =
      some (digits i ++ '_' :: digits j, ⟨i * dist, j * dist, 0⟩) := by
  rw [arraySites, flatMap_block _ nx (by simp) ny j i hj hi]
  simp [hi]

theorem arraySites_length (dist : ℝ) (nx ny : ℕ) : (arraySites dist nx ny).length = ny * nx := by
  rw [arraySites, length_flatMap_block _ nx (by simp)]

/-! ## C37: regular arrays -/

/-- C37: in a regular array of `nx` by `ny` copies of a body, there is one dof `i_j__n` for each copy and each dof
`n` of the body. The panel `q` of the copy `(i', j')` is the panel `q` of the body translated by
`(i' d, j' d, 0)`. The dof `i_j__n` moves it as `n` moves the panel `q` of the body if the copy is `(i, j)`, and
does not move it otherwise. -/
theorem regular_array_dofs_partial (heal down : Mesh (V3 ℝ) → Mesh (V3 ℝ)) (b : Body) (dist : ℝ) (nx ny : ℕ)
    (hx : 1 ≤ nx) (hy : 1 ≤ ny) (h : PlaceableBody heal down ((arraySites dist nx ny).map Prod.snd) b) :
    ∃ x, b.regularArray heal down dist nx ny = some x ∧ x.mesh.nbFaces = ny * nx * b.mesh.nbFaces ∧
      x.dofs.length = ny * nx * b.dofs.length ∧ (x.dofs.map Prod.fst).Nodup ∧
      (∀ i < nx, ∀ j < ny, ∀ q < b.mesh.nbFaces,
        (x.mesh.leaves.flatMap Mesh.shapes)[(j * nx + i) * b.mesh.nbFaces + q]? =
          ((b.mesh.leaves.map (·.translate ⟨i * dist, j * dist, 0⟩)).flatMap Mesh.shapes)[q]?) ∧
      ∀ i < nx, ∀ j < ny, ∀ n d, (n, d) ∈ b.dofs →
        ∃ D, (digits i ++ '_' :: digits j ++ ['_', '_'] ++ n, D) ∈ x.dofs ∧ D.length = x.mesh.nbFaces ∧
          ∀ i' < nx, ∀ j' < ny, ∀ q < b.mesh.nbFaces,
            D[(j' * nx + i') * b.mesh.nbFaces + q]? = if i' = i ∧ j' = j then d[q]? else some 0 := by
  have hdec : ∀ s ∈ arraySites dist nx ny, ∀ s' ∈ arraySites dist nx ny, ∀ d d' : Name,
      s.1 ++ ['_', '_'] ++ d = s'.1 ++ ['_', '_'] ++ d' → s.1 = s'.1 := by
    intro s hs s' hs' d d' he
    obtain ⟨i, -, j, -, rfl⟩ := mem_arraySites.mp hs
    obtain ⟨i', -, j', -, rfl⟩ := mem_arraySites.mp hs'
    obtain ⟨rfl, rfl⟩ := site_name he
    rfl
  obtain ⟨bodies, x, h1, h2, h3, h4, h5⟩ := array_dofs heal down _ b h (arraySites_nodup dist nx ny) hdec
  obtain ⟨t, i1, i2⟩ := regular_array b.mesh h.mesh.built h.mesh.upright dist nx ny hx hy
  have hblock : ∀ v : V3 ℝ, ((b.mesh.leaves.map (·.translate v)).flatMap Mesh.shapes).length = b.mesh.nbFaces := by
    intro v
    rw [← shapes_length, List.flatMap_map, List.length_flatMap, List.length_flatMap]
    simp [Mesh.shapes, Mesh.translate]
  have hsh : t.leaves.flatMap Mesh.shapes = (List.range ny).flatMap fun j : ℕ => (List.range nx).flatMap fun i : ℕ =>
      (b.mesh.leaves.map (·.translate ⟨i * dist, j * dist, 0⟩)).flatMap Mesh.shapes := by
    rw [i2, List.flatMap_assoc]
    simp only [List.flatMap_assoc]
  have hrow : ∀ j : ℕ, ((List.range nx).flatMap fun i : ℕ =>
      (b.mesh.leaves.map (·.translate ⟨i * dist, j * dist, 0⟩)).flatMap Mesh.shapes).length =
      nx * b.mesh.nbFaces := fun j => length_flatMap_block _ _ (fun i => hblock _) _
  have hnb : t.nbFaces = ny * nx * b.mesh.nbFaces := by
    rw [← shapes_length, hsh, length_flatMap_block _ _ hrow, Nat.mul_assoc]
  refine ⟨{ x with mesh := t, name := "array_of_".toList ++ b.name }, ?_, hnb, ?_, ?_, ?_, ?_⟩
  · rw [Body.regularArray, h1]
    simp only [h2, i1]
  · have := congrArg List.length h4
    rw [List.length_map, List.length_flatMap] at this
    simp only [List.length_map, List.map_const', List.sum_replicate, smul_eq_mul, arraySites_length] at this
    exact this
  · rw [h4, ← List.flatMap_map Prod.fst (fun s : Name => b.dofs.map fun d => s ++ ['_', '_'] ++ d.1)]
    rw [List.flatMap_map, List.nodup_flatMap]
    refine ⟨fun s _ => ?_, ?_⟩
    · have h3 : ((b.dofs.map Prod.fst).map fun n => s.1 ++ ['_', '_'] ++ n).Nodup :=
        h.distinct.map fun a a' haa => List.append_cancel_left haa
      rw [List.map_map] at h3
      exact h3
    · refine (List.pairwise_map.mp (arraySites_nodup dist nx ny)).imp_of_mem fun {s s'} hs hs' hne => ?_
      intro k hk hk'
      obtain ⟨d, -, rfl⟩ := List.mem_map.mp hk
      obtain ⟨d', -, he⟩ := List.mem_map.mp hk'
      exact hne (hdec s hs s' hs' d.1 d'.1 he.symm)
  · intro i hi j hj q hq
    have hlt : i * b.mesh.nbFaces + q < nx * b.mesh.nbFaces := by
      have := Nat.mul_le_mul_right b.mesh.nbFaces (show i + 1 ≤ nx from hi)
      rw [Nat.succ_mul] at this
      omega
    have e : (j * nx + i) * b.mesh.nbFaces + q = j * (nx * b.mesh.nbFaces) + (i * b.mesh.nbFaces + q) := by ring
    simp only
    rw [hsh, e, flatMap_block _ _ hrow ny j _ hj hlt, flatMap_block _ _ (fun i => hblock _) nx i q hi hq]
  · intro i hi j hj n d hnd
    obtain ⟨D, q1, q2, q3⟩ := h5 (j * nx + i) _ (arraySites_get dist nx ny i j hi hj) n d hnd
    refine ⟨D, q1, by rw [q2, arraySites_length]; exact hnb.symm, fun i' hi' j' hj' q hq => ?_⟩
    have hk : j' * nx + i' < (arraySites dist nx ny).length := by
      rw [arraySites_length]
      have := Nat.mul_le_mul_right nx (show j' + 1 ≤ ny from hj')
      rw [Nat.succ_mul] at this
      omega
    rw [q3 _ hk q hq]
    have hiff : j' * nx + i' = j * nx + i ↔ i' = i ∧ j' = j := by
      constructor
      · intro he
        have h6 := congrArg (· % nx) he
        simp only [Nat.mul_add_mod_self_right, Nat.mod_eq_of_lt hi, Nat.mod_eq_of_lt hi'] at h6
        refine ⟨h6, ?_⟩
        rw [h6] at he
        exact Nat.eq_of_mul_eq_mul_right hx (Nat.add_right_cancel he)
      · rintro ⟨rfl, rfl⟩
        rfl
    by_cases hc : i' = i ∧ j' = j
    · rw [if_pos hc, if_pos (hiff.mpr hc)]
    · rw [if_neg hc, if_neg fun he => hc (hiff.mp he)]


/-- A body with one triangle and two dofs can be placed anywhere. -/
theorem sampleBody_placeable (sites : List (V3 ℝ)) :
    PlaceableBody id id sites { sampleBody ['a'] ['d'] ⟨1, 0, 0⟩ with
      dofs := [(['d'], [⟨1, 0, 0⟩]), (['e'], [⟨0, 2, 0⟩])], inertia := none } where
  mesh := ⟨.leaf _, trivial, fun _ _ => trivial, fun _ _ _ _ => rfl⟩
  lid := by simp [sampleBody]
  consistent := by simp [sampleBody, Body.Consistent, Tree.nbFaces, sampleHalf]
  distinct := by decide
  plain := by
    intro d hd
    simp only [List.mem_cons, List.not_mem_nil, or_false] at hd
    rcases hd with rfl | rfl <;> decide
  real := by simp
  inertia := by simp
  stiffness := by simp [sampleBody]

/-- Concrete case of `regular_array_dofs_partial`: twelve copies of a body with two dofs. -/
example : ∃ x, ({ sampleBody ['a'] ['d'] ⟨1, 0, 0⟩ with
      dofs := [(['d'], [⟨1, 0, 0⟩]), (['e'], [⟨0, 2, 0⟩])], inertia := none } : Body).regularArray id id 10 4 3 = some x ∧
    x.dofs.length = 24 := by
  obtain ⟨x, h1, -, h2, -⟩ := regular_array_dofs_partial id id _ 10 4 3 (by decide) (by decide)
    (sampleBody_placeable _)
  exact ⟨x, h1, h2⟩

/-- C37 is false when the name of a dof contains two underscores in a row, as the dofs of two joined bodies do: the
dofs of the copies have the same name and all but the last are lost. -/
theorem regular_array_dofs_violated (heal down : Mesh (V3 ℝ) → Mesh (V3 ℝ))
    (h : ∀ v, heal (sampleHalf.translate v) = sampleHalf.translate v) :
    ∃ (b x : Body), b.dofs.length = 1 ∧ b.regularArray heal down 10 2 1 = some x ∧ x.dofs.length = 1 := by
  let b : Body := { sampleBody ['a'] ['b', '_', '_', 'd'] ⟨1, 0, 0⟩ with inertia := none }
  have hm : Placeable heal ((arraySites 10 2 1).map Prod.snd) b.mesh := by
    refine ⟨.leaf _, trivial, fun _ _ => trivial, fun v _ m hm => ?_⟩
    simp only [b, sampleBody, Tree.leaves, List.mem_singleton] at hm
    rw [hm, h]
  obtain ⟨g, h1, h2⟩ := placeable_bodies (heal := heal) (down := down) (sites := arraySites 10 2 1) hm
    (by simp [b, sampleBody]) (by simp [b, sampleBody, Body.Consistent, Tree.nbFaces, sampleHalf])
  have hs : ∀ c ∈ (arraySites 10 2 1).map g, SoundBody heal down c := by
    intro c hc
    obtain ⟨s, hs, rfl⟩ := List.mem_map.mp hc
    exact (h2 s hs).1
  have hsites : ∃ s s', arraySites 10 2 1 = [s, s'] := ⟨_, _, rfl⟩
  obtain ⟨s, s', he⟩ := hsites
  rw [he] at h1 hs h2
  have p := h2 s (by simp)
  have p' := h2 s' (by simp)
  have hsep : hasSeparator ['b', '_', '_', 'd'] = true := by decide
  have hb : b.dofs = [(['b', '_', '_', 'd'], [⟨1, 0, 0⟩])] := rfl
  have hcomb : ∃ D, combineDofs [g s, g s'] = some [(['b', '_', '_', 'd'], D)] := by
    rw [combineDofs, if_pos, combineLoop_eq]
    · simp [entries, p.2.2.1, p'.2.2.1, hb, newDofName, hsep, setItem]
    · intro c hc
      simp only [List.mem_cons, List.not_mem_nil, or_false] at hc
      rcases hc with rfl | rfl
      · intro d hd
        rw [p.2.2.1, hb] at hd
        rw [nbFaces_of_leaves p.2.2.2.2.2]
        simp only [List.mem_singleton] at hd
        subst hd
        simp [b, sampleBody, Tree.nbFaces, sampleHalf]
      · intro d hd
        rw [p'.2.2.1, hb] at hd
        rw [nbFaces_of_leaves p'.2.2.2.2.2]
        simp only [List.mem_singleton] at hd
        subst hd
        simp [b, sampleBody, Tree.nbFaces, sampleHalf]
  obtain ⟨D, hcomb⟩ := hcomb
  have hv := join_view (heal := heal) (down := down) (bodies := [g s, g s']) hs
  have hI : ∀ k : ℕ, ∀ f : Body → Option Matrix2, f (g s) = none →
      joinMatrices k ([g s, g s'].map f) = some none := by
    intro k f hf
    rw [joinMatrices, List.map_cons, hf]
    rfl
  rw [hcomb, Option.bind_some, hI _ Body.inertia (by rw [p.2.2.2.1]), Option.bind_some,
    hI _ Body.stiffness (by rw [p.2.2.2.2.1]; rfl), Option.map_some] at hv
  obtain ⟨x, hx, hv⟩ := Option.map_eq_some_iff.mp hv
  obtain ⟨t, i1, -⟩ := regular_array b.mesh hm.built hm.upright 10 2 1 (by decide) (by decide)
  refine ⟨b, { x with mesh := t, name := "array_of_".toList ++ b.name }, rfl, ?_, ?_⟩
  · rw [Body.regularArray, he, h1]
    simp only [List.map_cons, List.map_nil, hx, i1]
  · have : x.dofs = [(['b', '_', '_', 'd'], D)] := congrArg (fun t => t.2.2.2.1) hv
    simp [this]

/-! ## Arbitrary arrays -/

theorem arbitraryName_inj {i j : ℕ} {d d' : Name}
    (h : arbitraryName i ++ ['_', '_'] ++ d = arbitraryName j ++ ['_', '_'] ++ d') : i = j := by
  have hmem : ∀ i : ℕ, '_' ∉ (if i < 10 then '0' :: digits i else digits i) := by
    intro i
    split
    · intro hc
      rcases List.mem_cons.mp hc with hc | hc
      · exact absurd hc (by decide)
      · exact digits_underscore i hc
    · exact digits_underscore i
  have hval : ∀ i : ℕ, Nat.ofDigitChars 10 (if i < 10 then '0' :: digits i else digits i) 0 = i := by
    intro i
    split
    · have : Nat.ofDigitChars 10 ('0' :: digits i) 0 = Nat.ofDigitChars 10 (digits i) 0 := rfl
      rw [this, digits, Nat.ofDigitChars_ten_toDigits]
    · rw [digits, Nat.ofDigitChars_ten_toDigits]
  have hgen : ∀ p x y : Name, p ++ x ++ ['_', '_'] ++ d = p ++ y ++ ['_', '_'] ++ d' →
      x ++ '_' :: ('_' :: d) = y ++ '_' :: ('_' :: d') := by
    intro p x y hxy
    simpa using hxy
  unfold arbitraryName at h
  generalize "arbitrary_array_body".toList = p at h
  have h1 := hgen _ _ _ h
  have h3 := congrArg (fun l => Nat.ofDigitChars 10 l 0) (split_first (hmem i) (hmem j) h1).1
  simp only [hval] at h3
  exact h3

/-- C37: in an array of copies at given positions, the copies have the panels of the body translated to the
positions, and each dof of each copy moves its own copy only. -/
theorem arbitrary_array_dofs_partial (heal down : Mesh (V3 ℝ) → Mesh (V3 ℝ)) (b : Body) (locations : List (ℝ × ℝ))
    (hne : locations ≠ [])
    (h : PlaceableBody heal down (locations.map fun p => (⟨p.1, p.2, 0⟩ : V3 ℝ)) b) :
    ∃ x, b.arbitraryArray heal down locations = some x ∧
      x.mesh.leaves = locations.flatMap (fun p => b.mesh.leaves.map (·.translate ⟨p.1, p.2, 0⟩)) ∧
      x.dofs.length = locations.length * b.dofs.length ∧
      ∀ k < locations.length, ∀ n d, (n, d) ∈ b.dofs →
        ∃ D, (arbitraryName k ++ ['_', '_'] ++ n, D) ∈ x.dofs ∧ D.length = locations.length * b.mesh.nbFaces ∧
          ∀ k' < locations.length, ∀ q < b.mesh.nbFaces,
            D[k' * b.mesh.nbFaces + q]? = if k' = k then d[q]? else some 0 := by
  let sites : List (Name × V3 ℝ) := locations.zipIdx.map fun s => (arbitraryName s.2, ⟨s.1.1, s.1.2, 0⟩)
  have hsnd : sites.map Prod.snd = locations.map fun p => (⟨p.1, p.2, 0⟩ : V3 ℝ) := by
    simp only [sites, List.map_map]
    conv_rhs => rw [← List.zipIdx_map_fst 0 locations, List.map_map]
    rfl
  have hlen : sites.length = locations.length := by simp [sites]
  have hdec : ∀ s ∈ sites, ∀ s' ∈ sites, ∀ d d' : Name,
      s.1 ++ ['_', '_'] ++ d = s'.1 ++ ['_', '_'] ++ d' → s.1 = s'.1 := by
    intro s hs s' hs' d d' he
    obtain ⟨p, -, rfl⟩ := List.mem_map.mp hs
    obtain ⟨p', -, rfl⟩ := List.mem_map.mp hs'
    have := arbitraryName_inj he
    simp only [this]
  have hnd : (sites.map Prod.fst).Nodup := by
    have : sites.map Prod.fst = (List.range locations.length).map arbitraryName := by
      simp only [sites, List.map_map]
      have h := List.zipIdx_map_snd 0 locations
      rw [← List.range_eq_range'] at h
      rw [← h, List.map_map]
      rfl
    rw [this]
    exact List.nodup_range.map fun i j hij =>
      arbitraryName_inj (d := []) (d' := []) (congrArg (· ++ ['_', '_'] ++ []) hij)
  obtain ⟨bodies, x, h1, h2, h3, h4, h5⟩ := array_dofs heal down sites b (by rw [hsnd]; exact h) hnd hdec
  have h1' : (locations.zipIdx.mapM fun s => b.translated (arbitraryName s.2) ⟨s.1.1, s.1.2, 0⟩) = some bodies := by
    rw [← h1]
    simp only [sites]
    induction locations.zipIdx with
    | nil => rfl
    | cons s l ih => rw [List.mapM_cons, List.map_cons, List.mapM_cons, ih]
  refine ⟨x, ?_, ?_, ?_, ?_⟩
  · rw [Body.arbitraryArray, if_neg hne, h1']
    exact h2
  · rw [h3, ← List.flatMap_map Prod.snd (fun v : V3 ℝ => b.mesh.leaves.map (·.translate v)) sites, hsnd,
      List.flatMap_map]
  · have := congrArg List.length h4
    rw [List.length_map, List.length_flatMap] at this
    simp only [List.length_map, List.map_const', List.sum_replicate, smul_eq_mul, hlen] at this
    exact this
  · intro k hk n d hd
    obtain ⟨D, q1, q2, q3⟩ := h5 k (arbitraryName k, ⟨locations[k].1, locations[k].2, 0⟩)
      (by simp [sites, hk]) n d hd
    rw [hlen] at q2 q3
    exact ⟨D, q1, q2, q3⟩

/-- Concrete case of `arbitrary_array_dofs_partial`. -/
example : ∃ x, ({ sampleBody ['a'] ['d'] ⟨1, 0, 0⟩ with
      dofs := [(['d'], [⟨1, 0, 0⟩]), (['e'], [⟨0, 2, 0⟩])], inertia := none } : Body).arbitraryArray id id
        [(0, 0), (10, 3), (-5, 2)] = some x ∧ x.dofs.length = 6 := by
  obtain ⟨x, h1, -, h2, -⟩ := arbitrary_array_dofs_partial id id _ [(0, 0), (10, 3), (-5, 2)] (by simp)
    (sampleBody_placeable _)
  exact ⟨x, h1, h2⟩

end Verif.Bodies
