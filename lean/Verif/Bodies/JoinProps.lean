import Verif.Bodies.JoinModel
import Verif.Meshes.SymmetricProps
import Mathlib.Tactic.Linarith
import Mathlib.Tactic.FieldSimp

/-!
# C36 and C37: joining bodies
-/

namespace Verif.Bodies

open Verif.Geometry Verif.Meshes V3

/-! ## Dictionaries -/

section Dict

variable {K X Y : Type} [DecidableEq K]

theorem setItem_new {d : List (K × X)} {p : K × X} (h : p.1 ∉ d.map Prod.fst) : setItem d p = d ++ [p] := by
  rw [setItem, if_neg h]

theorem setItem_old {d : List (K × X)} {p : K × X} (h : p.1 ∈ d.map Prod.fst) :
    setItem d p = d.map fun q => if q.1 = p.1 then p else q := by
  rw [setItem, if_pos h]

theorem setItem_keys (d : List (K × X)) (p : K × X) :
    (setItem d p).map Prod.fst = if p.1 ∈ d.map Prod.fst then d.map Prod.fst else d.map Prod.fst ++ [p.1] := by
  by_cases h : p.1 ∈ d.map Prod.fst
  · rw [setItem_old h, if_pos h, List.map_map]
    apply List.map_congr_left
    intro q _
    simp only [Function.comp]
    split
    · rename_i e
      exact e.symm
    · rfl
  · rw [setItem_new h, if_neg h, List.map_append]
    rfl

theorem setItem_mem_keys (d : List (K × X)) (p : K × X) (k : K) :
    k ∈ (setItem d p).map Prod.fst ↔ k ∈ d.map Prod.fst ∨ k = p.1 := by
  rw [setItem_keys]
  split
  · rename_i h
    constructor
    · exact Or.inl
    · rintro (h' | rfl)
      · exact h'
      · exact h
  · simp

theorem setItem_nodup {d : List (K × X)} (hd : (d.map Prod.fst).Nodup) (p : K × X) :
    ((setItem d p).map Prod.fst).Nodup := by
  rw [setItem_keys]
  split
  · exact hd
  · rename_i h
    rw [List.nodup_append]
    refine ⟨hd, by simp, ?_⟩
    rintro a ha b hb rfl
    rw [List.mem_singleton] at hb
    exact h (hb ▸ ha)

theorem foldl_nodup {d : List (K × X)} (hd : (d.map Prod.fst).Nodup) (l : List (K × X)) :
    ((l.foldl setItem d).map Prod.fst).Nodup := by
  induction l generalizing d with
  | nil => exact hd
  | cons p l ih => exact ih (setItem_nodup hd p)

theorem foldl_mem_keys (d l : List (K × X)) (k : K) :
    k ∈ (l.foldl setItem d).map Prod.fst ↔ k ∈ d.map Prod.fst ∨ k ∈ l.map Prod.fst := by
  induction l generalizing d with
  | nil => simp
  | cons p l ih =>
    rw [List.foldl_cons, ih, setItem_mem_keys, List.map_cons, List.mem_cons, or_assoc]

/-- Without repeated keys the dictionary is the list itself. -/
theorem foldl_distinct (d l : List (K × X)) (h : ((d ++ l).map Prod.fst).Nodup) : l.foldl setItem d = d ++ l := by
  induction l generalizing d with
  | nil => simp
  | cons p l ih =>
    have hp : p.1 ∉ d.map Prod.fst := by
      rw [List.map_append, List.map_cons, List.nodup_append] at h
      intro hm
      exact h.2.2 _ hm _ List.mem_cons_self rfl
    rw [List.foldl_cons, setItem_new hp, ih _ (by simpa using h)]
    simp

theorem setItem_twice (d : List (K × X)) (k : K) (a b : X) : setItem (setItem d (k, a)) (k, b) = setItem d (k, b) := by
  by_cases h : k ∈ d.map Prod.fst
  · rw [setItem_old (p := (k, b)) ((setItem_mem_keys _ _ _).mpr (Or.inl h)), setItem_old (p := (k, a)) h,
      setItem_old (p := (k, b)) h, List.map_map]
    apply List.map_congr_left
    intro q _
    simp only [Function.comp]
    by_cases e : q.1 = k
    · simp [e]
    · simp [e]
  · rw [setItem_old (d := setItem d (k, a)) (p := (k, b)) ((setItem_mem_keys d (k, a) k).mpr (Or.inr rfl)),
      setItem_new (p := (k, a)) h,
      setItem_new (p := (k, b)) h, List.map_append]
    congr 1
    · conv_rhs => rw [← List.map_id d]
      apply List.map_congr_left
      intro q hq
      rw [if_neg]
      · rfl
      · rintro rfl
        exact h (List.mem_map_of_mem hq)
    · simp

theorem setItem_swap {d : List (K × X)} {k : K} (h : k ∈ d.map Prod.fst) (a : X) {q : K × X} (hq : q.1 ≠ k) :
    setItem (setItem d q) (k, a) = setItem (setItem d (k, a)) q := by
  rw [setItem_old (d := setItem d q) (p := (k, a)) ((setItem_mem_keys _ _ _).mpr (Or.inl h))]
  by_cases hm : q.1 ∈ d.map Prod.fst
  · rw [setItem_old (p := q) hm, setItem_old (d := setItem d (k, a)) (p := q)
      ((setItem_mem_keys _ _ _).mpr (Or.inl hm)), setItem_old (p := (k, a)) h, List.map_map, List.map_map]
    apply List.map_congr_left
    intro r _
    simp only [Function.comp]
    by_cases e1 : r.1 = q.1
    · have e2 : r.1 ≠ k := fun e => hq (e1.symm.trans e)
      simp [e1, hq]
    · by_cases e2 : r.1 = k
      · have e3 : k ≠ q.1 := fun e => hq e.symm
        simp [e2, e3]
      · simp [e1, e2]
  · rw [setItem_new (p := q) hm, setItem_new (d := setItem d (k, a)) (p := q), setItem_old (p := (k, a)) h,
      List.map_append]
    · simp [hq]
    · rw [setItem_mem_keys]
      rintro (h' | h')
      · exact hm h'
      · exact hq h'

theorem foldl_swap {d : List (K × X)} {k : K} (h : k ∈ d.map Prod.fst) (a : X) (l : List (K × X))
    (hl : k ∉ l.map Prod.fst) : setItem (l.foldl setItem d) (k, a) = l.foldl setItem (setItem d (k, a)) := by
  induction l generalizing d with
  | nil => rfl
  | cons q l ih =>
    rw [List.map_cons, List.mem_cons, not_or] at hl
    rw [List.foldl_cons, ih ((setItem_mem_keys _ _ _).mpr (Or.inl h)) hl.2, List.foldl_cons,
      setItem_swap h a (fun e => hl.1 e.symm)]

theorem foldl_replace (d e : List (K × X)) (he : (e.map Prod.fst).Nodup) {p : K × X} (hp : p.1 ∈ e.map Prod.fst) :
    (e.map fun q => if q.1 = p.1 then p else q).foldl setItem d = setItem (e.foldl setItem d) p := by
  induction e generalizing d with
  | nil => simp at hp
  | cons q e ih =>
    rw [List.map_cons, List.nodup_cons] at he
    rw [List.map_cons, List.foldl_cons, List.foldl_cons]
    by_cases hq : q.1 = p.1
    · rw [if_pos hq]
      have hid : (e.map fun q => if q.1 = p.1 then p else q) = e := by
        conv_rhs => rw [← List.map_id e]
        apply List.map_congr_left
        intro r hr
        rw [if_neg]
        · rfl
        · intro er
          exact he.1 (hq ▸ er ▸ List.mem_map_of_mem hr)
      rw [hid]
      obtain ⟨k, b⟩ := q
      obtain ⟨k', a⟩ := p
      simp only at hq
      subst hq
      rw [foldl_swap ((setItem_mem_keys _ _ _).mpr (Or.inr rfl)) a e he.1, setItem_twice]
    · rw [if_neg hq]
      rw [List.map_cons, List.mem_cons] at hp
      rcases hp with hp | hp
      · exact absurd hp.symm hq
      · exact ih (setItem d q) he.2 hp

theorem foldl_setItem (d e : List (K × X)) (he : (e.map Prod.fst).Nodup) (p : K × X) :
    (setItem e p).foldl setItem d = setItem (e.foldl setItem d) p := by
  by_cases h : p.1 ∈ e.map Prod.fst
  · rw [setItem_old h, foldl_replace d e he h]
  · rw [setItem_new h, List.foldl_append]
    rfl

/-- Inserting the items of a dictionary is inserting the items it was made from. -/
theorem foldl_dict (d e l : List (K × X)) (he : (e.map Prod.fst).Nodup) :
    (l.foldl setItem e).foldl setItem d = l.foldl setItem (e.foldl setItem d) := by
  induction l generalizing e with
  | nil => rfl
  | cons p l ih => rw [List.foldl_cons, ih _ (setItem_nodup he p), foldl_setItem d e he, List.foldl_cons]

theorem setItem_map (g : X → Y) (d : List (K × X)) (p : K × X) :
    (setItem d p).map (fun q => (q.1, g q.2)) = setItem (d.map fun q => (q.1, g q.2)) (p.1, g p.2) := by
  have hk : (d.map fun q => (q.1, g q.2)).map Prod.fst = d.map Prod.fst := by
    rw [List.map_map]
    rfl
  by_cases h : p.1 ∈ d.map Prod.fst
  · rw [setItem_old h, setItem_old (by rw [hk]; exact h), List.map_map, List.map_map]
    apply List.map_congr_left
    intro q _
    simp only [Function.comp]
    split <;> rfl
  · rw [setItem_new h, setItem_new (by rw [hk]; exact h), List.map_append]
    rfl

theorem foldl_map_dict (g : X → Y) (d l : List (K × X)) :
    (l.foldl setItem d).map (fun q => (q.1, g q.2)) =
      (l.map fun q => (q.1, g q.2)).foldl setItem (d.map fun q => (q.1, g q.2)) := by
  induction l generalizing d with
  | nil => rfl
  | cons p l ih => rw [List.foldl_cons, ih, setItem_map, List.map_cons, List.foldl_cons]

theorem foldl_mem (d l : List (K × X)) (p : K × X) (h : p ∈ l.foldl setItem d) : p ∈ d ∨ p ∈ l := by
  induction l generalizing d with
  | nil => exact Or.inl h
  | cons q l ih =>
    rw [List.foldl_cons] at h
    rcases ih _ h with h | h
    · by_cases hq : q.1 ∈ d.map Prod.fst
      · rw [setItem_old hq, List.mem_map] at h
        obtain ⟨r, hr, rfl⟩ := h
        split
        · exact Or.inr List.mem_cons_self
        · exact Or.inl hr
      · rw [setItem_new hq, List.mem_append, List.mem_singleton] at h
        rcases h with h | rfl
        · exact Or.inl h
        · exact Or.inr List.mem_cons_self
    · exact Or.inr (List.mem_cons_of_mem _ h)

end Dict

/-! ## The dofs -/

/-- The dofs in the order of insertion. -/
noncomputable def entries (total : ℕ) : List Body → ℕ → List (Name × List (V3 ℂ))
  | [], _ => []
  | b :: bs, nbf =>
    b.dofs.map (fun d => (newDofName b.name d.1, paddedDof total nbf d.2)) ++
      entries total bs (nbf + b.mesh.nbFaces)

theorem combineLoop_eq (total : ℕ) (bs : List Body) (nbf : ℕ) (acc : List (Name × List (V3 ℂ))) :
    combineLoop total bs nbf acc = (entries total bs nbf).foldl setItem acc := by
  induction bs generalizing nbf acc with
  | nil => rfl
  | cons b bs ih => rw [combineLoop, ih, entries, List.foldl_append, List.foldl_map]

theorem totalFaces_cons (b : Body) (bs : List Body) : totalFaces (b :: bs) = b.mesh.nbFaces + totalFaces bs := by
  simp [totalFaces]

theorem totalFaces_append (a b : List Body) : totalFaces (a ++ b) = totalFaces a + totalFaces b := by
  simp [totalFaces]

theorem entries_append (total : ℕ) (a b : List Body) (n : ℕ) :
    entries total (a ++ b) n = entries total a n ++ entries total b (n + totalFaces a) := by
  induction a generalizing n with
  | nil => simp [entries, totalFaces]
  | cons x a ih =>
    rw [List.cons_append, entries, ih, entries, totalFaces_cons, List.append_assoc, Nat.add_assoc]

theorem mem_entries (total : ℕ) (bs : List Body) (n : ℕ) (p : Name × List (V3 ℂ)) :
    p ∈ entries total bs n ↔ ∃ (k : ℕ) (b : Body) (d : Name × List (V3 ℂ)), bs[k]? = some b ∧ d ∈ b.dofs ∧
      p = (newDofName b.name d.1, paddedDof total (n + totalFaces (bs.take k)) d.2) := by
  induction bs generalizing n with
  | nil => simp [entries]
  | cons b bs ih =>
    rw [entries, List.mem_append, ih]
    constructor
    · rintro (h | ⟨k, b', d, h1, h2, h3⟩)
      · obtain ⟨d, hd, rfl⟩ := List.mem_map.mp h
        exact ⟨0, b, d, rfl, hd, by simp [totalFaces]⟩
      · refine ⟨k + 1, b', d, by simpa using h1, h2, ?_⟩
        rw [h3, List.take_succ_cons, totalFaces_cons, Nat.add_assoc]
    · rintro ⟨k, b', d, h1, h2, h3⟩
      cases k with
      | zero =>
        simp only [List.getElem?_cons_zero, Option.some.injEq] at h1
        subst h1
        left
        rw [h3]
        exact List.mem_map.mpr ⟨d, h2, by simp [totalFaces]⟩
      | succ k =>
        right
        refine ⟨k, b', d, by simpa using h1, h2, ?_⟩
        rw [h3, List.take_succ_cons, totalFaces_cons, Nat.add_assoc]

theorem entries_keys (total : ℕ) (bs : List Body) (n : ℕ) :
    (entries total bs n).map Prod.fst = bs.flatMap fun b => b.dofs.map fun d => newDofName b.name d.1 := by
  induction bs generalizing n with
  | nil => rfl
  | cons b bs ih =>
    rw [entries, List.map_append, ih, List.flatMap_cons, List.map_map]
    rfl

theorem paddedDof_length {total n : ℕ} {d : List (V3 ℂ)} (h : n + d.length ≤ total) :
    (paddedDof total n d).length = total := by
  simp only [paddedDof, List.length_append, List.length_replicate, List.length_map]
  omega

theorem paddedDof_inside (total n : ℕ) (d : List (V3 ℂ)) (q : ℕ) (hq : q < d.length) :
    (paddedDof total n d)[n + q]? = d[q]?.map discardImag := by
  rw [paddedDof, List.append_assoc, List.getElem?_append_right (by simp), List.length_replicate,
    Nat.add_sub_cancel_left, List.getElem?_append_left (by simpa using hq), List.getElem?_map]

theorem paddedDof_outside (total n : ℕ) (d : List (V3 ℂ)) (h : n + d.length ≤ total) (i : ℕ) (hi : i < total)
    (ho : i < n ∨ n + d.length ≤ i) : (paddedDof total n d)[i]? = some 0 := by
  rcases ho with ho | ho
  · rw [paddedDof, List.append_assoc, List.getElem?_append_left (by simpa using ho),
      List.getElem?_replicate, if_pos ho]
  · rw [paddedDof, List.getElem?_append_right (by simpa using ho), List.getElem?_replicate, if_pos]
    simp only [List.length_append, List.length_replicate, List.length_map]
    omega

theorem totalFaces_take {bs : List Body} {k : ℕ} {b : Body} (h : bs[k]? = some b) :
    totalFaces (bs.take k) + b.mesh.nbFaces ≤ totalFaces bs := by
  have h1 : bs = bs.take k ++ bs.drop k := (List.take_append_drop k bs).symm
  have hk : k < bs.length := by
    by_contra hc
    rw [List.getElem?_eq_none (by omega)] at h
    cases h
  have h2 : bs.drop k = b :: bs.drop (k + 1) := by
    rw [List.drop_eq_getElem_cons hk]
    congr 1
    rw [List.getElem?_eq_getElem hk] at h
    exact Option.some.inj h
  conv_rhs => rw [h1, h2, totalFaces_append, totalFaces_cons]
  omega

/-- The result of `join_bodies` when it succeeds. -/
theorem join_eq {heal down : Mesh (V3 ℝ) → Mesh (V3 ℝ)} {bodies : List Body} {x : Body}
    (h : joinBodies heal down bodies = some x) :
    joinMeshes heal (bodies.map Body.mesh) = some x.mesh ∧
    joinLids down (bodies.filterMap Body.lid) = some x.lid ∧
    combineDofs bodies = some x.dofs ∧
    joinMatrices x.dofs.length (bodies.map Body.inertia) = some x.inertia ∧
    joinMatrices x.dofs.length (bodies.map Body.stiffness) = some x.stiffness ∧
    x.name = joinNames bodies ∧ x.mass = joinMass bodies ∧ x.centerOfMass = joinCenter bodies ∧ x.Consistent := by
  rw [joinBodies] at h
  split at h
  · rename_i mesh lid dofs h1 h2 h3
    split at h
    · rename_i I S h4 h5
      simp only at h
      split at h
      · rename_i hc
        cases h
        exact ⟨h1, h2, h3, h4, h5, rfl, rfl, rfl, hc⟩
      · cases h
    · cases h
  · cases h

theorem combine_eq {bodies : List Body} {dofs : List (Name × List (V3 ℂ))} (h : combineDofs bodies = some dofs) :
    (∀ b ∈ bodies, b.Consistent) ∧ dofs = (entries (totalFaces bodies) bodies 0).foldl setItem [] := by
  rw [combineDofs] at h
  split at h
  · rename_i hc
    cases h
    exact ⟨hc, combineLoop_eq _ _ _ _⟩
  · cases h

/-- C36, first part, for real dofs whose new names are distinct: the joined body has exactly the dofs of all
bodies; each one has its values on the panels of its own body, which are the panels after those of the previous
bodies, and zero on the others. Missing: dofs with complex values and dofs that get the same name. -/
theorem join_dofs_partial (heal down : Mesh (V3 ℝ) → Mesh (V3 ℝ)) (bodies : List Body) (x : Body)
    (h : joinBodies heal down bodies = some x)
    (hd : (bodies.flatMap fun b => b.dofs.map fun d => newDofName b.name d.1).Nodup)
    (hr : ∀ b ∈ bodies, ∀ d ∈ b.dofs, ∀ v ∈ d.2, v.x.im = 0 ∧ v.y.im = 0 ∧ v.z.im = 0) :
    x.dofs.map Prod.fst = (bodies.flatMap fun b => b.dofs.map fun d => newDofName b.name d.1) ∧
    ∀ (k : ℕ) (b : Body), bodies[k]? = some b → ∀ n d, (n, d) ∈ b.dofs →
      ∃ D, (newDofName b.name n, D) ∈ x.dofs ∧ D.length = totalFaces bodies ∧
        (∀ q, q < b.mesh.nbFaces → D[totalFaces (bodies.take k) + q]? = d[q]?) ∧
        ∀ i, i < totalFaces bodies →
          i < totalFaces (bodies.take k) ∨ totalFaces (bodies.take k) + b.mesh.nbFaces ≤ i → D[i]? = some 0 := by
  obtain ⟨-, -, h3, -⟩ := join_eq h
  obtain ⟨hc, h4⟩ := combine_eq h3
  have h5 : x.dofs = entries (totalFaces bodies) bodies 0 := by
    rw [h4, foldl_distinct _ _ (by rw [List.nil_append, entries_keys]; exact hd), List.nil_append]
  refine ⟨by rw [h5, entries_keys], ?_⟩
  intro k b hk n d hnd
  have hb : b ∈ bodies := List.mem_of_getElem? hk
  have hl : d.length = b.mesh.nbFaces := hc b hb (n, d) hnd
  have ht := totalFaces_take hk
  refine ⟨paddedDof (totalFaces bodies) (totalFaces (bodies.take k)) d, ?_, paddedDof_length (by omega), ?_, ?_⟩
  · rw [h5, mem_entries]
    exact ⟨k, b, (n, d), hk, hnd, by rw [Nat.zero_add]⟩
  · intro q hq
    rw [paddedDof_inside _ _ _ _ (by omega), List.getElem?_eq_getElem (by omega), Option.map_some]
    congr 1
    obtain ⟨e1, e2, e3⟩ := hr b hb (n, d) hnd d[q] (List.getElem_mem _)
    refine V3.ext (Complex.ext rfl ?_) (Complex.ext rfl ?_) (Complex.ext rfl ?_)
    · exact e1.symm
    · exact e2.symm
    · exact e3.symm
  · intro i hi ho
    exact paddedDof_outside _ _ _ (by omega) i hi (by omega)


/-! ## The meshes -/

mutual
theorem leaves_onLeaves (f : Mesh (V3 ℝ) → Mesh (V3 ℝ)) :
    ∀ t : Meshes.Tree, (∀ m ∈ t.leaves, f m = m) → t.onLeaves f = t
  | .leaf m, h => by rw [Tree.onLeaves, h m (by simp [Tree.leaves])]
  | .node s ps, h => by rw [Tree.onLeaves, leaves_onLeavesAll f ps h]
theorem leaves_onLeavesAll (f : Mesh (V3 ℝ) → Mesh (V3 ℝ)) :
    ∀ ps : List Meshes.Tree, (∀ m ∈ leavesAll ps, f m = m) → onLeavesAll f ps = ps
  | [], _ => rfl
  | t :: ts, h => by
    rw [onLeavesAll, leaves_onLeaves f t fun m hm => h m (by rw [leavesAll]; exact List.mem_append_left _ hm),
      leaves_onLeavesAll f ts fun m hm => h m (by rw [leavesAll]; exact List.mem_append_right _ hm)]
end

/-- Meshes that can be copied and that are not changed by the constructors: the copy exists, and the meshes it is
made of are fixed by `f`. -/
structure Sound (f : Mesh (V3 ℝ) → Mesh (V3 ℝ)) (t : Meshes.Tree) : Prop where
  sliced : Sliced t
  upright : t.Upright
  steady : ∀ m ∈ t.leaves, f m = m

/-- Bodies whose mesh and lid can be copied and are not changed by the constructor of `FloatingBody`. -/
structure SoundBody (heal down : Mesh (V3 ℝ) → Mesh (V3 ℝ)) (b : Body) : Prop where
  mesh : Sound heal b.mesh
  lid : ∀ l, b.lid = some l → Sound down l ∧ 0 < l.nbFaces

theorem sound_copy {f : Mesh (V3 ℝ) → Mesh (V3 ℝ)} {t : Meshes.Tree} (h : Sound f t) :
    ∃ c, t.copy = some c ∧ c.leaves = t.leaves ∧ Sound f c := by
  obtain ⟨c, h1, h2⟩ := (copy_coherent t.depth t h.sliced le_rfl).1 h.upright
  exact ⟨c, h1, h2.1, h2.2.1, h2.2.2.1, by rw [h2.1]; exact h.steady⟩

theorem sound_copies {f : Mesh (V3 ℝ) → Mesh (V3 ℝ)} {ts : List Meshes.Tree} (h : ∀ t ∈ ts, Sound f t) :
    ∃ cs, ts.mapM Tree.copy = some cs ∧ leavesAll cs = leavesAll ts ∧ ∀ c ∈ cs, Sound f c := by
  induction ts with
  | nil => exact ⟨[], rfl, rfl, by simp⟩
  | cons t ts ih =>
    obtain ⟨c, h1, h2, h3⟩ := sound_copy (h t List.mem_cons_self)
    obtain ⟨cs, i1, i2, i3⟩ := ih fun u hu => h u (List.mem_cons_of_mem _ hu)
    refine ⟨c :: cs, by simp [List.mapM_cons, h1, i1], by rw [leavesAll, leavesAll, h2, i2], ?_⟩
    intro u hu
    rcases List.mem_cons.mp hu with rfl | hu
    · exact h3
    · exact i3 u hu

theorem sound_plain {f : Mesh (V3 ℝ) → Mesh (V3 ℝ)} {ts : List Meshes.Tree} (h : ∀ t ∈ ts, Sound f t) :
    Sound f (.node .plain ts) := by
  refine ⟨.plain ts fun t ht => (h t ht).sliced, (mainAll_iff _ _).mpr fun t ht => (h t ht).upright, ?_⟩
  intro m hm
  rw [Tree.leaves, leavesAll_eq] at hm
  obtain ⟨t, ht, hmt⟩ := List.mem_flatMap.mp hm
  exact (h t ht).steady m hmt

theorem joinMeshes_sound {heal : Mesh (V3 ℝ) → Mesh (V3 ℝ)} {ts : List Meshes.Tree} (h : ∀ t ∈ ts, Sound heal t) :
    ∃ t, joinMeshes heal ts = some t ∧ t.leaves = ts.flatMap Tree.leaves ∧ Sound heal t := by
  obtain ⟨cs, h1, h2, h3⟩ := sound_copies h
  have h4 := sound_plain h3
  refine ⟨.node .plain cs, ?_, by rw [Tree.leaves, h2, leavesAll_eq], h4⟩
  rw [joinMeshes, h1, Option.map_some, leaves_onLeaves heal _ h4.steady, ite_self]

theorem nbFaces_flatMap (ts : List Meshes.Tree) (t : Meshes.Tree) (h : t.leaves = ts.flatMap Tree.leaves) :
    t.nbFaces = (ts.map Tree.nbFaces).sum := by
  rw [nbFaces_eq, h, ← leavesAll_eq, ← nbFacesAll_leaves, nbFacesAll_eq]

theorem joinLids_sound {down : Mesh (V3 ℝ) → Mesh (V3 ℝ)} {ts : List Meshes.Tree}
    (h : ∀ t ∈ ts, Sound down t ∧ 0 < t.nbFaces) :
    ∃ r, joinLids down ts = some r ∧ (r.map Tree.leaves = if ts = [] then none else some (ts.flatMap Tree.leaves)) ∧
      ∀ l, r = some l → Sound down l ∧ 0 < l.nbFaces := by
  by_cases hts : ts = []
  · subst hts
    exact ⟨none, by simp [joinLids], by simp, by simp⟩
  · obtain ⟨cs, h1, h2, h3⟩ := sound_copies fun t ht => (h t ht).1
    obtain ⟨c, i1, i2, i3⟩ := sound_copy (sound_plain h3)
    have hl : c.leaves = ts.flatMap Tree.leaves := by rw [i2, Tree.leaves, h2, leavesAll_eq]
    have hpos : 0 < c.nbFaces := by
      rw [nbFaces_flatMap ts c hl]
      cases ts with
      | nil => exact absurd rfl hts
      | cons t ts =>
        have := (h t List.mem_cons_self).2
        rw [List.map_cons, List.sum_cons]
        omega
    have hcs : nbFacesAll cs ≠ 0 := by
      have : c.nbFaces = nbFacesAll cs := by
        rw [nbFaces_eq, i2, Tree.leaves, ← nbFacesAll_leaves]
      omega
    refine ⟨some c, ?_, by rw [if_neg hts, Option.map_some, hl], ?_⟩
    · rw [joinLids, if_neg hts, h1]
      simp only
      rw [if_neg hcs, i1, Option.map_some, leaves_onLeaves down c i3.steady]
    · rintro l hl'
      cases hl'
      exact ⟨i3, hpos⟩

/-- C36: the panels of the joined body are those of the bodies one after the other, when their meshes can be
copied (see C35) and are not changed by healing: the panel number `q` of a body is the panel number `q` after
all those of the previous bodies. The same is true of the panels of the lids. -/
theorem join_panels (heal down : Mesh (V3 ℝ) → Mesh (V3 ℝ)) (bodies : List Body) (x : Body)
    (hs : ∀ b ∈ bodies, SoundBody heal down b) (h : joinBodies heal down bodies = some x) :
    x.mesh.leaves = bodies.flatMap (fun b => b.mesh.leaves) ∧
    x.mesh.nbFaces = totalFaces bodies ∧
    (∀ (k : ℕ) (b : Body), bodies[k]? = some b → ∀ q, q < b.mesh.nbFaces →
      (x.mesh.leaves.flatMap Mesh.shapes)[totalFaces (bodies.take k) + q]? = (b.mesh.leaves.flatMap Mesh.shapes)[q]?) ∧
    (x.lid = none ↔ ∀ b ∈ bodies, b.lid = none) ∧
    x.lid.toList.flatMap Tree.leaves = bodies.flatMap fun b => b.lid.toList.flatMap Tree.leaves := by
  obtain ⟨t, h1, h2, -⟩ := joinMeshes_sound (heal := heal) (ts := bodies.map Body.mesh) (by
    intro t ht
    obtain ⟨b, hb, rfl⟩ := List.mem_map.mp ht
    exact (hs b hb).mesh)
  rw [(join_eq h).1, Option.some.injEq] at h1
  subst h1
  have hl : x.mesh.leaves = bodies.flatMap (fun b => b.mesh.leaves) := by rw [h2, List.flatMap_map]
  obtain ⟨l, j1, j2, -⟩ := joinLids_sound (down := down) (ts := bodies.filterMap Body.lid) (by
    intro l hl
    obtain ⟨b, hb, hbl⟩ := List.mem_filterMap.mp hl
    exact (hs b hb).lid l hbl)
  rw [(join_eq h).2.1, Option.some.injEq] at j1
  subst j1
  have hfm : bodies.filterMap Body.lid = bodies.flatMap fun b => b.lid.toList := by
    induction bodies with
    | nil => rfl
    | cons b bs ih =>
      rw [List.flatMap_cons, ← List.filterMap_eq_flatMap_toList]
      cases hb : b.lid <;> simp [hb]
  refine ⟨hl, ?_, ?_, ?_, ?_⟩
  · rw [nbFaces_flatMap _ _ h2, totalFaces, List.map_map]
    rfl
  rotate_left
  · have hnil : bodies.filterMap Body.lid = [] ↔ ∀ b ∈ bodies, b.lid = none := List.filterMap_eq_nil_iff
    rw [← hnil]
    split at j2
    · rename_i h0
      simpa [h0] using j2
    · rename_i h0
      cases hx : x.lid with
      | none => rw [hx] at j2; cases j2
      | some l => simp [h0]
  · rw [← List.flatMap_assoc, ← hfm]
    split at j2
    · rename_i h0
      rw [Option.map_eq_none_iff] at j2
      rw [j2, h0]
      rfl
    · obtain ⟨l, hl1, hl2⟩ := Option.map_eq_some_iff.mp j2
      rw [hl1, Option.toList_some, List.flatMap_singleton, hl2]
  · intro k b hk q hq
    rw [hl, List.flatMap_assoc]
    have hk' : k < bodies.length := by
      by_contra hc
      rw [List.getElem?_eq_none (by omega)] at hk
      cases hk
    have h3 : bodies = bodies.take k ++ b :: bodies.drop (k + 1) := by
      conv_lhs => rw [← List.take_append_drop k bodies, List.drop_eq_getElem_cons hk']
      rw [List.getElem?_eq_getElem hk'] at hk
      rw [Option.some.inj hk]
    have h4 : ((bodies.take k).flatMap fun b => b.mesh.leaves.flatMap Mesh.shapes).length =
        totalFaces (bodies.take k) := by
      rw [List.length_flatMap, totalFaces]
      congr 1
      apply List.map_congr_left
      intro b _
      exact shapes_length b.mesh
    have h5 : (bodies.flatMap fun b => b.mesh.leaves.flatMap Mesh.shapes) =
        ((bodies.take k).flatMap fun b => b.mesh.leaves.flatMap Mesh.shapes) ++ (b.mesh.leaves.flatMap Mesh.shapes ++
          (bodies.drop (k + 1)).flatMap fun b => b.mesh.leaves.flatMap Mesh.shapes) := by
      conv_lhs => rw [h3]
      rw [List.flatMap_append, List.flatMap_cons]
    rw [h5, List.getElem?_append_right (by rw [h4]; omega), h4, Nat.add_sub_cancel_left,
      List.getElem?_append_left (by rw [shapes_length]; exact hq)]

/-! ## Joining a joined body -/

theorem allSome_append {A : Type} (a b : List (Option A)) :
    allSome (a ++ b) = (allSome a).bind fun x => (allSome b).map fun y => x ++ y := by
  simp only [allSome, List.mapM_append]
  cases a.mapM id with
  | none => rfl
  | some x =>
    cases b.mapM id <;> rfl

theorem allSome_one {A : Type} (o : Option A) : allSome [o] = o.map fun x => [x] := by
  cases o <;> rfl

theorem allSome_length {A : Type} {l : List (Option A)} {xs : List A} (h : allSome l = some xs) :
    xs.length = l.length := by
  induction l generalizing xs with
  | nil =>
    cases h
    rfl
  | cons o l ih =>
    rw [show o :: l = [o] ++ l from rfl, allSome_append, allSome_one] at h
    cases o with
    | none => cases h
    | some x =>
      cases hl : allSome l with
      | none => rw [hl] at h; cases h
      | some ys =>
        rw [hl] at h
        cases h
        simp [ih hl]

/-- What a user can read on a body: its name, the meshes of its hull and of its lid in order, its dofs, its mass,
its center of mass and its matrices. -/
def Body.view (b : Body) : Name × List (Mesh (V3 ℝ)) × Option (List (Mesh (V3 ℝ))) × List (Name × List (V3 ℂ)) ×
    Option ℝ × Option (V3 ℝ) × Option Matrix2 × Option Matrix2 :=
  (b.name, b.mesh.leaves, b.lid.map Tree.leaves, b.dofs, b.mass, b.centerOfMass, b.inertia, b.stiffness)

theorem entries_length {total : ℕ} {bs : List Body} {n : ℕ} (hc : ∀ b ∈ bs, b.Consistent)
    (ht : n + totalFaces bs ≤ total) : ∀ p ∈ entries total bs n, p.2.length = total := by
  intro p hp
  obtain ⟨k, b, d, h1, h2, rfl⟩ := (mem_entries _ _ _ _).mp hp
  have h3 := totalFaces_take h1
  have h4 := hc b (List.mem_of_getElem? h1) d h2
  exact paddedDof_length (by omega)

theorem join_view {heal down : Mesh (V3 ℝ) → Mesh (V3 ℝ)} {bodies : List Body}
    (hs : ∀ b ∈ bodies, SoundBody heal down b) :
    (joinBodies heal down bodies).map Body.view = (combineDofs bodies).bind fun dofs =>
      (joinMatrices dofs.length (bodies.map Body.inertia)).bind fun I =>
        (joinMatrices dofs.length (bodies.map Body.stiffness)).map fun S =>
          (joinNames bodies, bodies.flatMap (fun b => b.mesh.leaves),
            (if bodies.filterMap Body.lid = [] then none
              else some ((bodies.filterMap Body.lid).flatMap Tree.leaves)), dofs, joinMass bodies,
            joinCenter bodies, I, S) := by
  obtain ⟨t, h1, h2, -⟩ := joinMeshes_sound (heal := heal) (ts := bodies.map Body.mesh) (by
    intro t ht
    obtain ⟨b, hb, rfl⟩ := List.mem_map.mp ht
    exact (hs b hb).mesh)
  obtain ⟨l, i1, i2, -⟩ := joinLids_sound (down := down) (ts := bodies.filterMap Body.lid) (by
    intro l hl
    obtain ⟨b, hb, hbl⟩ := List.mem_filterMap.mp hl
    exact (hs b hb).lid l hbl)
  rw [joinBodies, h1, i1]
  cases hd : combineDofs bodies with
  | none => rfl
  | some dofs =>
    simp only [Option.bind_some]
    cases joinMatrices dofs.length (bodies.map Body.inertia) with
    | none => rfl
    | some I =>
      cases joinMatrices dofs.length (bodies.map Body.stiffness) with
      | none => rfl
      | some S =>
        simp only [Option.bind_some, Option.map_some]
        rw [if_pos, Option.map_some]
        · simp only [Body.view, i2, h2, List.flatMap_map]
        · obtain ⟨hc, hdofs⟩ := combine_eq hd
          intro d hdm
          have hdm : d ∈ dofs := hdm
          rw [hdofs] at hdm
          rcases foldl_mem _ _ _ hdm with hm | hm
          · cases hm
          · rw [entries_length hc (by omega) d hm, nbFaces_flatMap _ _ h2, totalFaces, List.map_map]
            rfl

theorem sound_join {heal down : Mesh (V3 ℝ) → Mesh (V3 ℝ)} {bodies : List Body} {x : Body}
    (hs : ∀ b ∈ bodies, SoundBody heal down b) (h : joinBodies heal down bodies = some x) :
    SoundBody heal down x := by
  obtain ⟨h1, h2, -⟩ := join_eq h
  obtain ⟨t, i1, -, i3⟩ := joinMeshes_sound (heal := heal) (ts := bodies.map Body.mesh) (by
    intro t ht
    obtain ⟨b, hb, rfl⟩ := List.mem_map.mp ht
    exact (hs b hb).mesh)
  obtain ⟨l, j1, -, j3⟩ := joinLids_sound (down := down) (ts := bodies.filterMap Body.lid) (by
    intro l hl
    obtain ⟨b, hb, hbl⟩ := List.mem_filterMap.mp hl
    exact (hs b hb).lid l hbl)
  rw [h1, Option.some.injEq] at i1
  rw [h2, Option.some.injEq] at j1
  exact ⟨by rw [i1]; exact i3, by rw [j1]; exact j3⟩

theorem joinNames_append {a b : List Body} (ha : a ≠ []) (hb : b ≠ []) :
    joinNames (a ++ b) = joinNames a ++ '+' :: joinNames b := by
  induction a with
  | nil => exact absurd rfl ha
  | cons x a ih =>
    cases a with
    | nil =>
      cases b with
      | nil => exact absurd rfl hb
      | cons y b => rfl
    | cons y a =>
      have h1 : joinNames (x :: y :: (a ++ b)) = x.name ++ '+' :: joinNames (y :: (a ++ b)) := rfl
      have h2 : joinNames (x :: y :: a) = x.name ++ '+' :: joinNames (y :: a) := rfl
      rw [List.cons_append, List.cons_append, h1, h2, ← List.cons_append, ih (by simp)]
      simp

theorem joinNames_nested (as bs cs : List Body) (hbs : bs ≠ []) (x : Body) (hx : x.name = joinNames bs) :
    joinNames (as ++ x :: cs) = joinNames (as ++ bs ++ cs) := by
  have h1 : joinNames (x :: cs) = joinNames (bs ++ cs) := by
    cases cs with
    | nil => rw [List.append_nil, ← hx]; rfl
    | cons c cs =>
      rw [joinNames_append hbs (by simp), ← hx]
      rfl
  cases as with
  | nil => simpa using h1
  | cons a as =>
    rw [List.append_assoc, joinNames_append (a := a :: as) (by simp) (by simp), h1,
      joinNames_append (a := a :: as) (by simp) (by simp [hbs])]

theorem discardImag_idem (v : V3 ℂ) : discardImag (discardImag v) = discardImag v := by
  simp [discardImag]

theorem discardImag_zero : discardImag 0 = 0 := by
  ext <;> simp [discardImag]

theorem padded_padded (total off tb k : ℕ) (d : List (V3 ℂ)) (h1 : k + d.length ≤ tb) (h2 : off + tb ≤ total) :
    paddedDof total off (paddedDof tb k d) = paddedDof total (off + k) d := by
  rw [paddedDof, paddedDof_length h1]
  simp only [paddedDof, List.map_append, List.map_replicate, discardImag_zero, List.map_map]
  rw [show discardImag ∘ discardImag = discardImag from funext discardImag_idem, List.replicate_add,
    List.append_assoc, List.append_assoc, List.append_assoc, List.append_assoc, List.append_assoc,
    ← List.replicate_add]
  congr 5
  omega

theorem separator_new (b n : Name) : hasSeparator (newDofName b n) = true := by
  rw [newDofName]
  split
  · assumption
  · exact decide_eq_true ⟨b, n, rfl⟩

theorem newDofName_new (x b n : Name) : newDofName x (newDofName b n) = newDofName b n := by
  rw [newDofName, if_pos (separator_new b n)]

theorem entries_pad (total tb off : ℕ) (bs : List Body) (hc : ∀ b ∈ bs, b.Consistent) (n : ℕ)
    (h1 : n + totalFaces bs ≤ tb) (h2 : off + tb ≤ total) (x : Name) :
    (entries tb bs n).map (fun p => (newDofName x p.1, paddedDof total off p.2)) = entries total bs (off + n) := by
  induction bs generalizing n with
  | nil => rfl
  | cons b bs ih =>
    rw [totalFaces_cons] at h1
    rw [entries, entries, List.map_append, ih (fun c hcm => hc c (List.mem_cons_of_mem _ hcm)) _ (by omega),
      List.map_map, Nat.add_assoc]
    congr 1
    apply List.map_congr_left
    intro d hd
    have := hc b List.mem_cons_self d hd
    simp only [Function.comp, newDofName_new]
    rw [padded_padded _ _ _ _ _ (by omega) h2]

theorem combine_nested (as bs cs : List Body) (x : Body) (hx : combineDofs bs = some x.dofs)
    (hxc : x.Consistent) (hf : x.mesh.nbFaces = totalFaces bs) :
    combineDofs (as ++ x :: cs) = combineDofs (as ++ bs ++ cs) := by
  obtain ⟨hbc, hxd⟩ := combine_eq hx
  have hiff : (∀ b ∈ as ++ x :: cs, b.Consistent) ↔ ∀ b ∈ as ++ bs ++ cs, b.Consistent := by
    constructor
    · intro h b hb
      rw [List.append_assoc, List.mem_append, List.mem_append] at hb
      rcases hb with hb | hb | hb
      · exact h b (List.mem_append_left _ hb)
      · exact hbc b hb
      · exact h b (List.mem_append_right _ (List.mem_cons_of_mem _ hb))
    · intro h b hb
      rw [List.mem_append, List.mem_cons] at hb
      rcases hb with hb | rfl | hb
      · exact h b (by simp [hb])
      · exact hxc
      · exact h b (by simp [hb])
  have ht : totalFaces (as ++ x :: cs) = totalFaces (as ++ bs ++ cs) := by
    rw [totalFaces_append, totalFaces_cons, totalFaces_append, totalFaces_append, hf]
    omega
  rw [combineDofs, combineDofs]
  by_cases hc : ∀ b ∈ as ++ bs ++ cs, b.Consistent
  · rw [if_pos hc, if_pos (hiff.mpr hc), combineLoop_eq, combineLoop_eq, ht]
    congr 1
    rw [entries_append, entries, entries_append, entries_append, List.foldl_append, List.foldl_append,
      List.foldl_append, List.foldl_append, hf, totalFaces_append as bs]
    have hkeys : ∀ p ∈ x.dofs, newDofName x.name p.1 = p.1 := by
      intro p hp
      rw [hxd] at hp
      rcases foldl_mem _ _ _ hp with hp | hp
      · cases hp
      · obtain ⟨k, b, d, -, -, rfl⟩ := (mem_entries _ _ _ _).mp hp
        exact newDofName_new _ _ _
    have hle : totalFaces as + totalFaces bs ≤ totalFaces (as ++ bs ++ cs) := by
      rw [totalFaces_append, totalFaces_append]
      omega
    have hmap : x.dofs.map (fun d => (newDofName x.name d.1,
          paddedDof (totalFaces (as ++ bs ++ cs)) (0 + totalFaces as) d.2)) =
        (entries (totalFaces (as ++ bs ++ cs)) bs (0 + totalFaces as)).foldl setItem [] := by
      have h1 : x.dofs.map (fun d => (newDofName x.name d.1,
            paddedDof (totalFaces (as ++ bs ++ cs)) (0 + totalFaces as) d.2)) =
          x.dofs.map (fun d => (d.1, paddedDof (totalFaces (as ++ bs ++ cs)) (0 + totalFaces as) d.2)) :=
        List.map_congr_left fun p hp => by rw [hkeys p hp]
      rw [h1, hxd, foldl_map_dict, List.map_nil, Nat.zero_add]
      congr 1
      have h2 := entries_pad (totalFaces (as ++ bs ++ cs)) (totalFaces bs) (totalFaces as) bs hbc 0 (by omega)
        hle x.name
      rw [Nat.add_zero] at h2
      rw [← h2]
      apply List.map_congr_left
      intro p hp
      obtain ⟨k, b, d, -, -, rfl⟩ := (mem_entries _ _ _ _).mp hp
      simp only [newDofName_new]
    rw [hmap, foldl_dict _ _ _ (by simp)]
    simp only [List.foldl_nil]
    rw [Nat.add_assoc]
  · rw [if_neg hc, if_neg fun h => hc (hiff.mp h)]

theorem blockRows_append (total : ℕ) (a b : List Matrix2) (c : ℕ) :
    blockRows total (a ++ b) c = blockRows total a c ++ blockRows total b (c + (a.map Matrix2.cols).sum) := by
  induction a generalizing c with
  | nil => simp [blockRows]
  | cons m a ih =>
    rw [List.cons_append, blockRows, ih, blockRows, List.map_cons, List.sum_cons, List.append_assoc, Nat.add_assoc]

theorem blockRows_pad (total tb off : ℕ) (ms : List Matrix2) (n : ℕ) (h1 : n + (ms.map Matrix2.cols).sum ≤ tb)
    (h2 : off + tb ≤ total) :
    (blockRows tb ms n).map (fun r => List.replicate off 0 ++ r ++ List.replicate (total - off - tb) 0) =
      blockRows total ms (off + n) := by
  induction ms generalizing n with
  | nil => rfl
  | cons m ms ih =>
    rw [List.map_cons, List.sum_cons] at h1
    rw [blockRows, blockRows, List.map_append, ih _ (by omega), List.map_map, Nat.add_assoc]
    congr 1
    apply List.map_congr_left
    intro r _
    simp only [Function.comp]
    rw [List.replicate_add, List.append_assoc, List.append_assoc, List.append_assoc, List.append_assoc,
      List.append_assoc, ← List.replicate_add]
    congr 5
    omega

theorem blockDiag_nested (as bs cs : List Matrix2) :
    blockDiag (as ++ blockDiag bs :: cs) = blockDiag (as ++ bs ++ cs) := by
  have ht : ((as ++ blockDiag bs :: cs).map Matrix2.cols).sum = ((as ++ bs ++ cs).map Matrix2.cols).sum := by
    simp only [List.map_append, List.map_cons, List.sum_append, List.sum_cons, blockDiag]
    omega
  have hle : (as.map Matrix2.cols).sum + (bs.map Matrix2.cols).sum ≤ ((as ++ bs ++ cs).map Matrix2.cols).sum := by
    simp only [List.map_append, List.sum_append]
    omega
  suffices h : blockRows ((as ++ bs ++ cs).map Matrix2.cols).sum (as ++ blockDiag bs :: cs) 0 =
      blockRows ((as ++ bs ++ cs).map Matrix2.cols).sum (as ++ bs ++ cs) 0 by
    rw [show blockDiag (as ++ blockDiag bs :: cs) = ⟨((as ++ blockDiag bs :: cs).map Matrix2.cols).sum,
      blockRows ((as ++ blockDiag bs :: cs).map Matrix2.cols).sum (as ++ blockDiag bs :: cs) 0⟩ from rfl, ht, h]
    rfl
  generalize ((as ++ bs ++ cs).map Matrix2.cols).sum = total at *
  rw [blockRows_append, blockRows, blockRows_append, blockRows_append]
  simp only [blockDiag]
  have h := blockRows_pad total _ (as.map Matrix2.cols).sum bs 0 (by rw [Nat.zero_add]) hle
  rw [Nat.add_zero] at h
  rw [Nat.zero_add, h]
  simp only [List.map_append, List.sum_append]
  rw [List.append_assoc, Nat.zero_add]

theorem joinMatrices_nested (n : ℕ) (as bs cs : List (Option Matrix2)) (nb : ℕ) (x : Option Matrix2)
    (hx : joinMatrices nb bs = some x) : joinMatrices n (as ++ x :: cs) = joinMatrices n (as ++ bs ++ cs) := by
  rw [joinMatrices] at hx
  have key : allSome (as ++ x :: cs) = none ∧ allSome (as ++ bs ++ cs) = none ∨
      ∃ a b c, allSome (as ++ x :: cs) = some (a ++ blockDiag b :: c) ∧
        allSome (as ++ bs ++ cs) = some (a ++ b ++ c) := by
    rw [List.append_assoc, allSome_append, allSome_append, show x :: cs = [x] ++ cs from rfl, allSome_append,
      allSome_append, allSome_one]
    cases allSome as with
    | none => exact Or.inl ⟨rfl, rfl⟩
    | some a =>
      cases hb : allSome bs with
      | none =>
        rw [hb] at hx
        cases hx
        exact Or.inl ⟨rfl, rfl⟩
      | some b =>
        rw [hb] at hx
        simp only at hx
        split at hx
        · cases hx
          cases allSome cs with
          | none => exact Or.inl ⟨rfl, rfl⟩
          | some c => exact Or.inr ⟨a, b, c, rfl, by simp⟩
        · cases hx
  rcases key with ⟨h1, h2⟩ | ⟨a, b, c, h1, h2⟩
  · rw [joinMatrices, joinMatrices, h1, h2]
  · rw [joinMatrices, joinMatrices, h1, h2]
    simp only [blockDiag_nested]

theorem joinMass_nested (as bs cs : List Body) (x : Body) (hx : x.mass = joinMass bs) :
    joinMass (as ++ x :: cs) = joinMass (as ++ bs ++ cs) := by
  simp only [joinMass, List.map_append, List.map_cons, hx]
  rw [List.append_assoc, allSome_append, allSome_append,
    show ∀ o : Option ℝ, o :: cs.map Body.mass = [o] ++ cs.map Body.mass from fun _ => rfl, allSome_append,
    allSome_append, allSome_one]
  cases allSome (as.map Body.mass) with
  | none => rfl
  | some a =>
    cases allSome (bs.map Body.mass) with
    | none => rfl
    | some b =>
      cases allSome (cs.map Body.mass) with
      | none => rfl
      | some c =>
        simp only [Option.map_some, Option.bind_some, List.sum_append, List.sum_cons, List.sum_nil, add_zero]

theorem smul_inv (m : ℝ) (hm : m ≠ 0) (v : V3 ℝ) : m • (1 / m) • v = v := by
  ext <;> simp only [smul_x, smul_y, smul_z] <;> field_simp

theorem joinCenter_nested (as bs cs : List Body) (x : Body) (hx : x.mass = joinMass bs)
    (hxc : x.centerOfMass = joinCenter bs) (hm : ∀ m, joinMass bs = some m → m ≠ 0) :
    joinCenter (as ++ x :: cs) = joinCenter (as ++ bs ++ cs) := by
  simp only [joinCenter, List.map_append, List.map_cons, hx, hxc]
  rw [List.append_assoc, List.append_assoc, allSome_append, allSome_append, allSome_append, allSome_append,
    show ∀ o : Option ℝ, o :: cs.map Body.mass = [o] ++ cs.map Body.mass from fun _ => rfl,
    show ∀ o : Option (V3 ℝ), o :: cs.map Body.centerOfMass = [o] ++ cs.map Body.centerOfMass from fun _ => rfl,
    allSome_append, allSome_append, allSome_append, allSome_append, allSome_one, allSome_one, joinMass]
  rw [joinMass] at hm
  cases ha : allSome (as.map Body.mass) with
  | none => rfl
  | some am =>
    cases hb : allSome (bs.map Body.mass) with
    | none => rfl
    | some bm =>
      cases hc : allSome (cs.map Body.mass) with
      | none => rfl
      | some cm =>
        cases ha' : allSome (as.map Body.centerOfMass) with
        | none => rfl
        | some ac =>
          cases hb' : allSome (bs.map Body.centerOfMass) with
          | none => rfl
          | some bc =>
            cases hc' : allSome (cs.map Body.centerOfMass) with
            | none => rfl
            | some cc =>
              rw [hb] at hm
              have hm0 : bm.sum ≠ 0 := hm _ rfl
              have l1 : am.length = ac.length := by
                rw [allSome_length ha, allSome_length ha', List.length_map, List.length_map]
              have l2 : bm.length = bc.length := by
                rw [allSome_length hb, allSome_length hb', List.length_map, List.length_map]
              simp only [Option.map_some, Option.bind_some, List.singleton_append]
              rw [List.zipWith_append l1, List.zipWith_append l1, List.zipWith_append l2, List.zipWith_cons_cons]
              simp only [List.sum_append, List.sum_cons]
              rw [smul_inv _ hm0]

/-- C36, second part: joining a joined body with others is joining its parts with them. The meshes and the lids
can be copied (see C35) and are not changed by the constructor, the mass of the joined body is not zero. -/
theorem join_nested (heal down : Mesh (V3 ℝ) → Mesh (V3 ℝ)) (as bs cs : List Body) (x : Body) (hbs : bs ≠ [])
    (hs : ∀ b ∈ as ++ bs ++ cs, SoundBody heal down b) (hx : joinBodies heal down bs = some x)
    (hm : ∀ m, joinMass bs = some m → m ≠ 0) :
    (joinBodies heal down (as ++ x :: cs)).map Body.view = (joinBodies heal down (as ++ bs ++ cs)).map Body.view := by
  have hsb : ∀ b ∈ bs, SoundBody heal down b := fun b hb => hs b (by simp [hb])
  have hsx := sound_join hsb hx
  have hs' : ∀ b ∈ as ++ x :: cs, SoundBody heal down b := by
    intro b hb
    rw [List.mem_append, List.mem_cons] at hb
    rcases hb with hb | rfl | hb
    · exact hs b (by simp [hb])
    · exact hsx
    · exact hs b (by simp [hb])
  obtain ⟨-, hlid, hdofs, hI, hS, hname, hmass, hcenter, hcons⟩ := join_eq hx
  obtain ⟨hl, hf, -⟩ := join_panels heal down bs x hsb hx
  obtain ⟨r, hr1, hr2, -⟩ := joinLids_sound (down := down) (ts := bs.filterMap Body.lid) (by
    intro l hl
    obtain ⟨b, hb, hbl⟩ := List.mem_filterMap.mp hl
    exact (hsb b hb).lid l hbl)
  rw [hlid, Option.some.injEq] at hr1
  subst hr1
  rw [join_view hs', join_view hs, combine_nested as bs cs x hdofs hcons hf, joinNames_nested as bs cs hbs x hname,
    joinMass_nested as bs cs x hmass, joinCenter_nested as bs cs x hmass hcenter hm]
  simp only [List.map_append, List.map_cons]
  have hI' := fun n => joinMatrices_nested n (as.map Body.inertia) _ (cs.map Body.inertia) _ _ hI
  have hS' := fun n => joinMatrices_nested n (as.map Body.stiffness) _ (cs.map Body.stiffness) _ _ hS
  simp only [hI', hS']
  have h1 : (as ++ x :: cs).flatMap (fun b => b.mesh.leaves) = (as ++ bs ++ cs).flatMap fun b => b.mesh.leaves := by
    rw [List.flatMap_append, List.flatMap_cons, List.flatMap_append, List.flatMap_append, hl, List.append_assoc]
  have h2 : (if (as ++ x :: cs).filterMap Body.lid = [] then none
        else some (((as ++ x :: cs).filterMap Body.lid).flatMap Tree.leaves)) =
      if (as ++ bs ++ cs).filterMap Body.lid = [] then none
        else some (((as ++ bs ++ cs).filterMap Body.lid).flatMap Tree.leaves) := by
    rw [List.filterMap_append, List.filterMap_append, List.filterMap_append]
    cases hxl : x.lid with
    | none =>
      rw [hxl] at hr2
      have hnil : bs.filterMap Body.lid = [] := by
        by_contra hne
        rw [if_neg hne] at hr2
        cases hr2
      rw [List.filterMap_cons_none hxl, hnil, List.append_nil]
    | some l =>
      rw [hxl, Option.map_some] at hr2
      have hne : bs.filterMap Body.lid ≠ [] := by
        intro hnil
        rw [if_pos hnil] at hr2
        cases hr2
      rw [if_neg hne, Option.some.injEq] at hr2
      rw [List.filterMap_cons_some hxl, if_neg (by simp), if_neg (by simp [hne])]
      rw [List.flatMap_append, List.flatMap_cons, List.flatMap_append, List.flatMap_append, hr2, List.append_assoc]
  rw [h1, h2]

/-- C36: joining is associative. -/
theorem join_assoc (heal down : Mesh (V3 ℝ) → Mesh (V3 ℝ)) (a b c ab bc : Body)
    (hs : ∀ x ∈ [a, b, c], SoundBody heal down x) (hab : joinBodies heal down [a, b] = some ab)
    (hbc : joinBodies heal down [b, c] = some bc) (hm1 : ∀ m, joinMass [a, b] = some m → m ≠ 0)
    (hm2 : ∀ m, joinMass [b, c] = some m → m ≠ 0) :
    (joinBodies heal down [ab, c]).map Body.view = (joinBodies heal down [a, bc]).map Body.view := by
  rw [show [ab, c] = [] ++ ab :: [c] from rfl, show [a, bc] = [a] ++ bc :: [] from rfl,
    join_nested heal down [] [a, b] [c] ab (by simp) hs hab hm1,
    join_nested heal down [a] [b, c] [] bc (by simp) hs hbc hm2]
  rfl


/-! ## When joining succeeds -/

theorem blockRows_length (total : ℕ) (ms : List Matrix2) (c : ℕ) :
    (blockRows total ms c).length = (ms.map fun m => m.rows.length).sum := by
  induction ms generalizing c with
  | nil => rfl
  | cons m ms ih => rw [blockRows, List.length_append, ih, List.length_map, List.map_cons, List.sum_cons]

theorem joinMatrices_fit {l : List (Option Matrix2 × ℕ)}
    (h : ∀ p ∈ l, ∀ m, p.1 = some m → m.cols = p.2 ∧ m.rows.length = p.2) :
    ∃ r, joinMatrices (l.map Prod.snd).sum (l.map Prod.fst) = some r := by
  rw [joinMatrices]
  cases ha : allSome (l.map Prod.fst) with
  | none => exact ⟨none, rfl⟩
  | some ms =>
    have key : (ms.map Matrix2.cols).sum = (l.map Prod.snd).sum ∧
        (ms.map fun m => m.rows.length).sum = (l.map Prod.snd).sum := by
      induction l generalizing ms with
      | nil =>
        cases ha
        exact ⟨rfl, rfl⟩
      | cons p l ih =>
        rw [List.map_cons, show p.1 :: l.map Prod.fst = [p.1] ++ l.map Prod.fst from rfl, allSome_append,
          allSome_one] at ha
        cases hp : p.1 with
        | none => rw [hp] at ha; cases ha
        | some m =>
          cases hl : allSome (l.map Prod.fst) with
          | none => rw [hp, hl] at ha; cases ha
          | some ns =>
            rw [hp, hl] at ha
            cases ha
            obtain ⟨e1, e2⟩ := ih (fun q hq => h q (List.mem_cons_of_mem _ hq)) ns hl
            obtain ⟨e3, e4⟩ := h p List.mem_cons_self m hp
            simp only [List.map_cons, List.sum_cons, List.singleton_append, e1, e2, e3, e4, and_self]
    simp only
    rw [if_pos]
    · exact ⟨_, rfl⟩
    · exact ⟨by simp only [blockDiag, blockRows_length, key.2], by simp only [blockDiag, key.1]⟩

theorem entries_count (total : ℕ) (bs : List Body) (n : ℕ) :
    (entries total bs n).length = (bs.map fun b => b.dofs.length).sum := by
  induction bs generalizing n with
  | nil => rfl
  | cons b bs ih => rw [entries, List.length_append, ih, List.length_map, List.map_cons, List.sum_cons]

/-- Joining succeeds when the meshes can be copied and are not changed by healing, the dofs have one vector per
panel and distinct new names, and the matrices have one row and one column per dof. -/
theorem join_succeeds (heal down : Mesh (V3 ℝ) → Mesh (V3 ℝ)) (bodies : List Body)
    (hs : ∀ b ∈ bodies, SoundBody heal down b) (hc : ∀ b ∈ bodies, b.Consistent)
    (hd : (bodies.flatMap fun b => b.dofs.map fun d => newDofName b.name d.1).Nodup)
    (hI : ∀ b ∈ bodies, ∀ m, b.inertia = some m → m.cols = b.dofs.length ∧ m.rows.length = b.dofs.length)
    (hS : ∀ b ∈ bodies, ∀ m, b.stiffness = some m → m.cols = b.dofs.length ∧ m.rows.length = b.dofs.length) :
    ∃ x, joinBodies heal down bodies = some x := by
  have hcomb : combineDofs bodies = some (entries (totalFaces bodies) bodies 0) := by
    rw [combineDofs, if_pos hc, combineLoop_eq, foldl_distinct _ _ (by rw [List.nil_append, entries_keys]; exact hd),
      List.nil_append]
  have hmat : ∀ f : Body → Option Matrix2,
      (∀ b ∈ bodies, ∀ m, f b = some m → m.cols = b.dofs.length ∧ m.rows.length = b.dofs.length) →
      ∃ r, joinMatrices (entries (totalFaces bodies) bodies 0).length (bodies.map f) = some r := by
    intro f hf
    obtain ⟨r, hr⟩ := joinMatrices_fit (l := bodies.map fun b => (f b, b.dofs.length)) (by
      intro p hp m hm
      obtain ⟨b, hb, rfl⟩ := List.mem_map.mp hp
      exact hf b hb m hm)
    refine ⟨r, ?_⟩
    rw [List.map_map, List.map_map] at hr
    rw [entries_count]
    exact hr
  obtain ⟨rI, hrI⟩ := hmat Body.inertia hI
  obtain ⟨rS, hrS⟩ := hmat Body.stiffness hS
  have hv := join_view (heal := heal) (down := down) hs
  rw [hcomb, Option.bind_some, hrI, Option.bind_some, hrS, Option.map_some] at hv
  cases hj : joinBodies heal down bodies with
  | none => rw [hj] at hv; cases hv
  | some x => exact ⟨x, rfl⟩

/-! ## Violations and examples -/

/-- A body with one triangle and one dof. -/
noncomputable def sampleBody (name dof : Name) (v : V3 ℂ) : Body :=
  ⟨name, .leaf sampleHalf, none, [(dof, [v])], some 2, some ⟨1, 0, 0⟩, some ⟨1, [[3]]⟩, none⟩

theorem sampleBody_sound (heal down : Mesh (V3 ℝ) → Mesh (V3 ℝ)) (h : heal sampleHalf = sampleHalf) (n d : Name)
    (v : V3 ℂ) : SoundBody heal down (sampleBody n d v) := by
  refine ⟨⟨.leaf _, trivial, ?_⟩, ?_⟩
  · intro m hm
    simp only [sampleBody, Tree.leaves, List.mem_singleton] at hm
    rw [hm, h]
  · intro l hl
    simp [sampleBody] at hl

/-- Concrete case of `join_succeeds`, `join_dofs_partial` and `join_panels`. -/
example : ∃ x, joinBodies id id [sampleBody ['a'] ['d'] ⟨1, 0, 0⟩, sampleBody ['b'] ['d'] ⟨0, 1, 0⟩] = some x ∧
    x.dofs.map Prod.fst = [['a', '_', '_', 'd'], ['b', '_', '_', 'd']] := by
  have hs : ∀ b ∈ [sampleBody ['a'] ['d'] ⟨1, 0, 0⟩, sampleBody ['b'] ['d'] ⟨0, 1, 0⟩], SoundBody id id b := by
    intro b hb
    simp only [List.mem_cons, List.not_mem_nil, or_false] at hb
    rcases hb with rfl | rfl <;> exact sampleBody_sound id id rfl _ _ _
  have hd : ([sampleBody ['a'] ['d'] ⟨1, 0, 0⟩, sampleBody ['b'] ['d'] ⟨0, 1, 0⟩].flatMap fun b =>
      b.dofs.map fun d => newDofName b.name d.1) = [['a', '_', '_', 'd'], ['b', '_', '_', 'd']] := by
    have hsep : hasSeparator ['d'] = false := by decide
    simp [sampleBody, newDofName, hsep]
  obtain ⟨x, hx⟩ := join_succeeds id id _ hs (by simp [sampleBody, Body.Consistent, Tree.nbFaces, sampleHalf])
    (by rw [hd]; decide) (by simp [sampleBody]) (by simp [sampleBody])
  refine ⟨x, hx, ?_⟩
  rw [(join_dofs_partial id id _ x hx (by rw [hd]; decide) (by simp [sampleBody])).1, hd]

theorem join_two (heal down : Mesh (V3 ℝ) → Mesh (V3 ℝ)) (h : heal sampleHalf = sampleHalf) (a b : Body)
    (ha : ∃ n d v, a = { sampleBody n d v with inertia := none })
    (hb : ∃ n d v, b = { sampleBody n d v with inertia := none }) :
    ∃ x, joinBodies heal down [a, b] = some x ∧
      x.dofs = (entries 2 [a, b] 0).foldl setItem [] := by
  obtain ⟨n, d, v, rfl⟩ := ha
  obtain ⟨n', d', v', rfl⟩ := hb
  have hs : ∀ c ∈ [({ sampleBody n d v with inertia := none } : Body), { sampleBody n' d' v' with inertia := none }],
      SoundBody heal down c := by
    intro c hc
    simp only [List.mem_cons, List.not_mem_nil, or_false] at hc
    rcases hc with rfl | rfl
    · exact ⟨(sampleBody_sound heal down h n d v).mesh, (sampleBody_sound heal down h n d v).lid⟩
    · exact ⟨(sampleBody_sound heal down h n' d' v').mesh, (sampleBody_sound heal down h n' d' v').lid⟩
  have ht : totalFaces [({ sampleBody n d v with inertia := none } : Body),
      { sampleBody n' d' v' with inertia := none }] = 2 := by
    simp [totalFaces, sampleBody, Tree.nbFaces, sampleHalf]
  have hcomb : combineDofs [({ sampleBody n d v with inertia := none } : Body),
      { sampleBody n' d' v' with inertia := none }] = some ((entries 2 [({ sampleBody n d v with inertia := none } : Body),
      { sampleBody n' d' v' with inertia := none }] 0).foldl setItem []) := by
    rw [combineDofs, if_pos, combineLoop_eq, ht]
    simp [sampleBody, Body.Consistent, Tree.nbFaces, sampleHalf]
  have hv := join_view (heal := heal) (down := down) hs
  have hI : ∀ k : ℕ, ∀ f : Body → Option Matrix2, f { sampleBody n d v with inertia := none } = none →
      joinMatrices k ([({ sampleBody n d v with inertia := none } : Body),
        { sampleBody n' d' v' with inertia := none }].map f) = some none := by
    intro k f hf
    rw [joinMatrices, List.map_cons, hf]
    rfl
  rw [hcomb, Option.bind_some, hI _ Body.inertia rfl, Option.bind_some, hI _ Body.stiffness rfl, Option.map_some] at hv
  cases hj : joinBodies heal down [({ sampleBody n d v with inertia := none } : Body),
      { sampleBody n' d' v' with inertia := none }] with
  | none => rw [hj] at hv; cases hv
  | some x =>
    rw [hj, Option.map_some, Option.some.injEq] at hv
    refine ⟨x, rfl, ?_⟩
    have := congrArg (fun t => t.2.2.2.1) hv
    exact this

/-- C36 is false in general. Two bodies with the same name lose a dof. Two bodies with different names may lose a
dof too. The imaginary part of a dof is lost. -/
theorem join_dofs_violated (heal down : Mesh (V3 ℝ) → Mesh (V3 ℝ)) (h : heal sampleHalf = sampleHalf) :
    (∃ x, joinBodies heal down [{ sampleBody ['a'] ['d'] ⟨1, 0, 0⟩ with inertia := none },
        { sampleBody ['a'] ['d'] ⟨0, 1, 0⟩ with inertia := none }] = some x ∧ x.dofs.length = 1) ∧
    (∃ x, joinBodies heal down [{ sampleBody ['a', '_'] ['d'] ⟨1, 0, 0⟩ with inertia := none },
        { sampleBody ['a'] ['_', 'd'] ⟨0, 1, 0⟩ with inertia := none }] = some x ∧ x.dofs.length = 1) ∧
    ∃ x, joinBodies heal down [{ sampleBody ['a'] ['d'] ⟨Complex.I, 0, 0⟩ with inertia := none },
        { sampleBody ['b'] ['d'] ⟨0, 1, 0⟩ with inertia := none }] = some x ∧
      ∃ D, x.dofs[0]? = some (['a', '_', '_', 'd'], D) ∧ D[0]? = some 0 := by
  have hsep : hasSeparator ['d'] = false := by decide
  have hsep' : hasSeparator ['_', 'd'] = false := by decide
  refine ⟨?_, ?_, ?_⟩
  · obtain ⟨x, h1, h2⟩ := join_two heal down h { sampleBody ['a'] ['d'] ⟨1, 0, 0⟩ with inertia := none }
      { sampleBody ['a'] ['d'] ⟨0, 1, 0⟩ with inertia := none } ⟨_, _, _, rfl⟩ ⟨_, _, _, rfl⟩
    refine ⟨x, h1, ?_⟩
    rw [h2]
    simp [entries, sampleBody, newDofName, hsep, setItem]
  · obtain ⟨x, h1, h2⟩ := join_two heal down h { sampleBody ['a', '_'] ['d'] ⟨1, 0, 0⟩ with inertia := none }
      { sampleBody ['a'] ['_', 'd'] ⟨0, 1, 0⟩ with inertia := none } ⟨_, _, _, rfl⟩ ⟨_, _, _, rfl⟩
    refine ⟨x, h1, ?_⟩
    rw [h2]
    simp [entries, sampleBody, newDofName, hsep, hsep', setItem]
  · obtain ⟨x, h1, h2⟩ := join_two heal down h { sampleBody ['a'] ['d'] ⟨Complex.I, 0, 0⟩ with inertia := none }
      { sampleBody ['b'] ['d'] ⟨0, 1, 0⟩ with inertia := none } ⟨_, _, _, rfl⟩ ⟨_, _, _, rfl⟩
    refine ⟨x, h1, paddedDof 2 0 [⟨Complex.I, 0, 0⟩], ?_, ?_⟩
    · rw [h2]
      simp [entries, sampleBody, newDofName, hsep, setItem]
    · have : discardImag ⟨Complex.I, 0, 0⟩ = 0 := by
        ext <;> simp [discardImag]
      simp [paddedDof, this]

/-- Concrete case of `join_nested` and `join_assoc`: three bodies with masses and one dof each. -/
example : ∃ ab bc y z, joinBodies id id [sampleBody ['a'] ['d'] 0, sampleBody ['b'] ['d'] 0] = some ab ∧
    joinBodies id id [sampleBody ['b'] ['d'] 0, sampleBody ['c'] ['d'] 0] = some bc ∧
    joinBodies id id [ab, sampleBody ['c'] ['d'] 0] = some y ∧
    joinBodies id id [sampleBody ['a'] ['d'] 0, bc] = some z ∧ y.view = z.view := by
  have hsep : hasSeparator ['d'] = false := by decide
  have hs : ∀ l : List Name, ∀ b ∈ l.map fun n => sampleBody n ['d'] 0, SoundBody id id b := by
    intro l b hb
    obtain ⟨n, -, rfl⟩ := List.mem_map.mp hb
    exact sampleBody_sound id id rfl _ _ _
  have hex : ∀ l : List Name, l.Nodup → ∃ x, joinBodies id id (l.map fun n => sampleBody n ['d'] 0) = some x := by
    intro l hl
    refine join_succeeds id id _ (hs l) ?_ ?_ ?_ ?_
    · intro b hb
      obtain ⟨n, -, rfl⟩ := List.mem_map.mp hb
      simp [sampleBody, Body.Consistent, Tree.nbFaces, sampleHalf]
    · have : ((l.map fun n => sampleBody n ['d'] 0).flatMap fun b => b.dofs.map fun d => newDofName b.name d.1) =
          l.map fun n => n ++ ['_', '_', 'd'] := by
        rw [List.flatMap_map, List.flatMap_def]
        simp only [sampleBody, List.map_cons, List.map_nil, newDofName, hsep]
        clear hl
        induction l with
        | nil => rfl
        | cons n l ih =>
          rw [List.map_cons, List.flatten_cons, ih, List.map_cons]
          simp
      rw [this]
      exact hl.map fun a b hab => List.append_cancel_right hab
    · intro b hb m hm
      obtain ⟨n, -, rfl⟩ := List.mem_map.mp hb
      simp only [sampleBody, Option.some.injEq] at hm
      subst hm
      simp [sampleBody]
    · intro b hb m hm
      obtain ⟨n, -, rfl⟩ := List.mem_map.mp hb
      simp [sampleBody] at hm
  obtain ⟨ab, h1⟩ := hex [['a'], ['b']] (by decide)
  obtain ⟨bc, h2⟩ := hex [['b'], ['c']] (by decide)
  obtain ⟨abc, h3⟩ := hex [['a'], ['b'], ['c']] (by decide)
  have hm : ∀ (n n' : Name) (m : ℝ), joinMass [sampleBody n ['d'] 0, sampleBody n' ['d'] 0] = some m → m ≠ 0 := by
    intro n n' m hm
    rw [joinMass] at hm
    simp [sampleBody, allSome] at hm
    rw [← hm]
    norm_num
  have h4 := join_nested id id [] [sampleBody ['a'] ['d'] 0, sampleBody ['b'] ['d'] 0] [sampleBody ['c'] ['d'] 0] ab
    (by simp) (hs [['a'], ['b'], ['c']]) h1 (hm _ _)
  have h5 := join_assoc id id _ _ _ ab bc (hs [['a'], ['b'], ['c']]) h1 h2 (hm _ _) (hm _ _)
  have h3' : joinBodies id id ([] ++ [sampleBody ['a'] ['d'] 0, sampleBody ['b'] ['d'] 0] ++
      [sampleBody ['c'] ['d'] 0]) = some abc := h3
  rw [h3', Option.map_some] at h4
  obtain ⟨y, hy, hy'⟩ := Option.map_eq_some_iff.mp h4
  have hy : joinBodies id id [ab, sampleBody ['c'] ['d'] 0] = some y := hy
  rw [hy, Option.map_some] at h5
  obtain ⟨z, hz, hz'⟩ := Option.map_eq_some_iff.mp h5.symm
  exact ⟨ab, bc, y, z, h1, h2, hy, hz, hz'.symm⟩

end Verif.Bodies
