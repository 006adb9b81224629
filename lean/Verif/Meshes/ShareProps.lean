import Verif.Meshes.ShareModel
import Verif.Meshes.JoinSymProps

/-!
# Meshes shared between collections (C92)
-/

namespace Verif.Meshes

open Verif.Geometry V3

/-! ## Specification -/

mutual
/-- The meshes in a mesh object, with repetitions. -/
def Shape.meshes : Shape → List ℕ
  | .mesh i => [i]
  | .coll _ ps => meshesAll ps
/-- The meshes in several mesh objects. -/
def meshesAll : List Shape → List ℕ
  | [] => []
  | p :: ps => p.meshes ++ meshesAll ps
end

mutual
/-- The collections in a mesh object, with repetitions. -/
def Shape.colls : Shape → List ℕ
  | .mesh _ => []
  | .coll i ps => i :: collsAll ps
/-- The collections in several mesh objects. -/
def collsAll : List Shape → List ℕ
  | [] => []
  | p :: ps => p.colls ++ collsAll ps
end

/-- The objects share nothing. -/
def Apart (a b : Shape) : Prop := a.meshes.Disjoint b.meshes ∧ a.colls.Disjoint b.colls

/-- Nothing is stored at two places of the object. -/
def Once (a : Shape) : Prop := a.meshes.Nodup ∧ a.colls.Nodup

/-- All that is in the object exists. -/
def Exists (σ : MeshStore) (a : Shape) : Prop := (∀ i ∈ a.meshes, i < σ.next) ∧ ∀ i ∈ a.colls, i < σ.next

/-! ## Motions in place -/

mutual
theorem moveIn_spec (μ : Motion) : ∀ (a : Shape) (σ : MeshStore),
    (∀ i, (a.moveIn μ σ).mesh i = (μ.mesh)^[a.meshes.count i] (σ.mesh i)) ∧
    (∀ i, (a.moveIn μ σ).sym i = (μ.sym)^[a.colls.count i] (σ.sym i)) ∧ (a.moveIn μ σ).next = σ.next
  | .mesh k, σ => by
    refine ⟨fun i => ?_, fun i => ?_, ?_⟩
    · by_cases h : i = k
      · subst h
        simp [Shape.moveIn, MeshStore.setMesh, Shape.meshes]
      · simp [Shape.moveIn, MeshStore.setMesh, Shape.meshes, Function.update_of_ne h, List.count_singleton, Ne.symm h]
    · simp [Shape.moveIn, MeshStore.setMesh, Shape.colls]
    · simp [Shape.moveIn, MeshStore.setMesh]
  | .coll k ps, σ => by
    obtain ⟨h1, h2, h3⟩ := moveAllIn_spec μ ps (σ.setSym k (μ.sym (σ.sym k)))
    refine ⟨fun i => ?_, fun i => ?_, ?_⟩
    · rw [Shape.moveIn, h1, Shape.meshes]
      rfl
    · rw [Shape.moveIn, h2, Shape.colls]
      by_cases h : i = k
      · subst h
        simp [MeshStore.setSym, List.count_cons, Function.iterate_succ_apply]
      · simp [MeshStore.setSym, Function.update_of_ne h, List.count_cons, Ne.symm h]
    · rw [Shape.moveIn, h3]
      rfl
theorem moveAllIn_spec (μ : Motion) : ∀ (ps : List Shape) (σ : MeshStore),
    (∀ i, (moveAllIn μ ps σ).mesh i = (μ.mesh)^[(meshesAll ps).count i] (σ.mesh i)) ∧
    (∀ i, (moveAllIn μ ps σ).sym i = (μ.sym)^[(collsAll ps).count i] (σ.sym i)) ∧
      (moveAllIn μ ps σ).next = σ.next
  | [], σ => by simp [moveAllIn, meshesAll, collsAll]
  | p :: ps, σ => by
    obtain ⟨h1, h2, h3⟩ := moveIn_spec μ p σ
    obtain ⟨k1, k2, k3⟩ := moveAllIn_spec μ ps (p.moveIn μ σ)
    refine ⟨fun i => ?_, fun i => ?_, ?_⟩
    · rw [moveAllIn, k1, h1, meshesAll, List.count_append, Nat.add_comm, Function.iterate_add_apply]
    · rw [moveAllIn, k2, h2, collsAll, List.count_append, Nat.add_comm, Function.iterate_add_apply]
    · rw [moveAllIn, k3, h3]
end

mutual
theorem read_congr {σ τ : MeshStore} : ∀ a : Shape, (∀ i ∈ a.meshes, σ.mesh i = τ.mesh i) →
    (∀ i ∈ a.colls, σ.sym i = τ.sym i) → σ.read a = τ.read a
  | .mesh i, h1, _ => by rw [MeshStore.read, MeshStore.read, h1 i (by simp [Shape.meshes])]
  | .coll i ps, h1, h2 => by
    rw [MeshStore.read, MeshStore.read, h2 i (by simp [Shape.colls]),
      readAll_congr ps h1 fun j hj => h2 j (by simp [Shape.colls, hj])]
theorem readAll_congr {σ τ : MeshStore} : ∀ ps : List Shape, (∀ i ∈ meshesAll ps, σ.mesh i = τ.mesh i) →
    (∀ i ∈ collsAll ps, σ.sym i = τ.sym i) → σ.readAll ps = τ.readAll ps
  | [], _, _ => rfl
  | p :: ps, h1, h2 => by
    rw [MeshStore.readAll, MeshStore.readAll,
      read_congr p (fun i hi => h1 i (by simp [meshesAll, hi])) fun i hi => h2 i (by simp [collsAll, hi]),
      readAll_congr ps (fun i hi => h1 i (by simp [meshesAll, hi])) fun i hi => h2 i (by simp [collsAll, hi])]
end

mutual
theorem read_moved {σ τ : MeshStore} (μ : Motion) : ∀ a : Shape, (∀ i ∈ a.meshes, τ.mesh i = μ.mesh (σ.mesh i)) →
    (∀ i ∈ a.colls, τ.sym i = μ.sym (σ.sym i)) → τ.read a = (σ.read a).move μ
  | .mesh i, h1, _ => by rw [MeshStore.read, MeshStore.read, Tree.move, h1 i (by simp [Shape.meshes])]
  | .coll i ps, h1, h2 => by
    rw [MeshStore.read, MeshStore.read, Tree.move, h2 i (by simp [Shape.colls]),
      readAll_moved μ ps h1 fun j hj => h2 j (by simp [Shape.colls, hj])]
theorem readAll_moved {σ τ : MeshStore} (μ : Motion) : ∀ ps : List Shape,
    (∀ i ∈ meshesAll ps, τ.mesh i = μ.mesh (σ.mesh i)) → (∀ i ∈ collsAll ps, τ.sym i = μ.sym (σ.sym i)) →
    τ.readAll ps = moveAll μ (σ.readAll ps)
  | [], _, _ => rfl
  | p :: ps, h1, h2 => by
    rw [MeshStore.readAll, MeshStore.readAll, moveAll,
      read_moved μ p (fun i hi => h1 i (by simp [meshesAll, hi])) fun i hi => h2 i (by simp [collsAll, hi]),
      readAll_moved μ ps (fun i hi => h1 i (by simp [meshesAll, hi])) fun i hi => h2 i (by simp [collsAll, hi])]
end

/-- C92: a motion in place moves each mesh as many times as it is stored in the object. -/
theorem moved_times (μ : Motion) (a : Shape) (σ : MeshStore) (i : ℕ) :
    (a.moveIn μ σ).mesh i = (μ.mesh)^[a.meshes.count i] (σ.mesh i) := (moveIn_spec μ a σ).1 i

/-- C92: when nothing is stored twice in an object, a motion in place moves all of it. -/
theorem moved_in_place (μ : Motion) (a : Shape) (σ : MeshStore) (h : Once a) :
    (a.moveIn μ σ).read a = (σ.read a).move μ := by
  obtain ⟨h1, h2, -⟩ := moveIn_spec μ a σ
  refine read_moved μ a (fun i hi => ?_) fun i hi => ?_
  · rw [h1, List.count_eq_one_of_mem h.1 hi]
    rfl
  · rw [h2, List.count_eq_one_of_mem h.2 hi]
    rfl

/-- C92: a motion in place does not change the objects that share nothing with the one that is moved. -/
theorem moved_apart (μ : Motion) (a b : Shape) (σ : MeshStore) (h : Apart a b) :
    (a.moveIn μ σ).read b = σ.read b := by
  obtain ⟨h1, h2, -⟩ := moveIn_spec μ a σ
  refine read_congr b (fun i hi => ?_) fun i hi => ?_
  · rw [h1, List.count_eq_zero_of_not_mem fun ha => h.1 ha hi]
    rfl
  · rw [h2, List.count_eq_zero_of_not_mem fun ha => h.2 ha hi]
    rfl

/-! ## New objects -/

mutual
theorem alloc_spec : ∀ (t : Tree) (σ : MeshStore),
    (∀ i ∈ (t.alloc σ).1.meshes, σ.next ≤ i ∧ i < (t.alloc σ).2.next) ∧
    (∀ i ∈ (t.alloc σ).1.colls, σ.next ≤ i ∧ i < (t.alloc σ).2.next) ∧ σ.next ≤ (t.alloc σ).2.next ∧
    (∀ i, i < σ.next → (t.alloc σ).2.mesh i = σ.mesh i ∧ (t.alloc σ).2.sym i = σ.sym i) ∧
    Once (t.alloc σ).1 ∧ (t.alloc σ).2.read (t.alloc σ).1 = t
  | .leaf m, σ => by
    refine ⟨?_, ?_, ?_, ?_, ?_, ?_⟩
    · simp [Tree.alloc, Shape.meshes, MeshStore.newMesh]
    · simp [Tree.alloc, Shape.colls]
    · simp [Tree.alloc, MeshStore.newMesh]
    · intro i hi
      simp [Tree.alloc, MeshStore.newMesh, Function.update_of_ne (Nat.ne_of_lt hi)]
    · simp [Tree.alloc, Once, Shape.meshes, Shape.colls]
    · simp [Tree.alloc, MeshStore.read, MeshStore.newMesh]
  | .node s ts, σ => by
    obtain ⟨h1, h2, h3, h4, h5, h6⟩ := allocAll_spec ts (σ.newColl s)
    have hnext : (σ.newColl s).next = σ.next + 1 := rfl
    rw [hnext] at h1 h2 h3 h4
    rw [Tree.alloc]
    simp only
    refine ⟨?_, ?_, ?_, ?_, ⟨?_, ?_⟩, ?_⟩
    · intro i hi
      rw [Shape.meshes] at hi
      have := h1 i hi
      exact ⟨by omega, this.2⟩
    · intro i hi
      rw [Shape.colls] at hi
      rcases List.mem_cons.1 hi with rfl | hi
      · exact ⟨le_rfl, by omega⟩
      · have := h2 i hi
        exact ⟨by omega, this.2⟩
    · omega
    · intro i hi
      obtain ⟨e1, e2⟩ := h4 i (by omega)
      refine ⟨e1, e2.trans ?_⟩
      simp [MeshStore.newColl, Function.update_of_ne (Nat.ne_of_lt hi)]
    · exact h5.1
    · refine List.nodup_cons.2 ⟨fun hi => ?_, h5.2⟩
      have := h2 _ hi
      omega
    · rw [MeshStore.read, (h4 σ.next (by omega)).2, h6]
      simp [MeshStore.newColl]
theorem allocAll_spec : ∀ (ts : List Tree) (σ : MeshStore),
    (∀ i ∈ meshesAll (allocAll ts σ).1, σ.next ≤ i ∧ i < (allocAll ts σ).2.next) ∧
    (∀ i ∈ collsAll (allocAll ts σ).1, σ.next ≤ i ∧ i < (allocAll ts σ).2.next) ∧ σ.next ≤ (allocAll ts σ).2.next ∧
    (∀ i, i < σ.next → (allocAll ts σ).2.mesh i = σ.mesh i ∧ (allocAll ts σ).2.sym i = σ.sym i) ∧
    ((meshesAll (allocAll ts σ).1).Nodup ∧ (collsAll (allocAll ts σ).1).Nodup) ∧
      (allocAll ts σ).2.readAll (allocAll ts σ).1 = ts
  | [], σ => by simp [allocAll, meshesAll, collsAll, MeshStore.readAll]
  | t :: ts, σ => by
    obtain ⟨h1, h2, h3, h4, h5, h6⟩ := alloc_spec t σ
    obtain ⟨k1, k2, k3, k4, k5, k6⟩ := allocAll_spec ts (t.alloc σ).2
    have e : allocAll (t :: ts) σ =
        ((t.alloc σ).1 :: (allocAll ts (t.alloc σ).2).1, (allocAll ts (t.alloc σ).2).2) := by rw [allocAll]
    rw [e]
    simp only
    refine ⟨?_, ?_, h3.trans k3, ?_, ⟨?_, ?_⟩, ?_⟩
    · intro i hi
      rw [meshesAll, List.mem_append] at hi
      rcases hi with hi | hi
      · exact ⟨(h1 i hi).1, (h1 i hi).2.trans_le k3⟩
      · exact ⟨h3.trans (k1 i hi).1, (k1 i hi).2⟩
    · intro i hi
      rw [collsAll, List.mem_append] at hi
      rcases hi with hi | hi
      · exact ⟨(h2 i hi).1, (h2 i hi).2.trans_le k3⟩
      · exact ⟨h3.trans (k2 i hi).1, (k2 i hi).2⟩
    · intro i hi
      have a := h4 i hi
      have b := k4 i (hi.trans_le h3)
      exact ⟨b.1.trans a.1, b.2.trans a.2⟩
    · rw [meshesAll, List.nodup_append']
      refine ⟨h5.1, k5.1, fun i hi hj => ?_⟩
      have := (h1 i hi).2
      have := (k1 i hj).1
      omega
    · rw [collsAll, List.nodup_append']
      refine ⟨h5.2, k5.2, fun i hi hj => ?_⟩
      have := (h2 i hi).2
      have := (k2 i hj).1
      omega
    · rw [MeshStore.readAll, k6]
      congr 1
      rw [← h6]
      rw [h6]
      refine (read_congr _ (fun i hi => ?_) fun i hi => ?_).trans h6
      · exact (k4 i (h1 i hi).2).1
      · exact (k4 i (h2 i hi).2).2
end

/-- C92: a copy, or the mesh that a motion with `inplace=False` returns, shares nothing with the existing objects,
which do not change. -/
theorem copies_apart (σ : MeshStore) (a : Shape) (μ : Option Motion) {c : Shape} {τ : MeshStore}
    (h : σ.copyMoved a μ = some (c, τ)) :
    (∃ t, (σ.read a).copy = some t ∧ τ.read c = μ.elim t fun μ => t.move μ) ∧ Once c ∧ Exists τ c ∧
      ∀ b, Exists σ b → Apart c b ∧ τ.read b = σ.read b ∧ Exists τ b := by
  rw [MeshStore.copyMoved] at h
  split at h
  · cases h
  · rename_i t ht
    obtain ⟨h1, h2, h3, h4, h5, h6⟩ := alloc_spec t σ
    have hread : ∀ b, Exists σ b → (t.alloc σ).2.read b = σ.read b := fun b hb =>
      read_congr b (fun i hi => (h4 i (hb.1 i hi)).1) fun i hi => (h4 i (hb.2 i hi)).2
    have hap : ∀ b, Exists σ b → Apart (t.alloc σ).1 b := by
      intro b hb
      constructor
      · intro i hi hj
        have := (h1 i hi).1
        have := hb.1 i hj
        omega
      · intro i hi hj
        have := (h2 i hi).1
        have := hb.2 i hj
        omega
    have hex : ∀ b, Exists σ b → Exists (t.alloc σ).2 b := fun b hb =>
      ⟨fun i hi => (hb.1 i hi).trans_le h3, fun i hi => (hb.2 i hi).trans_le h3⟩
    cases μ with
    | none =>
      simp only [Option.some.injEq] at h
      have hc := congrArg Prod.fst h
      have hτ := congrArg Prod.snd h
      simp only at hc hτ
      subst hc hτ
      exact ⟨⟨t, ht, h6⟩, h5, ⟨fun i hi => (h1 i hi).2, fun i hi => (h2 i hi).2⟩, fun b hb =>
        ⟨hap b hb, hread b hb, hex b hb⟩⟩
    | some μ =>
      simp only [Option.some.injEq, Prod.mk.injEq] at h
      obtain ⟨rfl, rfl⟩ := h
      have hnext := (moveIn_spec μ (t.alloc σ).1 (t.alloc σ).2).2.2
      refine ⟨⟨t, ht, ?_⟩, h5, ?_, fun b hb => ⟨hap b hb, ?_, ?_⟩⟩
      · rw [moved_in_place μ _ _ h5, h6]
        rfl
      · rw [Exists, hnext]
        exact ⟨fun i hi => (h1 i hi).2, fun i hi => (h2 i hi).2⟩
      · rw [moved_apart μ _ _ _ (hap b hb), hread b hb]
      · rw [Exists, hnext]
        exact hex b hb

/-- C92: the constructors of the symmetric meshes change no object. The new mesh shares nothing with the objects that
share nothing with the given part. -/
theorem symmetric_apart (σ : MeshStore) (s : Sym) (a : Shape) (nb : ℕ) {c : Shape} {τ : MeshStore}
    (ha : Exists σ a) (h1a : Once a) (h : σ.symmetric s a nb = some (c, τ)) :
    mkSymmetric Tree.copy s (σ.read a) nb = some (τ.read c) ∧ Once c ∧ Exists τ c ∧
      ∀ b, Exists σ b → τ.read b = σ.read b ∧ Exists τ b ∧ (Apart a b → Apart c b) := by
  classical
  rw [MeshStore.symmetric] at h
  split at h
  · rename_i s' x rest hmk
    have hx : x = σ.read a := by
      rw [mkSymmetric] at hmk
      split at hmk
      · obtain ⟨c, -, he⟩ := Option.map_eq_some_iff.1 hmk
        simp only [Tree.node.injEq, List.cons.injEq] at he
        exact he.2.1.symm
      · cases hmk
    subst hx
    obtain ⟨k1, k2, k3, k4, k5, k6⟩ := allocAll_spec rest σ
    simp only [MeshStore.collect, Option.some.injEq, Prod.mk.injEq] at h
    obtain ⟨rfl, rfl⟩ := h
    have hread : ∀ b : Shape, (∀ i ∈ b.colls, i < (allocAll rest σ).2.next) →
        ((allocAll rest σ).2.newColl s').read b = (allocAll rest σ).2.read b := by
      intro b hb
      refine read_congr b (fun i _ => rfl) fun i hi => ?_
      simp [MeshStore.newColl, Function.update_of_ne (Nat.ne_of_lt (hb i hi))]
    have hreadAll : ∀ b : List Shape, (∀ i ∈ collsAll b, i < (allocAll rest σ).2.next) →
        ((allocAll rest σ).2.newColl s').readAll b = (allocAll rest σ).2.readAll b := by
      intro b hb
      refine readAll_congr b (fun i _ => rfl) fun i hi => ?_
      simp [MeshStore.newColl, Function.update_of_ne (Nat.ne_of_lt (hb i hi))]
    have hold : ∀ b, Exists σ b → ((allocAll rest σ).2.newColl s').read b = σ.read b := by
      intro b hb
      rw [hread b fun i hi => (hb.2 i hi).trans_le k3]
      exact read_congr b (fun i hi => (k4 i (hb.1 i hi)).1) fun i hi => (k4 i (hb.2 i hi)).2
    refine ⟨?_, ⟨?_, ?_⟩, ⟨?_, ?_⟩, ?_⟩
    · rw [hmk, MeshStore.read, MeshStore.readAll, hold a ha, hreadAll _ fun i hi => (k2 i hi).2, k6]
      simp [MeshStore.newColl]
    · rw [Shape.meshes, meshesAll, List.nodup_append']
      refine ⟨h1a.1, k5.1, fun i hi hj => ?_⟩
      have := ha.1 i hi
      have := (k1 i hj).1
      omega
    · rw [Shape.colls, collsAll, List.nodup_cons, List.nodup_append']
      refine ⟨?_, h1a.2, k5.2, fun i hi hj => ?_⟩
      · intro hi
        rcases List.mem_append.1 hi with hi | hi
        · have := ha.2 _ hi
          omega
        · have := (k2 _ hi).2
          omega
      · have := ha.2 i hi
        have := (k2 i hj).1
        omega
    · intro i hi
      show i < (allocAll rest σ).2.next + 1
      rw [Shape.meshes, meshesAll, List.mem_append] at hi
      rcases hi with hi | hi
      · have := ha.1 i hi
        omega
      · have := (k1 i hi).2
        omega
    · intro i hi
      show i < (allocAll rest σ).2.next + 1
      rw [Shape.colls, collsAll, List.mem_cons, List.mem_append] at hi
      rcases hi with rfl | hi | hi
      · omega
      · have := ha.2 i hi
        omega
      · have := (k2 i hi).2
        omega
    · intro b hb
      refine ⟨hold b hb, ⟨fun i hi => ?_, fun i hi => ?_⟩, fun hap => ⟨fun i hi hj => ?_, fun i hi hj => ?_⟩⟩
      · show i < (allocAll rest σ).2.next + 1
        have := hb.1 i hi
        omega
      · show i < (allocAll rest σ).2.next + 1
        have := hb.2 i hi
        omega
      · rw [Shape.meshes, meshesAll, List.mem_append] at hi
        rcases hi with hi | hi
        · exact hap.1 hi hj
        · have := hb.1 i hj
          have := (k1 i hi).1
          omega
      · rw [Shape.colls, collsAll, List.mem_cons, List.mem_append] at hi
        have := hb.2 i hj
        rcases hi with rfl | hi | hi
        · omega
        · exact hap.2 hi hj
        · have := (k2 i hi).1
          omega
  · cases h

/-! ## Programs -/

/-- The variables of a program share nothing, and nothing is stored twice in one of them. -/
def Separate (σ : MeshStore) (v : MeshVars) : Prop :=
  (∀ i a, v i = some a → Once a ∧ Exists σ a) ∧ ∀ i j a b, i ≠ j → v i = some a → v j = some b → Apart a b

/-- The operation moves the variable in place. -/
def ShareOp.Moves : ShareOp → ℕ → Prop
  | .move k _, i => k = i
  | _, _ => False

theorem mem_meshesAll {l : List Shape} {i : ℕ} : i ∈ meshesAll l ↔ ∃ a ∈ l, i ∈ a.meshes := by
  induction l with
  | nil => simp [meshesAll]
  | cons a l ih => simp [meshesAll, ih]

theorem mem_collsAll {l : List Shape} {i : ℕ} : i ∈ collsAll l ↔ ∃ a ∈ l, i ∈ a.colls := by
  induction l with
  | nil => simp [collsAll]
  | cons a l ih => simp [collsAll, ih]

theorem apart_symm {a b : Shape} (h : Apart a b) : Apart b a := ⟨h.1.symm, h.2.symm⟩

/-- The shapes of different variables. -/
theorem mapM_vars {σ : MeshStore} {v : MeshVars} (hv : Separate σ v) : ∀ {ks : List ℕ} {l : List Shape},
    ks.Nodup → ks.mapM v = some l → (meshesAll l).Nodup ∧ (collsAll l).Nodup ∧ (∀ a ∈ l, ∃ k ∈ ks, v k = some a) := by
  intro ks
  induction ks with
  | nil =>
    intro l _ h
    simp only [List.mapM_nil, Option.pure_def, Option.some.injEq] at h
    subst h
    simp [meshesAll, collsAll]
  | cons k ks ih =>
    intro l hn h
    rw [List.nodup_cons] at hn
    rw [List.mapM_cons] at h
    cases hk : v k with
    | none => simp [hk] at h
    | some a =>
      cases hks : ks.mapM v with
      | none => simp [hk, hks] at h
      | some l' =>
        simp only [hk, hks, Option.pure_def, Option.bind_eq_bind, Option.bind_some, Option.some.injEq] at h
        subst h
        obtain ⟨h1, h2, h3⟩ := ih hn.2 hks
        have hap : ∀ b ∈ l', Apart a b := by
          intro b hb
          obtain ⟨j, hj, hjb⟩ := h3 b hb
          exact hv.2 k j a b (fun e => hn.1 (e ▸ hj)) hk hjb
        refine ⟨?_, ?_, ?_⟩
        · rw [meshesAll, List.nodup_append']
          refine ⟨(hv.1 k a hk).1.1, h1, fun i hi hj => ?_⟩
          obtain ⟨b, hb, hib⟩ := mem_meshesAll.1 hj
          exact (hap b hb).1 hi hib
        · rw [collsAll, List.nodup_append']
          refine ⟨(hv.1 k a hk).1.2, h2, fun i hi hj => ?_⟩
          obtain ⟨b, hb, hib⟩ := mem_collsAll.1 hj
          exact (hap b hb).2 hi hib
        · intro b hb
          rcases List.mem_cons.1 hb with rfl | hb
          · exact ⟨k, by simp, hk⟩
          · obtain ⟨j, hj, h⟩ := h3 b hb
            exact ⟨j, by simp [hj], h⟩

theorem collect_apart (σ : MeshStore) (s : Sym) {l : List Shape} (hl : ∀ a ∈ l, Exists σ a) (hm : (meshesAll l).Nodup)
    (hc : (collsAll l).Nodup) :
    (σ.collect s l).2.read (σ.collect s l).1 = .node s (σ.readAll l) ∧ Once (σ.collect s l).1 ∧
      Exists (σ.collect s l).2 (σ.collect s l).1 ∧
      ∀ b, Exists σ b → (σ.collect s l).2.read b = σ.read b ∧ Exists (σ.collect s l).2 b ∧
        ((∀ a ∈ l, Apart a b) → Apart (σ.collect s l).1 b) := by
  have hlt : ∀ i ∈ meshesAll l, i < σ.next := fun i hi => by
    obtain ⟨a, ha, hia⟩ := mem_meshesAll.1 hi
    exact (hl a ha).1 i hia
  have hlt' : ∀ i ∈ collsAll l, i < σ.next := fun i hi => by
    obtain ⟨a, ha, hia⟩ := mem_collsAll.1 hi
    exact (hl a ha).2 i hia
  refine ⟨?_, ⟨hm, ?_⟩, ⟨?_, ?_⟩, ?_⟩
  · simp only [MeshStore.collect, MeshStore.read]
    rw [show (σ.newColl s).sym σ.next = s by simp [MeshStore.newColl]]
    congr 1
    refine readAll_congr l (fun i _ => rfl) fun i hi => ?_
    simp [MeshStore.newColl, Function.update_of_ne (Nat.ne_of_lt (hlt' i hi))]
  · exact List.nodup_cons.2 ⟨fun h => absurd (hlt' _ h) (lt_irrefl _), hc⟩
  · exact fun i hi => (hlt i hi).trans (Nat.lt_succ_self _)
  · intro i hi
    rcases List.mem_cons.1 hi with rfl | hi
    · exact Nat.lt_succ_self _
    · exact (hlt' i hi).trans (Nat.lt_succ_self _)
  · intro b hb
    refine ⟨?_, ⟨fun i hi => (hb.1 i hi).trans (Nat.lt_succ_self _), fun i hi => (hb.2 i hi).trans (Nat.lt_succ_self _)⟩,
      fun hap => ⟨fun i hi hj => ?_, fun i hi hj => ?_⟩⟩
    · refine read_congr b (fun i _ => rfl) fun i hi => ?_
      simp [MeshStore.collect, MeshStore.newColl, Function.update_of_ne (Nat.ne_of_lt (hb.2 i hi))]
    · obtain ⟨a, ha, hia⟩ := mem_meshesAll.1 hi
      exact (hap a ha).1 hia hj
    · rcases List.mem_cons.1 hi with rfl | hi
      · exact absurd (hb.2 _ hj) (lt_irrefl _)
      · obtain ⟨a, ha, hia⟩ := mem_collsAll.1 hi
        exact (hap a ha).2 hia hj

theorem firstPart_sublist {a p : Shape} (h : a.firstPart = some p) :
    p.meshes.Sublist a.meshes ∧ p.colls.Sublist a.colls := by
  match a, h with
  | .coll i (q :: ps), h =>
    simp only [Shape.firstPart, Option.some.injEq] at h
    subst h
    exact ⟨List.sublist_append_left _ _, (List.sublist_append_left _ _).cons _⟩

theorem firstParts_sublist : ∀ {l hs : List Shape}, l.mapM Shape.firstPart = some hs →
    (meshesAll hs).Sublist (meshesAll l) ∧ (collsAll hs).Sublist (collsAll l) ∧
      ∀ p ∈ hs, ∃ a ∈ l, a.firstPart = some p := by
  intro l
  induction l with
  | nil =>
    intro hs h
    simp only [List.mapM_nil, Option.pure_def, Option.some.injEq] at h
    subst h
    simp [meshesAll, collsAll]
  | cons a l ih =>
    intro hs h
    rw [List.mapM_cons] at h
    cases ha : a.firstPart with
    | none => simp [ha] at h
    | some p =>
      cases hl : l.mapM Shape.firstPart with
      | none => simp [ha, hl] at h
      | some hs' =>
        simp only [ha, hl, Option.pure_def, Option.bind_eq_bind, Option.bind_some, Option.some.injEq] at h
        subst h
        obtain ⟨h1, h2, h3⟩ := ih hl
        obtain ⟨k1, k2⟩ := firstPart_sublist ha
        refine ⟨k1.append h1, k2.append h2, ?_⟩
        intro q hq
        rcases List.mem_cons.1 hq with rfl | hq
        · exact ⟨a, by simp, ha⟩
        · obtain ⟨b, hb, h⟩ := h3 q hq
          exact ⟨b, by simp [hb], h⟩

/-- C92: joining symmetric meshes changes no object, and the joined mesh shares nothing with the objects that share
nothing with the given meshes. -/
theorem join_apart (σ : MeshStore) {l : List Shape} (hl : ∀ a ∈ l, Exists σ a) (hm : (meshesAll l).Nodup)
    (hc : (collsAll l).Nodup) {c : Shape} {τ : MeshStore} (h : σ.join l = some (c, τ)) :
    joinSymmetric (σ.readAll l) = some (τ.read c) ∧ Once c ∧ Exists τ c ∧
      ∀ b, Exists σ b → τ.read b = σ.read b ∧ Exists τ b ∧ ((∀ a ∈ l, Apart a b) → Apart c b) := by
  classical
  unfold MeshStore.join at h
  split at h
  · rename_i i ps l' 
    split at h
    · rename_i hj
      obtain ⟨hs, hfs, h⟩ := Option.bind_eq_some_iff.1 h
      obtain ⟨s1, s2, s3⟩ := firstParts_sublist hfs
      have hex : ∀ p ∈ hs, Exists σ p := by
        intro p hp
        obtain ⟨a, ha, hap⟩ := s3 p hp
        obtain ⟨k1, k2⟩ := firstPart_sublist hap
        exact ⟨fun i hi => (hl a ha).1 i (k1.subset hi), fun i hi => (hl a ha).2 i (k2.subset hi)⟩
      obtain ⟨c1, c2, c3, c4⟩ := collect_apart σ .plain hex (s1.nodup hm) (s2.nodup hc)
      obtain ⟨d1, d2, d3, d4⟩ := symmetric_apart _ _ _ _ c3 c2 h
      refine ⟨?_, d2, d3, fun b hb => ?_⟩
      · have hcond : ∀ t ∈ σ.readAll (.coll i ps :: l'), Joinable (σ.read (.coll i ps)) t := by
          have hmem : ∀ (l : List Shape) (t : Tree), t ∈ σ.readAll l → ∃ a ∈ l, t = σ.read a := by
            intro l
            induction l with
            | nil => intro t ht; simp [MeshStore.readAll] at ht
            | cons a l ih =>
              intro t ht
              rw [MeshStore.readAll, List.mem_cons] at ht
              rcases ht with rfl | ht
              · exact ⟨a, by simp, rfl⟩
              · obtain ⟨b, hb, e⟩ := ih t ht
                exact ⟨b, by simp [hb], e⟩
          intro t ht
          obtain ⟨a, ha, rfl⟩ := hmem _ t ht
          exact hj a ha
        have hfirst : ∀ (l hs : List Shape), l.mapM Shape.firstPart = some hs →
            (σ.readAll l).mapM firstPart = some (σ.readAll hs) := by
          intro l
          induction l with
          | nil =>
            intro hs h
            simp only [List.mapM_nil, Option.pure_def, Option.some.injEq] at h
            subst h
            rfl
          | cons a l ih =>
            intro hs h
            rw [List.mapM_cons] at h
            cases ha : a.firstPart with
            | none => simp [ha] at h
            | some p =>
              cases hl : l.mapM Shape.firstPart with
              | none => simp [ha, hl] at h
              | some hs' =>
                simp only [ha, hl, Option.pure_def, Option.bind_eq_bind, Option.bind_some, Option.some.injEq] at h
                subst h
                have hp : firstPart (σ.read a) = some (σ.read p) := by
                  match a, ha with
                  | .coll i (q :: ps), ha =>
                    simp only [Shape.firstPart, Option.some.injEq] at ha
                    subst ha
                    simp [MeshStore.read, MeshStore.readAll, firstPart]
                rw [MeshStore.readAll, MeshStore.readAll, List.mapM_cons, hp, ih _ hl]
                rfl
        have hlen : ∀ ps : List Shape, (σ.readAll ps).length = ps.length := by
          intro ps
          induction ps with
          | nil => rfl
          | cons p ps ih => simp [MeshStore.readAll, ih]
        have e : joinSymmetric (σ.readAll (.coll i ps :: l')) =
            if ∀ t ∈ σ.readAll (.coll i ps :: l'), Joinable (σ.read (.coll i ps)) t then
              ((σ.readAll (.coll i ps :: l')).mapM firstPart).bind fun hs =>
                mkSymmetric Tree.copy (σ.sym i) (.node .plain hs) ((σ.readAll ps).length - 1)
            else none := by
          rw [MeshStore.readAll, MeshStore.read, joinSymmetric]
        rw [e, if_pos hcond, hfirst _ _ hfs, Option.bind_some, hlen, ← c1]
        exact d1
      · obtain ⟨e1, e2, e3⟩ := c4 b hb
        obtain ⟨f1, f2, f3⟩ := d4 b e2
        refine ⟨f1.trans e1, f2, fun hap => f3 (e3 fun p hp => ?_)⟩
        obtain ⟨a, ha, hpa⟩ := s3 p hp
        obtain ⟨k1, k2⟩ := firstPart_sublist hpa
        exact ⟨fun i hi => (hap a ha).1 (k1.subset hi), fun i hi => (hap a ha).2 (k2.subset hi)⟩
    · cases h
  · cases h

/-- A new object in a variable, when some variables are not used any more. -/
theorem separate_new {σ τ : MeshStore} {v : MeshVars} (hv : Separate σ v) (d : ℕ) (ks : List ℕ) {c : Shape}
    (h1 : Once c) (h2 : Exists τ c) (hb : ∀ i b, i ∉ ks → v i = some b → Exists τ b ∧ Apart c b) :
    Separate τ (Function.update (v.drop ks) d (some c)) := by
  have hold : ∀ i b, i ≠ d → Function.update (v.drop ks) d (some c) i = some b → i ∉ ks ∧ v i = some b := by
    intro i b hi h
    rw [Function.update_of_ne hi, MeshVars.drop] at h
    split at h
    · cases h
    · rename_i hk
      exact ⟨hk, h⟩
  refine ⟨fun i a h => ?_, fun i j a b hij ha hb' => ?_⟩
  · by_cases hi : i = d
    · subst hi
      simp only [Function.update_self, Option.some.injEq] at h
      subst h
      exact ⟨h1, h2⟩
    · obtain ⟨hk, h⟩ := hold i a hi h
      exact ⟨(hv.1 i a h).1, (hb i a hk h).1⟩
  · by_cases hi : i = d
    · subst hi
      simp only [Function.update_self, Option.some.injEq] at ha
      subst ha
      obtain ⟨hk, h⟩ := hold j b (Ne.symm hij) hb'
      exact (hb j b hk h).2
    · obtain ⟨hk, h⟩ := hold i a hi ha
      by_cases hj : j = d
      · subst hj
        simp only [Function.update_self, Option.some.injEq] at hb'
        subst hb'
        exact apart_symm (hb i a hk h).2
      · obtain ⟨hk', h'⟩ := hold j b hj hb'
        exact hv.2 i j a b hij h h'

theorem drop_nil (v : MeshVars) : v.drop [] = v := by
  funext i
  simp [MeshVars.drop]

/-- C92: one operation of a program that does not use any more the meshes given to a collection or to a symmetric mesh.
The other variables do not change, the motions in place move their variable, and the variables still share nothing. -/
theorem exec_separate (op : ShareOp) {σ τ : MeshStore} {v w : MeshVars} (hv : Separate σ v)
    (h : exec op σ v = some (τ, w)) :
    Separate τ w ∧ (∀ i a, v i = some a → w i = some a → ¬ op.Moves i → τ.read a = σ.read a) ∧
      ∀ k μ a, op = .move k μ → v k = some a → w k = some a ∧ τ.read a = (σ.read a).move μ := by
  cases op with
  | create d m =>
    simp only [exec, Option.some.injEq, Prod.mk.injEq] at h
    obtain ⟨rfl, rfl⟩ := h
    have hread : ∀ i a, v i = some a → (σ.newMesh m).read a = σ.read a := by
      intro i a ha
      refine read_congr a (fun j hj => ?_) fun j _ => rfl
      simp [MeshStore.newMesh, Function.update_of_ne (Nat.ne_of_lt ((hv.1 i a ha).2.1 j hj))]
    refine ⟨?_, fun i a ha _ _ => hread i a ha, by simp⟩
    have := separate_new (τ := σ.newMesh m) hv d [] (c := .mesh σ.next) (by simp [Once, Shape.meshes, Shape.colls])
      (by simp [Exists, Shape.meshes, Shape.colls, MeshStore.newMesh]) (by
        intro i b _ hb
        have := (hv.1 i b hb).2
        refine ⟨⟨fun j hj => (this.1 j hj).trans (Nat.lt_succ_self _), fun j hj =>
          (this.2 j hj).trans (Nat.lt_succ_self _)⟩, ?_, ?_⟩
        · intro j hj hjb
          simp only [Shape.meshes, List.mem_singleton] at hj
          subst hj
          exact absurd (this.1 _ hjb) (lt_irrefl _)
        · simp [Shape.colls])
    rwa [drop_nil] at this
  | copy d k μ =>
    simp only [exec] at h
    obtain ⟨a, ha, h⟩ := Option.bind_eq_some_iff.1 h
    obtain ⟨⟨c, τ'⟩, hc, h⟩ := Option.map_eq_some_iff.1 h
    simp only [Prod.mk.injEq] at h
    obtain ⟨rfl, rfl⟩ := h
    obtain ⟨-, h1, h2, h3⟩ := copies_apart σ a μ hc
    refine ⟨?_, fun i b hb _ _ => (h3 b (hv.1 i b hb).2).2.1, by simp⟩
    have := separate_new hv d [] h1 h2 (by
      intro i b _ hb
      have := h3 b (hv.1 i b hb).2
      exact ⟨this.2.2, this.1⟩)
    rwa [drop_nil] at this
  | move k μ =>
    simp only [exec] at h
    obtain ⟨a, ha, h⟩ := Option.map_eq_some_iff.1 h
    simp only [Prod.mk.injEq] at h
    obtain ⟨rfl, rfl⟩ := h
    refine ⟨⟨fun i b hb => ⟨(hv.1 i b hb).1, ?_⟩, hv.2⟩, fun i b hb _ hm => ?_, ?_⟩
    · rw [Exists, (moveIn_spec μ a σ).2.2]
      exact (hv.1 i b hb).2
    · exact moved_apart μ a b σ (hv.2 k i a b hm ha hb)
    · intro k' μ' a' e ha'
      simp only [ShareOp.move.injEq] at e
      obtain ⟨rfl, rfl⟩ := e
      rw [ha] at ha'
      cases ha'
      exact ⟨ha, moved_in_place μ a σ (hv.1 k a ha).1⟩
  | collect d ks =>
    simp only [exec] at h
    split at h
    · rename_i hn
      obtain ⟨l, hl, h⟩ := Option.map_eq_some_iff.1 h
      simp only [Prod.mk.injEq] at h
      obtain ⟨rfl, rfl⟩ := h
      obtain ⟨m1, m2, m3⟩ := mapM_vars hv hn hl
      obtain ⟨-, h1, h2, h3⟩ := collect_apart σ .plain (l := l) (fun a ha => by
        obtain ⟨k, -, hk⟩ := m3 a ha
        exact (hv.1 k a hk).2) m1 m2
      refine ⟨?_, fun i b hb _ _ => (h3 b (hv.1 i b hb).2).1, by simp⟩
      refine separate_new hv d ks h1 h2 fun i b hi hb => ?_
      have := h3 b (hv.1 i b hb).2
      refine ⟨this.2.1, this.2.2 fun a ha => ?_⟩
      obtain ⟨k, hk, hka⟩ := m3 a ha
      exact hv.2 k i a b (fun e => hi (e ▸ hk)) hka hb
    · cases h
  | symmetric d s k nb =>
    simp only [exec] at h
    obtain ⟨a, ha, h⟩ := Option.bind_eq_some_iff.1 h
    obtain ⟨⟨c, τ'⟩, hc, h⟩ := Option.map_eq_some_iff.1 h
    simp only [Prod.mk.injEq] at h
    obtain ⟨rfl, rfl⟩ := h
    obtain ⟨-, h1, h2, h3⟩ := symmetric_apart σ s a nb (hv.1 k a ha).2 (hv.1 k a ha).1 hc
    refine ⟨?_, fun i b hb _ _ => (h3 b (hv.1 i b hb).2).1, by simp⟩
    refine separate_new hv d [k] h1 h2 fun i b hi hb => ?_
    have := h3 b (hv.1 i b hb).2
    exact ⟨this.2.1, this.2.2 (hv.2 k i a b (fun e => hi (by simp [e])) ha hb)⟩
  | join d ks =>
    simp only [exec] at h
    split at h
    · rename_i hn
      obtain ⟨l, hl, h⟩ := Option.bind_eq_some_iff.1 h
      obtain ⟨⟨c, τ'⟩, hc, h⟩ := Option.map_eq_some_iff.1 h
      simp only [Prod.mk.injEq] at h
      obtain ⟨rfl, rfl⟩ := h
      obtain ⟨m1, m2, m3⟩ := mapM_vars hv hn hl
      obtain ⟨-, h1, h2, h3⟩ := join_apart σ (l := l) (fun a ha => by
        obtain ⟨k, -, hk⟩ := m3 a ha
        exact (hv.1 k a hk).2) m1 m2 hc
      refine ⟨?_, fun i b hb _ _ => (h3 b (hv.1 i b hb).2).1, by simp⟩
      refine separate_new hv d ks h1 h2 fun i b hi hb => ?_
      have := h3 b (hv.1 i b hb).2
      refine ⟨this.2.1, this.2.2 fun a ha => ?_⟩
      obtain ⟨k, hk, hka⟩ := m3 a ha
      exact hv.2 k i a b (fun e => hi (e ▸ hk)) hka hb
    · cases h

/-- C92: all such programs, from no variable. -/
theorem programs_separate (ops : List ShareOp) (σ : MeshStore) {τ : MeshStore} {w : MeshVars}
    (h : execAll ops σ (fun _ => none) = some (τ, w)) : Separate τ w := by
  have : ∀ (ops : List ShareOp) (σ : MeshStore) (v : MeshVars), Separate σ v → execAll ops σ v = some (τ, w) →
      Separate τ w := by
    intro ops
    induction ops with
    | nil =>
      intro σ v hv h
      simp only [execAll, Option.some.injEq, Prod.mk.injEq] at h
      obtain ⟨rfl, rfl⟩ := h
      exact hv
    | cons op ops ih =>
      intro σ v hv h
      rw [execAll] at h
      obtain ⟨⟨σ', v'⟩, h1, h2⟩ := Option.bind_eq_some_iff.1 h
      exact ih σ' v' (exec_separate op hv h1).1 h2
  exact this ops σ _ ⟨by simp, by simp⟩ h

/-! ## The first part is shared -/

/-- The first part of a symmetric mesh is the given object. -/
theorem symmetric_first {σ : MeshStore} {s : Sym} {a : Shape} {nb : ℕ} {c : Shape} {τ : MeshStore}
    (h : σ.symmetric s a nb = some (c, τ)) : ∃ i rest, c = .coll i (a :: rest) := by
  rw [MeshStore.symmetric] at h
  split at h
  · simp only [MeshStore.collect, Option.some.injEq, Prod.mk.injEq] at h
    exact ⟨_, _, h.1.symm⟩
  · cases h

/-- Moving in place the first part of a collection. -/
theorem moved_first (μ : Motion) (τ : MeshStore) (i : ℕ) (a : Shape) (rest : List Shape) (h : Once (.coll i (a :: rest))) :
    (a.moveIn μ τ).read (.coll i (a :: rest)) = .node (τ.sym i) ((τ.read a).move μ :: τ.readAll rest) := by
  obtain ⟨hm, hc⟩ := h
  rw [Shape.meshes, meshesAll, List.nodup_append'] at hm
  rw [Shape.colls, collsAll, List.nodup_cons, List.nodup_append'] at hc
  have hap : Apart a (.coll i rest) := by
    refine ⟨hm.2.2, fun j hj hj' => ?_⟩
    rw [Shape.colls, List.mem_cons] at hj'
    rcases hj' with rfl | hj'
    · exact hc.1 (List.mem_append_left _ hj)
    · exact hc.2.2.2 hj hj'
  have h := moved_apart μ a _ τ hap
  simp only [MeshStore.read, Tree.node.injEq] at h
  rw [MeshStore.read, MeshStore.readAll, h.1, h.2, moved_in_place μ a τ ⟨hm.1, hc.2.1⟩]

/-- C92: moving in place the part that was given to the constructor moves the first part of the symmetric mesh, and
nothing else of it. -/
theorem first_moved (μ : Motion) (σ : MeshStore) (s : Sym) (a : Shape) (nb : ℕ) {c : Shape} {τ : MeshStore}
    (ha : Exists σ a) (h1a : Once a) (h : σ.symmetric s a nb = some (c, τ)) :
    ∃ s' rest, τ.read c = .node s' (σ.read a :: rest) ∧
      (a.moveIn μ τ).read c = .node s' ((σ.read a).move μ :: rest) := by
  obtain ⟨-, h1, -, h2⟩ := symmetric_apart σ s a nb ha h1a h
  obtain ⟨i, rest, rfl⟩ := symmetric_first h
  refine ⟨τ.sym i, τ.readAll rest, ?_, ?_⟩
  · rw [MeshStore.read, MeshStore.readAll, (h2 a ha).1]
  · rw [moved_first μ τ i a rest h1, (h2 a ha).1]

/-- C92: moving in place the result of `join_meshes` moves the first part of each of the given meshes, and nothing
else of it. -/
theorem join_moved (μ : Motion) (σ : MeshStore) {l : List Shape} (hl : ∀ a ∈ l, Exists σ a) (hm : (meshesAll l).Nodup)
    (hc : (collsAll l).Nodup) {c : Shape} {τ : MeshStore} (h : σ.join l = some (c, τ)) {i : ℕ} {p : Shape}
    {rest : List Shape} (hp : .coll i (p :: rest) ∈ l) :
    (c.moveIn μ τ).read (.coll i (p :: rest)) = .node (σ.sym i) ((σ.read p).move μ :: σ.readAll rest) := by
  classical
  unfold MeshStore.join at h
  split at h
  · rename_i i' ps l'
    split at h
    · obtain ⟨hs, hfs, h⟩ := Option.bind_eq_some_iff.1 h
      generalize Shape.coll i' ps :: l' = L at hl hm hc hp hfs
      obtain ⟨s1, s2, s3⟩ := firstParts_sublist hfs
      have hex : ∀ p ∈ hs, Exists σ p := by
        intro p hp
        obtain ⟨a, ha, hap⟩ := s3 p hp
        obtain ⟨k1, k2⟩ := firstPart_sublist hap
        exact ⟨fun i hi => (hl a ha).1 i (k1.subset hi), fun i hi => (hl a ha).2 i (k2.subset hi)⟩
      obtain ⟨-, c2, c3, c4⟩ := collect_apart σ .plain hex (s1.nodup hm) (s2.nodup hc)
      obtain ⟨-, d2, d3, d4⟩ := symmetric_apart _ _ _ _ c3 c2 h
      obtain ⟨j, rest', rfl⟩ := symmetric_first h
      have hphs : p ∈ hs := by
        have : ∀ (L hs : List Shape), L.mapM Shape.firstPart = some hs → .coll i (p :: rest) ∈ L → p ∈ hs := by
          intro L
          induction L with
          | nil => intro hs _ h; simp at h
          | cons a L ih =>
            intro hs h hmem
            rw [List.mapM_cons] at h
            cases ha : a.firstPart with
            | none => simp [ha] at h
            | some q =>
              cases hL : L.mapM Shape.firstPart with
              | none => simp [ha, hL] at h
              | some hs' =>
                simp only [ha, hL, Option.pure_def, Option.bind_eq_bind, Option.bind_some, Option.some.injEq] at h
                subst h
                rcases List.mem_cons.1 hmem with rfl | hmem
                · simp only [Shape.firstPart, Option.some.injEq] at ha
                  simp [ha]
                · exact List.mem_cons_of_mem _ (ih _ hL hmem)
        exact this L hs hfs hp
      have hpex := hex p hphs
      have hbex : Exists σ (.coll i rest) := by
        have := hl _ hp
        refine ⟨fun k hk => this.1 k ?_, fun k hk => this.2 k ?_⟩
        · simp only [Shape.meshes, meshesAll, List.mem_append] at hk ⊢
          exact Or.inr hk
        · simp only [Shape.colls, collsAll, List.mem_cons, List.mem_append] at hk ⊢
          rcases hk with hk | hk
          · exact Or.inl hk
          · exact Or.inr (Or.inr hk)
      have hap : ∀ q ∈ hs, Apart q (.coll i rest) := by
        -- the first parts and the rest of one mesh are at different places of the list
        have : ∀ (L hs : List Shape), L.mapM Shape.firstPart = some hs → (meshesAll L).Nodup → (collsAll L).Nodup →
            .coll i (p :: rest) ∈ L → ∀ q ∈ hs, Apart q (.coll i rest) := by
          intro L
          induction L with
          | nil => intro hs _ _ _ h; simp at h
          | cons a L ih =>
            intro hs h hm hc hmem q hq
            rw [List.mapM_cons] at h
            cases ha : a.firstPart with
            | none => simp [ha] at h
            | some q' =>
              cases hL : L.mapM Shape.firstPart with
              | none => simp [ha, hL] at h
              | some hs' =>
                simp only [ha, hL, Option.pure_def, Option.bind_eq_bind, Option.bind_some, Option.some.injEq] at h
                subst h
                rw [meshesAll, List.nodup_append'] at hm
                rw [collsAll, List.nodup_append'] at hc
                obtain ⟨t1, t2, t3⟩ := firstParts_sublist hL
                obtain ⟨u1, u2⟩ := firstPart_sublist ha
                have hsub : (Shape.coll i rest).meshes ⊆ (Shape.coll i (p :: rest)).meshes ∧
                    (Shape.coll i rest).colls ⊆ (Shape.coll i (p :: rest)).colls := by
                  constructor
                  · intro k hk
                    simp only [Shape.meshes, meshesAll, List.mem_append] at hk ⊢
                    exact Or.inr hk
                  · intro k hk
                    simp only [Shape.colls, collsAll, List.mem_cons, List.mem_append] at hk ⊢
                    rcases hk with hk | hk
                    · exact Or.inl hk
                    · exact Or.inr (Or.inr hk)
                rcases List.mem_cons.1 hmem with hmem | hmem
                · subst hmem
                  rcases List.mem_cons.1 hq with rfl | hq
                  · simp only [Shape.firstPart, Option.some.injEq] at ha
                    subst ha
                    have hm1 := hm.1
                    have hc1 := hc.1
                    rw [Shape.meshes, meshesAll, List.nodup_append'] at hm1
                    rw [Shape.colls, collsAll, List.nodup_cons, List.nodup_append'] at hc1
                    refine ⟨hm1.2.2, fun j hj hj' => ?_⟩
                    rw [Shape.colls, List.mem_cons] at hj'
                    rcases hj' with rfl | hj'
                    · exact hc1.1 (List.mem_append_left _ hj)
                    · exact hc1.2.2.2 hj hj'
                  · refine ⟨fun j hj hj' => hm.2.2 (hsub.1 hj') (t1.subset (mem_meshesAll.2 ⟨q, hq, hj⟩)),
                      fun j hj hj' => hc.2.2 (hsub.2 hj') (t2.subset (mem_collsAll.2 ⟨q, hq, hj⟩))⟩
                · rcases List.mem_cons.1 hq with rfl | hq
                  · exact ⟨fun j hj hj' => hm.2.2 (u1.subset hj) (mem_meshesAll.2 ⟨_, hmem, hsub.1 hj'⟩),
                      fun j hj hj' => hc.2.2 (u2.subset hj) (mem_collsAll.2 ⟨_, hmem, hsub.2 hj'⟩)⟩
                  · exact ih _ hL hm.2.1 hc.2.1 hmem q hq
        exact this L hs hfs hm hc hp
      obtain ⟨e1, e2, e3⟩ := c4 _ hbex
      obtain ⟨f1, -, f3⟩ := d4 _ e2
      have hb := moved_apart μ _ _ τ (f3 (e3 hap))
      rw [f1, e1] at hb
      simp only [MeshStore.read, Tree.node.injEq] at hb
      have hpread : τ.read p = σ.read p := by
        obtain ⟨g1, g2, -⟩ := c4 p hpex
        rw [(d4 p g2).1, g1]
      rw [MeshStore.read, MeshStore.readAll, hb.1, hb.2, ← hpread]
      congr 2
      obtain ⟨m1, m2, -⟩ := moveIn_spec μ (.coll j ((σ.collect .plain hs).1 :: rest')) τ
      refine read_moved μ p (fun k hk => ?_) fun k hk => ?_
      · rw [m1, List.count_eq_one_of_mem d2.1]
        · rfl
        · simp only [Shape.meshes, meshesAll, MeshStore.collect, List.mem_append]
          exact Or.inl (mem_meshesAll.2 ⟨p, hphs, hk⟩)
      · rw [m2, List.count_eq_one_of_mem d2.2]
        · rfl
        · simp only [Shape.colls, collsAll, MeshStore.collect, List.mem_append, List.mem_cons]
          exact Or.inr (Or.inl (Or.inr (mem_collsAll.2 ⟨p, hphs, hk⟩)))
    · cases h
  · cases h

/-- A mesh of one triangle, in memory. -/
noncomputable def oneMesh : MeshStore := ⟨fun _ => ⟨[0, ex, ez], [⟨0, 1, 2, 0⟩]⟩, fun _ => .plain, 1⟩

theorem oneMesh_symmetric : oneMesh.symmetric (.translation ex) (.mesh 0) 1 =
    some (.coll 2 [.mesh 0, .mesh 1],
      (oneMesh.newMesh (Mesh.translate ⟨[0, ex, ez], [⟨0, 1, 2, 0⟩]⟩ ((((0 + 1 : ℕ)) : ℝ) • ex))).newColl (.translation ex)) := by
  have h : mkSymmetric Tree.copy (.translation ex) (oneMesh.read (.mesh 0)) 1 = some (.node (.translation ex)
      [.leaf ⟨[0, ex, ez], [⟨0, 1, 2, 0⟩]⟩,
        .leaf (Mesh.translate ⟨[0, ex, ez], [⟨0, 1, 2, 0⟩]⟩ ((((0 + 1 : ℕ)) : ℝ) • ex))]) := by
    rw [mkSymmetric, if_pos ⟨by simp [Sym.Accepted, ex], le_rfl⟩]
    rfl
  rw [MeshStore.symmetric, h]
  rfl

/-- The parts are not images of each other any more. -/
theorem moved_not_sliced : ¬ Sliced (.node (.translation ex)
    [(Tree.leaf ⟨[0, ex, ez], [⟨0, 1, 2, 0⟩]⟩).move (.translate ez),
      .leaf (Mesh.translate ⟨[0, ex, ez], [⟨0, 1, 2, 0⟩]⟩ ((((0 + 1 : ℕ)) : ℝ) • ex))]) := by
  intro h
  cases h with
  | symmetric _ _ _ _ _ _ _ _ h =>
    have := h 0 _ rfl
    simp only [Tree.leaves, Tree.move, List.map_cons, List.map_nil, List.cons.injEq, and_true] at this
    have hz := congrArg (fun m : Mesh (V3 ℝ) => m.vertices.map V3.z) this
    simp [Mesh.translate, Motion.mesh, Sym.step, ex, ez] at hz

/-- C92 is violated: a symmetric mesh is not symmetric any more after a motion in place of the mesh it was made from. -/
theorem share_violated : ∃ (σ : MeshStore) (s : Sym) (a c : Shape) (τ : MeshStore) (μ : Motion),
    Exists σ a ∧ Once a ∧ σ.symmetric s a 1 = some (c, τ) ∧ Sliced (τ.read c) ∧ ¬ Sliced ((a.moveIn μ τ).read c) := by
  have ha : Exists oneMesh (.mesh 0) := ⟨by simp [Shape.meshes, oneMesh], by simp [Shape.colls]⟩
  have ho : Once (.mesh 0) := ⟨by simp [Shape.meshes], by simp [Shape.colls]⟩
  refine ⟨oneMesh, .translation ex, .mesh 0, _, _, .translate ez, ha, ho, oneMesh_symmetric, ?_, ?_⟩
  · obtain ⟨h1, -⟩ := symmetric_apart _ _ _ _ ha ho oneMesh_symmetric
    exact (mk_coherent (s := .translation ex) (by simp) trivial (.leaf _) rfl rfl (by simp) h1).1
  · exact moved_not_sliced

/-- C92 is violated: a symmetric mesh is not symmetric any more after a motion in place of the mesh made from it by
`join_meshes`. -/
theorem share_join_violated : ∃ (σ : MeshStore) (l : List Shape) (a c : Shape) (τ : MeshStore) (μ : Motion),
    a ∈ l ∧ σ.join l = some (c, τ) ∧ Once c ∧ Sliced (σ.read a) ∧ ¬ Sliced ((c.moveIn μ τ).read a) := by
  have ha : Exists oneMesh (.mesh 0) := ⟨by simp [Shape.meshes, oneMesh], by simp [Shape.colls]⟩
  have ho : Once (.mesh 0) := ⟨by simp [Shape.meshes], by simp [Shape.colls]⟩
  obtain ⟨h1, h2, h3, -⟩ := symmetric_apart _ _ _ _ ha ho oneMesh_symmetric
  have hs := (mk_coherent (s := .translation ex) (by simp) trivial (.leaf _) rfl rfl (by simp) h1).1
  have hread : ((oneMesh.newMesh (Mesh.translate ⟨[0, ex, ez], [⟨0, 1, 2, 0⟩]⟩ ((((0 + 1 : ℕ)) : ℝ) • ex))).newColl
      (.translation ex)).read (.coll 2 [.mesh 0, .mesh 1]) = .node (.translation ex) [.leaf ⟨[0, ex, ez], [⟨0, 1, 2, 0⟩]⟩,
        .leaf (Mesh.translate ⟨[0, ex, ez], [⟨0, 1, 2, 0⟩]⟩ ((((0 + 1 : ℕ)) : ℝ) • ex))] := rfl
  generalize hσ : (oneMesh.newMesh (Mesh.translate ⟨[0, ex, ez], [⟨0, 1, 2, 0⟩]⟩ ((((0 + 1 : ℕ)) : ℝ) • ex))).newColl
    (.translation ex) = σ at h1 h2 h3 hs hread
  have hj : ∃ r, σ.join [.coll 2 [.mesh 0, .mesh 1]] = some r := by
    have hmk : mkSymmetric Tree.copy (σ.sym 2) ((σ.collect .plain [.mesh 0]).2.read (σ.collect .plain [.mesh 0]).1) 1 =
        some (.node (.translation ex) [.node .plain [.leaf ⟨[0, ex, ez], [⟨0, 1, 2, 0⟩]⟩],
          (Tree.node .plain [.leaf ⟨[0, ex, ez], [⟨0, 1, 2, 0⟩]⟩]).move (Sym.step (.translation ex) 2 1)]) := by
      subst hσ
      show mkSymmetric Tree.copy (.translation ex) (.node .plain [.leaf ⟨[0, ex, ez], [⟨0, 1, 2, 0⟩]⟩]) 1 = _
      rw [mkSymmetric, if_pos ⟨by simp [Sym.Accepted, ex], le_rfl⟩]
      have : (Tree.node .plain [.leaf ⟨[0, ex, ez], [⟨0, 1, 2, 0⟩]⟩]).copy =
          some (.node .plain [.leaf ⟨[0, ex, ez], [⟨0, 1, 2, 0⟩]⟩]) := rfl
      rw [this]
      rfl
    have hc : ∀ x : ℝ, closeFloat x x := by
      intro x
      simp only [closeFloat, sub_self, abs_zero]
      positivity
    rw [MeshStore.join, if_pos, List.mapM_cons, List.mapM_nil, Shape.firstPart]
    · show ∃ r, (σ.collect .plain [.mesh 0]).2.symmetric (σ.sym 2) (σ.collect .plain [.mesh 0]).1 1 = some r
      rw [MeshStore.symmetric, hmk]
      exact ⟨_, rfl⟩
    · intro a ha
      rw [List.mem_singleton] at ha
      subst ha
      rw [hread]
      exact ⟨⟨hc _, hc _, hc _⟩, rfl⟩
  obtain ⟨⟨c, τ⟩, hj⟩ := hj
  have hl : ∀ a ∈ [Shape.coll 2 [.mesh 0, .mesh 1]], Exists σ a := by
    intro a ha
    rw [List.mem_singleton] at ha
    subst ha
    exact h3
  have hm : (meshesAll [Shape.coll 2 [.mesh 0, .mesh 1]]).Nodup := by simp [meshesAll, Shape.meshes]
  have hc : (collsAll [Shape.coll 2 [.mesh 0, .mesh 1]]).Nodup := by simp [collsAll, Shape.colls]
  refine ⟨σ, [.coll 2 [.mesh 0, .mesh 1]], .coll 2 [.mesh 0, .mesh 1], c, τ, .translate ez, by simp, hj,
    (join_apart σ hl hm hc hj).2.1, hs, ?_⟩
  rw [join_moved (.translate ez) σ hl hm hc hj (List.mem_singleton_self _)]
  simp only [MeshStore.read, MeshStore.readAll, Tree.node.injEq, List.cons.injEq, Tree.leaf.injEq] at hread ⊢
  rw [hread.1, hread.2.1, hread.2.2.1]
  exact moved_not_sliced

/-- C92 is violated: a mesh stored twice in a collection is moved twice. -/
theorem share_twice_violated : ∃ (σ : MeshStore) (a : Shape) (μ : Motion), Exists σ a ∧
    (a.moveIn μ σ).read a ≠ (σ.read a).move μ := by
  refine ⟨oneMesh, .coll 0 [.mesh 0, .mesh 0], .translate ez, ⟨by simp [Shape.meshes, meshesAll, oneMesh],
    by simp [Shape.colls, collsAll, oneMesh]⟩, fun h => ?_⟩
  have hz := congrArg (fun t : Tree => t.leaves.map fun m : Mesh (V3 ℝ) => m.vertices.map V3.z) h
  simp [Shape.moveIn, moveAllIn, MeshStore.read, MeshStore.readAll, MeshStore.setMesh, MeshStore.setSym, oneMesh,
    Tree.leaves, leavesAll, Tree.move, moveAll, Motion.mesh, Mesh.translate, ex, ez] at hz

/-! ## Example -/

/-- A program that makes a mesh, a symmetric mesh from it and a moved copy of the symmetric mesh, and moves the symmetric
mesh in place. -/
example : ∃ r, execAll [.create 0 ⟨[0, ex, ez], [⟨0, 1, 2, 0⟩]⟩, .symmetric 1 (.translation ex) 0 1,
    .copy 2 1 (some (.translate ez)), .move 1 (.translate ex)] ⟨fun _ => ⟨[], []⟩, fun _ => .plain, 0⟩ (fun _ => none) =
    some r ∧ (r.2 0).isNone ∧ (r.2 1).isSome ∧ (r.2 2).isSome := by
  have hacc : Sym.Accepted (.translation ex) ∧ 1 ≤ 1 := ⟨by simp [Sym.Accepted, ex], le_rfl⟩
  have h1 : ∀ (m : Mesh (V3 ℝ)), mkSymmetric Tree.copy (.translation ex) (.leaf m) 1 = some (.node (.translation ex)
      [.leaf m, .leaf ((Sym.step (.translation ex) 2 1).mesh m)]) := by
    intro m
    rw [mkSymmetric, if_pos hacc]
    rfl
  have h2 : ∀ (m : Mesh (V3 ℝ)) (t : Tree), (Tree.node (.translation ex) [.leaf m, t]).copy =
      some (.node (.translation ex) [.leaf m, .leaf ((Sym.step (.translation ex) 2 1).mesh m)]) := by
    intro m t
    show mkSymmetric (Tree.copyN 1) (.translation ex) (.leaf m) 1 = _
    rw [mkSymmetric, if_pos hacc]
    rfl
  simp only [execAll, exec, Option.bind_some, Function.update_self, MeshStore.symmetric, MeshStore.read,
    MeshStore.newMesh, h1, Option.map_some, MeshStore.copyMoved, MeshStore.collect, MeshStore.readAll,
    MeshStore.newColl, allocAll, Tree.alloc, Tree.move, h2]
  refine ⟨_, rfl, ?_, ?_, ?_⟩ <;> simp [Function.update, MeshVars.drop]

end Verif.Meshes
