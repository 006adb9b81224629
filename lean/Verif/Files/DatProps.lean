import Verif.Files.DatModel
import Verif.Files.NumberedProps

/-!
# C112: a mesh written for Diodore is read again
-/

namespace Verif.Files.Numbered

open Verif.Meshes

variable {V : Type}

/-! ## Specification -/

/-- The corners of a face of a mesh, each one after a change of its coordinates. -/
def changedCorners (g : V → V) (m : Mesh V) (f : Face) : List (Option V) := f.toList.map fun i => m.vertices[i]?.map g

/-- The panels of the mesh with the quadrangles first. -/
def quadsFirst (m : Mesh V) : List Face := (m.faces.filter fun f => f.a ≠ f.d) ++ m.faces.filter fun f => f.a = f.d

/-! ## Lemmas -/

theorem datNodes_fst (round : V → V) (vs : List V) : (datNodes round vs).map Prod.fst = List.range' 1 vs.length := by
  unfold datNodes
  rw [List.map_map]
  apply List.ext_getElem
  · simp
  · intro i h1 h2
    simp
    omega

theorem datNodes_snd (round : V → V) (vs : List V) : (datNodes round vs).map Prod.snd = vs.map round := by
  unfold datNodes
  rw [List.map_map]
  apply List.ext_getElem
  · simp
  · intro i h1 h2
    simp

theorem datNodes_point (round : V → V) (vs : List V) (i : ℕ) (hi : i < vs.length) :
    i + 1 ∈ (datNodes round vs).map Prod.fst ∧ pointOf (datNodes round vs) (i + 1) = vs[i]?.map round := by
  have ho : InOrder (datNodes round vs) := by
    rw [InOrder, datNodes_fst]
    simp [datNodes]
  have hm : i + 1 ∈ (datNodes round vs).map Prod.fst := by
    rw [datNodes_fst, List.mem_range'_1]
    omega
  refine ⟨hm, ?_⟩
  rw [← (inOrder_point _ ho (i + 1) hm).2.2, datNodes_snd, show (((i + 1 : ℕ) : ℤ) - 1).toNat = i by omega, List.getElem?_map]

theorem datRows_spec (round : V → V) (m : Mesh V) (hm : m.Valid) :
    (∀ r ∈ datQuads m.faces, Known (datNodes round m.vertices) r) ∧
    (∀ r ∈ datTriangles m.faces, Known (datNodes round m.vertices) r) ∧
    (datQuads m.faces).map (cornersOf (datNodes round m.vertices)) =
      (m.faces.filter fun f => f.a ≠ f.d).map (changedCorners round m) ∧
    (datTriangles m.faces).map (cornersOf (datNodes round m.vertices)) =
      (m.faces.filter fun f => f.a = f.d).map (changedCorners round m) := by
  have hp := fun f hf i hi => datNodes_point round m.vertices i (hm f hf i hi)
  have ht : ∀ f : Face, f.isTriangle = decide (f.a = f.d) := fun f => by
    simp [Face.isTriangle, BEq.beq, Nat.beq_eq]
  have hq : (fun f : Face => !f.isTriangle) = fun f => decide (f.a ≠ f.d) := by
    funext f; simp [ht]
  have ht' : (fun f : Face => f.isTriangle) = fun f => decide (f.a = f.d) := by
    funext f; simp [ht]
  unfold datQuads datTriangles
  rw [hq, ht']
  have hk : ∀ f ∈ m.faces, ∀ i ∈ f.toList, i + 1 ∈ (datNodes round m.vertices).map Prod.fst := fun f hf i hi => (hp f hf i hi).1
  refine ⟨?_, ?_, ?_, ?_⟩
  · intro r hr
    obtain ⟨f, hf, rfl⟩ := List.mem_map.1 hr
    have := hk f (List.mem_filter.1 hf).1
    simp only [Face.toList, List.mem_cons, List.not_mem_nil, or_false, forall_eq_or_imp, forall_eq] at this
    exact ⟨.inr rfl, by
      simp only [List.mem_cons, List.not_mem_nil, or_false, forall_eq_or_imp, forall_eq]
      exact this⟩
  · intro r hr
    obtain ⟨f, hf, rfl⟩ := List.mem_map.1 hr
    have := hk f (List.mem_filter.1 hf).1
    simp only [Face.toList, List.mem_cons, List.not_mem_nil, or_false, forall_eq_or_imp, forall_eq] at this
    exact ⟨.inl rfl, by
      simp only [List.mem_cons, List.not_mem_nil, or_false, forall_eq_or_imp, forall_eq]
      exact ⟨this.1, this.2.1, this.2.2.1⟩⟩
  · rw [List.map_map]
    refine List.map_congr_left fun f hf => ?_
    have h1 : ∀ i ∈ f.toList, _ := fun i hi => (hp f (List.mem_filter.1 hf).1 i hi).2
    simp only [Face.toList, List.mem_cons, List.not_mem_nil, or_false, forall_eq_or_imp, forall_eq] at h1
    simp [cornersOf, changedCorners, Face.toList, h1]
  · rw [List.map_map]
    refine List.map_congr_left fun f hf => ?_
    have h1 : ∀ i ∈ f.toList, _ := fun i hi => (hp f (List.mem_filter.1 hf).1 i hi).2
    have h2 : f.a = f.d := by simpa using (List.mem_filter.1 hf).2
    simp only [Face.toList, List.mem_cons, List.not_mem_nil, or_false, forall_eq_or_imp, forall_eq] at h1
    simp [cornersOf, changedCorners, Face.toList, h1, ← h2]

theorem ifAny_flatten {A B : Type} (l : List A) (u : List A → List B) (hu : u [] = []) : (ifAny l l).flatMap u = u l := by
  unfold ifAny
  split_ifs with h
  · rw [h, hu]; rfl
  · simp

theorem layout_eq (name frame : String) (round : V → V) (m : Mesh V) : suggestedInp name frame m =
    .node name frame false :: List.replicate (writeDat round m).sections.length (.element name) := by
  unfold suggestedInp writeDat ifAny
  split_ifs <;> rfl

/-! ## Theorems -/

section
variable [Add V]

/-- C112: a mesh written by `write_DAT` and read by `load_INP` with the lines that were printed has the same vertices, rounded
and moved to the frame, and the same panels, with the quadrangles first. -/
theorem diodore_round_trip (round : V → V) (m : Mesh V) (hm : m.Valid) (hf : m.faces ≠ []) (name frame : String)
    (files : String → Option (Dat V)) (frames : String → Option V) (t : V) (h1 : files name = some (writeDat round m))
    (h2 : frames frame = some t) :
    ∃ n, loadInp files frames (suggestedInp name frame m) = some n ∧
      n.vertices = m.vertices.map (fun v => round v + t) ∧
      panels n = (quadsFirst m).map (changedCorners (fun v => round v + t) m) := by
  obtain ⟨k1, k2, c1, c2⟩ := datRows_spec round m hm
  have hne : (writeDat round m).sections ≠ [] := by
    obtain ⟨f, hf⟩ := List.exists_mem_of_ne_nil _ hf
    unfold writeDat ifAny
    by_cases ht : f.isTriangle
    · have : datTriangles m.faces ≠ [] :=
        List.ne_nil_of_mem (List.mem_map_of_mem (List.mem_filter.2 ⟨hf, ht⟩))
      simp [this]
    · have : datQuads m.faces ≠ [] :=
        List.ne_nil_of_mem (List.mem_map_of_mem (List.mem_filter.2 ⟨hf, by simpa using ht⟩))
      simp [this]
  have hd : (writeDat round m).Good := by
    refine ⟨?_, ?_, hne, ?_⟩
    · show ((datNodes round m.vertices).map Prod.fst).Nodup
      rw [datNodes_fst]
      exact List.nodup_range'
    · obtain ⟨f, hf⟩ := List.exists_mem_of_ne_nil _ hf
      have := hm f hf f.a (by simp [Face.toList])
      intro h0
      have h0' := congrArg List.length h0
      simp [writeDat, datNodes] at h0'
      simp [h0'] at this
    · intro s hs
      simp only [writeDat, List.mem_append, ifAny] at hs
      rcases hs with hs | hs
      · split_ifs at hs with h
        · cases hs
        · simp only [List.mem_singleton] at hs
          subst hs
          exact ⟨h, k1⟩
      · split_ifs at hs with h
        · cases hs
        · simp only [List.mem_singleton] at hs
          subst hs
          exact ⟨h, k2⟩
  obtain ⟨n, hn, hv, hp⟩ := inp_one_frame files frames name frame false _ _ t h1 hd h2 (List.length_pos_iff.2 hne)
  refine ⟨n, by rw [layout_eq name frame round]; exact hn, ?_, ?_⟩
  · rw [hv]
    show (datNodes round m.vertices).map ((fun v => v + t) ∘ Prod.snd) = _
    rw [← List.map_map, datNodes_snd, List.map_map]
    rfl
  · rw [hp]
    have hs : ∀ (S : List (List (List ℕ))) (u : List (List ℕ) → List (List (Option V))),
        ((List.range S.length).flatMap fun k => u (S[k % S.length]?.getD [])) = S.flatMap u := by
      intro S u
      have : S.flatMap u = ((List.range S.length).map fun k => S[k % S.length]?.getD []).flatMap u := by
        congr 1
        apply List.ext_getElem
        · simp
        · intro i h1 h2
          simp [Nat.mod_eq_of_lt h1, List.getElem?_eq_getElem h1]
      rw [this, List.flatMap_map]
    rw [hs]
    have hmap : ∀ (rows : List (List ℕ)) (fs : List Face),
        rows.map (cornersOf (datNodes round m.vertices)) = fs.map (changedCorners round m) →
        (rows.map fun ids => (cornersOf (writeDat round m).nodes ids).map fun q => q.map fun p => p + t) =
          fs.map (changedCorners (fun v => round v + t) m) := by
      intro rows fs h
      have := congrArg (List.map (List.map (Option.map fun p => p + t))) h
      rw [List.map_map, List.map_map] at this
      refine this.trans (List.map_congr_left fun f _ => ?_)
      simp [changedCorners, Function.comp_def]
    show List.flatMap _ (ifAny (datQuads m.faces) (datQuads m.faces) ++
      ifAny (datTriangles m.faces) (datTriangles m.faces)) = _
    rw [List.flatMap_append, ifAny_flatten _ _ rfl, ifAny_flatten _ _ rfl, hmap _ _ c1, hmap _ _ c2, quadsFirst, List.map_append]

/-- C112: a mesh without panels is written but not read again. -/
theorem diodore_no_panel (m : Mesh V) (hf : m.faces = []) (name frame : String)
    (files : String → Option (Dat V)) (frames : String → Option V) :
    loadInp files frames (suggestedInp name frame m) = none := by
  have hl : suggestedInp name frame m = [.node name frame false] := by
    simp [suggestedInp, hf, datQuads, datTriangles, ifAny]
  rw [Option.eq_none_iff_forall_ne_some]
  intro n hn
  rw [hl] at hn
  simp only [loadInp, Option.bind_eq_some_iff, inpLoop, inpStep, Option.some.injEq] at hn
  obtain ⟨_, _, s, ⟨s', ⟨_, _, _, _, h1⟩, h2⟩, _, _, h3⟩ := hn
  subst h1 h2
  simp [newMesh] at h3

end

/-- The panels come back in the same order when there is one kind of panels, and only a mesh whose quadrangles come first keeps
the order. -/
theorem quadsFirst_iff (m : Mesh V) : quadsFirst m = m.faces ↔ m.faces.Pairwise fun f g => f.a = f.d → g.a = g.d := by
  unfold quadsFirst
  induction m.faces with
  | nil => simp
  | cons f fs ih =>
    rw [List.pairwise_cons, ← ih]
    by_cases h : f.a = f.d
    · simp only [h, ne_eq, not_true_eq_false, decide_false, Bool.false_eq_true, not_false_eq_true, List.filter_cons_of_neg,
        decide_true, List.filter_cons_of_pos, forall_const]
      constructor
      · intro e
        have hall : ∀ g ∈ fs, g.a = g.d := by
          by_contra hc
          push Not at hc
          obtain ⟨g, hg, hne⟩ := hc
          have hm : g ∈ fs.filter fun f => decide ¬f.a = f.d := List.mem_filter.2 ⟨hg, by simpa using hne⟩
          obtain ⟨x, l, hx⟩ := List.exists_cons_of_ne_nil (List.ne_nil_of_mem hm)
          rw [hx] at e
          have he : x = f := by simpa using congrArg List.head? e
          have hxm : x ∈ fs.filter fun f => decide ¬f.a = f.d := by rw [hx]; simp
          exact (by simpa using (List.mem_filter.1 hxm).2 : ¬ x.a = x.d) (he ▸ h)
        refine ⟨hall, ?_⟩
        rw [List.filter_eq_nil_iff.2 (by simpa using hall), List.filter_eq_self.2 (by simpa using hall)]
        rfl
      · rintro ⟨hall, -⟩
        rw [List.filter_eq_nil_iff.2 (by simpa using hall), List.filter_eq_self.2 (by simpa using hall)]
        rfl
    · simp [h]

/-- No panel is lost and none is repeated. -/
theorem quadsFirst_perm (m : Mesh V) : (quadsFirst m).Perm m.faces := by
  have := List.filter_append_perm (fun f : Face => decide (f.a ≠ f.d)) m.faces
  simpa [quadsFirst] using this

/-! ## Examples -/

/-- A triangle, then a quadrangle. -/
def triangleQuad : Mesh ℤ := ⟨[10, 20, 30, 40], [⟨0, 1, 2, 0⟩, ⟨0, 1, 2, 3⟩]⟩

/-- Concrete case of `diodore_round_trip`. -/
example : triangleQuad.Valid ∧ triangleQuad.faces ≠ [] ∧
    ∃ n, loadInp (fun _ => some (writeDat id triangleQuad)) (fun _ => some 5) (suggestedInp "m" "F" triangleQuad) = some n ∧
      n.vertices = [15, 25, 35, 45] ∧
      panels n = [[some 15, some 25, some 35, some 45], [some 15, some 25, some 35, some 15]] := by
  have hv : triangleQuad.Valid := by
    intro f hf i hi
    simp only [triangleQuad, List.mem_cons, List.not_mem_nil, or_false] at hf
    rcases hf with rfl | rfl <;> simp [Face.toList] at hi <;> simp [triangleQuad] <;> omega
  refine ⟨hv, by simp [triangleQuad], ?_⟩
  obtain ⟨n, h1, h2, h3⟩ := diodore_round_trip id triangleQuad hv (by simp [triangleQuad]) "m" "F"
    (fun _ => some (writeDat id triangleQuad)) (fun _ => some 5) 5 rfl rfl
  exact ⟨n, h1, h2, h3⟩

/-- C112 fails for the order of the panels. -/
theorem diodore_order_violated : quadsFirst triangleQuad ≠ triangleQuad.faces := by decide

end Verif.Files.Numbered
