import Verif.Files.RoundProps

/-!
# Reading a Nemoh file (C43)
-/

namespace Verif.Files

open Verif.Geometry Verif.Meshes

/-- A mesh that can be written in a Nemoh file and read again: it has a panel, its coordinates are shorter than their
fields, and its indices too. -/
def MarSafe (m : Mesh (V3 ℚ)) : Prop := m.faces ≠ [] ∧ AllCoords Fits16 m ∧ ∀ f ∈ m.faces, FaceFits f

theorem marVertexLine_words (v : V3 ℚ × ℕ) (h : ∀ x ∈ coords v.1, Fits16 x) :
    textWords (marVertexLine v) = showNat (v.2 + 1) :: (coords v.1).map showFixed :=
  words_line 6 16 _ _ _ (showNat_isWord _) (fun _ _ => showFixed_isWord _) fun x hx => (fits16_iff x).2 (h x hx)

theorem marVertexLine_count (v : V3 ℚ × ℕ) :
    (textWords (marVertexLine v)).length = 4 ↔ ∀ x ∈ coords v.1, Fits16 x := by
  have := words_line_iff 6 16 (showNat (v.2 + 1)) showFixed (coords v.1) (showNat_isWord _)
    (fun _ _ => showFixed_isWord _)
  simp only [fits16_iff] at this
  exact this

theorem marVertexLine_head (v : V3 ℚ × ℕ) :
    ∃ t ts, textWords (marVertexLine v) = (showNat (v.2 + 1) ++ t) :: ts :=
  words_line_head 6 16 _ _ _ (showNat_isWord _) fun _ _ => showFixed_isWord _

theorem marVertexLine_newline (v : V3 ℚ × ℕ) : '\n' ∉ marVertexLine v :=
  append_newline (padLeft_newline (isWord_newline (showNat_isWord _))) (pads_newline fun _ _ => showFixed_isWord _)

theorem mar_zero_words (n : ℕ) (h : 0 < n) :
    textWords ((List.replicate n 0).flatMap fun k => padLeft 6 (showNat k)) = List.replicate n ['0'] := by
  obtain ⟨k, rfl⟩ : ∃ k, n = k + 1 := ⟨n - 1, by omega⟩
  have h0 : showNat 0 = ['0'] := Nat.toDigits_zero 10
  have := words_line 6 6 (showNat 0) showNat (List.replicate k 0) (showNat_isWord _) (fun _ _ => showNat_isWord _)
    (fun x hx => by rw [List.eq_of_mem_replicate hx, h0]; decide)
  rw [List.replicate_succ, List.flatMap_cons, this, List.map_replicate, h0, List.replicate_succ]

theorem marVertices_good (vs : List (V3 ℚ)) (hc : ∀ v ∈ vs, ∀ x ∈ coords v, Fits16 x) (k : ℕ) (z : Text)
    (ts : List Text) (hz : textWords z = ['0'] :: ts) (rest : List Text) :
    marVertices ((vs.zipIdx k).map marVertexLine ++ z :: rest) =
      some (vs.map fun v => (coords v).map fixedValue, rest) := by
  induction vs generalizing k with
  | nil => simp [marVertices, hz]
  | cons v vs ih =>
    have hw := marVertexLine_words (v, k) (hc v (by simp))
    have hne : showNat (k + 1) ≠ ['0'] := by simpa using showNat_not_zero k []
    have hr : ((coords v).map showFixed).mapM readFloat = some ((coords v).map fixedValue) :=
      mapM_all_map _ fun x _ => readFloat_showFixed x
    rw [List.zipIdx_cons, List.map_cons, List.cons_append, marVertices]
    simp only [hw]
    rw [if_neg hne, hr, ih (fun w hw => hc w (by simp [hw]))]
    rfl

theorem marVertices_rows (vs : List (V3 ℚ)) (k : ℕ) (z : Text) (ts : List Text) (hz : textWords z = ['0'] :: ts)
    (rest : List Text) {rows : List (List ℚ)} {rest' : List Text}
    (h : marVertices ((vs.zipIdx k).map marVertexLine ++ z :: rest) = some (rows, rest')) :
    rest' = rest ∧ ((∀ r ∈ rows, r.length = 3) → ∀ v ∈ vs, ∀ x ∈ coords v, Fits16 x) := by
  induction vs generalizing k rows rest' with
  | nil =>
    simp [marVertices, hz] at h
    exact ⟨h.2.symm, fun _ v hv => absurd hv (by simp)⟩
  | cons v vs ih =>
    obtain ⟨t, ws, hw⟩ := marVertexLine_head (v, k)
    have hne := showNat_not_zero k t
    rw [List.zipIdx_cons, List.map_cons, List.cons_append, marVertices] at h
    simp only [hw] at h
    rw [if_neg hne] at h
    split at h
    · rename_i _ r rs' rest'' hr hm
      simp only [Option.some.injEq, Prod.mk.injEq] at h
      obtain ⟨h1, h2⟩ := ih (k + 1) hm
      refine ⟨by rw [← h.2, h1], fun hl w hwm => ?_⟩
      rw [← h.1] at hl
      rcases List.mem_cons.1 hwm with rfl | hwm
      · have := mapM_length_eq hr
        have h3 := hl r (by simp)
        refine (marVertexLine_count (w, k)).1 ?_
        rw [hw, List.length_cons]; omega
      · exact h2 (fun x hx => hl x (by simp [hx])) w hwm
    · exact absurd h (by simp)

theorem marFaces_good (fs : List Face) (hf : ∀ f ∈ fs, FaceFits f) (z : Text) (ts : List Text)
    (hz : textWords z = ['0'] :: ts) (rest : List Text) :
    marFaces (fs.map faceLine ++ z :: rest) = some (fs.map fileRow) := by
  induction fs with
  | nil => simp [marFaces, hz]
  | cons f fs ih =>
    have hw := faceLine_words (hf f (by simp))
    have hne : showNat (f.a + 1) ≠ ['0'] := by simpa using showNat_not_zero f.a []
    have hw' : textWords (faceLine f) = showNat (f.a + 1) :: [showNat (f.b + 1), showNat (f.c + 1), showNat (f.d + 1)] := hw
    have hr := readInt_face f
    rw [List.map_cons, List.cons_append, marFaces]
    simp only [hw']
    rw [if_neg hne]
    have hr' : (showNat (f.a + 1) :: [showNat (f.b + 1), showNat (f.c + 1), showNat (f.d + 1)]).mapM readInt =
      some (fileRow f) := hr
    rw [hr', ih (fun x hx => hf x (by simp [hx]))]
    rfl

theorem faceLine_head (f : Face) : ∃ t ts, textWords (faceLine f) = (showNat (f.a + 1) ++ t) :: ts := by
  rw [faceLine_eq]
  exact words_line_head 10 10 _ _ _ (showNat_isWord _) fun _ _ => showNat_isWord _

theorem marFaces_rows (fs : List Face) (z : Text) (rest : List Text) {rows : List (List ℤ)}
    (h : marFaces (fs.map faceLine ++ z :: rest) = some rows) (hl : ∀ r ∈ rows, r.length = 4) :
    ∀ f ∈ fs, FaceFits f := by
  induction fs generalizing rows with
  | nil => intro f hf; exact absurd hf (by simp)
  | cons f fs ih =>
    obtain ⟨t, ws, hw⟩ := faceLine_head f
    have hne := showNat_not_zero f.a t
    rw [List.map_cons, List.cons_append, marFaces] at h
    simp only [hw] at h
    rw [if_neg hne] at h
    split at h
    · rename_i r rs' hr hm
      simp only [Option.some.injEq] at h
      subst h
      intro g hg
      rcases List.mem_cons.1 hg with rfl | hg
      · have := mapM_length_eq hr
        have h3 := hl r (by simp)
        refine (faceLine_count g).1 ?_
        rw [hw]; omega
      · exact ih hm (fun x hx => hl x (by simp [hx])) g hg
    · exact absurd h (by simp)

/-- The lines of a Nemoh file. -/
theorem mar_lines (m : Mesh (V3 ℚ)) : textLines (writeMAR m) =
    (padLeft 6 (showNat 2) ++ padLeft 6 (showNat 0)) :: (m.vertices.zipIdx.map marVertexLine ++
      ((List.replicate 5 0).flatMap fun n => padLeft 6 (showNat n)) :: (blockLines (m.faces.map faceLine) ++
        [(List.replicate 4 0).flatMap fun n => padLeft 6 (showNat n)])) := by
  rw [writeMAR, textLines_unlines]
  · simp
  · intro l hl
    simp only [List.append_assoc, List.mem_append, List.mem_singleton] at hl
    rcases hl with rfl | hl | rfl | hl | rfl
    · exact append_newline (padLeft_newline (isWord_newline (showNat_isWord _)))
        (padLeft_newline (isWord_newline (showNat_isWord _)))
    · obtain ⟨v, -, rfl⟩ := List.mem_map.1 hl
      exact marVertexLine_newline v
    · exact pads_newline fun _ _ => showNat_isWord _
    · unfold blockLines at hl
      split at hl
      · rw [List.mem_singleton] at hl; subst hl; simp
      · obtain ⟨f, -, rfl⟩ := List.mem_map.1 hl
        exact faceLine_newline f
    · exact pads_newline fun _ _ => showNat_isWord _

theorem mar_header : textWords (padLeft 6 (showNat 2) ++ padLeft 6 (showNat 0)) = [showNat 2, showNat 0] := by
  have := words_line 6 6 (showNat 2) showNat [0] (showNat_isWord _) (fun _ _ => showNat_isWord _)
    (fun x hx => by rw [List.mem_singleton] at hx; subst hx; decide)
  simpa using this

theorem mar_read {m : Mesh (V3 ℚ)} (hv : m.Valid) (hs : MarSafe m) :
    loadMAR (writeMAR m) = some ⟨mapMesh fixedValue m, false, false⟩ := by
  have hb : blockLines (m.faces.map faceLine) = m.faces.map faceLine := by
    unfold blockLines; rw [if_neg (by simpa using hs.1)]
  have z5 : textWords ((List.replicate 5 0).flatMap fun n => padLeft 6 (showNat n)) = ['0'] :: List.replicate 4 ['0'] :=
    mar_zero_words 5 (by norm_num)
  have z4 : textWords ((List.replicate 4 0).flatMap fun n => padLeft 6 (showNat n)) = ['0'] :: List.replicate 3 ['0'] :=
    mar_zero_words 4 (by norm_num)
  have h1 := marVertices_good m.vertices (fun v hv => allCoords_mem hs.2.1 hv) 0 _ _ z5
    (m.faces.map faceLine ++ [(List.replicate 4 0).flatMap fun n => padLeft 6 (showNat n)])
  have h2 := marFaces_good m.faces hs.2.2 _ _ z4 []
  have hk : readInt (showNat 0) = some ((0 : ℕ) : ℤ) := readInt_showNat 0
  unfold loadMAR
  rw [mar_lines, hb]
  simp only
  rw [mar_header]
  simp only
  rw [h1]
  simp only
  rw [h2]
  simp only
  rw [mkMesh_good fixedValue m hv, hk]
  simp

/-- **C43 (Nemoh).** Reading a Nemoh file written from a mesh gives the same faces on the vertices rounded to six digits
after the point. -/
theorem nemoh_round_trip {m : Mesh (V3 ℚ)} (hv : m.Valid) (hs : MarSafe m) :
    ∃ m', loadMAR (writeMAR m) = some ⟨m', false, false⟩ ∧ SameMesh Rounded6 m m' :=
  ⟨_, mar_read hv hs, sameMesh_map fixed_rounded m⟩

/-- **C43 (Nemoh).** The file cannot be read again exactly when the mesh has no panel, or when a coordinate or an index
fills its field. -/
theorem nemoh_readable_iff {m : Mesh (V3 ℚ)} (hv : m.Valid) : (loadMAR (writeMAR m)).isSome ↔ MarSafe m := by
  refine ⟨fun h => ?_, fun h => by rw [mar_read hv h]; rfl⟩
  obtain ⟨r, hr⟩ := Option.isSome_iff_exists.1 h
  have z5 : textWords ((List.replicate 5 0).flatMap fun n => padLeft 6 (showNat n)) = ['0'] :: List.replicate 4 ['0'] :=
    mar_zero_words 5 (by norm_num)
  unfold loadMAR at hr
  rw [mar_lines] at hr
  simp only at hr
  rw [mar_header] at hr
  simp only at hr
  split at hr
  · exact absurd hr (by simp)
  · rename_i rows rest h1
    obtain ⟨h3, h4⟩ := marVertices_rows m.vertices 0 _ _ z5 _ h1
    split at hr
    · exact absurd hr (by simp)
    · rename_i faces h2
      rw [h3] at h2
      split at hr
      · rename_i k m' hk hm
        obtain ⟨l1, l2⟩ := mkMesh_lengths hm
        have hne : m.faces ≠ [] := by
          intro he
          rw [he] at h2
          simp [blockLines, marFaces, textWords, wordsFrom] at h2
        have hb : blockLines (m.faces.map faceLine) = m.faces.map faceLine := by
          unfold blockLines; rw [if_neg (by simpa using hne)]
        rw [hb] at h2
        refine ⟨hne, ?_, marFaces_rows m.faces _ [] h2 (minusOne_length l2)⟩
        intro v hvm
        have := h4 l1 v hvm
        simpa [coords] using this
      · exact absurd hr (by simp)

/-- The coordinates of a hull in meters are shorter than their fields. -/
example (m : Mesh (V3 ℚ)) (hne : m.faces ≠ []) (h : AllCoords (fun x => |x| ≤ 10 ^ 6) m) (hn : m.vertices.length < 10 ^ 9)
    (hv : m.Valid) : MarSafe m := by
  have fits : ∀ x : ℚ, |x| ≤ 10 ^ 6 → Fits16 x := by
    intro x hx
    rw [abs_le] at hx
    exact ⟨by norm_num at hx ⊢; linarith [hx.1], by norm_num at hx ⊢; linarith [hx.2]⟩
  refine ⟨hne, fun v hvm => ?_, fun f hf => ?_⟩
  · obtain ⟨h1, h2, h3⟩ := h v hvm
    exact ⟨fits _ h1, fits _ h2, fits _ h3⟩
  · have hi := hv f hf
    simp only [Face.toList, List.mem_cons, List.not_mem_nil, or_false, forall_eq_or_imp, forall_eq] at hi
    unfold FaceFits; omega

/-- A square panel, two meters under the surface, is written and read again. -/
example : ∃ m', loadMAR (writeMAR ⟨[⟨0, 0, -2⟩, ⟨1 / 3, 0, -2⟩, ⟨1, 1, -2⟩, ⟨0, 1, -2⟩], [⟨0, 1, 2, 3⟩]⟩) =
    some ⟨m', false, false⟩ ∧ m'.faces = [⟨0, 1, 2, 3⟩] := by
  obtain ⟨m', h, h'⟩ := nemoh_round_trip (m := ⟨[⟨0, 0, -2⟩, ⟨1 / 3, 0, -2⟩, ⟨1, 1, -2⟩, ⟨0, 1, -2⟩], [⟨0, 1, 2, 3⟩]⟩)
    (by intro f hf; simp at hf; subst hf; simp [Face.toList])
    ⟨by simp, by simp [AllCoords, Fits16]; norm_num, by simp [FaceFits]⟩
  exact ⟨m', h, h'.1⟩

/-- **C43 (Nemoh), violated.** A mesh with a coordinate of one hundred million cannot be read again. -/
theorem nemoh_round_trip_violated :
    loadMAR (writeMAR ⟨[⟨0, 0, 0⟩, ⟨100000000, 0, 0⟩, ⟨0, 1, 0⟩], [⟨0, 1, 2, 0⟩]⟩) = none := by
  by_contra h
  have := (nemoh_readable_iff (m := ⟨[⟨0, 0, 0⟩, ⟨100000000, 0, 0⟩, ⟨0, 1, 0⟩], [⟨0, 1, 2, 0⟩]⟩)
    (by intro f hf; simp at hf; subst hf; simp [Face.toList])).1 (Option.isSome_iff_ne_none.2 h)
  have := (this.2.1 ⟨100000000, 0, 0⟩ (by simp)).1.2
  norm_num at this

end Verif.Files
