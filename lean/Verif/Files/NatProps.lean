import Verif.Files.RoundProps

/-!
# Reading NAT and NEM files (C43)
-/

namespace Verif.Files

open Verif.Geometry Verif.Meshes

theorem rowWords_append (a b : List Text) : rowWords a.length (a ++ b) = a.map textWords := by
  unfold rowWords
  apply List.ext_getElem
  · simp
  · intro i h1 h2
    have hi : i < a.length := by simpa using h2
    simp [List.getD_eq_getElem?_getD, List.getElem?_append_left hi, List.getElem?_eq_getElem hi]

theorem rowWords_mem {n i : ℕ} (h : i < n) (ls : List Text) : textWords (ls.getD i []) ∈ rowWords n ls :=
  List.mem_map.2 ⟨i, List.mem_range.2 h, rfl⟩

theorem rowWords_none {A : Type} {f : Text → Option A} {n i : ℕ} (h : i < n) {ls : List Text} {rows : List (List A)}
    (hr : (rowWords n ls).mapM (fun r => r.mapM f) = some rows) :
    ∃ r ∈ rows, r.length = (textWords (ls.getD i [])).length := by
  obtain ⟨r, hm, hf⟩ := mapM_pre hr (rowWords_mem h ls)
  exact ⟨r, hm, mapM_length_eq hf⟩

/-! ## NEM -/

/-- The fields of a line with tabulations. -/
def tabFields : List (Text × Text) → List (Text × Text)
  | [] => []
  | f :: fs => f :: fs.map fun x => ('\t' :: x.1, x.2)

theorem tabbed_line (fs : List (Text × Text)) : tabbed (fs.map fun f => f.1 ++ f.2) = fieldLine (tabFields fs) := by
  induction fs with
  | nil => rfl
  | cons f fs ih =>
    cases fs with
    | nil => simp [tabbed, tabFields, fieldLine]
    | cons g gs =>
      simp only [List.map_cons] at ih ⊢
      rw [tabbed, ih]
      · simp [tabFields, fieldLine]
      · simp

theorem tabbed_pad {A : Type} (w : ℕ) (g : A → Text) (l : List A) :
    tabbed (l.map fun x => padLeft w (g x)) = fieldLine (tabFields (padFields w g l)) := by
  rw [← tabbed_line]
  simp [padFields, padField_eq, Function.comp_def]

theorem tabFields_good {fs : List (Text × Text)} (h : GoodFields fs) : GoodFields (tabFields fs) := by
  cases fs with
  | nil => exact h
  | cons f fs =>
    refine GoodFields.cons (h f (by simp)) ?_
    intro x hx
    obtain ⟨y, hy, rfl⟩ := List.mem_map.1 hx
    have := h y (by simp [hy])
    refine ⟨fun c hc => ?_, this.2⟩
    rcases List.mem_cons.1 hc with rfl | hc
    · decide
    · exact this.1 c hc

/-- The fields separated by tabulations are always read one by one. -/
theorem tabbed_words {A : Type} (w : ℕ) (g : A → Text) (l : List A) (h : ∀ x ∈ l, IsWord (g x)) :
    textWords (tabbed (l.map fun x => padLeft w (g x))) = l.map g := by
  rw [tabbed_pad]
  cases l with
  | nil => rfl
  | cons a l =>
    have hg := tabFields_good (padFields_good (w := w) h)
    have : tabFields (padFields w g (a :: l)) =
        padField w (g a) :: (padFields w g l).map fun x => ('\t' :: x.1, x.2) := rfl
    rw [this] at hg ⊢
    rw [textWords_fields _ _ hg (fun x hx => by obtain ⟨y, -, rfl⟩ := List.mem_map.1 hx; simp)]
    simp [padField, padFields]

theorem tabbed_newline (ws : List Text) (h : ∀ w ∈ ws, '\n' ∉ w) : '\n' ∉ tabbed ws := by
  induction ws with
  | nil => simp [tabbed]
  | cons w ws ih =>
    cases ws with
    | nil => simpa [tabbed] using h w (by simp)
    | cons v vs =>
      rw [tabbed]
      · refine append_newline (h w (by simp)) ?_
        rw [List.mem_cons]
        rintro (hc | hc)
        · exact absurd hc (by decide)
        · exact ih (fun x hx => h x (by simp [hx])) hc
      · simp

theorem readIntLine_showNat (n : ℕ) : readIntLine (showNat n) = some (n : ℤ) := by
  have : textWords (showNat n) = [showNat n] := by
    have h := textWords_fields ([], showNat n) [] (by
      intro f hf; rw [List.mem_singleton] at hf; subst hf
      exact ⟨fun c hc => absurd hc (by simp), showNat_isWord n⟩) (by simp)
    simpa [fieldLine] using h
  rw [readIntLine, this]
  exact readInt_showNat n

theorem nem_lines (m : Mesh (V3 ℚ)) : textLines (writeNEM m) =
    showNat m.vertices.length :: showNat m.faces.length ::
    ((m.vertices.map fun v => tabbed ((coords v).map fun x => padLeft 15 (showFixed x))) ++
      m.faces.map fun f => tabbed (f.toList.map fun i => padLeft 10 (showNat (i + 1)))) := by
  rw [writeNEM, textLines_unlines]
  · simp
  · intro l hl
    simp only [List.mem_append, List.mem_cons, List.not_mem_nil, or_false, List.mem_map] at hl
    rcases hl with ((rfl | rfl) | ⟨v, -, rfl⟩) | ⟨f, -, rfl⟩
    · exact isWord_newline (showNat_isWord _)
    · exact isWord_newline (showNat_isWord _)
    · refine tabbed_newline _ fun w hw => ?_
      obtain ⟨x, -, rfl⟩ := List.mem_map.1 hw
      exact padLeft_newline (isWord_newline (showFixed_isWord _))
    · refine tabbed_newline _ fun w hw => ?_
      obtain ⟨x, -, rfl⟩ := List.mem_map.1 hw
      exact padLeft_newline (isWord_newline (showNat_isWord _))

theorem nem_read {m : Mesh (V3 ℚ)} (hv : m.Valid) :
    loadNEM (writeNEM m) = some ⟨mapMesh fixedValue m, false, false⟩ := by
  set V := m.vertices.map fun v => tabbed ((coords v).map fun x => padLeft 15 (showFixed x)) with hV
  set F := m.faces.map fun f => tabbed (f.toList.map fun i => padLeft 10 (showNat (i + 1))) with hF
  have lV : V.length = m.vertices.length := by simp [hV]
  have lF : F.length = m.faces.length := by simp [hF]
  have r1 : (rowWords m.vertices.length (V ++ F)).mapM (fun r => r.mapM readFloat) =
      some (m.vertices.map fun v => (coords v).map fixedValue) := by
    rw [← lV, rowWords_append, hV, List.map_map]
    refine mapM_all_map _ fun v _ => ?_
    simp only [Function.comp]
    rw [tabbed_words 15 showFixed _ (fun _ _ => showFixed_isWord _)]
    exact mapM_all_map _ fun x _ => readFloat_showFixed x
  have r2 : (rowWords m.faces.length F).mapM (fun r => r.mapM readInt) = some (m.faces.map fileRow) := by
    have := rowWords_append F []
    rw [List.append_nil, lF] at this
    rw [this, hF, List.map_map]
    refine mapM_all_map _ fun f _ => ?_
    simp only [Function.comp]
    rw [tabbed_words 10 (fun i => showNat (i + 1)) _ (fun _ _ => showNat_isWord _)]
    exact readInt_face f
  unfold loadNEM
  rw [nem_lines, ← hV, ← hF]
  simp only [List.getD_cons_zero, List.getD_cons_succ, readIntLine_showNat, Int.toNat_natCast, List.drop_succ_cons,
    List.drop_zero]
  rw [r1, show 2 + m.vertices.length = m.vertices.length + 1 + 1 by omega, List.drop_succ_cons, List.drop_succ_cons, ← lV,
    List.drop_left, r2]
  simp only
  rw [mkMesh_good fixedValue m hv]
  rfl

/-- **C43 (NEM).** Reading a NEM file written from any mesh gives the same faces on the vertices rounded to six digits
after the point. -/
theorem nem_round_trip {m : Mesh (V3 ℚ)} (hv : m.Valid) :
    ∃ m', loadNEM (writeNEM m) = some ⟨m', false, false⟩ ∧ SameMesh Rounded6 m m' :=
  ⟨_, nem_read hv, sameMesh_map fixed_rounded m⟩

/-- A very large triangle is written and read again. -/
example : ∃ m', loadNEM (writeNEM ⟨[⟨0, 0, 0⟩, ⟨10 ^ 20, 0, 0⟩, ⟨-10 ^ 30, 1, 0⟩], [⟨0, 1, 2, 0⟩]⟩) =
    some ⟨m', false, false⟩ ∧ m'.faces = [⟨0, 1, 2, 0⟩] := by
  obtain ⟨m', h, h'⟩ := nem_round_trip (m := ⟨[⟨0, 0, 0⟩, ⟨10 ^ 20, 0, 0⟩, ⟨-10 ^ 30, 1, 0⟩], [⟨0, 1, 2, 0⟩]⟩)
    (by intro f hf; simp at hf; subst hf; simp [Face.toList])
  exact ⟨m', h, h'.1⟩

/-! ## NAT -/

/-- A mesh that can be written in a NAT file and read again. -/
def NatSafe (m : Mesh (V3 ℚ)) : Prop :=
  3 ≤ m.vertices.length ∧ 4 ≤ m.faces.length ∧ m.faces.length < 10 ^ 5 ∧ ∀ f ∈ m.faces, FaceFits f

theorem sciLine_words {w : ℕ} (hw : 14 < w) (v : V3 ℚ) (h : ∀ x ∈ coords v, InRange x) :
    textWords ((coords v).flatMap fun x => padLeft w (showSci x)) = (coords v).map showSci := by
  have := words_line w w (showSci v.x) showSci [v.y, v.z] (showSci_isWord _) (fun _ _ => showSci_isWord _)
    (fun x hx => lt_of_le_of_lt (inRange_short (h x (by simp [coords] at hx ⊢; tauto))) hw)
  simpa [coords] using this

theorem nat_lines (m : Mesh (V3 ℚ)) : textLines (writeNAT m) =
    (padLeft 6 (showNat 0) ++ padLeft 6 (showNat 0)) ::
    (padLeft 6 (showNat (max m.vertices.length 3)) ++ padLeft 6 (showNat (max m.faces.length 4))) ::
    ((m.vertices.map fun v => (coords v).flatMap fun x => padLeft 15 (showSci x)) ++ m.faces.map faceLine) := by
  rw [writeNAT, textLines_unlines]
  · simp
  · intro l hl
    simp only [List.mem_append, List.mem_cons, List.not_mem_nil, or_false, List.mem_map] at hl
    rcases hl with ((rfl | rfl) | ⟨v, -, rfl⟩) | ⟨f, -, rfl⟩
    · exact append_newline (padLeft_newline (isWord_newline (showNat_isWord _)))
        (padLeft_newline (isWord_newline (showNat_isWord _)))
    · exact append_newline (padLeft_newline (isWord_newline (showNat_isWord _)))
        (padLeft_newline (isWord_newline (showNat_isWord _)))
    · exact pads_newline fun _ _ => showSci_isWord _
    · exact faceLine_newline f

theorem nat_header (a b : ℕ) :
    (b < 10 ^ 5 → textWords (padLeft 6 (showNat a) ++ padLeft 6 (showNat b)) = [showNat a, showNat b]) ∧
    ((textWords (padLeft 6 (showNat a) ++ padLeft 6 (showNat b))).length = 2 → b < 10 ^ 5) := by
  have hs : (showNat b).length < 6 ↔ b < 10 ^ 5 := by rw [← showNat_length (by norm_num)]; omega
  have h1 := words_line 6 6 (showNat a) showNat [b] (showNat_isWord _) (fun _ _ => showNat_isWord _)
  have h2 := words_line_iff 6 6 (showNat a) showNat [b] (showNat_isWord _) (fun _ _ => showNat_isWord _)
  simp only [List.flatMap_singleton, List.mem_singleton, forall_eq, List.map_cons, List.map_nil, List.length_singleton,
    hs] at h1 h2
  exact ⟨h1, h2.1⟩

theorem nat_read {m : Mesh (V3 ℚ)} (hv : m.Valid) (hr : AllCoords InRange m) (hs : NatSafe m) :
    loadNAT (writeNAT m) = some ⟨mapMesh sciValue m, false, false⟩ := by
  obtain ⟨hnv, hnf, hn5, hf⟩ := hs
  set V := m.vertices.map fun v => (coords v).flatMap fun x => padLeft 15 (showSci x) with hV
  set F := m.faces.map faceLine with hF
  have lV : V.length = m.vertices.length := by simp [hV]
  have lF : F.length = m.faces.length := by simp [hF]
  have r1 : (rowWords m.vertices.length (V ++ F)).mapM (fun r => r.mapM readFloat) =
      some (m.vertices.map fun v => (coords v).map sciValue) := by
    rw [← lV, rowWords_append, hV, List.map_map]
    refine mapM_all_map _ fun v hvm => ?_
    simp only [Function.comp]
    rw [sciLine_words (by norm_num) v (allCoords_mem hr hvm)]
    exact mapM_all_map _ fun x _ => readFloat_showSci x
  have r2 : (rowWords m.faces.length F).mapM (fun r => r.mapM readInt) = some (m.faces.map fileRow) := by
    have := rowWords_append F []
    rw [List.append_nil, lF] at this
    rw [this, hF, List.map_map]
    refine mapM_all_map _ fun f hfm => ?_
    simp only [Function.comp]
    rw [faceLine_words (hf f hfm)]
    exact readInt_face f
  have hh := (nat_header m.vertices.length m.faces.length).1 hn5
  have hi : [showNat m.vertices.length, showNat m.faces.length].mapM readInt =
      some [(m.vertices.length : ℤ), (m.faces.length : ℤ)] := by
    have := mapM_all_map (f := readInt) (g := showNat) (h := fun n : ℕ => (n : ℤ))
      [m.vertices.length, m.faces.length] (fun n _ => readInt_showNat n)
    simpa using this
  unfold loadNAT
  rw [nat_lines, ← hV, ← hF, max_eq_left hnv, max_eq_left hnf]
  simp only [List.getD_cons_zero, List.getD_cons_succ, hh, hi, Int.toNat_natCast, List.drop_succ_cons,
    List.drop_zero]
  rw [r1, show 2 + m.vertices.length = m.vertices.length + 1 + 1 by omega, List.drop_succ_cons, List.drop_succ_cons, ← lV,
    List.drop_left, r2]
  simp only
  rw [mkMesh_good sciValue m hv]
  rfl

/-- **C43 (NAT).** Reading a NAT file written from a mesh gives the same faces on the vertices rounded to seven
significant digits. -/
theorem nat_round_trip {m : Mesh (V3 ℚ)} (hv : m.Valid) (hr : AllCoords InRange m) (hs : NatSafe m) :
    ∃ m', loadNAT (writeNAT m) = some ⟨m', false, false⟩ ∧ SameMesh Digits7 m m' :=
  ⟨_, nat_read hv hr hs, sameMesh_map sci_rounded m⟩

/-- **C43 (NAT).** The file cannot be read again exactly when the mesh has less than three vertices or less than four
panels, or one hundred thousand panels or more, or when an index fills its field. -/
theorem nat_readable_iff {m : Mesh (V3 ℚ)} (hv : m.Valid) (hr : AllCoords InRange m) :
    (loadNAT (writeNAT m)).isSome ↔ NatSafe m := by
  refine ⟨fun h => ?_, fun h => by rw [nat_read hv hr h]; rfl⟩
  obtain ⟨res, hres⟩ := Option.isSome_iff_exists.1 h
  unfold loadNAT at hres
  rw [nat_lines] at hres
  set V := m.vertices.map fun v => (coords v).flatMap fun x => padLeft 15 (showSci x) with hV
  set F := m.faces.map faceLine with hF
  have lV : V.length = m.vertices.length := by simp [hV]
  have lF : F.length = m.faces.length := by simp [hF]
  simp only [List.getD_cons_zero, List.getD_cons_succ, List.drop_succ_cons, List.drop_zero] at hres
  split at hres
  · rename_i nv nf hh
    have hlen := mapM_length_eq hh
    simp only [List.length_cons, List.length_nil] at hlen
    have hn5 := (nat_header (max m.vertices.length 3) (max m.faces.length 4)).2 hlen.symm
    have hw := (nat_header (max m.vertices.length 3) (max m.faces.length 4)).1 hn5
    have hi : [showNat (max m.vertices.length 3), showNat (max m.faces.length 4)].mapM readInt =
        some [((max m.vertices.length 3 : ℕ) : ℤ), ((max m.faces.length 4 : ℕ) : ℤ)] := by
      have := mapM_all_map (f := readInt) (g := showNat) (h := fun n : ℕ => (n : ℤ))
        [max m.vertices.length 3, max m.faces.length 4] (fun n _ => readInt_showNat n)
      simpa using this
    rw [hw, hi] at hh
    simp only [Option.some.injEq, List.cons.injEq, and_true] at hh
    have e1 : nv.toNat = max m.vertices.length 3 := by rw [← hh.1, Int.toNat_natCast]
    have e2 : nf.toNat = max m.faces.length 4 := by rw [← hh.2, Int.toNat_natCast]
    rw [e1, e2] at hres
    split at hres
    · rename_i rows faces h1 h2
      cases hm : mkMesh rows (minusOne faces) with
      | none => rw [hm] at hres; exact absurd hres (by simp)
      | some m' =>
        obtain ⟨l1, l2⟩ := mkMesh_lengths hm
        have l2 := minusOne_length l2
        have hnv : 3 ≤ m.vertices.length := by
          by_contra hlt
          rw [not_le] at hlt
          obtain ⟨r, hrm, hrl⟩ := rowWords_none (i := m.vertices.length) (by omega) h1
          rw [l1 r hrm, List.getD_eq_getElem?_getD, List.getElem?_append_right (by omega), lV, Nat.sub_self] at hrl
          cases hfs : m.faces with
          | nil => rw [hF, hfs] at hrl; simp [textWords, wordsFrom] at hrl
          | cons f fs =>
            rw [hF, hfs] at hrl
            simp only [List.map_cons, List.getElem?_cons_zero, Option.getD_some] at hrl
            have hfits : FaceFits f := by
              have hlt' := hv f (by simp [hfs])
              simp only [Face.toList, List.mem_cons, List.not_mem_nil, or_false, forall_eq_or_imp, forall_eq] at hlt'
              unfold FaceFits; omega
            rw [(faceLine_count f).2 hfits] at hrl
            omega
        rw [max_eq_left hnv, show 2 + m.vertices.length = m.vertices.length + 1 + 1 by omega, List.drop_succ_cons,
          List.drop_succ_cons, ← lV, List.drop_left] at h2
        have row : ∀ i, i < max m.faces.length 4 → (textWords (F.getD i [])).length = 4 := by
          intro i hi
          obtain ⟨r, hrm, hrl⟩ := rowWords_none hi h2
          rw [← hrl]; exact l2 r hrm
        have hnf : 4 ≤ m.faces.length := by
          by_contra hlt
          rw [not_le] at hlt
          have := row m.faces.length (by omega)
          rw [List.getD_eq_getElem?_getD, List.getElem?_eq_none (by omega)] at this
          simp [textWords, wordsFrom] at this
        refine ⟨hnv, hnf, lt_of_le_of_lt (le_max_left _ _) hn5, fun f hf => ?_⟩
        obtain ⟨i, hi, rfl⟩ := List.mem_iff_getElem.1 hf
        have := row i (by omega)
        rw [List.getD_eq_getElem?_getD, hF, List.getElem?_map, List.getElem?_eq_getElem hi] at this
        exact (faceLine_count _).1 this
    · exact absurd hres (by simp)
  · exact absurd hres (by simp)

/-- A pyramid with four triangles is written and read again. -/
example : ∃ m', loadNAT (writeNAT ⟨[⟨1, 1, 0⟩, ⟨-1, 1, 0⟩, ⟨-1, -1, 0⟩, ⟨1, -1, 0⟩, ⟨0, 0, -1 / 3⟩],
    [⟨0, 1, 4, 0⟩, ⟨1, 2, 4, 1⟩, ⟨2, 3, 4, 2⟩, ⟨3, 0, 4, 3⟩]⟩) = some ⟨m', false, false⟩ ∧ m'.faces.length = 4 := by
  obtain ⟨m', h, h'⟩ := nat_round_trip (m := ⟨[⟨1, 1, 0⟩, ⟨-1, 1, 0⟩, ⟨-1, -1, 0⟩, ⟨1, -1, 0⟩, ⟨0, 0, -1 / 3⟩],
    [⟨0, 1, 4, 0⟩, ⟨1, 2, 4, 1⟩, ⟨2, 3, 4, 2⟩, ⟨3, 0, 4, 3⟩]⟩)
    (by intro f hf; simp at hf; rcases hf with rfl | rfl | rfl | rfl <;> simp [Face.toList])
    (by
      intro v hv
      simp only [List.mem_cons, List.not_mem_nil, or_false] at hv
      rcases hv with rfl | rfl | rfl | rfl | rfl <;> refine ⟨?_, ?_, ?_⟩ <;>
        first
          | exact Or.inl rfl
          | exact inRange_usual (Or.inr ⟨by norm_num [abs_of_neg, abs_of_pos], by norm_num [abs_of_neg, abs_of_pos]⟩))
    ⟨by simp, by simp, by simp, by simp [FaceFits]⟩
  exact ⟨m', h, by rw [h'.1]; rfl⟩

/-- **C43 (NAT), violated.** A mesh of a single panel cannot be read again. -/
theorem nat_round_trip_violated :
    loadNAT (writeNAT ⟨[⟨0, 0, 0⟩, ⟨1, 0, 0⟩, ⟨0, 1, 0⟩], [⟨0, 1, 2, 0⟩]⟩) = none := by
  by_contra h
  have := (nat_readable_iff (m := ⟨[⟨0, 0, 0⟩, ⟨1, 0, 0⟩, ⟨0, 1, 0⟩], [⟨0, 1, 2, 0⟩]⟩)
    (by intro f hf; simp at hf; subst hf; simp [Face.toList])
    (by
      intro v hv
      simp only [List.mem_cons, List.not_mem_nil, or_false] at hv
      rcases hv with rfl | rfl | rfl <;> refine ⟨?_, ?_, ?_⟩ <;>
        first
          | exact Or.inl rfl
          | exact inRange_usual (Or.inr ⟨by norm_num, by norm_num⟩))).1 (Option.isSome_iff_ne_none.2 h)
  have := this.2.1
  norm_num at this

end Verif.Files
