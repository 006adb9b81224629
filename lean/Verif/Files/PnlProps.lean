import Verif.Files.NatProps

/-!
# Reading a HAMS file (C43)
-/

namespace Verif.Files

open Verif.Geometry Verif.Meshes

/-- The indices of a panel written in a HAMS file are shorter than their fields: the last one is not written when it is
the same as the one before. -/
def PnlFits (f : Face) : Prop := f.a + 1 < 10 ^ 9 ∧ f.b + 1 < 10 ^ 9 ∧ f.c + 1 < 10 ^ 9 ∧ f.d + 1 < 10 ^ 9

/-- A mesh that can be written in a HAMS file and read again. -/
def PnlSafe (m : Mesh (V3 ℚ)) : Prop :=
  m.vertices.length ≠ 1 ∧ AllCoords Fits18 m ∧ ∀ f ∈ m.faces, PnlFits f

theorem pnlVertexLine_words (v : V3 ℚ × ℕ) (h : ∀ x ∈ coords v.1, Fits18 x) :
    textWords (pnlVertexLine v) = showNat (v.2 + 1) :: (coords v.1).map showFixed :=
  words_line 5 18 _ _ _ (showNat_isWord _) (fun _ _ => showFixed_isWord _) fun x hx => (fits18_iff x).2 (h x hx)

theorem pnlVertexLine_count (v : V3 ℚ × ℕ) :
    (textWords (pnlVertexLine v)).length = 4 ↔ ∀ x ∈ coords v.1, Fits18 x := by
  have := words_line_iff 5 18 (showNat (v.2 + 1)) showFixed (coords v.1) (showNat_isWord _)
    (fun _ _ => showFixed_isWord _)
  simp only [fits18_iff] at this
  exact this

theorem pnlVertexLine_le (v : V3 ℚ × ℕ) : (textWords (pnlVertexLine v)).length ≤ 4 :=
  words_line_le 5 18 (showNat (v.2 + 1)) showFixed (coords v.1) (showNat_isWord _) fun _ _ => showFixed_isWord _

/-- The fields of a line of a panel. -/
def pnlFields (n i : ℕ) (l : List ℕ) : List (Text × Text) :=
  padField 5 (showNat (i + 1)) :: padField 5 (showNat n) :: padFields 10 (fun i => showNat (i + 1)) l

/-- The corners that are written. -/
def pnlCorners (f : Face) : List ℕ := if f.c = f.d then [f.a, f.b, f.c] else f.toList

theorem pnlFaceLine_eq (f : Face × ℕ) :
    pnlFaceLine f = fieldLine (pnlFields (pnlCorners f.1).length f.2 (pnlCorners f.1)) := by
  unfold pnlFaceLine pnlCorners
  split_ifs
  · rw [padFields_line]; simp [pnlFields, fieldLine, padField_eq]
  · rw [padFields_line]; simp [pnlFields, fieldLine, padField_eq, Face.toList]

theorem pnlFields_good (n i : ℕ) (l : List ℕ) : GoodFields (pnlFields n i l) :=
  ((padFields_good fun _ _ => showNat_isWord _).cons ⟨padField_blank _ _, showNat_isWord _⟩).cons
    ⟨padField_blank _ _, showNat_isWord _⟩

theorem pnlFits_iff (f : Face) : PnlFits f ↔ ∀ i ∈ pnlCorners f, (showNat (i + 1)).length < 10 := by
  unfold pnlCorners PnlFits
  split_ifs with h
  · simp [showNat_short9, h]
  · simp [showNat_short9, Face.toList]

theorem pnlCorners_length (f : Face) : (pnlCorners f).length = 3 ∨ (pnlCorners f).length = 4 := by
  unfold pnlCorners; split_ifs <;> simp [Face.toList]

theorem pnl_seps (f : Face × ℕ) :
    (∀ x ∈ padField 5 (showNat (pnlCorners f.1).length) :: padFields 10 (fun i => showNat (i + 1)) (pnlCorners f.1),
      x.1 ≠ []) ↔ PnlFits f.1 := by
  rw [List.forall_mem_cons, padFields_sep, ← pnlFits_iff, padField_sep]
  refine and_iff_right ?_
  rcases pnlCorners_length f.1 with h | h <;> rw [h] <;> decide

theorem pnlFaceLine_words (f : Face × ℕ) (h : PnlFits f.1) : textWords (pnlFaceLine f) =
    ([f.2 + 1, (pnlCorners f.1).length] ++ (pnlCorners f.1).map (· + 1)).map showNat := by
  rw [pnlFaceLine_eq, pnlFields, textWords_fields _ _ (pnlFields_good _ _ _) ((pnl_seps f).2 h)]
  simp [padField, padFields]

theorem pnlFaceLine_count (f : Face × ℕ) :
    (textWords (pnlFaceLine f)).length = 2 + (pnlCorners f.1).length ↔ PnlFits f.1 := by
  have := textWords_all_iff _ _ (pnlFields_good (pnlCorners f.1).length f.2 (pnlCorners f.1))
  rw [pnl_seps f] at this
  rw [pnlFaceLine_eq, ← this, pnlFields]
  simp only [List.length_cons, padFields, List.length_map]
  omega

theorem pnlFace_good (f : Face × ℕ) (h : PnlFits f.1) : pnlFace f.2 (textWords (pnlFaceLine f)) = some (fileRow f.1) := by
  have hr : (textWords (pnlFaceLine f)).mapM readInt =
      some (([f.2 + 1, (pnlCorners f.1).length] ++ (pnlCorners f.1).map (· + 1)).map fun n : ℕ => (n : ℤ)) := by
    rw [pnlFaceLine_words f h]
    exact mapM_all_map _ fun n _ => readInt_showNat n
  unfold pnlFace
  rw [hr]
  by_cases hc : f.1.c = f.1.d
  · simp [pnlCorners, hc, fileRow, Face.toList]
  · simp [pnlCorners, hc, fileRow, Face.toList]

theorem textWords_step (f g : Text × Text) (fs : List (Text × Text)) (hg : GoodFields (f :: g :: fs)) (hs : g.1 ≠ []) :
    textWords (fieldLine (f :: g :: fs)) = f.2 :: textWords (fieldLine (g :: fs)) := by
  have hf := hg f (by simp)
  have hg' := hg g (by simp)
  have e1 : fieldLine (f :: g :: fs) = f.1 ++ (f.2 ++ (g.1 ++ (g.2 ++ fieldLine fs))) := by simp [fieldLine]
  have e2 : fieldLine (g :: fs) = g.1 ++ (g.2 ++ fieldLine fs) := by simp [fieldLine]
  rw [textWords, textWords, e1, e2, wordsFrom_blanks _ hf.1, wordsFrom_word _ hf.2.2, List.nil_append,
    wordsFrom_sep _ hg'.1 hs _ hf.2.1, wordsFrom_blanks _ hg'.1]

/-- A number of three or four is not the beginning of a longer number. -/
theorem readInt_prefix {n : ℕ} (hn : 0 < n) {t : Text} {v : ℤ} (h : readInt (showNat n ++ t) = some v) :
    (t = [] ∧ v = n) ∨ (10 : ℤ) * n ≤ v := by
  have hs : takeSign (showNat n ++ t) = (false, showNat n ++ t) := by
    cases h : showNat n with
    | nil => exact absurd h (showNat_ne_nil n)
    | cons c s =>
      have hc : c.isDigit = true := showNat_digits (n := n) (by simp [h])
      have h1 : c ≠ '-' := isDigit_ne hc (by decide)
      have h2 : c ≠ '+' := isDigit_ne hc (by decide)
      rw [List.cons_append]
      unfold takeSign
      split
      · rename_i he; exact absurd (List.cons.inj he).1 h1
      · rename_i he; exact absurd (List.cons.inj he).1 h2
      · rfl
  rw [readInt, hs] at h
  simp only [Bool.false_eq_true, if_false] at h
  rw [readNat] at h
  split at h
  · rw [Nat.ofDigitChars_append, showNat_value, Nat.ofDigitChars_eq_ofDigitChars_zero] at h
    simp only [Option.map_some, Option.some.injEq] at h
    cases t with
    | nil => left; exact ⟨rfl, by rw [← h]; simp⟩
    | cons c s =>
      right
      rw [← h, List.length_cons, pow_succ]
      have : 1 ≤ 10 ^ s.length := Nat.one_le_pow _ _ (by norm_num)
      have h2 : 10 * n ≤ 10 ^ s.length * 10 * n := by nlinarith
      push_cast
      have : ((10 * n : ℕ) : ℤ) ≤ ((10 ^ s.length * 10 * n : ℕ) : ℤ) := by exact_mod_cast h2
      push_cast at this
      omega
  · exact absurd h (by simp)

/-- A row of the array of faces that is not left at zero comes from a panel with separated indices. -/
theorem pnlFace_fits (f : Face × ℕ) {r : List ℤ} (h : pnlFace f.2 (textWords (pnlFaceLine f)) = some r)
    (h0 : r ≠ [0, 0, 0, 0]) : PnlFits f.1 := by
  rw [← pnlFaceLine_count]
  set n := (pnlCorners f.1).length with hn
  have hn34 : n = 3 ∨ n = 4 := pnlCorners_length f.1
  have hsep : (padField 5 (showNat n)).1 ≠ [] := by
    rw [padField_sep]; rcases hn34 with h | h <;> rw [h] <;> decide
  have hgood := pnlFields_good n f.2 (pnlCorners f.1)
  have hstep := textWords_step (padField 5 (showNat (f.2 + 1))) (padField 5 (showNat n))
    (padFields 10 (fun i => showNat (i + 1)) (pnlCorners f.1)) hgood hsep
  obtain ⟨t, ts, ht⟩ := textWords_head (padField 5 (showNat n)) (padFields 10 (fun i => showNat (i + 1)) (pnlCorners f.1))
    (fun x hx => hgood x (by simp only [pnlFields]; exact List.mem_cons_of_mem _ hx))
  have hline : textWords (pnlFaceLine f) = showNat (f.2 + 1) :: (showNat n ++ t) :: ts := by
    rw [pnlFaceLine_eq, pnlFields, hstep, ht]; rfl
  unfold pnlFace at h
  split at h
  · rename_i index corners data hm
    have hlen := mapM_length_eq hm
    rw [hline] at hm hlen
    have hc : readInt (showNat n ++ t) = some corners := by
      have := mapM_forall2 hm
      cases this with
      | cons _ h2 => cases h2 with
        | cons h3 _ => exact h3
    simp only [List.length_cons] at hlen
    have hcor := readInt_prefix (by omega) hc
    rw [hline]
    simp only [List.length_cons]
    split_ifs at h with g1 g2 g3 g4
    · rcases hcor with ⟨-, hv⟩ | hv
      · split at h
        · simp only [List.length_cons, List.length_nil] at hlen
          omega
        · exact absurd h (by simp)
      · omega
    · rcases hcor with ⟨-, hv⟩ | hv <;> omega
    · exact absurd (Option.some.inj h).symm h0
  · exact absurd h (by simp)

/-! ## The file -/

theorem pnlHeader_words (n : ℕ) (ns : List ℕ) : textWords (pnlHeader (n :: ns)) = (n :: ns).map showNat := by
  have e : pnlHeader (n :: ns) = fieldLine ((List.replicate 9 ' ', showNat n) ::
      ns.map fun k => (List.replicate 9 ' ', showNat k)) := by
    simp [pnlHeader, fieldLine, List.flatMap_map]
  have hb : ∀ c ∈ List.replicate 9 ' ', isBlank c = true := by decide
  rw [e, textWords_fields]
  · simp
  · refine GoodFields.cons ⟨hb, showNat_isWord _⟩ ?_
    intro x hx
    obtain ⟨k, -, rfl⟩ := List.mem_map.1 hx
    exact ⟨hb, showNat_isWord _⟩
  · intro x hx
    obtain ⟨k, -, rfl⟩ := List.mem_map.1 hx
    simp

/-- The lines before the vertices. -/
def pnlTop (m : Mesh (V3 ℚ)) : List Text :=
  ["    --------------Hull Mesh File---------------".toList, [],
      "    # Number of Panels, Nodes, X-Symmetry and Y-Symmetry".toList,
      pnlHeader [m.faces.length, m.vertices.length, 0, 0], [],
      "    #Start Definition of Node Coordinates     ! node_number   x   y   z".toList]

/-- The lines between the vertices and the panels. -/
def pnlMiddle : List Text :=
  ["   #End Definition of Node Coordinates".toList, [],
      "   #Start Definition of Node Relations   ! panel_number  number_of_vertices   Vertex1_ID   Vertex2_ID   Vertex3_ID   (Vertex4_ID)".toList]

/-- The lines after the panels. -/
def pnlBottom : List Text :=
  ["   #End Definition of Node Relations".toList, [], "    --------------End Hull Mesh File---------------".toList]

theorem pnl_lines (m : Mesh (V3 ℚ)) : textLines (writePNL m) = pnlTop m ++ (m.vertices.zipIdx.map pnlVertexLine ++
    (pnlMiddle ++ (m.faces.zipIdx.map pnlFaceLine ++ pnlBottom))) := by
  have e : writePNL m = unlines (pnlTop m ++ (m.vertices.zipIdx.map pnlVertexLine ++
    (pnlMiddle ++ (m.faces.zipIdx.map pnlFaceLine ++ pnlBottom)))) := by
    rw [writePNL, pnlTop, pnlMiddle, pnlBottom]
    congr 1
    simp only [List.append_assoc]
  rw [e, textLines_unlines]
  intro l hl
  simp only [List.mem_append] at hl
  have c2 : ∀ l ∈ pnlMiddle, '\n' ∉ l := by
    set_option maxRecDepth 4000 in decide
  have c3 : ∀ l ∈ pnlBottom, '\n' ∉ l := by decide
  rcases hl with hl | hl | hl | hl | hl
  · have hh : '\n' ∉ pnlHeader [m.faces.length, m.vertices.length, 0, 0] := by
      unfold pnlHeader
      rw [List.mem_flatMap]
      rintro ⟨k, -, hk⟩
      exact append_newline (by decide) (isWord_newline (showNat_isWord k)) hk
    simp only [pnlTop, List.mem_cons, List.not_mem_nil, or_false] at hl
    rcases hl with rfl | rfl | rfl | rfl | rfl | rfl
    · decide
    · decide
    · decide
    · exact hh
    · decide
    · decide
  · obtain ⟨v, -, rfl⟩ := List.mem_map.1 hl
    exact append_newline (padLeft_newline (isWord_newline (showNat_isWord _))) (pads_newline fun _ _ => showFixed_isWord _)
  · exact c2 l hl
  · obtain ⟨f, -, rfl⟩ := List.mem_map.1 hl
    rw [pnlFaceLine_eq]
    unfold fieldLine
    rw [List.mem_flatMap]
    rintro ⟨x, hx, hm⟩
    have hgood := pnlFields_good (pnlCorners f.1).length f.2 (pnlCorners f.1) x hx
    have hfield : ∀ x ∈ pnlFields (pnlCorners f.1).length f.2 (pnlCorners f.1), ∃ w t, x = padField w t := by
      intro x hx
      simp only [pnlFields, padFields, List.mem_cons, List.mem_map] at hx
      rcases hx with rfl | rfl | ⟨i, -, rfl⟩ <;> exact ⟨_, _, rfl⟩
    obtain ⟨w, t, rfl⟩ := hfield x hx
    exact padLeft_newline (isWord_newline hgood.2) hm
  · exact c3 l hl

theorem pnl_getD_top (m : Mesh (V3 ℚ)) (rest : List Text) :
    (pnlTop m ++ rest).getD 3 [] = pnlHeader [m.faces.length, m.vertices.length, 0, 0] := rfl

theorem pnl_getD_vertex (m : Mesh (V3 ℚ)) (rest : List Text) (i : ℕ) :
    (pnlTop m ++ rest).getD (6 + i) [] = rest.getD i [] := by
  rw [List.getD_eq_getElem?_getD, List.getElem?_append_right (by simp [pnlTop])]
  simp [pnlTop]

theorem getD_block {A : Type} (f : A → Text) (l : List A) (rest : List Text) :
    ((List.range l.length).map fun i => (l.map f ++ rest).getD i []) = l.map f := by
  apply List.ext_getElem
  · simp
  · intro i h1 h2
    have hi : i < l.length := by simpa using h2
    simp [List.getD_eq_getElem?_getD, List.getElem?_append_left, hi]

theorem pnl_getD_face (m : Mesh (V3 ℚ)) (i : ℕ) (hi : i < m.faces.length) :
    (textLines (writePNL m)).getD (9 + m.vertices.length + i) [] = pnlFaceLine (m.faces[i], i) := by
  rw [pnl_lines, show 9 + m.vertices.length + i = 6 + (m.vertices.length + (3 + i)) by omega, pnl_getD_vertex,
    List.getD_eq_getElem?_getD, List.getElem?_append_right (by simp), List.getElem?_append_right (by simp [pnlMiddle])]
  have : m.vertices.length + (3 + i) - (m.vertices.zipIdx.map pnlVertexLine).length - pnlMiddle.length = i := by
    simp [pnlMiddle]
  rw [this, List.getElem?_append_left (by simpa using hi)]
  simp [hi]

/-- The rows of the file used for the vertices. -/
theorem pnl_vertex_lines (m : Mesh (V3 ℚ)) :
    ((List.range m.vertices.length).map fun i => (textLines (writePNL m)).getD (6 + i) []) =
      m.vertices.zipIdx.map pnlVertexLine := by
  rw [pnl_lines]
  simp only [pnl_getD_vertex]
  have := getD_block pnlVertexLine m.vertices.zipIdx (pnlMiddle ++ (m.faces.zipIdx.map pnlFaceLine ++ pnlBottom))
  rw [List.length_zipIdx] at this
  exact this

theorem showFixed_hash {x : ℚ} : '#' ∉ showFixed x := by
  rw [showFixed, showMillionths, List.mem_append, List.mem_append, List.mem_cons]
  rintro (h | h | h | h)
  · unfold showSign at h; split at h
    · exact absurd h (by decide)
    · exact absurd h (by simp)
  · exact absurd (showNat_digits h) (by decide)
  · exact absurd h (by decide)
  · exact absurd (lastDigits_digits h) (by decide)

theorem padLeft_hash {w : ℕ} {t : Text} (h : '#' ∉ t) : '#' ∉ padLeft w t := by
  unfold padLeft
  rw [List.mem_append]
  rintro (hm | hm)
  · exact absurd (List.eq_of_mem_replicate hm) (by decide)
  · exact h hm

theorem takeWhile_noHash {l : Text} (h : '#' ∉ l) : l.takeWhile (· ≠ '#') = l :=
  (takeWhile_end l fun c hc => by simpa using fun e : c = '#' => h (e ▸ hc)).1

/-- The data of lines without comments that are not blank. -/
theorem dataRows_lines {ls : List Text} (h : ∀ l ∈ ls, '#' ∉ l ∧ textWords l ≠ []) : dataRows ls = ls.map textWords := by
  unfold dataRows
  rw [List.filter_eq_self.2]
  · exact List.map_congr_left fun l hl => by rw [takeWhile_noHash (h l hl).1]
  · intro r hr
    obtain ⟨l, hl, rfl⟩ := List.mem_map.1 hr
    rw [takeWhile_noHash (h l hl).1]
    simpa using (h l hl).2

theorem pnlVertexLine_data (v : V3 ℚ × ℕ) : '#' ∉ pnlVertexLine v ∧ textWords (pnlVertexLine v) ≠ [] := by
  constructor
  · unfold pnlVertexLine
    rw [List.mem_append, List.mem_flatMap]
    rintro (h | ⟨x, -, h⟩)
    · exact padLeft_hash (fun h => absurd (showNat_digits h) (by decide)) h
    · exact padLeft_hash showFixed_hash h
  · obtain ⟨t, ts, h⟩ := words_line_head 5 18 (showNat (v.2 + 1)) showFixed (coords v.1) (showNat_isWord _)
      (fun _ _ => showFixed_isWord _)
    have : textWords (pnlVertexLine v) = (showNat (v.2 + 1) ++ t) :: ts := h
    rw [this]; simp

theorem pnl_data (vs : List (V3 ℚ)) :
    dataRows (vs.zipIdx.map pnlVertexLine) = vs.zipIdx.map fun v => textWords (pnlVertexLine v) := by
  rw [dataRows_lines]
  · simp [Function.comp_def]
  · intro l hl
    obtain ⟨v, -, rfl⟩ := List.mem_map.1 hl
    exact pnlVertexLine_data v

theorem pnl_header_read (m : Mesh (V3 ℚ)) :
    (textWords ((textLines (writePNL m)).getD 3 [])).mapM readInt =
      some [(m.faces.length : ℤ), (m.vertices.length : ℤ), 0, 0] := by
  rw [pnl_lines, pnl_getD_top, pnlHeader_words]
  have := mapM_all_map (f := readInt) (g := showNat) (h := fun n : ℕ => (n : ℤ))
    [m.faces.length, m.vertices.length, 0, 0] (fun n _ => readInt_showNat n)
  simpa using this

theorem mapM_range_faces (fs : List Face) (P : ℕ → Option (List ℤ)) (hP : ∀ i (hi : i < fs.length), P i = some (fileRow fs[i])) :
    (List.range fs.length).mapM P = some (fs.map fileRow) := by
  have : (List.range fs.length).mapM P = some ((List.range fs.length).map fun i => fileRow (fs.getD i ⟨0, 0, 0, 0⟩)) := by
    refine mapM_all _ fun i hi => ?_
    have hi' := List.mem_range.1 hi
    rw [hP i hi', List.getD_eq_getElem?_getD, List.getElem?_eq_getElem hi']
    rfl
  rw [this]
  congr 1
  apply List.ext_getElem
  · simp
  · intro i h1 h2
    have hi : i < fs.length := by simpa using h2
    simp [List.getD_eq_getElem?_getD, hi]

theorem pnl_read {m : Mesh (V3 ℚ)} (hv : m.Valid) (hs : PnlSafe m) :
    loadPNL (writePNL m) = some ⟨mapMesh fixedValue m, false, false⟩ := by
  obtain ⟨h1, hc, hf⟩ := hs
  have r1 : pnlRows (m.vertices.zipIdx.map pnlVertexLine) = some (m.vertices.map fun v => (coords v).map fixedValue) := by
    unfold pnlRows
    rw [pnl_data, if_neg (by simpa using h1)]
    have : m.vertices.map (fun v => (coords v).map fixedValue) =
        m.vertices.zipIdx.map fun v => (coords v.1).map fixedValue := by
      conv_lhs => rw [← List.zipIdx_map_fst 0 m.vertices, List.map_map]
      rfl
    rw [this]
    refine mapM_all_map _ fun v hvm => ?_
    have hmem : v.1 ∈ m.vertices := by
      have := List.mem_map_of_mem (f := Prod.fst) hvm
      rwa [List.zipIdx_map_fst] at this
    rw [pnlVertexLine_words v (allCoords_mem hc hmem)]
    rw [if_pos (by simp [coords])]
    have : ((showNat (v.2 + 1) :: (coords v.1).map showFixed).drop 1).take 3 = (coords v.1).map showFixed := by
      simp [coords]
    rw [this]
    exact mapM_all_map _ fun x _ => readFloat_showFixed x
  have r2 : ((List.range m.faces.length).mapM fun i =>
      pnlFace i (textWords ((textLines (writePNL m)).getD (9 + m.vertices.length + i) []))) =
      some (m.faces.map fileRow) := by
    refine mapM_range_faces m.faces _ fun i hi => ?_
    rw [pnl_getD_face m i hi]
    exact pnlFace_good (m.faces[i], i) (hf _ (List.getElem_mem hi))
  unfold loadPNL
  simp only [pnl_header_read]
  rw [if_neg (by omega)]
  simp only [Int.toNat_natCast]
  rw [pnl_vertex_lines, r1, r2]
  simp only
  rw [mkMesh_good fixedValue m hv]
  simp

/-- **C43 (HAMS).** Reading a HAMS file written from a mesh gives the same faces on the vertices rounded to six digits
after the point. -/
theorem hams_round_trip {m : Mesh (V3 ℚ)} (hv : m.Valid) (hs : PnlSafe m) :
    ∃ m', loadPNL (writePNL m) = some ⟨m', false, false⟩ ∧ SameMesh Rounded6 m m' :=
  ⟨_, pnl_read hv hs, sameMesh_map fixed_rounded m⟩

/-- **C43 (HAMS).** The file cannot be read again exactly when the mesh has a single vertex, or when a coordinate or an
index fills its field. -/
theorem hams_readable_iff {m : Mesh (V3 ℚ)} (hv : m.Valid) : (loadPNL (writePNL m)).isSome ↔ PnlSafe m := by
  refine ⟨fun h => ?_, fun h => by rw [pnl_read hv h]; rfl⟩
  obtain ⟨res, hres⟩ := Option.isSome_iff_exists.1 h
  unfold loadPNL at hres
  simp only [pnl_header_read] at hres
  rw [if_neg (by omega)] at hres
  simp only [Int.toNat_natCast] at hres
  rw [pnl_vertex_lines] at hres
  split at hres
  · rename_i rows faces h1 h2
    cases hm : mkMesh rows (minusOne faces) with
    | none => rw [hm] at hres; exact absurd hres (by simp)
    | some m' =>
      unfold pnlRows at h1
      rw [pnl_data] at h1
      split_ifs at h1 with hone
      refine ⟨by simpa using hone, fun v hvm => ?_, fun f hf => ?_⟩
      · obtain ⟨i, hi, rfl⟩ := List.mem_iff_getElem.1 hvm
        have hmem : textWords (pnlVertexLine (m.vertices[i], i)) ∈
            m.vertices.zipIdx.map fun v => textWords (pnlVertexLine v) :=
          List.mem_map.2 ⟨(m.vertices[i], i), by rw [List.mem_zipIdx_iff_getElem?]; simp [hi], rfl⟩
        obtain ⟨r, -, hr⟩ := mapM_pre h1 hmem
        split_ifs at hr with h4
        have := (pnlVertexLine_count (m.vertices[i], i)).1
          (le_antisymm (pnlVertexLine_le _) h4)
        simpa [coords] using this
      · obtain ⟨i, hi, rfl⟩ := List.mem_iff_getElem.1 hf
        obtain ⟨r, hrm, hr⟩ := mapM_pre h2 (List.mem_range.2 hi)
        rw [pnl_getD_face m i hi] at hr
        refine pnlFace_fits (m.faces[i], i) hr ?_
        rintro rfl
        -- a row of zeros is refused by the mesh
        unfold mkMesh at hm
        split at hm
        · rename_i vs fs _ hfs
          obtain ⟨b, -, hb⟩ := mapM_pre hfs (List.mem_map.2 ⟨[0, 0, 0, 0], hrm, rfl⟩)
          simp [toFace] at hb
        · exact absurd hm (by simp)
  · exact absurd hres (by simp)

/-- A quadrangle and two triangles with the two conventions are written and read again. -/
example : ∃ m', loadPNL (writePNL ⟨[⟨1, 1, 0⟩, ⟨-1, 1, 0⟩, ⟨-1, -1, 0⟩, ⟨1, -1, 0⟩, ⟨0, 0, -1 / 3⟩],
    [⟨0, 1, 2, 3⟩, ⟨1, 2, 4, 1⟩, ⟨2, 3, 4, 4⟩]⟩) = some ⟨m', false, false⟩ ∧
    m'.faces = [⟨0, 1, 2, 3⟩, ⟨1, 2, 4, 1⟩, ⟨2, 3, 4, 4⟩] := by
  obtain ⟨m', h, h'⟩ := hams_round_trip (m := ⟨[⟨1, 1, 0⟩, ⟨-1, 1, 0⟩, ⟨-1, -1, 0⟩, ⟨1, -1, 0⟩, ⟨0, 0, -1 / 3⟩],
    [⟨0, 1, 2, 3⟩, ⟨1, 2, 4, 1⟩, ⟨2, 3, 4, 4⟩]⟩)
    (by intro f hf; simp at hf; rcases hf with rfl | rfl | rfl <;> simp [Face.toList])
    ⟨by simp, by simp [AllCoords, Fits18]; norm_num, by simp [PnlFits]⟩
  exact ⟨m', h, h'.1⟩

/-- **C43 (HAMS), violated.** A mesh with a coordinate of ten billion cannot be read again. -/
theorem hams_round_trip_violated :
    loadPNL (writePNL ⟨[⟨0, 0, 0⟩, ⟨10000000000, 0, 0⟩, ⟨0, 1, 0⟩], [⟨0, 1, 2, 0⟩]⟩) = none := by
  by_contra h
  have := (hams_readable_iff (m := ⟨[⟨0, 0, 0⟩, ⟨10000000000, 0, 0⟩, ⟨0, 1, 0⟩], [⟨0, 1, 2, 0⟩]⟩)
    (by intro f hf; simp at hf; subst hf; simp [Face.toList])).1 (Option.isSome_iff_ne_none.2 h)
  have := (this.2.1 ⟨10000000000, 0, 0⟩ (by simp)).1.2
  norm_num at this

end Verif.Files
