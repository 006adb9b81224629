import Verif.Files.NatProps

/-!
# Reading a Hydrostar file (C43)
-/

namespace Verif.Files

open Verif.Geometry Verif.Meshes

theorem textWords_strip (l : Text) : textWords (l.dropWhile isBlank) = textWords l := by
  unfold textWords
  induction l with
  | nil => rfl
  | cons c l ih =>
    by_cases hc : isBlank c
    · rw [List.dropWhile_cons_of_pos hc, ih, wordsFrom, if_pos hc, if_pos rfl]
    · rw [List.dropWhile_cons_of_neg hc]

/-- A line that begins with a number. -/
def NumberLine (l : Text) : Prop := ∃ c s, l.dropWhile isBlank = c :: s ∧ c.isDigit = true

theorem numberLine_pad (w n : ℕ) (s : Text) : NumberLine (padLeft w (showNat n) ++ s) := by
  cases h : showNat n with
  | nil => exact absurd h (showNat_ne_nil n)
  | cons c t =>
    have hc : c.isDigit = true := showNat_digits (n := n) (by simp [h])
    have hb : isBlank c = false := isDigit_not_blank hc
    refine ⟨c, t ++ s, ?_, hc⟩
    have : ∀ k : ℕ, (List.replicate k ' ' ++ (c :: t ++ s)).dropWhile isBlank = c :: (t ++ s) := by
      intro k
      induction k with
      | zero => simp [hb]
      | succ k ih =>
        rw [List.replicate_succ, List.cons_append, List.dropWhile_cons_of_pos (by decide), ih]
    rw [padLeft, List.append_assoc]
    exact this _

theorem starts_digit {c : Char} (hc : c.isDigit = true) (s : Text) (k : String) (k0 : Char) (ks : Text)
    (hk : k.toList = k0 :: ks) (h0 : k0.isDigit = false) : starts k (c :: s) = false := by
  have : k0 ≠ c := fun e => by rw [e, hc] at h0; exact absurd h0 (by decide)
  rw [starts, hk, List.isPrefixOf_cons₂]
  simp [this]

/-- The lines of vertices and of panels are not keywords. -/
theorem hst_number (s : HstState) (l : Text) (ls : List Text) (h : NumberLine l) :
    (s.ctx = .vertices → hstRead s (l :: ls) = (s.addVertex (textWords l)).bind fun s' => hstRead s' ls) ∧
    (s.ctx = .panels 0 → hstRead s (l :: ls) = (s.addFace (textWords l)).bind fun s' => hstRead s' ls) := by
  obtain ⟨c, t, hl, hc⟩ := h
  have e : ∀ k : String, ∀ k0 ks, k.toList = k0 :: ks → k0.isDigit = false → starts k (c :: t) = false :=
    fun k k0 ks h1 h2 => starts_digit hc t k k0 ks h1 h2
  have e1 : starts "COORDINATES" (c :: t) = false := e _ 'C' "OORDINATES".toList (by decide) (by decide)
  have e2 : starts "ENDCOORDINATES" (c :: t) = false := e _ 'E' "NDCOORDINATES".toList (by decide) (by decide)
  have e3 : starts "PANEL" (c :: t) = false := e _ 'P' "ANEL".toList (by decide) (by decide)
  have e4 : starts "ENDPANEL" (c :: t) = false := e _ 'E' "NDPANEL".toList (by decide) (by decide)
  have hw : textWords (c :: t) = textWords l := by rw [← hl, textWords_strip]
  constructor
  · intro hctx
    rw [hstRead]
    simp only [hl, e1, e2, e3, e4, hctx, hw, List.cons_ne_nil, if_false, if_true, Bool.false_eq_true, and_false]
    cases s.addVertex (textWords l) <;> rfl
  · intro hctx
    rw [hstRead]
    simp only [hl, e1, e2, e3, e4, hctx, hw, List.cons_ne_nil, if_false, if_true, Bool.false_eq_true, and_false,
      reduceCtorEq]
    cases s.addFace (textWords l) <;> rfl

theorem hst_blank (s : HstState) (ls : List Text) : hstRead s ([] :: ls) = hstRead s ls := by
  rw [hstRead]; simp

theorem hstVertexLine_words (v : V3 ℚ × ℕ) (h : ∀ x ∈ coords v.1, InRange x) :
    textWords (hstVertexLine v) = showNat (v.2 + 1) :: (coords v.1).map showSci :=
  words_line 10 16 _ _ _ (showNat_isWord _) (fun _ _ => showSci_isWord _)
    fun x hx => lt_of_le_of_lt (inRange_short (h x hx)) (by norm_num)

theorem hst_vertices (vs : List (V3 ℚ)) (hc : ∀ v ∈ vs, ∀ x ∈ coords v, InRange x) (s : HstState)
    (hs : s.ctx = .vertices) (rest : List Text) :
    ∃ lv, hstRead s ((vs.zipIdx s.vertices.length).map hstVertexLine ++ rest) =
      hstRead { s with vertices := s.vertices ++ vs.map fun v => (coords v).map showSci, lastVertex := lv } rest := by
  induction vs generalizing s with
  | nil => exact ⟨s.lastVertex, by simp⟩
  | cons v vs ih =>
    have hw := hstVertexLine_words (v, s.vertices.length) (hc v (by simp))
    have hadd : s.addVertex (textWords (hstVertexLine (v, s.vertices.length))) =
        some { s with vertices := s.vertices ++ [(coords v).map showSci], lastVertex := some ((coords v).map showSci) } := by
      rw [hw]
      have hi := readInt_showNat (s.vertices.length + 1)
      push_cast at hi
      simp [coords, HstState.addVertex, hi]
    have hnl : NumberLine (hstVertexLine (v, s.vertices.length)) := numberLine_pad 10 _ _
    rw [List.zipIdx_cons, List.map_cons, List.cons_append, (hst_number s _ _ hnl).1 hs, hadd, Option.bind_some]
    obtain ⟨lv, h⟩ := ih (fun w hw => hc w (by simp [hw]))
      { s with vertices := s.vertices ++ [(coords v).map showSci], lastVertex := some ((coords v).map showSci) } hs
    simp only [List.length_append, List.length_singleton] at h
    refine ⟨lv, ?_⟩
    rw [h]
    simp

theorem hst_faces (fs : List Face) (hf : ∀ f ∈ fs, FaceFits f) (s : HstState) (hs : s.ctx = .panels 0)
    (rest : List Text) :
    ∃ lf, hstRead s (fs.map faceLine ++ rest) =
      hstRead { s with faces := s.faces ++ fs.map fun f => f.toList.map fun i => showNat (i + 1), lastFace := lf } rest := by
  induction fs generalizing s with
  | nil => exact ⟨s.lastFace, by simp⟩
  | cons f fs ih =>
    have hw := faceLine_words (hf f (by simp))
    have hadd : s.addFace (textWords (faceLine f)) = some { s with
        faces := s.faces ++ [f.toList.map fun i => showNat (i + 1)],
        lastFace := some (f.toList.map fun i => showNat (i + 1)) } := by
      rw [hw]
      simp [Face.toList, HstState.addFace]
    have hnl : NumberLine (faceLine f) := by rw [faceLine_eq]; exact numberLine_pad 10 _ _
    rw [List.map_cons, List.cons_append, (hst_number s _ _ hnl).2 hs, hadd, Option.bind_some]
    obtain ⟨lf, h⟩ := ih (fun w hw => hf w (by simp [hw])) { s with
        faces := s.faces ++ [f.toList.map fun i => showNat (i + 1)],
        lastFace := some (f.toList.map fun i => showNat (i + 1)) } hs
    refine ⟨lf, ?_⟩
    rw [h]
    simp

theorem hst_block (s : HstState) (b : List Text) (rest : List Text) :
    hstRead s (blockLines b ++ rest) = hstRead s (b ++ rest) := by
  unfold blockLines
  split
  · rename_i h; subst h; simp [hst_blank]
  · rfl

theorem hst_lines (m : Mesh (V3 ℚ)) : textLines (writeHST m) =
    ["PROJECT:".toList, "USERS:   meshmagick".toList, [], "NBODY   1".toList, "RHO   1025.0".toList,
      "GRAVITY   9.81".toList, [], "COORDINATES".toList] ++ (blockLines (m.vertices.zipIdx.map hstVertexLine) ++
    (["ENDCOORDINATES".toList, [], "PANEL TYPE 0".toList] ++ (blockLines (m.faces.map faceLine) ++
    ["ENDPANEL".toList, [], "ENDFILE".toList]))) := by
  rw [writeHST, textLines_unlines]
  · simp
  · intro l hl
    simp only [List.append_assoc, List.mem_append] at hl
    have hv : ∀ l ∈ blockLines (m.vertices.zipIdx.map hstVertexLine), '\n' ∉ l := by
      intro l hl
      unfold blockLines at hl
      split at hl
      · rw [List.mem_singleton] at hl; subst hl; simp
      · obtain ⟨v, -, rfl⟩ := List.mem_map.1 hl
        exact append_newline (padLeft_newline (isWord_newline (showNat_isWord _))) (pads_newline fun _ _ => showSci_isWord _)
    have hf : ∀ l ∈ blockLines (m.faces.map faceLine), '\n' ∉ l := by
      intro l hl
      unfold blockLines at hl
      split at hl
      · rw [List.mem_singleton] at hl; subst hl; simp
      · obtain ⟨f, -, rfl⟩ := List.mem_map.1 hl
        exact faceLine_newline f
    have c1 : ∀ l ∈ ["PROJECT:".toList, "USERS:   meshmagick".toList, [], "NBODY   1".toList, "RHO   1025.0".toList,
      "GRAVITY   9.81".toList, []], '\n' ∉ l := by decide
    have c2 : ∀ l ∈ ["COORDINATES".toList], '\n' ∉ l := by decide
    have c3 : ∀ l ∈ ["ENDCOORDINATES".toList, []], '\n' ∉ l := by decide
    have c4 : ∀ l ∈ ["PANEL TYPE 0".toList], '\n' ∉ l := by decide
    have c5 : ∀ l ∈ ["ENDPANEL".toList, []], '\n' ∉ l := by decide
    have c6 : ∀ l ∈ ["ENDFILE".toList], '\n' ∉ l := by decide
    rcases hl with hl | hl | hl | hl | hl | hl | hl | hl
    · exact c1 l hl
    · exact c2 l hl
    · exact hv l hl
    · exact c3 l hl
    · exact c4 l hl
    · exact hf l hl
    · exact c5 l hl
    · exact c6 l hl

/-- A line that gives nothing outside of the blocks. -/
theorem hst_skip (s : HstState) (hs : s.ctx = .outside) (l : Text) (ls : List Text)
    (h : starts "COORDINATES" (l.dropWhile isBlank) = false ∧ starts "PANEL" (l.dropWhile isBlank) = false ∧
      starts "ENDFILE" (l.dropWhile isBlank) = false ∧ starts "SYMMETRY" (l.dropWhile isBlank) = false) :
    hstRead s (l :: ls) = hstRead s ls := by
  rw [hstRead]
  simp only [h, hs, if_false, Bool.false_eq_true, reduceCtorEq, false_and, or_self]
  simp

theorem hst_read_state (m : Mesh (V3 ℚ)) (hr : AllCoords InRange m) (hf : ∀ f ∈ m.faces, FaceFits f) :
    ∃ st, hstRead {} (textLines (writeHST m)) = some st ∧ st.symmetry = [] ∧
      st.vertices = (m.vertices.map fun v => (coords v).map showSci) ∧
      st.faces = m.faces.map fun f => f.toList.map fun i => showNat (i + 1) := by
  rw [hst_lines]
  simp only [List.cons_append, List.nil_append]
  rw [hst_skip _ rfl _ _ (by decide), hst_skip _ rfl _ _ (by decide), hst_blank, hst_skip _ rfl _ _ (by decide),
    hst_skip _ rfl _ _ (by decide), hst_skip _ rfl _ _ (by decide), hst_blank]
  have hcoord : ∀ ls, hstRead {} ("COORDINATES".toList :: ls) = hstRead { ctx := .vertices } ls := by
    intro ls
    rw [hstRead]
    have h1 : "COORDINATES".toList.dropWhile isBlank = "COORDINATES".toList := by decide
    have h2 : starts "COORDINATES" "COORDINATES".toList = true := by decide
    have h3 : "COORDINATES".toList ≠ [] := by decide
    simp only [h1, h2, h3, if_false, if_true]
  rw [hcoord, hst_block]
  obtain ⟨lv, h⟩ := hst_vertices m.vertices (fun v hv => allCoords_mem hr hv) { ctx := .vertices } rfl
    ("ENDCOORDINATES".toList :: [] :: "PANEL TYPE 0".toList :: (blockLines (m.faces.map faceLine) ++
      ["ENDPANEL".toList, [], "ENDFILE".toList]))
  simp only [List.length_nil] at h
  rw [h]
  have hend : ∀ (s : HstState) ls, s.ctx = .vertices →
      hstRead s ("ENDCOORDINATES".toList :: ls) = hstRead { s with ctx := .outside } ls := by
    intro s ls hs
    rw [hstRead]
    have h1 : "ENDCOORDINATES".toList.dropWhile isBlank = "ENDCOORDINATES".toList := by decide
    have h2 : starts "COORDINATES" "ENDCOORDINATES".toList = false := by decide
    have h4 : starts "ENDCOORDINATES" "ENDCOORDINATES".toList = true := by decide
    have h3 : "ENDCOORDINATES".toList ≠ [] := by decide
    simp only [h1, h2, h3, h4, hs, if_false, if_true, and_self, Bool.false_eq_true]
  rw [hend _ _ rfl, hst_blank]
  have hpan : ∀ (s : HstState) ls, s.ctx = .outside →
      hstRead s ("PANEL TYPE 0".toList :: ls) = hstRead { s with ctx := .panels 0 } ls := by
    intro s ls hs
    rw [hstRead]
    have h1 : "PANEL TYPE 0".toList.dropWhile isBlank = "PANEL TYPE 0".toList := by decide
    have h2 : starts "COORDINATES" "PANEL TYPE 0".toList = false := by decide
    have h4 : starts "PANEL" "PANEL TYPE 0".toList = true := by decide
    have h3 : "PANEL TYPE 0".toList ≠ [] := by decide
    have h5 : readIntLine ("PANEL TYPE 0".toList.drop 10) = some 0 := by decide
    simp only [h1, h2, h3, h4, hs, if_false, if_true, Bool.false_eq_true, false_and, reduceCtorEq]
    rw [h5]
  rw [hpan _ _ rfl, hst_block]
  obtain ⟨lf, h'⟩ := hst_faces m.faces hf
    { ctx := .panels 0, vertices := [] ++ m.vertices.map fun v => (coords v).map showSci, lastVertex := lv } rfl
    ["ENDPANEL".toList, [], "ENDFILE".toList]
  rw [h']
  have hendp : ∀ (s : HstState) ls, s.ctx = .panels 0 →
      hstRead s ("ENDPANEL".toList :: ls) = hstRead { s with ctx := .outside } ls := by
    intro s ls hs
    rw [hstRead]
    have h1 : "ENDPANEL".toList.dropWhile isBlank = "ENDPANEL".toList := by decide
    have h2 : starts "COORDINATES" "ENDPANEL".toList = false := by decide
    have h4 : starts "PANEL" "ENDPANEL".toList = false := by decide
    have h5 : starts "ENDPANEL" "ENDPANEL".toList = true := by decide
    have h3 : "ENDPANEL".toList ≠ [] := by decide
    simp only [h1, h2, h3, h4, h5, hs, if_false, if_true, Bool.false_eq_true, false_and, reduceCtorEq, true_or, and_self]
  have hfile : ∀ (s : HstState) ls, s.ctx = .outside → hstRead s ("ENDFILE".toList :: ls) = some s := by
    intro s ls hs
    rw [hstRead]
    have h1 : "ENDFILE".toList.dropWhile isBlank = "ENDFILE".toList := by decide
    have h2 : starts "COORDINATES" "ENDFILE".toList = false := by decide
    have h4 : starts "PANEL" "ENDFILE".toList = false := by decide
    have h5 : starts "ENDFILE" "ENDFILE".toList = true := by decide
    have h3 : "ENDFILE".toList ≠ [] := by decide
    simp only [h1, h2, h3, h4, h5, hs, if_false, if_true, Bool.false_eq_true, false_and, reduceCtorEq, or_self]
  rw [hendp _ _ rfl, hst_blank, hfile _ _ rfl]
  exact ⟨_, rfl, rfl, by simp, by simp⟩

theorem hst_read {m : Mesh (V3 ℚ)} (hv : m.Valid) (hr : AllCoords InRange m) (hf : ∀ f ∈ m.faces, FaceFits f) :
    loadHST (writeHST m) = some ⟨mapMesh sciValue m, false, false⟩ := by
  obtain ⟨st, h1, h2, h3, h4⟩ := hst_read_state m hr hf
  have r1 : st.vertices.mapM (fun r => r.mapM readFloat) = some (m.vertices.map fun v => (coords v).map sciValue) := by
    rw [h3]
    exact mapM_all_map _ fun v _ => mapM_all_map _ fun x _ => readFloat_showSci x
  have r2 : st.faces.mapM (fun r => r.mapM readInt) = some (m.faces.map fileRow) := by
    rw [h4]
    exact mapM_all_map _ fun f _ => readInt_face f
  unfold loadHST
  rw [h1]
  simp only
  rw [r1, r2]
  simp only
  rw [mkMesh_good sciValue m hv, h2]
  rfl

/-- **C43 (Hydrostar).** Reading a Hydrostar file written from a mesh gives the same faces on the vertices rounded to
seven significant digits, also for a mesh without panels or without vertices. -/
theorem hydrostar_round_trip {m : Mesh (V3 ℚ)} (hv : m.Valid) (hr : AllCoords InRange m)
    (hf : ∀ f ∈ m.faces, FaceFits f) :
    ∃ m', loadHST (writeHST m) = some ⟨m', false, false⟩ ∧ SameMesh Digits7 m m' :=
  ⟨_, hst_read hv hr hf, sameMesh_map sci_rounded m⟩

/-- A quadrangle and a triangle, written and read again. -/
example : ∃ m', loadHST (writeHST ⟨[⟨1, 1, 0⟩, ⟨-1, 1, 0⟩, ⟨-1, -1, 0⟩, ⟨1, -1, 0⟩, ⟨0, 0, -1 / 3⟩],
    [⟨0, 1, 2, 3⟩, ⟨1, 2, 4, 1⟩]⟩) = some ⟨m', false, false⟩ ∧ m'.faces = [⟨0, 1, 2, 3⟩, ⟨1, 2, 4, 1⟩] := by
  obtain ⟨m', h, h'⟩ := hydrostar_round_trip (m := ⟨[⟨1, 1, 0⟩, ⟨-1, 1, 0⟩, ⟨-1, -1, 0⟩, ⟨1, -1, 0⟩, ⟨0, 0, -1 / 3⟩],
    [⟨0, 1, 2, 3⟩, ⟨1, 2, 4, 1⟩]⟩)
    (by intro f hf; simp at hf; rcases hf with rfl | rfl <;> simp [Face.toList])
    (by
      intro v hv
      simp only [List.mem_cons, List.not_mem_nil, or_false] at hv
      rcases hv with rfl | rfl | rfl | rfl | rfl <;> refine ⟨?_, ?_, ?_⟩ <;>
        first
          | exact Or.inl rfl
          | exact inRange_usual (Or.inr ⟨by norm_num [abs_of_neg, abs_of_pos], by norm_num [abs_of_neg, abs_of_pos]⟩))
    (by simp [FaceFits])
  exact ⟨m', h, h'.1⟩

end Verif.Files
