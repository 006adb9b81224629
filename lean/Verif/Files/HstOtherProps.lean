import Verif.Files.HstProps

/-!
# Hydrostar files made by other programs (C86)

The files that `load_HST` (`io/mesh_loaders.py:122-233`) can meet are more various than the ones made by `write_HST`: the vertices
and the panels may be numbered or not, the triangles may have three corners, and there may be symmetries.
-/

namespace Verif.Files

open Verif.Geometry Verif.Meshes

/-! ## Specification -/

/-- The symmetries of a Hydrostar file. -/
inductive HstSymmetry
  | none | one | two
  deriving DecidableEq

/-- The choices of the program that makes the file. -/
structure HstStyle where
  /-- Are the vertices numbered? -/
  numbered : Bool
  /-- Are the panels numbered? -/
  numberedPanels : Bool
  /-- Do the triangles have three corners? -/
  short : Bool
  symmetry : HstSymmetry

/-- Words separated by blanks. -/
def spaced : List Text → Text
  | [] => []
  | [w] => w
  | w :: ws => w ++ ' ' :: spaced ws

/-- The words of a vertex. -/
def otherVertex (st : HstStyle) (v : V3 ℚ × ℕ) : List Text :=
  (if st.numbered then [showNat (v.2 + 1)] else []) ++ (coords v.1).map showFixed

/-- The corners of a panel. -/
def otherCorners (st : HstStyle) (f : Face) : List ℕ := if st.short ∧ f.c = f.d then [f.a, f.b, f.c] else f.toList

/-- The words of a panel. -/
def otherFace (st : HstStyle) (f : Face × ℕ) : List Text :=
  (if st.numberedPanels then [showNat (f.2 + 1)] else []) ++ (otherCorners st f.1).map fun i => showNat (i + 1)

/-- The lines of the symmetries. -/
def otherSymmetry : HstSymmetry → List Text
  | .none => []
  | .one => ["SYMMETRY: 1".toList]
  | .two => ["SYMMETRY: 2".toList]

/-- A Hydrostar file. -/
def otherHST (st : HstStyle) (m : Mesh (V3 ℚ)) : Text :=
  unlines ("PROJECT: buoy".toList :: otherSymmetry st.symmetry ++ "COORDINATES".toList ::
    m.vertices.zipIdx.map (fun v => spaced (otherVertex st v)) ++ "ENDCOORDINATES".toList ::
    (if st.numberedPanels then "PANEL TYPE 1".toList else "PANEL TYPE 0".toList) ::
    m.faces.zipIdx.map (fun f => spaced (otherFace st f)) ++ ["ENDPANEL".toList, "ENDFILE".toList])

/-! ## Lines -/

theorem spaced_words {ws : List Text} (h : ∀ w ∈ ws, IsWord w) : textWords (spaced ws) = ws := by
  induction ws with
  | nil => rfl
  | cons w ws ih =>
    have hw := h w (by simp)
    cases ws with
    | nil =>
      unfold textWords
      have := wordsFrom_word w hw.2 [] []
      rw [List.append_nil, List.nil_append] at this
      rw [spaced, this, wordsFrom, if_neg hw.1]
    | cons w' ws =>
      rw [spaced]
      · unfold textWords
        rw [wordsFrom_word w hw.2, List.nil_append, wordsFrom, if_pos (by decide), if_neg hw.1]
        congr 1
        exact ih fun x hx => h x (by simp [hx])
      · simp

theorem spaced_newline {ws : List Text} (h : ∀ w ∈ ws, IsWord w) : '\n' ∉ spaced ws := by
  induction ws with
  | nil => simp [spaced]
  | cons w ws ih =>
    have hw := isWord_newline (h w (by simp))
    cases ws with
    | nil => simpa [spaced] using hw
    | cons w' ws =>
      rw [spaced]
      · rw [List.mem_append, List.mem_cons]
        rintro (h1 | h1 | h1)
        · exact hw h1
        · exact absurd h1 (by decide)
        · exact ih (fun x hx => h x (by simp [hx])) h1
      · simp

/-- The line begins with a digit or a sign. -/
def DataLine (l : Text) : Prop := ∃ c s, l = c :: s ∧ isBlank c = false ∧ (c.isDigit = true ∨ c = '-')

theorem spaced_data {w : Text} {ws : List Text} (h : DataLine w) : DataLine (spaced (w :: ws)) := by
  obtain ⟨c, s, rfl, h1, h2⟩ := h
  cases ws with
  | nil => exact ⟨c, s, rfl, h1, h2⟩
  | cons w' ws => exact ⟨c, s ++ ' ' :: spaced (w' :: ws), by rw [spaced]; rfl; simp, h1, h2⟩

theorem starts_data {c : Char} (hc : c.isDigit = true ∨ c = '-') (s : Text) (k : String) (k0 : Char) (ks : Text)
    (hk : k.toList = k0 :: ks) (h0 : k0.isDigit = false) (h1 : k0 ≠ '-') : starts k (c :: s) = false := by
  have : k0 ≠ c := by
    rintro rfl
    rcases hc with hc | hc
    · rw [hc] at h0; exact absurd h0 (by decide)
    · exact h1 hc
  rw [starts, hk, List.isPrefixOf_cons_cons]
  simp [this]

theorem hst_data (s : HstState) (l : Text) (ls : List Text) (h : DataLine l) :
    (s.ctx = .vertices → hstRead s (l :: ls) = (s.addVertex (textWords l)).bind fun s' => hstRead s' ls) ∧
    (s.ctx = .panels 0 → hstRead s (l :: ls) = (s.addFace (textWords l)).bind fun s' => hstRead s' ls) ∧
    (s.ctx = .panels 1 → hstRead s (l :: ls) = (s.addIndexedFace (textWords l)).bind fun s' => hstRead s' ls) := by
  obtain ⟨c, t, rfl, hb, hc⟩ := h
  have e : ∀ k : String, ∀ k0 ks, k.toList = k0 :: ks → k0.isDigit = false → k0 ≠ '-' → starts k (c :: t) = false :=
    fun k k0 ks h1 h2 h3 => starts_data hc t k k0 ks h1 h2 h3
  have e1 : starts "COORDINATES" (c :: t) = false := e _ 'C' "OORDINATES".toList (by decide) (by decide) (by decide)
  have e2 : starts "ENDCOORDINATES" (c :: t) = false := e _ 'E' "NDCOORDINATES".toList (by decide) (by decide) (by decide)
  have e3 : starts "PANEL" (c :: t) = false := e _ 'P' "ANEL".toList (by decide) (by decide) (by decide)
  have e4 : starts "ENDPANEL" (c :: t) = false := e _ 'E' "NDPANEL".toList (by decide) (by decide) (by decide)
  have hd : (c :: t).dropWhile isBlank = c :: t := by simp [hb]
  refine ⟨fun hs => ?_, fun hs => ?_, fun hs => ?_⟩
  · rw [hstRead]
    simp only [hd, e1, e2, e3, e4, hs, reduceCtorEq, if_false, Bool.false_eq_true, and_false, if_true]
    cases s.addVertex (textWords (c :: t)) <;> rfl
  · rw [hstRead]
    simp only [hd, e1, e2, e3, e4, hs, reduceCtorEq, if_false, Bool.false_eq_true, and_false, if_true]
    cases s.addFace (textWords (c :: t)) <;> rfl
  · rw [hstRead]
    simp only [hd, e1, e2, e3, e4, hs, reduceCtorEq, if_false, Bool.false_eq_true, and_false, if_true]
    rw [if_neg (by decide)]
    cases s.addIndexedFace (textWords (c :: t)) <;> rfl

theorem showNat_data (n : ℕ) : DataLine (showNat n) := by
  cases h : showNat n with
  | nil => exact absurd h (showNat_ne_nil n)
  | cons c t =>
    have hc : c.isDigit = true := showNat_digits (n := n) (by simp [h])
    exact ⟨c, t, rfl, isDigit_not_blank hc, Or.inl hc⟩

theorem showFixed_data (x : ℚ) : DataLine (showFixed x) := by
  unfold showFixed showSign
  split
  · exact ⟨'-', _, rfl, by decide, Or.inr rfl⟩
  · obtain ⟨c, t, h, h1, h2⟩ := showNat_data (nearestEven (|x| * 10 ^ 6) / 10 ^ 6)
    refine ⟨c, t ++ '.' :: lastDigits 6 (nearestEven (|x| * 10 ^ 6)), ?_, h1, h2⟩
    unfold showMillionths
    rw [h]
    rfl

theorem otherVertex_word (st : HstStyle) (v : V3 ℚ × ℕ) : ∀ w ∈ otherVertex st v, IsWord w := by
  intro w hw
  rw [otherVertex, List.mem_append, List.mem_map] at hw
  rcases hw with hw | ⟨x, -, rfl⟩
  · split at hw
    · rw [List.mem_singleton] at hw
      subst hw
      exact showNat_isWord _
    · simp at hw
  · exact showFixed_isWord x

theorem otherFace_word (st : HstStyle) (f : Face × ℕ) : ∀ w ∈ otherFace st f, IsWord w := by
  intro w hw
  rw [otherFace, List.mem_append, List.mem_map] at hw
  rcases hw with hw | ⟨x, -, rfl⟩
  · split at hw
    · rw [List.mem_singleton] at hw
      subst hw
      exact showNat_isWord _
    · simp at hw
  · exact showNat_isWord _

theorem otherVertex_data (st : HstStyle) (v : V3 ℚ × ℕ) : DataLine (spaced (otherVertex st v)) := by
  unfold otherVertex
  split
  · exact spaced_data (showNat_data _)
  · exact spaced_data (showFixed_data _)

theorem otherFace_data (st : HstStyle) (f : Face × ℕ) : DataLine (spaced (otherFace st f)) := by
  unfold otherFace otherCorners
  split
  · exact spaced_data (showNat_data _)
  · split <;> exact spaced_data (showNat_data _)

/-! ## The loop -/

theorem other_vertices (st : HstStyle) (vs : List (V3 ℚ)) (s : HstState) (hs : s.ctx = .vertices) (rest : List Text) :
    ∃ lv, hstRead s ((vs.zipIdx s.vertices.length).map (fun v => spaced (otherVertex st v)) ++ rest) =
      hstRead { s with vertices := s.vertices ++ vs.map fun v => (coords v).map showFixed, lastVertex := lv } rest := by
  induction vs generalizing s with
  | nil => exact ⟨s.lastVertex, by simp⟩
  | cons v vs ih =>
    have hadd : s.addVertex (textWords (spaced (otherVertex st (v, s.vertices.length)))) =
        some { s with vertices := s.vertices ++ [(coords v).map showFixed], lastVertex := some ((coords v).map showFixed) } := by
      rw [spaced_words (otherVertex_word st _), otherVertex]
      have hi := readInt_showNat (s.vertices.length + 1)
      push_cast at hi
      cases st.numbered <;> simp [coords, HstState.addVertex, hi]
    rw [List.zipIdx_cons, List.map_cons, List.cons_append, (hst_data s _ _ (otherVertex_data st _)).1 hs, hadd,
      Option.bind_some]
    obtain ⟨lv, h⟩ := ih { s with
      vertices := s.vertices ++ [(coords v).map showFixed], lastVertex := some ((coords v).map showFixed) } hs
    simp only [List.length_append, List.length_singleton] at h
    refine ⟨lv, ?_⟩
    rw [h]
    simp

theorem other_faces (st : HstStyle) (fs : List Face) (s : HstState)
    (hs : s.ctx = .panels (if st.numberedPanels then 1 else 0)) (rest : List Text) :
    ∃ lf, hstRead s ((fs.zipIdx s.faces.length).map (fun f => spaced (otherFace st f)) ++ rest) =
      hstRead { s with faces := s.faces ++ fs.map fun f => f.toList.map fun i => showNat (i + 1), lastFace := lf } rest := by
  induction fs generalizing s with
  | nil => exact ⟨s.lastFace, by simp⟩
  | cons f fs ih =>
    have hi := readInt_showNat (s.faces.length + 1)
    push_cast at hi
    have hadd : hstRead s (spaced (otherFace st (f, s.faces.length)) ::
        ((fs.zipIdx (s.faces.length + 1)).map (fun f => spaced (otherFace st f)) ++ rest)) =
        hstRead { s with faces := s.faces ++ [f.toList.map fun i => showNat (i + 1)],
                         lastFace := some (f.toList.map fun i => showNat (i + 1)) }
          ((fs.zipIdx (s.faces.length + 1)).map (fun f => spaced (otherFace st f)) ++ rest) := by
      have hw := spaced_words (otherFace_word st (f, s.faces.length))
      have hd := hst_data s _ ((fs.zipIdx (s.faces.length + 1)).map (fun f => spaced (otherFace st f)) ++ rest)
        (otherFace_data st (f, s.faces.length))
      cases hp : st.numberedPanels with
      | false =>
        rw [hd.2.1 (by rw [hs, hp]; rfl), hw]
        simp only [otherFace, otherCorners, hp]
        by_cases hc : st.short = true ∧ f.c = f.d
        · rw [if_pos hc]
          simp [HstState.addFace, Face.toList, hc.2]
        · rw [if_neg hc]
          simp [HstState.addFace, Face.toList]
      | true =>
        rw [hd.2.2 (by rw [hs, hp]; rfl), hw]
        simp only [otherFace, otherCorners, hp]
        by_cases hc : st.short = true ∧ f.c = f.d
        · rw [if_pos hc]
          simp [HstState.addIndexedFace, Face.toList, hc.2, hi]
        · rw [if_neg hc]
          simp [HstState.addIndexedFace, Face.toList, hi]
    rw [List.zipIdx_cons, List.map_cons, List.cons_append, hadd]
    obtain ⟨lf, h⟩ := ih { s with
        faces := s.faces ++ [f.toList.map fun i => showNat (i + 1)],
        lastFace := some (f.toList.map fun i => showNat (i + 1)) } hs
    simp only [List.length_append, List.length_singleton] at h
    refine ⟨lf, ?_⟩
    rw [h]
    simp

theorem hst_coordinates (s : HstState) (ls : List Text) :
    hstRead s ("COORDINATES".toList :: ls) = hstRead { s with ctx := .vertices } ls := by
  rw [hstRead]
  have h1 : "COORDINATES".toList.dropWhile isBlank = "COORDINATES".toList := by decide
  have h2 : starts "COORDINATES" "COORDINATES".toList = true := by decide
  have h3 : "COORDINATES".toList ≠ [] := by decide
  simp only [h1, h2, h3, if_false, if_true]

theorem hst_end_coordinates (s : HstState) (ls : List Text) (hs : s.ctx = .vertices) :
    hstRead s ("ENDCOORDINATES".toList :: ls) = hstRead { s with ctx := .outside } ls := by
  rw [hstRead]
  have h1 : "ENDCOORDINATES".toList.dropWhile isBlank = "ENDCOORDINATES".toList := by decide
  have h2 : starts "COORDINATES" "ENDCOORDINATES".toList = false := by decide
  have h4 : starts "ENDCOORDINATES" "ENDCOORDINATES".toList = true := by decide
  have h3 : "ENDCOORDINATES".toList ≠ [] := by decide
  simp only [h1, h2, h3, h4, hs, if_false, if_true, and_self, Bool.false_eq_true]

theorem hst_panels (s : HstState) (l : Text) (k : ℤ) (ls : List Text) (hs : s.ctx = .outside)
    (hl : l = "PANEL TYPE 0".toList ∧ k = 0 ∨ l = "PANEL TYPE 1".toList ∧ k = 1) :
    hstRead s (l :: ls) = hstRead { s with ctx := .panels k } ls := by
  have h1 : l.dropWhile isBlank = l := by rcases hl with ⟨rfl, -⟩ | ⟨rfl, -⟩ <;> decide
  have h2 : starts "COORDINATES" l = false := by rcases hl with ⟨rfl, -⟩ | ⟨rfl, -⟩ <;> decide
  have h4 : starts "PANEL" l = true := by rcases hl with ⟨rfl, -⟩ | ⟨rfl, -⟩ <;> decide
  have h3 : l ≠ [] := by rcases hl with ⟨rfl, -⟩ | ⟨rfl, -⟩ <;> decide
  have h5 : readIntLine (l.drop 10) = some k := by rcases hl with ⟨rfl, rfl⟩ | ⟨rfl, rfl⟩ <;> decide
  rw [hstRead]
  simp only [h1, h2, h3, h4, hs, if_false, if_true, Bool.false_eq_true, false_and, reduceCtorEq]
  rw [h5]

theorem hst_end_panels (s : HstState) (ls : List Text) (hs : s.ctx = .panels 0 ∨ s.ctx = .panels 1) :
    hstRead s ("ENDPANEL".toList :: ls) = hstRead { s with ctx := .outside } ls := by
  rw [hstRead]
  have h1 : "ENDPANEL".toList.dropWhile isBlank = "ENDPANEL".toList := by decide
  have h2 : starts "COORDINATES" "ENDPANEL".toList = false := by decide
  have h4 : starts "PANEL" "ENDPANEL".toList = false := by decide
  have h5 : starts "ENDPANEL" "ENDPANEL".toList = true := by decide
  have h6 : starts "ENDCOORDINATES" "ENDPANEL".toList = false := by decide
  have h3 : "ENDPANEL".toList ≠ [] := by decide
  simp only [h1, h2, h3, h4, h5, h6, hs, if_false, if_true, Bool.false_eq_true, and_false, and_self]

theorem hst_end_file (s : HstState) (ls : List Text) (hs : s.ctx = .outside) : hstRead s ("ENDFILE".toList :: ls) = some s := by
  rw [hstRead]
  have h1 : "ENDFILE".toList.dropWhile isBlank = "ENDFILE".toList := by decide
  have h2 : starts "COORDINATES" "ENDFILE".toList = false := by decide
  have h4 : starts "PANEL" "ENDFILE".toList = false := by decide
  have h5 : starts "ENDFILE" "ENDFILE".toList = true := by decide
  have h3 : "ENDFILE".toList ≠ [] := by decide
  simp only [h1, h2, h3, h4, h5, hs, if_false, if_true, Bool.false_eq_true, false_and, reduceCtorEq, or_self]

/-- The words read after the keyword of the symmetries. -/
def symmetryWords : HstSymmetry → List Text
  | .none => []
  | .one => [['1']]
  | .two => [['2']]

theorem hst_symmetry (y : HstSymmetry) (s : HstState) (ls : List Text) (hs : s.ctx = .outside) (hy : s.symmetry = []) :
    hstRead s (otherSymmetry y ++ ls) = hstRead { s with symmetry := symmetryWords y } ls := by
  have key : ∀ (l w : Text), l.dropWhile isBlank = l → l ≠ [] → starts "COORDINATES" l = false → starts "PANEL" l = false →
      starts "ENDFILE" l = false → starts "PROJECT" l = false → starts "SYMMETRY" l = true →
      textWords ((l.drop 9).dropWhile (· = ':')) = [w] → hstRead s (l :: ls) = hstRead { s with symmetry := [w] } ls := by
    intro l w h1 h2 h3 h4 h5 h6 h7 h8
    rw [hstRead]
    simp only [h1, h2, h3, h4, h5, h6, h7, h8, hs, if_false, if_true, Bool.false_eq_true, false_and, reduceCtorEq, or_self]
  cases y with
  | none =>
    have : { s with symmetry := symmetryWords .none } = s := by rw [symmetryWords, ← hy]
    rw [this]; rfl
  | one =>
    exact key "SYMMETRY: 1".toList ['1'] (by decide) (by decide) (by decide) (by decide) (by decide) (by decide)
      (by decide) (by decide)
  | two =>
    exact key "SYMMETRY: 2".toList ['2'] (by decide) (by decide) (by decide) (by decide) (by decide) (by decide)
      (by decide) (by decide)

theorem other_state (st : HstStyle) (m : Mesh (V3 ℚ)) :
    ∃ s, hstRead {} (textLines (otherHST st m)) = some s ∧ s.symmetry = symmetryWords st.symmetry ∧
      s.vertices = (m.vertices.map fun v => (coords v).map showFixed) ∧
      s.faces = m.faces.map fun f => f.toList.map fun i => showNat (i + 1) := by
  have hl : textLines (otherHST st m) = "PROJECT: buoy".toList :: otherSymmetry st.symmetry ++ "COORDINATES".toList ::
    m.vertices.zipIdx.map (fun v => spaced (otherVertex st v)) ++ "ENDCOORDINATES".toList ::
    (if st.numberedPanels then "PANEL TYPE 1".toList else "PANEL TYPE 0".toList) ::
    m.faces.zipIdx.map (fun f => spaced (otherFace st f)) ++ ["ENDPANEL".toList, "ENDFILE".toList] := by
    refine textLines_unlines ?_
    intro l hl
    simp only [List.mem_append, List.mem_cons, List.mem_map, List.not_mem_nil, or_false] at hl
    rcases hl with (((rfl | hl) | rfl | ⟨v, -, rfl⟩) | rfl | rfl | ⟨f, -, rfl⟩) | rfl | rfl
    · decide
    · revert hl
      cases st.symmetry <;> simp [otherSymmetry]
      all_goals (rintro rfl; decide)
    · decide
    · exact spaced_newline (otherVertex_word st v)
    · decide
    · split <;> decide
    · exact spaced_newline (otherFace_word st f)
    · decide
    · decide
  rw [hl]
  simp only [List.cons_append, List.append_assoc]
  rw [hst_skip _ rfl _ _ (by decide), hst_symmetry _ _ _ rfl rfl, hst_coordinates]
  obtain ⟨lv, h⟩ := other_vertices st m.vertices { ctx := .vertices, symmetry := symmetryWords st.symmetry } rfl
    ("ENDCOORDINATES".toList :: (if st.numberedPanels then "PANEL TYPE 1".toList else "PANEL TYPE 0".toList) ::
      (m.faces.zipIdx.map (fun f => spaced (otherFace st f)) ++ ["ENDPANEL".toList, "ENDFILE".toList]))
  simp only [List.length_nil] at h
  rw [h, hst_end_coordinates _ _ rfl, hst_panels _ _ (if st.numberedPanels then 1 else 0) _ rfl (by
    cases st.numberedPanels <;> simp)]
  obtain ⟨lf, h'⟩ := other_faces st m.faces
    { ctx := .panels (if st.numberedPanels then 1 else 0), symmetry := symmetryWords st.symmetry
      vertices := [] ++ m.vertices.map fun v => (coords v).map showFixed, lastVertex := lv } rfl
    ["ENDPANEL".toList, "ENDFILE".toList]
  simp only [List.length_nil] at h'
  rw [h', hst_end_panels _ _ (by cases st.numberedPanels <;> simp), hst_end_file _ _ rfl]
  exact ⟨_, rfl, rfl, by simp, by simp⟩

/-- **C86.** Numbered or not, with triangles of three corners or not, with symmetries or not, the vertices, the panels and the
symmetries of a Hydrostar file are the ones of the mesh. -/
theorem hydrostar_other {m : Mesh (V3 ℚ)} (hv : m.Valid) (st : HstStyle) :
    ∃ m', loadHST (otherHST st m) = some ⟨m', st.symmetry = .two, st.symmetry = .one ∨ st.symmetry = .two⟩ ∧
      SameMesh Rounded6 m m' := by
  obtain ⟨s, h1, h2, h3, h4⟩ := other_state st m
  refine ⟨mapMesh fixedValue m, ?_, sameMesh_map fixed_rounded m⟩
  have r1 : s.vertices.mapM (fun r => r.mapM readFloat) = some (m.vertices.map fun v => (coords v).map fixedValue) := by
    rw [h3]
    exact mapM_all_map _ fun v _ => mapM_all_map _ fun x _ => readFloat_showFixed x
  have r2 : s.faces.mapM (fun r => r.mapM readInt) = some (m.faces.map fileRow) := by
    rw [h4]
    exact mapM_all_map _ fun f _ => readInt_face f
  unfold loadHST
  rw [h1]
  simp only
  rw [r1, r2]
  simp only
  rw [mkMesh_good fixedValue m hv, h2]
  cases st.symmetry <;> rfl

/-- A quarter of a buoy, with a triangle of three corners and numbered panels. -/
example : ∃ m', loadHST (otherHST ⟨false, true, true, .two⟩
    ⟨[⟨1, 1, 0⟩, ⟨-1, 1, 0⟩, ⟨-1, -1, 0⟩, ⟨1, -1, 0⟩, ⟨0, 0, -1 / 3⟩], [⟨0, 1, 2, 3⟩, ⟨0, 1, 4, 4⟩]⟩) =
      some ⟨m', true, true⟩ ∧ m'.faces = [⟨0, 1, 2, 3⟩, ⟨0, 1, 4, 4⟩] := by
  obtain ⟨m', h, h'⟩ := hydrostar_other
    (m := ⟨[⟨1, 1, 0⟩, ⟨-1, 1, 0⟩, ⟨-1, -1, 0⟩, ⟨1, -1, 0⟩, ⟨0, 0, -1 / 3⟩], [⟨0, 1, 2, 3⟩, ⟨0, 1, 4, 4⟩]⟩)
    (by intro f hf; simp at hf; rcases hf with rfl | rfl <;> simp [Face.toList]) ⟨false, true, true, .two⟩
  refine ⟨m', ?_, h'.1⟩
  rw [h]; simp

/-! ## Lines that cannot be read -/

/-- **C86, violated.** Among the vertices, a line that has not three or four words is never refused after the first vertex: it
repeats the vertex before it. The same among the panels that are not numbered. -/
theorem hydrostar_malformed (s : HstState) (l : Text) (ls : List Text) (h : DataLine l)
    (hl : (textWords l).length ≠ 3 ∧ (textWords l).length ≠ 4) :
    (∀ v, s.ctx = .vertices → s.lastVertex = some v →
      hstRead s (l :: ls) = hstRead { s with vertices := s.vertices ++ [v] } ls) ∧
    ∀ f, s.ctx = .panels 0 → s.lastFace = some f → hstRead s (l :: ls) = hstRead { s with faces := s.faces ++ [f] } ls := by
  refine ⟨fun v h1 h2 => ?_, fun f h1 h2 => ?_⟩
  · rw [(hst_data s l ls h).1 h1, HstState.addVertex, h2]
    · rfl
    · intros; rename_i he; simp [he] at hl
    · intros; rename_i he; simp [he] at hl
  · rw [(hst_data s l ls h).2.1 h1, HstState.addFace, h2]
    · rfl
    · intros; rename_i he; simp [he] at hl
    · intros; rename_i he; simp [he] at hl

/-- A file with some lines of vertices and of panels. -/
def rawHST (vertices panels : List Text) : Text :=
  unlines ("COORDINATES".toList :: vertices ++ "ENDCOORDINATES".toList :: "PANEL TYPE 0".toList :: panels ++
    ["ENDPANEL".toList, "ENDFILE".toList])

/-- **C86, violated.** A line of coordinates with five numbers is not refused: it repeats the vertex before it. The same
for a panel with five corners. -/
theorem hydrostar_malformed_violated :
    (hstRead {} (textLines (rawHST ["0. 0. 0.".toList, "1. 0. 0.".toList, "9. 9. 9. 9. 9.".toList] []))).map (·.vertices) =
      some [["0.".toList, "0.".toList, "0.".toList], ["1.".toList, "0.".toList, "0.".toList],
        ["1.".toList, "0.".toList, "0.".toList]] ∧
    (hstRead {} (textLines (rawHST [] ["1 2 3".toList, "4 5 6 7 8".toList]))).map (·.faces) =
      some [[['1'], ['2'], ['3'], ['3']], [['1'], ['2'], ['3'], ['3']]] := by
  constructor <;> decide +kernel


end Verif.Files
