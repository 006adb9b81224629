import Verif.Files.PnlProps

/-!
# Files GDF of WAMIT (C43)
-/

namespace Verif.Files

open Verif.Geometry Verif.Meshes

/-- The position of a vertex, with a default value that is not used for a valid mesh. -/
def posOf (m : Mesh (V3 ℚ)) (i : ℕ) : V3 ℚ := m.vertices.getD i ⟨0, 0, 0⟩

theorem posOf_get {m : Mesh (V3 ℚ)} {i : ℕ} (hi : i < m.vertices.length) : m.vertices[i]? = some (posOf m i) := by
  rw [posOf, List.getD_eq_getElem?_getD, List.getElem?_eq_getElem hi]; rfl

theorem posOf_mem {m : Mesh (V3 ℚ)} {i : ℕ} (hi : i < m.vertices.length) : posOf m i ∈ m.vertices :=
  List.mem_of_getElem? (posOf_get hi)

/-- The corners of all the panels in order. -/
def allCorners (m : Mesh (V3 ℚ)) : List (V3 ℚ) := m.faces.flatMap fun f => f.toList.map (posOf m)

theorem corners_all {m : Mesh (V3 ℚ)} (hv : m.Valid) :
    m.faces.mapM (corners m) = some (m.faces.map fun f => f.toList.map (posOf m)) :=
  mapM_all _ fun f hf => mapM_all _ fun i hi => posOf_get (hv f hf i hi)

/-- The line of a corner. -/
def gdfLine (v : V3 ℚ) : Text := (coords v).flatMap fun x => padLeft 16 (showSci x)

theorem gdf_written {m : Mesh (V3 ℚ)} (hv : m.Valid) (date : Text) : writeGDF date m = some (unlines
    (["GDF file generated by meshmagick on ".toList ++ date,
      padLeft 16 (showFixed 100) ++ padLeft 16 (showFixed (981 / 100)),
      padLeft 12 (showNat 0) ++ padLeft 12 (showNat 0),
      padLeft 12 (showNat (max m.faces.length 4))] ++ (allCorners m).map gdfLine)) := by
  rw [writeGDF, corners_all hv, Option.map_some, ← List.flatMap_def]
  rfl

theorem gdf_lines {m : Mesh (V3 ℚ)} (date : Text) (hd : '\n' ∉ date) : textLines (unlines
    (["GDF file generated by meshmagick on ".toList ++ date,
      padLeft 16 (showFixed 100) ++ padLeft 16 (showFixed (981 / 100)),
      padLeft 12 (showNat 0) ++ padLeft 12 (showNat 0),
      padLeft 12 (showNat (max m.faces.length 4))] ++ (allCorners m).map gdfLine)) =
    ["GDF file generated by meshmagick on ".toList ++ date,
      padLeft 16 (showFixed 100) ++ padLeft 16 (showFixed (981 / 100)),
      padLeft 12 (showNat 0) ++ padLeft 12 (showNat 0),
      padLeft 12 (showNat (max m.faces.length 4))] ++ (allCorners m).map gdfLine := by
  apply textLines_unlines
  intro l hl
  rw [List.mem_append] at hl
  rcases hl with hl | hl
  · simp only [List.mem_cons, List.not_mem_nil, or_false] at hl
    rcases hl with rfl | rfl | rfl | rfl
    · exact append_newline (by decide) hd
    · exact append_newline (padLeft_newline (isWord_newline (showFixed_isWord _)))
        (padLeft_newline (isWord_newline (showFixed_isWord _)))
    · exact append_newline (padLeft_newline (isWord_newline (showNat_isWord _)))
        (padLeft_newline (isWord_newline (showNat_isWord _)))
    · exact padLeft_newline (isWord_newline (showNat_isWord _))
  · obtain ⟨v, -, rfl⟩ := List.mem_map.1 hl
    exact pads_newline fun _ _ => showSci_isWord _

theorem showSci_hash {x : ℚ} : '#' ∉ showSci x := by
  rw [showSci, showMillionths, List.mem_append, List.mem_append, List.mem_append, List.mem_cons, List.mem_cons]
  rintro ((h | h | h | h) | h | h)
  · unfold showSign at h; split at h
    · exact absurd h (by decide)
    · exact absurd h (by simp)
  · exact absurd (showNat_digits h) (by decide)
  · exact absurd h (by decide)
  · exact absurd (lastDigits_digits h) (by decide)
  · exact absurd h (by decide)
  · rw [showExponent, List.mem_cons] at h
    rcases h with h | h
    · split at h <;> exact absurd h (by decide)
    · split at h
      · rw [List.mem_cons] at h
        rcases h with h | h
        · exact absurd h (by decide)
        · exact absurd (showNat_digits h) (by decide)
      · exact absurd (showNat_digits h) (by decide)

theorem gdfLine_words {v : V3 ℚ} (h : ∀ x ∈ coords v, InRange x) : textWords (gdfLine v) = (coords v).map showSci :=
  sciLine_words (by norm_num) v h

theorem gdfLine_data {v : V3 ℚ} (h : ∀ x ∈ coords v, InRange x) : '#' ∉ gdfLine v ∧ textWords (gdfLine v) ≠ [] := by
  constructor
  · unfold gdfLine
    rw [List.mem_flatMap]
    rintro ⟨x, -, hx⟩
    exact padLeft_hash showSci_hash hx
  · rw [gdfLine_words h]; simp [coords]

/-- The values read from the lines of the corners. -/
theorem gdf_values {vs : List (V3 ℚ)} (h : ∀ v ∈ vs, ∀ x ∈ coords v, InRange x) :
    dataValues (vs.map gdfLine) = some (vs.flatMap fun v => (coords v).map sciValue) := by
  have hd : dataRows (vs.map gdfLine) = vs.map fun v => (coords v).map showSci := by
    rw [dataRows_lines]
    · rw [List.map_map]
      exact List.map_congr_left fun v hv => gdfLine_words (h v hv)
    · intro l hl
      obtain ⟨v, hv, rfl⟩ := List.mem_map.1 hl
      exact gdfLine_data (h v hv)
  unfold dataValues
  rw [hd, if_pos]
  · rw [← List.flatMap_def]
    have e1 : (vs.flatMap fun v => (coords v).map showSci) = (vs.flatMap coords).map showSci := by
      rw [List.map_flatMap]
    have e2 : (vs.flatMap fun v => (coords v).map sciValue) = (vs.flatMap coords).map sciValue := by
      rw [List.map_flatMap]
    rw [e1, e2]
    exact mapM_all_map _ fun x _ => readFloat_showSci x
  · intro r hr
    obtain ⟨v, hv, rfl⟩ := List.mem_map.1 hr
    cases vs with
    | nil => exact absurd hv (by simp)
    | cons w ws => simp [coords]

theorem chunk3_coords (vs : List (V3 ℚ)) (g : ℚ → ℚ) :
    chunk3 (vs.flatMap fun v => (coords v).map g) = some (vs.map (mapV g)) := by
  induction vs with
  | nil => rfl
  | cons v vs ih =>
    rw [List.flatMap_cons]
    show chunk3 (g v.x :: g v.y :: g v.z :: (vs.flatMap fun v => (coords v).map g)) = _
    rw [chunk3, ih]
    rfl

theorem chunk4_faces (fs : List Face) (g : ℕ → ℕ) :
    chunk4 (fs.flatMap fun f => f.toList.map g) = some (fs.map (Face.map g)) := by
  induction fs with
  | nil => rfl
  | cons f fs ih =>
    rw [List.flatMap_cons]
    show chunk4 (g f.a :: g f.b :: g f.c :: g f.d :: (fs.flatMap fun f => f.toList.map g)) = _
    rw [chunk4, ih]
    rfl

/-- The corners read again. -/
def gdfPoints (m : Mesh (V3 ℚ)) : List (V3 ℚ) := (allCorners m).map (mapV sciValue)

/-- The new index of a vertex. -/
def gdfIndex (m : Mesh (V3 ℚ)) (i : ℕ) : ℕ := (uniqueRows (gdfPoints m)).idxOf (mapV sciValue (posOf m i))

theorem gdf_indices (m : Mesh (V3 ℚ)) :
    (gdfPoints m).map (fun p => (uniqueRows (gdfPoints m)).idxOf p) = m.faces.flatMap fun f => f.toList.map (gdfIndex m) := by
  have e : gdfPoints m = m.faces.flatMap fun f => (f.toList.map (posOf m)).map (mapV sciValue) := by
    rw [gdfPoints, allCorners, List.map_flatMap]
  conv_lhs => arg 2; rw [e]
  rw [List.map_flatMap]
  refine List.flatMap_congr fun f _ => ?_
  rw [List.map_map, List.map_map]
  rfl

theorem mem_allCorners {m : Mesh (V3 ℚ)} {v : V3 ℚ} : v ∈ allCorners m ↔ ∃ f ∈ m.faces, ∃ i ∈ f.toList, posOf m i = v := by
  simp only [allCorners, List.mem_flatMap, List.mem_map]

theorem uniqueRows_mem {l : List (V3 ℚ)} {v : V3 ℚ} : v ∈ uniqueRows l ↔ v ∈ l := by
  rw [uniqueRows, List.mem_mergeSort, List.mem_dedup]

theorem uniqueRows_nodup (l : List (V3 ℚ)) : (uniqueRows l).Nodup :=
  (List.mergeSort_perm _ _).nodup_iff.2 (List.nodup_dedup l)

theorem gdf_header1 : ((textWords (padLeft 16 (showFixed 100) ++ padLeft 16 (showFixed (981 / 100)))).take 2).mapM readFloat =
    some [fixedValue 100, fixedValue (981 / 100)] := by
  have h : ∀ x : ℚ, Fits16 x → (showFixed x).length < 16 := fun x hx => (fits16_iff x).2 hx
  have := words_line 16 16 (showFixed 100) showFixed [981 / 100] (showFixed_isWord _) (fun _ _ => showFixed_isWord _)
    (fun x hx => by
      simp only [List.mem_singleton] at hx
      subst hx
      exact h _ (by constructor <;> norm_num))
  simp only [List.flatMap_cons, List.flatMap_nil, List.append_nil, List.map_cons, List.map_nil] at this
  rw [this]
  exact mapM_all_map (f := readFloat) (g := showFixed) (h := fixedValue) [100, 981 / 100] fun x _ => readFloat_showFixed x

theorem gdf_header2 : ((textWords (padLeft 12 (showNat 0) ++ padLeft 12 (showNat 0))).take 2).mapM readInt = some [0, 0] := by
  decide +kernel

theorem gdf_header3 (n : ℕ) : ((textWords (padLeft 12 (showNat n))).take 1).mapM readInt = some [(n : ℤ)] := by
  have := words_line 12 12 (showNat n) showNat [] (showNat_isWord _) (fun _ _ => showNat_isWord _) (by simp)
  simp only [List.flatMap_nil, List.append_nil, List.map_nil] at this
  rw [this]
  exact mapM_all_map (f := readInt) (g := showNat) (h := fun n : ℕ => (n : ℤ)) [n] fun n _ => readInt_showNat n

theorem gdf_read {m : Mesh (V3 ℚ)} (hv : m.Valid) (hr : AllCoords InRange m) {date s : Text} (hd : '\n' ∉ date)
    (hw : writeGDF date m = some s) : loadGDF s =
      if 4 ≤ m.faces.length then
        some ⟨⟨uniqueRows (gdfPoints m), m.faces.map (Face.map (gdfIndex m))⟩, false, false⟩
      else none := by
  rw [gdf_written hv, Option.some.injEq] at hw
  subst hw
  have hcoords : ∀ v ∈ allCorners m, ∀ x ∈ coords v, InRange x := by
    intro v hvm
    obtain ⟨f, hf, i, hi, rfl⟩ := mem_allCorners.1 hvm
    exact allCoords_mem hr (posOf_mem (hv f hf i hi))
  unfold loadGDF
  simp only [gdf_lines date hd]
  simp only [List.cons_append, List.nil_append, List.getD_cons_succ, List.getD_cons_zero, gdf_header1, gdf_header2,
    gdf_header3, List.drop_succ_cons, List.drop_zero, gdf_values hcoords, Option.bind_some, chunk3_coords]
  have : (allCorners m).map (mapV sciValue) = gdfPoints m := rfl
  simp only [this, gdf_indices, chunk4_faces, List.length_map]
  by_cases h4 : 4 ≤ m.faces.length
  · rw [if_pos h4, if_pos (by rw [max_eq_left h4])]
    simp
  · rw [if_neg h4, if_neg]
    rw [max_eq_right (by omega)]
    push_cast
    omega

/-- **C43 (GDF).** The file is always written, and it can be read again exactly when the mesh has at least four panels. -/
theorem gdf_readable_iff {m : Mesh (V3 ℚ)} (hv : m.Valid) (hr : AllCoords InRange m) {date : Text} (hd : '\n' ∉ date) :
    ∃ s, writeGDF date m = some s ∧ ((loadGDF s).isSome ↔ 4 ≤ m.faces.length) := by
  refine ⟨_, gdf_written hv date, ?_⟩
  rw [gdf_read hv hr hd (gdf_written hv date)]
  split <;> simp_all

/-- **C43 (GDF).** Reading a GDF file written from a mesh of at least four panels gives the same panels in the same
order, with seven significant digits. The vertices are renumbered: two vertices of the result are never at the same
place, and all of them belong to a panel. -/
theorem gdf_round_trip {m : Mesh (V3 ℚ)} (hv : m.Valid) (hr : AllCoords InRange m) {date : Text} (hd : '\n' ∉ date)
    (h4 : 4 ≤ m.faces.length) : ∃ s m', writeGDF date m = some s ∧ loadGDF s = some ⟨m', false, false⟩ ∧
      SamePanels Digits7 m m' ∧ m'.Valid ∧ m'.vertices.Nodup ∧ (∃ φ : ℕ → ℕ, m'.faces = m.faces.map (Face.map φ)) ∧
      ∀ j < m'.vertices.length, ∃ f ∈ m'.faces, j ∈ f.toList := by
  have hget : ∀ f ∈ m.faces, ∀ i ∈ f.toList,
      (uniqueRows (gdfPoints m))[gdfIndex m i]? = some (mapV sciValue (posOf m i)) := by
    intro f hf i hi
    have hmem : mapV sciValue (posOf m i) ∈ uniqueRows (gdfPoints m) :=
      uniqueRows_mem.2 (List.mem_map_of_mem (mem_allCorners.2 ⟨f, hf, i, hi, rfl⟩))
    have hlt := List.idxOf_lt_length_iff.2 hmem
    rw [gdfIndex, List.getElem?_eq_getElem hlt, List.getElem_idxOf]
  have hmap : ∀ (f : Face) (φ : ℕ → ℕ), (f.map φ).toList = f.toList.map φ := fun f φ => rfl
  refine ⟨_, ⟨uniqueRows (gdfPoints m), m.faces.map (Face.map (gdfIndex m))⟩, gdf_written hv date, ?_, ?_, ?_,
    uniqueRows_nodup _, ⟨_, rfl⟩, ?_⟩
  · rw [gdf_read hv hr hd (gdf_written hv date), if_pos h4]
  · unfold SamePanels
    rw [List.forall₂_map_right_iff]
    refine List.forall₂_same.2 fun f hf => ?_
    rw [hmap, List.forall₂_map_right_iff]
    refine List.forall₂_same.2 fun i hi => ⟨_, _, posOf_get (hv f hf i hi), hget f hf i hi, ?_⟩
    exact ⟨sci_rounded _, sci_rounded _, sci_rounded _⟩
  · intro f' hf' j hj
    obtain ⟨f, hf, rfl⟩ := List.mem_map.1 hf'
    rw [hmap] at hj
    obtain ⟨i, hi, rfl⟩ := List.mem_map.1 hj
    exact (List.getElem?_eq_some_iff.1 (hget f hf i hi)).1
  · intro j hj
    have hj' : j < (uniqueRows (gdfPoints m)).length := hj
    have hmem : (uniqueRows (gdfPoints m))[j] ∈ gdfPoints m := uniqueRows_mem.1 (List.getElem_mem hj')
    obtain ⟨v, hvm, hve⟩ := List.mem_map.1 hmem
    obtain ⟨f, hf, i, hi, rfl⟩ := mem_allCorners.1 hvm
    refine ⟨_, List.mem_map_of_mem hf, ?_⟩
    rw [hmap, List.mem_map]
    refine ⟨i, hi, ?_⟩
    rw [gdfIndex, hve]
    exact (uniqueRows_nodup _).idxOf_getElem j hj'

/-- Four panels, one of them a triangle, are written and read again. -/
example : ∃ s m', writeGDF "Tue".toList ⟨[⟨1, 1, 0⟩, ⟨-1, 1, 0⟩, ⟨-1, -1, 0⟩, ⟨1, -1, 0⟩, ⟨0, 0, -1⟩],
    [⟨0, 1, 2, 3⟩, ⟨1, 2, 4, 1⟩, ⟨2, 3, 4, 2⟩, ⟨3, 0, 4, 3⟩]⟩ = some s ∧ loadGDF s = some ⟨m', false, false⟩ ∧
    SamePanels Digits7 ⟨[⟨1, 1, 0⟩, ⟨-1, 1, 0⟩, ⟨-1, -1, 0⟩, ⟨1, -1, 0⟩, ⟨0, 0, -1⟩],
    [⟨0, 1, 2, 3⟩, ⟨1, 2, 4, 1⟩, ⟨2, 3, 4, 2⟩, ⟨3, 0, 4, 3⟩]⟩ m' := by
  obtain ⟨s, m', h1, h2, h3, -⟩ := gdf_round_trip (date := "Tue".toList)
    (m := ⟨[⟨1, 1, 0⟩, ⟨-1, 1, 0⟩, ⟨-1, -1, 0⟩, ⟨1, -1, 0⟩, ⟨0, 0, -1⟩],
    [⟨0, 1, 2, 3⟩, ⟨1, 2, 4, 1⟩, ⟨2, 3, 4, 2⟩, ⟨3, 0, 4, 3⟩]⟩)
    (by intro f hf; simp at hf; rcases hf with rfl | rfl | rfl | rfl <;> simp [Face.toList])
    (by
      have h0 : InRange 0 := Or.inl rfl
      have h1 : InRange 1 := inRange_usual (Or.inr (by norm_num))
      have h2 : InRange (-1) := inRange_usual (Or.inr (by norm_num))
      intro v hv; simp at hv; rcases hv with rfl | rfl | rfl | rfl | rfl <;> exact ⟨‹_›, ‹_›, ‹_›⟩)
    (by decide) (by simp)
  exact ⟨s, m', h1, h2, h3⟩

/-- **C43 (GDF), violated.** The file of a mesh of one panel cannot be read again: the number of panels in the file is
at least four. -/
theorem gdf_round_trip_violated : ∃ s, writeGDF [] ⟨[⟨0, 0, 0⟩, ⟨1, 0, 0⟩, ⟨1, 1, 0⟩, ⟨0, 1, 0⟩], [⟨0, 1, 2, 3⟩]⟩ = some s ∧
    loadGDF s = none := by
  obtain ⟨s, h1, h2⟩ := gdf_readable_iff (date := [])
    (m := ⟨[⟨0, 0, 0⟩, ⟨1, 0, 0⟩, ⟨1, 1, 0⟩, ⟨0, 1, 0⟩], [⟨0, 1, 2, 3⟩]⟩)
    (by intro f hf; simp at hf; subst hf; simp [Face.toList])
    (by
      have h0 : InRange 0 := Or.inl rfl
      have h1 : InRange 1 := inRange_usual (Or.inr (by norm_num))
      intro v hv; simp at hv; rcases hv with rfl | rfl | rfl | rfl <;> exact ⟨‹_›, ‹_›, ‹_›⟩)
    (by simp)
  refine ⟨s, h1, ?_⟩
  by_contra hc
  have := h2.1 (Option.isSome_iff_ne_none.2 hc)
  simp at this

end Verif.Files
