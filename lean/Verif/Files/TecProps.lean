import Verif.Files.TecModel
import Verif.Files.NatProps

/-!
# Reading Tecplot files (C43)
-/

namespace Verif.Files

open Verif.Geometry Verif.Meshes

theorem wordsFrom_lines (cur l s : Text) : wordsFrom cur (l ++ '\n' :: s) = wordsFrom cur l ++ wordsFrom [] s := by
  induction l generalizing cur with
  | nil =>
    simp only [List.nil_append, wordsFrom]
    rw [if_pos (by decide)]
    split_ifs <;> simp
  | cons c l ih =>
    simp only [List.cons_append, wordsFrom]
    split_ifs <;> simp [ih]

theorem words_unlines (ls : List Text) : textWords (unlines ls) = ls.flatMap textWords := by
  unfold textWords
  induction ls with
  | nil => simp [unlines, wordsFrom]
  | cons l ls ih =>
    have : unlines (l :: ls) = l ++ '\n' :: unlines ls := by simp [unlines]
    rw [this, wordsFrom_lines, ih]
    rfl

theorem words_block (ls : List Text) : (blockLines ls).flatMap textWords = ls.flatMap textWords := by
  unfold blockLines
  split_ifs with h
  · subst h; simp [textWords, wordsFrom]
  · rfl

theorem wordsFrom_chars (cur s : Text) : ∀ w ∈ wordsFrom cur s, w ≠ [] ∧ ∀ c ∈ w, c ∈ cur ∨ (c ∈ s ∧ isBlank c = false) := by
  induction s generalizing cur with
  | nil =>
    intro w hw
    simp only [wordsFrom] at hw
    split_ifs at hw with h
    · simp at hw
    · simp only [List.mem_singleton] at hw
      subst hw
      exact ⟨h, fun c hc => .inl hc⟩
  | cons a s ih =>
    intro w hw
    simp only [wordsFrom] at hw
    split_ifs at hw with h1 h2
    · obtain ⟨h3, h4⟩ := ih _ w hw
      refine ⟨h3, fun c hc => ?_⟩
      rcases h4 c hc with h | h
      · cases h
      · exact .inr ⟨by simp [h.1], h.2⟩
    · rcases List.mem_cons.1 hw with rfl | hw
      · exact ⟨h2, fun c hc => .inl hc⟩
      · obtain ⟨h3, h4⟩ := ih _ w hw
        refine ⟨h3, fun c hc => ?_⟩
        rcases h4 c hc with h | h
        · cases h
        · exact .inr ⟨by simp [h.1], h.2⟩
    · obtain ⟨h3, h4⟩ := ih _ w hw
      refine ⟨h3, fun c hc => ?_⟩
      rcases h4 c hc with h | h
      · rcases List.mem_append.1 h with h | h
        · exact .inl h
        · simp only [List.mem_singleton] at h
          subst h
          exact .inr ⟨by simp, by simpa using h1⟩
      · exact .inr ⟨by simp [h.1], h.2⟩

theorem padLeft_chars {w : ℕ} {t : Text} {c : Char} (h : c ∈ padLeft w t) (hb : isBlank c = false) : c ∈ t := by
  rcases List.mem_append.1 h with h | h
  · have := List.eq_of_mem_replicate h
    subst this
    exact absurd hb (by decide)
  · exact h

/-- The words of the lines of the faces are made of digits, even when they run together. -/
theorem faceLine_digits (f : Face) : ∀ w ∈ textWords (faceLine f), isDigits w = true ∧ isReal w = false := by
  intro w hw
  obtain ⟨h1, h2⟩ := wordsFrom_chars [] _ w hw
  have hd : ∀ c ∈ w, c.isDigit = true := by
    intro c hc
    rcases h2 c hc with h | ⟨h, hb⟩
    · cases h
    · obtain ⟨i, -, hi⟩ := List.mem_flatMap.1 h
      exact showNat_digits (padLeft_chars hi hb)
  constructor
  · unfold isDigits readNat
    rw [if_pos ⟨h1, List.all_eq_true.2 hd⟩]
    rfl
  · unfold isReal
    rw [Bool.and_eq_false_iff]
    left
    rw [← Bool.not_eq_true, List.contains_iff_mem]
    intro h
    exact absurd (hd _ h) (by decide)

theorem showSci_real (x : ℚ) : isReal (showSci x) = true := by
  unfold isReal
  rw [readFloat_showSci, Bool.and_eq_true, List.contains_iff_mem]
  exact ⟨by simp [showSci, showMillionths], rfl⟩

theorem takeWhile_split {A : Type} {p : A → Bool} {l r : List A} (hl : ∀ a ∈ l, p a = true) (hr : ∀ a ∈ r, p a = false) :
    (l ++ r).takeWhile p = l := by
  rw [List.takeWhile_append_of_pos hl]
  cases r with
  | nil => simp
  | cons a r => simp [hr a (by simp)]

theorem takeWhile_all {A : Type} {p : A → Bool} {l : List A} (hl : ∀ a ∈ l, p a = true) : l.takeWhile p = l := by
  have := takeWhile_split (r := []) hl (by simp)
  simpa using this

theorem rowsOf_flatMap {A B : Type} (w : ℕ) (g : A → List B) (l : List A) (h : ∀ a ∈ l, (g a).length = w) :
    rowsOf l.length w (l.flatMap g) = l.map g := by
  unfold rowsOf
  induction l with
  | nil => simp
  | cons a l ih =>
    rw [List.length_cons, List.range_succ_eq_map, List.map_cons, List.map_map, List.flatMap_cons, List.map_cons]
    have ha := h a (by simp)
    congr 1
    · simp [← ha]
    · rw [← ih fun b hb => h b (by simp [hb])]
      refine List.map_congr_left fun i _ => ?_
      simp only [Function.comp]
      rw [show w * (i + 1) = (g a).length + w * i by rw [ha]; ring, ← List.drop_drop, List.drop_left]

theorem flatMap_length_const {A B : Type} (w : ℕ) (g : A → List B) (l : List A) (h : ∀ a ∈ l, (g a).length = w) :
    (l.flatMap g).length = w * l.length := by
  induction l with
  | nil => simp
  | cons a l ih =>
    rw [List.flatMap_cons, List.length_append, h a (by simp), ih fun b hb => h b (by simp [hb]), List.length_cons]
    ring

theorem flatMap_length_lt {A B : Type} (w : ℕ) (g : A → List B) (l : List A) (h : ∀ a ∈ l, (g a).length ≤ w) {a : A}
    (ha : a ∈ l) (hlt : (g a).length ≠ w) : (l.flatMap g).length < w * l.length := by
  have key : ∀ l : List A, (∀ a ∈ l, (g a).length ≤ w) → (l.flatMap g).length ≤ w * l.length := by
    intro l
    induction l with
    | nil => simp
    | cons b l ih =>
      intro h
      rw [List.flatMap_cons, List.length_append, List.length_cons]
      have := h b (by simp)
      have := ih fun b hb => h b (by simp [hb])
      linarith
  induction l with
  | nil => cases ha
  | cons b l ih =>
    rw [List.flatMap_cons, List.length_append, List.length_cons]
    have hb := h b (by simp)
    rcases List.mem_cons.1 ha with rfl | ha
    · have := key l fun b hb => h b (by simp [hb])
      have : (g a).length < w := lt_of_le_of_ne hb hlt
      linarith
    · have := ih (fun b hb => h b (by simp [hb])) ha
      linarith

/-- A mesh that can be written in a Tecplot file and read again. -/
def TecSafe (m : Mesh (V3 ℚ)) : Prop := m.vertices ≠ [] ∧ ∀ f ∈ m.faces, FaceFits f

theorem tec_words {m : Mesh (V3 ℚ)} (hr : AllCoords InRange m) : textWords (tecData m) =
    (m.vertices.flatMap fun v => (coords v).map showSci) ++ m.faces.flatMap fun f => textWords (faceLine f) := by
  rw [tecData, words_unlines, List.flatMap_append, words_block, words_block, List.flatMap_map, List.flatMap_map]
  congr 1
  exact List.flatMap_congr fun v hv => sciLine_words (by norm_num) v (allCoords_mem hr hv)

theorem coords_count (m : Mesh (V3 ℚ)) :
    (m.vertices.flatMap fun v => (coords v).map showSci).length = 3 * m.vertices.length :=
  flatMap_length_const 3 _ _ fun v _ => by simp [coords]

theorem tec_parts {m : Mesh (V3 ℚ)} (hr : AllCoords InRange m) :
    (textWords (tecData m)).takeWhile isReal = (m.vertices.flatMap fun v => (coords v).map showSci) ∧
    ((textWords (tecData m)).drop (3 * m.vertices.length)).takeWhile isDigits =
      m.faces.flatMap fun f => textWords (faceLine f) := by
  rw [tec_words hr]
  have hd : ∀ w ∈ m.faces.flatMap fun f => textWords (faceLine f), isDigits w = true ∧ isReal w = false := by
    intro w hw
    obtain ⟨f, -, hf⟩ := List.mem_flatMap.1 hw
    exact faceLine_digits f w hf
  constructor
  · refine takeWhile_split (fun w hw => ?_) fun w hw => (hd w hw).2
    obtain ⟨v, -, hw⟩ := List.mem_flatMap.1 hw
    obtain ⟨x, -, rfl⟩ := List.mem_map.1 hw
    exact showSci_real x
  · rw [← coords_count, List.drop_left]
    exact takeWhile_all fun w hw => (hd w hw).1

theorem tec_read {m : Mesh (V3 ℚ)} (hv : m.Valid) (hr : AllCoords InRange m) (hs : TecSafe m) :
    loadTEC (writeTEC m) = some ⟨mapMesh sciValue m, false, false⟩ := by
  obtain ⟨h0, hf⟩ := hs
  obtain ⟨p1, p2⟩ := tec_parts hr
  have hn : 0 < m.vertices.length := List.length_pos_iff.2 h0
  have hids : (m.faces.flatMap fun f => textWords (faceLine f)) =
      m.faces.flatMap fun f => f.toList.map fun i => showNat (i + 1) :=
    List.flatMap_congr fun f h => faceLine_words (hf f h)
  have hl : (m.faces.flatMap fun f => f.toList.map fun i => showNat (i + 1)).length = 4 * m.faces.length :=
    flatMap_length_const 4 _ _ fun f _ => by simp [Face.toList]
  have r1 : (m.vertices.flatMap fun v => (coords v).map showSci).mapM readFloat =
      some (m.vertices.flatMap fun v => (coords v).map sciValue) := by
    rw [← List.map_flatMap, ← List.map_flatMap]
    exact mapM_all_map _ fun x _ => readFloat_showSci x
  have r2 : (m.faces.flatMap fun f => f.toList.map fun i => showNat (i + 1)).mapM readInt = some (m.faces.flatMap fileRow) := by
    unfold fileRow
    rw [← List.map_flatMap, ← List.map_flatMap]
    rw [mapM_all_map (h := fun i : ℕ => ((i + 1 : ℕ) : ℤ)) _ (fun i _ => readInt_showNat _)]
    simp
  have hc : (m.vertices.flatMap fun v => (coords v).map sciValue).length = 3 * m.vertices.length :=
    flatMap_length_const 3 _ _ fun v _ => by simp [coords]
  unfold loadTEC writeTEC
  simp only [p1, coords_count, p2, hids, hl]
  rw [if_neg (by simp; omega), r1, r2]
  simp only [hc, Nat.mul_div_cancel _ hn]
  rw [rowsOf_flatMap 3 _ _ (fun v _ => by simp [coords]), rowsOf_flatMap 4 _ _ (fun f _ => by simp [fileRow, Face.toList]),
    List.map_map]
  have : (m.vertices.map (List.take 3 ∘ fun v => (coords v).map sciValue)) = m.vertices.map fun v => (coords v).map sciValue :=
    List.map_congr_left fun v _ => by simp [coords]
  rw [this, mkMesh_good sciValue m hv]
  rfl

/-- **C43 (TEC).** Reading a Tecplot file written from a mesh gives the same faces on the vertices rounded to seven
significant digits. -/
theorem tec_round_trip {m : Mesh (V3 ℚ)} (hv : m.Valid) (hr : AllCoords InRange m) (hs : TecSafe m) :
    ∃ m', loadTEC (writeTEC m) = some ⟨m', false, false⟩ ∧ SameMesh Digits7 m m' :=
  ⟨_, tec_read hv hr hs, sameMesh_map sci_rounded m⟩

/-- **C43 (TEC).** The file cannot be read again exactly when the mesh has no vertex, or when an index fills its field. -/
theorem tec_readable_iff {m : Mesh (V3 ℚ)} (hv : m.Valid) (hr : AllCoords InRange m) :
    (loadTEC (writeTEC m)).isSome ↔ TecSafe m := by
  refine ⟨fun h => ?_, fun h => by rw [tec_read hv hr h]; rfl⟩
  obtain ⟨p1, p2⟩ := tec_parts hr
  unfold loadTEC writeTEC at h
  simp only [p1, coords_count, p2] at h
  split_ifs at h with hc
  · cases h
  · simp only [not_or, not_not] at hc
    obtain ⟨c1, c2, -, c4⟩ := hc
    refine ⟨fun h0 => c2 (by simp [h0]), fun f hf => ?_⟩
    rw [← faceLine_count]
    by_contra hne
    have := flatMap_length_lt 4 (fun f => textWords (faceLine f)) m.faces (fun g _ => by
      rw [faceLine_eq]
      exact words_line_le 10 10 _ _ [g.b, g.c, g.d] (showNat_isWord _) (fun _ _ => showNat_isWord _)) hf hne
    omega

/-- A quadrangle with a coordinate that is not a decimal number is written and read again. -/
example : ∃ m', loadTEC (writeTEC ⟨[⟨0, 0, 0⟩, ⟨1, 0, 0⟩, ⟨1, 1 / 3, 0⟩, ⟨0, -1, 0⟩], [⟨0, 1, 2, 3⟩]⟩) =
    some ⟨m', false, false⟩ ∧ m'.faces = [⟨0, 1, 2, 3⟩] := by
  obtain ⟨m', h, h'⟩ := tec_round_trip (m := ⟨[⟨0, 0, 0⟩, ⟨1, 0, 0⟩, ⟨1, 1 / 3, 0⟩, ⟨0, -1, 0⟩], [⟨0, 1, 2, 3⟩]⟩)
    (by intro f hf; simp at hf; subst hf; simp [Face.toList])
    (by
      intro v hv
      simp only [List.mem_cons, List.not_mem_nil, or_false] at hv
      rcases hv with rfl | rfl | rfl | rfl <;> refine ⟨?_, ?_, ?_⟩ <;>
        first
          | exact Or.inl rfl
          | exact inRange_usual (Or.inr ⟨by norm_num [abs_of_neg, abs_of_pos], by norm_num [abs_of_neg, abs_of_pos]⟩))
    ⟨by simp, by intro f hf; simp at hf; subst hf; norm_num [FaceFits]⟩
  exact ⟨m', h, h'.1⟩

end Verif.Files
