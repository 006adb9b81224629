import Verif.Files.TextLemmas
import Verif.Files.MeshFilesModel

/-!
# Lemmas on the text formats of meshes
-/

namespace Verif.Files

open Verif.Geometry Verif.Meshes

/-! ## Lists -/

theorem mapM_all {A B : Type} {f : A → Option B} {h : A → B} (l : List A) (hf : ∀ x ∈ l, f x = some (h x)) :
    l.mapM f = some (l.map h) := by
  induction l with
  | nil => rfl
  | cons a l ih =>
    rw [List.mapM_cons, hf a (by simp), ih fun x hx => hf x (by simp [hx])]
    rfl

theorem mapM_all_map {A B C : Type} {f : B → Option C} {g : A → B} {h : A → C} (l : List A)
    (hf : ∀ x ∈ l, f (g x) = some (h x)) : (l.map g).mapM f = some (l.map h) := by
  rw [List.mapM_map]
  exact mapM_all l hf

theorem mapM_forall2 {A B : Type} {f : A → Option B} {l : List A} {r : List B} (h : l.mapM f = some r) :
    List.Forall₂ (fun a b => f a = some b) l r := by
  induction l generalizing r with
  | nil => simp at h; subst h; exact .nil
  | cons a l ih =>
    rw [List.mapM_cons] at h
    cases ha : f a with
    | none => rw [ha] at h; exact absurd h (by simp)
    | some b =>
      cases hl : l.mapM f with
      | none => rw [ha, hl] at h; exact absurd h (by simp)
      | some r' =>
        rw [ha, hl] at h
        simp only [Option.pure_def, Option.bind_eq_bind, Option.bind_some, Option.some.injEq] at h
        subst h
        exact .cons ha (ih hl)

theorem mapM_length_eq {A B : Type} {f : A → Option B} {l : List A} {r : List B} (h : l.mapM f = some r) :
    r.length = l.length := (mapM_forall2 h).length_eq.symm

theorem mapM_pre {A B : Type} {f : A → Option B} {l : List A} {r : List B} (h : l.mapM f = some r) {a : A}
    (ha : a ∈ l) : ∃ b ∈ r, f a = some b := by
  have := mapM_forall2 h
  clear h
  induction this with
  | nil => exact absurd ha (by simp)
  | cons hb _ ih =>
    rcases List.mem_cons.1 ha with rfl | ha
    · exact ⟨_, by simp, hb⟩
    · obtain ⟨b, hb', h⟩ := ih ha
      exact ⟨b, by simp [hb'], h⟩

/-! ## Meshes -/

/-- Apply a function to the three coordinates. -/
def mapV (g : ℚ → ℚ) (v : V3 ℚ) : V3 ℚ := ⟨g v.x, g v.y, g v.z⟩

/-- The mesh with modified coordinates. -/
def mapMesh (g : ℚ → ℚ) (m : Mesh (V3 ℚ)) : Mesh (V3 ℚ) := ⟨m.vertices.map (mapV g), m.faces⟩

/-- The row of the indices of a face in a file, counted from one. -/
def fileRow (f : Face) : List ℤ := f.toList.map fun i : ℕ => (i : ℤ) + 1

theorem minusOne_rows (fs : List Face) : minusOne (fs.map fileRow) = fs.map fun f => f.toList.map fun i : ℕ => (i : ℤ) := by
  simp [minusOne, fileRow, Function.comp_def]

theorem mkMesh_good (g : ℚ → ℚ) (m : Mesh (V3 ℚ)) (hv : m.Valid) :
    mkMesh (m.vertices.map fun v => (coords v).map g) (minusOne (m.faces.map fileRow)) = some (mapMesh g m) := by
  have h1 : (m.vertices.map fun v => (coords v).map g).mapM toVertex = some (m.vertices.map (mapV g)) :=
    mapM_all_map _ fun v _ => rfl
  have h2 : (minusOne (m.faces.map fileRow)).mapM toFace = some m.faces := by
    rw [minusOne_rows]
    have := mapM_all_map (f := toFace) (g := fun f : Face => f.toList.map fun i : ℕ => (i : ℤ)) (h := id) m.faces
      (fun f _ => by simp [Face.toList, toFace])
    simpa using this
  unfold mkMesh
  rw [h1, h2]
  have : ∀ f ∈ m.faces, ∀ i ∈ f.toList, i < (m.vertices.map (mapV g)).length := by
    intro f hf i hi
    rw [List.length_map]
    exact hv f hf i hi
  simp only
  rw [if_pos this]
  rfl

theorem mkMesh_lengths {rows : List (List ℚ)} {faces : List (List ℤ)} {m : Mesh (V3 ℚ)}
    (h : mkMesh rows faces = some m) : (∀ r ∈ rows, r.length = 3) ∧ ∀ r ∈ faces, r.length = 4 := by
  unfold mkMesh at h
  cases h1 : rows.mapM toVertex with
  | none => rw [h1] at h; exact absurd h (by simp)
  | some vs =>
    cases h2 : faces.mapM toFace with
    | none => rw [h1, h2] at h; exact absurd h (by simp)
    | some fs =>
      constructor
      · intro r hr
        obtain ⟨v, -, hv⟩ := mapM_pre h1 hr
        unfold toVertex at hv
        split at hv
        · rfl
        · exact absurd hv (by simp)
      · intro r hr
        obtain ⟨v, -, hv⟩ := mapM_pre h2 hr
        unfold toFace at hv
        split at hv
        · rfl
        · exact absurd hv (by simp)

theorem minusOne_length {faces : List (List ℤ)} (h : ∀ r ∈ minusOne faces, r.length = 4) : ∀ r ∈ faces, r.length = 4 := by
  intro r hr
  have := h (r.map fun i => i - 1) (List.mem_map.2 ⟨r, hr, rfl⟩)
  simpa using this

/-! ## Lines of padded fields -/

/-- A list of padded fields of the same width. -/
def padFields {A : Type} (w : ℕ) (g : A → Text) (l : List A) : List (Text × Text) := l.map fun x => padField w (g x)

theorem padFields_line {A : Type} (w : ℕ) (g : A → Text) (l : List A) :
    (l.flatMap fun x => padLeft w (g x)) = fieldLine (padFields w g l) := by
  simp [fieldLine, padFields, List.flatMap_map, padField_eq]

theorem padFields_good {A : Type} {w : ℕ} {g : A → Text} {l : List A} (h : ∀ x ∈ l, IsWord (g x)) :
    GoodFields (padFields w g l) := by
  intro f hf
  obtain ⟨x, hx, rfl⟩ := List.mem_map.1 hf
  exact ⟨padField_blank w _, h x hx⟩

theorem padFields_sep {A : Type} (w : ℕ) (g : A → Text) (l : List A) :
    (∀ f ∈ padFields w g l, f.1 ≠ []) ↔ ∀ x ∈ l, (g x).length < w := by
  simp only [padFields, List.forall_mem_map, padField_sep]

theorem GoodFields.cons {f : Text × Text} {fs : List (Text × Text)} (h1 : (∀ c ∈ f.1, isBlank c = true) ∧ IsWord f.2)
    (h : GoodFields fs) : GoodFields (f :: fs) := by
  intro x hx
  rcases List.mem_cons.1 hx with rfl | hx
  · exact h1
  · exact h x hx

theorem head_line {A : Type} (w0 w : ℕ) (t0 : Text) (g : A → Text) (l : List A) :
    (padLeft w0 t0 ++ l.flatMap fun x => padLeft w (g x)) = fieldLine (padField w0 t0 :: padFields w g l) := by
  rw [padFields_line]
  simp [fieldLine, padField_eq]

/-- The words of a line of a first field and fields of the same width. -/
theorem words_line {A : Type} (w0 w : ℕ) (t0 : Text) (g : A → Text) (l : List A) (h0 : IsWord t0)
    (hg : ∀ x ∈ l, IsWord (g x)) (hs : ∀ x ∈ l, (g x).length < w) :
    textWords (padLeft w0 t0 ++ l.flatMap fun x => padLeft w (g x)) = t0 :: l.map g := by
  rw [head_line, textWords_fields _ _ ((padFields_good hg).cons ⟨padField_blank w0 t0, h0⟩)
    ((padFields_sep w g l).2 hs)]
  simp [padField, padFields]

theorem words_line_iff {A : Type} (w0 w : ℕ) (t0 : Text) (g : A → Text) (l : List A) (h0 : IsWord t0)
    (hg : ∀ x ∈ l, IsWord (g x)) :
    (textWords (padLeft w0 t0 ++ l.flatMap fun x => padLeft w (g x))).length = 1 + l.length ↔
      ∀ x ∈ l, (g x).length < w := by
  rw [head_line]
  have := textWords_all_iff (padField w0 t0) (padFields w g l) ((padFields_good hg).cons ⟨padField_blank w0 t0, h0⟩)
  rw [padFields_sep] at this
  rw [← this]
  simp [padFields]

theorem words_line_head {A : Type} (w0 w : ℕ) (t0 : Text) (g : A → Text) (l : List A) (h0 : IsWord t0)
    (hg : ∀ x ∈ l, IsWord (g x)) :
    ∃ t ts, textWords (padLeft w0 t0 ++ l.flatMap fun x => padLeft w (g x)) = (t0 ++ t) :: ts := by
  rw [head_line]
  exact textWords_head (padField w0 t0) _ ((padFields_good hg).cons ⟨padField_blank w0 t0, h0⟩)

theorem words_line_le {A : Type} (w0 w : ℕ) (t0 : Text) (g : A → Text) (l : List A) (h0 : IsWord t0)
    (hg : ∀ x ∈ l, IsWord (g x)) :
    (textWords (padLeft w0 t0 ++ l.flatMap fun x => padLeft w (g x))).length ≤ 1 + l.length := by
  rw [head_line, textWords_count _ _ ((padFields_good hg).cons ⟨padField_blank w0 t0, h0⟩)]
  have := List.length_filter_le (fun f : Text × Text => decide (f.1 ≠ [])) (padFields w g l)
  simp only [padFields, List.length_map] at this ⊢
  omega

theorem isWord_newline {t : Text} (h : IsWord t) : '\n' ∉ t := fun hn => absurd (h.2 _ hn) (by decide)

theorem padLeft_newline {w : ℕ} {t : Text} (h : '\n' ∉ t) : '\n' ∉ padLeft w t := by
  unfold padLeft
  rw [List.mem_append]
  rintro (hm | hm)
  · exact absurd (List.eq_of_mem_replicate hm) (by decide)
  · exact h hm

theorem pads_newline {A : Type} {w : ℕ} {g : A → Text} {l : List A} (h : ∀ x ∈ l, IsWord (g x)) :
    '\n' ∉ l.flatMap fun x => padLeft w (g x) := by
  rw [List.mem_flatMap]
  rintro ⟨x, hx, hm⟩
  exact padLeft_newline (isWord_newline (h x hx)) hm

theorem append_newline {a b : Text} (ha : '\n' ∉ a) (hb : '\n' ∉ b) : '\n' ∉ a ++ b := by
  rw [List.mem_append]; rintro (h | h)
  · exact ha h
  · exact hb h

/-! ## Lines of faces -/

/-- The indices that follow another one on their line are shorter than their field of ten characters. -/
def FaceFits (f : Face) : Prop := f.b + 1 < 10 ^ 9 ∧ f.c + 1 < 10 ^ 9 ∧ f.d + 1 < 10 ^ 9

theorem showNat_short9 (n : ℕ) : (showNat n).length < 10 ↔ n < 10 ^ 9 := by
  rw [← showNat_length (by norm_num)]; omega

theorem faceLine_eq (f : Face) : faceLine f = padLeft 10 (showNat (f.a + 1)) ++
    [f.b, f.c, f.d].flatMap fun i => padLeft 10 (showNat (i + 1)) := by
  simp [faceLine, Face.toList]

theorem faceFits_iff (f : Face) : FaceFits f ↔ ∀ i ∈ [f.b, f.c, f.d], (showNat (i + 1)).length < 10 := by
  simp [FaceFits, showNat_short9]

theorem faceLine_words {f : Face} (h : FaceFits f) : textWords (faceLine f) = f.toList.map fun i => showNat (i + 1) := by
  rw [faceLine_eq, words_line 10 10 _ _ _ (showNat_isWord _) (fun _ _ => showNat_isWord _) ((faceFits_iff f).1 h)]
  rfl

theorem faceLine_count (f : Face) : (textWords (faceLine f)).length = 4 ↔ FaceFits f := by
  rw [faceLine_eq, faceFits_iff]
  exact words_line_iff 10 10 _ _ [f.b, f.c, f.d] (showNat_isWord _) (fun _ _ => showNat_isWord _)

theorem faceLine_newline (f : Face) : '\n' ∉ faceLine f := pads_newline fun _ _ => showNat_isWord _

theorem readInt_face (f : Face) : (f.toList.map fun i => showNat (i + 1)).mapM readInt = some (fileRow f) := by
  rw [mapM_all_map (h := fun i : ℕ => ((i + 1 : ℕ) : ℤ)) _ (fun i _ => readInt_showNat _)]
  simp [fileRow]

/-- The first word of a line that begins with a number counted from one is not `0`. -/
theorem showNat_not_zero (n : ℕ) (t : Text) : showNat (n + 1) ++ t ≠ ['0'] := by
  intro h
  have hl := congrArg List.length h
  have hne := List.length_pos_iff.2 (showNat_ne_nil (n + 1))
  simp only [List.length_append, List.length_singleton] at hl
  have ht : t = [] := List.length_eq_zero_iff.1 (by omega)
  rw [ht, List.append_nil] at h
  have := showNat_value (n + 1)
  rw [h] at this
  simp [Nat.ofDigitChars] at this

end Verif.Files
