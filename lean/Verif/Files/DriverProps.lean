import Verif.Files.DriverModel

/-!
# C147: a mesh that is written under the name of a format and read back under this name
-/

namespace Verif.Files.Driver

variable {M R C : Type}

/-! ## Specification -/

/-- The formats with a writer and a reader. -/
def BothWays (f : Format) : Prop := f ∉ [.dat, .inp, .msh, .rad, .med, .wrl]

/-- A file system with one more file. -/
def withFile (files : Text → Option C) (name : Text) (c : C) : Text → Option C :=
  fun n => if n = name then some c else files n

/-! ## Lemmas -/

theorem mem_of_lookup {A B : Type} [BEq A] [LawfulBEq A] {l : List (A × B)} {a : A} {b : B} (h : l.lookup a = some b) :
    (a, b) ∈ l := by
  induction l with
  | nil => simp at h
  | cons e l ih =>
    obtain ⟨x, y⟩ := e
    rw [List.lookup_cons] at h
    split at h
    · rename_i hx
      cases h
      rw [beq_iff_eq.mp hx]
      exact List.mem_cons_self
    · exact List.mem_cons_of_mem _ (ih h)

theorem writers_in_readers : ∀ e ∈ writerTable, readerTable.lookup e.1 = some e.2 := by decide

theorem readers_in_writers : ∀ e ∈ readerTable, e.1 = "dat".toList ∨ writerTable.lookup e.1 = some e.2 := by decide

/-- The extension after the last point. -/
theorem extension_last (n k : Text) (hn : ∃ c ∈ n, c ≠ '.') (hk : '.' ∉ k) : fileExtension (n ++ '.' :: k) = '.' :: k := by
  have h1 : (n ++ '.' :: k).reverse = k.reverse ++ '.' :: n.reverse := by simp
  have hp : ∀ a ∈ k.reverse, (decide (a ≠ '.')) = true := by
    intro a ha
    simp only [decide_eq_true_eq]
    rintro rfl
    exact hk (by simpa using ha)
  unfold fileExtension
  rw [h1, List.takeWhile_append_of_pos hp, List.dropWhile_append_of_pos hp]
  simp only [List.takeWhile_cons, List.dropWhile_cons]
  obtain ⟨c, hc, hne⟩ := hn
  simp
  exact ⟨c, hc, hne⟩

/-! ## Theorems -/

/-- Every name known by `write_mesh` means the same format for `load_mesh`. The other way round, `dat` is the only one
that is known for reading and not for writing. -/
theorem same_names (k : Text) (f : Format) :
    (writerTable.lookup k = some f → readerTable.lookup k = some f) ∧
      (readerTable.lookup k = some f → k ≠ "dat".toList → writerTable.lookup k = some f) := by
  refine ⟨fun h => writers_in_readers _ (mem_of_lookup h), fun h hne => ?_⟩
  rcases readers_in_writers _ (mem_of_lookup h) with h' | h'
  · exact absurd h' hne
  · exact h'

/-- A mesh that was written under the name of a format is read back under the same name by the reader of this format,
from what the writer of this format has written, unless it is the file `DAT` of Diodore. -/
theorem written_then_read (writer : Format → M → Option C) (reader : Format → C → Option R) (files : Text → Option C)
    (name k : Text) (m : M) (c : C) (h : writeMesh writer m k = .ok c) :
    ∃ f, writer f m = some c ∧ writerTable.lookup k = some f ∧
      loadMesh reader (withFile files name c) name (some k) =
        if f = .dat then .error .notImplemented else match reader f c with
          | none => .error .inside
          | some r => .ok r := by
  unfold writeMesh at h
  split at h
  · cases h
  · rename_i f hf
    split at h
    · cases h
    · split at h
      · cases h
      · rename_i c' hc
        cases h
        refine ⟨f, hc, hf, ?_⟩
        have hr := (same_names k f).1 hf
        have hd : f.noReader = decide (f = .dat) := by cases f <;> rfl
        simp only [loadMesh, withFile, if_true, formatName, hr, hd, decide_eq_true_eq]
        split <;> rfl

/-- A name of format goes both ways, that is the writing and the reading only fail inside of the writer and of the reader,
exactly when it is known for writing and its format is not one of the six that have no writer or no reader. -/
theorem both_ways_iff (k : Text) :
    (∀ (writer : Format → Unit → Option Unit) (reader : Format → Unit → Option Unit) (name : Text),
      (∀ e, writeMesh writer () k = .error e → e = .inside) ∧
        ∀ e, loadMesh reader (fun _ => some ()) name (some k) = .error e → e = .inside) ↔
      ∃ f, writerTable.lookup k = some f ∧ BothWays f := by
  constructor
  · intro h
    obtain ⟨h1, h2⟩ := h (fun _ _ => some ()) (fun _ _ => some ()) []
    cases hw : writerTable.lookup k with
    | none =>
      have := h1 .unknown (by simp [writeMesh, hw])
      cases this
    | some f =>
      refine ⟨f, rfl, ?_⟩
      have hr := (same_names k f).1 hw
      have n1 : f.noWriter = false := by
        cases hn : f.noWriter with
        | false => rfl
        | true =>
          have := h1 .notImplemented (by simp [writeMesh, hw, hn])
          cases this
      have n2 : f.noReader = false := by
        cases hn : f.noReader with
        | false => rfl
        | true =>
          have := h2 .notImplemented (by simp [loadMesh, formatName, hr, hn])
          cases this
      unfold BothWays
      cases f <;> first | decide | simp_all [Format.noWriter, Format.noReader]
  · rintro ⟨f, hw, hb⟩ writer reader name
    have hr := (same_names k f).1 hw
    have n1 : f.noWriter = false := by unfold BothWays at hb; cases f <;> first | rfl | simp at hb
    have n2 : f.noReader = false := by unfold BothWays at hb; cases f <;> first | rfl | simp at hb
    constructor
    · intro e he
      simp only [writeMesh, hw, n1, Bool.false_eq_true, if_false] at he
      split at he <;> cases he
      rfl
    · intro e he
      simp only [loadMesh, formatName, hr, n2, Bool.false_eq_true, if_false] at he
      split at he <;> cases he
      rfl

/-- Without the name of a format, the extension is used, in lower case: a file `name.k` is read as with the name `k`. -/
theorem extension_used (reader : Format → C → Option R) (files : Text → Option C) (n k : Text) (hn : ∃ c ∈ n, c ≠ '.')
    (hk : '.' ∉ k) :
    loadMesh reader files (n ++ '.' :: k) none = loadMesh reader files (n ++ '.' :: k) (some (k.map Char.toLower)) := by
  have : formatName (n ++ '.' :: k) none = k.map Char.toLower := by
    simp only [formatName, extension_last n k hn hk]
    have hf : k.filter (fun c => !decide (c = '.')) = k := by
      rw [List.filter_eq_self]
      intro a ha
      simp only [Bool.not_eq_true', decide_eq_false_iff_not]
      rintro rfl
      exact hk ha
    simp [hf]
  unfold loadMesh
  rw [this]
  rfl

/-- The names are not used in the same way everywhere: `GDF` is an extension and not a format; the file of Diodore is
written and not read back; in a file `a.dat` it is given to the reader of Nemoh; and five formats are listed without any
writer. -/
theorem names_violated (c : C) (m : M) :
    (∀ reader : Format → C → Option R, reader .gdf c ≠ none →
      (∃ r, loadMesh reader (fun _ => some c) "a.GDF".toList none = .ok r) ∧
        loadMesh reader (fun _ => some c) "a.GDF".toList (some "GDF".toList) = .error .unknown) ∧
      (∀ (writer : Format → M → Option C) (reader : Format → C → Option R), writer .dat m = some c →
        writeMesh writer m "diodore-dat".toList = .ok c ∧
          loadMesh reader (fun _ => some c) "a.dat".toList (some "diodore-dat".toList) = .error .notImplemented ∧
          ∀ r, reader .mar c = some r → loadMesh reader (fun _ => some c) "a.dat".toList none = .ok r) ∧
      ∀ (writer : Format → M → Option C), ∀ k ∈ ["rad".toList, "inp".toList, "msh".toList, "med".toList, "wrl".toList],
        writeMesh writer m k = .error .notImplemented := by
  have e1 : readerTable.lookup (formatName "a.GDF".toList none) = some .gdf := by decide
  have e2 : readerTable.lookup "GDF".toList = none := by decide
  have e3 : writerTable.lookup "diodore-dat".toList = some .dat := by decide
  have e4 : readerTable.lookup "diodore-dat".toList = some .dat := by decide
  have e5 : readerTable.lookup (formatName "a.dat".toList none) = some .mar := by decide
  refine ⟨fun reader hr => ⟨?_, ?_⟩, fun writer reader hw => ⟨?_, ?_, fun r hr => ?_⟩, fun writer k hk => ?_⟩
  · obtain ⟨r, hr⟩ := Option.ne_none_iff_exists'.mp hr
    exact ⟨r, by simp only [loadMesh, e1, Format.noReader, hr]; rfl⟩
  · simp only [loadMesh, formatName, e2]
  · simp only [writeMesh, e3, Format.noWriter, hw]; rfl
  · simp only [loadMesh, formatName, e4, Format.noReader]; rfl
  · simp only [loadMesh, e5, Format.noReader, hr]; rfl
  · have : ∃ f, writerTable.lookup k = some f ∧ f.noWriter = true := by
      have hall : ∀ k ∈ ["rad".toList, "inp".toList, "msh".toList, "med".toList, "wrl".toList],
          ((writerTable.lookup k).map Format.noWriter) = some true := by decide
      have := hall k hk
      obtain ⟨f, hf, h⟩ := Option.map_eq_some_iff.mp this
      exact ⟨f, hf, h⟩
    obtain ⟨f, hf, h⟩ := this
    simp only [writeMesh, hf, h, if_true]

/-! ## Examples -/

/-- Concrete case of `same_names`. -/
example : readerTable.lookup "hams".toList = some .pnl := (same_names _ _).1 (by decide)

/-- Concrete case of `written_then_read`: the writers and readers of the formats give back a number. -/
example : loadMesh (fun _ (c : ℕ) => some (c - 1)) (withFile (fun _ => none) "a".toList 6) "a".toList (some "hst".toList) =
    .ok 5 := by
  obtain ⟨f, -, h2, h3⟩ := written_then_read (fun _ (m : ℕ) => some (m + 1)) (fun _ (c : ℕ) => some (c - 1)) (fun _ => none)
    "a".toList "hst".toList 5 6 rfl
  have : f = .hst := by
    have h : writerTable.lookup "hst".toList = some .hst := by decide
    rw [h] at h2
    cases h2
    rfl
  rw [h3, this]
  rfl

/-- Concrete case of `both_ways_iff`. -/
example : ∃ f, writerTable.lookup "gdf".toList = some f ∧ BothWays f := ⟨.gdf, by decide, by unfold BothWays; decide⟩

/-- Concrete case of `extension_used`. -/
example (reader : Format → C → Option R) (files : Text → Option C) :
    loadMesh reader files "ship.v2.GDF".toList none = loadMesh reader files "ship.v2.GDF".toList (some "gdf".toList) :=
  extension_used reader files "ship.v2".toList "GDF".toList ⟨'s', by decide, by decide⟩ (by decide)

end Verif.Files.Driver
