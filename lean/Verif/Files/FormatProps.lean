import Verif.Files.NemohModel

/-!
# Which format a mesh file is read in

Specification: the table of `extension_dict` (`capytaine/io/mesh_loaders.py:1054-1086`), for the formats that have a model.
-/

namespace Verif.Files

/-- The words after the last point of the name, and the reader. -/
def knownFormats : List (Text × (Text → Option Loaded)) :=
  [("dat".toList, loadMAR), ("mar".toList, loadMAR), ("nemoh".toList, loadMAR), ("wamit".toList, loadGDF), ("gdf".toList, loadGDF),
    ("hydrostar".toList, loadHST), ("hst".toList, loadHST), ("natural".toList, loadNAT), ("nat".toList, loadNAT),
    ("nem".toList, loadNEM), ("nemoh_mesh".toList, loadNEM), ("pnl".toList, loadPNL), ("hams".toList, loadPNL)]

theorem fileExtension_append {stem ext : Text} (hs : ∃ c ∈ stem, c ≠ '.') (he : '.' ∉ ext) :
    fileExtension (stem ++ '.' :: ext) = '.' :: ext := by
  have hr : ∀ c ∈ ext.reverse, decide (c ≠ '.') = true := by
    intro c hc
    simp only [decide_eq_true_eq]
    rintro rfl
    exact he (List.mem_reverse.1 hc)
  unfold fileExtension
  have e : (stem ++ '.' :: ext).reverse = ext.reverse ++ '.' :: stem.reverse := by simp
  simp only [e]
  rw [List.takeWhile_append_of_pos hr, List.dropWhile_append_of_pos hr]
  have h1 : ('.' :: stem.reverse).takeWhile (fun c => decide (c ≠ '.')) = [] := by simp
  have h2 : ('.' :: stem.reverse).dropWhile (fun c => decide (c ≠ '.')) = '.' :: stem.reverse := by simp
  rw [h1, h2]
  have h3 : ¬ (('.' :: stem.reverse).reverse.all (fun c => decide (c = '.'))) = true := by
    obtain ⟨c, hc, hn⟩ := hs
    intro h
    rw [List.all_eq_true] at h
    have := h c (by simp [hc])
    simp at this
    exact hn this
  rw [if_neg h3]
  simp

/-- A file whose name ends with a known extension is read in the format of that extension. -/
theorem mesh_format {files : Text → Option Text} {stem ext s : Text} {rd : Text → Option Loaded} (hs : ∃ c ∈ stem, c ≠ '.')
    (hf : files (stem ++ '.' :: ext) = some s) (hk : (ext, rd) ∈ knownFormats) :
    loadMeshFile files (stem ++ '.' :: ext) = rd s := by
  have he : '.' ∉ ext := by
    have all : ∀ k ∈ knownFormats.map Prod.fst, '.' ∉ k := by decide
    exact all ext (List.mem_map_of_mem (f := Prod.fst) hk)
  unfold loadMeshFile
  rw [hf, Option.bind_some]
  simp only [fileExtension_append hs he]
  simp only [knownFormats, List.mem_cons, Prod.mk.injEq, List.not_mem_nil, or_false] at hk
  rcases hk with h | h | h | h | h | h | h | h | h | h | h | h | h <;> obtain ⟨rfl, rfl⟩ := h <;> rfl

/-- Files with another extension, or that do not exist, are refused. -/
theorem mesh_format_refused {files : Text → Option Text} {stem ext : Text} (hs : ∃ c ∈ stem, c ≠ '.') (he : '.' ∉ ext)
    (h : files (stem ++ '.' :: ext) = none ∨ ∀ rd, (ext, rd) ∉ knownFormats) : loadMeshFile files (stem ++ '.' :: ext) = none := by
  unfold loadMeshFile
  rcases h with h | h
  · rw [h]; rfl
  cases hf : files (stem ++ '.' :: ext) with
  | none => rfl
  | some s =>
    rw [Option.bind_some]
    simp only [fileExtension_append hs he]
    have ne : ∀ k ∈ knownFormats.map Prod.fst, ('.' :: ext) ≠ '.' :: k := by
      intro k hk hc
      obtain ⟨⟨k', rd⟩, hm, rfl⟩ := List.mem_map.1 hk
      have : ext = k' := (List.cons.inj hc).2
      subst this
      exact h rd hm
    have n1 := ne "dat".toList (by simp [knownFormats])
    have n2 := ne "mar".toList (by simp [knownFormats])
    have n3 := ne "nemoh".toList (by simp [knownFormats])
    have n4 := ne "wamit".toList (by simp [knownFormats])
    have n5 := ne "gdf".toList (by simp [knownFormats])
    have n6 := ne "hydrostar".toList (by simp [knownFormats])
    have n7 := ne "hst".toList (by simp [knownFormats])
    have n8 := ne "natural".toList (by simp [knownFormats])
    have n9 := ne "nat".toList (by simp [knownFormats])
    have n10 := ne "nem".toList (by simp [knownFormats])
    have n11 := ne "nemoh_mesh".toList (by simp [knownFormats])
    have n12 := ne "pnl".toList (by simp [knownFormats])
    have n13 := ne "hams".toList (by simp [knownFormats])
    rw [if_neg (by rintro (h | h | h); exacts [n1 h, n2 h, n3 h]), if_neg (by rintro (h | h); exacts [n9 h, n8 h]),
      if_neg (by rintro (h | h); exacts [n5 h, n4 h]), if_neg (by rintro (h | h); exacts [n10 h, n11 h]),
      if_neg (by rintro (h | h); exacts [n7 h, n6 h]), if_neg (by rintro (h | h); exacts [n12 h, n13 h])]

example : (∃ c ∈ "a.b".toList, c ≠ '.') ∧ ("mar".toList, loadMAR) ∈ knownFormats := by
  refine ⟨⟨'a', by decide, by decide⟩, ?_⟩
  simp [knownFormats]

example : (∃ c ∈ "buoy".toList, c ≠ '.') ∧ '.' ∉ "txt".toList ∧ ∀ rd, ("txt".toList, rd) ∉ knownFormats := by
  refine ⟨⟨'b', by decide, by decide⟩, by decide, fun rd => ?_⟩
  simp [knownFormats]

end Verif.Files
