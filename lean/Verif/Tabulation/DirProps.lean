import Verif.Tabulation.DirModel

/-!
# C146: the directory of the tables
-/

namespace Verif.Tabulation.Dir

/-! ## Specification -/

/-- A name, without any separator: a version or the name of a file. -/
def IsName (p : Platform) (v : Path) : Prop := v ≠ [] ∧ ∀ c ∈ v, c ∉ p.seps

/-- An absolute path, except on Windows. -/
def Absolute (p : Path) : Prop := ∃ q, p = '/' :: q

/-- Only white spaces, or nothing. -/
def Blank (p : Path) : Prop := ∀ c ∈ p, c.isWhitespace = true

/-! ## Lemmas -/

theorem join_name (p : Platform) (a : Path) : ∃ pre, (a = [] → pre = []) ∧ (a ≠ [] → ∃ x, pre = a ++ x) ∧
    (a ≠ [] → ∃ x c, pre = x ++ [c] ∧ c ∈ p.seps) ∧ ∀ v, IsName p v → join p a v = pre ++ v := by
  have hj : ∀ v, IsName p v → join p a v = join.glue p a v := by
    rintro v ⟨h1, h2⟩
    cases v with
    | nil => exact absurd rfl h1
    | cons c v => simp [join, h2 c (by simp)]
  have hsep : p.sep ∈ p.seps := by cases p <;> simp [Platform.sep, Platform.seps]
  rcases List.eq_nil_or_concat a with rfl | ⟨b, c, rfl⟩
  · exact ⟨[], by simp, by simp, by simp, fun v hv => by rw [hj v hv]; simp [join.glue]⟩
  · by_cases hc : c ∈ p.seps
    · refine ⟨b ++ [c], by simp, fun _ => ⟨[], by simp⟩, fun _ => ⟨b, c, rfl, hc⟩, fun v hv => ?_⟩
      rw [hj v hv]
      simp [join.glue, hc]
    · refine ⟨b ++ [c] ++ [p.sep], by simp, fun _ => ⟨[p.sep], by simp⟩, fun _ => ⟨b ++ [c], p.sep, rfl, hsep⟩,
        fun v hv => ?_⟩
      rw [hj v hv]
      simp [join.glue, hc]

theorem cachePath_name (normpath : Path → Path) (e : Env) :
    (∀ v, cachePath normpath v e = none) ∨
      ∃ pre, ∀ v, IsName e.platform v → cachePath normpath v e = some (pre ++ v) := by
  have key : ∀ a : Path, ∃ pre, ∀ v, IsName e.platform v → join e.platform a v = pre ++ v := fun a => by
    obtain ⟨pre, -, -, -, h⟩ := join_name e.platform a
    exact ⟨pre, h⟩
  obtain ⟨pl, cd, la, xd, hm⟩ := e
  cases cd with
  | some d =>
    obtain ⟨pre, h⟩ := key d
    exact .inr ⟨pre, fun v hv => by simp only [cachePath]; rw [h v hv]⟩
  | none =>
    cases pl with
    | windows =>
      cases la with
      | none => exact .inl fun v => rfl
      | some d =>
        obtain ⟨pre, h⟩ := key (join .windows (join .windows (normpath d) "capytaine".toList) "Cache".toList)
        exact .inr ⟨pre, fun v hv => by simp only [cachePath, Option.map_some]; rw [h v hv]⟩
    | mac =>
      obtain ⟨pre, h⟩ := key (join .mac (hm ++ "/Library/Caches".toList) "capytaine".toList)
      exact .inr ⟨pre, fun v hv => by simp only [cachePath]; rw [h v hv]⟩
    | other =>
      obtain ⟨pre, h⟩ := key (join .other (if (xd.getD []).all Char.isWhitespace then hm ++ "/.cache".toList
        else xd.getD []) "capytaine".toList)
      exact .inr ⟨pre, fun v hv => by simp only [cachePath]; rw [h v hv]⟩

theorem split_name {S : List Char} {v w f g : Path} {c d : Char} (hv : ∀ x ∈ v, x ∉ S) (hw : ∀ x ∈ w, x ∉ S) (hc : c ∈ S)
    (hd : d ∈ S) (h : v ++ c :: f = w ++ d :: g) : v = w := by
  induction v generalizing w with
  | nil =>
    cases w with
    | nil => rfl
    | cons y w =>
      simp only [List.nil_append, List.cons_append, List.cons.injEq] at h
      exact absurd (h.1 ▸ hc) (hw y (by simp))
  | cons x v ih =>
    cases w with
    | nil =>
      simp only [List.nil_append, List.cons_append, List.cons.injEq] at h
      exact absurd (h.1 ▸ hd) (hv x (by simp))
    | cons y w =>
      simp only [List.cons_append, List.cons.injEq] at h
      rw [h.1, ih (fun z hz => hv z (by simp [hz])) (fun z hz => hw z (by simp [hz])) h.2]

theorem join_after_name (p : Platform) (pre v f : Path) (hv : IsName p v) (hf : IsName p f) :
    join p (pre ++ v) f = pre ++ (v ++ p.sep :: f) := by
  obtain ⟨h1, h2⟩ := hv
  obtain ⟨h3, h4⟩ := hf
  rcases List.eq_nil_or_concat v with rfl | ⟨b, c, rfl⟩
  · exact absurd rfl h1
  · have hc : c ∉ p.seps := h2 c (by simp)
    cases f with
    | nil => exact absurd rfl h3
    | cons x f =>
      have hx := h4 x (by simp)
      simp [join, hx, join.glue, hc]

/-! ## Theorems -/

/-- In the same environment, two versions have no file of tables in common, whatever the names of the files. -/
theorem versions_apart (normpath : Path → Path) (mkdir : Path → Bool) (e : Env) (v w f g dv dw : Path)
    (hv : IsName e.platform v) (hw : IsName e.platform w) (hf : IsName e.platform f) (hg : IsName e.platform g) (hne : v ≠ w)
    (h1 : cacheDirectory normpath mkdir v e = some dv) (h2 : cacheDirectory normpath mkdir w e = some dw) :
    tablesFile e.platform dv f ≠ tablesFile e.platform dw g := by
  have un : ∀ x d, cacheDirectory normpath mkdir x e = some d → cachePath normpath x e = some d := by
    intro x d h
    unfold cacheDirectory at h
    split at h
    · rename_i p hp
      split at h
      · cases h; exact hp
      · cases h
    · cases h
  rcases cachePath_name normpath e with h | ⟨pre, h⟩
  · have := un _ _ h1
    rw [h] at this
    cases this
  · have e1 := un _ _ h1
    have e2 := un _ _ h2
    rw [h v hv] at e1
    rw [h w hw] at e2
    cases e1
    cases e2
    unfold tablesFile
    rw [join_after_name _ _ _ _ hv hf, join_after_name _ _ _ _ hw hg]
    intro heq
    have hsep : e.platform.sep ∈ e.platform.seps := by cases e.platform <;> simp [Platform.sep, Platform.seps]
    exact hne (split_name hv.2 hw.2 hsep hsep (List.append_cancel_left heq))

/-- The import fails exactly when there is no directory to choose on Windows, or when it cannot be made. It does not depend
on the argument: giving a directory, or asking for no file at all, does not help. -/
theorem import_refused_iff (normpath : Path → Path) (mkdir : Path → Bool) (v : Path) (e e' : Env) (a : Argument) :
    tablesDirectory normpath mkdir v e e' a = none ↔
      (e.cacheDir = none ∧ e.platform = .windows ∧ e.localAppData = none) ∨
        ∃ p, cachePath normpath v e = some p ∧ mkdir p = false := by
  have hp : cachePath normpath v e = none ↔ e.cacheDir = none ∧ e.platform = .windows ∧ e.localAppData = none := by
    obtain ⟨pl, cd, la, xd, hm⟩ := e
    cases cd <;> cases pl <;> cases la <;> simp only [cachePath, Option.map_some, Option.map_none, reduceCtorEq, and_true,
      and_false, false_and, true_and, and_self]
  have h1 : tablesDirectory normpath mkdir v e e' a = none ↔ cacheDirectory normpath mkdir v e = none := by
    unfold tablesDirectory
    cases cacheDirectory normpath mkdir v e with
    | none => simp
    | some d => cases a <;> simp
  rw [h1, ← hp]
  unfold cacheDirectory
  cases hc : cachePath normpath v e with
  | none => simp
  | some p => cases hm : mkdir p <;> simp [hm]

/-- The directory is the one that is given, if any. Otherwise it is the one of the environment at the import: changes of
the environment after it have no effect. -/
theorem directory_at_import (normpath : Path → Path) (mkdir : Path → Bool) (v : Path) (e e' : Env) (a : Argument)
    (r : Option Path) (h : tablesDirectory normpath mkdir v e e' a = some r) :
    (∀ d, a = .given d → r = d) ∧ (a = .absent → ∃ p, r = some p ∧ cachePath normpath v e = some p ∧ mkdir p = true) := by
  unfold tablesDirectory at h
  split at h
  · cases h
  · rename_i d hd
    cases a with
    | given x =>
      cases h
      exact ⟨fun _ h => (by cases h; rfl), fun h => (by cases h)⟩
    | absent =>
      cases h
      refine ⟨fun _ h => (by cases h), fun _ => ⟨d, rfl, ?_⟩⟩
      unfold cacheDirectory at hd
      split at hd
      · rename_i p hp
        split at hd
        · rename_i hm
          cases hd
          exact ⟨hp, hm⟩
        · cases hd
      · cases hd

theorem join_absolute (a v : Path) (p : Platform) (hp : p ≠ .windows) (hv : IsName p v) : Absolute (join p a v) ↔ Absolute a := by
  obtain ⟨pre, h1, h2, -, h4⟩ := join_name p a
  rw [h4 v hv]
  cases a with
  | nil =>
    rw [h1 rfl, List.nil_append]
    constructor
    · rintro ⟨q, rfl⟩
      exact absurd (by cases p <;> simp_all [Platform.seps]) (hv.2 '/' (by simp))
    · rintro ⟨q, h⟩
      cases h
  | cons c a =>
    obtain ⟨x, rfl⟩ := h2 (by simp)
    constructor
    · rintro ⟨q, h⟩
      simp only [List.cons_append, List.cons.injEq] at h
      exact ⟨a, by rw [h.1]⟩
    · rintro ⟨q, h⟩
      simp only [List.cons.injEq] at h
      exact ⟨a ++ x ++ v, by rw [h.1]; simp⟩

/-- Except on Windows and macOS, the directory does not depend on the working directory exactly when the first of these
that counts is absolute: `CAPYTAINE_CACHE_DIR` if it is defined, even blank, `XDG_CACHE_HOME` if it is not blank, and the
home directory. -/
theorem directory_absolute_iff (normpath : Path → Path) (v : Path) (e : Env) (he : e.platform = .other)
    (hv : IsName .other v) (hh : Absolute e.home) :
    ∃ p, cachePath normpath v e = some p ∧ (Absolute p ↔
      (∀ d, e.cacheDir = some d → Absolute d) ∧
        (e.cacheDir = none → ∀ x, e.xdg = some x → Blank x ∨ Absolute x)) := by
  obtain ⟨pl, cd, la, xd, hm⟩ := e
  obtain rfl : pl = .other := he
  have hcap : IsName .other "capytaine".toList := by
    constructor <;> simp [Platform.seps]
  cases cd with
  | some d =>
    refine ⟨_, rfl, ?_⟩
    rw [join_absolute _ _ _ (by simp) hv]
    simp
  | none =>
    refine ⟨_, rfl, ?_⟩
    rw [join_absolute _ _ _ (by simp) hv, join_absolute _ _ _ (by simp) hcap]
    have hhome : Absolute (hm ++ "/.cache".toList) := by
      obtain ⟨q, hq⟩ := hh
      exact ⟨q ++ "/.cache".toList, by rw [show hm = '/' :: q from hq]; rfl⟩
    cases xd with
    | none => simpa using hhome
    | some x =>
      have hb : x.all Char.isWhitespace = true ↔ Blank x := by simp [Blank]
      by_cases h : Blank x
      · simp only [Option.getD_some, if_pos (hb.mpr h)]
        exact ⟨fun _ => ⟨fun d hd => by simp at hd, fun _ y hy => .inl (by simp at hy; exact hy ▸ h)⟩, fun _ => hhome⟩
      · have : ¬ x.all Char.isWhitespace = true := fun k => h (hb.mp k)
        simp only [Option.getD_some, if_neg this]
        simp [h]

/-- An environment of Linux. -/
def linux (dir : Option Path) : Env := ⟨.other, dir, none, none, "/home/u".toList⟩

/-- The documentation is not followed: the variable that is defined after the import does not count, its value is
completed by the version, and a blank one gives a directory inside the working directory. -/
theorem directory_violated :
    tablesDirectory id (fun _ => true) "2.3".toList (linux none) (linux (some "/data".toList)) .absent =
        some (some "/home/u/.cache/capytaine/2.3".toList) ∧
      tablesDirectory id (fun _ => true) "2.3".toList (linux (some "/data".toList)) (linux (some "/data".toList)) .absent =
        some (some "/data/2.3".toList) ∧
      cachePath id "2.3".toList (linux (some [])) = some "2.3".toList ∧
      tablesDirectory id (fun _ => false) "2.3".toList (linux none) (linux none) (.given none) = none := by
  decide

/-! ## Examples -/

/-- Concrete case of `versions_apart`. -/
example : tablesFile .other "/data/2.3".toList "t.npz".toList ≠ tablesFile .other "/data/2.2".toList "t.npz".toList := by
  refine versions_apart id (fun _ => true) (linux (some "/data".toList)) "2.3".toList "2.2".toList _ _ _ _ ?_ ?_ ?_ ?_ ?_ ?_ ?_
  · constructor <;> simp [Platform.seps, linux]
  · constructor <;> simp [Platform.seps, linux]
  · constructor <;> simp [Platform.seps, linux]
  · constructor <;> simp [Platform.seps, linux]
  · decide
  · decide
  · decide

/-- Concrete case of `directory_at_import`: no file at all. -/
example : tablesDirectory id (fun _ => true) "2.3".toList (linux none) (linux none) (.given none) = some none := by
  decide

/-- Concrete case of `directory_absolute_iff`: a blank `XDG_CACHE_HOME`. -/
example : ∃ p, cachePath id "2.3".toList ⟨.other, none, none, some [' '], "/home/u".toList⟩ = some p ∧ Absolute p := by
  obtain ⟨p, h1, h2⟩ := directory_absolute_iff id "2.3".toList ⟨.other, none, none, some [' '], "/home/u".toList⟩ rfl
    (by constructor <;> simp [Platform.seps]) ⟨_, rfl⟩
  refine ⟨p, h1, h2.mpr ⟨by simp, fun _ x hx => .inl ?_⟩⟩
  simp only [Option.some.injEq] at hx
  subst hx
  simp [Blank]

end Verif.Tabulation.Dir
