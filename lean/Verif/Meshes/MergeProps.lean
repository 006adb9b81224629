import Verif.Meshes.MergeModel
import Verif.Meshes.ExtractProps
import Mathlib.Data.List.Perm.Basic
import Mathlib.Data.List.Nodup
import Mathlib.Data.List.Flatten
import Mathlib.Data.List.Sort
import Mathlib.Tactic.Linarith
import Mathlib.Tactic.NormNum

/-!
# Merging duplicate vertices: properties

C29 and C73.
-/

namespace Verif.Meshes

open Verif.Geometry V3

variable {V : Type}

/-! ## Specification -/

/-- Contract of `numpy.argsort`, whatever the order of equal values. -/
structure ArgSort (sort : (ℕ → ℝ) → List ℕ → List ℕ) : Prop where
  perm : ∀ val l, (sort val l).Perm l
  sorted : ∀ val l, (sort val l).Pairwise fun i j => val i ≤ val j

/-- No coordinate differs by more than the tolerance. -/
def Within (coords : List (V → ℝ)) (atol : ℝ) (v w : V) : Prop := ∀ c ∈ coords, |c v - c w| ≤ atol

/-! ## Cutting a level -/

section Scan

variable {val : ℕ → ℝ} {atol : ℝ}

theorem scan_flatten (l : List ℕ) (r : ℝ) (cur : List ℕ) :
    (scanLevel val atol r cur l).flatten = cur ++ l := by
  induction l generalizing r cur with
  | nil => simp [scanLevel]
  | cons i l ih =>
    unfold scanLevel
    split
    · simp [ih]
    · simp [ih]

theorem scan_nonempty (l : List ℕ) (r : ℝ) (cur : List ℕ) (h : cur ≠ []) :
    ∀ g ∈ scanLevel val atol r cur l, g ≠ [] := by
  induction l generalizing r cur with
  | nil => simpa [scanLevel] using h
  | cons i l ih =>
    unfold scanLevel
    split
    · intro g hg
      rcases List.mem_cons.mp hg with rfl | hg
      · exact h
      · exact ih _ _ (by simp) g hg
    · exact ih _ _ (by simp)

theorem scan_close (ha : 0 ≤ atol) (l : List ℕ) (r : ℝ) (cur : List ℕ)
    (hs : (cur ++ l).Pairwise fun i j => val i ≤ val j)
    (hc : ∀ k ∈ cur, r ≤ val k ∧ val k ≤ r + atol) (hl : ∀ k ∈ l, r ≤ val k) :
    ∀ g ∈ scanLevel val atol r cur l, ∃ r' : ℝ, ∀ k ∈ g, r' ≤ val k ∧ val k ≤ r' + atol := by
  induction l generalizing r cur with
  | nil => simpa [scanLevel] using ⟨r, hc⟩
  | cons i l ih =>
    unfold scanLevel
    split
    · intro g hg
      rcases List.mem_cons.mp hg with rfl | hg
      · exact ⟨r, hc⟩
      · have hs' := (List.pairwise_append.mp hs).2.1
        refine ih (val i) [i] (by simpa using hs') ?_ ?_ g hg
        · intro k hk
          rw [List.mem_singleton.mp hk]
          exact ⟨le_refl _, by linarith⟩
        · exact fun k hk => (List.pairwise_cons.mp hs').1 k hk
    · rename_i h
      refine ih r (cur ++ [i]) (by simpa using hs) ?_ (fun k hk => hl k (by simp [hk]))
      intro k hk
      rcases List.mem_append.mp hk with hk | hk
      · exact hc k hk
      · rw [List.mem_singleton.mp hk]
        have h0 := hl i (by simp)
        refine ⟨h0, ?_⟩
        have := le_abs_self (val i - r)
        linarith

/-- Pairs that a cut cannot separate. -/
def Glued (val : ℕ → ℝ) (atol : ℝ) (L : List ℕ) (P : ℕ → ℕ → Prop) : Prop :=
  (∀ i j, P i j → P j i) ∧
  ∀ i ∈ L, ∀ j ∈ L, ∀ k ∈ L, ∀ m ∈ L, P i j → val i ≤ val k → val k ≤ val j → val m ≤ val i →
    val i ≤ val m + atol → val k ≤ val m + atol

theorem scan_together {L : List ℕ} {P : ℕ → ℕ → Prop} (hP : Glued val atol L P) (ha : 0 ≤ atol)
    (l : List ℕ) (m : ℕ) (hm : m ∈ L) (cur : List ℕ) (hL : ∀ k ∈ cur ++ l, k ∈ L)
    (hs : (cur ++ l).Pairwise fun i j => val i ≤ val j)
    (hc : ∀ k ∈ cur, val m ≤ val k ∧ val k ≤ val m + atol) (hl : ∀ k ∈ l, val m ≤ val k)
    (i j : ℕ) (hi : i ∈ cur ++ l) (hj : j ∈ cur ++ l) (hij : P i j) :
    ∃ g ∈ scanLevel val atol (val m) cur l, i ∈ g ∧ j ∈ g := by
  induction l generalizing m cur with
  | nil => exact ⟨cur, by simp [scanLevel], by simpa using hi, by simpa using hj⟩
  | cons k l ih =>
    unfold scanLevel
    have hs' := List.pairwise_append.mp hs
    split
    · rename_i h
      have hk : val m + atol < val k := by
        have h0 := hl k (by simp)
        rw [abs_of_nonneg (by linarith)] at h
        linarith
      have key : ∀ a ∈ cur, ∀ b ∈ k :: l, P a b → False := by
        intro a ha' b hb hab
        have h1 : val a ≤ val k := hs'.2.2 a ha' k (by simp)
        have h2 : val k ≤ val b := by
          rcases List.mem_cons.mp hb with rfl | hb
          · exact le_refl _
          · exact (List.pairwise_cons.mp hs'.2.1).1 b hb
        have := hP.2 a (hL a (by simp [ha'])) b (hL b (List.mem_append_right _ hb)) k (hL k (by simp)) m hm
          hab h1 h2 (hc a ha').1 (hc a ha').2
        linarith
      rcases List.mem_append.mp hi with hi | hi <;> rcases List.mem_append.mp hj with hj | hj
      · exact ⟨cur, by simp, hi, hj⟩
      · exact (key i hi j hj hij).elim
      · exact (key j hj i hi (hP.1 _ _ hij)).elim
      · obtain ⟨g, hg, h1, h2⟩ := ih k (hL k (by simp)) [k] (fun x hx => hL x (List.mem_append_right _ hx))
          (by simpa using hs'.2.1)
          (by intro x hx; rw [List.mem_singleton.mp hx]; exact ⟨le_refl _, by linarith⟩)
          (fun x hx => (List.pairwise_cons.mp hs'.2.1).1 x hx) (by simpa using hi) (by simpa using hj)
        exact ⟨g, by simp [hg], h1, h2⟩
    · rename_i h
      refine ih m hm (cur ++ [k]) (by simpa using hL) (by simpa using hs) ?_
        (fun x hx => hl x (by simp [hx])) (by simpa using hi) (by simpa using hj)
      intro x hx
      rcases List.mem_append.mp hx with hx | hx
      · exact hc x hx
      · rw [List.mem_singleton.mp hx]
        refine ⟨hl k (by simp), ?_⟩
        have := le_abs_self (val k - val m)
        linarith

end Scan

/-! ## One dimension -/

section Refine

variable {sort : (ℕ → ℝ) → List ℕ → List ℕ} {val : ℕ → ℝ} {atol : ℝ}

/-- The different cases of a level. -/
theorem refine_cases (hs : ArgSort sort) (ha : 0 ≤ atol) (g : List ℕ) :
    (g.length ≤ 1 ∧ refineLevel sort val atol g = [g]) ∨
    ∃ i l, (i :: l).Perm g ∧ (i :: l).Pairwise (fun a b => val a ≤ val b) ∧
      refineLevel sort val atol g = scanLevel val atol (val i) [i] l := by
  unfold refineLevel
  split
  · rename_i h
    have hp := hs.perm val g
    have hq := hs.sorted val g
    right
    cases hh : sort val g with
    | nil =>
      rw [hh] at hp
      rw [← hp.length_eq] at h
      simp at h
    | cons i l =>
      rw [hh] at hp hq
      refine ⟨i, l, hp, hq, ?_⟩
      have : ¬ atol < 0 := not_lt.mpr ha
      simp [scanLevel, this]
  · left
    exact ⟨by omega, rfl⟩

theorem refine_flatten (hs : ArgSort sort) (ha : 0 ≤ atol) (g : List ℕ) :
    (refineLevel sort val atol g).flatten.Perm g := by
  rcases refine_cases (val := val) hs ha g with ⟨-, h⟩ | ⟨i, l, hp, -, h⟩
  · rw [h]; simp
  · rw [h, scan_flatten]; exact hp

theorem refine_nonempty (hs : ArgSort sort) (ha : 0 ≤ atol) (g : List ℕ) (hg : g ≠ []) :
    ∀ h ∈ refineLevel sort val atol g, h ≠ [] := by
  rcases refine_cases (val := val) hs ha g with ⟨-, h⟩ | ⟨i, l, hp, -, h⟩
  · rw [h]; simpa using hg
  · rw [h]; exact scan_nonempty _ _ _ (by simp)

theorem refine_subset (hs : ArgSort sort) (ha : 0 ≤ atol) (g : List ℕ) :
    ∀ h ∈ refineLevel sort val atol g, ∀ i ∈ h, i ∈ g := fun h hh i hi =>
  (refine_flatten (val := val) hs ha g).subset (List.mem_flatten.mpr ⟨h, hh, hi⟩)

theorem refine_close (hs : ArgSort sort) (ha : 0 ≤ atol) (g : List ℕ) :
    ∀ h ∈ refineLevel sort val atol g, ∀ i ∈ h, ∀ j ∈ h, |val i - val j| ≤ atol := by
  have key : ∀ h ∈ refineLevel sort val atol g, ∃ r' : ℝ, ∀ k ∈ h, r' ≤ val k ∧ val k ≤ r' + atol := by
    rcases refine_cases (val := val) hs ha g with ⟨hl, h⟩ | ⟨i, l, hp, hq, h⟩
    · rw [h]
      intro h' hh'
      rw [List.mem_singleton.mp hh']
      match g, hl with
      | [], _ => exact ⟨0, by simp⟩
      | [k], _ => exact ⟨val k, by simpa using ha⟩
    · rw [h]
      refine scan_close ha l (val i) [i] (by simpa using hq) ?_ (fun k hk => (List.pairwise_cons.mp hq).1 k hk)
      intro k hk
      rw [List.mem_singleton.mp hk]
      exact ⟨le_refl _, by linarith⟩
  intro h hh i hi j hj
  obtain ⟨r, hr⟩ := key h hh
  have h1 := hr i hi
  have h2 := hr j hj
  rw [abs_le]
  constructor <;> linarith

theorem refine_together (hs : ArgSort sort) (ha : 0 ≤ atol) (g : List ℕ) {P : ℕ → ℕ → Prop}
    (hP : Glued val atol g P) (i j : ℕ) (hi : i ∈ g) (hj : j ∈ g) (hij : P i j) :
    ∃ h ∈ refineLevel sort val atol g, i ∈ h ∧ j ∈ h := by
  rcases refine_cases (val := val) hs ha g with ⟨hl, h⟩ | ⟨a, l, hp, hq, h⟩
  · rw [h]
    exact ⟨g, by simp, hi, hj⟩
  · rw [h]
    refine scan_together hP ha l a (hp.subset (by simp)) [a] (fun k hk => hp.subset (by simpa using hk))
      (by simpa using hq) ?_ (fun k hk => (List.pairwise_cons.mp hq).1 k hk) i j
      (by simpa using hp.mem_iff.mpr hi) (by simpa using hp.mem_iff.mpr hj) hij
    intro k hk
    rw [List.mem_singleton.mp hk]
    exact ⟨le_refl _, by linarith⟩

end Refine

/-! ## All dimensions -/

section Levels

variable {sort : (ℕ → ℝ) → List ℕ → List ℕ} {atol : ℝ} {rows : List V}

/-- The levels are a partition of the rows. -/
def Partition (n : ℕ) (ls : List (List ℕ)) : Prop :=
  ls.flatten.Perm (List.range n) ∧ ∀ l ∈ ls, l ≠ []

theorem flatMap_flatten_perm {f : List ℕ → List (List ℕ)} (hf : ∀ g, (f g).flatten.Perm g)
    (ls : List (List ℕ)) : (ls.flatMap f).flatten.Perm ls.flatten := by
  induction ls with
  | nil => simp
  | cons l ls ih =>
    simp only [List.flatMap_cons, List.flatten_append, List.flatten_cons]
    exact (hf l).append ih

theorem levels_partition (hs : ArgSort sort) (ha : 0 ≤ atol) (cs : List (V → ℝ)) (n : ℕ)
    (ls : List (List ℕ)) (h : Partition n ls) : Partition n (levels sort atol rows cs ls) := by
  induction cs generalizing ls with
  | nil => exact h
  | cons c cs ih =>
    refine ih _ ⟨(flatMap_flatten_perm (refine_flatten hs ha) ls).trans h.1, ?_⟩
    intro l hl
    obtain ⟨g, hg, hl⟩ := List.mem_flatMap.mp hl
    exact refine_nonempty hs ha g (h.2 g hg) l hl

theorem levels_close (hs : ArgSort sort) (ha : 0 ≤ atol) (cs : List (V → ℝ)) (ls : List (List ℕ))
    (Q : ℕ → ℕ → Prop) (h : ∀ l ∈ ls, ∀ i ∈ l, ∀ j ∈ l, Q i j) :
    ∀ l ∈ levels sort atol rows cs ls, ∀ i ∈ l, ∀ j ∈ l,
      Q i j ∧ ∀ c ∈ cs, |rowValue rows c i - rowValue rows c j| ≤ atol := by
  induction cs generalizing ls Q with
  | nil => exact fun l hl i hi j hj => ⟨h l hl i hi j hj, by simp⟩
  | cons c cs ih =>
    intro l hl i hi j hj
    obtain ⟨⟨h1, h2⟩, h3⟩ := ih (ls.flatMap (refineLevel sort (rowValue rows c) atol))
      (fun i j => Q i j ∧ |rowValue rows c i - rowValue rows c j| ≤ atol) (by
        intro l hl i hi j hj
        obtain ⟨g, hg, hl⟩ := List.mem_flatMap.mp hl
        exact ⟨h g hg i (refine_subset hs ha g l hl i hi) j (refine_subset hs ha g l hl j hj),
          refine_close hs ha g l hl i hi j hj⟩) l hl i hi j hj
    refine ⟨h1, fun c' hc' => ?_⟩
    rcases List.mem_cons.mp hc' with rfl | hc'
    · exact h2
    · exact h3 c' hc'

theorem levels_together (hs : ArgSort sort) (ha : 0 ≤ atol) (cs : List (V → ℝ)) (n : ℕ)
    (ls : List (List ℕ)) (h : Partition n ls) (P : ℕ → ℕ → Prop)
    (hP : ∀ c ∈ cs, Glued (rowValue rows c) atol (List.range n) P)
    (i j : ℕ) (hij : P i j) (h0 : ∃ l ∈ ls, i ∈ l ∧ j ∈ l) :
    ∃ l ∈ levels sort atol rows cs ls, i ∈ l ∧ j ∈ l := by
  induction cs generalizing ls with
  | nil => exact h0
  | cons c cs ih =>
    refine ih _ ?_ (fun c' hc' => hP c' (by simp [hc'])) ?_
    · exact levels_partition (rows := rows) hs ha [c] n ls h
    · obtain ⟨l, hl, hi, hj⟩ := h0
      have hsub : ∀ k ∈ l, k ∈ List.range n := fun k hk =>
        h.1.subset (List.mem_flatten.mpr ⟨l, hl, hk⟩)
      have hg := hP c (by simp)
      obtain ⟨g, hg, h1, h2⟩ := refine_together hs ha l (P := P) ⟨hg.1, fun a ha' b hb k hk m hm =>
        hg.2 a (hsub a ha') b (hsub b hb) k (hsub k hk) m (hsub m hm)⟩ i j hi hj hij
      exact ⟨g, List.mem_flatMap.mpr ⟨l, hl, hg⟩, h1, h2⟩

theorem levelRows_spec (rows : List V) (ls : List (List ℕ))
    (h : ∀ l ∈ ls, l ≠ [] ∧ ∀ i ∈ l, i < rows.length) :
    ∃ vs, levelRows rows ls = some vs ∧ vs.length = ls.length ∧
      ∀ (k : ℕ) (l : List ℕ), ls[k]? = some l → ∃ i ∈ l, vs[k]? = rows[i]? := by
  induction ls with
  | nil => exact ⟨[], rfl, rfl, by simp⟩
  | cons l ls ih =>
    obtain ⟨vs, h1, h2, h3⟩ := ih fun l' hl' => h l' (by simp [hl'])
    obtain ⟨hl, hi⟩ := h l (by simp)
    obtain ⟨i, l, rfl⟩ := List.exists_cons_of_ne_nil hl
    have hb := hi i (by simp)
    refine ⟨rows[i] :: vs, ?_, by simp [h2], ?_⟩
    · simp [levelRows, h1, List.getElem?_eq_getElem hb]
    · intro k g hk
      cases k with
      | zero =>
        simp only [List.getElem?_cons_zero, Option.some.injEq] at hk
        subst hk
        exact ⟨i, by simp, by simp [List.getElem?_eq_getElem hb]⟩
      | succ k => simpa using h3 k g (by simpa using hk)

theorem partition_unique {n : ℕ} {ls : List (List ℕ)} (h : Partition n ls) {k k' i : ℕ} {l l' : List ℕ}
    (hk : ls[k]? = some l) (hi : i ∈ l) (hk' : ls[k']? = some l') (hi' : i ∈ l') : k = k' := by
  have hn : ls.flatten.Nodup := h.1.nodup_iff.mpr List.nodup_range
  have hp := (List.nodup_flatten.mp hn).2
  obtain ⟨a, rfl⟩ := List.getElem?_eq_some_iff.mp hk
  obtain ⟨b, rfl⟩ := List.getElem?_eq_some_iff.mp hk'
  rw [List.pairwise_iff_getElem] at hp
  rcases lt_trichotomy k k' with hlt | he | hlt
  · exact (hp k k' a b hlt hi hi').elim
  · exact he
  · exact (hp k' k b a hlt hi' hi).elim

theorem levelIds_iff {n : ℕ} {ls : List (List ℕ)} (h : Partition n ls) (i k : ℕ) (hi : i < n) :
    (levelIds n ls)[i]? = some k ↔ ∃ l, ls[k]? = some l ∧ i ∈ l := by
  have hmem : i ∈ ls.flatten := h.1.mem_iff.mpr (List.mem_range.mpr hi)
  obtain ⟨l, hl, hil⟩ := List.mem_flatten.mp hmem
  have hex : ∃ k', ls.findIdx? (fun l => l.contains i) = some k' := by
    rw [← Option.isSome_iff_exists, List.findIdx?_isSome]
    simp only [List.any_eq_true]
    exact ⟨l, hl, by simpa using hil⟩
  obtain ⟨k', hk'⟩ := hex
  have hval : (levelIds n ls)[i]? = some k' := by
    simp only [levelIds, List.getElem?_map, List.getElem?_range hi, Option.map_some, hk', Option.getD_some]
  obtain ⟨hlt, hc, -⟩ := List.findIdx?_eq_some_iff_getElem.mp hk'
  have hin : i ∈ ls[k'] := by simpa using hc
  rw [hval, Option.some.injEq]
  constructor
  · rintro rfl
    exact ⟨_, List.getElem?_eq_getElem hlt, hin⟩
  · rintro ⟨l', hl', hi'⟩
    exact partition_unique h (List.getElem?_eq_getElem hlt) hin hl' hi'

end Levels

/-! ## C29 -/

section Rows

variable {sort : (ℕ → ℝ) → List ℕ → List ℕ} {atol : ℝ} {rows : List V} {coords : List (V → ℝ)}

theorem initial_partition (h : rows ≠ []) : Partition rows.length [List.range rows.length] := by
  refine ⟨by simp, ?_⟩
  intro l hl
  rw [List.mem_singleton.mp hl]
  intro h0
  have := congrArg List.length h0
  simp only [List.length_range, List.length_nil] at this
  exact h (List.length_eq_zero_iff.mp this)

theorem rowValue_some {i : ℕ} {v : V} (h : rows[i]? = some v) (c : V → ℝ) : rowValue rows c i = c v := by
  simp [rowValue, h]

/-- The result of `mergeRows` in terms of its levels. -/
theorem mergeRows_levels (hs : ArgSort sort) (ha : 0 ≤ atol) (h : rows ≠ []) :
    ∃ ls vs, Partition rows.length ls ∧ mergeRows sort coords atol rows = some (vs, levelIds rows.length ls) ∧
      vs.length = ls.length ∧
      (∀ (k : ℕ) (l : List ℕ), ls[k]? = some l → ∃ i ∈ l, vs[k]? = rows[i]?) ∧
      (∀ l ∈ ls, ∀ i ∈ l, ∀ j ∈ l, ∀ c ∈ coords, |rowValue rows c i - rowValue rows c j| ≤ atol) ∧
      ∀ P : ℕ → ℕ → Prop, (∀ c ∈ coords, Glued (rowValue rows c) atol (List.range rows.length) P) →
        ∀ i j, i < rows.length → j < rows.length → P i j → ∃ l ∈ ls, i ∈ l ∧ j ∈ l := by
  have hp := levels_partition (rows := rows) hs ha coords rows.length _ (initial_partition h)
  obtain ⟨vs, h1, h2, h3⟩ := levelRows_spec rows (levels sort atol rows coords [List.range rows.length])
    fun l hl => ⟨hp.2 l hl, fun i hi => List.mem_range.mp (hp.1.subset (List.mem_flatten.mpr ⟨l, hl, hi⟩))⟩
  refine ⟨_, vs, hp, ?_, h2, h3, ?_, ?_⟩
  · simp [mergeRows, h1]
  · intro l hl i hi j hj
    exact (levels_close hs ha coords _ (fun _ _ => True) (by simp) l hl i hi j hj).2
  · intro P hP i j hi hj hij
    exact levels_together hs ha coords rows.length _ (initial_partition h) P hP i j hij
      ⟨_, by simp, List.mem_range.mpr hi, List.mem_range.mpr hj⟩

/-- Merging rows: each row is represented by a row that differs from it by at most the tolerance in each
coordinate, and so do two merged rows; rows with the same coordinates are merged; the new rows are old
rows, and they all differ. -/
theorem merge_rows (hs : ArgSort sort) (ha : 0 ≤ atol) (h : rows ≠ []) :
    ∃ vs ids, mergeRows sort coords atol rows = some (vs, ids) ∧ ids.length = rows.length ∧
      (∀ (i : ℕ) (v : V), rows[i]? = some v →
        ∃ k w, ids[i]? = some k ∧ vs[k]? = some w ∧ Within coords atol v w) ∧
      (∀ (i j : ℕ) (v w : V), rows[i]? = some v → rows[j]? = some w → (∀ c ∈ coords, c v = c w) →
        ids[i]? = ids[j]?) ∧
      (∀ (i j : ℕ) (v w : V), rows[i]? = some v → rows[j]? = some w → ids[i]? = ids[j]? →
        Within coords atol v w) ∧
      (∀ (k : ℕ) (w : V), vs[k]? = some w → ∃ i : ℕ, rows[i]? = some w ∧ ids[i]? = some k) ∧
      (∀ (k l : ℕ) (v w : V), vs[k]? = some v → vs[l]? = some w → (∀ c ∈ coords, c v = c w) → k = l) := by
  obtain ⟨ls, vs, hp, h1, h2, h3, h4, h5⟩ := mergeRows_levels (coords := coords) hs ha h
  have hlt : ∀ {i v}, rows[i]? = some v → i < rows.length := fun {i v} hi =>
    (List.getElem?_eq_some_iff.mp hi).1
  have heq : ∀ (i j : ℕ) (v w : V), rows[i]? = some v → rows[j]? = some w → (∀ c ∈ coords, c v = c w) →
      ∃ l ∈ ls, i ∈ l ∧ j ∈ l := by
    intro i j v w hi hj he
    refine h5 (fun a b => ∀ c ∈ coords, rowValue rows c a = rowValue rows c b) ?_ i j (hlt hi) (hlt hj)
      fun c hc => by rw [rowValue_some hi, rowValue_some hj, he c hc]
    intro c hc
    refine ⟨fun a b hab c hc => (hab c hc).symm, ?_⟩
    intro a _ b _ k _ m _ hab h1 h2 _ h4
    have := hab c hc
    linarith
  have hids : ∀ (i j : ℕ) (v w : V), rows[i]? = some v → rows[j]? = some w → (∀ c ∈ coords, c v = c w) →
      (levelIds rows.length ls)[i]? = (levelIds rows.length ls)[j]? := by
    intro i j v w hi hj he
    obtain ⟨l, hl, hil, hjl⟩ := heq i j v w hi hj he
    obtain ⟨k, hk⟩ := List.mem_iff_getElem?.mp hl
    rw [(levelIds_iff hp i k (hlt hi)).mpr ⟨l, hk, hil⟩, (levelIds_iff hp j k (hlt hj)).mpr ⟨l, hk, hjl⟩]
  have hrep : ∀ (k : ℕ) (w : V), vs[k]? = some w →
      ∃ i : ℕ, rows[i]? = some w ∧ (levelIds rows.length ls)[i]? = some k := by
    intro k w hk
    have hkl : k < ls.length := by
      rw [← h2]; exact (List.getElem?_eq_some_iff.mp hk).1
    obtain ⟨i, hi, hv⟩ := h3 k ls[k] (List.getElem?_eq_getElem hkl)
    rw [hk] at hv
    exact ⟨i, hv.symm, (levelIds_iff hp i k (hlt hv.symm)).mpr ⟨_, List.getElem?_eq_getElem hkl, hi⟩⟩
  refine ⟨vs, _, h1, by simp [levelIds], ?_, hids, ?_, hrep, ?_⟩
  · intro i v hi
    have hmem : i ∈ ls.flatten := hp.1.mem_iff.mpr (List.mem_range.mpr (hlt hi))
    obtain ⟨l, hl, hil⟩ := List.mem_flatten.mp hmem
    obtain ⟨k, hk⟩ := List.mem_iff_getElem?.mp hl
    obtain ⟨j, hj, hv⟩ := h3 k l hk
    have hjn : j < rows.length :=
      List.mem_range.mp (hp.1.subset (List.mem_flatten.mpr ⟨l, hl, hj⟩))
    refine ⟨k, rows[j], (levelIds_iff hp i k (hlt hi)).mpr ⟨l, hk, hil⟩,
      hv.trans (List.getElem?_eq_getElem hjn), ?_⟩
    intro c hc
    have := h4 l hl i hil j hj c hc
    rwa [rowValue_some hi, rowValue_some (List.getElem?_eq_getElem hjn)] at this
  · intro i j v w hi hj he
    have hmem : i ∈ ls.flatten := hp.1.mem_iff.mpr (List.mem_range.mpr (hlt hi))
    obtain ⟨l, hl, hil⟩ := List.mem_flatten.mp hmem
    obtain ⟨k, hk⟩ := List.mem_iff_getElem?.mp hl
    rw [(levelIds_iff hp i k (hlt hi)).mpr ⟨l, hk, hil⟩] at he
    obtain ⟨l', hl', hjl⟩ := (levelIds_iff hp j k (hlt hj)).mp he.symm
    rw [hk] at hl'
    cases hl'
    intro c hcc
    have := h4 l hl i hil j hjl c hcc
    rwa [rowValue_some hi, rowValue_some hj] at this
  · intro k l v w hk hl he
    obtain ⟨i, hi, hik⟩ := hrep k v hk
    obtain ⟨j, hj, hjl⟩ := hrep l w hl
    have := hids i j v w hi hj he
    rw [hik, hjl] at this
    exact Option.some.inj this

/-- Without any row the code fails. -/
theorem merge_no_rows : mergeRows sort coords atol ([] : List V) = none := by
  have : levels sort atol ([] : List V) coords [[]] = [[]] := by
    induction coords with
    | nil => rfl
    | cons c cs ih => simpa [levels, refineLevel] using ih
  simp [mergeRows, this, levelRows]

/-! ## C73 -/

/-- When the coordinates are gathered in clusters that the tolerance separates, two rows are merged exactly
when they are within the tolerance. -/
theorem merged_iff_within_partial (hs : ArgSort sort) (ha : 0 ≤ atol) (h : rows ≠ [])
    (hc : ∀ c ∈ coords, ∀ u ∈ rows, ∀ v ∈ rows, ∀ w ∈ rows,
      |c u - c v| ≤ atol → |c v - c w| ≤ atol → |c u - c w| ≤ atol) :
    ∃ vs ids, mergeRows sort coords atol rows = some (vs, ids) ∧
      ∀ (i j : ℕ) (v w : V), rows[i]? = some v → rows[j]? = some w →
        (ids[i]? = ids[j]? ↔ Within coords atol v w) := by
  obtain ⟨ls, vs, hp, h1, -, -, h4, h5⟩ := mergeRows_levels (coords := coords) hs ha h
  have hlt : ∀ {i v}, rows[i]? = some v → i < rows.length := fun {i v} hi =>
    (List.getElem?_eq_some_iff.mp hi).1
  refine ⟨vs, _, h1, ?_⟩
  intro i j v w hi hj
  constructor
  · intro he
    have hmem : i ∈ ls.flatten := hp.1.mem_iff.mpr (List.mem_range.mpr (hlt hi))
    obtain ⟨l, hl, hil⟩ := List.mem_flatten.mp hmem
    obtain ⟨k, hk⟩ := List.mem_iff_getElem?.mp hl
    rw [(levelIds_iff hp i k (hlt hi)).mpr ⟨l, hk, hil⟩] at he
    obtain ⟨l', hl', hjl⟩ := (levelIds_iff hp j k (hlt hj)).mp he.symm
    rw [hk] at hl'
    cases hl'
    intro c hcc
    have := h4 l hl i hil j hjl c hcc
    rwa [rowValue_some hi, rowValue_some hj] at this
  · intro hw
    obtain ⟨l, hl, hil, hjl⟩ := h5 (fun a b => ∀ c ∈ coords, |rowValue rows c a - rowValue rows c b| ≤ atol)
      (by
        intro c hcc
        refine ⟨fun a b hab c hc => by rw [abs_sub_comm]; exact hab c hc, ?_⟩
        intro a ha' b hb k hk m hm hab h1 h2 h3 h4
        have hget : ∀ x ∈ List.range rows.length, ∃ u ∈ rows, rowValue rows c x = c u := fun x hx =>
          ⟨rows[x]'(List.mem_range.mp hx), List.getElem_mem _,
            rowValue_some (List.getElem?_eq_getElem (List.mem_range.mp hx)) c⟩
        obtain ⟨ua, ha1, ha2⟩ := hget a ha'
        obtain ⟨ub, hb1, hb2⟩ := hget b hb
        obtain ⟨um, hm1, hm2⟩ := hget m hm
        have hab' := hab c hcc
        rw [ha2, hb2] at hab'
        rw [ha2] at h1 h3 h4
        rw [hb2] at h2
        rw [hm2] at h3 h4 ⊢
        have h5 := hc c hcc um hm1 ua ha1 ub hb1 (by rw [abs_le]; constructor <;> linarith) hab'
        rw [abs_le] at h5
        linarith) i j (hlt hi) (hlt hj) (by
        intro c hcc
        rw [rowValue_some hi, rowValue_some hj]
        exact hw c hcc)
    obtain ⟨k, hk⟩ := List.mem_iff_getElem?.mp hl
    rw [(levelIds_iff hp i k (hlt hi)).mpr ⟨l, hk, hil⟩, (levelIds_iff hp j k (hlt hj)).mpr ⟨l, hk, hjl⟩]

end Rows

/-- Three aligned points, each closer to the next one than the tolerance 1. -/
noncomputable def closePoints : List (V3 ℝ) := [⟨0, 0, 0⟩, ⟨3 / 5, 0, 0⟩, ⟨6 / 5, 0, 0⟩]

/-- Two vertices within the tolerance are not always merged. -/
theorem merged_iff_within_violated (sort : (ℕ → ℝ) → List ℕ → List ℕ) (hs : ArgSort sort) :
    ∃ vs ids, mergeRows sort [V3.x, V3.y, V3.z] 1 closePoints = some (vs, ids) ∧
      ∃ (i j : ℕ) (v w : V3 ℝ), closePoints[i]? = some v ∧ closePoints[j]? = some w ∧
        Within [V3.x, V3.y, V3.z] 1 v w ∧ ids[i]? ≠ ids[j]? := by
  obtain ⟨vs, ids, h1, -, -, -, h5, -⟩ := merge_rows (sort := sort) (atol := 1) (rows := closePoints)
    (coords := [V3.x, V3.y, V3.z]) hs (by norm_num) (by simp [closePoints])
  refine ⟨vs, ids, h1, ?_⟩
  by_cases h01 : ids[0]? = ids[1]?
  · refine ⟨1, 2, _, _, rfl, rfl, ?_, ?_⟩
    · simp [Within]; norm_num [abs_le]
    · intro h12
      have := h5 0 2 _ _ rfl rfl (h01.trans h12) V3.x (by simp)
      norm_num [abs_le] at this
  · refine ⟨0, 1, _, _, rfl, rfl, ?_, h01⟩
    simp [Within]; norm_num [abs_le]

/-! ## Meshes -/

theorem mapM_total {A B : Type} (f : A → Option B) (l : List A) (h : ∀ x ∈ l, ∃ y, f x = some y) :
    ∃ ys, l.mapM f = some ys ∧ ys.length = l.length ∧
      ∀ (n : ℕ) (x : A) (y : B), l[n]? = some x → ys[n]? = some y → f x = some y := by
  induction l with
  | nil => exact ⟨[], by simp, rfl, by simp⟩
  | cons a l ih =>
    obtain ⟨ys, h1, h2, h3⟩ := ih fun x hx => h x (by simp [hx])
    obtain ⟨y, hy⟩ := h a (by simp)
    refine ⟨y :: ys, by simp [List.mapM_cons, hy, h1], by simp [h2], ?_⟩
    intro n x z hx hz
    cases n with
    | zero =>
      simp only [List.getElem?_cons_zero, Option.some.injEq] at hx hz
      rw [← hx, ← hz, hy]
    | succ n => exact h3 n x z (by simpa using hx) (by simpa using hz)

theorem lookup_total {ids : List ℕ} {f : Face} (h : ∀ i ∈ f.toList, i < ids.length) :
    ∃ g, f.lookup ids = some g := by
  have ha := h f.a (by simp [Face.toList])
  have hb := h f.b (by simp [Face.toList])
  have hc := h f.c (by simp [Face.toList])
  have hd := h f.d (by simp [Face.toList])
  exact ⟨⟨ids[f.a], ids[f.b], ids[f.c], ids[f.d]⟩, by simp [Face.lookup, ha, hb, hc, hd]⟩

theorem lookup_corner {ids : List ℕ} {f g : Face} (h : f.lookup ids = some g) (k i : ℕ)
    (hk : f.toList[k]? = some i) : ∃ j : ℕ, g.toList[k]? = some j ∧ ids[i]? = some j := by
  unfold Face.lookup at h
  split at h
  · rename_i a b c d ha hb hc hd
    cases h
    match k, hk with
    | 0, hk => cases hk; exact ⟨a, rfl, ha⟩
    | 1, hk => cases hk; exact ⟨b, rfl, hb⟩
    | 2, hk => cases hk; exact ⟨c, rfl, hc⟩
    | 3, hk => cases hk; exact ⟨d, rfl, hd⟩
    | k + 4, hk => simp [Face.toList] at hk
  · cases h

/-- C29: merging the duplicate vertices of a valid mesh keeps the number of panels, moves each corner of
each panel by at most the tolerance in each coordinate, keeps only vertices of the original mesh, leaves no
two equal vertices, and gives the same number to equal vertices. -/
theorem merge_duplicates (sort : (ℕ → ℝ) → List ℕ → List ℕ) (hs : ArgSort sort) (atol : ℝ) (ha : 0 ≤ atol)
    (m : Mesh (V3 ℝ)) (hm : m.Valid) (hv : m.vertices ≠ []) :
    ∃ m' ids, m.mergeDuplicates sort atol = some (m', ids) ∧ m'.Valid ∧ m'.vertices.Nodup ∧
      (∀ v ∈ m'.vertices, v ∈ m.vertices) ∧
      m'.faces.length = m.faces.length ∧
      (∀ (n : ℕ) (f g : Face), m.faces[n]? = some f → m'.faces[n]? = some g →
        ∀ (k i : ℕ), f.toList[k]? = some i →
          ∃ (j : ℕ) (v w : V3 ℝ), g.toList[k]? = some j ∧ ids[i]? = some j ∧
            m.vertices[i]? = some v ∧ m'.vertices[j]? = some w ∧
            |v.x - w.x| ≤ atol ∧ |v.y - w.y| ≤ atol ∧ |v.z - w.z| ≤ atol) ∧
      ∀ (i j : ℕ) (v : V3 ℝ), m.vertices[i]? = some v → m.vertices[j]? = some v → ids[i]? = ids[j]? := by
  obtain ⟨vs, ids, h1, h2, h3, h4, -, h6, h7⟩ := merge_rows (sort := sort) (atol := atol)
    (rows := m.vertices) (coords := [V3.x, V3.y, V3.z]) hs ha hv
  obtain ⟨fs, h8, h9, h10⟩ := mapM_total (Face.lookup ids) m.faces fun f hf =>
    lookup_total fun i hi => h2 ▸ hm f hf i hi
  have hcorner : ∀ (n : ℕ) (f g : Face), m.faces[n]? = some f → fs[n]? = some g →
      ∀ (k i : ℕ), f.toList[k]? = some i →
        ∃ (j : ℕ) (v w : V3 ℝ), g.toList[k]? = some j ∧ ids[i]? = some j ∧
          m.vertices[i]? = some v ∧ vs[j]? = some w ∧
          |v.x - w.x| ≤ atol ∧ |v.y - w.y| ≤ atol ∧ |v.z - w.z| ≤ atol := by
    intro n f g hf hg k i hk
    obtain ⟨j, hj, hij⟩ := lookup_corner (h10 n f g hf hg) k i hk
    have hi : i < m.vertices.length := hm f (List.mem_of_getElem? hf) i (List.mem_of_getElem? hk)
    obtain ⟨j', w, hj', hw, hc⟩ := h3 i _ (List.getElem?_eq_getElem hi)
    rw [hij] at hj'
    cases hj'
    exact ⟨j, _, w, hj, hij, List.getElem?_eq_getElem hi, hw, hc V3.x (by simp), hc V3.y (by simp),
      hc V3.z (by simp)⟩
  refine ⟨⟨vs, fs⟩, ids, by simp [Mesh.mergeDuplicates, h1, h8], ?_, ?_, ?_, h9, hcorner, ?_⟩
  · intro g hg j hj
    obtain ⟨n, hn⟩ := List.mem_iff_getElem?.mp hg
    obtain ⟨k, hk⟩ := List.mem_iff_getElem?.mp hj
    have hnl : n < m.faces.length := by
      rw [← h9]; exact (List.getElem?_eq_some_iff.mp hn).1
    have hk4 : k < 4 := (List.getElem?_eq_some_iff.mp hk).1
    obtain ⟨j', v, w, hj', -, -, hw, -⟩ := hcorner n _ g (List.getElem?_eq_getElem hnl) hn k
      (m.faces[n].toList[k]'hk4) (List.getElem?_eq_getElem hk4)
    rw [hk] at hj'
    cases hj'
    exact (List.getElem?_eq_some_iff.mp hw).1
  · show vs.Nodup
    rw [List.nodup_iff_getElem?_ne_getElem?]
    intro i j hij hj he
    have hi := hij.trans hj
    have := h7 i j vs[i] vs[j] (List.getElem?_eq_getElem hi) (List.getElem?_eq_getElem hj) (by
      rw [List.getElem?_eq_getElem hi, List.getElem?_eq_getElem hj] at he
      intro c _
      rw [Option.some.inj he])
    omega
  · intro v hv
    obtain ⟨k, hk⟩ := List.mem_iff_getElem?.mp hv
    obtain ⟨i, hi, -⟩ := h6 k v hk
    exact List.mem_of_getElem? hi
  · exact fun i j v hi hj => h4 i j v v hi hj fun _ _ => rfl

/-- Sorting by insertion meets the contract of `argsort`. -/
noncomputable def insertionSort (val : ℕ → ℝ) (l : List ℕ) : List ℕ :=
  open Classical in l.insertionSort fun i j => val i ≤ val j

theorem insertionSort_argSort : ArgSort insertionSort where
  perm val l := by
    classical
    exact List.perm_insertionSort _ l
  sorted val l := by
    classical
    have : IsTrans ℕ (fun i j => val i ≤ val j) := ⟨fun _ _ _ h h' => le_trans h h'⟩
    have : Std.Total (fun i j => val i ≤ val j) := ⟨fun i j => le_total _ _⟩
    exact List.pairwise_insertionSort _ l

/-- Two triangles that do not share their vertices. -/
noncomputable def twoTriangles : Mesh (V3 ℝ) where
  vertices := [⟨0, 0, 0⟩, ⟨1, 0, 0⟩, ⟨0, 1, 0⟩, ⟨0, 1, 1 / 2⟩, ⟨1, 0, 0⟩, ⟨1, 1, 0⟩]
  faces := [⟨0, 1, 2, 0⟩, ⟨3, 4, 5, 3⟩]

/-- Concrete case of `merge_duplicates`, and of `merge_rows`. -/
example : ∃ m' ids, twoTriangles.mergeDuplicates insertionSort (1 / 2) = some (m', ids) ∧
    m'.Valid ∧ m'.vertices.Nodup ∧ m'.faces.length = 2 := by
  obtain ⟨m', ids, h1, h2, h3, -, h4, -⟩ := merge_duplicates insertionSort insertionSort_argSort (1 / 2)
    (by norm_num) twoTriangles (by simp [Mesh.Valid, twoTriangles, Face.toList]) (by simp [twoTriangles])
  exact ⟨m', ids, h1, h2, h3, h4⟩

/-- Concrete case of `merged_iff_within_partial`: the vertices 2 and 3 are merged, the vertices 0 and 1 are
not. -/
example : ∃ vs ids, mergeRows insertionSort [V3.x, V3.y, V3.z] (1 / 2) twoTriangles.vertices = some (vs, ids) ∧
    ids[2]? = ids[3]? ∧ ids[0]? ≠ ids[1]? := by
  obtain ⟨vs, ids, h1, h2⟩ := merged_iff_within_partial (sort := insertionSort) (atol := 1 / 2)
    (rows := twoTriangles.vertices) (coords := [V3.x, V3.y, V3.z]) insertionSort_argSort (by norm_num)
    (by simp [twoTriangles]) (by
      have kx : ∀ u ∈ twoTriangles.vertices, u.x = 0 ∨ u.x = 1 := by simp [twoTriangles]
      have ky : ∀ u ∈ twoTriangles.vertices, u.y = 0 ∨ u.y = 1 := by simp [twoTriangles]
      have kz : ∀ u ∈ twoTriangles.vertices, u.z = 0 ∨ u.z = 1 / 2 := by simp [twoTriangles]
      intro c hc u hu v hv w hw
      simp only [List.mem_cons, List.not_mem_nil, or_false] at hc
      rcases hc with rfl | rfl | rfl
      · rcases kx u hu with h | h <;> rcases kx v hv with h' | h' <;> rcases kx w hw with h'' | h'' <;>
          rw [h, h', h''] <;> norm_num [abs_le]
      · rcases ky u hu with h | h <;> rcases ky v hv with h' | h' <;> rcases ky w hw with h'' | h'' <;>
          rw [h, h', h''] <;> norm_num [abs_le]
      · rcases kz u hu with h | h <;> rcases kz v hv with h' | h' <;> rcases kz w hw with h'' | h'' <;>
          rw [h, h', h''] <;> norm_num [abs_le])
  refine ⟨vs, ids, h1, (h2 2 3 _ _ rfl rfl).mpr ?_, fun h => ?_⟩
  · simp [Within]
  · have := (h2 0 1 _ _ rfl rfl).mp h V3.x (by simp)
    norm_num [abs_le] at this

end Verif.Meshes
