import Verif.Datasets.BareModel
import Verif.PostPro.PointsProps

/-!
# C95: bare matrices hold the values of the dataset

The variables are given with the labels along their dimensions, in the order of the dimensions: parameters and frequency first, then the
radiating dof and the influenced dof (the wave direction and the influenced dof for the forces).
-/

namespace Verif.Datasets

open Verif.PostPro

variable {α V : Type}

/-! ## Specification -/

/-- The labels at a position. -/
def LabelsAt (labels : List (List α)) (idx : List ℕ) (t : List α) : Prop :=
  idx.length = labels.length ∧ t.length = labels.length ∧
    ∀ (k : ℕ) (l : List α) (i : ℕ), labels[k]? = some l → idx[k]? = some i → ∃ x, l[i]? = some x ∧ t[k]? = some x

/-- The position in the array without the axes of size one. -/
def dropOnes : List ℕ → List ℕ → List ℕ
  | n :: s, i :: idx => if n = 1 then dropOnes s idx else i :: dropOnes s idx
  | _, _ => []

/-! ## Proofs -/

theorem tuples_length (labels : List (List α)) : (tuples labels).length = (labels.map List.length).prod := by
  induction labels with
  | nil => rfl
  | cons l ls ih =>
    rw [tuples, List.length_flatMap]
    simp [ih, List.map_const']

theorem flatMap_get {β γ : Type} (f : β → List γ) (n : ℕ) (hf : ∀ x, (f x).length = n) (l : List β) (i j : ℕ) (hj : j < n) :
    (l.flatMap f)[i * n + j]? = l[i]?.bind fun x => (f x)[j]? := by
  induction l generalizing i with
  | nil => simp
  | cons x l ih =>
    rw [List.flatMap_cons]
    cases i with
    | zero =>
      rw [List.getElem?_append_left (by rw [hf]; omega)]
      simp
    | succ i =>
      rw [List.getElem?_append_right (by rw [hf, Nat.succ_mul]; omega), hf,
        show (i + 1) * n + j - n = i * n + j by rw [Nat.succ_mul]; omega, ih]
      simp

theorem tuples_get (labels : List (List α)) (idx : List ℕ) (t : List α) (h : LabelsAt labels idx t) :
    (tuples labels)[ravel (labels.map List.length) idx]? = some t := by
  induction labels generalizing idx t with
  | nil =>
    obtain ⟨h1, h2, _⟩ := h
    have : t = [] := List.length_eq_zero_iff.1 h2
    subst this
    simp [tuples, ravel]
  | cons l ls ih =>
    obtain ⟨h1, h2, h3⟩ := h
    match idx, t, h1, h2, h3 with
    | i :: idx, x :: t, h1, h2, h3 =>
      obtain ⟨y, hy, hy'⟩ := h3 0 l i rfl rfl
      simp only [List.getElem?_cons_zero, Option.some.injEq] at hy'
      subst hy'
      have hrest : LabelsAt ls idx t := ⟨by simpa using h1, by simpa using h2, fun k m i hk hi => h3 (k + 1) m i hk hi⟩
      have hget := ih idx t hrest
      have hlt : ravel (ls.map List.length) idx < (ls.map List.length).prod := by
        rw [← tuples_length]
        exact (List.getElem?_eq_some_iff.1 hget).1
      rw [List.map_cons, ravel, tuples,
        flatMap_get _ _ (fun x => by rw [List.length_map, tuples_length]) l i _ hlt, hy]
      simp [hget]

/-- The values of a variable are found at the positions of their labels. -/
theorem values_get {labels : List (List α)} (val : List α → V) {idx : List ℕ} {t : List α} (h : LabelsAt labels idx t) :
    (valuesOf labels val).get? idx = some (val t) := by
  unfold valuesOf ND.get?
  rw [List.getElem?_map, tuples_get labels idx t h]
  rfl

theorem filter_prod (s : List ℕ) : (s.filter fun n => n ≠ 1).prod = s.prod := by
  induction s with
  | nil => rfl
  | cons n s ih =>
    by_cases h : n = 1
    · rw [List.filter_cons_of_neg (by simpa using h), ih, h, List.prod_cons, one_mul]
    · rw [List.filter_cons_of_pos (by simpa using h), List.prod_cons, List.prod_cons, ih]

theorem ravel_drop (s idx : List ℕ) (h : InShape idx s) : ravel (s.filter fun n => n ≠ 1) (dropOnes s idx) = ravel s idx := by
  induction h with
  | nil => rfl
  | @cons i n idx s hi h ih =>
    by_cases hn : n = 1
    · subst hn
      have : i = 0 := by omega
      subst this
      rw [List.filter_cons_of_neg (by simp), dropOnes, if_pos rfl, ih, ravel, zero_mul, zero_add]
    · rw [List.filter_cons_of_pos (by simpa using hn), dropOnes, if_neg hn, ravel, ravel, ih, filter_prod]

/-- Leaving out the axes of size one leaves each value at its position without these axes. -/
theorem squeeze_get (a : ND V) (idx : List ℕ) (h : InShape idx a.shape) : (squeezeAxes a).get? (dropOnes a.shape idx) = a.get? idx := by
  unfold squeezeAxes ND.get?
  simp only
  rw [ravel_drop _ _ h]

/-- No value is lost or moved, whatever the dimensions. -/
theorem bare_values (labels : List (List α)) (val : List α → V) :
    (∃ A, bareMatrix (some (labels, val)) = some A ∧ A.flat = (tuples labels).map val ∧ A.flat.length = A.shape.prod ∧ 2 ≤ A.shape.length) ∧
    ∃ F, bareForce (some (labels, val)) = some F ∧ F.flat = (tuples labels).map val ∧ F.flat.length = F.shape.prod ∧ 1 ≤ F.shape.length := by
  have hp : ((labels.map List.length).filter fun n => n ≠ 1).prod = ((tuples labels).map val).length := by
    rw [filter_prod, List.length_map, tuples_length]
  constructor
  · refine ⟨_, rfl, ?_⟩
    unfold atLeast2 squeezeAxes valuesOf
    simp only
    split
    · next h =>
      rw [h] at hp
      exact ⟨rfl, by simpa using hp.symm, le_refl _⟩
    · next h =>
      rw [h] at hp
      exact ⟨rfl, by simpa using hp.symm, le_refl _⟩
    · next h0 h1 =>
      refine ⟨rfl, hp.symm, ?_⟩
      match hs : (labels.map List.length).filter fun n => n ≠ 1 with
      | [] => exact absurd hs h0
      | [n] => exact absurd hs (h1 n)
      | a :: b :: l => rw [hs]; simp
  · refine ⟨_, rfl, ?_⟩
    unfold atLeast1 squeezeAxes valuesOf
    simp only
    split
    · next h =>
      rw [h] at hp
      exact ⟨rfl, by simpa using hp.symm, le_refl _⟩
    · next h0 =>
      refine ⟨rfl, hp.symm, ?_⟩
      match hs : (labels.map List.length).filter fun n => n ≠ 1 with
      | [] => exact absurd hs h0
      | a :: l => rw [hs]; simp

theorem ones_filter {pre : List (List α)} (h : ∀ l ∈ pre, l.length = 1) (s : List ℕ) :
    ((pre.map List.length) ++ s).filter (fun n => n ≠ 1) = s.filter fun n => n ≠ 1 := by
  induction pre with
  | nil => rfl
  | cons l pre ih =>
    rw [List.map_cons, List.cons_append, List.filter_cons_of_neg (by simp [h l (by simp)])]
    exact ih fun m hm => h m (List.mem_cons_of_mem _ hm)

theorem ones_ravel {pre : List (List α)} (h : ∀ l ∈ pre, l.length = 1) (s idx : List ℕ) :
    ravel ((pre.map List.length) ++ s) (List.replicate pre.length 0 ++ idx) = ravel s idx := by
  induction pre with
  | nil => rfl
  | cons l pre ih =>
    rw [List.map_cons, List.cons_append, List.length_cons, List.replicate_succ, List.cons_append, ravel, zero_mul, zero_add]
    exact ih fun m hm => h m (List.mem_cons_of_mem _ hm)

/-- The labels of the dimensions with one label. -/
theorem ones_labels {pre : List (List α)} {only : List α} (h : pre = only.map fun x => [x]) {rest : List (List α)} {idx : List ℕ} {t : List α}
    (ht : LabelsAt rest idx t) : LabelsAt (pre ++ rest) (List.replicate pre.length 0 ++ idx) (only ++ t) := by
  subst h
  refine ⟨by simp [ht.1], by simp [ht.2.1], ?_⟩
  intro k l i hk hi
  simp only [List.length_map] at hi
  by_cases hlt : k < only.length
  · rw [List.getElem?_append_left (by simpa using hlt)] at hk
    rw [List.getElem?_append_left (by simpa using hlt)] at hi
    rw [List.getElem?_map, List.getElem?_eq_getElem hlt] at hk
    simp only [Option.map_some, Option.some.injEq] at hk
    rw [List.getElem?_replicate, if_pos hlt, Option.some.injEq] at hi
    subst hk hi
    refine ⟨only[k], rfl, ?_⟩
    rw [List.getElem?_append_left hlt, List.getElem?_eq_getElem hlt]
  · rw [List.getElem?_append_right (by simpa using hlt)] at hk
    rw [List.getElem?_append_right (by simpa using hlt)] at hi
    simp only [List.length_map, List.length_replicate] at hk hi
    obtain ⟨x, hx, hx'⟩ := ht.2.2 _ l i hk hi
    refine ⟨x, hx, ?_⟩
    rw [List.getElem?_append_right (by omega)]
    exact hx'

theorem two_labels {rad inf : List α} {i j : ℕ} {x y : α} (hx : rad[i]? = some x) (hy : inf[j]? = some y) :
    LabelsAt [rad, inf] [i, j] [x, y] := by
  refine ⟨rfl, rfl, ?_⟩
  intro k l m hk hm
  match k, hk, hm with
  | 0, hk, hm =>
    simp only [List.getElem?_cons_zero, Option.some.injEq] at hk hm
    subst hk hm
    exact ⟨x, hx, rfl⟩
  | 1, hk, hm =>
    simp only [List.getElem?_cons_succ, List.getElem?_cons_zero, Option.some.injEq] at hk hm
    subst hk hm
    exact ⟨y, hy, rfl⟩
  | k + 2, hk, _ => simp at hk

theorem one_label {inf : List α} {j : ℕ} {y : α} (hy : inf[j]? = some y) : LabelsAt [inf] [j] [y] := by
  refine ⟨rfl, rfl, ?_⟩
  intro k l m hk hm
  match k, hk, hm with
  | 0, hk, hm =>
    simp only [List.getElem?_cons_zero, Option.some.injEq] at hk hm
    subst hk hm
    exact ⟨y, hy, rfl⟩
  | k + 1, hk, _ => simp at hk

/-- The shape of the matrix with one value of each parameter and one frequency. -/
theorem single_shape {only : List α} {rad inf : List α} (val : List α → V) {A : ND V}
    (hA : bareMatrix (some (only.map (fun x => [x]) ++ [rad, inf], val)) = some A) :
    A.shape = if rad.length = 1 then [1, inf.length] else if inf.length = 1 then [1, rad.length] else [rad.length, inf.length] := by
  simp only [bareMatrix, Option.map_some, Option.some.injEq] at hA
  subst hA
  have hs : (squeezeAxes (valuesOf (only.map (fun x => [x]) ++ [rad, inf]) val)).shape = [rad.length, inf.length].filter fun n => n ≠ 1 := by
    simp only [squeezeAxes, valuesOf, List.map_append]
    rw [ones_filter (by simp)]
    rfl
  have h2 : ∀ a : ND V, (atLeast2 a).shape = match a.shape with | [] => [1, 1] | [n] => [1, n] | s => s := by
    intro a
    unfold atLeast2
    split <;> simp_all
  rw [h2, hs]
  by_cases hr : rad.length = 1 <;> by_cases hi : inf.length = 1 <;> simp [hr, hi]

/-- With one value of each parameter and one frequency, the matrix has a row for each radiating dof and a column for each influenced dof, with
the values of the dataset, if and only if there is one radiating dof or not exactly one influenced dof. -/
theorem bare_matrix_iff (only rad inf : List α) (val : List α → V) (hr : rad ≠ []) :
    (∃ A, bareMatrix (some (only.map (fun x => [x]) ++ [rad, inf], val)) = some A ∧ A.shape = [rad.length, inf.length] ∧
      ∀ i j x y, rad[i]? = some x → inf[j]? = some y → A.get? [i, j] = some (val (only ++ [x, y]))) ↔
    rad.length = 1 ∨ inf.length ≠ 1 := by
  have hr0 : 0 < rad.length := List.length_pos_iff.2 hr
  constructor
  · rintro ⟨A, hA, hs, _⟩
    by_contra hn
    push Not at hn
    rw [single_shape val hA, if_neg hn.1, if_pos hn.2, hn.2] at hs
    simp only [List.cons.injEq, and_true] at hs
    omega
  · intro h
    refine ⟨_, rfl, ?_⟩
    have hs := single_shape (only := only) (rad := rad) (inf := inf) val rfl
    have hshape : (atLeast2 (squeezeAxes (valuesOf (only.map (fun x => [x]) ++ [rad, inf]) val))).shape = [rad.length, inf.length] := by
      rw [hs]
      by_cases h1 : rad.length = 1
      · rw [if_pos h1, h1]
      · rw [if_neg h1, if_neg (h.resolve_left h1)]
    refine ⟨hshape, fun i j x y hx hy => ?_⟩
    have hflat : (atLeast2 (squeezeAxes (valuesOf (only.map (fun x => [x]) ++ [rad, inf]) val))).flat =
        (valuesOf (only.map (fun x => [x]) ++ [rad, inf]) val).flat := by
      unfold atLeast2
      split <;> rfl
    have hg := values_get val (ones_labels (only := only) rfl (two_labels hx hy))
    unfold ND.get? at hg ⊢
    rw [hshape, hflat]
    rw [valuesOf, List.map_append, ones_ravel (by simp)] at hg
    exact hg

/-- With all the dofs radiating and influenced, the matrix is a square matrix of the values of the dataset, also for a single dof. -/
theorem bare_matrix_square (only dofs : List α) (val : List α → V) (h : dofs ≠ []) :
    ∃ A, bareMatrix (some (only.map (fun x => [x]) ++ [dofs, dofs], val)) = some A ∧ A.shape = [dofs.length, dofs.length] ∧
      ∀ i j x y, dofs[i]? = some x → dofs[j]? = some y → A.get? [i, j] = some (val (only ++ [x, y])) :=
  (bare_matrix_iff only dofs dofs val h).2 (by by_cases h1 : dofs.length = 1 <;> simp [h1])

/-- With one value of each parameter, one frequency and one direction, the force is a vector of the values of the dataset. -/
theorem bare_force (only inf : List α) (val : List α → V) :
    ∃ F, bareForce (some (only.map (fun x => [x]) ++ [inf], val)) = some F ∧ F.shape = [inf.length] ∧
      ∀ j y, inf[j]? = some y → F.get? [j] = some (val (only ++ [y])) := by
  refine ⟨_, rfl, ?_⟩
  have hs : (squeezeAxes (valuesOf (only.map (fun x => [x]) ++ [inf]) val)).shape = [inf.length].filter fun n => n ≠ 1 := by
    simp only [squeezeAxes, valuesOf, List.map_append]
    rw [ones_filter (by simp)]
    rfl
  have h1 : ∀ a : ND V, (atLeast1 a).shape = match a.shape with | [] => [1] | s => s := by
    intro a
    unfold atLeast1
    split <;> simp_all
  have hshape : (atLeast1 (squeezeAxes (valuesOf (only.map (fun x => [x]) ++ [inf]) val))).shape = [inf.length] := by
    rw [h1, hs]
    by_cases hi : inf.length = 1 <;> simp [hi]
  refine ⟨hshape, fun j y hy => ?_⟩
  have hflat : (atLeast1 (squeezeAxes (valuesOf (only.map (fun x => [x]) ++ [inf]) val))).flat =
      (valuesOf (only.map (fun x => [x]) ++ [inf]) val).flat := by
    unfold atLeast1
    split <;> rfl
  have hg := values_get val (ones_labels (only := only) rfl (one_label hy))
  unfold ND.get? at hg ⊢
  rw [hshape, hflat]
  rw [valuesOf, List.map_append, ones_ravel (by simp)] at hg
  exact hg

/-- With several frequencies, the axis of the frequencies is the first one, but the last one for a single dof. -/
theorem bare_frequencies (only freqs dofs : List α) (val : List α → V) (hf : 2 ≤ freqs.length) :
    ∃ A, bareMatrix (some (only.map (fun x => [x]) ++ [freqs, dofs, dofs], val)) = some A ∧
      A.shape = if dofs.length = 1 then [1, freqs.length] else [freqs.length, dofs.length, dofs.length] := by
  refine ⟨_, rfl, ?_⟩
  have hs : (squeezeAxes (valuesOf (only.map (fun x => [x]) ++ [freqs, dofs, dofs]) val)).shape =
      [freqs.length, dofs.length, dofs.length].filter fun n => n ≠ 1 := by
    simp only [squeezeAxes, valuesOf, List.map_append]
    rw [ones_filter (by simp)]
    rfl
  have h2 : ∀ a : ND V, (atLeast2 a).shape = match a.shape with | [] => [1, 1] | [n] => [1, n] | s => s := by
    intro a
    unfold atLeast2
    split <;> simp_all
  rw [h2, hs]
  have : freqs.length ≠ 1 := by omega
  by_cases hd : dofs.length = 1 <;> simp [hd, this]

/-- Variables which are not in the dataset are reported as missing. -/
theorem bare_missing (var : Option (List (List α) × (List α → V))) :
    (bareMatrix var = none ↔ var = none) ∧ (bareForce var = none ↔ var = none) := by
  cases var <;> simp [bareMatrix, bareForce]

/-- Two frequencies and one dof: the first row of the matrix has two columns, one for each frequency, while a row for each frequency is
what is obtained with two dofs. -/
theorem bare_single_dof_violated : ∃ A B : ND ℕ,
    bareMatrix (some ([["1", "2"], ["Heave"], ["Heave"]], fun t => t.length)) = some A ∧ A.shape = [1, 2] ∧
    bareMatrix (some ([["1", "2"], ["Heave", "Surge"], ["Heave", "Surge"]], fun t => t.length)) = some B ∧ B.shape = [2, 2, 2] :=
  ⟨_, _, rfl, rfl, rfl, rfl⟩

/-- The hypotheses of `bare_frequencies` and `bare_matrix_square` are met. -/
example : 2 ≤ ["1", "2"].length ∧ ["Heave", "Surge"] ≠ [] := by simp

end Verif.Datasets
