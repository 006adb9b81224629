import Verif.Files.LegacyModel
import Mathlib.Analysis.SpecialFunctions.Complex.Log
import Std.Data.String.ToNat

/-!
# Proofs about the result files in the format of Nemoh (C103)
-/

namespace Verif.Files.Legacy

/-! ## Lists of lines -/

theorem getElem?_flatMap_const {α β : Type} (f : α → List β) (c : ℕ) (l : List α)
    (h : ∀ x ∈ l, (f x).length = c) (i j : ℕ) (hj : j < c) :
    (l.flatMap f)[i * c + j]? = l[i]?.bind fun x => (f x)[j]? := by
  induction l generalizing i with
  | nil => simp
  | cons a l ih =>
    have ha := h a (by simp)
    rw [List.flatMap_cons]
    rcases i with _ | i
    · simp only [Nat.zero_mul, Nat.zero_add, List.getElem?_cons_zero, Option.bind_some]
      rw [List.getElem?_append_left (by omega)]
    · rw [List.getElem?_append_right (by rw [ha, Nat.succ_mul]; omega)]
      have : (i + 1) * c + j - (f a).length = i * c + j := by rw [ha, Nat.succ_mul]; omega
      rw [this, ih (fun x hx => h x (by simp [hx]))]
      simp

theorem length_flatMap_const {α β : Type} (f : α → List β) (c : ℕ) (l : List α)
    (h : ∀ x ∈ l, (f x).length = c) : (l.flatMap f).length = l.length * c := by
  induction l with
  | nil => simp
  | cons a l ih =>
    rw [List.flatMap_cons, List.length_append, h a (by simp), ih (fun x hx => h x (by simp [hx]))]
    simp [Nat.succ_mul]; omega

variable {N : Type}

theorem emit_ok_iff (ls : List (List (Option (Word N)))) :
    (emit ls).2 = true ↔ ∀ l ∈ ls, ∀ w ∈ l, w.isSome = true := by
  induction ls with
  | nil => simp [emit]
  | cons l ls ih =>
    by_cases h : l.all Option.isSome = true
    · simp only [emit, if_pos h, ih, List.mem_cons, forall_eq_or_imp]
      simp only [List.all_eq_true] at h
      exact ⟨fun k => ⟨h, k⟩, fun k => k.2⟩
    · simp only [emit, if_neg h, List.mem_cons, forall_eq_or_imp]
      simp only [List.all_eq_true] at h
      constructor
      · intro k; cases k
      · intro k; exact absurd k.1 h

theorem emit_map (ls : List (List (Word N))) :
    emit (ls.map fun l => l.map some) = (ls, true) := by
  induction ls with
  | nil => rfl
  | cons l ls ih =>
    have h : (l.map (some : Word N → Option (Word N))).all Option.isSome = true := by simp
    simp only [List.map_cons, emit, if_pos h, ih]
    simp [List.filterMap_map]

/-- A list of lines that are all computed is the image of the list that is written. -/
theorem emit_eq (ls : List (List (Option (Word N)))) (h : (emit ls).2 = true) :
    ls = (emit ls).1.map fun l => l.map some := by
  rw [emit_ok_iff] at h
  have h2 : ∃ ms : List (List (Word N)), ls = ms.map fun l => l.map some := by
    refine ⟨ls.map fun l => l.filterMap id, ?_⟩
    rw [List.map_map]
    conv_lhs => rw [← List.map_id ls]
    refine List.map_congr_left fun l hl => ?_
    have := h l hl
    simp only [id, Function.comp]
    clear hl h
    induction l with
    | nil => rfl
    | cons a l ih =>
      have ha := this a (by simp)
      obtain ⟨b, rfl⟩ := Option.isSome_iff_exists.1 ha
      simp only [List.filterMap_cons, id, List.map_cons]
      congr 1
      exact ih fun w hw => this w (by simp [hw])
  obtain ⟨ms, rfl⟩ := h2
  rw [emit_map]

/-! ## The values of the dataset -/

theorem pos_isSome {α : Type} [DecidableEq α] (l : List α) (h : l.Nodup) (i : ℕ) (x : α)
    (hx : l[i]? = some x) : pos l x = some i := by
  obtain ⟨hi, rfl⟩ := List.getElem?_eq_some_iff.1 hx
  unfold pos
  rw [if_pos (List.count_eq_one_of_mem h (List.getElem_mem hi)), h.idxOf_getElem]

theorem pos_none_of_dup {α : Type} [DecidableEq α] (l : List α) (h : ¬ l.Nodup) :
    ∃ x ∈ l, pos l x = none := by
  rw [List.nodup_iff_count_le_one] at h
  push Not at h
  obtain ⟨x, hx⟩ := h
  exact ⟨x, List.count_pos_iff.1 (by omega), by unfold pos; rw [if_neg (by omega)]⟩

theorem sel_value {α V : Type} [DecidableEq α] (r : Results) (labels : List α)
    (v : ℕ → ℕ → ℕ → V) (h1 : r.byOmega = true) (h2 : r.scalar = true)
    (ho : r.omega.Nodup) (hl : labels.Nodup) (hi : r.influenced.Nodup)
    {i j k : ℕ} {o : ℝ} {b : α} {c : String} (io : r.omega[i]? = some o)
    (jb : labels[j]? = some b) (kc : r.influenced[k]? = some c) :
    r.sel labels (some v) o b c = some (v i j k) := by
  unfold Results.sel
  rw [pos_isSome _ ho i o io, pos_isSome _ hl j b jb, pos_isSome _ hi k c kc]
  simp [h1, h2]

theorem sel_isSome_iff {α V : Type} [DecidableEq α] (r : Results) (labels : List α)
    (v : Option (ℕ → ℕ → ℕ → V)) (o : ℝ) (b : α) (c : String) :
    (r.sel labels v o b c).isSome = true ↔ r.byOmega = true ∧ r.scalar = true ∧ v.isSome = true ∧
      (pos r.omega o).isSome = true ∧ (pos labels b).isSome = true ∧
      (pos r.influenced c).isSome = true := by
  unfold Results.sel
  rcases r.byOmega <;> rcases r.scalar <;> rcases v with _ | v <;>
    rcases pos r.omega o with _ | i <;> rcases pos labels b with _ | j <;>
    rcases pos r.influenced c with _ | k <;> simp

/-- When can all the numbers of a table be selected one by one: there is nothing to select, or the
variables are there, `omega` is a dimension, there is no other dimension, and no label is there
twice. -/
def Selectable {α V : Type} (r : Results) (labels : List α) (v : Option (ℕ → ℕ → ℕ → V)) : Prop :=
  labels = [] ∨ r.omega = [] ∨ r.influenced = [] ∨
    (v.isSome = true ∧ r.byOmega = true ∧ r.scalar = true ∧ r.omega.Nodup ∧ labels.Nodup ∧
      r.influenced.Nodup)

theorem selectable_iff {α V : Type} [DecidableEq α] (r : Results) (labels : List α)
    (v : Option (ℕ → ℕ → ℕ → V)) :
    (∀ b ∈ labels, ∀ o ∈ r.omega, ∀ c ∈ r.influenced,
      (r.sel labels v o b c).isSome = true) ↔ Selectable r labels v := by
  simp only [sel_isSome_iff]
  constructor
  · intro h
    rcases hl : labels with _ | ⟨b, bs⟩
    · exact Or.inl rfl
    rcases ho : r.omega with _ | ⟨o, os⟩
    · exact Or.inr (Or.inl ho)
    rcases hi : r.influenced with _ | ⟨c, cs⟩
    · exact Or.inr (Or.inr (Or.inl hi))
    rw [← hl]
    have hb : b ∈ labels := by simp [hl]
    have hoo : o ∈ r.omega := by simp [ho]
    have hc : c ∈ r.influenced := by simp [hi]
    obtain ⟨h1, h2, h3, -⟩ := h b hb o hoo c hc
    refine Or.inr (Or.inr (Or.inr ⟨h3, h1, h2, ?_, ?_, ?_⟩))
    · by_contra hn
      obtain ⟨x, hx, hp⟩ := pos_none_of_dup _ hn
      have := (h b hb x hx c hc).2.2.2.1
      simp [hp] at this
    · by_contra hn
      obtain ⟨x, hx, hp⟩ := pos_none_of_dup _ hn
      have := (h x hx o hoo c hc).2.2.2.2.1
      simp [hp] at this
    · by_contra hn
      obtain ⟨x, hx, hp⟩ := pos_none_of_dup _ hn
      have := (h b hb o hoo x hx).2.2.2.2.2
      simp [hp] at this
  · rintro (h | h | h | ⟨h1, h2, h3, h4, h5, h6⟩)
    · simp [h]
    · simp [h]
    · simp [h]
    · intro b hb o ho c hc
      obtain ⟨i, hi⟩ := List.getElem?_of_mem ho
      obtain ⟨j, hj⟩ := List.getElem?_of_mem hb
      obtain ⟨k, hk⟩ := List.getElem?_of_mem hc
      rw [pos_isSome _ h4 i o hi, pos_isSome _ h5 j b hj, pos_isSome _ h6 k c hk]
      simp [h1, h2, h3]

theorem radiationLines_ok_iff (e : ℝ → N) (r : Results) :
    (emit (r.radiationLines e)).2 = true ↔
      Selectable r r.radiating r.addedMass ∧ Selectable r r.radiating r.damping := by
  rw [emit_ok_iff, ← selectable_iff, ← selectable_iff]
  simp only [Results.radiationLines, Results.radiationRow, List.mem_append, List.mem_replicate,
    List.mem_flatMap, List.mem_cons, List.mem_map]
  constructor
  · intro h
    constructor
    · intro b hb o ho c hc
      have := h _ (Or.inr ⟨b, hb, Or.inr ⟨o, ho, rfl⟩⟩)
        ((r.sel r.radiating r.addedMass o b c).map fun x : ℝ => .num (e x))
        (by
          refine List.mem_cons_of_mem _ (List.mem_flatMap.2 ⟨c, hc, ?_⟩)
          exact List.mem_cons_self)
      simpa using this
    · intro b hb o ho c hc
      have := h _ (Or.inr ⟨b, hb, Or.inr ⟨o, ho, rfl⟩⟩)
        ((r.sel r.radiating r.damping o b c).map fun x : ℝ => .num (e x))
        (by
          refine List.mem_cons_of_mem _ (List.mem_flatMap.2 ⟨c, hc, ?_⟩)
          exact List.mem_cons_of_mem _ List.mem_cons_self)
      simpa using this
  · rintro ⟨h1, h2⟩ l hl w hw
    rcases hl with ⟨-, rfl⟩ | ⟨b, hb, rfl | ⟨o, ho, rfl⟩⟩
    · simp at hw; simp [hw]
    · simp at hw; simp [hw]
    · rcases List.mem_cons.1 hw with rfl | hw
      · rfl
      · obtain ⟨c, hc, hw⟩ := List.mem_flatMap.1 hw
        simp only [List.mem_cons, List.not_mem_nil, or_false] at hw
        rcases hw with rfl | rfl
        · rw [Option.isSome_map]; exact h1 b hb o ho c hc
        · rw [Option.isSome_map]; exact h2 b hb o ho c hc

theorem excitationLines_ok_iff (e s : ℝ → N) (r : Results) :
    (emit (r.excitationLines e s)).2 = true ↔ Selectable r r.directions r.excitation := by
  rw [emit_ok_iff, ← selectable_iff]
  simp only [Results.excitationLines, Results.excitationRow, List.mem_append, List.mem_replicate,
    List.mem_flatMap, List.mem_cons, List.mem_map]
  constructor
  · intro h b hb o ho c hc
    have := h _ (Or.inr ⟨b, hb, Or.inr ⟨o, ho, rfl⟩⟩)
      ((r.sel r.directions r.excitation o b c).map fun z : ℂ => .num (e ‖z‖))
      (by
        refine List.mem_cons_of_mem _ (List.mem_flatMap.2 ⟨c, hc, ?_⟩)
        exact List.mem_cons_self)
    simpa using this
  · rintro h1 l hl w hw
    rcases hl with ⟨-, rfl⟩ | ⟨b, hb, rfl | ⟨o, ho, rfl⟩⟩
    · simp at hw; simp [hw]
    · simp at hw; rcases hw with rfl | rfl <;> rfl
    · rcases List.mem_cons.1 hw with rfl | hw
      · rfl
      · obtain ⟨c, hc, hw⟩ := List.mem_flatMap.1 hw
        simp only [List.mem_cons, List.not_mem_nil, or_false] at hw
        rcases hw with rfl | rfl
        · rw [Option.isSome_map]; exact h1 b hb o ho c hc
        · rw [Option.isSome_map]; exact h1 b hb o ho c hc


/-! ## The tables of the files -/

/-- A file with `h` lines of dots and then `n` blocks; a block has a title and `m` rows; a row has
the frequency and `q` pairs of numbers. -/
def IsTable (F : File N) (h n m q : ℕ) (title : ℕ → List (Word N)) (freq : ℕ → N)
    (first second : ℕ → ℕ → ℕ → N) : Prop :=
  F.length = h + n * (m + 1) ∧ (∀ i < h, F[i]? = some [.text "..."]) ∧
    ∀ i < n, F[h + i * (m + 1)]? = some (title i) ∧
      ∀ j < m, ∃ row : List (Word N), F[h + i * (m + 1) + (1 + j)]? = some row ∧
        row.length = 1 + 2 * q ∧ row[0]? = some (.num (freq j)) ∧
        ∀ k < q, row[1 + 2 * k]? = some (.num (first j i k)) ∧
          row[2 + 2 * k]? = some (.num (second j i k))

theorem map_some_inj {α : Type} {a b : List α} (h : a.map some = b.map some) : a = b :=
  List.map_injective_iff.2 (Option.some_injective α) h

/-- The lines of a table that are all computed are a table. -/
theorem table_of_lines {α β : Type} (h : ℕ) (labels : List α) (os : List β) (cs : List String)
    (title : α → List (Word N)) (freq : β → N) (first second : α → β → String → Option N)
    (titleAt : ℕ → List (Word N)) (freqAt : ℕ → N) (firstAt secondAt : ℕ → ℕ → ℕ → N)
    (ht : ∀ i b, labels[i]? = some b → title b = titleAt i)
    (hf : ∀ j o, os[j]? = some o → freq o = freqAt j)
    (h1 : ∀ i j k b o c, labels[i]? = some b → os[j]? = some o → cs[k]? = some c →
      first b o c = some (firstAt j i k))
    (h2 : ∀ i j k b o c, labels[i]? = some b → os[j]? = some o → cs[k]? = some c →
      second b o c = some (secondAt j i k))
    (F : File N)
    (hF : List.replicate h [some (.text "...")] ++ labels.flatMap (fun b =>
        ((title b).map some) :: os.map fun o => some (.num (freq o)) :: cs.flatMap fun c =>
          [(first b o c).map Word.num, (second b o c).map Word.num]) =
      F.map fun l => l.map some) :
    IsTable F h labels.length os.length cs.length titleAt freqAt firstAt secondAt := by
  have hget : ∀ (i : ℕ) (l : List (Word N)),
      (List.replicate h [some (.text "...")] ++ labels.flatMap (fun b =>
        ((title b).map some) :: os.map fun o => some (.num (freq o)) :: cs.flatMap fun c =>
          [(first b o c).map Word.num, (second b o c).map Word.num]))[i]? = some (l.map some) →
      F[i]? = some l := by
    intro i l hl
    rw [hF, List.getElem?_map] at hl
    obtain ⟨x, hx, hxl⟩ := Option.map_eq_some_iff.1 hl
    rw [hx, map_some_inj hxl]
  have hblock : ∀ b ∈ labels, (((title b).map some) :: os.map fun o =>
      some (Word.num (freq o)) :: cs.flatMap fun c =>
        [(first b o c).map Word.num, (second b o c).map Word.num]).length = os.length + 1 := by
    intro b _; simp
  refine ⟨?_, ?_, ?_⟩
  · have := congrArg List.length hF
    rw [List.length_map, List.length_append, List.length_replicate,
      length_flatMap_const _ _ _ hblock] at this
    exact this.symm
  · intro i hi
    apply hget
    rw [List.getElem?_append_left (by simpa using hi), List.getElem?_replicate, if_pos hi]
    rfl
  · intro i hi
    have hb : labels[i]? = some labels[i] := List.getElem?_eq_getElem hi
    constructor
    · apply hget
      rw [List.getElem?_append_right (by simp)]
      rw [List.length_replicate, Nat.add_sub_cancel_left,
        ← Nat.add_zero (i * (os.length + 1)), getElem?_flatMap_const _ _ _ hblock i 0 (by omega), hb]
      simp [ht i _ hb]
    · intro j hj
      have ho : os[j]? = some os[j] := List.getElem?_eq_getElem hj
      have hpair : ∀ c ∈ cs, ([(first labels[i] os[j] c).map Word.num,
          (second labels[i] os[j] c).map Word.num]).length = 2 := by simp
      have hcell : ∀ (k : ℕ) (hk : k < cs.length) (t : ℕ), t < 2 →
          (cs.flatMap fun c => [(first labels[i] os[j] c).map Word.num,
            (second labels[i] os[j] c).map Word.num])[k * 2 + t]? =
          [some (Word.num (firstAt j i k)), some (Word.num (secondAt j i k))][t]? := by
        intro k hk t htt
        have hc : cs[k]? = some cs[k] := List.getElem?_eq_getElem hk
        rw [getElem?_flatMap_const _ 2 _ hpair k t htt, hc]
        simp [h1 i j k _ _ _ hb ho hc, h2 i j k _ _ _ hb ho hc]
      have hlen := length_flatMap_const _ 2 cs hpair
      have hline : F[h + i * (os.length + 1) + (1 + j)]?.map (fun l => l.map some) =
          some (some (.num (freqAt j)) :: cs.flatMap fun c =>
            [(first labels[i] os[j] c).map Word.num, (second labels[i] os[j] c).map Word.num]) := by
        rw [← List.getElem?_map, ← hF, List.getElem?_append_right (by simp; omega),
          List.length_replicate]
        have : h + i * (os.length + 1) + (1 + j) - h = i * (os.length + 1) + (1 + j) := by omega
        rw [this, getElem?_flatMap_const _ _ _ hblock i (1 + j) (by omega), hb, Option.bind_some,
          Nat.add_comm 1 j, List.getElem?_cons_succ, List.getElem?_map, ho, Option.map_some,
          hf j _ ho]
      obtain ⟨row, hrow, hrl⟩ := Option.map_eq_some_iff.1 hline
      have hat : ∀ (t : ℕ) (w : Word N), (row.map some)[t]? = some (some w) → row[t]? = some w := by
        intro t w hw
        rw [List.getElem?_map] at hw
        obtain ⟨x, hx, hxw⟩ := Option.map_eq_some_iff.1 hw
        rw [hx, hxw]
      refine ⟨row, hrow, ?_, ?_, ?_⟩
      · have := congrArg List.length hrl
        rw [List.length_map, List.length_cons, hlen] at this
        omega
      · exact hat _ _ (by rw [hrl]; rfl)
      · intro k hk
        constructor
        · apply hat
          rw [hrl]
          have hc := hcell k hk 0 (by omega)
          rw [Nat.add_zero] at hc
          have : 1 + 2 * k = k * 2 + 1 := by omega
          rw [this, List.getElem?_cons_succ, hc]
          rfl
        · apply hat
          rw [hrl]
          have : 2 + 2 * k = (k * 2 + 1) + 1 := by omega
          rw [this, List.getElem?_cons_succ, hcell k hk 1 (by omega)]
          rfl

/-! ## `write_dataset_as_tecplot_files` -/

theorem writeExcitation_ok_iff (e s : ℝ → N) (dir : Dir N) (r : Results) :
    (writeExcitation e s dir r).ok = true ↔ (r.diffraction.isSome = true →
      r.froudeKrylov.isSome = true ∧ Selectable r r.directions r.diffraction) := by
  unfold writeExcitation
  rcases hd : r.diffraction with _ | d <;> rcases hf : r.froudeKrylov with _ | f
  · simp
  · simp
  · simp
  · simp only [excitationLines_ok_iff]
    simp [Selectable]

/-- The writer returns without an exception exactly when each variable comes with its companion and
all the numbers can be selected one by one. -/
theorem tecplot_ok_iff (e s : ℝ → N) (dir : Dir N) (r : Results) :
    (writeTecplot e s dir r).ok = true ↔
      (r.addedMass.isSome = true →
        Selectable r r.radiating r.addedMass ∧ Selectable r r.radiating r.damping) ∧
      (r.diffraction.isSome = true →
        r.froudeKrylov.isSome = true ∧ Selectable r r.directions r.diffraction) := by
  unfold writeTecplot
  rcases ha : r.addedMass with _ | a
  · simp [writeExcitation_ok_iff]
  · have := radiationLines_ok_iff e r
    rw [ha] at this
    by_cases hw : (emit (r.radiationLines e)).2 = true
    · simp only [if_pos hw, writeExcitation_ok_iff, Option.isSome_some, forall_const]
      exact ⟨fun k => ⟨this.1 hw, k⟩, fun k => k.2⟩
    · simp only [if_neg hw]
      constructor
      · intro k; cases k
      · rintro ⟨k, -⟩
        exact absurd (this.2 (k rfl)) hw

theorem writeExcitation_other (e s : ℝ → N) (dir : Dir N) (r : Results) (name : String)
    (h : name ≠ "ExcitationForce.tec") : (writeExcitation e s dir r).dir name = dir name := by
  unfold writeExcitation
  rcases r.diffraction with _ | d <;> rcases r.froudeKrylov with _ | f <;>
    simp [Function.update_of_ne h]

/-- No other file of the directory is touched. -/
theorem tecplot_other_files (e s : ℝ → N) (dir : Dir N) (r : Results) (name : String)
    (h1 : name ≠ "RadiationCoefficients.tec") (h2 : name ≠ "ExcitationForce.tec") :
    (writeTecplot e s dir r).dir name = dir name := by
  unfold writeTecplot
  rcases r.addedMass with _ | a
  · exact writeExcitation_other e s dir r name h2
  · by_cases hw : (emit (r.radiationLines e)).2 = true
    · simp only [if_pos hw]
      rw [writeExcitation_other e s _ r name h2, Function.update_of_ne h1]
    · simp only [if_neg hw]
      rw [Function.update_of_ne h1]

/-- The file of a kind of problem that is not in the dataset is left as it was. -/
theorem tecplot_absent (e s : ℝ → N) (dir : Dir N) (r : Results) :
    (r.addedMass = none → (writeTecplot e s dir r).dir "RadiationCoefficients.tec" =
      dir "RadiationCoefficients.tec") ∧
    (r.diffraction = none → (writeTecplot e s dir r).dir "ExcitationForce.tec" =
      dir "ExcitationForce.tec") := by
  constructor
  · intro h
    unfold writeTecplot
    rw [h]
    exact writeExcitation_other e s dir r _ (by decide)
  · intro h
    have hE : ∀ d' : Dir N, writeExcitation e s d' r = ⟨d', r, true⟩ := by
      intro d'; unfold writeExcitation; rw [h]
    unfold writeTecplot
    rcases r.addedMass with _ | a
    · simp [hE]
    · by_cases hw : (emit (r.radiationLines e)).2 = true
      · simp only [if_pos hw, hE]
        rw [Function.update_of_ne (by decide)]
      · simp only [if_neg hw]
        rw [Function.update_of_ne (by decide)]

theorem writeExcitation_data (e s : ℝ → N) (dir : Dir N) (r : Results) :
    { (writeExcitation e s dir r).data with excitation := r.excitation } = r := by
  unfold writeExcitation
  split <;> rfl

/-- In the dataset of the caller, only the excitation force may change; when the call returns it is
the sum of the Froude-Krylov force and of the diffraction force. -/
theorem tecplot_data (e s : ℝ → N) (dir : Dir N) (r : Results) :
    { (writeTecplot e s dir r).data with excitation := r.excitation } = r ∧
    (∀ d f, r.diffraction = some d → r.froudeKrylov = some f →
      (writeTecplot e s dir r).ok = true →
      (writeTecplot e s dir r).data.excitation = some fun i j k => f i j k + d i j k) ∧
    (r.diffraction = none → (writeTecplot e s dir r).data.excitation = r.excitation) := by
  refine ⟨?_, ?_, ?_⟩
  · unfold writeTecplot
    rcases r.addedMass with _ | a
    · exact writeExcitation_data e s dir r
    · by_cases hw : (emit (r.radiationLines e)).2 = true
      · simp only [if_pos hw]; exact writeExcitation_data e s _ r
      · simp only [if_neg hw]
  · intro d f hd hf
    have hE : ∀ d' : Dir N, (writeExcitation e s d' r).data.excitation =
        some fun i j k => f i j k + d i j k := by
      intro d'; unfold writeExcitation; rw [hd, hf]
    unfold writeTecplot
    rcases r.addedMass with _ | a
    · intro _; exact hE _
    · by_cases hw : (emit (r.radiationLines e)).2 = true
      · simp only [if_pos hw]; intro _; exact hE _
      · simp only [if_neg hw]; intro k; cases k
  · intro h
    have hE : ∀ d' : Dir N, writeExcitation e s d' r = ⟨d', r, true⟩ := by
      intro d'; unfold writeExcitation; rw [h]
    unfold writeTecplot
    rcases r.addedMass with _ | a
    · simp [hE]
    · by_cases hw : (emit (r.radiationLines e)).2 = true
      · simp only [if_pos hw, hE]
      · simp only [if_neg hw]

/-- The file of the radiation coefficients: a block for each radiating dof with its name, a row for
each frequency, and in the row the added mass and the damping on each influenced dof. -/
theorem radiation_file (e s : ℝ → N) (dir : Dir N) (r : Results) (A B : ℕ → ℕ → ℕ → ℝ)
    (hA : r.addedMass = some A) (hB : r.damping = some B) (h1 : r.byOmega = true)
    (h2 : r.scalar = true) (ho : r.omega.Nodup) (hr : r.radiating.Nodup)
    (hi : r.influenced.Nodup) :
    ∃ F : File N, (writeTecplot e s dir r).dir "RadiationCoefficients.tec" = some F ∧
      IsTable F (r.radiating.length + 1) r.radiating.length r.omega.length r.influenced.length
        (fun i => [.text (r.radiating[i]?.getD "")]) (fun j => e (r.omega[j]?.getD 0))
        (fun j i k => e (A j i k)) (fun j i k => e (B j i k)) := by
  have hok : (emit (r.radiationLines e)).2 = true := by
    rw [radiationLines_ok_iff]
    exact ⟨Or.inr (Or.inr (Or.inr ⟨by rw [hA]; rfl, h1, h2, ho, hr, hi⟩)),
      Or.inr (Or.inr (Or.inr ⟨by rw [hB]; rfl, h1, h2, ho, hr, hi⟩))⟩
  refine ⟨(emit (r.radiationLines e)).1, ?_, ?_⟩
  · unfold writeTecplot
    rw [hA]
    simp only [if_pos hok]
    rw [writeExcitation_other e s _ r _ (by decide), Function.update_self]
  · refine table_of_lines (r.radiating.length + 1) r.radiating r.omega r.influenced
      (fun b => [.text b]) e
      (fun b o c => (r.sel r.radiating r.addedMass o b c).map e)
      (fun b o c => (r.sel r.radiating r.damping o b c).map e) _ _ _ _ ?_ ?_ ?_ ?_ _ ?_
    · intro i b hb; simp [hb]
    · intro j o hj; simp [hj]
    · intro i j k b o c hb ho' hc
      simp only [hA]
      rw [sel_value r r.radiating A h1 h2 ho hr hi ho' hb hc]
      rfl
    · intro i j k b o c hb ho' hc
      simp only [hB]
      rw [sel_value r r.radiating B h1 h2 ho hr hi ho' hb hc]
      rfl
    · rw [← emit_eq _ hok]
      simp only [Results.radiationLines, Results.radiationRow, Option.map_map]
      rfl

/-- The file of the excitation forces: a block for each direction, a row for each frequency, and in
the row the modulus and the argument of the force on each influenced dof. -/
theorem excitation_file (e s : ℝ → N) (dir : Dir N) (r : Results) (D F0 : ℕ → ℕ → ℕ → ℂ)
    (hD : r.diffraction = some D) (hF : r.froudeKrylov = some F0)
    (hrad : r.addedMass.isSome = true →
      Selectable r r.radiating r.addedMass ∧ Selectable r r.radiating r.damping)
    (h1 : r.byOmega = true) (h2 : r.scalar = true) (ho : r.omega.Nodup) (hr : r.directions.Nodup)
    (hi : r.influenced.Nodup) :
    ∃ F : File N, (writeTecplot e s dir r).dir "ExcitationForce.tec" = some F ∧
      IsTable F (r.influenced.length + 1) r.directions.length r.omega.length r.influenced.length
        (fun i => [.text "angle=", .num (s (r.directions[i]?.getD 0))])
        (fun j => e (r.omega[j]?.getD 0))
        (fun j i k => e ‖F0 j i k + D j i k‖) (fun j i k => e (F0 j i k + D j i k).arg) := by
  set r' : Results := { r with excitation := some fun i j k => F0 i j k + D i j k } with hr'
  have hok : (emit (r'.excitationLines e s)).2 = true := by
    rw [excitationLines_ok_iff]
    exact Or.inr (Or.inr (Or.inr ⟨rfl, h1, h2, ho, hr, hi⟩))
  have hE : ∀ d' : Dir N, (writeExcitation e s d' r).dir "ExcitationForce.tec" =
      some (emit (r'.excitationLines e s)).1 := by
    intro d'; unfold writeExcitation; rw [hD, hF]; simp only [Function.update_self]; rfl
  refine ⟨(emit (r'.excitationLines e s)).1, ?_, ?_⟩
  · unfold writeTecplot
    rcases ha : r.addedMass with _ | a
    · exact hE _
    · have hw : (emit (r.radiationLines e)).2 = true :=
        (radiationLines_ok_iff e r).2 (hrad (by rw [ha]; rfl))
      simp only [if_pos hw]
      exact hE _
  · refine table_of_lines (r.influenced.length + 1) r.directions r.omega r.influenced
      (fun b => [.text "angle=", .num (s b)]) e
      (fun b o c => (r'.sel r'.directions r'.excitation o b c).map fun z => e ‖z‖)
      (fun b o c => (r'.sel r'.directions r'.excitation o b c).map fun z => e z.arg)
      _ _ _ _ ?_ ?_ ?_ ?_ _ ?_
    · intro i b hb; simp [hb]
    · intro j o hj; simp [hj]
    · intro i j k b o c hb ho' hc
      rw [sel_value r' r'.directions _ h1 h2 ho hr hi ho' hb hc]
      rfl
    · intro i j k b o c hb ho' hc
      rw [sel_value r' r'.directions _ h1 h2 ho hr hi ho' hb hc]
      rfl
    · rw [← emit_eq _ hok]
      simp only [Results.excitationLines, Results.excitationRow, Option.map_map]
      rfl

/-- The two numbers written for a force give the force back. -/
theorem excitation_value (f d : ℂ) :
    (‖f + d‖ : ℂ) * Complex.exp ((f + d).arg * Complex.I) = f + d :=
  Complex.norm_mul_exp_arg_mul_I _


theorem emit_append (a : List (List (Word N))) (ls : List (List (Option (Word N)))) :
    emit (a.map (fun l => l.map some) ++ ls) = (a ++ (emit ls).1, (emit ls).2) := by
  induction a with
  | nil => rfl
  | cons l a ih =>
    have h : (l.map (some : Word N → Option (Word N))).all Option.isSome = true := by simp
    simp only [List.map_cons, List.cons_append, emit, if_pos h, ih]
    simp [List.filterMap_map]

/-- A dataset whose dimension is the period or the wavelength is refused, after the lines of dots,
the name of the first dof and the first frequency have been written. -/
theorem tecplot_period_refused (e s : ℝ → N) (dir : Dir N) (r : Results) (A : ℕ → ℕ → ℕ → ℝ)
    (hA : r.addedMass = some A) (h1 : r.byOmega = false) (o : ℝ) (os : List ℝ) (d : String)
    (ds : List String) (c : String) (cs : List String) (ho : r.omega = o :: os)
    (hr : r.radiating = d :: ds) (hi : r.influenced = c :: cs) :
    (writeTecplot e s dir r).ok = false ∧
    (writeTecplot e s dir r).dir "RadiationCoefficients.tec" =
      some (List.replicate (r.radiating.length + 1) [.text "..."] ++
        [[.text d], [.num (e o)]]) := by
  have hsel : ∀ v : Option (ℕ → ℕ → ℕ → ℝ), r.sel r.radiating v o d c = none := by
    intro v; unfold Results.sel; rw [h1]; rfl
  have hem : ∃ rest, r.radiationLines e =
      (List.replicate (r.radiating.length + 1) [Word.text "..."] ++ [[Word.text d]]).map
        (fun l : List (Word N) => l.map some) ++ (r.radiationRow e d o :: rest) := by
    refine ⟨(os.map fun o => r.radiationRow e d o) ++ ds.flatMap fun d =>
      [some (.text d)] :: r.omega.map fun o => r.radiationRow e d o, ?_⟩
    unfold Results.radiationLines
    have hfm : ∀ g : String → List (List (Option (Word N))),
        r.radiating.flatMap g = g d ++ ds.flatMap g := by intro g; rw [hr]; rfl
    have hom : ∀ g : ℝ → List (Option (Word N)), r.omega.map g = g o :: os.map g := by
      intro g; rw [ho]; rfl
    rw [hfm, hom]
    simp only [List.map_append, List.map_replicate, List.append_assoc, List.map_cons, List.map_nil,
      List.cons_append, List.nil_append]
  have hrow : ∃ t, r.radiationRow e d o = some (.num (e o)) :: none :: t := by
    refine ⟨none :: cs.flatMap fun c =>
      [(r.sel r.radiating r.addedMass o d c).map fun x : ℝ => .num (e x),
       (r.sel r.radiating r.damping o d c).map fun x : ℝ => .num (e x)], ?_⟩
    unfold Results.radiationRow
    have hfm : ∀ g : String → List (Option (Word N)),
        r.influenced.flatMap g = g c ++ cs.flatMap g := by intro g; rw [hi]; rfl
    rw [hfm, hsel, hsel]
    rfl
  obtain ⟨rest, hem⟩ := hem
  obtain ⟨t, hrow⟩ := hrow
  have hw : emit (r.radiationLines e) =
      (List.replicate (r.radiating.length + 1) [Word.text "..."] ++ [[.text d], [.num (e o)]],
        false) := by
    rw [hem, emit_append, hrow]
    simp [emit]
  unfold writeTecplot
  rw [hA]
  simp only [hw]
  simp

/-- A dataset with one frequency, one direction and one dof. -/
noncomputable def one (diffraction byOmega : Bool) : Results where
  omega := [1]
  radiating := ["Heave"]
  influenced := ["Heave"]
  directions := [0]
  byOmega := byOmega
  scalar := true
  addedMass := some fun _ _ _ => 2
  damping := some fun _ _ _ => 3
  froudeKrylov := if diffraction then some fun _ _ _ => 1 else none
  diffraction := if diffraction then some fun _ _ _ => Complex.I else none
  excitation := none

theorem one_ok (e s : ℝ → N) (dir : Dir N) (b : Bool) : (writeTecplot e s dir (one b true)).ok = true := by
  rw [tecplot_ok_iff]
  refine ⟨fun _ => ⟨?_, ?_⟩, ?_⟩
  · exact Or.inr (Or.inr (Or.inr ⟨rfl, rfl, rfl, by simp [one], by simp [one], by simp [one]⟩))
  · exact Or.inr (Or.inr (Or.inr ⟨rfl, rfl, rfl, by simp [one], by simp [one], by simp [one]⟩))
  · cases b
    · intro h; cases h
    · intro _
      exact ⟨rfl, Or.inr (Or.inr (Or.inr ⟨rfl, rfl, rfl, by simp [one], by simp [one], by simp [one]⟩))⟩

/-- The hypotheses of `radiation_file` and `excitation_file` hold for this dataset. -/
example (e s : ℝ → N) (dir : Dir N) :
    (∃ F, (writeTecplot e s dir (one true true)).dir "RadiationCoefficients.tec" = some F) ∧
    (∃ F, (writeTecplot e s dir (one true true)).dir "ExcitationForce.tec" = some F) := by
  have hs : ∀ v : ℕ → ℕ → ℕ → ℝ, Selectable (one true true) (one true true).radiating (some v) :=
    fun v => Or.inr (Or.inr (Or.inr
      ⟨rfl, rfl, rfl, by simp [one], by simp [one], by simp [one]⟩))
  constructor
  · obtain ⟨F, hF, -⟩ := radiation_file e s dir (one true true) _ _ rfl rfl rfl rfl
      (by simp [one]) (by simp [one]) (by simp [one])
    exact ⟨F, hF⟩
  · obtain ⟨F, hF, -⟩ := excitation_file e s dir (one true true) _ _ rfl rfl
      (fun _ => ⟨hs _, hs _⟩) rfl rfl (by simp [one]) (by simp [one]) (by simp [one])
    exact ⟨F, hF⟩

/-- The hypotheses of `tecplot_period_refused` hold for the same results given by their period. -/
example (e s : ℝ → N) (dir : Dir N) : (writeTecplot e s dir (one false false)).ok = false :=
  (tecplot_period_refused e s dir (one false false) _ rfl rfl 1 [] "Heave" [] "Heave" [] rfl rfl
    rfl).1

/-- In a new directory there are the two files and nothing else: the first when the dataset has
added masses, the second when it has diffraction forces. -/
theorem runcal_fresh (e s : ℝ → N) (r : Results) (hok : (runCalEnd e s none r).1.ok = true) :
    (runCalEnd e s none r).2 = false ∧
    (((runCalEnd e s none r).1.dir "RadiationCoefficients.tec").isSome = true ↔
      r.addedMass.isSome = true) ∧
    (((runCalEnd e s none r).1.dir "ExcitationForce.tec").isSome = true ↔
      r.diffraction.isSome = true) ∧
    ∀ name, name ≠ "RadiationCoefficients.tec" → name ≠ "ExcitationForce.tec" →
      (runCalEnd e s none r).1.dir name = none := by
  refine ⟨rfl, ?_, ?_, fun name h1 h2 => tecplot_other_files e s _ r name h1 h2⟩
  · constructor
    · intro h
      rcases ha : r.addedMass with _ | a
      · have := (tecplot_absent e s (fun _ => none) r).1 ha
        simp only [runCalEnd] at h
        rw [this] at h; cases h
      · rfl
    · intro h
      obtain ⟨a, ha⟩ := Option.isSome_iff_exists.1 h
      simp only [runCalEnd] at hok ⊢
      unfold writeTecplot at hok ⊢
      rw [ha] at hok ⊢
      by_cases hw : (emit (r.radiationLines e)).2 = true
      · simp only [if_pos hw]
        rw [writeExcitation_other e s _ r _ (by decide), Function.update_self]
        rfl
      · simp only [if_neg hw] at hok; cases hok
  · constructor
    · intro h
      rcases ha : r.diffraction with _ | a
      · have := (tecplot_absent e s (fun _ => none) r).2 ha
        simp only [runCalEnd] at h
        rw [this] at h; cases h
      · rfl
    · intro h
      simp only [runCalEnd] at hok ⊢
      have h2 := ((tecplot_ok_iff e s _ r).1 hok).2 h
      obtain ⟨d, hd⟩ := Option.isSome_iff_exists.1 h
      obtain ⟨f, hf⟩ := Option.isSome_iff_exists.1 h2.1
      have hE : ∀ d' : Dir N, ((writeExcitation e s d' r).dir "ExcitationForce.tec").isSome = true := by
        intro d'; unfold writeExcitation; rw [hd, hf]; simp
      unfold writeTecplot at hok ⊢
      rcases ha : r.addedMass with _ | a
      · exact hE _
      · rw [ha] at hok
        by_cases hw : (emit (r.radiationLines e)).2 = true
        · simp only [if_pos hw]; exact hE _
        · simp only [if_neg hw] at hok; cases hok

/-- In a directory that exists the files of an earlier run stay: the forces of another computation
lie beside the coefficients of the last one.  There is a warning. -/
theorem runcal_stale_violated (e s : ℝ → N) :
    ∃ first second : Results, second.diffraction = none ∧
      (runCalEnd e s none first).1.ok = true ∧
      (runCalEnd e s (some (runCalEnd e s none first).1.dir) second).1.ok = true ∧
      (runCalEnd e s (some (runCalEnd e s none first).1.dir) second).2 = true ∧
      ((runCalEnd e s (some (runCalEnd e s none first).1.dir) second).1.dir
        "ExcitationForce.tec").isSome = true ∧
      (runCalEnd e s none second).1.dir "ExcitationForce.tec" = none := by
  refine ⟨one true true, one false true, rfl, one_ok e s _ true, one_ok e s _ false, rfl, ?_, ?_⟩
  · have := (tecplot_absent e s (runCalEnd e s none (one true true)).1.dir (one false true)).2 rfl
    simp only [runCalEnd] at this ⊢
    rw [this]
    exact (runcal_fresh e s (one true true) (one_ok e s _ true)).2.2.1.2 rfl
  · exact (tecplot_absent e s (fun _ => none) (one false true)).2 rfl

/-! ## `export_hydrostatics` -/

/-- The name of the hydrostatics file of the body number `i`. -/
theorem hname_inj {i j : ℕ}
    (h : "Hydrostatics_" ++ toString i ++ ".dat" = "Hydrostatics_" ++ toString j ++ ".dat") :
    i = j := by
  have h2 := congrArg String.toList h
  simp only [String.toList_append, List.append_assoc, List.append_cancel_left_eq,
    List.append_cancel_right_eq] at h2
  exact Nat.repr_injective (String.toList_inj.1 h2)

theorem kname_inj {i j : ℕ} (h : "KH_" ++ toString i ++ ".dat" = "KH_" ++ toString j ++ ".dat") :
    i = j := by
  have h2 := congrArg String.toList h
  simp only [String.toList_append, List.append_assoc, List.append_cancel_left_eq,
    List.append_cancel_right_eq] at h2
  exact Nat.repr_injective (String.toList_inj.1 h2)

theorem hname_ne_kname (i j : ℕ) :
    "Hydrostatics_" ++ toString i ++ ".dat" ≠ "KH_" ++ toString j ++ ".dat" := by
  intro h
  have h2 := congrArg (fun t => t.toList.head?) h
  simp [String.toList_append] at h2

/-- The content of `Hydrostatics.dat` for a body with a center of mass. -/
def hydroSpec (f4 e6 : ℝ → N) (xf xg : ℕ → ℝ) (v : ℝ) : File N :=
  [[.text "XF =", .num (f4 (xf 0)), .text "- XG =", .num (f4 (xg 0))],
   [.text "XF =", .num (f4 (xf 1)), .text "- XG =", .num (f4 (xg 1))],
   [.text "XF =", .num (f4 (xf 2)), .text "- XG =", .num (f4 (xg 2))],
   [.text "Displacement =", .num (e6 v)]]

/-- The body has what the writer needs. -/
def Complete (b : HBody) : Prop := b.mass.isSome = true ∧ b.stiffness.isSome = true

theorem writeBody_ok_iff (f4 e6 : ℝ → N) (h k : String) (dir : Dir N) (b : HBody) :
    (writeBody f4 e6 h k dir b).2 = true ↔ Complete b := by
  unfold writeBody HBody.file Complete
  rcases b.mass with _ | m <;> rcases b.stiffness with _ | t <;> simp

theorem writeBody_other (f4 e6 : ℝ → N) (h k : String) (dir : Dir N) (b : HBody) (name : String)
    (h1 : name ≠ h) (h2 : name ≠ k) : (writeBody f4 e6 h k dir b).1 name = dir name := by
  unfold writeBody HBody.file
  rcases b.mass with _ | m <;> rcases b.stiffness with _ | t <;>
    simp [Function.update_of_ne h1, Function.update_of_ne h2]

theorem writeBody_files (f4 e6 : ℝ → N) (h k : String) (hk : h ≠ k) (dir : Dir N) (b : HBody)
    (m : ℕ → ℝ) (t : List (List ℝ)) (hm : b.mass = some m) (ht : b.stiffness = some t) :
    (writeBody f4 e6 h k dir b).1 h = some (hydroSpec f4 e6 b.buoyancy m b.volume) ∧
    (writeBody f4 e6 h k dir b).1 k = some (t.map fun row => row.map fun x => .num (e6 x)) := by
  have hr : List.range 3 = [0, 1, 2] := rfl
  unfold writeBody HBody.file HBody.lines
  rw [hm, ht]
  simp [Function.update_of_ne hk, hydroSpec, hr]

theorem writeBodies_ok_iff (f4 e6 : ℝ → N) (i : ℕ) (dir : Dir N) (bs : List HBody) :
    (writeBodies f4 e6 i dir bs).2 = true ↔ ∀ b ∈ bs, Complete b := by
  induction bs generalizing i dir with
  | nil => simp [writeBodies]
  | cons b bs ih =>
    unfold writeBodies
    by_cases h : (writeBody f4 e6 ("Hydrostatics_" ++ toString i ++ ".dat")
      ("KH_" ++ toString i ++ ".dat") dir b).2 = true
    · simp only [if_pos h, ih, List.mem_cons, forall_eq_or_imp]
      exact ⟨fun k => ⟨(writeBody_ok_iff _ _ _ _ _ _).1 h, k⟩, fun k => k.2⟩
    · simp only [if_neg h, List.mem_cons, forall_eq_or_imp]
      rw [writeBody_ok_iff] at h
      constructor
      · intro k; exact absurd ((writeBody_ok_iff _ _ _ _ _ _).1 k) h
      · intro k; exact absurd k.1 h

theorem writeBodies_other (f4 e6 : ℝ → N) (i : ℕ) (dir : Dir N) (bs : List HBody) (name : String)
    (h1 : ∀ j, i ≤ j → j < i + bs.length → name ≠ "Hydrostatics_" ++ toString j ++ ".dat")
    (h2 : ∀ j, i ≤ j → j < i + bs.length → name ≠ "KH_" ++ toString j ++ ".dat") :
    (writeBodies f4 e6 i dir bs).1 name = dir name := by
  induction bs generalizing i dir with
  | nil => simp [writeBodies]
  | cons b bs ih =>
    have hl : (b :: bs).length = bs.length + 1 := rfl
    have hb := writeBody_other f4 e6 ("Hydrostatics_" ++ toString i ++ ".dat")
      ("KH_" ++ toString i ++ ".dat") dir b name (h1 i le_rfl (by omega)) (h2 i le_rfl (by omega))
    unfold writeBodies
    by_cases h : (writeBody f4 e6 ("Hydrostatics_" ++ toString i ++ ".dat")
      ("KH_" ++ toString i ++ ".dat") dir b).2 = true
    · simp only [if_pos h]
      rw [ih (i + 1) _ (fun j a c => h1 j (by omega) (by omega))
        (fun j a c => h2 j (by omega) (by omega)), hb]
    · simp only [if_neg h]; exact hb

theorem writeBodies_files (f4 e6 : ℝ → N) (i : ℕ) (dir : Dir N) (bs : List HBody)
    (hc : ∀ b ∈ bs, Complete b) (k : ℕ) (b : HBody) (hk : bs[k]? = some b) (m : ℕ → ℝ)
    (t : List (List ℝ)) (hm : b.mass = some m) (ht : b.stiffness = some t) :
    (writeBodies f4 e6 i dir bs).1 ("Hydrostatics_" ++ toString (i + k) ++ ".dat") =
      some (hydroSpec f4 e6 b.buoyancy m b.volume) ∧
    (writeBodies f4 e6 i dir bs).1 ("KH_" ++ toString (i + k) ++ ".dat") =
      some (t.map fun row => row.map fun x => .num (e6 x)) := by
  induction bs generalizing i dir k with
  | nil => simp at hk
  | cons b0 bs ih =>
    have h : (writeBody f4 e6 ("Hydrostatics_" ++ toString i ++ ".dat")
      ("KH_" ++ toString i ++ ".dat") dir b0).2 = true :=
      (writeBody_ok_iff _ _ _ _ _ _).2 (hc b0 (by simp))
    unfold writeBodies
    simp only [if_pos h]
    rcases k with _ | k
    · simp only [List.getElem?_cons_zero, Option.some.injEq] at hk
      subst hk
      rw [Nat.add_zero]
      rw [writeBodies_other _ _ _ _ _ _
          (fun j hj _ he => by have := hname_inj he; omega)
          (fun j hj _ he => hname_ne_kname _ _ he),
        writeBodies_other _ _ _ _ _ _
          (fun j hj _ he => hname_ne_kname _ _ he.symm)
          (fun j hj _ he => by have := kname_inj he; omega)]
      exact writeBody_files f4 e6 _ _ (hname_ne_kname i i) dir b0 m t hm ht
    · have : i + (k + 1) = i + 1 + k := by omega
      rw [this]
      exact ih (i + 1) _ (fun b hb => hc b (by simp [hb])) k (by simpa using hk)

/-- The export returns exactly when all the bodies have a center of mass and a stiffness matrix, and
warns exactly when the directory exists. -/
theorem export_ok_iff (f4 e6 : ℝ → N) (old : Option (Dir N)) (bodies : List HBody) :
    ((exportHydrostatics f4 e6 old bodies).1.2 = true ↔ ∀ b ∈ bodies, Complete b) ∧
    ((exportHydrostatics f4 e6 old bodies).2 = true ↔ old.isSome = true) := by
  refine ⟨?_, Iff.rfl⟩
  rcases bodies with _ | ⟨b, _ | ⟨b', bs⟩⟩
  · simp [exportHydrostatics, writeBodies]
  · simp [exportHydrostatics, writeBody_ok_iff]
  · simp only [exportHydrostatics, writeBodies_ok_iff]

/-- One body is written in `Hydrostatics.dat` and `KH.dat`; the other files are kept. -/
theorem export_one (f4 e6 : ℝ → N) (old : Option (Dir N)) (b : HBody) (m : ℕ → ℝ)
    (t : List (List ℝ)) (hm : b.mass = some m) (ht : b.stiffness = some t) :
    let d := (exportHydrostatics f4 e6 old [b]).1.1
    d "Hydrostatics.dat" = some (hydroSpec f4 e6 b.buoyancy m b.volume) ∧
    d "KH.dat" = some (t.map fun row => row.map fun x => .num (e6 x)) ∧
    ∀ name, name ≠ "Hydrostatics.dat" → name ≠ "KH.dat" →
      d name = (old.getD fun _ => none) name := by
  have h := writeBody_files f4 e6 "Hydrostatics.dat" "KH.dat" (by decide)
    (old.getD fun _ => none) b m t hm ht
  exact ⟨h.1, h.2, fun name h1 h2 => writeBody_other f4 e6 _ _ _ b name h1 h2⟩

/-- Several bodies are written in files with their number, from 0; the other files are kept. -/
theorem export_many (f4 e6 : ℝ → N) (old : Option (Dir N)) (bodies : List HBody)
    (hn : bodies.length ≠ 1) (hc : ∀ b ∈ bodies, Complete b) :
    let d := (exportHydrostatics f4 e6 old bodies).1.1
    (∀ (i : ℕ) (b : HBody) (m : ℕ → ℝ) (t : List (List ℝ)), bodies[i]? = some b →
      b.mass = some m → b.stiffness = some t →
      d ("Hydrostatics_" ++ toString i ++ ".dat") =
        some (hydroSpec f4 e6 b.buoyancy m b.volume) ∧
      d ("KH_" ++ toString i ++ ".dat") = some (t.map fun row => row.map fun x => .num (e6 x))) ∧
    ∀ name, (∀ i < bodies.length, name ≠ "Hydrostatics_" ++ toString i ++ ".dat" ∧
        name ≠ "KH_" ++ toString i ++ ".dat") → d name = (old.getD fun _ => none) name := by
  have hd : (exportHydrostatics f4 e6 old bodies).1.1 =
      (writeBodies f4 e6 0 (old.getD fun _ => none) bodies).1 := by
    rcases bodies with _ | ⟨b, _ | ⟨b', bs⟩⟩
    · rfl
    · simp at hn
    · rfl
  simp only [hd]
  refine ⟨?_, ?_⟩
  · intro i b m t hi hm ht
    have := writeBodies_files f4 e6 0 (old.getD fun _ => none) bodies hc i b hi m t hm ht
    rwa [Nat.zero_add] at this
  · intro name h
    exact writeBodies_other f4 e6 0 _ bodies name (fun j _ hj => (h j (by omega)).1)
      (fun j _ hj => (h j (by omega)).2)

/-- A body without a center of mass leaves an empty file in the place of the old one; without a
stiffness matrix the old matrix stays beside the new centers. -/
theorem export_incomplete (f4 e6 : ℝ → N) (old : Option (Dir N)) (b : HBody) :
    (b.mass = none → (exportHydrostatics f4 e6 old [b]).1.1 "Hydrostatics.dat" = some [] ∧
      (exportHydrostatics f4 e6 old [b]).1.1 "KH.dat" = (old.getD fun _ => none) "KH.dat") ∧
    (∀ m, b.mass = some m → b.stiffness = none →
      (exportHydrostatics f4 e6 old [b]).1.1 "Hydrostatics.dat" =
        some (hydroSpec f4 e6 b.buoyancy m b.volume) ∧
      (exportHydrostatics f4 e6 old [b]).1.1 "KH.dat" = (old.getD fun _ => none) "KH.dat") := by
  have hr : List.range 3 = [0, 1, 2] := rfl
  constructor
  · intro h
    simp [exportHydrostatics, writeBody, HBody.file, h]
  · intro m hm hs
    simp [exportHydrostatics, writeBody, HBody.file, HBody.lines, hm, hs, hydroSpec, hr]

/-- A body with all the attributes. -/
noncomputable def ball : HBody := ⟨fun _ => 0, some fun _ => 0, 1, some [[1]]⟩

theorem ball_complete : Complete ball := ⟨rfl, rfl⟩

/-- The hypotheses of `export_many` hold for two bodies. -/
example (f4 e6 : ℝ → N) :
    ((exportHydrostatics f4 e6 none [ball, ball]).1.1 "KH_1.dat").isSome = true := by
  have := (export_many f4 e6 none [ball, ball] (by simp) (by simp [ball_complete])).1 1 ball _ _ rfl
    rfl rfl
  have h := this.2
  have hn : "KH_" ++ toString 1 ++ ".dat" = "KH_1.dat" := by decide
  rw [hn] at h
  rw [h]; rfl

/-- After the export of two bodies and then of one body into the same directory, the files of the
two bodies are still there. -/
theorem export_stale_violated (f4 e6 : ℝ → N) :
    ∃ (two one : List HBody), one.length = 1 ∧
      let d := (exportHydrostatics f4 e6 none two).1.1
      (exportHydrostatics f4 e6 (some d) one).1.2 = true ∧
      ((exportHydrostatics f4 e6 (some d) one).1.1 "KH_1.dat").isSome = true ∧
      (exportHydrostatics f4 e6 none one).1.1 "KH_1.dat" = none := by
  refine ⟨[ball, ball], [ball], rfl, ?_, ?_, ?_⟩
  · exact (export_ok_iff f4 e6 _ [ball]).1.2 (by simp [ball_complete])
  · rw [(export_one f4 e6 _ ball _ _ rfl rfl).2.2 "KH_1.dat" (by decide) (by decide)]
    have := (export_many f4 e6 none [ball, ball] (by simp) (by simp [ball_complete])).1 1 ball _ _
      rfl rfl rfl
    have h := this.2
    have hn : "KH_" ++ toString 1 ++ ".dat" = "KH_1.dat" := by decide
    rw [hn] at h
    simp only [Option.getD_some]
    rw [h]; rfl
  · rw [(export_one f4 e6 none ball _ _ rfl rfl).2.2 "KH_1.dat" (by decide) (by decide)]
    rfl

end Verif.Files.Legacy
