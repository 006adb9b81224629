import Verif.Bodies.LabelModel
import Verif.Bodies.JoinValues

/-!
# Labels of the matrices of bodies (C76)
-/

namespace Verif.Bodies

/-- A matrix with as many rows and columns as labels, that are all different. -/
def Labelled.Fits (M : Labelled) : Prop :=
  M.labels.Nodup ∧ M.values.length = M.labels.length ∧ ∀ r ∈ M.values, r.length = M.labels.length

theorem idxOf?_get {l : List Name} (h : l.Nodup) {i : ℕ} {a : Name} (hi : l[i]? = some a) : l.idxOf? a = some i := by
  obtain ⟨hl, rfl⟩ := List.getElem?_eq_some_iff.mp hi
  rw [List.idxOf?_eq_some_iff]
  refine ⟨hl, by simp, fun j hj => ?_⟩
  intro he
  exact absurd ((List.Nodup.getElem_inj_iff h).mp he) (by omega)

theorem idxOf?_mem {l : List Name} {a : Name} (h : a ∈ l) : ∃ i, l.idxOf? a = some i ∧ l[i]? = some a := by
  cases hi : l.idxOf? a with
  | none => exact absurd h (by simpa using hi)
  | some i =>
    rw [List.idxOf?_eq_some_iff] at hi
    obtain ⟨h1, h2, -⟩ := hi
    refine ⟨i, rfl, ?_⟩
    rw [List.getElem?_eq_getElem h1]
    simpa using h2

/-- The number between two dofs is on the row and column of their positions. -/
theorem at_get (M : Labelled) (h : M.labels.Nodup) {i j : ℕ} {a b : Name} (hi : M.labels[i]? = some a)
    (hj : M.labels[j]? = some b) : M.at a b = M.values[i]?.bind fun r => r[j]? := by
  rw [Labelled.at, idxOf?_get h hi, idxOf?_get h hj]
  rfl

theorem at_some (M : Labelled) (h : M.Fits) {a b : Name} (ha : a ∈ M.labels) (hb : b ∈ M.labels) :
    ∃ x, M.at a b = some x := by
  obtain ⟨i, -, hi⟩ := idxOf?_mem ha
  obtain ⟨j, -, hj⟩ := idxOf?_mem hb
  have hil : i < M.values.length := by rw [h.2.1]; exact (List.getElem?_eq_some_iff.mp hi).1
  have hjl : j < (M.values[i]).length := by
    rw [h.2.2 _ (List.getElem_mem hil)]; exact (List.getElem?_eq_some_iff.mp hj).1
  rw [at_get M h.1 hi hj, List.getElem?_eq_getElem hil, Option.bind_some, List.getElem?_eq_getElem hjl]
  exact ⟨_, rfl⟩

theorem mapM_spec {A B : Type} {f : A → Option B} {l : List A} {r : List B} (h : l.mapM f = some r) :
    r.length = l.length ∧ ∀ (i : ℕ) a, l[i]? = some a → r[i]? = f a := by
  induction l generalizing r with
  | nil =>
    cases h
    exact ⟨rfl, by simp⟩
  | cons x l ih =>
    rw [List.mapM_cons] at h
    cases hx : f x with
    | none => rw [hx] at h; cases h
    | some y =>
      cases hl : l.mapM f with
      | none => rw [hx, hl] at h; cases h
      | some ys =>
        rw [hx, hl] at h
        cases h
        obtain ⟨h1, h2⟩ := ih hl
        refine ⟨by simp [h1], fun i a hi => ?_⟩
        cases i with
        | zero =>
          simp only [List.getElem?_cons_zero, Option.some.injEq] at hi ⊢
          rw [← hi, hx]
        | succ i =>
          rw [List.getElem?_cons_succ] at hi ⊢
          exact h2 i a hi

theorem mapM_none {A B : Type} {f : A → Option B} {l : List A} : l.mapM f = none ↔ ∃ a ∈ l, f a = none := by
  induction l with
  | nil => simp
  | cons x l ih =>
    rw [List.mapM_cons]
    cases hx : f x with
    | none => simp [hx]
    | some y =>
      cases hl : l.mapM f with
      | none =>
        obtain ⟨a, ha, hn⟩ := ih.mp hl
        simp only [Option.bind_eq_bind, Option.bind_some, Option.bind_none, true_iff]
        exact ⟨a, List.mem_cons_of_mem _ ha, hn⟩
      | some ys =>
        simp only [Option.bind_eq_bind, Option.bind_some, Option.pure_def, reduceCtorEq, List.mem_cons, false_iff]
        rintro ⟨a, rfl | ha, hn⟩
        · rw [hx] at hn; cases hn
        · rw [ih.mpr ⟨a, ha, hn⟩] at hl; cases hl

/-- C76 for `keep_only_dofs`: the dofs which remain are the requested ones, in their order, and the numbers between them
in the matrix are the same. There is an exception exactly when one of the requested names is not the one of a dof of
the matrix. -/
theorem keep_only_dofs (b : Tagged) (M : Labelled) (hM : b.matrix = some M) (h : M.Fits) (names : List Name)
    (hn : names.Nodup) :
    (b.keepOnly names = none ↔ ∃ a ∈ names, a ∉ M.labels) ∧
    ∀ c, b.keepOnly names = some c → c.name = b.name ∧ c.dofs.Sublist b.dofs ∧ (∀ d, d ∈ c.dofs ↔ d ∈ b.dofs ∧ d ∈ names) ∧
      ∃ S, c.matrix = some S ∧ S.Fits ∧ S.labels = names ∧ ∀ d ∈ names, ∀ e ∈ names, S.at d e = M.at d e := by
  have hsel : M.sel names = none ↔ ∃ a ∈ names, a ∉ M.labels := by
    have h1 : M.sel names = none ↔ (names.mapM fun a => names.mapM fun b => M.at a b) = none := by
      rw [Labelled.sel]
      split <;> simp_all
    rw [h1, mapM_none]
    constructor
    · rintro ⟨a, ha, hr⟩
      obtain ⟨e, he, hr⟩ := mapM_none.mp hr
      by_contra hcon
      push Not at hcon
      obtain ⟨x, hx⟩ := at_some M h (hcon a ha) (hcon e he)
      rw [hx] at hr
      cases hr
    · rintro ⟨a, ha, hr⟩
      refine ⟨a, ha, mapM_none.mpr ⟨a, ha, ?_⟩⟩
      rw [Labelled.at, List.idxOf?_eq_none_iff.mpr hr]
      rfl
  have hk : b.keepOnly names = (M.sel names).map fun S =>
      { b with dofs := b.dofs.filter (fun d => d ∈ names), matrix := some S } := by
    rw [Tagged.keepOnly]
    simp only [hM]
  refine ⟨by rw [hk, Option.map_eq_none_iff, hsel], fun c hc => ?_⟩
  rw [hk, Option.map_eq_some_iff] at hc
  obtain ⟨S, hS, rfl⟩ := hc
  refine ⟨rfl, List.filter_sublist, fun d => by simp, S, rfl, ?_⟩
  rw [Labelled.sel] at hS
  split at hS
  · cases hS
  · rename_i v hv
    cases hS
    obtain ⟨h1, h2⟩ := mapM_spec hv
    have hrow : ∀ r ∈ v, r.length = names.length := by
      intro r hr
      obtain ⟨i, hi, rfl⟩ := List.mem_iff_getElem.mp hr
      have h3 := h2 i _ (List.getElem?_eq_getElem (by omega))
      rw [List.getElem?_eq_getElem hi] at h3
      exact (mapM_spec h3.symm).1
    refine ⟨⟨hn, h1, hrow⟩, rfl, fun d hd e he => ?_⟩
    obtain ⟨i, -, hi⟩ := idxOf?_mem hd
    obtain ⟨j, -, hj⟩ := idxOf?_mem he
    rw [at_get ⟨names, v⟩ hn hi hj]
    have h3 := h2 i d hi
    have hil : i < v.length := by rw [h1]; exact (List.getElem?_eq_some_iff.mp hi).1
    simp only
    rw [List.getElem?_eq_getElem hil] at h3 ⊢
    rw [Option.bind_some, (mapM_spec h3.symm).2 j e hj]

theorem foldl_names (l acc : List Name) (h : (acc ++ l).Nodup) :
    l.foldl (fun acc n => if n ∈ acc then acc else acc ++ [n]) acc = acc ++ l := by
  induction l generalizing acc with
  | nil => simp
  | cons n l ih =>
    have hn : n ∉ acc := by
      intro hcon
      rw [List.nodup_append] at h
      exact h.2.2 n hcon n List.mem_cons_self rfl
    rw [List.foldl_cons, if_neg hn, ih _ (by simpa using h)]
    simp

/-- C76 for joined bodies: when the rows of the matrix of each body are in the order of its dofs, the number between two
dofs of a body is the same in the matrix of the joined body, and there is zero between the dofs of two bodies. -/
theorem join_labels_partial (bodies : List Tagged) (ms : List Labelled)
    (hb : List.Forall₂ (fun b m => b.matrix = some m ∧ m.Fits ∧ m.labels = b.dofs) bodies ms)
    (hd : (bodies.flatMap fun b => b.dofs.map (newDofName b.name)).Nodup) :
    ∃ X, joinLabelled bodies ms = some X ∧
      (∀ (k : ℕ) b m, bodies[k]? = some b → ms[k]? = some m → ∀ d ∈ b.dofs, ∀ e ∈ b.dofs,
        X.at (newDofName b.name d) (newDofName b.name e) = m.at d e) ∧
      ∀ (k l : ℕ) b c, k ≠ l → bodies[k]? = some b → bodies[l]? = some c → ∀ d ∈ b.dofs, ∀ e ∈ c.dofs,
        X.at (newDofName b.name d) (newDofName c.name e) = some 0 := by
  have hnames : joinDofNames bodies = bodies.flatMap fun b => b.dofs.map (newDofName b.name) := by
    rw [joinDofNames, foldl_names _ _ (by simpa using hd), List.nil_append]
  have hsum : ∀ {bs : List Tagged} {ls : List Labelled},
      List.Forall₂ (fun b m => b.matrix = some m ∧ m.Fits ∧ m.labels = b.dofs) bs ls →
      (ls.map Labelled.bare).map Matrix2.cols = bs.map (fun b => b.dofs.length) ∧
      (ls.map Labelled.bare).map (fun m => m.rows.length) = bs.map (fun b => b.dofs.length) := by
    intro bs ls h
    induction h with
    | nil => exact ⟨rfl, rfl⟩
    | cons h _ ih =>
      simp only [List.map_cons, ih.1, ih.2, Labelled.bare, h.2.1.2.1, h.2.2, and_self]
  have hlen : ∀ bs : List Tagged, (bs.flatMap fun b => b.dofs.map (newDofName b.name)).length =
      (bs.map fun b => b.dofs.length).sum := by
    intro bs
    rw [List.length_flatMap]
    simp
  have hX : joinLabelled bodies ms =
      some ⟨joinDofNames bodies, (blockDiag (ms.map Labelled.bare)).rows⟩ := by
    rw [joinLabelled, addLabels, if_pos]
    rw [hnames, hlen, blockDiag]
    simp only
    rw [blockRows_length, (hsum hb).1, (hsum hb).2]
    exact ⟨rfl, rfl⟩
  have hsq : ∀ m ∈ ms.map Labelled.bare, m.Square m.cols := by
    intro m hm
    obtain ⟨l, hl, rfl⟩ := List.mem_map.mp hm
    obtain ⟨k, hk, rfl⟩ := List.mem_iff_getElem.mp hl
    have h := (List.forall₂_iff_get.mp hb).2 k (by rw [hb.length_eq]; exact hk) hk
    exact ⟨rfl, h.2.1.2.1, h.2.1.2.2⟩
  -- position of a dof in the joined body
  have hpos : ∀ (k : ℕ) b (i : ℕ) d, bodies[k]? = some b → b.dofs[i]? = some d →
      (joinDofNames bodies)[((bodies.take k).map fun b => b.dofs.length).sum + i]? = some (newDofName b.name d) := by
    intro k b i d hk hi
    obtain ⟨hkl, hkb⟩ := List.getElem?_eq_some_iff.mp hk
    rw [hnames]
    have hsplit : bodies = bodies.take k ++ b :: bodies.drop (k + 1) := by
      conv_lhs => rw [← List.take_append_drop k bodies, List.drop_eq_getElem_cons hkl, hkb]
    have hflat : (bodies.flatMap fun b => b.dofs.map (newDofName b.name)) =
        ((bodies.take k).flatMap fun b => b.dofs.map (newDofName b.name)) ++ (b.dofs.map (newDofName b.name) ++
          (bodies.drop (k + 1)).flatMap fun b => b.dofs.map (newDofName b.name)) := by
      conv_lhs => rw [hsplit]
      rw [List.flatMap_append, List.flatMap_cons]
    rw [hflat, ← hlen (bodies.take k), List.getElem?_append_right (by omega),
      Nat.add_sub_cancel_left, List.getElem?_append_left
        (by rw [List.length_map]; exact (List.getElem?_eq_some_iff.mp hi).1), List.getElem?_map, hi]
    rfl
  have hoff : ∀ k, (((ms.map Labelled.bare).take k).map Matrix2.cols).sum = ((bodies.take k).map fun b => b.dofs.length).sum := by
    intro k
    rw [← List.map_take, (hsum (List.forall₂_take k hb)).1]
  have hnext : ∀ (k : ℕ) b, bodies[k]? = some b → ((bodies.take (k + 1)).map fun b => b.dofs.length).sum =
      ((bodies.take k).map fun b => b.dofs.length).sum + b.dofs.length := by
    intro k b hk
    rw [List.take_add_one, hk]
    simp
  have hmono : ∀ k l : ℕ, k ≤ l → ((bodies.take k).map fun b => b.dofs.length).sum ≤
      ((bodies.take l).map fun b => b.dofs.length).sum := by
    intro k l hkl
    have : bodies.take l = bodies.take k ++ (bodies.take l).drop k := by
      conv_lhs => rw [← List.take_append_drop k (bodies.take l), List.take_take, Nat.min_eq_left hkl]
    rw [this, List.map_append, List.sum_append]
    omega
  have htot : ∀ k : ℕ, ((bodies.take k).map fun b => b.dofs.length).sum ≤ (bodies.map fun b => b.dofs.length).sum := by
    intro k
    rcases Nat.lt_or_ge k bodies.length with h | h
    · have := hmono k bodies.length (by omega)
      rwa [List.take_length] at this
    · rw [List.take_of_length_le h]
  have hnodup : (joinDofNames bodies).Nodup := by rw [hnames]; exact hd
  have hentry : ∀ (k l : ℕ) b c m d e, bodies[k]? = some b → bodies[l]? = some c → ms[k]? = some m → d ∈ b.dofs → e ∈ c.dofs →
      ∃ i j : ℕ, b.dofs[i]? = some d ∧ c.dofs[j]? = some e ∧ i < b.dofs.length ∧ j < c.dofs.length ∧
        (⟨joinDofNames bodies, (blockDiag (ms.map Labelled.bare)).rows⟩ : Labelled).at (newDofName b.name d) (newDofName c.name e) =
        if ((bodies.take k).map fun b => b.dofs.length).sum ≤ ((bodies.take l).map fun b => b.dofs.length).sum + j ∧
            ((bodies.take l).map fun b => b.dofs.length).sum + j < ((bodies.take k).map fun b => b.dofs.length).sum + b.dofs.length
        then m.bare.entry i (((bodies.take l).map fun b => b.dofs.length).sum + j -
          ((bodies.take k).map fun b => b.dofs.length).sum) else some 0 := by
    intro k l b c m d e hk hl hm hd' he
    obtain ⟨i, -, hi⟩ := idxOf?_mem hd'
    obtain ⟨j, -, hj⟩ := idxOf?_mem he
    have hil := (List.getElem?_eq_some_iff.mp hi).1
    have hjl := (List.getElem?_eq_some_iff.mp hj).1
    refine ⟨i, j, hi, hj, hil, hjl, ?_⟩
    rw [at_get ⟨joinDofNames bodies, _⟩ hnodup (hpos k b i d hk hi) (hpos l c j e hl hj)]
    obtain ⟨hkl, hkb⟩ := List.getElem?_eq_some_iff.mp hk
    obtain ⟨hkl', hkm⟩ := List.getElem?_eq_some_iff.mp hm
    have h := (List.forall₂_iff_get.mp hb).2 k hkl hkl'
    simp only [List.get_eq_getElem, hkb, hkm] at h
    have hmc : m.bare.cols = b.dofs.length := by rw [Labelled.bare, h.2.2]
    have h2 := blockDiag_entry (ms.map Labelled.bare) hsq k m.bare (by rw [List.getElem?_map, hm]; rfl) i
      (by rw [hmc]; exact hil) (((bodies.take l).map fun b => b.dofs.length).sum + j) (by
        rw [(hsum hb).1]
        have := hnext l c hl
        have := htot (l + 1)
        omega)
    rw [hoff, hmc] at h2
    exact h2
  refine ⟨_, hX, ?_, ?_⟩
  · intro k b m hk hm d hd' e he
    obtain ⟨i, j, hi, hj, hil, hjl, h⟩ := hentry k k b b m d e hk hk hm hd' he
    rw [h, if_pos (by omega), Nat.add_sub_cancel_left, Matrix2.entry]
    obtain ⟨hkl, hkb⟩ := List.getElem?_eq_some_iff.mp hk
    obtain ⟨hkl', hkm⟩ := List.getElem?_eq_some_iff.mp hm
    have h3 := (List.forall₂_iff_get.mp hb).2 k hkl hkl'
    simp only [List.get_eq_getElem, hkb, hkm] at h3
    rw [at_get m h3.2.1.1 (by rw [h3.2.2]; exact hi) (by rw [h3.2.2]; exact hj)]
    rfl
  · intro k l b c hkl hk hl d hd' e he
    obtain ⟨hkl', hkb⟩ := List.getElem?_eq_some_iff.mp hk
    have hm : ms[k]? = some (ms[k]'(by rw [← hb.length_eq]; exact hkl')) := List.getElem?_eq_getElem _
    obtain ⟨i, j, hi, hj, hil, hjl, h⟩ := hentry k l b c _ d e hk hl hm hd' he
    rw [h, if_neg]
    have h1 := hnext k b hk
    have h2 := hnext l c hl
    rcases Nat.lt_or_ge k l with h3 | h3
    · have := hmono (k + 1) l h3
      omega
    · have := hmono (l + 1) k (by omega)
      omega

/-- A body with two dofs and an inertia of one for the first one, two for the second one. -/
noncomputable def twoDofs (name : Name) : Tagged := ⟨name, [['x'], ['z']], some ⟨[['x'], ['z']], [[1, 0], [0, 2]]⟩⟩

/-- Concrete case of `keep_only_dofs` and `join_labels_partial`. -/
example : (∃ c, (twoDofs ['a']).keepOnly [['z']] = some c) ∧
    ∃ X, joinLabelled [twoDofs ['a'], twoDofs ['b']] [⟨[['x'], ['z']], [[1, 0], [0, 2]]⟩, ⟨[['x'], ['z']], [[1, 0], [0, 2]]⟩] =
      some X ∧ X.at ['b', '_', '_', 'z'] ['b', '_', '_', 'z'] = some 2 := by
  have hf : (⟨[['x'], ['z']], [[1, 0], [0, 2]]⟩ : Labelled).Fits := ⟨by decide, rfl, by simp⟩
  constructor
  · have h := (keep_only_dofs (twoDofs ['a']) _ rfl hf [['z']] (by decide)).1
    cases hc : (twoDofs ['a']).keepOnly [['z']] with
    | none => simp at h; exact absurd hc h
    | some c => exact ⟨c, rfl⟩
  · have hx : hasSeparator ['x'] = false := by decide
    have hz : hasSeparator ['z'] = false := by decide
    obtain ⟨X, h1, h2, -⟩ := join_labels_partial [twoDofs ['a'], twoDofs ['b']] _
      (.cons ⟨rfl, hf, rfl⟩ (.cons ⟨rfl, hf, rfl⟩ .nil)) (by simp [twoDofs, newDofName, hx, hz])
    refine ⟨X, h1, ?_⟩
    have h3 := h2 1 (twoDofs ['b']) _ rfl rfl ['z'] (by simp [twoDofs]) ['z'] (by simp [twoDofs])
    simp only [newDofName, hz, twoDofs] at h3
    exact h3

/-- C76 does not hold in general: `keep_only_dofs` puts the rows of the matrix in the order of its argument, not those of
the dofs. In a body joined after that, the inertia of a dof is the one of another dof. -/
theorem join_labels_violated : ∃ c S X, (twoDofs ['a']).keepOnly [['z'], ['x']] = some c ∧ c.matrix = some S ∧
    c.dofs = [['x'], ['z']] ∧ S.at ['x'] ['x'] = some 1 ∧ joinLabelled [c] [S] = some X ∧
    X.at ['a', '_', '_', 'x'] ['a', '_', '_', 'x'] = some 2 := by
  have hx : hasSeparator ['x'] = false := by decide
  have hz : hasSeparator ['z'] = false := by decide
  refine ⟨⟨['a'], [['x'], ['z']], some ⟨[['z'], ['x']], [[2, 0], [0, 1]]⟩⟩, ⟨[['z'], ['x']], [[2, 0], [0, 1]]⟩,
    ⟨[['a', '_', '_', 'x'], ['a', '_', '_', 'z']], [[2, 0], [0, 1]]⟩, ?_, rfl, rfl, ?_, ?_, ?_⟩
  · simp [Tagged.keepOnly, twoDofs, Labelled.sel, Labelled.at, List.idxOf?, List.findIdx?_cons]
  · simp [Labelled.at, List.idxOf?, List.findIdx?_cons]
  · simp [joinLabelled, joinDofNames, newDofName, hx, hz, addLabels, blockDiag, blockRows, Labelled.bare]
  · simp [Labelled.at, List.idxOf?, List.findIdx?_cons]

end Verif.Bodies
