import Verif.Bodies.JoinProps

/-!
# Masses, centers and matrices of joined bodies (C36)
-/

namespace Verif.Bodies

open Verif.Geometry V3 Verif.Meshes

/-- The number on a row and a column. -/
def Matrix2.entry (M : Matrix2) (i j : ℕ) : Option ℝ := M.rows[i]?.bind fun r => r[j]?

/-- A two dimensional array with as many rows and columns as announced. -/
def Matrix2.Square (M : Matrix2) (n : ℕ) : Prop := M.cols = n ∧ M.rows.length = n ∧ ∀ r ∈ M.rows, r.length = n

theorem allSome_map {A : Type} (l : List A) : allSome (l.map some) = some l := by
  induction l with
  | nil => rfl
  | cons a l ih =>
    rw [show (a :: l).map some = [some a] ++ l.map some from rfl, allSome_append, allSome_one, ih]
    rfl

theorem allSome_none {A : Type} {l : List (Option A)} (h : none ∈ l) : allSome l = none := by
  induction l with
  | nil => cases h
  | cons o l ih =>
    rw [show o :: l = [o] ++ l from rfl, allSome_append, allSome_one]
    cases o with
    | none => rfl
    | some a =>
      rw [ih (by simpa using h)]
      rfl

theorem joinNames_eq (bodies : List Body) : joinNames bodies = List.intercalate ['+'] (bodies.map Body.name) := by
  induction bodies with
  | nil => rfl
  | cons b bs ih =>
    cases bs with
    | nil => simp [joinNames, List.intercalate]
    | cons c cs =>
      rw [joinNames, ih]
      · simp [List.intercalate, List.intersperse]
      · simp

/-- The rows of the block of number `k` come after those of the previous blocks, and its columns after theirs. -/
theorem blockRows_entry (total : ℕ) (ms : List Matrix2) (c : ℕ) (hsq : ∀ m ∈ ms, m.Square m.cols)
    (ht : c + (ms.map Matrix2.cols).sum ≤ total) (k : ℕ) (m : Matrix2) (hk : ms[k]? = some m) (i : ℕ) (hi : i < m.cols)
    (j : ℕ) (hj : j < total) :
    ((blockRows total ms c)[((ms.take k).map Matrix2.cols).sum + i]?.bind fun r => r[j]?) =
      if c + ((ms.take k).map Matrix2.cols).sum ≤ j ∧ j < c + ((ms.take k).map Matrix2.cols).sum + m.cols then
        m.entry i (j - (c + ((ms.take k).map Matrix2.cols).sum)) else some 0 := by
  induction ms generalizing c k with
  | nil => simp at hk
  | cons m' ms ih =>
    have hsq' := hsq m' List.mem_cons_self
    rw [List.map_cons, List.sum_cons] at ht
    rw [blockRows]
    cases k with
    | zero =>
      simp only [List.getElem?_cons_zero, Option.some.injEq] at hk
      subst hk
      simp only [List.take_zero, List.map_nil, List.sum_nil, Nat.zero_add, Nat.add_zero]
      have hi' : i < m'.rows.length := by rw [hsq'.2.1]; exact hi
      rw [List.getElem?_append_left (by rw [List.length_map]; exact hi'), List.getElem?_map,
        List.getElem?_eq_getElem hi', Option.map_some, Option.bind_some, Matrix2.entry, List.getElem?_eq_getElem hi',
        Option.bind_some]
      have hlen : m'.rows[i].length = m'.cols := hsq'.2.2 _ (List.getElem_mem hi')
      rw [List.append_assoc]
      split
      · rename_i h
        rw [List.getElem?_append_right (by simpa using h.1), List.length_replicate,
          List.getElem?_append_left (by omega)]
      · rename_i h
        rcases Nat.lt_or_ge j c with hjc | hjc
        · rw [List.getElem?_append_left (by simpa using hjc), List.getElem?_replicate, if_pos hjc]
        · rw [List.getElem?_append_right (by simpa using hjc), List.length_replicate,
            List.getElem?_append_right (by omega), List.getElem?_replicate, if_pos (by omega)]
    | succ k =>
      rw [List.getElem?_cons_succ] at hk
      rw [List.take_succ_cons, List.map_cons, List.sum_cons, Nat.add_assoc,
        List.getElem?_append_right (by rw [List.length_map, hsq'.2.1]; omega), List.length_map, hsq'.2.1,
        Nat.add_sub_cancel_left, ih (c + m'.cols) (fun x hx => hsq x (List.mem_cons_of_mem _ hx)) (by omega) k hk]
      simp only [Nat.add_assoc]

/-- The block diagonal matrix of square matrices: the block of number `k` is the matrix of number `k`, and there is zero
out of the blocks. -/
theorem blockDiag_entry (ms : List Matrix2) (hsq : ∀ m ∈ ms, m.Square m.cols) (k : ℕ) (m : Matrix2)
    (hk : ms[k]? = some m) (i : ℕ) (hi : i < m.cols) (j : ℕ) (hj : j < (ms.map Matrix2.cols).sum) :
    (blockDiag ms).entry (((ms.take k).map Matrix2.cols).sum + i) j =
      if ((ms.take k).map Matrix2.cols).sum ≤ j ∧ j < ((ms.take k).map Matrix2.cols).sum + m.cols then
        m.entry i (j - ((ms.take k).map Matrix2.cols).sum) else some 0 := by
  have h := blockRows_entry (ms.map Matrix2.cols).sum ms 0 hsq (by omega) k m hk i hi j hj
  simp only [Nat.zero_add] at h
  exact h

theorem joinMatrices_eq {n : ℕ} {ms : List Matrix2} {o : Option Matrix2}
    (h : joinMatrices n (ms.map some) = some o) : o = some (blockDiag ms) := by
  rw [joinMatrices, allSome_map] at h
  simp only at h
  split at h
  · cases h
    rfl
  · cases h

/-- The number of dofs of the bodies before the body of number `k`. -/
def dofsBefore (bodies : List Body) (k : ℕ) : ℕ := ((bodies.take k).map fun b => b.dofs.length).sum

/-- What C36 says of a matrix of the joined body, for the matrices of the bodies. -/
def Joined (bodies : List Body) (M : Body → Option Matrix2) (o : Option Matrix2) : Prop :=
  ((∃ b ∈ bodies, M b = none) → o = none) ∧
  ((∀ b ∈ bodies, ∃ m, M b = some m ∧ m.Square b.dofs.length) → ∃ X, o = some X ∧
    ∀ (k : ℕ) (b : Body) (m : Matrix2), bodies[k]? = some b → M b = some m → ∀ i j, i < b.dofs.length →
      (j < b.dofs.length → X.entry (dofsBefore bodies k + i) (dofsBefore bodies k + j) = m.entry i j) ∧
      (j < (bodies.map fun b => b.dofs.length).sum → j < dofsBefore bodies k ∨ dofsBefore bodies k + b.dofs.length ≤ j →
        X.entry (dofsBefore bodies k + i) j = some 0))

theorem all_some_list {A B : Type} (f : A → Option B) (l : List A) (h : ∀ a ∈ l, ∃ b, f a = some b) :
    ∃ bs, l.map f = bs.map some ∧ List.Forall₂ (fun a b => f a = some b) l bs := by
  induction l with
  | nil => exact ⟨[], rfl, .nil⟩
  | cons a l ih =>
    obtain ⟨b, hb⟩ := h a List.mem_cons_self
    obtain ⟨bs, h1, h2⟩ := ih fun x hx => h x (List.mem_cons_of_mem _ hx)
    exact ⟨b :: bs, by rw [List.map_cons, List.map_cons, h1, hb], .cons hb h2⟩

theorem joinMatrices_joined (bodies : List Body) (M : Body → Option Matrix2) (n : ℕ) (o : Option Matrix2)
    (h : joinMatrices n (bodies.map M) = some o) : Joined bodies M o := by
  refine ⟨?_, ?_⟩
  · rintro ⟨b, hb, hn⟩
    rw [joinMatrices, allSome_none (List.mem_map.mpr ⟨b, hb, hn⟩)] at h
    cases h
    rfl
  · intro hall
    obtain ⟨ms, h1, h2⟩ := all_some_list M bodies fun b hb => (hall b hb).imp fun _ h => h.1
    rw [h1] at h
    refine ⟨_, joinMatrices_eq h, ?_⟩
    have hc : List.Forall₂ (fun b m => M b = some m ∧ Matrix2.Square m b.dofs.length) bodies ms := by
      rw [List.forall₂_iff_get] at h2 ⊢
      refine ⟨h2.1, fun i hi hi' => ⟨h2.2 i hi hi', ?_⟩⟩
      obtain ⟨m, hm, hsq⟩ := hall _ (List.get_mem bodies ⟨i, hi⟩)
      rw [h2.2 i hi hi', Option.some.injEq] at hm
      rw [hm]
      exact hsq
    have hcols : ∀ {bs : List Body} {ms : List Matrix2},
        List.Forall₂ (fun b m => M b = some m ∧ Matrix2.Square m b.dofs.length) bs ms →
        ms.map Matrix2.cols = bs.map fun b => b.dofs.length := by
      intro bs ms h
      induction h with
      | nil => rfl
      | cons h _ ih => rw [List.map_cons, List.map_cons, ih, h.2.1]
    have hsq : ∀ m ∈ ms, m.Square m.cols := by
      intro m hm
      obtain ⟨k, hk, rfl⟩ := List.mem_iff_getElem.mp hm
      have := (List.forall₂_iff_get.mp hc).2 k (by rw [hc.length_eq]; exact hk) hk
      simp only [List.get_eq_getElem] at this
      rw [this.2.1]
      exact this.2
    intro k b m hk hm i j hi
    obtain ⟨hkl, hkb⟩ := List.getElem?_eq_some_iff.mp hk
    have hkl' : k < ms.length := by rw [← hc.length_eq]; exact hkl
    have hkm := (List.forall₂_iff_get.mp hc).2 k hkl hkl'
    simp only [List.get_eq_getElem, hkb, hm, Option.some.injEq] at hkm
    have hmk : ms[k]? = some m := by rw [List.getElem?_eq_getElem hkl', hkm.1]
    have htake : ((ms.take k).map Matrix2.cols).sum = dofsBefore bodies k := by
      rw [dofsBefore, hcols (List.forall₂_take k hc)]
    have htot : dofsBefore bodies k + b.dofs.length ≤ (bodies.map fun b => b.dofs.length).sum := by
      have h3 : bodies.map (fun b => b.dofs.length) =
          (bodies.take k).map (fun b => b.dofs.length) ++ (b.dofs.length :: (bodies.drop (k + 1)).map fun b => b.dofs.length) := by
        conv_lhs => rw [← List.take_append_drop k bodies, List.map_append, List.drop_eq_getElem_cons hkl, hkb]
        rfl
      rw [h3, List.sum_append, List.sum_cons, dofsBefore]
      omega
    have hmc : m.cols = b.dofs.length := by rw [hkm.1]; exact hkm.2.1
    have he := fun j hj => blockDiag_entry ms hsq k m hmk i (by rw [hmc]; exact hi) j hj
    rw [htake, hmc, hcols hc] at he
    refine ⟨fun hj => ?_, fun hj hout => ?_⟩
    · rw [he _ (by omega), if_pos (by omega), Nat.add_sub_cancel_left]
    · rw [he _ hj, if_neg (by omega)]

/-- C36 for the name, the mass, the center of mass and the matrices of a joined body. The mass is the sum of the masses,
the center of mass is such that the moments are added, and the matrices are made of the blocks of the bodies. They are
unknown when one of those of the bodies is. -/
theorem join_values (heal down : Mesh (V3 ℝ) → Mesh (V3 ℝ)) (bodies : List Body) (x : Body)
    (h : joinBodies heal down bodies = some x) :
    x.name = List.intercalate ['+'] (bodies.map Body.name) ∧
    (∀ ms : List ℝ, bodies.map Body.mass = ms.map some → x.mass = some ms.sum) ∧
    ((∃ b ∈ bodies, b.mass = none) → x.mass = none ∧ x.centerOfMass = none) ∧
    ((∃ b ∈ bodies, b.centerOfMass = none) → x.centerOfMass = none) ∧
    (∀ (ms : List ℝ) (cs : List (V3 ℝ)), bodies.map Body.mass = ms.map some → bodies.map Body.centerOfMass = cs.map some →
      ms.sum ≠ 0 → ∃ c, x.centerOfMass = some c ∧ ms.sum • c = (List.zipWith (fun m (c : V3 ℝ) => m • c) ms cs).sum) ∧
    Joined bodies Body.inertia x.inertia ∧ Joined bodies Body.stiffness x.stiffness := by
  obtain ⟨-, -, -, hI, hS, hn, hm, hc, -⟩ := join_eq h
  refine ⟨?_, ?_, ?_, ?_, ?_, ?_, ?_⟩
  · rw [hn, joinNames_eq]
  · intro ms hms
    rw [hm, joinMass, hms, allSome_map]
    rfl
  · rintro ⟨b, hb, hbm⟩
    have h0 : allSome (bodies.map Body.mass) = none := allSome_none (List.mem_map.mpr ⟨b, hb, hbm⟩)
    rw [hm, hc, joinMass, joinCenter, h0]
    exact ⟨rfl, rfl⟩
  · rintro ⟨b, hb, hbm⟩
    have h0 : allSome (bodies.map Body.centerOfMass) = none := allSome_none (List.mem_map.mpr ⟨b, hb, hbm⟩)
    rw [hc, joinCenter, h0]
    split
    · rename_i hcon
      cases hcon
    · rfl
  · intro ms cs hms hcs h0
    rw [hc, joinCenter, hms, hcs, allSome_map, allSome_map]
    refine ⟨_, rfl, ?_⟩
    ext <;> simp <;> field_simp
  · exact joinMatrices_joined _ _ _ _ hI
  · exact joinMatrices_joined _ _ _ _ hS

/-- Concrete case of `join_values`: two bodies with a mass, a center of mass and an inertia matrix each. -/
example : ∃ x, joinBodies id id [sampleBody ['a'] ['d'] ⟨1, 0, 0⟩, sampleBody ['b'] ['d'] ⟨0, 1, 0⟩] = some x ∧
    x.name = ['a', '+', 'b'] ∧ x.mass = some 4 ∧ x.centerOfMass = some ⟨1, 0, 0⟩ ∧
    ∃ X, x.inertia = some X ∧ X.entry 1 1 = some 3 ∧ X.entry 1 0 = some 0 := by
  have hs : ∀ b ∈ [sampleBody ['a'] ['d'] ⟨1, 0, 0⟩, sampleBody ['b'] ['d'] ⟨0, 1, 0⟩], SoundBody id id b := by
    intro b hb
    simp only [List.mem_cons, List.not_mem_nil, or_false] at hb
    rcases hb with rfl | rfl <;> exact sampleBody_sound id id rfl _ _ _
  have hd : ([sampleBody ['a'] ['d'] ⟨1, 0, 0⟩, sampleBody ['b'] ['d'] ⟨0, 1, 0⟩].flatMap fun b =>
      b.dofs.map fun d => newDofName b.name d.1) = [['a', '_', '_', 'd'], ['b', '_', '_', 'd']] := by
    have hsep : hasSeparator ['d'] = false := by decide
    simp [sampleBody, newDofName, hsep]
  obtain ⟨x, hx⟩ := join_succeeds id id _ hs (by simp [sampleBody, Body.Consistent, Tree.nbFaces, sampleHalf])
    (by rw [hd]; decide) (by simp [sampleBody]) (by simp [sampleBody])
  obtain ⟨h1, h2, -, -, h3, h4, -⟩ := join_values id id _ x hx
  refine ⟨x, hx, by rw [h1]; rfl, ?_, ?_, ?_⟩
  · rw [h2 [2, 2] rfl]
    norm_num
  · obtain ⟨c, hc, he⟩ := h3 [2, 2] [⟨1, 0, 0⟩, ⟨1, 0, 0⟩] rfl rfl (by norm_num)
    rw [hc]
    simp only [V3.ext_iff, List.sum_cons, List.sum_nil, List.zipWith_cons_cons, List.zipWith_nil_right] at he
    norm_num at he
    obtain ⟨e1, e2, e3⟩ := he
    simp only [Option.some.injEq]
    ext
    · simp; linarith
    · simp [e2]
    · simp [e3]
  · obtain ⟨X, hX, he⟩ := h4.2 (by
      intro b hb
      simp only [List.mem_cons, List.not_mem_nil, or_false] at hb
      rcases hb with rfl | rfl <;> exact ⟨_, rfl, rfl, rfl, by simp [sampleBody]⟩)
    have h := he 1 (sampleBody ['b'] ['d'] ⟨0, 1, 0⟩) ⟨1, [[3]]⟩ rfl rfl 0
    have hb : dofsBefore [sampleBody ['a'] ['d'] ⟨1, 0, 0⟩, sampleBody ['b'] ['d'] ⟨0, 1, 0⟩] 1 = 1 := rfl
    rw [hb] at h
    exact ⟨X, hX, (h 0 (by simp [sampleBody])).1 (by simp [sampleBody]), (h 0 (by simp [sampleBody])).2 (by simp [sampleBody]) (Or.inl (by norm_num))⟩

end Verif.Bodies
