import Verif.Bodies.HydroInertia

/-!
# Hydrostatic stiffness of generalized dofs (C59)
-/

namespace Verif.Bodies

open Verif.Geometry Verif.Meshes V3

/-! ## Specification -/

/-- The divergence of a dof given by the user, zero if it is not given. The rigid dofs have no divergence. -/
def givenDivergence (divergence : Option (List (String × List ℝ))) (name : String) (k : ℕ) : ℝ :=
  if name.toLower ∈ ["surge", "sway", "heave", "roll", "pitch", "yaw"] then 0 else
  match divergence with
  | none => 0
  | some d =>
    match d.lookup name with
    | none => 0
    | some l => l.getD k 0

/-- The formula of Newman (1994), panel by panel, for a motion `u` of divergence `d` and a motion `v`. -/
noncomputable def newmanSum (t : Table) (u v : List (V3 ℝ)) (d : ℕ → ℝ) : ℝ :=
  ∑ k ∈ Finset.range t.length, match t[k]?, u[k]?, v[k]? with
    | some p, some a, some b => -(p.1.normal.x * b.x + p.1.normal.y * b.y + p.1.normal.z * b.z) *
        (a.z + p.1.center.z * d k) * p.1.area
    | _, _, _ => 0

/-! ## Proofs -/

theorem lower_of {s t : String} (h : s.toList.map Char.toLower = t.toList) : s.toLower = t := by
  apply String.toList_inj.1
  rw [← h, String.toLower, String.toList_map]

theorem newman_sum (t : Table) (u v : List (V3 ℝ)) (div : List ℝ) (hu : u.length = t.length) (hv : v.length = t.length)
    (hd : div.length = t.length) : newmanStiffness t u v div = newmanSum t u v fun k => div.getD k 0 := by
  unfold newmanStiffness newmanSum
  induction t generalizing u v div with
  | nil => simp
  | cons p t ih =>
    cases u with
    | nil => simp at hu
    | cons a u =>
      cases v with
      | nil => simp at hv
      | cons b v =>
        cases div with
        | nil => simp at hd
        | cons d div =>
          rw [List.length_cons, Finset.sum_range_succ']
          simp only [List.zip_cons_cons, List.map_cons, List.sum_cons, List.getElem?_cons_succ, List.getElem?_cons_zero,
            List.getD_cons_succ, List.getD_cons_zero]
          rw [ih u v div (by simpa using hu) (by simpa using hv) (by simpa using hd), add_comm]
          simp [dot]

theorem divergence_length {divergence : Option (List (String × List ℝ))} {n : ℕ}
    (h : ∀ d ∈ divergence, ∀ e ∈ d, e.2.length = n) (name : String) : (divergenceOf divergence n name).length = n := by
  unfold divergenceOf
  split_ifs
  · simp
  · cases divergence with
    | none => simp
    | some d =>
      simp only
      cases hl : d.lookup name with
      | none => simp
      | some l =>
        obtain ⟨k, hk⟩ : ∃ k, (k, l) ∈ d := by
          clear h
          induction d with
          | nil => simp at hl
          | cons e d ih =>
            rw [List.lookup_cons] at hl
            split at hl
            · exact ⟨e.1, by rw [← Option.some.inj hl]; simp⟩
            · obtain ⟨k, hk⟩ := ih hl
              exact ⟨k, by simp [hk]⟩
        simpa using h d rfl (k, l) hk

theorem divergence_given (divergence : Option (List (String × List ℝ))) (n : ℕ) (name : String)
    (k : ℕ) :
    (divergenceOf divergence n name).getD k 0 = givenDivergence divergence name k := by
  have hz : (List.replicate n (0 : ℝ)).getD k 0 = 0 := by
    rw [List.getD_eq_getElem?_getD, List.getElem?_replicate]
    split_ifs <;> rfl
  unfold divergenceOf givenDivergence
  split_ifs with hn
  · exact hz
  cases divergence with
  | none => exact hz
  | some d =>
    simp only
    cases hl : d.lookup name with
    | none => exact hz
    | some l => rfl

/-- **C59, generalized dofs.** When one of the two dofs is not a rigid one, the entry of the matrix is the integral of
Newman on the panels, with the divergence of the influenced dof given by the user. -/
theorem stiffness_general (b : HydroBody) (rho g : ℝ) (div : Option (List (String × List ℝ))) (K : LabelledMatrix)
    (h : b.stiffness rho g div = .ok K) (hlen : ∀ d ∈ b.dofs, d.2.length = b.table.length)
    (hdiv : ∀ d ∈ div, ∀ e ∈ d, e.2.length = b.table.length) {i j : String} {u v : List (V3 ℝ)}
    (hi : b.dofs.lookup i = some u) (hj : b.dofs.lookup j = some v)
    (hl : i ∉ rigidNames ∨ j ∉ rigidNames) :
    K.entry i j = some (rho * g * newmanSum b.table u v (givenDivergence div i)) := by
  have hmem : ∀ {x : String} {w : List (V3 ℝ)}, b.dofs.lookup x = some w → (x, w) ∈ b.dofs := by
    intro x w hx
    clear h hlen hi hj
    revert hx
    generalize b.dofs = l
    intro hx
    induction l with
    | nil => simp at hx
    | cons e d ih =>
      rw [List.lookup_cons] at hx
      split at hx
      · rename_i he
        have : x = e.1 := by simpa using he
        rw [this, ← Option.some.inj hx]; simp
      · exact List.mem_cons_of_mem _ (ih hx)
  obtain ⟨-, -, -, hK⟩ := stiffness_entry b rho g div K h
  obtain ⟨w, hw, he⟩ := hK i (List.mem_map.2 ⟨_, hmem hi, rfl⟩) j (List.mem_map.2 ⟨_, hmem hj, rfl⟩)
  rw [hw]
  unfold HydroBody.eachStiffness at he
  rw [if_neg (by tauto)] at he
  split_ifs at he
  rw [hi, hj] at he
  cases he
  rw [newman_sum _ _ _ _ (hlen _ (hmem hi)) (hlen _ (hmem hj)) (divergence_length hdiv i)]
  simp only [divergence_given div _ i]

/-- **C59, generalized dofs.** The stiffness of a pair of dofs that are not both rigid is refused exactly when the mass
differs from the displaced mass by more than one part in ten thousand. -/
theorem stiffness_general_refused_iff (b : HydroBody) (rho g : ℝ) (d : List ℝ) {i j : String} {u v : List (V3 ℝ)}
    (hi : b.dofs.lookup i = some u) (hj : b.dofs.lookup j = some v) (hn : i ∉ rigidNames ∨ j ∉ rigidNames) :
    b.eachStiffness rho g d i j = .error .notImplemented ↔
      ∃ m, b.mass = some m ∧ 1 / 10 ^ 8 + |rho * volume b.table| / 10 ^ 4 < |m - rho * volume b.table| := by
  unfold HydroBody.eachStiffness
  rw [if_neg (by tauto)]
  have key : (∃ m, b.mass = some m ∧ ¬balanced m (dispMass rho b.table)) ↔
      ∃ m, b.mass = some m ∧ 1 / 10 ^ 8 + |rho * volume b.table| / 10 ^ 4 < |m - rho * volume b.table| := by
    refine exists_congr fun m => and_congr_right fun _ => ?_
    rw [balanced, dispMass, not_le]
    have : (1e-8 : ℝ) + 1e-4 * |rho * volume b.table| = 1 / 10 ^ 8 + |rho * volume b.table| / 10 ^ 4 := by ring
    rw [this]
  by_cases h : ∃ m, b.mass = some m ∧ ¬balanced m (dispMass rho b.table)
  · rw [if_pos h]
    exact iff_of_true rfl (key.1 h)
  · rw [if_neg h, hi, hj]
    exact iff_of_false (by simp) (fun hc => h (key.2 hc))

/-- **C59, generalized dofs.** A vertical translation with another name has the stiffness of the heave: the area of the
waterplane. -/
theorem stiffness_general_heave (b : HydroBody) (rho g : ℝ) (hm : b.mass = none) {i : String} (hn : i ∉ rigidNames)
    (hi : b.dofs.lookup i = some (b.table.map fun _ => ⟨0, 0, 1⟩)) :
    b.eachStiffness rho g (List.replicate b.table.length 0) i i = .ok (rho * g * waterplaneArea b.table) := by
  unfold HydroBody.eachStiffness
  rw [if_neg (by tauto), if_neg (by simp [hm]), hi]
  simp only
  congr 2
  unfold newmanStiffness waterplaneArea waterplaneIntegral surfaceIntegral
  generalize b.table = t
  induction t with
  | nil => simp
  | cons x t ih =>
    simp only [List.map_cons, List.zip_cons_cons, List.sum_cons, List.length_cons, List.replicate_succ] at ih ⊢
    rw [ih]
    simp [dot]
    ring

/-- A body with a dof that dilates the bottom, with its divergence. -/
example : ∃ K, (⟨bottom, [("breathing", [⟨0, 0, 1⟩])], none, none, none⟩ : HydroBody).stiffness 1 1
    (some [("breathing", [3])]) = .ok K ∧ K.entry "breathing" "breathing" = some (-2) := by
  have hn : "breathing" ∉ rigidNames := by decide
  have hl : "breathing".toLower ∉ ["surge", "sway", "heave", "roll", "pitch", "yaw"] := by
    rw [lower_of (t := "breathing") (by decide)]; decide
  have hk : ∃ K, (⟨bottom, [("breathing", [⟨0, 0, 1⟩])], none, none, none⟩ : HydroBody).stiffness 1 1
      (some [("breathing", [3])]) = .ok K := by
    simp [HydroBody.stiffness, HydroBody.eachStiffness, hn, List.lookup, Except.map, bind, Except.bind, pure, Except.pure]
  obtain ⟨K, hK⟩ := hk
  refine ⟨K, hK, ?_⟩
  rw [stiffness_general _ 1 1 _ K hK (by simp [bottom]) (by simp [bottom]) (u := [⟨0, 0, 1⟩]) (v := [⟨0, 0, 1⟩])
    (by simp [List.lookup]) (by simp [List.lookup]) (Or.inl hn)]
  simp only [newmanSum, givenDivergence, if_neg hl]
  simp [bottom, List.lookup]
  norm_num

end Verif.Bodies
