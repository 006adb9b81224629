import Verif.Scene.NodeModel
import Mathlib.Tactic.FieldSimp
import Mathlib.Tactic.Linarith
import Mathlib.Tactic.Push
import Mathlib.Tactic.NormNum
import Mathlib.Tactic.FinCases
import Mathlib.Algebra.BigOperators.Group.List.Basic

/-!
# Properties of the data at the nodes (C101)

The specification counts the panels around a vertex and takes the mean of their values.
-/

namespace Verif.Scene

open Verif.Geometry Verif.Meshes

variable {V ι : Type}

/-! ## Specification -/

/-- How many times the vertex is written in the array of faces. -/
def corners (fs : List Face) (v : ℕ) : ℕ := (fs.map fun f => f.toList.count v).sum

/-- The faces that touch the vertex. -/
def around (fs : List Face) (v : ℕ) : List ℕ := (List.range fs.length).filter fun i => ∃ f, fs[i]? = some f ∧ v ∈ f.toList

/-- The sum of the data with a weight for each face. -/
def weighted (w : Face → ℕ) (fs : List Face) (data : List (ι → ℂ)) (k : ι) : ℂ :=
  ((fs.zip data).map fun p => (w p.1 : ℂ) * p.2 k).sum

/-- A face has the vertex once, and not twice as the first vertex of a triangle. -/
def Once (v : ℕ) (f : Face) : Prop := f.toList.count v ≤ 1

/-- A fan of `n` triangles around the vertex 0. -/
def fan (n : ℕ) : List Face := List.replicate n ⟨0, 1, 2, 0⟩

/-! ## The loop -/

/-- The value of a counter of eight bits after `n` additions. -/
def signed8 (n : ℕ) : ℤ := ((n : ℤ) + 128) % 256 - 128

theorem inc8_signed8 (n : ℕ) : inc8 (signed8 n) = signed8 (n + 1) := by
  unfold inc8 signed8
  push_cast
  by_cases h : ((n : ℤ) + 128) % 256 - 128 = 127
  · rw [if_pos h]; omega
  · rw [if_neg h]; omega

theorem fold_add (x : ι → ℂ) (l : List ℕ) (s : Nodes ι) (v n : ℕ) (h : s.count v = signed8 n) :
    (l.foldl (Nodes.add x) s).count v = signed8 (n + l.count v) ∧
      ∀ k, (l.foldl (Nodes.add x) s).sum v k = s.sum v k + (l.count v : ℂ) * x k := by
  induction l generalizing s n with
  | nil => simp [h]
  | cons a l ih =>
    by_cases hav : a = v
    · subst hav
      have h' : (s.add x a).count a = signed8 (n + 1) := by
        simp [Nodes.add, h, inc8_signed8]
      obtain ⟨h1, h2⟩ := ih (s.add x a) (n + 1) h'
      refine ⟨?_, fun k => ?_⟩
      · rw [List.foldl_cons, h1, List.count_cons_self]
        congr 1
        omega
      · rw [List.foldl_cons, h2, List.count_cons_self]
        simp only [Nodes.add, Function.update_self, Pi.add_apply]
        push_cast
        ring
    · have h' : (s.add x a).count v = signed8 n := by
        simp [Nodes.add, Function.update_of_ne (Ne.symm hav), h]
      obtain ⟨h1, h2⟩ := ih (s.add x a) n h'
      refine ⟨?_, fun k => ?_⟩
      · rw [List.foldl_cons, h1, List.count_cons_of_ne hav]
      · rw [List.foldl_cons, h2, List.count_cons_of_ne hav]
        simp [Nodes.add, Function.update_of_ne (Ne.symm hav)]

theorem fold_faces (fs : List Face) (data : List (ι → ℂ)) (s : Nodes ι) (v n : ℕ) (hl : data.length = fs.length)
    (h : s.count v = signed8 n) :
    ((fs.zip data).foldl Nodes.addFace s).count v = signed8 (n + corners fs v) ∧
      ∀ k, ((fs.zip data).foldl Nodes.addFace s).sum v k = s.sum v k + weighted (fun f => f.toList.count v) fs data k := by
  induction fs generalizing data s n with
  | nil => simp [corners, weighted, h]
  | cons f fs ih =>
    cases data with
    | nil => simp at hl
    | cons x data =>
      obtain ⟨h1, h2⟩ := fold_add x f.toList s v n h
      obtain ⟨h3, h4⟩ := ih data (s.addFace (f, x)) (n + f.toList.count v) (by simpa using hl) h1
      refine ⟨?_, fun k => ?_⟩
      · rw [List.zip_cons_cons, List.foldl_cons, h3]
        simp [corners, add_assoc]
      · rw [List.zip_cons_cons, List.foldl_cons, h4, Nodes.addFace, h2]
        simp [weighted, add_assoc]

/-! ## Data at the nodes -/

/-- The function fails only when there is not one row of data for each face, and otherwise gives one row for each vertex. -/
theorem node_data_fails_iff (m : Mesh V) (data : List (ι → ℂ)) :
    (nodeData m data = none ↔ data.length ≠ m.faces.length) ∧
      ∀ r, nodeData m data = some r → r.length = m.vertices.length := by
  refine ⟨by simp [nodeData], fun r h => ?_⟩
  simp only [nodeData] at h
  split at h <;> simp at h
  simp [← h]

theorem node_get (m : Mesh V) (data : List (ι → ℂ)) (r : List (Option (ι → ℂ))) (h : nodeData m data = some r) (v : ℕ)
    (hv : v < m.vertices.length) :
    r[v]? = some (if signed8 (corners m.faces v) = 0 then none else
      some fun k => weighted (fun f => f.toList.count v) m.faces data k / (signed8 (corners m.faces v) : ℂ)) := by
  simp only [nodeData] at h
  split at h <;> simp at h
  rename_i hl
  obtain ⟨h1, h2⟩ := fold_faces m.faces data Nodes.zero v 0 hl (by simp [Nodes.zero, signed8])
  rw [Nat.zero_add] at h1
  rw [← h, List.getElem?_map, List.getElem?_range hv, Option.map_some, Nodes.quotient, h1]
  simp only [h2]
  simp [Nodes.zero]

theorem signed8_zero_iff (n : ℕ) : signed8 n = 0 ↔ 256 ∣ n := by
  simp only [signed8]; omega

theorem signed8_self_iff (n : ℕ) : signed8 n = n ↔ n < 128 := by
  simp only [signed8]; omega

/-- A vertex has no data exactly when the number of its corners is a multiple of 256. -/
theorem node_missing_iff (m : Mesh V) (data : List (ι → ℂ)) (r : List (Option (ι → ℂ))) (h : nodeData m data = some r)
    (v : ℕ) (hv : v < m.vertices.length) : r[v]? = some none ↔ 256 ∣ corners m.faces v := by
  rw [node_get m data r h v hv, ← signed8_zero_iff]
  split <;> simp_all

/-- Up to 127 corners, the value at a vertex is the mean of the values of the faces, weighted by the number of corners of
each face at that vertex. -/
theorem node_weighted (m : Mesh V) (data : List (ι → ℂ)) (r : List (Option (ι → ℂ))) (h : nodeData m data = some r) (v : ℕ)
    (hv : v < m.vertices.length) (h0 : corners m.faces v ≠ 0) (h1 : corners m.faces v < 128) :
    r[v]? = some (some fun k => weighted (fun f => f.toList.count v) m.faces data k / (corners m.faces v : ℂ)) := by
  have := (signed8_self_iff _).2 h1
  rw [node_get m data r h v hv, this, if_neg (by exact_mod_cast h0)]
  simp

theorem once_corners (fs : List Face) (v : ℕ) (h : ∀ f ∈ fs, Once v f) : corners fs v = fs.countP fun f => v ∈ f.toList := by
  induction fs with
  | nil => rfl
  | cons f fs ih =>
    have hf := h f (by simp)
    rw [List.countP_cons, ← ih fun g hg => h g (by simp [hg])]
    simp only [corners, List.map_cons, List.sum_cons]
    by_cases hm : v ∈ f.toList
    · have := List.count_pos_iff.2 hm
      have : f.toList.count v = 1 := by unfold Once at hf; omega
      simp [this, hm, add_comm]
    · simp [List.count_eq_zero_of_not_mem hm, hm]

theorem around_length (fs : List Face) (v : ℕ) : (around fs v).length = fs.countP fun f => v ∈ f.toList := by
  induction fs with
  | nil => rfl
  | cons f fs ih =>
    rw [List.countP_cons, ← ih]
    simp only [around, List.length_cons, List.range_succ_eq_map, List.filter_cons, List.filter_map]
    split <;> rename_i hh <;> simp at hh <;> simp [Function.comp_def, hh]

theorem around_sum (fs : List Face) (v : ℕ) (h : ∀ f ∈ fs, Once v f) (data : List (ι → ℂ)) (k : ι) (hl : data.length = fs.length) :
    weighted (fun f => f.toList.count v) fs data k = ((around fs v).map fun i => (data[i]?.getD 0) k).sum := by
  induction fs generalizing data with
  | nil => simp [weighted, around]
  | cons f fs ih =>
    cases data with
    | nil => simp at hl
    | cons x data =>
      have hf := h f (by simp)
      have ih' := ih (fun g hg => h g (by simp [hg])) data (by simpa using hl)
      simp only [weighted, List.zip_cons_cons, List.map_cons, List.sum_cons] at ih' ⊢
      rw [ih']
      simp only [around, List.length_cons, List.range_succ_eq_map, List.filter_cons, List.filter_map]
      by_cases hm : v ∈ f.toList
      · have := List.count_pos_iff.2 hm
        have : f.toList.count v = 1 := by unfold Once at hf; omega
        simp [this, hm, Function.comp_def]
      · simp [List.count_eq_zero_of_not_mem hm, hm, Function.comp_def]

/-- When no panel has the vertex twice and there are at most 127 panels around it, the value at the vertex is the mean of the
values of the panels around it. -/
theorem node_average (m : Mesh V) (data : List (ι → ℂ)) (r : List (Option (ι → ℂ))) (h : nodeData m data = some r) (v : ℕ)
    (hv : v < m.vertices.length) (ho : ∀ f ∈ m.faces, Once v f) (h0 : around m.faces v ≠ [])
    (h1 : (around m.faces v).length < 128) :
    r[v]? = some (some fun k => ((around m.faces v).map fun i => (data[i]?.getD 0) k).sum / ((around m.faces v).length : ℂ)) := by
  have hl : data.length = m.faces.length := by
    by_contra hne
    rw [(node_data_fails_iff m data).1.2 hne] at h
    cases h
  have hc : corners m.faces v = (around m.faces v).length := by rw [once_corners _ _ ho, around_length]
  have h0' : (around m.faces v).length ≠ 0 := by simpa using h0
  rw [node_weighted m data r h v hv (by rw [hc]; exact h0') (by rw [hc]; exact h1), hc]
  congr 2
  funext k
  rw [around_sum _ _ ho _ _ hl]

theorem weighted_const (w : Face → ℕ) (fs : List Face) (c : ι → ℂ) (k : ι) :
    weighted w fs (List.replicate fs.length c) k = ((fs.map w).sum : ℕ) * c k := by
  induction fs with
  | nil => simp [weighted]
  | cons f fs ih =>
    simp only [weighted, List.length_cons, List.replicate_succ, List.zip_cons_cons, List.map_cons, List.sum_cons] at ih ⊢
    rw [ih]
    push_cast
    ring

/-- A uniform motion, other than no motion, is given to a vertex exactly when the vertex has between 1 and 127 corners. -/
theorem node_uniform_iff (m : Mesh V) (c : ι → ℂ) (hc : c ≠ 0) (r : List (Option (ι → ℂ)))
    (h : nodeData m (List.replicate m.faces.length c) = some r) (v : ℕ) (hv : v < m.vertices.length) :
    r[v]? = some (some c) ↔ 1 ≤ corners m.faces v ∧ corners m.faces v ≤ 127 := by
  rw [node_get m _ r h v hv]
  have hw : ∀ k, weighted (fun f => f.toList.count v) m.faces (List.replicate m.faces.length c) k =
      (corners m.faces v : ℂ) * c k := fun k => weighted_const _ _ _ _
  simp only [hw]
  obtain ⟨k, hk⟩ : ∃ k, c k ≠ 0 := by
    by_contra hn
    push Not at hn
    exact hc (funext hn)
  constructor
  · intro hr
    split at hr
    · simp at hr
    · rename_i hs
      simp only [Option.some.injEq] at hr
      have h1 := congrFun hr k
      have hs' : (signed8 (corners m.faces v) : ℂ) ≠ 0 := by exact_mod_cast hs
      rw [div_eq_iff hs', mul_comm] at h1
      have h2 := mul_left_cancel₀ hk h1
      have h3 : (corners m.faces v : ℤ) = signed8 (corners m.faces v) := by exact_mod_cast h2
      have h4 := (signed8_self_iff _).1 h3.symm
      refine ⟨?_, by omega⟩
      rcases Nat.eq_zero_or_pos (corners m.faces v) with h5 | h5
      · exfalso
        apply hs
        rw [h5]
        rfl
      · exact h5
  · rintro ⟨h1, h2⟩
    rw [(signed8_self_iff _).2 (by omega), if_neg (by exact_mod_cast (by omega : corners m.faces v ≠ 0))]
    have : ((corners m.faces v : ℕ) : ℂ) ≠ 0 := by exact_mod_cast (by omega : corners m.faces v ≠ 0)
    congr 2
    funext k
    push_cast
    field_simp

theorem fan_corners (n : ℕ) : corners (fan n) 0 = 2 * n := by
  simp [corners, fan, Face.toList, mul_comm]

/-- Around a vertex shared by 64 to 127 triangles, of which it is the first vertex, a uniform motion is given to the vertex in
the opposite direction; around 128 triangles the result is no number. -/
theorem node_fan (c : ι → ℂ) (n : ℕ) (m : Mesh V) (hm : m.faces = fan n) (hv : 0 < m.vertices.length) (r : List (Option (ι → ℂ)))
    (h : nodeData m (List.replicate m.faces.length c) = some r) :
    (64 ≤ n → n < 128 → r[0]? = some (some fun k => -(n / (128 - n : ℕ) : ℂ) * c k)) ∧ (n = 128 → r[0]? = some none) := by
  constructor
  · intro h1 h2
    have hs : signed8 (2 * n) = -(2 * (128 - n : ℕ) : ℕ) := by simp only [signed8]; omega
    rw [node_get m _ r h 0 hv, hm, fan_corners, hs, if_neg (by omega)]
    have hw : ∀ k, weighted (fun f => f.toList.count 0) (fan n) (List.replicate (fan n).length c) k = ((2 * n : ℕ) : ℂ) * c k :=
      fun k => by rw [weighted_const, ← fan_corners]; rfl
    simp only [hw]
    have h3 : ((128 - n : ℕ) : ℂ) ≠ 0 := by exact_mod_cast (by omega : 128 - n ≠ 0)
    congr 2
    funext k
    push_cast
    field_simp
  · intro h1
    rw [node_missing_iff m _ r h 0 hv, hm, fan_corners, h1]

/-- The vertex shared by the triangle and the quadrangle gets two thirds of the value of the triangle instead of the half, and
the other vertex that they share gets the half. -/
theorem node_average_violated : ∃ (m : Mesh (V3 ℝ)) (r : List (Option (Unit → ℂ))), m.Valid ∧
    nodeData m [fun _ => 1, fun _ => 0] = some r ∧ around m.faces 0 = [0, 1] ∧ around m.faces 2 = [0, 1] ∧
    r[0]? = some (some fun _ => 2 / 3) ∧ r[2]? = some (some fun _ => 1 / 2) := by
  refine ⟨⟨[⟨0, 0, 0⟩, ⟨1, 0, 0⟩, ⟨0, 1, 0⟩, ⟨-1, 1, 0⟩, ⟨-1, 0, 0⟩], [⟨0, 1, 2, 0⟩, ⟨0, 2, 3, 4⟩]⟩, _,
    by simp [Mesh.Valid, Face.toList], if_pos rfl, by decide, by decide, ?_, ?_⟩
  · refine (node_weighted (⟨[⟨0, 0, 0⟩, ⟨1, 0, 0⟩, ⟨0, 1, 0⟩, ⟨-1, 1, 0⟩, ⟨-1, 0, 0⟩], [⟨0, 1, 2, 0⟩, ⟨0, 2, 3, 4⟩]⟩ : Mesh (V3 ℝ))
      [fun _ => 1, fun _ => 0] _ (if_pos rfl) 0 (by simp) (by decide) (by decide)).trans ?_
    simp [weighted, corners, Face.toList]
  · refine (node_weighted (⟨[⟨0, 0, 0⟩, ⟨1, 0, 0⟩, ⟨0, 1, 0⟩, ⟨-1, 1, 0⟩, ⟨-1, 0, 0⟩], [⟨0, 1, 2, 0⟩, ⟨0, 2, 3, 4⟩]⟩ : Mesh (V3 ℝ))
      [fun _ => 1, fun _ => 0] _ (if_pos rfl) 2 (by simp) (by decide) (by decide)).trans ?_
    simp [weighted, corners, Face.toList]

/-- The two ways to write the same triangle give other values to the vertices. -/
theorem node_encoding_violated : ∃ (vs : List (V3 ℝ)) (r r' : List (Option (Unit → ℂ))),
    nodeData (⟨vs, [⟨0, 1, 2, 0⟩, ⟨0, 2, 3, 4⟩]⟩ : Mesh (V3 ℝ)) [fun _ => 1, fun _ => 0] = some r ∧
    nodeData (⟨vs, [⟨1, 2, 0, 1⟩, ⟨0, 2, 3, 4⟩]⟩ : Mesh (V3 ℝ)) [fun _ => 1, fun _ => 0] = some r' ∧ r[0]? ≠ r'[0]? := by
  refine ⟨[⟨0, 0, 0⟩, ⟨1, 0, 0⟩, ⟨0, 1, 0⟩, ⟨-1, 1, 0⟩, ⟨-1, 0, 0⟩], _, _, if_pos rfl, if_pos rfl, ?_⟩
  have h1 := node_weighted (⟨[⟨0, 0, 0⟩, ⟨1, 0, 0⟩, ⟨0, 1, 0⟩, ⟨-1, 1, 0⟩, ⟨-1, 0, 0⟩], [⟨0, 1, 2, 0⟩, ⟨0, 2, 3, 4⟩]⟩ : Mesh (V3 ℝ))
    [fun _ : Unit => 1, fun _ => 0] _ (if_pos rfl) 0 (by simp) (by decide) (by decide)
  have h2 := node_weighted (⟨[⟨0, 0, 0⟩, ⟨1, 0, 0⟩, ⟨0, 1, 0⟩, ⟨-1, 1, 0⟩, ⟨-1, 0, 0⟩], [⟨1, 2, 0, 1⟩, ⟨0, 2, 3, 4⟩]⟩ : Mesh (V3 ℝ))
    [fun _ : Unit => 1, fun _ => 0] _ (if_pos rfl) 0 (by simp) (by decide) (by decide)
  refine fun h3 => absurd (h1.symm.trans (h3.trans h2)) ?_
  simp only [weighted, corners, Face.toList, Option.some.injEq]
  intro h
  have := congrFun h ()
  simp at this
  norm_num at this

/-- A mesh of 64 triangles around a vertex: the vertex goes down when all the panels go up. -/
example : ∃ r : List (Option (Fin 3 → ℂ)),
    nodeData (⟨[⟨0, 0, 0⟩, ⟨1, 0, 0⟩, ⟨0, 1, 0⟩], fan 64⟩ : Mesh (V3 ℝ)) (List.replicate (fan 64).length ![0, 0, 1]) = some r ∧
      r[0]? = some (some fun k => -(64 / (128 - 64 : ℕ) : ℂ) * ![0, 0, 1] k) := by
  have h : nodeData (⟨[⟨0, 0, 0⟩, ⟨1, 0, 0⟩, ⟨0, 1, 0⟩], fan 64⟩ : Mesh (V3 ℝ)) (List.replicate (fan 64).length ![0, 0, 1]) ≠ none := by
    rw [Ne, (node_data_fails_iff _ _).1]
    simp
  obtain ⟨r, hr⟩ := Option.ne_none_iff_exists'.1 h
  refine ⟨r, hr, ?_⟩
  have := (node_fan ![0, 0, 1] 64 _ rfl (by simp) r hr).1 (by norm_num) (by norm_num)
  exact_mod_cast this

/-- Four quadrangles around a vertex meet the hypotheses of `node_average`. -/
example : (∀ f ∈ [(⟨0, 1, 2, 3⟩ : Face), ⟨0, 3, 4, 5⟩, ⟨0, 5, 6, 7⟩, ⟨0, 7, 8, 1⟩], Once 0 f) ∧
    (around [⟨0, 1, 2, 3⟩, ⟨0, 3, 4, 5⟩, ⟨0, 5, 6, 7⟩, ⟨0, 7, 8, 1⟩] 0).length = 4 := by
  refine ⟨?_, by decide⟩
  intro f hf
  simp only [List.mem_cons, List.not_mem_nil, or_false] at hf
  rcases hf with rfl | rfl | rfl | rfl <;> (unfold Once; decide)

/-! ## Frames -/

/-- The value at frame `i` of a loop is the real part of the complex amplitude times `exp(-iωt)`, at the fraction `i/n` of the
period. -/
theorem frame_value (z : ℂ) (i n : ℕ) :
    current z i n = (z * Complex.exp (-(2 * Real.pi * i / n : ℝ) * Complex.I)).re := by
  have h : z * Complex.exp (-(2 * Real.pi * i / n : ℝ) * Complex.I) =
      ‖z‖ * Complex.exp ((z.arg - 2 * Real.pi * i / n : ℝ) * Complex.I) := by
    conv_lhs => rw [← Complex.norm_mul_exp_arg_mul_I z]
    rw [mul_assoc, ← Complex.exp_add]
    congr 2
    push_cast
    ring
  rw [h, Complex.re_ofReal_mul, Complex.exp_ofReal_mul_I_re]
  rfl

/-- The animation is periodic: the calls `i` and `i + n` show the same value. -/
theorem frame_periodic (z : ℂ) (i n : ℕ) (hn : n ≠ 0) : current z (i + n) n = current z i n := by
  have hn' : (n : ℝ) ≠ 0 := by exact_mod_cast hn
  have : z.arg - 2 * Real.pi * ((i + n : ℕ) : ℝ) / n = z.arg - 2 * Real.pi * i / n - 2 * Real.pi := by
    push_cast
    field_simp
    ring
  rw [current, this, Real.cos_sub_two_pi]
  rfl

/-- What is shown at any call is the value at that time. -/
theorem frame_shown (z : ℂ) (call n k : ℕ) (h : shownFrame call n = some k) : current z k n = current z call n := by
  simp only [shownFrame] at h
  split at h <;> simp at h
  rename_i hn
  subst h
  conv_rhs => rw [← Nat.mod_add_div call n]
  induction call / n with
  | zero => simp
  | succ q ih => rw [Nat.mul_succ, ← add_assoc, frame_periodic z _ n hn, ih]

/-- The animation cannot be shown exactly when a loop has less than one frame. -/
theorem frame_fails_iff (fps : ℕ) (duration : ℝ) (call : ℕ) :
    shownFrame call (framesPerLoop fps duration) = none ↔ fps * duration < 1 := by
  simp [shownFrame, framesPerLoop, Nat.floor_eq_zero]

theorem maxColor_ge (zs : List ℂ) (mx : ℝ) (h : maxColor zs = some mx) : (∀ z ∈ zs, ‖z‖ ≤ mx) ∧ ∃ z ∈ zs, ‖z‖ = mx := by
  cases zs with
  | nil => simp [maxColor] at h
  | cons z zs =>
    simp only [maxColor, Option.some.injEq] at h
    have key : ∀ (l : List ℂ) (a : ℝ), (∀ w ∈ l, ‖w‖ ≤ l.foldl (fun a w => max a ‖w‖) a) ∧ a ≤ l.foldl (fun a w => max a ‖w‖) a ∧
        (l.foldl (fun a w => max a ‖w‖) a = a ∨ ∃ w ∈ l, ‖w‖ = l.foldl (fun a w => max a ‖w‖) a) := by
      intro l
      induction l with
      | nil => simp
      | cons w l ih =>
        intro a
        obtain ⟨h1, h2, h3⟩ := ih (max a ‖w‖)
        simp only [List.foldl_cons]
        refine ⟨?_, le_trans (le_max_left _ _) h2, ?_⟩
        · intro u hu
          rcases List.mem_cons.1 hu with rfl | hu
          · exact le_trans (le_max_right _ _) h2
          · exact h1 u hu
        · rcases h3 with h3 | ⟨u, hu, h3⟩
          · rcases max_choice a ‖w‖ with h4 | h4
            · left; rw [h3, h4]
            · right; exact ⟨w, by simp, by rw [h3, h4]⟩
          · right; exact ⟨u, by simp [hu], h3⟩
    obtain ⟨h1, h2, h3⟩ := key zs ‖z‖
    rw [h] at h1 h2 h3
    refine ⟨fun w hw => ?_, ?_⟩
    · rcases List.mem_cons.1 hw with rfl | hw
      · exact h2
      · exact h1 w hw
    · rcases h3 with h3 | ⟨w, hw, h3⟩
      · exact ⟨z, by simp, h3.symm⟩
      · exact ⟨w, by simp [hw], h3⟩

/-- The scalars are between 0 and 1, one half being the value zero, with one scale for the whole loop; they are no numbers
exactly when all the data is zero, and the function fails exactly when there are no faces. -/
theorem colors_spec (zs : List ℂ) (i n : ℕ) :
    (colors zs i n = none ↔ zs = []) ∧
    ∀ cs, colors zs i n = some cs → cs.length = zs.length ∧
      ((∀ z ∈ zs, z = 0) → ∀ c ∈ cs, c = none) ∧
      ((∃ z ∈ zs, z ≠ 0) → ∃ mx : ℝ, 0 < mx ∧ (∀ z ∈ zs, ‖z‖ ≤ mx) ∧ (∃ z ∈ zs, ‖z‖ = mx) ∧
        ∀ (j : ℕ) (z : ℂ), zs[j]? = some z → ∃ c : ℝ, cs[j]? = some (some c) ∧ 0 ≤ c ∧ c ≤ 1 ∧
          (2 * c - 1) * mx = current z i n) := by
  refine ⟨?_, fun cs h => ?_⟩
  · cases zs <;> simp [colors, maxColor]
  · simp only [colors, Option.map_eq_some_iff] at h
    obtain ⟨mx, h1, h2⟩ := h
    obtain ⟨h3, z0, hz0, h4⟩ := maxColor_ge zs mx h1
    subst h2
    refine ⟨by simp, fun hz c hc => ?_, fun ⟨w, hw, hw0⟩ => ?_⟩
    · have : mx = 0 := by rw [← h4, hz z0 hz0, norm_zero]
      simp only [this, if_true, List.mem_map] at hc
      obtain ⟨_, _, rfl⟩ := hc
      rfl
    · have hpos : 0 < mx := lt_of_lt_of_le (norm_pos_iff.2 hw0) (h3 w hw)
      refine ⟨mx, hpos, h3, ⟨z0, hz0, h4⟩, fun j z hj => ?_⟩
      have hz := h3 z (List.mem_of_getElem? hj)
      have hcos := Real.abs_cos_le_one (z.arg - 2 * Real.pi * i / n)
      have hb : |current z i n| ≤ mx := by
        rw [current, abs_mul, abs_of_nonneg (norm_nonneg z)]
        calc ‖z‖ * |Real.cos (z.arg - 2 * Real.pi * i / n)| ≤ ‖z‖ * 1 := by gcongr
          _ ≤ mx := by simpa using hz
      obtain ⟨hb1, hb2⟩ := abs_le.1 hb
      refine ⟨(current z i n + mx) / (2 * mx), ?_, ?_, ?_, ?_⟩
      · rw [List.getElem?_map, hj, Option.map_some, if_neg hpos.ne']
      · apply div_nonneg <;> linarith
      · rw [div_le_one (by linarith)]; linarith
      · field_simp; ring

/-- In a uniform motion, the vertices of a mesh with between 1 and 127 corners at each vertex move together: each frame is the
mesh translated by the real part of the motion at that time. -/
theorem frame_uniform (m : Mesh (V3 ℝ)) (c : Fin 3 → ℂ) (hc : c ≠ 0)
    (hm : ∀ v < m.vertices.length, 1 ≤ corners m.faces v ∧ corners m.faces v ≤ 127) (i n : ℕ) :
    ∃ r, nodeData m (List.replicate m.faces.length c) = some r ∧
      frame m r i n = m.vertices.map fun p => some (p + ⟨current (c 0) i n, current (c 1) i n, current (c 2) i n⟩) := by
  have h : nodeData m (List.replicate m.faces.length c) ≠ none := by
    rw [Ne, (node_data_fails_iff _ _).1]
    simp
  obtain ⟨r, hr⟩ := Option.ne_none_iff_exists'.1 h
  refine ⟨r, hr, ?_⟩
  have hl := (node_data_fails_iff _ _).2 r hr
  apply List.ext_getElem?
  intro v
  rw [frame, List.getElem?_zipWith, List.getElem?_map]
  by_cases hv : v < m.vertices.length
  · rw [(node_uniform_iff m c hc r hr v hv).2 (hm v hv), List.getElem?_eq_getElem hv]
    simp
  · rw [List.getElem?_eq_none (by omega)]
    simp

/-- Each vertex of a free surface moves vertically: by the elevation at that time, where the elevation is uniform. -/
theorem elevation_vertical (m : Mesh (V3 ℝ)) (elevation : List ℂ) (r : List (Option (Fin 3 → ℂ)))
    (h : nodeData m (elevationMotion elevation) = some r) (v : ℕ) (d : Fin 3 → ℂ) (hd : r[v]? = some (some d)) :
    d 0 = 0 ∧ d 1 = 0 := by
  have hv : v < m.vertices.length := by
    rw [← (node_data_fails_iff _ _).2 r h]
    exact (List.getElem?_eq_some_iff.1 hd).1
  have hw : ∀ k : Fin 3, k ≠ 2 → weighted (fun f => f.toList.count v) m.faces (elevationMotion elevation) k = 0 := by
    intro k hk
    apply List.sum_eq_zero
    intro x hx
    obtain ⟨⟨f, y⟩, hp, rfl⟩ := List.mem_map.1 hx
    have := (List.of_mem_zip hp).2
    obtain ⟨e, _, rfl⟩ := List.mem_map.1 this
    fin_cases k <;> simp_all
  rw [node_get m _ r h v hv] at hd
  split at hd
  · simp at hd
  · simp only [Option.some.injEq] at hd
    subst hd
    simp [hw 0 (by decide), hw 1 (by decide)]

/-- A square of one panel moving in heave. -/
example : ∀ v < 4, 1 ≤ corners [⟨0, 1, 2, 3⟩] v ∧ corners [⟨0, 1, 2, 3⟩] v ≤ 127 := by decide

example : shownFrame 50 (framesPerLoop 24 1) = some 2 := by
  norm_num [shownFrame, framesPerLoop]

end Verif.Scene
