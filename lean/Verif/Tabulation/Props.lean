import Verif.Tabulation.Model
import Mathlib.Tactic.FieldSimp
import Mathlib.Tactic.Ring
import Mathlib.Tactic.LinearCombination
import Mathlib.Tactic.SplitIfs
import Mathlib.Tactic.Linarith
import Mathlib.Tactic.NormNum

/-!
# C46: interpolation in the tables of the Green function

The interpolation returns the tabulated value at every node of the two default grids, it reproduces every function that is
quadratic in each variable, its three nodes surround the point, and it reads inside the table when the table has three
nodes or more in each direction. Tables of two nodes are accepted and read outside.
-/

namespace Verif.Tabulation

/-! ## What is read -/

/-- The indices exist in a table of `n` values. -/
def Inside (n : ℕ) (l : List ℕ) : Prop := ∀ k ∈ l, 1 ≤ k ∧ k ≤ n

theorem middle_bounds {n : ℕ} (h : 3 ≤ n) (index : ℤ) : 2 ≤ middle n index ∧ middle n index + 1 ≤ n := by
  unfold middle; omega

/-- Whatever the point, the three nodes are inside the table exactly when it has at least three of them. -/
theorem stencil_inside_iff (n : ℕ) (index : ℤ) : Inside n (stencil (middle n index)) ↔ 3 ≤ n := by
  constructor
  · intro h
    have := h (middle n index + 1) (by simp [stencil])
    unfold middle at this
    omega
  · intro h k hk
    have hb := middle_bounds h index
    simp only [stencil, List.mem_cons, List.not_mem_nil, or_false] at hk
    omega

/-- A table of two nodes in a direction passes the test of `source` and is read outside. -/
theorem two_nodes_violated : ∃ (nr nz : ℕ) (rr zr : ℕ → ℝ) (r z : ℝ), 0 < r ∧ z < 0 ∧ source nr nz rr zr r z = .table ∧
    ∀ m, ¬ Inside nr (stencil (middle nr (nearestR nr rr m r))) := by
  refine ⟨2, 3, fun i => i, fun j => -j, 1, -1, by norm_num, by norm_num, ?_, ?_⟩
  · have h1 : |(-1 : ℝ)| < |(-((3 : ℕ) : ℝ))| := by rw [abs_neg, abs_neg]; norm_num
    have h2 : (1 : ℝ) < ((2 : ℕ) : ℝ) := by norm_num
    unfold source
    rw [if_neg (by omega), if_pos ⟨h1, h2⟩]
  · intro m h
    have := (stencil_inside_iff 2 _).1 h
    omega

/-! ## Quadratic functions -/

/-- Quadratic in each variable. -/
def Biquadratic (f : ℝ → ℝ → ℝ) : Prop :=
  ∃ c : Fin 3 → Fin 3 → ℝ, ∀ r z, f r z =
    (c 0 0 + c 0 1 * z + c 0 2 * z ^ 2) + (c 1 0 + c 1 1 * z + c 1 2 * z ^ 2) * r +
      (c 2 0 + c 2 1 * z + c 2 2 * z ^ 2) * r ^ 2

theorem quadratic_exact {u v w : ℝ} (h1 : u ≠ v) (h2 : v ≠ w) (h3 : u ≠ w) (a b c x : ℝ) :
    pl2 v w u x * (a + b * u + c * u ^ 2) + (pl2 w u v x * (a + b * v + c * v ^ 2) +
      pl2 u v w x * (a + b * w + c * w ^ 2)) = a + b * x + c * x ^ 2 := by
  have e1 : u - v ≠ 0 := sub_ne_zero.2 h1
  have e2 : v - w ≠ 0 := sub_ne_zero.2 h2
  have e3 : u - w ≠ 0 := sub_ne_zero.2 h3
  have e4 : v - u ≠ 0 := sub_ne_zero.2 h1.symm
  have e5 : w - v ≠ 0 := sub_ne_zero.2 h2.symm
  have e6 : w - u ≠ 0 := sub_ne_zero.2 h3.symm
  have f4 : v - u = -(u - v) := by ring
  have f5 : w - v = -(v - w) := by ring
  have f6 : w - u = -(u - w) := by ring
  unfold pl2
  rw [f4, f5, f6]
  field_simp
  ring

theorem lagrange_eq (rr zr : ℕ → ℝ) (i j : ℕ) (tab : ℕ → ℕ → ℝ) (r z : ℝ) :
    lagrange rr zr i j tab r z =
      pl2 (rr i) (rr (i + 1)) (rr (i - 1)) r * (tab (i - 1) (j - 1) * pl2 (zr j) (zr (j + 1)) (zr (j - 1)) z +
        (tab (i - 1) j * pl2 (zr (j + 1)) (zr (j - 1)) (zr j) z +
        tab (i - 1) (j + 1) * pl2 (zr (j - 1)) (zr j) (zr (j + 1)) z)) +
      (pl2 (rr (i + 1)) (rr (i - 1)) (rr i) r * (tab i (j - 1) * pl2 (zr j) (zr (j + 1)) (zr (j - 1)) z +
        (tab i j * pl2 (zr (j + 1)) (zr (j - 1)) (zr j) z +
        tab i (j + 1) * pl2 (zr (j - 1)) (zr j) (zr (j + 1)) z)) +
      pl2 (rr (i - 1)) (rr i) (rr (i + 1)) r * (tab (i + 1) (j - 1) * pl2 (zr j) (zr (j + 1)) (zr (j - 1)) z +
        (tab (i + 1) j * pl2 (zr (j + 1)) (zr (j - 1)) (zr j) z +
        tab (i + 1) (j + 1) * pl2 (zr (j - 1)) (zr j) (zr (j + 1)) z))) := by
  simp [lagrange, weights, stencil]

/-- The grid has different values at different indices. -/
def Distinct (n : ℕ) (range : ℕ → ℝ) : Prop := ∀ a b, 1 ≤ a → a ≤ n → 1 ≤ b → b ≤ n → range a = range b → a = b

/-- The interpolation reproduces, at all points, the functions that are quadratic in each variable. -/
theorem pick_quadratic {nr nz : ℕ} {rr zr : ℕ → ℝ} (hr : 3 ≤ nr) (hz : 3 ≤ nz) (dr : Distinct nr rr) (dz : Distinct nz zr)
    (m : Grid) {f : ℝ → ℝ → ℝ} (hf : Biquadratic f) {tab : ℕ → ℕ → ℝ}
    (ht : ∀ i j, 1 ≤ i → i ≤ nr → 1 ≤ j → j ≤ nz → tab i j = f (rr i) (zr j)) (r z : ℝ) :
    pick nr nz rr zr m tab r z = f r z := by
  obtain ⟨c, hc⟩ := hf
  unfold pick
  have bi := middle_bounds hr (nearestR nr rr m r)
  have bj := middle_bounds hz (nearestZ nz zr m z)
  generalize middle nr (nearestR nr rr m r) = i at *
  generalize middle nz (nearestZ nz zr m z) = j at *
  have r1 : rr (i - 1) ≠ rr i := fun h => by have := dr _ _ (by omega) (by omega) (by omega) (by omega) h; omega
  have r2 : rr i ≠ rr (i + 1) := fun h => by have := dr _ _ (by omega) (by omega) (by omega) (by omega) h; omega
  have r3 : rr (i - 1) ≠ rr (i + 1) := fun h => by have := dr _ _ (by omega) (by omega) (by omega) (by omega) h; omega
  have z1 : zr (j - 1) ≠ zr j := fun h => by have := dz _ _ (by omega) (by omega) (by omega) (by omega) h; omega
  have z2 : zr j ≠ zr (j + 1) := fun h => by have := dz _ _ (by omega) (by omega) (by omega) (by omega) h; omega
  have z3 : zr (j - 1) ≠ zr (j + 1) := fun h => by have := dz _ _ (by omega) (by omega) (by omega) (by omega) h; omega
  have inner : ∀ k, 1 ≤ k → k ≤ nr →
      tab k (j - 1) * pl2 (zr j) (zr (j + 1)) (zr (j - 1)) z + (tab k j * pl2 (zr (j + 1)) (zr (j - 1)) (zr j) z +
        tab k (j + 1) * pl2 (zr (j - 1)) (zr j) (zr (j + 1)) z) = f (rr k) z := by
    intro k hk hk'
    rw [ht k (j - 1) hk hk' (by omega) (by omega), ht k j hk hk' (by omega) (by omega),
      ht k (j + 1) hk hk' (by omega) (by omega), hc, hc, hc, hc]
    have := quadratic_exact z1 z2 z3 (c 0 0 + c 1 0 * rr k + c 2 0 * rr k ^ 2) (c 0 1 + c 1 1 * rr k + c 2 1 * rr k ^ 2)
      (c 0 2 + c 1 2 * rr k + c 2 2 * rr k ^ 2) z
    linear_combination this
  rw [lagrange_eq, inner _ (by omega) (by omega), inner _ (by omega) (by omega), inner _ (by omega) (by omega),
    hc, hc, hc, hc]
  exact quadratic_exact r1 r2 r3 _ _ _ _

/-! ## Nodes -/

theorem pl2_self {u v w : ℝ} (h1 : u ≠ w) (h2 : v ≠ w) : pl2 u v w w = 1 := by
  unfold pl2
  exact div_self (mul_ne_zero (sub_ne_zero.2 h1.symm) (sub_ne_zero.2 h2.symm))

theorem pl2_left (u v w : ℝ) : pl2 u v w u = 0 := by simp [pl2]

theorem pl2_right (u v w : ℝ) : pl2 u v w v = 0 := by simp [pl2]

/-- When the point is one of the nodes that are read, the tabulated value is returned. -/
theorem lagrange_node {nr nz : ℕ} {rr zr : ℕ → ℝ} (dr : Distinct nr rr) (dz : Distinct nz zr) {i j : ℕ}
    (hi : 2 ≤ i) (hi' : i + 1 ≤ nr) (hj : 2 ≤ j) (hj' : j + 1 ≤ nz) (tab : ℕ → ℕ → ℝ) {a b : ℕ}
    (ha : a ∈ stencil i) (hb : b ∈ stencil j) : lagrange rr zr i j tab (rr a) (zr b) = tab a b := by
  have r1 : rr (i - 1) ≠ rr i := fun h => by have := dr _ _ (by omega) (by omega) (by omega) (by omega) h; omega
  have r2 : rr i ≠ rr (i + 1) := fun h => by have := dr _ _ (by omega) (by omega) (by omega) (by omega) h; omega
  have r3 : rr (i - 1) ≠ rr (i + 1) := fun h => by have := dr _ _ (by omega) (by omega) (by omega) (by omega) h; omega
  have z1 : zr (j - 1) ≠ zr j := fun h => by have := dz _ _ (by omega) (by omega) (by omega) (by omega) h; omega
  have z2 : zr j ≠ zr (j + 1) := fun h => by have := dz _ _ (by omega) (by omega) (by omega) (by omega) h; omega
  have z3 : zr (j - 1) ≠ zr (j + 1) := fun h => by have := dz _ _ (by omega) (by omega) (by omega) (by omega) h; omega
  rw [lagrange_eq]
  simp only [stencil, List.mem_cons, List.not_mem_nil, or_false] at ha hb
  rcases ha with rfl | rfl | rfl <;> rcases hb with rfl | rfl | rfl <;>
    simp [pl2_self, pl2_left, pl2_right, r1, r2, r3, z1, z2, z3, r1.symm, r2.symm, r3.symm, z1.symm, z2.symm, z3.symm]

/-- The node `k` is read when the index is `k`. -/
theorem mem_stencil_middle {n k : ℕ} (hn : 3 ≤ n) (h1 : 1 ≤ k) (h2 : k ≤ n) : k ∈ stencil (middle n (k : ℤ)) := by
  simp only [stencil, middle, List.mem_cons, List.not_mem_nil, or_false]
  omega

/-- It is also read when the index is one less. -/
theorem mem_stencil_before {n k : ℕ} (hn : 3 ≤ n) (h1 : 1 ≤ k) (h2 : k ≤ n) : k ∈ stencil (middle n ((k : ℤ) - 1)) := by
  simp only [stencil, middle, List.mem_cons, List.not_mem_nil, or_false]
  omega

/-! ## Numbers -/

theorem nint_int (n : ℤ) : nint (n : ℝ) = n := by
  unfold nint
  split_ifs
  · rw [Int.floor_eq_iff]; constructor <;> linarith
  · rw [Int.ceil_eq_iff]; constructor <;> linarith

theorem fint_int (n : ℤ) : fint (n : ℝ) = n := by
  unfold fint; split_ifs <;> simp

theorem nint_near (x : ℝ) : x - 1 / 2 ≤ nint x ∧ (nint x : ℝ) ≤ x + 1 / 2 := by
  unfold nint
  split_ifs
  · have h1 := Int.floor_le (x + 1 / 2)
    have h2 := Int.lt_floor_add_one (x + 1 / 2)
    constructor <;> linarith
  · have h1 := Int.le_ceil (x - 1 / 2)
    have h2 := Int.ceil_lt_add_one (x - 1 / 2)
    constructor <;> linarith

theorem fint_near (x : ℝ) : x - 1 ≤ fint x ∧ (fint x : ℝ) ≤ x + 1 := by
  unfold fint
  split_ifs
  · have h1 := Int.floor_le x
    have h2 := Int.lt_floor_add_one x
    constructor <;> linarith
  · have h1 := Int.le_ceil x
    have h2 := Int.ceil_lt_add_one x
    constructor <;> linarith

theorem log10_pow10 (x : ℝ) : log10 (pow10 x) = x := Real.logb_rpow (by norm_num) (by norm_num)

theorem pow10_log10 {x : ℝ} (h : 0 < x) : pow10 (log10 x) = x := Real.rpow_logb (by norm_num) (by norm_num) h

theorem pow10_pos (x : ℝ) : 0 < pow10 x := Real.rpow_pos_of_pos (by norm_num) x

theorem pow10_lt {x y : ℝ} : pow10 x < pow10 y ↔ x < y := Real.rpow_lt_rpow_left_iff (by norm_num)

theorem pow10_le {x y : ℝ} : pow10 x ≤ pow10 y ↔ x ≤ y := Real.rpow_le_rpow_left_iff (by norm_num)

theorem pow10_zero : pow10 0 = 1 := Real.rpow_zero _

theorem pow10_nat (n : ℕ) : pow10 (n : ℝ) = 10 ^ n := Real.rpow_natCast _ _

theorem pow10_neg (x : ℝ) : pow10 (-x) = (pow10 x)⁻¹ := Real.rpow_neg (by norm_num) _

theorem pow10_m10 : pow10 (-10) = 1e-10 := by
  have : pow10 (10 : ℝ) = 10 ^ 10 := by exact_mod_cast pow10_nat 10
  rw [pow10_neg, this]; norm_num

theorem pow10_m6 : pow10 (-6) = 1e-6 := by
  have : pow10 (6 : ℝ) = 10 ^ 6 := by exact_mod_cast pow10_nat 6
  rw [pow10_neg, this]; norm_num

theorem pow10_m2 : pow10 (-2) = 1e-2 := by
  have : pow10 (2 : ℝ) = 10 ^ 2 := by exact_mod_cast pow10_nat 2
  rw [pow10_neg, this]; norm_num

/-! ## The scaled grid of `r` -/

theorem indexOf1_bounds {nr : ℕ} (h : 3 ≤ nr) : 0 ≤ indexOf1 nr ∧ indexOf1 nr < nr := by
  have := nint_near ((nr : ℝ) / 676 * 81)
  have hn : (3 : ℝ) ≤ nr := by exact_mod_cast h
  unfold indexOf1
  constructor
  · unfold nint
    rw [if_pos (by positivity)]
    exact Int.floor_nonneg.2 (by positivity)
  · have : (nint ((nr : ℝ) / 676 * 81) : ℝ) < nr := by linarith
    exact_mod_cast this

/-- The nodes are strictly increasing. -/
def Increasing (n : ℕ) (range : ℕ → ℝ) : Prop := ∀ a b, 1 ≤ a → a < b → b ≤ n → range a < range b

theorem Increasing.distinct {n : ℕ} {range : ℕ → ℝ} (h : Increasing n range) : Distinct n range := by
  intro a b ha ha' hb hb' hab
  rcases lt_trichotomy a b with hlt | heq | hgt
  · exact absurd hab (h a b ha hlt hb').ne
  · exact heq
  · exact absurd hab (h b a hb hgt ha').ne'

/-- The nodes are strictly decreasing. -/
def Decreasing (n : ℕ) (range : ℕ → ℝ) : Prop := ∀ a b, 1 ≤ a → a < b → b ≤ n → range b < range a

theorem Decreasing.distinct {n : ℕ} {range : ℕ → ℝ} (h : Decreasing n range) : Distinct n range := by
  intro a b ha ha' hb hb' hab
  rcases lt_trichotomy a b with hlt | heq | hgt
  · exact absurd hab (h a b ha hlt hb').ne'
  · exact heq
  · exact absurd hab (h b a hb hgt ha').ne

theorem scaled_small {nr : ℕ} {rmax : ℝ} {i : ℕ} (h : (i : ℤ) < indexOf1 nr) :
    rSpacing nr rmax .scaled i = pow10 (-10 * (1 - ((i : ℝ) - 1) / ((indexOf1 nr : ℝ) - 1))) := by
  simp only [rSpacing, if_pos h]

theorem scaled_large {nr : ℕ} {rmax : ℝ} {i : ℕ} (h : ¬ (i : ℤ) < indexOf1 nr) :
    rSpacing nr rmax .scaled i = (rmax - 1) / ((nr : ℝ) - indexOf1 nr) * ((i : ℝ) - indexOf1 nr) + 1 := by
  simp only [rSpacing, if_neg h]

theorem small_lt_one {nr : ℕ} {rmax : ℝ} {i : ℕ} (hi : 1 ≤ i) (h : (i : ℤ) < indexOf1 nr) :
    rSpacing nr rmax .scaled i < 1 := by
  rw [scaled_small h]
  refine lt_of_lt_of_eq ((pow10_lt (y := 0)).2 ?_) pow10_zero
  have h1 : (i : ℝ) < indexOf1 nr := by exact_mod_cast h
  have h2 : (1 : ℝ) ≤ i := by exact_mod_cast hi
  have : ((i : ℝ) - 1) / ((indexOf1 nr : ℝ) - 1) < 1 := by
    rw [div_lt_one (by linarith)]; linarith
  linarith

theorem slope_pos {nr : ℕ} {rmax : ℝ} (hn : 3 ≤ nr) (hr : 1 < rmax) : 0 < (rmax - 1) / ((nr : ℝ) - indexOf1 nr) := by
  have : (indexOf1 nr : ℝ) < nr := by exact_mod_cast (indexOf1_bounds hn).2
  exact div_pos (by linarith) (by linarith)

theorem large_ge_one {nr : ℕ} {rmax : ℝ} (hn : 3 ≤ nr) (hr : 1 < rmax) {i : ℕ} (h : ¬ (i : ℤ) < indexOf1 nr) :
    1 ≤ rSpacing nr rmax .scaled i := by
  rw [scaled_large h]
  have h1 : (indexOf1 nr : ℝ) ≤ i := by exact_mod_cast not_lt.1 h
  have := mul_nonneg (slope_pos hn hr).le (sub_nonneg.2 h1)
  linarith

theorem scaled_r_increasing {nr : ℕ} {rmax : ℝ} (hn : 3 ≤ nr) (hr : 1 < rmax) :
    Increasing nr (rSpacing nr rmax .scaled) := by
  intro a b ha hab hb
  have hab' : (a : ℝ) < b := by exact_mod_cast hab
  by_cases h2 : (b : ℤ) < indexOf1 nr
  · have h1 : (a : ℤ) < indexOf1 nr := by omega
    rw [scaled_small h1, scaled_small h2, pow10_lt]
    have h3 : (b : ℝ) < indexOf1 nr := by exact_mod_cast h2
    have h4 : (1 : ℝ) ≤ a := by exact_mod_cast ha
    have : ((a : ℝ) - 1) / ((indexOf1 nr : ℝ) - 1) < ((b : ℝ) - 1) / ((indexOf1 nr : ℝ) - 1) :=
      div_lt_div_of_pos_right (by linarith) (by linarith)
    linarith
  · by_cases h1 : (a : ℤ) < indexOf1 nr
    · exact lt_of_lt_of_le (small_lt_one ha h1) (large_ge_one hn hr h2)
    · rw [scaled_large h1, scaled_large h2]
      have := mul_lt_mul_of_pos_left (sub_lt_sub_right hab' (indexOf1 nr : ℝ)) (slope_pos hn hr)
      linarith

theorem scaled_r_last {nr : ℕ} {rmax : ℝ} (hn : 3 ≤ nr) : rSpacing nr rmax .scaled nr = rmax := by
  have h := (indexOf1_bounds hn).2
  rw [scaled_large (by omega)]
  have : (indexOf1 nr : ℝ) < nr := by exact_mod_cast h
  have : (nr : ℝ) - indexOf1 nr ≠ 0 := by linarith
  field_simp
  ring

/-- A good index for `x`: the nodes before it are on its left, the nodes after it on its right. -/
def Good (n : ℕ) (range : ℕ → ℝ) (x : ℝ) (index : ℤ) : Prop :=
  (∀ k : ℕ, 1 ≤ k → k ≤ n → (k : ℤ) < index → range k ≤ x) ∧
  (∀ k : ℕ, 1 ≤ k → k ≤ n → index < (k : ℤ) → x ≤ range k)

theorem good_brackets {n : ℕ} {range : ℕ → ℝ} {x : ℝ} {index : ℤ} (hn : 3 ≤ n) (h : Good n range x index)
    (h1 : range 1 ≤ x) (h2 : x ≤ range n) :
    range (middle n index - 1) ≤ x ∧ x ≤ range (middle n index + 1) := by
  have hb := middle_bounds hn index
  constructor
  · by_cases hm : middle n index = 2
    · rw [hm]; exact h1
    · refine h.1 _ (by omega) (by omega) ?_
      unfold middle at *
      omega
  · by_cases hm : middle n index + 1 = n
    · rw [hm]; exact h2
    · refine h.2 _ (by omega) (by omega) ?_
      unfold middle at *
      omega

theorem scaled_r_good {nr : ℕ} {rmax : ℝ} (hn : 3 ≤ nr) (hr : 1 < rmax) {r : ℝ} (h0 : rSpacing nr rmax .scaled 1 ≤ r) :
    Good nr (rSpacing nr rmax .scaled) r (nearestR nr (rSpacing nr rmax .scaled) .scaled r) := by
  have hI := indexOf1_bounds hn
  have hIr : (indexOf1 nr : ℝ) < nr := by exact_mod_cast hI.2
  simp only [nearestR, scaled_r_last hn]
  by_cases hr1 : r < 1
  · -- then the first node is small
    have hI2 : (1 : ℤ) < indexOf1 nr := by
      by_contra hc
      have := large_ge_one (i := 1) hn hr (by push_cast; omega)
      linarith
    have hI2r : (1 : ℝ) < indexOf1 nr := by exact_mod_cast hI2
    have hfirst : rSpacing nr rmax .scaled 1 = 1e-10 := by
      rw [scaled_small (by exact_mod_cast hI2), ← pow10_m10]; norm_num
    have hr10 : ¬ r < 1e-10 := by rw [← hfirst]; exact not_lt.2 h0
    rw [if_neg hr10, if_pos hr1]
    have hrpos : 0 < r := lt_of_lt_of_le (by norm_num) (not_lt.1 hr10)
    set X := (log10 r / 10 + 1) * ((indexOf1 nr : ℝ) - 1) + 1 with hX
    have hnear := nint_near X
    have hval : ∀ k : ℕ, -10 * (1 - ((k : ℝ) - 1) / ((indexOf1 nr : ℝ) - 1)) =
        log10 r + 10 * ((k : ℝ) - X) / ((indexOf1 nr : ℝ) - 1) := by
      intro k
      have : (indexOf1 nr : ℝ) - 1 ≠ 0 := by linarith
      rw [hX]; field_simp; ring
    have hlogneg : log10 r < 0 := by
      rw [← pow10_lt, pow10_log10 hrpos, pow10_zero]; exact hr1
    have hXI : X < indexOf1 nr := by
      have : (log10 r / 10 + 1) * ((indexOf1 nr : ℝ) - 1) < 1 * ((indexOf1 nr : ℝ) - 1) :=
        mul_lt_mul_of_pos_right (by linarith) (by linarith)
      linarith
    constructor
    · intro k hk hkn hlt
      have hltr : (k : ℝ) + 1 ≤ nint X := by exact_mod_cast hlt
      have hkI : (k : ℤ) < indexOf1 nr := by
        have : (k : ℝ) < indexOf1 nr := by linarith
        exact_mod_cast this
      rw [scaled_small hkI, hval]
      conv_rhs => rw [← pow10_log10 hrpos]
      rw [pow10_le]
      have : 10 * ((k : ℝ) - X) / ((indexOf1 nr : ℝ) - 1) ≤ 0 :=
        div_nonpos_of_nonpos_of_nonneg (by linarith) (by linarith)
      linarith
    · intro k hk hkn hlt
      by_cases hkI : (k : ℤ) < indexOf1 nr
      · have hltr : (nint X : ℝ) + 1 ≤ k := by exact_mod_cast hlt
        rw [scaled_small hkI, hval]
        conv_lhs => rw [← pow10_log10 hrpos]
        rw [pow10_le]
        have : 0 ≤ 10 * ((k : ℝ) - X) / ((indexOf1 nr : ℝ) - 1) :=
          div_nonneg (by linarith) (by linarith)
        linarith
      · exact le_trans hr1.le (large_ge_one hn hr hkI)
  · have hr1' := not_lt.1 hr1
    rw [if_neg (by norm_num; linarith), if_neg hr1]
    set X := (r - 1) * ((nr : ℝ) - indexOf1 nr) / (rmax - 1) + indexOf1 nr with hX
    have hnear := nint_near X
    have hs := slope_pos hn hr
    have hval : ∀ k : ℕ, (rmax - 1) / ((nr : ℝ) - indexOf1 nr) * ((k : ℝ) - indexOf1 nr) + 1 =
        r + (rmax - 1) / ((nr : ℝ) - indexOf1 nr) * ((k : ℝ) - X) := by
      intro k
      have e1 : (nr : ℝ) - indexOf1 nr ≠ 0 := by linarith
      have e2 : rmax - 1 ≠ 0 := by linarith
      rw [hX]; field_simp; ring
    have hXI : (indexOf1 nr : ℝ) ≤ X := by
      have : 0 ≤ (r - 1) * ((nr : ℝ) - indexOf1 nr) / (rmax - 1) :=
        div_nonneg (mul_nonneg (by linarith) (by linarith)) (by linarith)
      linarith
    constructor
    · intro k hk hkn hlt
      by_cases hkI : (k : ℤ) < indexOf1 nr
      · exact le_trans (small_lt_one hk hkI).le hr1'
      · have hltr : (k : ℝ) + 1 ≤ nint X := by exact_mod_cast hlt
        rw [scaled_large hkI, hval]
        have := mul_nonneg hs.le (by linarith : 0 ≤ X - (k : ℝ))
        linarith
    · intro k hk hkn hlt
      have hltr : (nint X : ℝ) + 1 ≤ k := by exact_mod_cast hlt
      have hkI : ¬ (k : ℤ) < indexOf1 nr := by
        intro hc
        have : (k : ℝ) < indexOf1 nr := by exact_mod_cast hc
        linarith
      rw [scaled_large hkI, hval]
      have := mul_nonneg hs.le (by linarith : 0 ≤ (k : ℝ) - X)
      linarith

theorem scaled_r_node {nr : ℕ} {rmax : ℝ} (hn : 3 ≤ nr) (hr : 1 < rmax) {a : ℕ} (ha : 1 ≤ a) :
    nearestR nr (rSpacing nr rmax .scaled) .scaled (rSpacing nr rmax .scaled a) = a := by
  have hI := indexOf1_bounds hn
  have hIr : (indexOf1 nr : ℝ) < nr := by exact_mod_cast hI.2
  simp only [nearestR, scaled_r_last hn]
  by_cases h : (a : ℤ) < indexOf1 nr
  · have h3 : (a : ℝ) < indexOf1 nr := by exact_mod_cast h
    have h4 : (1 : ℝ) ≤ a := by exact_mod_cast ha
    have h5 : 0 ≤ ((a : ℝ) - 1) / ((indexOf1 nr : ℝ) - 1) := div_nonneg (by linarith) (by linarith)
    have h10 : ¬ rSpacing nr rmax .scaled a < 1e-10 := by
      rw [scaled_small h, ← pow10_m10, pow10_lt]; linarith
    rw [if_neg h10, if_pos (small_lt_one ha h), scaled_small h, log10_pow10]
    have : (-10 * (1 - ((a : ℝ) - 1) / ((indexOf1 nr : ℝ) - 1)) / 10 + 1) * ((indexOf1 nr : ℝ) - 1) + 1 = ((a : ℤ) : ℝ) := by
      have : (indexOf1 nr : ℝ) - 1 ≠ 0 := by linarith
      push_cast; field_simp; ring
    rw [this, nint_int]
  · have h1 := large_ge_one hn hr h
    rw [if_neg (by norm_num; linarith), if_neg (not_lt.2 h1), scaled_large h]
    have : ((rmax - 1) / ((nr : ℝ) - indexOf1 nr) * ((a : ℝ) - indexOf1 nr) + 1 - 1) * ((nr : ℝ) - indexOf1 nr) / (rmax - 1)
        + indexOf1 nr = ((a : ℤ) : ℝ) := by
      have e1 : (nr : ℝ) - indexOf1 nr ≠ 0 := by linarith
      have e2 : rmax - 1 ≠ 0 := by linarith
      push_cast; field_simp; ring
    rw [this, nint_int]

/-! ## The scaled grid of `z` -/

theorem step_pos {nz : ℕ} {zmin : ℝ} (hn : 3 ≤ nz) (hz : 1e-10 < |zmin|) : 0 < (log10 |zmin| + 10) / nz := by
  have h0 : 0 < |zmin| := lt_trans (by norm_num) hz
  have : -10 < log10 |zmin| := by rw [← pow10_lt, pow10_log10 h0, pow10_m10]; exact hz
  have hn' : (0 : ℝ) < nz := by exact_mod_cast (by omega : 0 < nz)
  exact div_pos (by linarith) hn'

theorem scaled_z {nz : ℕ} {zmin : ℝ} (hn : 3 ≤ nz) (hz : 1e-10 < |zmin|) {j : ℕ} (hj : j ≤ nz) :
    zSpacing nz zmin .scaled j = -pow10 ((log10 |zmin| + 10) / nz * j - 10) := by
  have h0 : 0 < |zmin| := lt_trans (by norm_num) hz
  have hs := step_pos hn hz
  have hn' : (0 : ℝ) < nz := by exact_mod_cast (by omega : 0 < nz)
  simp only [zSpacing]
  rw [min_eq_left]
  conv_rhs => rw [← pow10_log10 h0]
  rw [pow10_le]
  have : (log10 |zmin| + 10) / nz * j ≤ (log10 |zmin| + 10) / nz * nz :=
    mul_le_mul_of_nonneg_left (by exact_mod_cast hj) hs.le
  have e : (log10 |zmin| + 10) / nz * nz = log10 |zmin| + 10 := by field_simp
  linarith

theorem scaled_z_decreasing {nz : ℕ} {zmin : ℝ} (hn : 3 ≤ nz) (hz : 1e-10 < |zmin|) :
    Decreasing nz (zSpacing nz zmin .scaled) := by
  intro a b ha hab hb
  rw [scaled_z hn hz hb, scaled_z hn hz (by omega : a ≤ nz), neg_lt_neg_iff, pow10_lt]
  have hab' : (a : ℝ) < b := by exact_mod_cast hab
  have := mul_lt_mul_of_pos_left hab' (step_pos hn hz)
  linarith

theorem scaled_z_last {nz : ℕ} {zmin : ℝ} (hn : 3 ≤ nz) (hz : 1e-10 < |zmin|) :
    zSpacing nz zmin .scaled nz = -|zmin| := by
  have h0 : 0 < |zmin| := lt_trans (by norm_num) hz
  have hn' : (0 : ℝ) < nz := by exact_mod_cast (by omega : 0 < nz)
  rw [scaled_z hn hz le_rfl]
  have e : (log10 |zmin| + 10) / nz * nz - 10 = log10 |zmin| := by field_simp; ring
  rw [e, pow10_log10 h0]

theorem scaled_z_node {nz : ℕ} {zmin : ℝ} (hn : 3 ≤ nz) (hz : 1e-10 < |zmin|) {b : ℕ} (hb' : b ≤ nz) :
    nearestZ nz (zSpacing nz zmin .scaled) .scaled (zSpacing nz zmin .scaled b) = b := by
  have hs := step_pos hn hz
  simp only [nearestZ]
  rw [scaled_z_last hn hz, abs_neg, abs_abs, scaled_z hn hz hb', abs_neg, abs_of_pos (pow10_pos _), log10_pow10]
  have : ((log10 |zmin| + 10) / nz * b - 10 + 10) / ((log10 |zmin| + 10) / nz) = ((b : ℤ) : ℝ) := by
    push_cast
    rw [sub_add_cancel, mul_div_assoc, mul_comm, div_mul_cancel₀ _ hs.ne']
  rw [this, nint_int]

theorem scaled_z_good {nz : ℕ} {zmin : ℝ} (hn : 3 ≤ nz) (hz : 1e-10 < |zmin|) {z : ℝ} (h0 : z < 0) :
    Good nz (fun j => -zSpacing nz zmin .scaled j) (-z) (nearestZ nz (zSpacing nz zmin .scaled) .scaled z) := by
  have hs := step_pos hn hz
  simp only [nearestZ]
  rw [scaled_z_last hn hz, abs_neg, abs_abs, abs_of_neg h0]
  generalize hS : (log10 |zmin| + 10) / nz = s at *
  set X := (log10 (-z) + 10) / s with hX
  have hnear := nint_near X
  have hval : ∀ k : ℕ, s * k - 10 = log10 (-z) + s * ((k : ℝ) - X) := by
    intro k; rw [hX]; field_simp; ring
  constructor
  · intro k hk hkn hlt
    have hltr : (k : ℝ) + 1 ≤ nint X := by exact_mod_cast hlt
    simp only
    rw [scaled_z hn hz hkn, neg_neg, hS, hval]
    conv_rhs => rw [← pow10_log10 (neg_pos.2 h0)]
    rw [pow10_le]
    have := mul_nonneg hs.le (by linarith : 0 ≤ X - (k : ℝ))
    linarith
  · intro k hk hkn hlt
    have hltr : (nint X : ℝ) + 1 ≤ k := by exact_mod_cast hlt
    simp only
    rw [scaled_z hn hz hkn, neg_neg, hS, hval]
    conv_lhs => rw [← pow10_log10 (neg_pos.2 h0)]
    rw [pow10_le]
    have := mul_nonneg hs.le (by linarith : 0 ≤ (k : ℝ) - X)
    linarith

/-! ## The legacy grid of `r` -/

theorem pow10_fifth : (4 / 3 : ℝ) ≤ pow10 (1 / 5) := by
  by_contra h
  have h1 := pow_lt_pow_left₀ (not_le.1 h) (pow10_pos _).le (by norm_num : (5 : ℕ) ≠ 0)
  have h2 : pow10 (1 / 5) ^ 5 = 10 := by
    unfold pow10
    rw [← Real.rpow_natCast, ← Real.rpow_mul (by norm_num)]
    norm_num
  rw [h2] at h1
  norm_num at h1

/-- Beyond the node 31 the exponential is above the line. -/
theorem line_le_pow (n : ℕ) : 1 + (n : ℝ) / 3 ≤ pow10 ((n : ℝ) / 5) := by
  have h1 : pow10 ((n : ℝ) / 5) = pow10 (1 / 5) ^ n := by
    unfold pow10
    rw [← Real.rpow_natCast, ← Real.rpow_mul (by norm_num)]
    congr 1; ring
  have h2 : 1 + (n : ℝ) * (1 / 3) ≤ (1 + 1 / 3) ^ n := one_add_mul_le_pow (by norm_num) n
  have h3 : (1 + 1 / 3 : ℝ) ^ n ≤ pow10 (1 / 5) ^ n :=
    pow_le_pow_left₀ (by norm_num) (by have := pow10_fifth; linarith) n
  rw [h1]; linarith

theorem legacy_first (nr : ℕ) (rmax : ℝ) : rSpacing nr rmax .legacy 1 = 0 := by simp [rSpacing]

theorem legacy_small (nr : ℕ) (rmax : ℝ) {i : ℕ} (h1 : 2 ≤ i) (h2 : i ≤ 31) :
    rSpacing nr rmax .legacy i = pow10 (((i : ℝ) - 1) / 5 - 6) := by
  simp only [rSpacing]
  rw [if_neg (by omega), min_eq_left]
  have h3 : (i : ℝ) ≤ 31 := by exact_mod_cast h2
  have h4 : pow10 (((i : ℝ) - 1) / 5 - 6) ≤ pow10 0 := pow10_le.2 (by linarith)
  rw [pow10_zero] at h4
  have := abs_nonneg ((i : ℝ) - 32)
  linarith

theorem legacy_large (nr : ℕ) (rmax : ℝ) {i : ℕ} (h : 31 < i) :
    rSpacing nr rmax .legacy i = ((i : ℝ) - 28) / 3 := by
  obtain ⟨n, rfl⟩ : ∃ n, i = n + 31 := ⟨i - 31, by omega⟩
  have hn : (1 : ℝ) ≤ n := by exact_mod_cast (by omega : 1 ≤ n)
  simp only [rSpacing]
  have e : |((n + 31 : ℕ) : ℝ) - 32| / 3 + 4 / 3 = 1 + (n : ℝ) / 3 := by
    rw [abs_of_nonneg (by push_cast; linarith)]; push_cast; ring
  have e2 : (((n + 31 : ℕ) : ℝ) - 1) / 5 - 6 = (n : ℝ) / 5 := by push_cast; ring
  rw [if_neg (by omega), e, e2, min_eq_right (line_le_pow n)]
  push_cast; ring

theorem legacy_r_increasing (nr : ℕ) (rmax : ℝ) : Increasing nr (rSpacing nr rmax .legacy) := by
  intro a b ha hab hb
  have hab' : (a : ℝ) < b := by exact_mod_cast hab
  by_cases h1 : a = 1
  · subst h1
    rw [legacy_first]
    by_cases h2 : b ≤ 31
    · rw [legacy_small nr rmax (by omega) h2]; exact pow10_pos _
    · rw [legacy_large nr rmax (by omega)]
      have : (31 : ℝ) < b := by exact_mod_cast not_le.1 h2
      linarith
  · by_cases h2 : b ≤ 31
    · rw [legacy_small nr rmax (by omega) h2, legacy_small nr rmax (by omega) (by omega), pow10_lt]
      linarith
    · have hb31 : (31 : ℝ) < b := by exact_mod_cast not_le.1 h2
      rw [legacy_large nr rmax (not_le.1 h2)]
      by_cases h3 : a ≤ 31
      · rw [legacy_small nr rmax (by omega) h3]
        have h4 : (a : ℝ) ≤ 31 := by exact_mod_cast h3
        have h5 : pow10 (((a : ℝ) - 1) / 5 - 6) ≤ pow10 0 := pow10_le.2 (by linarith)
        rw [pow10_zero] at h5
        linarith
      · rw [legacy_large nr rmax (not_le.1 h3)]
        linarith

theorem legacy_r_node (nr : ℕ) (rmax : ℝ) {a : ℕ} (ha : 1 ≤ a) :
    nearestR nr (rSpacing nr rmax .legacy) .legacy (rSpacing nr rmax .legacy a) = a := by
  simp only [nearestR]
  by_cases h1 : a = 1
  · subst h1
    rw [legacy_first, if_pos (by norm_num)]; rfl
  · by_cases h2 : a ≤ 31
    · have h3 : (2 : ℝ) ≤ a := by exact_mod_cast (by omega : 2 ≤ a)
      rw [legacy_small nr rmax (by omega) h2]
      have h6 : ¬ pow10 (((a : ℝ) - 1) / 5 - 6) < 1e-6 := by
        rw [← pow10_m6, pow10_lt]; linarith
      rw [if_neg h6]
      by_cases h4 : a = 31
      · subst h4
        have e2 : ((((31 : ℕ) : ℝ) - 1) / 5 - 6) = 0 := by norm_num
        rw [e2, pow10_zero, if_neg (lt_irrefl _)]
        have : (3 * 1 + 28 : ℝ) = ((31 : ℤ) : ℝ) := by norm_num
        rw [this, fint_int]; rfl
      · have h5 : (a : ℝ) ≤ 30 := by exact_mod_cast (by omega : a ≤ 30)
        have h7 : pow10 (((a : ℝ) - 1) / 5 - 6) < 1 :=
          lt_of_lt_of_eq ((pow10_lt (y := 0)).2 (by linarith)) pow10_zero
        rw [if_pos h7, log10_pow10]
        have : 5 * (((a : ℝ) - 1) / 5 - 6 + 6) + 1 = ((a : ℤ) : ℝ) := by push_cast; ring
        rw [this, fint_int]
    · have h3 : (31 : ℝ) < a := by exact_mod_cast not_le.1 h2
      rw [legacy_large nr rmax (not_le.1 h2), if_neg (by norm_num; linarith), if_neg (by linarith)]
      have : 3 * (((a : ℝ) - 28) / 3) + 28 = ((a : ℤ) : ℝ) := by push_cast; ring
      rw [this, fint_int]

theorem legacy_r_good (nr : ℕ) (rmax : ℝ) {r : ℝ} (h0 : 0 ≤ r) :
    Good nr (rSpacing nr rmax .legacy) r (nearestR nr (rSpacing nr rmax .legacy) .legacy r) := by
  simp only [nearestR]
  by_cases h6 : r < 1e-6
  · rw [if_pos h6]
    refine ⟨fun k hk _ hlt => by omega, fun k hk _ hlt => ?_⟩
    have hk2 : 2 ≤ k := by omega
    refine le_trans ?_ (by
      rcases eq_or_lt_of_le hk2 with h | h
      · exact le_of_eq (by rw [← h])
      · exact (legacy_r_increasing k rmax 2 k (by omega) h le_rfl).le :
        rSpacing nr rmax .legacy 2 ≤ rSpacing nr rmax .legacy k)
    rw [legacy_small nr rmax le_rfl (by omega)]
    refine le_trans h6.le ?_
    rw [← pow10_m6, pow10_le]; norm_num
  · have h6' := not_lt.1 h6
    have hrpos : 0 < r := lt_of_lt_of_le (by norm_num) h6'
    rw [if_neg h6]
    by_cases h1 : r < 1
    · rw [if_pos h1]
      have hl6 : -6 ≤ log10 r := by rw [← pow10_le, pow10_log10 hrpos, pow10_m6]; exact h6'
      have hl0 : log10 r < 0 := by rw [← pow10_lt, pow10_log10 hrpos, pow10_zero]; exact h1
      set X := 5 * (log10 r + 6) + 1 with hX
      have hnear := fint_near X
      have hge : 1 ≤ fint X := by
        unfold fint; rw [if_pos (by linarith), Int.le_floor]; push_cast; linarith
      constructor
      · intro k hk hkn hlt
        by_cases hk1 : k = 1
        · rw [hk1, legacy_first]; exact h0
        · have hltr : (k : ℝ) + 1 ≤ fint X := by exact_mod_cast hlt
          have : (k : ℝ) < 31 := by linarith
          rw [legacy_small nr rmax (by omega) (by exact_mod_cast this.le)]
          conv_rhs => rw [← pow10_log10 hrpos]
          rw [pow10_le]
          linarith
      · intro k hk hkn hlt
        have hltr : (fint X : ℝ) + 1 ≤ k := by exact_mod_cast hlt
        by_cases hk31 : k ≤ 31
        · rw [legacy_small nr rmax (by omega) hk31]
          conv_lhs => rw [← pow10_log10 hrpos]
          rw [pow10_le]
          linarith
        · rw [legacy_large nr rmax (not_le.1 hk31)]
          have : (31 : ℝ) < k := by exact_mod_cast not_le.1 hk31
          linarith
    · have h1' := not_lt.1 h1
      rw [if_neg h1]
      have hnear := fint_near (3 * r + 28)
      constructor
      · intro k hk hkn hlt
        have hltr : (k : ℝ) + 1 ≤ fint (3 * r + 28) := by exact_mod_cast hlt
        by_cases hk1 : k = 1
        · rw [hk1, legacy_first]; exact h0
        · by_cases hk31 : k ≤ 31
          · rw [legacy_small nr rmax (by omega) hk31]
            refine le_trans ?_ h1'
            rw [← pow10_zero, pow10_le, pow10_zero]
            have : (k : ℝ) ≤ 31 := by exact_mod_cast hk31
            linarith
          · rw [legacy_large nr rmax (not_le.1 hk31)]
            linarith
      · intro k hk hkn hlt
        have hltr : (fint (3 * r + 28) : ℝ) + 1 ≤ k := by exact_mod_cast hlt
        by_cases hk31 : k ≤ 31
        · have h31 : (31 : ℝ) ≤ k := by linarith
          have h31' : k = 31 := le_antisymm hk31 (by exact_mod_cast h31)
          have : (k : ℝ) = 31 := by rw [h31']; norm_num
          rw [legacy_small nr rmax (by omega) hk31, this]
          have e2 : (((31 : ℝ) - 1) / 5 - 6) = 0 := by norm_num
          rw [e2, pow10_zero]
          linarith
        · rw [legacy_large nr rmax (not_le.1 hk31)]
          linarith

/-! ## The legacy grid of `z` -/

theorem legacy_z_last {zmin : ℝ} : zSpacing 46 zmin .legacy 46 = -16 := by simp [zSpacing]

theorem legacy_z_small {nz : ℕ} {zmin : ℝ} {j : ℕ} (h : j ≤ 20) :
    zSpacing nz zmin .legacy j = -pow10 ((j : ℝ) / 5 - 6) := by
  have hj : (j : ℝ) ≤ 20 := by exact_mod_cast h
  simp only [zSpacing]
  rw [if_neg (by omega), min_eq_left (pow10_le.2 (by norm_num; linarith))]

theorem legacy_z_large {nz : ℕ} {zmin : ℝ} {j : ℕ} (h : 20 < j) (h46 : ¬ (nz = 46 ∧ j = 46)) :
    zSpacing nz zmin .legacy j = -pow10 ((j : ℝ) / 8 - 4.5) := by
  have hj : (20 : ℝ) < j := by exact_mod_cast h
  simp only [zSpacing]
  rw [if_neg h46, min_eq_right (pow10_le.2 (by norm_num; linarith))]

theorem sixteen_above : pow10 (1.125) ≤ 16 := by
  by_contra h
  have h1 := pow_lt_pow_left₀ (not_le.1 h) (by norm_num) (by norm_num : (8 : ℕ) ≠ 0)
  have h2 : pow10 1.125 ^ 8 = 10 ^ 9 := by
    unfold pow10
    rw [← Real.rpow_natCast, ← Real.rpow_mul (by norm_num)]
    norm_num
  rw [h2] at h1
  norm_num at h1

theorem sixteen_below : 16 < pow10 (1.25) := by
  by_contra h
  have h1 := pow_le_pow_left₀ (pow10_pos _).le (not_lt.1 h) 4
  have h2 : pow10 1.25 ^ 4 = 10 ^ 5 := by
    unfold pow10
    rw [← Real.rpow_natCast, ← Real.rpow_mul (by norm_num)]
    norm_num
  rw [h2] at h1
  norm_num at h1

theorem legacy_z_decreasing (nz : ℕ) (zmin : ℝ) : Decreasing nz (zSpacing nz zmin .legacy) := by
  intro a b ha hab hb
  have hab' : (a : ℝ) < b := by exact_mod_cast hab
  have ha46 : ¬ (nz = 46 ∧ a = 46) := by omega
  by_cases h46 : nz = 46 ∧ b = 46
  · obtain ⟨rfl, rfl⟩ := h46
    rw [legacy_z_last]
    have h45 : (a : ℝ) ≤ 45 := by exact_mod_cast (by omega : a ≤ 45)
    have hle : zSpacing 46 zmin .legacy a ≥ -pow10 ((a : ℝ) / 8 - 4.5) := by
      have e : zSpacing 46 zmin .legacy a = -min (pow10 ((a : ℝ) / 5 - 6)) (pow10 ((a : ℝ) / 8 - 4.5)) := if_neg ha46
      rw [e]
      exact neg_le_neg (min_le_right _ _)
    have h2 : pow10 ((a : ℝ) / 8 - 4.5) ≤ pow10 1.125 := pow10_le.2 (by norm_num; linarith)
    have h3 : pow10 1.125 ≠ 16 := by
      intro h
      have h2 : pow10 1.125 ^ 8 = 10 ^ 9 := by
        unfold pow10
        rw [← Real.rpow_natCast, ← Real.rpow_mul (by norm_num)]
        norm_num
      rw [h] at h2
      norm_num at h2
    have h4 := lt_of_le_of_ne sixteen_above h3
    linarith
  · by_cases h2 : b ≤ 20
    · rw [legacy_z_small h2, legacy_z_small (by omega : a ≤ 20), neg_lt_neg_iff, pow10_lt]
      linarith
    · rw [legacy_z_large (not_le.1 h2) h46]
      have hb20 : (20 : ℝ) < b := by exact_mod_cast not_le.1 h2
      by_cases h1 : a ≤ 20
      · have ha20 : (a : ℝ) ≤ 20 := by exact_mod_cast h1
        rw [legacy_z_small h1, neg_lt_neg_iff, pow10_lt]
        norm_num; linarith
      · rw [legacy_z_large (not_le.1 h1) ha46, neg_lt_neg_iff, pow10_lt]
        norm_num; linarith

theorem pow10_gt_m2 {x : ℝ} : pow10 x > 1e-2 ↔ -2 < x := by
  rw [← pow10_m2]; exact pow10_lt

/-- The last node of the table of 46 values is not on the curve: its index is 45. -/
theorem legacy_z_node (nz : ℕ) (zmin : ℝ) (b : ℕ) :
    nearestZ nz (zSpacing nz zmin .legacy) .legacy (zSpacing nz zmin .legacy b) =
      if nz = 46 ∧ b = 46 then (b : ℤ) - 1 else b := by
  simp only [nearestZ]
  by_cases h46 : nz = 46 ∧ b = 46
  · rw [if_pos h46]
    obtain ⟨rfl, rfl⟩ := h46
    rw [legacy_z_last, abs_neg, abs_of_pos (by norm_num), if_pos (by norm_num)]
    have hlo : 1.125 ≤ log10 16 := by rw [← pow10_le, pow10_log10 (by norm_num)]; exact sixteen_above
    have hhi : log10 16 < 1.25 := by rw [← pow10_lt, pow10_log10 (by norm_num)]; exact sixteen_below
    norm_num at hlo hhi
    unfold fint
    rw [if_pos (by norm_num; linarith)]
    rw [Int.floor_eq_iff]
    constructor <;> (push_cast; norm_num; linarith)
  · rw [if_neg h46]
    by_cases h2 : b ≤ 20
    · have hb20 : (b : ℝ) ≤ 20 := by exact_mod_cast h2
      rw [legacy_z_small h2, abs_neg, abs_of_pos (pow10_pos _), if_neg (by rw [pow10_gt_m2]; linarith), log10_pow10]
      have : 5 * ((b : ℝ) / 5 - 6 + 6) = ((b : ℤ) : ℝ) := by push_cast; ring
      rw [this, fint_int]
    · have hb20 : (20 : ℝ) < b := by exact_mod_cast not_le.1 h2
      rw [legacy_z_large (not_le.1 h2) h46, abs_neg, abs_of_pos (pow10_pos _),
        if_pos (by rw [pow10_gt_m2]; norm_num; linarith), log10_pow10]
      have : 8 * ((b : ℝ) / 8 - 4.5 + 4.5) = ((b : ℤ) : ℝ) := by push_cast; ring
      rw [this, fint_int]

theorem legacy_z_good (nz : ℕ) (zmin : ℝ) {z : ℝ} (h0 : z < 0) (hlast : zSpacing nz zmin .legacy nz ≤ z) :
    Good nz (fun j => -zSpacing nz zmin .legacy j) (-z) (nearestZ nz (zSpacing nz zmin .legacy) .legacy z) := by
  have hpos : 0 < -z := neg_pos.2 h0
  simp only [nearestZ]
  rw [abs_of_neg h0]
  have hnode : ∀ k : ℕ, -zSpacing nz zmin .legacy k ≤ pow10 ((k : ℝ) / 8 - 4.5) := by
    intro k
    by_cases h46 : nz = 46 ∧ k = 46
    · obtain ⟨rfl, rfl⟩ := h46
      rw [legacy_z_last, neg_neg]
      have : (((46 : ℕ) : ℝ) / 8 - 4.5) = 1.25 := by norm_num
      rw [this]
      exact sixteen_below.le
    · simp only [zSpacing]
      rw [if_neg h46, neg_neg]
      exact min_le_right _ _
  by_cases h2 : -z > 1e-2
  · rw [if_pos h2]
    have hl2 : -2 < log10 (-z) := by rw [← pow10_lt, pow10_log10 hpos, pow10_m2]; exact h2
    have hnear := fint_near (8 * (log10 (-z) + 4.5))
    constructor
    · intro k hk hkn hlt
      have hltr : (k : ℝ) + 1 ≤ fint (8 * (log10 (-z) + 4.5)) := by exact_mod_cast hlt
      refine le_trans (hnode k) ?_
      conv_rhs => rw [← pow10_log10 hpos]
      rw [pow10_le]
      linarith
    · intro k hk hkn hlt
      have hltr : (fint (8 * (log10 (-z) + 4.5)) : ℝ) + 1 ≤ k := by exact_mod_cast hlt
      by_cases h46 : nz = 46 ∧ k = 46
      · obtain ⟨rfl, rfl⟩ := h46
        exact neg_le_neg hlast
      · have hk20 : (20 : ℝ) < k := by
          norm_num at hnear hltr
          linarith
        simp only
        rw [legacy_z_large (by exact_mod_cast hk20) h46, neg_neg]
        conv_lhs => rw [← pow10_log10 hpos]
        rw [pow10_le]
        linarith
  · rw [if_neg h2]
    have hl2 : log10 (-z) ≤ -2 := by rw [← pow10_le, pow10_log10 hpos, pow10_m2]; exact not_lt.1 h2
    have hnear := fint_near (5 * (log10 (-z) + 6))
    constructor
    · intro k hk hkn hlt
      have hltr : (k : ℝ) + 1 ≤ fint (5 * (log10 (-z) + 6)) := by exact_mod_cast hlt
      have hk20 : (k : ℝ) ≤ 20 := by linarith
      simp only
      rw [legacy_z_small (by exact_mod_cast hk20), neg_neg]
      conv_rhs => rw [← pow10_log10 hpos]
      rw [pow10_le]
      linarith
    · intro k hk hkn hlt
      have hltr : (fint (5 * (log10 (-z) + 6)) : ℝ) + 1 ≤ k := by exact_mod_cast hlt
      by_cases h46 : nz = 46 ∧ k = 46
      · obtain ⟨rfl, rfl⟩ := h46
        exact neg_le_neg hlast
      · simp only
        by_cases hk20 : k ≤ 20
        · rw [legacy_z_small hk20, neg_neg]
          conv_lhs => rw [← pow10_log10 hpos]
          rw [pow10_le]
          linarith
        · have hk20' : (20 : ℝ) < k := by exact_mod_cast not_le.1 hk20
          rw [legacy_z_large (not_le.1 hk20) h46, neg_neg]
          conv_lhs => rw [← pow10_log10 hpos]
          rw [pow10_le]
          norm_num
          linarith

/-! ## Both grids -/

/-- Parameters for which the default grids are tables: three nodes or more in each direction; the scaled grid goes beyond
`r = 1` and beyond `z = -1e-10`. -/
structure Admissible (nr : ℕ) (rmax : ℝ) (nz : ℕ) (zmin : ℝ) (m : Grid) : Prop where
  nr : 3 ≤ nr
  nz : 3 ≤ nz
  rmax : m = .scaled → 1 < rmax
  zmin : m = .scaled → 1e-10 < |zmin|

/-- The default parameters of `Delhommeau` (`delhommeau.py:19-30`) are admissible. -/
theorem default_admissible : Admissible 676 100 372 (-251) .scaled :=
  ⟨by norm_num, by norm_num, fun _ => by norm_num, fun _ => by rw [abs_neg, abs_of_pos (by norm_num)]; norm_num⟩

theorem default_r_increasing {nr nz : ℕ} {rmax zmin : ℝ} {m : Grid} (h : Admissible nr rmax nz zmin m) :
    Increasing nr (rSpacing nr rmax m) := by
  cases m with
  | legacy => exact legacy_r_increasing nr rmax
  | scaled => exact scaled_r_increasing h.nr (h.rmax rfl)

theorem default_z_decreasing {nr nz : ℕ} {rmax zmin : ℝ} {m : Grid} (h : Admissible nr rmax nz zmin m) :
    Decreasing nz (zSpacing nz zmin m) := by
  cases m with
  | legacy => exact legacy_z_decreasing nz zmin
  | scaled => exact scaled_z_decreasing h.nz (h.zmin rfl)

/-- At every node of the default grids the interpolation returns the tabulated value. -/
theorem pick_node {nr nz : ℕ} {rmax zmin : ℝ} {m : Grid} (h : Admissible nr rmax nz zmin m) (tab : ℕ → ℕ → ℝ) {a b : ℕ}
    (ha : 1 ≤ a) (ha' : a ≤ nr) (hb : 1 ≤ b) (hb' : b ≤ nz) :
    pick nr nz (rSpacing nr rmax m) (zSpacing nz zmin m) m tab (rSpacing nr rmax m a) (zSpacing nz zmin m b) = tab a b := by
  have bi := middle_bounds h.nr (nearestR nr (rSpacing nr rmax m) m (rSpacing nr rmax m a))
  have bj := middle_bounds h.nz (nearestZ nz (zSpacing nz zmin m) m (zSpacing nz zmin m b))
  refine lagrange_node (default_r_increasing h).distinct (default_z_decreasing h).distinct bi.1 bi.2 bj.1 bj.2 tab ?_ ?_
  · have e : nearestR nr (rSpacing nr rmax m) m (rSpacing nr rmax m a) = a := by
      cases m with
      | legacy => exact legacy_r_node nr rmax ha
      | scaled => exact scaled_r_node h.nr (h.rmax rfl) ha
    rw [e]
    exact mem_stencil_middle h.nr ha ha'
  · cases m with
    | legacy =>
      rw [legacy_z_node]
      split_ifs
      · exact mem_stencil_before h.nz hb hb'
      · exact mem_stencil_middle h.nz hb hb'
    | scaled =>
      rw [scaled_z_node h.nz (h.zmin rfl) hb']
      exact mem_stencil_middle h.nz hb hb'

example (tab : ℕ → ℕ → ℝ) : pick 676 372 (rSpacing 676 100 .scaled) (zSpacing 372 (-251) .scaled) .scaled tab
    (rSpacing 676 100 .scaled 81) (zSpacing 372 (-251) .scaled 372) = tab 81 372 :=
  pick_node default_admissible tab (by norm_num) (by norm_num) (by norm_num) (by norm_num)

/-- On the default grids the interpolation reproduces the functions that are quadratic in each variable. -/
theorem pick_default_quadratic {nr nz : ℕ} {rmax zmin : ℝ} {m : Grid} (h : Admissible nr rmax nz zmin m)
    {f : ℝ → ℝ → ℝ} (hf : Biquadratic f) {tab : ℕ → ℕ → ℝ}
    (ht : ∀ i j, 1 ≤ i → i ≤ nr → 1 ≤ j → j ≤ nz → tab i j = f (rSpacing nr rmax m i) (zSpacing nz zmin m j)) (r z : ℝ) :
    pick nr nz (rSpacing nr rmax m) (zSpacing nz zmin m) m tab r z = f r z :=
  pick_quadratic h.nr h.nz (default_r_increasing h).distinct (default_z_decreasing h).distinct m hf ht r z

example : Biquadratic (fun r z => 1 + r * z + 3 * r ^ 2 * z ^ 2) :=
  ⟨fun i j => if i = 0 ∧ j = 0 then 1 else if i = 1 ∧ j = 1 then 1 else if i = 2 ∧ j = 2 then 3 else 0,
    fun r z => by simp; ring⟩

/-- The three nodes that are read surround the point, between the first and last nodes of the default grids: nothing is
extrapolated. -/
theorem pick_surrounds {nr nz : ℕ} {rmax zmin : ℝ} {m : Grid} (h : Admissible nr rmax nz zmin m) {r z : ℝ}
    (hr1 : rSpacing nr rmax m 1 ≤ r) (hr2 : r ≤ rSpacing nr rmax m nr) (hz1 : z ≤ zSpacing nz zmin m 1)
    (hz2 : zSpacing nz zmin m nz ≤ z) :
    let i := middle nr (nearestR nr (rSpacing nr rmax m) m r)
    let j := middle nz (nearestZ nz (zSpacing nz zmin m) m z)
    (rSpacing nr rmax m (i - 1) ≤ r ∧ r ≤ rSpacing nr rmax m (i + 1)) ∧
      (zSpacing nz zmin m (j + 1) ≤ z ∧ z ≤ zSpacing nz zmin m (j - 1)) := by
  have hz0 : z < 0 := by
    refine lt_of_le_of_lt hz1 ?_
    cases m with
    | legacy => rw [legacy_z_small (by norm_num)]; exact neg_neg_of_pos (pow10_pos _)
    | scaled => rw [scaled_z h.nz (h.zmin rfl) (by have := h.nz; omega)]; exact neg_neg_of_pos (pow10_pos _)
  constructor
  · refine good_brackets h.nr ?_ hr1 hr2
    cases m with
    | legacy => exact legacy_r_good nr rmax (by rw [legacy_first] at hr1; exact hr1)
    | scaled => exact scaled_r_good h.nr (h.rmax rfl) hr1
  · have hg : Good nz (fun j => -zSpacing nz zmin m j) (-z) (nearestZ nz (zSpacing nz zmin m) m z) := by
      cases m with
      | legacy => exact legacy_z_good nz zmin hz0 hz2
      | scaled => exact scaled_z_good h.nz (h.zmin rfl) hz0
    have := good_brackets h.nz hg (neg_le_neg hz1) (neg_le_neg hz2)
    exact ⟨neg_le_neg_iff.1 this.2, neg_le_neg_iff.1 this.1⟩

example : ∃ r z : ℝ, rSpacing 676 100 .scaled 1 ≤ r ∧ r ≤ rSpacing 676 100 .scaled 676 ∧ z ≤ zSpacing 372 (-251) .scaled 1 ∧
    zSpacing 372 (-251) .scaled 372 ≤ z :=
  ⟨rSpacing 676 100 .scaled 80, zSpacing 372 (-251) .scaled 7,
    (default_r_increasing default_admissible 1 80 (by norm_num) (by norm_num) (by norm_num)).le,
    (default_r_increasing default_admissible 80 676 (by norm_num) (by norm_num) (by norm_num)).le,
    (default_z_decreasing default_admissible 1 7 (by norm_num) (by norm_num) (by norm_num)).le,
    (default_z_decreasing default_admissible 7 372 (by norm_num) (by norm_num) (by norm_num)).le⟩

/-- When the table is used the point is before the last nodes. -/
theorem source_table {nr nz : ℕ} {rr zr : ℕ → ℝ} {r z : ℝ} (h : source nr nz rr zr r z = .table) :
    2 ≤ nr ∧ 2 ≤ nz ∧ |z| < |zr nz| ∧ r < rr nr := by
  unfold source at h
  split_ifs at h with h1 h2
  exact ⟨by omega, by omega, h2.1, h2.2⟩

/-- Without a table the integrals are computed. -/
theorem source_no_table {nr nz : ℕ} (h : nr ≤ 1 ∨ nz ≤ 1) (rr zr : ℕ → ℝ) (r z : ℝ) :
    source nr nz rr zr r z = .integration := by
  unfold source
  rw [if_pos (by omega)]

/-- The table, when it is used, is read inside exactly when it has at least three nodes in each direction. -/
theorem table_reads_inside_partial {nr nz : ℕ} {rr zr : ℕ → ℝ} {r z : ℝ} (m : Grid) :
    (Inside nr (stencil (middle nr (nearestR nr rr m r))) ∧ Inside nz (stencil (middle nz (nearestZ nz zr m z)))) ↔
      3 ≤ nr ∧ 3 ≤ nz := by
  rw [stencil_inside_iff, stencil_inside_iff]

end Verif.Tabulation
