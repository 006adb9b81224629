import Verif.LowRank.AcaProps

/-!
# The rank of the adaptive cross approximation without a tolerance

Specification, from the documentation (`matrices/low_rank.py:87-93`): without a tolerance, the result has the maximal rank. The rank of
a result is the number of its crosses; a cross is the product of a column and a row.
-/

namespace Verif.LowRank

variable {N m n : ℕ}

theorem frobenius_zero_iff (f : Fin m → Fin n → ℂ) : frobenius f ≤ 0 ↔ ∀ a b, f a b = 0 := by
  constructor
  · intro h a b
    have h0 : frobenius f = 0 := le_antisymm h
      (Finset.sum_nonneg fun _ _ => Finset.sum_nonneg fun _ _ => Complex.normSq_nonneg _)
    have h1 := (Finset.sum_eq_zero_iff_of_nonneg (fun _ _ => Finset.sum_nonneg fun _ _ => Complex.normSq_nonneg _)).1 h0 a
      (Finset.mem_univ _)
    have h2 := (Finset.sum_eq_zero_iff_of_nonneg (fun _ _ => Complex.normSq_nonneg _)).1 h1 b (Finset.mem_univ _)
    exact Complex.normSq_eq_zero.1 h2
  · intro h
    simp [frobenius, h]

/-- Whether the cross number `q` of a result is zero. -/
def ZeroCross (F : Factors m n) (q : ℕ) : Prop :=
  ∃ u v, F.left[q]? = some u ∧ F.right[q]? = some v ∧ ∀ a b, u a * v b = 0

/-- What the loop returns without a tolerance. -/
theorem loop_zero {A : Fin N → Fin m → Fin n → ℂ} {main : Fin N} (fuel l : ℕ) (s : Aca N m n) (hi : Inv A l s)
    (hz : ∀ q < l, ¬ ZeroCross (s.factors main) q)
    {F : Fin N → Factors m n} {is : List (Fin m)} {js : List (Fin n)} (h : loop A main 0 fuel l s = .done F is js) :
    ((∀ k, (F k).left.length = l + fuel) ∧ is.length = l + fuel ∧ ∀ q < l + fuel, ¬ ZeroCross (F main) q) ∨
    ∃ G : Factors m n, is.length ≤ l + fuel ∧ G.left.length = is.length ∧ 0 < is.length ∧ ZeroCross G (is.length - 1) ∧
      (∀ q < is.length - 1, ¬ ZeroCross G q) ∧ Crosses (A main) G is js ∧ ∀ k, (F k).left.length = max 1 (is.length - 1) := by
  induction fuel generalizing l s with
  | zero =>
    rw [loop, if_neg (lt_irrefl _)] at h
    cases h
    left
    exact ⟨fun k => hi.len k, hi.readLen, hz⟩
  | succ fuel ih =>
    rw [loop] at h
    split at h
    · cases h
    · rename_i s' inc hs
      have hi' := inv_step hi hs
      obtain ⟨i, j, rows, cols, -, -, rfl, rfl⟩ := step_spec hs
      have hL := hi.len main
      have hR : (s.factors main).right.length = l := by rw [(hi.crosses main).right_len, hL]
      have keep : ∀ q < l, ¬ ZeroCross ((s.factors main).extend (A main) i j) q := by
        rintro q hq ⟨u, v, hu, hv, e⟩
        simp only [Factors.extend] at hu hv
        rw [List.getElem?_append_left (by omega)] at hu hv
        exact hz q hq ⟨u, v, hu, hv, e⟩
      have last : ZeroCross ((s.factors main).extend (A main) i j) l ↔
          ∀ a b, newCol (A main) (s.factors main) i j a * newRow (A main) (s.factors main) i b = 0 := by
        have e1 : ((s.factors main).extend (A main) i j).left[l]? = some (newCol (A main) (s.factors main) i j) := by
          simp only [Factors.extend]
          rw [List.getElem?_append_right (by omega), hL]
          simp
        have e2 : ((s.factors main).extend (A main) i j).right[l]? = some (newRow (A main) (s.factors main) i) := by
          simp only [Factors.extend]
          rw [List.getElem?_append_right (by omega), hR]
          simp
        constructor
        · rintro ⟨u, v, hu, hv, e⟩
          rw [e1] at hu
          rw [e2] at hv
          cases hu
          cases hv
          exact e
        · intro e
          exact ⟨_, _, e1, e2, e⟩
      split at h
      · rename_i hle
        rw [incrementNorm_eq, zero_pow two_ne_zero, zero_mul, frobenius_zero_iff] at hle
        cases h
        right
        have hlen : (s.readRows ++ [i]).length = l + 1 := by simp [hi.readLen]
        refine ⟨(s.factors main).extend (A main) i j, by rw [hlen]; omega, ?_, by rw [hlen]; omega, ?_, ?_, hi'.crosses main, ?_⟩
        · rw [hlen]
          exact hi'.len main
        · rw [hlen]
          exact last.2 hle
        · rw [hlen]
          exact keep
        · intro k
          have := hi'.len k
          simp only at this
          rw [hlen]
          simp only [Factors.take, List.length_take, this]
          split_ifs <;> omega
      · rename_i hle
        rw [incrementNorm_eq, zero_pow two_ne_zero, zero_mul, frobenius_zero_iff] at hle
        have := ih (l + 1) _ hi' (by
          intro q hq
          rcases Nat.lt_succ_iff_lt_or_eq.1 hq with hq | rfl
          · exact keep q hq
          · exact fun e => hle (last.1 e)) h
        rwa [show l + 1 + fuel = l + (fuel + 1) by omega] at this

/-- Without a tolerance, the result has the maximal rank and no zero cross, or the iterations have met a zero cross: then the crosses before
it are returned, or the zero cross itself when it is the first one. -/
theorem aca_zero_tolerance (A : Fin N → Fin m → Fin n → ℂ) (main : Fin N) (r : ℕ) (F : Fin N → Factors m n) (is : List (Fin m))
    (js : List (Fin n)) (h : multiAca A main (some r) 0 = .done F is js) :
    ((∀ k, (F k).left.length = r) ∧ is.length = r ∧ ∀ q < r, ¬ ZeroCross (F main) q) ∨
    ∃ G : Factors m n, is.length ≤ r ∧ G.left.length = is.length ∧ 0 < is.length ∧ ZeroCross G (is.length - 1) ∧
      (∀ q < is.length - 1, ¬ ZeroCross G q) ∧ Crosses (A main) G is js ∧ ∀ k, (F k).left.length = max 1 (is.length - 1) := by
  have := loop_zero r 0 _ (inv_start A) (by intro q hq; omega) h
  rwa [Nat.zero_add] at this

/-- The documentation does not hold: the result for a product of a column and a row never has a maximal rank of two or more. -/
theorem aca_zero_tolerance_violated (A : Fin N → Fin m → Fin n → ℂ) (main : Fin N) (r : ℕ) (hr : 2 ≤ r) (u : Fin m → ℂ) (v : Fin n → ℂ)
    (hA : ∀ a b, A main a b = u a * v b) (hp : ∀ a : Fin m, a.val = 0 → ∃ b, 1e-12 ≤ ‖A main a b‖)
    (F : Fin N → Factors m n) (is : List (Fin m)) (js : List (Fin n)) (h : multiAca A main (some r) 0 = .done F is js) :
    ∀ k, (F k).left.length < r := by
  rcases aca_zero_tolerance A main r F is js h with ⟨hl, hn, hz⟩ | ⟨G, h1, -, -, -, -, -, h2⟩
  · exfalso
    have hc := (aca_result h).crosses main
    have hpiv := aca_pivots A main (some r) 0 F is js h
    obtain ⟨i, hi⟩ : ∃ i, is[0]? = some i := ⟨_, List.getElem?_eq_getElem (by omega)⟩
    obtain ⟨j, hj⟩ : ∃ j, js[0]? = some j := ⟨_, List.getElem?_eq_getElem (by rw [hc.len]; omega)⟩
    obtain ⟨i', hi'⟩ : ∃ i, is[1]? = some i := ⟨_, List.getElem?_eq_getElem (by omega)⟩
    obtain ⟨j', hj'⟩ : ∃ j, js[1]? = some j := ⟨_, List.getElem?_eq_getElem (by rw [hc.len]; omega)⟩
    obtain ⟨p1, p2, -⟩ := hpiv 0 i j hi hj
    have hz0 : ∀ (G : Factors m n) a b, (G.take 0).entry a b = 0 := fun G a b => by simp [Factors.take, Factors.entry]
    simp only [hz0, sub_zero] at p1
    have hgood : GoodPivots (A main) ((F main).take 1) is js := by
      intro q a b hq ha hb
      have hlen : ((F main).take 1).left.length ≤ 1 := by simp [Factors.take]
      obtain rfl : q = 0 := by omega
      rw [hi] at ha
      rw [hj] at hb
      cases ha
      cases hb
      obtain ⟨b, hb⟩ := hp i (p2 rfl)
      simp only [hz0, sub_zero]
      exact hb.trans (p1 b (by simp))
    have hres := fun a b => residual_succ (hc.take 1) hgood 0 (by simp [Factors.take, hl main]; omega) i j hi hj a b
    have hrow : (F main).right[1]? = some (newRow (A main) ((F main).take 1) i') := hc.row 1 i' (by rw [hl main]; omega) hi'
    have hcol := hc.col 1 i' j' (by rw [hl main]; omega) hi' hj'
    refine hz 1 (by omega) ⟨_, _, hcol, hrow, fun a b => ?_⟩
    have e := hres i' b
    rw [take_take_le _ le_rfl] at e
    simp only [hz0, sub_zero, hA] at e
    have hne : u i * v j ≠ 0 := e.1
    have : newRow (A main) ((F main).take 1) i' b = 0 := by
      rw [newRow, hA, e.2]
      have hi0 : u i ≠ 0 := left_ne_zero_of_mul hne
      have hj0 : v j ≠ 0 := right_ne_zero_of_mul hne
      field_simp
      ring
    rw [this, mul_zero]
  · intro k
    rw [h2 k]
    omega

/-- A matrix of ones with three rows and columns, for a maximal rank of two: the approximation ends, and the theorem applies. -/
example : (∃ F is js, multiAca (fun (_ : Fin 1) (_ _ : Fin 3) => (1 : ℂ)) 0 (some 2) 0 = .done F is js) ∧
    (∀ a : Fin 3, a.val = 0 → ∃ _ : Fin 3, 1e-12 ≤ ‖(1 : ℂ)‖) := by
  constructor
  · rcases aca_ends (fun (_ : Fin 1) (_ _ : Fin 3) => (1 : ℂ)) 0 2 0 (by norm_num) (by norm_num) with h | ⟨h, -⟩
    · exact h
    · exact absurd h (lt_irrefl _)
  · intro a _
    exact ⟨0, by norm_num⟩

/-! ## Negative tolerances -/

theorem loop_negative {A : Fin N → Fin m → Fin n → ℂ} {main : Fin N} {tol : ℝ} (htol : 0 < tol) (fuel l : ℕ) (s : Aca N m n) :
    (∀ F is js, loop A main tol fuel l s = .done F is js → loop A main (-tol) fuel l s = .done F is js) ∧
    loop A main (-tol) fuel l s ≠ .noConvergence := by
  induction fuel generalizing l s with
  | zero =>
    constructor
    · intro F is js h
      rw [loop, if_pos htol] at h
      split at h <;> cases h
    · rw [loop, if_neg (by linarith)]
      intro h
      cases h
  | succ fuel ih =>
    simp only [loop, neg_sq]
    split
    · exact ⟨fun _ _ _ h => (nomatch h), fun h => (nomatch h)⟩
    · rename_i s' inc hs
      split
      · exact ⟨fun _ _ _ h => h, fun h => (nomatch h)⟩
      · exact ih (l + 1) s'

/-- A negative tolerance gives the same result as its opposite when there is one, and when there is none it gives a result where the
opposite raises an exception. -/
theorem aca_negative_tolerance (A : Fin N → Fin m → Fin n → ℂ) (main : Fin N) (maxRank : Option ℕ) (tol : ℝ) (htol : 0 < tol) :
    (∀ F is js, multiAca A main maxRank tol = .done F is js → multiAca A main maxRank (-tol) = .done F is js) ∧
    multiAca A main maxRank (-tol) ≠ .noConvergence :=
  loop_negative htol _ 0 _

/-- With a maximal rank that fits, a negative tolerance always gives a result, of whatever accuracy. -/
theorem aca_negative_ends (A : Fin N → Fin m → Fin n → ℂ) (main : Fin N) (r : ℕ) (tol : ℝ) (h0 : 0 < r) (hr : r ≤ min m n)
    (htol : tol ≤ 0) : ∃ F is js, multiAca A main (some r) tol = .done F is js := by
  rcases aca_ends A main r tol h0 hr with h | ⟨h, -⟩
  · exact h
  · linarith

/-- A matrix whose approximation of rank one is refused with a tolerance. -/
example : (0 : ℝ) < 1e-3 ∧ 0 < 1 ∧ 1 ≤ min 3 3 := by norm_num

end Verif.LowRank
