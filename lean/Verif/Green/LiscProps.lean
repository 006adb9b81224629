import Verif.Green.LiscModel
import Verif.Green.HousProps
import Verif.Green.PronyProps

/-!
# C116: the decomposition in exponentials of the Fortran code
-/

namespace Verif.Green.Lisc

open Verif.Green.Hous Finset

/-! ## Specification -/

/-- The contract of `SPRBM`: all the roots of a polynomial whose coefficients are not too large. -/
def RootsRight (sprbm : List ℝ → List ℂ) : Prop :=
  ∀ c : List ℝ, 2 ≤ c.length → c.getLast? = some 1 → (∀ x ∈ c, |x| < 10 ^ 27) →
    ∀ z : ℂ, polyValue (c.map Complex.ofReal) z = ((sprbm c).map fun r => z - r).prod

/-- The error of a sum of exponentials at points. -/
noncomputable def fitError (lam ar : List ℝ) (xt yt : ℕ → ℝ) (npp : ℕ) : ℝ :=
  ∑ l ∈ range npp, (∑ j ∈ range lam.length, ar.getD j 0 * Real.exp (lam.getD j 0 * xt l) - yt l) ^ 2

/-- No term is removed from the sums. -/
def NoCut (lam : List ℝ) (xt : ℕ → ℝ) (npp : ℕ) : Prop := ∀ r ∈ lam, ∀ s ∈ lam, ∀ l < npp, -30 ≤ (r + s) * xt l

/-! ## Lemmas -/

theorem getD_mem {l : List ℝ} {i : ℕ} (h : i < l.length) : l.getD i 0 ∈ l := by
  rw [List.getD_eq_getElem?_getD, List.getElem?_eq_getElem h]
  exact List.getElem_mem h

/-- Exponentials of different rates are independent at regular points. -/
theorem exp_independent {lam : List ℝ} (hn : lam.Nodup) {xt : ℕ → ℝ} {npp : ℕ} {x0 h : ℝ} (hh : h ≠ 0)
    (hx : ∀ l < npp, xt l = x0 + l * h) (hl : lam.length ≤ npp) {x : ℕ → ℝ}
    (hz : ∀ l < npp, ∑ j ∈ range lam.length, Real.exp (lam.getD j 0 * xt l) * x j = 0) : ∀ j < lam.length, x j = 0 := by
  have hinj : Set.InjOn (fun i => Real.exp (lam.getD i 0 * h)) (range lam.length) := by
    intro i hi j hj hij
    have hi := mem_range.1 (mem_coe.1 hi)
    have hj := mem_range.1 (mem_coe.1 hj)
    have : lam.getD i 0 = lam.getD j 0 := mul_right_cancel₀ hh (Real.exp_injective hij)
    simp only [List.getD_eq_getElem?_getD, List.getElem?_eq_getElem hi, List.getElem?_eq_getElem hj,
      Option.getD_some] at this
    exact (hn.getElem_inj_iff).1 this
  have := vandermonde_zero (range lam.length) (fun i => Real.exp (lam.getD i 0 * h))
    (fun i => x i * Real.exp (lam.getD i 0 * x0)) hinj (by
      intro k hk
      rw [card_range] at hk
      refine Eq.trans ?_ (hz k (by omega))
      refine sum_congr rfl fun i _ => ?_
      rw [hx k (by omega), ← Real.exp_nat_mul, mul_assoc, ← Real.exp_add, mul_comm (x i)]
      congr 2
      ring)
  intro j hj
  exact (mul_eq_zero.1 (this j (mem_range.2 hj))).resolve_right (Real.exp_pos _).ne'

theorem fitSystem_matrix {lam : List ℝ} {xt yt : ℕ → ℝ} {npp : ℕ} (hc : NoCut lam xt npp) {i j : ℕ} (hi : i < lam.length)
    (hj : j < lam.length) : fitSystem lam xt yt npp i j =
      ∑ l ∈ range npp, Real.exp (lam.getD i 0 * xt l) * Real.exp (lam.getD j 0 * xt l) := by
  unfold fitSystem
  rw [if_pos hj]
  refine sum_congr rfl fun l hl => ?_
  rw [if_pos (hc _ (getD_mem hi) _ (getD_mem hj) l (mem_range.1 hl)), ← Real.exp_add]
  congr 1
  ring

theorem fitSystem_right {lam : List ℝ} {xt yt : ℕ → ℝ} {npp : ℕ} (hc : NoCut lam xt npp) {i : ℕ} (hi : i < lam.length) :
    fitSystem lam xt yt npp i lam.length = ∑ l ∈ range npp, Real.exp (lam.getD i 0 * xt l) * yt l := by
  unfold fitSystem
  rw [if_neg (by omega)]
  refine sum_congr rfl fun l hl => ?_
  have := hc _ (getD_mem hi) _ (getD_mem hi) l (mem_range.1 hl)
  rw [if_pos (by linarith)]

theorem fitSystem_independent {lam : List ℝ} (hn : lam.Nodup) {xt yt : ℕ → ℝ} {npp : ℕ} {x0 h : ℝ} (hh : h ≠ 0)
    (hx : ∀ l < npp, xt l = x0 + l * h) (hl : lam.length ≤ npp) (hc : NoCut lam xt npp) :
    Independent lam.length lam.length (fitSystem lam xt yt npp) := by
  intro x hzero
  refine exp_independent hn hh hx hl fun l hl => ?_
  have hq : ∑ l ∈ range npp, (∑ j ∈ range lam.length, Real.exp (lam.getD j 0 * xt l) * x j) ^ 2 = 0 := by
    rw [sum_sq_gram npp lam.length (fun l j => Real.exp (lam.getD j 0 * xt l)) x]
    refine sum_eq_zero fun i hi => ?_
    have := hzero i (mem_range.1 hi)
    have e : ∑ j ∈ range lam.length, x i * x j * gram npp (fun l j => Real.exp (lam.getD j 0 * xt l)) i j =
        x i * ∑ j ∈ range lam.length, fitSystem lam xt yt npp i j * x j := by
      rw [mul_sum]
      refine sum_congr rfl fun j hj => ?_
      rw [fitSystem_matrix hc (mem_range.1 hi) (mem_range.1 hj)]
      unfold gram
      ring
    rw [e, this, mul_zero]
  exact pow_eq_zero_iff two_ne_zero |>.1 ((sum_eq_zero_iff_of_nonneg fun _ _ => sq_nonneg _).1 hq l (mem_range.2 hl))

theorem getD_map_range (n : ℕ) (a : ℕ → ℝ) {j : ℕ} (hj : j < n) : ((List.range n).map a).getD j 0 = a j := by
  simp [List.getD_eq_getElem?_getD, hj]

/-! ## Theorems: the amplitudes -/

/-- C116: the amplitudes are the best ones for the rates, when no term is removed. -/
theorem mcas_least_squares {lam : List ℝ} (hne : lam ≠ []) (hn : lam.Nodup) {xt yt : ℕ → ℝ} {npp : ℕ} {x0 h : ℝ} (hh : h ≠ 0)
    (hx : ∀ l < npp, xt l = x0 + l * h) (hl : lam.length ≤ npp) (hc : NoCut lam xt npp) :
    ∃ ar, mcas lam xt yt npp = some ar ∧ ar.length = lam.length ∧
      ∀ br : List ℝ, fitError lam ar xt yt npp ≤ fitError lam br xt yt npp := by
  obtain ⟨a, h1, h2⟩ := housrs_square (fitSystem_independent (yt := yt) hn hh hx hl hc)
  refine ⟨(List.range lam.length).map a, ?_, by simp, fun br => ?_⟩
  · unfold mcas
    rw [if_neg (by simpa using hne), h1]
    rfl
  · -- the residual is orthogonal to the exponentials
    set e : ℕ → ℝ := fun l => ∑ j ∈ range lam.length, a j * Real.exp (lam.getD j 0 * xt l) - yt l with he
    have ho : ∀ i < lam.length, ∑ l ∈ range npp, Real.exp (lam.getD i 0 * xt l) * e l = 0 := by
      intro i hi
      have h3 := h2 i hi
      rw [fitSystem_right hc hi, sum_congr rfl fun j hj => by rw [fitSystem_matrix hc hi (mem_range.1 hj), sum_mul],
        sum_comm, ← sub_eq_zero, ← sum_sub_distrib] at h3
      refine Eq.trans ?_ h3
      refine sum_congr rfl fun l _ => ?_
      simp only [he, mul_sub, mul_sum]
      congr 1
      refine sum_congr rfl fun j _ => ?_
      ring
    set d : ℕ → ℝ := fun l => ∑ j ∈ range lam.length, (br.getD j 0 - a j) * Real.exp (lam.getD j 0 * xt l) with hd
    have hcross : ∑ l ∈ range npp, d l * e l = 0 := by
      simp only [hd, sum_mul]
      rw [sum_comm]
      refine sum_eq_zero fun j hj => ?_
      have h0 : (br.getD j 0 - a j) * ∑ l ∈ range npp, Real.exp (lam.getD j 0 * xt l) * e l = 0 := by
        rw [ho j (mem_range.1 hj), mul_zero]
      refine Eq.trans ?_ h0
      rw [mul_sum]
      refine sum_congr rfl fun l _ => ?_
      ring
    have ha : fitError lam ((List.range lam.length).map a) xt yt npp = ∑ l ∈ range npp, e l ^ 2 := by
      refine sum_congr rfl fun l _ => ?_
      rw [sum_congr rfl fun j hj => by rw [getD_map_range _ a (mem_range.1 hj)]]
    have hb : fitError lam br xt yt npp = ∑ l ∈ range npp, e l ^ 2 + ∑ l ∈ range npp, d l ^ 2 := by
      have : fitError lam br xt yt npp = ∑ l ∈ range npp, (e l ^ 2 + d l ^ 2 + 2 * (d l * e l)) := by
        refine sum_congr rfl fun l _ => ?_
        have : ∑ j ∈ range lam.length, br.getD j 0 * Real.exp (lam.getD j 0 * xt l) - yt l = e l + d l := by
          simp only [he, hd, sub_mul, sum_sub_distrib]
          ring
        rw [this]
        ring
      rw [this, sum_add_distrib, sum_add_distrib, ← mul_sum, hcross]
      ring
    rw [ha, hb]
    exact le_add_of_nonneg_right (sum_nonneg fun _ _ => sq_nonneg _)

/-- C116: the amplitudes of a sum of exponentials with these rates are found. -/
theorem mcas_exact {lam : List ℝ} (hne : lam ≠ []) (hn : lam.Nodup) {xt yt : ℕ → ℝ} {npp : ℕ} {x0 h : ℝ} (hh : h ≠ 0)
    (hx : ∀ l < npp, xt l = x0 + l * h) (hl : lam.length ≤ npp) (hc : NoCut lam xt npp) (c : ℝ → ℝ)
    (hy : ∀ l < npp, yt l = ∑ j ∈ range lam.length, c (lam.getD j 0) * Real.exp (lam.getD j 0 * xt l)) :
    mcas lam xt yt npp = some (lam.map c) := by
  obtain ⟨a, h1, h2⟩ := housrs_solves le_rfl (fitSystem_independent (yt := yt) hn hh hx hl hc)
    (s := fun j => c (lam.getD j 0)) (fun i hi => by
      rw [fitSystem_right hc hi, sum_congr rfl fun j hj => by rw [fitSystem_matrix hc hi (mem_range.1 hj), sum_mul], sum_comm]
      refine sum_congr rfl fun l hl => ?_
      rw [hy l (mem_range.1 hl), mul_sum]
      refine sum_congr rfl fun j _ => ?_
      ring)
  unfold mcas
  rw [if_neg (by simpa using hne), h1]
  simp only [Option.map_some, Option.some.injEq]
  apply List.ext_getElem (by simp)
  intro j hj1 hj2
  have hj : j < lam.length := by simpa using hj2
  simp only [List.getElem_map, List.getElem_range, h2 j hj]
  rw [List.getD_eq_getElem?_getD, List.getElem?_eq_getElem hj]
  rfl

/-- C116: without rate in the range, the solver reads outside of its array. -/
theorem mcas_none_iff (lam : List ℝ) (xt yt : ℕ → ℝ) (npp : ℕ) : mcas lam xt yt npp = none ↔ lam = [] := by
  unfold mcas
  split_ifs with h
  · simpa using h
  · simp only [Option.map_eq_none_iff, housrs_stop_iff, lt_irrefl, false_iff]
    simpa using h

/-! ## Theorems: the rates -/

theorem merged_real (l : List ℂ) (h : ∀ z ∈ l, z.im = 0) : merged l = l.map Complex.re := by
  induction l using merged.induct with
  | case1 => rw [merged]; rfl
  | case2 z => rw [merged]; rfl
  | case3 z w rest h0 ih => rw [merged, if_pos h0, ih fun y hy => h y (List.mem_cons_of_mem _ hy)]; rfl
  | case4 z w rest h0 _ _ => exact absurd (h z (by simp)) h0
  | case5 z w rest h0 _ _ => exact absurd (h z (by simp)) h0

/-- C116: there is at least one rate, each rate has an amplitude, and the rates are in the range. -/
theorem expors_range {sprbm : List ℝ → List ℂ} {xt yt : ℕ → ℝ} {nm : ℕ} {lam ar : List ℝ}
    (h : expors sprbm xt yt nm = some (lam, ar)) : lam ≠ [] ∧ ar.length = lam.length ∧ ∀ r ∈ lam, -20 < r ∧ r ≤ 0 := by
  unfold expors at h
  simp only at h
  split at h
  · cases h
  · rename_i s hs
    rw [Option.map_eq_some_iff] at h
    obtain ⟨a, h1, h2⟩ := h
    obtain ⟨rfl, rfl⟩ := Prod.mk.inj h2
    refine ⟨fun h0 => ?_, ?_, ?_⟩
    · rw [(mcas_none_iff _ _ _ _).2 h0] at h1
      cases h1
    · unfold mcas at h1
      split at h1
      · cases h1
      · rw [Option.map_eq_some_iff] at h1
        obtain ⟨b, -, rfl⟩ := h1
        simp
    · intro r hr
      simpa [kept] using (List.mem_filter.1 hr).2

theorem sum_perm {lam : List ℝ} {S : Finset ℝ} (h : lam.Perm S.toList) (g : ℝ → ℝ) :
    ∑ r ∈ S, g r = ∑ j ∈ range lam.length, g (lam.getD j 0) := by
  rw [← Finset.sum_map_toList S g, ← (h.map g).sum_eq, ← list_range_sum]
  congr 1
  apply List.ext_getElem (by simp)
  intro i h1 h2
  have : i < lam.length := by simpa using h1
  simp [List.getD_eq_getElem?_getD, this]

/-- The polynomial whose roots are the exponentials. -/
noncomputable def rootPoly (S : Finset ℝ) (h : ℝ) : Polynomial ℝ :=
  ∏ r ∈ S, (Polynomial.X - Polynomial.C (Real.exp (r * h)))

theorem rootPoly_monic (S : Finset ℝ) (h : ℝ) : (rootPoly S h).Monic :=
  Polynomial.monic_prod_of_monic _ _ fun _ _ => Polynomial.monic_X_sub_C _

theorem rootPoly_degree (S : Finset ℝ) (h : ℝ) : (rootPoly S h).natDegree = S.card := by
  unfold rootPoly
  rw [Polynomial.natDegree_prod_of_monic _ _ fun _ _ => Polynomial.monic_X_sub_C _]
  simp

theorem samples {S : Finset ℝ} {c : ℝ → ℝ} {xt : ℕ → ℝ} {x0 h : ℝ} {l : ℕ} (hx : xt l = x0 + l * h) :
    sumOfExp S c (xt l) = ∑ r ∈ S, c r * Real.exp (r * x0) * Real.exp (r * h) ^ l := by
  unfold sumOfExp
  refine sum_congr rfl fun r _ => ?_
  rw [hx, ← Real.exp_nat_mul, mul_assoc, ← Real.exp_add]
  congr 2
  ring

/-- A line of the system times coefficients. -/
theorem predict_row {S : Finset ℝ} {c : ℝ → ℝ} {xt : ℕ → ℝ} {x0 h : ℝ} {nm : ℕ}
    (hx : ∀ l < 4 * nm + 1, xt l = x0 + l * h) (q : ℕ → ℝ) {i : ℕ} (hi : i < 3 * nm + 1) :
    ∑ j ∈ range nm, predictSystem (fun l => sumOfExp S c (xt l)) nm i j * q (nm - 1 - j) =
      ∑ r ∈ S, c r * Real.exp (r * x0) * (∑ p ∈ range nm, q p * Real.exp (r * h) ^ p) * Real.exp (r * h) ^ i := by
  have e : ∀ j ∈ range nm, predictSystem (fun l => sumOfExp S c (xt l)) nm i j * q (nm - 1 - j) =
      (fun p => ∑ r ∈ S, c r * Real.exp (r * x0) * (q p * Real.exp (r * h) ^ p) * Real.exp (r * h) ^ i) (nm - 1 - j) := by
    intro j hj
    have hj := mem_range.1 hj
    unfold predictSystem
    rw [if_pos hj]
    show sumOfExp S c (xt (nm - 1 - j + i)) * q (nm - 1 - j) = _
    rw [samples (hx (nm - 1 - j + i) (by omega)), sum_mul]
    refine sum_congr rfl fun r _ => ?_
    rw [pow_add]
    ring
  rw [sum_congr rfl e, sum_range_reflect (fun p => ∑ r ∈ S, c r * Real.exp (r * x0) * (q p * Real.exp (r * h) ^ p) * Real.exp (r * h) ^ i),
    sum_comm]
  refine sum_congr rfl fun r _ => ?_
  rw [mul_sum, sum_mul]

theorem rootPoly_value {S : Finset ℝ} {h r : ℝ} (hr : r ∈ S) :
    ∑ p ∈ range (S.card + 1), (rootPoly S h).coeff p * Real.exp (r * h) ^ p = 0 := by
  have hev : (rootPoly S h).eval (Real.exp (r * h)) = 0 := by
    unfold rootPoly
    rw [Polynomial.eval_prod, prod_eq_zero hr (by simp)]
  rwa [Polynomial.eval_eq_sum_range, rootPoly_degree] at hev

theorem rootPoly_top (S : Finset ℝ) (h : ℝ) : (rootPoly S h).coeff S.card = 1 := by
  conv_lhs => rw [← rootPoly_degree S h]
  exact rootPoly_monic S h

/-- C116: when the function has fewer exponentials than asked, the columns of the system depend on each other and the solver
divides by zero. -/
theorem expors_singular {S : Finset ℝ} (c : ℝ → ℝ) {xt : ℕ → ℝ} {x0 h : ℝ} {nm : ℕ} (hS : S.card < nm)
    (hx : ∀ l < 4 * nm + 1, xt l = x0 + l * h) :
    ∃ k < nm, pivot (3 * nm + 1) k ((List.range k).foldl (houseStep (3 * nm + 1) nm)
      (predictSystem (fun l => sumOfExp S c (xt l)) nm)) = 0 := by
  by_contra hno
  push Not at hno
  have hi := (housrs_pivots_iff _ (by omega)).1 hno
  have := hi (fun j => (rootPoly S h).coeff (nm - 1 - j)) (by
    intro i hi
    rw [predict_row hx (rootPoly S h).coeff hi]
    refine sum_eq_zero fun r hr => ?_
    have h1 : ∑ p ∈ range nm, (rootPoly S h).coeff p * Real.exp (r * h) ^ p = 0 := by
      rw [← rootPoly_value (h := h) hr]
      refine (sum_subset (range_subset_range.2 (by omega)) fun p _ hp => ?_).symm
      rw [Polynomial.coeff_eq_zero_of_natDegree_lt, zero_mul]
      rw [rootPoly_degree]
      simp only [mem_range] at hp
      omega
    rw [h1]
    ring) (nm - 1 - S.card) (by omega)
  simp only [show nm - 1 - (nm - 1 - S.card) = S.card by omega, rootPoly_top] at this
  exact one_ne_zero this

/-- The system of a sum of as many exponentials as asked has independent columns, and its solution is the polynomial. -/
theorem predict_spec {S : Finset ℝ} {c : ℝ → ℝ} (hc : ∀ r ∈ S, c r ≠ 0) {xt : ℕ → ℝ} {x0 h : ℝ} (hh : h ≠ 0)
    (hx : ∀ l < 4 * S.card + 1, xt l = x0 + l * h) :
    Independent (3 * S.card + 1) S.card (predictSystem (fun l => sumOfExp S c (xt l)) S.card) ∧
    ∀ i < 3 * S.card + 1, ∑ j ∈ range S.card, predictSystem (fun l => sumOfExp S c (xt l)) S.card i j *
      (rootPoly S h).coeff (S.card - 1 - j) = predictSystem (fun l => sumOfExp S c (xt l)) S.card i S.card := by
  have hzinj : Set.InjOn (fun r : ℝ => Real.exp (r * h)) S := fun a _ b _ hab =>
    mul_right_cancel₀ hh (Real.exp_injective hab)
  constructor
  · intro x hz
    have hq : ∀ r ∈ S, ∑ p ∈ range S.card, x (S.card - 1 - p) * Real.exp (r * h) ^ p = 0 := by
      have := vandermonde_zero S (fun r => Real.exp (r * h)) (fun r => c r * Real.exp (r * x0) *
        ∑ p ∈ range S.card, x (S.card - 1 - p) * Real.exp (r * h) ^ p) hzinj (by
          intro k hk
          rw [← predict_row hx (fun p => x (S.card - 1 - p)) (by omega : k < _)]
          refine Eq.trans (sum_congr rfl fun j hj => ?_) (hz k (by omega))
          have := mem_range.1 hj
          rw [show S.card - 1 - (S.card - 1 - j) = j by omega])
      intro r hr
      exact (mul_eq_zero.1 (this r hr)).resolve_left (mul_ne_zero (hc r hr) (Real.exp_pos _).ne')
    -- a polynomial of small degree with many roots
    let Q : Polynomial ℝ := ∑ p ∈ range S.card, Polynomial.C (x (S.card - 1 - p)) * Polynomial.X ^ p
    have hQ : Q = 0 := by
      refine Polynomial.eq_zero_of_degree_lt_of_eval_finset_eq_zero (s := S.image fun r => Real.exp (r * h)) ?_ ?_
      · rw [card_image_of_injOn hzinj]
        refine (Polynomial.degree_sum_le _ _).trans_lt ?_
        rw [Finset.sup_lt_iff (WithBot.bot_lt_coe _)]
        intro p hp
        refine (Polynomial.degree_C_mul_X_pow_le _ _).trans_lt ?_
        exact_mod_cast mem_range.1 hp
      · intro z hz'
        obtain ⟨r, hr, rfl⟩ := mem_image.1 hz'
        rw [Polynomial.eval_finsetSum]
        simpa using hq r hr
    intro j hj
    have h1 : Q.coeff (S.card - 1 - j) = x j := by
      rw [Polynomial.finsetSum_coeff, sum_eq_single (S.card - 1 - j)]
      · rw [Polynomial.coeff_C_mul_X_pow, if_pos rfl, show S.card - 1 - (S.card - 1 - j) = j by omega]
      · intro p _ hp
        rw [Polynomial.coeff_C_mul_X_pow, if_neg (Ne.symm hp)]
      · intro h0
        exact absurd (mem_range.2 (by omega)) h0
    rw [← h1, hQ, Polynomial.coeff_zero]
  · intro i hi
    rw [predict_row hx (rootPoly S h).coeff hi]
    unfold predictSystem
    rw [if_neg (by omega)]
    show _ = -sumOfExp S c (xt (S.card + i))
    rw [samples (hx (S.card + i) (by omega)), ← sum_neg_distrib]
    refine sum_congr rfl fun r hr => ?_
    have hev := rootPoly_value (h := h) hr
    rw [sum_range_succ, rootPoly_top, one_mul] at hev
    rw [pow_add]
    linear_combination c r * Real.exp (r * x0) * Real.exp (r * h) ^ i * hev

theorem rootPoly_small {S : Finset ℝ} {h : ℝ} (hh : 0 < h) (hr : ∀ r ∈ S, r ≤ 0) (h30 : S.card ≤ 30) (i : ℕ) :
    |(rootPoly S h).coeff i| < 10 ^ 27 := by
  have hsp : Polynomial.Splits (rootPoly S h) := by
    unfold rootPoly
    exact Polynomial.Splits.prod fun r _ => Polynomial.Splits.X_sub_C _
  have h1 := Polynomial.coeff_le_of_roots_le (F := ℝ) (K := ℝ) (f := RingHom.id ℝ) (B := 1) i (rootPoly_monic S h)
    (by rwa [Polynomial.map_id]) (by
      intro z hz
      rw [Polynomial.map_id] at hz
      have h0 := (Polynomial.mem_roots'.1 hz).2
      unfold rootPoly at h0
      rw [Polynomial.IsRoot.def, Polynomial.eval_prod, prod_eq_zero_iff] at h0
      obtain ⟨r, hr1, hr2⟩ := h0
      simp only [Polynomial.eval_sub, Polynomial.eval_X, Polynomial.eval_C, sub_eq_zero] at hr2
      rw [hr2, Real.norm_eq_abs, abs_of_pos (Real.exp_pos _)]
      exact Real.exp_le_one_iff.2 (mul_nonpos_of_nonpos_of_nonneg (hr r hr1) hh.le))
  rw [Polynomial.map_id, one_pow, one_mul, rootPoly_degree, Real.norm_eq_abs] at h1
  have h2 : (S.card.choose i : ℝ) ≤ 2 ^ 30 := by
    have := (Nat.choose_le_two_pow S.card i).trans (Nat.pow_le_pow_right (by norm_num) h30)
    exact_mod_cast this
  refine h1.trans_lt (h2.trans_lt (by norm_num))

theorem roots_perm {sprbm : List ℝ → List ℂ} (hs : RootsRight sprbm) {S : Finset ℝ} {h : ℝ} {s : ℕ → ℝ} (hne : S.Nonempty)
    (hh : 0 < h) (hr : ∀ r ∈ S, r ≤ 0) (h30 : S.card ≤ 30)
    (hsol : ∀ j < S.card, s j = (rootPoly S h).coeff (S.card - 1 - j)) :
    ((sprbm (polynomialOf s S.card) : List ℂ) : Multiset ℂ) = S.val.map fun r => ((Real.exp (r * h) : ℝ) : ℂ) := by
  have hlast : (polynomialOf s S.card).getLast? = some 1 := by simp [polynomialOf]
  have hlen : (polynomialOf s S.card).length = S.card + 1 := by simp [polynomialOf]
  have hcoef : ∀ p ≤ S.card, (polynomialOf s S.card).getD p 0 = (rootPoly S h).coeff p := by
    intro p hp
    rcases hp.eq_or_lt with rfl | hp
    · rw [rootPoly_top]
      simp [polynomialOf, List.getD_eq_getElem?_getD]
    · simp only [polynomialOf, List.getD_eq_getElem?_getD]
      rw [List.getElem?_append_left (by simpa using hp)]
      simp only [List.getElem?_map, List.getElem?_range hp, Option.map_some, Option.getD_some]
      rw [hsol _ (by omega), show S.card - 1 - (S.card - 1 - p) = p by omega]
  have hval : ∀ z : ℂ, ((sprbm (polynomialOf s S.card)).map fun r => z - r).prod =
      ∏ r ∈ S, (z - ((Real.exp (r * h) : ℝ) : ℂ)) := by
    intro z
    have hsmall : ∀ x ∈ polynomialOf s S.card, |x| < 10 ^ 27 := by
      intro x hx
      obtain ⟨i, hi, rfl⟩ := List.getElem_of_mem hx
      have h1 := hcoef i (by omega)
      rw [List.getD_eq_getElem?_getD, List.getElem?_eq_getElem hi, Option.getD_some] at h1
      rw [h1]
      exact rootPoly_small hh hr h30 i
    rw [← hs _ (by have := card_pos.2 hne; omega) hlast hsmall z]
    have h1 : (rootPoly S h).eval₂ Complex.ofRealHom z = ∏ r ∈ S, (z - ((Real.exp (r * h) : ℝ) : ℂ)) := by
      unfold rootPoly
      rw [Polynomial.eval₂_finsetProd]
      simp
    rw [← h1, Polynomial.eval₂_eq_sum_range, rootPoly_degree]
    unfold polyValue
    rw [List.length_map, hlen]
    refine sum_congr rfl fun p hp => ?_
    have hp' := mem_range.1 hp
    rw [← hcoef p (by omega)]
    have : p < (polynomialOf s S.card).length := by omega
    simp [List.getD_eq_getElem?_getD, this]
  have hpoly : (((sprbm (polynomialOf s S.card) : List ℂ) : Multiset ℂ).map fun a => Polynomial.X - Polynomial.C a).prod =
      ((S.val.map fun r => ((Real.exp (r * h) : ℝ) : ℂ)).map fun a => Polynomial.X - Polynomial.C a).prod := by
    refine Polynomial.funext fun z => ?_
    have h2 := hval z
    rw [Multiset.map_coe, Multiset.prod_coe, Polynomial.eval_list_prod, List.map_map, Polynomial.eval_multiset_prod,
      Multiset.map_map, Multiset.map_map]
    have e1 : (Polynomial.eval z ∘ fun a => Polynomial.X - Polynomial.C a) = fun r => z - r := by
      funext a
      simp
    rw [e1, h2]
    show ∏ r ∈ S, _ = ∏ r ∈ S, _
    refine prod_congr rfl fun r _ => ?_
    simp
  have := congrArg Polynomial.roots hpoly
  rwa [Polynomial.roots_multiset_prod_X_sub_C, Polynomial.roots_multiset_prod_X_sub_C] at this

/-- C116: a sum of exactly as many exponentials as asked is found again, with the rates from -20 to 0, zero included. -/
theorem expors_exact {sprbm : List ℝ → List ℂ} (hs : RootsRight sprbm) {S : Finset ℝ} {c : ℝ → ℝ} (hne : S.Nonempty)
    (hc : ∀ r ∈ S, c r ≠ 0) (hr : ∀ r ∈ S, -20 < r ∧ r ≤ 0) (h30 : S.card ≤ 30) {xt : ℕ → ℝ} {x0 h : ℝ}
    (hh0 : 0 < h) (hx : ∀ l < 4 * S.card + 1, xt l = x0 + l * h) (hcut : NoCut S.toList xt (4 * S.card + 1)) :
    ∃ lam : List ℝ, expors sprbm xt (fun l => sumOfExp S c (xt l)) S.card = some (lam, lam.map c) ∧ lam.Perm S.toList := by
  have hh := hh0.ne'
  have hcard : 0 < S.card := card_pos.2 hne
  obtain ⟨hind, hsolve⟩ := predict_spec hc hh hx
  obtain ⟨s, hs1, hs2⟩ := housrs_solves (by omega) hind (s := fun j => (rootPoly S h).coeff (S.card - 1 - j)) hsolve
  have hstep : (xt (4 * S.card + 1 - 1) - xt 0) / ((4 * S.card : ℕ) : ℝ) = h := by
    rw [hx _ (by omega), hx _ (by omega)]
    have : ((4 * S.card : ℕ) : ℝ) ≠ 0 := by positivity
    rw [Nat.add_sub_cancel]
    field_simp
    push_cast
    ring
  have hperm := roots_perm hs hne hh0 (fun r h => (hr r h).2) h30 hs2
  set roots := sprbm (polynomialOf s S.card) with hroots
  have hlog : ∀ r : ℝ, Complex.log ((Real.exp (r * h) : ℝ) : ℂ) / (h : ℂ) = (r : ℂ) := by
    intro r
    rw [← Complex.ofReal_log (Real.exp_pos _).le, Real.log_exp]
    push_cast
    have : (h : ℂ) ≠ 0 := by exact_mod_cast hh
    field_simp
  set com := roots.map fun z => Complex.log z / h with hcom
  have hcomp : (com : Multiset ℂ) = S.val.map fun r : ℝ => (r : ℂ) := by
    rw [hcom, ← Multiset.map_coe, hperm, Multiset.map_map]
    refine Multiset.map_congr rfl fun r _ => ?_
    exact hlog r
  have him : ∀ z ∈ com, z.im = 0 := by
    intro z hz
    have : z ∈ S.val.map fun r : ℝ => (r : ℂ) := hcomp ▸ (Multiset.mem_coe.2 hz)
    obtain ⟨r, -, rfl⟩ := Multiset.mem_map.1 this
    exact Complex.ofReal_im r
  have hre : (com.map Complex.re : Multiset ℝ) = S.val := by
    rw [← Multiset.map_coe, hcomp, Multiset.map_map]
    simp
  have hpl : (com.map Complex.re).Perm S.toList := by
    rw [← Multiset.coe_eq_coe, hre, Finset.coe_toList]
  have hkept : kept (merged com) = com.map Complex.re := by
    rw [merged_real com him]
    refine List.filter_eq_self.2 fun r hr' => ?_
    have := hr r (Finset.mem_toList.1 (hpl.mem_iff.1 hr'))
    simpa using this
  set lam := com.map Complex.re with hlam
  have hnd : lam.Nodup := hpl.nodup_iff.2 S.nodup_toList
  have hlen : lam.length = S.card := by rw [hpl.length_eq, Finset.length_toList]
  have hm : mcas lam xt (fun l => sumOfExp S c (xt l)) (4 * S.card + 1) = some (lam.map c) := by
    refine mcas_exact ?_ hnd hh hx (by omega) ?_ c ?_
    · intro h0
      rw [h0] at hlen
      simp at hlen
      omega
    · exact fun r hr s hs l hl => hcut r (hpl.mem_iff.1 hr) s (hpl.mem_iff.1 hs) l hl
    · intro l hl
      show sumOfExp S c (xt l) = _
      unfold sumOfExp
      exact sum_perm hpl _
  refine ⟨lam, ?_, hpl⟩
  unfold expors
  simp only
  rw [show 4 * S.card + 1 - S.card = 3 * S.card + 1 by omega, hs1, hstep]
  simp only
  rw [← hroots, ← hcom, hkept, hm]
  rfl

/-- C116: a double root is kept twice, against the comment of the code, and then the system of the amplitudes is singular. -/
theorem double_root_violated (r : ℝ) (xt yt : ℕ → ℝ) (npp : ℕ) :
    merged [(r : ℂ), (r : ℂ)] = [r, r] ∧ ¬ Independent 2 2 (fitSystem [r, r] xt yt npp) := by
  constructor
  · rw [merged_real _ (by simp)]
    simp
  · intro h
    have := h (fun j => if j = 0 then 1 else -1) (fun i _ => by simp [sum_range_succ, fitSystem]) 0 (by omega)
    simp at this

/-- C116: one rate stands for two conjugate roots. -/
theorem conjugate_roots (z : ℂ) (h : z.im ≠ 0) : merged [z, starRingEnd ℂ z] = [z.re] := by
  rw [merged, if_neg h, if_pos (by simp), merged]

/-- C116: the terms removed from the sums are not the same on both sides of the system: an exponential sampled at 0 and 10 is
not exactly found again. -/
theorem mcas_cut_violated : ∃ a, mcas [-2] (fun l => 10 * l) (fun l => Real.exp (-2 * (10 * l))) 2 = some [a] ∧ a ≠ 1 := by
  have hm : fitSystem [-2] (fun l => 10 * l) (fun l => Real.exp (-2 * (10 * l))) 2 0 0 = 1 := by
    norm_num [fitSystem, sum_range_succ]
  have hr : fitSystem [-2] (fun l => 10 * l) (fun l => Real.exp (-2 * (10 * l))) 2 0 1 = 1 + Real.exp (-40) := by
    norm_num [fitSystem, sum_range_succ, ← Real.exp_add]
  have hi : Independent 1 1 (fitSystem [-2] (fun l => 10 * l) (fun l => Real.exp (-2 * (10 * l))) 2) := by
    intro x hx j hj
    have := hx 0 (by omega)
    rw [sum_range_one, hm, one_mul] at this
    rwa [show j = 0 by omega]
  obtain ⟨x, h1, h2⟩ := housrs_square hi
  have := h2 0 (by omega)
  rw [sum_range_one, hm, hr, one_mul] at this
  refine ⟨x 0, ?_, ?_⟩
  · unfold mcas
    rw [if_neg (by simp)]
    simp only [List.length_singleton, h1, Option.map_some]
    rfl
  · rw [this]
    have := Real.exp_pos (-40)
    linarith

/-! ## Theorems: the number of exponentials -/

/-- One try of `LISC`. -/
noncomputable def attempt (sprbm : List ℝ → List ℂ) (f : ℝ → ℝ) (nk : ℕ) : Option (List ℝ × List ℝ) :=
  expors sprbm (fun i => -0.1 + 20.1 / (4 * nk) * i) (fun i => f (-0.1 + 20.1 / (4 * nk) * i)) nk

theorem attempt_eq (sprbm : List ℝ → List ℂ) (f : ℝ → ℝ) (nk : ℕ) :
    expors sprbm (tabulated nk) (fun i => f (tabulated nk i)) nk = attempt sprbm f nk := by
  have : tabulated nk = fun i : ℕ => (-0.1 + 20.1 / (4 * nk) * i : ℝ) := by
    funext i
    unfold tabulated
    push_cast
    ring
  rw [this]
  rfl

theorem liscFrom_iff (sprbm : List ℝ → List ℂ) (f : ℝ → ℝ) (r : List ℝ × List ℝ) (fuel nk : ℕ) (hf : fuel = 0 ∨ nk + 2 * fuel = 32) :
    liscFrom sprbm f fuel nk = some r ↔ ∃ m < fuel, attempt sprbm f (nk + 2 * m) = some r ∧
      (∀ k < m, ∃ q, attempt sprbm f (nk + 2 * k) = some q ∧ TooFar f q.1 q.2) ∧ (TooFar f r.1 r.2 → nk + 2 * m = 30) := by
  induction fuel generalizing nk with
  | zero => simp [liscFrom]
  | succ fuel ih =>
    rw [liscFrom, attempt_eq]
    constructor
    · intro h
      split at h
      · cases h
      · rename_i q hq
        split_ifs at h with hc
        · obtain ⟨m, h1, h2, h3, h4⟩ := (ih (nk + 2) (by omega)).1 h
          refine ⟨m + 1, by omega, by rwa [show nk + 2 * (m + 1) = nk + 2 + 2 * m by ring], ?_,
            fun h5 => by have := h4 h5; omega⟩
          intro k hk
          rcases Nat.eq_zero_or_pos k with rfl | hk0
          · exact ⟨q, hq, hc.1⟩
          · have := h3 (k - 1) (by omega)
            rwa [show nk + 2 + 2 * (k - 1) = nk + 2 * k by omega] at this
        · cases h
          refine ⟨0, by omega, hq, fun k hk => absurd hk (by omega), fun h5 => ?_⟩
          have : ¬ nk ≤ 31 - 2 := fun h6 => hc ⟨h5, h6⟩
          omega
    · rintro ⟨m, h1, h2, h3, h4⟩
      rcases Nat.eq_zero_or_pos m with rfl | hm
      · rw [show nk + 2 * 0 = nk by omega] at h2 h4
        simp only [h2]
        rw [if_neg]
        rintro ⟨h5, h6⟩
        have := h4 h5
        omega
      · obtain ⟨q, hq1, hq2⟩ := h3 0 hm
        rw [show nk + 2 * 0 = nk by omega] at hq1
        simp only [hq1]
        rw [if_pos ⟨hq2, by omega⟩, ih (nk + 2) (by omega)]
        refine ⟨m - 1, by omega, by rwa [show nk + 2 + 2 * (m - 1) = nk + 2 * m by omega], ?_, fun h5 => ?_⟩
        · intro k hk
          have := h3 (k + 1) (by omega)
          rwa [show nk + 2 * (k + 1) = nk + 2 + 2 * k by ring] at this
        · have := h4 h5
          omega

theorem foldl_value (l : List ℕ) (g : ℕ → ℝ) (t : ℝ) : l.foldl (fun t j => t + g j) t = t + (l.map g).sum := by
  induction l generalizing t with
  | nil => simp
  | cons x l ih => rw [List.foldl_cons, ih, List.map_cons, List.sum_cons, add_assoc]

/-- At one of the points of control, `8 n + 1` points from 0 to 20 for `n` exponentials, the error is larger than a
hundredth. -/
def OffControl (f : ℝ → ℝ) (r : List ℝ × List ℝ) : Prop :=
  ∃ i ≤ 8 * r.1.length, 1 / 100 < |f (20 * i / (8 * r.1.length)) -
    ∑ j ∈ range r.1.length, r.2.getD j 0 * Real.exp (r.1.getD j 0 * (20 * i / (8 * r.1.length)))|

theorem tooFar_iff (f : ℝ → ℝ) (r : List ℝ × List ℝ) : TooFar f r.1 r.2 ↔ OffControl f r := by
  unfold TooFar OffControl expValue
  refine exists_congr fun i => and_congr (by omega) ?_
  rw [foldl_value (List.range r.1.length)
    (fun j => r.2.getD j 0 * Real.exp (r.1.getD j 0 * (i * 20 / ((8 * r.1.length : ℕ) : ℝ)))), zero_add, list_range_sum]
  push_cast
  rw [mul_comm (i : ℝ) 20, gt_iff_lt]
  norm_num

/-- C116: the result is the first try from 4 to 30, two by two, whose error is small at the points of control, or the last
one, whatever its error. -/
theorem lisc_iff (sprbm : List ℝ → List ℂ) (f : ℝ → ℝ) (r : List ℝ × List ℝ) :
    lisc sprbm f = some r ↔ ∃ m < 14, attempt sprbm f (4 + 2 * m) = some r ∧
      (∀ k < m, ∃ q, attempt sprbm f (4 + 2 * k) = some q ∧ OffControl f q) ∧ (OffControl f r → m = 13) := by
  simp only [← tooFar_iff]
  unfold lisc
  rw [liscFrom_iff _ _ _ 14 4 (by omega)]
  refine exists_congr fun m => and_congr_right fun _ => and_congr_right fun _ => and_congr_right fun _ => ?_
  refine imp_congr_right fun _ => ?_
  omega

theorem expValue_eq {lam : List ℝ} {S : Finset ℝ} (h : lam.Perm S.toList) (c : ℝ → ℝ) (x : ℝ) :
    expValue lam (lam.map c) x = sumOfExp S c x := by
  unfold expValue sumOfExp
  rw [foldl_value (List.range lam.length) (fun j => (lam.map c).getD j 0 * Real.exp (lam.getD j 0 * x)), zero_add,
    list_range_sum, sum_perm h fun r => c r * Real.exp (r * x)]
  refine sum_congr rfl fun i hi => ?_
  have := mem_range.1 hi
  simp [List.getD_eq_getElem?_getD, this]

/-- C116: a sum of four slow exponentials is exactly found at the first try. -/
theorem lisc_exact {sprbm : List ℝ → List ℂ} (hs : RootsRight sprbm) {S : Finset ℝ} (h4 : S.card = 4) {c : ℝ → ℝ}
    (hc : ∀ r ∈ S, c r ≠ 0) (hr : ∀ r ∈ S, -0.75 ≤ r ∧ r ≤ 0) :
    ∃ lam : List ℝ, lisc sprbm (sumOfExp S c) = some (lam, lam.map c) ∧ lam.Perm S.toList := by
  have hne : S.Nonempty := card_pos.1 (by omega)
  have hcut : NoCut S.toList (fun i => -0.1 + 20.1 / (4 * (4 : ℕ)) * i) (4 * S.card + 1) := by
    intro r hr1 s hs1 l hl
    obtain ⟨a1, a2⟩ := hr r (Finset.mem_toList.1 hr1)
    obtain ⟨b1, b2⟩ := hr s (Finset.mem_toList.1 hs1)
    have hl' : (l : ℝ) ≤ 16 := by exact_mod_cast (by omega : l ≤ 16)
    have hl0 : (0 : ℝ) ≤ l := Nat.cast_nonneg l
    push_cast
    norm_num at a1 b1 ⊢
    nlinarith
  obtain ⟨lam, h1, h2⟩ := expors_exact (sprbm := sprbm) hs hne hc (fun r h => ⟨by have := (hr r h).1; norm_num at this; linarith, (hr r h).2⟩)
    (by omega)
    (xt := fun i => -0.1 + 20.1 / (4 * (4 : ℕ)) * i) (x0 := -0.1) (h := 20.1 / (4 * (4 : ℕ))) (by norm_num) (fun l _ => by ring) hcut
  rw [h4] at h1
  refine ⟨lam, (lisc_iff _ _ _).2 ⟨0, by omega, h1, fun k hk => absurd hk (by omega), ?_⟩, h2⟩
  rw [← tooFar_iff]
  rintro ⟨i, -, hi⟩
  rw [expValue_eq h2, sub_self, abs_zero] at hi
  norm_num at hi

/-- C116: whatever the function, the rates of the result are from -20 to 0 and each has an amplitude. -/
theorem lisc_range {sprbm : List ℝ → List ℂ} {f : ℝ → ℝ} {lam ar : List ℝ} (h : lisc sprbm f = some (lam, ar)) :
    lam ≠ [] ∧ ar.length = lam.length ∧ ∀ r ∈ lam, -20 < r ∧ r ≤ 0 := by
  obtain ⟨m, -, h1, -⟩ := (lisc_iff _ _ _).1 h
  exact expors_range h1

/-- C116: a sum of fewer than four exponentials makes the first try divide by zero. -/
theorem lisc_singular_violated {S : Finset ℝ} (hS : S.card < 4) (c : ℝ → ℝ) :
    ∃ k < 4, pivot 13 k ((List.range k).foldl (houseStep 13 4)
      (predictSystem (fun i => sumOfExp S c (tabulated 4 i)) 4)) = 0 :=
  expors_singular c (x0 := -0.1) (h := 20.1 / 16) (nm := 4) hS fun l _ => by
    unfold tabulated
    push_cast
    ring

/-- The contract of `SPRBM` can be met. -/
theorem sprbm_exists : ∃ sprbm : List ℝ → List ℂ, RootsRight sprbm := by
  classical
  let P : List ℝ → Polynomial ℂ := fun c => ∑ i ∈ range c.length, Polynomial.C ((c.map Complex.ofReal).getD i 0) * Polynomial.X ^ i
  refine ⟨fun c => (P c).roots.toList, fun c _ hc _ z => ?_⟩
  have hlen : c ≠ [] := by
    rintro rfl
    cases hc
  have hpos : 0 < c.length := List.length_pos_of_ne_nil hlen
  have hlast : (c.map Complex.ofReal).getD (c.length - 1) 0 = 1 := by
    rw [List.getLast?_eq_getElem?] at hc
    simp [List.getD_eq_getElem?_getD, hc]
  have hm : (P c).Monic := by
    show (∑ i ∈ range c.length, Polynomial.C ((c.map Complex.ofReal).getD i 0) * Polynomial.X ^ i).Monic
    rw [show c.length = c.length - 1 + 1 by omega, sum_range_succ, hlast, Polynomial.C_1, one_mul, add_comm]
    refine Polynomial.monic_X_pow_add ?_
    refine (Polynomial.degree_sum_le _ _).trans_lt ?_
    rw [Finset.sup_lt_iff (WithBot.bot_lt_coe _)]
    intro p hp
    refine (Polynomial.degree_C_mul_X_pow_le _ _).trans_lt ?_
    exact_mod_cast mem_range.1 hp
  have h1 := (IsAlgClosed.splits (P c)).eval_eq_prod_roots_of_monic hm z
  rw [Multiset.prod_map_toList, ← h1]
  show _ = Polynomial.eval z (∑ i ∈ range c.length, Polynomial.C ((c.map Complex.ofReal).getD i 0) * Polynomial.X ^ i)
  unfold polyValue
  rw [Polynomial.eval_finsetSum, List.length_map]
  refine sum_congr rfl fun i _ => ?_
  simp

/-! ## The hypotheses can be met -/

example : ∃ sprbm lam, RootsRight sprbm ∧
    lisc sprbm (sumOfExp {0, -0.25, -0.5, -0.75} fun _ => 3) = some (lam, lam.map fun _ => 3) ∧
    lam.Perm (Finset.toList {0, -0.25, -0.5, -0.75}) := by
  obtain ⟨sprbm, hs⟩ := sprbm_exists
  obtain ⟨lam, h⟩ := lisc_exact hs (S := {0, -0.25, -0.5, -0.75}) (by
    rw [card_insert_of_notMem, card_insert_of_notMem, card_insert_of_notMem, card_singleton] <;> norm_num)
    (c := fun _ => 3) (fun _ _ => by norm_num) (fun r hr => by
      simp only [mem_insert, mem_singleton] at hr
      rcases hr with rfl | rfl | rfl | rfl <;> norm_num)
  exact ⟨sprbm, lam, hs, h⟩

example : NoCut [-1, -2] (fun l => l) 5 ∧ ([-1, -2] : List ℝ).Nodup := by
  refine ⟨fun r hr s hs l hl => ?_, by norm_num⟩
  have : (l : ℝ) ≤ 4 := by exact_mod_cast (by omega : l ≤ 4)
  have h0 : (0 : ℝ) ≤ l := Nat.cast_nonneg l
  simp only [List.mem_cons, List.not_mem_nil, or_false] at hr hs
  rcases hr with rfl | rfl <;> rcases hs with rfl | rfl <;> linarith

end Verif.Green.Lisc
