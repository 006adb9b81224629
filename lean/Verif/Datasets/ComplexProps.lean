import Verif.Datasets.ComplexModel
import Mathlib.Tactic.NormNum
import Mathlib.Data.List.Nodup

/-!
# Complex datasets survive the conversion to real (C48)

The specification compares datasets variable by variable and element by element. The round trip is computed exactly for every
dataset that does not use the name `complex`. It is the identity if and only if the complex variables have no attributes and their
values have a finite imaginary part or an undefined real part.
-/

namespace Verif.Datasets

/-! ## Specification -/

/-- Two arrays are the same for a user: same type, dimensions, shape, attributes and elements within the shape. -/
def NArr.Same (a b : NArr) : Prop :=
  a.dtype = b.dtype ∧ a.dims = b.dims ∧ a.shape = b.shape ∧ a.attrs = b.attrs ∧
    ∀ idx, List.Forall₂ (· < ·) idx a.shape → a.value idx = b.value idx

/-- Two datasets are the same for a user. -/
def CDS.Same (a b : CDS) : Prop :=
  a.attrs = b.attrs ∧ a.coords = b.coords ∧ List.Forall₂ (fun p q => p.1 = q.1 ∧ NArr.Same p.2 q.2) a.vars b.vars

/-- The name `complex` is not used in the dataset, and the names of the variables are distinct. -/
structure CDS.Fresh (ds : CDS) : Prop where
  nodup : (ds.vars.map Prod.fst).Nodup
  dims : ∀ p ∈ ds.vars, "complex" ∉ p.2.dims
  coords : ∀ p ∈ ds.coords, p.1 ≠ "complex" ∧ "complex" ∉ p.2.dims

/-- The elements of the complex arrays are numbers. -/
def CDS.Typed (ds : CDS) : Prop :=
  ∀ p ∈ ds.vars, p.2.dtype = .complex128 → ∀ idx, List.Forall₂ (· < ·) idx p.2.shape → ∃ z, p.2.value idx = .num z

/-- The numbers that do not change. -/
def Cplx.Survives (z : Cplx) : Prop := (∃ y, z.im = .fin y) ∨ z.re = .nan

/-! ## One number -/

/-- What is read back from a number: the product of `1j` by an infinity has an undefined real part. -/
theorem readback_eq_iff (z : Cplx) :
    (Cplx.ofReal z.re).add (Cplx.I.mul (Cplx.ofReal z.im)) = z ↔ z.Survives := by
  obtain ⟨r, i⟩ := z
  cases r <;> cases i <;>
    simp [Cplx.Survives, Cplx.add, Cplx.mul, Cplx.I, Cplx.ofReal, Flt.mul, Flt.add, Flt.neg, Flt.infTimes]

/-- The imaginary part always survives. -/
theorem readback_im (z : Cplx) : ((Cplx.ofReal z.re).add (Cplx.I.mul (Cplx.ofReal z.im))).im = z.im := by
  obtain ⟨r, i⟩ := z
  cases r <;> cases i <;>
    simp [Cplx.add, Cplx.mul, Cplx.I, Cplx.ofReal, Flt.mul, Flt.add, Flt.neg, Flt.infTimes]

/-! ## The two loops -/

/-- Closed form of the first loop on one variable. -/
def sepVar (p : String × NArr) : String × NArr :=
  (p.1, if p.2.dtype = .complex128 then separated p.2 else p.2)

/-- Closed form of the round trip on one variable. -/
noncomputable def readVar (p : String × NArr) : String × NArr :=
  (p.1, if p.2.dtype = .complex128 then
    { dtype := .complex128, dims := p.2.dims, shape := p.2.shape,
      value := fun idx => mergedElem (p.2.value idx).real (p.2.value idx).imag, attrs := [] } else p.2)

theorem lookup_mid {β : Type} (P R : List (String × β)) (n : String) (a : β) (h : n ∉ P.map Prod.fst) :
    (P ++ (n, a) :: R).lookup n = some a := by
  induction P with
  | nil => simp
  | cons p P ih =>
    obtain ⟨m, b⟩ := p
    simp only [List.map_cons, List.mem_cons, not_or] at h
    simp only [List.cons_append, List.lookup_cons]
    have e : (n == m) = false := by simpa using h.1
    simp only [e]
    exact ih h.2

theorem setVar_mid (P R : List (String × NArr)) (n : String) (a b : NArr) (C : List (String × Coo))
    (A : List (String × String)) (h : n ∉ P.map Prod.fst) (h' : n ∉ R.map Prod.fst) :
    (CDS.mk (P ++ (n, a) :: R) C A).setVar n b = ⟨P ++ (n, b) :: R, C, A⟩ := by
  have key : ∀ L : List (String × NArr), n ∉ L.map Prod.fst →
      L.map (fun p => if p.1 = n then (p.1, b) else p) = L := by
    intro L hL
    conv_rhs => rw [← List.map_id L]
    refine List.map_congr_left fun p hp => ?_
    rw [if_neg]
    · rfl
    · rintro rfl
      exact hL (List.mem_map_of_mem hp)
  simp only [CDS.setVar, List.map_append, List.map_cons, if_pos, key P h, key R h']

/-- The coordinates during the first loop. -/
def withReIm (b : Bool) (C : List (String × Coo)) : List (String × Coo) :=
  if b then C ++ [("complex", reImCoord)] else C

theorem setCoord_withReIm (b : Bool) (V : List (String × NArr)) (C : List (String × Coo)) (A : List (String × String))
    (hC : ∀ p ∈ C, p.1 ≠ "complex" ∧ "complex" ∉ p.2.dims) :
    (CDS.mk V (withReIm b C) A).setCoord "complex" reImCoord = ⟨V, withReIm true C, A⟩ := by
  have h1 : C.any (fun p => decide (p.1 = "complex")) = false := by
    rw [List.any_eq_false]
    intro p hp
    simpa using (hC p hp).1
  have h2 : C.map (fun p => if p.1 = "complex" then (p.1, reImCoord) else p) = C := by
    conv_rhs => rw [← List.map_id C]
    refine List.map_congr_left fun p hp => ?_
    rw [if_neg (hC p hp).1]
    rfl
  cases b
  · simp [CDS.setCoord, withReIm, h1]
  · simp only [CDS.setCoord, withReIm, if_pos, List.any_append, h1, List.map_append, h2]
    simp

theorem separate_fold (C : List (String × Coo)) (A : List (String × String))
    (hC : ∀ p ∈ C, p.1 ≠ "complex" ∧ "complex" ∉ p.2.dims) :
    ∀ (R P : List (String × NArr)) (b : Bool), ((P ++ R).map Prod.fst).Nodup →
      (∀ p ∈ P, fitsArray p.2 = true) → (∀ p ∈ R, "complex" ∉ p.2.dims) →
      (R.map Prod.fst).foldlM separateStep (CDS.mk (P ++ R) (withReIm b C) A) =
        some ⟨P ++ R.map sepVar, withReIm (b || R.any fun p => p.2.dtype = .complex128) C, A⟩ := by
  have fresh : ∀ a : NArr, "complex" ∉ a.dims → fitsArray a = true := by
    intro a ha
    rw [fitsArray, List.all_eq_true]
    rintro ⟨d, k⟩ hp
    have := (List.of_mem_zip hp).1
    have hd : d ≠ "complex" := by
      rintro rfl
      exact ha this
    simp [hd]
  intro R
  induction R with
  | nil =>
    intro P b _ _ _
    simp
  | cons p R ih =>
    obtain ⟨n, a⟩ := p
    intro P b hn hP hR
    have hn' : ((P ++ (n, a) :: R).map Prod.fst).Nodup := hn
    rw [List.map_append, List.map_cons, List.nodup_append] at hn
    obtain ⟨hnP, hnR, hdis⟩ := hn
    rw [List.nodup_cons] at hnR
    have hP' : n ∉ P.map Prod.fst := by
      intro hm
      exact hdis n hm n (List.mem_cons_self) rfl
    have hstep : separateStep (CDS.mk (P ++ (n, a) :: R) (withReIm b C) A) n =
        some ⟨P ++ sepVar (n, a) :: R, withReIm (b || decide (a.dtype = .complex128)) C, A⟩ := by
      have hl : (CDS.mk (P ++ (n, a) :: R) (withReIm b C) A).var n = some a := lookup_mid P R n a hP'
      unfold separateStep
      rw [hl]
      by_cases hd : a.dtype = .complex128
      · have h1 : a.dims.contains "complex" = false := by
          simpa using hR (n, a) (List.mem_cons_self)
        have h2 : (P ++ (n, a) :: R).all (fun p => fitsArray p.2) = true := by
          rw [List.all_eq_true]
          intro q hq
          rcases List.mem_append.1 hq with hq | hq
          · exact hP q hq
          · exact fresh _ (hR q hq)
        have h3 : (withReIm b C).all fitsCoord = true := by
          rw [List.all_eq_true]
          intro q hq
          have hCC : ∀ q ∈ C, fitsCoord q = true := by
            intro q hq
            have := hC q hq
            simp [fitsCoord, this.1, this.2]
          cases b
          · exact hCC q (by simpa [withReIm] using hq)
          · rcases List.mem_append.1 (by simpa only [withReIm, if_pos] using hq) with hq | hq
            · exact hCC q hq
            · rw [List.mem_singleton.1 hq]
              simp [fitsCoord, reImCoord]
        simp only [hd, if_pos, h1, h2, h3, and_self]
        rw [setVar_mid P R n a _ _ _ hP' hnR.1, setCoord_withReIm b _ C A hC]
        simp [sepVar, hd]
      · simp [hd, sepVar]
    rw [List.map_cons, List.foldlM_cons]
    rw [show separateStep (CDS.mk (P ++ (n, a) :: R) (withReIm b C) A) (n, a).1 = _ from hstep]
    have e : P ++ sepVar (n, a) :: R = (P ++ [sepVar (n, a)]) ++ R := by simp
    rw [e]
    have := ih (P ++ [sepVar (n, a)]) (b || decide (a.dtype = .complex128)) (by
      have e2 : ((P ++ [sepVar (n, a)]) ++ R).map Prod.fst = (P ++ (n, a) :: R).map Prod.fst := by
        simp [sepVar]
      rw [e2]
      exact hn') (by
      intro q hq
      rcases List.mem_append.1 hq with hq | hq
      · exact hP q hq
      · rw [List.mem_singleton.1 hq]
        have ha := hR (n, a) (List.mem_cons_self)
        by_cases hd : a.dtype = .complex128
        · simp only [sepVar, hd, if_pos, separated, fitsArray]
          have := fresh a ha
          simp only [fitsArray] at this
          rw [List.zip_cons_cons, List.all_cons, this]
          simp
        · simpa [sepVar, hd] using fresh a ha) (fun q hq => hR q (List.mem_cons_of_mem _ hq))
    simp only [Option.bind_eq_bind, Option.bind_some]
    rw [this]
    simp [Bool.or_assoc]

/-- The separation of a dataset that does not use the name `complex`. -/
theorem separate_eq (ds : CDS) (h : ds.Fresh) :
    separateComplex ds = some ⟨ds.vars.map sepVar,
      withReIm (ds.vars.any fun p => p.2.dtype = .complex128) ds.coords, ds.attrs⟩ := by
  have := separate_fold ds.coords ds.attrs h.coords ds.vars [] false (by simpa using h.nodup) (by simp) h.dims
  simp only [List.nil_append, Bool.false_or] at this
  exact this

theorem labelPos_reIm (V : List (String × NArr)) (C : List (String × Coo)) (A : List (String × String))
    (hC : ∀ p ∈ C, p.1 ≠ "complex" ∧ "complex" ∉ p.2.dims) :
    labelPos ⟨V, withReIm true C, A⟩ "re" = some 0 ∧ labelPos ⟨V, withReIm true C, A⟩ "im" = some 1 := by
  have hl : (withReIm true C).lookup "complex" = some reImCoord := by
    have := lookup_mid C [] "complex" reImCoord (by
      intro hm
      obtain ⟨p, hp, e⟩ := List.mem_map.1 hm
      exact (hC p hp).1 e)
    simpa [withReIm] using this
  unfold labelPos
  simp only [hl, reImCoord, List.length_cons, List.length_nil]
  constructor <;> decide +revert

theorem merge_fold (C : List (String × Coo)) (A : List (String × String))
    (hC : ∀ p ∈ C, p.1 ≠ "complex" ∧ "complex" ∉ p.2.dims) :
    ∀ (R P : List (String × NArr)), ((P ++ R).map Prod.fst).Nodup → (∀ p ∈ R, "complex" ∉ p.2.dims) →
      (R.map Prod.fst).foldlM mergeStep (CDS.mk (P ++ R.map sepVar) (withReIm true C) A) =
        some ⟨P ++ R.map readVar, withReIm true C, A⟩ := by
  intro R
  induction R with
  | nil =>
    intro P _ _
    simp
  | cons p R ih =>
    obtain ⟨n, a⟩ := p
    intro P hn hR
    have hn' : ((P ++ (n, a) :: R).map Prod.fst).Nodup := hn
    rw [List.map_append, List.map_cons, List.nodup_append] at hn
    obtain ⟨hnP, hnR, hdis⟩ := hn
    rw [List.nodup_cons] at hnR
    have hP' : n ∉ P.map Prod.fst := by
      intro hm
      exact hdis n hm n (List.mem_cons_self) rfl
    have hR' : n ∉ (R.map sepVar).map Prod.fst := by
      have : (R.map sepVar).map Prod.fst = R.map Prod.fst := by
        rw [List.map_map]
        rfl
      rw [this]
      exact hnR.1
    have hl : (withReIm true C).lookup "complex" = some reImCoord := by
      have := lookup_mid C [] "complex" reImCoord (by
        intro hm
        obtain ⟨p, hp, e⟩ := List.mem_map.1 hm
        exact (hC p hp).1 e)
      simpa [withReIm] using this
    have hcx := hR (n, a) (List.mem_cons_self)
    have hstep : mergeStep (CDS.mk (P ++ sepVar (n, a) :: R.map sepVar) (withReIm true C) A) n =
        some ⟨P ++ readVar (n, a) :: R.map sepVar, withReIm true C, A⟩ := by
      have hv : (CDS.mk (P ++ sepVar (n, a) :: R.map sepVar) (withReIm true C) A).var n = some (sepVar (n, a)).2 :=
        lookup_mid P (R.map sepVar) n _ hP'
      unfold mergeStep
      rw [hv]
      simp only [hasComplexCoord, hl, (labelPos_reIm _ C A hC).1, (labelPos_reIm _ C A hC).2]
      by_cases hd : a.dtype = .complex128
      · have e : (sepVar (n, a)) = (n, separated a) := by simp [sepVar, hd]
        rw [e]
        rw [if_pos (by simp [reImCoord, separated]), if_pos (by simp [separated])]
        rw [setVar_mid P (R.map sepVar) n _ _ _ _ hP' hR']
        have em : merged 0 1 (separated a) = (readVar (n, a)).2 := by
          simp only [merged, separated, readVar, hd, if_pos]
          have e1 : ("complex" :: a.dims).idxOf "complex" = 0 := by simp
          have e2 : ("complex" :: a.dims).filter (fun d => d ≠ "complex") = a.dims := by
            rw [List.filter_cons_of_neg (by simp), List.filter_eq_self]
            intro d hd'
            simp only [decide_not, Bool.not_eq_true', decide_eq_false_iff_not]
            rintro rfl
            exact hcx hd'
          simp only [e1, e2, List.eraseIdx_cons_zero, insertAt, separatedValue]
          simp
        rw [em]
        rfl
      · have e : (sepVar (n, a)) = (n, a) := by simp [sepVar, hd]
        have e' : (readVar (n, a)) = (n, a) := by simp [readVar, hd]
        rw [e, e']
        simp [reImCoord, hcx]
    rw [List.map_cons (f := Prod.fst), List.foldlM_cons, List.map_cons (f := sepVar)]
    rw [show mergeStep (CDS.mk (P ++ sepVar (n, a) :: R.map sepVar) (withReIm true C) A) (n, a).1 = _ from hstep]
    have e : P ++ readVar (n, a) :: R.map sepVar = (P ++ [readVar (n, a)]) ++ R.map sepVar := by simp
    rw [e]
    have := ih (P ++ [readVar (n, a)]) (by
      have e2 : ((P ++ [readVar (n, a)]) ++ R).map Prod.fst = (P ++ (n, a) :: R).map Prod.fst := by
        simp [readVar]
      rw [e2]
      exact hn') (fun q hq => hR q (List.mem_cons_of_mem _ hq))
    simp only [Option.bind_eq_bind, Option.bind_some]
    rw [this]
    simp

theorem roundtrip_eq (ds : CDS) (h : ds.Fresh) :
    (separateComplex ds).bind mergeComplex = some ⟨ds.vars.map readVar, ds.coords, ds.attrs⟩ := by
  rw [separate_eq ds h, Option.bind_some]
  have hno : ds.coords.any (fun p => decide (p.1 = "complex")) = false := by
    rw [List.any_eq_false]
    intro p hp
    simpa using (h.coords p hp).1
  cases hb : ds.vars.any fun p => p.2.dtype = .complex128
  · have hall : ∀ p ∈ ds.vars, p.2.dtype ≠ .complex128 := by
      intro p hp
      have := List.any_eq_false.1 hb p hp
      simpa using this
    have e1 : ds.vars.map sepVar = ds.vars.map readVar :=
      List.map_congr_left fun p hp => by simp [sepVar, readVar, hall p hp]
    simp [mergeComplex, withReIm, hno, e1]
  · have := merge_fold ds.coords ds.attrs h.coords ds.vars [] (by simpa using h.nodup) h.dims
    simp only [List.nil_append] at this
    have en : (ds.vars.map sepVar).map Prod.fst = ds.vars.map Prod.fst := by
      rw [List.map_map]
      rfl
    have ha : (withReIm true ds.coords).any (fun p => decide (p.1 = "complex")) = true := by
      simp [withReIm]
    simp only [mergeComplex, ha, if_pos, en]
    rw [this]
    have hf : (ds.coords.filter fun p => decide (p.1 ≠ "complex")) = ds.coords := by
      rw [List.filter_eq_self]
      intro p hp
      simpa using (h.coords p hp).1
    simp only [Option.map_some, CDS.dropCoord, withReIm, if_pos, List.filter_append, hf]
    simp

/-! ## Theorems -/

/-- **C48.** The exact condition for the round trip to give the same dataset, for all datasets that do not use the name `complex`:
the complex variables have no attributes, and each of their values has a finite imaginary part or an undefined real part. -/
theorem roundtrip_iff (ds : CDS) (h : ds.Fresh) (ht : ds.Typed) :
    (∃ r, (separateComplex ds).bind mergeComplex = some r ∧ CDS.Same ds r) ↔
      ∀ p ∈ ds.vars, p.2.dtype = .complex128 →
        p.2.attrs = [] ∧ ∀ idx z, List.Forall₂ (· < ·) idx p.2.shape → p.2.value idx = .num z → z.Survives := by
  rw [roundtrip_eq ds h]
  constructor
  · rintro ⟨r, hr, -, -, hv⟩ p hp hd
    obtain rfl := Option.some.inj hr
    simp only at hv
    rw [List.forall₂_map_right_iff] at hv
    have : ∀ q ∈ ds.vars, NArr.Same q.2 (readVar q).2 := by
      have aux : ∀ L : List (String × NArr),
          List.Forall₂ (fun a c => a.1 = (readVar c).1 ∧ NArr.Same a.2 (readVar c).2) L L →
          ∀ q ∈ L, NArr.Same q.2 (readVar q).2 := by
        intro L hL
        induction L with
        | nil => intro q hq; exact absurd hq (by simp)
        | cons x L ih =>
          rw [List.forall₂_cons] at hL
          intro q hq
          rcases List.mem_cons.1 hq with rfl | hq
          · exact hL.1.2
          · exact ih hL.2 q hq
      exact aux ds.vars hv
    obtain ⟨-, -, -, ha, hval⟩ := this p hp
    simp only [readVar, hd, if_pos] at ha hval
    refine ⟨ha, fun idx z hidx hz => ?_⟩
    have := hval idx hidx
    rw [hz] at this
    simp only [Elem.real, Elem.imag, mergedElem, Elem.num.injEq] at this
    exact (readback_eq_iff z).1 this.symm
  · intro hall
    refine ⟨_, rfl, rfl, rfl, ?_⟩
    simp only
    rw [List.forall₂_map_right_iff]
    have aux : ∀ L : List (String × NArr), (∀ q ∈ L, NArr.Same q.2 (readVar q).2) →
        List.Forall₂ (fun a c => a.1 = (readVar c).1 ∧ NArr.Same a.2 (readVar c).2) L L := by
      intro L
      induction L with
      | nil => intro _; exact .nil
      | cons x L ih =>
        intro hL
        exact .cons ⟨rfl, hL x (List.mem_cons_self)⟩ (ih fun q hq => hL q (List.mem_cons_of_mem _ hq))
    refine aux _ fun q hq => ?_
    by_cases hd : q.2.dtype = .complex128
    · simp only [readVar, hd, if_pos]
      refine ⟨hd, rfl, rfl, (hall q hq hd).1, fun idx hidx => ?_⟩
      obtain ⟨z, hz⟩ := ht q hq hd idx hidx
      simp only [hz, Elem.real, Elem.imag, mergedElem]
      rw [(readback_eq_iff z).2 ((hall q hq hd).2 idx z hidx hz)]
    · simp only [readVar, hd, if_neg, not_false_eq_true]
      exact ⟨rfl, rfl, rfl, rfl, fun _ _ => rfl⟩

/-- **C48.** Whatever the attributes and the values, the round trip of a dataset that does not use the name `complex` succeeds. It
keeps the coordinates, the global attributes, the names, and the variables of another type. In the complex variables it keeps the
type, the dimensions, the shape, every imaginary part, and every value with a finite imaginary part. -/
theorem roundtrip_keeps (ds : CDS) (h : ds.Fresh) (ht : ds.Typed) :
    ∃ r, (separateComplex ds).bind mergeComplex = some r ∧ r.coords = ds.coords ∧ r.attrs = ds.attrs ∧
      List.Forall₂ (fun p q => p.1 = q.1 ∧ (p.2.dtype ≠ .complex128 → q.2 = p.2) ∧
        (p.2.dtype = .complex128 → q.2.dtype = .complex128 ∧ q.2.dims = p.2.dims ∧ q.2.shape = p.2.shape ∧
          ∀ idx, List.Forall₂ (· < ·) idx p.2.shape → ∃ z w, p.2.value idx = .num z ∧ q.2.value idx = .num w ∧
            w.im = z.im ∧ (z.Survives → w = z))) ds.vars r.vars := by
  refine ⟨_, roundtrip_eq ds h, rfl, rfl, ?_⟩
  simp only
  rw [List.forall₂_map_right_iff]
  have diag : ∀ (R : String × NArr → String × NArr → Prop) (L : List (String × NArr)), (∀ q ∈ L, R q q) → List.Forall₂ R L L := by
    intro R L
    induction L with
    | nil => intro _; exact .nil
    | cons x L ih =>
      intro hL
      exact .cons (hL x (List.mem_cons_self)) (ih fun q hq => hL q (List.mem_cons_of_mem _ hq))
  refine diag _ _ fun x hx => ⟨rfl, fun hd => ?_, fun hd => ?_⟩
  · simp [readVar, hd]
  · simp only [readVar, hd, if_pos]
    refine ⟨trivial, trivial, trivial, fun idx hidx => ?_⟩
    obtain ⟨z, hz⟩ := ht x hx hd idx hidx
    refine ⟨z, _, hz, ?_, readback_im z, fun hs => (readback_eq_iff z).2 hs⟩
    simp only [hz, Elem.real, Elem.imag, mergedElem]

/-- The separated dataset has no complex array, so that it may be written in a file, if and only if no array has the type
`complex64`, which the function does not recognise. -/
theorem separate_real_iff (ds : CDS) (h : ds.Fresh) :
    (∃ r, separateComplex ds = some r ∧ ∀ p ∈ r.vars, p.2.dtype ≠ .complex128 ∧ p.2.dtype ≠ .complex64) ↔
      ∀ p ∈ ds.vars, p.2.dtype ≠ .complex64 := by
  rw [separate_eq ds h]
  constructor
  · rintro ⟨r, hr, hall⟩ p hp h64
    obtain rfl := Option.some.inj hr
    have := hall (sepVar p) (List.mem_map_of_mem hp)
    rw [sepVar, h64] at this
    simp [h64] at this
  · intro hall
    refine ⟨_, rfl, fun q hq => ?_⟩
    obtain ⟨p, hp, rfl⟩ := List.mem_map.1 hq
    by_cases hd : p.2.dtype = .complex128
    · simp [sepVar, hd, separated]
    · simp only [sepVar, hd, if_neg, not_false_eq_true]
      exact ⟨hd, hall p hp⟩

/-! ## Cases -/

/-- A dataset with a complex variable on one dimension and a real one. -/
def sampleCDS (attrs : List (String × String)) (im : Flt) : CDS where
  vars := [("force", ⟨.complex128, ["omega"], [2], fun _ => .num ⟨.fin 1, im⟩, attrs⟩),
    ("mass", ⟨.float64, ["omega"], [2], fun _ => .num ⟨.fin 3, .fin 0⟩, [("unit", "kg")]⟩)]
  coords := [("omega", ⟨["omega"], [.num ⟨.fin 1, .fin 0⟩, .num ⟨.fin 2, .fin 0⟩]⟩)]
  attrs := [("version", "2.2")]

theorem sampleCDS_fresh (attrs : List (String × String)) (im : Flt) : (sampleCDS attrs im).Fresh :=
  ⟨by simp [sampleCDS], by simp [sampleCDS], by simp [sampleCDS]⟩

theorem sampleCDS_typed (attrs : List (String × String)) (im : Flt) : (sampleCDS attrs im).Typed := by
  intro p hp hd idx _
  simp only [sampleCDS, List.mem_cons, List.not_mem_nil, or_false] at hp
  rcases hp with rfl | rfl
  · exact ⟨_, rfl⟩
  · exact ⟨_, rfl⟩

/-- A dataset with finite values and no attributes comes back. -/
example : ∃ r, (separateComplex (sampleCDS [] (.fin 2))).bind mergeComplex = some r ∧
    CDS.Same (sampleCDS [] (.fin 2)) r := by
  refine (roundtrip_iff _ (sampleCDS_fresh _ _) (sampleCDS_typed _ _)).2 ?_
  intro p hp hd
  simp only [sampleCDS, List.mem_cons, List.not_mem_nil, or_false] at hp
  rcases hp with rfl | rfl
  · refine ⟨rfl, fun idx z _ hz => ?_⟩
    simp only [Elem.num.injEq] at hz
    exact .inl ⟨2, by rw [← hz]⟩
  · exact absurd hd (by simp)

/-- The hypotheses of `roundtrip_keeps` and `separate_real_iff` are met by the same dataset. -/
example : (sampleCDS [("unit", "N")] .pinf).Fresh ∧ (sampleCDS [("unit", "N")] .pinf).Typed :=
  ⟨sampleCDS_fresh _ _, sampleCDS_typed _ _⟩

/-- **C48 is violated.** The attributes of the complex variables are lost. -/
theorem complex_attributes_violated : ∃ ds : CDS, ds.Fresh ∧ ds.Typed ∧
    ¬ ∃ r, (separateComplex ds).bind mergeComplex = some r ∧ CDS.Same ds r := by
  refine ⟨sampleCDS [("unit", "N")] (.fin 2), sampleCDS_fresh _ _, sampleCDS_typed _ _, ?_⟩
  rw [roundtrip_iff _ (sampleCDS_fresh _ _) (sampleCDS_typed _ _)]
  intro h
  have := (h _ (List.mem_cons_self) rfl).1
  simp at this

/-- **C48 is violated.** An infinite imaginary part makes the real part undefined. -/
theorem complex_infinite_violated : ∃ ds : CDS, ds.Fresh ∧ ds.Typed ∧ (∀ p ∈ ds.vars, p.2.dtype = .complex128 → p.2.attrs = []) ∧
    ¬ ∃ r, (separateComplex ds).bind mergeComplex = some r ∧ CDS.Same ds r := by
  refine ⟨sampleCDS [] .pinf, sampleCDS_fresh _ _, sampleCDS_typed _ _, ?_, ?_⟩
  · intro p hp hd
    simp only [sampleCDS, List.mem_cons, List.not_mem_nil, or_false] at hp
    rcases hp with rfl | rfl
    · rfl
    · exact absurd hd (by simp)
  · rw [roundtrip_iff _ (sampleCDS_fresh _ _) (sampleCDS_typed _ _)]
    intro h
    have := (h _ (List.mem_cons_self) rfl).2 [0] ⟨.fin 1, .pinf⟩ (by simp) rfl
    simp [Cplx.Survives] at this

/-- **C48 is violated.** A dataset that was separated before, and has no complex variable any more, is not left as it is: its
real variables with the dimension `complex` become complex. -/
theorem complex_separated_violated : ∃ ds r : CDS, (∀ p ∈ ds.vars, p.2.dtype = .float64) ∧
    (separateComplex ds).bind mergeComplex = some r ∧ ∃ p ∈ r.vars, p.2.dtype = .complex128 := by
  have hf := sampleCDS_fresh [] (.fin 2)
  have hm := merge_fold (sampleCDS [] (.fin 2)).coords (sampleCDS [] (.fin 2)).attrs hf.coords (sampleCDS [] (.fin 2)).vars []
    (by simpa using hf.nodup) hf.dims
  simp only [List.nil_append] at hm
  have hs : separateComplex ⟨(sampleCDS [] (.fin 2)).vars.map sepVar, withReIm true (sampleCDS [] (.fin 2)).coords,
      (sampleCDS [] (.fin 2)).attrs⟩ = some ⟨(sampleCDS [] (.fin 2)).vars.map sepVar,
        withReIm true (sampleCDS [] (.fin 2)).coords, (sampleCDS [] (.fin 2)).attrs⟩ := by
    simp [separateComplex, separateStep, CDS.var, sampleCDS, sepVar, separated, List.lookup]
  refine ⟨⟨(sampleCDS [] (.fin 2)).vars.map sepVar, withReIm true (sampleCDS [] (.fin 2)).coords,
      (sampleCDS [] (.fin 2)).attrs⟩, ⟨(sampleCDS [] (.fin 2)).vars.map readVar, (sampleCDS [] (.fin 2)).coords,
      (sampleCDS [] (.fin 2)).attrs⟩, ?_, ?_, ?_⟩
  · intro p hp
    simp only [sampleCDS, List.map_cons, List.map_nil, List.mem_cons, List.not_mem_nil, or_false] at hp
    rcases hp with rfl | rfl
    · simp [sepVar, separated]
    · simp [sepVar]
  · rw [hs, Option.bind_some]
    have en : ((sampleCDS [] (.fin 2)).vars.map sepVar).map Prod.fst = (sampleCDS [] (.fin 2)).vars.map Prod.fst := by
      rw [List.map_map]
      rfl
    have ha : (withReIm true (sampleCDS [] (.fin 2)).coords).any (fun p => decide (p.1 = "complex")) = true := by
      simp [withReIm]
    simp only [mergeComplex, ha, if_pos, en]
    rw [hm]
    simp [CDS.dropCoord, withReIm, sampleCDS]
  · refine ⟨readVar ("force", _), List.mem_map_of_mem (List.mem_cons_self), ?_⟩
    simp [readVar]

end Verif.Datasets
