import Verif.Meshes.ClipSymProps
import Verif.Meshes.ClipMeshProps

/-!
# Clipping the image of a panel (C93)

The table of `_clip_crown` (`meshes/clipper.py:159-450`) starts from a corner that depends on the order of the corners,
so the pieces of a mirrored panel, whose corners are listed in the other order, are not in general those of the panel in
the other order: they can start from another corner. The theorems of this file say that they are the same polygons,
except for some warped panels.
-/

namespace Verif.Meshes

open Verif.Geometry V3

/-! ## Specification -/

/-- The corners of the image of a polygon: those of a mirrored polygon are listed in the other order. -/
noncomputable def moveRing (μ : Motion) (l : List (V3 ℝ)) : List (V3 ℝ) :=
  match μ with
  | .mirror _ => (l.map μ.point).reverse
  | _ => l.map μ.point

/-- The second panel is the image of the first one, up to the choice of the first corner. Triangles repeat their first
corner. -/
structure Image (μ : Motion) (s s' : Bool × (V3 ℝ × V3 ℝ × V3 ℝ × V3 ℝ)) : Prop where
  same : s'.1 = s.1
  closed : s.1 = true → s.2.2.2.2 = s.2.1
  closed' : s'.1 = true → s'.2.2.2.2 = s'.2.1
  turned : List.IsRotated (ring s'.1 s'.2) (moveRing μ (ring s.1 s.2))

/-- A quadrangle with a corner on the plane, whose neighbours are on one side and the opposite corner on the other
side. -/
def twisted (l : List PlaneSide) : Bool :=
  (List.range 4).any fun i => l.rotate i == [.on, .above, .below, .above] || l.rotate i == [.on, .below, .above, .below]

/-- No corner is exactly at the tolerance, and the panel is not twisted around the plane. -/
structure Regular (tol : ℝ) (P : Plane) (l : List (V3 ℝ)) : Prop where
  sharp : ∀ p ∈ l, |P.distanceToPoint p| ≠ tol
  plain : twisted (l.map fun p => sideOf tol (P.distanceToPoint p)) = false

/-! ## The table on symbols -/

/-- A corner of a piece: a corner of the face, or the intersection of the plane with a side. -/
inductive Mark where
  | old (i : ℕ)
  | cut (i j : ℕ)
  deriving DecidableEq

/-- The corners of a piece from the numbers of the corners of the face. -/
def mark (n roll : ℕ) (cuts : List (ℕ × ℕ)) : CutCorner → Mark
  | .old i => .old ((i + roll) % n)
  | .cut k =>
    let e := cuts.getD k (0, 0)
    .cut (min ((e.1 + roll) % n) ((e.2 + roll) % n)) (max ((e.1 + roll) % n) ((e.2 + roll) % n))

/-- A piece, with three corners for a triangle. -/
def markPiece (n roll : ℕ) (cuts : List (ℕ × ℕ)) : List CutCorner → Option (Bool × List Mark)
  | [x, y, z, t] => some (x == t, (if x == t then [x, y, z] else [x, y, z, t]).map (mark n roll cuts))
  | _ => none

/-- The pieces of a face. -/
def markPieces (l : List PlaneSide) : Option (List (Bool × List Mark)) :=
  (plan l).bind fun pl => pl.pieces.mapM (markPiece l.length pl.roll pl.cuts)

/-- The corner has a meaning for a face with `n` corners. -/
def CutCorner.inRange (n m : ℕ) : CutCorner → Bool
  | .old i => i < n
  | .cut k => k < m

/-- The sides that are cut have their ends on both sides of the plane, and the corners of the pieces exist. -/
def soundPlan (l : List PlaneSide) : Bool :=
  match plan l with
  | none => true
  | some pl =>
    (pl.cuts.all fun e =>
      ((l.rotate pl.roll)[e.1]? == some .above && (l.rotate pl.roll)[e.2]? == some .below) ||
      ((l.rotate pl.roll)[e.1]? == some .below && (l.rotate pl.roll)[e.2]? == some .above)) &&
    pl.pieces.all fun c => c.length == 4 && c.all (CutCorner.inRange l.length pl.cuts.length)

/-- One list is another one turned. -/
def turnedB (a b : List Mark) : Bool := (List.range b.length).any fun i => b.rotate i == a

/-- The symbol for the same corner when the corners are renumbered. -/
def Mark.renumber (σ : ℕ → ℕ) : Mark → Mark
  | .old i => .old (σ i)
  | .cut i j => .cut (min (σ i) (σ j)) (max (σ i) (σ j))

/-- The pieces of the reversed face are the reversed pieces. -/
def soundFlip (σ : ℕ → ℕ) (l l' : List PlaneSide) : Bool :=
  match markPieces l, markPieces l' with
  | none, none => true
  | some a, some b => a.length == b.length &&
      (a.zip b).all fun x => x.1.1 == x.2.1 && turnedB (x.2.2.map (Mark.renumber σ)) x.1.2.reverse
  | _, _ => false

/-- Not at the tolerance. -/
def PlaneSide.clear : PlaneSide → Bool
  | .limitAbove => false
  | .limitBelow => false
  | _ => true

theorem sound3 (a b c : PlaneSide) (h : a.clear && b.clear && c.clear) : soundPlan [a, b, c] := by
  revert h
  cases a <;> cases b <;> cases c <;> decide

theorem sound4 (a b c d : PlaneSide) (h : a.clear && b.clear && c.clear && d.clear) : soundPlan [a, b, c, d] := by
  revert h
  cases a <;> cases b <;> cases c <;> cases d <;> decide

theorem flip3 (a b c : PlaneSide) (h : a.clear && b.clear && c.clear) :
    soundFlip (fun i => (3 - i) % 3) [a, b, c] [a, c, b] := by
  revert h
  cases a <;> cases b <;> cases c <;> decide

theorem flip4 (a b c d : PlaneSide) (h : a.clear && b.clear && c.clear && d.clear) (ht : twisted [a, b, c, d] = false) :
    soundFlip (fun i => 3 - i) [a, b, c, d] [d, c, b, a] := by
  revert h ht
  cases a <;> cases b <;> cases c <;> cases d <;> decide

/-! ## The pieces of a polygon -/

/-- The pieces of a polygon, with the mark of the triangles. -/
noncomputable def cutRing (tol : ℝ) (P : Plane) (l : List (V3 ℝ)) : Option (List (Bool × (V3 ℝ × V3 ℝ × V3 ℝ × V3 ℝ))) :=
  (plan (l.map fun p => sideOf tol (P.distanceToPoint p))).bind fun pl =>
    pl.pieces.mapM fun c => (pieceShape P (l.rotate pl.roll) pl.cuts c).map fun q => (c.head? == c[3]?, q)

open Classical in
/-- The point that a symbol stands for. -/
noncomputable def Mark.eval (P : Plane) (l : List (V3 ℝ)) : Mark → Option (V3 ℝ)
  | .old i => l[i]?
  | .cut i j => l[i]?.bind fun p => l[j]?.bind fun q =>
      if P.distanceToPoint p = P.distanceToPoint q then none else some (zeroPoint P p q)

theorem sideOf_clear {tol d : ℝ} (h : |d| ≠ tol) : (sideOf tol d).clear = true := by
  unfold sideOf
  split_ifs with h1 h2 h3 h4
  · rfl
  · rfl
  · rfl
  · exact absurd (le_antisymm (by rw [abs_le]; constructor <;> linarith) (not_lt.mp h2)) h
  · exact absurd (le_antisymm (by rw [abs_le]; constructor <;> linarith) (not_lt.mp h2)) h

theorem sound_ring {tol : ℝ} {P : Plane} {l : List (V3 ℝ)} (hl : l.length = 3 ∨ l.length = 4)
    (h : ∀ p ∈ l, |P.distanceToPoint p| ≠ tol) :
    soundPlan (l.map fun p => sideOf tol (P.distanceToPoint p)) = true := by
  rcases hl with hl | hl
  · match l, hl with
    | [a, b, c], _ =>
      exact sound3 _ _ _ (by simp [sideOf_clear, h])
  · match l, hl with
    | [a, b, c, d], _ =>
      exact sound4 _ _ _ _ (by simp [sideOf_clear, h])

/-- What is known of the plan of a polygon. -/
structure SoundFor (tol : ℝ) (P : Plane) (l : List (V3 ℝ)) (pl : Plan) : Prop where
  cuts : ∀ e ∈ pl.cuts, ∃ p q, (l.rotate pl.roll)[e.1]? = some p ∧ (l.rotate pl.roll)[e.2]? = some q ∧
    ((0 ≤ P.distanceToPoint p ∧ P.distanceToPoint q < 0) ∨ (P.distanceToPoint p < 0 ∧ 0 ≤ P.distanceToPoint q))
  pieces : ∀ c ∈ pl.pieces, c.length = 4 ∧ ∀ x ∈ c, x.inRange l.length pl.cuts.length = true

theorem sound_for {tol : ℝ} (htol : 0 < tol) {P : Plane} {l : List (V3 ℝ)} (hl : l.length = 3 ∨ l.length = 4)
    (h : ∀ p ∈ l, |P.distanceToPoint p| ≠ tol) {pl : Plan}
    (hpl : plan (l.map fun p => sideOf tol (P.distanceToPoint p)) = some pl) : SoundFor tol P l pl := by
  have hs := sound_ring hl h
  simp only [soundPlan, hpl, Bool.and_eq_true, List.all_eq_true, Bool.or_eq_true, beq_iff_eq, List.length_map] at hs
  obtain ⟨h1, h2⟩ := hs
  refine ⟨fun e he => ?_, h2⟩
  have hget : ∀ (i : ℕ) s, ((l.map fun p => sideOf tol (P.distanceToPoint p)).rotate pl.roll)[i]? = some s →
      ∃ p, (l.rotate pl.roll)[i]? = some p ∧ sideOf tol (P.distanceToPoint p) = s := by
    intro i s hi
    rw [← List.map_rotate, List.getElem?_map] at hi
    exact Option.map_eq_some_iff.mp hi
  rcases h1 e he with ⟨a, b⟩ | ⟨a, b⟩
  · obtain ⟨p, hp, hp'⟩ := hget _ _ a
    obtain ⟨q, hq, hq'⟩ := hget _ _ b
    exact ⟨p, q, hp, hq, .inl ⟨(sideOf_above htol hp').le, sideOf_below htol hq'⟩⟩
  · obtain ⟨p, hp, hp'⟩ := hget _ _ a
    obtain ⟨q, hq, hq'⟩ := hget _ _ b
    exact ⟨p, q, hp, hq, .inr ⟨sideOf_below htol hp', (sideOf_above htol hq').le⟩⟩

theorem mark_eval {tol : ℝ} {P : Plane} {l : List (V3 ℝ)} {pl : Plan} (h : SoundFor tol P l pl) (hl : 0 < l.length)
    {x : CutCorner} (hx : x.inRange l.length pl.cuts.length = true) :
    ∃ p, cornerPoint P (l.rotate pl.roll) pl.cuts x = some p ∧ (mark l.length pl.roll pl.cuts x).eval P l = some p := by
  cases x with
  | old i =>
    simp only [CutCorner.inRange, decide_eq_true_eq] at hx
    have hm := Nat.mod_lt (i + pl.roll) hl
    refine ⟨l[(i + pl.roll) % l.length], ?_, ?_⟩
    · rw [cornerPoint, List.getElem?_rotate hx, List.getElem?_eq_getElem hm]
    · rw [mark, Mark.eval, List.getElem?_eq_getElem hm]
  | cut k =>
    simp only [CutCorner.inRange, decide_eq_true_eq] at hx
    obtain ⟨p, q, hp, hq, hs⟩ := h.cuts _ (List.getElem_mem hx)
    have hi : pl.cuts[k].1 < l.length := by simpa using (List.getElem?_eq_some_iff.mp hp).1
    have hj : pl.cuts[k].2 < l.length := by simpa using (List.getElem?_eq_some_iff.mp hq).1
    refine ⟨zeroPoint P p q, ?_, ?_⟩
    · rw [cornerPoint, List.getElem?_eq_getElem hx, Option.bind_some, hp, hq]
      rfl
    · rw [List.getElem?_rotate hi] at hp
      rw [List.getElem?_rotate hj] at hq
      have he : pl.cuts.getD k (0, 0) = pl.cuts[k] := by
        rw [List.getD_eq_getElem?_getD, List.getElem?_eq_getElem hx, Option.getD_some]
      simp only [mark, he, Mark.eval]
      have hne : P.distanceToPoint p ≠ P.distanceToPoint q := by rcases hs with ⟨a, b⟩ | ⟨a, b⟩ <;> linarith
      rcases le_total ((pl.cuts[k].1 + pl.roll) % l.length) ((pl.cuts[k].2 + pl.roll) % l.length) with hle | hle
      · rw [min_eq_left hle, max_eq_right hle, hp, hq, Option.bind_some, Option.bind_some, if_neg hne]
      · rw [min_eq_right hle, max_eq_left hle, hp, hq, zeroPoint_comm P p q hne, Option.bind_some, Option.bind_some,
          if_neg hne.symm]

/-- A piece given by points is the one given by symbols. -/
def Stands (P : Plane) (l : List (V3 ℝ)) (q : Bool × List Mark) (s : Bool × (V3 ℝ × V3 ℝ × V3 ℝ × V3 ℝ)) : Prop :=
  s.1 = q.1 ∧ (s.1 = true → s.2.2.2.2 = s.2.1) ∧ q.2.map (Mark.eval P l) = (ring s.1 s.2).map some

theorem piece_stands {tol : ℝ} {P : Plane} {l : List (V3 ℝ)} {pl : Plan} (h : SoundFor tol P l pl) (hl : 0 < l.length)
    {c : List CutCorner} (hc : c ∈ pl.pieces) :
    ∃ q s, (pieceShape P (l.rotate pl.roll) pl.cuts c).map (fun q => (c.head? == c[3]?, q)) = some s ∧
      markPiece l.length pl.roll pl.cuts c = some q ∧ Stands P l q s := by
  obtain ⟨h4, hr⟩ := h.pieces c hc
  match c, h4, hr with
  | [x, y, z, t], _, hr =>
    obtain ⟨a, a1, a2⟩ := mark_eval h hl (hr x (by simp))
    obtain ⟨b, b1, b2⟩ := mark_eval h hl (hr y (by simp))
    obtain ⟨c, c1, c2⟩ := mark_eval h hl (hr z (by simp))
    obtain ⟨d, d1, d2⟩ := mark_eval h hl (hr t (by simp))
    refine ⟨_, (x == t, (a, b, c, d)), ?_, rfl, rfl, ?_, ?_⟩
    · simp [pieceShape, a1, b1, c1, d1]
    · intro hxt
      simp only [beq_iff_eq] at hxt
      subst hxt
      rw [a1] at d1
      exact (Option.some.inj d1).symm
    · by_cases hxt : x = t
      · subst hxt
        simp [ring, a2, b2, c2]
      · simp [hxt, ring, a2, b2, c2, d2]

theorem mapM_pair {A B C : Type} (f : A → Option B) (g : A → Option C) (R : C → B → Prop) (l : List A)
    (h : ∀ a ∈ l, ∃ c b, f a = some b ∧ g a = some c ∧ R c b) :
    ∃ cs bs, l.mapM f = some bs ∧ l.mapM g = some cs ∧ List.Forall₂ R cs bs := by
  induction l with
  | nil => exact ⟨[], [], rfl, rfl, .nil⟩
  | cons a l ih =>
    obtain ⟨c, b, h1, h2, h3⟩ := h a List.mem_cons_self
    obtain ⟨cs, bs, i1, i2, i3⟩ := ih fun a ha => h a (List.mem_cons_of_mem _ ha)
    exact ⟨c :: cs, b :: bs, by rw [List.mapM_cons, h1, i1]; rfl, by rw [List.mapM_cons, h2, i2]; rfl, .cons h3 i3⟩

/-- The pieces given by points are those given by symbols. -/
theorem cut_stands {tol : ℝ} (htol : 0 < tol) {P : Plane} {l : List (V3 ℝ)} (hl : l.length = 3 ∨ l.length = 4)
    (h : ∀ p ∈ l, |P.distanceToPoint p| ≠ tol) :
    (cutRing tol P l = none ∧ markPieces (l.map fun p => sideOf tol (P.distanceToPoint p)) = none) ∨
    ∃ Q E, cutRing tol P l = some E ∧ markPieces (l.map fun p => sideOf tol (P.distanceToPoint p)) = some Q ∧
      List.Forall₂ (Stands P l) Q E := by
  cases hpl : plan (l.map fun p => sideOf tol (P.distanceToPoint p)) with
  | none => exact .inl ⟨by rw [cutRing, hpl]; rfl, by rw [markPieces, hpl]; rfl⟩
  | some pl =>
    right
    have hs := sound_for htol hl h hpl
    obtain ⟨Q, E, h1, h2, h3⟩ := mapM_pair _ _ (Stands P l) pl.pieces fun c hc => piece_stands hs (by omega) hc
    exact ⟨Q, E, by rw [cutRing, hpl]; exact h1, by rw [markPieces, hpl]; simpa using h2, h3⟩

/-! ## Motions -/

/-- The motion keeps the middle of points where it should be. -/
theorem point_combination (μ : Motion) (t : ℝ) (p q : V3 ℝ) :
    μ.point ((1 - t) • p + t • q) = (1 - t) • μ.point p + t • μ.point q := by
  cases μ with
  | translate v => simp only [Motion.point]; ext <;> simp <;> ring
  | rotate a θ =>
    simp only [Motion.point, Axis.rotatePoint, Axis.rotateVector, M3.mulVec]
    ext <;> simp [dot] <;> ring
  | mirror P => simp only [Motion.point, Plane.mirrorPoint]; ext <;> simp [dot] <;> ring

section moved

variable {P : Plane} {μ : Motion} (hd : ∀ p, P.distanceToPoint (μ.point p) = P.distanceToPoint p)
include hd

theorem zeroPoint_moved (p q : V3 ℝ) : zeroPoint P (μ.point p) (μ.point q) = μ.point (zeroPoint P p q) := by
  simp only [zeroPoint, hd, point_combination]

theorem eval_map (l : List (V3 ℝ)) (x : Mark) : x.eval P (l.map μ.point) = (x.eval P l).map μ.point := by
  cases x with
  | old i => simp [Mark.eval]
  | cut i j =>
    simp only [Mark.eval, List.getElem?_map]
    cases l[i]? with
    | none => rfl
    | some p =>
      cases l[j]? with
      | none => rfl
      | some q =>
        simp only [Option.map_some, Option.bind_some, hd, zeroPoint_moved hd]
        split <;> rfl

theorem eval_renumber {σ : ℕ → ℕ} {l l' : List (V3 ℝ)}
    (hl : ∀ (i : ℕ) p', l'[i]? = some p' → ∃ p, l[σ i]? = some p ∧ p' = μ.point p) {x : Mark} {p' : V3 ℝ}
    (hx : x.eval P l' = some p') : ∃ p, (x.renumber σ).eval P l = some p ∧ p' = μ.point p := by
  cases x with
  | old i => exact hl i p' hx
  | cut i j =>
    simp only [Mark.eval] at hx
    obtain ⟨a', ha', hx⟩ := Option.bind_eq_some_iff.mp hx
    obtain ⟨b', hb', hx⟩ := Option.bind_eq_some_iff.mp hx
    obtain ⟨a, ha, rfl⟩ := hl i a' ha'
    obtain ⟨b, hb, rfl⟩ := hl j b' hb'
    rw [hd, hd] at hx
    split at hx
    · cases hx
    · rename_i hne
      cases hx
      refine ⟨zeroPoint P a b, ?_, zeroPoint_moved hd a b⟩
      simp only [Mark.renumber, Mark.eval]
      rcases le_total (σ i) (σ j) with hle | hle
      · rw [min_eq_left hle, max_eq_right hle, ha, hb, Option.bind_some, Option.bind_some, if_neg hne]
      · rw [min_eq_right hle, max_eq_left hle, ha, hb, Option.bind_some, Option.bind_some, if_neg (Ne.symm hne),
          zeroPoint_comm P a b hne]

end moved

theorem map_some_inj {A : Type} {l l' : List A} (h : l.map some = l'.map some) : l = l' :=
  (List.map_injective_iff.mpr (Option.some_injective A)) h

theorem turnedB_iff {a b : List Mark} (h : turnedB a b = true) : List.IsRotated a b := by
  simp only [turnedB, List.any_eq_true, beq_iff_eq] at h
  obtain ⟨i, -, rfl⟩ := h
  exact (List.IsRotated.forall b i)

theorem soundFlip_iff {σ : ℕ → ℕ} {l l' : List PlaneSide} (h : soundFlip σ l l' = true) :
    (markPieces l = none ∧ markPieces l' = none) ∨ ∃ Q Q', markPieces l = some Q ∧ markPieces l' = some Q' ∧
      List.Forall₂ (fun q q' => q'.1 = q.1 ∧ List.IsRotated (q'.2.map (Mark.renumber σ)) q.2.reverse) Q Q' := by
  unfold soundFlip at h
  split at h
  · rename_i h1 h2
    exact .inl ⟨h1, h2⟩
  · rename_i a b h1 h2
    refine .inr ⟨a, b, h1, h2, ?_⟩
    simp only [Bool.and_eq_true, beq_iff_eq, List.all_eq_true] at h
    refine List.forall₂_iff_zip.mpr ⟨h.1, fun {x y} hxy => ?_⟩
    have := h.2 (x, y) hxy
    exact ⟨this.1.symm, turnedB_iff this.2⟩
  · cases h

/-- The corners of the image of a panel. -/
noncomputable def moveCorners (μ : Motion) (c : V3 ℝ × V3 ℝ × V3 ℝ × V3 ℝ) : V3 ℝ × V3 ℝ × V3 ℝ × V3 ℝ :=
  match μ with
  | .mirror _ => (μ.point c.2.2.2, μ.point c.2.2.1, μ.point c.2.1, μ.point c.1)
  | _ => (μ.point c.1, μ.point c.2.1, μ.point c.2.2.1, μ.point c.2.2.2)

theorem moveShape_some (μ : Motion) (b : Bool) (c : V3 ℝ × V3 ℝ × V3 ℝ × V3 ℝ) :
    moveShape μ (b, some c) = (b, some (moveCorners μ c)) := by
  cases μ <;> rfl

theorem ring_length (tri : Bool) (c : V3 ℝ × V3 ℝ × V3 ℝ × V3 ℝ) : (ring tri c).length = 3 ∨ (ring tri c).length = 4 := by
  cases tri <;> simp [ring]

theorem forall₂_join {A B C : Type} {R : A → B → Prop} {S : A → C → Prop} {T : B → C → Prop} {as : List A} {bs : List B}
    {cs : List C} (h : List.Forall₂ R as bs) (h' : List.Forall₂ S as cs) (hT : ∀ a b c, R a b → S a c → T b c) :
    List.Forall₂ T bs cs := by
  induction h generalizing cs with
  | nil => cases h'; exact .nil
  | cons hab _ ih =>
    cases h' with
    | cons hac h' => exact .cons (hT _ _ _ hab hac) (ih h')

/-- Motions that keep the order of the corners. -/
theorem cut_moved_direct {tol : ℝ} (htol : 0 < tol) {P : Plane} {μ : Motion}
    (hd : ∀ p, P.distanceToPoint (μ.point p) = P.distanceToPoint p) (hμ : ∀ Q, μ ≠ .mirror Q) {l : List (V3 ℝ)}
    (hl : l.length = 3 ∨ l.length = 4) (hs : ∀ p ∈ l, |P.distanceToPoint p| ≠ tol) :
    (cutRing tol P l = none ∧ cutRing tol P (l.map μ.point) = none) ∨
    ∃ E E', cutRing tol P l = some E ∧ cutRing tol P (l.map μ.point) = some E' ∧ List.Forall₂ (Image μ) E E' := by
  have hside : ((l.map μ.point).map fun p => sideOf tol (P.distanceToPoint p)) =
      l.map fun p => sideOf tol (P.distanceToPoint p) := by
    rw [List.map_map]
    exact List.map_congr_left fun p _ => by simp [hd]
  have h2 := cut_stands htol (P := P) (l := l.map μ.point) (by simpa using hl) (by
    intro p hp
    obtain ⟨q, hq, rfl⟩ := List.mem_map.mp hp
    rw [hd]
    exact hs q hq)
  rw [hside] at h2
  rcases cut_stands htol hl hs with ⟨a1, a2⟩ | ⟨Q, E, a1, a2, a3⟩
  · rcases h2 with ⟨b1, b2⟩ | ⟨Q', E', b1, b2, b3⟩
    · exact .inl ⟨a1, b1⟩
    · rw [a2] at b2; cases b2
  · rcases h2 with ⟨b1, b2⟩ | ⟨Q', E', b1, b2, b3⟩
    · rw [a2] at b2; cases b2
    · rw [a2] at b2
      cases b2
      refine .inr ⟨E, E', a1, b1, ?_⟩
      refine forall₂_join a3 b3 fun q s s' h h' => ?_
      obtain ⟨c1, c2, c3⟩ := h
      obtain ⟨d1, d2, d3⟩ := h'
      refine ⟨d1.trans c1.symm, c2, d2, ?_⟩
      have he : q.2.map (Mark.eval P (l.map μ.point)) = (q.2.map (Mark.eval P l)).map (Option.map μ.point) := by
        rw [List.map_map]
        exact List.map_congr_left fun x _ => eval_map hd l x
      rw [d3, c3, List.map_map] at he
      have : ring s'.1 s'.2 = (ring s.1 s.2).map μ.point := by
        refine map_some_inj ?_
        rw [he, List.map_map]
        rfl
      rw [this]
      cases μ with
      | mirror Q => exact absurd rfl (hμ Q)
      | translate v => rfl
      | rotate a θ => rfl

/-- Lists of corners that are reversed. -/
theorem cut_moved_reversed {tol : ℝ} (htol : 0 < tol) {P R : Plane}
    (hd : ∀ p, P.distanceToPoint ((Motion.mirror R).point p) = P.distanceToPoint p) {σ : ℕ → ℕ} {l l' : List (V3 ℝ)}
    (hl : l.length = 3 ∨ l.length = 4) (hs : ∀ p ∈ l, |P.distanceToPoint p| ≠ tol) (hlen : l'.length = l.length)
    (hget : ∀ (i : ℕ) p', l'[i]? = some p' → ∃ p, l[σ i]? = some p ∧ p' = (Motion.mirror R).point p)
    (hflip : soundFlip σ (l.map fun p => sideOf tol (P.distanceToPoint p))
      (l'.map fun p => sideOf tol (P.distanceToPoint p)) = true) :
    (cutRing tol P l = none ∧ cutRing tol P l' = none) ∨
    ∃ E E', cutRing tol P l = some E ∧ cutRing tol P l' = some E' ∧ List.Forall₂ (Image (.mirror R)) E E' := by
  have h2 := cut_stands htol (P := P) (l := l') (by rw [hlen]; exact hl) (by
    intro p hp
    obtain ⟨i, hi⟩ := List.mem_iff_getElem?.mp hp
    obtain ⟨q, hq, rfl⟩ := hget i p hi
    rw [hd]
    exact hs q (List.mem_of_getElem? hq))
  rcases soundFlip_iff hflip with ⟨f1, f2⟩ | ⟨Q, Q', f1, f2, f3⟩
  · left
    constructor
    · rcases cut_stands htol hl hs with ⟨a1, -⟩ | ⟨Q, E, -, a2, -⟩
      · exact a1
      · rw [f1] at a2; cases a2
    · rcases h2 with ⟨b1, -⟩ | ⟨Q, E, -, b2, -⟩
      · exact b1
      · rw [f2] at b2; cases b2
  · rcases cut_stands htol hl hs with ⟨-, a2⟩ | ⟨Q₁, E, a1, a2, a3⟩
    · rw [f1] at a2; cases a2
    · rw [f1] at a2
      cases a2
      rcases h2 with ⟨-, b2⟩ | ⟨Q₂, E', b1, b2, b3⟩
      · rw [f2] at b2; cases b2
      · rw [f2] at b2
        cases b2
        refine .inr ⟨E, E', a1, b1, ?_⟩
        refine forall₂_join (forall₂_join a3 f3 fun q s q' h h' => (⟨q, h, h'⟩ :
          ∃ q, Stands P l q s ∧ q'.1 = q.1 ∧ List.IsRotated (q'.2.map (Mark.renumber σ)) q.2.reverse)).flip b3 ?_
        rintro q' s s' ⟨q, ⟨c1, c2, c3⟩, g1, g2⟩ ⟨d1, d2, d3⟩
        refine ⟨by rw [d1, g1, c1], c2, d2, ?_⟩
        have he : ring s'.1 s'.2 = (ring s'.1 s'.2) := rfl
        have h3 : (q'.2.map (Mark.renumber σ)).map (fun x => (x.eval P l).map (Motion.mirror R).point) =
            (ring s'.1 s'.2).map some := by
          rw [← d3, List.map_map]
          refine List.map_congr_left fun x hx => ?_
          have hmem : x.eval P l' ∈ (ring s'.1 s'.2).map some := by
            rw [← d3]
            exact List.mem_map.mpr ⟨x, hx, rfl⟩
          obtain ⟨p', -, hp'⟩ := List.mem_map.mp hmem
          obtain ⟨p, hp, rfl⟩ := eval_renumber hd hget hp'.symm
          simp only [Function.comp, hp, Option.map_some, ← hp']
        have h4 := g2.map fun x : Mark => (x.eval P l).map (Motion.mirror R).point
        rw [h3] at h4
        have h5 : (q.2.reverse.map fun x => (x.eval P l).map (Motion.mirror R).point) =
            (moveRing (.mirror R) (ring s.1 s.2)).map some := by
          have h6 : (q.2.map fun x => (x.eval P l).map (Motion.mirror R).point) =
              ((ring s.1 s.2).map (Motion.mirror R).point).map some := by
            have h7 := congrArg (List.map (Option.map (Motion.mirror R).point)) c3
            rw [List.map_map, List.map_map] at h7
            rw [List.map_map]
            exact h7
          rw [List.map_reverse, h6, moveRing, List.map_reverse]
        rw [h5] at h4
        obtain ⟨n, hn⟩ := h4
        refine ⟨n, map_some_inj ?_⟩
        rw [List.map_rotate, hn]

/-- C93: the pieces of the image of a panel are the images of its pieces, in the same order, up to the choice of the
first corner of each. -/
theorem cut_moved {tol : ℝ} (htol : 0 < tol) {P : Plane} {μ : Motion}
    (hd : ∀ p, P.distanceToPoint (μ.point p) = P.distanceToPoint p) (tri : Bool) (c : V3 ℝ × V3 ℝ × V3 ℝ × V3 ℝ)
    (hc : tri = true → c.2.2.2 = c.1) (hr : Regular tol P (ring tri c)) :
    (cutRing tol P (ring tri c) = none ∧ cutRing tol P (ring tri (moveCorners μ c)) = none) ∨
    ∃ E E', cutRing tol P (ring tri c) = some E ∧ cutRing tol P (ring tri (moveCorners μ c)) = some E' ∧
      List.Forall₂ (Image μ) E E' := by
  have direct : (∀ Q, μ ≠ .mirror Q) → ring tri (moveCorners μ c) = (ring tri c).map μ.point := by
    intro h
    cases μ with
    | mirror Q => exact absurd rfl (h Q)
    | translate v => cases tri <;> rfl
    | rotate a θ => cases tri <;> rfl
  cases μ with
  | translate v =>
    rw [direct (by simp)]
    exact cut_moved_direct htol hd (by simp) (ring_length tri c) hr.sharp
  | rotate a θ =>
    rw [direct (by simp)]
    exact cut_moved_direct htol hd (by simp) (ring_length tri c) hr.sharp
  | mirror R =>
    obtain ⟨p0, p1, p2, p3⟩ := c
    obtain ⟨h1, h2⟩ := hr
    cases tri with
    | true =>
      have hc : p3 = p0 := hc rfl
      subst hc
      simp only [ring, moveCorners, if_true, List.mem_cons, List.not_mem_nil, or_false, forall_eq_or_imp, forall_eq] at h1 ⊢
      refine cut_moved_reversed (σ := fun i => (3 - i) % 3) htol hd (by simp) (by simp [h1]) (by simp) ?_ ?_
      · intro i p' hi
        match i, hi with
        | 0, hi => exact ⟨_, rfl, (Option.some.inj hi).symm⟩
        | 1, hi => exact ⟨_, rfl, (Option.some.inj hi).symm⟩
        | 2, hi => exact ⟨_, rfl, (Option.some.inj hi).symm⟩
      · simp only [List.map_cons, List.map_nil, hd]
        exact flip3 _ _ _ (by simp [sideOf_clear, h1])
    | false =>
      simp only [ring, moveCorners, Bool.false_eq_true, if_false, List.mem_cons, List.not_mem_nil, or_false,
        forall_eq_or_imp, forall_eq] at h1 h2 ⊢
      refine cut_moved_reversed (σ := fun i => 3 - i) htol hd (by simp) (by simp [h1]) (by simp) ?_ ?_
      · intro i p' hi
        match i, hi with
        | 0, hi => exact ⟨_, rfl, (Option.some.inj hi).symm⟩
        | 1, hi => exact ⟨_, rfl, (Option.some.inj hi).symm⟩
        | 2, hi => exact ⟨_, rfl, (Option.some.inj hi).symm⟩
        | 3, hi => exact ⟨_, rfl, (Option.some.inj hi).symm⟩
      · simp only [List.map_cons, List.map_nil, hd]
        exact flip4 _ _ _ _ (by simp [sideOf_clear, h1]) h2


end Verif.Meshes
