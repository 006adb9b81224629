import Verif.Files.NemohProps

/-!
# Nemoh files written by hand (C85)

The files that `import_cal_file` is meant to read, with several bodies, dofs, directions and kinds of frequencies.
-/

namespace Verif.Files

open Verif.Geometry Verif.Meshes

/-! ## Specification -/

/-- The words of a line begin with the given ones. -/
def Begins (l : Text) (ws : List Text) : Prop := ∃ rest, textWords l = ws ++ rest

/-- Three words are the coordinates of a vector. -/
def Reads3 (P : PyFloats) (x y z : Text) (v : V3 ℚ) : Prop :=
  P.read x = some v.x ∧ P.read y = some v.y ∧ P.read z = some v.z

/-- A line of a dof: `1 x y z`, `2 x y z a b c` or something else. -/
inductive DofLine (P : PyFloats) : Text → Option CalDof → Prop
  | translation {l k x y z : Text} {v : V3 ℚ} (hl : Begins l [k, x, y, z]) (hk : readInt k = some 1)
      (hv : Reads3 P x y z v) : DofLine P l (some (.translation v))
  | rotation {l k x y z a b c : Text} {v p : V3 ℚ} (hl : Begins l [k, x, y, z, a, b, c]) (hk : readInt k = some 2)
      (hv : Reads3 P x y z v) (hp : Reads3 P a b c p) : DofLine P l (some (.rotation v p))
  | other {l k : Text} {n : ℤ} (hl : Begins l [k]) (hk : readInt k = some n) (h1 : n ≠ 1) (h2 : n ≠ 2) : DofLine P l none

/-- A line that begins with an integer. -/
def IntLine (l : Text) (n : ℕ) : Prop := ∃ k, Begins l [k] ∧ readInt k = some (n : ℤ)

/-- A line that begins with a number. -/
def ValueLine (P : PyFloats) (l : Text) (x : ℚ) : Prop := ∃ k, Begins l [k] ∧ P.read k = some x

/-- The lines of a body. -/
structure BodyLines (P : PyFloats) (files : Text → Option Text) (ls : List Text) (b : CalBody) : Prop where
  parts : ∃ title mesh counts nd nf na : Text, ∃ dofLines forceLines extra : List Text, ∃ dofs : List (Option CalDof),
    ∃ m : Loaded,
    ls = title :: mesh :: counts :: nd :: (dofLines ++ nf :: (forceLines ++ na :: extra)) ∧
    Begins mesh [b.name] ∧ loadMeshFile files b.name = some m ∧ b.meshes = [m] ∧
    IntLine nd dofLines.length ∧ List.Forall₂ (DofLine P) dofLines dofs ∧
    b.dofs = (dofs.filterMap id).mapIdx (fun i d => (calDofName i d, d)) ∧
    IntLine nf forceLines.length ∧ (∀ l ∈ forceLines, ∃ d, DofLine P l d) ∧ IntLine na extra.length

/-- The values are evenly spaced between two bounds. -/
def Spaced (a b : ℚ) (n : ℕ) (l : List ℚ) : Prop :=
  l.length = n ∧ ∀ (i : ℕ) (x : ℚ), l[i]? = some x → (n = 1 → x = a) ∧ ((n : ℚ) - 1) * x = (n - 1 - i) * a + i * b

/-- The words `n a b`. -/
def RangeWords (P : PyFloats) (ws : List Text) (l : List ℚ) : Prop :=
  ∃ n a b : Text, ∃ k : ℕ, ∃ x y : ℚ, (∃ rest, ws = n :: a :: b :: rest) ∧ readInt n = some (k : ℤ) ∧ P.read a = some x ∧
    P.read b = some y ∧ Spaced x y k l

/-- The line of the frequencies, in rad/s, in Hz or as periods in s. -/
inductive FrequencyLine (P : PyFloats) : Text → List ℝ → Prop
  | old {l : Text} {ws : List Text} {r : List ℚ} (hl : textWords (l.takeWhile (· ≠ '!')) = ws) (h3 : ws.length = 3)
      (hr : RangeWords P ws r) : FrequencyLine P l (r.map fun x : ℚ => (x : ℝ))
  | angular {l k : Text} {ws : List Text} {r : List ℚ} (hl : textWords (l.takeWhile (· ≠ '!')) = k :: ws)
      (hk : readInt k = some 1) (hr : RangeWords P ws r) : FrequencyLine P l (r.map fun x : ℚ => (x : ℝ))
  | hertz {l k : Text} {ws : List Text} {r : List ℚ} (hl : textWords (l.takeWhile (· ≠ '!')) = k :: ws)
      (hk : readInt k = some 2) (hr : RangeWords P ws r) :
      FrequencyLine P l (r.map fun f : ℚ => 2 * Real.pi * (f : ℝ))
  | period {l k : Text} {ws : List Text} {r : List ℚ} (hl : textWords (l.takeWhile (· ≠ '!')) = k :: ws)
      (hk : readInt k = some 3) (hr : RangeWords P ws r) :
      FrequencyLine P l (r.map fun t : ℚ => 2 * Real.pi / (t : ℝ))

/-- The beginning of a file, up to the bodies. -/
def HeadLines (P : PyFloats) (ls : List Text) (rho g depth : ℚ) (nb : ℕ) : Prop :=
  ∃ t0 l1 l2 l3 l4 t5 l6 x y : Text, ls = [t0, l1, l2, l3, l4, t5, l6] ∧ ValueLine P l1 rho ∧ ValueLine P l2 g ∧
    ValueLine P l3 depth ∧ Begins l4 [x, y] ∧ (P.read x).isSome ∧ (P.read y).isSome ∧ IntLine l6 nb

/-- The end of a file, after the bodies: the frequencies, the directions in degrees and lines that are not used. -/
def TailLines (P : PyFloats) (ls : List Text) (omegas : Option (List ℝ)) (degrees : List ℚ) : Prop :=
  ∃ t0 l1 l2 t3 l4 l5 l6 x : Text, ∃ rest : List Text, ∃ kochin : List ℚ,
    ls = t0 :: l1 :: l2 :: t3 :: l4 :: l5 :: l6 :: rest ∧
    (∀ ws, omegas = some ws → FrequencyLine P l1 ws) ∧
    (omegas = none → ∃ k n, ∃ ws : List Text, textWords (l1.takeWhile (· ≠ '!')) = k :: ws ∧ ws.length ≠ 2 ∧
      readInt k = some n ∧ n ≠ 1 ∧ n ≠ 2 ∧ n ≠ 3) ∧
    RangeWords P (textWords l2) degrees ∧ Begins l5 [x] ∧ RangeWords P (textWords l6) kochin

/-! ## Lines -/

theorem begins_head {l : Text} {k : Text} {ws : List Text} (h : Begins l (k :: ws)) : (textWords l).head? = some k := by
  obtain ⟨rest, h⟩ := h
  rw [h]
  rfl

theorem intLine_first {l : Text} {n : ℕ} (h : IntLine l n) : firstInt l = some (n : ℤ) := by
  obtain ⟨k, h1, h2⟩ := h
  rw [firstInt, begins_head h1, Option.bind_some, h2]

theorem valueLine_first {P : PyFloats} {l : Text} {x : ℚ} (h : ValueLine P l x) : firstFloat P l = some x := by
  obtain ⟨k, h1, h2⟩ := h
  rw [firstFloat, begins_head h1, Option.bind_some, h2]

theorem reads3 {P : PyFloats} {x y z : Text} {v : V3 ℚ} (h : Reads3 P x y z v) : threeFloats P [x, y, z] = some v := by
  obtain ⟨h1, h2, h3⟩ := h
  simp [threeFloats, h1, h2, h3, toVertex]

theorem dofLine_read {P : PyFloats} {l : Text} {d : Option CalDof} (h : DofLine P l d) (dofs : List (Text × CalDof)) :
    calDofLine P dofs l = some (d.elim dofs (addCalDof dofs)) ∧ calForceLine P l = some () := by
  cases h with
  | @translation k x y z v hl hk hv =>
    obtain ⟨rest, hl⟩ := hl
    have h3 := reads3 hv
    obtain ⟨h1, h2, h4⟩ := hv
    constructor
    · simp [calDofLine, hl, hk, h3]
    · simp [calForceLine, hl, hk, h1, h2, h4]
  | @rotation k x y z a b c v p hl hk hv hp =>
    obtain ⟨rest, hl⟩ := hl
    have h3 := reads3 hv
    have h3' := reads3 hp
    obtain ⟨h1, h2, h4⟩ := hv
    obtain ⟨p1, p2, p4⟩ := hp
    constructor
    · simp [calDofLine, hl, hk, h3, h3']
    · simp [calForceLine, hl, hk, h1, h2, h4, p1, p2, p4]
  | @other k n hl hk h1 h2 =>
    obtain ⟨rest, hl⟩ := hl
    constructor
    · simp [calDofLine, hl, hk, h1, h2]
    · simp [calForceLine, hl, hk, h1, h2]

theorem dofLines_read {P : PyFloats} : ∀ {ls : List Text} {ds : List (Option CalDof)}, List.Forall₂ (DofLine P) ls ds →
    ∀ (dofs : List (Text × CalDof)) (rest : List Text),
      calDofs P ls.length dofs (ls ++ rest) = some ((ds.filterMap id).foldl addCalDof dofs, rest) := by
  intro ls ds h
  induction h with
  | nil => intro dofs rest; rfl
  | @cons l d ls ds hd _ ih =>
    intro dofs rest
    rw [List.length_cons, calDofs, List.cons_append, List.headD_cons, (dofLine_read hd dofs).1, Option.bind_some,
      List.tail_cons, ih]
    cases d <;> simp

theorem forceLines_read {P : PyFloats} : ∀ {ls : List Text}, (∀ l ∈ ls, ∃ d, DofLine P l d) → ∀ rest : List Text,
    calForces P ls.length (ls ++ rest) = some rest := by
  intro ls
  induction ls with
  | nil => intro _ rest; rfl
  | cons l ls ih =>
    intro h rest
    obtain ⟨d, hd⟩ := h l (by simp)
    rw [List.length_cons, calForces, List.cons_append, List.headD_cons, (dofLine_read hd []).2, Option.bind_some,
      List.tail_cons, ih fun l hl => h l (by simp [hl])]

theorem foldl_addCalDof : ∀ (ds : List CalDof) (dofs : List (Text × CalDof)), Ranked dofs →
    ds.foldl addCalDof dofs = dofs ++ ds.mapIdx fun i d => (calDofName (dofs.length + i) d, d) := by
  intro ds
  induction ds with
  | nil => intro dofs _; simp
  | cons d ds ih =>
    intro dofs h
    obtain ⟨h1, h2⟩ := addCalDof_ranked h d
    rw [List.foldl_cons, ih _ h2, h1, List.mapIdx_cons, List.append_assoc, List.length_append, List.length_singleton]
    simp [Nat.add_assoc, Nat.add_comm 1]

theorem bodyLines_read {P : PyFloats} {files : Text → Option Text} {ls : List Text} {b : CalBody}
    (h : BodyLines P files ls b) (rest : List Text) : calBody P files (ls ++ rest) = some (b, rest) := by
  obtain ⟨title, mesh, counts, nd, nf, na, dofLines, forceLines, extra, dofs, m, rfl, h1, h2, h3, h4, h5, h6, h7, h8, h9⟩ :=
    h.parts
  have e1 : (title :: mesh :: counts :: nd :: (dofLines ++ nf :: (forceLines ++ na :: extra)) ++ rest).getD 1 [] = mesh := rfl
  have e3 : (title :: mesh :: counts :: nd :: (dofLines ++ nf :: (forceLines ++ na :: extra)) ++ rest).getD 3 [] = nd := rfl
  have e4 : (title :: mesh :: counts :: nd :: (dofLines ++ nf :: (forceLines ++ na :: extra)) ++ rest).drop 4 =
      dofLines ++ (nf :: (forceLines ++ (na :: (extra ++ rest)))) := by simp
  have hd : (dofs.filterMap id).foldl addCalDof [] = b.dofs := by
    rw [foldl_addCalDof _ [] (by intro q hq; simp at hq), h6]
    simp
  rw [calBody, e1, e3, e4, begins_head h1, Option.bind_some, h2, Option.bind_some, intLine_first h4, Option.bind_some,
    Int.toNat_natCast, dofLines_read h5, Option.bind_some, List.headD_cons, intLine_first h7, Option.bind_some, List.tail_cons,
    Int.toNat_natCast, forceLines_read h8, Option.bind_some, List.headD_cons, intLine_first h9, Option.map_some,
    List.tail_cons, Int.toNat_natCast, List.drop_left, hd, ← h3]

theorem bodies_read {P : PyFloats} {files : Text → Option Text} : ∀ {lss : List (List Text)} {bs : List CalBody},
    List.Forall₂ (BodyLines P files) lss bs → ∀ rest : List Text,
      calBodies P files bs.length (lss.flatten ++ rest) = some (bs, rest) := by
  intro lss bs h
  induction h with
  | nil => intro rest; rfl
  | @cons ls b lss bs hb _ ih =>
    intro rest
    rw [List.length_cons, calBodies, List.flatten_cons, List.append_assoc, bodyLines_read hb, Option.bind_some, ih,
      Option.map_some]

theorem spaced_linspace {a b : ℚ} {n : ℕ} {l : List ℚ} (h : Spaced a b n l) : calLinspace a b n = some l := by
  obtain ⟨rfl, h⟩ := h
  rw [calLinspace, if_neg (by omega), Option.some.injEq]
  refine List.ext_getElem? fun i => ?_
  rw [List.getElem?_map, Int.toNat_natCast]
  by_cases hi : i < l.length
  · rw [List.getElem?_range hi, Option.map_some, List.getElem?_eq_getElem hi, Option.some.injEq]
    obtain ⟨h1, h2⟩ := h i l[i] (List.getElem?_eq_getElem hi)
    by_cases hn : l.length = 1
    · have hi0 : i = 0 := by omega
      rw [h1 hn, hi0]
      simp
    · have hne : ((l.length : ℚ) - 1) ≠ 0 := by
        intro h0
        apply hn
        have : (l.length : ℚ) = 1 := by linarith
        exact_mod_cast this
      rw [Int.cast_natCast]
      field_simp
      linarith
  · rw [List.getElem?_eq_none (by simpa using hi), List.getElem?_eq_none (by omega)]
    rfl

theorem rangeWords_read {P : PyFloats} {ws : List Text} {l : List ℚ} (h : RangeWords P ws l) :
    rangeOfWords P ws = some l := by
  obtain ⟨n, a, b, k, x, y, ⟨rest, rfl⟩, h1, h2, h3, h4⟩ := h
  simp [rangeOfWords, h1, h2, h3, spaced_linspace h4]

theorem frequencyLine_read {P : PyFloats} {l : Text} {ws : List ℝ} (h : FrequencyLine P l ws) : calOmegas P l = some ws := by
  cases h with
  | old hl h3 hr => simp only [calOmegas, hl, h3, if_true, rangeWords_read hr, Option.map_some]
  | angular hl hk hr =>
    have h3 := hr
    obtain ⟨n, a, b, k, x, y, ⟨rest, rfl⟩, -⟩ := h3
    simp only [calOmegas, hl]
    simp [hk, rangeWords_read hr]
  | hertz hl hk hr =>
    have h3 := hr
    obtain ⟨n, a, b, k, x, y, ⟨rest, rfl⟩, -⟩ := h3
    simp only [calOmegas, hl]
    simp [hk, rangeWords_read hr]
  | period hl hk hr =>
    have h3 := hr
    obtain ⟨n, a, b, k, x, y, ⟨rest, rfl⟩, -⟩ := h3
    simp only [calOmegas, hl]
    simp [hk, rangeWords_read hr]

/-- The result of the import, for a file with the given parts. -/
theorem import_parts {P : PyFloats} {files : Text → Option Text} {s : Text} {head : List Text} {lss : List (List Text)}
    {tail : List Text} {rho g depth : ℚ} {bs : List CalBody} {omegas : Option (List ℝ)} {degrees : List ℚ}
    (hs : textLines s = head ++ lss.flatten ++ tail) (hh : HeadLines P head rho g depth bs.length)
    (hb : List.Forall₂ (BodyLines P files) lss bs) (ht : TailLines P tail omegas degrees) :
    importCal P files s = (mergeCal bs.length bs).bind fun body => omegas.map fun ws =>
      calProblems body rho g (if depth = 0 then none else some depth) ws
        (degrees.map fun b : ℚ => Real.pi / 180 * (b : ℝ)) := by
  obtain ⟨t0, l1, l2, l3, l4, t5, l6, x, y, rfl, h1, h2, h3, h4, hx, hy, h6⟩ := hh
  obtain ⟨u0, m1, m2, u3, m4, m5, m6, z, rest, kochin, rfl, k1, k1', k2, k5, k6⟩ := ht
  have h4' : (twoFloats P l4).isSome := by
    obtain ⟨r, h4⟩ := h4
    obtain ⟨x', hx⟩ := Option.isSome_iff_exists.1 hx
    obtain ⟨y', hy⟩ := Option.isSome_iff_exists.1 hy
    simp [twoFloats, h4, hx, hy]
  obtain ⟨xy, h4'⟩ := Option.isSome_iff_exists.1 h4'
  have hd : (textLines s).drop 7 = lss.flatten ++ (u0 :: m1 :: m2 :: u3 :: m4 :: m5 :: m6 :: rest) := by
    rw [hs]
    rfl
  have g1 : (textLines s).getD 1 [] = l1 := by rw [hs]; rfl
  have g2 : (textLines s).getD 2 [] = l2 := by rw [hs]; rfl
  have g3 : (textLines s).getD 3 [] = l3 := by rw [hs]; rfl
  have g4 : (textLines s).getD 4 [] = l4 := by rw [hs]; rfl
  have g6 : (textLines s).getD 6 [] = l6 := by rw [hs]; rfl
  unfold importCal
  simp only [hd, g1, g2, g3, g4, g6, valueLine_first h1, valueLine_first h2, valueLine_first h3, h4', intLine_first h6,
    Option.bind_some, Int.toNat_natCast, bodies_read hb]
  congr 1
  funext body
  show (calOmegas P m1).bind _ = _
  cases omegas with
  | none =>
    obtain ⟨k, n, ws, e1, e2, e3, e4, e5, e6⟩ := k1' rfl
    have : calOmegas P m1 = none := by
      simp only [calOmegas, e1]
      simp [e2, e3, e4, e5, e6]
    rw [this]
    rfl
  | some ws =>
    rw [frequencyLine_read (k1 ws rfl), Option.bind_some]
    show (rangeOfWords P (textWords m2)).bind _ = _
    rw [rangeWords_read k2, Option.bind_some]
    show (textWords m5).head?.bind _ = _
    rw [begins_head k5, Option.bind_some]
    show (rangeOfWords P (textWords m6)).map _ = _
    rw [rangeWords_read k6, Option.map_some, Option.map_some]

/-- What is asked from a Nemoh file: for each frequency, a diffraction problem for each direction, in radians, then a
radiation problem for each dof. A depth of zero is infinite. -/
def Asked (body : CalBody) (rho g depth : ℚ) (omegas : List ℝ) (degrees : List ℚ) (ps : List CalProblem) : Prop :=
  ps = omegas.flatMap fun w =>
    (degrees.map fun b : ℚ => ⟨body, rho, g, if depth = 0 then none else some depth, w, .diffraction ((b : ℝ) * Real.pi / 180)⟩) ++
      body.dofs.map fun d => ⟨body, rho, g, if depth = 0 then none else some depth, w, .radiation d.1⟩

/-- **C85, any well-formed file with one body.** The problems are those asked in the file. -/
theorem import_one_body {P : PyFloats} {files : Text → Option Text} {s : Text} {head ls tail : List Text} {rho g depth : ℚ}
    {b : CalBody} {omegas : List ℝ} {degrees : List ℚ} (hs : textLines s = head ++ ls ++ tail)
    (hh : HeadLines P head rho g depth 1) (hb : BodyLines P files ls b) (ht : TailLines P tail (some omegas) degrees) :
    ∃ ps, importCal P files s = some ps ∧ Asked b rho g depth omegas degrees ps := by
  refine ⟨_, import_parts (lss := [ls]) (bs := [b]) (by simpa using hs) hh (.cons hb .nil) ht, ?_⟩
  simp only [Asked, calProblems, List.map_map]
  congr 1
  funext w
  congr 1
  refine List.map_congr_left fun x _ => ?_
  simp only [Function.comp]
  congr 2
  ring

/-- **C85, any well-formed file with several bodies** of different names. The problems are those asked in the file, about a body
with all the meshes and all the dofs. -/
theorem import_bodies {P : PyFloats} {files : Text → Option Text} {s : Text} {head : List Text} {lss : List (List Text)}
    {tail : List Text} {rho g depth : ℚ} {bs : List CalBody} {omegas : List ℝ} {degrees : List ℚ}
    (hs : textLines s = head ++ lss.flatten ++ tail) (h2 : 2 ≤ bs.length) (hh : HeadLines P head rho g depth bs.length)
    (hb : List.Forall₂ (BodyLines P files) lss bs) (ht : TailLines P tail (some omegas) degrees)
    (hn : (bs.map CalBody.name).Nodup) :
    ∃ ps body, importCal P files s = some ps ∧ Asked body rho g depth omegas degrees ps ∧
      body.meshes = bs.flatMap CalBody.meshes ∧
      body.dofs = bs.flatMap fun b => b.dofs.map fun d => (Bodies.newDofName b.name d.1, d.2) := by
  refine ⟨_, joinCal bs, ?_, rfl, rfl, ?_⟩
  · rw [import_parts hs hh hb ht, mergeCal, if_pos (by omega), Option.bind_some, Option.map_some, Option.some.injEq]
    simp only [calProblems, List.map_map]
    congr 1
    funext w
    congr 1
    refine List.map_congr_left fun x _ => ?_
    simp only [Function.comp]
    congr 2
    ring
  · have hr := calBodies_ranked (bodies_read hb tail)
    have hnd := nodup_flatMap_names hn (fun b hb => (hr b hb).2) (fun b hb q hq => by
      obtain ⟨k, -, hk⟩ := (hr b hb).1 q hq
      rw [hk]
      exact calDofName_plain k q.2)
    show (bs.flatMap fun b => b.dofs.map fun d => (Bodies.newDofName b.name d.1, d.2)).foldl Bodies.setItem [] = _
    rw [Bodies.foldl_distinct [] _ (by simpa using hnd), List.nil_append]

/-- C85: the other kinds of frequencies are refused. -/
theorem import_kind_refused {P : PyFloats} {files : Text → Option Text} {s : Text} {head : List Text}
    {lss : List (List Text)} {tail : List Text} {rho g depth : ℚ} {bs : List CalBody} {degrees : List ℚ}
    (hs : textLines s = head ++ lss.flatten ++ tail) (hh : HeadLines P head rho g depth bs.length)
    (hb : List.Forall₂ (BodyLines P files) lss bs) (ht : TailLines P tail none degrees) : importCal P files s = none := by
  rw [import_parts hs hh hb ht]
  cases mergeCal bs.length bs <;> rfl

/-! ## Example -/

/-- The lines of a body in a file of two bodies. -/
def sampleBodyLines (mesh : Text) : List Text :=
  ["--- Body ---".toList, mesh, "4 1".toList, "3 dofs".toList, "1 0. 0. 1. ! heave".toList, "7 not used".toList,
    "2 0. 1. 0. 0. 0. 1. ! pitch".toList, "1".toList, "2 0. 1. 0. 0. 0. 1.".toList, "1".toList, "a remark".toList]

/-- A file with two bodies, two periods and three directions. -/
def sampleCalText : Text :=
  unlines (["--- Environment ---".toList, "180. ! density".toList, "1.".toList, "0. ! depth".toList, "0. 0.".toList,
      "--- Bodies ---".toList, "2 bodies".toList] ++
    [sampleBodyLines "a.dat".toList, sampleBodyLines "b.dat".toList].flatten ++
    ["--- Cases ---".toList, "3 2 1. 180. ! periods".toList, "3 0. 180. ! directions".toList, "--- Post ---".toList,
      "0 0. 0.".toList, "0".toList, "0 0. 180.".toList])

/-- The meshes of the example. -/
def sampleCalFiles (f : Text) : Option Text :=
  if f = "a.dat".toList ∨ f = "b.dat".toList then some (writeMAR (samplePb "buoy".toList none (.finite 2) heave).mesh) else none

theorem sample_body_lines (mesh : Text) (h : mesh = "a.dat".toList ∨ mesh = "b.dat".toList) :
    BodyLines sixDecimals sampleCalFiles (sampleBodyLines mesh)
      ⟨mesh, [⟨mapMesh fixedValue (samplePb "buoy".toList none (.finite 2) heave).mesh, false, false⟩],
        [(calDofName 0 heave, heave), (calDofName 1 (.rotation ⟨0, 1, 0⟩ ⟨0, 0, 1⟩), .rotation ⟨0, 1, 0⟩ ⟨0, 0, 1⟩)]⟩ := by
  have hl : loadMeshFile sampleCalFiles mesh =
      some ⟨mapMesh fixedValue (samplePb "buoy".toList none (.finite 2) heave).mesh, false, false⟩ := by
    unfold loadMeshFile
    rw [sampleCalFiles, if_pos h, Option.bind_some, if_pos (by rcases h with rfl | rfl <;> decide)]
    exact mar_read (samplePb_valid _ _ _ _) (samplePb_mar _ _ _ _)
  have r0 := read_zero sixDecimals_right
  have r1 := read_one sixDecimals_right
  have hm : Begins mesh [mesh] := by
    rcases h with rfl | rfl
    · exact ⟨[], by decide⟩
    · exact ⟨[], by decide⟩
  have hrot : ∀ l : Text, Begins l ["2".toList, "0.".toList, "1.".toList, "0.".toList, "0.".toList, "0.".toList, "1.".toList] →
      DofLine sixDecimals l (some (.rotation ⟨0, 1, 0⟩ ⟨0, 0, 1⟩)) := fun l hl =>
    .rotation hl (by decide) ⟨r0, r1, r0⟩ ⟨r0, r0, r1⟩
  refine ⟨⟨_, mesh, _, _, _, _, ["1 0. 0. 1. ! heave".toList, "7 not used".toList,
    "2 0. 1. 0. 0. 0. 1. ! pitch".toList], ["2 0. 1. 0. 0. 0. 1.".toList], ["a remark".toList],
    [some heave, none, some (.rotation ⟨0, 1, 0⟩ ⟨0, 0, 1⟩)], _, rfl, hm, hl, rfl, ?_, ?_, rfl, ?_, ?_, ?_⟩⟩
  · exact ⟨"3".toList, ⟨["dofs".toList], by decide⟩, by decide⟩
  · refine .cons (.translation (k := "1".toList) (x := "0.".toList) (y := "0.".toList) (z := "1.".toList)
      ⟨["!".toList, "heave".toList], by decide⟩ (by decide) ⟨r0, r0, r1⟩) (.cons (.other (k := "7".toList) (n := 7)
      ⟨["not".toList, "used".toList], by decide⟩ (by decide) (by decide) (by decide)) (.cons (hrot _
        ⟨["!".toList, "pitch".toList], by decide⟩) .nil))
  · exact ⟨"1".toList, ⟨[], by decide⟩, by decide⟩
  · intro l hl
    rw [List.mem_singleton] at hl
    subst hl
    exact ⟨_, hrot _ ⟨[], by decide⟩⟩
  · exact ⟨"1".toList, ⟨[], by decide⟩, by decide⟩

/-- The problems of the example: two periods, three directions and four dofs. -/
example : ∃ ps, importCal sixDecimals sampleCalFiles sampleCalText = some ps ∧ ps.length = 14 := by
  have r0 := read_zero sixDecimals_right
  have r1 := read_one sixDecimals_right
  have r180 := read_180 sixDecimals_right
  have hl := textLines_append (ls := ["--- Environment ---".toList, "180. ! density".toList, "1.".toList,
      "0. ! depth".toList, "0. 0.".toList, "--- Bodies ---".toList, "2 bodies".toList] ++
    [sampleBodyLines "a.dat".toList, sampleBodyLines "b.dat".toList].flatten ++
    ["--- Cases ---".toList, "3 2 1. 180. ! periods".toList, "3 0. 180. ! directions".toList, "--- Post ---".toList,
      "0 0. 0.".toList, "0".toList, "0 0. 180.".toList]) (by decide) []
  rw [List.append_nil] at hl
  replace hl := hl.trans (List.append_nil _)
  obtain ⟨ps, body, h1, h2, -, h4⟩ := import_bodies (P := sixDecimals) (files := sampleCalFiles) (rho := 180) (g := 1)
    (depth := 0) (omegas := [1, 180].map fun t : ℚ => 2 * Real.pi / (t : ℝ)) (degrees := [0, 90, 180])
    (s := sampleCalText) hl (by simp) (by
      refine ⟨_, _, _, _, _, _, _, "0.".toList, "0.".toList, rfl, ⟨"180.".toList, ⟨["!".toList, "density".toList], by decide⟩, r180⟩,
        ⟨"1.".toList, ⟨[], by decide⟩, r1⟩, ⟨"0.".toList, ⟨["!".toList, "depth".toList], by decide⟩, r0⟩, ⟨[], by decide⟩, ?_, ?_,
        ⟨"2".toList, ⟨["bodies".toList], by decide⟩, by decide⟩⟩
      · rw [r0]; rfl
      · rw [r0]; rfl)
    (.cons (sample_body_lines _ (Or.inl rfl)) (.cons (sample_body_lines _ (Or.inr rfl)) .nil)) (by
      refine ⟨_, _, _, _, _, _, _, "0".toList, [], [], rfl, ?_, ?_, ?_, ⟨[], by decide⟩, ?_⟩
      · intro ws hws
        rw [Option.some.injEq] at hws
        subst hws
        refine .period (k := "3".toList) (ws := ["2".toList, "1.".toList, "180.".toList]) (by decide) (by decide) ?_
        refine ⟨_, _, _, 2, 1, 180, ⟨[], rfl⟩, by decide, r1, r180, rfl, fun i x hx => ?_⟩
        rcases (by omega : i = 0 ∨ i = 1 ∨ 2 ≤ i) with rfl | rfl | hi
        · simp at hx; subst hx; norm_num
        · simp at hx; subst hx; norm_num
        · rw [List.getElem?_eq_none (by simpa using hi)] at hx; cases hx
      · intro h; cases h
      · refine ⟨"3".toList, "0.".toList, "180.".toList, 3, 0, 180, ⟨["!".toList, "directions".toList], by decide⟩, by decide, r0,
          r180, rfl, fun i x hx => ?_⟩
        rcases (by omega : i = 0 ∨ i = 1 ∨ i = 2 ∨ 3 ≤ i) with rfl | rfl | rfl | hi
        · simp at hx; subst hx; norm_num
        · simp at hx; subst hx; norm_num
        · simp at hx; subst hx; norm_num
        · rw [List.getElem?_eq_none (by simpa using hi)] at hx; cases hx
      · refine ⟨"0".toList, "0.".toList, "180.".toList, 0, 0, 180, ⟨[], by decide⟩, by decide, r0, r180, rfl, fun i x hx => ?_⟩
        simp at hx) (by simp)
  refine ⟨ps, h1, ?_⟩
  have hd : body.dofs.length = 4 := by rw [h4]; rfl
  rw [h2]
  simp [List.length_flatMap, hd]

end Verif.Files
