import Mathlib.Tactic.Linarith
import Mathlib.Tactic.FieldSimp
import Mathlib.Tactic.Ring
import Mathlib.Tactic.NormNum
import Mathlib.Tactic.Positivity
import Verif.Files.TextModel

/-!
# Lemmas on the text of mesh files
-/

namespace Verif.Files

/-! ## Lines and words -/

theorem linesFrom_line (l : Text) (h : '\n' ∉ l) (cur s : Text) :
    linesFrom cur (l ++ '\n' :: s) = (cur ++ l) :: linesFrom [] s := by
  induction l generalizing cur with
  | nil => simp [linesFrom]
  | cons c l ih =>
    have hc : c ≠ '\n' := fun e => h (by simp [e])
    rw [List.cons_append, linesFrom, if_neg hc, ih (fun hm => h (by simp [hm]))]
    simp

theorem textLines_unlines {ls : List Text} (h : ∀ l ∈ ls, '\n' ∉ l) : textLines (unlines ls) = ls := by
  unfold textLines
  induction ls with
  | nil => simp [unlines, linesFrom]
  | cons l ls ih =>
    have := linesFrom_line l (h l (by simp)) [] (unlines ls)
    simp only [unlines, List.flatMap_cons, List.append_assoc, List.singleton_append] at this ⊢
    rw [this]
    simp only [List.nil_append, List.cons.injEq, true_and]
    exact ih fun x hx => h x (by simp [hx])

/-- A word that `split` keeps in one piece. -/
def IsWord (w : Text) : Prop := w ≠ [] ∧ ∀ c ∈ w, isBlank c = false

theorem wordsFrom_word (w : Text) (h : ∀ c ∈ w, isBlank c = false) (cur s : Text) :
    wordsFrom cur (w ++ s) = wordsFrom (cur ++ w) s := by
  induction w generalizing cur with
  | nil => simp
  | cons c w ih =>
    rw [List.cons_append, wordsFrom, if_neg (by simp [h c (by simp)]), ih (fun x hx => h x (by simp [hx]))]
    simp

theorem wordsFrom_blanks (b : Text) (h : ∀ c ∈ b, isBlank c = true) (s : Text) :
    wordsFrom [] (b ++ s) = wordsFrom [] s := by
  induction b with
  | nil => simp
  | cons c b ih =>
    rw [List.cons_append, wordsFrom, if_pos (h c (by simp)), if_pos rfl, ih (fun x hx => h x (by simp [hx]))]

theorem wordsFrom_sep (b : Text) (h : ∀ c ∈ b, isBlank c = true) (hb : b ≠ []) (cur : Text) (hc : cur ≠ []) (s : Text) :
    wordsFrom cur (b ++ s) = cur :: wordsFrom [] s := by
  cases b with
  | nil => exact absurd rfl hb
  | cons c b =>
    rw [List.cons_append, wordsFrom, if_pos (h c (by simp)), if_neg hc,
      wordsFrom_blanks b (fun x hx => h x (by simp [hx]))]

/-- A line made of fields: some blanks and a word. -/
def fieldLine (fs : List (Text × Text)) : Text := fs.flatMap fun f => f.1 ++ f.2

/-- Fields made of blanks followed by a word. -/
def GoodFields (fs : List (Text × Text)) : Prop := ∀ f ∈ fs, (∀ c ∈ f.1, isBlank c = true) ∧ IsWord f.2

theorem wordsFrom_fields (cur : Text) (hcur : cur ≠ []) (fs : List (Text × Text)) (hg : GoodFields fs)
    (hs : ∀ f ∈ fs, f.1 ≠ []) : wordsFrom cur (fieldLine fs) = cur :: fs.map (·.2) := by
  induction fs generalizing cur with
  | nil => simp [fieldLine, wordsFrom, hcur]
  | cons f fs ih =>
    have hf := hg f (by simp)
    have : fieldLine (f :: fs) = f.1 ++ (f.2 ++ fieldLine fs) := by simp [fieldLine]
    rw [this, wordsFrom_sep _ hf.1 (hs f (by simp)) _ hcur, wordsFrom_word _ hf.2.2, List.nil_append,
      ih _ hf.2.1 (fun x hx => hg x (by simp [hx])) (fun x hx => hs x (by simp [hx]))]
    simp

/-- The words of a line of separated fields. -/
theorem textWords_fields (f : Text × Text) (fs : List (Text × Text)) (hg : GoodFields (f :: fs))
    (hs : ∀ x ∈ fs, x.1 ≠ []) : textWords (fieldLine (f :: fs)) = f.2 :: fs.map (·.2) := by
  have hf := hg f (by simp)
  have : fieldLine (f :: fs) = f.1 ++ (f.2 ++ fieldLine fs) := by simp [fieldLine]
  rw [textWords, this, wordsFrom_blanks _ hf.1, wordsFrom_word _ hf.2.2, List.nil_append,
    wordsFrom_fields _ hf.2.1 _ (fun x hx => hg x (by simp [hx])) hs]

theorem wordsFrom_count (cur : Text) (hcur : cur ≠ []) (fs : List (Text × Text)) (hg : GoodFields fs) :
    (wordsFrom cur (fieldLine fs)).length = 1 + (fs.filter fun f => f.1 ≠ []).length := by
  induction fs generalizing cur with
  | nil => simp [fieldLine, wordsFrom, hcur]
  | cons f fs ih =>
    have hf := hg f (by simp)
    have hr : GoodFields fs := fun x hx => hg x (by simp [hx])
    have : fieldLine (f :: fs) = f.1 ++ (f.2 ++ fieldLine fs) := by simp [fieldLine]
    rw [this]
    by_cases h0 : f.1 = []
    · rw [h0, List.nil_append, wordsFrom_word _ hf.2.2, ih _ (by simp [hcur]) hr]
      simp [h0]
    · rw [wordsFrom_sep _ hf.1 h0 _ hcur, wordsFrom_word _ hf.2.2, List.nil_append, List.length_cons, ih _ hf.2.1 hr]
      simp [h0]; omega

/-- The number of words of a line of fields: the fields that are not separated count for one. -/
theorem textWords_count (f : Text × Text) (fs : List (Text × Text)) (hg : GoodFields (f :: fs)) :
    (textWords (fieldLine (f :: fs))).length = 1 + (fs.filter fun f => f.1 ≠ []).length := by
  have hf := hg f (by simp)
  have : fieldLine (f :: fs) = f.1 ++ (f.2 ++ fieldLine fs) := by simp [fieldLine]
  rw [textWords, this, wordsFrom_blanks _ hf.1, wordsFrom_word _ hf.2.2, List.nil_append,
    wordsFrom_count _ hf.2.1 _ (fun x hx => hg x (by simp [hx]))]

/-- All the words are there iff the fields are separated. -/
theorem textWords_all_iff (f : Text × Text) (fs : List (Text × Text)) (hg : GoodFields (f :: fs)) :
    (textWords (fieldLine (f :: fs))).length = 1 + fs.length ↔ ∀ x ∈ fs, x.1 ≠ [] := by
  rw [textWords_count f fs hg]
  constructor
  · intro h x hx
    have := List.length_filter_eq_length_iff.1 (by omega : (fs.filter fun f => f.1 ≠ []).length = fs.length) x hx
    simpa using this
  · intro h
    rw [List.filter_eq_self.2 (fun x hx => by simpa using h x hx)]

theorem wordsFrom_head (cur : Text) (hcur : cur ≠ []) (s : Text) :
    ∃ t ts, wordsFrom cur s = (cur ++ t) :: ts := by
  induction s generalizing cur with
  | nil => exact ⟨[], [], by simp [wordsFrom, hcur]⟩
  | cons c s ih =>
    rw [wordsFrom]
    by_cases hb : isBlank c
    · exact ⟨[], wordsFrom [] s, by simp [hb, hcur]⟩
    · rw [if_neg hb]
      obtain ⟨t, ts, h⟩ := ih (cur ++ [c]) (by simp)
      exact ⟨c :: t, ts, by rw [h]; simp⟩

/-- The first word of a line of fields begins with the first field. -/
theorem textWords_head (f : Text × Text) (fs : List (Text × Text)) (hg : GoodFields (f :: fs)) :
    ∃ t ts, textWords (fieldLine (f :: fs)) = (f.2 ++ t) :: ts := by
  have hf := hg f (by simp)
  have : fieldLine (f :: fs) = f.1 ++ (f.2 ++ fieldLine fs) := by simp [fieldLine]
  rw [textWords, this, wordsFrom_blanks _ hf.1, wordsFrom_word _ hf.2.2, List.nil_append]
  exact wordsFrom_head _ hf.2.1 _

/-- The field of a word in at least `w` characters. -/
def padField (w : ℕ) (s : Text) : Text × Text := (List.replicate (w - s.length) ' ', s)

theorem padField_eq (w : ℕ) (s : Text) : padLeft w s = (padField w s).1 ++ (padField w s).2 := rfl

theorem padField_blank (w : ℕ) (s : Text) : ∀ c ∈ (padField w s).1, isBlank c = true := by
  intro c hc
  have := List.eq_of_mem_replicate hc
  subst this
  decide

theorem padField_sep (w : ℕ) (s : Text) : (padField w s).1 ≠ [] ↔ s.length < w := by
  simp [padField]; omega

/-! ## Digits -/

theorem isDigit_not_blank {c : Char} (h : c.isDigit = true) : isBlank c = false := by
  by_contra hb
  rw [Bool.not_eq_false] at hb
  simp only [isBlank, Bool.or_eq_true, decide_eq_true_eq] at hb
  rcases hb with ((((h1 | h1) | h1) | h1) | h1) | h1 <;> subst h1 <;> revert h <;> decide

theorem isDigit_ne {c d : Char} (h : c.isDigit = true) (hd : d.isDigit = false) : c ≠ d := by
  intro e; subst e; rw [h] at hd; exact absurd hd (by decide)

theorem showNat_digits {n : ℕ} {c : Char} (h : c ∈ showNat n) : c.isDigit = true :=
  Nat.isDigit_of_mem_toDigits (by decide) (by decide) h

theorem showNat_ne_nil (n : ℕ) : showNat n ≠ [] := Nat.toDigits_ne_nil

theorem showNat_value (n : ℕ) : Nat.ofDigitChars 10 (showNat n) 0 = n := Nat.ofDigitChars_ten_toDigits

theorem showNat_length {n k : ℕ} (hk : 0 < k) : (showNat n).length ≤ k ↔ n < 10 ^ k :=
  Nat.length_toDigits_le_iff (by decide) hk

theorem lastDigits_digits {k n : ℕ} {c : Char} (h : c ∈ lastDigits k n) : c.isDigit = true := by
  induction k generalizing n with
  | zero => exact absurd h (by simp [lastDigits])
  | succ k ih =>
    rw [lastDigits, List.mem_append, List.mem_singleton] at h
    rcases h with h | h
    · exact ih h
    · subst h
      rw [Nat.isDigit_digitChar]
      simp only [decide_eq_true_eq]
      omega

theorem lastDigits_length (k n : ℕ) : (lastDigits k n).length = k := by
  induction k generalizing n with
  | zero => rfl
  | succ k ih => simp [lastDigits, ih]

theorem lastDigits_value (k n : ℕ) : Nat.ofDigitChars 10 (lastDigits k n) 0 = n % 10 ^ k := by
  induction k generalizing n with
  | zero => simp [lastDigits, Nat.mod_one]
  | succ k ih =>
    rw [lastDigits, Nat.ofDigitChars_append, ih, Nat.ofDigitChars_cons_digitChar_of_lt_ten (Nat.mod_lt _ (by decide)),
      Nat.ofDigitChars_nil, pow_succ', Nat.mod_mul]
    ring

theorem readInt_showNat (n : ℕ) : readInt (showNat n) = some (n : ℤ) := by
  have hs : takeSign (showNat n) = (false, showNat n) := by
    have hd := @showNat_digits n
    cases h : showNat n with
    | nil => exact absurd h (showNat_ne_nil n)
    | cons c s =>
      have hc : c.isDigit = true := hd (by simp [h])
      have h1 : c ≠ '-' := isDigit_ne hc (by decide)
      have h2 : c ≠ '+' := isDigit_ne hc (by decide)
      unfold takeSign
      split
      · rename_i he; exact absurd (List.cons.inj he).1 h1
      · rename_i he; exact absurd (List.cons.inj he).1 h2
      · rfl
  rw [readInt, hs, readNat, if_pos ⟨showNat_ne_nil n, by simpa using fun c hc => showNat_digits hc⟩, showNat_value]
  simp

theorem showNat_isWord (n : ℕ) : IsWord (showNat n) :=
  ⟨showNat_ne_nil n, fun _ hc => isDigit_not_blank (showNat_digits hc)⟩

/-! ## Numbers with a fractional part -/

theorem takeWhile_stop {p : Char → Bool} (l : Text) (h : ∀ c ∈ l, p c = true) (c : Char) (hc : p c = false) (s : Text) :
    (l ++ c :: s).takeWhile p = l ∧ (l ++ c :: s).dropWhile p = c :: s := by
  induction l with
  | nil => simp [hc]
  | cons x l ih =>
    have hx := h x (by simp)
    have := ih fun y hy => h y (by simp [hy])
    simp [hx, this.1, this.2]

theorem takeWhile_end {p : Char → Bool} (l : Text) (h : ∀ c ∈ l, p c = true) :
    l.takeWhile p = l ∧ l.dropWhile p = [] := by
  induction l with
  | nil => simp
  | cons x l ih =>
    have hx := h x (by simp)
    have := ih fun y hy => h y (by simp [hy])
    simp [hx, this.1, this.2]

/-- Reading digits, a point, digits and an exponent. -/
theorem readFloat_parts (neg : Bool) (ip fp ex : Text) (hip : ip ≠ []) (h1 : ∀ c ∈ ip, c.isDigit = true)
    (h2 : ∀ c ∈ fp, c.isDigit = true) (hex : ex = [] ∨ ∃ s, ex = 'E' :: s) :
    readFloat ((if neg then ['-'] else []) ++ (ip ++ '.' :: fp ++ ex)) = (readExponent ex).map fun k =>
      (if neg then -1 else 1) * (Nat.ofDigitChars 10 (ip ++ fp) 0 : ℚ) / 10 ^ fp.length * 10 ^ k := by
  have hs : takeSign ((if neg then ['-'] else []) ++ (ip ++ '.' :: fp ++ ex)) = (neg, ip ++ '.' :: fp ++ ex) := by
    cases neg with
    | true => simp [takeSign]
    | false =>
      cases ip with
      | nil => exact absurd rfl hip
      | cons c s =>
        have hc : c.isDigit = true := h1 c (by simp)
        have n1 : c ≠ '-' := isDigit_ne hc (by decide)
        have n2 : c ≠ '+' := isDigit_ne hc (by decide)
        simp only [Bool.false_eq_true, if_false, List.nil_append, List.cons_append]
        unfold takeSign
        split
        · rename_i he; exact absurd (List.cons.inj he).1 n1
        · rename_i he; exact absurd (List.cons.inj he).1 n2
        · rfl
  have hm : ∀ c ∈ ip ++ '.' :: fp, (decide (c ≠ 'E') && decide (c ≠ 'e')) = true := by
    intro c hc
    rw [List.mem_append, List.mem_cons] at hc
    rcases hc with hc | hc | hc
    · simp [isDigit_ne (h1 c hc) (d := 'E') (by decide), isDigit_ne (h1 c hc) (d := 'e') (by decide)]
    · subst hc; decide
    · simp [isDigit_ne (h2 c hc) (d := 'E') (by decide), isDigit_ne (h2 c hc) (d := 'e') (by decide)]
  have hmant : (ip ++ '.' :: fp ++ ex).takeWhile (fun c => c ≠ 'E' && c ≠ 'e') = ip ++ '.' :: fp ∧
      (ip ++ '.' :: fp ++ ex).dropWhile (fun c => c ≠ 'E' && c ≠ 'e') = ex := by
    rcases hex with h | ⟨s, h⟩
    · subst h; simpa using takeWhile_end _ hm
    · subst h; exact takeWhile_stop _ hm 'E' (by decide) s
  have hw := takeWhile_stop (p := fun c => c ≠ '.') ip
    (fun c hc => by simpa using isDigit_ne (h1 c hc) (d := '.') (by decide)) '.' (by decide) fp
  have hall : ip ++ fp ≠ [] ∧ (ip ++ fp).all Char.isDigit := by
    refine ⟨by simp [hip], ?_⟩
    rw [List.all_eq_true]
    intro c hc
    rcases List.mem_append.1 hc with hc | hc
    · exact h1 c hc
    · exact h2 c hc
  simp only [readFloat, hs]
  rw [hmant.1, hmant.2, hw.1, hw.2, List.drop_one, List.tail_cons, if_pos hall]

theorem millionths_value (m : ℕ) : Nat.ofDigitChars 10 (showNat (m / 10 ^ 6) ++ lastDigits 6 m) 0 = m := by
  rw [Nat.ofDigitChars_append, showNat_value, Nat.ofDigitChars_eq_ofDigitChars_zero, lastDigits_value,
    lastDigits_length]
  exact Nat.div_add_mod m (10 ^ 6)

theorem readFloat_millionths (neg : Bool) (m : ℕ) (ex : Text) (hex : ex = [] ∨ ∃ s, ex = 'E' :: s) :
    readFloat ((if neg then ['-'] else []) ++ (showMillionths m ++ ex)) = (readExponent ex).map fun k =>
      (if neg then -1 else 1) * (m : ℚ) / 10 ^ 6 * 10 ^ k := by
  have := readFloat_parts neg (showNat (m / 10 ^ 6)) (lastDigits 6 m) ex (showNat_ne_nil _)
    (fun c hc => showNat_digits hc) (fun c hc => lastDigits_digits hc) hex
  rw [millionths_value, lastDigits_length] at this
  exact this

/-- The value of a number written with the format `.6f`. -/
def fixedValue (x : ℚ) : ℚ := (if x < 0 then -1 else 1) * (nearestEven (|x| * 10 ^ 6) : ℚ) / 10 ^ 6

/-- The value of a number written with the format `.6E`. -/
def sciValue (x : ℚ) : ℚ := (if x < 0 then -1 else 1) * ((sciParts x).1 : ℚ) / 10 ^ 6 * 10 ^ (sciParts x).2

theorem showSign_eq (x : ℚ) : showSign x = if decide (x < 0) then ['-'] else [] := by simp [showSign]

theorem readFloat_showFixed (x : ℚ) : readFloat (showFixed x) = some (fixedValue x) := by
  have := readFloat_millionths (decide (x < 0)) (nearestEven (|x| * 10 ^ 6)) [] (Or.inl rfl)
  rw [List.append_nil, ← showSign_eq] at this
  rw [showFixed, this]
  simp [readExponent, fixedValue]

theorem readInt_exponent (e : ℤ) : readInt (showExponent e) = some e := by
  have h : ∀ n : ℕ, readNat (if n < 10 then '0' :: showNat n else showNat n) = some n := by
    intro n
    split
    · rw [readNat, if_pos]
      · rw [Nat.ofDigitChars_cons]
        simpa using showNat_value n
      · refine ⟨by simp, ?_⟩
        rw [List.all_eq_true]
        intro c hc
        rcases List.mem_cons.1 hc with hc | hc
        · subst hc; decide
        · exact showNat_digits hc
    · rw [readNat, if_pos ⟨showNat_ne_nil n, by simpa using fun c hc => showNat_digits hc⟩, showNat_value]
  unfold showExponent
  by_cases he : e < 0
  · rw [if_pos he, readInt]
    simp only [takeSign]
    rw [h]
    simp only [Option.map_some, if_true, Option.some.injEq]
    omega
  · rw [if_neg he, readInt]
    simp only [takeSign]
    rw [h]
    simp only [Option.map_some, Bool.false_eq_true, if_false, Option.some.injEq]
    omega

theorem readFloat_showSci (x : ℚ) : readFloat (showSci x) = some (sciValue x) := by
  have := readFloat_millionths (decide (x < 0)) (sciParts x).1 ('E' :: showExponent (sciParts x).2) (Or.inr ⟨_, rfl⟩)
  rw [← showSign_eq] at this
  rw [showSci, List.append_assoc, this, readExponent, readInt_exponent]
  simp [sciValue]

theorem showMillionths_chars {m : ℕ} {c : Char} (h : c ∈ showMillionths m) : isBlank c = false := by
  rw [showMillionths, List.mem_append, List.mem_cons] at h
  rcases h with h | h | h
  · exact isDigit_not_blank (showNat_digits h)
  · subst h; decide
  · exact isDigit_not_blank (lastDigits_digits h)

theorem showSign_chars {x : ℚ} {c : Char} (h : c ∈ showSign x) : isBlank c = false := by
  unfold showSign at h
  split at h
  · rw [List.mem_singleton] at h; subst h; decide
  · exact absurd h (by simp)

theorem showFixed_isWord (x : ℚ) : IsWord (showFixed x) := by
  refine ⟨by simp [showFixed, showMillionths], fun c hc => ?_⟩
  rw [showFixed, List.mem_append] at hc
  rcases hc with hc | hc
  · exact showSign_chars hc
  · exact showMillionths_chars hc

theorem showExponent_chars {e : ℤ} {c : Char} (h : c ∈ showExponent e) : isBlank c = false := by
  rw [showExponent, List.mem_cons] at h
  rcases h with h | h
  · subst h; split <;> decide
  · split at h
    · rcases List.mem_cons.1 h with h | h
      · subst h; decide
      · exact isDigit_not_blank (showNat_digits h)
    · exact isDigit_not_blank (showNat_digits h)

theorem showSci_isWord (x : ℚ) : IsWord (showSci x) := by
  refine ⟨by simp [showSci], fun c hc => ?_⟩
  rw [showSci, List.mem_append, List.mem_append, List.mem_cons] at hc
  rcases hc with (hc | hc) | hc | hc
  · exact showSign_chars hc
  · exact showMillionths_chars hc
  · subst hc; decide
  · exact showExponent_chars hc

/-! ## Rounding -/

theorem nearestEven_error {q : ℚ} (h : 0 ≤ q) : |q - nearestEven q| ≤ 1 / 2 := by
  have h1 := Nat.floor_le h
  have h2 := Nat.lt_floor_add_one q
  unfold nearestEven
  simp only
  split_ifs <;> rw [abs_le] <;> push_cast <;> constructor <;> linarith

/-- The format `.6f` gives the nearest multiple of a millionth. -/
theorem fixedValue_rounded (x : ℚ) : |fixedValue x - x| ≤ 1 / 2 / 10 ^ 6 ∧ ∃ k : ℤ, fixedValue x = k / 10 ^ 6 := by
  have h := nearestEven_error (q := |x| * 10 ^ 6) (by positivity)
  set n := nearestEven (|x| * 10 ^ 6) with hn
  refine ⟨?_, ?_⟩
  · rw [abs_le] at h
    unfold fixedValue
    rw [← hn]
    split_ifs with hx
    · rw [abs_of_neg hx] at h
      rw [abs_le]
      constructor <;> linarith [h.1, h.2]
    · rw [abs_of_nonneg (not_lt.1 hx)] at h
      rw [abs_le]
      constructor <;> linarith [h.1, h.2]
  · unfold fixedValue
    rw [← hn]
    split_ifs
    · exact ⟨-(n : ℤ), by push_cast; ring⟩
    · exact ⟨(n : ℤ), by push_cast; ring⟩

theorem nearestEven_le {q : ℚ} {n : ℕ} (hq : 0 ≤ q) (h : q ≤ n) : nearestEven q ≤ n := by
  have := nearestEven_error hq
  rw [abs_le] at this
  have h3 : (nearestEven q : ℚ) < n + 1 := by linarith [this.1]
  exact Nat.lt_succ_iff.1 (by exact_mod_cast h3)

/-- The mantissa and the exponent of a non zero number. -/
theorem sciParts_spec {x : ℚ} (hx : x ≠ 0) :
    (sciParts x).1 < 10 ^ 7 ∧ 10 ^ 6 ≤ (sciParts x).1 + 1 ∧
      abs (((sciParts x).1 : ℚ) / 10 ^ 6 * (10 : ℚ) ^ (sciParts x).2 - |x|) ≤ |x| * (1 / 2 / 10 ^ 6) := by
  have hpos : 0 < |x| := abs_pos.2 hx
  set e := Int.log 10 |x| with he
  have hlo : (10 : ℚ) ^ e ≤ |x| := by
    have := Int.zpow_log_le_self (b := 10) (by decide) hpos
    rw [← he] at this; exact_mod_cast this
  have hhi : |x| < (10 : ℚ) ^ (e + 1) := by
    have := Int.lt_zpow_succ_log_self (b := 10) (by decide) |x|
    rw [← he] at this; exact_mod_cast this
  have hp : (0 : ℚ) < 10 ^ (e - 6) := zpow_pos (by norm_num) _
  have e1 : (10 : ℚ) ^ e = 10 ^ (e - 6) * 10 ^ 6 := by
    rw [← zpow_natCast, ← zpow_add₀ (by norm_num)]; congr 1; push_cast; ring
  have e2 : (10 : ℚ) ^ (e + 1) = 10 ^ (e - 6) * 10 ^ 7 := by
    rw [← zpow_natCast, ← zpow_add₀ (by norm_num)]; congr 1; push_cast; ring
  have hq : 0 ≤ |x| / 10 ^ (e - 6) := by positivity
  have hq1 : 10 ^ 6 ≤ |x| / 10 ^ (e - 6) := by rw [le_div_iff₀ hp]; linarith
  have hq2 : |x| / 10 ^ (e - 6) ≤ ((10 ^ 7 : ℕ) : ℚ) := by
    rw [div_le_iff₀ hp]; push_cast; linarith
  have herr := nearestEven_error hq
  have hle := nearestEven_le hq hq2
  set q := |x| / 10 ^ (e - 6) with hqdef
  set m := nearestEven q with hm
  have hxq : |x| = q * 10 ^ (e - 6) := by rw [hqdef]; field_simp
  have hval : ∀ a : ℚ, a / 10 ^ 6 * 10 ^ e = a * 10 ^ (e - 6) := by
    intro a; rw [e1]; field_simp
  have hbound : abs ((m : ℚ) * 10 ^ (e - 6) - |x|) ≤ |x| * (1 / 2 / 10 ^ 6) := by
    have : (m : ℚ) * 10 ^ (e - 6) - |x| = (m - q) * 10 ^ (e - 6) := by rw [hxq]; ring
    rw [this, abs_mul, abs_of_pos hp]
    have h1 : |(m : ℚ) - q| ≤ 1 / 2 := by rw [abs_sub_comm]; exact herr
    have h2 : (10 : ℚ) ^ (e - 6) ≤ |x| / 10 ^ 6 := by
      rw [le_div_iff₀ (by norm_num)]; linarith
    calc |(m : ℚ) - q| * 10 ^ (e - 6) ≤ 1 / 2 * (|x| / 10 ^ 6) :=
          mul_le_mul h1 h2 hp.le (by norm_num)
      _ = |x| * (1 / 2 / 10 ^ 6) := by ring
  have hm6 : 10 ^ 6 ≤ m + 1 := by
    rw [abs_le] at herr
    have : ((10 ^ 6 : ℕ) : ℚ) ≤ ((m + 1 : ℕ) : ℚ) := by push_cast; linarith [herr.2]
    exact_mod_cast this
  have hparts : sciParts x = if m = 10 ^ 7 then (10 ^ 6, e + 1) else (m, e) := by
    rw [sciParts, if_neg hx]
  rw [hparts]
  by_cases h7 : m = 10 ^ 7
  · rw [if_pos h7]
    refine ⟨by norm_num, by norm_num, ?_⟩
    have : ((10 ^ 6 : ℕ) : ℚ) / 10 ^ 6 * 10 ^ (e + 1) = (m : ℚ) * 10 ^ (e - 6) := by
      rw [h7, e2]; push_cast; ring
    simp only
    rw [this]; exact hbound
  · rw [if_neg h7]
    refine ⟨lt_of_le_of_ne hle h7, hm6, ?_⟩
    simp only
    rw [hval]; exact hbound

/-- The format `.6E` gives a number of seven digits, with a relative error of at most half of the last digit. -/
theorem sciValue_rounded (x : ℚ) : |sciValue x - x| ≤ |x| * (1 / 2 / 10 ^ 6) ∧
    ∃ (k : ℤ) (e : ℤ), |k| < 10 ^ 7 ∧ sciValue x = k * 10 ^ e := by
  by_cases hx : x = 0
  · subst hx
    refine ⟨by simp [sciValue, sciParts], 0, 0, by norm_num, by simp [sciValue, sciParts]⟩
  · obtain ⟨h1, -, h3⟩ := sciParts_spec hx
    set m := (sciParts x).1 with hm
    set e := (sciParts x).2 with he
    have e6 : (10 : ℚ) ^ (e - 6) = 10 ^ e / 10 ^ 6 := by
      rw [zpow_sub₀ (by norm_num)]; norm_num
    have hv : sciValue x = (if x < 0 then -1 else 1) * (m : ℚ) / 10 ^ 6 * 10 ^ e := rfl
    rw [hv]
    split_ifs with hx0
    · refine ⟨?_, -(m : ℤ), e - 6, ?_, ?_⟩
      · have : -1 * (m : ℚ) / 10 ^ 6 * 10 ^ e - x = -((m : ℚ) / 10 ^ 6 * 10 ^ e - |x|) := by
          rw [abs_of_neg hx0]; ring
        rw [this, abs_neg]; exact h3
      · rw [abs_neg, Nat.abs_cast]; exact_mod_cast h1
      · rw [e6]; push_cast; ring
    · refine ⟨?_, (m : ℤ), e - 6, ?_, ?_⟩
      · have : 1 * (m : ℚ) / 10 ^ 6 * 10 ^ e - x = ((m : ℚ) / 10 ^ 6 * 10 ^ e - |x|) := by
          rw [abs_of_nonneg (not_lt.1 hx0)]; ring
        rw [this]; exact h3
      · rw [Nat.abs_cast]; exact_mod_cast h1
      · rw [e6]; push_cast; ring

/-! ## Lengths -/

theorem showMillionths_length (m : ℕ) : (showMillionths m).length = (showNat (m / 10 ^ 6)).length + 7 := by
  simp [showMillionths, lastDigits_length]

theorem showFixed_length (x : ℚ) : (showFixed x).length =
    (if x < 0 then 1 else 0) + ((showNat (nearestEven (|x| * 10 ^ 6) / 10 ^ 6)).length + 7) := by
  rw [showFixed, List.length_append, showMillionths_length]
  congr 1
  unfold showSign
  split_ifs <;> rfl

/-- A number shorter than its field, of at least ten characters. -/
theorem showFixed_short (x : ℚ) (d : ℕ) : (showFixed x).length < d + 10 ↔
    nearestEven (|x| * 10 ^ 6) < (if x < 0 then 10 ^ (d + 7) else 10 ^ (d + 8)) := by
  rw [showFixed_length]
  by_cases hx : x < 0
  · rw [if_pos hx, if_pos hx]
    have : 1 + ((showNat (nearestEven (|x| * 10 ^ 6) / 10 ^ 6)).length + 7) < d + 10 ↔
        (showNat (nearestEven (|x| * 10 ^ 6) / 10 ^ 6)).length ≤ d + 1 := by omega
    rw [this, showNat_length (by omega), Nat.div_lt_iff_lt_mul (by norm_num), ← pow_add]
  · rw [if_neg hx, if_neg hx]
    have : 0 + ((showNat (nearestEven (|x| * 10 ^ 6) / 10 ^ 6)).length + 7) < d + 10 ↔
        (showNat (nearestEven (|x| * 10 ^ 6) / 10 ^ 6)).length ≤ d + 2 := by omega
    rw [this, showNat_length (by omega), Nat.div_lt_iff_lt_mul (by norm_num), ← pow_add]

/-- A number in scientific notation has at most fourteen characters when its exponent has at most three digits. -/
theorem showSci_length {x : ℚ} (h : (sciParts x).2.natAbs < 1000) : (showSci x).length ≤ 14 := by
  have hm : (sciParts x).1 < 10 ^ 7 := by
    by_cases hx : x = 0
    · subst hx; simp [sciParts]
    · exact (sciParts_spec hx).1
  have h1 : (showNat ((sciParts x).1 / 10 ^ 6)).length ≤ 1 := by
    rw [showNat_length (by norm_num), Nat.div_lt_iff_lt_mul (by norm_num)]
    exact lt_of_lt_of_le hm (by norm_num)
  have h2 : (showSign x).length ≤ 1 := by unfold showSign; split_ifs <;> simp
  have h3 : (showExponent (sciParts x).2).length ≤ 4 := by
    unfold showExponent
    split_ifs with h10 h10 <;> simp only [List.length_cons]
    all_goals first
      | (have := (showNat_length (n := (sciParts x).2.natAbs) (k := 1) (by norm_num)).2 (by omega); omega)
      | (have := (showNat_length (n := (sciParts x).2.natAbs) (k := 3) (by norm_num)).2 (by omega); omega)
  rw [showSci, List.length_append, List.length_append, showMillionths_length, List.length_cons]
  omega


end Verif.Files
