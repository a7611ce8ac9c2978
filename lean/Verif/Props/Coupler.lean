import Verif.Spec.Coupler

/-!
# C44 coupler.res parsing inverts its format
-/

namespace FV3.Coupler
open Text
open Units (isSpace Blank)

/-! ### numerals -/

theorem digitsOK_of_digits (s : List Char) (hne : s ≠ []) (h : ∀ c ∈ s, c.isDigit = true) :
    digitsOK s = true := by
  induction s with
  | nil => exact absurd rfl hne
  | cons c r ih =>
    cases r with
    | nil => exact h c (by simp)
    | cons c' r =>
      have hc' : c' ≠ '_' := by
        rintro rfl
        exact absurd (h '_' (by simp)) (by decide)
      simp only [digitsOK, if_neg hc', Bool.and_eq_true]
      exact ⟨h c (by simp), ih (by simp) (fun x hx => h x (by simp [hx]))⟩

theorem natOf_digits (s : List Char) (hne : s ≠ []) (h : ∀ c ∈ s, c.isDigit = true) :
    natOf s = some (Nat.ofDigitChars 10 s 0) := by
  unfold natOf
  rw [digitsOK_of_digits s hne h, if_pos rfl]
  congr 2
  rw [List.filter_eq_self]
  intro c hc
  have : c ≠ '_' := by
    rintro rfl
    exact absurd (h '_' hc) (by decide)
  simpa using this

theorem isDigit_toDigits (n : Nat) : ∀ c ∈ Nat.toDigits 10 n, c.isDigit = true :=
  fun _ hc => Nat.isDigit_of_mem_toDigits (by decide) (by decide) hc

theorem toDigits_ne_nil (n : Nat) : Nat.toDigits 10 n ≠ [] := Nat.toDigits_ne_nil

theorem natOf_padded (k n : Nat) : natOf (List.replicate k '0' ++ Nat.toDigits 10 n) = some n := by
  rw [natOf_digits]
  · rw [Nat.ofDigitChars_append, Nat.ofDigitChars_replicate_zero, Nat.mul_zero, Nat.ofDigitChars_ten_toDigits]
  · intro h
    exact toDigits_ne_nil n (List.append_eq_nil_iff.1 h).2
  · intro c hc
    rcases List.mem_append.1 hc with hc | hc
    · rw [List.eq_of_mem_replicate hc]; decide
    · exact isDigit_toDigits n c hc

theorem parseInt_digits (s : List Char) (n : Nat) (h : ∀ c ∈ s, c.isDigit = true) (hn : natOf s = some n) :
    parseInt s = some (n : Int) := by
  unfold parseInt
  split
  · rename_i r
    exact absurd (h '-' (by simp)) (by decide)
  · rename_i r
    exact absurd (h '+' (by simp)) (by decide)
  · rw [hn]; rfl

theorem parseInt_numeral {i : Int} {s : List Char} (h : Numeral i s) : parseInt s = some i := by
  obtain ⟨k, n, h⟩ := h
  rcases h with ⟨rfl, rfl⟩ | ⟨rfl, rfl⟩ | ⟨rfl, rfl⟩
  · refine parseInt_digits _ n (fun c hc => ?_) (natOf_padded k n)
    rcases List.mem_append.1 hc with hc | hc
    · rw [List.eq_of_mem_replicate hc]; decide
    · exact isDigit_toDigits n c hc
  · simp only [parseInt, natOf_padded, Option.map_some]
  · simp only [parseInt, natOf_padded, Option.map_some]

theorem not_space_of_digit {c : Char} (h : c.isDigit = true) : isSpace c = false := by
  have h1 : 48 ≤ c.toNat ∧ c.toNat ≤ 57 := by
    simp only [Char.isDigit, Bool.and_eq_true, decide_eq_true_eq, ge_iff_le] at h
    have a := h.1; have b := h.2
    rw [UInt32.le_iff_toNat_le] at a b
    exact ⟨by simpa using a, by simpa using b⟩
  obtain ⟨a, b⟩ := h1
  unfold isSpace
  generalize c.toNat = n at a b
  simp only [Bool.or_eq_false_iff, Bool.and_eq_false_iff, decide_eq_false_iff_not, beq_eq_false_iff_ne]
  omega

theorem numeral_no_space {i : Int} {s : List Char} (h : Numeral i s) :
    s ≠ [] ∧ ∀ c ∈ s, isSpace c = false := by
  obtain ⟨k, n, h⟩ := h
  have hd : ∀ c ∈ List.replicate k '0' ++ Nat.toDigits 10 n, isSpace c = false := by
    intro c hc
    rcases List.mem_append.1 hc with hc | hc
    · rw [List.eq_of_mem_replicate hc]; decide
    · exact not_space_of_digit (isDigit_toDigits n c hc)
  have hne : List.replicate k '0' ++ Nat.toDigits 10 n ≠ [] :=
    fun h => toDigits_ne_nil n (List.append_eq_nil_iff.1 h).2
  rcases h with ⟨rfl, _⟩ | ⟨rfl, _⟩ | ⟨rfl, _⟩
  · exact ⟨hne, hd⟩
  · refine ⟨by simp, fun c hc => ?_⟩
    rcases List.mem_cons.1 hc with rfl | hc
    · decide
    · exact hd c hc
  · refine ⟨by simp, fun c hc => ?_⟩
    rcases List.mem_cons.1 hc with rfl | hc
    · decide
    · exact hd c hc

/-! ### splitting -/

theorem splitAux_blank {b s : List Char} (h : Blank b) : splitAux (b ++ s) [] = splitAux s [] := by
  induction b with
  | nil => rfl
  | cons c b ih =>
    simp only [List.cons_append, splitAux, h c (by simp), if_true]
    exact ih fun x hx => h x (by simp [hx])

theorem splitAux_word (w s cur : List Char) (h : ∀ c ∈ w, isSpace c = false) :
    splitAux (w ++ s) cur = splitAux s (w.reverse ++ cur) := by
  induction w generalizing cur with
  | nil => rfl
  | cons c w ih =>
    simp only [List.cons_append, splitAux, h c (by simp)]
    rw [if_neg (by simp), ih _ fun x hx => h x (by simp [hx])]
    simp

theorem splitAux_boundary {s cur : List Char} (hb : Boundary s) (hc : cur ≠ []) :
    splitAux s cur = cur.reverse :: splitAux s [] := by
  rcases hb with rfl | ⟨c, r, rfl, h⟩
  · simp [splitAux, hc]
  · simp [splitAux, h, hc]

theorem split_word {b w s : List Char} (hb : Blank b) (hne : w ≠ []) (hw : ∀ c ∈ w, isSpace c = false)
    (hs : Boundary s) : split (b ++ w ++ s) = w :: split s := by
  unfold split
  rw [List.append_assoc, splitAux_blank hb, splitAux_word _ _ _ hw, splitAux_boundary hs (by simpa using hne)]
  simp

theorem Ints.boundary {is : List Int} {text rest : List Char} (h : Ints is text rest) : Boundary rest := by
  induction h with
  | nil _ hb => exact hb
  | cons _ _ _ _ _ _ _ _ _ _ ih => exact ih

theorem Boundary.append {s : List Char} (h : Boundary s) (c : Char) (r : List Char) (hc : isSpace c = true) :
    Boundary (s ++ c :: r) := by
  rcases h with rfl | ⟨c', r', rfl, h⟩
  · exact Or.inr ⟨c, r, rfl, hc⟩
  · exact Or.inr ⟨c', _, rfl, h⟩

theorem Ints.append {is : List Int} {text rest : List Char} (h : Ints is text rest) (c : Char)
    (r : List Char) (hc : isSpace c = true) : Ints is (text ++ c :: r) (rest ++ c :: r) := by
  induction h with
  | nil rest hb => exact Ints.nil _ (hb.append c r hc)
  | cons i is blank num text rest h1 h2 h3 _ ih =>
    rw [List.append_assoc (blank ++ num)]
    exact Ints.cons i is blank num _ _ h1 h2 (h3.append c r hc) ih

theorem Ints.split {is : List Int} {text rest : List Char} (h : Ints is text rest) :
    ∃ toks, Text.split text = toks ++ Text.split rest ∧ toks.mapM parseInt = some is ∧
      toks.length = is.length := by
  induction h with
  | nil rest hb => exact ⟨[], rfl, rfl, rfl⟩
  | cons i is blank num text rest h1 h2 h3 _ ih =>
    obtain ⟨toks, e1, e2, e3⟩ := ih
    obtain ⟨n1, n2⟩ := numeral_no_space h2
    refine ⟨num :: toks, ?_, ?_, by simp [e3]⟩
    · rw [split_word h1 n1 n2 h3, e1]; rfl
    · simp [List.mapM_cons, parseInt_numeral h2, e2]

theorem getIntegerTokens_ints {is : List Int} {text rest : List Char} (h : Ints is text rest) :
    getIntegerTokens text is.length = .ok is := by
  obtain ⟨toks, e1, e2, e3⟩ := h.split
  unfold getIntegerTokens
  rw [e1, ← e3, List.take_left', e2]
  rfl

/-! ### lines -/

theorem readline_line (l r : List Char) (h : OneLine l) : readline (l ++ '\n' :: r) = (l ++ ['\n'], r) := by
  induction l with
  | nil => simp [readline]
  | cons c l ih =>
    have hc : c ≠ '\n' := fun e => h (by simp [e])
    simp only [List.cons_append, readline, if_neg hc]
    rw [ih (fun hx => h (by simp [hx]))]

theorem readline_last (l : List Char) (h : OneLine l) : readline l = (l, []) := by
  induction l with
  | nil => rfl
  | cons c l ih =>
    have hc : c ≠ '\n' := fun e => h (by simp [e])
    simp only [readline, if_neg hc]
    rw [ih (fun hx => h (by simp [hx]))]

/-- The third line is followed by the end of the file or by more lines. -/
def Tail (t : List Char) : Prop := t = [] ∨ ∃ r, t = '\n' :: r

theorem Ints.readline {is : List Int} {l rest t : List Char} (h : Ints is l rest) (hl : OneLine l)
    (ht : Tail t) : ∃ rest', Ints is (Text.readline (l ++ t)).1 rest' ∧ (Blank rest → Blank rest') := by
  rcases ht with rfl | ⟨r, rfl⟩
  · rw [List.append_nil, readline_last l hl]; exact ⟨rest, h, id⟩
  · rw [readline_line l r hl]
    refine ⟨_, h.append '\n' [] (by decide), fun hb c hc => ?_⟩
    rcases List.mem_append.1 hc with hc | hc
    · exact hb c hc
    · rw [List.mem_singleton.1 hc]; decide

variable {D : Type} (construct : Calendar → Int → Int → Int → Int → Int → Int → Py D)

/-- What the parser does once the first line has been read. -/
theorem getCurrentDate_first (l1 l2 l3 t r1 : List Char) (code : Int) (h1 : OneLine l1) (h2 : OneLine l2)
    (hc : Ints [code] l1 r1) :
    getCurrentDate construct (l1 ++ '\n' :: (l2 ++ '\n' :: (l3 ++ t))) =
      match getIntegerTokens (readline (l3 ++ t)).1 6 with
      | .error e => .error e
      | .ok [y, mo, d, h, mi, s] =>
        match calendarOf code with
        | none => .error .keyError
        | some cal => construct cal y mo d h mi s
      | .ok _ => .error .valueError := by
  have e1 := getIntegerTokens_ints (hc.append '\n' [] (by decide))
  unfold getCurrentDate
  rw [readline_line l1 _ h1]
  simp only [bind, Except.bind]
  have e1 : getIntegerTokens (l1 ++ ['\n']) 1 = .ok [code] := e1
  rw [e1]
  dsimp only
  rw [readline_line l2 _ h2]
  cases getIntegerTokens (readline (l3 ++ t)).1 6 with
  | error e => rfl
  | ok l =>
    dsimp only
    split <;> rename_i hh
    · rfl
    · split
      · rename_i h' ; cases h'
      · rename_i h'; cases h'; exact absurd rfl (hh _ _ _ _ _ _)
      · rfl

/-- **C44.**  If the first line starts with the number of a calendar and the third line with six
integers -- with any spacing, signs and leading zeros, and whatever follows on the lines or in
the file -- the result is the date constructed from these six numbers in that calendar. -/
theorem C44_parse (l1 l2 l3 t r1 r3 : List Char) (code y mo d h mi s : Int) (cal : Calendar)
    (h1 : OneLine l1) (h2 : OneLine l2) (h3 : OneLine l3) (ht : Tail t)
    (hc : Ints [code] l1 r1) (hcal : calendarOf code = some cal)
    (hd : Ints [y, mo, d, h, mi, s] l3 r3) :
    getCurrentDate construct (l1 ++ '\n' :: (l2 ++ '\n' :: (l3 ++ t))) = construct cal y mo d h mi s := by
  obtain ⟨r', hi, _⟩ := hd.readline h3 ht
  rw [getCurrentDate_first construct l1 l2 l3 t r1 code h1 h2 hc]
  have e : getIntegerTokens (readline (l3 ++ t)).1 6 = _ := getIntegerTokens_ints hi
  rw [e]
  dsimp only
  rw [hcal]

/-- The calendars. -/
theorem C44_calendars (code : Int) :
    calendarOf code = some .thirtyDay ∧ code = 1 ∨ calendarOf code = some .julian ∧ code = 2 ∨
    calendarOf code = some .gregorian ∧ code = 3 ∨ calendarOf code = some .noLeap ∧ code = 4 ∨
    calendarOf code = none ∧ code ∉ ([1, 2, 3, 4] : List Int) := by
  unfold calendarOf
  by_cases h1 : code = 1
  · simp [h1]
  by_cases h2 : code = 2
  · simp [h2]
  by_cases h3 : code = 3
  · simp [h3]
  by_cases h4 : code = 4
  · simp [h4]
  · simp [h1, h2, h3, h4]

/-- **C44.**  An unknown calendar raises KeyError. -/
theorem C44_unknown_calendar (l1 l2 l3 t r1 r3 : List Char) (code y mo d h mi s : Int)
    (h1 : OneLine l1) (h2 : OneLine l2) (h3 : OneLine l3) (ht : Tail t)
    (hc : Ints [code] l1 r1) (hcal : code ∉ ([1, 2, 3, 4] : List Int))
    (hd : Ints [y, mo, d, h, mi, s] l3 r3) :
    getCurrentDate construct (l1 ++ '\n' :: (l2 ++ '\n' :: (l3 ++ t))) = .error .keyError := by
  obtain ⟨r', hi, _⟩ := hd.readline h3 ht
  rw [getCurrentDate_first construct l1 l2 l3 t r1 code h1 h2 hc]
  have e : getIntegerTokens (readline (l3 ++ t)).1 6 = _ := getIntegerTokens_ints hi
  rw [e]
  dsimp only
  have : calendarOf code = none := by
    simp only [List.mem_cons, not_or] at hcal
    obtain ⟨a, b, c, d, _⟩ := hcal
    simp [calendarOf, a, b, c, d]
  rw [this]

theorem split_blank {s : List Char} (h : Blank s) : split s = [] := by
  have := splitAux_blank (s := []) h
  rw [List.append_nil] at this
  unfold split
  rw [this]; rfl

/-- **C44.**  Fewer than six integers on the third line raise ValueError. -/
theorem C44_too_short (l1 l2 l3 t r1 r3 : List Char) (code : Int) (is : List Int)
    (h1 : OneLine l1) (h2 : OneLine l2) (h3 : OneLine l3) (ht : Tail t)
    (hc : Ints [code] l1 r1) (hd : Ints is l3 r3) (hb : Blank r3) (hlen : is.length < 6) :
    getCurrentDate construct (l1 ++ '\n' :: (l2 ++ '\n' :: (l3 ++ t))) = .error .valueError := by
  obtain ⟨r', hi, hb'⟩ := hd.readline h3 ht
  rw [getCurrentDate_first construct l1 l2 l3 t r1 code h1 h2 hc]
  obtain ⟨toks, e1, e2, e3⟩ := hi.split
  have e : getIntegerTokens (readline (l3 ++ t)).1 6 = .ok is := by
    unfold getIntegerTokens
    rw [e1, split_blank (hb' hb), List.append_nil, List.take_of_length_le (by omega), e2]
  rw [e]
  match is, hlen with
  | [], _ | [_], _ | [_, _], _ | [_, _, _], _ | [_, _, _, _], _ | [_, _, _, _, _], _ => rfl

/-- **C44.**  A word that is not an integer among the first six of the third line raises ValueError. -/
theorem C44_not_integer (l1 l2 l3 t r1 blank word more : List Char) (code : Int) (is : List Int)
    (h1 : OneLine l1) (h2 : OneLine l2) (h3 : OneLine l3) (ht : Tail t)
    (hc : Ints [code] l1 r1) (hd : Ints is l3 (blank ++ word ++ more)) (hb : Blank blank)
    (hne : word ≠ []) (hw : ∀ c ∈ word, isSpace c = false) (hm : Boundary more)
    (hbad : parseInt word = none) (hlen : is.length < 6) :
    getCurrentDate construct (l1 ++ '\n' :: (l2 ++ '\n' :: (l3 ++ t))) = .error .valueError := by
  have : ∃ more', Boundary more' ∧ Ints is (readline (l3 ++ t)).1 (blank ++ word ++ more') := by
    rcases ht with rfl | ⟨r, rfl⟩
    · rw [List.append_nil, readline_last l3 h3]; exact ⟨more, hm, hd⟩
    · rw [readline_line l3 r h3]
      refine ⟨more ++ ['\n'], hm.append '\n' [] (by decide), ?_⟩
      rw [← List.append_assoc]
      exact hd.append '\n' [] (by decide)
  obtain ⟨more', hm', hi⟩ := this
  rw [getCurrentDate_first construct l1 l2 l3 t r1 code h1 h2 hc]
  obtain ⟨toks, e1, e2, e3⟩ := hi.split
  have e : getIntegerTokens (readline (l3 ++ t)).1 6 = .error .valueError := by
    unfold getIntegerTokens
    rw [e1, split_word hb hne hw hm', List.take_append, List.take_of_length_le (by omega)]
    obtain ⟨k, hk⟩ : ∃ k, 6 - toks.length = k + 1 := ⟨5 - toks.length, by omega⟩
    rw [hk, List.take_succ_cons, List.mapM_append, e2, List.mapM_cons, hbad]
    rfl
  rw [e]

/-- **C44.**  A file that is empty or whose first line is blank raises ValueError, whatever follows. -/
theorem C44_no_calendar (l1 t : List Char) (h1 : OneLine l1) (hb : Blank l1) (ht : Tail t) :
    getCurrentDate construct (l1 ++ t) = .error .valueError := by
  have e : getIntegerTokens (readline (l1 ++ t)).1 1 = .ok [] := by
    unfold getIntegerTokens
    rcases ht with rfl | ⟨r, rfl⟩
    · rw [List.append_nil, readline_last l1 h1, split_blank hb]
      rfl
    · rw [readline_line l1 r h1, split_blank ?_]
      · rfl
      · intro c hc
        rcases List.mem_append.1 hc with hc | hc
        · exact hb c hc
        · rw [List.mem_singleton] at hc
          subst hc
          decide
  unfold getCurrentDate
  dsimp only
  rw [e]
  rfl

/-- **C44.**  If the first word is not an integer, ValueError is raised. -/
theorem C44_bad_calendar (blank word more t : List Char) (h1 : OneLine (blank ++ word ++ more)) (hb : Blank blank)
    (hne : word ≠ []) (hw : ∀ c ∈ word, isSpace c = false) (hm : Boundary more) (hbad : parseInt word = none) (ht : Tail t) :
    getCurrentDate construct (blank ++ word ++ more ++ t) = .error .valueError := by
  have e : getIntegerTokens (readline (blank ++ word ++ more ++ t)).1 1 = .error .valueError := by
    unfold getIntegerTokens
    rcases ht with rfl | ⟨r, rfl⟩
    · rw [List.append_nil, readline_last _ h1, split_word hb hne hw hm, List.take_succ_cons, List.mapM_cons, hbad]
      rfl
    · rw [readline_line _ r h1, List.append_assoc, split_word hb hne hw (hm.append '\n' [] (by decide)),
        List.take_succ_cons, List.mapM_cons, hbad]
      rfl
  unfold getCurrentDate
  dsimp only
  rw [e]
  rfl

/-! ### an example -/

/-- A coupler.res file as written by FMS. -/
def exFile : List Char :=
  "     2        (Calendar: no_calendar=0, thirty_day_months=1, julian=2, gregorian=3, noleap=4)\n  2016     8     1     0     0     0        Model start time:   year, month, day, hour, minute, second\n  2016     8     3    06     0     0        Current model time: year, month, day, hour, minute, second\n".toList

theorem exFile_date : (match getCurrentDate (fun c y mo d h mi s => .ok (c, y, mo, d, h, mi, s)) exFile with
    | .ok x => decide (x = (.julian, 2016, 8, 3, 6, 0, 0))
    | .error _ => false) = true := by
  decide +kernel

/-- The hypotheses of `C44_parse` can be met. -/
example : Ints [2016, 8] "  2016 +08 x".toList " x".toList := by
  refine Ints.cons 2016 [8] "  ".toList "2016".toList " +08 x".toList _ (by decide) ?_ (Or.inr ⟨' ', _, rfl, by decide⟩) ?_
  · exact ⟨0, 2016, Or.inl ⟨by decide, rfl⟩⟩
  · refine Ints.cons 8 [] " ".toList "+08".toList " x".toList _ (by decide) ?_ (Or.inr ⟨' ', _, rfl, by decide⟩) ?_
    · exact ⟨1, 8, Or.inr (Or.inl ⟨by decide, rfl⟩)⟩
    · exact Ints.nil _ (Or.inr ⟨' ', _, rfl, by decide⟩)

end FV3.Coupler
