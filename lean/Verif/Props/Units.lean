import Verif.Model.Units

/-!
# C45 Units comparison
-/

namespace FV3.Units

/-- Only whitespace. -/
def Blank (s : List Char) : Prop := ∀ c ∈ s, isSpace c = true

/-- Two strings differ only by whitespace at their ends. -/
def SameUpToBlanks (u v : List Char) : Prop :=
  ∃ core a b c d, Blank a ∧ Blank b ∧ Blank c ∧ Blank d ∧ u = a ++ core ++ b ∧ v = c ++ core ++ d

instance (s : List Char) : Decidable (Blank s) := by unfold Blank; infer_instance

theorem dropWhile_blank_append {a s : List Char} (h : Blank a) :
    (a ++ s).dropWhile isSpace = s.dropWhile isSpace := by
  induction a with
  | nil => rfl
  | cons x a ih =>
    have hx := h x (by simp)
    simp only [List.cons_append, List.dropWhile_cons, hx, if_true]
    exact ih fun c hc => h c (by simp [hc])

theorem dropWhile_blank {a : List Char} (h : Blank a) : a.dropWhile isSpace = [] := by
  have := dropWhile_blank_append (s := []) h
  simpa using this

theorem dropWhile_append_cases (s b : List Char) :
    (s ++ b).dropWhile isSpace = if Blank s then b.dropWhile isSpace else s.dropWhile isSpace ++ b := by
  induction s with
  | nil => simp [Blank]
  | cons x s ih =>
    by_cases hx : isSpace x = true
    · simp only [List.cons_append, List.dropWhile_cons, hx, if_true, ih]
      have : Blank (x :: s) ↔ Blank s :=
        ⟨fun h c hc => h c (by simp [hc]), fun h c hc => by
          rcases List.mem_cons.1 hc with rfl | hc
          · exact hx
          · exact h c hc⟩
      by_cases hs : Blank s
      · rw [if_pos hs, if_pos (this.2 hs)]
      · rw [if_neg hs, if_neg (fun h => hs (this.1 h))]
    · have : ¬ Blank (x :: s) := fun h => hx (h x (by simp))
      rw [if_neg this]
      simp [List.dropWhile_cons, hx]

theorem Blank.reverse {s : List Char} (h : Blank s) : Blank s.reverse := fun c hc => h c (by simpa using hc)

theorem strip_surround {a s b : List Char} (ha : Blank a) (hb : Blank b) :
    strip (a ++ s ++ b) = strip s := by
  unfold strip
  rw [List.append_assoc, dropWhile_blank_append ha, dropWhile_append_cases]
  by_cases hs : Blank s
  · rw [if_pos hs, dropWhile_blank hb, dropWhile_blank hs]
  · rw [if_neg hs, List.reverse_append, dropWhile_blank_append hb.reverse]

theorem split_dropWhile (s : List Char) : ∃ a, Blank a ∧ s = a ++ s.dropWhile isSpace := by
  induction s with
  | nil => exact ⟨[], by simp [Blank], rfl⟩
  | cons x s ih =>
    by_cases hx : isSpace x = true
    · obtain ⟨a, ha, e⟩ := ih
      refine ⟨x :: a, fun c hc => ?_, ?_⟩
      · rcases List.mem_cons.1 hc with rfl | hc
        · exact hx
        · exact ha c hc
      · simp only [List.dropWhile_cons, hx, if_true, List.cons_append]
        rw [← e]
    · exact ⟨[], by simp [Blank], by simp [List.dropWhile_cons, hx]⟩

theorem split_strip (s : List Char) : ∃ a b, Blank a ∧ Blank b ∧ s = a ++ strip s ++ b := by
  obtain ⟨a, ha, e⟩ := split_dropWhile s
  obtain ⟨b, hb, e'⟩ := split_dropWhile (s.dropWhile isSpace).reverse
  refine ⟨a, b.reverse, ha, hb.reverse, ?_⟩
  have := congrArg List.reverse e'
  rw [List.reverse_reverse, List.reverse_append] at this
  unfold strip
  rw [List.append_assoc, ← this]
  exact e

/-- **C45.**  Units are equal exactly if the strings differ only by whitespace at their ends. -/
theorem C45_equal_iff (u v : List Char) : unitsAreEqual u v = true ↔ SameUpToBlanks u v := by
  unfold unitsAreEqual
  rw [beq_iff_eq]
  constructor
  · intro h
    obtain ⟨a, b, ha, hb, e⟩ := split_strip u
    obtain ⟨c, d, hc, hd, e'⟩ := split_strip v
    exact ⟨strip u, a, b, c, d, ha, hb, hc, hd, e, by rw [h]; exact e'⟩
  · rintro ⟨s, a, b, c, d, ha, hb, hc, hd, rfl, rfl⟩
    rw [strip_surround ha hb, strip_surround hc hd]

/-- **C45.**  The comparison is an equivalence relation. -/
theorem C45_equivalence : Equivalence fun u v => unitsAreEqual u v = true := by
  unfold unitsAreEqual
  refine ⟨fun u => by simp, fun {u v} h => ?_, fun {u v w} h h' => ?_⟩
  · rw [beq_iff_eq] at h ⊢; exact h.symm
  · rw [beq_iff_eq] at h h' ⊢; exact h.trans h'

/-- **C45.**  Whitespace at the ends of either string does not matter. -/
theorem C45_blanks (u v a b c d : List Char) (ha : Blank a) (hb : Blank b) (hc : Blank c) (hd : Blank d) :
    unitsAreEqual (a ++ u ++ b) (c ++ v ++ d) = unitsAreEqual u v := by
  unfold unitsAreEqual
  rw [strip_surround ha hb, strip_surround hc hd]

/-- **C45.**  Different strings without whitespace at their ends are different units. -/
theorem C45_distinct (u v : List Char) (hu : strip u = u) (hv : strip v = v) (h : u ≠ v) :
    unitsAreEqual u v = false := by
  unfold unitsAreEqual
  rw [hu, hv]
  simpa using h

/-- **C45.**  `ensure_equal_units` raises UnitsError exactly if the units are not equal. -/
theorem C45_ensure (u v : List Char) :
    (SameUpToBlanks u v → ensureEqualUnits u v = .ok ()) ∧
    (¬ SameUpToBlanks u v → ensureEqualUnits u v = .error .unitsError) := by
  have := C45_equal_iff u v
  unfold ensureEqualUnits
  refine ⟨fun h => ?_, fun h => ?_⟩
  · rw [if_neg (by simpa using this.2 h)]
  · rw [if_pos (fun h' => h (this.1 h'))]

example : unitsAreEqual " m s^-1\n".toList "m s^-1".toList = true := by decide +kernel
example : unitsAreEqual "m s^-1".toList "m  s^-1".toList = false := by decide +kernel

/-- The code points of Unicode whitespace as Python sees it (`str.isspace`). -/
def whitespace : List Nat :=
  [9, 10, 11, 12, 13, 28, 29, 30, 31, 32, 133, 160, 5760, 8192, 8193, 8194, 8195, 8196, 8197, 8198, 8199, 8200, 8201, 8202,
    8232, 8233, 8239, 8287, 12288]

/-- **C45**: which characters are blanks. -/
theorem C45_whitespace (c : Char) : isSpace c = true ↔ c.toNat ∈ whitespace := by
  unfold isSpace whitespace
  simp only [Bool.or_eq_true, Bool.and_eq_true, decide_eq_true_eq, beq_iff_eq, List.mem_cons, List.not_mem_nil, or_false]
  omega

end FV3.Units
