import Verif.Model.QuantityInit
import Verif.Props.Views

/-!
# C28: construction of a quantity from any arguments
-/

namespace FV3
variable {α : Type}

theorem ensureIntTuple_ints (l : List Int) : ensureIntTuple (l.map .int) = .ok l := by
  induction l with
  | nil => rfl
  | cons i l ih =>
    simp only [List.map_cons, ensureIntTuple, ih, PyItem.toInt]
    rfl

theorem defaultExtent_ints (shape : List Nat) (l : List Int) :
    defaultExtent shape (l.map .int) =
      .ok ((List.zipWith (fun (length : Nat) (start : Int) => (length : Int) - start) shape l).map .int) := by
  induction shape generalizing l with
  | nil => cases l <;> rfl
  | cons n shape ih =>
    cases l with
    | nil => rfl
    | cons i l =>
      simp only [List.map_cons, defaultExtent, ih, PyItem.subFrom, List.zipWith_cons_cons]
      rfl

/-- **C28**: for an array and integers, the constructor is that of `C28_metadata`. -/
theorem C28_array (data : NDArray α) (dims : List Dim) (units : String) (origin extent : Option (List Int)) :
    Quantity.init (.array data) dims units (origin.map (·.map .int)) (extent.map (·.map .int)) =
      Quantity.mk? data dims units origin extent := by
  have ho : (origin.map (·.map PyItem.int)).getD (List.replicate dims.length (.int 0)) =
      (origin.getD (List.replicate dims.length 0)).map .int := by
    cases origin with
    | none => simp
    | some o => rfl
  unfold Quantity.init Quantity.mk? validateLengths
  rw [ho]
  generalize origin.getD (List.replicate dims.length 0) = o
  dsimp only
  cases extent with
  | none =>
    simp only [Option.map_none, Option.getD_none, defaultExtent_ints]
    simp only [bind, Except.bind, List.length_map, ensureIntTuple_ints]
    split <;> [rfl; split <;> [rfl; split <;> rfl]]
  | some e =>
    simp only [Option.map_some, Option.getD_some]
    simp only [bind, Except.bind, List.length_map, ensureIntTuple_ints]
    split <;> [rfl; split <;> [rfl; split <;> rfl]]

/-- **C28** (limit): a quantity can not be constructed from a list or a number, although the constructor
has a case for it; if the metadata are right it raises AttributeError. -/
theorem C28_no_lists (a : NDArray α) (dims : List Dim) (units : String) (origin extent : Option (List PyItem)) :
    (∀ q, Quantity.init (.plain a) dims units origin extent ≠ .ok q) ∧
    (∀ q o e, Quantity.mk? a dims units (some o) (some e) = .ok q →
      Quantity.init (.plain a) dims units (some (o.map .int)) (some (e.map .int)) = .error .attributeError) := by
  constructor
  · intro q h
    unfold Quantity.init at h
    cases extent with
    | none => cases h
    | some e =>
      simp only [bind, Except.bind] at h
      split at h
      · cases h
      split at h
      · cases h
      split at h
      · cases h
      cases ho : ensureIntTuple (origin.getD (List.replicate dims.length (.int 0))) with
      | error x => simp only [ho] at h; cases h
      | ok o' =>
        cases he : ensureIntTuple e with
        | error x => simp only [ho, he] at h; cases h
        | ok e' => simp only [ho, he] at h; cases h
  · intro q o e h
    have := (C28_metadata a dims units (some o) (some e)).2.2.1 ⟨q, h⟩
    obtain ⟨h1, h2, h3⟩ := this
    unfold Quantity.init
    simp only [Option.getD_some, bind, Except.bind, List.length_map, ensureIntTuple_ints]
    rw [if_neg (by simpa using h1), if_neg (by simpa using h2 o rfl), if_neg (by simpa using h3 e rfl)]

/-- Relation of an item of the argument to the entry of the metadata. -/
def PyItem.Means (x : PyItem) (i : Int) : Prop :=
  match x with
  | .int j => i = j
  | .float y => (0 ≤ y → (i : ℚ) ≤ y ∧ y < i + 1) ∧ (y < 0 → y ≤ i ∧ (i : ℚ) < y + 1)
  | .str p => p = some i
  | .none => False

theorem toInt_means {x : PyItem} {i : Int} (h : x.toInt = .ok i) : x.Means i := by
  cases x with
  | int j => cases h; rfl
  | float y =>
    cases h
    unfold PyItem.Means truncQ
    constructor
    · intro hy
      rw [if_pos hy]
      exact ⟨Int.floor_le y, Int.lt_floor_add_one y⟩
    · intro hy
      rw [if_neg (not_le.2 hy)]
      exact ⟨Int.le_ceil y, Int.ceil_lt_add_one y⟩
  | str p =>
    cases p with
    | none => cases h
    | some j => cases h; rfl
  | none => cases h

theorem ensureIntTuple_means {l : List PyItem} {is : List Int} (h : ensureIntTuple l = .ok is) :
    List.Forall₂ PyItem.Means l is := by
  induction l generalizing is with
  | nil => cases h; exact .nil
  | cons x l ih =>
    unfold ensureIntTuple at h
    cases hx : x.toInt with
    | error e => simp only [hx, bind, Except.bind] at h; cases h
    | ok i =>
      cases hl : ensureIntTuple l with
      | error e => simp only [hx, hl, bind, Except.bind] at h; cases h
      | ok is' =>
        simp only [hx, hl, bind, Except.bind] at h
        cases h
        exact .cons (toInt_means hx) (ih hl)

theorem ensureIntTuple_error {l : List PyItem} {e : PyErr} (h : ensureIntTuple l = .error e) : e = .typeError := by
  induction l with
  | nil => cases h
  | cons x l ih =>
    unfold ensureIntTuple at h
    cases hx : x.toInt with
    | error e' =>
      simp only [hx, bind, Except.bind] at h
      cases h
      cases x with
      | int j => cases hx
      | float y => cases hx
      | str p => cases p <;> cases hx; rfl
      | none => cases hx; rfl
    | ok i =>
      cases hl : ensureIntTuple l with
      | error e' => simp only [hx, hl, bind, Except.bind] at h; cases h; exact ih hl
      | ok is' => simp only [hx, hl, bind, Except.bind] at h; cases h

/-- **C28**: whatever is given as origin and extent, the metadata of a constructed quantity are
integers, one for each axis: floats are cut off towards zero, strings are read as numbers; anything else
raises TypeError, and a wrong number of entries ValueError. -/
theorem C28_items (data : NDArray α) (dims : List Dim) (units : String) (origin extent : List PyItem) :
    (∀ q, Quantity.init (.array data) dims units (some origin) (some extent) = .ok q →
      q.data = data ∧ q.dims = dims ∧ q.units = units ∧ q.Lens ∧
      List.Forall₂ PyItem.Means origin q.origin ∧ List.Forall₂ PyItem.Means extent q.extent) ∧
    (∀ e, Quantity.init (.array data) dims units (some origin) (some extent) = .error e →
      e = .typeError ∨ e = .valueError) := by
  unfold Quantity.init
  simp only [Option.getD_some, bind, Except.bind]
  split
  · exact ⟨fun q h => (by cases h), fun e h => by cases h; exact .inr rfl⟩
  split
  · exact ⟨fun q h => (by cases h), fun e h => by cases h; exact .inr rfl⟩
  split
  · exact ⟨fun q h => (by cases h), fun e h => by cases h; exact .inr rfl⟩
  rename_i h1 h2 h3
  cases ho : ensureIntTuple origin with
  | error x => exact ⟨fun q h => (by cases h), fun e h => by cases h; exact .inl (ensureIntTuple_error ho)⟩
  | ok o' =>
    cases he : ensureIntTuple extent with
    | error x => exact ⟨fun q h => (by cases h), fun e h => by cases h; exact .inl (ensureIntTuple_error he)⟩
    | ok e' =>
      refine ⟨?_, fun e h => by cases h⟩
      intro q h
      cases h
      have m1 := ensureIntTuple_means ho
      have m2 := ensureIntTuple_means he
      refine ⟨rfl, rfl, rfl, ⟨?_, ?_, ?_⟩, m1, m2⟩
      · exact (not_not.1 h1).symm
      · exact m1.length_eq.symm.trans ((not_not.1 h2).trans (not_not.1 h1).symm)
      · exact m2.length_eq.symm.trans ((not_not.1 h3).trans (not_not.1 h1).symm)

theorem toInt_of_means {x : PyItem} {i : Int} (h : x.Means i) : ∃ j, x.toInt = .ok j := by
  cases x with
  | int j => exact ⟨_, rfl⟩
  | float y => exact ⟨_, rfl⟩
  | str p => cases p with
    | none => cases h
    | some j => exact ⟨_, rfl⟩
  | none => cases h

theorem ensureIntTuple_iff (l : List PyItem) :
    (∃ is, ensureIntTuple l = .ok is) ↔ ∀ x ∈ l, ∃ i, x.Means i := by
  constructor
  · rintro ⟨is, h⟩ x hx
    obtain ⟨k, hk, rfl⟩ := List.getElem_of_mem hx
    have m := ensureIntTuple_means h
    exact ⟨_, m.get hk (m.length_eq ▸ hk)⟩
  · intro h
    induction l with
    | nil => exact ⟨[], rfl⟩
    | cons x l ih =>
      obtain ⟨i, hi⟩ := h x (by simp)
      obtain ⟨j, hj⟩ := toInt_of_means hi
      obtain ⟨is, his⟩ := ih fun y hy => h y (by simp [hy])
      refine ⟨j :: is, ?_⟩
      simp only [ensureIntTuple, hj, his, bind, Except.bind, pure, Except.pure]

/-- **C28**: which exception: ValueError if and only if the number of dimensions, of origin entries or
of extent entries is not the number of axes; otherwise TypeError if and only if an entry of origin or
extent is not a number. -/
theorem C28_errors (data : NDArray α) (dims : List Dim) (units : String) (origin extent : List PyItem) :
    (Quantity.init (.array data) dims units (some origin) (some extent) = .error .valueError ↔
      ¬ (dims.length = data.shape.length ∧ origin.length = data.shape.length ∧
        extent.length = data.shape.length)) ∧
    (Quantity.init (.array data) dims units (some origin) (some extent) = .error .typeError ↔
      (dims.length = data.shape.length ∧ origin.length = data.shape.length ∧
        extent.length = data.shape.length) ∧
      ∃ x ∈ origin ++ extent, ¬ ∃ i, x.Means i) := by
  unfold Quantity.init
  simp only [Option.getD_some, bind, Except.bind]
  by_cases h1 : dims.length = data.shape.length
  on_goal 2 => simp [h1]
  by_cases h2 : origin.length = data.shape.length
  on_goal 2 => simp [h1, h2]
  by_cases h3 : extent.length = data.shape.length
  on_goal 2 => simp [h1, h2, h3]
  rw [if_neg (by simp [h1]), if_neg (by simp [h2]), if_neg (by simp [h3])]
  have io := ensureIntTuple_iff origin
  have ie := ensureIntTuple_iff extent
  cases ho : ensureIntTuple origin with
  | error x =>
    have := ensureIntTuple_error ho
    subst this
    have hno : ¬ ∀ x ∈ origin, ∃ i, x.Means i := by
      rw [← io, ho]; rintro ⟨_, h⟩; cases h
    push Not at hno
    obtain ⟨y, hy, hn⟩ := hno
    refine ⟨by simp [h1, h2, h3], ?_⟩
    refine iff_of_true rfl ⟨⟨h1, h2, h3⟩, y, by simp [hy], ?_⟩
    rintro ⟨i, hi⟩; exact hn i hi
  | ok o' =>
    have hyes := io.1 ⟨o', ho⟩
    cases he : ensureIntTuple extent with
    | error x =>
      have := ensureIntTuple_error he
      subst this
      have hno : ¬ ∀ x ∈ extent, ∃ i, x.Means i := by
        rw [← ie, he]; rintro ⟨_, h⟩; cases h
      push Not at hno
      obtain ⟨y, hy, hn⟩ := hno
      refine ⟨by simp [h1, h2, h3], ?_⟩
      refine iff_of_true rfl ⟨⟨h1, h2, h3⟩, y, by simp [hy], ?_⟩
      rintro ⟨i, hi⟩; exact hn i hi
    | ok e' =>
      have hyes' := ie.1 ⟨e', he⟩
      refine ⟨by simp [h1, h2, h3, pure, Except.pure], ?_⟩
      refine iff_of_false (by simp [pure, Except.pure]) ?_
      rintro ⟨-, x, hx, hn⟩
      rcases List.mem_append.1 hx with hx | hx
      · exact hn (hyes x hx)
      · exact hn (hyes' x hx)

/-- The extent of an axis of `n` points when none is given: the rest of the axis; a float origin is
subtracted before it is cut off. -/
def RestOf (n : Nat) (x : PyItem) (e : Int) : Prop :=
  match x with
  | .int i => e = n - i
  | .float y => PyItem.Means (.float (n - y)) e
  | .str _ => False
  | .none => False

theorem defaultExtent_spec (shape : List Nat) (origin : List PyItem) (h : origin.length = shape.length) :
    (∀ e, defaultExtent shape origin = .error e →
      e = .typeError ∧ ∃ x ∈ origin, ∀ n i, ¬ RestOf n x i) ∧
    (∀ es, defaultExtent shape origin = .ok es → es.length = shape.length ∧
      ∃ is, ensureIntTuple es = .ok is ∧ is.length = shape.length ∧
        ∀ (k n : Nat) x, shape[k]? = some n → origin[k]? = some x →
          ∃ i, is[k]? = some i ∧ RestOf n x i) := by
  induction shape generalizing origin with
  | nil =>
    cases origin with
    | nil => exact ⟨fun e h => (by cases h), fun es h => by cases h; exact ⟨rfl, [], rfl, rfl, fun k n x h => by simp at h⟩⟩
    | cons x l => cases h
  | cons n shape ih =>
    cases origin with
    | nil => cases h
    | cons x l =>
      obtain ⟨ih1, ih2⟩ := ih l (by simpa using h)
      have bad : ∀ e, (x.subFrom n = .error e) → e = .typeError ∧ ∀ n i, ¬ RestOf n x i := by
        intro e he
        cases x with
        | int j => cases he
        | float y => cases he
        | str p => cases he; exact ⟨rfl, fun _ _ h => h⟩
        | none => cases he; exact ⟨rfl, fun _ _ h => h⟩
      unfold defaultExtent
      cases hx : x.subFrom n with
      | error e =>
        obtain ⟨b1, b2⟩ := bad e hx
        refine ⟨fun e' he => ?_, fun es he => by simp only [bind, Except.bind] at he; cases he⟩
        simp only [bind, Except.bind] at he
        cases he
        exact ⟨b1, x, by simp, b2⟩
      | ok y =>
        cases hl : defaultExtent shape l with
        | error e =>
          obtain ⟨b1, z, hz, b2⟩ := ih1 e hl
          refine ⟨fun e' he => ?_, fun es he => by simp only [bind, Except.bind] at he; cases he⟩
          simp only [bind, Except.bind] at he
          cases he
          exact ⟨b1, z, by simp [hz], b2⟩
        | ok es0 =>
          obtain ⟨hl0, is, his, hlen, hk⟩ := ih2 es0 hl
          refine ⟨fun e' he => (by simp only [bind, Except.bind] at he; cases he), fun es he => ?_⟩
          simp only [bind, Except.bind, pure, Except.pure] at he
          cases he
          have hy : ∃ j, y.toInt = .ok j ∧ RestOf n x j := by
            cases x with
            | int j => cases hx; exact ⟨_, rfl, rfl⟩
            | float z => cases hx; exact ⟨_, rfl, toInt_means (x := .float (n - z)) rfl⟩
            | str p => cases hx
            | none => cases hx
          obtain ⟨j, hj, hr⟩ := hy
          refine ⟨by simp [hl0], j :: is, ?_, by simp [hlen], ?_⟩
          · simp only [ensureIntTuple, hj, his, bind, Except.bind, pure, Except.pure]
          · intro k m z h1 h2
            cases k with
            | zero =>
              simp only [List.getElem?_cons_zero, Option.some.injEq] at h1 h2
              subst h1; subst h2
              exact ⟨j, rfl, hr⟩
            | succ k =>
              simp only [List.getElem?_cons_succ] at h1 h2 ⊢
              exact hk k m z h1 h2

/-- **C28**: without an extent, each axis extends from the origin to the end of the array (for a float
origin the difference is cut off, not the origin); a string or None in the origin raises TypeError, even
where the origin could be read. -/
theorem C28_default_extent (data : NDArray α) (dims : List Dim) (units : String) (origin : List PyItem)
    (hl : origin.length = data.shape.length) :
    (∀ q, Quantity.init (.array data) dims units (some origin) none = .ok q →
      List.Forall₂ PyItem.Means origin q.origin ∧
      ∀ (k n : Nat) x, data.shape[k]? = some n → origin[k]? = some x →
        ∃ i, q.extent[k]? = some i ∧ RestOf n x i) ∧
    ((∃ x ∈ origin, (∃ p, x = .str p) ∨ x = .none) →
      Quantity.init (.array data) dims units (some origin) none = .error .typeError) := by
  obtain ⟨d1, d2⟩ := defaultExtent_spec data.shape origin hl
  unfold Quantity.init
  simp only [Option.getD_some, bind, Except.bind]
  cases hd : defaultExtent data.shape origin with
  | error e =>
    obtain ⟨rfl, -⟩ := d1 e hd
    exact ⟨fun q h => (by cases h), fun _ => rfl⟩
  | ok es =>
    obtain ⟨hes, is, his, hlen, hk⟩ := d2 es hd
    constructor
    · intro q h
      dsimp only at h
      split at h
      · cases h
      split at h
      · cases h
      split at h
      · cases h
      cases ho : ensureIntTuple origin with
      | error x => simp only [ho] at h; cases h
      | ok o' =>
        simp only [ho, his] at h
        cases h
        exact ⟨ensureIntTuple_means ho, hk⟩
    · rintro ⟨x, hx, hbad⟩
      exfalso
      obtain ⟨k, hk', rfl⟩ := List.getElem_of_mem hx
      obtain ⟨i, -, hr⟩ := hk k data.shape[k] origin[k] (List.getElem?_eq_getElem (by omega))
        (List.getElem?_eq_getElem hk')
      rcases hbad with ⟨p, hp⟩ | hp <;> rw [hp] at hr <;> exact hr

/-- A string origin without an extent. -/
example : Quantity.init (.array (⟨[5, 4], fun _ => 0⟩ : NDArray Int)) [.y, .x] "m"
    (some [.str (some 1), .int 1]) none = .error .typeError :=
  (C28_default_extent _ _ _ _ rfl).2 ⟨.str (some 1), by simp, Or.inl ⟨_, rfl⟩⟩

/-- Strings and floats are accepted. -/
example : Quantity.init (.array (⟨[5, 4], fun _ => 0⟩ : NDArray Int)) [.y, .x] "m"
    (some [.str (some 1), .int 1]) (some [.float (7 / 2), .int 2]) =
      .ok { data := ⟨[5, 4], fun _ => 0⟩, dims := [.y, .x], units := "m", origin := [1, 1], extent := [3, 2] } := by
  have : truncQ (7 / 2) = 3 := by decide +kernel
  simp [Quantity.init, ensureIntTuple, PyItem.toInt, this, bind, Except.bind, pure, Except.pure]

/-- A list. -/
example : Quantity.init (.plain (⟨[2], fun _ => 0⟩ : NDArray Int)) [.x] "m" (some [.int 0]) (some [.int 2]) =
    .error .attributeError := rfl

end FV3
