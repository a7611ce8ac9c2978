import Verif.Model.NDArray
import Mathlib.Tactic.Ring
import Mathlib.Tactic.Linarith

/-!
# Lemmas on lists as functions of the axis, indices and boxes
-/

namespace FV3

theorem getD_lt {α : Type} {l : List α} {k : Nat} (d : α) (h : k < l.length) :
    l.getD k d = l[k] := by
  rw [List.getD_eq_getElem?_getD, List.getElem?_eq_getElem h]; rfl

theorem getD_ge {α : Type} {l : List α} {k : Nat} (d : α) (h : l.length ≤ k) :
    l.getD k d = d := by
  rw [List.getD_eq_getElem?_getD, List.getElem?_eq_none h]; rfl

theorem ext_getD {α : Type} (d : α) {l l' : List α} (h : l.length = l'.length)
    (hk : ∀ k, k < l.length → l.getD k d = l'.getD k d) : l = l' := by
  apply List.ext_getElem h
  intro k h1 h2
  have := hk k h1
  rwa [getD_lt d h1, getD_lt d h2] at this

theorem getD_set {α : Type} (l : List α) (p k : Nat) (v d : α) :
    (l.set p v).getD k d = if k = p ∧ p < l.length then v else l.getD k d := by
  rw [List.getD_eq_getElem?_getD, List.getD_eq_getElem?_getD, List.getElem?_set]
  by_cases h : p = k
  · subst h
    by_cases h2 : p < l.length
    · simp [h2]
    · simp [h2, List.getElem?_eq_none (Nat.le_of_not_lt h2)]
  · simp [h, Ne.symm h]

/-- Lists given by a function of the axis. -/
def tab {α : Type} (m : Nat) (f : Nat → α) : List α := (List.range m).map f

@[simp] theorem length_tab {α : Type} (m : Nat) (f : Nat → α) : (tab m f).length = m := by
  simp [tab]

theorem getD_tab {α : Type} {m : Nat} (f : Nat → α) (d : α) {k : Nat} (h : k < m) :
    (tab m f).getD k d = f k := by
  rw [getD_lt d (by simpa using h)]; simp [tab]

theorem tab_succ {α : Type} (m : Nat) (f : Nat → α) :
    tab (m + 1) f = f 0 :: tab m (fun k => f (k + 1)) := by
  simp [tab, List.range_succ_eq_map, List.map_map, Function.comp_def]

@[simp] theorem tab_zero {α : Type} (f : Nat → α) : tab 0 f = [] := rfl

theorem tab_congr {α : Type} {m : Nat} {f g : Nat → α} (h : ∀ k, k < m → f k = g k) :
    tab m f = tab m g := by
  apply List.map_congr_left
  intro k hk
  exact h k (by simpa using hk)

theorem eq_tab {α : Type} (d : α) (l : List α) : l = tab l.length (fun k => l.getD k d) :=
  ext_getD d (by simp) fun k h => by rw [getD_tab _ _ h]

theorem tab_inj {α : Type} {m : Nat} {f g : Nat → α} (h : tab m f = tab m g) {k : Nat}
    (hk : k < m) : f k = g k := by
  have := congrArg (fun l => l.getD k (f k)) h
  rwa [getD_tab _ _ hk, getD_tab _ _ hk] at this

theorem map_tab {α β : Type} (m : Nat) (f : Nat → α) (g : α → β) :
    (tab m f).map g = tab m (fun k => g (f k)) := by
  simp [tab, List.map_map, Function.comp_def]

theorem inB_iff (s idx : List Nat) :
    InB s idx ↔ idx.length = s.length ∧ ∀ k, k < s.length → idx.getD k 0 < s.getD k 0 := by
  induction s generalizing idx with
  | nil => cases idx <;> simp [InB]
  | cons n s ih =>
    cases idx with
    | nil => simp [InB]
    | cons i is =>
      simp only [InB, ih, List.length_cons]
      constructor
      · rintro ⟨h1, h2, h3⟩
        refine ⟨by omega, fun k hk => ?_⟩
        cases k with
        | zero => simpa using h1
        | succ k => simpa using h3 k (by omega)
      · rintro ⟨h1, h2⟩
        refine ⟨by simpa using h2 0 (by omega), by omega, fun k hk => ?_⟩
        simpa using h2 (k + 1) (by omega)

theorem inB_tab (m : Nat) (f : Nat → Nat) (idx : List Nat) :
    InB (tab m f) idx ↔ idx.length = m ∧ ∀ k, k < m → idx.getD k 0 < f k := by
  rw [inB_iff]
  simp only [length_tab]
  constructor
  · rintro ⟨h1, h2⟩
    exact ⟨h1, fun k hk => by have := h2 k hk; rwa [getD_tab _ _ hk] at this⟩
  · rintro ⟨h1, h2⟩
    exact ⟨h1, fun k hk => by rw [getD_tab _ _ hk]; exact h2 k hk⟩

/-! ### boxes -/

/-- Resolved slices of step 1. -/
def boxRs (m : Nat) (a : Nat → Int) (c : Nat → Nat) : List RIx :=
  tab m fun k => .slice (a k) 1 (c k)

theorem clampIx_id {len v : Int} (h0 : 0 ≤ v) (h1 : v ≤ len) : clampIx false len v = v := by
  unfold clampIx
  simp only [show ¬ v < 0 by omega, if_false]
  by_cases h : v ≥ len
  · simp only [h, if_true]; simp only [Bool.false_eq_true, if_false]; omega
  · simp only [h, if_false]

theorem resolve_of {a b : Int} {n : Nat} (h0 : 0 ≤ a) (h1 : a ≤ b) (h2 : b ≤ n) :
    (PySlice.of a b).resolve n = .ok (.slice a 1 (b - a).toNat) := by
  unfold PySlice.resolve PySlice.of
  simp only [Option.getD_none, Option.map_some, Option.getD_some]
  rw [if_neg (by decide), if_pos (by decide), clampIx_id h0 (by omega), clampIx_id (by omega) h2]
  congr 2
  by_cases h : a < b
  · rw [if_pos h]; simp only [Int.ediv_one]; omega
  · rw [if_neg h]; omega

theorem resolveAll_box (m : Nat) (a b : Nat → Int) (shape : List Nat) (hm : shape.length = m)
    (h : ∀ k, k < m → 0 ≤ a k ∧ a k ≤ b k ∧ b k ≤ (shape.getD k 0 : Nat)) :
    resolveAll (tab m fun k => .slice (PySlice.of (a k) (b k))) shape =
      .ok (boxRs m a fun k => (b k - a k).toNat) := by
  induction m generalizing a b shape with
  | zero =>
    have : shape = [] := List.length_eq_zero_iff.1 hm
    subst this; rfl
  | succ m ih =>
    match shape, hm with
    | n :: s, hm =>
      have h0 := h 0 (by omega)
      simp only [boxRs, tab_succ, resolveAll, Ix.resolve]
      rw [resolve_of h0.1 h0.2.1 (by simpa using h0.2.2),
        ih (fun k => a (k + 1)) (fun k => b (k + 1)) s (by simpa using hm)
          (fun k hk => by simpa using h (k + 1) (by omega))]
      rfl

theorem viewShape_box (m : Nat) (a : Nat → Int) (c : Nat → Nat) :
    viewShape (boxRs m a c) = tab m c := by
  induction m generalizing a c with
  | zero => rfl
  | succ m ih =>
    rw [boxRs, tab_succ, tab_succ]
    simp only [viewShape]
    rw [← ih (fun k => a (k + 1)) (fun k => c (k + 1))]
    rfl

theorem viewIdx_box (m : Nat) (a : Nat → Int) (c : Nat → Nat) (rel : List Nat) :
    viewIdx (boxRs m a c) rel = tab m fun k => (a k + rel.getD k 0).toNat := by
  induction m generalizing a c rel with
  | zero => rfl
  | succ m ih =>
    rw [boxRs, tab_succ, tab_succ]
    cases rel with
    | nil =>
      simp only [viewIdx]
      have := ih (fun k => a (k + 1)) (fun k => c (k + 1)) []
      rw [boxRs] at this
      rw [this]
      simp
    | cons j rel =>
      simp only [viewIdx]
      have := ih (fun k => a (k + 1)) (fun k => c (k + 1)) rel
      rw [boxRs] at this
      rw [this]
      simp

theorem unview_box (m : Nat) (a : Nat → Int) (c : Nat → Nat) (idx : List Nat)
    (hl : idx.length = m) :
    unview (boxRs m a c) idx =
      if ∀ k, k < m → a k ≤ (idx.getD k 0 : Nat) ∧ ((idx.getD k 0 : Nat) : Int) < a k + c k then
        some (tab m fun k => ((idx.getD k 0 : Nat) - a k).toNat)
      else none := by
  induction m generalizing a c idx with
  | zero =>
    have : idx = [] := List.length_eq_zero_iff.1 hl
    subst this
    simp [boxRs, unview]
  | succ m ih =>
    match idx, hl with
    | i :: is, hl =>
      rw [boxRs, tab_succ]
      have := ih (fun k => a (k + 1)) (fun k => c (k + 1)) is (by simpa using hl)
      rw [boxRs] at this
      simp only [unview, this, Int.ediv_one, Int.one_mul]
      by_cases h0 : 0 ≤ (i : Int) - a 0 ∧ (i : Int) - a 0 < c 0 ∧ a 0 + ((i : Int) - a 0) = i
      · rw [if_pos h0]
        by_cases h1 : ∀ k, k < m → a (k + 1) ≤ (is.getD k 0 : Nat) ∧
            ((is.getD k 0 : Nat) : Int) < a (k + 1) + c (k + 1)
        · rw [if_pos h1, if_pos]
          · simp [tab_succ]
          · intro k hk
            cases k with
            | zero => simp; omega
            | succ k => simpa using h1 k (by omega)
        · rw [if_neg h1, if_neg]
          · rfl
          · intro h
            exact h1 fun k hk => by simpa using h (k + 1) (by omega)
      · rw [if_neg h0, if_neg]
        intro h
        have := h 0 (by omega)
        simp at this
        omega

end FV3
