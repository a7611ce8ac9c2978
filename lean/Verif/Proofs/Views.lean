import Verif.Spec.Views
import Verif.Proofs.Rotate

namespace FV3
variable {α : Type}

/-! ### filling up with full slices -/

theorem resolveAll_fill (shape : List Nat) (ix : List Ix) (h : ix.length ≤ shape.length) :
    resolveAll (fillIndex ix shape.length) shape = resolveAll ix shape := by
  induction shape generalizing ix with
  | nil =>
    have : ix = [] := List.length_eq_zero_iff.1 (by simpa using h)
    subst this; rfl
  | cons n s ih =>
    cases ix with
    | nil =>
      have := ih [] (by simp)
      simp only [fillIndex, List.nil_append, List.length_nil, Nat.sub_zero, List.length_cons,
        List.replicate_succ, resolveAll, Ix.resolve] at this ⊢
      rw [resolve_full, this]
      rfl
    | cons e es =>
      have := ih es (by simpa using h)
      have e1 : fillIndex (e :: es) (n :: s).length = e :: fillIndex es s.length := by
        simp [fillIndex]
      rw [e1]
      simp only [resolveAll, this]

/-- Resolved entry shifted by the origin. -/
def RIx.shift (o : Int) : RIx → RIx
  | .int i => .int (o + i).toNat
  | .slice a st c => .slice (o + a) st c

/-- A resolved entry which selects only points `0 .. e-1`, upwards. -/
def RIx.Within (e : Int) : RIx → Prop
  | .int i => (i : Int) < e
  | .slice a st c => 0 ≤ a ∧ 0 < st ∧ ∀ j : Nat, j < c → a + st * j < e

theorem slice_count_lt {a b st : Int} (hst : 0 < st) (hab : a < b) (j : Nat)
    (hj : j < ((b - a - 1) / st + 1).toNat) : a + st * j < b := by
  have h1 : (j : Int) ≤ (b - a - 1) / st := by
    have : 0 ≤ (b - a - 1) / st := Int.ediv_nonneg (by omega) (by omega)
    omega
  have h2 : st * ((b - a - 1) / st) ≤ b - a - 1 := Int.mul_ediv_self_le (by omega)
  have h3 : st * (j : Int) ≤ st * ((b - a - 1) / st) := Int.mul_le_mul_of_nonneg_left h1 (by omega)
  omega

theorem resolve_shift (x : Ix) {o e : Int} {n : Nat} (ho : 0 ≤ o) (he : 0 ≤ e) (hn : o + e ≤ n)
    (hx : x.Plain e) : ∃ r, x.resolve e.toNat = .ok r ∧ r.Within e ∧
      (shiftEntry x o e).resolve n = .ok (r.shift o) := by
  cases x with
  | int i =>
    obtain ⟨h1, h2⟩ := hx
    refine ⟨.int i.toNat, ?_, ?_, ?_⟩
    · simp only [Ix.resolve]
      rw [if_neg (show ¬ i < 0 by omega), if_pos (by omega)]
    · show ((i.toNat : Nat) : Int) < e
      omega
    · simp only [shiftEntry, Ix.resolve]
      rw [if_neg (show ¬ i + o < 0 by omega), if_pos (by omega)]
      show _ = Except.ok (RIx.int _)
      congr 2
      omega
  | slice s =>
    obtain ⟨sa, sb, st⟩ := s
    obtain ⟨h1, h2, h3⟩ := hx
    dsimp only at h1 h2 h3
    have hst : 0 < st.getD 1 := by
      cases st with
      | none => decide
      | some v => exact h3 v rfl
    have ha : ∃ a, 0 ≤ a ∧ a ≤ e ∧ (sa.map (clampIx false (e.toNat : Nat))).getD 0 = a ∧
        clampIx false n ((shiftIndex sa o e).getD o) = o + a := by
      cases sa with
      | none => exact ⟨0, by omega, he, rfl, by
          show clampIx false n o = _
          rw [clampIx_id ho (by omega)]; omega⟩
      | some a =>
        have := h1 a rfl
        refine ⟨a, this.1, this.2, ?_, ?_⟩
        · show clampIx false _ a = a
          exact clampIx_id this.1 (by omega)
        · show clampIx false n (if a + o < 0 then e + (a + o) else a + o) = _
          rw [if_neg (by omega), clampIx_id (by omega) (by omega)]; omega
    have hb : ∃ b, 0 ≤ b ∧ b ≤ e ∧ (sb.map (clampIx false (e.toNat : Nat))).getD (e.toNat : Nat) = b ∧
        clampIx false n ((shiftIndex sb o e).getD (o + e)) = o + b := by
      cases sb with
      | none => exact ⟨e, he, by omega, by
          show ((e.toNat : Nat) : Int) = e
          omega, by
          show clampIx false n (o + e) = _
          rw [clampIx_id (by omega) (by omega)]⟩
      | some b =>
        have := h2 b rfl
        refine ⟨b, this.1, this.2, ?_, ?_⟩
        · show clampIx false _ b = b
          exact clampIx_id this.1 (by omega)
        · show clampIx false n (if b + o < 0 then e + (b + o) else b + o) = _
          rw [if_neg (by omega), clampIx_id (by omega) (by omega)]; omega
    obtain ⟨a, a0, a1, a2, a3⟩ := ha
    obtain ⟨b, b0, b1, b2, b3⟩ := hb
    refine ⟨.slice a (st.getD 1) (if a < b then ((b - a - 1) / (st.getD 1) + 1).toNat else 0),
      ?_, ?_, ?_⟩
    · simp only [Ix.resolve, PySlice.resolve]
      rw [if_neg (by omega), if_pos hst, a2, b2]
    · refine ⟨a0, hst, fun j hj => ?_⟩
      by_cases hab : a < b
      · rw [if_pos hab] at hj
        have := slice_count_lt hst hab j hj
        omega
      · rw [if_neg hab] at hj; omega
    · simp only [shiftEntry, shiftSlice, boundDefaultSlice, Ix.resolve, PySlice.resolve,
        Option.map_some, Option.getD_some]
      rw [if_neg (by omega), if_pos hst, a3, b3]
      show _ = Except.ok (RIx.slice _ _ _)
      congr 2
      by_cases hab : a < b
      · rw [if_pos hab, if_pos (by omega), show o + b - (o + a) - 1 = b - a - 1 by omega]
      · rw [if_neg hab, if_neg (by omega)]

/-- Lists of resolved entries. -/
inductive Shifted : List Int → List Int → List RIx → List RIx → Prop
  | nil : Shifted [] [] [] []
  | cons {o e : Int} {os es : List Int} {r : RIx} {rs ss : List RIx} : 0 ≤ o → r.Within e →
      Shifted os es rs ss → Shifted (o :: os) (e :: es) (r :: rs) (r.shift o :: ss)

theorem resolveAll_shift (m : Nat) (ix : List Ix) (os es : List Int) (ns : List Nat)
    (hi : ix.length = m) (ho : os.length = m) (he : es.length = m) (hn : ns.length = m)
    (hin : ∀ k, k < m → 0 ≤ os.getD k 0 ∧ 0 ≤ es.getD k 0 ∧
      os.getD k 0 + es.getD k 0 ≤ (ns.getD k 0 : Nat))
    (hp : ∀ k, k < m → (ix.getD k (.int 0)).Plain (es.getD k 0)) :
    ∃ rs ss, resolveAll ix (es.map Int.toNat) = .ok rs ∧
      resolveAll (shiftEntries ix os es) ns = .ok ss ∧ Shifted os es rs ss := by
  induction m generalizing ix os es ns with
  | zero =>
    rw [List.length_eq_zero_iff] at hi ho he hn
    subst hi ho he hn
    exact ⟨[], [], rfl, rfl, .nil⟩
  | succ m ih =>
    match ix, os, es, ns, hi, ho, he, hn with
    | x :: ix, o :: os, e :: es, n :: ns, hi, ho, he, hn =>
      obtain ⟨rs, ss, h1, h2, h3⟩ := ih ix os es ns (by simpa using hi) (by simpa using ho)
        (by simpa using he) (by simpa using hn)
        (fun k hk => by simpa using hin (k + 1) (by omega))
        (fun k hk => by simpa using hp (k + 1) (by omega))
      have h0 := hin 0 (by omega)
      have p0 := hp 0 (by omega)
      simp only [List.getD_cons_zero] at h0 p0
      obtain ⟨r, g1, g2, g3⟩ := resolve_shift x h0.1 h0.2.1 h0.2.2 p0
      refine ⟨r :: rs, r.shift o :: ss, ?_, ?_, .cons h0.1 g2 h3⟩
      · simp only [List.map_cons, resolveAll, g1, h1]; rfl
      · simp only [shiftEntries, resolveAll, g3, h2]; rfl

theorem Shifted.viewShape_eq {os es : List Int} {rs ss : List RIx} (h : Shifted os es rs ss) :
    viewShape ss = viewShape rs := by
  induction h with
  | nil => rfl
  | @cons o e os es r rs ss _ _ _ ih => cases r <;> simp [RIx.shift, viewShape, ih]

theorem absIdx_cons (o : Int) (os : List Int) (i : Nat) (idx : List Nat) :
    absIdx (o :: os) (i :: idx) = (o + i).toNat :: absIdx os idx := by
  unfold absIdx; rw [List.length_cons, tab_succ]; simp

theorem Shifted.viewIdx_eq {os es : List Int} {rs ss : List RIx} (h : Shifted os es rs ss)
    (rel : List Nat) : viewIdx ss rel = absIdx os (viewIdx rs rel) := by
  induction h generalizing rel with
  | nil => rfl
  | @cons o e os es r rs ss ho hr _ ih =>
    cases r with
    | int i => simp only [RIx.shift, viewIdx, ih, absIdx_cons]
    | slice a st c =>
      obtain ⟨h0, h1, h2⟩ := hr
      cases rel with
      | nil =>
        simp only [RIx.shift, viewIdx, ih, absIdx_cons]
        congr 1; omega
      | cons j rel =>
        simp only [RIx.shift, viewIdx, ih, absIdx_cons]
        have : 0 ≤ st * (j : Int) := Int.mul_nonneg (by omega) (by omega)
        congr 1; omega

theorem relIdx_cons (o : Int) (os : List Int) (i : Nat) (idx : List Nat) :
    relIdx (o :: os) (i :: idx) = ((i : Int) - o).toNat :: relIdx os idx := by
  unfold relIdx; rw [List.length_cons, tab_succ]; simp

theorem Shifted.unview_eq {os es : List Int} {rs ss : List RIx} (h : Shifted os es rs ss)
    (idx : List Nat) (hl : idx.length = os.length) :
    unview ss idx = if ∀ k, k < os.length → os.getD k 0 ≤ (idx.getD k 0 : Nat) ∧
        ((idx.getD k 0 : Nat) : Int) < os.getD k 0 + es.getD k 0 then unview rs (relIdx os idx)
      else none := by
  induction h generalizing idx with
  | nil => cases idx with
    | nil => simp [unview, relIdx]
    | cons => simp at hl
  | @cons o e os es r rs ss ho hr _ ih =>
    match idx, hl with
    | i :: idx, hl =>
      have ih' := ih idx (by simpa using hl)
      rw [relIdx_cons]
      have key : (∀ k, k < (o :: os).length → (o :: os).getD k 0 ≤ ((i :: idx).getD k 0 : Nat) ∧
          (((i :: idx).getD k 0 : Nat) : Int) < (o :: os).getD k 0 + (e :: es).getD k 0) ↔
          (o ≤ i ∧ (i : Int) < o + e) ∧ ∀ k, k < os.length → os.getD k 0 ≤ (idx.getD k 0 : Nat) ∧
            ((idx.getD k 0 : Nat) : Int) < os.getD k 0 + es.getD k 0 := by
        constructor
        · intro h
          exact ⟨by simpa using h 0 (by simp), fun k hk => by simpa using h (k + 1) (by simpa using hk)⟩
        · rintro ⟨h1, h2⟩ k hk
          cases k with
          | zero => simpa using h1
          | succ k => simpa using h2 k (by simpa using hk)
      rw [if_congr key rfl rfl]
      cases r with
      | int j =>
        have hr' : (j : Int) < e := hr
        simp only [RIx.shift, unview, ih']
        by_cases c : i = (o + j).toNat
        · rw [if_pos c, if_pos (show ((i : Int) - o).toNat = j by omega)]
          by_cases c2 : ∀ k, k < os.length → os.getD k 0 ≤ (idx.getD k 0 : Nat) ∧
            ((idx.getD k 0 : Nat) : Int) < os.getD k 0 + es.getD k 0
          · rw [if_pos c2, if_pos ⟨⟨by omega, by omega⟩, c2⟩]
          · rw [if_neg c2, if_neg (fun h => c2 h.2)]
        · rw [if_neg c]
          split
          · rename_i hh
            rw [if_neg (by omega)]
          · rfl
      | slice a st c =>
        obtain ⟨h0, h1, h2⟩ := hr
        simp only [RIx.shift, unview, ih']
        by_cases c2 : ∀ k, k < os.length → os.getD k 0 ≤ (idx.getD k 0 : Nat) ∧
            ((idx.getD k 0 : Nat) : Int) < os.getD k 0 + es.getD k 0
        · rw [if_pos c2]
          by_cases c1 : o ≤ i ∧ (i : Int) < o + e
          · simp only [eq_true c2, eq_true c1, and_self, if_true]
            have e1 : (((i : Int) - o).toNat : Int) - a = i - (o + a) := by omega
            have e2 : ∀ t : Int, (a + t = (((i : Int) - o).toNat : Int)) ↔ (o + a + t = i) := by
              intro t; omega
            rw [e1]
            simp only [e2]
          · simp only [eq_false c1, false_and, if_false]
            rw [if_neg]
            rintro ⟨g1, g2, g3⟩
            have := h2 (((i : Int) - (o + a)) / st).toNat (by omega)
            rw [Int.toNat_of_nonneg g1] at this
            have : 0 ≤ st * (((i : Int) - (o + a)) / st) := Int.mul_nonneg (by omega) g1
            omega
        · simp only [eq_false c2, and_false, if_false]
          split <;> rfl

end FV3
