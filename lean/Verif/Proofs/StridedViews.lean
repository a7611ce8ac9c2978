import Verif.Proofs.Strided

/-!
# Views of memory
-/

namespace FV3
namespace Strided
variable {α : Type}

/-- A resolved entry selects elements of an axis of length `n`. -/
def ROk (n : Nat) : RIx → Prop
  | .int i => i < n
  | .slice a st c => st ≠ 0 ∧ ∀ j : Nat, j < c → 0 ≤ a + st * j ∧ a + st * j < n

theorem clamp_pos {len : Nat} (v : Int) : 0 ≤ clampIx false len v ∧ clampIx false len v ≤ len := by
  unfold clampIx
  simp only [Bool.false_eq_true, if_false]
  split <;> split <;> (try split) <;> omega

theorem clamp_neg {len : Nat} (v : Int) : -1 ≤ clampIx true len v ∧ clampIx true len v < len := by
  unfold clampIx
  simp only [if_true]
  split <;> split <;> (try split) <;> omega

theorem count_pos {a b st : Int} (hst : 0 < st) {j : Nat} (hab : a < b) (hj : j < ((b - a - 1) / st + 1).toNat) :
    a + st * j < b := by
  have h0 : 0 ≤ (b - a - 1) / st := Int.ediv_nonneg (by omega) (by omega)
  have h1 : (j : Int) ≤ (b - a - 1) / st := by omega
  have h2 := Int.mul_le_mul_of_nonneg_left h1 (by omega : (0 : Int) ≤ st)
  have h3 := Int.mul_ediv_self_le (x := b - a - 1) (k := st) (by omega)
  omega

theorem resolve_ok {s : PySlice} {n : Nat} {r : RIx} (h : s.resolve n = .ok r) : ROk n r := by
  unfold PySlice.resolve at h
  simp only at h
  split at h
  · cases h
  · next hst =>
    split at h
    · next hpos =>
      simp only [Except.ok.injEq] at h
      subst h
      refine ⟨hst, fun j hj => ?_⟩
      have ha : 0 ≤ (s.start.map (clampIx false n)).getD 0 := by
        cases s.start with
        | none => exact Int.le_refl _
        | some v => exact (clamp_pos v).1
      have hb : (s.stop.map (clampIx false n)).getD n ≤ n := by
        cases s.stop with
        | none => exact Int.le_refl _
        | some v => exact (clamp_pos v).2
      split at hj
      · next hab =>
        have h1 := count_pos hpos hab hj
        have h2 := Int.mul_nonneg (Int.le_of_lt hpos) (show (0 : Int) ≤ j by omega)
        omega
      · omega
    · next hpos =>
      simp only [Except.ok.injEq] at h
      subst h
      refine ⟨hst, fun j hj => ?_⟩
      have ha : (s.start.map (clampIx true n)).getD ((n : Int) - 1) < n := by
        cases s.start with
        | none => show (n : Int) - 1 < n; omega
        | some v => exact (clamp_neg v).2
      have hb : -1 ≤ (s.stop.map (clampIx true n)).getD (-1) := by
        cases s.stop with
        | none => exact Int.le_refl _
        | some v => exact (clamp_neg v).1
      split at hj
      · next hab =>
        have h1 := count_pos (a := (s.stop.map (clampIx true n)).getD (-1))
          (b := (s.start.map (clampIx true n)).getD ((n : Int) - 1)) (st := -(s.step.getD 1)) (by omega) hab hj
        have h2 := Int.mul_nonneg (show 0 ≤ -(s.step.getD 1) by omega) (show (0 : Int) ≤ j by omega)
        rw [Int.neg_mul] at h1 h2
        omega
      · omega

theorem ix_resolve_ok {e : Ix} {n : Nat} {r : RIx} (h : e.resolve n = .ok r) : ROk n r := by
  cases e with
  | int i =>
    have h' : (if 0 ≤ (if i < 0 then i + n else i) ∧ (if i < 0 then i + n else i) < n then
        Except.ok (RIx.int (if i < 0 then i + n else i).toNat) else Except.error PyErr.indexError : Py RIx) = .ok r := h
    generalize (if i < 0 then i + (n : Int) else i) = k at h'
    by_cases hk : 0 ≤ k ∧ k < n
    · rw [if_pos hk] at h'
      have e : r = .int k.toNat := by simpa using h'.symm
      rw [e]
      show k.toNat < n
      omega
    · rw [if_neg hk] at h'
      cases h'
  | slice s => exact resolve_ok h

theorem resolveAll_ok {ix : List Ix} {s : List Nat} {rs : List RIx} (h : resolveAll ix s = .ok rs) :
    List.Forall₂ ROk s rs := by
  induction s generalizing ix rs with
  | nil =>
    cases ix with
    | nil =>
      have e : rs = [] := by
        have : (Except.ok [] : Py (List RIx)) = .ok rs := h
        simpa using this.symm
      rw [e]
      exact .nil
    | cons e es => cases h
  | cons n s ih =>
    cases ix with
    | nil =>
      unfold resolveAll at h
      cases h1 : resolveAll [] s with
      | error e => rw [h1] at h; cases h
      | ok rest =>
        rw [h1] at h
        have e : rs = .slice 0 1 n :: rest := by
          have : (Except.ok (.slice 0 1 n :: rest) : Py (List RIx)) = .ok rs := h
          simpa using this.symm
        rw [e]
        exact .cons ⟨by decide, fun j hj => by omega⟩ (ih h1)
    | cons e es =>
      unfold resolveAll at h
      cases h0 : e.resolve n with
      | error e => rw [h0] at h; cases h
      | ok r =>
        rw [h0] at h
        cases h1 : resolveAll es s with
        | error e =>
          have : (do let rest ← resolveAll es s; Except.ok (r :: rest) : Py (List RIx)) = .ok rs := h
          rw [h1] at this; cases this
        | ok rest =>
          have h' : (do let rest ← resolveAll es s; Except.ok (r :: rest) : Py (List RIx)) = .ok rs := h
          rw [h1] at h'
          have e : rs = r :: rest := by
            have : (Except.ok (r :: rest) : Py (List RIx)) = .ok rs := h'
            simpa using this.symm
          rw [e]
          exact .cons (ix_resolve_ok h0) (ih h1)

theorem viewIdx_inB {s : List Nat} {rs : List RIx} (h : List.Forall₂ ROk s rs) {rel : List Nat}
    (hr : InB (viewShape rs) rel) : InB s (viewIdx rs rel) := by
  induction h generalizing rel with
  | nil => exact trivial
  | @cons n r s rs h0 _ ih =>
    cases r with
    | int i => exact ⟨h0, ih hr⟩
    | slice a st c =>
      match rel, hr with
      | j :: rel, hr =>
        have := h0.2 j hr.1
        exact ⟨by show Int.toNat _ < n; omega, ih hr.2⟩

theorem viewIdx_inj {s : List Nat} {rs : List RIx} (h : List.Forall₂ ROk s rs) {rel rel' : List Nat}
    (hr : InB (viewShape rs) rel) (hr' : InB (viewShape rs) rel') (he : viewIdx rs rel = viewIdx rs rel') :
    rel = rel' := by
  induction h generalizing rel rel' with
  | nil =>
    match rel, rel', hr, hr' with
    | [], [], _, _ => rfl
  | @cons n r s rs h0 _ ih =>
    cases r with
    | int i => exact ih hr hr' (List.cons.inj he).2
    | slice a st c =>
      match rel, rel', hr, hr' with
      | j :: rel, j' :: rel', hr, hr' =>
        have h1 := h0.2 j hr.1
        have h2 := h0.2 j' hr'.1
        have e := List.cons.inj he
        have e1 : st * (j : Int) = st * (j' : Int) := by have := e.1; omega
        have e2 := Int.eq_of_mul_eq_mul_left h0.1 e1
        rw [ih hr.2 hr'.2 e.2, show j = j' by omega]

theorem dot_view {s : List Nat} {rs : List RIx} (h : List.Forall₂ ROk s rs) {ss : List Int} (hl : ss.length = s.length)
    {rel : List Nat} (hr : InB (viewShape rs) rel) :
    dot ss (viewIdx rs rel) = sliceStart rs ss + dot (sliceStrides rs ss) rel := by
  induction h generalizing rel ss with
  | nil =>
    match ss, hl, rel, hr with
    | [], _, [], _ => rfl
  | @cons n r s rs h0 _ ih =>
    match ss, hl with
    | st' :: ss, hl =>
      have hl' : ss.length = s.length := by simpa using hl
      cases r with
      | int i =>
        show st' * i + dot ss (viewIdx rs rel) = i * st' + sliceStart rs ss + _
        rw [ih hl' hr, Int.mul_comm, ← Int.add_assoc]
        rfl
      | slice a st c =>
        match rel, hr with
        | j :: rel, hr =>
          have h1 := h0.2 j hr.1
          show st' * ((a + st * j).toNat : Nat) + dot ss (viewIdx rs rel) =
            a * st' + sliceStart rs ss + (st * st' * j + dot (sliceStrides rs ss) rel)
          rw [ih hl' hr.2, Int.toNat_of_nonneg h1.1, Int.mul_add, Int.mul_comm st' a, ← Int.mul_assoc, Int.mul_comm st' st]
          omega

theorem length_sliceStrides {s : List Nat} {rs : List RIx} (h : List.Forall₂ ROk s rs) {ss : List Int}
    (hl : ss.length = s.length) : (sliceStrides rs ss).length = (viewShape rs).length := by
  induction h generalizing ss with
  | nil =>
    match ss, hl with
    | [], _ => rfl
  | @cons n r s rs h0 _ ih =>
    match ss, hl with
    | st' :: ss, hl =>
      have hl' : ss.length = s.length := by simpa using hl
      cases r with
      | int i => exact ih hl'
      | slice a st c =>
        show (_ :: sliceStrides rs ss).length = (c :: viewShape rs).length
        simp [ih hl']

/-! ### Flips and exchanges of axes -/

theorem dot_set_idx (ss : List Int) (idx : List Nat) (p : Nat) (i : Nat) (hp : p < idx.length) (hl : ss.length = idx.length) :
    dot ss (idx.set p i) = dot ss idx + ss.getD p 0 * ((i : Int) - (idx.getD p 0 : Nat)) := by
  induction ss generalizing idx p with
  | nil => simp at hl; omega
  | cons s ss ih =>
    match idx, hl with
    | j :: idx, hl =>
      cases p with
      | zero =>
        show s * i + dot ss idx = s * j + dot ss idx + s * (i - j)
        rw [Int.mul_sub]; omega
      | succ p =>
        show s * j + dot ss (idx.set p i) = s * j + dot ss idx + ss.getD p 0 * (i - (idx.getD p 0 : Nat))
        rw [ih idx p (by simpa using hp) (by simpa using hl)]
        omega

theorem dot_set_str (ss : List Int) (idx : List Nat) (p : Nat) (a : Int) (hp : p < idx.length) (hl : ss.length = idx.length) :
    dot (ss.set p a) idx = dot ss idx + (a - ss.getD p 0) * (idx.getD p 0 : Nat) := by
  induction ss generalizing idx p with
  | nil => simp at hl; omega
  | cons s ss ih =>
    match idx, hl with
    | j :: idx, hl =>
      cases p with
      | zero =>
        show a * j + dot ss idx = s * j + dot ss idx + (a - s) * j
        rw [Int.sub_mul]; omega
      | succ p =>
        show s * j + dot (ss.set p a) idx = s * j + dot ss idx + (a - ss.getD p 0) * (idx.getD p 0 : Nat)
        rw [ih idx p (by simpa using hp) (by simpa using hl)]
        omega

/-- Index in the array of an index of the flipped array. -/
def flipIdx (s : List Nat) (ax : Nat) (idx : List Nat) : List Nat := idx.set ax (s.getD ax 0 - 1 - idx.getD ax 0)

theorem flipIdx_inB {s idx : List Nat} {ax : Nat} (h : InB s idx) (hax : ax < s.length) : InB s (flipIdx s ax idx) := by
  rw [inB_iff] at h ⊢
  unfold flipIdx
  refine ⟨by simpa using h.1, fun k hk => ?_⟩
  rw [getD_set]
  have := h.2 k hk
  split
  · next e => rw [e.1] at this ⊢; omega
  · exact this

theorem flipIdx_flipIdx {s idx : List Nat} {ax : Nat} (h : InB s idx) (hax : ax < s.length) :
    flipIdx s ax (flipIdx s ax idx) = idx := by
  rw [inB_iff] at h
  unfold flipIdx
  apply ext_getD 0 (by simp)
  intro k hk
  have hax' : ax < idx.length := by rw [h.1]; exact hax
  rw [getD_set, getD_set, getD_set]
  have := h.2 ax hax
  by_cases e : k = ax
  · subst e
    rw [if_pos ⟨rfl, by simpa using hax'⟩, if_pos ⟨rfl, hax'⟩]
    omega
  · simp [e]

theorem flip_addr {v : View} (hl : v.strides.length = v.shape.length) {ax : Nat} (hax : ax < v.shape.length)
    {idx : List Nat} (hi : InB v.shape idx) : (v.flip ax).addr idx = v.addr (flipIdx v.shape ax idx) := by
  have h := (inB_iff _ _).1 hi
  unfold View.addr View.flip flipIdx
  simp only
  rw [dot_set_str _ _ _ _ (by omega) (by omega), dot_set_idx _ _ _ _ (by omega) (by omega)]
  have := h.2 ax hax
  rw [show ((v.shape.getD ax 0 - 1 - idx.getD ax 0 : Nat) : Int) = v.shape.getD ax 0 - 1 - idx.getD ax 0 by omega]
  simp only [Int.mul_sub, Int.sub_mul, Int.neg_mul]
  omega

/-- Index in the array of an index of the array with exchanged axes. -/
def swapIdx (p q : Nat) (idx : List Nat) : List Nat := (idx.set p (idx.getD q 0)).set q (idx.getD p 0)

theorem swap_getD {A : Type} (l : List A) (d : A) {p q : Nat} (hp : p < l.length) (hq : q < l.length) (k : Nat) :
    ((l.set p (l.getD q d)).set q (l.getD p d)).getD k d = l.getD (if k = q then p else if k = p then q else k) d := by
  rw [getD_set, getD_set]
  by_cases h1 : k = q
  · subst h1
    simp [hq]
  · by_cases h2 : k = p
    · subst h2
      simp [h1, hp]
    · simp [h1, h2]

theorem swapIdx_inB {s idx : List Nat} {p q : Nat} (hp : p < s.length) (hq : q < s.length)
    (h : InB ((s.set p (s.getD q 0)).set q (s.getD p 0)) idx) : InB s (swapIdx p q idx) := by
  rw [inB_iff] at h ⊢
  have hlen : idx.length = s.length := by simpa using h.1
  refine ⟨by unfold swapIdx; simpa using hlen, fun k hk => ?_⟩
  unfold swapIdx
  rw [swap_getD _ _ (by omega) (by omega)]
  have := h.2 (if k = q then p else if k = p then q else k) (by simp; split <;> (try split) <;> omega)
  rw [swap_getD _ _ hp hq] at this
  have e : (if (if k = q then p else if k = p then q else k) = q then p else
      if (if k = q then p else if k = p then q else k) = p then q else
        (if k = q then p else if k = p then q else k)) = k := by
    split <;> split <;> (try split) <;> (try split) <;> omega
  rw [e] at this
  exact this

theorem swapIdx_swapIdx {idx : List Nat} {p q : Nat} (hp : p < idx.length) (hq : q < idx.length) :
    swapIdx p q (swapIdx p q idx) = idx := by
  apply ext_getD 0 (by simp [swapIdx])
  intro k hk
  have hl : (swapIdx p q idx).length = idx.length := by simp [swapIdx]
  unfold swapIdx
  have e1 := swap_getD (swapIdx p q idx) 0 (p := p) (q := q) (by omega) (by omega) k
  unfold swapIdx at e1
  rw [e1, swap_getD _ _ hp hq]
  congr 1
  split <;> split <;> (try split) <;> (try split) <;> omega

theorem swap_addr {v : View} (hl : v.strides.length = v.shape.length) {p q : Nat} (hp : p < v.shape.length)
    (hq : q < v.shape.length) {idx : List Nat} (hi : idx.length = v.shape.length) :
    (v.swapAxes p q).addr idx = v.addr (swapIdx p q idx) := by
  unfold View.addr View.swapAxes swapIdx
  simp only
  rw [dot_set_str _ _ _ _ (by omega) (by simp; omega), dot_set_str _ _ _ _ (by omega) (by omega),
    dot_set_idx _ _ _ _ (by simp; omega) (by simp; omega), dot_set_idx _ _ _ _ (by omega) (by omega)]
  rw [getD_set, getD_set]
  by_cases h : q = p
  · subst h
    simp [hl, hi, hq]
  · simp only [h, false_and, if_false]
    simp only [Int.mul_sub, Int.sub_mul]
    have e1 := Int.mul_comm (v.strides.getD q 0) (idx.getD p 0 : Nat)
    have e2 := Int.mul_comm (v.strides.getD p 0) (idx.getD q 0 : Nat)
    omega

end Strided
end FV3
