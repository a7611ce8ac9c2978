import Verif.Model.Corners
import Verif.Proofs.CornerGeometry
import Verif.Props.Views
import Verif.Props.Halo
import Verif.Props.Partition

/-!
# C33 Corner filling
-/

namespace FV3
variable {α : Type}

theorem set01 {idx : List Nat} {m : Nat} (hl : idx.length = m) (h2 : 2 ≤ m) (x y : Nat) :
    (idx.set 0 x).set 1 y = tab m fun k => if k = 0 then x else if k = 1 then y else idx.getD k 0 := by
  apply ext_getD 0 (by simp [hl])
  intro k hk
  rw [List.length_set, List.length_set, hl] at hk
  rw [getD_tab _ _ hk, getD_set, getD_set, List.length_set, hl]
  by_cases h1 : k = 1
  · subst h1; simp; omega
  · by_cases h0 : k = 0
    · subst h0; simp; omega
    · simp [h0, h1]

/-- Lower bounds of `view.c[a0:b0, a1:b1]`. -/
def lo2 (q : Quantity α) (c : Corner) (a0 a1 : Int) (k : Nat) : Int :=
  if k = 0 then (viewBase q 0 c).1 + a0 else if k = 1 then (viewBase q 1 c).1 + a1 else q.o k

/-- Sizes of `view.c[a:a+n, b:b+n]`. -/
def sz2 (q : Quantity α) (n : Int) (k : Nat) : Nat := if k = 0 ∨ k = 1 then n.toNat else (q.e k).toNat

section
variable {q : Quantity α} (hq : q.WF) (h2 : 2 ≤ q.ndim) {c : Corner} (hc : c ≠ .interior)
  {a0 a1 n : Int} (hn : 0 ≤ n)
  (h0 : 0 ≤ (viewBase q 0 c).1 + a0 ∧ (viewBase q 0 c).1 + a0 + n ≤ q.n 0)
  (h1 : 0 ≤ (viewBase q 1 c).1 + a1 ∧ (viewBase q 1 c).1 + a1 + n ≤ q.n 1)
include hq h2 hc hn h0 h1

theorem index2 : (tab q.ndim fun k => countFrom (viewBase q k c).1 (viewBase q k c).2 (q.o k) (q.e k)
      ((VIdx.tuple [.slice (.of a0 (a0 + n)), .slice (.of a1 (a1 + n))]).entries.getD k (.slice .full))) =
    tab q.ndim fun k => .slice (.of (lo2 q c a0 a1 k) (lo2 q c a0 a1 k + sz2 q n k)) := by
  apply tab_congr
  intro k hk
  have hb : ∀ k, (viewBase q k c).2 = (viewBase q k c).1 := by
    intro k; cases c <;> first | rfl | exact absurd rfl hc
  simp only [VIdx.entries, hb]
  match k with
  | 0 =>
    simp only [lo2, sz2, if_true, true_or, Int.toNat_of_nonneg hn, List.getD_cons_zero, countFrom, PySlice.of,
      Int.add_assoc]
  | 1 =>
    simp only [lo2, sz2, if_true, or_true, Int.toNat_of_nonneg hn, countFrom, PySlice.of, Int.add_assoc,
      List.getD_cons_succ, List.getD_cons_zero, if_neg (show ¬ (1 : Nat) = 0 by decide)]
  | k + 2 =>
    have he := (hq.inside (k + 2) hk).2.1
    simp only [lo2, sz2, List.getD_cons_succ, List.getD_nil, countFrom, PySlice.of, PySlice.full,
      if_neg (show ¬ k + 2 = 0 by omega), if_neg (show ¬ k + 2 = 1 by omega),
      if_neg (show ¬ (k + 2 = 0 ∨ k + 2 = 1) by omega), Int.toNat_of_nonneg he]

theorem resolve2 : resolveAll (tab q.ndim fun k =>
      .slice (.of (lo2 q c a0 a1 k) (lo2 q c a0 a1 k + sz2 q n k))) q.data.shape =
    .ok (boxRs q.ndim (lo2 q c a0 a1) (sz2 q n)) := by
  rw [resolveAll_box q.ndim _ _ _ hq.shape]
  · congr 1
    unfold boxRs
    apply tab_congr
    intro k hk
    congr 1
    dsimp only
    omega
  · intro k hk
    have hi := hq.inside k hk
    unfold Quantity.n at h0 h1 hi
    unfold lo2 sz2
    by_cases e0 : k = 0
    · subst e0
      rw [if_pos rfl, if_pos (Or.inl rfl)]; omega
    · by_cases e1 : k = 1
      · subst e1
        rw [if_neg (by decide), if_pos rfl, if_pos (Or.inr rfl)]; omega
      · rw [if_neg e0, if_neg e1, if_neg (by omega)]; omega

theorem cornerGet2 : ∃ r, q.cornerGet c (.tuple [.slice (.of a0 (a0 + n)), .slice (.of a1 (a1 + n))]) = .ok r ∧
    r.shape = tab q.ndim (sz2 q n) ∧
    ∀ rel, r.get rel = q.data.get (tab q.ndim fun k => (lo2 q c a0 a1 k + at' rel k).toNat) := by
  rw [(C30_corner_reads q hq.toLens (by omega) c _).1 (by simpa [VIdx.entries] using h2),
    index2 hq h2 hc hn h0 h1]
  unfold NDArray.getItem
  rw [resolve2 hq h2 hc hn h0 h1]
  refine ⟨_, rfl, ?_, ?_⟩
  · show viewShape _ = _
    rw [viewShape_box]
  · intro rel
    show q.data.get (viewIdx _ rel) = _
    rw [viewIdx_box]

theorem cornerSet2 (v : NDArray α) (hv : v.shape = tab q.ndim (sz2 q n)) :
    ∃ q', q.cornerSet c (.tuple [.slice (.of a0 (a0 + n)), .slice (.of a1 (a1 + n))]) v = .ok q' ∧
      SameMeta q q' ∧ ∀ idx, idx.length = q.ndim → q'.data.get idx =
        if ∀ k, k < q.ndim → lo2 q c a0 a1 k ≤ at' idx k ∧ at' idx k < lo2 q c a0 a1 k + sz2 q n k then
          v.get (tab q.ndim fun k => (at' idx k - lo2 q c a0 a1 k).toNat)
        else q.data.get idx := by
  rw [C30_corner_writes q hq.toLens c _ (by simpa [VIdx.entries] using h2), index2 hq h2 hc hn h0 h1]
  rw [NDArray.setItem_same (resolve2 hq h2 hc hn h0 h1) (by rw [viewShape_box, hv])]
  refine ⟨_, rfl, ⟨rfl, rfl, rfl, rfl, rfl⟩, ?_⟩
  intro idx hl
  show (match unview (boxRs q.ndim (lo2 q c a0 a1) (sz2 q n)) idx with
    | some rel => v.get rel | none => q.data.get idx) = _
  rw [unview_box q.ndim _ _ idx hl]
  split <;> rename_i hh
  · split at hh
    · cases hh; rw [if_pos ‹_›]
    · cases hh
  · split at hh
    · cases hh
    · rw [if_neg ‹_›]
end

theorem rot90_one (a : NDArray α) (j0 j1 : Nat) (rest : List Nat) :
    (a.rot90 1 0 1).get (j0 :: j1 :: rest) = a.get (j1 :: (a.shape.getD 1 0 - 1 - j0) :: rest) := rfl

theorem rot90_neg (a : NDArray α) (s0 s1 : Nat) (ss : List Nat) (hs : a.shape = s0 :: s1 :: ss) (j0 j1 : Nat)
    (rest : List Nat) :
    (a.rot90 (-1) 0 1).get (j0 :: j1 :: rest) = a.get ((s0 - 1 - j1) :: j0 :: rest) := by
  show (((a.swapAxes 0 1).flip 1)).get _ = _
  simp [NDArray.flip, NDArray.swapAxes, hs]

theorem rot90_shape (a : NDArray α) (s : Nat) (ss : List Nat) (hs : a.shape = s :: s :: ss) (k : Int)
    (hk : k = 1 ∨ k = -1) : (a.rot90 k 0 1).shape = s :: s :: ss := by
  rcases hk with rfl | rfl
  · show ((a.flip 1).swapAxes 0 1).shape = _
    simp [NDArray.flip, NDArray.swapAxes, hs]
  · show ((a.swapAxes 0 1).flip 1).shape = _
    simp [NDArray.flip, NDArray.swapAxes, hs]

theorem tab_two {β : Type} {m : Nat} (h : 2 ≤ m) (f : Nat → β) :
    tab m f = f 0 :: f 1 :: tab (m - 2) (fun k => f (k + 2)) := by
  obtain ⟨j, rfl⟩ : ∃ j, m = j + 2 := ⟨m - 2, by omega⟩
  rw [tab_succ, tab_succ]; rfl

/-- One of the copies. -/
theorem copyTurned_ok {q : Quantity α} (hq : q.WF) (h2 : 2 ≤ q.ndim) {c : Corner} (hc : c ≠ .interior)
    {d0 d1 s0 s1 n k : Int} (hn : 0 ≤ n) (hk : k = 1 ∨ k = -1)
    (hd0 : 0 ≤ (viewBase q 0 c).1 + d0 ∧ (viewBase q 0 c).1 + d0 + n ≤ q.n 0)
    (hd1 : 0 ≤ (viewBase q 1 c).1 + d1 ∧ (viewBase q 1 c).1 + d1 + n ≤ q.n 1)
    (hs0 : 0 ≤ (viewBase q 0 c).1 + s0 ∧ (viewBase q 0 c).1 + s0 + n ≤ q.n 0)
    (hs1 : 0 ≤ (viewBase q 1 c).1 + s1 ∧ (viewBase q 1 c).1 + s1 + n ≤ q.n 1) :
    ∃ q', copyTurned c (d0, d0 + n, d1, d1 + n) (s0, s0 + n, s1, s1 + n) k q = .ok q' ∧ SameMeta q q' ∧
      ∀ idx, idx.length = q.ndim →
        ((∀ j, j < q.ndim → lo2 q c d0 d1 j ≤ at' idx j ∧ at' idx j < lo2 q c d0 d1 j + sz2 q n j) →
          ∀ src, src.length = q.ndim → (∀ j, j ≠ 0 → j ≠ 1 → at' src j = at' idx j) →
            (at' src 0 = (viewBase q 0 c).1 + s0 +
              (if k = 1 then at' idx 1 - (viewBase q 1 c).1 - d1 else n - 1 - (at' idx 1 - (viewBase q 1 c).1 - d1))) →
            (at' src 1 = (viewBase q 1 c).1 + s1 +
              (if k = 1 then n - 1 - (at' idx 0 - (viewBase q 0 c).1 - d0) else at' idx 0 - (viewBase q 0 c).1 - d0)) →
            q'.data.get idx = q.data.get src) ∧
        (¬ (∀ j, j < q.ndim → lo2 q c d0 d1 j ≤ at' idx j ∧ at' idx j < lo2 q c d0 d1 j + sz2 q n j) →
          q'.data.get idx = q.data.get idx) := by
  obtain ⟨s, es, hsh, hsg⟩ := cornerGet2 hq h2 hc hn hs0 hs1
  have hsh' : s.shape = n.toNat :: n.toNat :: tab (q.ndim - 2) (fun k => sz2 q n (k + 2)) := by
    rw [hsh, tab_two h2]; rfl
  obtain ⟨q', eq', hm, hv⟩ := cornerSet2 hq h2 hc hn hd0 hd1 (s.rot90 k 0 1)
    (by rw [rot90_shape s _ _ hsh' k hk, ← hsh', hsh])
  refine ⟨q', ?_, hm, ?_⟩
  · unfold copyTurned
    simp only [es, bind, Except.bind]
    exact eq'
  · intro idx hl
    refine ⟨?_, fun hno => by rw [hv idx hl, if_neg hno]⟩
    intro hin src hsl ho hx hy
    rw [hv idx hl, if_pos hin, tab_two h2]
    have i0 := hin 0 (by omega)
    have i1 := hin 1 (by omega)
    simp only [lo2, sz2, if_true, true_or, or_true, if_neg (show ¬ (1 : Nat) = 0 by decide)] at i0 i1
    have hsz : s.shape.getD 1 0 = n.toNat := by rw [hsh']; rfl
    have key : ∀ rel : List Nat, rel.length = q.ndim → (∀ j, j < q.ndim → lo2 q c s0 s1 j + at' rel j = at' src j) →
        s.get rel = q.data.get src := by
      intro rel hrl hr
      rw [hsg rel]
      congr 1
      apply ext_getD 0 (by simp [hsl])
      intro j hj
      rw [length_tab] at hj
      rw [getD_tab _ _ hj, hr j hj]
      exact Int.toNat_natCast _
    have hoth : ∀ j, j < q.ndim → j ≠ 0 → j ≠ 1 →
        lo2 q c s0 s1 j + ((at' idx j - lo2 q c d0 d1 j).toNat : Int) = at' src j := by
      intro j hj e0 e1
      have := hin j hj
      rw [ho j e0 e1]
      have e2 : lo2 q c s0 s1 j = lo2 q c d0 d1 j := by simp only [lo2, if_neg e0, if_neg e1]
      omega
    rcases hk with rfl | rfl
    · rw [rot90_one]
      apply key
      · simp only [List.length_cons, length_tab]; omega
      · intro j hj
        match j with
        | 0 =>
          rw [if_pos rfl] at hx
          simp only [lo2, at', List.getD_cons_zero, if_true, if_neg (show ¬ (1 : Nat) = 0 by decide)] at hx ⊢
          simp only [at'] at i1
          omega
        | 1 =>
          rw [if_pos rfl] at hy
          simp only [lo2, at', List.getD_cons_succ, List.getD_cons_zero, if_true,
            if_neg (show ¬ (1 : Nat) = 0 by decide), hsz] at hy ⊢
          simp only [at'] at i0
          omega
        | j + 2 =>
          have h3 := hoth (j + 2) hj (by omega) (by omega)
          show lo2 q c s0 s1 (j + 2) + ((tab (q.ndim - 2) _).getD j 0 : Nat) = _
          rw [getD_tab _ _ (by omega)]
          exact h3
    · rw [rot90_neg s _ _ _ hsh']
      apply key
      · simp only [List.length_cons, length_tab]; omega
      · intro j hj
        match j with
        | 0 =>
          rw [if_neg (by decide)] at hx
          simp only [lo2, at', List.getD_cons_zero, if_true, if_neg (show ¬ (1 : Nat) = 0 by decide)] at hx ⊢
          simp only [at'] at i1
          omega
        | 1 =>
          rw [if_neg (by decide)] at hy
          simp only [lo2, at', List.getD_cons_succ, List.getD_cons_zero, if_true,
            if_neg (show ¬ (1 : Nat) = 0 by decide)] at hy ⊢
          simp only [at'] at i0
          omega
        | j + 2 =>
          have h3 := hoth (j + 2) hj (by omega) (by omega)
          show lo2 q c s0 s1 (j + 2) + ((tab (q.ndim - 2) _).getD j 0 : Nat) = _
          rw [getD_tab _ _ (by omega)]
          exact h3

/-- The copy for one corner has been made. -/
structure Filled (q : Quantity α) (direction : String) (n : Int) (w s : Bool) (q' : Quantity α) : Prop where
  same : SameMeta q q'
  corner : ∀ idx p r src, CornerPt q w s n idx p r → CornerSrc q direction w s idx p r src →
    q'.data.get idx = q.data.get src
  rest : ∀ idx, idx.length = q.ndim → (∀ p r, ¬ CornerPt q w s n idx p r) → q'.data.get idx = q.data.get idx

/-- Enough halo, and enough points in the compute domain. -/
structure CornerReady (q : Quantity α) (n : Int) : Prop where
  wf : q.WF
  axes : HAxes q.dims 1 0
  n0 : 0 < n
  haloX : n ≤ q.o 0 ∧ q.o 0 + q.e 0 + n ≤ q.n 0
  haloY : n ≤ q.o 1 ∧ q.o 1 + q.e 1 + n ≤ q.n 1
  ex : n + overlapOf (q.d 0) ≤ q.e 0
  ey : n + overlapOf (q.d 1) ≤ q.e 1

theorem CornerReady.ndim {q : Quantity α} {n : Int} (h : CornerReady q n) : 2 ≤ q.ndim := h.axes.ylt

/-- The view of a corner. -/
def cornerOf (w s : Bool) : Corner :=
  match w, s with
  | true, true => .sw
  | true, false => .nw
  | false, true => .se
  | false, false => .ne

theorem cornerOf_base {q : Quantity α} (hA : HAxes q.dims 1 0) (w s : Bool) :
    (viewBase q 0 (cornerOf w s)).1 = (if w then q.o 0 else q.o 0 + q.e 0) ∧
    (viewBase q 1 (cornerOf w s)).1 = (if s then q.o 1 else q.o 1 + q.e 1) := by
  cases w <;> cases s <;>
    simp [cornerOf, viewBase, cornerBase, dirAlong_x hA, dirAlong_y hA, BType.dx, BType.dy]

theorem cornerOf_ne (w s : Bool) : cornerOf w s ≠ .interior := by cases w <;> cases s <;> decide

/-- A copy with the right offsets fills the corner. -/
theorem filled_of_copy {q : Quantity α} {n : Int} (H : CornerReady q n) (direction : String)
    (w s : Bool) {d0 d1 s0 s1 k : Int} (hk : k = 1 ∨ k = -1)
    (hd0 : d0 = if w then -n else 0) (hd1 : d1 = if s then -n else 0)
    (hs0 : s0 = if direction = "x" then (if w then -n else 0)
      else (if w then overlapOf (q.d 0) else -n - overlapOf (q.d 0)))
    (hs1 : s1 = if direction = "x" then (if s then overlapOf (q.d 1) else -n - overlapOf (q.d 1))
      else (if s then -n else 0))
    (hkk : k = if direction = "x" then (if w = s then 1 else -1) else (if w = s then -1 else 1)) :
    ∃ q', copyTurned (cornerOf w s) (d0, d0 + n, d1, d1 + n) (s0, s0 + n, s1, s1 + n) k q = .ok q' ∧
      Filled q direction n w s q' := by
  obtain ⟨b0, b1⟩ := cornerOf_base H.axes w s
  have := H.haloX
  have := H.haloY
  have := H.ex
  have := H.ey
  have := H.n0
  have i0 := H.wf.inside 0 (by have := H.ndim; omega)
  have i1 := H.wf.inside 1 H.ndim
  have v0 := overlapOf_nonneg (q.d 0)
  have v1 := overlapOf_nonneg (q.d 1)
  obtain ⟨q', e, hm, hv⟩ := copyTurned_ok H.wf H.ndim (cornerOf_ne w s) (d0 := d0) (d1 := d1) (s0 := s0)
    (s1 := s1) (n := n) (k := k) (by omega) hk
    (by rw [b0, hd0]; cases w <;> simp <;> omega)
    (by rw [b1, hd1]; cases s <;> simp <;> omega)
    (by rw [b0, hs0]; cases w <;> simp only [Bool.false_eq_true, if_false, if_true] <;> split <;> omega)
    (by rw [b1, hs1]; cases s <;> simp only [Bool.false_eq_true, if_false, if_true] <;> split <;> omega)
  refine ⟨q', e, hm, ?_, ?_⟩
  · intro idx p r src hp hs
    refine (hv idx hp.len).1 ?_ src hs.len hs.other ?_ ?_
    · intro j hj
      have p1 := hp.p1
      have r1 := hp.r1
      have hx := hp.x
      have hy := hp.y
      unfold lo2 sz2
      rw [b0, b1]
      match j with
      | 0 =>
        simp only [if_true, true_or]
        unfold outAt at hx
        cases w <;> simp at hx hd0 ⊢ <;> omega
      | 1 =>
        simp only [if_true, or_true, if_neg (show ¬ (1 : Nat) = 0 by decide)]
        unfold outAt at hy
        cases s <;> simp at hy hd1 ⊢ <;> omega
      | j + 2 =>
        have hd := hp.other (j + 2) hj (by omega) (by omega)
        unfold Quantity.InDom at hd
        have := (H.wf.inside (j + 2) hj).2.1
        simp only [if_neg (show ¬ j + 2 = 0 by omega), if_neg (show ¬ j + 2 = 1 by omega),
          if_neg (show ¬ (j + 2 = 0 ∨ j + 2 = 1) by omega)]
        omega
    · have hx := hs.x
      have hy := hp.y
      rw [hx, b0, b1, hs0, hd1, hkk]
      unfold outAt inAt
      unfold outAt at hy
      by_cases hdir : direction = "x"
      · cases w <;> cases s <;> simp [hdir] at hy ⊢ <;> omega
      · cases w <;> cases s <;> simp [hdir] at hy ⊢ <;> omega
    · have hy := hs.y
      have hx := hp.x
      rw [hy, b0, b1, hs1, hd0, hkk]
      unfold outAt inAt
      unfold outAt at hx
      by_cases hdir : direction = "x"
      · cases w <;> cases s <;> simp [hdir] at hx ⊢ <;> omega
      · cases w <;> cases s <;> simp [hdir] at hx ⊢ <;> omega
  · intro idx hl hno
    refine (hv idx hl).2 fun hin => ?_
    have c0 := hin 0 (by have := H.ndim; omega)
    have c1 := hin 1 H.ndim
    simp only [lo2, sz2, b0, b1, if_true, true_or, or_true, if_neg (show ¬ (1 : Nat) = 0 by decide)] at c0 c1
    refine hno (if w then q.o 0 - at' idx 0 else at' idx 0 - (q.o 0 + q.e 0) + 1)
      (if s then q.o 1 - at' idx 1 else at' idx 1 - (q.o 1 + q.e 1) + 1) ⟨hl, ?_, ?_, ?_, ?_, ?_⟩
    · cases w <;> simp at c0 hd0 ⊢ <;> omega
    · cases s <;> simp at c1 hd1 ⊢ <;> omega
    · unfold outAt; cases w <;> simp <;> omega
    · unfold outAt; cases s <;> simp <;> omega
    · intro k hk e0 e1
      have := hin k hk
      simp only [lo2, sz2, if_neg e0, if_neg e1, if_neg (show ¬ (k = 0 ∨ k = 1) by omega)] at this
      have := (H.wf.inside k hk).2.1
      unfold Quantity.InDom
      omega

/-! ### Four corners in a row -/

/-- The corners in `D` have been filled, starting from `q0`. -/
structure FilledAll (q0 : Quantity α) (direction : String) (n : Int) (D : Bool → Bool → Prop)
    (q : Quantity α) : Prop where
  same : SameMeta q0 q
  corner : ∀ w s, D w s → ∀ idx p r src, CornerPt q0 w s n idx p r → CornerSrc q0 direction w s idx p r src →
    q.data.get idx = q0.data.get src
  rest : ∀ idx, idx.length = q0.ndim → (∀ w s, D w s → ∀ p r, ¬ CornerPt q0 w s n idx p r) →
    q.data.get idx = q0.data.get idx

theorem SameMeta.cornerReady {q q' : Quantity α} (h : SameMeta q q') {n : Int} (H : CornerReady q n) :
    CornerReady q' n := by
  refine ⟨h.wf H.wf, ?_, H.n0, ?_, ?_, ?_, ?_⟩
  · rw [h.dims]; exact H.axes
  · rw [h.o, h.e, h.n]; exact H.haloX
  · rw [h.o, h.e, h.n]; exact H.haloY
  · rw [h.d, h.e]; exact H.ex
  · rw [h.d, h.e]; exact H.ey

theorem SameMeta.cornerPt {q q' : Quantity α} (h : SameMeta q q') (w s : Bool) (n : Int) (idx : List Nat) (p r : Int) :
    CornerPt q' w s n idx p r ↔ CornerPt q w s n idx p r := by
  constructor
  · rintro ⟨h1, h2, h3, h4, h5, h6⟩
    rw [h.o, h.e] at h4 h5
    refine ⟨by rw [h1, h.ndim], h2, h3, h4, h5, fun k hk e0 e1 => ?_⟩
    have := h6 k (by rw [h.ndim]; exact hk) e0 e1
    unfold Quantity.InDom at this ⊢
    rwa [h.o, h.e] at this
  · rintro ⟨h1, h2, h3, h4, h5, h6⟩
    refine ⟨by rw [h1, h.ndim], h2, h3, by rw [h.o, h.e]; exact h4, by rw [h.o, h.e]; exact h5,
      fun k hk e0 e1 => ?_⟩
    have := h6 k (by rw [← h.ndim]; exact hk) e0 e1
    unfold Quantity.InDom at this ⊢
    rwa [h.o, h.e]

theorem SameMeta.cornerSrc {q q' : Quantity α} (h : SameMeta q q') {direction : String} {w s : Bool}
    {idx : List Nat} {p r : Int} {src : List Nat} (hs : CornerSrc q direction w s idx p r src) :
    CornerSrc q' direction w s idx p r src := by
  obtain ⟨h1, h2, h3, h4⟩ := hs
  exact ⟨by rw [h1, h.ndim], h2, by rw [h.o, h.e, h.d]; exact h3, by rw [h.o, h.e, h.d]; exact h4⟩

/-- A point is in one corner square at most. -/
theorem CornerPt.unique {q : Quantity α} {n : Int} (H : CornerReady q n) {w s w' s' : Bool} {idx : List Nat}
    {p r p' r' : Int} (h : CornerPt q w s n idx p r) (h' : CornerPt q w' s' n idx p' r') : w = w' ∧ s = s' := by
  have := h.x
  have := h'.x
  have := h.y
  have := h'.y
  have := h.p1
  have := h'.p1
  have := h.r1
  have := h'.r1
  have i0 := H.wf.inside 0 (by have := H.ndim; omega)
  have i1 := H.wf.inside 1 H.ndim
  unfold outAt at *
  cases w <;> cases w' <;> cases s <;> cases s' <;> simp at * <;> omega

/-- The source of a copy is in no corner square. -/
theorem CornerSrc.not_corner {q : Quantity α} {n : Int} (H : CornerReady q n) {direction : String}
    {w s : Bool} {idx src : List Nat} {p r : Int} (hp : CornerPt q w s n idx p r)
    (hs : CornerSrc q direction w s idx p r src) (w' s' : Bool) (p' r' : Int) :
    ¬ CornerPt q w' s' n src p' r' := by
  intro h
  have e1 := hs.x
  have e2 := hs.y
  have e3 := h.x
  have e4 := h.y
  have := hp.p1
  have := hp.r1
  have := h.p1
  have := h.r1
  have := H.ex
  have := H.ey
  have v0 := overlapOf_nonneg (q.d 0)
  have v1 := overlapOf_nonneg (q.d 1)
  unfold outAt inAt at *
  by_cases hd : direction = "x"
  · cases s <;> cases s' <;> simp [hd] at e2 e4 <;> omega
  · cases w <;> cases w' <;> simp [hd] at e1 e3 <;> omega

theorem FilledAll.step {q0 q q' : Quantity α} {direction : String} {n : Int} {D : Bool → Bool → Prop}
    (H : CornerReady q0 n) (h : FilledAll q0 direction n D q) {w s : Bool} (hw : ¬ D w s)
    (h' : Filled q direction n w s q') :
    FilledAll q0 direction n (fun w' s' => D w' s' ∨ (w' = w ∧ s' = s)) q' := by
  have sm : SameMeta q0 q' := ⟨h'.same.shape.trans h.same.shape, h'.same.dims.trans h.same.dims,
    h'.same.units.trans h.same.units, h'.same.origin.trans h.same.origin, h'.same.extent.trans h.same.extent⟩
  refine ⟨sm, ?_, ?_⟩
  · rintro w1 s1 (hD | ⟨rfl, rfl⟩) idx p r src hp hs
    · rw [h'.rest idx (by rw [hp.len, h.same.ndim]) ?_]
      · exact h.corner w1 s1 hD idx p r src hp hs
      · intro p' r' hc
        obtain ⟨rfl, rfl⟩ := hp.unique H ((h.same.cornerPt _ _ _ _ _ _).1 hc)
        exact hw hD
    · rw [h'.corner idx p r src ((h.same.cornerPt _ _ _ _ _ _).2 hp) (h.same.cornerSrc hs)]
      exact h.rest src hs.len fun w' s' _ p' r' => hs.not_corner H hp w' s' p' r'
  · intro idx hl hno
    rw [h'.rest idx (by rw [hl, h.same.ndim]) fun p r hc =>
      hno w s (Or.inr ⟨rfl, rfl⟩) p r ((h.same.cornerPt _ _ _ _ _ _).1 hc)]
    exact h.rest idx hl fun w' s' hD => hno w' s' (Or.inl hD)

theorem FilledAll.congr {q0 q : Quantity α} {direction : String} {n : Int} {D D' : Bool → Bool → Prop}
    (h : FilledAll q0 direction n D q) (hD : ∀ w s, D' w s ↔ D w s) : FilledAll q0 direction n D' q := by
  have : D' = D := funext fun w => funext fun s => propext (hD w s)
  rw [this]; exact h

theorem shared_eq {direction : String} (d0 d1 : Dim) (hd : direction = "x" ∨ direction = "y") :
    sharedEdgePoints direction d0 d1 = if direction = "x" then overlapOf d1 else overlapOf d0 := by
  unfold sharedEdgePoints overlapOf INTERFACE_DIMS
  rcases hd with rfl | rfl
  · rw [if_neg (by decide), if_pos rfl]
    by_cases h : d1 = .xI ∨ d1 = .yI ∨ d1 = .zI <;> simp [h]
  · rw [if_pos rfl, if_neg (show ¬ "y" = "x" by decide)]
    by_cases h : d0 = .xI ∨ d0 = .yI ∨ d0 = .zI <;> simp [h]

/-- One conditional copy. -/
theorem FilledAll.cond {q0 q : Quantity α} {direction : String} {n : Int} {D : Bool → Bool → Prop}
    (H : CornerReady q0 n) (h : FilledAll q0 direction n D q) {w s : Bool} (hw : ¬ D w s) (c : Bool)
    {f : Quantity α → Py (Quantity α)}
    (hf : c = true → ∃ q', f q = .ok q' ∧ Filled q direction n w s q') :
    ∃ q', onlyIf c f q = .ok q' ∧
      FilledAll q0 direction n (fun w' s' => D w' s' ∨ (c = true ∧ w' = w ∧ s' = s)) q' := by
  by_cases hc : c = true
  · obtain ⟨q', e, h'⟩ := hf hc
    refine ⟨q', by unfold onlyIf; rw [if_pos hc, e], (h.step H hw h').congr fun w' s' => ?_⟩
    simp [hc]
  · refine ⟨q, by unfold onlyIf; rw [if_neg hc], h.congr fun w' s' => ?_⟩
    simp [hc]

/-- **C33.**  `fill_scalar_corners` on a rank changes exactly the `n × n` corner squares at those corners
where the rank is at a corner of its tile, and puts there the values of halo points (`CornerSrc`). -/
theorem C33_fill (q : Quantity α) (direction : String) (hd : direction = "x" ∨ direction = "y") (l : Layout)
    (rank n : Int) (H : CornerReady q n) :
    ∃ q', fillScalarCorners q direction l rank n = .ok q' ∧ SameMeta q q' ∧
      (∀ w s, AtTileCorner l rank w s → ∀ idx p r src, CornerPt q w s n idx p r →
        CornerSrc q direction w s idx p r src → q'.data.get idx = q.data.get src) ∧
      (∀ idx, idx.length = q.ndim → (∀ w s, AtTileCorner l rank w s → ∀ p r, ¬ CornerPt q w s n idx p r) →
        q'.data.get idx = q.data.get idx) := by
  obtain ⟨d0, d1, ds, hdims⟩ : ∃ d0 d1 ds, q.dims = d0 :: d1 :: ds := by
    have := H.ndim
    unfold Quantity.ndim at this
    match hh : q.dims, this with
    | d0 :: d1 :: ds, _ => exact ⟨d0, d1, ds, rfl⟩
  have e0 : q.d 0 = d0 := by unfold Quantity.d; rw [hdims]; rfl
  have e1 : q.d 1 = d1 := by unfold Quantity.d; rw [hdims]; rfl
  have x0 : d0 ∈ X_DIMS := by
    have : IsX d0 := (H.axes.x 0 d0 (by rw [hdims]; rfl)).2 rfl
    rcases this with rfl | rfl <;> decide
  have y1 : d1 ∈ Y_DIMS := by
    have : IsY d1 := (H.axes.y 1 d1 (by rw [hdims]; rfl)).2 rfl
    rcases this with rfl | rfl <;> decide
  have hsh := shared_eq d0 d1 hd
  have H0 : FilledAll q direction n (fun _ _ => False) q :=
    ⟨SameMeta.refl q, fun _ _ h => h.elim, fun _ _ _ => rfl⟩
  have R : ∀ q1, SameMeta q q1 → CornerReady q1 n := fun q1 h => h.cornerReady H
  have M0 : ∀ q1 : Quantity α, SameMeta q q1 → q1.d 0 = d0 := fun q1 h => by rw [h.d, e0]
  have M1 : ∀ q1 : Quantity α, SameMeta q q1 → q1.d 1 = d1 := fun q1 h => by rw [h.d, e1]
  have step : ∀ (q1 : Quantity α), SameMeta q q1 → ∀ w s : Bool, ∀ a0 b0 a1 b1 c0 f0 c1 f1 k : Int,
      (k = if direction = "x" then (if w = s then 1 else -1) else (if w = s then -1 else 1)) →
      a0 = (if w then -n else 0) → b0 = a0 + n → a1 = (if s then -n else 0) → b1 = a1 + n →
      (c0 = if direction = "x" then (if w then -n else 0) else (if w then overlapOf d0 else -n - overlapOf d0)) →
      f0 = c0 + n →
      (c1 = if direction = "x" then (if s then overlapOf d1 else -n - overlapOf d1) else (if s then -n else 0)) →
      f1 = c1 + n →
      ∃ q', copyTurned (cornerOf w s) (a0, b0, a1, b1) (c0, f0, c1, f1) k q1 = .ok q' ∧
        Filled q1 direction n w s q' := by
    intro q1 h1 w s a0 b0 a1 b1 c0 f0 c1 f1 k hk ha0 hb0 ha1 hb1 hc0 hf0 hc1 hf1
    subst hb0 hb1 hf0 hf1
    refine filled_of_copy (R q1 h1) direction w s ?_ ha0 ha1 (by rw [M0 q1 h1]; exact hc0)
      (by rw [M1 q1 h1]; exact hc1) hk
    rw [hk]
    split <;> split <;> simp
  unfold fillScalarCorners
  rw [hdims]
  dsimp only
  rw [if_neg (fun h => h x0), if_neg (fun h => h y1), if_neg (by rcases hd with rfl | rfl <;> decide)]
  simp only [hsh]
  obtain ⟨q1, E1, F1⟩ := H0.cond H (w := true) (s := true) (fun h => h) (onTileBottom l rank && onTileLeft l rank)
    (f := fun q => if direction = "y" then
        copyTurned .sw (-n, 0, -n, 0) (if direction = "x" then overlapOf d1 else overlapOf d0,
          n + (if direction = "x" then overlapOf d1 else overlapOf d0), -n, 0) (-1) q
      else copyTurned .sw (-n, 0, -n, 0) (-n, 0, if direction = "x" then overlapOf d1 else overlapOf d0,
          n + (if direction = "x" then overlapOf d1 else overlapOf d0)) 1 q)
    (fun _ => by
      rcases hd with rfl | rfl
      · exact step q (SameMeta.refl q) true true _ _ _ _ _ _ _ _ _ (by simp) (by simp) (by omega) (by simp) (by omega)
          (by simp) (by omega) (by simp) (by simp; omega)
      · exact step q (SameMeta.refl q) true true _ _ _ _ _ _ _ _ _ (by simp) (by simp) (by omega) (by simp) (by omega)
          (by simp) (by simp; omega) (by simp) (by omega))
  obtain ⟨q2, E2, F2⟩ := F1.cond H (w := true) (s := false) (by simp) (onTileTop l rank && onTileLeft l rank)
    (f := fun q => if direction = "y" then
        copyTurned .nw (-n, 0, 0, n) (if direction = "x" then overlapOf d1 else overlapOf d0,
          n + (if direction = "x" then overlapOf d1 else overlapOf d0), 0, n) 1 q
      else copyTurned .nw (-n, 0, 0, n) (-n, 0, -n - (if direction = "x" then overlapOf d1 else overlapOf d0),
          -(if direction = "x" then overlapOf d1 else overlapOf d0)) (-1) q)
    (fun _ => by
      rcases hd with rfl | rfl
      · exact step q1 F1.same true false _ _ _ _ _ _ _ _ _ (by simp) (by simp) (by omega) (by simp) (by omega)
          (by simp) (by omega) (by simp) (by simp; omega)
      · exact step q1 F1.same true false _ _ _ _ _ _ _ _ _ (by simp) (by simp) (by omega) (by simp) (by omega)
          (by simp) (by simp; omega) (by simp) (by omega))
  obtain ⟨q3, E3, F3⟩ := F2.cond H (w := false) (s := true) (by simp) (onTileBottom l rank && onTileRight l rank)
    (f := fun q => if direction = "y" then
        copyTurned .se (0, n, -n, 0) (-n - (if direction = "x" then overlapOf d1 else overlapOf d0),
          -(if direction = "x" then overlapOf d1 else overlapOf d0), -n, 0) 1 q
      else copyTurned .se (0, n, -n, 0) (0, n, if direction = "x" then overlapOf d1 else overlapOf d0,
          n + (if direction = "x" then overlapOf d1 else overlapOf d0)) (-1) q)
    (fun _ => by
      rcases hd with rfl | rfl
      · exact step q2 F2.same false true _ _ _ _ _ _ _ _ _ (by simp) (by simp) (by omega) (by simp) (by omega)
          (by simp) (by omega) (by simp) (by simp; omega)
      · exact step q2 F2.same false true _ _ _ _ _ _ _ _ _ (by simp) (by simp) (by omega) (by simp) (by omega)
          (by simp) (by simp; omega) (by simp) (by omega))
  obtain ⟨q4, E4, F4⟩ := F3.cond H (w := false) (s := false) (by simp) (onTileTop l rank && onTileRight l rank)
    (f := fun q => if direction = "y" then
        copyTurned .ne (0, n, 0, n) (-n - (if direction = "x" then overlapOf d1 else overlapOf d0),
          -(if direction = "x" then overlapOf d1 else overlapOf d0), 0, n) (-1) q
      else copyTurned .ne (0, n, 0, n) (0, n, -n - (if direction = "x" then overlapOf d1 else overlapOf d0),
          -(if direction = "x" then overlapOf d1 else overlapOf d0)) 1 q)
    (fun _ => by
      rcases hd with rfl | rfl
      · exact step q3 F3.same false false _ _ _ _ _ _ _ _ _ (by simp) (by simp) (by omega) (by simp) (by omega)
          (by simp) (by omega) (by simp) (by simp; omega)
      · exact step q3 F3.same false false _ _ _ _ _ _ _ _ _ (by simp) (by simp) (by omega) (by simp) (by omega)
          (by simp) (by simp; omega) (by simp) (by omega))
  refine ⟨q4, ?_, F4.same, ?_, ?_⟩
  · simp only [E1, E2, E3, E4, bind, Except.bind]
  all_goals
    have hD : ∀ w s, AtTileCorner l rank w s ↔ ((((False ∨ (onTileBottom l rank && onTileLeft l rank) = true ∧ w = true ∧ s = true) ∨
        (onTileTop l rank && onTileLeft l rank) = true ∧ w = true ∧ s = false) ∨
        (onTileBottom l rank && onTileRight l rank) = true ∧ w = false ∧ s = true) ∨
        (onTileTop l rank && onTileRight l rank) = true ∧ w = false ∧ s = false) := by
      intro w s
      unfold AtTileCorner onTileBottom onTileTop onTileLeft onTileRight
      cases w <;> cases s <;> simp [and_comm]
  · intro w s hws
    exact F4.corner w s ((hD w s).1 hws)
  · intro idx hl hno
    exact F4.rest idx hl fun w s hws => hno w s ((hD w s).2 hws)

/-! ### After a halo update -/

set_option maxHeartbeats 2000000 in
/-- Where a point across a corner of the cube is in its rank's array. -/
theorem corner_of_cross {l : Layout} {m : Int → Mem α} {q : Nat} {n h r t a b : Int} {idx : List Nat}
    (hx : 0 < l.x) (hsq : l.y = l.x) (hh : 0 < h) (hn : h ≤ n) (S : HaloReady (m r q) 1 0 n h)
    (hat : AtTile l m q 1 0 n r idx t a b) (hi : InHalo (m r q) 1 0 h idx)
    (hc : ¬ SingleCross (l.x * n) a b) :
    (0 ≤ t ∧ t < 6) ∧ (a < 0 ∨ a > 2 * (l.x * n)) ∧ (b < 0 ∨ b > 2 * (l.x * n)) ∧
    (-2 * (l.x * n) ≤ a ∧ a ≤ 4 * (l.x * n)) ∧ (-2 * (l.x * n) ≤ b ∧ b ≤ 4 * (l.x * n)) ∧
    AtTileCorner l r (decide (a < 0)) (decide (b < 0)) ∧
    CornerPt (m r q) (decide (a < 0)) (decide (b < 0)) h idx
      (if a < 0 then -(m r q).rel idx 0 else (m r q).rel idx 0 - (m r q).e 0 + 1)
      (if b < 0 then -(m r q).rel idx 1 else (m r q).rel idx 1 - (m r q).e 1 + 1) := by
  have hr := hat.rank
  have hr0 : 0 ≤ r ∧ r < l.cubeRanks := by
    unfold allRanks at hr
    obtain ⟨k, hk, rfl⟩ := List.mem_map.1 hr
    have := List.mem_range.1 hk
    exact ⟨by simp, by simp only [Int.ofNat_eq_natCast]; omega⟩
  obtain ⟨t0, j0, i0, e1, e2, ht, hj, hi0⟩ := (C01_rank_bijection l (by omega) hx).1 r hr0.1 hr0.2
  have ett : t = t0 := by have := hat.tile; rw [e1] at this; exact (Except.ok.inj this).symm
  subst ett
  have ha := hat.x
  have hb := hat.y
  rw [e2] at ha hb
  unfold Quantity.tilePos at ha hb
  have ex := S.ex
  have ey := S.ey
  have ix := hi.x
  have iy := hi.y
  have sx := overlapOf_01 ((m r q).d 0)
  have sy := overlapOf_01 ((m r q).d 1)
  unfold SingleCross at hc
  dsimp only at ha hb
  have hpx : i0 = 0 ∨ 1 * n ≤ i0 * n := by
    by_cases h0 : i0 = 0
    · exact Or.inl h0
    · exact Or.inr (Int.mul_le_mul_of_nonneg_right (by omega) (by omega))
  have hpx' : i0 = l.x - 1 ∨ (i0 + 2) * n ≤ l.x * n := by
    by_cases h0 : i0 = l.x - 1
    · exact Or.inl h0
    · exact Or.inr (Int.mul_le_mul_of_nonneg_right (by omega) (by omega))
  have hpy : j0 = 0 ∨ 1 * n ≤ j0 * n := by
    by_cases h0 : j0 = 0
    · exact Or.inl h0
    · exact Or.inr (Int.mul_le_mul_of_nonneg_right (by omega) (by omega))
  have hpy' : j0 = l.x - 1 ∨ (j0 + 2) * n ≤ l.x * n := by
    by_cases h0 : j0 = l.x - 1
    · exact Or.inl h0
    · exact Or.inr (Int.mul_le_mul_of_nonneg_right (by omega) (by omega))
  have g1 : 0 ≤ i0 * n := Int.mul_nonneg (by omega) (by omega)
  have g2 : 0 ≤ j0 * n := Int.mul_nonneg (by omega) (by omega)
  have g3 : (i0 + 1) * n ≤ l.x * n := Int.mul_le_mul_of_nonneg_right (by omega) (by omega)
  have g4 : (j0 + 1) * n ≤ l.x * n := Int.mul_le_mul_of_nonneg_right (by omega) (by omega)
  have g5 : 1 * n ≤ l.x * n := Int.mul_le_mul_of_nonneg_right (by omega) (by omega)
  have z1 : i0 = 0 → i0 * n = 0 := fun h => by rw [h, Int.zero_mul]
  have z2 : j0 = 0 → j0 * n = 0 := fun h => by rw [h, Int.zero_mul]
  have z3 : i0 = l.x - 1 → i0 * n = l.x * n - n := fun h => by rw [h, Int.sub_mul, Int.one_mul]
  have z4 : j0 = l.x - 1 → j0 * n = l.x * n - n := fun h => by rw [h, Int.sub_mul, Int.one_mul]
  rw [Int.add_mul] at hpx' hpy' g3 g4
  generalize hI : i0 * n = I at *
  generalize hJ : j0 * n = J at *
  generalize hL : l.x * n = L at *
  have ca : a < 0 ∨ a > 2 * L := by omega
  have cb : b < 0 ∨ b > 2 * L := by omega
  have rx : (m r q).rel idx 0 = at' idx 0 - (m r q).o 0 := rfl
  have ry : (m r q).rel idx 1 = at' idx 1 - (m r q).o 1 := rfl
  refine ⟨ht, ca, cb, by omega, by omega, ⟨?_, ?_⟩, ⟨hi.len, ?_, ?_, ?_, ?_, ?_⟩⟩
  · rw [e2]
    by_cases c : a < 0
    · simp [c]; omega
    · simp [c]; omega
  · rw [e2]
    by_cases c : b < 0
    · simp [c]; omega
    · simp [c]; omega
  · split <;> omega
  · split <;> omega
  · unfold outAt
    by_cases c : a < 0
    · simp [c]; omega
    · simp [c]; omega
  · unfold outAt
    by_cases c : b < 0
    · simp [c]; omega
    · simp [c]; omega
  · exact fun k hk k0 k1 => hi.other k hk k1 k0

set_option maxHeartbeats 4000000 in
/-- **C33.**  A halo update of `h` points followed by `fill_scalar_corners` for `h' ≤ h` points: the
corner points hold the values which the owners of the points had, that are reached by continuing the
grid lines of the neighbouring halo over the corner of the cube. -/
theorem C33_continues [Neg α] {l : Layout} {m : Int → Mem α} {q : Nat} {n h h' : Int} (hx : 0 < l.x)
    (hsq : l.y = l.x) (hh : 0 < h') (hh' : h' ≤ h) (hn : h ≤ n) (S : ScalarField l m q 1 0 n h)
    (direction : String) (hd : direction = "x" ∨ direction = "y") (buf : Buffering) :
    ∃ m' : Int → Mem α,
      ((callNet l [.haloUpdate q h] m).Completes buf fun r =>
        (.ok (), ⟨m' r, if r ∈ allRanks l then 1 else 0, []⟩)) ∧
      ∀ r ∈ allRanks l, ∃ q', fillScalarCorners (m' r q) direction l r h' = .ok q' ∧
        ∀ idx t a b, AtTile l m q 1 0 n r idx t a b → InHalo (m r q) 1 0 h' idx →
          ¬ SingleCross (l.x * n) a b →
          ∃ P r' src, Continued direction (l.x * n) t a b P ∧
            Owns l m q 1 0 n r' src P ((m r q).otherPos 1 0 idx) ∧
            q'.data.get idx = (m r' q).data.get src := by
  obtain ⟨m', ⟨m1, h1, h2⟩, h3⟩ := haloCall_bulk hx hsq (by omega) hn S buf 1
  refine ⟨m', h3, fun r hr => ?_⟩
  have fil := step_filled hx hsq (by omega) hn S h1
  have sm : SameMeta (m r q) (m' r q) := by
    rw [h2 r hr]; exact (step_only hx hsq (by omega) hn S h1 r hr).1 q
  have R := S.ready r hr
  have R' : HaloReady (m r q) 1 0 n h' :=
    ⟨R.wf, R.axes, R.ey, R.ex, by have := R.haloY; omega, by have := R.haloX; omega⟩
  have CR : CornerReady (m r q) h' :=
    ⟨R.wf, R.axes, hh, R'.haloX, R'.haloY, by rw [R.ex]; omega, by rw [R.ey]; omega⟩
  obtain ⟨q', e, -, hv, -⟩ := C33_fill (m' r q) direction hd l r h' (sm.cornerReady CR)
  refine ⟨q', e, fun idx t a b hat hi hc => ?_⟩
  obtain ⟨ht, ca, cb, ba, bb, hcor, hp⟩ := corner_of_cross hx hsq hh (by omega) R' hat hi hc
  have st := S.stagger r hr
  have v01 := overlapOf_01 ((m r q).d 0)
  have ha := hat.x
  have hb := hat.y
  unfold Quantity.tilePos at ha hb
  have p1 := hp.p1
  have r1 := hp.r1
  have i0 := R.wf.inside 0 (by have := CR.ndim; omega)
  have i1 := R.wf.inside 1 CR.ndim
  have exx := R.ex
  have eyy := R.ey
  have hX := R'.haloX
  have hY := R'.haloY
  have hcx := hcor.1
  have hcy := hcor.2
  have ndim := CR.ndim
  have rx : ∀ idx, (m r q).rel idx 0 = at' idx 0 - (m r q).o 0 := fun _ => rfl
  have ry : ∀ idx, (m r q).rel idx 1 = at' idx 1 - (m r q).o 1 := fun _ => rfl
  have NL : (l.x - 1) * n = l.x * n - n := by rw [Int.sub_mul, Int.one_mul]
  have g5 : 1 * n ≤ l.x * n := Int.mul_le_mul_of_nonneg_right (by omega) (by omega)
  generalize hP : (if a < 0 then -(m r q).rel idx 0 else (m r q).rel idx 0 - (m r q).e 0 + 1) = p at *
  generalize hR : (if b < 0 then -(m r q).rel idx 1 else (m r q).rel idx 1 - (m r q).e 1 + 1) = s at *
  -- the source point
  obtain ⟨X, Y, hXY⟩ : ∃ X Y : Int,
      X = (if direction = "x" then outAt (decide (a < 0)) ((m r q).o 0) ((m r q).e 0) s
        else inAt (decide (a < 0)) ((m r q).o 0) ((m r q).e 0) (s + overlapOf ((m r q).d 0))) ∧
      Y = (if direction = "x" then inAt (decide (b < 0)) ((m r q).o 1) ((m r q).e 1) (p + overlapOf ((m r q).d 1))
        else outAt (decide (b < 0)) ((m r q).o 1) ((m r q).e 1) p) := ⟨_, _, rfl, rfl⟩
  have X0 : 0 ≤ X := by
    rw [hXY.1]; unfold outAt inAt
    split <;> (by_cases c : a < 0 <;> simp [c] <;> omega)
  have Y0 : 0 ≤ Y := by
    rw [hXY.2]; unfold outAt inAt
    split <;> (by_cases c : b < 0 <;> simp [c] <;> omega)
  obtain ⟨src, hsrc⟩ : ∃ src, src = (idx.set 0 X.toNat).set 1 Y.toNat := ⟨_, rfl⟩
  have hsl : src.length = (m r q).ndim := by rw [hsrc, List.length_set, List.length_set, hi.len]
  have s0 : at' src 0 = X := by
    rw [hsrc, set01 hi.len ndim]
    show ((tab _ _).getD 0 0 : Nat) = X
    rw [getD_tab _ _ (by omega)]; simp; omega
  have s1 : at' src 1 = Y := by
    rw [hsrc, set01 hi.len ndim]
    show ((tab _ _).getD 1 0 : Nat) = Y
    rw [getD_tab _ _ (by omega)]; simp; omega
  have so : ∀ k, k ≠ 0 → k ≠ 1 → at' src k = at' idx k := by
    intro k k0 k1
    show ((src.getD k 0 : Nat) : Int) = (idx.getD k 0 : Nat)
    rw [hsrc, getD_set, getD_set, if_neg (by simp [k1]), if_neg (by simp [k0])]
  have hCS : CornerSrc (m r q) direction (decide (a < 0)) (decide (b < 0)) idx p s src :=
    ⟨hsl, so, by rw [s0]; exact hXY.1, by rw [s1]; exact hXY.2⟩
  have hval := hv _ _ hcor idx p s src ((sm.cornerPt _ _ _ _ _ _).2 hp) (sm.cornerSrc hCS)
  -- it is a halo point
  have hsx : (-h' ≤ (m r q).rel src 0 ∧ (m r q).rel src 0 < (m r q).e 0 + h') := by
    rw [rx, s0, hXY.1]; unfold outAt inAt
    split <;> (by_cases c : a < 0 <;> simp [c] <;> omega)
  have hsy : (-h' ≤ (m r q).rel src 1 ∧ (m r q).rel src 1 < (m r q).e 1 + h') := by
    rw [ry, s1, hXY.2]; unfold outAt inAt
    split <;> (by_cases c : b < 0 <;> simp [c] <;> omega)
  have hih : InHalo (m r q) 1 0 h src := by
    refine ⟨hsl, by omega, by omega, fun k hk k1 k0 => ?_, ?_⟩
    · have := hi.other k hk k1 k0
      unfold Quantity.InDom at this ⊢
      rw [so k k0 k1]; exact this
    · rintro ⟨dy, dx⟩
      unfold Quantity.InDom at dx dy
      rw [s1, hXY.2] at dy
      rw [s0, hXY.1] at dx
      unfold outAt at dx dy
      by_cases hdir : direction = "x"
      · by_cases c : a < 0 <;> simp [hdir, c] at dx <;> omega
      · by_cases c : b < 0 <;> simp [hdir, c] at dy <;> omega
  -- where it is on the tile
  have hA : (m r q).tilePos n (subtileIndex l r).2 src 0 =
      if direction = "x" then beyondAs (l.x * n) a b else insideAs (l.x * n) a b := by
    unfold Quantity.tilePos
    rw [rx src, s0, hXY.1]
    rw [hcx] at ha ⊢
    rw [hcy] at hb
    unfold beyondAs insideAs outAt inAt
    by_cases c1 : a < 0 <;> by_cases c2 : b < 0 <;> by_cases hdir : direction = "x" <;>
      simp [c1, c2, hdir, hsq, NL] at ha hb hP hR ⊢ <;> omega
  have hB : (m r q).tilePos n (subtileIndex l r).1 src 1 =
      if direction = "x" then insideAs (l.x * n) b a else beyondAs (l.x * n) b a := by
    unfold Quantity.tilePos
    rw [ry src, s1, hXY.2]
    rw [hcx] at ha
    rw [hcy] at hb ⊢
    unfold beyondAs insideAs outAt inAt
    by_cases c1 : a < 0 <;> by_cases c2 : b < 0 <;> by_cases hdir : direction = "x" <;>
      simp [c1, c2, hdir, hsq, NL] at ha hb hP hR ⊢ <;> omega
  have hsc : SingleCross (l.x * n) ((m r q).tilePos n (subtileIndex l r).2 src 0)
      ((m r q).tilePos n (subtileIndex l r).1 src 1) := by
    rw [hA, hB]
    unfold SingleCross insideAs
    by_cases hdir : direction = "x"
    · right
      rw [if_pos hdir]
      split <;> split <;> omega
    · left
      rw [if_neg hdir]
      split <;> split <;> omega
  obtain ⟨r', src', ho, ev⟩ := fil r src t _ _ ⟨hr, hat.tile, rfl, rfl⟩ hih hsc
  have hoth : (m r q).otherPos 1 0 src = (m r q).otherPos 1 0 idx := by
    funext k
    unfold Quantity.otherPos
    by_cases c : k < (m r q).ndim ∧ k ≠ 1 ∧ k ≠ 0
    · rw [if_pos c, if_pos c]
      unfold Quantity.rel
      rw [so k c.2.2 c.2.1]
    · rw [if_neg c, if_neg c]
  rw [hoth] at ho
  refine ⟨_, r', src', ?_, ho, ?_⟩
  · rw [hA, hB]
    unfold Continued
    by_cases hdir : direction = "x"
    · simp only [if_pos hdir]
      exact continuedX_src ht ca cb ba bb
    · simp only [if_neg hdir]
      exact continuedY_src ht ca cb ba bb
  · rw [hval, h2 r hr]; exact ev

theorem face_n_inj {t t' : Int} (h : 0 ≤ t ∧ t < 6) (h' : 0 ≤ t' ∧ t' < 6)
    (e : (face t).n = (face t').n) : t = t' := by
  rcases six h with rfl | rfl | rfl | rfl | rfl | rfl <;>
    rcases six h' with rfl | rfl | rfl | rfl | rfl | rfl <;>
    first | rfl | exact absurd e (by decide)

/-- The continuation of a grid line is unique. -/
theorem continued_unique {direction : String} {N t a b : Int} {P P' : Vec3} (hN : 0 ≤ N)
    (h : Continued direction N t a b P) (h' : Continued direction N t a b P') : P = P' := by
  unfold Continued at h h'
  split at h
  · rename_i c
    rw [if_pos c] at h'
    obtain ⟨t1, a1, a2, ⟨c1, n1, rfl⟩ | ⟨c1, n1, rfl⟩⟩ := h <;>
      obtain ⟨t2, b1, b2, ⟨c2, n2, rfl⟩ | ⟨c2, n2, rfl⟩⟩ := h' <;>
      first
      | omega
      | rw [face_n_inj ⟨a1, a2⟩ ⟨b1, b2⟩ (n1.trans n2.symm)]
  · rename_i c
    rw [if_neg c] at h'
    obtain ⟨t1, a1, a2, ⟨c1, n1, rfl⟩ | ⟨c1, n1, rfl⟩⟩ := h <;>
      obtain ⟨t2, b1, b2, ⟨c2, n2, rfl⟩ | ⟨c2, n2, rfl⟩⟩ := h' <;>
      first
      | omega
      | rw [face_n_inj ⟨a1, a2⟩ ⟨b1, b2⟩ (n1.trans n2.symm)]

/-- **C33** for a field sampled on the ranks: the corner points hold the values of the field where
the grid lines get to. -/
theorem C33_continues_field [Neg α] {l : Layout} {m : Int → Mem α} {q : Nat} {n h h' : Int} (hx : 0 < l.x)
    (hsq : l.y = l.x) (hh : 0 < h') (hh' : h' ≤ h) (hn : h ≤ n) (S : ScalarField l m q 1 0 n h)
    (direction : String) (hd : direction = "x" ∨ direction = "y") (buf : Buffering)
    (F : Vec3 → (Nat → Int) → α) (hF : SampleOf l m q 1 0 n F) :
    ∃ m' : Int → Mem α,
      ((callNet l [.haloUpdate q h] m).Completes buf fun r =>
        (.ok (), ⟨m' r, if r ∈ allRanks l then 1 else 0, []⟩)) ∧
      ∀ r ∈ allRanks l, ∃ q', fillScalarCorners (m' r q) direction l r h' = .ok q' ∧
        ∀ idx t a b P, AtTile l m q 1 0 n r idx t a b → InHalo (m r q) 1 0 h' idx →
          ¬ SingleCross (l.x * n) a b → Continued direction (l.x * n) t a b P →
          q'.data.get idx = F P ((m r q).otherPos 1 0 idx) := by
  obtain ⟨m', h1, h2⟩ := C33_continues hx hsq hh hh' hn S direction hd buf
  refine ⟨m', h1, fun r hr => ?_⟩
  obtain ⟨q', e, h3⟩ := h2 r hr
  refine ⟨q', e, fun idx t a b P hat hi hc hP => ?_⟩
  obtain ⟨P', r', src, hP', ho, ev⟩ := h3 idx t a b hat hi hc
  rw [ev, hF r' src _ _ ho, continued_unique (Int.mul_nonneg (by omega) (by omega)) hP hP']

/-- `fill_scalar_corners` raises without a first axis along x and a second one along y, or for an
unknown direction. -/
theorem C33_errors (q : Quantity α) (direction : String) (l : Layout) (rank n : Int) {d0 d1 : Dim}
    {ds : List Dim} (hd : q.dims = d0 :: d1 :: ds) :
    (d0 ∉ X_DIMS ∨ d1 ∉ Y_DIMS → fillScalarCorners q direction l rank n = .error .valueError) ∧
    (d0 ∈ X_DIMS → d1 ∈ Y_DIMS → direction ≠ "x" → direction ≠ "y" →
      fillScalarCorners q direction l rank n = .error .typeError) := by
  constructor
  · intro h
    unfold fillScalarCorners
    simp only [hd]
    by_cases h0 : d0 ∈ X_DIMS
    · have h1 := h.resolve_left (fun c => c h0)
      simp [h0, h1]
    · simp [h0]
  · intro h0 h1 hx hy
    unfold fillScalarCorners
    simp only [hd]
    simp [h0, h1, hx, hy]

/-! ### A concrete case -/

/-- Rank `r`'s part of the field `F` sampled at the cell corners, 3 × 3 cells per rank, x first,
with two halo points and a vertical axis of 2. -/
def exCornerQ (l : Layout) (F : Vec3 → (Nat → Int) → α) (r : Int) : Quantity α :=
  let q0 : Quantity α :=
    { data := ⟨[8, 8, 2], fun _ => F ⟨0, 0, 0⟩ fun _ => 0⟩
      dims := [.xI, .yI, .z], units := "m", origin := [2, 2, 0], extent := [4, 4, 2] }
  { q0 with data := ⟨[8, 8, 2], fun idx =>
      F (pos (l.x * 3) (match tileIndex l r with | .ok t => t | .error _ => 0)
        (q0.tilePos 3 (subtileIndex l r).2 idx 0) (q0.tilePos 3 (subtileIndex l r).1 idx 1))
        (q0.otherPos 1 0 idx)⟩ }

def exCornerMem (l : Layout) (F : Vec3 → (Nat → Int) → α) : Int → Mem α := fun r _ => exCornerQ l F r

theorem exCorner_axes : HAxes [Dim.xI, .yI, .z] 1 0 := by
  refine ⟨?_, ?_, by decide, by decide⟩ <;>
  · intro k d h
    match k, h with
    | 0, h => simp at h; subst h; simp [IsX, IsY]
    | 1, h => simp at h; subst h; simp [IsX, IsY]
    | 2, h => simp at h; subst h; simp [IsX, IsY]
    | k + 3, h => simp at h

theorem exCorner_scalar (l : Layout) (F : Vec3 → (Nat → Int) → α) (q : Nat) :
    ScalarField l (exCornerMem l F) q 1 0 3 2 := by
  refine ⟨fun r _ => ⟨⟨⟨rfl, rfl, rfl⟩, ?_⟩, exCorner_axes, rfl, rfl, ?_, ?_⟩, fun _ _ _ _ => rfl,
    fun _ _ _ _ _ _ _ _ => rfl, fun _ _ => rfl⟩
  · show ∀ k, k < 3 → 0 ≤ ([2, 2, 0] : List Int).getD k 0 ∧ 0 ≤ ([4, 4, 2] : List Int).getD k 0 ∧
      ([2, 2, 0] : List Int).getD k 0 + ([4, 4, 2] : List Int).getD k 0 ≤
        (([8, 8, 2] : List Nat).getD k 0 : Nat)
    decide
  · show (2 : Int) ≤ 2 ∧ (2 : Int) + 4 + 2 ≤ 8
    decide
  · show (2 : Int) ≤ 2 ∧ (2 : Int) + 4 + 2 ≤ 8
    decide

theorem exCorner_sample (l : Layout) (F : Vec3 → (Nat → Int) → α) (q : Nat) :
    SampleOf l (exCornerMem l F) q 1 0 3 F := by
  rintro r idx P others ⟨h1, h2, t, a, b, h3, h4⟩
  rw [← h2, ← h4, h3.x, h3.y]
  show F (pos (l.x * 3) (match tileIndex l r with | .ok t => t | .error _ => 0) _ _) _ = _
  rw [h3.tile]
  rfl

/-- In the concrete case, the point of rank 0 diagonally across the south-west corner of tile 0, one
cell out along x and two along y, gets for stencils along x the value at the point of the west
neighbour which is one cell from the edge with the south neighbour and two cells from the edge with
tile 0. -/
example (buf : Buffering) : ∃ m' : Int → Mem Int, ∃ q',
    ((callNet ⟨2, 2⟩ [.haloUpdate 0 2] (exCornerMem ⟨2, 2⟩ fun P _ => 10000 * P.x + 100 * P.y + P.z)).Completes buf fun r =>
      (.ok (), ⟨m' r, if r ∈ allRanks ⟨2, 2⟩ then 1 else 0, []⟩)) ∧
    fillScalarCorners (m' 0 0) "x" ⟨2, 2⟩ 0 2 = .ok q' ∧
    q'.data.get [1, 0, 1] = 19396 := by
  obtain ⟨m', h1, h2⟩ := C33_continues_field (l := ⟨2, 2⟩) (h := 2) (h' := 2) (by decide) rfl (by decide)
    (by decide) (by decide) (exCorner_scalar ⟨2, 2⟩ (fun P _ => 10000 * P.x + 100 * P.y + P.z) 0) "x"
    (Or.inl rfl) buf _ (exCorner_sample _ _ _)
  obtain ⟨q', e, h3⟩ := h2 0 (by decide)
  refine ⟨m', q', h1, e, ?_⟩
  rw [h3 [1, 0, 1] 0 (-2) (-4) (foldOn (2 * 3) 5 ((pos (2 * 3) 0 (-2) 0).add ((face 0).n.smul (-4))))
    ⟨by decide, by decide, by decide, by decide⟩ ⟨rfl, by decide, by decide, ?_, ?_⟩
    (by unfold SingleCross; decide) ?_]
  · decide
  · intro k hk h1 h2
    have : k = 2 := by have : k < 3 := hk; omega
    subst this
    show (0 : Int) ≤ 1 ∧ (1 : Int) < 0 + 2
    decide
  · rintro ⟨-, h1⟩
    have : (2 : Int) ≤ 1 ∧ (1 : Int) < 2 + 4 := h1
    omega
  · refine ⟨5, by decide, by decide, Or.inl ⟨by decide, by decide, rfl⟩⟩

end FV3
