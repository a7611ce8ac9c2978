import Verif.Spec.Sync
import Verif.Proofs.Deliver
import Verif.Props.Views
import Verif.Props.BoundarySlice

/-!
# Edge views of quantities
-/

namespace FV3
variable {α : Type}

/-- Resolved index of the edge view: position `c` on axis `p`, the compute domain on the others. -/
def edgeRs (q : Quantity α) (p c : Nat) : List RIx :=
  tab q.ndim fun k => if k = p then .int c else .slice (q.o k) 1 (q.e k).toNat

/-- Axis `p` is the only one called `dp`, and so is axis `p'` for `dp'`. -/
structure EdgeAxes (q : Quantity α) (p p' : Nat) (dp dp' : Dim) : Prop where
  plt : p < q.ndim
  plt' : p' < q.ndim
  ne : dp ≠ dp'
  dp_eq : q.d p = dp
  dp_eq' : q.d p' = dp'
  only : ∀ k, k < q.ndim → (q.d k = dp → k = p) ∧ (q.d k = dp' → k = p')

theorem EdgeAxes.pne {q : Quantity α} {p p' : Nat} {dp dp' : Dim} (h : EdgeAxes q p p' dp dp') :
    p ≠ p' := by
  intro e
  subst e
  exact h.ne (h.dp_eq.symm.trans h.dp_eq')

theorem HAxes.edgeX {q : Quantity α} {ky kx : Nat} (h : HAxes q.dims ky kx) (h1 : q.d ky = .yI)
    (h2 : q.d kx = .x) : EdgeAxes q ky kx .yI .x := by
  refine ⟨h.ylt, h.xlt, by decide, h1, h2, fun k hk => ⟨fun e => ?_, fun e => ?_⟩⟩
  · exact (h.d_y hk).1 (by rw [e]; simp [IsY])
  · exact (h.d_x hk).1 (by rw [e]; simp [IsX])

theorem HAxes.edgeY {q : Quantity α} {ky kx : Nat} (h : HAxes q.dims ky kx) (h1 : q.d ky = .y)
    (h2 : q.d kx = .xI) : EdgeAxes q kx ky .xI .y := by
  refine ⟨h.xlt, h.ylt, by decide, h2, h1, fun k hk => ⟨fun e => ?_, fun e => ?_⟩⟩
  · exact (h.d_x hk).1 (by rw [e]; simp [IsX])
  · exact (h.d_y hk).1 (by rw [e]; simp [IsY])

variable {q : Quantity α} {p p' : Nat} {dp dp' : Dim}

theorem EdgeAxes.idxOf (h : EdgeAxes q p p' dp dp') : dp' ∈ q.dims ∧ q.dims.idxOf dp' = p' := by
  have hp' : p' < q.dims.length := h.plt'
  have e : q.dims[p'] = dp' := by
    have := h.dp_eq'
    unfold Quantity.d at this
    rwa [getD_lt _ hp'] at this
  have hm : dp' ∈ q.dims := by rw [← e]; exact List.getElem_mem hp'
  refine ⟨hm, ?_⟩
  have hi := List.idxOf_lt_length_of_mem hm
  have e2 : q.dims[q.dims.idxOf dp'] = dp' := List.getElem_idxOf hi
  refine (h.only _ hi).2 ?_
  unfold Quantity.d
  rw [getD_lt _ hi, e2]

theorem EdgeAxes.extentOf (h : EdgeAxes q p p' dp dp') (hq : q.WF) :
    q.extentOf dp' = .ok (q.e p') := by
  obtain ⟨h1, h2⟩ := h.idxOf
  unfold Quantity.extentOf
  rw [if_pos h1, h2]
  have : p' < q.extent.length := by rw [hq.extent]; exact h.plt'
  rw [List.getElem?_eq_getElem this]
  simp only
  unfold Quantity.e
  rw [getD_lt _ this]

theorem resolveAll_tab' (m : Nat) (f : Nat → Ix) (g : Nat → RIx) (shape : List Nat)
    (hm : shape.length = m) (h : ∀ k, k < m → (f k).resolve (shape.getD k 0) = .ok (g k)) :
    resolveAll (tab m f) shape = .ok (tab m g) :=
  resolveAll_tab m f g shape hm h

/-- The edge view. -/
theorem EdgeAxes.edge (h : EdgeAxes q p p' dp dp') (hq : q.WF) (c : Corner) (i : Int) {cc : Nat}
    (h1 : (viewBase q p c).1 + i = cc) (h2 : (cc : Int) < q.n p)
    (h3 : viewBase q p' c = (q.o p', q.o p')) :
    edgeView q c dp i dp' = .ok (q.data.view (edgeRs q p cc)) ∧
    ∃ ix, edgeIndex q c dp i dp' = .ok ix ∧ resolveAll ix q.data.shape = .ok (edgeRs q p cc) := by
  have hpos : 0 < q.ndim := by have := h.plt; omega
  have hent : (Quantity.selIndex q.dims (edgeKw dp i dp' (q.e p'))).entries.length ≤ q.ndim := by
    simp [Quantity.selIndex, VIdx.entries, Quantity.ndim]
  have hix := cornerIndex_eq q hq.toLens c (Quantity.selIndex q.dims (edgeKw dp i dp' (q.e p'))) hent
  have hget := (C30_corner_reads q hq.toLens hpos c
    (Quantity.selIndex q.dims (edgeKw dp i dp' (q.e p')))).1 hent
  generalize hX : (tab q.ndim fun k => countFrom (viewBase q k c).1 (viewBase q k c).2 (q.o k) (q.e k)
    ((Quantity.selIndex q.dims (edgeKw dp i dp' (q.e p'))).entries.getD k (.slice .full))) = X at *
  have hr : resolveAll X q.data.shape = .ok (edgeRs q p cc) := by
    rw [← hX]
    unfold edgeRs
    apply resolveAll_tab' _ _ _ _ hq.shape
    intro k hk
    have hin := hq.inside k hk
    have hn : q.n k = (q.data.shape.getD k 0 : Nat) := rfl
    have hent : (Quantity.selIndex q.dims (edgeKw dp i dp' (q.e p'))).entries.getD k (.slice .full) =
        (edgeKw dp i dp' (q.e p') (q.d k)).getD (.slice .full) := by
      have hk' : k < q.dims.length := hk
      simp only [Quantity.selIndex, VIdx.entries]
      unfold Quantity.d
      rw [getD_lt _ (by simpa using hk'), getD_lt _ hk', List.getElem_map]
    rw [hent]
    unfold edgeKw
    by_cases e1 : k = p
    · subst e1
      rw [if_pos h.dp_eq, if_pos rfl]
      simp only [Option.getD_some, countFrom, Ix.resolve]
      rw [h1]
      have e0 : ¬ ((cc : Int) < 0) := by omega
      simp only [if_neg e0]
      rw [if_pos (by omega)]
      simp
    · rw [if_neg (fun e => e1 ((h.only k hk).1 e)), if_neg e1]
      by_cases e2 : k = p'
      · subst e2
        rw [if_pos h.dp_eq']
        simp only [Option.getD_some, countFrom, Ix.resolve, PySlice.of, h3]
        have := resolve_of (a := q.o k + 0) (b := q.o k + q.e k) (n := q.data.shape.getD k 0)
          (by omega) (by omega) (by omega)
        unfold PySlice.of at this
        rw [this, show q.o k + 0 = q.o k by omega, show q.o k + q.e k - q.o k = q.e k by omega]
      · rw [if_neg (fun e => e2 ((h.only k hk).2 e))]
        simp only [Option.getD_none, countFrom, Ix.resolve, PySlice.full]
        have := resolve_of (a := q.o k) (b := q.o k + q.e k) (n := q.data.shape.getD k 0)
          (by omega) (by omega) (by omega)
        unfold PySlice.of at this
        rw [this, show q.o k + q.e k - q.o k = q.e k by omega]
  have hg : q.data.getItem X = .ok (q.data.view (edgeRs q p cc)) := by
    unfold NDArray.getItem; rw [hr]; rfl
  constructor
  · unfold edgeView
    rw [h.extentOf hq]
    simp only [Bind.bind, Except.bind]
    rw [hget, hg]
  · refine ⟨X, ?_, hr⟩
    unfold edgeIndex
    rw [h.extentOf hq]
    simp only [Bind.bind, Except.bind]
    rw [hget, hg, hix]

/-- Shape of the edge view when the two horizontal axes come first. -/
theorem edge_shape (q : Quantity α) {p p' : Nat} (hpp : p + p' = 1) (hn : 2 ≤ q.ndim) (c : Nat) :
    viewShape (edgeRs q p c) = (q.e p').toNat :: tab (q.ndim - 2) fun k => (q.e (k + 2)).toNat := by
  unfold edgeRs
  obtain ⟨N, hN⟩ : ∃ N, q.ndim = N + 2 := ⟨q.ndim - 2, by omega⟩
  rw [hN, tab_succ, tab_succ]
  have hb : ∀ M, viewShape (tab M fun k => if k + 1 + 1 = p then RIx.int c else
      .slice (q.o (k + 1 + 1)) 1 (q.e (k + 1 + 1)).toNat) = tab M fun k => (q.e (k + 2)).toNat := by
    intro M
    rw [← viewShape_box M (fun k => q.o (k + 2)) fun k => (q.e (k + 2)).toNat]
    unfold boxRs
    congr 1
    apply tab_congr
    intro k _
    rw [if_neg (by omega)]
  have : p = 0 ∨ p = 1 := by omega
  rcases this with rfl | rfl
  · have : p' = 1 := by omega
    subst this
    rw [if_pos rfl, if_neg (by omega)]
    simp only [viewShape, hb]
    rfl
  · have : p' = 0 := by omega
    subst this
    rw [if_pos rfl, if_neg (by omega)]
    simp only [viewShape, hb]
    rfl

theorem edge_viewIdx (q : Quantity α) {p p' : Nat} (hpp : p + p' = 1) (hn : 2 ≤ q.ndim) (c : Nat)
    (v : Nat) (rest : List Nat) :
    (viewIdx (edgeRs q p c) (v :: rest)).length = q.ndim ∧
    (viewIdx (edgeRs q p c) (v :: rest)).getD p 0 = c ∧
    (viewIdx (edgeRs q p c) (v :: rest)).getD p' 0 = (q.o p' + v).toNat ∧
    ∀ k, 2 ≤ k → k < q.ndim →
      (viewIdx (edgeRs q p c) (v :: rest)).getD k 0 = (q.o k + rest.getD (k - 2) 0).toNat := by
  unfold edgeRs
  obtain ⟨N, hN⟩ : ∃ N, q.ndim = N + 2 := ⟨q.ndim - 2, by omega⟩
  rw [hN, tab_succ, tab_succ]
  have hb : ∀ M, viewIdx (tab M fun k => if k + 1 + 1 = p then RIx.int c else
      .slice (q.o (k + 1 + 1)) 1 (q.e (k + 1 + 1)).toNat) rest =
        tab M fun k => (q.o (k + 2) + rest.getD k 0).toNat := by
    intro M
    rw [← viewIdx_box M (fun k => q.o (k + 2)) fun k => (q.e (k + 2)).toNat]
    unfold boxRs
    congr 1
    apply tab_congr
    intro k _
    rw [if_neg (by omega)]
  have hk : ∀ (a b : Nat) k, 2 ≤ k → k < N + 2 → (a :: b ::
      tab N fun k => (q.o (k + 2) + rest.getD k 0).toNat).getD k 0 = (q.o k + rest.getD (k - 2) 0).toNat := by
    intro a b k h1 h2
    obtain ⟨j, rfl⟩ : ∃ j, k = j + 2 := ⟨k - 2, by omega⟩
    simp only [List.getD_cons_succ]
    rw [getD_tab _ _ (by omega)]
    rfl
  have : p = 0 ∨ p = 1 := by omega
  rcases this with rfl | rfl
  · have : p' = 1 := by omega
    subst this
    rw [if_pos rfl, if_neg (by omega)]
    simp only [viewIdx, hb]
    refine ⟨by simp, rfl, ?_, hk _ _⟩
    simp
  · have : p' = 0 := by omega
    subst this
    rw [if_pos rfl, if_neg (by omega)]
    simp only [viewIdx, hb]
    refine ⟨by simp, rfl, ?_, hk _ _⟩
    simp

/-- The points covered by the edge view. -/
theorem edge_unview (q : Quantity α) (hq : q.WF) {p p' : Nat} (hpp : p + p' = 1) (hn : 2 ≤ q.ndim)
    (c : Nat) (idx : List Nat) (hl : idx.length = q.ndim) (he : (c : Int) < q.o p + q.e p)
    (ho : q.o p ≤ c) :
    ((q.InCompute idx ∧ idx.getD p 0 = c) → unview (edgeRs q p c) idx =
      some ((q.rel idx p').toNat :: tab (q.ndim - 2) fun k => (q.rel idx (k + 2)).toNat)) ∧
    (¬ (q.InCompute idx ∧ idx.getD p 0 = c) → unview (edgeRs q p c) idx = none) := by
  obtain ⟨N, hN⟩ : ∃ N, q.ndim = N + 2 := ⟨q.ndim - 2, by omega⟩
  match idx, hl with
  | a :: b :: rest, hl =>
    have hr : rest.length = N := by simp at hl; omega
    have hb := unview_box N (fun k => q.o (k + 2)) (fun k => (q.e (k + 2)).toNat) rest hr
    have hE : edgeRs q p c = (if 0 = p then RIx.int c else .slice (q.o 0) 1 (q.e 0).toNat) ::
        (if 1 = p then RIx.int c else .slice (q.o 1) 1 (q.e 1).toNat) ::
        boxRs N (fun k => q.o (k + 2)) fun k => (q.e (k + 2)).toNat := by
      unfold edgeRs boxRs
      rw [hN, tab_succ, tab_succ]
      congr 2
      apply tab_congr
      intro k _
      rw [if_neg (by omega)]
    have eN : q.ndim - 2 = N := by omega
    have hin : ∀ k, k < q.ndim → q.o k + ((q.e k).toNat : Nat) = q.o k + q.e k := by
      intro k hk; have := hq.inside k hk; omega
    have i0 := hin 0 (by omega)
    have i1 := hin 1 (by omega)
    -- the remaining axes
    have hrest : (∀ k, k < N → q.o (k + 2) ≤ (rest.getD k 0 : Nat) ∧
        ((rest.getD k 0 : Nat) : Int) < q.o (k + 2) + ((q.e (k + 2)).toNat : Nat)) ↔
        ∀ k, 2 ≤ k → k < q.ndim → q.InDom (a :: b :: rest) k := by
      constructor
      · intro h k h1 h2
        obtain ⟨j, rfl⟩ : ∃ j, k = j + 2 := ⟨k - 2, by omega⟩
        have := h j (by omega)
        rw [hin (j + 2) (by omega)] at this
        unfold Quantity.InDom at'
        simpa using this
      · intro h k hk
        have := h (k + 2) (by omega) (by omega)
        rw [hin (k + 2) (by omega)]
        unfold Quantity.InDom at' at this
        simpa using this
    have htab : (tab N fun k => (((rest.getD k 0 : Nat) : Int) - q.o (k + 2)).toNat) =
        tab (q.ndim - 2) fun k => (q.rel (a :: b :: rest) (k + 2)).toNat := by
      rw [eN]
      apply tab_congr
      intro k _
      unfold Quantity.rel at'
      simp
    rw [htab] at hb
    have step : ∀ (o : Int) (e : Nat) (k : Nat) (X : Option (List Nat)),
        (if 0 ≤ (((k : Nat) : Int) - o) / 1 ∧ (((k : Nat) : Int) - o) / 1 < e ∧
            o + 1 * ((((k : Nat) : Int) - o) / 1) = k then
          X.map (((((k : Nat) : Int) - o) / 1).toNat :: ·) else none) =
        if o ≤ k ∧ (k : Int) < o + e then X.map (((k : Int) - o).toNat :: ·) else none := by
      intro o e k X
      rw [Int.ediv_one]
      by_cases h : o ≤ k ∧ (k : Int) < o + e
      · rw [if_pos h, if_pos (by omega)]
      · rw [if_neg h, if_neg (by omega)]
    have : p = 0 ∨ p = 1 := by omega
    rcases this with rfl | rfl
    · have : p' = 1 := by omega
      subst this
      rw [hE]
      rw [if_pos rfl, if_neg (by omega)]
      simp only [unview, step, hb, List.getD_cons_zero]
      constructor
      · rintro ⟨hc, rfl⟩
        have c1 := hc.2 1 (by omega)
        unfold Quantity.InDom at' at c1
        simp at c1
        rw [if_pos rfl, if_pos (by omega), if_pos (hrest.2 fun k h1 h2 => hc.2 k h2)]
        simp [Quantity.rel, at']
      · intro hno
        by_cases e1 : a = c
        · rw [if_pos e1]
          by_cases e2 : q.o 1 ≤ (b : Int) ∧ (b : Int) < q.o 1 + ((q.e 1).toNat : Nat)
          · rw [if_pos e2, if_neg]
            · rfl
            · intro h3
              apply hno
              refine ⟨⟨hl, fun k hk => ?_⟩, e1⟩
              have : k = 0 ∨ k = 1 ∨ 2 ≤ k := by omega
              rcases this with rfl | rfl | h2
              · unfold Quantity.InDom at'; simp; omega
              · unfold Quantity.InDom at'; simp; omega
              · exact hrest.1 h3 k h2 hk
          · rw [if_neg e2]
        · rw [if_neg e1]
    · have : p' = 0 := by omega
      subst this
      rw [hE]
      rw [if_pos rfl, if_neg (by omega)]
      simp only [unview, step, hb]
      constructor
      · rintro ⟨hc, hbc⟩
        have c1 := hc.2 0 (by omega)
        have hbc' : b = c := by simpa using hbc
        unfold Quantity.InDom at' at c1
        simp at c1
        rw [if_pos hbc', if_pos (by omega), if_pos (hrest.2 fun k h1 h2 => hc.2 k h2)]
        simp [Quantity.rel, at']
      · intro hno
        by_cases e2 : q.o 0 ≤ (a : Int) ∧ (a : Int) < q.o 0 + ((q.e 0).toNat : Nat)
        · rw [if_pos e2]
          by_cases e1 : b = c
          · rw [if_pos e1, if_neg]
            · rfl
            · intro h3
              apply hno
              refine ⟨⟨hl, fun k hk => ?_⟩, by simpa using e1⟩
              have : k = 0 ∨ k = 1 ∨ 2 ≤ k := by omega
              rcases this with rfl | rfl | h2
              · unfold Quantity.InDom at'; simp; omega
              · unfold Quantity.InDom at'; simp; omega
              · exact hrest.1 h3 k h2 hk
          · rw [if_neg e1]; rfl
        · rw [if_neg e2]
  | [], hl => simp at hl; omega
  | [a], hl => simp at hl; omega

end FV3
