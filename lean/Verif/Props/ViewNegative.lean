import Verif.Props.Views

/-!
# C29: negative indices of views

A negative end point `-n` of a slice of `view` counts from the end of the compute domain if `n` is
greater than the origin; otherwise it is the halo point `n` points before the compute domain.
-/

namespace FV3
variable {α : Type}

/-- Index entries which mean the same for `view` as for the compute domain, on an axis of `n` points with
compute domain `o .. o + e`: negative slice ends are beyond the halo, negative integers need an
axis without halo. -/
def Ix.Counted (o e n : Int) : Ix → Prop
  | .int i => (0 ≤ i ∧ i < e) ∨ (n = e ∧ -e ≤ i ∧ i < 0)
  | .slice s => (∀ a, s.start = some a → (0 ≤ a ∧ a ≤ e) ∨ (-e ≤ a ∧ a < -o)) ∧
      (∀ b, s.stop = some b → (0 ≤ b ∧ b ≤ e) ∨ (-e ≤ b ∧ b < -o)) ∧ (∀ st, s.step = some st → 0 < st)

/-- Count a negative position from the end. -/
def normPos (e a : Int) : Int := if a < 0 then e + a else a

def Ix.norm (e : Int) : Ix → Ix
  | .int i => .int (normPos e i)
  | .slice s => .slice ⟨s.start.map (normPos e), s.stop.map (normPos e), s.step⟩

theorem norm_plain {o e n : Int} (ho : 0 ≤ o) (he : 0 ≤ e) {x : Ix} (h : x.Counted o e n) : (x.norm e).Plain e := by
  cases x with
  | int i =>
    simp only [Ix.Counted] at h
    simp only [Ix.norm, Ix.Plain, normPos]
    split <;> omega
  | slice s =>
    obtain ⟨h1, h2, h3⟩ := h
    have key : ∀ v : Option Int, (∀ a, v = some a → (0 ≤ a ∧ a ≤ e) ∨ (-e ≤ a ∧ a < -o)) →
        ∀ a, v.map (normPos e) = some a → 0 ≤ a ∧ a ≤ e := by
      intro v hv a ha
      cases v with
      | none => cases ha
      | some b =>
        simp only [Option.map_some, Option.some.injEq] at ha
        subst ha
        have := hv b rfl
        unfold normPos
        split <;> omega
    exact ⟨key _ h1, key _ h2, h3⟩

theorem clamp_norm {o e n : Int} (he : 0 ≤ e) (ho : 0 ≤ o) {a : Int} (h : (0 ≤ a ∧ a ≤ e) ∨ (-e ≤ a ∧ a < -o)) :
    clampIx false (e.toNat : Nat) (normPos e a) = clampIx false (e.toNat : Nat) a ∧
    shiftIndex (some (normPos e a)) o e = shiftIndex (some a) o e := by
  unfold normPos
  by_cases ha : a < 0
  · rw [if_pos ha]
    constructor
    · unfold clampIx
      simp only [ha, if_true, show ¬ (e + a < 0) by omega, if_false]
      rw [show a + ((e.toNat : Nat) : Int) = e + a by omega]
      simp only [show ¬ (e + a < 0) by omega, if_false]
    · simp only [shiftIndex]
      rw [if_neg (by omega), if_pos (by omega)]
      congr 1
      omega
  · rw [if_neg ha]
    exact ⟨rfl, rfl⟩

theorem norm_resolve {o e : Int} {n : Nat} (ho : 0 ≤ o) (he : 0 ≤ e) (hn : o + e ≤ n) {x : Ix} (h : x.Counted o e n) :
    (x.norm e).resolve e.toNat = x.resolve e.toNat ∧
    (shiftEntry (x.norm e) o e).resolve n = (shiftEntry x o e).resolve n := by
  cases x with
  | int i =>
    simp only [Ix.Counted] at h
    simp only [Ix.norm, normPos]
    by_cases hi : i < 0
    · have h' : (n : Int) = e ∧ -e ≤ i ∧ i < 0 := by omega
      have h0 : o = 0 := by omega
      subst h0
      simp only [Ix.resolve, shiftEntry]
      constructor
      · simp only [hi, if_true, show ¬ (e + i < 0) by omega, if_false, show i + ((e.toNat : Nat) : Int) = e + i by omega]
      · simp only [Int.add_zero, hi, if_true, show ¬ (e + i < 0) by omega, if_false, show i + (n : Int) = e + i by omega]
    · rw [if_neg hi]
      exact ⟨rfl, rfl⟩
  | slice s =>
    obtain ⟨h1, h2, h3⟩ := h
    obtain ⟨sa, sb, st⟩ := s
    dsimp only at h1 h2 h3
    have hst : 0 < st.getD 1 := by
      cases st with
      | none => decide
      | some v => exact h3 v rfl
    have ka : ∀ v : Option Int, (∀ a, v = some a → (0 ≤ a ∧ a ≤ e) ∨ (-e ≤ a ∧ a < -o)) → ∀ d,
        ((v.map (normPos e)).map (clampIx false (e.toNat : Nat))).getD d = (v.map (clampIx false (e.toNat : Nat))).getD d ∧
        shiftIndex (v.map (normPos e)) o e = shiftIndex v o e := by
      intro v hv d
      cases v with
      | none => exact ⟨rfl, rfl⟩
      | some a =>
        obtain ⟨c1, c2⟩ := clamp_norm (n := n) he ho (hv a rfl)
        exact ⟨c1, c2⟩
    constructor
    · simp only [Ix.norm, Ix.resolve, PySlice.resolve]
      have hne : ¬ st.getD 1 = 0 := by omega
      simp only [hne, if_false, gt_iff_lt, hst, if_true, (ka sa h1 _).1, (ka sb h2 _).1]
    · simp only [Ix.norm, shiftEntry, shiftSlice, (ka sa h1 0).2, (ka sb h2 0).2]

theorem norm_list (m : Nat) (ix : List Ix) (os es : List Int) (ns : List Nat)
    (hi : ix.length = m) (ho : os.length = m) (he : es.length = m) (hn : ns.length = m)
    (hin : ∀ k, k < m → 0 ≤ os.getD k 0 ∧ 0 ≤ es.getD k 0 ∧
      os.getD k 0 + es.getD k 0 ≤ (ns.getD k 0 : Nat))
    (hp : ∀ k, k < m → (ix.getD k (.int 0)).Counted (os.getD k 0) (es.getD k 0) (ns.getD k 0 : Nat)) :
    ∃ ix' : List Ix, ix'.length = m ∧ (∀ k, k < m → (ix'.getD k (.int 0)).Plain (es.getD k 0)) ∧
      resolveAll ix' (es.map Int.toNat) = resolveAll ix (es.map Int.toNat) ∧
      resolveAll (shiftEntries ix' os es) ns = resolveAll (shiftEntries ix os es) ns := by
  induction m generalizing ix os es ns with
  | zero =>
    rw [List.length_eq_zero_iff] at hi ho he hn
    subst hi ho he hn
    exact ⟨[], rfl, by omega, rfl, rfl⟩
  | succ m ih =>
    match ix, os, es, ns, hi, ho, he, hn with
    | x :: ix, o :: os, e :: es, n :: ns, hi, ho, he, hn =>
      obtain ⟨ix', h1, h2, h3, h4⟩ := ih ix os es ns (by simpa using hi) (by simpa using ho)
        (by simpa using he) (by simpa using hn)
        (fun k hk => by simpa using hin (k + 1) (by omega))
        (fun k hk => by simpa using hp (k + 1) (by omega))
      have h0 := hin 0 (by omega)
      have p0 := hp 0 (by omega)
      simp only [List.getD_cons_zero] at h0 p0
      obtain ⟨r1, r2⟩ := norm_resolve h0.1 h0.2.1 h0.2.2 p0
      refine ⟨x.norm e :: ix', by simp [h1], ?_, ?_, ?_⟩
      · intro k hk
        cases k with
        | zero => exact norm_plain h0.1 h0.2.1 p0
        | succ k => simpa using h2 k (by omega)
      · simp only [List.map_cons, resolveAll, r1, h3]
      · simp only [shiftEntries, resolveAll, r2, h4]

/-- Entries of a view expression may be replaced by non-negative ones. -/
theorem view_norm (q : Quantity α) (hq : q.WF) (v : VIdx) (hl : v.entries.length ≤ q.ndim)
    (hp : ∀ k, k < v.entries.length → (v.entries.getD k (.int 0)).Counted (q.o k) (q.e k) (q.n k)) :
    ∃ ix : List Ix, ix.length = q.ndim ∧ (∀ k, k < ix.length → (ix.getD k (.int 0)).Plain (q.e k)) ∧
      (0 < q.ndim → q.viewGet v = q.viewGet (.tuple ix)) ∧
      (∀ value, q.viewSet v value = q.viewSet (.tuple ix) value) ∧
      (∀ a : NDArray α, a.shape = q.extent.map Int.toNat →
        a.getItem v.entries = a.getItem ix ∧ ∀ value, a.setItem v.entries value = a.setItem ix value) := by
  have hlen : (q.extent.map Int.toNat).length = q.ndim := by rw [List.length_map, hq.extent]
  obtain ⟨ix, h1, h2, h3, h4⟩ := norm_list q.ndim (fillIndex v.entries q.ndim) q.origin q.extent q.data.shape
    (by simp [fillIndex]; omega) hq.origin hq.extent hq.shape hq.inside (by
      intro k hk
      by_cases h : k < v.entries.length
      · have := hp k h
        rw [getD_lt _ h] at this
        unfold fillIndex
        rw [getD_lt (Ix.int 0) (by rw [List.length_append, List.length_replicate]; omega), List.getElem_append_left h]
        exact this
      · unfold fillIndex
        rw [getD_lt (Ix.int 0) (by rw [List.length_append, List.length_replicate]; omega), List.getElem_append_right (by omega)]
        simp [Ix.Counted, PySlice.full])
  have hfill := resolveAll_fill (q.extent.map Int.toNat) v.entries (by omega)
  rw [hlen] at hfill
  have e0 : q.computeIndex v = .ok (shiftEntries (fillIndex v.entries q.ndim) q.origin q.extent) := by
    unfold Quantity.computeIndex
    cases v <;> simp only [VIdx.entries] at hl ⊢ <;>
      rw [if_neg (by unfold Quantity.ndim at hl; omega), hq.shape]
  have e1 : q.computeIndex (.tuple ix) = .ok (shiftEntries ix q.origin q.extent) := by
    unfold Quantity.computeIndex
    dsimp only
    rw [if_neg (by unfold Quantity.ndim at h1; omega), hq.shape]
    congr 2
    unfold fillIndex
    rw [h1, Nat.sub_self]
    simp
  refine ⟨ix, h1, fun k hk => h2 k (by omega), ?_, ?_, ?_⟩
  · intro hpos
    unfold Quantity.viewGet
    rw [if_neg (by rw [hq.origin]; omega), if_neg (by rw [hq.origin]; omega), e0, e1]
    simp only [bind, Except.bind, NDArray.getItem, h4]
  · intro value
    unfold Quantity.viewSet
    rw [e0, e1]
    simp only [bind, Except.bind, NDArray.setItem, h4]
  · intro a ha
    refine ⟨?_, fun value => ?_⟩
    · simp only [NDArray.getItem, ha, h3, hfill]
    · simp only [NDArray.setItem, ha, h3, hfill]

/-- **C29**: reading through `view` is numpy indexing of the compute domain also for negative slice ends
greater in size than the origin, and for negative integers on axes without halo. -/
theorem C29_negative_reads (q : Quantity α) (hq : q.WF) (hpos : 0 < q.ndim) (v : VIdx)
    (hl : v.entries.length ≤ q.ndim)
    (hp : ∀ k, k < v.entries.length → (v.entries.getD k (.int 0)).Counted (q.o k) (q.e k) (q.n k)) :
    ∃ r, q.viewGet v = .ok r ∧ q.computeArr.getItem v.entries = .ok r := by
  obtain ⟨ix, h1, h2, h3, h4, h5⟩ := view_norm q hq v hl hp
  rw [h3 hpos, (h5 q.computeArr rfl).1]
  exact C29_view_reads_compute_domain q hq hpos (.tuple ix) (by simp [VIdx.entries, h1]) h2

/-- **C29**: assigning through `view` with these indices is numpy assignment to the compute domain and
changes nothing outside it. -/
theorem C29_negative_writes (q : Quantity α) (hq : q.WF) (v : VIdx)
    (hl : v.entries.length ≤ q.ndim)
    (hp : ∀ k, k < v.entries.length → (v.entries.getD k (.int 0)).Counted (q.o k) (q.e k) (q.n k))
    (value : NDArray α) :
    (∀ c, q.computeArr.setItem v.entries value = .ok c → ∃ q', q.viewSet v value = .ok q' ∧
      q'.dims = q.dims ∧ q'.units = q.units ∧ q'.origin = q.origin ∧ q'.extent = q.extent ∧
      q'.data.shape = q.data.shape ∧
      ∀ idx, InB q.data.shape idx →
        (q.InCompute idx → q'.data.get idx = c.get (relIdx q.origin idx)) ∧
        (¬ q.InCompute idx → q'.data.get idx = q.data.get idx)) ∧
    (∀ x, q.computeArr.setItem v.entries value = .error x → q.viewSet v value = .error x) := by
  obtain ⟨ix, h1, h2, h3, h4, h5⟩ := view_norm q hq v hl hp
  rw [h4 value, (h5 q.computeArr rfl).2 value]
  exact C29_view_writes_compute_domain q hq (.tuple ix) (by simp [VIdx.entries, h1]) h2 value

/-- Number of points on the first axis. -/
theorem getItem_first (a : NDArray α) (n : Nat) (ns : List Nat) (ha : a.shape = n :: ns) (s : PySlice) (x st : Int) (c : Nat)
    (hs : s.resolve n = .ok (.slice x st c)) : ∃ r, a.getItem [.slice s] = .ok r ∧ r.shape.getD 0 0 = c := by
  have hf : ∀ ms : List Nat, ∃ rs, resolveAll [] ms = .ok rs := by
    intro ms
    induction ms with
    | nil => exact ⟨[], rfl⟩
    | cons m ms ih =>
      obtain ⟨rs, h⟩ := ih
      exact ⟨.slice 0 1 m :: rs, by simp only [resolveAll, h]; rfl⟩
  obtain ⟨rs, h⟩ := hf ns
  refine ⟨a.view (.slice x st c :: rs), ?_, rfl⟩
  simp only [NDArray.getItem, ha, resolveAll, Ix.resolve, hs, h, bind, Except.bind]

/-- What `view[a:b]` selects on the first axis. -/
theorem view_first (q : Quantity α) (hq : q.WF) (hpos : 0 < q.ndim) (a b : Int) (x st : Int) (c : Nat)
    (hs : (PySlice.mk (some ((shiftIndex (some a) (q.o 0) (q.e 0)).getD 0))
      (some ((shiftIndex (some b) (q.o 0) (q.e 0)).getD 0)) none).resolve (q.data.shape.getD 0 0) = .ok (.slice x st c)) :
    ∃ r, q.viewGet (.one (.slice (.of a b))) = .ok r ∧ r.shape.getD 0 0 = c := by
  have hsh := hq.shape
  have ho := hq.origin
  have he := hq.extent
  match h1 : q.data.shape, h2 : q.origin, h3 : q.extent with
  | [], _, _ => rw [h1] at hsh; simp at hsh; omega
  | _ :: _, [], _ => rw [h2] at ho; simp at ho; omega
  | _ :: _, _ :: _, [] => rw [h3] at he; simp at he; omega
  | n :: ns, o :: os, e :: es =>
    have e0 : q.computeIndex (.one (.slice (.of a b))) =
        .ok (shiftEntries (fillIndex [.slice (.of a b)] q.ndim) q.origin q.extent) := by
      unfold Quantity.computeIndex
      dsimp only
      rw [if_neg (by unfold Quantity.ndim at hpos; simp only [List.length_cons, List.length_nil]; omega), hq.shape]
    have ec : fillIndex [Ix.slice (PySlice.of a b)] q.ndim = .slice (.of a b) :: List.replicate (q.ndim - 1) (.slice .full) := by
      simp [fillIndex]
    unfold Quantity.viewGet
    rw [if_neg (by rw [hq.origin]; omega), e0, ec, h2, h3]
    simp only [bind, Except.bind, shiftEntries, shiftEntry, shiftSlice, boundDefaultSlice, PySlice.of]
    unfold Quantity.o Quantity.e at hs
    rw [h1, h2, h3] at hs
    simp only [List.getD_cons_zero, shiftIndex, Option.getD_some] at hs ⊢
    have hall : ∃ rs, resolveAll (shiftEntries (List.replicate (q.ndim - 1) (.slice .full)) os es) ns = .ok rs := by
      have hin := hq.inside
      unfold Quantity.o Quantity.e Quantity.n at hin
      rw [h1, h2, h3] at hin
      rw [h1] at hsh; rw [h2] at ho; rw [h3] at he
      simp only [List.length_cons] at hsh ho he
      obtain ⟨rs, ss, -, g, -⟩ := resolveAll_shift (q.ndim - 1) (List.replicate (q.ndim - 1) (.slice .full)) os es ns
        (by simp) (by omega) (by omega) (by omega)
        (fun k hk => by simpa using hin (k + 1) (by omega))
        (by
          intro k hk
          rw [getD_lt (Ix.int 0) (by simpa using hk)]
          simp [Ix.Plain, PySlice.full])
      exact ⟨ss, g⟩
    obtain ⟨rs, hrs⟩ := hall
    refine ⟨q.data.view (.slice x st c :: rs), ?_, rfl⟩
    simp only [NDArray.getItem, h1, resolveAll, Ix.resolve, hs, hrs, bind, Except.bind]

/-- **C29**: the documented idiom `view[1:-1]` for all but the edges of the first axis holds exactly for
quantities whose compute domain begins at index 0 (at least three points). -/
theorem C29_idiom_iff (q : Quantity α) (hq : q.WF) (hpos : 0 < q.ndim) (h3 : 3 ≤ q.e 0) :
    (∃ r, q.viewGet (.one (.slice (.of 1 (-1)))) = .ok r ∧ q.computeArr.getItem [.slice (.of 1 (-1))] = .ok r) ↔
      q.o 0 = 0 := by
  have hin := hq.inside 0 hpos
  constructor
  · rintro ⟨r, h1, h2⟩
    by_contra hne
    have ho : 1 ≤ q.o 0 := by omega
    obtain ⟨r', g1, g2⟩ := view_first q hq hpos 1 (-1) (1 + q.o 0) 1 0 (by
      simp only [shiftIndex, Option.getD_some]
      rw [if_neg (by omega), if_neg (by omega)]
      unfold Quantity.n at hin
      simp only [PySlice.resolve, Option.map_some, Option.getD_some, Option.getD_none]
      rw [clampIx_id (by omega) (by omega), clampIx_id (by omega) (by omega)]
      simp only [show ((1 : Int) = 0) = False by simp, show ((1 : Int) > 0) = True by simp, if_true, if_false]
      rw [if_neg (by omega)])
    rw [h1] at g1
    cases g1
    have hsh : q.computeArr.shape = (q.e 0).toNat :: (q.extent.map Int.toNat).tail := by
      have he := hq.extent
      unfold Quantity.computeArr Quantity.e
      match h : q.extent with
      | [] => rw [h] at he; simp at he; omega
      | e :: es => rfl
    obtain ⟨r', g1, g3⟩ := getItem_first q.computeArr _ _ hsh (.of 1 (-1)) 1 1 (q.e 0 - 2).toNat (by
      have c1 : clampIx false ((q.e 0).toNat : Nat) 1 = 1 := clampIx_id (by omega) (by omega)
      have c2 : clampIx false ((q.e 0).toNat : Nat) (-1) = q.e 0 - 1 := by
        unfold clampIx
        simp only [show ((-1 : Int) < 0) = True by simp, if_true]
        rw [if_neg (by omega), if_neg (by omega)]
        omega
      simp only [PySlice.of, PySlice.resolve, Option.map_some, Option.getD_some, Option.getD_none, c1, c2]
      simp only [show ((1 : Int) = 0) = False by simp, show ((1 : Int) > 0) = True by simp, if_true, if_false]
      rw [if_pos (by omega)]
      congr 2
      omega)
    rw [h2] at g1
    cases g1
    omega
  · intro h0
    apply C29_negative_reads q hq hpos _ (by simp [VIdx.entries]; omega)
    intro k hk
    have : k = 0 := by simpa [VIdx.entries] using hk
    subst this
    simp only [VIdx.entries, List.getD_cons_zero, Ix.Counted, PySlice.of]
    refine ⟨?_, ?_, ?_⟩
    · intro a ha; cases ha; omega
    · intro a ha; cases ha; omega
    · intro a ha; cases ha

/-- **C29**: a slice that ends at `-n`, with `n` at most the origin, selects nothing; one that
starts there begins with `n` halo points. -/
theorem C29_negative_halo (q : Quantity α) (hq : q.WF) (hpos : 0 < q.ndim) (n : Int) (h1 : 1 ≤ n) (h2 : n ≤ q.o 0)
    (a : Int) (h0 : 0 ≤ a) (ha : a ≤ q.e 0) :
    (∃ r, q.viewGet (.one (.slice (.of a (-n)))) = .ok r ∧ r.shape.getD 0 0 = 0) ∧
    (∃ r, q.viewGet (.one (.slice (.of (-n) a))) = .ok r ∧ (r.shape.getD 0 0 : Int) = a + n) := by
  have hin := hq.inside 0 hpos
  unfold Quantity.n at hin
  constructor
  · apply view_first q hq hpos a (-n) (a + q.o 0) 1 0
    simp only [shiftIndex, Option.getD_some]
    rw [if_neg (by omega), if_neg (by omega)]
    simp only [PySlice.resolve, Option.map_some, Option.getD_some, Option.getD_none]
    rw [clampIx_id (by omega) (by omega), clampIx_id (by omega) (by omega)]
    simp only [show ((1 : Int) = 0) = False by simp, show ((1 : Int) > 0) = True by simp, if_true, if_false]
    rw [if_neg (by omega)]
  · obtain ⟨r, g1, g2⟩ := view_first q hq hpos (-n) a (-n + q.o 0) 1 (a + n).toNat (by
      simp only [shiftIndex, Option.getD_some]
      rw [if_neg (by omega), if_neg (by omega)]
      simp only [PySlice.resolve, Option.map_some, Option.getD_some, Option.getD_none]
      rw [clampIx_id (by omega) (by omega), clampIx_id (by omega) (by omega)]
      simp only [show ((1 : Int) = 0) = False by simp, show ((1 : Int) > 0) = True by simp, if_true, if_false]
      rw [if_pos (by omega)]
      congr 2
      omega)
    exact ⟨r, g1, by rw [g2]; omega⟩

/-- Concrete cases: origin 1; `view[-3:-2]` counts from the end, `view[1:-1]` is empty. -/
example := C29_negative_reads exV exV_wf (by decide) (.one (.slice (.of (-3) (-2)))) (by decide) (by
  intro k hk
  have : k = 0 := by simpa [VIdx.entries] using hk
  subst this
  simp [VIdx.entries, Ix.Counted, PySlice.of, exV, Quantity.e, Quantity.o, Quantity.n])
example : show1 (exV.viewGet (.one (.slice (.of (-3) (-2))))) = .ok ([1], [2]) := by decide +kernel
example := C29_idiom_iff exV exV_wf (by decide) (by decide)
example := C29_negative_halo exV exV_wf (by decide) 1 (by decide) (by decide) 2 (by decide) (by decide)

end FV3
