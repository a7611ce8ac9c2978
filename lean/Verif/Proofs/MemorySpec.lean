import Verif.Proofs.Memory
import Verif.Proofs.LateSim

/-!
# What stays the same during a program, in the specification of memory
-/

namespace FV3
namespace Mem
open Strided
variable {α : Type}

/-! ### Reading and writing in terms of arrays as values -/

theorem unview_iff {s : List Nat} {rs : List RIx} (h : List.Forall₂ ROk s rs) {idx rel : List Nat} (hi : InB s idx) :
    unview rs idx = some rel ↔ InB (viewShape rs) rel ∧ viewIdx rs rel = idx := by
  induction h generalizing idx rel with
  | nil =>
    cases idx with
    | nil => cases rel <;> simp [unview, viewShape, viewIdx, InB]
    | cons _ _ => exact absurd hi id
  | @cons n r s rs h0 h1 ih =>
    cases idx with
    | nil => exact absurd hi id
    | cons k idx =>
      have hk : k < n := hi.1
      cases r with
      | int i =>
        simp only [unview, viewShape, viewIdx, List.cons.injEq]
        by_cases hc : k = i
        · rw [if_pos hc, ih hi.2]
          simp [hc]
        · rw [if_neg hc]
          constructor
          · intro hh; cases hh
          · rintro ⟨-, hh, -⟩; exact absurd hh.symm hc
      | slice a st c =>
        simp only [unview, viewShape]
        constructor
        · intro hh
          split at hh
          next hc =>
            rw [Option.map_eq_some_iff] at hh
            obtain ⟨rel', e1, rfl⟩ := hh
            have := (ih hi.2).1 e1
            refine ⟨⟨by omega, this.1⟩, ?_⟩
            show (a + st * _).toNat :: viewIdx rs rel' = k :: idx
            rw [this.2]
            congr 1
            rw [Int.toNat_of_nonneg hc.1]
            omega
          · cases hh
        · rintro ⟨hin, he⟩
          cases rel with
          | nil => exact absurd hin id
          | cons j rel =>
            have hj : j < c := hin.1
            have he' : (a + st * j).toNat :: viewIdx rs rel = k :: idx := he
            rw [List.cons.injEq] at he'
            have h3 := h0.2 j hj
            have hkk : (k : Int) = a + st * j := by omega
            have hd : ((k : Int) - a) / st = j := by
              rw [hkk]
              rw [show a + st * (j : Int) - a = st * j by omega]
              exact Int.mul_ediv_cancel_left _ h0.1
            rw [hd, if_pos ⟨by omega, by omega, hkk.symm⟩, (ih hi.2).2 ⟨hin.2, he'.2⟩]
            simp

theorem readArr_eq (d : NDArray α) (info : Option Info) (via : Via) (ix : List Ix) :
    readArr d info via ix =
      if zeroDim info via = true then (if ix = [] then .ok d else .error .indexError)
      else viaIndex info d.shape via ix >>= fun ix => d.getItem ix := by
  cases info with
  | none => simp [readArr, zeroDim, viaIndex, bind, Except.bind]
  | some i =>
    cases via with
    | view =>
      simp only [readArr, zeroDim, viaIndex, Quantity.viewGet, beq_iff_eq]
      split
      · cases ix <;> rfl
      · rfl
    | corner c =>
      simp only [readArr, zeroDim, viaIndex, Quantity.cornerGet, beq_iff_eq]
      split
      · cases ix <;> rfl
      · rfl
    | self => simp [readArr, zeroDim, viaIndex, bind, Except.bind]
    | data => simp [readArr, zeroDim, viaIndex, bind, Except.bind]
    | storage => simp [readArr, zeroDim, viaIndex, bind, Except.bind]

theorem writeArr_eq (d : NDArray α) (info : Option Info) (via : Via) (ix : List Ix) (x : NDArray α) :
    writeArr d info via ix x = (viaIndex info d.shape via ix >>= fun ix => d.setItem ix x) := by
  cases info with
  | none => simp [writeArr, viaIndex, bind, Except.bind]
  | some i =>
    cases via with
    | view =>
      simp only [writeArr, viaIndex, Quantity.viewSet]
      have hce : (⟨d, i.dims, i.units, i.origin, i.extent⟩ : Quantity α).computeIndex (.tuple ix) =
          (⟨⟨d.shape, fun _ => ()⟩, i.dims, i.units, i.origin, i.extent⟩ : Quantity Unit).computeIndex (.tuple ix) := rfl
      rw [hce]
      cases (⟨⟨d.shape, fun _ => ()⟩, i.dims, i.units, i.origin, i.extent⟩ : Quantity Unit).computeIndex (.tuple ix) with
      | error e => rfl
      | ok ix' =>
        simp only [bind, Except.bind]
        cases d.setItem ix' x <;> rfl
    | corner c =>
      simp only [writeArr, viaIndex, Quantity.cornerSet]
      have hce : (⟨d, i.dims, i.units, i.origin, i.extent⟩ : Quantity α).cornerIndex c (.tuple ix) =
          (⟨⟨d.shape, fun _ => ()⟩, i.dims, i.units, i.origin, i.extent⟩ : Quantity Unit).cornerIndex c (.tuple ix) := rfl
      rw [hce]
      cases (⟨⟨d.shape, fun _ => ()⟩, i.dims, i.units, i.origin, i.extent⟩ : Quantity Unit).cornerIndex c (.tuple ix) with
      | error e => rfl
      | ok ix' =>
        simp only [bind, Except.bind]
        cases d.setItem ix' x <;> rfl
    | self => simp [writeArr, viaIndex, bind, Except.bind]
    | data => simp [writeArr, viaIndex, bind, Except.bind]
    | storage => simp [writeArr, viaIndex, bind, Except.bind]

theorem Eqv.refl (a : NDArray α) : a.Eqv a := ⟨rfl, fun _ _ => rfl⟩
theorem Eqv.symm {a b : NDArray α} (h : a.Eqv b) : b.Eqv a := ⟨h.1.symm, fun i hi => (h.2 i (by rw [h.1]; exact hi)).symm⟩
theorem Eqv.trans {a b c : NDArray α} (h : a.Eqv b) (h' : b.Eqv c) : a.Eqv c :=
  ⟨h.1.trans h'.1, fun i hi => (h.2 i hi).trans (h'.2 i (by rw [← h.1]; exact hi))⟩

theorem SameRead.refl (p : Py (NDArray α)) : SameRead p p := by
  cases p with
  | error e => exact rfl
  | ok a => exact Eqv.refl a

theorem SameRead.symm {p q : Py (NDArray α)} (h : SameRead p q) : SameRead q p := by
  cases p <;> cases q
  · exact Eq.symm h
  · exact h
  · exact h
  · exact Eqv.symm h

theorem SameRead.trans {p q r : Py (NDArray α)} (h : SameRead p q) (h' : SameRead q r) : SameRead p r := by
  cases p <;> cases q <;> cases r <;> first | exact absurd h id | exact absurd h' id | skip
  · exact Eq.trans h h'
  · exact Eqv.trans h h'

theorem getItem_eqv {a b : NDArray α} (h : a.Eqv b) (ix : List Ix) : SameRead (a.getItem ix) (b.getItem ix) := by
  unfold NDArray.getItem
  rw [h.1]
  cases hr : resolveAll ix b.shape with
  | error e => exact rfl
  | ok rs =>
    refine ⟨rfl, fun idx hi => ?_⟩
    exact h.2 _ (by rw [h.1]; exact viewIdx_inB (resolveAll_ok hr) hi)

theorem readArr_eqv {a b : NDArray α} (h : a.Eqv b) (info : Option Info) (via : Via) (ix : List Ix) :
    SameRead (readArr a info via ix) (readArr b info via ix) := by
  rw [readArr_eq, readArr_eq, h.1]
  split
  · split
    · exact h
    · exact rfl
  · cases viaIndex info b.shape via ix with
    | error e => exact rfl
    | ok ix => exact getItem_eqv h ix

theorem assign_eqv {a b : NDArray α} (h : a.Eqv b) (rs : List RIx) (x : NDArray α) : (a.assign rs x).Eqv (b.assign rs x) := by
  refine ⟨h.1, fun idx hi => ?_⟩
  show (match unview rs idx with | some rel => x.get rel | none => a.get idx) =
    match unview rs idx with | some rel => x.get rel | none => b.get idx
  cases unview rs idx with
  | some rel => rfl
  | none => exact h.2 idx hi

theorem setItem_eqv {a b : NDArray α} (h : a.Eqv b) (ix : List Ix) (x : NDArray α) : SameRead (a.setItem ix x) (b.setItem ix x) := by
  unfold NDArray.setItem
  rw [h.1]
  cases resolveAll ix b.shape with
  | error e => exact rfl
  | ok rs =>
    simp only [bind, Except.bind]
    split
    · exact assign_eqv h rs _
    · exact rfl

theorem writeArr_eqv {a b : NDArray α} (h : a.Eqv b) (info : Option Info) (via : Via) (ix : List Ix) (x : NDArray α) :
    SameRead (writeArr a info via ix x) (writeArr b info via ix x) := by
  rw [writeArr_eq, writeArr_eq, h.1]
  cases viaIndex info b.shape via ix with
  | error e => exact rfl
  | ok ix => exact setItem_eqv h ix x

section
variable {g : Gt4py} {S S' : SWorld α}

theorem look_part (S : SWorld α) (w : Window) (rs : List RIx) : S.look (w.part rs) = (S.look w).view rs := rfl

theorem select_look (S : SWorld α) (w : Window) (info : Option Info) (via : Via) (ix : List Ix) :
    (w.select info via ix).map S.look = (viaIndex info w.shape via ix >>= fun ix => (S.look w).getItem ix) := by
  unfold Window.select NDArray.getItem
  cases viaIndex info w.shape via ix with
  | error e => rfl
  | ok ix' =>
    show Except.map _ (Except.bind (resolveAll ix' w.shape) _) = Except.bind (resolveAll ix' w.shape) _
    cases resolveAll ix' w.shape with
    | error e => rfl
    | ok rs => rfl

theorem get_of {h : Nat} {o : SObj} {via : Via} {i : Nat} {w : Window} (h1 : S.objs[h]? = some o) (h2 : o.target via = .ok i)
    (h3 : S.wins[i]? = some w) (ix : List Ix) : S.get h via ix = readArr (S.look w) o.info via ix := by
  have hsel := select_look S w o.info via ix
  rw [readArr_eq]
  unfold SWorld.get SWorld.obj SWorld.win
  simp only [h1, bind, Except.bind, h2, h3]
  split
  · rfl
  · show _ = Except.bind (viaIndex o.info w.shape via ix) _
    refine Eq.trans ?_ hsel
    cases w.select o.info via ix <;> rfl

theorem get_err {h : Nat} {o : SObj} {via : Via} {e : PyErr} (h1 : S.objs[h]? = some o) (h2 : o.target via = .error e)
    (ix : List Ix) : S.get h via ix = .error e := by
  unfold SWorld.get SWorld.obj
  simp only [h1, bind, Except.bind, h2]

/-! ### Transitions which affect only some blocks -/

/-- A window, except for whether it can be written. -/
def Window.core (w : Window) : Window := { w with writeable := false }

/-- The windows of an object exist; the data and the storage of a quantity are the same elements; lengths. -/
def ObjOk (wins : List Window) : SObj → Prop
  | .array i => ∃ w, wins[i]? = some w
  | .storage i _ => ∃ w, wins[i]? = some w
  | .quantity d s i => ∃ w, wins[d]? = some w ∧ i.dims.length = w.shape.length ∧ i.origin.length = w.shape.length ∧
      i.extent.length = w.shape.length ∧
      match s, i.backend with
      | none, none => True
      | some j, some _ => ∃ w', wins[j]? = some w' ∧ w'.core = w.core
      | _, _ => False

/-- The windows of an object are on blocks in `P`. -/
def InP (P : Nat → Prop) (wins : List Window) (o : SObj) : Prop :=
  ∀ (via : Via) (i : Nat) (w : Window), o.target via = .ok i → wins[i]? = some w → P w.block

structure SInv (S : SWorld α) : Prop where
  win : ∀ (i : Nat) (w : Window), S.wins[i]? = some w → w.block < S.count
  obj : ∀ (h : Nat) (o : SObj), S.objs[h]? = some o → ObjOk S.wins o

/-- Steps which write only to blocks in `P` and make objects only on them. -/
inductive Trans (P : Nat → Prop) (S : SWorld α) : SWorld α → Prop where
  | refl : Trans P S S
  | newBlock {S' : SWorld α} (x : NDArray α) : Trans P S S' → Trans P S (S'.newBlock x)
  | newWin {S' : SWorld α} (w : Window) : Trans P S S' → w.block < S'.count → Trans P S (S'.newWin w)
  | freeze {S' : SWorld α} (i : Nat) (w : Window) : Trans P S S' → S'.wins[i]? = some w →
      Trans P S { S' with wins := S'.wins.set i { w with writeable := false } }
  | write {S' : SWorld α} (w : Window) (x : NDArray α) : Trans P S S' → P w.block → Trans P S (S'.write w x)
  | add {S' : SWorld α} (o : SObj) : Trans P S S' → ObjOk S'.wins o → InP P S'.wins o → Trans P S (S'.add o)

theorem Trans.trans {P : Nat → Prop} {S S1 S2 : SWorld α} (h : Trans P S S1) (h' : Trans P S1 S2) : Trans P S S2 := by
  induction h' with
  | refl => exact h
  | newBlock x _ ih => exact ih.newBlock x
  | newWin w _ h1 ih => exact ih.newWin w h1
  | freeze i w _ h1 ih => exact ih.freeze i w h1
  | write w x _ h1 ih => exact ih.write w x h1
  | add o _ h1 h2 ih => exact ih.add o h1 h2

/-- Windows keep what they show. -/
def Ext (wins wins' : List Window) : Prop :=
  ∀ (i : Nat) (w : Window), wins[i]? = some w → ∃ w' : Window, wins'[i]? = some w' ∧ w'.core = w.core ∧
    (w.writeable = false → w'.writeable = false)

theorem Ext.trans {a b c : List Window} (h : Ext a b) (h' : Ext b c) : Ext a c := by
  intro i w hi
  obtain ⟨w1, h1, e1, r1⟩ := h i w hi
  obtain ⟨w2, h2, e2, r2⟩ := h' i w1 h1
  exact ⟨w2, h2, e2.trans e1, fun hr => r2 (r1 hr)⟩

theorem getElem?_snoc {β : Type} {l : List β} {x y : β} {i : Nat} (h : (l ++ [x])[i]? = some y) :
    l[i]? = some y ∨ (i = l.length ∧ y = x) := by
  rw [List.getElem?_append] at h
  split at h
  · exact .inl h
  next hn =>
    right
    have : i - l.length = 0 := by
      rw [List.getElem?_eq_some_iff] at h
      obtain ⟨hl, -⟩ := h
      simpa using hl
    refine ⟨by omega, ?_⟩
    rw [this] at h
    simpa using h.symm

theorem getElem?_snoc_old {β : Type} {l : List β} {x y : β} {i : Nat} (h : l[i]? = some y) : (l ++ [x])[i]? = some y := by
  rw [List.getElem?_append_left ((List.getElem?_eq_some_iff.1 h).1)]
  exact h

theorem Ext.snoc (a : List Window) (w : Window) : Ext a (a ++ [w]) :=
  fun _ w' h => ⟨w', getElem?_snoc_old h, rfl, id⟩

theorem Ext.freeze {a : List Window} {i : Nat} {w : Window} (h : a[i]? = some w) :
    Ext a (a.set i { w with writeable := false }) := by
  intro j w' hj
  by_cases e : i = j
  · subst e
    rw [h] at hj
    cases hj
    exact ⟨_, List.getElem?_set_self (List.getElem?_eq_some_iff.1 h).1, rfl, fun _ => rfl⟩
  · exact ⟨w', by rw [List.getElem?_set_ne e]; exact hj, rfl, id⟩

theorem core_shape {w w' : Window} (h : w'.core = w.core) :
    w'.block = w.block ∧ w'.shape = w.shape ∧ w'.place = w.place ∧ w'.gpu = w.gpu := by
  have h1 : w'.core.block = w.core.block := by rw [h]
  have h2 : w'.core.shape = w.core.shape := by rw [h]
  have h3 : w'.core.place = w.core.place := by rw [h]
  have h4 : w'.core.gpu = w.core.gpu := by rw [h]
  exact ⟨h1, h2, h3, h4⟩

theorem look_core (S : SWorld α) {w w' : Window} (h : w'.core = w.core) : S.look w' = S.look w := by
  obtain ⟨h1, h2, h3, -⟩ := core_shape h
  unfold SWorld.look
  rw [h1, h2, h3]

theorem ObjOk.ext {a b : List Window} (he : Ext a b) {o : SObj} (h : ObjOk a o) : ObjOk b o := by
  cases o with
  | array i =>
    obtain ⟨w, hw⟩ := h
    obtain ⟨w', hw', -⟩ := he i w hw
    exact ⟨w', hw'⟩
  | storage i b =>
    obtain ⟨w, hw⟩ := h
    obtain ⟨w', hw', -⟩ := he i w hw
    exact ⟨w', hw'⟩
  | quantity d s i =>
    obtain ⟨w, hw, h1, h2, h3, h4⟩ := h
    obtain ⟨w', hw', e, -⟩ := he d w hw
    have hsh := (core_shape e).2.1
    refine ⟨w', hw', by rw [hsh]; exact h1, by rw [hsh]; exact h2, by rw [hsh]; exact h3, ?_⟩
    cases s with
    | none =>
      cases hb : i.backend with
      | none => trivial
      | some b => rw [hb] at h4; exact h4
    | some j =>
      cases hb : i.backend with
      | none => rw [hb] at h4; exact h4
      | some b =>
        rw [hb] at h4
        obtain ⟨v, hv, ev⟩ := h4
        obtain ⟨v', hv', ev', -⟩ := he j v hv
        exact ⟨v', hv', ev'.trans (ev.trans e.symm)⟩

theorem ObjOk.target {a : List Window} {o : SObj} (h : ObjOk a o) {via : Via} {i : Nat} (ht : o.target via = .ok i) :
    ∃ w, a[i]? = some w := by
  cases o with
  | array j => cases via <;> simp only [SObj.target] at ht <;> cases ht; exact h
  | storage j b => cases via <;> simp only [SObj.target] at ht <;> cases ht; exact h
  | quantity d s inf =>
    obtain ⟨w, hw, -, -, -, h4⟩ := h
    cases via with
    | self => cases ht
    | data => cases ht; exact ⟨w, hw⟩
    | view => cases ht; exact ⟨w, hw⟩
    | corner c => cases ht; exact ⟨w, hw⟩
    | storage =>
      cases s with
      | none => cases ht
      | some j =>
        cases ht
        cases hb : inf.backend with
        | none => rw [hb] at h4; exact absurd h4 id
        | some b =>
          rw [hb] at h4
          obtain ⟨v, hv, -⟩ := h4
          exact ⟨v, hv⟩

theorem InP.ext {P : Nat → Prop} {a b : List Window} (he : Ext a b) {o : SObj} (hok : ObjOk a o) (h : InP P a o) : InP P b o := by
  intro via i w ht hw
  obtain ⟨v, hv⟩ := hok.target ht
  obtain ⟨v', hv', e, -⟩ := he i v hv
  rw [hw] at hv'
  cases hv'
  rw [(core_shape e).1]
  exact h via i v ht hv

structure TransFacts (P : Nat → Prop) (S S' : SWorld α) : Prop where
  ext : Ext S.wins S'.wins
  old : ∀ (h : Nat) (o : SObj), S.objs[h]? = some o → S'.objs[h]? = some o
  len : S.objs.length ≤ S'.objs.length
  count : S.count ≤ S'.count
  blocks : ∀ b : Nat, b < S.count → ¬ P b → S'.blocks b = S.blocks b
  inv : SInv S'
  new : ∀ (h : Nat) (o : SObj), S.objs.length ≤ h → S'.objs[h]? = some o → InP P S'.wins o

theorem Trans.facts {P : Nat → Prop} {S S' : SWorld α} (hi : SInv S) (h : Trans P S S') : TransFacts P S S' := by
  induction h with
  | refl =>
    refine ⟨fun i w h => ⟨w, h, rfl, id⟩, fun _ _ h => h, Nat.le_refl _, Nat.le_refl _, fun _ _ _ => rfl, hi, fun h o h1 h2 => ?_⟩
    have := (List.getElem?_eq_some_iff.1 h2).1
    omega
  | @newBlock S1 x _ ih =>
    refine ⟨ih.ext, ih.old, ih.len, Nat.le_succ_of_le ih.count, fun b hb hp => ?_, ⟨fun i w hw => ?_, ih.inv.obj⟩, ih.new⟩
    · have := ih.count
      show (if b = S1.count then x else S1.blocks b) = _
      rw [if_neg (by omega)]
      exact ih.blocks b hb hp
    · exact Nat.lt_succ_of_lt (ih.inv.win i w hw)
  | @newWin S1 w _ hb ih =>
    have he : Ext S1.wins (S1.newWin w).wins := Ext.snoc _ _
    refine ⟨ih.ext.trans he, ih.old, ih.len, ih.count, ih.blocks, ⟨fun i v hv => ?_, fun h o ho => (ih.inv.obj h o ho).ext he⟩,
      fun h o h1 h2 => (ih.new h o h1 h2).ext he (ih.inv.obj h o h2)⟩
    rcases getElem?_snoc hv with h | ⟨-, rfl⟩
    · exact ih.inv.win i v h
    · exact hb
  | @freeze S1 i w _ hw ih =>
    have he := Ext.freeze hw
    refine ⟨ih.ext.trans he, ih.old, ih.len, ih.count, ih.blocks, ⟨fun j v hv => ?_, fun h o ho => (ih.inv.obj h o ho).ext he⟩,
      fun h o h1 h2 => (ih.new h o h1 h2).ext he (ih.inv.obj h o h2)⟩
    by_cases e : i = j
    · subst e
      have hv' : (S1.wins.set i { w with writeable := false })[i]? = some v := hv
      rw [List.getElem?_set_self (List.getElem?_eq_some_iff.1 hw).1] at hv'
      cases hv'
      exact ih.inv.win i w hw
    · have hv' : (S1.wins.set i { w with writeable := false })[j]? = some v := hv
      rw [List.getElem?_set_ne e] at hv'
      exact ih.inv.win j v hv'
  | @write S1 w x _ hp ih =>
    refine ⟨ih.ext, ih.old, ih.len, ih.count, fun b hb hnp => ?_, ⟨ih.inv.win, ih.inv.obj⟩, ih.new⟩
    show (if b = w.block then _ else S1.blocks b) = _
    rw [if_neg (fun e : b = w.block => hnp (by rw [e]; exact hp))]
    exact ih.blocks b hb hnp
  | @add S1 o _ hok hp ih =>
    refine ⟨ih.ext, fun h o' ho => getElem?_snoc_old (ih.old h o' ho), ?_, ih.count, ih.blocks, ⟨ih.inv.win, fun h o' ho => ?_⟩,
      fun h o' h1 h2 => ?_⟩
    · show _ ≤ (S1.objs ++ [o]).length
      rw [List.length_append]
      have := ih.len
      omega
    · rcases getElem?_snoc ho with h' | ⟨-, rfl⟩
      · exact ih.inv.obj h o' h'
      · exact hok
    · rcases getElem?_snoc h2 with h' | ⟨-, rfl⟩
      · exact ih.new h o' h1 h'
      · exact hp

/-! ### One operation is such a transition -/

variable {P : Nat → Prop}

theorem after_trans {β : Type} {p : Py β} {f : β → Py Unit × SWorld α} {S0 : SWorld α} (h0 : Trans P S0 S)
    (h : ∀ x, p = .ok x → Trans P S0 (f x).2) : Trans P S0 (S.after p f).2 := by
  cases p with
  | error e => exact h0
  | ok x => exact h x rfl

theorem mk?_lens {shape : List Nat} {dims : List Dim} {units : String} {origin extent : Option (List Int)} {q : Quantity Unit}
    (h : Quantity.mk? (⟨shape, fun _ => ()⟩ : NDArray Unit) dims units origin extent = .ok q) :
    dims.length = shape.length ∧ q.origin.length = shape.length ∧ q.extent.length = shape.length := by
  unfold Quantity.mk? validateLengths at h
  simp only [bind, Except.bind, pure, Except.pure] at h
  split at h
  · cases h
  next hv =>
    cases h
    split at hv
    · cases hv
    · split at hv
      · cases hv
      · split at hv
        · cases hv
        · simp only
          omega

theorem finish_trans {S0 : SWorld α} (h0 : Trans P S0 S) {shape : List Nat} {d : Nat} {st : Option Nat} {w : Window}
    (hw : S.wins[d]? = some w) (hsh : w.shape = shape) (hp : P w.block) (dims : List Dim) (units : String)
    (origin extent : Option (List Int)) (backend : Option String)
    (hst : match st, backend with
      | none, none => True
      | some j, some _ => ∃ w', S.wins[j]? = some w' ∧ w'.core = w.core
      | _, _ => False) :
    Trans P S0 (S.finish shape d st dims units origin extent backend).2 := by
  unfold SWorld.finish
  refine after_trans h0 fun q hq => ?_
  have hl := mk?_lens hq
  refine Trans.add _ h0 ⟨w, hw, by rw [hsh]; exact hl.1, by rw [hsh]; exact hl.2.1, by rw [hsh]; exact hl.2.2, hst⟩ ?_
  intro via i v ht hv
  cases via with
  | self => cases ht
  | data => cases ht; rw [hw] at hv; cases hv; exact hp
  | view => cases ht; rw [hw] at hv; cases hv; exact hp
  | corner c => cases ht; rw [hw] at hv; cases hv; exact hp
  | storage =>
    cases st with
    | none => cases ht
    | some j =>
      cases ht
      cases backend with
      | none => exact absurd hst id
      | some b =>
        obtain ⟨v', hv', e⟩ := hst
        rw [hv] at hv'
        cases hv'
        rw [(core_shape e).1]
        exact hp

theorem win_some {i : Nat} {w : Window} (h : S.win i = .ok w) : S.wins[i]? = some w := by
  unfold SWorld.win at h
  cases hs : S.wins[i]? with
  | none => rw [hs] at h; cases h
  | some v => rw [hs] at h; cases h; rfl

theorem obj_some {i : Nat} {o : SObj} (h : S.obj i = .ok o) : S.objs[i]? = some o := by
  unfold SWorld.obj at h
  cases hs : S.objs[i]? with
  | none => rw [hs] at h; cases h
  | some v => rw [hs] at h; cases h; rfl

theorem ofArray_trans {S0 : SWorld α} (h0 : Trans P S0 S) {i : Nat}
    (hp : ∀ w, S.wins[i]? = some w → P w.block) (hnew : P S.count)
    (dims : List Dim) (units : String) (origin extent : Option (List Int)) (backend : Option String) :
    Trans P S0 (S.ofArray g i dims units origin extent backend).2 := by
  unfold SWorld.ofArray
  refine after_trans h0 fun w hw => ?_
  have hw := win_some hw
  cases backend with
  | none => exact finish_trans h0 hw rfl (hp w hw) _ _ _ _ _ trivial
  | some b =>
    simp only
    split
    · exact h0.newBlock _
    · have hb : (Window.whole S.count w.shape (g.kind b == .gpu)).block < (S.newBlock (S.look w)).count :=
        Nat.lt_succ_self S.count
      have t1 := ((h0.newBlock (S.look w)).newWin _ hb).newWin _ hb
      refine finish_trans t1 (w := Window.whole S.count w.shape (g.kind b == .gpu)) ?_ rfl hnew _ _ _ _ _
        ⟨Window.whole S.count w.shape (g.kind b == .gpu), ?_, rfl⟩
      · show ((S.wins ++ [_]) ++ [_])[S.wins.length + 1]? = _
        rw [List.getElem?_append_right (by simp)]
        simp
      · show ((S.wins ++ [_]) ++ [_])[S.wins.length]? = _
        rw [List.getElem?_append_left (by simp), List.getElem?_append_right (by simp)]
        simp

theorem select_block {w p : Window} {info : Option Info} {via : Via} {ix : List Ix} (h : w.select info via ix = .ok p) :
    p.block = w.block := by
  unfold Window.select at h
  cases h1 : viaIndex info w.shape via ix with
  | error e => rw [h1] at h; cases h
  | ok ix' =>
    rw [h1] at h
    simp only [bind, Except.bind] at h
    cases h2 : resolveAll ix' w.shape with
    | error e => rw [h2] at h; cases h
    | ok rs => rw [h2] at h; cases h; rfl

theorem bind_win {o : SObj} {via : Via} {w : Window} (h : o.target via >>= S.win = .ok w) :
    ∃ i, o.target via = .ok i ∧ S.wins[i]? = some w := by
  cases ht : o.target via with
  | error e => rw [ht] at h; cases h
  | ok i => rw [ht] at h; exact ⟨i, rfl, win_some h⟩

theorem inP_array {wins : List Window} {i : Nat} {w : Window} (hw : wins[i]? = some w) (hp : P w.block) : InP P wins (.array i) := by
  intro via j v ht hv
  cases via <;> cases ht
  rw [hw] at hv
  cases hv
  exact hp

theorem getItem_trans (hi : SInv S) {o : SObj} (ho : ObjOk S.wins o) (hp : InP P S.wins o) (via : Via) (ix : List Ix) :
    Trans P S
      (if zeroDim o.info via = true then
        if ix = [] then S.after (o.target via) fun i => (.ok (), S.add (.array i)) else (.error .indexError, S)
      else
        S.after (o.target via >>= S.win) fun w => S.after (w.select o.info via ix) fun p =>
          if p.gpu = false ∧ p.shape = [] then (.ok (), S)
          else (.ok (), (S.newWin p).add (.array S.wins.length)) : Py Unit × SWorld α).2 := by
  split
  · split
    · refine after_trans .refl fun i ht => ?_
      obtain ⟨w, hw⟩ := ho.target ht
      exact Trans.add _ .refl ⟨w, hw⟩ (inP_array hw (hp via i w ht hw))
    · exact .refl
  · refine after_trans .refl fun w hw => ?_
    obtain ⟨i, ht, hw⟩ := bind_win hw
    refine after_trans .refl fun p hsel => ?_
    have hb := select_block hsel
    split
    · exact .refl
    · have hpw : P p.block := by rw [hb]; exact hp via i w ht hw
      have h1 : (S.newWin p).wins[S.wins.length]? = some p := by
        show (S.wins ++ [p])[S.wins.length]? = _
        simp
      exact (Trans.refl.newWin p (by rw [hb]; exact hi.win i w hw)).add _ ⟨p, h1⟩ (inP_array h1 hpw)

theorem step_trans (hi : SInv S) (op : Op α) (hon : ∀ h o, op.on = some h → S.objs[h]? = some o → InP P S.wins o)
    (hnew : P S.count) : Trans P S (S.step g op).2 := by
  cases op with
  | array x gpu =>
    have h1 : ((S.newBlock x).newWin (.whole S.count x.shape gpu)).wins[S.wins.length]? = some (.whole S.count x.shape gpu) := by
      show (S.wins ++ [_])[S.wins.length]? = _
      simp
    refine ((Trans.refl.newBlock x).newWin (.whole S.count x.shape gpu) ?_).add _ ⟨_, h1⟩ (inP_array h1 hnew)
    exact Nat.lt_succ_self S.count
  | storage b x =>
    have h1 : ((S.newBlock x).newWin (.whole S.count x.shape (g.kind b == .gpu))).wins[S.wins.length]? =
        some (.whole S.count x.shape (g.kind b == .gpu)) := by
      show (S.wins ++ [_])[S.wins.length]? = _
      simp
    refine ((Trans.refl.newBlock x).newWin (.whole S.count x.shape (g.kind b == .gpu)) ?_).add _ ⟨_, h1⟩ ?_
    · exact Nat.lt_succ_self S.count
    · intro via i w ht hw
      cases via <;> cases ht
      rw [h1] at hw
      cases hw
      exact hnew
  | dataOf h =>
    unfold SWorld.step
    refine after_trans .refl fun o ho => ?_
    have ho := obj_some ho
    have hp := hon h o rfl ho
    have hok := hi.obj h o ho
    cases o with
    | array i => exact .refl
    | storage i b => exact .refl
    | quantity d s i =>
      obtain ⟨w, hw⟩ := hok.target (via := .data) rfl
      exact Trans.add _ .refl ⟨w, hw⟩ (inP_array hw (hp .data d w rfl hw))
  | storageOf h =>
    unfold SWorld.step
    refine after_trans .refl fun o ho => ?_
    have ho := obj_some ho
    have hp := hon h o rfl ho
    have hok := hi.obj h o ho
    cases o with
    | array i => exact .refl
    | storage i b => exact .refl
    | quantity d s i =>
      cases s with
      | none => exact .refl
      | some s =>
        simp only
        cases i.backend with
        | none => exact .refl
        | some b =>
          obtain ⟨w, hw⟩ := hok.target (via := .storage) rfl
          refine Trans.add _ .refl ⟨w, hw⟩ ?_
          intro via j v ht hv
          cases via <;> cases ht
          rw [hw] at hv
          cases hv
          exact hp .storage s w rfl hw
  | getItem h via ix =>
    unfold SWorld.step
    refine after_trans .refl fun o ho => ?_
    have ho := obj_some ho
    have hp := hon h o rfl ho
    have hok := hi.obj h o ho
    cases o with
    | array i =>
      simp only
      split
      · exact .refl
      · exact getItem_trans hi hok hp via ix
    | storage i b => exact .refl
    | quantity d s i =>
      simp only
      split
      · exact .refl
      · exact getItem_trans hi hok hp via ix
  | setItem h via ix x =>
    unfold SWorld.step
    refine after_trans .refl fun o ho => ?_
    have ho := obj_some ho
    have hp := hon h o rfl ho
    refine after_trans .refl fun w hw => ?_
    obtain ⟨i, ht, hw⟩ := bind_win hw
    refine after_trans .refl fun _ _ => ?_
    split
    · exact .refl
    · refine after_trans .refl fun p hsel => ?_
      split
      · exact Trans.write p _ .refl (by rw [select_block hsel]; exact hp via i w ht hw)
      · exact .refl
  | values h =>
    unfold SWorld.step
    refine after_trans .refl fun o ho => ?_
    have ho := obj_some ho
    have hp := hon h o rfl ho
    cases o with
    | array i => exact .refl
    | storage i b => exact .refl
    | quantity d s i =>
      refine after_trans .refl fun w hw => ?_
      have hw := win_some hw
      have hpw := hp .data d w rfl hw
      split
      · split
        · exact .refl
        · have h1 : (S.wins.set d { w with writeable := false })[d]? = some { w with writeable := false } :=
            List.getElem?_set_self (List.getElem?_eq_some_iff.1 hw).1
          exact (Trans.refl.freeze d w hw).add _ ⟨_, h1⟩ (inP_array h1 hpw)
      · refine after_trans .refl fun p hsel => ?_
        have hb := select_block hsel
        split
        · exact .refl
        · have h1 : (S.newWin { p with writeable := false }).wins[S.wins.length]? = some { p with writeable := false } := by
            show (S.wins ++ [_])[S.wins.length]? = _
            simp
          have hb1 : P ({ p with writeable := false } : Window).block := by
            show P p.block
            rw [hb]; exact hpw
          have hb2 : ({ p with writeable := false } : Window).block < S.count := by
            show p.block < _
            rw [hb]; exact hi.win d w hw
          exact (Trans.refl.newWin _ hb2).add _ ⟨_, h1⟩ (inP_array h1 hb1)
  | quantity h dims units origin extent backend =>
    unfold SWorld.step
    refine after_trans .refl fun o ho => ?_
    have ho := obj_some ho
    have hp := hon h o rfl ho
    cases o with
    | array i => exact ofArray_trans .refl (fun w hw => hp .self i w rfl hw) hnew _ _ _ _ _
    | storage i b =>
      simp only
      split
      · exact .refl
      · refine after_trans .refl fun w hw => ?_
        have hw := win_some hw
        have hpw := hp .self i w rfl hw
        refine finish_trans (Trans.refl.newWin w (hi.win i w hw)) (w := w) ?_ rfl hpw _ _ _ _ _ ⟨w, getElem?_snoc_old hw, rfl⟩
        show (S.wins ++ [_])[S.wins.length]? = _
        simp
    | quantity d s i => exact .refl
  | transpose h target =>
    unfold SWorld.step
    refine after_trans .refl fun o ho => ?_
    have ho := obj_some ho
    have hp := hon h o rfl ho
    cases o with
    | array i => exact .refl
    | storage i b => exact .refl
    | quantity d s i =>
      refine after_trans .refl fun t ht => ?_
      refine after_trans .refl fun w hw => ?_
      have hw := win_some hw
      have hpw := hp .data d w rfl hw
      simp only
      split
      · refine ofArray_trans (Trans.refl.newWin (w.transpose (t.map fun d => i.dims.idxOf d)) (hi.win d w hw)) (fun v hv => ?_) hnew _ _ _ _ _
        have hv' : (S.wins ++ [w.transpose (t.map fun d => i.dims.idxOf d)])[S.wins.length]? = some v := hv
        simp only [List.getElem?_concat_length, Option.some.injEq] at hv'
        subst hv'
        exact hpw
      · exact .refl

theorem run_append (g : Gt4py) (S : SWorld α) (a b : List (Op α)) : (S.run g (a ++ b)).2 = ((S.run g a).2.run g b).2 := by
  induction a generalizing S with
  | nil => rfl
  | cons op a ih => exact ih _

/-- A program which uses only some of the variables that exist, and those it makes itself. -/
theorem run_trans (hi : SInv S) (I : Nat → Prop) (hI : ∀ h, S.objs.length ≤ h → I h)
    (hP : ∀ h o, I h → S.objs[h]? = some o → InP P S.wins o) (hb : ∀ b, S.count ≤ b → P b) (ops : List (Op α))
    (hon : ∀ op ∈ ops, ∀ h, op.on = some h → I h) : Trans P S (S.run g ops).2 := by
  induction ops generalizing S with
  | nil => exact .refl
  | cons op ops ih =>
    have h1 : Trans P S (S.step g op).2 :=
      step_trans hi op (fun h o ho hs => hP h o (hon op List.mem_cons_self h ho) hs) (hb _ (Nat.le_refl _))
    have f := h1.facts hi
    refine h1.trans (ih f.inv (fun h hh => hI h (Nat.le_trans f.len hh)) (fun h o hIh ho => ?_)
      (fun b hb' => hb b (Nat.le_trans f.count hb')) fun op' ho' => hon op' (List.mem_cons_of_mem _ ho'))
    by_cases hlt : h < S.objs.length
    · have hs : S.objs[h]? = some S.objs[h] := List.getElem?_eq_getElem hlt
      have := f.old h _ hs
      rw [ho] at this
      cases this
      exact (hP h _ hIh hs).ext f.ext (hi.obj h _ hs)
    · exact f.new h o (by omega) ho

theorem run_any (hi : SInv S) (ops : List (Op α)) : TransFacts (fun _ => True) S (S.run g ops).2 :=
  (run_trans hi (fun _ => True) (fun _ _ => trivial) (fun _ _ _ _ _ _ _ _ _ => trivial) (fun _ _ => trivial) ops
    fun _ _ _ _ => trivial).facts hi

theorem init_inv (x : α) : SInv (SWorld.init x) := ⟨fun i w h => by simp [SWorld.init] at h, fun h o ho => by simp [SWorld.init] at ho⟩

/-- What is read from an object whose blocks are not affected. -/
theorem get_unaffected (hi : SInv S) {S' : SWorld α} (f : TransFacts P S S') {h : Nat} {o : SObj} (ho : S.objs[h]? = some o)
    (hn : ∀ via i w, o.target via = .ok i → S.wins[i]? = some w → ¬ P w.block) (via : Via) (ix : List Ix) :
    S'.get h via ix = S.get h via ix := by
  have ho' := f.old h o ho
  cases ht : o.target via with
  | error e => rw [get_err ho ht, get_err ho' ht]
  | ok i =>
    obtain ⟨w, hw⟩ := (hi.obj h o ho).target ht
    obtain ⟨w', hw', e, -⟩ := f.ext i w hw
    rw [get_of ho ht hw, get_of ho' ht hw', look_core S' e]
    have : S'.look w = S.look w := by
      unfold SWorld.look
      rw [f.blocks w.block (hi.win i w hw) (hn via i w ht hw)]
    rw [this]

/-- A write through a window is an assignment to the array. -/
theorem look_write {w : Window} (hinj : ∀ idx idx', InB w.shape idx → InB w.shape idx' → w.place idx = w.place idx' → idx = idx')
    {ix : List Ix} {rs : List RIx} (hr : resolveAll ix w.shape = .ok rs) (x : NDArray α) :
    ((S.write (w.part rs) x).look w).Eqv ((S.look w).assign rs x) := by
  refine ⟨rfl, fun idx hi => ?_⟩
  have hi' : InB w.shape idx := hi
  have hok := resolveAll_ok hr
  show (if w.block = w.block then (w.part rs).write (S.blocks w.block) x else S.blocks w.block).get (w.place idx) =
    match unview rs idx with
    | some rel => x.get rel
    | none => (S.blocks w.block).get (w.place idx)
  rw [if_pos rfl]
  show (match (allIdx (viewShape rs)).find? (fun j => w.place (viewIdx rs j) == w.place idx) with
    | some j => x.get j
    | none => (S.blocks w.block).get (w.place idx)) = _
  cases hf : (allIdx (viewShape rs)).find? (fun j => w.place (viewIdx rs j) == w.place idx) with
  | some j =>
    have hj : InB (viewShape rs) j := (mem_allIdx _ _).1 (List.mem_of_find?_eq_some hf)
    have he : w.place (viewIdx rs j) = w.place idx := by simpa using List.find?_some hf
    have := hinj _ _ (viewIdx_inB hok hj) hi' he
    rw [(unview_iff hok hi').2 ⟨hj, this⟩]
  | none =>
    cases hu : unview rs idx with
    | none => rfl
    | some rel =>
      obtain ⟨h1, h2⟩ := (unview_iff hok hi').1 hu
      rw [List.find?_eq_none] at hf
      exact absurd (by rw [h2]; simp) (hf rel ((mem_allIdx _ _).2 h1))

end
end Mem
end FV3
