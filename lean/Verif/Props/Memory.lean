import Verif.Proofs.MemorySpec

/-!
# C58: the data, the view and the storage of a quantity are one array

For all programs: sequences of operations on arrays, storages and quantities.
-/

namespace FV3
namespace Mem
open Strided
variable {α : Type} {g : Gt4py} {W : World α}

/-- **C58**: a program with arrays, strides, gt4py's layouts and copies has the same results, and reads the same
elements, as it has with blocks and windows (Spec/Memory.lean). -/
theorem C58_refines (g : Gt4py) (mem : Int → α) (x : α) (ops : List (Op α)) :
    ((World.init mem).run g ops).1 = ((SWorld.init x).run g ops).1 ∧
    ∀ h via ix, SameRead (((World.init mem).run g ops).2.get h via ix) (((SWorld.init x).run g ops).2.get h via ix) := by
  obtain ⟨h1, bv, h2⟩ := run_sim (init_sim g mem x) ops
  exact ⟨h1, fun h via ix => get_sim h2 h via ix⟩

theorem Reachable.spec (hW : Reachable g W) : ∃ (bv : Nat → View) (S : SWorld α), Sim g bv W S ∧ SInv S := by
  obtain ⟨mem, ops, rfl⟩ := hW
  obtain ⟨-, bv, h2⟩ := run_sim (init_sim g mem (mem 0)) ops
  exact ⟨bv, _, h2, (run_any (init_inv _) ops).inv⟩

theorem wrun_append (g : Gt4py) (W : World α) (a b : List (Op α)) : (W.run g (a ++ b)).2 = ((W.run g a).2.run g b).2 := by
  induction a generalizing W with
  | nil => rfl
  | cons op a ih => exact ih _

theorem Reachable.after (hW : Reachable g W) (ops : List (Op α)) : Reachable g (W.after g ops) := by
  obtain ⟨mem, ops', rfl⟩ := hW
  exact ⟨mem, ops' ++ ops, (wrun_append _ _ _ _).symm⟩

theorem Reachable.step (hW : Reachable g W) (op : Op α) : Reachable g (W.step g op).2 := hW.after [op]

theorem full_rs (s : List Nat) : ∃ rs, resolveAll [] s = .ok rs ∧ viewShape rs = s ∧ ∀ idx, InB s idx → viewIdx rs idx = idx := by
  induction s with
  | nil => exact ⟨[], rfl, rfl, fun idx hi => by cases idx <;> first | rfl | exact absurd hi id⟩
  | cons n s ih =>
    obtain ⟨rs, h1, h2, h3⟩ := ih
    refine ⟨.slice 0 1 n :: rs, by simp [resolveAll, h1, bind, Except.bind], by simp [viewShape, h2], ?_⟩
    intro idx hi
    cases idx with
    | nil => exact absurd hi id
    | cons k idx =>
      show (0 + 1 * (k : Int)).toNat :: viewIdx rs idx = k :: idx
      rw [h3 idx hi.2]
      congr 1
      omega

theorem getItem_full (d : NDArray α) : SameRead (d.getItem []) (.ok d) := by
  obtain ⟨rs, h1, h2, h3⟩ := full_rs d.shape
  unfold NDArray.getItem
  rw [h1]
  refine ⟨h2, fun idx hi => ?_⟩
  show d.get (viewIdx rs idx) = d.get idx
  rw [h3 idx (by rw [← h2]; exact hi)]

theorem infoOf_quantity {bv : Nat → View} {S : SWorld α} (hs : Sim g bv W S) {h : Nat} {i : Info} (hi : W.infoOf h = some i) :
    ∃ d st, S.objs[h]? = some (.quantity d st i) := by
  unfold World.infoOf at hi
  rcases forall₂_get hs.obj h with ⟨h1, h2⟩ | ⟨o, s, h1, h2, ho⟩
  · rw [h1] at hi; cases hi
  · rw [h1] at hi
    cases ho with
    | array j => cases hi
    | storage j b => cases hi
    | quantity d st j => cases hi; exact ⟨d, st, h2⟩

/-- **C58**: whatever the program has done, there is one array `d` such that reading `quantity.data` reads `d`, reading
`quantity.view` and its corners reads the views of `d`, and reading `quantity.storage` reads `d` (TypeError if the
quantity has no backend). -/
theorem C58_one_array (hW : Reachable g W) {h : Nat} {i : Info} (hi : W.infoOf h = some i) :
    ∃ d : NDArray α, d.shape.length = i.dims.length ∧ SameRead (W.get h .data []) (.ok d) ∧
      (∀ ix, SameRead (W.get h .data ix) (d.getItem ix)) ∧
      (∀ ix, SameRead (W.get h .view ix) ((⟨d, i.dims, i.units, i.origin, i.extent⟩ : Quantity α).viewGet (.tuple ix))) ∧
      (∀ c ix, SameRead (W.get h (.corner c) ix)
        ((⟨d, i.dims, i.units, i.origin, i.extent⟩ : Quantity α).cornerGet c (.tuple ix))) ∧
      (i.backend.isSome = true → ∀ ix, SameRead (W.get h .storage ix) (d.getItem ix)) ∧
      (i.backend = none → ∀ ix, W.get h .storage ix = .error .typeError) := by
  obtain ⟨bv, S, hs, hinv⟩ := hW.spec
  obtain ⟨d, st, ho⟩ := infoOf_quantity hs hi
  obtain ⟨w, hw, hl, h2, h3, h4⟩ := hinv.obj _ _ ho
  have key : ∀ via, SObj.target (.quantity d st i) via = .ok d → ∀ ix, SameRead (W.get h via ix) (readArr (S.look w) (some i) via ix) := by
    intro via ht ix
    have := get_sim hs h via ix
    rwa [get_of ho ht hw] at this
  refine ⟨S.look w, hl.symm, (key .data rfl []).trans (getItem_full _), key .data rfl, key .view rfl, fun c => key (.corner c) rfl, ?_, ?_⟩
  · intro hb ix
    cases hbk : i.backend with
    | none => rw [hbk] at hb; cases hb
    | some b =>
      cases st with
      | none => rw [hbk] at h4; exact absurd h4 id
      | some j =>
        rw [hbk] at h4
        obtain ⟨w', hw', e⟩ := h4
        have := get_sim hs h .storage ix
        rw [get_of ho (show SObj.target _ .storage = .ok j from rfl) hw', look_core S e] at this
        exact this
  · intro hb ix
    cases st with
    | some j => rw [hb] at h4; exact absurd h4 id
    | none =>
      have := get_sim hs h .storage ix
      rw [get_err ho (show SObj.target _ .storage = .error .typeError from rfl)] at this
      cases hg : W.get h .storage ix with
      | error e => rw [hg] at this; exact congrArg _ this
      | ok a => rw [hg] at this; exact absurd this id

/-! ### Writing -/

/-- The attribute that gives the whole array. -/
def plain : Via → Via
  | .view => .data
  | .corner _ => .data
  | v => v

theorem plain_target {o : SObj} {via : Via} {i : Nat} (h : o.target via = .ok i) : o.target (plain via) = .ok i := by
  cases o <;> cases via <;> first | exact h | cases h

theorem plain_read (d : NDArray α) (info : Option Info) (via : Via) : SameRead (readArr d info (plain via) []) (.ok d) := by
  have : readArr d info (plain via) [] = d.getItem [] := by
    cases info <;> cases via <;> rfl
  rw [this]
  exact getItem_full d

theorem writeable_spec {bv : Nat → View} {S : SWorld α} (hs : Sim g bv W S) (hinv : SInv S) {h : Nat} {via : Via}
    (hw : W.writeable h via = true) :
    ∃ o so i a w, W.objs[h]? = some o ∧ S.objs[h]? = some so ∧ ObjR g o so ∧ so.target via = .ok i ∧ W.arrs[i]? = some a ∧
      S.wins[i]? = some w ∧ ArrR S.count bv a w ∧ a.writeable = true := by
  unfold World.writeable at hw
  rcases forall₂_get hs.obj h with ⟨h1, h2⟩ | ⟨o, so, h1, h2, ho⟩
  · rw [h1] at hw; cases hw
  · rw [h1] at hw
    simp only [ho.target] at hw
    cases ht : so.target via with
    | error e => rw [ht] at hw; cases hw
    | ok i =>
      rw [ht] at hw
      simp only at hw
      rcases forall₂_get hs.arr i with ⟨h3, h4⟩ | ⟨a, w, h3, h4, hr⟩
      · rw [h3] at hw; cases hw
      · rw [h3] at hw
        exact ⟨o, so, i, a, w, h1, h2, ho, ht, h3, h4, hr, hw⟩

/-- **C58**: an assignment through any attribute of an object is the assignment to the array as a value
(Model/Quantity.lean), with the same exceptions; after an exception nothing has changed. -/
theorem C58_write (hW : Reachable g W) {h : Nat} {via : Via} (hw : W.writeable h via = true) (ix : List Ix) (x : NDArray α) :
    ∃ d : NDArray α, SameRead (W.get h (plain via) []) (.ok d) ∧
      (∀ e, writeArr d (W.infoOf h) via ix x = .error e → W.step g (.setItem h via ix x) = (.error e, W)) ∧
      (∀ d', writeArr d (W.infoOf h) via ix x = .ok d' → (W.step g (.setItem h via ix x)).1 = .ok () ∧
        SameRead ((W.step g (.setItem h via ix x)).2.get h (plain via) []) (.ok d')) := by
  obtain ⟨bv, S, hs, hinv⟩ := hW.spec
  obtain ⟨o, so, i, a, w, h1, h2, ho, ht, h3, h4, hr, hwr⟩ := writeable_spec hs hinv hw
  have hinfo : W.infoOf h = so.info := by
    unfold World.infoOf
    rw [h1, ← ho.info]
    rfl
  have hsim := step_sim hs (.setItem h via ix x)
  refine ⟨S.look w, ?_, ?_⟩
  · have := get_sim hs h (plain via) []
    rw [get_of h2 (plain_target ht) h4] at this
    exact this.trans (plain_read _ _ _)
  · rw [hinfo, writeArr_eq]
    have hWstep : W.step g (.setItem h via ix x) =
        match viaIndex so.info w.shape via ix with
        | .error e => (.error e, W)
        | .ok ix => W.assign i ix x := by
      unfold World.step World.access
      simp only [h1, ho.target, ht, h3, ho.info, hr.shape]
      cases viaIndex so.info w.shape via ix <;> rfl
    have hSstep : S.step g (.setItem h via ix x) =
        S.after (viaIndex so.info w.shape via ix) fun _ =>
          if w.writeable = false then (.error .valueError, S)
          else S.after (w.select so.info via ix) fun p =>
            if fits x.shape p.shape then (.ok (), S.write p (x.stretch p.shape)) else (.error .valueError, S) := by
      unfold SWorld.step SWorld.obj SWorld.after
      simp only [h2, bind, Except.bind, ht, SWorld.win, h4]
    have hlook : (S.look w).shape = w.shape := rfl
    rw [hlook]
    rcases select_eq hr.shape so.info via ix with ⟨e, e1, e2⟩ | ⟨ix', e1, e2⟩
    · rw [hr.shape] at e1
      rw [hWstep, e1]
      refine ⟨fun e' he => ?_, fun d' hd => ?_⟩
      · cases he; rfl
      · cases hd
    · rw [hr.shape] at e1 e2
      rw [e1] at hWstep ⊢
      rw [e1] at hSstep
      have hwf : w.writeable = true := by rw [← hr.wr]; exact hwr
      have hb : ∀ (β : Type) (f : List Ix → Py β), ((Except.ok ix' : Py (List Ix)) >>= f) = f ix' := fun _ _ => rfl
      rw [hb]
      unfold NDArray.setItem
      rw [hlook]
      unfold World.assign at hWstep
      simp only [h3, hwr, Bool.true_eq_false, if_false, hr.shape] at hWstep
      simp only [SWorld.after, hwf, Bool.true_eq_false, if_false] at hSstep
      rcases e2 with ⟨e, e2, e3⟩ | ⟨rs, e2, e3⟩
      · rw [e2] at hWstep ⊢
        rw [hWstep]
        refine ⟨fun e' he => ?_, fun d' hd => ?_⟩
        · cases he; rfl
        · cases hd
      · rw [e2] at hWstep ⊢
        rw [e3] at hSstep
        simp only [bind, Except.bind] at hWstep hSstep ⊢
        by_cases hc : fits x.shape (viewShape rs) = true
        · rw [if_pos hc]
          rw [if_pos (show fits x.shape (w.part rs).shape = true from hc)] at hSstep
          refine ⟨fun e' he => ?_, fun d' hd => ?_⟩
          · cases he
          · cases hd
            rw [hSstep] at hsim
            obtain ⟨hres, bv', hs'⟩ := hsim
            refine ⟨hres, ?_⟩
            have hg := get_sim hs' h (plain via) []
            rw [get_of (S := S.write (w.part rs) (x.stretch (w.part rs).shape)) h2 (plain_target ht) h4] at hg
            exact (hg.trans (plain_read _ _ _)).trans (look_write hr.inj e2 _)
        · rw [if_neg hc] at hWstep ⊢
          rw [hWstep]
          refine ⟨fun e' he => ?_, fun d' hd => ?_⟩
          · cases he; rfl
          · cases hd

/-- **C58**: an assignment to a read-only array (or to something that is not an array) raises, and nothing has changed. -/
theorem C58_read_only (hW : Reachable g W) {h : Nat} {via : Via} (hw : W.writeable h via = false) (ix : List Ix) (x : NDArray α) :
    ∃ e, W.step g (.setItem h via ix x) = (.error e, W) := by
  unfold World.writeable at hw
  unfold World.step World.access World.assign
  cases h1 : W.objs[h]? with
  | none => exact ⟨.keyError, by simp only [h1]⟩
  | some o =>
    simp only [h1] at hw ⊢
    cases h2 : o.target via with
    | error e => exact ⟨e, rfl⟩
    | ok i =>
      simp only [h2] at hw ⊢
      cases h3 : W.arrs[i]? with
      | none => exact ⟨.keyError, rfl⟩
      | some a =>
        rw [h3] at hw
        have hw' : a.writeable = false := hw
        simp only
        cases viaIndex o.info a.view.shape via ix with
        | error e => exact ⟨e, rfl⟩
        | ok ix' =>
          simp only [h3]
          rw [if_pos hw']
          exact ⟨_, rfl⟩

/-! ### Copies -/

theorem run_both {bv : Nat → View} {S : SWorld α} (hs : Sim g bv W S) (ops : List (Op α)) (h : Nat) (via : Via) (ix : List Ix) :
    SameRead ((W.after g ops).get h via ix) ((S.run g ops).2.get h via ix) := by
  obtain ⟨-, bv', h2⟩ := run_sim hs ops
  exact get_sim h2 h via ix

theorem step_quantity (S : SWorld α) (h : Nat) (dims : List Dim) (units : String) (origin extent : Option (List Int))
    (backend : Option String) : S.step g (.quantity h dims units origin extent backend) = S.after (S.obj h) fun
    | .quantity .. => (.error .attributeError, S)
    | .storage s b =>
      if backend.isSome ∨ g.kind b = .other then (.error .typeError, S)
      else S.after (S.win s) fun w =>
        (S.newWin w).finish w.shape S.wins.length (some s) dims units origin extent (some b)
    | .array i => S.ofArray g i dims units origin extent backend := rfl

theorem step_transpose (S : SWorld α) (h : Nat) (target : List Quantity.TDim) :
    S.step g (.transpose h target) = S.after (S.obj h) fun
    | .quantity d s i => S.after (Quantity.collapseDims i.dims target) fun t => S.after (S.win d) fun w =>
      if (t.map fun d => i.dims.idxOf d).Perm (List.range w.shape.length) then
        (S.newWin (w.transpose (t.map fun d => i.dims.idxOf d))).ofArray g S.wins.length
          (Quantity.transposeSeq .x i.dims (t.map fun d => i.dims.idxOf d)) i.units
          (some (Quantity.transposeSeq 0 i.origin (t.map fun d => i.dims.idxOf d)))
          (some (Quantity.transposeSeq 0 i.extent (t.map fun d => i.dims.idxOf d))) i.backend
      else (.error .valueError, S)
    | _ => (.error .attributeError, S) := rfl

theorem step_values (S : SWorld α) (h : Nat) : S.step g (.values h) = S.after (S.obj h) fun
    | .quantity d s i => S.after (S.win d) fun w =>
      if i.origin = [] then
        if w.gpu = true then (.error .typeError, S)
        else (.ok (), ({ S with wins := S.wins.set d { w with writeable := false } } : SWorld α).add (.array d))
      else S.after (w.select (some i) .view [.slice .full]) fun p =>
        if w.gpu = true then (.error .typeError, S)
        else (.ok (), (S.newWin { p with writeable := false }).add (.array S.wins.length))
    | _ => (.error .attributeError, S) := rfl

theorem after_ok {β : Type} {S : SWorld α} {p : Py β} {f : β → Py Unit × SWorld α} (h : (S.after p f).1 = .ok ()) :
    ∃ x, p = .ok x ∧ S.after p f = f x := by
  cases p with
  | error e => cases h
  | ok x => exact ⟨x, rfl, rfl⟩

/-- A new quantity. -/
theorem finish_ok {S : SWorld α} {shape : List Nat} {d : Nat} {st : Option Nat} {dims : List Dim} {units : String}
    {origin extent : Option (List Int)} {backend : Option String}
    (h : (S.finish shape d st dims units origin extent backend).1 = .ok ()) :
    ∃ q : Quantity Unit, Quantity.mk? (⟨shape, fun _ => ()⟩ : NDArray Unit) dims units origin extent = .ok q ∧
      S.finish shape d st dims units origin extent backend =
        (.ok (), S.add (.quantity d st ⟨dims, units, q.origin, q.extent, backend⟩)) := by
  unfold SWorld.finish at h ⊢
  obtain ⟨q, h1, h2⟩ := after_ok h
  exact ⟨q, h1, h2⟩

/-- A quantity with new memory is independent of everything else. -/
theorem private_of {S S1 : SWorld α} {W1 : World α} {bv bv1 : Nat → View} (hs : Sim g bv W S) (hinv : SInv S) (hs1 : Sim g bv1 W1 S1)
    (ht : Trans (fun b => S.count ≤ b) S S1) (hobjs : ∃ o, S1.objs = S.objs ++ [o] ∧ InP (fun b => b = S.count) S1.wins o)
    (hcount : S1.count = S.count + 1) :
    (∀ ops, (∀ op ∈ ops, op.on ≠ some W.objs.length) → ∀ via ix,
      SameRead ((W1.after g ops).get W.objs.length via ix) (W1.get W.objs.length via ix)) ∧
    (∀ ops, (∀ op ∈ ops, ∀ k, op.on = some k → W.objs.length ≤ k) → ∀ k, k < W.objs.length → ∀ via ix,
      SameRead ((W1.after g ops).get k via ix) (W.get k via ix)) := by
  have f := ht.facts hinv
  obtain ⟨o, ho, hin⟩ := hobjs
  have hlen : W.objs.length = S.objs.length := hs.lenObj
  have hget : S1.objs[S.objs.length]? = some o := by rw [ho]; simp
  have hl1 : S1.objs.length = S.objs.length + 1 := by rw [ho]; simp
  -- blocks of the other variables
  have hold : ∀ k o', k < S.objs.length → S1.objs[k]? = some o' →
      S.objs[k]? = some o' ∧ ∀ via i w, o'.target via = .ok i → S.wins[i]? = some w → w.block < S.count := by
    intro k o' hk hk'
    rw [ho, List.getElem?_append_left hk] at hk'
    exact ⟨hk', fun via i w _ hw => hinv.win i w hw⟩
  rw [hlen]
  refine ⟨fun ops hon via ix => ?_, fun ops hon k hk via ix => ?_⟩
  · have tr : Trans (fun b => b ≠ S.count) S1 (S1.run g ops).2 := by
      refine run_trans f.inv (fun h => h ≠ S.objs.length) (fun h hh => ?_) (fun h o' hne ho' => ?_) (fun b hb => ?_) ops
        fun op hop h hh e => hon op hop (by rw [hh, e])
      · show h ≠ S.objs.length
        rw [hl1] at hh
        omega
      · have hlt : h < S1.objs.length := (List.getElem?_eq_some_iff.1 ho').1
        rw [hl1] at hlt
        have hlt' : h < S.objs.length := by have : h ≠ S.objs.length := hne; omega
        obtain ⟨h1, h2⟩ := hold h o' hlt' ho'
        intro via i w ht hw
        obtain ⟨v, hv⟩ := (hinv.obj h o' h1).target ht
        obtain ⟨v', hv', e, -⟩ := f.ext i v hv
        rw [hw] at hv'
        cases hv'
        show w.block ≠ S.count
        rw [(core_shape e).1]
        have := h2 via i v ht hv
        omega
      · show b ≠ S.count
        rw [hcount] at hb
        omega
    refine (run_both hs1 ops _ via ix).trans ?_
    rw [get_unaffected f.inv (tr.facts f.inv) hget (fun via i w ht hw hne => hne (hin via i w ht hw))]
    exact (get_sim hs1 _ via ix).symm
  · have tr : Trans (fun b => S.count ≤ b) S1 (S1.run g ops).2 := by
      refine run_trans f.inv (fun h => S.objs.length ≤ h) (fun h hh => ?_) (fun h o' hge ho' => ?_) (fun b hb => ?_) ops
        fun op hop h hh => hon op hop h hh
      · show S.objs.length ≤ h
        rw [hl1] at hh
        omega
      · exact f.new h o' hge ho'
      · show S.count ≤ b
        rw [hcount] at hb
        omega
    have hk' : S.objs[k]? = some S.objs[k] := List.getElem?_eq_getElem hk
    refine (run_both hs1 ops k via ix).trans ?_
    rw [get_unaffected hinv ((ht.trans tr).facts hinv) hk' (fun via i w ht hw hle => ?_)]
    · exact (get_sim hs k via ix).symm
    · have := hinv.win i w hw
      have : S.count ≤ w.block := hle
      omega

theorem whole_look (S : SWorld α) (x : NDArray α) (gpu : Bool) : (S.newBlock x).look (.whole S.count x.shape gpu) = x := by
  show (⟨x.shape, fun idx => (if S.count = S.count then x else S.blocks S.count).get idx⟩ : NDArray α) = x
  simp

theorem ofArray_copy {S : SWorld α} {i : Nat} {w : Window} (hw : S.wins[i]? = some w) {dims : List Dim} {units : String}
    {origin extent : Option (List Int)} {b : String} (hok : (S.ofArray g i dims units origin extent (some b)).1 = .ok ()) :
    ∃ (q : Quantity Unit) (n : Window),
      Quantity.mk? (⟨w.shape, fun _ => ()⟩ : NDArray Unit) dims units origin extent = .ok q ∧
      n = .whole S.count w.shape (g.kind b == .gpu) ∧
      (S.ofArray g i dims units origin extent (some b)).2 = (((S.newBlock (S.look w)).newWin n).newWin n).add
        (.quantity (S.wins.length + 1) (some S.wins.length) ⟨dims, units, q.origin, q.extent, some b⟩) := by
  unfold SWorld.ofArray at hok ⊢
  obtain ⟨w', h1, h2⟩ := after_ok hok
  rw [h2] at hok ⊢
  have h1 := win_some h1
  rw [hw] at h1
  cases h1
  simp only at hok ⊢
  split at hok
  · cases hok
  next hk =>
    rw [if_neg hk]
    obtain ⟨q, h3, h4⟩ := finish_ok hok
    exact ⟨q, _, h3, rfl, by rw [h4]⟩

theorem quantity_inP {wins : List Window} {n : Window} {i : Info} {P : Nat → Prop} (hp : P n.block) :
    InP P (wins ++ [n] ++ [n]) (.quantity (wins.length + 1) (some wins.length) i) := by
  have h1 : (wins ++ [n] ++ [n])[wins.length + 1]? = some n := by
    rw [List.getElem?_append_right (by simp)]; simp
  have h2 : (wins ++ [n] ++ [n])[wins.length]? = some n := by
    rw [List.getElem?_append_left (by simp), List.getElem?_append_right (by simp)]; simp
  intro via j w ht hw
  cases via with
  | self => cases ht
  | data => cases ht; rw [h1] at hw; cases hw; exact hp
  | view => cases ht; rw [h1] at hw; cases hw; exact hp
  | corner c => cases ht; rw [h1] at hw; cases hw; exact hp
  | storage => cases ht; rw [h2] at hw; cases hw; exact hp

theorem snoc2_get {wins : List Window} {n : Window} :
    (wins ++ [n] ++ [n])[wins.length + 1]? = some n ∧ (wins ++ [n] ++ [n])[wins.length]? = some n := by
  constructor
  · rw [List.getElem?_append_right (by simp)]; simp
  · rw [List.getElem?_append_left (by simp), List.getElem?_append_right (by simp)]; simp

/-- A quantity with a backend, made from window `i` of `S0`, where `S0` is `S` with perhaps more windows. -/
theorem copy_private {S S0 : SWorld α} {W1 : World α} {bv bv1 : Nat → View} (hs : Sim g bv W S) (hinv : SInv S)
    (h0 : Trans (fun b => S.count ≤ b) S S0) (hc : S0.count = S.count) (hobjs : S0.objs = S.objs)
    {i : Nat} {w : Window} (hw : S0.wins[i]? = some w) {dims : List Dim} {units : String}
    {origin extent : Option (List Int)} {b : String} (hok : (S0.ofArray g i dims units origin extent (some b)).1 = .ok ())
    (hs1 : Sim g bv1 W1 (S0.ofArray g i dims units origin extent (some b)).2) :
    (∃ q : Quantity Unit, Quantity.mk? (⟨w.shape, fun _ => ()⟩ : NDArray Unit) dims units origin extent = .ok q ∧
      W1.infoOf W.objs.length = some ⟨dims, units, q.origin, q.extent, some b⟩) ∧
    (∀ ix, SameRead (W1.get W.objs.length .data ix) ((S0.look w).getItem ix)) ∧
    (∀ ops, (∀ op ∈ ops, op.on ≠ some W.objs.length) → ∀ via ix,
      SameRead ((W1.after g ops).get W.objs.length via ix) (W1.get W.objs.length via ix)) ∧
    (∀ ops, (∀ op ∈ ops, ∀ k, op.on = some k → W.objs.length ≤ k) → ∀ k, k < W.objs.length → ∀ via ix,
      SameRead ((W1.after g ops).get k via ix) (W.get k via ix)) := by
  obtain ⟨q, n, hq, hn, hS1⟩ := ofArray_copy hw hok
  have hb : n.block = S.count := by rw [hn, ← hc]; rfl
  have hl := mk?_lens hq
  have hnsh : n.shape = w.shape := by rw [hn]; rfl
  have hlook : (S0.newBlock (S0.look w)).look n = S0.look w := by
    rw [hn]; exact whole_look S0 (S0.look w) _
  rw [hS1] at hs1
  have g1 := (snoc2_get (wins := S0.wins) (n := n))
  have hokk : ObjOk (S0.wins ++ [n] ++ [n]) (.quantity (S0.wins.length + 1) (some S0.wins.length) ⟨dims, units, q.origin, q.extent, some b⟩) :=
    ⟨n, g1.1, by rw [hnsh]; exact hl.1, by rw [hnsh]; exact hl.2.1, by rw [hnsh]; exact hl.2.2, n, g1.2, rfl⟩
  have hbl : n.block < (S0.newBlock (S0.look w)).count := by
    show n.block < S0.count + 1
    omega
  have ht : Trans (fun b => S.count ≤ b) S ((((S0.newBlock (S0.look w)).newWin n).newWin n).add
        (.quantity (S0.wins.length + 1) (some S0.wins.length) ⟨dims, units, q.origin, q.extent, some b⟩)) :=
    (((h0.newBlock (S0.look w)).newWin n hbl).newWin n hbl).add _ hokk (quantity_inP (by show S.count ≤ n.block; omega))
  have hobj : ((((S0.newBlock (S0.look w)).newWin n).newWin n).add
        (.quantity (S0.wins.length + 1) (some S0.wins.length) ⟨dims, units, q.origin, q.extent, some b⟩)).objs[W.objs.length]? =
      some (.quantity (S0.wins.length + 1) (some S0.wins.length) ⟨dims, units, q.origin, q.extent, some b⟩) := by
    show (S0.objs ++ [_])[W.objs.length]? = _
    rw [hobjs, hs.lenObj]
    simp
  refine ⟨⟨q, hq, ?_⟩, fun ix => ?_, private_of hs hinv hs1 ht ⟨.quantity (S0.wins.length + 1) (some S0.wins.length) ⟨dims, units, q.origin, q.extent, some b⟩, ?_,
    quantity_inP (wins := S0.wins) (P := fun b => b = S.count) hb⟩ ?_⟩
  · unfold World.infoOf
    rcases forall₂_get hs1.obj W.objs.length with ⟨h1, h2⟩ | ⟨o, s, h1, h2, ho⟩
    · rw [hobj] at h2; cases h2
    · rw [hobj] at h2
      cases h2
      rw [h1]
      show o.info = _
      rw [ho.info]
      rfl
  · refine (get_sim hs1 _ .data ix).trans ?_
    rw [get_of hobj (show SObj.target _ .data = .ok _ from rfl) g1.1]
    show SameRead (readArr ((S0.newBlock (S0.look w)).look n) _ .data ix) _
    rw [hlook]
    exact SameRead.refl _
  · show S0.objs ++ [_] = _
    rw [hobjs]
  · show S0.count + 1 = _
    rw [hc]

/-- **C58**: a quantity made with a gt4py backend from an array has a copy of the array: it holds the same elements when it
is made; afterwards no operation on other variables changes what it holds, and no operation on it, or on variables made
later, changes what the older variables hold. -/
theorem C58_private (hW : Reachable g W) {h : Nat} {dims : List Dim} {units : String} {origin extent : Option (List Int)}
    {b : String} (hok : (W.step g (.quantity h dims units origin extent (some b))).1 = .ok ()) :
    let W1 := (W.step g (.quantity h dims units origin extent (some b))).2
    let n := W.objs.length
    (∀ ix, SameRead (W1.get n .data ix) (W.get h .self ix)) ∧
    (∀ ops, (∀ op ∈ ops, op.on ≠ some n) → ∀ via ix, SameRead ((W1.after g ops).get n via ix) (W1.get n via ix)) ∧
    (∀ ops, (∀ op ∈ ops, ∀ k, op.on = some k → n ≤ k) → ∀ k, k < n → ∀ via ix,
      SameRead ((W1.after g ops).get k via ix) (W.get k via ix)) := by
  intro W1 n
  obtain ⟨bv, S, hs, hinv⟩ := hW.spec
  obtain ⟨hres, bv1, hs1⟩ := step_sim hs (.quantity h dims units origin extent (some b))
  rw [hok] at hres
  have hstep := hres.symm
  rw [step_quantity] at hstep hs1
  obtain ⟨o, ho, e⟩ := after_ok hstep
  rw [e] at hstep hs1
  have ho := obj_some ho
  cases o with
  | quantity d st i => cases hstep
  | storage s b' =>
    simp only [Option.isSome_some, true_or, if_true] at hstep
    cases hstep
  | array i =>
    obtain ⟨w, hw⟩ := (hinv.obj _ _ ho).target (via := .self) (i := i) rfl
    obtain ⟨-, h1, h2, h3⟩ := copy_private hs hinv .refl rfl rfl hw hstep hs1
    refine ⟨fun ix => ?_, h2, h3⟩
    refine (h1 ix).trans ?_
    have := get_sim hs h .self ix
    rw [get_of ho (show SObj.target _ .self = .ok i from rfl) hw] at this
    exact this.symm

/-! ### Sharing -/

/-- Two variables whose arrays show the same elements do so for ever. -/
theorem shared_of {S1 : SWorld α} {W1 : World α} {bv1 : Nat → View} (hinv : SInv S1) (hs1 : Sim g bv1 W1 S1) {h k : Nat} {o p : SObj}
    {v v' : Via} {i j : Nat} {w w' : Window} (ho : S1.objs[h]? = some o) (hp : S1.objs[k]? = some p) (hi : o.target v = .ok i)
    (hj : p.target v' = .ok j) (hw : S1.wins[i]? = some w) (hw' : S1.wins[j]? = some w') (ops : List (Op α)) :
    ∃ S2 : SWorld α, (∀ ix, SameRead ((W1.after g ops).get h v ix) (readArr (S2.look w) o.info v ix)) ∧
      (∀ ix, SameRead ((W1.after g ops).get k v' ix) (readArr (S2.look w') p.info v' ix)) := by
  have f := run_any (g := g) hinv ops
  obtain ⟨x, hx, ex, -⟩ := f.ext i w hw
  obtain ⟨y, hy, ey, -⟩ := f.ext j w' hw'
  refine ⟨(S1.run g ops).2, fun ix => ?_, fun ix => ?_⟩
  · refine (run_both hs1 ops h v ix).trans ?_
    rw [get_of (f.old _ _ ho) hi hx, look_core _ ex]
    exact SameRead.refl _
  · refine (run_both hs1 ops k v' ix).trans ?_
    rw [get_of (f.old _ _ hp) hj hy, look_core _ ey]
    exact SameRead.refl _

/-- **C58**: a quantity made of an array without a backend, or of a gt4py storage, has no copy: whatever the program does
later, reading its data and reading the array or storage give the same. -/
theorem C58_shared (hW : Reachable g W) {h : Nat} {dims : List Dim} {units : String} {origin extent : Option (List Int)}
    (hok : (W.step g (.quantity h dims units origin extent none)).1 = .ok ()) (ops : List (Op α)) (ix : List Ix) :
    let W2 := (W.step g (.quantity h dims units origin extent none)).2.after g ops
    SameRead (W2.get W.objs.length .data ix) (W2.get h .self ix) := by
  intro W2
  obtain ⟨bv, S, hs, hinv⟩ := hW.spec
  obtain ⟨hres, bv1, hs1⟩ := step_sim hs (.quantity h dims units origin extent none)
  rw [hok] at hres
  have hstep := hres.symm
  have hinv1 : SInv (S.step g (.quantity h dims units origin extent none)).2 :=
    ((step_trans (P := fun _ => True) hinv _ (fun _ _ _ _ _ _ _ _ _ => trivial) trivial).facts hinv).inv
  rw [step_quantity] at hstep hs1 hinv1
  obtain ⟨o, ho, e⟩ := after_ok hstep
  rw [e] at hstep hs1 hinv1
  have ho := obj_some ho
  have hlt : h < S.objs.length := (List.getElem?_eq_some_iff.1 ho).1
  rw [hs.lenObj]
  cases o with
  | quantity d st i => cases hstep
  | storage s b' =>
    simp only at hstep hs1 hinv1
    split at hstep
    · cases hstep
    next hc =>
      rw [if_neg hc] at hs1 hinv1
      obtain ⟨w, hw, e⟩ := after_ok hstep
      rw [e] at hstep hs1 hinv1
      have hw := win_some hw
      obtain ⟨q, hq, e⟩ := finish_ok hstep
      rw [e] at hs1 hinv1
      obtain ⟨S2, h1, h2⟩ := shared_of (g := g) hinv1 hs1 (h := S.objs.length) (k := h) (v := .data) (v' := .self) (i := S.wins.length) (j := s)
        (w := w) (w' := w)
        (by show (S.objs ++ [_])[S.objs.length]? = some _; simp; rfl) (getElem?_snoc_old ho) rfl rfl
        (by show (S.wins ++ [w])[S.wins.length]? = _; simp) (getElem?_snoc_old hw) ops
      exact (h1 ix).trans (h2 ix).symm
  | array i =>
    obtain ⟨w, hw⟩ := (hinv.obj _ _ ho).target (via := .self) (i := i) rfl
    simp only [SWorld.ofArray] at hstep hs1 hinv1
    obtain ⟨w', hw', e⟩ := after_ok hstep
    rw [e] at hstep hs1 hinv1
    obtain ⟨q, hq, e⟩ := finish_ok hstep
    rw [e] at hs1 hinv1
    obtain ⟨S2, h1, h2⟩ := shared_of (g := g) hinv1 hs1 (h := S.objs.length) (k := h) (v := .data) (v' := .self) (i := i) (j := i)
      (w := w) (w' := w)
      (by show (S.objs ++ [_])[S.objs.length]? = some _; simp; rfl) (getElem?_snoc_old ho) rfl rfl hw hw ops
    exact (h1 ix).trans (h2 ix).symm

theorem writeable_eq {bv : Nat → View} {S : SWorld α} (hs : Sim g bv W S) {h : Nat} {via : Via} {so : SObj} {i : Nat} {w : Window}
    (ho : S.objs[h]? = some so) (ht : so.target via = .ok i) (hw : S.wins[i]? = some w) : W.writeable h via = w.writeable := by
  unfold World.writeable
  rcases forall₂_get hs.obj h with ⟨h1, h2⟩ | ⟨o, s, h1, h2, hr⟩
  · rw [ho] at h2; cases h2
  · rw [ho] at h2
    cases h2
    rw [h1]
    simp only [hr.target, ht]
    rcases forall₂_get hs.arr i with ⟨h3, h4⟩ | ⟨a, v, h3, h4, ha⟩
    · rw [hw] at h4; cases h4
    · rw [hw] at h4
      cases h4
      rw [h3]
      exact ha.wr

/-- **C58**: a quantity made of an array without a backend has that very array object as its data. -/
theorem C58_same_object (hW : Reachable g W) {h j : Nat} (hj : W.objs[h]? = some (.array j)) {dims : List Dim} {units : String}
    {origin extent : Option (List Int)} (hok : (W.step g (.quantity h dims units origin extent none)).1 = .ok ())
    (ops : List (Op α)) :
    let W2 := (W.step g (.quantity h dims units origin extent none)).2.after g ops
    W2.writeable W.objs.length .data = W2.writeable h .self := by
  intro W2
  obtain ⟨bv, S, hs, hinv⟩ := hW.spec
  obtain ⟨hres, bv1, hs1⟩ := step_sim hs (.quantity h dims units origin extent none)
  rw [hok] at hres
  have hstep := hres.symm
  have hinv1 : SInv (S.step g (.quantity h dims units origin extent none)).2 :=
    ((step_trans (P := fun _ => True) hinv _ (fun _ _ _ _ _ _ _ _ _ => trivial) trivial).facts hinv).inv
  have ho : S.objs[h]? = some (.array j) := by
    rcases forall₂_get hs.obj h with ⟨h1, h2⟩ | ⟨o, s, h1, h2, hr⟩
    · rw [hj] at h1; cases h1
    · rw [hj] at h1
      cases h1
      cases hr
      exact h2
  rw [step_quantity] at hstep hs1 hinv1
  obtain ⟨o, ho', e⟩ := after_ok hstep
  rw [e] at hstep hs1 hinv1
  have ho' := obj_some ho'
  rw [ho] at ho'
  cases ho'
  obtain ⟨w, hw⟩ := (hinv.obj _ _ ho).target (via := .self) (i := j) rfl
  simp only [SWorld.ofArray] at hstep hs1 hinv1
  obtain ⟨w', hw', e⟩ := after_ok hstep
  rw [e] at hstep hs1 hinv1
  obtain ⟨q, hq, e⟩ := finish_ok hstep
  rw [e] at hs1 hinv1
  obtain ⟨-, bv2, hs2⟩ := run_sim hs1 ops
  have f := run_any (g := g) hinv1 ops
  obtain ⟨x, hx, -, -⟩ := f.ext j w hw
  rw [hs.lenObj]
  have hn : (S.add (.quantity j none ⟨dims, units, q.origin, q.extent, none⟩)).objs[S.objs.length]? =
      some (.quantity j none ⟨dims, units, q.origin, q.extent, none⟩) := by
    show (S.objs ++ [_])[S.objs.length]? = _
    simp
  exact (writeable_eq hs2 (f.old _ _ hn) (show SObj.target _ .data = .ok j from rfl) hx).trans
    (writeable_eq hs2 (f.old _ _ (getElem?_snoc_old ho)) (show SObj.target _ .self = .ok j from rfl) hx).symm

/-! ### transpose -/

theorem mk?_of_unit {shape : List Nat} {dims : List Dim} {units : String} {origin extent : Option (List Int)} {q : Quantity Unit}
    (h : Quantity.mk? (⟨shape, fun _ => ()⟩ : NDArray Unit) dims units origin extent = .ok q) (X : NDArray α) (hX : X.shape = shape) :
    Quantity.mk? X dims units origin extent = .ok ⟨X, dims, units, q.origin, q.extent⟩ := by
  subst hX
  unfold Quantity.mk? at h ⊢
  simp only [bind, Except.bind, pure, Except.pure] at h ⊢
  split at h
  · cases h
  · cases h
    rfl

theorem transpose_value {i : Info} {target : List Quantity.TDim} {t : List Dim} {shape : List Nat} {q : Quantity Unit}
    (ht : Quantity.collapseDims i.dims target = .ok t) (hp : (t.map fun d => i.dims.idxOf d).Perm (List.range shape.length))
    (hq : Quantity.mk? (⟨(t.map fun d => i.dims.idxOf d).map fun k => shape.getD k 0, fun _ => ()⟩ : NDArray Unit)
      (Quantity.transposeSeq .x i.dims (t.map fun d => i.dims.idxOf d)) i.units
      (some (Quantity.transposeSeq 0 i.origin (t.map fun d => i.dims.idxOf d)))
      (some (Quantity.transposeSeq 0 i.extent (t.map fun d => i.dims.idxOf d))) = .ok q)
    (X : NDArray α) (hX : X.shape = shape) :
    (⟨X, i.dims, i.units, i.origin, i.extent⟩ : Quantity α).transpose target =
      .ok ⟨X.transpose (t.map fun d => i.dims.idxOf d), Quantity.transposeSeq .x i.dims (t.map fun d => i.dims.idxOf d), i.units,
        q.origin, q.extent⟩ := by
  unfold Quantity.transpose Quantity.npTranspose
  simp only [ht, bind, Except.bind]
  rw [if_pos (perm_iff.2 (by rw [hX]; exact hp))]
  refine mk?_of_unit hq _ ?_
  show (t.map _).map (fun k => X.shape.getD k 0) = _
  rw [hX]

theorem transpose_eqv {a b : NDArray α} (h : a.Eqv b) {perm : List Nat} (hp : perm.Perm (List.range a.shape.length)) :
    (a.transpose perm).Eqv (b.transpose perm) := by
  refine ⟨by show perm.map _ = perm.map _; rw [h.1], fun idx hi => ?_⟩
  exact h.2 _ (tr_inB hp hi)

/-- What a successful `transpose` does, in the specification. -/
theorem transpose_step {S : SWorld α} {h : Nat} {d : Nat} {st : Option Nat} {i : Info} {w : Window} {target : List Quantity.TDim}
    (ho : S.objs[h]? = some (.quantity d st i)) (hw : S.wins[d]? = some w) (hok : (S.step g (.transpose h target)).1 = .ok ()) :
    ∃ t, Quantity.collapseDims i.dims target = .ok t ∧ (t.map fun d => i.dims.idxOf d).Perm (List.range w.shape.length) ∧
      S.step g (.transpose h target) = (S.newWin (w.transpose (t.map fun d => i.dims.idxOf d))).ofArray g S.wins.length
        (Quantity.transposeSeq .x i.dims (t.map fun d => i.dims.idxOf d)) i.units
        (some (Quantity.transposeSeq 0 i.origin (t.map fun d => i.dims.idxOf d)))
        (some (Quantity.transposeSeq 0 i.extent (t.map fun d => i.dims.idxOf d))) i.backend := by
  rw [step_transpose] at hok ⊢
  obtain ⟨o, ho', e⟩ := after_ok hok
  rw [e] at hok ⊢
  have ho' := obj_some ho'
  rw [ho] at ho'
  cases ho'
  simp only at hok ⊢
  obtain ⟨t, ht, e⟩ := after_ok hok
  rw [e] at hok ⊢
  obtain ⟨w', hw', e⟩ := after_ok hok
  rw [e] at hok ⊢
  have hw' := win_some hw'
  rw [hw] at hw'
  cases hw'
  split at hok
  next hp => exact ⟨t, ht, hp, by rw [if_pos hp]⟩
  · cases hok

/-- **C58**: the transpose of a quantity without backend shares its memory: whatever the program does later, its data is the
transpose of the data of the original. -/
theorem C58_transpose_shared (hW : Reachable g W) {h : Nat} {i : Info} (hi : W.infoOf h = some i) (hb : i.backend = none)
    {target : List Quantity.TDim} (hok : (W.step g (.transpose h target)).1 = .ok ()) (ops : List (Op α)) :
    let W2 := (W.step g (.transpose h target)).2.after g ops
    ∃ (d : NDArray α) (r : Quantity α), SameRead (W2.get h .data []) (.ok d) ∧
      (⟨d, i.dims, i.units, i.origin, i.extent⟩ : Quantity α).transpose target = .ok r ∧
      W2.infoOf W.objs.length = some ⟨r.dims, r.units, r.origin, r.extent, none⟩ ∧
      SameRead (W2.get W.objs.length .data []) (.ok r.data) := by
  intro W2
  obtain ⟨bv, S, hs, hinv⟩ := hW.spec
  obtain ⟨hres, bv1, hs1⟩ := step_sim hs (.transpose h target)
  rw [hok] at hres
  have hinv1 : SInv (S.step g (.transpose h target)).2 :=
    ((step_trans (P := fun _ => True) hinv _ (fun _ _ _ _ _ _ _ _ _ => trivial) trivial).facts hinv).inv
  obtain ⟨d, st, ho⟩ := infoOf_quantity hs hi
  obtain ⟨w, hw⟩ := (hinv.obj _ _ ho).target (via := .data) (i := d) rfl
  obtain ⟨t, ht, hp, hstep⟩ := transpose_step ho hw hres.symm
  rw [hstep] at hres hs1 hinv1
  rw [hb] at hres hs1 hinv1
  have hgw : (S.newWin (w.transpose (t.map fun d => i.dims.idxOf d))).wins[S.wins.length]? =
      some (w.transpose (t.map fun d => i.dims.idxOf d)) := by
    show (S.wins ++ [_])[S.wins.length]? = _
    simp
  have hok' := hres.symm
  unfold SWorld.ofArray at hok' hs1 hinv1
  obtain ⟨w', hw', e⟩ := after_ok hok'
  rw [e] at hok' hs1 hinv1
  have hw' := win_some hw'
  rw [hgw] at hw'
  cases hw'
  obtain ⟨q, hq, e⟩ := finish_ok hok'
  rw [e] at hs1 hinv1
  have hobj : ((S.newWin (w.transpose (t.map fun d => i.dims.idxOf d))).add (.quantity S.wins.length none
      ⟨Quantity.transposeSeq .x i.dims (t.map fun d => i.dims.idxOf d), i.units, q.origin, q.extent, none⟩)).objs[W.objs.length]? =
      some (.quantity S.wins.length none
        ⟨Quantity.transposeSeq .x i.dims (t.map fun d => i.dims.idxOf d), i.units, q.origin, q.extent, none⟩) := by
    show (S.objs ++ [_])[W.objs.length]? = _
    rw [hs.lenObj]
    simp
  obtain ⟨S2, h1, h2⟩ := shared_of (g := g) hinv1 hs1 (h := W.objs.length) (k := h) (v := .data) (v' := .data) (i := S.wins.length) (j := d)
    hobj (getElem?_snoc_old ho) rfl rfl hgw (getElem?_snoc_old hw) ops
  refine ⟨S2.look w, _, (h2 []).trans (getItem_full _), transpose_value ht hp hq _ rfl, ?_, (h1 []).trans (getItem_full _)⟩
  obtain ⟨-, bv2, hs2⟩ := run_sim hs1 ops
  have ho2 := (run_any (g := g) hinv1 ops).old _ _ hobj
  show (W2.objs[W.objs.length]? >>= Obj.info) = _
  rcases forall₂_get hs2.obj W.objs.length with ⟨h3, h4⟩ | ⟨o, s, h3, h4, hr⟩
  · rw [ho2] at h4; cases h4
  · rw [ho2] at h4
    cases h4
    have h3' : W2.objs[W.objs.length]? = some o := h3
    rw [h3']
    show o.info = _
    rw [hr.info]
    rfl

/-- **C58**: the transpose of a quantity with a backend is a copy: its data is the transpose of the data of the original when
it is made, and independent of it from then on. -/
theorem C58_transpose_private (hW : Reachable g W) {h : Nat} {i : Info} (hi : W.infoOf h = some i) {b : String}
    (hb : i.backend = some b) {target : List Quantity.TDim} (hok : (W.step g (.transpose h target)).1 = .ok ()) :
    let W1 := (W.step g (.transpose h target)).2
    let n := W.objs.length
    (∃ (d : NDArray α) (r : Quantity α), SameRead (W.get h .data []) (.ok d) ∧
      (⟨d, i.dims, i.units, i.origin, i.extent⟩ : Quantity α).transpose target = .ok r ∧
      W1.infoOf n = some ⟨r.dims, r.units, r.origin, r.extent, some b⟩ ∧
      SameRead (W1.get n .data []) (.ok r.data)) ∧
    (∀ ops, (∀ op ∈ ops, op.on ≠ some n) → ∀ via ix, SameRead ((W1.after g ops).get n via ix) (W1.get n via ix)) ∧
    (∀ ops, (∀ op ∈ ops, ∀ k, op.on = some k → n ≤ k) → ∀ k, k < n → ∀ via ix,
      SameRead ((W1.after g ops).get k via ix) (W.get k via ix)) := by
  intro W1 n
  obtain ⟨bv, S, hs, hinv⟩ := hW.spec
  obtain ⟨hres, bv1, hs1⟩ := step_sim hs (.transpose h target)
  rw [hok] at hres
  obtain ⟨d, st, ho⟩ := infoOf_quantity hs hi
  obtain ⟨w, hw⟩ := (hinv.obj _ _ ho).target (via := .data) (i := d) rfl
  obtain ⟨t, ht, hp, hstep⟩ := transpose_step ho hw hres.symm
  rw [hstep, hb] at hres hs1
  have hgw : (S.newWin (w.transpose (t.map fun d => i.dims.idxOf d))).wins[S.wins.length]? =
      some (w.transpose (t.map fun d => i.dims.idxOf d)) := by
    show (S.wins ++ [_])[S.wins.length]? = _
    simp
  obtain ⟨⟨q, hq, hinf⟩, h1, h2, h3⟩ := copy_private (W := W) hs hinv
    (Trans.refl.newWin (w.transpose (t.map fun d => i.dims.idxOf d)) (hinv.win d w hw)) rfl rfl hgw hres.symm hs1
  refine ⟨⟨S.look w, _, ?_, transpose_value ht hp hq _ rfl, hinf, (h1 []).trans (getItem_full _)⟩, h2, h3⟩
  have := get_sim hs h .data []
  rw [get_of ho (show SObj.target _ .data = .ok d from rfl) hw] at this
  exact this.trans (getItem_full _)

/-! ### values -/

theorem fill_full (n : Nat) (hn : 0 < n) : fillIndex [.slice .full] n = fillIndex [] n := by
  unfold fillIndex
  cases n with
  | zero => omega
  | succ n => simp [List.replicate_succ]

/-- **C58**: `quantity.values` of a quantity with at least one axis is for ever what `quantity.view` shows, can never be
written, and does not change what else can be written. -/
theorem C58_values (hW : Reachable g W) {h : Nat} {i : Info} (hi : W.infoOf h = some i) (hax : i.origin ≠ [])
    (hok : (W.step g (.values h)).1 = .ok ()) :
    let W1 := (W.step g (.values h)).2
    let n := W.objs.length
    (∀ ops, SameRead ((W1.after g ops).get n .self []) ((W1.after g ops).get h .view []) ∧
      (W1.after g ops).writeable n .self = false) ∧
    (∀ k via, k < n → W1.writeable k via = W.writeable k via) := by
  intro W1 n
  obtain ⟨bv, S, hs, hinv⟩ := hW.spec
  obtain ⟨hres, bv1, hs1⟩ := step_sim hs (.values h)
  rw [hok] at hres
  have hok' := hres.symm
  have f1 := (step_trans (g := g) (P := fun _ => True) hinv (.values h) (fun _ _ _ _ _ _ _ _ _ => trivial) trivial).facts hinv
  have hinv1 := f1.inv
  obtain ⟨d, st, ho⟩ := infoOf_quantity hs hi
  have hob := hinv.obj _ _ ho
  obtain ⟨w, hw, hl1, hl2, hl3, -⟩ := hob
  rw [step_values] at hok' hs1 hinv1
  obtain ⟨o, ho', e⟩ := after_ok hok'
  rw [e] at hok' hs1 hinv1
  have ho' := obj_some ho'
  rw [ho] at ho'
  cases ho'
  simp only at hok' hs1 hinv1
  obtain ⟨w', hw', e⟩ := after_ok hok'
  rw [e] at hok' hs1 hinv1
  have hw' := win_some hw'
  rw [hw] at hw'
  cases hw'
  rw [if_neg hax] at hok' hs1 hinv1
  obtain ⟨p, hp, e⟩ := after_ok hok'
  rw [e] at hok' hs1 hinv1
  split at hok'
  · cases hok'
  next hg =>
    rw [if_neg hg] at hs1 hinv1
    have hgw : (S.newWin { p with writeable := false }).wins[S.wins.length]? = some { p with writeable := false } := by
      show (S.wins ++ [_])[S.wins.length]? = _
      simp
    have hobj : ((S.newWin { p with writeable := false }).add (.array S.wins.length)).objs[n]? = some (.array S.wins.length) := by
      show (S.objs ++ [_])[W.objs.length]? = _
      rw [hs.lenObj]
      simp
    have hz : zeroDim (some i) .view = false := by
      simp only [zeroDim, beq_eq_false_iff_ne, ne_eq, List.length_eq_zero_iff]
      exact hax
    refine ⟨fun ops => ⟨?_, ?_⟩, fun k via hk => ?_⟩
    · obtain ⟨S2, h1, h2⟩ := shared_of (g := g) hinv1 hs1 (h := n) (k := h) (v := .self) (v' := .view) (i := S.wins.length) (j := d)
        hobj (getElem?_snoc_old ho) rfl rfl hgw (getElem?_snoc_old hw) ops
      refine ((h1 []).trans (getItem_full _)).trans (SameRead.trans ?_ (h2 []).symm)
      show SameRead (.ok (S2.look p)) (readArr (S2.look w) (some i) .view [])
      have hsel := select_look S2 w (some i) .view [.slice .full]
      rw [hp] at hsel
      rw [readArr_eq, hz]
      simp only [Bool.false_eq_true, if_false]
      have hix : viaIndex (some i) w.shape .view [.slice .full] = viaIndex (some i) w.shape .view [] := by
        have hpos : 0 < w.shape.length := by
          rw [← hl2]
          exact List.length_pos_iff.2 hax
        simp only [viaIndex, Quantity.computeIndex]
        rw [if_neg (by rw [hl1]; show ¬ 1 > _; omega), if_neg (by simp), fill_full _ hpos]
      rw [hix] at hsel
      have hsel' : (Except.ok (S2.look p) : Py (NDArray α)) = _ := hsel
      rw [hsel']
      exact SameRead.refl _
    · obtain ⟨-, bv2, hs2⟩ := run_sim hs1 ops
      have f := run_any (g := g) hinv1 ops
      obtain ⟨x, hx, -, hro⟩ := f.ext _ _ hgw
      exact (writeable_eq hs2 (f.old _ _ hobj) (show SObj.target _ .self = .ok _ from rfl) hx).trans (hro rfl)
    · have hk' : k < S.objs.length := by rw [← hs.lenObj]; exact hk
      have hsk : S.objs[k]? = some S.objs[k] := List.getElem?_eq_getElem hk'
      cases htk : S.objs[k].target via with
      | error e' =>
        have : ∀ (W : World α) (S' : SWorld α) (bv : Nat → View), Sim g bv W S' → S'.objs[k]? = some S.objs[k] →
            W.writeable k via = false := by
          intro W S' bv hs' hk1
          unfold World.writeable
          rcases forall₂_get hs'.obj k with ⟨h1, h2⟩ | ⟨o, s, h1, h2, hr⟩
          · rw [h1]
          · rw [hk1] at h2
            cases h2
            rw [h1]
            simp only [hr.target, htk]
        rw [this W S bv hs hsk]
        exact this _ _ _ hs1 (getElem?_snoc_old hsk)
      | ok j =>
        obtain ⟨v, hv⟩ := (hinv.obj _ _ hsk).target htk
        rw [writeable_eq hs hsk htk hv]
        exact writeable_eq hs1 (getElem?_snoc_old hsk) htk (getElem?_snoc_old hv)

/-- **C58** (a limit): reading `quantity.values` of a quantity without axes makes its data read-only, for ever: afterwards
no assignment to `quantity.view` or `quantity.data` succeeds. -/
theorem C58_limit_values (hW : Reachable g W) {h : Nat} {i : Info} (hi : W.infoOf h = some i) (hax : i.origin = [])
    (hok : (W.step g (.values h)).1 = .ok ()) (ops : List (Op α)) :
    let W2 := (W.step g (.values h)).2.after g ops
    W2.writeable h .data = false ∧ W2.writeable h .view = false ∧
    ∀ ix x, ∃ e, W2.step g (.setItem h .view ix x) = (.error e, W2) := by
  intro W2
  obtain ⟨bv, S, hs, hinv⟩ := hW.spec
  obtain ⟨hres, bv1, hs1⟩ := step_sim hs (.values h)
  rw [hok] at hres
  have hok' := hres.symm
  have f1 := (step_trans (g := g) (P := fun _ => True) hinv (.values h) (fun _ _ _ _ _ _ _ _ _ => trivial) trivial).facts hinv
  have hinv1 := f1.inv
  obtain ⟨d, st, ho⟩ := infoOf_quantity hs hi
  obtain ⟨w, hw, -⟩ := hinv.obj _ _ ho
  rw [step_values] at hok' hs1 hinv1
  obtain ⟨o, ho', e⟩ := after_ok hok'
  rw [e] at hok' hs1 hinv1
  have ho' := obj_some ho'
  rw [ho] at ho'
  cases ho'
  simp only at hok' hs1 hinv1
  obtain ⟨w', hw', e⟩ := after_ok hok'
  rw [e] at hok' hs1 hinv1
  have hw' := win_some hw'
  rw [hw] at hw'
  cases hw'
  rw [if_pos hax] at hok' hs1 hinv1
  split at hok'
  · cases hok'
  next hg =>
    rw [if_neg hg] at hs1 hinv1
    have hgw : (S.wins.set d { w with writeable := false })[d]? = some { w with writeable := false } :=
      List.getElem?_set_self (List.getElem?_eq_some_iff.1 hw).1
    obtain ⟨-, bv2, hs2⟩ := run_sim hs1 ops
    have f := run_any (g := g) hinv1 ops
    obtain ⟨x, hx, -, hro⟩ := f.ext _ _ hgw
    have ho2 := f.old _ _ (getElem?_snoc_old ho)
    have hv : W2.writeable h .view = false :=
      (writeable_eq hs2 ho2 (show SObj.target _ .view = .ok _ from rfl) hx).trans (hro rfl)
    refine ⟨(writeable_eq hs2 ho2 (show SObj.target _ .data = .ok _ from rfl) hx).trans (hro rfl), hv, fun ix x => ?_⟩
    exact C58_read_only ((hW.step _).after ops) hv ix x

/-! ### A program

gt4py with row-major storages and one element of padding before and after; "numpy" storages on the CPU, "gtcuda" on the
GPU. -/

def demo : Gt4py where
  start _ _ := 1
  strides _ s := cStrides s
  room _ s := size s + 2
  kind b := if b = "numpy" then .cpu else if b = "gtcuda" then .gpu else .other
  axes _ s := length_cStrides s
  inj _ s idx idx' h h' e := (inOrder_cStrides s).inj h h' e
  within _ s idx h := by
    obtain ⟨h1, h2⟩ := fresh_has (base := 0) (s := s) (a := (fresh 0 s).addr idx) ⟨idx, h, rfl⟩
    simp only [fresh, View.addr] at h1 h2
    push_cast
    constructor <;> omega

/-- 0: an array; 1: a quantity of it; 2: a quantity of it with a backend; 3, 4: their transposes; 5: values of 1. -/
def demoOps : List (Op Nat) :=
  [.array ⟨[2, 3], fun i => 10 * i.getD 0 0 + i.getD 1 0⟩ false,
   .quantity 0 [.y, .x] "K" (some [0, 1]) (some [2, 2]) none,
   .quantity 0 [.y, .x] "K" none none (some "numpy"),
   .transpose 1 [.name .x, .name .y],
   .transpose 2 [.name .x, .name .y],
   .values 1,
   .setItem 3 .view [.int 0, .int 1] ⟨[], fun _ => 77⟩,
   .setItem 2 .storage [.int 0, .int 0] ⟨[], fun _ => 88⟩,
   .setItem 5 .self [.int 0, .int 0] ⟨[], fun _ => 99⟩]

def shown (p : Py (NDArray Nat)) : Option (List Nat × List Nat) :=
  p.toOption.map fun a => (a.shape, (allIdx a.shape).map a.get)

example : (((World.init fun _ => 5).run demo demoOps).1.map fun r => match r with | .ok _ => none | .error e => some e) =
    [none, none, none, none, none, none, none, none, some .valueError] := by decide +kernel

example : ((World.init fun _ => 5).after demo demoOps).infoOf 3 = some ⟨[.x, .y], "K", [1, 0], [2, 2], none⟩ ∧
    ((World.init fun _ => 5).after demo demoOps).infoOf 4 = some ⟨[.x, .y], "K", [0, 0], [3, 2], some "numpy"⟩ := by decide +kernel

/-- The array sees what was written through the transposed view, the quantity with a backend does not, its own storage and
data agree, its transpose keeps the old elements, `values` follows the array. -/
example : (let W := (World.init fun _ => 5).after demo demoOps;
    [shown (W.get 0 .self []), shown (W.get 2 .data []), shown (W.get 2 .storage []), shown (W.get 4 .data []),
      shown (W.get 5 .self [])]) =
    [some ([2, 3], [0, 1, 2, 10, 77, 12]), some ([2, 3], [88, 1, 2, 10, 11, 12]), some ([2, 3], [88, 1, 2, 10, 11, 12]),
      some ([3, 2], [0, 10, 1, 11, 2, 12]), some ([2, 2], [1, 2, 77, 12])] := by decide +kernel

/-- A quantity without axes. -/
def demoScalar : World Nat := (World.init fun _ => 5).after demo [.array ⟨[], fun _ => 3⟩ false, .quantity 0 [] "K" none none none]

/-- Reading `values` of it makes the array of the program read-only. -/
example : (demoScalar.writeable 0 .self, (demoScalar.step demo (.values 1)).2.writeable 0 .self,
    (demoScalar.step demo (.values 1)).2.writeable 1 .view, (demoScalar.infoOf 1).map (·.origin)) =
    (true, false, false, some []) := by decide +kernel

end Mem
end FV3
