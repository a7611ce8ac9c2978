import Verif.Spec.HeapLateAsync
import Verif.Proofs.HeapLate
import Verif.Proofs.HeapAsync

/-!
# Updates of quantities in memory, started and waited for separately, with messages that are read late
-/

namespace FV3
namespace Heap
open Mem (World Gt4py)
open Strided
open FV3.Late (LM LNet Own LProc Memory Pend Kept SafeP SafeM IsReq SendsSame)
variable {α A B : Type} [Inhabited α]

/-! ### Reading at once -/

omit [Inhabited α] in
theorem toHM_pushReq (req : Request) : toHM (Late.pushReq req : LM (World α) α Unit) = Heap.pushReq req := rfl

omit [Inhabited α] in
theorem toHM_getReq (i : Nat) : toHM (Late.getReq i : LM (World α) α Request) = Heap.getReq i := by
  funext s
  unfold toHM Late.getReq Heap.getReq
  dsimp only
  cases s.reqs[i]? <;> rfl

section
variable [Neg α]

theorem toHM_execOp (g : Gt4py) (l : Layout) (r : Int) (o : HOp α) : toHM (Lazy.execOp g l r o) = o.exec g l r := by
  cases o with
  | halo q n =>
    unfold Lazy.execOp HOp.exec
    dsimp only
    rw [toHM_bind, toHM_startHaloUpdate]
    rfl
  | vector x y n =>
    unfold Lazy.execOp HOp.exec
    dsimp only
    rw [toHM_bind, toHM_startVectorHaloUpdate]
    rfl
  | sync x y =>
    unfold Lazy.execOp HOp.exec
    dsimp only
    rw [toHM_bind, toHM_startSynchronize]
    rfl
  | wait i =>
    unfold Lazy.execOp HOp.exec
    dsimp only
    rw [toHM_bind, toHM_getReq]
    congr 1; funext req; exact toHM_waitRequest req
  | compute f => rfl

theorem toHM_execOps (g : Gt4py) (l : Layout) (r : Int) (os : List (HOp α)) :
    toHM (Lazy.execOps g l r os) = execHOps g l r os := by
  induction os with
  | nil => rfl
  | cons o os ih =>
    unfold Lazy.execOps execHOps
    rw [toHM_bind, toHM_execOp, ih]
end

/-! ### Starting an update -/

/-- A program which neither receives nor waits: what it sends, in addition to what was sent before. -/
theorem Tr.sends {hs : List Nat} {R R' : Type} {Q : R → R' → Prop} {p : LProc (FV3.Mem α) α R} {p' : LProc (World α) α R'}
    (h : Tr false hs Q p p') {W : World α} {m : FV3.Mem α} (V : Vals hs W m) {P : List (Pend (FV3.Mem α) α)}
    {P' : List (Pend (World α) α)} (hP : List.Forall₂ (PRel hs) P P') (P0 : List (Pend (World α) α))
    {S : R → FV3.Mem α → List (Pend (FV3.Mem α) α) → Prop} (hs' : SafeP p m P S) :
    SafeP p' W (P' ++ P0) fun x' W' P2' => ∃ x P2 P2n, Q x x' ∧ W' = W ∧ P2' = P2n ++ P0 ∧ List.Forall₂ (PRel hs) P2 P2n ∧ S x m P2 := by
  induction h generalizing P P' with
  | ret hq => exact ⟨_, P, P', hq, rfl, rfl, hP, hs'⟩
  | get hk ih => exact ih W m V hP hs'
  | @isend d t rd rd' k k' hrd hk ih =>
    intro i
    exact ih i (P := ⟨d, t, i, rd, rd m⟩ :: P) (P' := ⟨d, t, i, rd', rd' W⟩ :: P') (.cons ⟨rfl, rfl, rfl, hrd W m V, hrd⟩ hP) (hs' i)
  | recv hrc => cases hrc
  | await hrc => cases hrc

variable [Neg α]

/-- Starting an update. -/
def lbegin (l : Layout) (r : Int) : Op α → LM (World α) α Request
  | .halo q n => Lazy.startHaloUpdate l r q n
  | .vector x y n => Lazy.startVectorHaloUpdate l r x y n
  | .sync x y => Lazy.startSynchronize l r x y
  | .wait _ => LM.raise .valueError
  | .compute _ => LM.raise .valueError

theorem tr_begin (l : Layout) (r : Int) (op : Op α) : TrM false op.qs (TrM.Into op.qs) (Late.begin l r op) (lbegin l r op) := by
  cases op with
  | halo q n => exact TrM.startHaloUpdate l r (by simp [Op.qs]) n
  | vector x y n => exact TrM.startVectorHaloUpdate l r (by simp [Op.qs]) (by simp [Op.qs]) n
  | sync x y => exact TrM.startSynchronize l r (by simp [Op.qs]) (by simp [Op.qs])
  | wait i => exact TrM.raise _
  | compute f => exact TrM.raise _

/-- The receive is one of those of the update. -/
def RecvNow (l : Layout) (r : Int) (op : Op α) (W : World α) (rq : RecvReq) : Prop :=
  rq.q ∈ op.qs ∧ ∀ i, op.inn l r (quantities W) = .ok i → ∃ z ∈ i, z.q = rq.q ∧ z.ix = rq.ix

/-- The view is one of those that the update sends. -/
def PendW (l : Layout) (r : Int) (op : Op α) (p : Pend (World α) α) : Prop :=
  ∀ W1 W2, Held W1 op.qs → Held W2 op.qs → SendsSame l r op (quantities W1) (quantities W2) → (p.read W2).Eqv (p.read W1)

theorem forall₂_right {R : A → B → Prop} {as : List A} {bs : List B} (h : List.Forall₂ R as bs) : ∀ b ∈ bs, ∃ a ∈ as, R a b := by
  induction h with
  | nil => intro b hb; cases hb
  | cons h1 _ ih =>
    intro b hb
    rcases List.mem_cons.1 hb with rfl | hb
    · exact ⟨_, List.mem_cons_self, h1⟩
    · obtain ⟨a, ha, h⟩ := ih b hb
      exact ⟨a, List.mem_cons_of_mem _ ha, h⟩

theorem safe_lbegin {l : Layout} {r : Int} {op : Op α} {own : Own} {W : World α} {P : List (Pend (World α) α)} (H : Held W op.qs) :
    SafeM (lbegin l r op) own W P fun req own' W' P' => own'.reqs = own.reqs ∧ W' = W ∧ (∀ rq ∈ req.recvs, RecvNow l r op W rq) ∧
      ∀ p ∈ P', p ∈ P ∨ PendW l r op p ∧ (p.read W).Eqv p.a ∧ ∃ sr ∈ req.sends, IsReq sr p := by
  have V : Vals op.qs W (quantities W) := ⟨H, fun _ _ => rfl⟩
  refine SafeP.mono (Tr.sends (tr_begin l r op own) V .nil P (Late.safe_begin (P := []))) ?_
  rintro ⟨x', o'⟩ W' P' ⟨⟨x, o⟩, P2, P2n, ⟨h1, h2⟩, h3, h4, h5, h6⟩ req rfl
  dsimp only at h1 h2
  cases x with
  | error e => exact h2.elim
  | ok req' =>
    obtain ⟨rfl, hq⟩ := h2
    obtain ⟨⟨b1, -, b3⟩, b4⟩ := h6 req' rfl
    refine ⟨by rw [h1]; exact b1, h3, fun rq hrq => ⟨hq rq hrq, b4 rq hrq⟩, fun p hp => ?_⟩
    rw [h4] at hp
    rcases List.mem_append.1 hp with hp | hp
    · right
      obtain ⟨p0, hp0, a1, a2, a3, a4, a5⟩ := forall₂_right h5 p hp
      rcases b3 p0 hp0 with h | ⟨c1, c2, sr, c3, c4⟩
      · cases h
      · refine ⟨fun W1 W2 H1 H2 hs => ?_, ?_, sr, c3, ?_⟩
        · rw [a5 W1 _ ⟨H1, fun _ _ => rfl⟩, a5 W2 _ ⟨H2, fun _ _ => rfl⟩]
          exact c1 _ _ hs
        · rw [a5 W _ V, a4]
          exact c2
        · unfold IsReq at c4 ⊢
          rw [a1, a2, a3]
          exact c4
    · exact .inl hp

/-! ### What stays the same -/

omit [Neg α] in
theorem skel_of {W W1 : World α} (h : SameVars W W1) : skel W1 = skel W := by
  unfold skel
  rw [h.next, h.arrs, h.objs]

/-- The metadata of the quantities of an update, with any contents of memory. -/
theorem Fit.same {l : Layout} {sk : Int → Skel} {op : Op α} (F : Fit l α sk op) {r : Int} (hr : r ∈ allRanks l) {W W1 : World α}
    (hW : skel W = sk r) (hW1 : skel W1 = sk r) : ∀ q ∈ op.qs, SameMeta (quantities W q) (quantities W1 q) := fun q hq =>
  meta_congr (congrArg Skel.arrs (hW1.trans hW.symm)) (congrArg Skel.objs (hW1.trans hW.symm)) ((F.axes r hr q hq).any hW)

/-- The quantities of rank `r` as they are, the others with anything. -/
def mixed (sk : Int → Skel) (r : Int) (W : World α) : Int → FV3.Mem α :=
  fun r' => if r' = r then quantities W else quantities ((sk r').with fun _ => (default : α))

omit [Neg α] in
theorem mixed_meta {sk : Int → Skel} {r : Int} {W : World α} : MetaIs (mixed sk r W) r (quantities W) := by
  intro q
  unfold mixed
  rw [if_pos rfl]
  exact SameMeta.refl _

theorem Fit.mixed {l : Layout} {sk : Int → Skel} {op : Op α} (F : Fit l α sk op) {r : Int} {W : World α} (hW : skel W = sk r) :
    UpdateReady l (Heap.mixed sk r W) op := by
  refine updateReady_same F.ready fun r' hr' q hq => ?_
  unfold Heap.mixed
  by_cases e : r' = r
  · subst e
    rw [if_pos rfl]
    exact meta_congr (W := (sk r').with fun _ => (default : α)) (W1 := W) (congrArg Skel.arrs hW) (congrArg Skel.objs hW) (F.axes r' hr' q hq)
  · rw [if_neg e]
    exact SameMeta.refl _

theorem Fit.inn {l : Layout} {sk : Int → Skel} {op : Op α} (hx : 0 < l.x) (hsq : l.y = l.x) (hst : op.isStart = true)
    (F : Fit l α sk op) {r : Int} (hr : r ∈ allRanks l) {W : World α} (hW : skel W = sk r) :
    ∃ o i, op.out l r (quantities W) = .ok o ∧ op.inn l r (quantities W) = .ok i :=
  (ready_sound hx hsq hst (F.mixed hW)).start r hr _ mixed_meta

theorem RecvNow.same {l : Layout} {r : Int} {op : Op α} {W W1 : World α} {rq : RecvReq} (h : RecvNow l r op W rq)
    (hm : ∀ q ∈ op.qs, SameMeta (quantities W q) (quantities W1 q)) (hi : ∃ o i, op.out l r (quantities W) = .ok o ∧
      op.inn l r (quantities W) = .ok i) : RecvNow l r op W1 rq := by
  refine ⟨h.1, fun i1 h1 => ?_⟩
  obtain ⟨-, i, -, h2⟩ := hi
  rw [Late.inn_meta hm h2 h1]
  exact h.2 i h2

/-- An update which fits still does after programs on memory. -/
theorem Fit.run {g : Gt4py} {l : Layout} {sk : Int → Skel} {op : Op α} (F : Fit l α sk op) (hw : ∀ r ∈ allRanks l, WFS g α (sk r))
    (os : Int → List (Mem.Op α)) : Fit l α (fun r => (sk r).run g (os r)) op := by
  refine ⟨fun r hr => (held_run (hw r hr) (os r) (F.held r hr) (F.axes r hr)).1,
    fun r hr => (held_run (hw r hr) (os r) (F.held r hr) (F.axes r hr)).2, updateReady_same F.ready fun r hr q hq => ?_⟩
  obtain ⟨x, hx, hs⟩ := F.axes r hr q hq
  rw [quantities_eq hx, quantities_eq (dataOf_run (hw r hr) (os r) hx hs)]
  exact ⟨rfl, rfl, rfl, rfl, rfl⟩

/-! ### Receiving -/

omit [Neg α] in
/-- A received array changes memory only where it is stored. -/
theorem fill_cells {W W1 : World α} {hs : List Nat} (H : Held W hs) {h : Nat} (hh : h ∈ hs) {ix : List Ix} {x : NDArray α}
    (hf : fill W h ix x = (.ok (), W1)) : OnlyCells (fun k idx => k = h ∧
      ∃ rs rel, resolveAll ix (quantities W h).data.shape = .ok rs ∧ InB (viewShape rs) rel ∧ idx = viewIdx rs rel) W W1 := by
  obtain ⟨y, hy, hw, hinj, hl⟩ := H.data h hh
  have hsh : (quantities W h).data.shape = y.2.1.view.shape := by rw [quantities_eq hy]; rfl
  rw [hsh]
  unfold fill at hf
  rw [hy] at hf
  dsimp only at hf
  cases hr : resolveAll ix y.2.1.view.shape with
  | error e => rw [hr] at hf; cases hf
  | ok rs =>
    have hok := resolveAll_ok hr
    rw [hr] at hf
    dsimp only at hf
    by_cases hv : viewShape rs = x.shape
    · rw [if_pos hv] at hf
      unfold Mem.World.assign at hf
      rw [dataOf_get hy] at hf
      dsimp only at hf
      rw [if_neg (by rw [hw]; exact Bool.noConfusion), hr] at hf
      dsimp only at hf
      rw [if_pos (fits_of hv.symm)] at hf
      have : x.stretch (viewShape rs) = x := if_pos hv.symm
      rw [this] at hf
      cases hf
      refine ⟨rfl, rfl, rfl, fun a => ?_⟩
      by_cases ha : (y.2.1.view.slice rs).Has a
      · obtain ⟨rel, h1, h2⟩ := ha
        have h1' : InB (viewShape rs) rel := h1
        rw [slice_addr hok hl h1'] at h2
        exact .inr ⟨h, viewIdx rs rel, ⟨rfl, rs, rel, rfl, h1', rfl⟩, y, hy, viewIdx_inB hok h1', h2⟩
      · exact .inl (assign_other _ _ ha)
    · rw [if_neg hv] at hf
      cases hf

omit [Neg α] in
theorem store_ok {W W1 : World α} {q : Nat} {ix : List Ix} {a : NDArray α} (h : (Memory.store W q ix a : Py (World α)) = .ok W1) :
    fill W q ix a = (.ok (), W1) := by
  rw [store_eq] at h
  rcases hf : fill W q ix a with ⟨e, W2⟩
  rw [hf] at h
  cases e with
  | ok u => cases h; rfl
  | error e => cases h

/-- An update does not change what it sends itself. -/
theorem store_own {l : Layout} {sk : Int → Skel} {op : Op α} (hx : 0 < l.x) (hsq : l.y = l.x) (hst : op.isStart = true)
    (F : Fit l α sk op) {r : Int} (hr : r ∈ allRanks l) {W W1 : World α} (hW : skel W = sk r) {rq : RecvReq} (hrq : RecvNow l r op W rq)
    {a : NDArray α} (hf : fill W rq.q rq.ix a = (.ok (), W1)) : SendsSame l r op (quantities W) (quantities W1) := by
  have H : Held W op.qs := (F.held r hr).any hW
  rcases fill_store H (m := quantities W) (fun _ _ => rfl) hrq.1 rq.ix a with ⟨e, h1, h2⟩ | ⟨m1, W2, h1, h2, h3, h4, h5⟩
  · rw [h2] at hf; cases hf
  · rw [h2] at hf
    cases hf
    have hro : Late.RecvOf l (mixed sk r W) r op rq := by
      intro mem hmem i hi
      obtain ⟨-, i0, -, h0⟩ := F.inn hx hsq hst hr hW
      rw [Late.inn_meta (fun q _ => (mixed_meta (sk := sk) q).sym.trans (hmem q)) h0 hi]
      exact hrq.2 i0 h0
    obtain ⟨o, o', s1, s2, s3⟩ := Late.store_sends hx hsq hst hst (F.mixed hW) (F.mixed hW) (Or.inl rfl) hr hro mixed_meta h1
    refine ⟨o, o', s1, ?_, s3⟩
    rw [out_congr (mem := m1) fun q hq => (h4 q hq).symm]
    exact s2

/-! ### Sequences of operations -/

/-- What is known after the operations `pre`. -/
structure FineW (l : Layout) (r : Int) (sk : Int → Skel) (pre : List (HOp α)) (own : Own) (W : World α) (P : List (Pend (World α) α)) :
    Prop where
  skel : Heap.skel W = sk r
  kept : Kept P W
  count : own.reqs.length = (pre.filterMap HOp.start).length
  fits : ∀ op ∈ pre.filterMap HOp.start, Fit l α sk op
  recvs : ∀ (k : Nat) req, own.reqs[k]? = some req → ∃ op, (pre.filterMap HOp.start)[k]? = some op ∧ ∀ rq ∈ req.recvs, RecvNow l r op W rq
  pends : ∀ p ∈ P, ∃ (k : Nat) (req : Request) (op : Op α), own.reqs[k]? = some req ∧ HOutstanding pre k op ∧
    PendW l r op p ∧ ∃ sr ∈ req.sends, IsReq sr p

omit [Inhabited α] [Neg α] in
theorem starts_isStart {pre : List (HOp α)} {op : Op α} (h : op ∈ pre.filterMap HOp.start) : op.isStart = true := by
  obtain ⟨o, -, ho⟩ := List.mem_filterMap.1 h
  cases o <;> cases ho <;> rfl

theorem execOp_start {g : Gt4py} {l : Layout} {r : Int} {o : HOp α} {op : Op α} (ho : o.start = some op) :
    Lazy.execOp g l r o = (lbegin l r op >>= Late.pushReq) := by
  cases o <;> cases ho <;> rfl

/-- Starting an update. -/
theorem safe_start {g : Gt4py} {l : Layout} {r : Int} (hr : r ∈ allRanks l) {sk : Int → Skel} {pre : List (HOp α)} {o : HOp α} {op : Op α}
    (ho : o.start = some op) (F : Fit l α sk op) (hnw : HOp.wait (pre.filterMap HOp.start).length ∉ pre) {own : Own} {W : World α}
    {P : List (Pend (World α) α)} (I : FineW l r sk pre own W P) :
    SafeM (Lazy.execOp g l r o) own W P fun _ own' W' P' => FineW l r sk (pre ++ [o]) own' W' P' := by
  have hst : (pre ++ [o]).filterMap HOp.start = pre.filterMap HOp.start ++ [op] := by
    rw [List.filterMap_append]; simp [ho]
  have hno : ∀ k, HOp.wait k ≠ o := by rintro k rfl; cases ho
  rw [execOp_start ho]
  refine SafeM.bind (safe_lbegin ((F.held r hr).any I.skel)) ?_
  rintro req own' W' P' ⟨hreq, rfl, hrecv, hP⟩
  intro _ _
  refine ⟨I.skel, ?_, ?_, ?_, ?_, ?_⟩
  · intro p hp
    rcases hP p hp with h | h
    · exact I.kept p h
    · exact h.2.1
  · rw [hst]; simp [hreq, I.count]
  · rw [hst]
    intro op' h
    rcases List.mem_append.1 h with h | h
    · exact I.fits op' h
    · rw [List.mem_singleton.1 h]; exact F
  · intro k req' hk
    rw [hst]
    simp only [hreq] at hk
    rcases Nat.lt_or_ge k own.reqs.length with hlt | hge
    · rw [List.getElem?_append_left hlt] at hk
      obtain ⟨op', h1, h2⟩ := I.recvs k req' hk
      exact ⟨op', by rw [List.getElem?_append_left (by rw [← I.count]; exact hlt)]; exact h1, h2⟩
    · rw [List.getElem?_append_right hge] at hk
      have : k = own.reqs.length := by
        have := (List.getElem?_eq_some_iff.1 hk).1
        simp at this
        omega
      subst this
      simp at hk
      subst hk
      exact ⟨op, by rw [I.count]; simp, hrecv⟩
  · intro p hp
    simp only [hreq]
    rcases hP p hp with h | ⟨h1, -, h3⟩
    · obtain ⟨k, req', op', e1, ⟨e2, e3⟩, e4⟩ := I.pends p h
      refine ⟨k, req', op', ?_, ⟨?_, ?_⟩, e4⟩
      · rw [List.getElem?_append_left (List.getElem?_eq_some_iff.1 e1).1]; exact e1
      · rw [hst, List.getElem?_append_left (List.getElem?_eq_some_iff.1 e2).1]; exact e2
      · simp only [List.mem_append, List.mem_singleton, not_or]
        exact ⟨e3, hno k⟩
    · refine ⟨own.reqs.length, req, op, by simp, ⟨?_, ?_⟩, h1, h3⟩
      · rw [hst, I.count]; simp
      · simp only [List.mem_append, List.mem_singleton, not_or]
        exact ⟨by rw [I.count]; exact hnw, hno _⟩

/-- Waiting. -/
theorem safe_wait {l : Layout} (hx : 0 < l.x) (hsq : l.y = l.x) {r : Int} (hr : r ∈ allRanks l) {sk : Int → Skel}
    {pre : List (HOp α)} {i : Nat}
    (hl : ∀ k a b, k ≠ i → HOutstanding pre k a → (pre.filterMap HOp.start)[i]? = some b → ∀ W1 W2, skel W1 = sk r →
      OnlyCells (RecvCells l r b W1) W1 W2 → SendsSame l r a (quantities W1) (quantities W2)) {own : Own} {W : World α}
    {P : List (Pend (World α) α)} (I : FineW l r sk pre own W P) :
    SafeM (Late.getReq i >>= Late.waitRequest) own W P fun _ own' W' P' => FineW l r sk (pre ++ [.wait i]) own' W' P' := by
  have hst : (pre ++ [HOp.wait i]).filterMap HOp.start = pre.filterMap HOp.start := by
    rw [List.filterMap_append]; simp [HOp.start]
  refine SafeM.bind (Q := fun req own' m' P' => own.reqs[i]? = some req ∧ own' = own ∧ m' = W ∧ P' = P) ?_ ?_
  · unfold SafeM Late.getReq
    cases hi : own.reqs[i]? with
    | none => intro a h; simp at h
    | some req =>
      intro a h
      simp only [Except.ok.injEq] at h
      subst h
      exact ⟨rfl, rfl, rfl, rfl⟩
  · rintro req own' W' P' ⟨hi, rfl, rfl, rfl⟩
    obtain ⟨opi, hopi, hrecv⟩ := I.recvs i req hi
    have hmi := List.mem_of_getElem? hopi
    have Fi := I.fits opi hmi
    have hsi := starts_isStart hmi
    refine SafeM.mono (Late.safe_waitRequest (G := fun W => skel W = sk r ∧ Kept P' W) ⟨I.skel, I.kept⟩ ?_) ?_
    · rintro rq hrq V a V' ⟨hV, hk⟩ hsto
      have hf := store_ok hsto
      have hnow : RecvNow l r opi V rq := (hrecv rq hrq).same (Fi.same hr I.skel hV) (Fi.inn hx hsq hsi hr I.skel)
      have oc := fill_cells ((Fi.held r hr).any hV) hnow.1 hf
      have hV' : skel V' = sk r := by
        rw [← hV]; unfold skel; rw [oc.next, oc.arrs, oc.objs]
      have hk' : Kept P' V' := by
        intro p hp
        obtain ⟨k, req', op', e1, e2, e4, -⟩ := I.pends p hp
        have Fk := I.fits op' (List.mem_of_getElem? e2.1)
        refine (e4 V V' ((Fk.held r hr).any hV) ((Fk.held r hr).any hV') ?_).trans (hk p hp)
        by_cases hki : k = i
        · subst hki
          have : op' = opi := by
            have := e2.1
            rw [hopi] at this
            exact (Option.some.inj this).symm
          subst this
          exact store_own hx hsq hsi Fi hr hV hnow hf
        · refine hl k op' opi hki e2 hopi V V' hV ⟨oc.next, oc.arrs, oc.objs, fun ad => ?_⟩
          rcases oc.mem ad with h | ⟨h, idx, ⟨rfl, rs, rel, q1, q2, q3⟩, hc⟩
          · exact .inl h
          · right
            obtain ⟨-, ii, -, hii⟩ := Fi.inn hx hsq hsi hr hV
            obtain ⟨z, hz, z1, z2⟩ := hnow.2 ii hii
            exact ⟨rq.q, idx, ⟨ii, hii, z, hz, z1, rs, rel, by rw [z2]; exact q1, q2, q3⟩, hc⟩
      exact ⟨⟨hV', hk'⟩, hk'⟩
    · rintro _ own2 V P2 ⟨rfl, ⟨hV, hk⟩, hP2⟩
      refine ⟨hV, fun p hp => hk p (hP2 p hp).1, ?_, ?_, ?_, ?_⟩
      · rw [hst]; exact I.count
      · rw [hst]; exact I.fits
      · rw [hst]
        intro k req' hk'
        obtain ⟨op', h1, h2⟩ := I.recvs k req' hk'
        have hm := List.mem_of_getElem? h1
        exact ⟨op', h1, fun rq hrq => (h2 rq hrq).same ((I.fits op' hm).same hr I.skel hV)
          ((I.fits op' hm).inn hx hsq (starts_isStart hm) hr I.skel)⟩
      · intro p hp
        obtain ⟨hp1, hp2⟩ := hP2 p hp
        obtain ⟨k, req', op', e1, ⟨e2, e3⟩, e4, sr, e5, e6⟩ := I.pends p hp1
        refine ⟨k, req', op', e1, ⟨by rw [hst]; exact e2, ?_⟩, e4, sr, e5, e6⟩
        simp only [List.mem_append, List.mem_singleton, not_or]
        refine ⟨e3, fun e => ?_⟩
        cases e
        rw [hi] at e1
        cases e1
        exact hp2 sr e5 e6

/-- A program on memory. -/
theorem safe_compute {g : Gt4py} {l : Layout} (hx : 0 < l.x) (hsq : l.y = l.x) {r : Int} (hr : r ∈ allRanks l) {sk : Int → Skel}
    (hw : ∀ r ∈ allRanks l, WFS g α (sk r)) {pre : List (HOp α)} {os : Int → List (Mem.Op α)}
    (hl : ∀ k a, HOutstanding pre k a → ∀ W1, skel W1 = sk r → SendsSame l r a (quantities W1) (quantities (W1.after g (os r)))) {own : Own}
    {W : World α} {P : List (Pend (World α) α)} (I : FineW l r sk pre own W P) :
    SafeM (Lazy.compute g (os r)) own W P fun _ own' W' P' =>
      FineW l r (fun r => (sk r).run g (os r)) (pre ++ [.compute os]) own' W' P' := by
  have hst : (pre ++ [HOp.compute os]).filterMap HOp.start = pre.filterMap HOp.start := by
    rw [List.filterMap_append]; simp [HOp.start]
  have hW' : skel (W.run g (os r)).2 = (sk r).run g (os r) := by
    have := run_skel (hw r hr W.mem) (os r)
    rw [← I.skel] at this ⊢
    exact this
  have hk : Kept P (W.run g (os r)).2 := by
    intro p hp
    obtain ⟨k, req, op', e1, e2, e4, -⟩ := I.pends p hp
    have Fk := I.fits op' (List.mem_of_getElem? e2.1)
    exact (e4 W _ ((Fk.held r hr).any I.skel) (((Fk.run hw os).held r hr).any hW') (hl k op' e2 W I.skel)).trans (I.kept p hp)
  refine ⟨hk, fun _ _ => ⟨hW', hk, ?_, ?_, ?_, ?_⟩⟩
  · rw [hst]; exact I.count
  · rw [hst]; exact fun op h => (I.fits op h).run hw os
  · rw [hst]
    intro k req' hk'
    obtain ⟨op', h1, h2⟩ := I.recvs k req' hk'
    have hm := List.mem_of_getElem? h1
    refine ⟨op', h1, fun rq hrq => (h2 rq hrq).same (fun q hq => ?_) ((I.fits op' hm).inn hx hsq (starts_isStart hm) hr I.skel)⟩
    obtain ⟨x, hx, hs⟩ := ((I.fits op' hm).axes r hr q hq).any I.skel
    have hwW : WF g W := by
      have := hw r hr W.mem
      rw [← I.skel] at this
      exact this
    obtain ⟨k1, k2⟩ := hwW.kept (os r)
    rw [quantities_eq hx, quantities_eq (dataOf_kept k1 k2 hx hs)]
    exact ⟨rfl, rfl, rfl, rfl, rfl⟩
  · intro p hp
    obtain ⟨k, req', op', e1, ⟨e2, e3⟩, e4⟩ := I.pends p hp
    refine ⟨k, req', op', e1, ⟨by rw [hst]; exact e2, ?_⟩, e4⟩
    simp only [List.mem_append, List.mem_singleton, not_or]
    exact ⟨e3, fun e => by cases e⟩

theorem safe_hops {g : Gt4py} {l : Layout} (hx : 0 < l.x) (hsq : l.y = l.x) {r : Int} (hr : r ∈ allRanks l) {all : List (HOp α)}
    {sk0 : Int → Skel} (hws : HWaitsStarted all)
    (hlw : ∀ pre i post, all = pre ++ .wait i :: post → ∀ k a b, k ≠ i → HOutstanding pre k a → (pre.filterMap HOp.start)[i]? = some b →
      ∀ W1 W2, skel W1 = finalSk g sk0 (pre.map HOp.call) r → OnlyCells (RecvCells l r b W1) W1 W2 →
      SendsSame l r a (quantities W1) (quantities W2))
    (hlc : ∀ pre os post, all = pre ++ .compute os :: post → ∀ k a, HOutstanding pre k a →
      ∀ W1, skel W1 = finalSk g sk0 (pre.map HOp.call) r → SendsSame l r a (quantities W1) (quantities (W1.after g (os r)))) :
    ∀ (rest pre : List (HOp α)) (sk : Int → Skel) (_ : all = pre ++ rest) (_ : sk = finalSk g sk0 (pre.map HOp.call))
      (_ : ∀ r ∈ allRanks l, WFS g α (sk r)) (_ : Good g l sk (rest.map HOp.call)) (own : Own) (W : World α) (P : List (Pend (World α) α))
      (_ : FineW l r sk pre own W P), SafeM (Lazy.execOps g l r rest) own W P fun _ _ _ _ => True := by
  intro rest
  induction rest with
  | nil => intro pre sk _ _ _ _ own W P _; exact SafeM.pure trivial
  | cons o rest ih =>
    intro pre sk hall hsk hw G own W P I
    have hall' : all = (pre ++ [o]) ++ rest := by rw [hall]; simp
    have hsk' : skAfter g sk o.call = finalSk g sk0 ((pre ++ [o]).map HOp.call) := by
      rw [List.map_append, finalSk_append, ← hsk]; rfl
    unfold Lazy.execOps
    refine SafeM.bind (Q := fun _ own' W' P' => FineW l r (skAfter g sk o.call) (pre ++ [o]) own' W' P') ?_
      fun _ own' W' P' I' => ih (pre ++ [o]) _ hall' hsk' (fun r hr => (hw r hr).after o.call) G.2 own' W' P' I'
    cases ho : o.start with
    | some op =>
      have e : skAfter g sk o.call = sk := by cases o <;> first | rfl | cases ho
      rw [e]
      refine safe_start hr ho (G.1 op (by cases o <;> cases ho <;> rfl)) (fun hm => ?_) I
      obtain ⟨a, b, hab⟩ := List.append_of_mem hm
      have h1 := hws a (pre.filterMap HOp.start).length (b ++ o :: rest) (by
        rw [hall]
        calc pre ++ o :: rest = (a ++ HOp.wait (pre.filterMap HOp.start).length :: b) ++ o :: rest := by rw [← hab]
          _ = _ := by simp)
      have h2 := congrArg (fun x => (List.filterMap HOp.start x).length) hab
      simp only [List.filterMap_append, List.length_append] at h2
      omega
    | none =>
      cases o with
      | wait i => exact safe_wait hx hsq hr (fun k a b h1 h2 h3 W1 W2 h4 h5 => hlw pre i rest hall k a b h1 h2 h3 W1 W2 (h4.trans (by rw [hsk]; rfl)) h5) I
      | compute os => exact safe_compute hx hsq hr hw (fun k a h1 W1 h2 => hlc pre os rest hall k a h1 W1 (by rw [h2, hsk])) I
      | halo q n => cases ho
      | vector x y n => cases ho
      | sync x y => cases ho

end Heap
end FV3
