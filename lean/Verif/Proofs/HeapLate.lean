import Verif.Model.HeapLate
import Verif.Proofs.LateSafe
import Verif.Proofs.HeapSession

/-!
# Calls on quantities in memory, with messages that are read late
-/

namespace FV3
namespace Heap
open Mem (World Gt4py)
open Strided
open FV3.Late (LM LNet Own LProc Memory SoundMemory Pend Kept dropPend SafeP SafeM eager)
variable {α A B : Type}

/-! ### Memory -/

theorem assign_eqv (v : View) (mem : Int → α) {x y : NDArray α} (h : ∀ idx, InB v.shape idx → x.get idx = y.get idx) :
    View.assign mem v x = View.assign mem v y := by
  have key : ∀ (L : List (List Nat)) (mem : Int → α), (∀ idx ∈ L, InB v.shape idx) →
      L.foldl (fun m idx => poke m (v.addr idx) (x.get idx)) mem = L.foldl (fun m idx => poke m (v.addr idx) (y.get idx)) mem := by
    intro L
    induction L with
    | nil => intro _ _; rfl
    | cons i L ih =>
      intro mem hL
      simp only [List.foldl_cons]
      rw [h i (hL i List.mem_cons_self)]
      exact ih _ fun idx hi => hL idx (List.mem_cons_of_mem _ hi)
  exact key _ mem fun idx hi => (mem_allIdx _ _).1 hi

theorem fill_eqv {W : World α} {q : Nat} {ix : List Ix} {a b : NDArray α} (h : a.Eqv b) : fill W q ix a = fill W q ix b := by
  unfold fill
  cases hd : dataOf W q with
  | error e => rfl
  | ok z =>
    obtain ⟨i, arr, inf⟩ := z
    have hi : W.arrs[i]? = some arr := dataOf_get hd
    dsimp only
    cases hr : resolveAll ix arr.view.shape with
    | error e => rfl
    | ok rs =>
      dsimp only
      rw [h.1]
      by_cases hv : viewShape rs = b.shape
      · rw [if_pos hv, if_pos hv]
        unfold Mem.World.assign
        rw [hi]
        dsimp only
        split
        · rfl
        · rw [hr]
          dsimp only
          rw [h.1]
          have e1 : a.stretch (viewShape rs) = a := if_pos (h.1.trans hv.symm)
          have e2 : b.stretch (viewShape rs) = b := if_pos hv.symm
          rw [e1, e2]
          have : View.assign W.mem (arr.view.slice rs) a = View.assign W.mem (arr.view.slice rs) b :=
            assign_eqv _ _ fun idx hidx => h.2 idx (by rw [h.1, ← hv]; exact hidx)
          rw [this]
      · rw [if_neg hv, if_neg hv]

theorem store_eq (W : World α) (q : Nat) (ix : List Ix) (a : NDArray α) :
    (Memory.store W q ix a : Py (World α)) = match fill W q ix a with | (.ok (), W') => .ok W' | (.error e, _) => .error e := rfl

instance : SoundMemory (World α) α := ⟨fun {m q ix a b} h => by rw [store_eq, store_eq, fill_eqv h]⟩

/-- A receive which fails leaves memory alone. -/
theorem fill_error {W W1 : World α} {q : Nat} {ix : List Ix} {a : NDArray α} {e : PyErr} (h : fill W q ix a = (.error e, W1)) :
    W1 = W := by
  unfold fill at h
  split at h
  · exact (Prod.mk.inj h).2.symm
  · split at h
    · exact (Prod.mk.inj h).2.symm
    · split at h
      · unfold Mem.World.assign at h
        split at h
        · exact (Prod.mk.inj h).2.symm
        · split at h
          · exact (Prod.mk.inj h).2.symm
          · split at h
            · exact (Prod.mk.inj h).2.symm
            · split at h
              · exact absurd (Prod.mk.inj h).1 (by simp)
              · exact (Prod.mk.inj h).2.symm
      · exact (Prod.mk.inj h).2.symm

/-! ### Reading at once -/

def hfin (x : Py A × Own) (W : World α) : Py A × HState α := (x.1, ⟨W, x.2.lastTag, x.2.reqs⟩)

theorem hfin_inj (x : Py A × Own) (m : World α) (x' : Py A × Own) (m' : World α) (h : hfin x m = hfin x' m') :
    x = x' ∧ m = m' := by
  obtain ⟨x1, x2, x3⟩ := x
  obtain ⟨y1, y2, y3⟩ := x'
  simp only [hfin, Prod.mk.injEq, HState.mk.injEq] at h
  obtain ⟨rfl, rfl, rfl, rfl⟩ := h
  exact ⟨rfl, rfl⟩

/-- The same program, reading at once. -/
def toHM (c : LM (World α) α A) : HM α A := fun s => eager hfin (c ⟨s.lastTag, s.reqs⟩) s.world

theorem eager_bind (p : LProc (World α) α (Py A × Own)) (f : A → LM (World α) α B) (m : World α) :
    eager hfin (p.bind fun x => match x.1 with | .ok a => f a x.2 | .error e => .ret (.error e, x.2)) m =
      (eager hfin p m).bind fun y => match y.1 with | .ok a => toHM (f a) y.2 | .error e => .ret (.error e, y.2) := by
  induction p generalizing m with
  | ret x =>
    obtain ⟨x1, x2, x3⟩ := x
    cases x1 <;> rfl
  | get k ih => exact ih m m
  | put g k ih => exact ih () (g m)
  | isend d t rd k ih =>
    simp only [LProc.bind, eager, Proc.bind]
    congr 1
    funext i
    exact ih i m
  | recv s t q ix k ih =>
    simp only [LProc.bind, eager, Proc.bind]
    congr 1
    funext x
    cases x with
    | data a =>
      simp only
      cases (Memory.store m q ix a : Py (World α)) with
      | ok m' => exact ih _ m'
      | error e => exact ih _ m
    | metadata _ => exact ih _ m
    | names _ => exact ih _ m
    | time _ => exact ih _ m
    | keys _ => exact ih _ m
  | await d t i k ih =>
    simp only [LProc.bind, eager, Proc.bind]
    congr 1
    funext u
    exact ih u m

theorem toHM_bind (c : LM (World α) α A) (f : A → LM (World α) α B) :
    toHM (c >>= f) = (toHM c >>= fun a => toHM (f a)) := by
  funext s
  exact eager_bind (c ⟨s.lastTag, s.reqs⟩) f s.world

theorem toHM_lift (x : Py A) : toHM (LM.lift x : LM (World α) α A) = HM.lift x := rfl
theorem toHM_getHaloTag : toHM (Late.getHaloTag : LM (World α) α Nat) = Heap.getHaloTag := rfl
theorem toHM_awaitSend (sr : SendReq) : toHM (Late.awaitSend sr : LM (World α) α Unit) = Heap.awaitSend sr := rfl

theorem toHM_recvInto (rq : RecvReq) : toHM (Late.recvInto rq : LM (World α) α Unit) = Heap.recvInto rq := by
  funext s
  unfold toHM Late.recvInto Heap.recvInto
  simp only [eager]
  congr 1
  funext x
  cases x with
  | data a =>
    dsimp only
    rw [store_eq]
    rcases hf : fill s.world rq.q rq.ix a with ⟨e, W1⟩
    cases e with
    | ok u => rfl
    | error e =>
      dsimp only
      rw [fill_error hf]
      rfl
  | _ => rfl

theorem toHM_forEach {f : A → LM (World α) α B} {g : A → HM α B} (h : ∀ a, toHM (f a) = g a) (l : List A) :
    toHM (LM.forEach f l) = HM.forEach g l := by
  induction l with
  | nil => rfl
  | cons a l ih =>
    unfold LM.forEach HM.forEach
    rw [toHM_bind, h]
    congr 1
    funext b
    rw [toHM_bind, ih]
    rfl

/-- An array is packed, and used. -/
theorem toHM_pack {view : World α → Py A} {f : (World α → A) → LM (World α) α B} {g : HM α B}
    (hok : ∀ s a, view s.world = .ok a → ∀ rd : World α → A, rd s.world = a → toHM (f rd) s = g s)
    (herr : ∀ s e, view s.world = .error e → g s = .ret (.error e, s)) :
    toHM (LM.pack view >>= f) = g := by
  funext s
  rw [toHM_bind]
  show Proc.bind (eager hfin (LM.pack view ⟨s.lastTag, s.reqs⟩) s.world) _ = _
  cases hv : view s.world with
  | ok a =>
    simp only [LM.pack, eager, hv, Proc.bind, hfin]
    exact hok s a hv _ (by simp only [hv])
  | error e =>
    simp only [LM.pack, eager, hv, Proc.bind, hfin]
    rw [herr s e hv]

theorem toHM_isend (d : Int) (t : Nat) (rd : World α → NDArray α) (s : HState α) (a : NDArray α) (h : rd s.world = a) :
    toHM (Late.isend d t rd) s = Heap.isend d t a s := by
  subst h; rfl

theorem isend_bind {d : Int} {t : Nat} {rd : World α → NDArray α} {s : HState α} {a : NDArray α} (h : rd s.world = a)
    {f g : SendReq → HM α B} (hfg : ∀ i, f ⟨d, t, i⟩ s = g ⟨d, t, i⟩ s) :
    (toHM (Late.isend d t rd) >>= f) s = (Heap.isend d t a >>= g) s := by
  subst h
  simp only [Bind.bind, HM.bind, toHM, Late.isend, eager, Heap.isend, Proc.bind, hfin]
  congr 1
  funext i
  exact hfg i

theorem lift_bind_error {e : PyErr} {x : Py A} (h : x = .error e) (f : A → HM α B) (s : HState α) :
    (HM.lift x >>= f) s = .ret (.error e, s) := by subst h; rfl

theorem lift_bind_ok {a : A} {x : Py A} (h : x = .ok a) (f : A → HM α B) (s : HState α) :
    (HM.lift x >>= f) s = f a s := by subst h; rfl

section
variable [Inhabited α]

theorem toHM_quantity (q : Nat) : toHM (Lazy.quantity q : LM (World α) α _) = HM.quantity q := rfl

theorem quantity_bind_ok {q : Nat} {s : HState α} {v : Quantity α} (h : value s.world q = .ok v) (f : Quantity α → HM α B) :
    (HM.quantity q >>= f) s = f v s := by
  simp only [Bind.bind, HM.bind, HM.quantity, Proc.bind, h]

theorem quantity_bind_error {q : Nat} {s : HState α} {e : PyErr} (h : value s.world q = .error e) (f : Quantity α → HM α B) :
    (HM.quantity q >>= f) s = .ret (.error e, s) := by
  simp only [Bind.bind, HM.bind, HM.quantity, Proc.bind, h]

open Late (py_bind_error)

theorem toHM_isendHalos (l : Layout) (r : Int) (q : Nat) (n : Int) (tag : Nat) :
    toHM (Lazy.isendHalos l r q n tag : LM (World α) α _) = Heap.isendHalos l r q n tag := by
  unfold Lazy.isendHalos Heap.isendHalos
  rw [toHM_bind, toHM_lift]
  congr 1
  funext bs
  refine toHM_forEach (fun b => toHM_pack ?_ ?_) bs
  · intro s a hv rd hrd
    obtain ⟨v, h0, hv⟩ := bind_ok hv
    obtain ⟨d, h1, h2⟩ := bind_ok hv
    rw [quantity_bind_ok h0, lift_bind_ok h1, lift_bind_ok h2]
    exact toHM_isend _ _ _ _ _ hrd
  · intro s e hv
    rcases py_bind_error hv with h0 | ⟨v, h0, hv⟩
    · rw [quantity_bind_error h0]
    rcases py_bind_error hv with h1 | ⟨d, h1, h2⟩
    · rw [quantity_bind_ok h0, lift_bind_error h1]
    · rw [quantity_bind_ok h0, lift_bind_ok h1, lift_bind_error h2]

theorem toHM_irecvHalos (l : Layout) (r : Int) (q : Nat) (n : Int) (tag : Nat) :
    toHM (Lazy.irecvHalos l r q n tag : LM (World α) α _) = Heap.irecvHalos l r q n tag := by
  unfold Lazy.irecvHalos Heap.irecvHalos
  rw [toHM_bind, toHM_lift]
  congr 1
  funext bs
  refine toHM_forEach (fun b => ?_) bs
  rw [toHM_bind, toHM_quantity]
  congr 1
  funext quantity
  rw [toHM_bind, toHM_lift]
  rfl

theorem toHM_startHaloUpdate (l : Layout) (r : Int) (q : Nat) (n : Int) :
    toHM (Lazy.startHaloUpdate l r q n : LM (World α) α _) = Heap.startHaloUpdate l r q n := by
  unfold Lazy.startHaloUpdate Heap.startHaloUpdate
  split
  · rfl
  · rw [toHM_bind, toHM_getHaloTag]
    congr 1
    funext tag
    rw [toHM_bind, toHM_isendHalos]
    congr 1
    funext sends
    rw [toHM_bind, toHM_irecvHalos]
    rfl

omit [Inhabited α] in
theorem toHM_waitRequest (req : Request) : toHM (Late.waitRequest req : LM (World α) α Unit) = Heap.waitRequest req := by
  unfold Late.waitRequest Heap.waitRequest
  rw [toHM_bind, toHM_forEach toHM_recvInto]
  congr 1
  funext _
  rw [toHM_bind, toHM_forEach toHM_awaitSend]
  rfl

variable [Neg α]

theorem toHM_isendVectorHalos (l : Layout) (r : Int) (x y : Nat) (n : Int) (tag1 tag2 : Nat) :
    toHM (Lazy.isendVectorHalos l r x y n tag1 tag2 : LM (World α) α _) = Heap.isendVectorHalos l r x y n tag1 tag2 := by
  unfold Lazy.isendVectorHalos Heap.isendVectorHalos
  rw [toHM_bind, toHM_lift]
  congr 1
  funext bs
  rw [toHM_bind]
  rw [toHM_forEach (fun b => toHM_pack ?_ ?_) bs]
  · rfl
  · intro s a hv rd hrd
    obtain ⟨v, g1, hv⟩ := bind_ok hv
    obtain ⟨w, g2, hv⟩ := bind_ok hv
    obtain ⟨d1, h1, hv⟩ := bind_ok hv
    obtain ⟨d2, h2, h3⟩ := bind_ok hv
    rw [quantity_bind_ok g1, quantity_bind_ok g2, lift_bind_ok h1, lift_bind_ok h2, lift_bind_ok h3]
    subst hrd
    rw [toHM_bind]
    refine isend_bind rfl fun i => ?_
    rw [toHM_bind]
    exact isend_bind rfl fun _ => rfl
  · intro s e hv
    rcases py_bind_error hv with g1 | ⟨v, g1, hv⟩
    · rw [quantity_bind_error g1]
    rcases py_bind_error hv with g2 | ⟨w, g2, hv⟩
    · rw [quantity_bind_ok g1, quantity_bind_error g2]
    rcases py_bind_error hv with h1 | ⟨d, h1, hv⟩
    · rw [quantity_bind_ok g1, quantity_bind_ok g2, lift_bind_error h1]
    · rcases py_bind_error hv with h2 | ⟨d, h2, h3⟩
      · rw [quantity_bind_ok g1, quantity_bind_ok g2, lift_bind_ok h1, lift_bind_error h2]
      · rw [quantity_bind_ok g1, quantity_bind_ok g2, lift_bind_ok h1, lift_bind_ok h2, lift_bind_error h3]

theorem toHM_startVectorHaloUpdate (l : Layout) (r : Int) (x y : Nat) (n : Int) :
    toHM (Lazy.startVectorHaloUpdate l r x y n : LM (World α) α _) = Heap.startVectorHaloUpdate l r x y n := by
  unfold Lazy.startVectorHaloUpdate Heap.startVectorHaloUpdate
  split
  · rfl
  · rw [toHM_bind, toHM_getHaloTag]
    congr 1
    funext tag1
    rw [toHM_bind, toHM_getHaloTag]
    congr 1
    funext tag2
    rw [toHM_bind, toHM_isendVectorHalos]
    congr 1
    funext sends
    rw [toHM_bind, toHM_irecvHalos]
    congr 1
    funext r1
    rw [toHM_bind, toHM_irecvHalos]
    rfl

theorem toHM_isendSharedBoundary (l : Layout) (r : Int) (x y : Nat) (tag : Nat) :
    toHM (Lazy.isendSharedBoundary l r x y tag : LM (World α) α _) = Heap.isendSharedBoundary l r x y tag := by
  unfold Lazy.isendSharedBoundary Heap.isendSharedBoundary
  rw [toHM_bind, toHM_lift]
  congr 1
  funext south
  rw [toHM_bind, toHM_lift]
  congr 1
  funext west
  refine toHM_pack ?_ ?_
  · intro s a hv rd hrd
    obtain ⟨v, g1, hv⟩ := bind_ok hv
    obtain ⟨w, g2, hv⟩ := bind_ok hv
    rw [quantity_bind_ok g1, quantity_bind_ok g2, lift_bind_ok hv]
    subst hrd
    cases hw : westEdgeData w west with
    | ok b =>
      rw [lift_bind_ok rfl]
      have hw' : (value s.world y >>= fun yq => westEdgeData yq west) = .ok b := by rw [g2]; exact hw
      have : toHM (LM.pack (fun W => value W y >>= fun yq => westEdgeData yq west) >>= fun westData => do
          let s1 ← Late.isend south.toRank tag rd
          let s2 ← Late.isend west.toRank tag westData
          return [s1, s2]) s = (do
          let s1 ← Heap.isend south.toRank tag (rd s.world)
          let s2 ← Heap.isend west.toRank tag b
          return [s1, s2]) s := by
        rw [toHM_bind]
        show Proc.bind (eager hfin (LM.pack _ ⟨s.lastTag, s.reqs⟩) s.world) _ = _
        simp only [LM.pack, eager, hw', Proc.bind, hfin]
        rw [toHM_bind]
        refine isend_bind rfl fun i => ?_
        rw [toHM_bind]
        refine isend_bind ?_ fun _ => rfl
        simp only [hw']
      exact this
    | error e =>
      have hw' : (value s.world y >>= fun yq => westEdgeData yq west) = .error e := by rw [g2]; exact hw
      rw [lift_bind_error rfl, toHM_bind]
      show Proc.bind (eager hfin (LM.pack _ ⟨s.lastTag, s.reqs⟩) s.world) _ = _
      simp only [LM.pack, eager, hw', Proc.bind, hfin]
  · intro s e hv
    rcases py_bind_error hv with g1 | ⟨v, g1, hv⟩
    · rw [quantity_bind_error g1]
    rcases py_bind_error hv with g2 | ⟨w, g2, hv⟩
    · rw [quantity_bind_ok g1, quantity_bind_error g2]
    · rw [quantity_bind_ok g1, quantity_bind_ok g2, lift_bind_error hv]

omit [Neg α] in
theorem toHM_irecvSharedBoundary (l : Layout) (r : Int) (x y : Nat) (tag : Nat) :
    toHM (Lazy.irecvSharedBoundary l r x y tag : LM (World α) α _) = Heap.irecvSharedBoundary l r x y tag := by
  unfold Lazy.irecvSharedBoundary Heap.irecvSharedBoundary
  rw [toHM_bind, toHM_lift]
  congr 1
  funext north
  rw [toHM_bind, toHM_lift]
  congr 1
  funext east
  rw [toHM_bind, toHM_quantity]
  congr 1
  funext xq
  rw [toHM_bind, toHM_quantity]
  congr 1
  funext yq
  rw [toHM_bind, toHM_lift]
  congr 1
  funext ixN
  rw [toHM_bind, toHM_lift]
  rfl

theorem toHM_startSynchronize (l : Layout) (r : Int) (x y : Nat) :
    toHM (Lazy.startSynchronize l r x y : LM (World α) α _) = Heap.startSynchronize l r x y := by
  unfold Lazy.startSynchronize Heap.startSynchronize
  rw [toHM_bind, toHM_quantity]
  congr 1
  funext xq
  rw [toHM_bind, toHM_quantity]
  congr 1
  funext yq
  split
  · rfl
  · rw [toHM_bind, toHM_getHaloTag]
    congr 1
    funext tag
    rw [toHM_bind, toHM_isendSharedBoundary]
    congr 1
    funext sends
    rw [toHM_bind, toHM_irecvSharedBoundary]
    rfl

theorem toHM_execCall (g : Gt4py) (l : Layout) (r : Int) (c : HCall α) : toHM (Lazy.execCall g l r c) = c.exec g l r := by
  cases c with
  | haloUpdate q n =>
    unfold Lazy.execCall HCall.exec Heap.haloUpdate
    dsimp only
    rw [toHM_bind, toHM_startHaloUpdate]
    congr 1; funext req; exact toHM_waitRequest req
  | vectorHaloUpdate x y n =>
    unfold Lazy.execCall HCall.exec Heap.vectorHaloUpdate
    dsimp only
    rw [toHM_bind, toHM_startVectorHaloUpdate]
    congr 1; funext req; exact toHM_waitRequest req
  | synchronize x y =>
    unfold Lazy.execCall HCall.exec Heap.synchronize
    dsimp only
    rw [toHM_bind, toHM_startSynchronize]
    congr 1; funext req; exact toHM_waitRequest req
  | compute f => rfl

theorem toHM_execCalls (g : Gt4py) (l : Layout) (r : Int) (cs : List (HCall α)) :
    toHM (Lazy.execCalls g l r cs) = Heap.execCalls g l r cs := by
  induction cs with
  | nil => rfl
  | cons c cs ih =>
    unfold Lazy.execCalls Heap.execCalls
    rw [toHM_bind, toHM_execCall, ih]

/-! ### Programs on values and programs on memory -/

omit [Neg α] in
/-- The quantities `m` are the variables `hs` of `W`. -/
structure Vals (hs : List Nat) (W : World α) (m : FV3.Mem α) : Prop where
  held : Held W hs
  vals : ∀ h ∈ hs, m h = quantities W h

omit [Neg α] in
theorem Vals.value {hs : List Nat} {W : World α} {m : FV3.Mem α} (V : Vals hs W m) {h : Nat} (hh : h ∈ hs) :
    Heap.value W h = .ok (m h) := by
  rw [V.held.value hh, V.vals h hh]

omit [Neg α] in
/-- The two programs do the same, and neither receives nor waits unless `rc`. -/
inductive Tr (rc : Bool) (hs : List Nat) {R R' : Type} (Q : R → R' → Prop) : LProc (FV3.Mem α) α R → LProc (World α) α R' → Prop
  | ret {x : R} {x' : R'} (h : Q x x') : Tr rc hs Q (.ret x) (.ret x')
  | get {k : FV3.Mem α → LProc (FV3.Mem α) α R} {k' : World α → LProc (World α) α R'}
    (h : ∀ W m, Vals hs W m → Tr rc hs Q (k m) (k' W)) : Tr rc hs Q (.get k) (.get k')
  | isend {d : Int} {t : Tag} {rd : FV3.Mem α → NDArray α} {rd' : World α → NDArray α} {k : Nat → LProc (FV3.Mem α) α R}
    {k' : Nat → LProc (World α) α R'} (hrd : ∀ W m, Vals hs W m → rd' W = rd m)
    (h : ∀ i, Tr rc hs Q (k i) (k' i)) : Tr rc hs Q (.isend d t rd k) (.isend d t rd' k')
  | recv {s : Int} {t : Tag} {q : Nat} {ix : List Ix} {k : Py Unit → LProc (FV3.Mem α) α R} {k' : Py Unit → LProc (World α) α R'}
    (hrc : rc = true) (hq : q ∈ hs) (h : ∀ e, Tr rc hs Q (k e) (k' e)) : Tr rc hs Q (.recv s t q ix k) (.recv s t q ix k')
  | await {d : Int} {t : Tag} {i : Nat} {k : Unit → LProc (FV3.Mem α) α R} {k' : Unit → LProc (World α) α R'}
    (hrc : rc = true) (h : ∀ u, Tr rc hs Q (k u) (k' u)) : Tr rc hs Q (.await d t i k) (.await d t i k')

omit [Neg α] in
/-- The same sends. -/
def PRel (hs : List Nat) (p : Pend (FV3.Mem α) α) (p' : Pend (World α) α) : Prop :=
  p'.dst = p.dst ∧ p'.tag = p.tag ∧ p'.idx = p.idx ∧ p'.a = p.a ∧ ∀ W m, Vals hs W m → p'.read W = p.read m

omit [Neg α] in
theorem PRel.kept {hs : List Nat} {P : List (Pend (FV3.Mem α) α)} {P' : List (Pend (World α) α)}
    (h : List.Forall₂ (PRel hs) P P') {W : World α} {m : FV3.Mem α} (V : Vals hs W m) (hk : Kept P m) : Kept P' W := by
  induction h with
  | nil => intro p hp; cases hp
  | @cons p p' P P' h0 h1 ih =>
    intro z hz
    rcases List.mem_cons.1 hz with rfl | hz
    · rw [h0.2.2.2.2 W m V, h0.2.2.2.1]
      exact hk p List.mem_cons_self
    · exact ih (fun y hy => hk y (List.mem_cons_of_mem _ hy)) z hz

omit [Neg α] in
theorem PRel.drop {hs : List Nat} {P : List (Pend (FV3.Mem α) α)} {P' : List (Pend (World α) α)}
    (h : List.Forall₂ (PRel hs) P P') (d : Int) (t : Tag) (i : Nat) :
    List.Forall₂ (PRel hs) (dropPend P d t i) (dropPend P' d t i) := by
  induction h with
  | nil => exact .nil
  | @cons p p' P P' h0 h1 ih =>
    unfold dropPend at ih ⊢
    obtain ⟨a1, a2, a3, -⟩ := id h0
    by_cases c : p.dst = d ∧ p.tag = t ∧ p.idx = i
    · rw [List.filter_cons_of_neg (by simpa using c), List.filter_cons_of_neg (by rw [a1, a2, a3]; simpa using c)]
      exact ih
    · rw [List.filter_cons_of_pos (a := p) (by exact decide_eq_true c),
        List.filter_cons_of_pos (a := p') (by rw [a1, a2, a3]; exact decide_eq_true c)]
      exact .cons h0 ih

omit [Neg α] in
/-- If the program on values does not change what it sends, neither does the one on memory. -/
theorem Tr.safe {rc : Bool} {hs : List Nat} {R R' : Type} {Q : R → R' → Prop} {p : LProc (FV3.Mem α) α R} {p' : LProc (World α) α R'}
    (h : Tr rc hs Q p p') {W : World α} {m : FV3.Mem α} (V : Vals hs W m) {P : List (Pend (FV3.Mem α) α)}
    {P' : List (Pend (World α) α)} (hP : List.Forall₂ (PRel hs) P P') {S : R → FV3.Mem α → List (Pend (FV3.Mem α) α) → Prop}
    {sk : Skel} (hsk : skel W = sk) (hs' : SafeP p m P S) :
    SafeP p' W P' fun x' W' P2' => ∃ x m' P2, Q x x' ∧ skel W' = sk ∧ Vals hs W' m' ∧
      List.Forall₂ (PRel hs) P2 P2' ∧ S x m' P2 := by
  induction h generalizing W m P P' with
  | ret hq => exact ⟨_, m, P, hq, hsk, V, hP, hs'⟩
  | get hk ih => exact ih W m V V hP hsk hs'
  | @isend d t rd rd' k k' hrd hk ih =>
    intro i
    exact ih i V (.cons ⟨rfl, rfl, rfl, hrd W m V, hrd⟩ hP) hsk (hs' i)
  | @recv s t q ix k k' hrc hq hk ih =>
    intro a
    rcases fill_store V.held V.vals hq ix a with ⟨e, h1, h2⟩ | ⟨m1, W1, h1, h2, h3, h4, h5⟩
    · refine ⟨fun W' hW' => ?_, fun e' he' => ?_⟩
      · rw [store_eq, h2] at hW'
        cases hW'
      · rw [store_eq, h2] at he'
        cases he'
        exact ih _ V hP hsk ((hs' a).2 e h1)
    · refine ⟨fun W' hW' => ?_, fun e' he' => ?_⟩
      · rw [store_eq, h2] at hW'
        cases hW'
        have V1 : Vals hs W1 m1 := ⟨V.held.congr h5.arrs h5.objs, h4⟩
        have hsk1 : skel W1 = sk := by
          rw [← hsk]
          unfold Heap.skel
          rw [h5.next, h5.arrs, h5.objs]
        obtain ⟨k1, k2⟩ := (hs' a).1 m1 h1
        exact ⟨PRel.kept hP V1 k1, ih _ V1 hP hsk1 k2⟩
      · rw [store_eq, h2] at he'
        cases he'
  | @await d t i k k' hrc hk ih => exact ih () V (PRel.drop hP d t i) hsk hs'

omit [Neg α] in
theorem Tr.mono {rc : Bool} {hs : List Nat} {R R' : Type} {Q Q' : R → R' → Prop} {p : LProc (FV3.Mem α) α R} {p' : LProc (World α) α R'}
    (h : Tr rc hs Q p p') (hq : ∀ x x', Q x x' → Q' x x') : Tr rc hs Q' p p' := by
  induction h with
  | ret h => exact .ret (hq _ _ h)
  | get _ ih => exact .get ih
  | isend hrd _ ih => exact .isend hrd ih
  | recv hrc hq _ ih => exact .recv hrc hq ih
  | await hrc _ ih => exact .await hrc ih

omit [Neg α] in
theorem Tr.bind {rc : Bool} {hs : List Nat} {R R' S S' : Type} {Q : R → R' → Prop} {Q' : S → S' → Prop} {p : LProc (FV3.Mem α) α R}
    {p' : LProc (World α) α R'} {f : R → LProc (FV3.Mem α) α S} {f' : R' → LProc (World α) α S'} (h : Tr rc hs Q p p')
    (hf : ∀ x x', Q x x' → Tr rc hs Q' (f x) (f' x')) : Tr rc hs Q' (p.bind f) (p'.bind f') := by
  induction h with
  | ret h => exact hf _ _ h
  | get _ ih => exact .get ih
  | isend hrd _ ih => exact .isend hrd ih
  | recv hrc hq _ ih => exact .recv hrc hq ih
  | await hrc _ ih => exact .await hrc ih

omit [Neg α] in
/-- The two programs do the same, with results in `Q`. -/
def TrM (rc : Bool) (hs : List Nat) {A A' : Type} (Q : A → A' → Prop) (c : LM (FV3.Mem α) α A) (c' : LM (World α) α A') : Prop :=
  ∀ own, Tr rc hs (fun x x' => x'.2 = x.2 ∧
    match x.1, x'.1 with
    | .ok a, .ok a' => Q a a'
    | .error e, .error e' => e = e'
    | _, _ => False) (c own) (c' own)

namespace TrM
variable {rc : Bool} {hs : List Nat} {A' B' : Type} {Q : A → A' → Prop} {Q' : B → B' → Prop}

omit [Neg α] in
theorem bind {c : LM (FV3.Mem α) α A} {c' : LM (World α) α A'} {f : A → LM (FV3.Mem α) α B} {f' : A' → LM (World α) α B'}
    (hc : TrM rc hs Q c c') (hf : ∀ a a', Q a a' → TrM rc hs Q' (f a) (f' a')) : TrM rc hs Q' (c >>= f) (c' >>= f') := by
  intro own
  refine Tr.bind (hc own) ?_
  rintro ⟨x, o⟩ ⟨x', o'⟩ ⟨h1, h2⟩
  dsimp only at h1 h2
  subst h1
  cases x with
  | ok a =>
    cases x' with
    | ok a' => exact hf a a' h2 o'
    | error e => exact h2.elim
  | error e =>
    cases x' with
    | ok a' => exact h2.elim
    | error e' => exact .ret ⟨rfl, h2⟩

omit [Neg α] in
theorem pure {a : A} {a' : A'} (h : Q a a') : TrM rc hs Q (Pure.pure a : LM (FV3.Mem α) α A) (Pure.pure a' : LM (World α) α A') :=
  fun _ => .ret ⟨rfl, h⟩

omit [Neg α] in
theorem lift (x : Py A) : TrM rc hs Eq (LM.lift x : LM (FV3.Mem α) α A) (LM.lift x : LM (World α) α A) := by
  intro own
  refine .ret ⟨rfl, ?_⟩
  cases x <;> rfl

omit [Neg α] in
theorem raise (e : PyErr) : TrM rc hs Q (LM.raise e : LM (FV3.Mem α) α A) (LM.raise e : LM (World α) α A') :=
  fun _ => .ret ⟨rfl, rfl⟩

omit [Neg α] in
theorem mono {Q1 : A → A' → Prop} {c : LM (FV3.Mem α) α A} {c' : LM (World α) α A'} (hc : TrM rc hs Q c c')
    (h : ∀ a a', Q a a' → Q1 a a') : TrM rc hs Q1 c c' := by
  intro own
  refine (hc own).mono ?_
  rintro ⟨x, o⟩ ⟨x', o'⟩ ⟨h1, h2⟩
  refine ⟨h1, ?_⟩
  cases x <;> cases x' <;> first | exact h _ _ h2 | exact h2

omit [Neg α] in
theorem quantity {h : Nat} (hh : h ∈ hs) : TrM rc hs Eq (LM.quantity h : LM (FV3.Mem α) α _) (Lazy.quantity h : LM (World α) α _) := by
  intro own
  refine .get fun W m V => .ret ⟨rfl, ?_⟩
  dsimp only
  rw [V.value hh]

omit [Neg α] in
theorem getTag : TrM rc hs Eq (Late.getHaloTag : LM (FV3.Mem α) α Nat) (Late.getHaloTag : LM (World α) α Nat) :=
  fun _ => .ret ⟨rfl, rfl⟩

omit [Neg α] in
/-- What is sent is the same. -/
def SameRead (hs : List Nat) (rd : FV3.Mem α → A) (rd' : World α → A) : Prop := ∀ W m, Vals hs W m → rd' W = rd m

omit [Neg α] in
theorem pack {view : FV3.Mem α → Py A} {view' : World α → Py A} (h : SameRead hs view view') :
    TrM rc hs (SameRead hs) (LM.pack view) (LM.pack view') := by
  intro own
  refine .get fun W m V => ?_
  rw [h W m V]
  cases hv : view m with
  | error e => exact .ret ⟨rfl, rfl⟩
  | ok a =>
    refine .ret ⟨rfl, fun W1 m1 V1 => ?_⟩
    dsimp only
    rw [h W1 m1 V1]

omit [Neg α] in
theorem isend (dst : Int) (tag : Nat) {rd : FV3.Mem α → NDArray α} {rd' : World α → NDArray α} (h : SameRead hs rd rd') :
    TrM rc hs Eq (Late.isend dst tag rd) (Late.isend dst tag rd') :=
  fun _ => .isend h fun _ => .ret ⟨rfl, rfl⟩

omit [Neg α] in
theorem awaitSend (sr : SendReq) : TrM true hs Eq (Late.awaitSend sr : LM (FV3.Mem α) α Unit) (Late.awaitSend sr : LM (World α) α Unit) :=
  fun _ => .await rfl fun _ => .ret ⟨rfl, rfl⟩

omit [Neg α] in
theorem recvInto (rq : RecvReq) (hq : rq.q ∈ hs) :
    TrM true hs Eq (Late.recvInto rq : LM (FV3.Mem α) α Unit) (Late.recvInto rq : LM (World α) α Unit) := by
  refine fun _ => .recv rfl hq fun e => .ret ⟨rfl, ?_⟩
  cases e <;> rfl

omit [Neg α] in
theorem forEach {P : B → Prop} {f : A → LM (FV3.Mem α) α B} {f' : A → LM (World α) α B} {as : List A}
    (h : ∀ a ∈ as, TrM rc hs (fun b b' => b = b' ∧ P b) (f a) (f' a)) :
    TrM rc hs (fun b b' => b = b' ∧ ∀ x ∈ b, P x) (LM.forEach f as) (LM.forEach f' as) := by
  induction as with
  | nil => exact pure ⟨rfl, fun b hb => by cases hb⟩
  | cons a as ih =>
    refine bind (h a List.mem_cons_self) ?_
    rintro b _ ⟨rfl, hb⟩
    refine bind (ih fun a ha => h a (List.mem_cons_of_mem _ ha)) ?_
    rintro bs _ ⟨rfl, hbs⟩
    refine pure ⟨rfl, fun x hx => ?_⟩
    rcases List.mem_cons.1 hx with rfl | hx
    · exact hb
    · exact hbs x hx

omit [Neg α] in
theorem waitRequest (req : Request) (hq : ∀ rq ∈ req.recvs, rq.q ∈ hs) :
    TrM true hs Eq (Late.waitRequest req : LM (FV3.Mem α) α Unit) (Late.waitRequest req : LM (World α) α Unit) :=
  bind (α := α) (forEach (P := fun _ => True) fun rq h => (recvInto rq (hq rq h)).mono fun _ _ e => ⟨e, trivial⟩) fun _ _ _ =>
    bind (forEach (P := fun _ => True) fun sr _ => (awaitSend sr).mono fun _ _ e => ⟨e, trivial⟩) fun _ _ _ => pure rfl

/-- The receives are into the variables. -/
abbrev Into (hs : List Nat) (r r' : Request) : Prop := r = r' ∧ ∀ rq ∈ r.recvs, rq.q ∈ hs

omit [Neg α] in
theorem isendHalos (l : Layout) (r : Int) {q : Nat} (hq : q ∈ hs) (n : Int) (tag : Nat) :
    TrM rc hs Eq (Late.isendHalos l r q n tag : LM (FV3.Mem α) α _) (Lazy.isendHalos l r q n tag : LM (World α) α _) := by
  refine bind (lift _) ?_
  rintro bs _ rfl
  refine mono (Q := fun b b' => b = b' ∧ ∀ x ∈ b, True) ?_ fun _ _ e => e.1
  refine forEach fun b _ => bind (pack fun W m V => ?_) fun rd rd' h => mono (isend _ _ h) fun _ _ e => ⟨e, trivial⟩
  rw [V.value hq]
  rfl

omit [Neg α] in
theorem irecvHalos (l : Layout) (r : Int) {q : Nat} (hq : q ∈ hs) (n : Int) (tag : Nat) :
    TrM rc hs (fun a b => a = b ∧ ∀ rq ∈ a, rq.q ∈ hs) (Late.irecvHalos l r q n tag : LM (FV3.Mem α) α _)
      (Lazy.irecvHalos l r q n tag : LM (World α) α _) := by
  refine bind (lift _) ?_
  rintro bs _ rfl
  refine forEach fun b _ => bind (quantity hq) ?_
  rintro v _ rfl
  refine bind (lift _) ?_
  rintro ix _ rfl
  exact pure ⟨rfl, hq⟩

omit [Neg α] in
theorem startHaloUpdate (l : Layout) (r : Int) {q : Nat} (hq : q ∈ hs) (n : Int) :
    TrM rc hs (Into hs) (Late.startHaloUpdate l r q n : LM (FV3.Mem α) α _) (Lazy.startHaloUpdate l r q n : LM (World α) α _) := by
  unfold Late.startHaloUpdate Lazy.startHaloUpdate
  split
  · exact raise _
  · refine bind getTag ?_
    rintro tag _ rfl
    refine bind (isendHalos l r hq n _) ?_
    rintro sends _ rfl
    refine bind (irecvHalos l r hq n _) ?_
    rintro recvs _ ⟨rfl, h⟩
    exact pure ⟨rfl, h⟩

theorem isendVectorHalos (l : Layout) (r : Int) {x y : Nat} (hx : x ∈ hs) (hy : y ∈ hs) (n : Int) (t1 t2 : Nat) :
    TrM rc hs Eq (Late.isendVectorHalos l r x y n t1 t2 : LM (FV3.Mem α) α _) (Lazy.isendVectorHalos l r x y n t1 t2 : LM (World α) α _) := by
  refine bind (lift _) ?_
  rintro bs _ rfl
  refine bind (forEach (P := fun _ => True) fun b _ => bind (pack fun W m V => ?_) fun rd rd' h => ?_) ?_
  · rw [V.value hx, V.value hy]
    rfl
  · refine bind (isend _ _ fun W m V => by rw [h W m V]) ?_
    rintro s1 _ rfl
    refine bind (isend _ _ fun W m V => by rw [h W m V]) ?_
    rintro s2 _ rfl
    exact pure ⟨rfl, trivial⟩
  · rintro rs _ ⟨rfl, -⟩
    exact pure rfl

theorem startVectorHaloUpdate (l : Layout) (r : Int) {x y : Nat} (hx : x ∈ hs) (hy : y ∈ hs) (n : Int) :
    TrM rc hs (Into hs) (Late.startVectorHaloUpdate l r x y n : LM (FV3.Mem α) α _)
      (Lazy.startVectorHaloUpdate l r x y n : LM (World α) α _) := by
  unfold Late.startVectorHaloUpdate Lazy.startVectorHaloUpdate
  split
  · exact raise _
  · refine bind getTag ?_
    rintro tag _ rfl
    refine bind getTag ?_
    rintro tag2 _ rfl
    refine bind (isendVectorHalos l r hx hy n _ _) ?_
    rintro sends _ rfl
    refine bind (irecvHalos l r hx n _) ?_
    rintro r1 _ ⟨rfl, h1⟩
    refine bind (irecvHalos l r hy n _) ?_
    rintro r2 _ ⟨rfl, h2⟩
    refine pure ⟨rfl, fun rq hr => ?_⟩
    rcases List.mem_append.1 hr with hr | hr
    · exact h1 rq hr
    · exact h2 rq hr

theorem isendSharedBoundary (l : Layout) (r : Int) {x y : Nat} (hx : x ∈ hs) (hy : y ∈ hs) (tag : Nat) :
    TrM rc hs Eq (Late.isendSharedBoundary l r x y tag : LM (FV3.Mem α) α _) (Lazy.isendSharedBoundary l r x y tag : LM (World α) α _) := by
  refine bind (lift _) ?_
  rintro south _ rfl
  refine bind (lift _) ?_
  rintro west _ rfl
  refine bind (pack fun W m V => ?_) fun rd rd' h => ?_
  · rw [V.value hx, V.value hy]
    rfl
  refine bind (pack fun W m V => ?_) fun rd2 rd2' h2 => ?_
  · rw [V.value hy]
    rfl
  refine bind (isend _ _ h) ?_
  rintro s1 _ rfl
  refine bind (isend _ _ h2) ?_
  rintro s2 _ rfl
  exact pure rfl

omit [Neg α] in
theorem irecvSharedBoundary (l : Layout) (r : Int) {x y : Nat} (hx : x ∈ hs) (hy : y ∈ hs) (tag : Nat) :
    TrM rc hs (fun a b => a = b ∧ ∀ rq ∈ a, rq.q ∈ hs) (Late.irecvSharedBoundary l r x y tag : LM (FV3.Mem α) α _)
      (Lazy.irecvSharedBoundary l r x y tag : LM (World α) α _) := by
  refine bind (lift _) ?_
  rintro north _ rfl
  refine bind (lift _) ?_
  rintro east _ rfl
  refine bind (quantity hx) ?_
  rintro xq _ rfl
  refine bind (quantity hy) ?_
  rintro yq _ rfl
  refine bind (lift _) ?_
  rintro ixN _ rfl
  refine bind (lift _) ?_
  rintro ixE _ rfl
  refine pure ⟨rfl, fun rq h => ?_⟩
  simp only [List.mem_cons, List.not_mem_nil, or_false] at h
  rcases h with rfl | rfl
  · exact hx
  · exact hy

theorem startSynchronize (l : Layout) (r : Int) {x y : Nat} (hx : x ∈ hs) (hy : y ∈ hs) :
    TrM rc hs (Into hs) (Late.startSynchronize l r x y : LM (FV3.Mem α) α _) (Lazy.startSynchronize l r x y : LM (World α) α _) := by
  refine bind (quantity hx) ?_
  rintro xq _ rfl
  refine bind (quantity hy) ?_
  rintro yq _ rfl
  split
  · exact raise _
  · refine bind getTag ?_
    rintro tag _ rfl
    refine bind (isendSharedBoundary l r hx hy _) ?_
    rintro sends _ rfl
    refine bind (irecvSharedBoundary l r hx hy _) ?_
    rintro recvs _ ⟨rfl, h⟩
    exact pure ⟨rfl, h⟩

end TrM

/-- The call as one on values. -/
def HCall.toCall : HCall α → Call α
  | .haloUpdate q n => .haloUpdate q n
  | .vectorHaloUpdate x y n => .vectorHaloUpdate x y n
  | .synchronize x y => .synchronize x y
  | .compute _ => .compute fun _ m => m

theorem tr_call (g : Gt4py) (l : Layout) (r : Int) {c : HCall α} {op : Op α} (ho : c.start = some op) :
    TrM true op.qs Eq (Late.execCall l r c.toCall) (Lazy.execCall g l r c) := by
  cases c with
  | haloUpdate q n =>
    cases ho
    refine TrM.bind (TrM.startHaloUpdate l r (by simp [Op.qs]) n) ?_
    rintro req _ ⟨rfl, h⟩
    exact TrM.waitRequest req h
  | vectorHaloUpdate x y n =>
    cases ho
    refine TrM.bind (TrM.startVectorHaloUpdate l r (by simp [Op.qs]) (by simp [Op.qs]) n) ?_
    rintro req _ ⟨rfl, h⟩
    exact TrM.waitRequest req h
  | synchronize x y =>
    cases ho
    refine TrM.bind (TrM.startSynchronize l r (by simp [Op.qs]) (by simp [Op.qs])) ?_
    rintro req _ ⟨rfl, h⟩
    exact TrM.waitRequest req h
  | compute ops => cases ho

/-! ### Calls do not change what they are sending -/

/-- `SafeP` for programs with exceptions, without anything being sent before and after. -/
def SafeW (c : LM (World α) α A) (W : World α) (Q : World α → Prop) : Prop :=
  ∀ own, SafeP (c own) W [] fun x W' P' => ∀ a, x.1 = .ok a → Q W' ∧ P' = []

theorem safe_call {l : Layout} {sk : Int → Skel} (hx : 0 < l.x) (hsq : l.y = l.x) {r : Int} (hr : r ∈ allRanks l) {c : HCall α}
    {op : Op α} (ho : c.start = some op) (F : Fit l α sk op) {W : World α} (hW : skel W = sk r) :
    SafeW (Lazy.execCall g l r c) W fun W' => skel W' = sk r := by
  intro own
  have V : Vals op.qs W (quantities W) := ⟨(F.held r hr).any hW, fun _ _ => rfl⟩
  have ho' : c.toCall.start = some op := by
    cases c <;> cases ho <;> rfl
  have hs := Late.safe_call (m := fun r' => if r' = r then quantities W else quantities ((sk r').with fun _ => (default : α))) hx hsq hr ho'
    (updateReady_same F.ready fun r' hr' q hq => by
      by_cases e : r' = r
      · subst e
        rw [if_pos rfl]
        exact meta_congr (W := (sk r').with fun _ => (default : α)) (W1 := W) (congrArg Skel.arrs hW) (congrArg Skel.objs hW) (F.axes r' hr' q hq)
      · rw [if_neg e]
        exact SameMeta.refl _) (own := own) (mem := quantities W) (fun q => by dsimp only; rw [if_pos rfl]; exact SameMeta.refl _)
  refine SafeP.mono (Tr.safe (tr_call g l r ho own) V .nil hW hs) ?_
  rintro ⟨x', o'⟩ W' P' ⟨⟨x, o⟩, m', P2, ⟨h1, h2⟩, hsk, -, hP, h3⟩ a rfl
  cases x with
  | error e => exact h2.elim
  | ok b =>
    obtain ⟨-, rfl⟩ := h3 b rfl
    cases hP
    exact ⟨hsk, rfl⟩

theorem safe_calls {l : Layout} (hx : 0 < l.x) (hsq : l.y = l.x) {r : Int} (hr : r ∈ allRanks l) {calls : List (HCall α)}
    {sk : Int → Skel} (hw : WFS g α (sk r)) (G : Good g l sk calls) {W : World α} (hW : skel W = sk r) :
    SafeW (Lazy.execCalls g l r calls) W fun _ => True := by
  induction calls generalizing sk W with
  | nil => exact fun own a _ => ⟨trivial, rfl⟩
  | cons c calls ih =>
    intro own
    unfold Lazy.execCalls
    have hc : SafeW (Lazy.execCall g l r c) W fun W' => skel W' = skAfter g sk c r := by
      cases ho : c.start with
      | some op =>
        have e : skAfter g sk c = sk := by cases c <;> first | rfl | cases ho
        rw [e]
        exact safe_call hx hsq hr ho (G.1 op ho) hW
      | none =>
        cases c with
        | compute ops =>
          intro own
          refine ⟨(fun p hp => by cases hp), fun _ _ => ⟨?_, rfl⟩⟩
          have := run_skel (hw W.mem) (ops r)
          rw [← hW] at this
          show skel (W.run g (ops r)).2 = (sk r).run g (ops r)
          rw [← hW]
          exact this
        | _ => cases ho
    refine SafeP.bind (hc own) ?_
    rintro ⟨x, o⟩ W' P' h
    cases x with
    | ok a =>
      obtain ⟨h1, rfl⟩ := h a rfl
      exact ih (hw.after c) G.2 h1 o
    | error e => intro a h; cases h

end
end Heap
end FV3
