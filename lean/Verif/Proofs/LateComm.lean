import Verif.Proofs.LateSim
import Verif.Proofs.ExecReal

/-!
# The communicator's programs with late reading are those of Model/Communicator.lean, read at once
-/

namespace FV3.Late
open FV3
variable {α A B : Type}

def lfin (x : Py A × Own) (m : Mem α) : Py A × RankState α := (x.1, ⟨m, x.2.lastTag, x.2.reqs⟩)

theorem lfin_inj (x : Py A × Own) (m : Mem α) (x' : Py A × Own) (m' : Mem α) (h : lfin x m = lfin x' m') :
    x = x' ∧ m = m' := by
  obtain ⟨x1, x2, x3⟩ := x
  obtain ⟨y1, y2, y3⟩ := x'
  simp only [lfin, Prod.mk.injEq, RankState.mk.injEq] at h
  obtain ⟨rfl, rfl, rfl, rfl⟩ := h
  exact ⟨rfl, rfl⟩

/-- The same program, reading at once. -/
def toComm (c : LM (Mem α) α A) : CommM α A := fun s => eager lfin (c ⟨s.lastTag, s.reqs⟩) s.mem

theorem eager_bind (p : LProc (Mem α) α (Py A × Own)) (f : A → LM (Mem α) α B) (m : Mem α) :
    eager lfin (p.bind fun x => match x.1 with | .ok a => f a x.2 | .error e => .ret (.error e, x.2)) m =
      (eager lfin p m).bind fun y => match y.1 with | .ok a => toComm (f a) y.2 | .error e => .ret (.error e, y.2) := by
  induction p generalizing m with
  | ret x =>
    obtain ⟨x1, x2, x3⟩ := x
    cases x1 <;> rfl
  | get k ih => exact ih m m
  | put g k ih => exact ih () (g m)
  | isend d t rd k ih =>
    simp only [LProc.bind, eager, Proc.bind]
    congr 1
    funext i
    exact ih i m
  | recv s t q ix k ih =>
    simp only [LProc.bind, eager, Proc.bind]
    congr 1
    funext x
    cases x with
    | data a =>
      simp only
      cases (Memory.store m q ix a : Py (Mem α)) with
      | ok m' => exact ih _ m'
      | error e => exact ih _ m
    | metadata _ => exact ih _ m
    | names _ => exact ih _ m
    | time _ => exact ih _ m
    | keys _ => exact ih _ m
  | await d t i k ih =>
    simp only [LProc.bind, eager, Proc.bind]
    congr 1
    funext u
    exact ih u m

theorem toComm_bind (c : LM (Mem α) α A) (f : A → LM (Mem α) α B) :
    toComm (c >>= f) = (toComm c >>= fun a => toComm (f a)) := by
  funext s
  exact eager_bind (c ⟨s.lastTag, s.reqs⟩) f s.mem

theorem toComm_pure (a : A) : toComm (Pure.pure a : LM (Mem α) α A) = Pure.pure a := rfl
theorem toComm_lift (x : Py A) : toComm (LM.lift x : LM (Mem α) α A) = CommM.lift x := rfl
theorem toComm_raise (e : PyErr) : toComm (LM.raise e : LM (Mem α) α A) = CommM.raise e := rfl
theorem toComm_quantity (q : Nat) : toComm (LM.quantity q : LM (Mem α) α _) = CommM.quantity q := rfl
theorem toComm_getHaloTag : toComm (getHaloTag : LM (Mem α) α Nat) = FV3.getHaloTag := rfl
theorem toComm_awaitSend (sr : SendReq) : toComm (awaitSend sr : LM (Mem α) α Unit) = FV3.awaitSend sr := rfl
theorem toComm_pushReq (req : Request) : toComm (pushReq req : LM (Mem α) α Unit) = FV3.pushReq req := rfl

theorem toComm_recvInto (rq : RecvReq) : toComm (recvInto rq : LM (Mem α) α Unit) = FV3.recvInto rq := by
  funext s
  unfold toComm recvInto FV3.recvInto
  simp only [eager]
  congr 1
  funext x
  cases x with
  | data a =>
    have e : (Memory.store s.mem rq.q rq.ix a : Py (Mem α)) = storeInto s.mem rq.q rq.ix a := rfl
    dsimp only
    rw [e]
    cases storeInto s.mem rq.q rq.ix a <;> rfl
  | _ => rfl

theorem toComm_forEach {f : A → LM (Mem α) α B} {g : A → CommM α B} (h : ∀ a, toComm (f a) = g a) (l : List A) :
    toComm (LM.forEach f l) = CommM.forEach g l := by
  induction l with
  | nil => rfl
  | cons a l ih =>
    unfold LM.forEach CommM.forEach
    rw [toComm_bind, h]
    congr 1
    funext b
    rw [toComm_bind, ih]
    rfl

/-- An array is packed, and used. -/
theorem toComm_pack {view : Mem α → Py A} {f : (Mem α → A) → LM (Mem α) α B} {g : CommM α B}
    (hok : ∀ s a, view s.mem = .ok a → ∀ rd : Mem α → A, rd s.mem = a → toComm (f rd) s = g s)
    (herr : ∀ s e, view s.mem = .error e → g s = .ret (.error e, s)) :
    toComm (LM.pack view >>= f) = g := by
  funext s
  rw [toComm_bind]
  show Proc.bind (eager lfin (LM.pack view ⟨s.lastTag, s.reqs⟩) s.mem) _ = _
  cases hv : view s.mem with
  | ok a =>
    simp only [LM.pack, eager, hv, Proc.bind, lfin]
    exact hok s a hv _ (by simp only [hv])
  | error e =>
    simp only [LM.pack, eager, hv, Proc.bind, lfin]
    rw [herr s e hv]

theorem toComm_isend (d : Int) (t : Nat) (rd : Mem α → NDArray α) (s : RankState α) (a : NDArray α) (h : rd s.mem = a) :
    toComm (isend d t rd) s = FV3.isend d t a s := by
  subst h; rfl

theorem isend_bind {d : Int} {t : Nat} {rd : Mem α → NDArray α} {s : RankState α} {a : NDArray α} (h : rd s.mem = a)
    {f g : SendReq → CommM α B} (hfg : ∀ i, f ⟨d, t, i⟩ s = g ⟨d, t, i⟩ s) :
    (toComm (isend d t rd) >>= f) s = (FV3.isend d t a >>= g) s := by
  subst h
  simp only [Bind.bind, CommM.bind, toComm, isend, eager, FV3.isend, Proc.bind, lfin]
  congr 1
  funext i
  exact hfg i

theorem lift_bind_error {e : PyErr} {x : Py A} (h : x = .error e) (f : A → CommM α B) (s : RankState α) :
    (CommM.lift x >>= f) s = .ret (.error e, s) := by subst h; rfl

theorem lift_bind_ok {a : A} {x : Py A} (h : x = .ok a) (f : A → CommM α B) (s : RankState α) :
    (CommM.lift x >>= f) s = f a s := by subst h; rfl

theorem quantity_bind (q : Nat) (f : Quantity α → CommM α B) (s : RankState α) :
    (CommM.quantity q >>= f) s = f (s.mem q) s := rfl

theorem py_bind_error {x : Py A} {f : A → Py B} {e : PyErr} (h : x >>= f = .error e) :
    x = .error e ∨ ∃ a, x = .ok a ∧ f a = .error e := by
  cases x with
  | error e' => left; simpa [Bind.bind, Except.bind] using h
  | ok a => exact Or.inr ⟨a, rfl, h⟩

theorem toComm_isendHalos (l : Layout) (r : Int) (q : Nat) (n : Int) (tag : Nat) :
    toComm (isendHalos l r q n tag : LM (Mem α) α _) = FV3.isendHalos l r q n tag := by
  unfold isendHalos FV3.isendHalos
  rw [toComm_bind, toComm_lift]
  congr 1
  funext bs
  refine toComm_forEach (fun b => toComm_pack ?_ ?_) bs
  · intro s a hv rd hrd
    obtain ⟨d, h1, h2⟩ := bind_ok hv
    rw [quantity_bind, lift_bind_ok h1, lift_bind_ok h2]
    exact toComm_isend _ _ _ _ _ hrd
  · intro s e hv
    rcases py_bind_error hv with h1 | ⟨d, h1, h2⟩
    · rw [quantity_bind, lift_bind_error h1]
    · rw [quantity_bind, lift_bind_ok h1, lift_bind_error h2]

theorem toComm_irecvHalos (l : Layout) (r : Int) (q : Nat) (n : Int) (tag : Nat) :
    toComm (irecvHalos l r q n tag : LM (Mem α) α _) = FV3.irecvHalos l r q n tag := by
  unfold irecvHalos FV3.irecvHalos
  rw [toComm_bind, toComm_lift]
  congr 1
  funext bs
  refine toComm_forEach (fun b => ?_) bs
  rw [toComm_bind, toComm_quantity]
  congr 1
  funext quantity
  rw [toComm_bind, toComm_lift]
  rfl

theorem toComm_startHaloUpdate (l : Layout) (r : Int) (q : Nat) (n : Int) :
    toComm (startHaloUpdate l r q n : LM (Mem α) α _) = FV3.startHaloUpdate l r q n := by
  unfold startHaloUpdate FV3.startHaloUpdate
  split
  · rfl
  · rw [toComm_bind, toComm_getHaloTag]
    congr 1
    funext tag
    rw [toComm_bind, toComm_isendHalos]
    congr 1
    funext sends
    rw [toComm_bind, toComm_irecvHalos]
    rfl

theorem toComm_waitRequest (req : Request) : toComm (waitRequest req : LM (Mem α) α Unit) = FV3.waitRequest req := by
  unfold waitRequest FV3.waitRequest
  rw [toComm_bind, toComm_forEach toComm_recvInto]
  congr 1
  funext _
  rw [toComm_bind, toComm_forEach toComm_awaitSend]
  rfl

theorem toComm_isendVectorHalos [Neg α] (l : Layout) (r : Int) (x y : Nat) (n : Int) (tag1 tag2 : Nat) :
    toComm (isendVectorHalos l r x y n tag1 tag2 : LM (Mem α) α _) = FV3.isendVectorHalos l r x y n tag1 tag2 := by
  unfold isendVectorHalos FV3.isendVectorHalos
  rw [toComm_bind, toComm_lift]
  congr 1
  funext bs
  rw [toComm_bind]
  rw [toComm_forEach (fun b => toComm_pack ?_ ?_) bs]
  · rfl
  · intro s a hv rd hrd
    obtain ⟨d1, h1, hv⟩ := bind_ok hv
    obtain ⟨d2, h2, h3⟩ := bind_ok hv
    rw [quantity_bind, quantity_bind, lift_bind_ok h1, lift_bind_ok h2, lift_bind_ok h3]
    subst hrd
    rw [toComm_bind]
    refine isend_bind rfl fun i => ?_
    rw [toComm_bind]
    exact isend_bind rfl fun _ => rfl
  · intro s e hv
    rcases py_bind_error hv with h1 | ⟨d, h1, hv⟩
    · rw [quantity_bind, quantity_bind, lift_bind_error h1]
    · rcases py_bind_error hv with h2 | ⟨d, h2, h3⟩
      · rw [quantity_bind, quantity_bind, lift_bind_ok h1, lift_bind_error h2]
      · rw [quantity_bind, quantity_bind, lift_bind_ok h1, lift_bind_ok h2, lift_bind_error h3]

theorem toComm_startVectorHaloUpdate [Neg α] (l : Layout) (r : Int) (x y : Nat) (n : Int) :
    toComm (startVectorHaloUpdate l r x y n : LM (Mem α) α _) = FV3.startVectorHaloUpdate l r x y n := by
  unfold startVectorHaloUpdate FV3.startVectorHaloUpdate
  split
  · rfl
  · rw [toComm_bind, toComm_getHaloTag]
    congr 1
    funext tag1
    rw [toComm_bind, toComm_getHaloTag]
    congr 1
    funext tag2
    rw [toComm_bind, toComm_isendVectorHalos]
    congr 1
    funext sends
    rw [toComm_bind, toComm_irecvHalos]
    congr 1
    funext r1
    rw [toComm_bind, toComm_irecvHalos]
    rfl

theorem toComm_isendSharedBoundary [Neg α] (l : Layout) (r : Int) (x y : Nat) (tag : Nat) :
    toComm (isendSharedBoundary l r x y tag : LM (Mem α) α _) = FV3.isendSharedBoundary l r x y tag := by
  unfold isendSharedBoundary FV3.isendSharedBoundary
  rw [toComm_bind, toComm_lift]
  congr 1
  funext south
  rw [toComm_bind, toComm_lift]
  congr 1
  funext west
  refine toComm_pack ?_ ?_
  · intro s a hv rd hrd
    rw [quantity_bind, quantity_bind, lift_bind_ok hv]
    subst hrd
    cases hw : westEdgeData (s.mem y) west with
    | ok b =>
      rw [lift_bind_ok rfl]
      have : toComm (LM.pack (fun m => westEdgeData (m y) west) >>= fun westData => do
          let s1 ← isend south.toRank tag rd
          let s2 ← isend west.toRank tag westData
          return [s1, s2]) s = (do
          let s1 ← FV3.isend south.toRank tag (rd s.mem)
          let s2 ← FV3.isend west.toRank tag b
          return [s1, s2]) s := by
        rw [toComm_bind]
        show Proc.bind (eager lfin (LM.pack _ ⟨s.lastTag, s.reqs⟩) s.mem) _ = _
        simp only [LM.pack, eager, hw, Proc.bind, lfin]
        rw [toComm_bind]
        refine isend_bind rfl fun i => ?_
        rw [toComm_bind]
        refine isend_bind ?_ fun _ => rfl
        simp only [hw]
      exact this
    | error e =>
      rw [lift_bind_error rfl, toComm_bind]
      show Proc.bind (eager lfin (LM.pack _ ⟨s.lastTag, s.reqs⟩) s.mem) _ = _
      simp only [LM.pack, eager, hw, Proc.bind, lfin]
  · intro s e hv
    rw [quantity_bind, quantity_bind, lift_bind_error hv]

theorem toComm_irecvSharedBoundary (l : Layout) (r : Int) (x y : Nat) (tag : Nat) :
    toComm (irecvSharedBoundary l r x y tag : LM (Mem α) α _) = FV3.irecvSharedBoundary l r x y tag := by
  unfold irecvSharedBoundary FV3.irecvSharedBoundary
  rw [toComm_bind, toComm_lift]
  congr 1
  funext north
  rw [toComm_bind, toComm_lift]
  congr 1
  funext east
  rw [toComm_bind, toComm_quantity]
  congr 1
  funext xq
  rw [toComm_bind, toComm_quantity]
  congr 1
  funext yq
  rw [toComm_bind, toComm_lift]
  congr 1
  funext ixN
  rw [toComm_bind, toComm_lift]
  rfl

theorem toComm_startSynchronize [Neg α] (l : Layout) (r : Int) (x y : Nat) :
    toComm (startSynchronize l r x y : LM (Mem α) α _) = FV3.startSynchronize l r x y := by
  unfold startSynchronize FV3.startSynchronize
  rw [toComm_bind, toComm_quantity]
  congr 1
  funext xq
  rw [toComm_bind, toComm_quantity]
  congr 1
  funext yq
  split
  · rfl
  · rw [toComm_bind, toComm_getHaloTag]
    congr 1
    funext tag
    rw [toComm_bind, toComm_isendSharedBoundary]
    congr 1
    funext sends
    rw [toComm_bind, toComm_irecvSharedBoundary]
    rfl

theorem toComm_execOp [Neg α] (l : Layout) (r : Int) (op : Op α) : toComm (execOp l r op) = op.exec l r := by
  cases op with
  | halo q n =>
    unfold execOp Op.exec
    rw [toComm_bind, toComm_startHaloUpdate]; rfl
  | vector x y n =>
    unfold execOp Op.exec
    rw [toComm_bind, toComm_startVectorHaloUpdate]; rfl
  | sync x y =>
    unfold execOp Op.exec
    rw [toComm_bind, toComm_startSynchronize]; rfl
  | wait i =>
    unfold execOp Op.exec
    rw [toComm_bind]
    funext s
    show Proc.bind (eager lfin (getReq i ⟨s.lastTag, s.reqs⟩) s.mem) _ = _
    show _ = (match s.reqs[i]? with | none => CommM.raise .indexError | some req => FV3.waitRequest req) s
    unfold getReq
    cases s.reqs[i]? with
    | none => rfl
    | some req => exact congrFun (toComm_waitRequest req) s
  | compute f => rfl

theorem toComm_execOps [Neg α] (l : Layout) (r : Int) (ops : List (Op α)) :
    toComm (execOps l r ops) = FV3.execOps l r ops := by
  induction ops with
  | nil => rfl
  | cons op ops ih =>
    unfold execOps FV3.execOps
    rw [toComm_bind, toComm_execOp, ih]

theorem toComm_execCall [Neg α] (l : Layout) (r : Int) (c : Call α) : toComm (execCall l r c) = c.exec l r := by
  cases c with
  | haloUpdate q n =>
    unfold execCall Call.exec haloUpdate FV3.haloUpdate
    rw [toComm_bind, toComm_startHaloUpdate]
    congr 1; funext req; exact toComm_waitRequest req
  | vectorHaloUpdate x y n =>
    unfold execCall Call.exec vectorHaloUpdate FV3.vectorHaloUpdate
    rw [toComm_bind, toComm_startVectorHaloUpdate]
    congr 1; funext req; exact toComm_waitRequest req
  | synchronize x y =>
    unfold execCall Call.exec synchronize FV3.synchronize
    rw [toComm_bind, toComm_startSynchronize]
    congr 1; funext req; exact toComm_waitRequest req
  | compute f => rfl

theorem toComm_execCalls [Neg α] (l : Layout) (r : Int) (cs : List (Call α)) :
    toComm (execCalls l r cs) = FV3.execCalls l r cs := by
  induction cs with
  | nil => rfl
  | cons c cs ih =>
    unfold execCalls FV3.execCalls
    rw [toComm_bind, toComm_execCall, ih]

end FV3.Late
