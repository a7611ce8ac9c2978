import Verif.Proofs.Agree
import Verif.Proofs.RankTransform
import Verif.Proofs.LateRun
import Verif.Model.LooseMpi

/-!
# With an MPI that checks only sizes: what succeeds does the same
-/

namespace FV3.Loose
open FV3
variable {α : Type}

/-- An exception, with a state. -/
def Err {A S : Type} (x : Py A × S) : Prop := ∃ e, x.1 = .error e

/-- An exception. -/
def ErrP {A : Type} (x : Py A) : Prop := ∃ e, x = .error e

/-- If `x` is no exception, `y` is the same. -/
def Le {A : Type} (x y : Py A) : Prop := ∀ a, x = .ok a → y = .ok a

theorem Le.refl {A : Type} (x : Py A) : Le x x := fun _ h => h

theorem Le.bind {A B : Type} {x y : Py A} {f g : A → Py B} (h : Le x y) (hf : ∀ a, Le (f a) (g a)) :
    Le (x >>= f) (y >>= g) := by
  intro b hb
  cases x with
  | error e => cases hb
  | ok a => rw [h a rfl]; exact hf a b hb

theorem received_same (left : List Nat → α) (v : NDArray α) : received left v.shape v = .ok v := by
  unfold received
  rw [if_pos (Nat.le_refl _)]
  congr 1
  cases v with
  | mk shape get =>
    congr 1
    funext idx
    dsimp only
    split
    · rename_i h
      rw [List.getElem?_eq_getElem (List.idxOf_lt_length_iff.2 h), List.getElem_idxOf]
    · rfl

theorem fillItem_le (left : List Nat → α) (a : NDArray α) (ix : List Ix) (v : NDArray α) :
    Le (a.fillItem ix v) (fillItem left a ix v) := by
  refine Le.bind (Le.refl _) fun rs b hb => ?_
  split at hb
  · rename_i e
    rw [e, received_same]
    exact hb
  · cases hb

theorem storeInto_le (left : List Nat → α) (mem : Mem α) (q : Nat) (ix : List Ix) (a : NDArray α) :
    Le (FV3.storeInto mem q ix a) (storeInto left mem q ix a) :=
  Le.bind (fillItem_le left _ ix a) fun _ => Le.refl _

theorem fillView_le (left : List Nat → α) (q : Quantity α) (a : NDArray α) : Le (q.fillView a) (fillView left q a) :=
  by
  unfold Quantity.fillView fillView
  dsimp only
  split
  all_goals exact Le.bind (Le.refl _) fun ix => Le.bind (fillItem_le left q.data ix a) fun _ => Le.refl _

theorem dataOfShape_le (left : List Nat → α) (shape : List Nat) (ms : List (Msg α)) :
    Le (FV3.dataOfShape shape ms) (dataOfShape left shape ms) := by
  induction ms with
  | nil => exact Le.refl _
  | cons m ms ih =>
    refine Le.bind (Le.refl _) fun a b hb => ?_
    split at hb
    · rename_i e
      subst e
      rw [received_same]
      exact Le.bind ih (fun _ => Le.refl _) b hb
    · cases hb

/-! ### Programs -/

/-- Programs with a state that agree unless there is an exception. -/
def CAgree {A : Type} (c c' : CommM α A) : Prop := ∀ s, (c s).Agree Err (c' s)

theorem CAgree.refl {A : Type} (c : CommM α A) : CAgree c c := fun _ => Proc.Agree.refl _ _

theorem CAgree.bind {A B : Type} {c c' : CommM α A} {f f' : A → CommM α B} (h : CAgree c c')
    (hf : ∀ a, CAgree (f a) (f' a)) : CAgree (c >>= f) (c' >>= f') := by
  intro s
  refine (h s).bind ?_ ?_
  · rintro ⟨x, s'⟩ ⟨e, he⟩
    cases he
    exact ⟨_, rfl, _, rfl⟩
  · rintro ⟨x, s'⟩ hx
    cases x with
    | error e => exact absurd ⟨e, rfl⟩ hx
    | ok a => exact hf a s'

theorem CAgree.forEach {A B : Type} {f f' : A → CommM α B} (hf : ∀ a, CAgree (f a) (f' a)) (as : List A) :
    CAgree (CommM.forEach f as) (CommM.forEach f' as) := by
  induction as with
  | nil => exact CAgree.refl _
  | cons a as ih => exact (hf a).bind fun b => ih.bind fun bs => CAgree.refl _

theorem recvInto_agree (left : List Nat → α) (rq : RecvReq) : CAgree (FV3.recvInto rq) (recvInto left rq) := by
  intro s
  refine ⟨_, rfl, fun m => ?_⟩
  cases m with
  | data a =>
    dsimp only
    have h := storeInto_le left s.mem rq.q rq.ix a
    cases he : FV3.storeInto s.mem rq.q rq.ix a with
    | error e => exact .inl ⟨e, rfl⟩
    | ok mem => rw [h mem he]; exact Proc.Agree.refl _ _
  | metadata m => exact Proc.Agree.refl _ _
  | names m => exact Proc.Agree.refl _ _
  | time m => exact Proc.Agree.refl _ _
  | keys m => exact Proc.Agree.refl _ _

theorem waitRequest_agree (left : List Nat → α) (req : Request) :
    CAgree (FV3.waitRequest req) (waitRequest left req) :=
  (CAgree.forEach (recvInto_agree left) _).bind fun _ => CAgree.refl _

variable [Neg α]

theorem execCall_agree (left : List Nat → α) (l : Layout) (r : Int) (c : Call α) :
    CAgree (c.exec l r) (execCall left l r c) := by
  cases c with
  | haloUpdate q n => exact (CAgree.refl _).bind fun req => waitRequest_agree left req
  | vectorHaloUpdate x y n => exact (CAgree.refl _).bind fun req => waitRequest_agree left req
  | synchronize x y => exact (CAgree.refl _).bind fun req => waitRequest_agree left req
  | compute f => exact CAgree.refl _

theorem execOp_agree (left : List Nat → α) (l : Layout) (r : Int) (o : Op α) :
    CAgree (o.exec l r) (execOp left l r o) := by
  cases o with
  | wait i =>
    refine (CAgree.refl _).bind fun s => ?_
    cases s.reqs[i]? with
    | none => exact CAgree.refl _
    | some req => exact waitRequest_agree left req
  | halo q n => exact CAgree.refl _
  | vector x y n => exact CAgree.refl _
  | sync x y => exact CAgree.refl _
  | compute f => exact CAgree.refl _

omit [Neg α]

/-- Programs with collectives that agree unless there is an exception. -/
def LAgree {A : Type} (c c' : CollM α A) : Prop := ∀ n, (c n).Agree Err (c' n)

theorem LAgree.refl {A : Type} (c : CollM α A) : LAgree c c := fun _ => Proc.Agree.refl _ _

theorem LAgree.bind {A B : Type} {c c' : CollM α A} {f f' : A → CollM α B} (h : LAgree c c')
    (hf : ∀ a, LAgree (f a) (f' a)) : LAgree (c >>= f) (c' >>= f') := by
  intro n
  refine (h n).bind ?_ ?_
  · rintro ⟨x, s'⟩ ⟨e, he⟩
    cases he
    exact ⟨_, rfl, _, rfl⟩
  · rintro ⟨x, s'⟩ hx
    cases x with
    | error e => exact absurd ⟨e, rfl⟩ hx
    | ok a => exact hf a s'

theorem LAgree.lift {A : Type} {x y : Py A} (h : Le x y) : LAgree (α := α) (CollM.lift x) (CollM.lift y) := by
  intro n
  cases x with
  | error e => exact .inl ⟨e, rfl⟩
  | ok a => rw [h a rfl]; exact Proc.Agree.refl _ _

theorem LAgree.then {A B : Type} {c : CollM α A} {f f' : A → CollM α B} (hf : ∀ a, LAgree (f a) (f' a)) :
    LAgree (c >>= f) (c >>= f') := (LAgree.refl c).bind hf

theorem scatter_agree (left : List Nat → α) (c : Comm) (junk : List Nat → α) (rank : Int)
    (send recv : Option (Quantity α)) : LAgree (FV3.scatter c junk rank send recv) (scatter left c junk rank send recv) := by
  unfold FV3.scatter scatter
  split
  · cases send with
    | none => exact LAgree.refl _
    | some sq =>
      refine .then fun m => .then fun md => .then fun shape => .then fun rq => .then fun blocks => ?_
      cases blocks with
      | nil => exact LAgree.refl _
      | cons own others => exact .then fun _ => .lift (fillView_le left rq own)
  · exact .then fun m => .then fun md => .then fun shape => .then fun rq => .then fun d => .then fun a =>
      .lift (fillView_le left rq a)

theorem gather_agree (left : List Nat → α) (c : Comm) (junk : List Nat → α) (rank : Int) (send : Quantity α)
    (recv : Option (Quantity α)) : LAgree (FV3.gather c junk rank send recv) (gather left c junk rank send recv) := by
  unfold FV3.gather gather
  split
  · exact .then fun own => .then fun ms => (LAgree.lift (dataOfShape_le left _ _)).bind fun blocks => LAgree.refl _
  · exact LAgree.refl _

theorem scatterRootLoop_agree (left : List Nat → α) (c : Comm) (junk : List Nat → α) (send : CState α)
    (names : List String) (st : CState α) :
    LAgree (FV3.scatterRootLoop c junk send names st) (scatterRootLoop left c junk send names st) := by
  induction names generalizing st with
  | nil => exact LAgree.refl _
  | cons name names ih =>
    exact .then fun sq => .then fun rq => (scatter_agree left c junk _ _ rq).bind fun q => ih _

theorem scatterClientLoop_agree (left : List Nat → α) (c : Comm) (junk : List Nat → α) (rank : Int)
    (names : List String) (st : CState α) :
    LAgree (FV3.scatterClientLoop c junk rank names st) (scatterClientLoop left c junk rank names st) := by
  induction names generalizing st with
  | nil => exact LAgree.refl _
  | cons name names ih =>
    exact .then fun rq => (scatter_agree left c junk _ _ rq).bind fun q => ih _

theorem scatterState_agree (left : List Nat → α) (c : Comm) (junk : List Nat → α) (rank : Int)
    (send recv : Option (CState α)) :
    LAgree (FV3.scatterState c junk rank send recv) (scatterState left c junk rank send recv) := by
  unfold FV3.scatterState scatterState
  split
  · cases send with
    | none => exact LAgree.refl _
    | some s =>
      exact .then fun m => .then fun names => (scatterRootLoop_agree left c junk s names _).bind fun st => LAgree.refl _
  · exact .then fun m => .then fun names => (scatterClientLoop_agree left c junk rank names _).bind fun st => LAgree.refl _

theorem gatherLoop_agree (left : List Nat → α) (c : Comm) (junk : List Nat → α) (rank : Int)
    (items : List (String × SVal α)) (st : Option (CState α)) :
    LAgree (FV3.gatherLoop c junk rank items st) (gatherLoop left c junk rank items st) := by
  induction items generalizing st with
  | nil => exact LAgree.refl _
  | cons it rest ih =>
    obtain ⟨name, v⟩ := it
    unfold FV3.gatherLoop gatherLoop
    split
    · exact ih _
    · refine .then fun q => .then fun rq => (gather_agree left c junk rank q rq).bind fun g => ?_
      cases g with
      | none => exact ih _
      | some q' => exact ih _

/-! ### Sessions -/

/-- Continuing after a call which may raise: an exception ends the session. -/
theorem agree_then {A S B : Type} {p p' : Proc (Msg α) (Py A × S)} {f : Py A × S → Proc (Msg α) (Py B)}
    (h : p.Agree Err p') (hf : ∀ e s, ∃ y, f (.error e, s) = .ret y ∧ ErrP y) :
    (p.bind f).Agree ErrP (p'.bind f) := by
  refine h.bind ?_ fun x _ => Proc.Agree.refl _ _
  rintro ⟨x, s'⟩ ⟨e, he⟩
  cases he
  exact hf e s'

/-- The same after a call which returns a state or raises. -/
theorem agree_bind {A B : Type} {p p' : Proc (Msg α) (Py A)} {f f' : A → Proc (Msg α) (Py B)} (h : p.Agree ErrP p')
    (hf : ∀ a, (f a).Agree ErrP (f' a)) :
    (p.bind fun x => match x with
      | .error e => .ret (.error e)
      | .ok a => f a).Agree ErrP (p'.bind fun x => match x with
      | .error e => .ret (.error e)
      | .ok a => f' a) := by
  refine h.bind ?_ fun x hx => ?_
  · rintro x ⟨e, rfl⟩
    exact ⟨_, rfl, _, rfl⟩
  · cases x with
    | error e => exact absurd ⟨e, rfl⟩ hx
    | ok a => exact hf a

theorem execColl_agree (left : List Nat → α) (c : Comm) (junk : Nat → List Nat → α) (r : Int) (o : COp)
    (s : SessState α) : (o.exec c junk r s).Agree ErrP (execColl left c junk r o s) := by
  cases o with
  | scatter q g => exact agree_then (scatter_agree left c _ r _ _ _) fun e _ => ⟨_, rfl, e, rfl⟩
  | gather q g => exact agree_then (gather_agree left c _ r _ _ _) fun e _ => ⟨_, rfl, e, rfl⟩
  | scatterState i j vars => exact agree_then (scatterState_agree left c _ r _ _ _) fun e _ => ⟨_, rfl, e, rfl⟩
  | gatherState i j vars => exact agree_then (gatherLoop_agree left c _ r _ _ _) fun e _ => ⟨_, rfl, e, rfl⟩

theorem bind_bind {M R S T : Type} (p : Proc M R) (f : R → Proc M S) (g : S → Proc M T) :
    (p.bind f).bind g = p.bind fun x => (f x).bind g := by
  induction p with
  | ret x => rfl
  | isend d t m k ih => simp only [Proc.bind, ih]
  | recv s t k ih => simp only [Proc.bind, ih]
  | await d t i k ih => simp only [Proc.bind, ih]

variable [Neg α]

theorem execTOp_agree (left : List Nat → α) (l : Layout) (junk : Nat → List Nat → α) (r : Int) (o : TOp α)
    (s : SessState α) : (o.exec l junk r s).Agree ErrP (execTOp left l junk r o s) := by
  cases o with
  | scatterState i j vars => exact execColl_agree left (.cube l) junk r (.scatterState i j vars) s
  | gatherState i j vars => exact execColl_agree left (.cube l) junk r (.gatherState i j vars) s
  | op o =>
    cases o with
    | call c =>
      show ((_ : Proc _ _).bind _).Agree _ _
      unfold SOp.exec
      rw [bind_bind]
      refine (execCall_agree left l r c _).bind ?_ ?_
      · rintro ⟨x, s'⟩ ⟨e, he⟩
        cases he
        exact ⟨_, rfl, e, rfl⟩
      · rintro ⟨x, s'⟩ hx
        cases x with
        | error e => exact absurd ⟨e, rfl⟩ hx
        | ok a => exact Proc.Agree.refl _ _
    | scatter q g =>
      show ((_ : Proc _ _).bind _).Agree _ _
      unfold SOp.exec
      rw [bind_bind]
      refine (scatter_agree left _ _ r _ _ _).bind ?_ ?_
      · rintro ⟨x, s'⟩ ⟨e, he⟩
        cases he
        exact ⟨_, rfl, e, rfl⟩
      · rintro ⟨x, s'⟩ hx
        cases x with
        | error e => exact absurd ⟨e, rfl⟩ hx
        | ok a => exact Proc.Agree.refl _ _
    | gather q g =>
      show ((_ : Proc _ _).bind _).Agree _ _
      unfold SOp.exec
      rw [bind_bind]
      refine (gather_agree left _ _ r _ _ _).bind ?_ ?_
      · rintro ⟨x, s'⟩ ⟨e, he⟩
        cases he
        exact ⟨_, rfl, e, rfl⟩
      · rintro ⟨x, s'⟩ hx
        cases x with
        | error e => exact absurd ⟨e, rfl⟩ hx
        | ok a => exact Proc.Agree.refl _ _

theorem execUOp_agree (left : List Nat → α) (l : Layout) (junk tjunk : Nat → List Nat → α) (r : Int) (o : UOp α)
    (s : LazyState α) : (o.execLazy l junk tjunk r s).Agree ErrP (execUOp left l junk tjunk r o s) := by
  cases o with
  | op o =>
    refine (execTOp_agree left l junk r o s.s.base).bind ?_ fun x _ => Proc.Agree.refl _ _
    rintro x ⟨e, rfl⟩
    exact ⟨_, rfl, e, rfl⟩
  | tiles o =>
    simp only [UOp.execLazy, execUOp]
    cases o (tileColor l r) with
    | none => dsimp only; exact .inr rfl
    | some a =>
      dsimp only
      generalize s.getTile l r = p
      refine (Proc.Agree.refl ErrP p).bind ?_ ?_
      · rintro x ⟨e, rfl⟩
        exact ⟨_, rfl, e, rfl⟩
      · intro x hx
        cases x with
        | error e => exact absurd ⟨e, rfl⟩ hx
        | ok y =>
          obtain ⟨ks, s⟩ := y
          dsimp only
          have h := ((execColl_agree left (.tile l) tjunk (groupRank ks r) a s.s.view).retag
            (.inTile (groupColor ks r))).renumber (groupMember ks r)
          revert h
          generalize ((COp.exec _ _ _ _ _).retag _).renumber _ = P
          generalize ((execColl _ _ _ _ _ _).retag _).renumber _ = P'
          intro h
          refine h.bind ?_ fun x _ => Proc.Agree.refl _ _
          rintro x ⟨e, rfl⟩
          exact ⟨_, rfl, e, rfl⟩

theorem execLazy_agree (left : List Nat → α) (l : Layout) (junk tjunk : Nat → List Nat → α) (r : Int) (ops : List (UOp α))
    (s : LazyState α) : (FV3.execLazy l junk tjunk r ops s).Agree ErrP (execLazy left l junk tjunk r ops s) := by
  induction ops generalizing s with
  | nil => exact Proc.Agree.refl _ _
  | cons o ops ih =>
    refine (execUOp_agree left l junk tjunk r o s).bind ?_ ?_
    · rintro x ⟨e, rfl⟩
      exact ⟨_, rfl, e, rfl⟩
    · intro x hx
      cases x with
      | error e => exact absurd ⟨e, rfl⟩ hx
      | ok s' => exact ih s'

theorem execAOp_agree (left : List Nat → α) (l : Layout) (junk : Nat → List Nat → α) (r : Int) (o : AOp α)
    (s : AState α) : (o.exec l junk r s).Agree ErrP (execAOp left l junk r o s) := by
  cases o with
  | op o => exact agree_then (execOp_agree left l r o _) fun e _ => ⟨_, rfl, e, rfl⟩
  | scatter q g => exact agree_then (scatter_agree left _ _ r _ _ _) fun e _ => ⟨_, rfl, e, rfl⟩
  | gather q g => exact agree_then (gather_agree left _ _ r _ _ _) fun e _ => ⟨_, rfl, e, rfl⟩

theorem execAsync_agree (left : List Nat → α) (l : Layout) (junk : Nat → List Nat → α) (r : Int) (ops : List (AOp α))
    (s : AState α) : (FV3.execAsync l junk r ops s).Agree ErrP (execAsync left l junk r ops s) := by
  induction ops generalizing s with
  | nil => exact Proc.Agree.refl _ _
  | cons o ops ih =>
    refine (execAOp_agree left l junk r o s).bind ?_ ?_
    · rintro x ⟨e, rfl⟩
      exact ⟨_, rfl, e, rfl⟩
    · intro x hx
      cases x with
      | error e => exact absurd ⟨e, rfl⟩ hx
      | ok s' => exact ih s'

/-- An exception of a rank. -/
def ErrO {A : Type} (x : Option (Py A)) : Prop := ∃ e, x = some (.error e)

omit [Neg α] in
theorem start_agree {S : Type} (ranks : List Int) {p p' : Int → Proc (Msg α) (Py S)}
    (h : ∀ r, (p r).Agree ErrP (p' r)) :
    Net.Agree ErrO (Net.start fun r => if r ∈ ranks then (p r).bind fun x => .ret (some x) else .ret none)
      (Net.start fun r => if r ∈ ranks then (p' r).bind fun x => .ret (some x) else .ret none) := by
  refine ⟨fun r => ?_, rfl, rfl⟩
  dsimp only [Net.start]
  split
  · refine (h r).bind ?_ fun x _ => Proc.Agree.refl _ _
    rintro x ⟨e, rfl⟩
    exact ⟨_, rfl, e, rfl⟩
  · exact Proc.Agree.refl _ _

end FV3.Loose
