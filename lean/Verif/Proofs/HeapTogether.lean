import Verif.Spec.HeapTogether
import Verif.Props.HeapMixedOne
import Verif.Proofs.AsyncRun
import Verif.Proofs.DriverRun
import Verif.Proofs.PlanPhase

/-!
# Scatters and gathers while updates are outstanding
-/

namespace FV3
namespace Heap
open Mem (World Gt4py Reachable)
open Strided
variable {α : Type} [Inhabited α] {g : Gt4py} {l : Layout}

/-! ### What a scatter or gather does to memory, as a program -/

/-- A change of memory in the data of one quantity is an assignment to it. -/
theorem assign_program {h : Nat} {W W1 : World α} (H : Held W [h]) (hc : OnlyCells (fun k _ => k = h) W W1) :
    ∃ op : Mem.Op α, W.after g [op] = W1 := by
  obtain ⟨x, hx, hwr, hinj, hlen⟩ := H.data h List.mem_cons_self
  obtain ⟨rs, r1, r2, r3⟩ := Mem.full_rs x.2.1.view.shape
  have hok := resolveAll_ok r1
  refine ⟨.setItem h .data [] ⟨x.2.1.view.shape, fun idx => W1.mem (x.2.1.view.addr idx)⟩, ?_⟩
  have hm : (x.2.1.view.slice rs).assign W.mem ⟨x.2.1.view.shape, fun idx => W1.mem (x.2.1.view.addr idx)⟩ = W1.mem := by
    funext a
    by_cases ha : ∃ idx, InB x.2.1.view.shape idx ∧ x.2.1.view.addr idx = a
    · obtain ⟨idx, hi, rfl⟩ := ha
      have hi' : InB (viewShape rs) idx := by rw [r2]; exact hi
      have e : (x.2.1.view.slice rs).addr idx = x.2.1.view.addr idx := by rw [slice_addr hok hlen hi', r3 idx hi]
      have := assign_get (slice_injective hok hlen hinj) W.mem
        (⟨x.2.1.view.shape, fun idx => W1.mem (x.2.1.view.addr idx)⟩ : NDArray α) (idx := idx) hi'
      rw [e] at this
      exact this
    · rw [assign_other]
      · rcases hc.mem a with k | ⟨k, idx, rfl, y, hy, hi, ha'⟩
        · exact k.symm
        · rw [hx] at hy
          cases hy
          exact absurd ⟨idx, hi, ha'⟩ ha
      · rintro ⟨idx, hi, e⟩
        have hi' : InB (viewShape rs) idx := hi
        rw [slice_addr hok hlen hi', r3 idx (by rw [← r2]; exact hi')] at e
        exact ha ⟨idx, by rw [← r2]; exact hi', e⟩
  obtain ⟨i, a, info⟩ := x
  dsimp only at hwr hm r1 r2
  unfold dataOf at hx
  cases ho : W.objs[h]? with
  | none => rw [ho] at hx; cases hx
  | some o =>
    rw [ho] at hx
    cases o with
    | array j => cases hx
    | storage j b k => cases hx
    | quantity q =>
      dsimp only at hx
      cases ha : W.arrs[q.data]? with
      | none => rw [ha] at hx; cases hx
      | some a' =>
        rw [ha] at hx
        cases hx
        have es : W.step g (.setItem h .data [] ⟨a.view.shape, fun idx => W1.mem (a.view.addr idx)⟩) =
            (.ok (), { W with mem := W1.mem }) := by
          unfold Mem.World.step
          simp only [ho, Mem.World.access, Mem.Obj.target, ha, Mem.viaIndex, Mem.Obj.info]
          unfold Mem.World.assign
          rw [ha]
          simp only [hwr, r1, r2, fits_self, if_true]
          rw [if_neg (by decide)]
          rw [show (⟨a.view.shape, fun idx => W1.mem (a.view.addr idx)⟩ : NDArray α).stretch a.view.shape = _ from NDArray.stretch_self _, hm]
        show (W.step g _).2 = W1
        rw [es]
        cases W1
        simp only [← hc.next, ← hc.arrs, ← hc.objs]

/-- What a scatter or gather does to memory, the ranks could do by themselves. -/
theorem coll_program (hl : FloatSafe l) {x : CCall α} {W W1 : Int → World α} (hw : ∀ r ∈ allRanks l, WF g (W r))
    (h : CStep g (.cube l) x W W1) : ∃ ops : Int → List (Mem.Op α), ∀ r ∈ allRanks l, W1 r = (W r).after g (ops r) := by
  have h0 := zero_rank hl
  have key : ∀ r, ∃ ops : List (Mem.Op α), r ∈ allRanks l → W1 r = (W r).after g ops := by
    intro r
    by_cases hr : r ∈ allRanks l
    swap
    · exact ⟨[], fun h => absurd h hr⟩
    have hr' := (cube_ranks l r).2 hr
    cases x with
    | scatter send recv =>
      obtain ⟨dims, cells, ⟨hpos, -, a2⟩, a3⟩ := h
      have hc := (a3 r hr').2.2
      obtain ⟨op, e⟩ := assign_program (g := g) (axes_held (hw r hr) (by rw [rankShaped_ndim (a2 r hr').1]; exact hpos) (a2 r hr').2)
        ⟨hc.next, hc.arrs, hc.objs, fun a => (hc.mem a).imp id fun ⟨k, idx, h1, h2⟩ => ⟨k, idx, h1.1, h2⟩⟩
      exact ⟨[op], fun _ => e.symm⟩
    | gather send recv =>
      obtain ⟨⟨dims, cells, ⟨⟨ky, kx, ha⟩, a1, a2, -⟩, -⟩, -, hc, a6⟩ := h
      by_cases hz : r = 0
      · subst hz
        have hpos : 0 < dims.length := by have := ha.ylt; omega
        obtain ⟨op, e⟩ := assign_program (g := g) (axes_held (hw 0 hr) (global_pos a1 hpos) a2)
          ⟨hc.next, hc.arrs, hc.objs, fun a => (hc.mem a).imp id fun ⟨k, idx, h1, h2⟩ => ⟨k, idx, h1.1, h2⟩⟩
        exact ⟨[op], fun _ => e.symm⟩
      · exact ⟨[], fun _ => a6 r hr' hz⟩
    | compute ops => exact ⟨ops r, fun _ => h r hr'⟩
  choose ops hops using key
  exact ⟨ops, fun r hr => hops r hr⟩

/-! ### Updates use the tags of updates -/

/-- Whatever the state, the program uses tags of updates only. -/
def HaloOnly {A : Type} (p : HM α A) : Prop := ∀ s, (p s).Spec IsHaloTag fun _ => True

namespace HaloOnly
omit [Inhabited α]
variable {A B : Type}

theorem bind {p : HM α A} {f : A → HM α B} (hp : HaloOnly p) (hf : ∀ a, HaloOnly (f a)) : HaloOnly (p >>= f) := by
  intro s
  refine Proc.Spec.bind (hp s) fun x _ => ?_
  obtain ⟨x, s⟩ := x
  cases x with
  | ok a => exact hf a s
  | error e => exact trivial

theorem pure (a : A) : HaloOnly (Pure.pure a : HM α A) := fun _ => trivial
theorem lift (x : Py A) : HaloOnly (HM.lift x : HM α A) := fun _ => trivial
theorem raise (e : PyErr) : HaloOnly (HM.raise e : HM α A) := fun _ => trivial

theorem forEach {f : A → HM α B} (hf : ∀ a, HaloOnly (f a)) (as : List A) : HaloOnly (HM.forEach f as) := by
  induction as with
  | nil => exact pure _
  | cons a as ih => exact bind (hf a) fun _ => bind ih fun _ => pure _

theorem isend (d : Int) (t : Nat) (a : NDArray α) : HaloOnly (Heap.isend d t a) := fun _ => ⟨⟨t, rfl⟩, fun _ => trivial⟩

theorem recvInto (rq : RecvReq) : HaloOnly (Heap.recvInto rq : HM α Unit) := fun s => ⟨⟨_, rfl⟩, fun m => by
  cases m <;> exact trivial⟩

theorem awaitSend (sr : SendReq) : HaloOnly (Heap.awaitSend sr : HM α Unit) := fun s => ⟨⟨_, rfl⟩, fun _ => trivial⟩

theorem getHaloTag : HaloOnly (Heap.getHaloTag : HM α Nat) := fun _ => trivial

theorem waitRequest (req : Request) : HaloOnly (Heap.waitRequest req : HM α Unit) :=
  bind (forEach recvInto _) fun _ => bind (forEach awaitSend _) fun _ => pure _

variable [Inhabited α]

theorem quantity (h : Nat) : HaloOnly (HM.quantity h : HM α (Quantity α)) := fun _ => trivial

theorem irecvHalos (r : Int) (q : Nat) (n : Int) (tag : Nat) : HaloOnly (Heap.irecvHalos l r q n tag : HM α _) :=
  bind (lift _) fun _ => forEach (fun _ => bind (quantity _) fun _ => bind (lift _) fun _ => pure _) _

theorem startHaloUpdate (r : Int) (q : Nat) (n : Int) : HaloOnly (Heap.startHaloUpdate l r q n : HM α _) := by
  unfold Heap.startHaloUpdate
  split
  · exact raise _
  · exact bind getHaloTag fun _ => bind (bind (lift _) fun _ => forEach (fun _ => bind (quantity _) fun _ => bind (lift _) fun _ =>
      bind (lift _) fun _ => isend _ _ _) _) fun _ => bind (irecvHalos _ _ _ _) fun _ => pure _

variable [Neg α]

theorem startVectorHaloUpdate (r : Int) (x y : Nat) (n : Int) : HaloOnly (Heap.startVectorHaloUpdate l r x y n : HM α _) := by
  unfold Heap.startVectorHaloUpdate
  split
  · exact raise _
  · exact bind getHaloTag fun _ => bind getHaloTag fun _ => bind (bind (lift _) fun _ => bind (forEach (fun _ =>
      bind (quantity _) fun _ => bind (quantity _) fun _ => bind (lift _) fun _ => bind (lift _) fun _ => bind (lift _) fun _ =>
      bind (isend _ _ _) fun _ => bind (isend _ _ _) fun _ => pure _) _) fun _ => pure _) fun _ =>
      bind (irecvHalos _ _ _ _) fun _ => bind (irecvHalos _ _ _ _) fun _ => pure _

theorem startSynchronize (r : Int) (x y : Nat) : HaloOnly (Heap.startSynchronize l r x y : HM α _) := by
  refine bind (quantity _) fun _ => bind (quantity _) fun _ => ?_
  split
  · exact raise _
  · exact bind getHaloTag fun _ => bind (bind (lift _) fun _ => bind (lift _) fun _ => bind (quantity _) fun _ =>
      bind (quantity _) fun _ => bind (lift _) fun _ => bind (lift _) fun _ => bind (isend _ _ _) fun _ => bind (isend _ _ _) fun _ =>
      pure _) fun _ => bind (bind (lift _) fun _ => bind (lift _) fun _ => bind (quantity _) fun _ => bind (quantity _) fun _ =>
      bind (lift _) fun _ => bind (lift _) fun _ => pure _) fun _ => pure _

theorem exec (r : Int) (o : HOp α) : HaloOnly (o.exec g l r) := by
  cases o with
  | halo q n => exact bind (startHaloUpdate _ _ _) fun _ _ => trivial
  | vector x y n => exact bind (startVectorHaloUpdate _ _ _ _) fun _ _ => trivial
  | sync x y => exact bind (startSynchronize _ _ _) fun _ _ => trivial
  | wait i =>
    refine bind (fun s => ?_) fun _ => waitRequest _
    unfold getReq
    split <;> exact trivial
  | compute ops => exact fun _ => trivial

end HaloOnly

/-! ### Operations from other memory which is the same on the ranks -/

variable [Neg α]

theorem ops_same {ops : List (HOp α)} {v v1 w w1 : HWhole α} (hs : SameStarted l v.started w.started)
    (h : ∀ r ∈ allRanks l, v.world r = w.world r) (hv : HOpsRun g l ops v v1) (hw : HOpsRun g l ops w w1) :
    SameStarted l v1.started w1.started ∧ ∀ r ∈ allRanks l, v1.world r = w1.world r := by
  induction ops generalizing v w with
  | nil =>
    refine ⟨by rw [hv.1, hw.1]; exact hs, fun r hr => ?_⟩
    rw [hv.2 r hr, hw.2 r hr, h r hr]
  | cons o ops ih =>
    obtain ⟨v2, a1, a2⟩ := hv
    obtain ⟨w2, b1, b2⟩ := hw
    obtain ⟨e1, e2⟩ := op_one hs h a1 b1
    exact ih e1 e2 a2 b2

theorem SameStarted.get {s t : List (Op α × (Int → World α))} (h : SameStarted l s t) {i : Nat} {op : Op α}
    {A : Int → World α} (hs : s[i]? = some (op, A)) : ∃ B, t[i]? = some (op, B) ∧ ∀ r ∈ allRanks l, A r = B r := by
  induction h generalizing i with
  | nil => cases hs
  | @cons x y _ _ h _ ih =>
    cases i with
    | zero =>
      cases hs
      obtain ⟨rfl, h2⟩ : op = y.1 ∧ _ := h
      exact ⟨y.2, rfl, h2⟩
    | succ i => exact ih hs

theorem op_from {o : HOp α} {v v1 w : HWhole α} (hs : SameStarted l v.started w.started)
    (h : ∀ r ∈ allRanks l, v.world r = w.world r) (hv : o.Step g l v v1) {X : Int → World α}
    (hX : ∀ r ∈ allRanks l, X r = v1.world r) : ∃ t, o.Step g l w ⟨X, t⟩ := by
  have st : ∀ op : Op α, HStart l op v v1 → ∃ t, HStart l op w ⟨X, t⟩ := fun op hv =>
    ⟨_, rfl, fun r hr => by show X r = _; rw [hX r hr, hv.2 r hr, h r hr]⟩
  cases o with
  | halo q n => exact st _ hv
  | vector x y n => exact st _ hv
  | sync x y => exact st _ hv
  | compute ops => exact ⟨_, rfl, fun r hr => by show X r = _; rw [hX r hr, hv.2 r hr, h r hr]⟩
  | wait i =>
    obtain ⟨-, op, A0, a2, m, a3, a4⟩ := hv
    obtain ⟨B0, b2, b3⟩ := hs.get a2
    refine ⟨_, rfl, op, B0, b2, m, fun r hr => ?_, fun r hr => ?_⟩
    · obtain ⟨i, i1, i2⟩ := a3 r hr
      dsimp only at i1 i2 ⊢
      rw [b3 r hr] at i1
      rw [deliver_congr (packed_ranks (l := l) (op := op) (m := fun r => quantities (A0 r)) (m' := fun r => quantities (B0 r))
        (fun r hr => by rw [b3 r hr]) r), h r hr] at i2
      exact ⟨i, i1, i2⟩
    · obtain ⟨c1, c2⟩ := a4 r hr
      dsimp only
      rw [hX r hr, ← h r hr]
      exact ⟨c1, c2⟩

/-! ### Waits -/

omit [Inhabited α] [Neg α] in
theorem snoc_split {β : Type} {d pre post : List β} {o y : β} (e : d ++ [o] = pre ++ y :: post) :
    (post = [] ∧ d = pre ∧ o = y) ∨ ∃ p, post = p ++ [o] ∧ d = pre ++ y :: p := by
  rcases List.eq_nil_or_concat post with rfl | ⟨p, z, rfl⟩
  · obtain ⟨h1, h2⟩ := List.append_inj' e rfl
    cases h2
    exact .inl ⟨rfl, h1, rfl⟩
  · rw [List.concat_eq_append, ← List.cons_append, ← List.append_assoc] at e
    obtain ⟨h1, h2⟩ := List.append_inj' e rfl
    cases h2
    exact .inr ⟨p, List.concat_eq_append, h1⟩

omit [Inhabited α] [Neg α] in
theorem HWaitsStarted.snoc {d : List (HOp α)} {o : HOp α} (h : HWaitsStarted d) (ho : ∀ i, o = .wait i → i < (d.filterMap HOp.start).length) :
    HWaitsStarted (d ++ [o]) := by
  intro pre i post e
  rcases snoc_split e with ⟨-, rfl, e2⟩ | ⟨p, -, e2⟩
  · exact ho i e2
  · exact h pre i p e2

omit [Inhabited α] [Neg α] in
theorem HWaitsOnce.snoc {d : List (HOp α)} {o : HOp α} (h : HWaitsOnce d) (ho : ∀ i, o = .wait i → .wait i ∉ d) :
    HWaitsOnce (d ++ [o]) := by
  intro pre i mid post e
  rcases snoc_split e with ⟨-, e1, e2⟩ | ⟨p, -, e2⟩
  · exact ho i e2 (by rw [e1]; simp)
  · exact h pre i mid p e2

/-! ### The network -/

/-- One more operation of the updates. -/
def hopThen (g : Gt4py) (l : Layout) (o : HOp α) (r : Int) (x : Py Unit × HState α) : Proc (Msg α) (Py Unit × HState α) :=
  if r ∈ allRanks l then
    match x.1 with
    | .ok _ => o.exec g l r x.2
    | .error e => .ret (.error e, x.2)
  else .ret x

theorem execHOps_snoc (r : Int) (d : List (HOp α)) (o : HOp α) (s : HState α) :
    execHOps g l r (d ++ [o]) s = (execHOps g l r d s).bind fun x =>
      match x.1 with
      | .ok _ => o.exec g l r x.2
      | .error e => .ret (.error e, x.2) := by
  induction d generalizing s with
  | nil =>
    show (o.exec g l r s).bind _ = o.exec g l r s
    refine Eq.trans ?_ (Proc.bind_ret' _)
    congr 1
    funext x
    obtain ⟨x, s⟩ := x
    cases x <;> rfl
  | cons a d ih =>
    show (a.exec g l r s).bind _ = ((a.exec g l r s).bind _).bind _
    rw [Proc.bind_bind]
    congr 1
    funext x
    obtain ⟨x, s⟩ := x
    cases x with
    | ok _ => exact ih s
    | error e => rfl

theorem hopNet_snoc (d : List (HOp α)) (o : HOp α) (W : Int → World α) :
    hopNet g l (d ++ [o]) W = (hopNet g l d W).andThen (hopThen g l o) := by
  unfold hopNet Net.andThen Net.start
  congr 1
  funext r
  unfold hopThen
  dsimp only
  split
  · exact execHOps_snoc r d o _
  · rfl

/-- What has happened so far, with the scatters and gathers as programs: the operations `d`, of which the updates are outstanding or
not, have led to the states `s` and the started updates `st`; `sent` and `rcvd` are the messages of the network, with those of the
first `n` collective calls. -/
structure Past (g : Gt4py) (l : Layout) (buf : Buffering) (W : Int → World α) (d : List (HOp α)) (s : Int → HState α)
    (st : List (Op α × (Int → World α))) (n : Nat) (sent : Int → Int → Tag → List (Msg α)) (rcvd : Int → Int → Tag → Nat) : Prop where
  run : ∃ sched T, (hopNet g l d W).run buf sched = some T ∧ (∀ r, T.procs r = .ret (.ok (), s r)) ∧
    (∀ a b t, IsHaloTag t → sent a b t = T.sent a b t) ∧ ∀ a b t, IsHaloTag t → rcvd a b t = T.rcvd a b t
  sure : ∀ V, HOpsRun g l d ⟨W, []⟩ V → SameStarted l V.started st ∧ ∀ r ∈ allRanks l, V.world r = (s r).world
  wf : ∀ r ∈ allRanks l, WF g (s r).world
  ws : HWaitsStarted d
  wo : HWaitsOnce d
  ready : ∀ (pre : List (HOp α)) o post, d = pre ++ o :: post → ∀ op, o.start = some op → ∀ V, HOpsRun g l pre ⟨W, []⟩ V →
    (∀ r ∈ allRanks l, Usable (V.world r) op.qs) ∧ UpdateReady l (fun r => quantities (V.world r)) op
  clean : Net.CleanOn (fun t => ∃ i, t = .coll i ∧ n ≤ i) sent rcvd

/-- The quantities of a new update fit, however the past went. -/
theorem Past.ready_snoc {buf : Buffering} {W : Int → World α} {d : List (HOp α)} {s : Int → HState α}
    {st : List (Op α × (Int → World α))} {n : Nat} {sent : Int → Int → Tag → List (Msg α)} {rcvd : Int → Int → Tag → Nat}
    (P : Past g l buf W d s st n sent rcvd) {o : HOp α} (ho : TReady l (fun r => (s r).world) (.update o)) :
    ∀ (pre : List (HOp α)) o' post, d ++ [o] = pre ++ o' :: post → ∀ op, o'.start = some op → ∀ V, HOpsRun g l pre ⟨W, []⟩ V →
      (∀ r ∈ allRanks l, Usable (V.world r) op.qs) ∧ UpdateReady l (fun r => quantities (V.world r)) op := by
  intro pre o' post e op hop V hV
  rcases snoc_split e with ⟨-, rfl, rfl⟩ | ⟨p, -, e2⟩
  · obtain ⟨h1, h2⟩ := ho op hop
    obtain ⟨-, k⟩ := P.sure V hV
    refine ⟨fun r hr => by rw [k r hr]; exact h1 r hr, updateReady_same h2 fun r hr q _ => ?_⟩
    dsimp only
    rw [k r hr]
    exact SameMeta.refl _
  · exact P.ready pre o' p e2 op hop V hV

/-- All ranks make one call. -/
def tProcs (g : Gt4py) (l : Layout) (x : TOp α) (s : Int → HState α) (n n' : Nat) (r : Int) :
    Proc (Msg α) (Py Unit × (HState α × Nat)) :=
  if r ∈ allRanks l then x.exec g l r (s r, n) else .ret (.ok (), (s r, n'))

/-- A start, a wait or a program. -/
theorem Past.update {buf : Buffering} {W : Int → World α} {d : List (HOp α)} {s : Int → HState α}
    {st : List (Op α × (Int → World α))} {n : Nat} {sent : Int → Int → Tag → List (Msg α)} {rcvd : Int → Int → Tag → Nat}
    (hx : 0 < l.x) (hsq : l.y = l.x) (hW : ∀ r ∈ allRanks l, Reachable g (W r))
    (P : Past g l buf W d s st n sent rcvd) {o : HOp α} (ho : TReady l (fun r => (s r).world) (.update o))
    (h1 : ∀ i, o = .wait i → i < (d.filterMap HOp.start).length) (h2 : ∀ i, o = .wait i → .wait i ∉ d) :
    ∃ sched T s' st', (⟨tProcs g l (.update o) s n n, sent, rcvd⟩ : Net (Msg α) (Py Unit × (HState α × Nat))).run buf sched = some T ∧
      (∀ r, T.procs r = .ret (.ok (), (s' r, n))) ∧ o.Step g l ⟨fun r => (s r).world, st⟩ ⟨fun r => (s' r).world, st'⟩ ∧
      Past g l buf W (d ++ [o]) s' st' n T.sent T.rcvd := by
  have ws := P.ws.snoc h1
  have wo := P.wo.snoc h2
  have rd := P.ready_snoc ho
  obtain ⟨fin, st1, c1, c2⟩ := C81_session hx hsq hW ws wo rd buf
  obtain ⟨sched0, T0, r1, r2, r3, r4⟩ := P.run
  obtain ⟨T2, m, e1, e2⟩ := c1
  have run0 := Net.run_andThen (hopThen g l o) r1
  rw [← hopNet_snoc] at run0
  obtain ⟨sched', e3, -⟩ := e2 sched0 _ run0
  have hp : (T0.andThen (hopThen g l o)).procs = fun r => if r ∈ allRanks l then o.exec g l r (s r) else .ret (.ok (), s r) := by
    funext r
    show (T0.procs r).bind _ = _
    rw [r2 r]
    rfl
  obtain ⟨T3, f1, f2, f3, f4, f5, f6⟩ := Net.run_embed' (A := IsHaloTag) (Q := fun _ _ => True) (N := T0.andThen (hopThen g l o))
    (N' := ⟨fun r => if r ∈ allRanks l then o.exec g l r (s r) else .ret (.ok (), s r), sent, rcvd⟩) (fun r => by
      rw [hp]
      dsimp only
      split
      · exact HaloOnly.exec r o (s r)
      · trivial) hp.symm r3 r4 e3
  obtain ⟨w1, a1, w2, a2, a3, a4⟩ := c2.append
  obtain ⟨k1, k2⟩ := P.sure w1 a1
  obtain ⟨t, ht⟩ := op_from (w := ⟨fun r => (s r).world, st⟩) k1 k2 a2 (X := fun r => (fin r).world) fun r hr => a4 r hr
  refine ⟨sched', T3.andThen fun r y => .ret (y.1, (y.2, n)), fin, t, ?_, fun r => ?_, ht, ⟨⟨sched0 ++ sched', T2, ?_, e1, f3, f4⟩,
    fun V hV => ?_, fun r hr => ?_, ws, wo, rd, ?_⟩⟩
  · have := Net.run_andThen (fun (_ : Int) (y : Py Unit × HState α) => (Proc.ret (y.1, (y.2, n)) : Proc (Msg α) _)) f1
    refine Eq.trans ?_ this
    congr 1
    unfold Net.andThen
    congr 1
    funext r
    unfold tProcs
    dsimp only
    split <;> rfl
  · show (T3.procs r).bind _ = _
    rw [f2, e1 r]
    rfl
  · rw [Net.run_append, run0]
    exact e3
  · obtain ⟨v1, b1, v2, b2, b3, b4⟩ := hV.append
    obtain ⟨j1, j2⟩ := P.sure v1 b1
    obtain ⟨i1, i2⟩ := op_one (w := ⟨fun r => (s r).world, st⟩) j1 j2 b2 ht
    refine ⟨by rw [b3]; exact i1, fun r hr => ?_⟩
    rw [b4 r hr]
    exact i2 r hr
  · exact (hops_kept c2 hr (hW r hr).spec).1
  · exact ⟨fun a b t ht => (f5 a b t (by rintro ⟨_, e⟩; obtain ⟨i, e', -⟩ := ht; rw [e] at e'; cases e')).trans (P.clean.sent a b t ht),
      fun a b t ht => (f6 a b t (by rintro ⟨_, e⟩; obtain ⟨i, e', -⟩ := ht; rw [e] at e'; cases e')).trans (P.clean.rcvd a b t ht)⟩

/-- A scatter or gather. -/
theorem Past.collective {buf : Buffering} {W : Int → World α} {d : List (HOp α)} {s : Int → HState α}
    {st : List (Op α × (Int → World α))} {n : Nat} {sent : Int → Int → Tag → List (Msg α)} {rcvd : Int → Int → Tag → Nat}
    (hl : FloatSafe l) (P : Past g l buf W d s st n sent rcvd) {x : CCall α} (hf : TReady l (fun r => (s r).world) (.collective x)) :
    ∃ sched T s' n' ops, (⟨tProcs g l (.collective x) s n n', sent, rcvd⟩ : Net (Msg α) (Py Unit × (HState α × Nat))).run buf sched = some T ∧
      (∀ r, T.procs r = .ret (.ok (), (s' r, n'))) ∧ CStep g (.cube l) x (fun r => (s r).world) (fun r => (s' r).world) ∧
      Past g l buf W (d ++ [.compute ops]) s' st n' T.sent T.rcvd := by
  obtain ⟨n', W1, ⟨plan, hs, hreal⟩, h2, h3, h4⟩ := coll_step (c := .cube l) hl (fun r h => P.wf r ((cube_ranks l r).1 h)) x hf n buf
  obtain ⟨ops, hops⟩ := coll_program hl P.wf h2
  have out : ∀ r, r ∉ allRanks l → W1 r = (s r).world := fun r h => h4 r fun h' => h ((cube_ranks l r).1 h')
  obtain ⟨sched, T, d1, d2, d3⟩ := hs.ok.settles_other (A := fun t => ∃ k, t = .coll k ∧ n ≤ k ∧ k < n') hs.tag
    (N := ⟨tProcs g l (.collective x) s n n', sent, rcvd⟩) (res := fun r => (.ok (), ({ s r with world := W1 r }, n')))
    (dn := fun _ => []) (td := plan)
    ⟨fun r => rfl, fun r => by
      show Real (tProcs g l (.collective x) s n n' r) _ _
      unfold tProcs
      by_cases h : r ∈ allRanks l
      · rw [if_pos h]
        have := Real.bind (f := fun y : Py Unit × (World α × Nat) => Proc.ret (y.1, (({ s r with world := y.2.1 } : HState α), y.2.2)))
          (hreal r ((cube_ranks l r).2 h)) (Real.ret (M := Msg α) ((.ok (), ({ s r with world := W1 r }, n')) : Py Unit × (HState α × Nat)))
        rwa [List.append_nil] at this
      · rw [if_neg h, hs.ok.idle r fun h' => h ((cube_ranks l r).1 h'), out r h]
        exact .ret _, fun a n d t m h => by simp at h,
      fun a k d t m h => P.clean.sent a d t (by obtain ⟨i, e, h, -⟩ := hs.tag a k _ h; exact ⟨i, e, h⟩), fun a n d t m h => by simp at h,
      fun b k a t m h => P.clean.rcvd a b t (by obtain ⟨i, e, h, -⟩ := hs.tag b k _ h; exact ⟨i, e, h⟩)⟩
  have nh : ∀ t, IsHaloTag t → ¬ ∃ k, t = .coll k ∧ n ≤ k ∧ k < n' := by
    rintro t ⟨_, e⟩ ⟨i, e', -⟩
    rw [e] at e'
    cases e'
  have nl : ∀ t : Tag, (∃ i, t = .coll i ∧ n' ≤ i) → ¬ ∃ k, t = .coll k ∧ n ≤ k ∧ k < n' := by
    rintro t ⟨i, e, h⟩ ⟨j, e', -, h'⟩
    rw [e] at e'
    cases e'
    omega
  obtain ⟨sched0, T0, r1, r2, r3, r4⟩ := P.run
  have run0 := Net.run_andThen (hopThen g l (.compute ops)) r1
  rw [← hopNet_snoc] at run0
  have step : (HOp.compute ops).Step g l ⟨fun r => (s r).world, st⟩ ⟨W1, st⟩ := ⟨rfl, hops⟩
  refine ⟨sched, T, fun r => { s r with world := W1 r }, n', ops, d1, d2, h2, ⟨⟨sched0, _, run0, fun r => ?_, fun a b t ht => ?_, fun a b t ht => ?_⟩,
    fun V hV => ?_, fun r hr => h3 r ((cube_ranks l r).2 hr), P.ws.snoc (fun i e => (by cases e)), P.wo.snoc (fun i e => (by cases e)),
    P.ready_snoc (fun op e => absurd e (by simp [HOp.start])), ⟨fun a b t ht => ?_, fun a b t ht => ?_⟩⟩⟩
  · show (T0.procs r).bind _ = _
    rw [r2 r]
    show hopThen g l (.compute ops) r (.ok (), s r) = _
    unfold hopThen
    by_cases h : r ∈ allRanks l
    · rw [if_pos h, hops r h]
      rfl
    · rw [if_neg h, out r h]
  · rw [(d3 t (nh t ht) a b).1]
    exact r3 a b t ht
  · rw [(d3 t (nh t ht) a b).2]
    exact r4 a b t ht
  · obtain ⟨v1, b1, v2, b2, b3, b4⟩ := hV.append
    obtain ⟨j1, j2⟩ := P.sure v1 b1
    obtain ⟨i1, i2⟩ := op_one (w := ⟨fun r => (s r).world, st⟩) j1 j2 b2 step
    refine ⟨by rw [b3]; exact i1, fun r hr => ?_⟩
    rw [b4 r hr]
    exact i2 r hr
  · rw [(d3 t (nl t ht) a b).1]
    exact P.clean.sent a b t (by obtain ⟨i, e, h⟩ := ht; exact ⟨i, e, by have := hs.le; omega⟩)
  · rw [(d3 t (nl t ht) a b).2]
    exact P.clean.rcvd a b t (by obtain ⟨i, e, h⟩ := ht; exact ⟨i, e, by have := hs.le; omega⟩)

end Heap
end FV3
