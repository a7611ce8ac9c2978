import Verif.Proofs.AsyncPhase
import Verif.Props.Session

/-!
# C57: sessions with outstanding updates
-/

namespace FV3
variable {α : Type}

theorem VectorField.same {l : Layout} {m m' : Int → Mem α} {x y ky kx : Nat} {n h : Int}
    (S : VectorField l m x y ky kx n h) (g : ∀ r ∈ allRanks l, ∀ q', SameMeta (m r q') (m' r q')) :
    VectorField l m' x y ky kx n h := by
  refine ⟨fun r hr => (g r hr x).haloReady (S.readyX r hr), fun r hr => (g r hr y).haloReady (S.readyY r hr),
    fun r hr r' hr' => ?_, fun r hr r' hr' => ?_, fun r hr => ?_, fun r hr r' hr' k hk e1 e2 => ?_, fun r hr => ?_,
    fun r hr => ?_⟩
  · rw [(g r hr x).dims, (g r' hr' x).dims]; exact S.dimsX r hr r' hr'
  · rw [(g r hr y).dims, (g r' hr' y).dims]; exact S.dimsY r hr r' hr'
  · rw [(g r hr x).ndim, (g r hr y).ndim]; exact S.ndim r hr
  · rw [(g r hr x).e, (g r' hr' y).e]
    exact S.other r hr r' hr' k (by rw [← (g r hr x).ndim]; exact hk) e1 e2
  · rw [(g r hr x).d, (g r hr y).d]; exact S.staggerY r hr
  · rw [(g r hr x).d, (g r hr y).d]; exact S.staggerX r hr

theorem SyncField.same' {l : Layout} {m m' : Int → Mem α} {x y ky kx : Nat} {n : Int}
    (S : SyncField l m x y ky kx n) (g : ∀ r ∈ allRanks l, ∀ q', SameMeta (m r q') (m' r q')) :
    SyncField l m' x y ky kx n := by
  refine ⟨S.cells, S.lead, fun r hr => (g r hr x).wf (S.wfX r hr), fun r hr => (g r hr y).wf (S.wfY r hr),
    fun r hr => ?_, fun r hr => ?_, fun r hr => ?_, fun r hr => ?_, fun r hr => ?_, fun r hr => ?_,
    fun r hr r' hr' => ?_, fun r hr r' hr' k hk e1 e2 => ?_⟩
  · rw [(g r hr x).dims]; exact S.axesX r hr
  · rw [(g r hr y).dims]; exact S.axesY r hr
  · rw [(g r hr x).d, (g r hr x).d]; exact S.dimsX r hr
  · rw [(g r hr y).d, (g r hr y).d]; exact S.dimsY r hr
  · rw [(g r hr x).e, (g r hr x).e]; exact S.extX r hr
  · rw [(g r hr y).e, (g r hr y).e]; exact S.extY r hr
  · rw [(g r hr x).ndim, (g r' hr' y).ndim]; exact S.ndim r hr r' hr'
  · rw [(g r hr x).e, (g r' hr' y).e]
    exact S.other r hr r' hr' k (by rw [← (g r hr x).ndim]; exact hk) e1 e2

variable [Neg α]

/-- The float operations of the code matter only for a scatter or a gather. -/
theorem async_any {l : Layout} (hx : 0 < l.x) (hsq : l.y = l.x) (buf : Buffering) (junk : Nat → List Nat → α)
    (mem : Int → Mem α) (glob : Int → Nat → Option (Quantity α)) (parts : Nat → Parts) (filled : List Nat)
    (hglob : ∀ g v, glob 0 g = some v → v.GlobalShaped (.cube l) (parts g).dims (parts g).cells)
    (hfilled : ∀ g ∈ filled, ∃ v, glob 0 g = some v)
    (ops : List (AOp α)) (hops : AsyncValid l mem parts filled ops)
    (hl : (∃ op ∈ ops, op.op? = none) → FloatSafe l) :
    ∃ (fin : Int → AState α) (started : Pending α),
      (asyncNet l junk ops mem glob).Completes buf (fun r =>
        if r ∈ allRanks l then some (.ok (fin r)) else none) ∧
      AsyncRun l parts ops ⟨mem, glob 0, []⟩ ⟨fun r => (fin r).comm.mem, (fin 0).glob, started⟩ ∧
      ∀ r ∈ allRanks l, MetaIs mem r (fin r).comm.mem := by
  refine async_from (hist := []) (done := []) (fin := fun r => ⟨mem r, 0, []⟩) (pend := []) (n := 0)
    (s := fun r => ⟨⟨mem r, 0, []⟩, glob r, 0⟩) hx hsq buf junk
    ⟨⟨fun r => ⟨fun _ => rfl, fun _ => rfl⟩, fun _ _ _ => SameMeta.refl _, [], _, rfl, fun r => ?_, fun _ _ _ _ => rfl,
        fun _ _ _ _ => rfl⟩, fun r _ => ⟨rfl, fun k o m0 h => ?_⟩, fun _ _ => rfl, fun _ _ => rfl, hglob, hfilled,
      ⟨fun _ _ _ _ => rfl, fun _ _ _ _ => rfl⟩⟩
    ⟨fun _ h => absurd h (List.not_mem_nil), fun d i h => by simp at h, fun _ h => absurd h (List.not_mem_nil), rfl,
      rfl⟩ hl hops.calls hops.started hops.once
  · show (if r ∈ allRanks l then _ else _) = _
    split <;> rfl
  · simp at h

/-- **C57**: any sequence of calls on one cubed-sphere communicator, the same on all ranks, in which updates are
started and waited for in separate calls, in any order and with any other updates, scatters, gathers and computations
between them, ends on all ranks, whatever the schedule and the buffering of MPI, and has the effect of performing the
calls one after the other on all ranks: a wait stores what the ranks had when the update was started. -/
theorem C57_async {l : Layout} (hl : FloatSafe l) (hsq : l.y = l.x) (buf : Buffering) (junk : Nat → List Nat → α)
    (mem : Int → Mem α) (glob : Int → Nat → Option (Quantity α)) (parts : Nat → Parts) (filled : List Nat)
    (hglob : ∀ g v, glob 0 g = some v → v.GlobalShaped (.cube l) (parts g).dims (parts g).cells)
    (hfilled : ∀ g ∈ filled, ∃ v, glob 0 g = some v)
    (ops : List (AOp α)) (hops : AsyncValid l mem parts filled ops) :
    ∃ (fin : Int → AState α) (started : Pending α),
      (asyncNet l junk ops mem glob).Completes buf (fun r =>
        if r ∈ allRanks l then some (.ok (fin r)) else none) ∧
      AsyncRun l parts ops ⟨mem, glob 0, []⟩ ⟨fun r => (fin r).comm.mem, (fin 0).glob, started⟩ ∧
      ∀ r ∈ allRanks l, MetaIs mem r (fin r).comm.mem :=
  async_any hl.xpos hsq buf junk mem glob parts filled hglob hfilled ops hops fun _ => hl

theorem asyncRun_append {l : Layout} {parts : Nat → Parts} {a b : List (AOp α)} {w w' : Whole α}
    (h : AsyncRun l parts (a ++ b) w w') : ∃ w1, AsyncRun l parts a w w1 ∧ AsyncRun l parts b w1 w' := by
  induction a generalizing w with
  | nil => exact ⟨w, ⟨fun _ _ => rfl, rfl, rfl⟩, h⟩
  | cons op a ih =>
    obtain ⟨w1, h1, h2⟩ := h
    obtain ⟨w2, h3, h4⟩ := ih h2
    exact ⟨w2, ⟨w1, h1, h3⟩, h4⟩

theorem AOp.Step.started {l : Layout} {parts : Nat → Parts} {op : AOp α} {w w' : Whole α} (h : op.Step l parts w w') :
    ∃ e, w'.started = w.started ++ e ∧ e.length = startCount [op] := by
  cases op with
  | scatter q g => exact ⟨[], by rw [h.1, List.append_nil], rfl⟩
  | gather q g => exact ⟨[], by rw [h.1, List.append_nil], rfl⟩
  | op o =>
    cases o with
    | wait i => exact ⟨[], by rw [h.2.1, List.append_nil], rfl⟩
    | compute f => exact ⟨[], by rw [h.2.1, List.append_nil], rfl⟩
    | halo q n => exact ⟨_, h.2.1, rfl⟩
    | vector x y n => exact ⟨_, h.2.1, rfl⟩
    | sync x y => exact ⟨_, h.2.1, rfl⟩

theorem asyncRun_started {l : Layout} {parts : Nat → Parts} {ops : List (AOp α)} {w w' : Whole α}
    (h : AsyncRun l parts ops w w') : ∃ e, w'.started = w.started ++ e ∧ e.length = startCount ops := by
  induction ops generalizing w with
  | nil => exact ⟨[], by rw [h.2.2, List.append_nil], rfl⟩
  | cons op ops ih =>
    obtain ⟨w1, h1, h2⟩ := h
    obtain ⟨e1, a1, b1⟩ := AOp.Step.started h1
    obtain ⟨e2, a2, b2⟩ := ih h2
    refine ⟨e1 ++ e2, by rw [a2, a1, List.append_assoc], ?_⟩
    rw [List.length_append, b1, b2]
    unfold startCount
    rw [← List.countP_append, ← List.filterMap_append, List.singleton_append]

theorem AOp.Step.meta' {l : Layout} {mem : Int → Mem α} {parts : Nat → Parts} {filled : List Nat} {op : AOp α}
    {w w' : Whole α} (h : op.Step l parts w w') (hv : op.Valid l mem parts filled)
    (hm : ∀ r ∈ allRanks l, MetaIs mem r (w.mem r)) : ∀ r ∈ allRanks l, MetaIs mem r (w'.mem r) := by
  intro r hr
  cases op with
  | scatter q g =>
    obtain ⟨-, -, v, -, h3⟩ := h
    obtain ⟨-, e1, e2⟩ := h3 r hr
    intro q'
    by_cases hq : q' = q
    · subst hq
      exact (hm r hr q').trans e1.sameMeta
    · rw [e2 q' hq]
      exact hm r hr q'
  | gather q g =>
    rw [h.2.1 r hr]
    exact hm r hr
  | op o =>
    cases o with
    | wait i =>
      obtain ⟨-, -, o, m0, -, hw⟩ := h
      obtain ⟨inc, -, hd⟩ := hw r hr
      exact fun q => (hm r hr q).trans ((deliver_get hd).1 q)
    | compute f =>
      rw [h.2.2 r hr]
      exact hv r hr _ (hm r hr)
    | halo q n => rw [(h.2.2 r hr).2]; exact hm r hr
    | vector x y n => rw [(h.2.2 r hr).2]; exact hm r hr
    | sync x y => rw [(h.2.2 r hr).2]; exact hm r hr

theorem asyncRun_meta {l : Layout} {mem : Int → Mem α} {parts : Nat → Parts} {ops : List (AOp α)} {filled : List Nat}
    {w w' : Whole α} (h : AsyncRun l parts ops w w') (hv : CallsValid l mem parts filled ops)
    (hm : ∀ r ∈ allRanks l, MetaIs mem r (w.mem r)) : ∀ r ∈ allRanks l, MetaIs mem r (w'.mem r) := by
  induction ops generalizing w filled with
  | nil =>
    intro r hr
    rw [h.1 r hr]
    exact hm r hr
  | cons op ops ih =>
    obtain ⟨w1, h1, h2⟩ := h
    exact ih h2 hv.2 (AOp.Step.meta' h1 hv.1 hm)

theorem CallsValid.prefix {l : Layout} {mem : Int → Mem α} {parts : Nat → Parts} {a b : List (AOp α)}
    {filled : List Nat} (h : CallsValid l mem parts filled (a ++ b)) : CallsValid l mem parts filled a := by
  induction a generalizing filled with
  | nil => trivial
  | cons op a ih => exact ⟨h.1, ih h.2⟩

/-- **C57**: an update started in a session, with any calls before it and any calls between the start and the wait
(other updates, started or waited for, scatters, gathers, computations), stores what the ranks had at its start, in the
quantities as they are just before the wait. -/
theorem C57_outstanding {l : Layout} (hl : FloatSafe l) (hsq : l.y = l.x) (buf : Buffering) (junk : Nat → List Nat → α)
    (mem : Int → Mem α) (glob : Int → Nat → Option (Quantity α)) (parts : Nat → Parts) (filled : List Nat)
    (hglob : ∀ g v, glob 0 g = some v → v.GlobalShaped (.cube l) (parts g).dims (parts g).cells)
    (hfilled : ∀ g ∈ filled, ∃ v, glob 0 g = some v) (before between : List (AOp α)) (o : Op α) (ho : o.isStart = true)
    (hops : AsyncValid l mem parts filled (before ++ .op o :: between ++ [.op (.wait (startCount before))])) :
    ∃ (fin : Int → AState α) (atStart beforeWait : Whole α),
      (asyncNet l junk (before ++ .op o :: between ++ [.op (.wait (startCount before))]) mem glob).Completes buf (fun r =>
        if r ∈ allRanks l then some (.ok (fin r)) else none) ∧
      AsyncRun l parts before ⟨mem, glob 0, []⟩ atStart ∧
      AsyncRun l parts (.op o :: between) atStart beforeWait ∧
      WaitStep l o atStart.mem beforeWait.mem (fun r => (fin r).comm.mem) ∧
      (fin 0).glob = beforeWait.glob ∧
      ∀ r ∈ allRanks l, MetaIs mem r (atStart.mem r) ∧ MetaIs mem r (beforeWait.mem r) := by
  obtain ⟨fin, pend, h1, h2, h3⟩ := C57_async hl hsq buf junk mem glob parts filled hglob hfilled _ hops
  obtain ⟨w1, h4, w2, ⟨g1, -, o', m0, k, hw⟩, e1, e2, -⟩ := asyncRun_append h2
  obtain ⟨w0, h5, h6⟩ := asyncRun_append h4
  have hm1 := asyncRun_meta h4 hops.calls.prefix (fun r _ q => SameMeta.refl _)
  have hm0 := asyncRun_meta h5 hops.calls.prefix.prefix (fun r _ q => SameMeta.refl _)
  have hk : o' = o ∧ m0 = w0.mem := by
    obtain ⟨s1, a1, b1⟩ := asyncRun_started h5
    have a1 : w0.started = s1 := a1
    obtain ⟨v, h7, h8⟩ := h6
    obtain ⟨s2, a2, -⟩ := asyncRun_started h8
    have h9 : v.started = w0.started ++ [(o, w0.mem)] := by
      cases o with
      | wait i => cases ho
      | compute f => cases ho
      | _ => exact h7.2.1
    rw [a2, h9, a1, List.append_assoc, ← b1] at k
    simp only [List.getElem?_append_right (Nat.le_refl _), Nat.sub_self, List.singleton_append,
      List.getElem?_cons_zero, Option.some.injEq, Prod.mk.injEq] at k
    exact ⟨k.1.symm, k.2.symm⟩
  obtain ⟨rfl, rfl⟩ := hk
  refine ⟨fin, w0, w1, h1, h5, h6, fun r hr => ?_, e2.trans g1, fun r hr => ⟨hm0 r hr, hm1 r hr⟩⟩
  obtain ⟨inc, i1, i2⟩ := hw r hr
  exact ⟨inc, i1, i2.trans (congrArg _ (e1 r hr).symm)⟩

/-- **C57**: a halo update started in a session: after the wait the halo holds the values which the owners of the
points had at the start, and everything else is as it was just before the wait. -/
theorem C57_outstanding_halo {l : Layout} (hl : FloatSafe l) (hsq : l.y = l.x) (buf : Buffering)
    (junk : Nat → List Nat → α) (mem : Int → Mem α) (glob : Int → Nat → Option (Quantity α)) (parts : Nat → Parts)
    (filled : List Nat)
    (hglob : ∀ g v, glob 0 g = some v → v.GlobalShaped (.cube l) (parts g).dims (parts g).cells)
    (hfilled : ∀ g ∈ filled, ∃ v, glob 0 g = some v) (before between : List (AOp α))
    {q ky kx : Nat} {n h : Int} (hh : 0 < h) (hn : h ≤ n) (S : ScalarField l mem q ky kx n h)
    (hops : AsyncValid l mem parts filled
      (before ++ .op (.halo q h) :: between ++ [.op (.wait (startCount before))])) :
    ∃ (fin : Int → AState α) (atStart beforeWait : Whole α),
      (asyncNet l junk (before ++ .op (.halo q h) :: between ++ [.op (.wait (startCount before))]) mem glob).Completes
        buf (fun r => if r ∈ allRanks l then some (.ok (fin r)) else none) ∧
      AsyncRun l parts before ⟨mem, glob 0, []⟩ atStart ∧
      AsyncRun l parts (.op (.halo q h) :: between) atStart beforeWait ∧
      HaloFilled l q ky kx n h atStart.mem (fun r => (fin r).comm.mem) ∧
      OnlyHaloChanged l q ky kx n h beforeWait.mem (fun r => (fin r).comm.mem) := by
  obtain ⟨fin, w0, w1, h1, h2, h3, h4, -, h5⟩ := C57_outstanding hl hsq buf junk mem glob parts filled hglob hfilled
    before between _ rfl hops
  have S0 := S.same fun r hr => (h5 r hr).1
  have hp : ∀ r ∈ allRanks l, ∀ q', SameMeta (w0.mem r q') (w1.mem r q') := fun r hr q' =>
    ((h5 r hr).1 q').symm.trans ((h5 r hr).2 q')
  exact ⟨fin, w0, w1, h1, h2, h3, wait_filled hl.xpos hsq hh hn S0 hp h4, wait_only hl.xpos hsq hh hn S0 hp h4⟩

/-- **C57**: a vector halo update started in a session: after the wait the halos hold the components of the vectors
which the owners of the points had at the start, and everything else is as it was just before the wait. -/
theorem C57_outstanding_vector {l : Layout} (hl : FloatSafe l) (hsq : l.y = l.x) (buf : Buffering)
    (junk : Nat → List Nat → α) (mem : Int → Mem α) (glob : Int → Nat → Option (Quantity α)) (parts : Nat → Parts)
    (filled : List Nat)
    (hglob : ∀ g v, glob 0 g = some v → v.GlobalShaped (.cube l) (parts g).dims (parts g).cells)
    (hfilled : ∀ g ∈ filled, ∃ v, glob 0 g = some v) (before between : List (AOp α))
    {x y ky kx : Nat} {n h : Int} (hxy : x ≠ y) (hh : 0 < h) (hn : h ≤ n) (S : VectorField l mem x y ky kx n h)
    (hops : AsyncValid l mem parts filled
      (before ++ .op (.vector x y h) :: between ++ [.op (.wait (startCount before))])) :
    ∃ (fin : Int → AState α) (atStart beforeWait : Whole α),
      (asyncNet l junk (before ++ .op (.vector x y h) :: between ++ [.op (.wait (startCount before))]) mem glob).Completes
        buf (fun r => if r ∈ allRanks l then some (.ok (fin r)) else none) ∧
      AsyncRun l parts before ⟨mem, glob 0, []⟩ atStart ∧
      AsyncRun l parts (.op (.vector x y h) :: between) atStart beforeWait ∧
      VectorHaloFilled l x y ky kx n h atStart.mem (fun r => (fin r).comm.mem) ∧
      OnlyVectorHaloChanged l x y ky kx n h beforeWait.mem (fun r => (fin r).comm.mem) := by
  obtain ⟨fin, w0, w1, h1, h2, h3, h4, -, h5⟩ := C57_outstanding hl hsq buf junk mem glob parts filled hglob hfilled
    before between _ rfl hops
  have S0 := S.same fun r hr => (h5 r hr).1
  have hp : ∀ r ∈ allRanks l, ∀ q', SameMeta (w0.mem r q') (w1.mem r q') := fun r hr q' =>
    ((h5 r hr).1 q').symm.trans ((h5 r hr).2 q')
  exact ⟨fin, w0, w1, h1, h2, h3, vector_wait_filled hl.xpos hsq hh hn hxy S0 hp h4,
    vector_wait_only hl.xpos hsq hh hn hxy S0 hp h4⟩

/-- **C57**: a synchronisation started in a session: after the wait the north and east edges hold the components of
the vectors which the neighbours had there at the start, and everything else is as it was just before the wait. -/
theorem C57_outstanding_sync {l : Layout} (hl : FloatSafe l) (hsq : l.y = l.x) (buf : Buffering)
    (junk : Nat → List Nat → α) (mem : Int → Mem α) (glob : Int → Nat → Option (Quantity α)) (parts : Nat → Parts)
    (filled : List Nat)
    (hglob : ∀ g v, glob 0 g = some v → v.GlobalShaped (.cube l) (parts g).dims (parts g).cells)
    (hfilled : ∀ g ∈ filled, ∃ v, glob 0 g = some v) (before between : List (AOp α))
    {x y ky kx : Nat} {n : Int} (S : SyncField l mem x y ky kx n)
    (hops : AsyncValid l mem parts filled
      (before ++ .op (.sync x y) :: between ++ [.op (.wait (startCount before))])) :
    ∃ (fin : Int → AState α) (atStart beforeWait : Whole α),
      (asyncNet l junk (before ++ .op (.sync x y) :: between ++ [.op (.wait (startCount before))]) mem glob).Completes
        buf (fun r => if r ∈ allRanks l then some (.ok (fin r)) else none) ∧
      AsyncRun l parts before ⟨mem, glob 0, []⟩ atStart ∧
      AsyncRun l parts (.op (.sync x y) :: between) atStart beforeWait ∧
      EdgesFilled l atStart.mem (fun r => (fin r).comm.mem) x y ky kx n ∧
      OnlyEdgesChanged l x y ky kx beforeWait.mem (fun r => (fin r).comm.mem) := by
  obtain ⟨fin, w0, w1, h1, h2, h3, h4, -, h5⟩ := C57_outstanding hl hsq buf junk mem glob parts filled hglob hfilled
    before between _ rfl hops
  have S0 := S.same' fun r hr => (h5 r hr).1
  have hp : ∀ r ∈ allRanks l, ∀ q', SameMeta (w0.mem r q') (w1.mem r q') := fun r hr q' =>
    ((h5 r hr).1 q').symm.trans ((h5 r hr).2 q')
  exact ⟨fin, w0, w1, h1, h2, h3, sync_wait_filled hl.xpos hsq S0 hp h4, sync_wait_only hl.xpos hsq S0 hp h4⟩

/-! ### A concrete case -/

/-- Calls before the start. -/
def exBefore : List (AOp α) := [.scatter 0 0, .op (.vector 1 2 1)]

/-- Calls between the start and the wait: a gather of the quantity, a computation, a scatter into the quantity, the
wait for an update started before, and another update of the same quantity. -/
def exBetween : List (AOp α) :=
  [.gather 0 1, .op (.compute exNext), .scatter 0 1, .op (.wait 0), .op (.halo 0 1), .op (.wait 2)]

theorem exAsync_valid (z : α) : AsyncValid ⟨2, 2⟩ (exRunMem 3 z) exParts [0]
    (exBefore ++ .op (.halo 0 1) :: exBetween ++ [.op (.wait (startCount (exBefore (α := α))))]) := by
  have s2 : FloatSafe ⟨2, 2⟩ := C05_safe_up_to_48 _ (by decide) (by decide) (by decide) (by decide)
  have R := exSession_run z fun _ _ => z
  have hp := exSession_parts z
  have hh : UpdateReady ⟨2, 2⟩ (exRunMem 3 z) (.halo 0 1) := ⟨0, 1, 3, by decide, by decide, (R 0).field⟩
  have hv : UpdateReady ⟨2, 2⟩ (exRunMem 3 z) (.vector 1 2 1) :=
    ⟨0, 1, 3, by decide, by decide, (R 1).field.ready, (R 2).field.ready, fun _ _ _ _ => rfl, fun _ _ _ _ => rfl,
      fun _ _ => rfl, fun _ _ _ _ _ _ _ _ => rfl, fun _ _ => rfl, fun _ _ => rfl⟩
  refine ⟨⟨⟨by simp, hp _ _⟩, hv, hh, hp _ _, ?_, ⟨by simp, hp _ _⟩, trivial, hh, trivial, trivial, trivial⟩, ?_, ?_⟩
  · exact fun r _ mem hm => (exRun_stencil s2 rfl (n := 3) (N := 6) (by decide) (by decide) z 0).same r mem hm
  · show WaitsStarted [.vector 1 2 1, .halo 0 1, .compute exNext, .wait 0, .halo 0 1, .wait 2, .wait 1]
    intro d i hd
    match d, hd with
    | 3, hd => simp at hd; subst hd; show 0 < 2; decide
    | 5, hd => simp at hd; subst hd; show 2 < 3; decide
    | 6, hd => simp at hd; subst hd; show 1 < 3; decide
    | d + 7, hd => simp at hd
  · show ([0, 2, 1] : List Nat).Nodup
    decide

/-- In the example the calls end on all ranks, and the halos of quantity 0 hold what the ranks had when the first halo
update was started, which is what was scattered. -/
example (buf : Buffering) (z : α) (F : Vec3 → (Nat → Int) → α) :
    ∃ (fin : Int → AState α) (atStart : Whole α),
      (asyncNet ⟨2, 2⟩ (fun _ _ => z) (exBefore ++ .op (.halo 0 1) :: exBetween ++ [.op (.wait 1)]) (exRunMem 3 z)
        (fun r g => if r = 0 ∧ g = 0 then some (exRunG 6 F) else none)).Completes buf (fun r =>
        if r ∈ allRanks ⟨2, 2⟩ then some (.ok (fin r)) else none) ∧
      HaloFilled ⟨2, 2⟩ 0 0 1 3 1 atStart.mem (fun r => (fin r).comm.mem) ∧
      ∀ r ∈ allRanks ⟨2, 2⟩, IsPart (.cube ⟨2, 2⟩) [.y, .x] [3, 3] (exRunG 6 F) (atStart.mem r 0) r := by
  have s2 : FloatSafe ⟨2, 2⟩ := C05_safe_up_to_48 _ (by decide) (by decide) (by decide) (by decide)
  obtain ⟨fin, w0, w1, h1, h2, -, h3, -⟩ := C57_outstanding_halo s2 rfl buf (fun _ _ => z) (exRunMem 3 z)
    (fun r g => if r = 0 ∧ g = 0 then some (exRunG 6 F) else none) exParts [0] (exSession_glob F z)
    (fun g hg => ⟨exRunG 6 F, by rw [if_pos ⟨rfl, List.mem_singleton.1 hg⟩]⟩) exBefore exBetween (q := 0) (ky := 0)
    (kx := 1) (n := 3) (h := 1) (by decide) (by decide) (exSession_run z (fun _ _ => z) 0).field (exAsync_valid z)
  refine ⟨fin, w0, h1, h3, fun r hr => ?_⟩
  obtain ⟨v1, ⟨-, -, v, e1, e2⟩, v2, ⟨-, -, e3⟩, e4, -, -⟩ := h2
  dsimp only at e1
  rw [if_pos ⟨rfl, rfl⟩, Option.some.injEq] at e1
  subst e1
  rw [e4 r hr, (e3 r hr).2]
  exact (e2 r hr).1

end FV3
