import Verif.Proofs.FullSession
import Verif.Props.AsyncSession
import Verif.Props.TileSplit

/-!
# C75: complete sessions
-/

namespace FV3
variable {α : Type} [Neg α]

/-- What all ranks, root and the root ranks of the tiles have at the start. -/
def FSnap.new (l : Layout) (mem : Int → Mem α) (glob : Int → Nat → Option (Quantity α)) (time gtime : Int → Nat → Option Int)
    (tglob : Int → Nat → Option (Quantity α)) (tgtime : Int → Nat → Option Int) : FSnap α :=
  ⟨⟨⟨mem, glob 0, time, gtime 0⟩, fun t => tglob (t * l.tileRanks), fun t => tgtime (t * l.tileRanks)⟩, []⟩

/-- What all ranks, root and the root ranks of the tiles have in the states `s`. -/
def FSnap.ofStates (l : Layout) (s : Int → FState α) (started : Pending α) : FSnap α :=
  ⟨⟨⟨fun r => (s r).comm.mem, (s 0).glob, fun r => (s r).time, (s 0).gtime⟩, fun t => (s (t * l.tileRanks)).tglob,
    fun t => (s (t * l.tileRanks)).tgtime⟩, started⟩

/-- **C75**: any sequence of calls of one cubed-sphere communicator and its tile communicators, with updates started and
waited for in separate calls and any collective calls of the cubed sphere or of the tiles (also while updates are
outstanding, and also the first use of `communicator.tile`, which makes the tile communicators), ends on all ranks,
whatever the schedule and the buffering of MPI, and has the effect of performing the calls one after the other on all
ranks: a wait stores what the ranks had when the update was started, a collective call uses what they have when it is
made. -/
theorem C75_full {l : Layout} (hl : FloatSafe l) (hsq : l.y = l.x) (buf : Buffering) (junk tjunk : Nat → List Nat → α)
    (mem : Int → Mem α) (glob : Int → Nat → Option (Quantity α)) (time gtime : Int → Nat → Option Int)
    (tglob : Int → Nat → Option (Quantity α)) (tgtime : Int → Nat → Option Int)
    (parts : Nat → Parts) (tparts : Int → Nat → Parts) (filled : List Nat) (tfilled : Int → List Nat)
    (hglob : ∀ g v, glob 0 g = some v → v.GlobalShaped (.cube l) (parts g).dims (parts g).cells)
    (hfilled : ∀ g ∈ filled, ∃ v, glob 0 g = some v)
    (htglob : ∀ t, 0 ≤ t → t < 6 → ∀ g v, tglob (t * l.tileRanks) g = some v →
      v.GlobalShaped (.tile l) (tparts t g).dims (tparts t g).cells)
    (htfilled : ∀ t, 0 ≤ t → t < 6 → ∀ g ∈ tfilled t, ∃ v, tglob (t * l.tileRanks) g = some v)
    (ops : List (FOp α)) (hops : FullValid l mem parts tparts filled tfilled ops) :
    ∃ (fin : Int → FState α) (started : Pending α),
      (fullNet l junk tjunk ops mem glob time gtime tglob tgtime).Completes buf (fun r =>
        if r ∈ allRanks l then some (.ok (fin r)) else none) ∧
      FullRun l parts tparts ops (.new l mem glob time gtime tglob tgtime) (.ofStates l fin started) ∧
      ∀ r ∈ allRanks l, MetaIs mem r (fin r).comm.mem := by
  refine full_from (hist := []) (done := []) (fin := fun r => ⟨mem r, 0, []⟩) (pend := []) (n := 0) (tn := fun _ => 0)
    (kt := none) (s := fun r => .new (mem r) (glob r) (time r) (gtime r) (tglob r) (tgtime r)) hl hsq buf junk tjunk
    ⟨⟨fun r => ⟨fun _ => rfl, fun _ => rfl⟩, fun _ _ _ => SameMeta.refl _, [], _, rfl, fun r => ?_, fun _ _ _ _ => rfl,
        fun _ _ _ _ => rfl⟩, fun r _ => ⟨rfl, fun k o m0 h => ?_⟩, fun _ _ => rfl,
      ⟨⟨fun _ _ _ => SameMeta.refl _, fun _ _ => rfl, fun _ _ => rfl, hglob, hfilled⟩,
        fun t t0 t6 => ⟨fun _ _ _ => SameMeta.refl _, fun _ _ => rfl,
          by simpa only [TileState.view, FState.lazy, FState.new, Int.add_zero] using htglob t t0 t6,
          by simpa only [TileState.view, FState.lazy, FState.new, Int.add_zero] using htfilled t t0 t6⟩⟩,
      fun _ _ => rfl, ⟨fun _ _ _ _ => rfl, fun _ _ _ _ => rfl⟩⟩
    ⟨fun _ h => absurd h (List.not_mem_nil), fun d i h => by simp at h, fun _ h => absurd h (List.not_mem_nil), rfl,
      rfl⟩ hops.calls hops.started hops.once (.inr ⟨rfl, hops.first⟩)
  · show (if r ∈ allRanks l then _ else _) = _
    split <;> rfl
  · simp at h

theorem fullRun_append {l : Layout} {parts : Nat → Parts} {tparts : Int → Nat → Parts} {a b : List (FOp α)}
    {w w' : FSnap α} (h : FullRun l parts tparts (a ++ b) w w') :
    ∃ w1, FullRun l parts tparts a w w1 ∧ FullRun l parts tparts b w1 w' := by
  induction a generalizing w with
  | nil => exact ⟨w, ⟨rfl, ⟨fun _ _ => rfl, rfl, fun _ _ => rfl, rfl⟩, fun _ _ _ => ⟨rfl, rfl⟩⟩, h⟩
  | cons op a ih =>
    obtain ⟨w1, h1, h2⟩ := h
    obtain ⟨w2, h3, h4⟩ := ih h2
    exact ⟨w2, ⟨w1, h1, h3⟩, h4⟩

theorem FOp.Step.started {l : Layout} {parts : Nat → Parts} {tparts : Int → Nat → Parts} {op : FOp α} {w w' : FSnap α}
    (h : op.Step l parts tparts w w') : ∃ e, w'.started = w.started ++ e ∧ e.length = fullStarts [op] := by
  cases op with
  | op o => exact AOp.Step.started h.1
  | coll o => exact ⟨[], by rw [h.1, List.append_nil], rfl⟩
  | tiles o => exact ⟨[], by rw [h.1, List.append_nil], rfl⟩

theorem fullRun_started {l : Layout} {parts : Nat → Parts} {tparts : Int → Nat → Parts} {ops : List (FOp α)}
    {w w' : FSnap α} (h : FullRun l parts tparts ops w w') :
    ∃ e, w'.started = w.started ++ e ∧ e.length = fullStarts ops := by
  induction ops generalizing w with
  | nil => exact ⟨[], by rw [h.1, List.append_nil], rfl⟩
  | cons op ops ih =>
    obtain ⟨w1, h1, h2⟩ := h
    obtain ⟨e1, a1, b1⟩ := FOp.Step.started h1
    obtain ⟨e2, a2, b2⟩ := ih h2
    refine ⟨e1 ++ e2, by rw [a2, a1, List.append_assoc], ?_⟩
    rw [List.length_append, b1, b2]
    unfold fullStarts
    rw [← List.countP_append, ← List.filterMap_append, List.singleton_append]

omit [Neg α] in
/-- A collective call keeps the metadata of the quantities. -/
theorem COp.Step.meta' {c : Comm} {parts : Nat → Parts} {op : COp} {S S' : Snap α} (h : op.Step c parts S S') {r : Int}
    (hr : r ∈ c.ranks) (q : Nat) : SameMeta (S.mem r q) (S'.mem r q) := by
  cases op with
  | scatter q0 g =>
    obtain ⟨-, -, v, -, h⟩ := h
    obtain ⟨-, -, h1, h2⟩ := h r hr
    by_cases e : q = q0
    · subst e; exact h1.sameMeta
    · rw [h2 q e]; exact SameMeta.refl _
  | gather q0 g =>
    rw [(h.1 r hr).1]
    exact SameMeta.refl _
  | scatterState i j vars =>
    obtain ⟨-, -, h⟩ := h
    obtain ⟨-, -, h1, h2⟩ := h r hr
    by_cases e : ∀ v ∈ vars, v.q ≠ q
    · rw [h2 q e]; exact SameMeta.refl _
    · simp only [ne_eq, not_forall, not_not] at e
      obtain ⟨v, hv, rfl⟩ := e
      obtain ⟨w, -, -, h3⟩ := h1 v hv
      exact h3.sameMeta
  | gatherState i j vars =>
    rw [(h.1 r hr).1]
    exact SameMeta.refl _

theorem FOp.Step.meta' {l : Layout} (hl : FloatSafe l) {mem : Int → Mem α} {parts : Nat → Parts}
    {tparts : Int → Nat → Parts} {filled : List Nat} {tfilled : Int → List Nat} {op : FOp α} {w w' : FSnap α}
    (h : op.Step l parts tparts w w') (hv : op.Valid l mem parts tparts filled tfilled)
    (hm : ∀ r ∈ allRanks l, MetaIs mem r (w.data.cube.mem r)) : ∀ r ∈ allRanks l, MetaIs mem r (w'.data.cube.mem r) := by
  cases op with
  | op o => exact AOp.Step.meta' (filled := filled) h.1 (by cases o <;> exact hv) hm
  | coll o => exact fun r hr q => (hm r hr q).trans (h.2.1.meta' ((cube_ranks l r).2 hr) q)
  | tiles o =>
    intro r hr q
    have hn : 0 < l.tileRanks := tileRanks_pos hl.ypos hl.xpos
    obtain ⟨r0, r6⟩ := mem_allRanks.1 hr
    have hd := div_range hn r0 r6
    have hi : r % l.tileRanks ∈ (Comm.tile l).ranks :=
      (mem_ranks (.tile l) _).2 ⟨Int.emod_nonneg _ (by omega), Int.emod_lt_of_pos _ hn⟩
    have he : r / l.tileRanks * l.tileRanks + r % l.tileRanks = r := by
      have := Int.emod_add_mul_ediv r l.tileRanks
      rw [Int.mul_comm] at this
      omega
    have := h.2.2.2 _ hd.1 hd.2
    refine (hm r hr q).trans ?_
    cases ho : o (r / l.tileRanks) with
    | none =>
      rw [ho] at this
      have := this.mem _ hi
      unfold CubeSnap.ofTile at this
      dsimp only at this
      rw [he] at this
      rw [this]
      exact SameMeta.refl _
    | some a =>
      rw [ho] at this
      have := COp.Step.meta' this hi q
      unfold CubeSnap.ofTile at this
      dsimp only at this
      rwa [he] at this

theorem fullRun_meta {l : Layout} (hl : FloatSafe l) {mem : Int → Mem α} {parts : Nat → Parts}
    {tparts : Int → Nat → Parts} {ops : List (FOp α)} {filled : List Nat} {tfilled : Int → List Nat} {w w' : FSnap α}
    (h : FullRun l parts tparts ops w w') (hv : FullCalls l mem parts tparts filled tfilled ops)
    (hm : ∀ r ∈ allRanks l, MetaIs mem r (w.data.cube.mem r)) : ∀ r ∈ allRanks l, MetaIs mem r (w'.data.cube.mem r) := by
  induction ops generalizing w filled tfilled with
  | nil =>
    intro r hr
    rw [h.2.1.mem r ((cube_ranks l r).2 hr)]
    exact hm r hr
  | cons op ops ih =>
    obtain ⟨w1, h1, h2⟩ := h
    exact ih h2 hv.2 (FOp.Step.meta' hl h1 hv.1 hm)

theorem FullCalls.prefix {l : Layout} {mem : Int → Mem α} {parts : Nat → Parts} {tparts : Int → Nat → Parts}
    {a b : List (FOp α)} {filled : List Nat} {tfilled : Int → List Nat}
    (h : FullCalls l mem parts tparts filled tfilled (a ++ b)) : FullCalls l mem parts tparts filled tfilled a := by
  induction a generalizing filled tfilled with
  | nil => trivial
  | cons op a ih => exact ⟨h.1, ih h.2⟩

/-- **C75**: an update started in a session, with any calls before it and any calls between the start and the wait (other
updates, started or waited for, computations, collective calls of the cubed sphere and of the tiles, also the one that
makes the tile communicators), stores what the ranks had at its start, in the quantities as they are just before the
wait. -/
theorem C75_outstanding {l : Layout} (hl : FloatSafe l) (hsq : l.y = l.x) (buf : Buffering)
    (junk tjunk : Nat → List Nat → α)
    (mem : Int → Mem α) (glob : Int → Nat → Option (Quantity α)) (time gtime : Int → Nat → Option Int)
    (tglob : Int → Nat → Option (Quantity α)) (tgtime : Int → Nat → Option Int)
    (parts : Nat → Parts) (tparts : Int → Nat → Parts) (filled : List Nat) (tfilled : Int → List Nat)
    (hglob : ∀ g v, glob 0 g = some v → v.GlobalShaped (.cube l) (parts g).dims (parts g).cells)
    (hfilled : ∀ g ∈ filled, ∃ v, glob 0 g = some v)
    (htglob : ∀ t, 0 ≤ t → t < 6 → ∀ g v, tglob (t * l.tileRanks) g = some v →
      v.GlobalShaped (.tile l) (tparts t g).dims (tparts t g).cells)
    (htfilled : ∀ t, 0 ≤ t → t < 6 → ∀ g ∈ tfilled t, ∃ v, tglob (t * l.tileRanks) g = some v)
    (before between : List (FOp α)) (o : Op α) (ho : o.isStart = true)
    (hops : FullValid l mem parts tparts filled tfilled (before ++ .op o :: between ++ [.op (.wait (fullStarts before))])) :
    ∃ (fin : Int → FState α) (atStart beforeWait : FSnap α),
      (fullNet l junk tjunk (before ++ .op o :: between ++ [.op (.wait (fullStarts before))]) mem glob time gtime tglob
        tgtime).Completes buf (fun r => if r ∈ allRanks l then some (.ok (fin r)) else none) ∧
      FullRun l parts tparts before (.new l mem glob time gtime tglob tgtime) atStart ∧
      FullRun l parts tparts (.op o :: between) atStart beforeWait ∧
      WaitStep l o atStart.data.cube.mem beforeWait.data.cube.mem (fun r => (fin r).comm.mem) ∧
      (fin 0).glob = beforeWait.data.cube.glob ∧
      ∀ r ∈ allRanks l, MetaIs mem r (atStart.data.cube.mem r) ∧ MetaIs mem r (beforeWait.data.cube.mem r) := by
  obtain ⟨fin, pend, h1, h2, h3⟩ := C75_full hl hsq buf junk tjunk mem glob time gtime tglob tgtime parts tparts filled
    tfilled hglob hfilled htglob htfilled _ hops
  obtain ⟨w1, h4, w2, ⟨⟨g1, -, o', m0, k, hw⟩, -⟩, -, e1, -⟩ := fullRun_append h2
  obtain ⟨w0, h5, h6⟩ := fullRun_append h4
  have hm1 := fullRun_meta hl h4 hops.calls.prefix (fun r _ q => SameMeta.refl _)
  have hm0 := fullRun_meta hl h5 hops.calls.prefix.prefix (fun r _ q => SameMeta.refl _)
  have hk : o' = o ∧ m0 = w0.data.cube.mem := by
    obtain ⟨s1, a1, b1⟩ := fullRun_started h5
    have a1 : w0.started = s1 := a1
    obtain ⟨v, h7, h8⟩ := h6
    obtain ⟨s2, a2, -⟩ := fullRun_started h8
    have h9 : v.started = w0.started ++ [(o, w0.data.cube.mem)] := by
      cases o with
      | wait i => cases ho
      | compute f => cases ho
      | _ => exact h7.1.2.1
    have k : w1.started[fullStarts before]? = some (o', m0) := k
    rw [a2, h9, a1, List.append_assoc, ← b1] at k
    simp only [List.getElem?_append_right (Nat.le_refl _), Nat.sub_self, List.singleton_append,
      List.getElem?_cons_zero, Option.some.injEq, Prod.mk.injEq] at k
    exact ⟨k.1.symm, k.2.symm⟩
  obtain ⟨rfl, rfl⟩ := hk
  refine ⟨fin, w0, w1, h1, h5, h6, fun r hr => ?_, e1.glob.trans g1, fun r hr => ⟨hm0 r hr, hm1 r hr⟩⟩
  obtain ⟨inc, i1, i2⟩ := hw r hr
  exact ⟨inc, i1, i2.trans (congrArg _ (e1.mem r ((cube_ranks l r).2 hr)).symm)⟩

/-- **C75**: a halo update started in a session: after the wait the halo holds the values which the owners of the
points had at the start, and everything else is as it was just before the wait. -/
theorem C75_outstanding_halo {l : Layout} (hl : FloatSafe l) (hsq : l.y = l.x) (buf : Buffering)
    (junk tjunk : Nat → List Nat → α)
    (mem : Int → Mem α) (glob : Int → Nat → Option (Quantity α)) (time gtime : Int → Nat → Option Int)
    (tglob : Int → Nat → Option (Quantity α)) (tgtime : Int → Nat → Option Int)
    (parts : Nat → Parts) (tparts : Int → Nat → Parts) (filled : List Nat) (tfilled : Int → List Nat)
    (hglob : ∀ g v, glob 0 g = some v → v.GlobalShaped (.cube l) (parts g).dims (parts g).cells)
    (hfilled : ∀ g ∈ filled, ∃ v, glob 0 g = some v)
    (htglob : ∀ t, 0 ≤ t → t < 6 → ∀ g v, tglob (t * l.tileRanks) g = some v →
      v.GlobalShaped (.tile l) (tparts t g).dims (tparts t g).cells)
    (htfilled : ∀ t, 0 ≤ t → t < 6 → ∀ g ∈ tfilled t, ∃ v, tglob (t * l.tileRanks) g = some v)
    (before between : List (FOp α)) {q ky kx : Nat} {n h : Int} (hh : 0 < h) (hn : h ≤ n)
    (S : ScalarField l mem q ky kx n h)
    (hops : FullValid l mem parts tparts filled tfilled
      (before ++ .op (.halo q h) :: between ++ [.op (.wait (fullStarts before))])) :
    ∃ (fin : Int → FState α) (atStart beforeWait : FSnap α),
      (fullNet l junk tjunk (before ++ .op (.halo q h) :: between ++ [.op (.wait (fullStarts before))]) mem glob time gtime
        tglob tgtime).Completes buf (fun r => if r ∈ allRanks l then some (.ok (fin r)) else none) ∧
      FullRun l parts tparts before (.new l mem glob time gtime tglob tgtime) atStart ∧
      FullRun l parts tparts (.op (.halo q h) :: between) atStart beforeWait ∧
      HaloFilled l q ky kx n h atStart.data.cube.mem (fun r => (fin r).comm.mem) ∧
      OnlyHaloChanged l q ky kx n h beforeWait.data.cube.mem (fun r => (fin r).comm.mem) := by
  obtain ⟨fin, w0, w1, h1, h2, h3, h4, -, h5⟩ := C75_outstanding hl hsq buf junk tjunk mem glob time gtime tglob tgtime
    parts tparts filled tfilled hglob hfilled htglob htfilled before between _ rfl hops
  have S0 := S.same fun r hr => (h5 r hr).1
  have hp : ∀ r ∈ allRanks l, ∀ q', SameMeta (w0.data.cube.mem r q') (w1.data.cube.mem r q') := fun r hr q' =>
    ((h5 r hr).1 q').symm.trans ((h5 r hr).2 q')
  exact ⟨fin, w0, w1, h1, h2, h3, wait_filled hl.xpos hsq hh hn S0 hp h4, wait_only hl.xpos hsq hh hn S0 hp h4⟩

/-- **C75**: a vector halo update started in a session: after the wait the halos hold the components of the vectors which
the owners of the points had at the start, and everything else is as it was just before the wait. -/
theorem C75_outstanding_vector {l : Layout} (hl : FloatSafe l) (hsq : l.y = l.x) (buf : Buffering)
    (junk tjunk : Nat → List Nat → α)
    (mem : Int → Mem α) (glob : Int → Nat → Option (Quantity α)) (time gtime : Int → Nat → Option Int)
    (tglob : Int → Nat → Option (Quantity α)) (tgtime : Int → Nat → Option Int)
    (parts : Nat → Parts) (tparts : Int → Nat → Parts) (filled : List Nat) (tfilled : Int → List Nat)
    (hglob : ∀ g v, glob 0 g = some v → v.GlobalShaped (.cube l) (parts g).dims (parts g).cells)
    (hfilled : ∀ g ∈ filled, ∃ v, glob 0 g = some v)
    (htglob : ∀ t, 0 ≤ t → t < 6 → ∀ g v, tglob (t * l.tileRanks) g = some v →
      v.GlobalShaped (.tile l) (tparts t g).dims (tparts t g).cells)
    (htfilled : ∀ t, 0 ≤ t → t < 6 → ∀ g ∈ tfilled t, ∃ v, tglob (t * l.tileRanks) g = some v)
    (before between : List (FOp α)) {x y ky kx : Nat} {n h : Int} (hxy : x ≠ y) (hh : 0 < h) (hn : h ≤ n)
    (S : VectorField l mem x y ky kx n h)
    (hops : FullValid l mem parts tparts filled tfilled
      (before ++ .op (.vector x y h) :: between ++ [.op (.wait (fullStarts before))])) :
    ∃ (fin : Int → FState α) (atStart beforeWait : FSnap α),
      (fullNet l junk tjunk (before ++ .op (.vector x y h) :: between ++ [.op (.wait (fullStarts before))]) mem glob time
        gtime tglob tgtime).Completes buf (fun r => if r ∈ allRanks l then some (.ok (fin r)) else none) ∧
      FullRun l parts tparts before (.new l mem glob time gtime tglob tgtime) atStart ∧
      FullRun l parts tparts (.op (.vector x y h) :: between) atStart beforeWait ∧
      VectorHaloFilled l x y ky kx n h atStart.data.cube.mem (fun r => (fin r).comm.mem) ∧
      OnlyVectorHaloChanged l x y ky kx n h beforeWait.data.cube.mem (fun r => (fin r).comm.mem) := by
  obtain ⟨fin, w0, w1, h1, h2, h3, h4, -, h5⟩ := C75_outstanding hl hsq buf junk tjunk mem glob time gtime tglob tgtime
    parts tparts filled tfilled hglob hfilled htglob htfilled before between _ rfl hops
  have S0 := S.same fun r hr => (h5 r hr).1
  have hp : ∀ r ∈ allRanks l, ∀ q', SameMeta (w0.data.cube.mem r q') (w1.data.cube.mem r q') := fun r hr q' =>
    ((h5 r hr).1 q').symm.trans ((h5 r hr).2 q')
  exact ⟨fin, w0, w1, h1, h2, h3, vector_wait_filled hl.xpos hsq hh hn hxy S0 hp h4,
    vector_wait_only hl.xpos hsq hh hn hxy S0 hp h4⟩

/-- **C75**: a synchronisation started in a session: after the wait the north and east edges hold the components of the
vectors which the neighbours had there at the start, and everything else is as it was just before the wait. -/
theorem C75_outstanding_sync {l : Layout} (hl : FloatSafe l) (hsq : l.y = l.x) (buf : Buffering)
    (junk tjunk : Nat → List Nat → α)
    (mem : Int → Mem α) (glob : Int → Nat → Option (Quantity α)) (time gtime : Int → Nat → Option Int)
    (tglob : Int → Nat → Option (Quantity α)) (tgtime : Int → Nat → Option Int)
    (parts : Nat → Parts) (tparts : Int → Nat → Parts) (filled : List Nat) (tfilled : Int → List Nat)
    (hglob : ∀ g v, glob 0 g = some v → v.GlobalShaped (.cube l) (parts g).dims (parts g).cells)
    (hfilled : ∀ g ∈ filled, ∃ v, glob 0 g = some v)
    (htglob : ∀ t, 0 ≤ t → t < 6 → ∀ g v, tglob (t * l.tileRanks) g = some v →
      v.GlobalShaped (.tile l) (tparts t g).dims (tparts t g).cells)
    (htfilled : ∀ t, 0 ≤ t → t < 6 → ∀ g ∈ tfilled t, ∃ v, tglob (t * l.tileRanks) g = some v)
    (before between : List (FOp α)) {x y ky kx : Nat} {n : Int} (S : SyncField l mem x y ky kx n)
    (hops : FullValid l mem parts tparts filled tfilled
      (before ++ .op (.sync x y) :: between ++ [.op (.wait (fullStarts before))])) :
    ∃ (fin : Int → FState α) (atStart beforeWait : FSnap α),
      (fullNet l junk tjunk (before ++ .op (.sync x y) :: between ++ [.op (.wait (fullStarts before))]) mem glob time
        gtime tglob tgtime).Completes buf (fun r => if r ∈ allRanks l then some (.ok (fin r)) else none) ∧
      FullRun l parts tparts before (.new l mem glob time gtime tglob tgtime) atStart ∧
      FullRun l parts tparts (.op (.sync x y) :: between) atStart beforeWait ∧
      EdgesFilled l atStart.data.cube.mem (fun r => (fin r).comm.mem) x y ky kx n ∧
      OnlyEdgesChanged l x y ky kx beforeWait.data.cube.mem (fun r => (fin r).comm.mem) := by
  obtain ⟨fin, w0, w1, h1, h2, h3, h4, -, h5⟩ := C75_outstanding hl hsq buf junk tjunk mem glob time gtime tglob tgtime
    parts tparts filled tfilled hglob hfilled htglob htfilled before between _ rfl hops
  have S0 := S.same' fun r hr => (h5 r hr).1
  have hp : ∀ r ∈ allRanks l, ∀ q', SameMeta (w0.data.cube.mem r q') (w1.data.cube.mem r q') := fun r hr q' =>
    ((h5 r hr).1 q').symm.trans ((h5 r hr).2 q')
  exact ⟨fin, w0, w1, h1, h2, h3, sync_wait_filled hl.xpos hsq S0 hp h4, sync_wait_only hl.xpos hsq S0 hp h4⟩

/-! ### A concrete case -/

/-- Calls between the start and the wait: all tiles gather quantity 1 (which makes the tile communicators), a computation,
tile 3 alone scatters what it has gathered to quantity 0 of its ranks, all ranks gather a state. -/
def exFullBetween : List (FOp α) :=
  [.tiles fun _ => some (.gather 1 0), .op (.compute exNext), .tiles fun t => if t = 3 then some (.scatter 0 0) else none,
    .coll (.gatherState 0 0 exVars)]

theorem exFull_valid (z : α) (F : Int → Nat → List Nat → α) :
    FullValid ⟨2, 2⟩ (exAnyMem z F) exParts (fun _ => exParts) [] (fun _ => [])
      ([] ++ .op (.halo 0 1) :: exFullBetween ++ [.op (.wait (fullStarts ([] : List (FOp α))))]) := by
  have ht : ∀ t, 0 ≤ t → t < 6 → ∀ q g, PartsOn (.tile ⟨2, 2⟩)
      (fun i => exAnyMem z F (t * (⟨2, 2⟩ : Layout).tileRanks + i)) q (exParts g) := fun t t0 t6 => exAny_onTile z F t0 t6
  refine ⟨⟨?_, fun t t0 t6 a ha => ?_, ?_, fun t t0 t6 a ha => ?_, ?_, trivial, trivial⟩, ?_, ?_, .inl fun _ _ _ h => by cases h⟩
  · have R := (exSession_run z (fun _ _ => z) 0).field
    refine ⟨0, 1, 3, by decide, by decide, fun r hr => ?_, R.2, R.3, R.4⟩
    have h := R.1 r hr
    exact ⟨⟨⟨rfl, rfl, rfl⟩, h.wf.2⟩, h.2, h.3, h.4, h.5, h.6⟩
  · cases ha
    exact ht t t0 t6 _ _
  · exact fun r _ mem hm q' => ⟨(hm q').shape, (hm q').dims, (hm q').units, (hm q').origin, (hm q').extent⟩
  · dsimp only at ha
    split at ha
    · cases ha
      exact ⟨(by decide : (0 : Nat) ∈ [0]), ht t t0 t6 _ _⟩
    · cases ha
  · exact ⟨exVars_good, by decide, fun v _ => (exAny_parts z F _ _).on⟩
  · show WaitsStarted [.halo 0 1, .compute exNext, .wait 0]
    intro d i hd
    match d, hd with
    | 2, hd => simp at hd; subst hd; show 0 < 1; decide
    | d + 3, hd => simp at hd
  · show ([0] : List Nat).Nodup
    decide

omit [Neg α] in
theorem GatheredFrom.congr {c : Comm} {dims : List Dim} {cells : List Int} {send send' : Int → Quantity α}
    {root : Quantity α} (h : GatheredFrom c dims cells send root) (he : ∀ r ∈ c.ranks, send r = send' r) :
    GatheredFrom c dims cells send' root := by
  intro p hp
  obtain ⟨r, rel, h1, h2, h3⟩ := h p hp
  have h0 : (0 : Int) ∈ c.ranks := by
    have := (mem_ranks c r).1 h1.1
    exact (mem_ranks c 0).2 ⟨by omega, by omega⟩
  rw [he 0 h0] at h1
  rw [he r h1.1] at h3
  exact ⟨r, rel, h1, h2, h3⟩

/-- 24 ranks with any values.  While a halo update of quantity 0 is outstanding, the tile communicators are made and used,
the quantities are changed, and a state is gathered: all ranks return, the halos of quantity 0 hold what the ranks had
at the start, every tile has gathered quantity 1, with the values at the start, and root has the state, with values that
are not those at the start. -/
example (buf : Buffering) (z : α) (F : Int → Nat → List Nat → α) :
    ∃ (fin : Int → FState α) (w0 w1 w : FSnap α),
      (fullNet ⟨2, 2⟩ (fun _ _ => z) (fun _ _ => z) ([] ++ .op (.halo 0 1) :: exFullBetween ++ [.op (.wait 0)])
        (exAnyMem z F) (fun _ _ => none) (fun _ _ => none) (fun _ _ => none) (fun _ _ => none)
        (fun _ _ => none)).Completes buf (fun r => if r ∈ allRanks ⟨2, 2⟩ then some (.ok (fin r)) else none) ∧
      (∀ r ∈ allRanks ⟨2, 2⟩, w0.data.cube.mem r = exAnyMem z F r) ∧
      HaloFilled ⟨2, 2⟩ 0 0 1 3 1 w0.data.cube.mem (fun r => (fin r).comm.mem) ∧
      (∀ t, 0 ≤ t → t < 6 → ∃ v, w1.data.tglob t 0 = some v ∧ GatheredFrom (.tile ⟨2, 2⟩) [.y, .x] [3, 3]
        (fun i => w0.data.cube.mem (t * 4 + i) 1) v) ∧
      ∃ v, w.data.cube.glob 4 = some v ∧
        GatheredFrom (.cube ⟨2, 2⟩) [.y, .x] [3, 3] (fun r => exNext r (w0.data.cube.mem r) 2) v := by
  have s2 : FloatSafe ⟨2, 2⟩ := C05_safe_up_to_48 _ (by decide) (by decide) (by decide) (by decide)
  have R := (exSession_run z (fun _ _ => z) 0).field
  have S : ScalarField ⟨2, 2⟩ (exAnyMem z F) 0 0 1 3 1 := ⟨fun r hr => by
    have h := R.1 r hr
    exact ⟨⟨⟨rfl, rfl, rfl⟩, h.wf.2⟩, h.2, h.3, h.4, h.5, h.6⟩, R.2, R.3, R.4⟩
  obtain ⟨fin, w0, w5, h1, h2, ⟨wa, h3, wb, h4, wc, h5, wd, h6, we, h7, h8⟩, h9, -⟩ :=
    C75_outstanding_halo s2 rfl buf (fun _ _ => z) (fun _ _ => z) (exAnyMem z F) (fun _ _ => none)
    (fun _ _ => none) (fun _ _ => none) (fun _ _ => none) (fun _ _ => none) exParts
    (fun _ => exParts) [] (fun _ => []) (fun _ _ h => by cases h) (fun _ h => by cases h) (fun _ _ _ _ _ h => by cases h)
    (fun _ _ _ _ h => by cases h) [] exFullBetween (by decide) (by decide) S (exFull_valid z F)
  refine ⟨fin, w0, wb, we, h1, fun r hr => h2.2.1.mem r ((cube_ranks _ r).2 hr), h9, fun t t0 t6 => ?_, ?_⟩
  · obtain ⟨-, -, -, v, a, -, b, -⟩ := h4.2.2.2 t t0 t6
    refine ⟨v, a, b.congr fun i hi => ?_⟩
    have : t * 4 + i ∈ allRanks ⟨2, 2⟩ := by
      obtain ⟨i0, i4⟩ := (mem_ranks (.tile ⟨2, 2⟩) i).1 hi
      have i4 : i < 4 := i4
      exact mem_allRanks.2 ⟨by omega, by show _ < (24 : Int); omega⟩
    exact congrFun (h3.1.2.2 _ this).2 1
  · obtain ⟨v, a, -, b, -⟩ := h7.2.1.2.2.2.2 ⟨"height", 2, 4⟩ (by simp [exVars])
    refine ⟨v, a, b.congr fun r hr => ?_⟩
    have hr := (cube_ranks _ r).1 hr
    have e1 : wd.data.cube.mem r 2 = wc.data.cube.mem r 2 := by
      have hn : (0 : Int) < (⟨2, 2⟩ : Layout).tileRanks := by decide
      obtain ⟨r0, r6⟩ := mem_allRanks.1 hr
      have hd := div_range hn r0 r6
      have := h6.2.2.2 _ hd.1 hd.2
      have hi : r % (⟨2, 2⟩ : Layout).tileRanks ∈ (Comm.tile ⟨2, 2⟩).ranks :=
        (mem_ranks (.tile ⟨2, 2⟩) _).2 ⟨Int.emod_nonneg _ (by decide), Int.emod_lt_of_pos _ hn⟩
      have he : r / (⟨2, 2⟩ : Layout).tileRanks * (⟨2, 2⟩ : Layout).tileRanks + r % (⟨2, 2⟩ : Layout).tileRanks = r := by
        have := Int.emod_add_mul_ediv r (⟨2, 2⟩ : Layout).tileRanks
        rw [Int.mul_comm] at this
        omega
      dsimp only at this
      by_cases h : r / (⟨2, 2⟩ : Layout).tileRanks = 3
      · rw [if_pos h] at this
        obtain ⟨-, -, v, -, this⟩ := this
        have := (this _ hi).2.2.2 2 (by decide)
        unfold CubeSnap.ofTile at this
        dsimp only at this
        rwa [he] at this
      · rw [if_neg h] at this
        have := this.mem _ hi
        unfold CubeSnap.ofTile at this
        dsimp only at this
        rw [he] at this
        exact congrFun this 2
    have e2 : wc.data.cube.mem r = exNext r (wb.data.cube.mem r) := h5.1.2.2 r hr
    have e3 : wb.data.cube.mem r = wa.data.cube.mem r := by
      have hn : (0 : Int) < (⟨2, 2⟩ : Layout).tileRanks := by decide
      obtain ⟨r0, r6⟩ := mem_allRanks.1 hr
      have hd := div_range hn r0 r6
      obtain ⟨this, -⟩ := h4.2.2.2 _ hd.1 hd.2
      have hi : r % (⟨2, 2⟩ : Layout).tileRanks ∈ (Comm.tile ⟨2, 2⟩).ranks :=
        (mem_ranks (.tile ⟨2, 2⟩) _).2 ⟨Int.emod_nonneg _ (by decide), Int.emod_lt_of_pos _ hn⟩
      have he : r / (⟨2, 2⟩ : Layout).tileRanks * (⟨2, 2⟩ : Layout).tileRanks + r % (⟨2, 2⟩ : Layout).tileRanks = r := by
        have := Int.emod_add_mul_ediv r (⟨2, 2⟩ : Layout).tileRanks
        rw [Int.mul_comm] at this
        omega
      have := (this _ hi).1
      unfold CubeSnap.ofTile at this
      dsimp only at this
      rwa [he] at this
    show wd.data.cube.mem r 2 = _
    have e4 : wa.data.cube.mem r = w0.data.cube.mem r := (h3.1.2.2 r hr).2
    rw [e1, e2, e3, e4]

end FV3
