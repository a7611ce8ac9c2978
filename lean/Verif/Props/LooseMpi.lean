import Verif.Proofs.LateRun
import Verif.Proofs.LooseMpi
import Verif.Props.TileSplit
import Verif.Props.AsyncSession
import Verif.Props.Deadlock

/-!
# C71: MPI compares no shapes, and need not
-/

namespace FV3
variable {α : Type} [Neg α]

/-- **C71** for sessions with blocking calls and collectives of the cubed-sphere communicator and its tile
communicators: also if MPI checks nothing of a message but that it is not longer than the receive buffer (it is stored in
the order of memory, whatever the shapes, and the rest of the buffer keeps what happened to be there), the session ends
on all ranks, whatever the schedule and the buffering of MPI, and has the effect of performing the calls one after the
other. -/
theorem C71_lazy {l : Layout} (hl : FloatSafe l) (hsq : l.y = l.x) (buf : Buffering) (junk tjunk : Nat → List Nat → α)
    (left : Int → List Nat → α)
    (mem : Int → Mem α) (glob : Int → Nat → Option (Quantity α)) (time gtime : Int → Nat → Option Int)
    (tglob : Int → Nat → Option (Quantity α)) (tgtime : Int → Nat → Option Int)
    (parts : Nat → Parts) (tparts : Int → Nat → Parts) (filled : List Nat) (tfilled : Int → List Nat)
    (hglob : ∀ g v, glob 0 g = some v → v.GlobalShaped (.cube l) (parts g).dims (parts g).cells)
    (hfilled : ∀ g ∈ filled, ∃ v, glob 0 g = some v)
    (htglob : ∀ t, 0 ≤ t → t < 6 → ∀ g v, tglob (t * l.tileRanks) g = some v →
      v.GlobalShaped (.tile l) (tparts t g).dims (tparts t g).cells)
    (htfilled : ∀ t, 0 ≤ t → t < 6 → ∀ g ∈ tfilled t, ∃ v, tglob (t * l.tileRanks) g = some v)
    (ops : List (UOp α)) (hops : TilesValid l mem parts tparts filled tfilled ops) (hfirst : FirstUseTogether ops) :
    ∃ fin : Int → LazyState α,
      (Loose.lazySessionNet left l junk tjunk ops mem glob time gtime tglob tgtime).Completes buf (fun r =>
        if r ∈ allRanks l then some (.ok (fin r)) else none) ∧
      TilesRun l parts tparts ops
        ⟨⟨mem, glob 0, time, gtime 0⟩, fun t => tglob (t * l.tileRanks), fun t => tgtime (t * l.tileRanks)⟩
        ⟨⟨fun r => (fin r).s.base.s.mem, (fin 0).s.base.s.glob, fun r => (fin r).s.base.time, (fin 0).s.base.gtime⟩,
          fun t => (fin (t * l.tileRanks)).s.tglob, fun t => (fin (t * l.tileRanks)).s.tgtime⟩ ∧
      ∀ r ∈ allRanks l, MetaIs mem r (fin r).s.base.s.mem := by
  obtain ⟨fin, h1, h2⟩ := C70_lazy hl hsq buf junk tjunk mem glob time gtime tglob tgtime parts tparts filled tfilled
    hglob hfilled htglob htfilled ops hops hfirst
  refine ⟨fin, h1.agree (bad := Loose.ErrO) (fun r => ?_)
    (Loose.start_agree _ fun r => Loose.execLazy_agree (left r) l junk tjunk r ops _), h2⟩
  split
  · rintro ⟨e, he⟩
    cases he
  · rintro ⟨e, he⟩
    cases he

/-- **C71** for sessions in which updates are started and waited for in separate calls. -/
theorem C71_async {l : Layout} (hl : FloatSafe l) (hsq : l.y = l.x) (buf : Buffering) (junk : Nat → List Nat → α)
    (left : Int → List Nat → α)
    (mem : Int → Mem α) (glob : Int → Nat → Option (Quantity α)) (parts : Nat → Parts) (filled : List Nat)
    (hglob : ∀ g v, glob 0 g = some v → v.GlobalShaped (.cube l) (parts g).dims (parts g).cells)
    (hfilled : ∀ g ∈ filled, ∃ v, glob 0 g = some v)
    (ops : List (AOp α)) (hops : AsyncValid l mem parts filled ops) :
    ∃ (fin : Int → AState α) (started : Pending α),
      (Loose.asyncNet left l junk ops mem glob).Completes buf (fun r =>
        if r ∈ allRanks l then some (.ok (fin r)) else none) ∧
      AsyncRun l parts ops ⟨mem, glob 0, []⟩ ⟨fun r => (fin r).comm.mem, (fin 0).glob, started⟩ ∧
      ∀ r ∈ allRanks l, MetaIs mem r (fin r).comm.mem := by
  obtain ⟨fin, started, h1, h2⟩ := C57_async hl hsq buf junk mem glob parts filled hglob hfilled ops hops
  refine ⟨fin, started, h1.agree (bad := Loose.ErrO) (fun r => ?_)
    (Loose.start_agree _ fun r => Loose.execAsync_agree (left r) l junk r ops _), h2⟩
  split
  · rintro ⟨e, he⟩
    cases he
  · rintro ⟨e, he⟩
    cases he

/-- The session of the example of C70, with any contents of the receive buffers. -/
example (buf : Buffering) (z : α) (F : Int → Nat → List Nat → α) (left : Int → List Nat → α) :
    ∃ fin : Int → LazyState α,
      (Loose.lazySessionNet left ⟨2, 2⟩ (fun _ _ => z) (fun _ _ => z) exLazy (exAnyMem z F) (fun _ _ => none)
        (fun _ _ => none) (fun _ _ => none) (fun _ _ => none) (fun _ _ => none)).Completes buf
        (fun r => if r ∈ allRanks ⟨2, 2⟩ then some (.ok (fin r)) else none) := by
  have hv : TilesValid ⟨2, 2⟩ (exAnyMem z F) exParts (fun _ => exParts) [] (fun _ => []) exLazy := by
    refine ⟨fun _ _ _ hm q' => ⟨(hm q').shape, (hm q').dims, (hm q').units, (hm q').origin, (hm q').extent⟩,
      fun t t0 t6 a ha => ?_, fun t t0 t6 a ha => ?_, exAny_parts z F _ _, trivial⟩
    · cases ha
      exact exAny_onTile z F t0 t6 _ _
    · dsimp only at ha
      split at ha
      · cases ha
        exact ⟨(by decide : (0 : Nat) ∈ [0]), exAny_onTile z F t0 t6 _ _⟩
      · cases ha
  obtain ⟨fin, h1, -⟩ := C71_lazy (C05_safe_up_to_48 ⟨2, 2⟩ (by decide) (by decide)
    (by decide) (by decide)) rfl buf (fun _ _ => z) (fun _ _ => z) left (exAnyMem z F) (fun _ _ => none)
    (fun _ _ => none) (fun _ _ => none) (fun _ _ => none) (fun _ _ => none) exParts
    (fun _ => exParts) [] (fun _ => []) (fun _ _ h => by cases h) (fun _ h => by cases h) (fun _ _ _ _ _ h => by cases h)
    (fun _ _ _ _ h => by cases h) exLazy
    hv
    (.inl fun _ _ _ h => by cases h)
  exact ⟨fin, h1⟩

/-- The session of the example of C57 with outstanding updates, with any contents of the receive buffers. -/
example (buf : Buffering) (z : α) (F : Vec3 → (Nat → Int) → α) (left : Int → List Nat → α) :
    ∃ fin : Int → AState α,
      (Loose.asyncNet left ⟨2, 2⟩ (fun _ _ => z) (exBefore ++ .op (.halo 0 1) :: exBetween ++ [.op (.wait 1)])
        (exRunMem 3 z) (fun r g => if r = 0 ∧ g = 0 then some (exRunG 6 F) else none)).Completes buf (fun r =>
        if r ∈ allRanks ⟨2, 2⟩ then some (.ok (fin r)) else none) := by
  obtain ⟨fin, -, h1, -⟩ := C71_async (C05_safe_up_to_48 ⟨2, 2⟩ (by decide) (by decide) (by decide) (by decide)) rfl buf
    (fun _ _ => z) left (exRunMem 3 z)
    (fun r g => if r = 0 ∧ g = 0 then some (exRunG 6 F) else none) exParts [0] (exSession_glob F z)
    (fun g hg => ⟨exRunG 6 F, by rw [if_pos ⟨rfl, List.mem_singleton.1 hg⟩]⟩) _ (exAsync_valid z)
  exact ⟨fin, h1⟩

omit [Neg α] in
/-- **C71**: what MPI does with a message, whatever the shapes: the elements of the message, in the order of memory, are
the first elements of the buffer, and the others keep what was there. -/
theorem C71_in_order {left : List Nat → α} {shape : List Nat} {v w : NDArray α}
    (h : Loose.received left shape v = .ok w) :
    w.shape = shape ∧ (allIdx v.shape).length ≤ (allIdx shape).length ∧
    (allIdx shape).map w.get =
      (allIdx v.shape).map v.get ++ ((allIdx shape).drop (allIdx v.shape).length).map left := by
  unfold Loose.received at h
  split at h
  next hle =>
    cases h
    refine ⟨rfl, hle, List.ext_getElem ?_ fun k h1 h2 => ?_⟩
    · simp only [List.length_map, List.length_append, List.length_drop]
      omega
    · simp only [List.length_map] at h1
      simp only [List.getElem_map, List.getElem_mem, if_true, (Late.nodup_allIdx shape).idxOf_getElem]
      by_cases hk : k < (allIdx v.shape).length
      · rw [List.getElem_append_left (by simpa using hk)]
        simp only [List.getElem_map, List.getElem?_eq_getElem hk]
      · rw [List.getElem_append_right (by simpa using hk)]
        simp only [List.getElem_map, List.getElem_drop, List.length_map, List.getElem?_eq_none (Nat.le_of_not_lt hk)]
        congr 2
        omega
  next => cases h

omit [Neg α] in
/-- **C71**: a message that does not fit is an exception. -/
theorem C71_too_long (left : List Nat → α) (shape : List Nat) (v : NDArray α) :
    (∃ e, Loose.received left shape v = .error e) ↔ (allIdx shape).length < (allIdx v.shape).length := by
  unfold Loose.received
  split
  next h => exact ⟨fun ⟨_, h⟩ => (by cases h), fun h' => by omega⟩
  next h => exact ⟨fun _ => by omega, fun _ => ⟨_, rfl⟩⟩

/-- Four elements in a buffer for six: row `[7, 8, 9]` and `10`, and then what was there. -/
example : ∃ w, Loose.received (fun i => (100 + i.getD 1 0 : Int)) [2, 3] ⟨[2, 2], fun i => 7 + 2 * i.getD 0 0 + i.getD 1 0⟩ = .ok w ∧
    (allIdx [2, 3]).map w.get = [7, 8, 9, 10, 101, 102] := by
  refine ⟨_, rfl, ?_⟩
  decide +kernel

/-! ### Limit: dimensions in another order on one rank -/

/-- A field on the six tiles, by tile, level, row and column. -/
def exSkewField (r z y x : Nat) : Int := 1000 * r + 100 * z + 10 * y + x

/-- The field on the ranks: with dims (z, y, x) but on rank 1, which has dims (y, x, z). -/
def exSkewMem : Int → Mem Int := fun r _ =>
  if r = 1 then
    { data := ⟨[2, 2, 3], fun i => exSkewField r.toNat (i.getD 2 0) (i.getD 0 0) (i.getD 1 0)⟩
      dims := [.y, .x, .z], units := "m", origin := [0, 0, 0], extent := [2, 2, 3] }
  else
    { data := ⟨[3, 2, 2], fun i => exSkewField r.toNat (i.getD 0 0) (i.getD 1 0) (i.getD 2 0)⟩
      dims := [.z, .y, .x], units := "m", origin := [0, 0, 0], extent := [3, 2, 2] }

/-- **C71** (limit): `gather` notices nothing if the dimensions of the quantity are in another order on one rank and the
number of elements is the same: it returns on all ranks without an exception, and the gathered field is wrong on the tile
of that rank.  (With an MPI that compared shapes there would be an exception.) -/
theorem C71_limit_gather :
    ∃ res, (Loose.lazySessionNet (fun _ _ => 0) ⟨1, 1⟩ (fun _ _ => 0) (fun _ _ => 0) [.op (.op (.gather 0 0))]
        exSkewMem (fun _ _ => none) (fun _ _ => none) (fun _ _ => none) (fun _ _ => none) (fun _ _ => none)).Completes
          (fun _ _ _ _ => true) res ∧
      (∀ r ∈ allRanks ⟨1, 1⟩, ∃ s, res r = some (.ok s)) ∧
      ∃ s w, res 0 = some (.ok s) ∧ s.s.base.s.glob 0 = some w ∧ w.dims = [.tile, .z, .y, .x] ∧
        w.data.shape = [6, 3, 2, 2] ∧ w.data.get [2, 0, 0, 1] = exSkewField 2 0 0 1 ∧
        w.data.get [1, 0, 0, 1] ≠ exSkewField 1 0 0 1 ∧ w.data.get [1, 1, 0, 0] = exSkewField 1 1 0 1 := by
  obtain ⟨res, h1, h2⟩ := completes_of (rs := allRanks ⟨1, 1⟩) (buf := fun _ _ _ _ => true)
    (N := Loose.lazySessionNet (fun _ _ => 0) ⟨1, 1⟩ (fun _ _ => 0) (fun _ _ => 0) [.op (.op (.gather 0 0))]
        exSkewMem (fun _ _ => none) (fun _ _ => none) (fun _ _ => none) (fun _ _ => none) (fun _ _ => none))
    (sched := greedy (fun _ _ _ _ => true) (allRanks ⟨1, 1⟩) 100
      (Loose.lazySessionNet (fun _ _ => 0) ⟨1, 1⟩ (fun _ _ => 0) (fun _ _ => 0) [.op (.op (.gather 0 0))]
        exSkewMem (fun _ _ => none) (fun _ _ => none) (fun _ _ => none) (fun _ _ => none) (fun _ _ => none)))
    (p := fun r x => match x with
      | some (.ok s) => r != 0 || (match s.s.base.s.glob 0 with
        | some w => w.dims == [.tile, .z, .y, .x] && w.data.shape == [6, 3, 2, 2] &&
            w.data.get [2, 0, 0, 1] == exSkewField 2 0 0 1 && w.data.get [1, 0, 0, 1] != exSkewField 1 0 0 1 &&
            w.data.get [1, 1, 0, 0] == exSkewField 1 1 0 1
        | none => false)
      | _ => false)
    (by decide +kernel) (fun r hr => ⟨none, by show (if r ∈ allRanks _ then _ else _) = _; rw [if_neg hr]⟩)
  refine ⟨res, h1, fun r hr => ?_, ?_⟩
  · have := h2 r hr
    cases hx : res r with
    | none => rw [hx] at this; cases this
    | some y =>
      cases y with
      | error e => rw [hx] at this; cases this
      | ok s => exact ⟨s, rfl⟩
  · have := h2 0 (by decide)
    cases hx : res 0 with
    | none => rw [hx] at this; cases this
    | some y =>
      cases y with
      | error e => rw [hx] at this; cases this
      | ok s =>
        rw [hx] at this
        dsimp only at this
        cases hw : s.s.base.s.glob 0 with
        | none => rw [hw] at this; cases this
        | some w =>
          rw [hw] at this
          simp only [bne_self_eq_false, Bool.false_or, Bool.and_eq_true, beq_iff_eq, bne_iff_ne] at this
          exact ⟨s, w, rfl, hw, this.1.1.1.1, this.1.1.1.2, this.1.1.2, this.1.2, this.2⟩

end FV3
