import Verif.Model.AsyncSession
import Verif.Model.TileSplit

/-!
# Complete sessions

Everything a program does with one cubed-sphere communicator: halo updates, vector halo updates and synchronisations
which are started and waited for in separate calls (as in `Verif.Model.AsyncSession`), the collective calls of the
cubed-sphere communicator, also for states (as in `Verif.Model.StateSession`), and those of its tile communicators, which
are made when they are first used (as in `Verif.Model.TileSplit`).
-/

namespace FV3
variable {α : Type}

/-- A call of a complete session. (communicator.py:52-58, 81-283, 335-346, 388-403, 461-491, 512-535) -/
inductive FOp (α : Type) where
  /-- A start, a `wait` of the request that the start number `i` of this session returned, or a computation.
  (communicator.py:52-58, 388-403, 461-491, 512-535) -/
  | op (o : Op α)
  /-- A collective call of the cubed-sphere communicator. (communicator.py:81-283) -/
  | coll (o : COp)
  /-- The ranks of tile `t` make the call `o t` of `communicator.tile`, or none. (communicator.py:81-283, 335-346) -/
  | tiles (o : Int → Option COp)

/-- State of a rank: quantities, `_last_halo_tag` and requests; global quantities, and the number of collective MPI calls
it has made; times of its states and of its global states; its tile quantities, times of its tile states and the number of
collective MPI calls made with the tile's communicator; the tile communicator if it was made.
(communicator.py:306-318, 335-346) -/
structure FState (α : Type) where
  comm : RankState α
  glob : Nat → Option (Quantity α)
  coll : Nat
  time : Nat → Option Int
  gtime : Nat → Option Int
  tglob : Nat → Option (Quantity α)
  tgtime : Nat → Option Int
  tcoll : Nat
  tile : Option (List (Int × Int))

/-- What collective calls work with (they do not use `_last_halo_tag`). (communicator.py:81-283, 335-346) -/
def FState.lazy (s : FState α) : LazyState α :=
  ⟨⟨⟨⟨s.comm.mem, s.glob, 0, s.coll⟩, s.time, s.gtime⟩, s.tglob, s.tgtime, s.tcoll⟩, s.tile⟩

/-- The state after a collective call: `_last_halo_tag` and the requests are as before.
(communicator.py:81-283, 335-346) -/
def FState.after (s : FState α) (v : LazyState α) : FState α where
  comm := { s.comm with mem := v.s.base.s.mem }
  glob := v.s.base.s.glob
  coll := v.s.base.s.coll
  time := v.s.base.time
  gtime := v.s.base.gtime
  tglob := v.s.tglob
  tgtime := v.s.tgtime
  tcoll := v.s.tcoll
  tile := v.tile

/-- One call of rank `r`. (communicator.py:52-58, 81-283, 335-346, 388-403, 461-491, 512-535) -/
def FOp.exec [Neg α] (l : Layout) (junk tjunk : Nat → List Nat → α) (r : Int) :
    FOp α → FState α → Proc (Msg α) (Py (FState α))
  | .op o, s => (o.exec l r s.comm).bind fun y =>
    match y.1 with
    | .error e => .ret (.error e)
    | .ok _ => .ret (.ok { s with comm := y.2 })
  | .coll o, s => (o.exec (.cube l) junk r s.lazy.s.base).bind fun x =>
    match x with
    | .error e => .ret (.error e)
    | .ok b => .ret (.ok (s.after { s.lazy with s := { s.lazy.s with base := b } }))
  | .tiles o, s => ((UOp.tiles o).execLazy l junk tjunk r s.lazy).bind fun x =>
    match x with
    | .error e => .ret (.error e)
    | .ok v => .ret (.ok (s.after v))

/-- A sequence of calls; an exception ends it. (communicator.py:52-58, 81-283, 335-346, 388-403, 461-491, 512-535) -/
def execFull [Neg α] (l : Layout) (junk tjunk : Nat → List Nat → α) (r : Int) :
    List (FOp α) → FState α → Proc (Msg α) (Py (FState α))
  | [], s => .ret (.ok s)
  | op :: ops, s => (op.exec l junk tjunk r s).bind fun x =>
    match x with
    | .error e => .ret (.error e)
    | .ok s' => execFull l junk tjunk r ops s'

/-- The state of a rank with a new communicator: no requests, no tile communicator. (communicator.py:306-318) -/
def FState.new (mem : Mem α) (glob : Nat → Option (Quantity α)) (time gtime : Nat → Option Int)
    (tglob : Nat → Option (Quantity α)) (tgtime : Nat → Option Int) : FState α :=
  ⟨⟨mem, 0, []⟩, glob, 0, time, gtime, tglob, tgtime, 0, none⟩

/-- All ranks make the same calls (of the tile communicators: all ranks of the tile), with a new cubed-sphere
communicator. (communicator.py:52-58, 81-283, 306-346, 388-403, 461-491, 512-535) -/
def fullNet [Neg α] (l : Layout) (junk tjunk : Nat → List Nat → α) (ops : List (FOp α)) (mem : Int → Mem α)
    (glob : Int → Nat → Option (Quantity α)) (time gtime : Int → Nat → Option Int)
    (tglob : Int → Nat → Option (Quantity α)) (tgtime : Int → Nat → Option Int) :
    Net (Msg α) (Option (Py (FState α))) :=
  Net.start fun r =>
    if r ∈ allRanks l then
      (execFull l junk tjunk r ops (.new (mem r) (glob r) (time r) (gtime r) (tglob r) (tgtime r))).bind
        fun x => .ret (some x)
    else .ret none

end FV3
