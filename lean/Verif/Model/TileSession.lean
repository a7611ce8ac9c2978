import Verif.Model.StateSession
import Verif.Model.TileComm

/-!
# Sessions with the tile communicators

Calls of a cubed-sphere communicator as in `Verif.Model.StateSession`, and among them calls of its tile communicators
`communicator.tile` (communicator.py:335-346).  The tiles need not make the same calls of their tile communicators.
-/

namespace FV3
variable {α : Type}

/-- A collective call of a communicator.  The quantities of a rank, its global quantities, its states and its global
states are numbered. (communicator.py:81-283) -/
inductive COp where
  /-- communicator.py:81-130 `scatter(global quantity g, recv_quantity=quantity q)` -/
  | scatter (q g : Nat)
  /-- communicator.py:158-205 `gather(quantity q, recv_quantity=global quantity g)` -/
  | gather (q g : Nat)
  /-- communicator.py:237-283 `scatter_state(global state j, recv_state=state i of the rank)` -/
  | scatterState (i j : Nat) (vars : List StateVar)
  /-- communicator.py:207-235 `gather_state(state i of the rank, recv_state=global state j)` -/
  | gatherState (i j : Nat) (vars : List StateVar)

/-- A collective call by rank `r` of communicator `c`. (communicator.py:81-283) -/
def COp.exec (c : Comm) (junk : Nat → List Nat → α) (r : Int) : COp → SessState α → Proc (Msg α) (Py (SessState α))
  | .scatter q g, s =>
    (FV3.scatter c (junk s.s.coll) r (s.s.glob g) (some (s.s.mem q)) s.s.coll).bind fun x =>
    match x.1 with
    | .error e => .ret (.error e)
    | .ok part => .ret (.ok { s with s := { s.s with mem := s.s.mem.put q part, coll := x.2 } })
  | .gather q g, s =>
    (FV3.gather c (junk s.s.coll) r (s.s.mem q) (s.s.glob g) s.s.coll).bind fun x =>
    match x.1 with
    | .error e => .ret (.error e)
    | .ok res =>
      .ret (.ok { s with s := { s.s with glob := fun g' => if g' = g then res else s.s.glob g', coll := x.2 } })
  | .scatterState i j vars, s =>
    (FV3.scatterState c (junk s.s.coll) r (some (s.globDict j vars)) (some (s.rankDict i vars)) s.s.coll).bind fun x =>
    match x.1 with
    | .error e => .ret (.error e)
    | .ok d => .ret (.ok { s with
        s := { s.s with mem := putVars d vars s.s.mem, coll := x.2 }, time := putTime s.time i (timeIn d) })
  | .gatherState i j vars, s =>
    (FV3.gatherState c (junk s.s.coll) r (s.rankDict i vars) (some (s.globDict j vars)) s.s.coll).bind fun x =>
    match x.1 with
    | .error e => .ret (.error e)
    | .ok none => .ret (.ok { s with s := { s.s with coll := x.2 } })
    | .ok (some d) => .ret (.ok { s with
        s := { s.s with glob := putGlobs d vars s.s.glob, coll := x.2 }, gtime := putTime s.gtime j (timeIn d) })

/-- A call of a session with tile communicators. (communicator.py:18-350) -/
inductive UOp (α : Type) where
  /-- A call of the cubed-sphere communicator, or a computation. (communicator.py:81-283, 378-510) -/
  | op (o : TOp α)
  /-- The ranks of tile `t` make the call `o t` of `communicator.tile`, or none. (communicator.py:81-283, 335-346) -/
  | tiles (o : Int → Option COp)

/-- State of a rank: as in a session without tile communicators, and the tile quantities and the times of the tile states
it has (those of the root ranks of the tiles matter), and the number of collective MPI calls made with the tile's
communicator. (communicator.py:81-283, 335-346) -/
structure TileState (α : Type) where
  base : SessState α
  tglob : Nat → Option (Quantity α)
  tgtime : Nat → Option Int
  tcoll : Nat

/-- What the rank's tile communicator works with: the rank's quantities and states, and its tile quantities and tile states
as the global ones. (communicator.py:81-283, 335-346) -/
def TileState.view (s : TileState α) : SessState α :=
  ⟨⟨s.base.s.mem, s.tglob, s.base.s.tag, s.tcoll⟩, s.base.time, s.tgtime⟩

/-- The state of the rank after its tile communicator has changed what it works with.
(communicator.py:81-283, 335-346) -/
def TileState.after (s : TileState α) (v : SessState α) : TileState α :=
  { base := { s.base with s := { s.base.s with mem := v.s.mem }, time := v.time },
    tglob := v.s.glob, tgtime := v.gtime, tcoll := v.s.coll }

/-- The messages of a collective of the communicator of tile `t` are apart from all other messages.
(MPI behind communicator.py:343-345) -/
def Tag.inTile (t : Int) : Tag → Tag
  | .coll n => .tile t n
  | .halo n => .halo n
  | .tile t n => .tile t n

/-- A program with other tags. (MPI behind communicator.py:343-345) -/
def Proc.retag {M R : Type} (f : Tag → Tag) : Proc M R → Proc M R
  | .ret x => .ret x
  | .isend d t m k => .isend d (f t) m fun i => (k i).retag f
  | .recv s t k => .recv s (f t) fun m => (k m).retag f
  | .await d t i k => .await d (f t) i fun u => (k u).retag f

/-- One call of rank `r`. (communicator.py:81-283, 335-346, 378-510) -/
def UOp.exec [Neg α] (l : Layout) (junk tjunk : Nat → List Nat → α) (r : Int) :
    UOp α → TileState α → Proc (Msg α) (Py (TileState α))
  | .op o, s => (o.exec l junk r s.base).bind fun x =>
    match x with
    | .error e => .ret (.error e)
    | .ok b => .ret (.ok { s with base := b })
  | .tiles o, s =>
    match o (tileColor l r) with
    | none => .ret (.ok s)
    | some a =>
      (((a.exec (.tile l) tjunk (tileCommRank l r) s.view).retag (.inTile (tileColor l r))).renumber (tileMember l r)).bind
        fun x => match x with
          | .error e => .ret (.error e)
          | .ok v => .ret (.ok (s.after v))

/-- A sequence of calls; an exception ends it. (communicator.py:81-283, 335-346, 378-510) -/
def execTiles [Neg α] (l : Layout) (junk tjunk : Nat → List Nat → α) (r : Int) :
    List (UOp α) → TileState α → Proc (Msg α) (Py (TileState α))
  | [], s => .ret (.ok s)
  | op :: ops, s => (op.exec l junk tjunk r s).bind fun x =>
    match x with
    | .error e => .ret (.error e)
    | .ok s' => execTiles l junk tjunk r ops s'

/-- All ranks make the same calls (of the tile communicators: all ranks of the tile), with new communicators.
(communicator.py:81-283, 335-346, 378-510) -/
def tileSessionNet [Neg α] (l : Layout) (junk tjunk : Nat → List Nat → α) (ops : List (UOp α)) (mem : Int → Mem α)
    (glob : Int → Nat → Option (Quantity α)) (time gtime : Int → Nat → Option Int)
    (tglob : Int → Nat → Option (Quantity α)) (tgtime : Int → Nat → Option Int) :
    Net (Msg α) (Option (Py (TileState α))) :=
  Net.start fun r =>
    if r ∈ allRanks l then
      (execTiles l junk tjunk r ops ⟨⟨⟨mem r, glob r, 0, 0⟩, time r, gtime r⟩, tglob r, tgtime r, 0⟩).bind
        fun x => .ret (some x)
    else .ret none

end FV3
