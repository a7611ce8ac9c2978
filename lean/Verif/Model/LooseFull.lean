import Verif.Model.LooseMpi
import Verif.Model.FullSession

/-!
# Complete sessions with an MPI that compares no shapes

`Verif.Model.FullSession` with the receives of `Verif.Model.LooseMpi`.
-/

namespace FV3.Loose
variable {α : Type} [Neg α]

/-- As `FOp.exec`. (communicator.py:52-58, 81-283, 335-346, 388-403, 461-491, 512-535) -/
def execFOp (left : List Nat → α) (l : Layout) (junk tjunk : Nat → List Nat → α) (r : Int) :
    FOp α → FState α → Proc (Msg α) (Py (FState α))
  | .op o, s => (execOp left l r o s.comm).bind fun y =>
    match y.1 with
    | .error e => .ret (.error e)
    | .ok _ => .ret (.ok { s with comm := y.2 })
  | .coll o, s => (execColl left (.cube l) junk r o s.lazy.s.base).bind fun x =>
    match x with
    | .error e => .ret (.error e)
    | .ok b => .ret (.ok (s.after { s.lazy with s := { s.lazy.s with base := b } }))
  | .tiles o, s => (execUOp left l junk tjunk r (.tiles o) s.lazy).bind fun x =>
    match x with
    | .error e => .ret (.error e)
    | .ok v => .ret (.ok (s.after v))

/-- A sequence of calls; an exception ends it. (communicator.py:52-58, 81-283, 335-346, 388-403, 461-491, 512-535) -/
def execFull (left : List Nat → α) (l : Layout) (junk tjunk : Nat → List Nat → α) (r : Int) :
    List (FOp α) → FState α → Proc (Msg α) (Py (FState α))
  | [], s => .ret (.ok s)
  | op :: ops, s => (execFOp left l junk tjunk r op s).bind fun x =>
    match x with
    | .error e => .ret (.error e)
    | .ok s' => execFull left l junk tjunk r ops s'

/-- All ranks make the same calls (of the tile communicators: all ranks of the tile), with a new cubed-sphere
communicator.  `left r` is what is in the receive buffers of rank `r`.
(communicator.py:52-58, 81-283, 306-346, 388-403, 461-491, 512-535) -/
def fullNet (left : Int → List Nat → α) (l : Layout) (junk tjunk : Nat → List Nat → α) (ops : List (FOp α))
    (mem : Int → Mem α) (glob : Int → Nat → Option (Quantity α)) (time gtime : Int → Nat → Option Int)
    (tglob : Int → Nat → Option (Quantity α)) (tgtime : Int → Nat → Option Int) :
    Net (Msg α) (Option (Py (FState α))) :=
  Net.start fun r =>
    if r ∈ allRanks l then
      (execFull (left r) l junk tjunk r ops (.new (mem r) (glob r) (time r) (gtime r) (tglob r) (tgtime r))).bind
        fun x => .ret (some x)
    else .ret none

end FV3.Loose
