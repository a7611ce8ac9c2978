import Verif.Model.TileSession

/-!
# The tile communicator is made when it is first used (communicator.py:335-346)

`communicator.tile` calls `comm.Split` when it is used for the first time.  `Split` is a collective call of the
cubed-sphere communicator: the result of every rank depends on the colours and keys of all ranks.  Modelled as a `Gather`
of the colours and keys at the root followed by a `bcast`; like other collectives, the calls take part in the next
collectives of the communicator.  In sessions as in `Verif.Model.TileSession`, where the tile communicators are there from
the start, there is no such call.
-/

namespace FV3
variable {α : Type}

/-- The colours and keys in a message. (MPI behind communicator.py:343-345) -/
def Msg.asKeys : Msg α → Py (List (Int × Int))
  | .keys l => .ok l
  | _ => .error .typeError

/-- `comm.Split(color, key)`: the rank learns colours and keys of all ranks, in the order of the ranks.
(MPI behind communicator.py:343-345) -/
def splitCall (size rank color key : Int) : CollM α (List (Int × Int)) :=
  if rank = ROOT_RANK then do
    let ms ← rootRecvs size
    let ks ← CollM.lift (ms.mapM Msg.asKeys)
    let all := (color, key) :: ks.flatten
    rootSends size fun _ => .keys all
    return all
  else do
    clientSends (.keys [(color, key)])
    let m ← clientRecvs
    CollM.lift m.asKeys

/-- The colour of rank `r`. (MPI behind communicator.py:343-345) -/
def groupColor (ks : List (Int × Int)) (r : Int) : Int := (ks.getD r.toNat (-1, 0)).1

/-- The key of rank `r`. (MPI behind communicator.py:343-345) -/
def groupKey (ks : List (Int × Int)) (r : Int) : Int := (ks.getD r.toNat (-1, 0)).2

/-- The rank of `r` in its new communicator. (MPI behind communicator.py:343-345) -/
def groupRank (ks : List (Int × Int)) (r : Int) : Int := splitRank ks.length (groupColor ks) (groupKey ks) r

/-- The old rank of rank `i` of the new communicator of rank `r`. (MPI behind communicator.py:343-345) -/
def groupMember (ks : List (Int × Int)) (r i : Int) : Int :=
  ((splitMembers ks.length (groupColor ks) r).find? fun r' => decide (groupRank ks r' = i)).getD (-1)

/-- State of a rank: as in a session with tile communicators, and the tile communicator if it was made
(`_tile_communicator`; given by the colours and keys of all ranks). (communicator.py:314, 335-346) -/
structure LazyState (α : Type) where
  s : TileState α
  tile : Option (List (Int × Int))

/-- communicator.py:335-346 `tile`: makes the tile communicator if there is none. -/
def LazyState.getTile (l : Layout) (r : Int) (s : LazyState α) : Proc (Msg α) (Py (List (Int × Int) × LazyState α)) :=
  match s.tile with
  | some ks => .ret (.ok (ks, s))
  | none => (splitCall l.cubeRanks r (tileColor l r) r s.s.base.s.coll).bind fun x =>
    match x.1 with
    | .error e => .ret (.error e)
    | .ok ks => .ret (.ok (ks,
        ⟨{ s.s with base := { s.s.base with s := { s.s.base.s with coll := x.2 } } }, some ks⟩))

/-- One call of rank `r`. (communicator.py:81-283, 335-346, 378-510) -/
def UOp.execLazy [Neg α] (l : Layout) (junk tjunk : Nat → List Nat → α) (r : Int) :
    UOp α → LazyState α → Proc (Msg α) (Py (LazyState α))
  | .op o, s => (o.exec l junk r s.s.base).bind fun x =>
    match x with
    | .error e => .ret (.error e)
    | .ok b => .ret (.ok { s with s := { s.s with base := b } })
  | .tiles o, s =>
    match o (tileColor l r) with
    | none => .ret (.ok s)
    | some a => (s.getTile l r).bind fun y =>
      match y with
      | .error e => .ret (.error e)
      | .ok (ks, s) =>
        (((a.exec (.tile l) tjunk (groupRank ks r) s.s.view).retag (.inTile (groupColor ks r))).renumber
            (groupMember ks r)).bind
          fun x => match x with
            | .error e => .ret (.error e)
            | .ok v => .ret (.ok { s with s := s.s.after v })

/-- A sequence of calls; an exception ends it. (communicator.py:81-283, 335-346, 378-510) -/
def execLazy [Neg α] (l : Layout) (junk tjunk : Nat → List Nat → α) (r : Int) :
    List (UOp α) → LazyState α → Proc (Msg α) (Py (LazyState α))
  | [], s => .ret (.ok s)
  | op :: ops, s => (op.execLazy l junk tjunk r s).bind fun x =>
    match x with
    | .error e => .ret (.error e)
    | .ok s' => execLazy l junk tjunk r ops s'

/-- All ranks make the same calls (of the tile communicators: all ranks of the tile), with a new cubed-sphere
communicator, whose tile communicators are not made yet. (communicator.py:81-283, 306-346, 378-510) -/
def lazySessionNet [Neg α] (l : Layout) (junk tjunk : Nat → List Nat → α) (ops : List (UOp α)) (mem : Int → Mem α)
    (glob : Int → Nat → Option (Quantity α)) (time gtime : Int → Nat → Option Int)
    (tglob : Int → Nat → Option (Quantity α)) (tgtime : Int → Nat → Option Int) :
    Net (Msg α) (Option (Py (LazyState α))) :=
  Net.start fun r =>
    if r ∈ allRanks l then
      (execLazy l junk tjunk r ops
        ⟨⟨⟨⟨mem r, glob r, 0, 0⟩, time r, gtime r⟩, tglob r, tgtime r, 0⟩, none⟩).bind fun x => .ret (some x)
    else .ret none

end FV3
