import Verif.Model.TileSplit
import Verif.Model.AsyncSession

/-!
# What MPI checks of a message

In `Verif.Model.Communicator` and `Verif.Model.Collective` a received message whose shape differs from that of the array
it is received into raises an exception.  MPI knows no shapes: a message is a sequence of elements, stored in the
receive buffer in the order of memory.  A message with more elements than the buffer is an error
(`MPI_ERR_TRUNCATE`); one with fewer is stored at the beginning of the buffer, and what is after it stays, which is
anything for a recycled buffer (buffer.py:66-95).  Here are the calls of communicator.py over such an MPI; only the
receiving functions differ from those of the other modules.

Simplification: `Scatter` and `Gather` behave so, too (for them, MPI leaves undefined what happens with other numbers of
elements than expected).  All elements have the same type.
-/

namespace FV3.Loose
open FV3
variable {α : Type}

/-- What a receive buffer of shape `shape` contains after the message `v` was received: the elements of `v` in row-major
order, and then what was in the buffer, `left`.  An exception if they are too many.  (An index out of bounds has no
meaning.)  (MPI behind communicator.py:69-79, 657-666) -/
def received (left : List Nat → α) (shape : List Nat) (v : NDArray α) : Py (NDArray α) :=
  if (allIdx v.shape).length ≤ (allIdx shape).length then
    .ok ⟨shape, fun idx =>
      if idx ∈ allIdx shape then
        match (allIdx v.shape)[(allIdx shape).idxOf idx]? with
        | some j => v.get j
        | none => left idx
      else v.get idx⟩
  else .error .runtimeError

/-- `a[ix]` is filled with the message `v`. (communicator.py:74-79, 128-129, 657-666) -/
def fillItem (left : List Nat → α) (a : NDArray α) (ix : List Ix) (v : NDArray α) : Py (NDArray α) := do
  let rs ← resolveAll ix a.shape
  let w ← received left (viewShape rs) v
  .ok (a.assign rs w)

/-! ### Halo updates -/

/-- Assignment to a view of a quantity. (communicator.py:662-664, buffer.py:94-95) -/
def storeInto (left : List Nat → α) (mem : Mem α) (q : Nat) (ix : List Ix) (a : NDArray α) : Py (Mem α) := do
  let d ← fillItem left (mem q).data ix a
  return fun q' => if q' = q then { mem q with data := d } else mem q'

/-- communicator.py:657-666: the deferred `Recv` into the view. -/
def recvInto (left : List Nat → α) (rq : RecvReq) : CommM α Unit := fun s =>
  .recv rq.src (.halo rq.tag) fun m =>
    match m with
    | .data a =>
      match storeInto left s.mem rq.q rq.ix a with
      | .ok mem => .ret (.ok (), { s with mem := mem })
      | .error e => .ret (.error e, s)
    | _ => .ret (.error .typeError, s)

/-- communicator.py:52-56 `HaloUpdateRequest.wait`. -/
def waitRequest (left : List Nat → α) (req : Request) : CommM α Unit := do
  let _ ← CommM.forEach (recvInto left) req.recvs
  let _ ← CommM.forEach awaitSend req.sends
  return ()

/-- communicator.py:378-386 `halo_update`. -/
def haloUpdate (left : List Nat → α) (l : Layout) (r : Int) (q : Nat) (n : Int) : CommM α Unit := do
  let req ← startHaloUpdate l r q n
  waitRequest left req

/-- communicator.py:446-459 `vector_halo_update`. -/
def vectorHaloUpdate [Neg α] (left : List Nat → α) (l : Layout) (r : Int) (x y : Nat) (n : Int) : CommM α Unit := do
  let req ← startVectorHaloUpdate l r x y n
  waitRequest left req

/-- communicator.py:493-510 `synchronize_vector_interfaces`. -/
def synchronize [Neg α] (left : List Nat → α) (l : Layout) (r : Int) (x y : Nat) : CommM α Unit := do
  let req ← startSynchronize l r x y
  waitRequest left req

/-- A blocking call or a computation. (communicator.py:378-386, 446-459, 493-510) -/
def execCall [Neg α] (left : List Nat → α) (l : Layout) (r : Int) : Call α → CommM α Unit
  | .haloUpdate q n => haloUpdate left l r q n
  | .vectorHaloUpdate x y n => vectorHaloUpdate left l r x y n
  | .synchronize x y => synchronize left l r x y
  | .compute f => fun s => .ret (.ok (), { s with mem := f r s.mem })

/-- A start, a wait or a computation. (communicator.py:388, 461, 512, 52) -/
def execOp [Neg α] (left : List Nat → α) (l : Layout) (r : Int) : Op α → CommM α Unit
  | .wait i => do
    let s ← CommM.get
    match s.reqs[i]? with
    | none => CommM.raise .indexError
    | some req => waitRequest left req
  | o => o.exec l r

/-! ### Collectives -/

/-- `view[:]` as a receive buffer. (communicator.py:69-79, 120-129) -/
def fillView (left : List Nat → α) (q : Quantity α) (a : NDArray α) : Py (Quantity α) := do
  let ix ← if q.origin.length = 0 then .ok [] else q.computeIndex (.one (.slice .full))
  let d ← fillItem left q.data ix a
  return { q with data := d }

/-- communicator.py:81-130 `scatter`. -/
def scatter (left : List Nat → α) (c : Comm) (junk : List Nat → α) (rank : Int) (send recv : Option (Quantity α)) :
    CollM α (Quantity α) :=
  if rank = ROOT_RANK then
    match send with
    | none => .raise .typeError
    | some sq => do
      let m ← bcast c.size rank (.metadata sq.metadata)
      let md ← .lift m.asMeta
      let shape ← .lift (c.subtileExtent md.dims md.extent)
      let rq ← .lift (recvOrNew recv (c.scatterRecvQuantity junk shape md))
      let blocks ← .lift (scatterBlocks c sq shape c.ranks)
      match blocks with
      | [] => .raise .valueError
      | own :: others => do
        rootSends c.size fun r => .data ((own :: others).getD r.toNat own)
        .lift (fillView left rq own)
  else do
    let m ← bcast c.size rank (.time none)
    let md ← .lift m.asMeta
    let shape ← .lift (c.subtileExtent md.dims md.extent)
    let rq ← .lift (recvOrNew recv (c.scatterRecvQuantity junk shape md))
    let d ← clientRecvs
    let a ← .lift d.asData
    .lift (fillView left rq a)

/-- The parts `recvbuf[rank, :]` of the receive buffer, each of the given shape. (communicator.py:186-198) -/
def dataOfShape (left : List Nat → α) (shape : List Nat) : List (Msg α) → Py (List (NDArray α))
  | [] => .ok []
  | m :: ms => do
    let a ← m.asData
    let b ← received left shape a
    let rest ← dataOfShape left shape ms
    return b :: rest

/-- communicator.py:158-205 `gather`. -/
def gather (left : List Nat → α) (c : Comm) (junk : List Nat → α) (rank : Int) (send : Quantity α)
    (recv : Option (Quantity α)) : CollM α (Option (Quantity α)) :=
  if rank = ROOT_RANK then do
    let own ← .lift (send.viewGet (.one (.slice .full)))
    let ms ← rootRecvs c.size
    let blocks ← .lift (dataOfShape left (send.extent.map Int.toNat) (.data own :: ms))
    let rq ← .lift (recvOrNew recv
      (c.gatherRecvQuantity junk (c.globalExtent send.dims send.extent) send.metadata))
    let q ← .lift (gatherStore c (c.ranks.zip blocks) rq)
    return some q
  else do
    let own ← .lift (send.viewGet (.one (.slice .full)))
    clientSends (.data own)
    return none

/-- The root's loop of communicator.py:256-261. -/
def scatterRootLoop (left : List Nat → α) (c : Comm) (junk : List Nat → α) (send : CState α) :
    List String → CState α → CollM α (CState α)
  | [], st => return st
  | name :: names, st => do
    let sq ← .lift (match send.get? name with
      | none => .error .keyError
      | some v => v.asQty)
    let rq ← .lift (recvOf st name)
    let q ← scatter left c junk ROOT_RANK (some sq) rq
    scatterRootLoop left c junk send names (st.set name (.qty q))

/-- The others' loop of communicator.py:268-272. -/
def scatterClientLoop (left : List Nat → α) (c : Comm) (junk : List Nat → α) (rank : Int) :
    List String → CState α → CollM α (CState α)
  | [], st => return st
  | name :: names, st => do
    let rq ← .lift (recvOf st name)
    let q ← scatter left c junk rank none rq
    scatterClientLoop left c junk rank names (st.set name (.qty q))

/-- communicator.py:237-283 `scatter_state`. -/
def scatterState (left : List Nat → α) (c : Comm) (junk : List Nat → α) (rank : Int) (send recv : Option (CState α)) :
    CollM α (CState α) :=
  let st := recv.getD []
  if rank = ROOT_RANK then
    match send with
    | none => .raise .typeError
    | some s => do
      let m ← bcast c.size rank (.names (s.keys.filter (· ≠ "time")))
      let names ← .lift m.asNames
      let st ← scatterRootLoop left c junk s names st
      let t ← .lift (timeOf s)
      let m ← bcast c.size rank (.time t)
      let t ← .lift m.asTime
      return setTime st t
  else do
    let m ← bcast c.size rank (.time none)
    let names ← .lift m.asNames
    let st ← scatterClientLoop left c junk rank names st
    let m ← bcast c.size rank (.time none)
    let t ← .lift m.asTime
    return setTime st t

/-- The loop of communicator.py:222-234. -/
def gatherLoop (left : List Nat → α) (c : Comm) (junk : List Nat → α) (rank : Int) :
    List (String × SVal α) → Option (CState α) → CollM α (Option (CState α))
  | [], st => return st
  | (name, v) :: rest, st =>
    if name = "time" then
      gatherLoop left c junk rank rest (if rank = ROOT_RANK then st.map fun s => s.set "time" v else st)
    else do
      let q ← .lift v.asQty
      let rq ← .lift (if rank = ROOT_RANK then recvOf (st.getD []) name else .ok none)
      let g ← gather left c junk rank q rq
      match g with
      | some q' => gatherLoop left c junk rank rest (st.map fun s => s.set name (.qty q'))
      | none => gatherLoop left c junk rank rest st

/-- communicator.py:207-235 `gather_state`. -/
def gatherState (left : List Nat → α) (c : Comm) (junk : List Nat → α) (rank : Int) (send : CState α)
    (recv : Option (CState α)) : CollM α (Option (CState α)) :=
  gatherLoop left c junk rank send (if rank = ROOT_RANK then some (recv.getD []) else recv)

/-! ### Sessions -/

/-- As `COp.exec`. (communicator.py:81-283) -/
def execColl (left : List Nat → α) (c : Comm) (junk : Nat → List Nat → α) (r : Int) :
    COp → SessState α → Proc (Msg α) (Py (SessState α))
  | .scatter q g, s =>
    (scatter left c (junk s.s.coll) r (s.s.glob g) (some (s.s.mem q)) s.s.coll).bind fun x =>
    match x.1 with
    | .error e => .ret (.error e)
    | .ok part => .ret (.ok { s with s := { s.s with mem := s.s.mem.put q part, coll := x.2 } })
  | .gather q g, s =>
    (gather left c (junk s.s.coll) r (s.s.mem q) (s.s.glob g) s.s.coll).bind fun x =>
    match x.1 with
    | .error e => .ret (.error e)
    | .ok res =>
      .ret (.ok { s with s := { s.s with glob := fun g' => if g' = g then res else s.s.glob g', coll := x.2 } })
  | .scatterState i j vars, s =>
    (scatterState left c (junk s.s.coll) r (some (s.globDict j vars)) (some (s.rankDict i vars)) s.s.coll).bind fun x =>
    match x.1 with
    | .error e => .ret (.error e)
    | .ok d => .ret (.ok { s with
        s := { s.s with mem := putVars d vars s.s.mem, coll := x.2 }, time := putTime s.time i (timeIn d) })
  | .gatherState i j vars, s =>
    (gatherState left c (junk s.s.coll) r (s.rankDict i vars) (some (s.globDict j vars)) s.s.coll).bind fun x =>
    match x.1 with
    | .error e => .ret (.error e)
    | .ok none => .ret (.ok { s with s := { s.s with coll := x.2 } })
    | .ok (some d) => .ret (.ok { s with
        s := { s.s with glob := putGlobs d vars s.s.glob, coll := x.2 }, gtime := putTime s.gtime j (timeIn d) })

/-- As `TOp.exec`. (communicator.py:81-283, 378-510) -/
def execTOp [Neg α] (left : List Nat → α) (l : Layout) (junk : Nat → List Nat → α) (r : Int) :
    TOp α → SessState α → Proc (Msg α) (Py (SessState α))
  | .op (.call c), s => (execCall left l r c ⟨s.s.mem, s.s.tag, []⟩).bind fun y =>
    match y.1 with
    | .error e => .ret (.error e)
    | .ok _ => .ret (.ok { s with s := { s.s with mem := y.2.mem, tag := y.2.lastTag } })
  | .op (.scatter q g), s => execColl left (.cube l) junk r (.scatter q g) s
  | .op (.gather q g), s => execColl left (.cube l) junk r (.gather q g) s
  | .scatterState i j vars, s => execColl left (.cube l) junk r (.scatterState i j vars) s
  | .gatherState i j vars, s => execColl left (.cube l) junk r (.gatherState i j vars) s

/-- As `UOp.execLazy`. (communicator.py:81-283, 335-346, 378-510) -/
def execUOp [Neg α] (left : List Nat → α) (l : Layout) (junk tjunk : Nat → List Nat → α) (r : Int) :
    UOp α → LazyState α → Proc (Msg α) (Py (LazyState α))
  | .op o, s => (execTOp left l junk r o s.s.base).bind fun x =>
    match x with
    | .error e => .ret (.error e)
    | .ok b => .ret (.ok { s with s := { s.s with base := b } })
  | .tiles o, s =>
    match o (tileColor l r) with
    | none => .ret (.ok s)
    | some a => (s.getTile l r).bind fun y =>
      match y with
      | .error e => .ret (.error e)
      | .ok (ks, s) =>
        (((execColl left (.tile l) tjunk (groupRank ks r) a s.s.view).retag (.inTile (groupColor ks r))).renumber
            (groupMember ks r)).bind
          fun x => match x with
            | .error e => .ret (.error e)
            | .ok v => .ret (.ok { s with s := s.s.after v })

/-- A sequence of calls; an exception ends it. (communicator.py:81-283, 335-346, 378-510) -/
def execLazy [Neg α] (left : List Nat → α) (l : Layout) (junk tjunk : Nat → List Nat → α) (r : Int) :
    List (UOp α) → LazyState α → Proc (Msg α) (Py (LazyState α))
  | [], s => .ret (.ok s)
  | op :: ops, s => (execUOp left l junk tjunk r op s).bind fun x =>
    match x with
    | .error e => .ret (.error e)
    | .ok s' => execLazy left l junk tjunk r ops s'

/-- All ranks make the same calls (of the tile communicators: all ranks of the tile), with a new cubed-sphere
communicator.  `left r` is what is in the receive buffers of rank `r`. (communicator.py:81-283, 306-346, 378-510) -/
def lazySessionNet [Neg α] (left : Int → List Nat → α) (l : Layout) (junk tjunk : Nat → List Nat → α)
    (ops : List (UOp α)) (mem : Int → Mem α)
    (glob : Int → Nat → Option (Quantity α)) (time gtime : Int → Nat → Option Int)
    (tglob : Int → Nat → Option (Quantity α)) (tgtime : Int → Nat → Option Int) :
    Net (Msg α) (Option (Py (LazyState α))) :=
  Net.start fun r =>
    if r ∈ allRanks l then
      (execLazy (left r) l junk tjunk r ops
        ⟨⟨⟨⟨mem r, glob r, 0, 0⟩, time r, gtime r⟩, tglob r, tgtime r, 0⟩, none⟩).bind fun x => .ret (some x)
    else .ret none

/-- As `AOp.exec`. (communicator.py:81-205, 388-403, 461-491, 512-535, 52) -/
def execAOp [Neg α] (left : List Nat → α) (l : Layout) (junk : Nat → List Nat → α) (r : Int) :
    AOp α → AState α → Proc (Msg α) (Py (AState α))
  | .op o, s => (execOp left l r o s.comm).bind fun y =>
    match y.1 with
    | .error e => .ret (.error e)
    | .ok _ => .ret (.ok { s with comm := y.2 })
  | .scatter q g, s => (scatter left (.cube l) (junk s.coll) r (s.glob g) (some (s.comm.mem q)) s.coll).bind fun x =>
    match x.1 with
    | .error e => .ret (.error e)
    | .ok part => .ret (.ok { s with comm := { s.comm with mem := s.comm.mem.put q part }, coll := x.2 })
  | .gather q g, s => (gather left (.cube l) (junk s.coll) r (s.comm.mem q) (s.glob g) s.coll).bind fun x =>
    match x.1 with
    | .error e => .ret (.error e)
    | .ok res => .ret (.ok { s with glob := fun g' => if g' = g then res else s.glob g', coll := x.2 })

/-- A sequence of calls; an exception ends it. (communicator.py:81-205, 388-403, 461-491, 512-535, 52) -/
def execAsync [Neg α] (left : List Nat → α) (l : Layout) (junk : Nat → List Nat → α) (r : Int) :
    List (AOp α) → AState α → Proc (Msg α) (Py (AState α))
  | [], s => .ret (.ok s)
  | op :: ops, s => (execAOp left l junk r op s).bind fun x =>
    match x with
    | .error e => .ret (.error e)
    | .ok s' => execAsync left l junk r ops s'

/-- All ranks make the same calls, with new communicators.  `left r` is what is in the receive buffers of rank `r`.
(communicator.py:81-205, 388-403, 461-491, 512-535, 52) -/
def asyncNet [Neg α] (left : Int → List Nat → α) (l : Layout) (junk : Nat → List Nat → α) (ops : List (AOp α))
    (mem : Int → Mem α) (glob : Int → Nat → Option (Quantity α)) : Net (Msg α) (Option (Py (AState α))) :=
  Net.start fun r =>
    if r ∈ allRanks l then
      (execAsync (left r) l junk r ops ⟨⟨mem r, 0, []⟩, glob r, 0⟩).bind fun x => .ret (some x)
    else .ret none

end FV3.Loose
