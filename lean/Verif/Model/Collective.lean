import Verif.Model.Net
import Verif.Model.Communicator
import Verif.Model.Partitioner
import Verif.Model.Sizer
import Verif.Model.Dict

/-!
# Scatter and gather (communicator.py:59-283, 348-376)

The collectives `bcast`, `Scatter` and `Gather` of MPI as messages: the root sends to (receives from)
every other rank of the communicator; the `n`-th collective call of a rank takes part in the `n`-th
collective of the communicator, which is what the tag `Tag.coll n` stands for.  Whether the root of a
`bcast` waits for the others is up to MPI (`Buffering`).

Simplifications.
* A quantity which is modified in place is returned as a new value; the arguments of one call are
  distinct objects.
* The number of ranks of the MPI communicator is the partitioner's `total_ranks`.
* The send buffer, an array with one more axis than the data, is the list of its blocks
  `sendbuf[rank, :]`.  That buffers are recycled does not matter: every block is overwritten.
* A received block whose shape differs from that of the array it is for raises ValueError (MPI
  compares the number of elements only; Model/LooseMpi.lean drops this simplification, see C71).
* `numpy.empty` returns an array of arbitrary values, `junk`.
* The dtype and the gt4py backend are not part of the metadata.
-/

namespace FV3
variable {α A B : Type}

/-- Programs of a rank with collectives: the state is the number of collective calls made. (communicator.py:59-283) -/
def CollM (α A : Type) := Nat → Proc (Msg α) (Py A × Nat)

namespace CollM

/-- Plumbing of the model (communicator.py:59-283) -/
def pure (a : A) : CollM α A := fun n => .ret (.ok a, n)

/-- Sequencing; an exception propagates. (communicator.py:59-283) -/
def bind (c : CollM α A) (f : A → CollM α B) : CollM α B := fun n =>
  (c n).bind fun x =>
    match x.1 with
    | .ok a => f a x.2
    | .error e => .ret (.error e, x.2)

/-- The monad structure of the model (communicator.py:59-283) -/
instance : Monad (CollM α) where
  pure := CollM.pure
  bind := CollM.bind

/-- A computation without communication. (communicator.py:59-283) -/
def lift (x : Py A) : CollM α A := fun n => .ret (x, n)
/-- Plumbing of the model (communicator.py:59-283) -/
def raise (e : PyErr) : CollM α A := fun n => .ret (.error e, n)

end CollM

/-! ### The MPI collectives -/

/-- Send a message to each of the ranks. (MPI behind communicator.py:22-34, 69-79) -/
def sendAll (tag : Tag) (msg : Int → Msg α) {R : Type} : List Int → Proc (Msg α) R → Proc (Msg α) R
  | [], p => p
  | r :: rs, p => .isend r tag (msg r) fun _ => sendAll tag msg rs p

/-- Wait for the first message to each of the ranks. (MPI behind communicator.py:22-34, 69-79) -/
def awaitAll (tag : Tag) {R : Type} : List Int → Proc (Msg α) R → Proc (Msg α) R
  | [], p => p
  | r :: rs, p => .await r tag 0 fun _ => awaitAll tag rs p

/-- Receive a message from each of the ranks. (MPI behind communicator.py:75-79) -/
def recvAll (tag : Tag) {R : Type} : List Int → (List (Msg α) → Proc (Msg α) R) → Proc (Msg α) R
  | [], k => k []
  | r :: rs, k => .recv r tag fun m => recvAll tag rs fun ms => k (m :: ms)

/-- The ranks other than the root. (MPI behind communicator.py:22-34, 69-79) -/
def clients (size : Int) : List Int := (List.range (size.toNat - 1)).map fun i : Nat => (i : Int) + 1

/-- Root's part in `comm.bcast` (all get the same message) or `comm.Scatter` (each gets its own).
(MPI behind communicator.py:22-34, 73) -/
def rootSends (size : Int) (msg : Int → Msg α) : CollM α Unit := fun n =>
  sendAll (.coll n) msg (clients size) (awaitAll (.coll n) (clients size) (.ret (.ok (), n + 1)))

/-- The others' part in `comm.bcast` or `comm.Scatter`. (MPI behind communicator.py:22-34, 73) -/
def clientRecvs : CollM α (Msg α) := fun n => .recv ROOT_RANK (.coll n) fun m => .ret (.ok m, n + 1)

/-- Root's part in `comm.Gather`. (MPI behind communicator.py:79) -/
def rootRecvs (size : Int) : CollM α (List (Msg α)) := fun n =>
  recvAll (.coll n) (clients size) fun ms => .ret (.ok ms, n + 1)

/-- The others' part in `comm.Gather`. (MPI behind communicator.py:79) -/
def clientSends (m : Msg α) : CollM α Unit := fun n =>
  .isend ROOT_RANK (.coll n) m fun i => .await ROOT_RANK (.coll n) i fun _ => .ret (.ok (), n + 1)

/-- `comm.bcast(value, root=ROOT_RANK)` of a Python object. (communicator.py:22-34, 253, 259) -/
def bcast (size rank : Int) (m : Msg α) : CollM α (Msg α) :=
  if rank = ROOT_RANK then do
    rootSends size fun _ => m
    return m
  else clientRecvs

/-- The array in a message. (communicator.py:69-79) -/
def Msg.asData : Msg α → Py (NDArray α)
  | .data a => .ok a
  | _ => .error .typeError
/-- Plumbing of the model (communicator.py:22-34) -/
def Msg.asMeta : Msg α → Py QMeta
  | .metadata m => .ok m
  | _ => .error .typeError
/-- Plumbing of the model (communicator.py:256-261) -/
def Msg.asNames : Msg α → Py (List String)
  | .names l => .ok l
  | _ => .error .typeError
/-- Plumbing of the model (communicator.py:279-282) -/
def Msg.asTime : Msg α → Py (Option Int)
  | .time t => .ok t
  | _ => .error .typeError

/-! ### Communicators -/

/-- communicator.py:286-318: a `TileCommunicator` or a `CubedSphereCommunicator`, by the layout of its
partitioner. -/
inductive Comm where
  | tile (l : Layout)
  | cube (l : Layout)

namespace Comm

/-- partitioner.py:124-126, 348-351 `total_ranks`. -/
def size : Comm → Int
  | .tile l => l.tileRanks
  | .cube l => l.cubeRanks

/-- partitioner.py:141-145, 568-577 `subtile_extent`. -/
def subtileExtent : Comm → List Dim → List Int → Py (List Int)
  | .tile l, dims, ext => .ok (Tile.subtileExtent l dims ext)
  | .cube l, dims, ext => Cube.subtileExtent l dims ext

/-- partitioner.py:128-139, 555-566 `global_extent`. -/
def globalExtent : Comm → List Dim → List Int → List Int
  | .tile l, dims, ext => Tile.globalExtent l dims ext
  | .cube l, dims, ext => Cube.globalExtent l dims ext

/-- The slices of an index tuple. (communicator.py:112-119, 191-198) -/
def sliceIx (s : List (Int × Int)) : List Ix := s.map fun p => .slice (.of p.1 p.2)

/-- partitioner.py:147-178, 579-616 `subtile_slice(rank, dims, extent, overlap=True)`. -/
def subtileIx : Comm → Int → List Dim → List Int → Py (List Ix)
  | .tile l, rank, dims, ext => .ok (sliceIx (Tile.subtileSlice l rank dims ext true))
  | .cube l, rank, dims, ext => do
    let s ← Cube.subtileSlice l rank dims ext true
    return .int s.1 :: sliceIx s.2

/-- communicator.py:146-156, 364-376 `_get_scatter_recv_quantity`. -/
def scatterRecvQuantity (c : Comm) (junk : List Nat → α) (shape : List Int) (md : QMeta) : Py (Quantity α) := do
  let data ← npFull shape junk
  match c with
  | .tile _ => Quantity.mk? data md.dims md.units none none
  | .cube _ => Quantity.mk? data md.dims.tail md.units none none

/-- communicator.py:132-144, 348-362 `_get_gather_recv_quantity`. -/
def gatherRecvQuantity (c : Comm) (junk : List Nat → α) (globalExtent : List Int) (md : QMeta) :
    Py (Quantity α) := do
  let data ← npFull globalExtent junk
  match c with
  | .tile _ => Quantity.mk? data md.dims md.units (some (md.dims.map fun _ => 0)) (some globalExtent)
  | .cube _ => Quantity.mk? data (.tile :: md.dims) md.units (some (0 :: md.dims.map fun _ => 0)) (some globalExtent)

end Comm

/-- quantity.py:417-419 `Quantity.metadata`. -/
def Quantity.metadata (q : Quantity α) : QMeta := ⟨q.origin, q.extent, q.dims, q.units⟩

/-- `view[:]` as a receive buffer: what is received is stored in the view (communicator.py:69-79, 120-129; the
view of a quantity without axes is its data). -/
def Quantity.fillView (q : Quantity α) (a : NDArray α) : Py (Quantity α) := do
  let ix ← if q.origin.length = 0 then .ok [] else q.computeIndex (.one (.slice .full))
  let d ← q.data.fillItem ix a
  return { q with data := d }

/-- communicator.py:112-119: the blocks of the send buffer; they are broadcast to the shape of its parts.  (`sendbuf[rank, :]` raises IndexError
for data without axes.) -/
def scatterBlocks (c : Comm) (q : Quantity α) (shape : List Int) : List Int → Py (List (NDArray α))
  | [] => .ok []
  | r :: rs => do
    let ix ← c.subtileIx r q.dims q.extent
    let v ← q.viewGet (.tuple ix)
    if shape.length = 0 then .error .indexError
    else if fits v.shape (shape.map Int.toNat) then
      let rest ← scatterBlocks c q shape rs
      return v.stretch (shape.map Int.toNat) :: rest
    else .error .valueError

/-- All ranks of a communicator. (communicator.py:112, 191) -/
def Comm.ranks (c : Comm) : List Int := (List.range c.size.toNat).map Int.ofNat

/-- communicator.py:103-104, 184-190: the given receive quantity, or a new one. -/
def recvOrNew (recv : Option (Quantity α)) (new : Py (Quantity α)) : Py (Quantity α) :=
  match recv with
  | some q => .ok q
  | none => new

/-- communicator.py:81-130 `scatter`. -/
def scatter (c : Comm) (junk : List Nat → α) (rank : Int) (send recv : Option (Quantity α)) :
    CollM α (Quantity α) :=
  if rank = ROOT_RANK then
    match send with
    | none => .raise .typeError
    | some sq => do
      let m ← bcast c.size rank (.metadata sq.metadata)
      let md ← .lift m.asMeta
      let shape ← .lift (c.subtileExtent md.dims md.extent)
      let rq ← .lift (recvOrNew recv (c.scatterRecvQuantity junk shape md))
      let blocks ← .lift (scatterBlocks c sq shape c.ranks)
      match blocks with
      | [] => .raise .valueError
      | own :: others => do
        rootSends c.size fun r => .data ((own :: others).getD r.toNat own)
        .lift (rq.fillView own)
  else do
    let m ← bcast c.size rank (.time none)
    let md ← .lift m.asMeta
    let shape ← .lift (c.subtileExtent md.dims md.extent)
    let rq ← .lift (recvOrNew recv (c.scatterRecvQuantity junk shape md))
    let d ← clientRecvs
    let a ← .lift d.asData
    .lift (rq.fillView a)

/-- communicator.py:191-198: the received blocks are stored one after the other.
(`recvbuf[rank, :]` raises IndexError for data without axes.) -/
def gatherStore (c : Comm) : List (Int × NDArray α) → Quantity α → Py (Quantity α)
  | [], q => .ok q
  | (r, a) :: rest, q => do
    let ix ← c.subtileIx r q.dims q.extent
    if a.shape.length = 0 then .error .indexError
    else
      let q' ← q.viewSet (.tuple ix) a
      gatherStore c rest q'

/-- The arrays of messages; each must have the given shape. (communicator.py:186-198) -/
def dataOfShape (shape : List Nat) : List (Msg α) → Py (List (NDArray α))
  | [] => .ok []
  | m :: ms => do
    let a ← m.asData
    if a.shape = shape then
      let rest ← dataOfShape shape ms
      return a :: rest
    else .error .valueError

/-- communicator.py:158-205 `gather`. -/
def gather (c : Comm) (junk : List Nat → α) (rank : Int) (send : Quantity α) (recv : Option (Quantity α)) :
    CollM α (Option (Quantity α)) :=
  if rank = ROOT_RANK then do
    let own ← .lift (send.viewGet (.one (.slice .full)))
    let ms ← rootRecvs c.size
    let blocks ← .lift (dataOfShape (send.extent.map Int.toNat) (.data own :: ms))
    let rq ← .lift (recvOrNew recv
      (c.gatherRecvQuantity junk (c.globalExtent send.dims send.extent) send.metadata))
    let q ← .lift (gatherStore c (c.ranks.zip blocks) rq)
    return some q
  else do
    let own ← .lift (send.viewGet (.one (.slice .full)))
    clientSends (.data own)
    return none

/-! ### States -/

/-- An entry of a state dictionary: a quantity, or the time (a number). (communicator.py:207-283) -/
inductive SVal (α : Type) where
  | qty (q : Quantity α)
  | time (t : Int)

/-- A state: entries by name. (communicator.py:207-283) -/
abbrev CState (α : Type) := Dict String (SVal α)

/-- A state's entry used as a quantity. (communicator.py:222-234, 262-278) -/
def SVal.asQty : SVal α → Py (Quantity α)
  | .qty q => .ok q
  | .time _ => .error .attributeError

/-- A quantity of a state, if it is there. (communicator.py:268-272) -/
def recvOf (s : CState α) (name : String) : Py (Option (Quantity α)) :=
  match s.get? name with
  | none => .ok none
  | some v => do
    let q ← v.asQty
    return some q

/-- The root's loop of communicator.py:256-261.  (A receive quantity of the state is modified in
place: the entry is replaced by the result.) -/
def scatterRootLoop (c : Comm) (junk : List Nat → α) (send : CState α) :
    List String → CState α → CollM α (CState α)
  | [], st => return st
  | name :: names, st => do
    let sq ← .lift (match send.get? name with
      | none => .error .keyError
      | some v => v.asQty)
    let rq ← .lift (recvOf st name)
    let q ← scatter c junk ROOT_RANK (some sq) rq
    scatterRootLoop c junk send names (st.set name (.qty q))

/-- The others' loop of communicator.py:268-272. -/
def scatterClientLoop (c : Comm) (junk : List Nat → α) (rank : Int) :
    List String → CState α → CollM α (CState α)
  | [], st => return st
  | name :: names, st => do
    let rq ← .lift (recvOf st name)
    let q ← scatter c junk rank none rq
    scatterClientLoop c junk rank names (st.set name (.qty q))

/-- The value of "time" in a state (communicator.py:263). -/
def timeOf (s : CState α) : Py (Option Int) :=
  match s.get? "time" with
  | none => .ok none
  | some (.time t) => .ok (some t)
  | some (.qty _) => .error .typeError

/-- communicator.py:262-264, 273, 281-282: the entry "time", removed if it is None. -/
def setTime (st : CState α) (t : Option Int) : CState α :=
  match t with
  | none => (st.set "time" (.time 0)).del "time"
  | some t => st.set "time" (.time t)

/-- communicator.py:237-283 `scatter_state`. -/
def scatterState (c : Comm) (junk : List Nat → α) (rank : Int) (send recv : Option (CState α)) :
    CollM α (CState α) :=
  let st := recv.getD []
  if rank = ROOT_RANK then
    match send with
    | none => .raise .typeError
    | some s => do
      let m ← bcast c.size rank (.names (s.keys.filter (· ≠ "time")))
      let names ← .lift m.asNames
      let st ← scatterRootLoop c junk s names st
      let t ← .lift (timeOf s)
      let m ← bcast c.size rank (.time t)
      let t ← .lift m.asTime
      return setTime st t
  else do
    let m ← bcast c.size rank (.time none)
    let names ← .lift m.asNames
    let st ← scatterClientLoop c junk rank names st
    let m ← bcast c.size rank (.time none)
    let t ← .lift m.asTime
    return setTime st t

/-- The loop of communicator.py:222-234; the state is `None` on a rank other than the root which was
not given one.  (`gather` does not use the receive quantity on the other ranks.) -/
def gatherLoop (c : Comm) (junk : List Nat → α) (rank : Int) :
    List (String × SVal α) → Option (CState α) → CollM α (Option (CState α))
  | [], st => return st
  | (name, v) :: rest, st =>
    if name = "time" then
      gatherLoop c junk rank rest (if rank = ROOT_RANK then st.map fun s => s.set "time" v else st)
    else do
      let q ← .lift v.asQty
      let rq ← .lift (if rank = ROOT_RANK then recvOf (st.getD []) name else .ok none)
      let g ← gather c junk rank q rq
      match g with
      | some q' => gatherLoop c junk rank rest (st.map fun s => s.set name (.qty q'))
      | none => gatherLoop c junk rank rest st

/-- communicator.py:207-235 `gather_state`. -/
def gatherState (c : Comm) (junk : List Nat → α) (rank : Int) (send : CState α) (recv : Option (CState α)) :
    CollM α (Option (CState α)) :=
  gatherLoop c junk rank send (if rank = ROOT_RANK then some (recv.getD []) else recv)

end FV3
