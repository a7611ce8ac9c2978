import Verif.Model.Program

/-!
# Sends that MPI reads later (communicator.py `_Isend`)

`_Isend` passes `ascontiguousarray(in_array)` to `comm.Isend` (communicator.py:637-646).  That
call copies the array only if it is not contiguous; otherwise MPI is given the memory of the
quantity itself, and may read any of its elements at any time until the send is complete.  In
Model/Communicator.lean a message is fixed when `Isend` is called.  Here it is not: the message
is a view of the memory of the sender, and each of its elements is read, by a step of the
network of its own, at some time after the `Isend`.  (A copy is the case in which all elements
are read at once.)  A program of a rank therefore names the memory it reads and writes, instead
of carrying it along.  `σ` is the type of memories.

Simplifications: as in Model/Communicator.lean, except the first one there.  A receive stores
the received array in one step.
-/

namespace FV3.Late
open FV3

/-- The memory of a rank: how a received array is stored in a part of a quantity.
(communicator.py:652-666, buffer.py:94-95) -/
class Memory (σ α : Type) where
  store : σ → Nat → List Ix → NDArray α → Py σ

/-- Here every quantity is a value of its own, see Model/Communicator.lean.  (For quantities that are objects in one
memory see Model/HeapLate.lean.) (communicator.py:652-666, buffer.py:94-95) -/
instance {α : Type} : Memory (Mem α) α where
  store := storeInto

/-- The program of one rank, whose quantities are in a memory that the network can read.
(MPI as used at communicator.py:45-56, 637-666) -/
inductive LProc (σ α R : Type) : Type where
  /-- finished with a result -/
  | ret (x : R)
  /-- the rank looks at its quantities -/
  | get (k : σ → LProc σ α R)
  /-- the rank changes its quantities -/
  | put (f : σ → σ) (k : Unit → LProc σ α R)
  /-- `comm.Isend(read, dest, tag)` (communicator.py:637-646): `read` is what the array handed to
  MPI contains, given the quantities at the time of reading. -/
  | isend (dst : Int) (tag : Tag) (read : σ → NDArray α) (k : Nat → LProc σ α R)
  /-- `comm.Recv(buf, source, tag)` into a view of quantity `q` (communicator.py:652-666) -/
  | recv (src : Int) (tag : Tag) (q : Nat) (ix : List Ix) (k : Py Unit → LProc σ α R)
  /-- `request.wait()` of an `Isend` request (communicator.py:52-56) -/
  | await (dst : Int) (tag : Tag) (idx : Nat) (k : Unit → LProc σ α R)

/-- Sequential composition. (MPI as used at communicator.py:45-56, 637-666) -/
def LProc.bind {σ α R S : Type} : LProc σ α R → (R → LProc σ α S) → LProc σ α S
  | .ret x, f => f x
  | .get k, f => .get fun m => (k m).bind f
  | .put g k, f => .put g fun u => (k u).bind f
  | .isend d t rd k, f => .isend d t rd fun i => (k i).bind f
  | .recv s t q ix k, f => .recv s t q ix fun e => (k e).bind f
  | .await d t i k, f => .await d t i fun u => (k u).bind f

/-- A message on its way: the view that is sent, its shape, and the elements read so far.
(MPI as used at communicator.py:637-646) -/
structure Entry (σ α : Type) where
  read : σ → NDArray α
  shape : List Nat
  got : List Nat → Option α

/-- All elements have been read. (MPI as used at communicator.py:637-646) -/
def Entry.Complete {σ α : Type} (e : Entry σ α) : Prop := ∀ idx, InB e.shape idx → (e.got idx).isSome

/-- State of all ranks and of the network; see `Net`. (MPI as used at communicator.py:45-56, 637-666) -/
structure LNet (σ α R : Type) where
  procs : Int → LProc σ α R
  mem : Int → σ
  sent : Int → Int → Tag → List (Entry σ α)
  rcvd : Int → Int → Tag → Nat

/-- A step of a rank, or the reading of one element by the network.  A message can be received,
and a buffered send is complete, once all elements have been read.
(MPI as used at communicator.py:45-56, 637-666) -/
inductive Step {σ α R : Type} [Memory σ α] (buf : Buffering) (N : LNet σ α R) : LNet σ α R → Prop
  | get {r : Int} {k : σ → LProc σ α R} (h : N.procs r = .get k) :
    Step buf N { N with procs := updRank N.procs r (k (N.mem r)) }
  | put {r : Int} {f : σ → σ} {k : Unit → LProc σ α R} (h : N.procs r = .put f k) :
    Step buf N { N with procs := updRank N.procs r (k ()), mem := updRank N.mem r (f (N.mem r)) }
  | isend {r d : Int} {t : Tag} {rd : σ → NDArray α} {k : Nat → LProc σ α R}
    (h : N.procs r = .isend d t rd k) :
    Step buf N { N with
      procs := updRank N.procs r (k (N.sent r d t).length)
      sent := updCh N.sent r d t (N.sent r d t ++ [⟨rd, (rd (N.mem r)).shape, fun _ => none⟩]) }
  | read {s d : Int} {t : Tag} {i : Nat} {e : Entry σ α} {idx : List Nat}
    (h : (N.sent s d t)[i]? = some e) (hi : InB e.shape idx) (hn : e.got idx = none) :
    Step buf N { N with
      sent := updCh N.sent s d t ((N.sent s d t).set i
        { e with got := fun j => if j = idx then some ((e.read (N.mem s)).get idx) else e.got j }) }
  | recv {r s : Int} {t : Tag} {q : Nat} {ix : List Ix} {k : Py Unit → LProc σ α R} {e : Entry σ α}
    {a : NDArray α} (h : N.procs r = .recv s t q ix k)
    (he : (N.sent s r t)[N.rcvd s r t]? = some e) (hs : a.shape = e.shape)
    (ha : ∀ idx, InB e.shape idx → e.got idx = some (a.get idx)) :
    Step buf N (match Memory.store (N.mem r) q ix a with
      | .ok m =>
        { N with procs := updRank N.procs r (k (.ok ())), mem := updRank N.mem r m
                 rcvd := updCh N.rcvd s r t (N.rcvd s r t + 1) }
      | .error x =>
        { N with procs := updRank N.procs r (k (.error x))
                 rcvd := updCh N.rcvd s r t (N.rcvd s r t + 1) })
  | await {r d : Int} {t : Tag} {i : Nat} {k : Unit → LProc σ α R} (h : N.procs r = .await d t i k)
    (hd : i < N.rcvd r d t ∨
      buf r d t i = true ∧ ∀ e, (N.sent r d t)[i]? = some e → e.Complete) :
    Step buf N { N with procs := updRank N.procs r (k ()) }

/-- What the communicator object of a rank knows: `_last_halo_tag` (communicator.py:316) and the
requests it has returned. -/
structure Own where
  lastTag : Nat
  reqs : List Request

/-- Programs of a rank with Python exceptions. (communicator.py:378-535, 637-666) -/
def LM (σ α A : Type) := Own → LProc σ α (Py A × Own)

namespace LM
variable {σ α A B : Type}

/-- Plumbing of the model (communicator.py:378-535, 637-666) -/
def pure (a : A) : LM σ α A := fun s => .ret (.ok a, s)

/-- Sequencing; an exception propagates. (communicator.py:378-535, 637-666) -/
def bind (c : LM σ α A) (f : A → LM σ α B) : LM σ α B := fun s =>
  (c s).bind fun x =>
    match x.1 with
    | .ok a => f a x.2
    | .error e => .ret (.error e, x.2)

/-- The monad structure of the model (communicator.py:378-535, 637-666) -/
instance : Monad (LM σ α) where
  pure := LM.pure
  bind := LM.bind

/-- A computation without communication. (communicator.py:378-535, 637-666) -/
def lift (x : Py A) : LM σ α A := fun s => .ret (x, s)
/-- Plumbing of the model (communicator.py:378-535, 637-666) -/
def raise (e : PyErr) : LM σ α A := fun s => .ret (.error e, s)
/-- The current value of a quantity. (communicator.py:378-535, 637-666) -/
def quantity (q : Nat) : LM (Mem α) α (Quantity α) := fun s => .get fun m => .ret (.ok (m q), s)

/-- The array made by indexing, rotating and negating quantities: what it contains depends on the
quantities at the time it is read, since the array is a view.  The indexing itself is done at
once, with its exceptions.  (The view is evaluated again on the quantities at the time of reading, which
is what a view of unchanged shape and position shows; should that raise, because the metadata were
changed, the first content is taken.  A negated array is a copy: it is read at once.  The model lets it be
read later.) (communicator.py:408-417, 543-557, 572-603) -/
def pack (view : σ → Py A) : LM σ α (σ → A) := fun s =>
  .get fun m =>
    match view m with
    | .ok a => .ret (.ok fun m' => match view m' with | .ok b => b | .error _ => a, s)
    | .error e => .ret (.error e, s)

/-- A Python `for` loop collecting results. (communicator.py:407, 424, 541) -/
def forEach (f : A → LM σ α B) : List A → LM σ α (List B)
  | [] => Pure.pure []
  | a :: as => do
    let b ← f a
    let bs ← forEach f as
    return b :: bs

end LM

variable {σ α : Type}

/-- communicator.py:637-646 `_Isend`. -/
def isend (dst : Int) (tag : Nat) (read : σ → NDArray α) : LM σ α SendReq := fun s =>
  .isend dst (.halo tag) read fun i => .ret (.ok ⟨dst, tag, i⟩, s)

/-- communicator.py:657-666: the deferred `Recv` into the view. -/
def recvInto (rq : RecvReq) : LM σ α Unit := fun s =>
  .recv rq.src (.halo rq.tag) rq.q rq.ix fun e => .ret (e, s)

/-- Waiting for an `Isend` request. (communicator.py:55-56) -/
def awaitSend (sr : SendReq) : LM σ α Unit := fun s =>
  .await sr.dst (.halo sr.tag) sr.idx fun _ => .ret (.ok (), s)

/-- communicator.py:52-56 `HaloUpdateRequest.wait`. -/
def waitRequest (req : Request) : LM σ α Unit := do
  let _ ← LM.forEach recvInto req.recvs
  let _ ← LM.forEach awaitSend req.sends
  return ()

/-- communicator.py:320-322 `_get_halo_tag`. -/
def getHaloTag : LM σ α Nat := fun s => .ret (.ok (s.lastTag + 1), { s with lastTag := s.lastTag + 1 })

/-- communicator.py:405-420 `_Isend_halos`. -/
def isendHalos (l : Layout) (r : Int) (q : Nat) (n : Int) (tag : Nat) : LM (Mem α) α (List SendReq) := do
  let bs ← LM.lift (Cube.boundaries l r)
  LM.forEach (fun (b : Boundary) => do
    let data ← LM.pack fun m => do
      let data ← sendView (m q) b.boundaryType n
      rotateScalar data (m q).dims (-b.rotations)
    isend b.toRank tag data) bs

/-- communicator.py:422-437 `_Irecv_halos`. -/
def irecvHalos (l : Layout) (r : Int) (q : Nat) (n : Int) (tag : Nat) : LM (Mem α) α (List RecvReq) := do
  let bs ← LM.lift (Cube.boundaries l r)
  LM.forEach (fun (b : Boundary) => do
    let quantity ← LM.quantity q
    let ix ← LM.lift (recvIndex quantity b.boundaryType n)
    return ⟨b.toRank, tag, q, ix⟩) bs

/-- communicator.py:388-403 `start_halo_update`. -/
def startHaloUpdate (l : Layout) (r : Int) (q : Nat) (n : Int) : LM (Mem α) α Request :=
  if n = 0 then LM.raise .valueError
  else do
    let tag ← getHaloTag
    let sends ← isendHalos l r q n tag
    let recvs ← irecvHalos l r q n tag
    return ⟨sends, recvs⟩

/-- communicator.py:378-386 `halo_update`. -/
def haloUpdate (l : Layout) (r : Int) (q : Nat) (n : Int) : LM (Mem α) α Unit := do
  let req ← startHaloUpdate l r q n
  waitRequest req

/-- communicator.py:537-567 `_Isend_vector_halos`. -/
def isendVectorHalos [Neg α] (l : Layout) (r : Int) (x y : Nat) (n : Int) (tag1 tag2 : Nat) :
    LM (Mem α) α (List SendReq) := do
  let bs ← LM.lift (Cube.boundaries l r)
  let rs ← LM.forEach (fun (b : Boundary) => do
    let xy ← LM.pack fun m => do
      let xData ← sendView (m x) b.boundaryType n
      let yData ← sendView (m y) b.boundaryType n
      rotateVector xData yData (-b.rotations) (m x).dims
    let s1 ← isend b.toRank tag1 fun m => (xy m).1
    let s2 ← isend b.toRank tag2 fun m => (xy m).2
    return [s1, s2]) bs
  return rs.flatten

/-- communicator.py:512-535 `start_vector_halo_update`. -/
def startVectorHaloUpdate [Neg α] (l : Layout) (r : Int) (x y : Nat) (n : Int) : LM (Mem α) α Request :=
  if n = 0 then LM.raise .valueError
  else do
    let tag1 ← getHaloTag
    let tag2 ← getHaloTag
    let sends ← isendVectorHalos l r x y n tag1 tag2
    let r1 ← irecvHalos l r x n tag1
    let r2 ← irecvHalos l r y n tag2
    return ⟨sends, r1 ++ r2⟩

/-- communicator.py:446-459 `vector_halo_update`. -/
def vectorHaloUpdate [Neg α] (l : Layout) (r : Int) (x y : Nat) (n : Int) : LM (Mem α) α Unit := do
  let req ← startVectorHaloUpdate l r x y n
  waitRequest req

/-- communicator.py:569-610 `_Isend_vector_shared_boundary`. -/
def isendSharedBoundary [Neg α] (l : Layout) (r : Int) (x y : Nat) (tag : Nat) :
    LM (Mem α) α (List SendReq) := do
  let south ← LM.lift (Cube.boundaryAt l r .south)
  let west ← LM.lift (Cube.boundaryAt l r .west)
  let southData ← LM.pack fun m => southEdgeData (m x) south
  let westData ← LM.pack fun m => westEdgeData (m y) west
  let s1 ← isend south.toRank tag southData
  let s2 ← isend west.toRank tag westData
  return [s1, s2]

/-- communicator.py:612-635 `_Irecv_vector_shared_boundary`. -/
def irecvSharedBoundary (l : Layout) (r : Int) (x y : Nat) (tag : Nat) : LM (Mem α) α (List RecvReq) := do
  let north ← LM.lift (Cube.boundaryAt l r .north)
  let east ← LM.lift (Cube.boundaryAt l r .east)
  let xq ← LM.quantity x
  let yq ← LM.quantity y
  let ixN ← LM.lift (edgeIndex xq .nw .yI (-1) .x)
  let ixE ← LM.lift (edgeIndex yq .se .xI (-1) .y)
  return [⟨north.toRank, tag, x, ixN⟩, ⟨east.toRank, tag, y, ixE⟩]

/-- communicator.py:461-491 `start_synchronize_vector_interfaces`. -/
def startSynchronize [Neg α] (l : Layout) (r : Int) (x y : Nat) : LM (Mem α) α Request := do
  let xq ← LM.quantity x
  let yq ← LM.quantity y
  if onCGrid xq.dims yq.dims = false then LM.raise .valueError
  else do
    let tag ← getHaloTag
    let sends ← isendSharedBoundary l r x y tag
    let recvs ← irecvSharedBoundary l r x y tag
    return ⟨sends, recvs⟩

/-- communicator.py:493-510 `synchronize_vector_interfaces`. -/
def synchronize [Neg α] (l : Layout) (r : Int) (x y : Nat) : LM (Mem α) α Unit := do
  let req ← startSynchronize l r x y
  waitRequest req

/-- Plumbing of the model (communicator.py:403, 491, 535) -/
def pushReq (req : Request) : LM σ α Unit := fun s => .ret (.ok (), { s with reqs := s.reqs ++ [req] })

/-- `requests[i]` (communicator.py:403, 491, 535) -/
def getReq (i : Nat) : LM σ α Request := fun s =>
  match s.reqs[i]? with
  | none => .ret (.error .indexError, s)
  | some req => .ret (.ok req, s)

/-- A computation on the quantities of the rank. (communicator.py:388, 461, 512, 52) -/
def compute (f : Mem α → Mem α) : LM (Mem α) α Unit := fun s => .put f fun _ => .ret (.ok (), s)

/-- One operation of rank `r`. (communicator.py:388, 461, 512, 52) -/
def execOp [Neg α] (l : Layout) (r : Int) : Op α → LM (Mem α) α Unit
  | .halo q n => do
    let req ← startHaloUpdate l r q n
    pushReq req
  | .vector x y n => do
    let req ← startVectorHaloUpdate l r x y n
    pushReq req
  | .sync x y => do
    let req ← startSynchronize l r x y
    pushReq req
  | .wait i => do
    let req ← getReq i
    waitRequest req
  | .compute f => compute (f r)

/-- A sequence of operations. (communicator.py:388, 461, 512, 52) -/
def execOps [Neg α] (l : Layout) (r : Int) : List (Op α) → LM (Mem α) α Unit
  | [] => return ()
  | op :: ops => do
    execOp l r op
    execOps l r ops

/-- A blocking call. (communicator.py:378-386, 446-459, 493-510) -/
def execCall [Neg α] (l : Layout) (r : Int) : Call α → LM (Mem α) α Unit
  | .haloUpdate q n => haloUpdate l r q n
  | .vectorHaloUpdate x y n => vectorHaloUpdate l r x y n
  | .synchronize x y => synchronize l r x y
  | .compute f => compute (f r)

/-- A sequence of calls. (communicator.py:378-386, 446-459, 493-510) -/
def execCalls [Neg α] (l : Layout) (r : Int) : List (Call α) → LM (Mem α) α Unit
  | [] => return ()
  | c :: cs => do
    execCall l r c
    execCalls l r cs

/-- The network before anything is sent. (communicator.py:378-386, 446-459, 493-510) -/
def LNet.start {σ R : Type} (procs : Int → LProc σ α R) (mem : Int → σ) : LNet σ α R :=
  ⟨procs, mem, fun _ _ _ => [], fun _ _ _ => 0⟩

/-- All ranks make the same sequence of calls, starting with fresh communicators.
(communicator.py:378-386, 446-459, 493-510) -/
def callNet [Neg α] (l : Layout) (calls : List (Call α)) (mem : Int → Mem α) :
    LNet (Mem α) α (Py Unit × Own) :=
  LNet.start (fun r => if r ∈ allRanks l then execCalls l r calls ⟨0, []⟩ else .ret (.ok (), ⟨0, []⟩)) mem

/-- Rank `r` runs the operations `prog r` from a fresh communicator.
(communicator.py:388, 461, 512, 52) -/
def cubeNet [Neg α] (l : Layout) (prog : Int → List (Op α)) (mem : Int → Mem α) :
    LNet (Mem α) α (Py Unit × Own) :=
  LNet.start (fun r => if r ∈ allRanks l then execOps l r (prog r) ⟨0, []⟩ else .ret (.ok (), ⟨0, []⟩)) mem

end FV3.Late
