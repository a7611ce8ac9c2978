import Verif.Model.Communicator

/-!
# All ranks in one process: halo updates over DummyComm

The tests of the package, and of codes that use it, run all ranks in one process: a list of `CubedSphereCommunicator`
objects, one for each rank, over `DummyComm` objects that share a dictionary.  The calls of the ranks are made one after
the other, each runs to its end: a receive for which there is nothing raises an exception instead of waiting.  The tag of
a message is ignored.

Simplification: only sends and receives; the collectives of DummyComm are in Verif/Model/DummyComm.lean.
-/

namespace FV3.OneProcess
open FV3
variable {α : Type}

/-- `_buffer["send_recv"]`: the messages from a rank to another which have not been received, or nothing if none was ever
sent. (testing/dummy_comm.py:51-69) -/
abbrev Queues (α : Type) := Int → Int → Option (List (Msg α))

/-- dummy_comm.py:65-69 `_put_send_recv`. -/
def put (Q : Queues α) (src dst : Int) (m : Msg α) : Queues α := fun s d =>
  if s = src ∧ d = dst then some ((Q src dst).getD [] ++ [m]) else Q s d

/-- What is left after the first message was taken. (dummy_comm.py:62) -/
def keep (Q : Queues α) (src dst : Int) (ms : List (Msg α)) : Queues α := fun s d =>
  if s = src ∧ d = dst then some ms else Q s d

/-- A call on rank `r`, run to its end: its result or the exception of a receive.  `Isend` copies the array; waiting for a
send does nothing. (dummy_comm.py:17-22, 51-69, 131-151) -/
def call {R : Type} (r : Int) : Proc (Msg α) R → Queues α → Py R × Queues α
  | .ret x, Q => (.ok x, Q)
  | .isend d _ m k, Q => call r (k 0) (put Q r d m)
  | .recv s _ k, Q =>
    match Q s r with
    | none => (.error .concurrency, Q)
    | some [] => (.error .indexError, Q)
    | some (m :: ms) => call r (k m) (keep Q s r ms)
  | .await _ _ _ k, Q => call r (k ()) Q

/-- `recvbuf[:] = message`, and `recvbuf` is stored in the view: a message of another shape is broadcast if that is
possible. (communicator.py:657-666, dummy_comm.py:141-143, utils.py:60-72) -/
def storeInto (mem : Mem α) (q : Nat) (ix : List Ix) (a : NDArray α) : Py (Mem α) := do
  let d ← (mem q).data.setItem ix a
  return fun q' => if q' = q then { mem q with data := d } else mem q'

/-- communicator.py:657-666: the deferred `Recv` into the view. -/
def recvInto (rq : RecvReq) : CommM α Unit := fun s =>
  .recv rq.src (.halo rq.tag) fun m =>
    match m with
    | .data a =>
      match storeInto s.mem rq.q rq.ix a with
      | .ok mem => .ret (.ok (), { s with mem := mem })
      | .error e => .ret (.error e, s)
    | _ => .ret (.error .typeError, s)

/-- communicator.py:52-56 `HaloUpdateRequest.wait`. -/
def waitRequest (req : Request) : CommM α Unit := do
  let _ ← CommM.forEach recvInto req.recvs
  let _ ← CommM.forEach awaitSend req.sends
  return ()

/-- communicator.py:378-386 `halo_update`. -/
def haloUpdate (l : Layout) (r : Int) (q : Nat) (n : Int) : CommM α Unit := do
  let req ← startHaloUpdate l r q n
  waitRequest req

/-- A start, a wait or a computation. (communicator.py:388, 461, 512, 52) -/
def execOp [Neg α] (l : Layout) (r : Int) : Op α → CommM α Unit
  | .wait i => do
    let s ← CommM.get
    match s.reqs[i]? with
    | none => CommM.raise .indexError
    | some req => waitRequest req
  | o => o.exec l r

/-- The ranks: how many calls each has made, their states, and the shared dictionary.
(tests/test_halo_update.py:307-312) -/
structure World (α : Type) where
  made : Int → Nat
  states : Int → RankState α
  queues : Queues α

/-- Rank `r` makes its next call of `ops`; an exception ends everything.
(communicator.py:388, 461, 512, 52; tests/test_halo_update.py:307-312) -/
def turn [Neg α] (l : Layout) (ops : List (Op α)) (r : Int) (w : World α) : Py (World α) :=
  match ops[w.made r]? with
  | none => .ok w
  | some op =>
    match call r (execOp l r op (w.states r)) w.queues with
    | (.error e, _) => .error e
    | (.ok (.error e, _), _) => .error e
    | (.ok (.ok (), s), Q) =>
      .ok ⟨updRank w.made r (w.made r + 1), updRank w.states r s, Q⟩

/-- The ranks make calls in the order `order`. (communicator.py:388, 461, 512, 52) -/
def turns [Neg α] (l : Layout) (ops : List (Op α)) : List Int → World α → Py (World α)
  | [], w => .ok w
  | r :: rs, w => do
    let w' ← turn l ops r w
    turns l ops rs w'

/-- New communicators and an empty dictionary. (communicator.py:306-318, dummy_comm.py:25-31) -/
def World.new (mem : Int → Mem α) : World α :=
  ⟨fun _ => 0, fun r => ⟨mem r, 0, []⟩, fun _ _ => none⟩

end FV3.OneProcess
