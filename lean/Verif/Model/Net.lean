import Verif.Model.Basic

/-!
# Message passing

The part of MPI used by fv3gfs-util, as a labelled transition system: every rank runs a
sequential program that sends (`Isend`, never blocks), receives (`Recv(source, tag)`,
blocks until the message is there) and waits for the completion of its own sends.
Messages between two ranks with the same tag are not overtaken (the MPI ordering
guarantee); messages with different tags are independent.

Whether a send completes on its own (eager, buffered) or only once it has been received
(rendezvous) is up to the MPI library; it is a parameter, per message, of the semantics.

Not modelled: progress inside the MPI library, buffer exhaustion.  Creation of the tile communicators: `Verif.Model.TileSplit`.
-/

namespace FV3

/-- Message tags: the integer tags of the halo updates (communicator.py:320-322) and, for
the collectives `bcast`, `Scatter`, `Gather`, the number of the collective call.  Messages within the communicator of a
tile (communicator.py:335-346) are apart from all others: for its collectives, the tile and the number of the call. -/
inductive Tag where
  | halo (n : Nat)
  | coll (n : Nat)
  | tile (t : Int) (n : Nat)
  deriving DecidableEq, Repr

/-- The program of one rank: MPI calls with the computation in between.  `M` is the type of
messages, `R` of results. (MPI as used at communicator.py:45-56, 637-666) -/
inductive Proc (M : Type) (R : Type) : Type where
  /-- finished with a result -/
  | ret (r : R)
  /-- `comm.Isend(m, dest, tag)` (communicator.py:637-646); the continuation gets the handle
  of the send: its number among the sends to `dst` with this tag. -/
  | isend (dst : Int) (tag : Tag) (m : M) (k : Nat → Proc M R)
  /-- `comm.Recv(buf, source, tag)` (communicator.py:652-666) -/
  | recv (src : Int) (tag : Tag) (k : M → Proc M R)
  /-- `request.wait()` of an `Isend` request (communicator.py:52-56) -/
  | await (dst : Int) (tag : Tag) (idx : Nat) (k : Unit → Proc M R)

namespace Proc
variable {M R S : Type}

/-- Sequential composition. (MPI as used at communicator.py:45-56, 637-666) -/
def bind : Proc M R → (R → Proc M S) → Proc M S
  | .ret r, f => f r
  | .isend d t m k, f => .isend d t m fun i => (k i).bind f
  | .recv s t k, f => .recv s t fun m => (k m).bind f
  | .await d t i k, f => .await d t i fun u => (k u).bind f

end Proc

/-- State of all ranks and of the network.  `sent src dst tag` is everything sent so far on
a channel, `rcvd src dst tag` how many of these messages have been received.
(MPI as used at communicator.py:45-56, 637-666) -/
structure Net (M R : Type) where
  procs : Int → Proc M R
  sent : Int → Int → Tag → List M
  rcvd : Int → Int → Tag → Nat

/-- Which sends complete without having been received: sender, receiver, tag, handle.
(MPI as used at communicator.py:45-56, 637-666) -/
abbrev Buffering := Int → Int → Tag → Nat → Bool

/-- Update of a function of the channel. (MPI as used at communicator.py:45-56, 637-666) -/
def updCh {A : Type} (f : Int → Int → Tag → A) (s d : Int) (t : Tag) (v : A) :
    Int → Int → Tag → A :=
  fun s' d' t' => if s' = s ∧ d' = d ∧ t' = t then v else f s' d' t'

/-- Update of a function of the rank. (MPI as used at communicator.py:45-56, 637-666) -/
def updRank {A : Type} (f : Int → A) (r : Int) (v : A) : Int → A :=
  fun r' => if r' = r then v else f r'

variable {M R : Type}

/-- One step of rank `r`, if it is not finished or blocked. (MPI as used at communicator.py:45-56, 637-666) -/
def Net.step (buf : Buffering) (r : Int) (N : Net M R) : Option (Net M R) :=
  match N.procs r with
  | .ret _ => none
  | .isend d t m k =>
    some { procs := updRank N.procs r (k (N.sent r d t).length)
           sent := updCh N.sent r d t (N.sent r d t ++ [m])
           rcvd := N.rcvd }
  | .recv s t k =>
    match (N.sent s r t)[N.rcvd s r t]? with
    | none => none
    | some m =>
      some { procs := updRank N.procs r (k m)
             sent := N.sent
             rcvd := updCh N.rcvd s r t (N.rcvd s r t + 1) }
  | .await d t i k =>
    if buf r d t i = true ∨ i < N.rcvd r d t then
      some { procs := updRank N.procs r (k ()), sent := N.sent, rcvd := N.rcvd }
    else none

/-- Execution of a schedule: the list of ranks that make a step, in order; `none` if one of
them cannot. (MPI as used at communicator.py:45-56, 637-666) -/
def Net.run (buf : Buffering) : List Int → Net M R → Option (Net M R)
  | [], N => some N
  | r :: rs, N => (N.step buf r).bind (Net.run buf rs)

/-- No rank can make a step. (MPI as used at communicator.py:45-56, 637-666) -/
def Net.Stuck (buf : Buffering) (N : Net M R) : Prop := ∀ r, N.step buf r = none

end FV3
