import Verif.Model.NDArray
import Verif.Model.Dict

/-!
# DummyComm (testing/dummy_comm.py)

All ranks share one dictionary.  Arrays are objects with identity: the heap is the list of
their contents, `owned` are the arrays of the user (who may change them at any time), all
others are private copies made by the communicator.

Simplification: arrays are contiguous (`ensure_contiguous` passes).  Keyword arguments such as
`tag` are ignored, as in the code.
-/

namespace FV3

/-- Heap, the user's arrays, and `_buffer["send_recv"]` (absent before the first send). (dummy_comm.py:22-151) -/
structure DSt (α : Type) where
  heap : List (NDArray α)
  owned : List Nat
  sendRecv : Option (Dict (Int × Int) (List Nat))

namespace Dummy
variable {α : Type}

/-- What can happen: the user creates an array, overwrites one of theirs; rank `src` calls
`Send`/`Isend` of an array to `dst`; rank `dst` calls `Recv` (or waits for `Irecv`) from `src`
into an array. (dummy_comm.py:22-151) -/
inductive Ev (α : Type) where
  | create (v : NDArray α)
  | mutate (a : Nat) (v : NDArray α)
  | send (src dst : Int) (a : Nat)
  | recv (dst src : Int) (a : Nat)

/-- The contents of an array. (dummy_comm.py:22-151) -/
def read (s : DSt α) (a : Nat) : Option (NDArray α) := s.heap[a]?

/-- dummy_comm.py:65-69 `_put_send_recv`: append a deep copy. -/
def put (s : DSt α) (src dst : Int) (v : NDArray α) : DSt α :=
  let d := s.sendRecv.getD []
  let q := (d.get? (src, dst)).getD []
  { s with heap := s.heap ++ [v], sendRecv := some (d.set (src, dst) (q ++ [s.heap.length])) }

/-- dummy_comm.py:51-63 `_get_send_recv`: ConcurrencyError without a queue, IndexError from
`pop(0)` of an empty one. -/
def take (s : DSt α) (dst src : Int) : Py Nat × DSt α :=
  match s.sendRecv with
  | none => (.error .concurrency, s)
  | some d =>
    match d.get? (src, dst) with
    | none => (.error .concurrency, s)
    | some [] => (.error .indexError, s)
    | some (a :: q) => (.ok a, { s with sendRecv := some (d.set (src, dst) q) })

/-- One event.  Events on arrays that are not the user's do not happen (they are no-ops).
dummy_comm.py:131-151, utils.py:60-72 (`array[:] = ...` is an IndexError for an array without axes). -/
def step (s : DSt α) : Ev α → Py Unit × DSt α
  | .create v => (.ok (), { s with heap := s.heap ++ [v], owned := s.heap.length :: s.owned })
  | .mutate a v => if a ∈ s.owned then (.ok (), { s with heap := s.heap.set a v }) else (.ok (), s)
  | .send src dst a =>
    if a ∈ s.owned then
      match read s a with
      | none => (.ok (), s)
      | some v => (.ok (), put s src dst v)
    else (.ok (), s)
  | .recv dst src a =>
    if a ∈ s.owned then
      match take s dst src with
      | (.error e, s') => (.error e, s')
      | (.ok b, s') =>
        match read s' a, read s' b with
        | some old, some v =>
          if old.shape = [] then (.error .indexError, s')
          else if fits v.shape old.shape then (.ok (), { s' with heap := s'.heap.set a (v.stretch old.shape) })
          else (.error .valueError, s')
        | _, _ => (.error .runtimeError, s')
    else (.ok (), s)

/-- State after a history. (dummy_comm.py:22-151) -/
def run : DSt α → List (Ev α) → DSt α
  | s, [] => s
  | s, e :: es => run (step s e).2 es

/-- A new buffer dictionary. (dummy_comm.py:22-151) -/
def init : DSt α := ⟨[], [], none⟩

/-! ### Collectives -/

/-- dummy_comm.py:42-49 `_get_buffer` of one buffer type: the shared list, and how often each
rank has called. -/
structure CSt (V : Type) where
  values : List V
  calls : Int → Nat

/-- dummy_comm.py:42-49, 89-96: rank `r` calls `bcast(value)` (root 0). -/
def bcast {V : Type} (s : CSt V) (r : Int) (value : V) : Py V × CSt V :=
  let i := s.calls r
  let values := if r = 0 then s.values ++ [value] else s.values
  let s' : CSt V := ⟨values, fun r' => if r' = r then i + 1 else s.calls r'⟩
  match values[i]? with
  | some v => (.ok v, s')
  | none => (.error .indexError, s')

/-- A history of `bcast` calls: outcomes in order. (dummy_comm.py:22-151) -/
def bcasts {V : Type} : CSt V → List (Int × V) → List (Py V) × CSt V
  | s, [] => ([], s)
  | s, (r, v) :: cs =>
    let x := bcast s r v
    let y := bcasts x.2 cs
    (x.1 :: y.1, y.2)

/-- dummy_comm.py:83-87, 114-129: rank `r` calls `Gather(v)` with root `root`; the buffer has
one slot per rank and is never cleared.  Root gets the list of all slots. -/
def gather {V : Type} (slots : List (Option V)) (root r : Nat) (v : V) :
    Py (Option (List V)) × List (Option V) :=
  let slots' := slots.set r (some v)
  if r = root then
    match slots'.mapM id with
    | none => (.error .concurrency, slots')
    | some vs => (.ok (some vs), slots')
  else (.ok none, slots')

/-- A history of `Gather` calls: the root given, the calling rank and its value. (dummy_comm.py:114-129) -/
def gathers {V : Type} : List (Option V) → List (Nat × Nat × V) → List (Option V)
  | slots, [] => slots
  | slots, (root, r, v) :: cs => gathers (gather slots root r v).2 cs

/-- dummy_comm.py:101-112 `Scatter` (root 0): the shared list has the arrays given by rank 0 (deep copies, so
later changes do not matter), `None` for the others; rank `r` gets item `r` of the array.  (`sendbuf` is the
list of its items; an array without item `r` raises IndexError.) -/
def scatter {V : Type} (s : CSt (Option (List V))) (r : Int) (sendbuf : Option (List V)) :
    Py V × CSt (Option (List V)) :=
  match bcast s r sendbuf with
  | (.error e, s') => (.error e, s')
  | (.ok none, s') => (.error .typeError, s')
  | (.ok (some items), s') =>
    match items[r.toNat]? with
    | none => (.error .indexError, s')
    | some v => (.ok v, s')

/-- A history of `Scatter` calls. (dummy_comm.py:101-112) -/
def scatters {V : Type} : CSt (Option (List V)) → List (Int × Option (List V)) → CSt (Option (List V))
  | s, [] => s
  | s, (r, v) :: cs => scatters (scatter s r v).2 cs

/-- A communicator made by `Split`: its rank and size. (dummy_comm.py:23-28, 157-165) -/
structure SplitComm where
  rank : Nat
  size : Nat
  deriving DecidableEq, Repr

/-- dummy_comm.py:27-28, 153-166 `Split`: the communicators made before are kept in the object of the calling
rank (`_split_comms` is not shared between ranks), so this is the state of one rank.  `key` is ignored. -/
def split (comms : Dict Int (List SplitComm)) (color _key : Int) : SplitComm × Dict Int (List SplitComm) :=
  let old := (comms.get? color).getD []
  let c : SplitComm := ⟨old.length, old.length + 1⟩
  (c, comms.set color (old.map (fun o => { o with size := old.length + 1 }) ++ [c]))

end Dummy
end FV3
