import Verif.Model.Collective
import Verif.Model.HeapComm

/-!
# Scatter and gather of quantities in memory (communicator.py:81-205 with quantity.py)

Model/Collective.lean gives `scatter` and `gather` their arguments as values, which share nothing.  Here the state of a rank
is the world of Model/Memory.lean; the arguments are variables of the rank, and the quantity to send and the one to receive
may share memory, or be the same object.

Simplifications: those of Model/Collective.lean (except that the arguments are distinct) and of Model/Memory.lean.  The
quantity to receive into is always given; a new one, which `None` asks for, shares memory with nothing (C25, C26).
-/

namespace FV3
namespace Heap
open Mem (World)
variable {α A B : Type}

/-- Programs of a rank with collectives: the state is the memory of the rank and the number of collective calls made.
(communicator.py:81-205) -/
def HC (α A : Type) := World α × Nat → Proc (Msg α) (Py A × (World α × Nat))

namespace HC

/-- Plumbing of the model (communicator.py:81-205) -/
def pure (a : A) : HC α A := fun s => .ret (.ok a, s)

/-- Sequencing; an exception propagates. (communicator.py:81-205) -/
def bind (c : HC α A) (f : A → HC α B) : HC α B := fun s =>
  (c s).bind fun x =>
    match x.1 with
    | .ok a => f a x.2
    | .error e => .ret (.error e, x.2)

/-- The monad structure of the model (communicator.py:81-205) -/
instance : Monad (HC α) where
  pure := HC.pure
  bind := HC.bind

/-- A computation without communication. (communicator.py:81-205) -/
def lift (x : Py A) : HC α A := fun s => .ret (x, s)
/-- Plumbing of the model (communicator.py:96-97) -/
def raise (e : PyErr) : HC α A := fun s => .ret (.error e, s)
/-- A collective of MPI: it does not touch the memory of the model. (communicator.py:69-79, 98-102) -/
def coll (c : CollM α A) : HC α A := fun s => (c s.2).bind fun x => .ret (x.1, (s.1, x.2))
/-- The current value of a quantity. (communicator.py:81-205) -/
def quantity [Inhabited α] (h : Nat) : HC α (Quantity α) := fun s => .ret (value s.1 h, s)
/-- What has been received is stored in a part of the data of a quantity. (communicator.py:69-74, buffer.py:94-95) -/
def fill (h : Nat) (ix : List Ix) (a : NDArray α) : HC α Unit := fun s =>
  .ret ((Heap.fill s.1 h ix a).1, ((Heap.fill s.1 h ix a).2, s.2))

end HC

/-- Assignment to a part of the data of a quantity; the array is broadcast. (communicator.py:198, quantity.py:175-177) -/
def store (W : World α) (h : Nat) (ix : List Ix) (x : NDArray α) : Py Unit × World α :=
  match dataOf W h with
  | .error e => (.error e, W)
  | .ok (i, _, _) => W.assign i ix x

/-- The same as a program. (communicator.py:198, quantity.py:175-177) -/
def HC.store (h : Nat) (ix : List Ix) (a : NDArray α) : HC α Unit := fun s =>
  .ret ((Heap.store s.1 h ix a).1, ((Heap.store s.1 h ix a).2, s.2))

section
variable [Inhabited α]

/-- `view[:]` as a receive buffer. (communicator.py:69-79, 120-129) -/
def fillView (h : Nat) (a : NDArray α) : HC α Unit := do
  let q ← HC.quantity h
  let ix ← HC.lift (if q.origin.length = 0 then .ok [] else q.computeIndex (.one (.slice .full)))
  HC.fill h ix a

/-- communicator.py:81-130 `scatter(send_quantity, recv_quantity)`. -/
def scatter (c : Comm) (rank : Int) (send : Option Nat) (recv : Nat) : HC α Unit :=
  if rank = ROOT_RANK then
    match send with
    | none => HC.raise .typeError
    | some s => do
      let sq ← HC.quantity s
      let m ← HC.coll (bcast c.size rank (.metadata sq.metadata))
      let md ← HC.lift m.asMeta
      let shape ← HC.lift (c.subtileExtent md.dims md.extent)
      let sq ← HC.quantity s
      let blocks ← HC.lift (scatterBlocks c sq shape c.ranks)
      match blocks with
      | [] => HC.raise .valueError
      | own :: others => do
        HC.coll (rootSends c.size fun r => .data ((own :: others).getD r.toNat own))
        fillView recv own
  else do
    let m ← HC.coll (bcast c.size rank (.time none))
    let md ← HC.lift m.asMeta
    let _ ← HC.lift (c.subtileExtent md.dims md.extent)
    let d ← HC.coll clientRecvs
    let a ← HC.lift d.asData
    fillView recv a

/-- communicator.py:191-198: the received blocks are stored one after the other. -/
def gatherStore (c : Comm) (h : Nat) : List (Int × NDArray α) → HC α Unit
  | [] => return ()
  | (r, a) :: rest => do
    let q ← HC.quantity h
    let ix ← HC.lift (c.subtileIx r q.dims q.extent)
    if a.shape.length = 0 then HC.raise .indexError
    else do
      let ix ← HC.lift (q.computeIndex (.tuple ix))
      HC.store h ix a
      gatherStore c h rest

/-- communicator.py:158-205 `gather(send_quantity, recv_quantity)`. -/
def gather (c : Comm) (rank : Int) (send : Nat) (recv : Nat) : HC α Unit :=
  if rank = ROOT_RANK then do
    let sq ← HC.quantity send
    let own ← HC.lift (sq.viewGet (.one (.slice .full)))
    let ms ← HC.coll (rootRecvs c.size)
    let blocks ← HC.lift (dataOfShape (sq.extent.map Int.toNat) (.data own :: ms))
    gatherStore c recv (c.ranks.zip blocks)
  else do
    let sq ← HC.quantity send
    let own ← HC.lift (sq.viewGet (.one (.slice .full)))
    HC.coll (clientSends (.data own))

/-- A collective call, or a program on the memory of the rank (which catches its exceptions).  Variables are given by
rank. (communicator.py:81-205, quantity.py:247-515) -/
inductive CCall (α : Type) where
  /-- communicator.py:81-130; `send` is used by the root only -/
  | scatter (send : Nat) (recv : Int → Nat)
  /-- communicator.py:158-205; `recv` is used by the root only -/
  | gather (send : Int → Nat) (recv : Nat)
  /-- quantity.py:247-515 -/
  | compute (ops : Int → List (Mem.Op α))

/-- Plumbing of the model (communicator.py:81-205) -/
def CCall.exec (g : Mem.Gt4py) (c : Comm) (r : Int) : CCall α → HC α Unit
  | .scatter send recv => Heap.scatter c r (some send) (recv r)
  | .gather send recv => Heap.gather c r (send r) recv
  | .compute ops => fun s => .ret (.ok (), ((s.1.run g (ops r)).2, s.2))

/-- A sequence of calls. (communicator.py:81-205) -/
def execColls (g : Mem.Gt4py) (c : Comm) (r : Int) : List (CCall α) → HC α Unit
  | [] => return ()
  | x :: xs => do
    x.exec g c r
    execColls g c r xs

/-- All ranks make the same sequence of calls; result: an exception or not, and the memory.
(communicator.py:81-205) -/
def collNet (g : Mem.Gt4py) (c : Comm) (calls : List (CCall α)) (W : Int → World α) : Net (Msg α) (Py Unit × World α) :=
  Net.start fun r =>
    if r ∈ c.ranks then (execColls g c r calls (W r, 0)).bind fun x => .ret (x.1, x.2.1)
    else .ret (.ok (), W r)

end
end Heap
end FV3
