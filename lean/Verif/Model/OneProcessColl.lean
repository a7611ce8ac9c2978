import Verif.Model.Collective
import Verif.Model.DummyComm

/-!
# All ranks in one process: scatter and gather over DummyComm

`Communicator` objects, one for each rank, over `DummyComm` objects that share a dictionary.  The calls of the ranks are
made one after the other, each runs to its end.

Simplifications: as in Verif/Model/Collective.lean; the dictionary has no "gather" entry before the first `Gather`, here the
slots are there from the start.
-/

namespace FV3.OneProcess
open FV3
variable {α A B : Type}

/-- The shared dictionary: the entries "bcast", "scatter" and "gather", with the number of calls each rank has made.
(testing/dummy_comm.py:25-49, 71-87) -/
structure Board (α : Type) where
  bcasts : Dummy.CSt (Msg α)
  scatters : Dummy.CSt (Option (List (NDArray α)))
  slots : List (Option (NDArray α))

/-- The dictionary of new communicators with `n` ranks. (dummy_comm.py:25-31, 83-87) -/
def Board.new (n : Nat) : Board α := ⟨⟨[], fun _ => 0⟩, ⟨[], fun _ => 0⟩, List.replicate n none⟩

/-- A call made on a rank: its result or exception, and the dictionary after it. (dummy_comm.py:89-129) -/
def DM (α A : Type) := Board α → Py A × Board α

namespace DM

/-- Plumbing of the model (dummy_comm.py:89-129) -/
def pure (a : A) : DM α A := fun b => (.ok a, b)

/-- Sequencing; an exception propagates. (dummy_comm.py:89-129) -/
def bind (x : DM α A) (f : A → DM α B) : DM α B := fun b =>
  match x b with
  | (.ok a, b') => f a b'
  | (.error e, b') => (.error e, b')

/-- The monad structure of the model (dummy_comm.py:89-129) -/
instance : Monad (DM α) where
  pure := DM.pure
  bind := DM.bind

/-- A computation without communication. (communicator.py:81-205) -/
def lift (x : Py A) : DM α A := fun b => (x, b)
/-- Plumbing of the model (communicator.py:81-205) -/
def raise (e : PyErr) : DM α A := fun b => (.error e, b)

end DM

/-- dummy_comm.py:89-96 `bcast`. -/
def bcast (r : Int) (m : Msg α) : DM α (Msg α) := fun b =>
  let x := Dummy.bcast b.bcasts r m
  (x.1, { b with bcasts := x.2 })

/-- dummy_comm.py:101-111 `Scatter`: the item of the calling rank. -/
def scatterArr (r : Int) (send : Option (List (NDArray α))) : DM α (NDArray α) := fun b =>
  let x := Dummy.scatter b.scatters r send
  (x.1, { b with scatters := x.2 })

/-- dummy_comm.py:114-129 `Gather`: root gets all slots. -/
def gatherArr (r : Int) (a : NDArray α) : DM α (Option (List (NDArray α))) := fun b =>
  let x := Dummy.gather b.slots 0 r.toNat a
  (x.1, { b with slots := x.2 })

/-- dummy_comm.py:112, utils.py:60-72, buffer.py:70-95: `recvbuf[:] = item`, and `recvbuf` is stored in the view, which has
the shape `shape`. -/
def assignView (q : Quantity α) (shape : List Nat) (a : NDArray α) : Py (Quantity α) :=
  if shape = [] then .error .indexError
  else if fits a.shape shape then q.fillView (a.stretch shape)
  else .error .valueError

/-- communicator.py:81-130 `scatter`. -/
def scatter (c : Comm) (junk : List Nat → α) (rank : Int) (send recv : Option (Quantity α)) : DM α (Quantity α) :=
  if rank = ROOT_RANK then
    match send with
    | none => .raise .typeError
    | some sq => do
      let m ← bcast rank (.metadata sq.metadata)
      let md ← .lift m.asMeta
      let shape ← .lift (c.subtileExtent md.dims md.extent)
      let rq ← .lift (recvOrNew recv (c.scatterRecvQuantity junk shape md))
      let blocks ← .lift (scatterBlocks c sq shape c.ranks)
      let v ← .lift (rq.viewGet (.one (.slice .full)))
      let a ← scatterArr rank (some blocks)
      .lift (assignView rq v.shape a)
  else do
    let m ← bcast rank (.time none)
    let md ← .lift m.asMeta
    let shape ← .lift (c.subtileExtent md.dims md.extent)
    let rq ← .lift (recvOrNew recv (c.scatterRecvQuantity junk shape md))
    let v ← .lift (rq.viewGet (.one (.slice .full)))
    let a ← scatterArr rank none
    .lift (assignView rq v.shape a)

/-- dummy_comm.py:128-129, utils.py:60-72: `recvbuf[i, :] = slot` for every slot; the rows of `recvbuf` have the shape
`shape`. -/
def castRows (shape : List Nat) : List (NDArray α) → Py (List (NDArray α))
  | [] => .ok []
  | a :: as => do
    if shape = [] then .error .indexError
    else if fits a.shape shape then
      let rest ← castRows shape as
      return a.stretch shape :: rest
    else .error .valueError

/-- The rows of `recvbuf`, of which there are `n`: the slots, and what was in the array before if there are fewer slots.
(communicator.py:173-183, dummy_comm.py:128-129) -/
def fillRows (junk : List Nat → α) (n : Nat) (shape : List Nat) (slots : List (NDArray α)) : Py (List (NDArray α)) := do
  let rows ← castRows shape slots
  if n < rows.length then .error .indexError
  else return rows ++ List.replicate (n - rows.length) ⟨shape, junk⟩

/-- communicator.py:158-205 `gather`; `junk` is what `numpy.empty` (or a recycled buffer) has. -/
def gather (c : Comm) (junk : List Nat → α) (rank : Int) (send : Quantity α) (recv : Option (Quantity α)) :
    DM α (Option (Quantity α)) := do
  let own ← .lift (send.viewGet (.one (.slice .full)))
  let got ← gatherArr rank own
  match got with
  | none => return none
  | some slots => do
    let blocks ← .lift (fillRows junk c.size.toNat (send.extent.map Int.toNat) slots)
    let rq ← .lift (recvOrNew recv
      (c.gatherRecvQuantity junk (c.globalExtent send.dims send.extent) send.metadata))
    let q ← .lift (gatherStore c (c.ranks.zip blocks) rq)
    return some q

/-! ### States -/

/-- The root's loop of communicator.py:256-261. -/
def scatterRootLoop (c : Comm) (junk : List Nat → α) (send : CState α) : List String → CState α → DM α (CState α)
  | [], st => return st
  | name :: names, st => do
    let sq ← .lift (match send.get? name with
      | none => .error .keyError
      | some v => v.asQty)
    let rq ← .lift (recvOf st name)
    let q ← scatter c junk ROOT_RANK (some sq) rq
    scatterRootLoop c junk send names (st.set name (.qty q))

/-- The others' loop of communicator.py:268-272. -/
def scatterClientLoop (c : Comm) (junk : List Nat → α) (rank : Int) : List String → CState α → DM α (CState α)
  | [], st => return st
  | name :: names, st => do
    let rq ← .lift (recvOf st name)
    let q ← scatter c junk rank none rq
    scatterClientLoop c junk rank names (st.set name (.qty q))

/-- communicator.py:237-283 `scatter_state`. -/
def scatterState (c : Comm) (junk : List Nat → α) (rank : Int) (send recv : Option (CState α)) : DM α (CState α) :=
  let st := recv.getD []
  if rank = ROOT_RANK then
    match send with
    | none => .raise .typeError
    | some s => do
      let m ← bcast rank (.names (s.keys.filter (· ≠ "time")))
      let names ← .lift m.asNames
      let st ← scatterRootLoop c junk s names st
      let t ← .lift (timeOf s)
      let m ← bcast rank (.time t)
      let t ← .lift m.asTime
      return setTime st t
  else do
    let m ← bcast rank (.time none)
    let names ← .lift m.asNames
    let st ← scatterClientLoop c junk rank names st
    let m ← bcast rank (.time none)
    let t ← .lift m.asTime
    return setTime st t

/-- The loop of communicator.py:222-234. -/
def gatherLoop (c : Comm) (junk : List Nat → α) (rank : Int) :
    List (String × SVal α) → Option (CState α) → DM α (Option (CState α))
  | [], st => return st
  | (name, v) :: rest, st =>
    if name = "time" then
      gatherLoop c junk rank rest (if rank = ROOT_RANK then st.map fun s => s.set "time" v else st)
    else do
      let q ← .lift v.asQty
      let rq ← .lift (if rank = ROOT_RANK then recvOf (st.getD []) name else .ok none)
      let g ← gather c junk rank q rq
      match g with
      | some q' => gatherLoop c junk rank rest (st.map fun s => s.set name (.qty q'))
      | none => gatherLoop c junk rank rest st

/-- communicator.py:207-235 `gather_state`. -/
def gatherState (c : Comm) (junk : List Nat → α) (rank : Int) (send : CState α) (recv : Option (CState α)) :
    DM α (Option (CState α)) :=
  gatherLoop c junk rank send (if rank = ROOT_RANK then some (recv.getD []) else recv)

/-- The ranks make a call one after the other. (tests/test_tile_scatter_gather.py:181-186) -/
def each (prog : Int → DM α A) : List Int → DM α (List A)
  | [] => return []
  | r :: rs => do
    let x ← prog r
    let xs ← each prog rs
    return x :: xs

end FV3.OneProcess
