import Verif.Model.Session

/-!
# Sessions with outstanding halo updates

As Model/Session.lean, but halo updates, vector halo updates and synchronisations are started and waited for in
separate calls, with any other calls between them.
-/

namespace FV3
variable {α : Type}

/-- A call of a session. (communicator.py:81-205, 388-403, 461-491, 512-535, 52) -/
inductive AOp (α : Type) where
  /-- `start_halo_update`, `start_vector_halo_update`, `start_synchronize_vector_interfaces`
  (communicator.py:388-403, 461-491, 512-535), `wait` of the request that the start number `i` of this session returned
  (communicator.py:52-58), or a computation -/
  | op (o : Op α)
  /-- communicator.py:81-130 `scatter(global quantity g, recv_quantity=quantity q)` -/
  | scatter (q g : Nat)
  /-- communicator.py:158-205 `gather(quantity q, recv_quantity=global quantity g)` -/
  | gather (q g : Nat)

/-- State of a rank: quantities, `_last_halo_tag` (communicator.py:316) and requests; global quantities (`None` if it
has none; those of root matter); number of collective MPI calls it has made. -/
structure AState (α : Type) where
  comm : RankState α
  glob : Nat → Option (Quantity α)
  coll : Nat

/-- One call of rank `r`.  `junk` are the values of the arrays allocated with `numpy.empty` on the way.
(communicator.py:81-205, 388-403, 461-491, 512-535, 52) -/
def AOp.exec [Neg α] (l : Layout) (junk : Nat → List Nat → α) (r : Int) :
    AOp α → AState α → Proc (Msg α) (Py (AState α))
  | .op o, s => (o.exec l r s.comm).bind fun y =>
    match y.1 with
    | .error e => .ret (.error e)
    | .ok _ => .ret (.ok { s with comm := y.2 })
  | .scatter q g, s => (FV3.scatter (.cube l) (junk s.coll) r (s.glob g) (some (s.comm.mem q)) s.coll).bind fun x =>
    match x.1 with
    | .error e => .ret (.error e)
    | .ok part => .ret (.ok { s with comm := { s.comm with mem := s.comm.mem.put q part }, coll := x.2 })
  | .gather q g, s => (FV3.gather (.cube l) (junk s.coll) r (s.comm.mem q) (s.glob g) s.coll).bind fun x =>
    match x.1 with
    | .error e => .ret (.error e)
    | .ok res => .ret (.ok { s with glob := fun g' => if g' = g then res else s.glob g', coll := x.2 })

/-- A sequence of calls; an exception ends it. (communicator.py:81-205, 388-403, 461-491, 512-535, 52) -/
def execAsync [Neg α] (l : Layout) (junk : Nat → List Nat → α) (r : Int) :
    List (AOp α) → AState α → Proc (Msg α) (Py (AState α))
  | [], s => .ret (.ok s)
  | op :: ops, s => (op.exec l junk r s).bind fun x =>
    match x with
    | .error e => .ret (.error e)
    | .ok s' => execAsync l junk r ops s'

/-- All ranks make the same calls, with new communicators. (communicator.py:81-205, 388-403, 461-491, 512-535, 52) -/
def asyncNet [Neg α] (l : Layout) (junk : Nat → List Nat → α) (ops : List (AOp α)) (mem : Int → Mem α)
    (glob : Int → Nat → Option (Quantity α)) : Net (Msg α) (Option (Py (AState α))) :=
  Net.start fun r =>
    if r ∈ allRanks l then (execAsync l junk r ops ⟨⟨mem r, 0, []⟩, glob r, 0⟩).bind fun x => .ret (some x)
    else .ret none

end FV3
