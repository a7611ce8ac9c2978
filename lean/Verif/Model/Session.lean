import Verif.Model.Driver

/-!
# Any sequence of calls of one communicator

What a model code does with a `CubedSphereCommunicator`: scatter and gather of quantities, halo updates, vector halo
updates, synchronisation of interfaces, in any order, with computations between them.
-/

namespace FV3
variable {α : Type}

/-- A call of a session.  The quantities of a rank and the global quantities of root are numbered.
(communicator.py:81-205, 378-510) -/
inductive SOp (α : Type) where
  /-- communicator.py:378-386, 446-459, 493-510, or a computation -/
  | call (c : Call α)
  /-- communicator.py:81-130 `scatter(global quantity g, recv_quantity=quantity q)` -/
  | scatter (q g : Nat)
  /-- communicator.py:158-205 `gather(quantity q, recv_quantity=global quantity g)` -/
  | gather (q g : Nat)

/-- State of a rank: its quantities, its global quantities (`None` if it has none; those of root matter),
`_last_halo_tag` (communicator.py:316), and the number of collective MPI calls it has made. -/
structure SState (α : Type) where
  mem : Mem α
  glob : Nat → Option (Quantity α)
  tag : Nat
  coll : Nat

/-- One call of rank `r`.  `junk` are the values of the arrays allocated with `numpy.empty` on the way.
(communicator.py:81-205, 378-510) -/
def SOp.exec [Neg α] (l : Layout) (junk : Nat → List Nat → α) (r : Int) :
    SOp α → SState α → Proc (Msg α) (Py (SState α))
  | .call c, s => (c.exec l r ⟨s.mem, s.tag, []⟩).bind fun y =>
    match y.1 with
    | .error e => .ret (.error e)
    | .ok _ => .ret (.ok { s with mem := y.2.mem, tag := y.2.lastTag })
  | .scatter q g, s => (FV3.scatter (.cube l) (junk s.coll) r (s.glob g) (some (s.mem q)) s.coll).bind fun x =>
    match x.1 with
    | .error e => .ret (.error e)
    | .ok part => .ret (.ok { s with mem := s.mem.put q part, coll := x.2 })
  | .gather q g, s => (FV3.gather (.cube l) (junk s.coll) r (s.mem q) (s.glob g) s.coll).bind fun x =>
    match x.1 with
    | .error e => .ret (.error e)
    | .ok res => .ret (.ok { s with glob := fun g' => if g' = g then res else s.glob g', coll := x.2 })

/-- A sequence of calls; an exception ends it. (communicator.py:81-205, 378-510) -/
def execSession [Neg α] (l : Layout) (junk : Nat → List Nat → α) (r : Int) :
    List (SOp α) → SState α → Proc (Msg α) (Py (SState α))
  | [], s => .ret (.ok s)
  | op :: ops, s => (op.exec l junk r s).bind fun x =>
    match x with
    | .error e => .ret (.error e)
    | .ok s' => execSession l junk r ops s'

/-- All ranks make the same calls, with new communicators. (communicator.py:81-205, 378-510) -/
def sessionNet [Neg α] (l : Layout) (junk : Nat → List Nat → α) (ops : List (SOp α)) (mem : Int → Mem α)
    (glob : Int → Nat → Option (Quantity α)) : Net (Msg α) (Option (Py (SState α))) :=
  Net.start fun r =>
    if r ∈ allRanks l then (execSession l junk r ops ⟨mem r, glob r, 0, 0⟩).bind fun x => .ret (some x)
    else .ret none

end FV3
