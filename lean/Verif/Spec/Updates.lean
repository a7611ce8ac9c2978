import Verif.Model.Communicator
import Verif.Spec.Net

/-!
# What a sequence of updates should do, without message passing

Every rank starts updates and waits for them.  `Op.out`/`Op.inn` say which arrays a rank
packs for whom when it starts an update, and which arrays from whom it will store where.
`localRun` is the execution of one rank's operations when the arrays it receives are given.
-/

namespace FV3
variable {α : Type}

/-- An array for rank `dst`; `off` distinguishes the two components of vector updates. -/
structure Outgoing (α : Type) where
  dst : Int
  off : Nat
  a : NDArray α

/-- An array expected from rank `src`, to be stored in a view of quantity `q`. -/
structure Incoming where
  src : Int
  off : Nat
  q : Nat
  ix : List Ix
  deriving DecidableEq, Repr

/-- A function that can fail, on all elements of a list. -/
def pyMap {A B : Type} (f : A → Py B) : List A → Py (List B)
  | [] => .ok []
  | a :: as => do
    let b ← f a
    let bs ← pyMap f as
    return b :: bs

/-- Arrays packed by a scalar halo update: for every boundary the interior points next to
it, turned to the orientation of the neighbour. -/
def haloOut (l : Layout) (q : Nat) (n : Int) (r : Int) (mem : Mem α) : Py (List (Outgoing α)) := do
  let bs ← Cube.boundaries l r
  pyMap (fun b => do
    let d ← sendView (mem q) b.boundaryType n
    let d ← rotateScalar d (mem q).dims (-b.rotations)
    return ⟨b.toRank, 0, d⟩) bs

/-- Arrays a halo update receives for one quantity: the halo across each boundary. -/
def haloIn (l : Layout) (q : Nat) (n : Int) (off : Nat) (r : Int) (mem : Mem α) :
    Py (List Incoming) := do
  let bs ← Cube.boundaries l r
  pyMap (fun b => do
    let ix ← recvIndex (mem q) b.boundaryType n
    return ⟨b.toRank, off, q, ix⟩) bs

/-- Arrays packed by a vector halo update. -/
def vectorOut [Neg α] (l : Layout) (x y : Nat) (n : Int) (r : Int) (mem : Mem α) :
    Py (List (Outgoing α)) := do
  let bs ← Cube.boundaries l r
  let ps ← pyMap (fun b => do
    let xd ← sendView (mem x) b.boundaryType n
    let yd ← sendView (mem y) b.boundaryType n
    let xy ← rotateVector xd yd (-b.rotations) (mem x).dims
    return [⟨b.toRank, 0, xy.1⟩, ⟨b.toRank, 1, xy.2⟩]) bs
  return ps.flatten

/-- Arrays expected by a vector halo update: those of both components. -/
def vectorIn (l : Layout) (x y : Nat) (n : Int) (r : Int) (mem : Mem α) : Py (List Incoming) := do
  let i1 ← haloIn l x n 0 r mem
  let i2 ← haloIn l y n 1 r mem
  return i1 ++ i2

/-- Arrays packed by `synchronize_vector_interfaces`: south and west edge. -/
def syncOut [Neg α] (l : Layout) (x y : Nat) (r : Int) (mem : Mem α) : Py (List (Outgoing α)) := do
  let south ← Cube.boundaryAt l r .south
  let west ← Cube.boundaryAt l r .west
  let sd ← southEdgeData (mem x) south
  let wd ← westEdgeData (mem y) west
  return [⟨south.toRank, 0, sd⟩, ⟨west.toRank, 0, wd⟩]

def syncIn (l : Layout) (x y : Nat) (r : Int) (mem : Mem α) : Py (List Incoming) := do
  let north ← Cube.boundaryAt l r .north
  let east ← Cube.boundaryAt l r .east
  let ixN ← edgeIndex (mem x) .nw .yI (-1) .x
  let ixE ← edgeIndex (mem y) .se .xI (-1) .y
  return [⟨north.toRank, 0, x, ixN⟩, ⟨east.toRank, 0, y, ixE⟩]

/-- Operations that start an update. -/
def Op.isStart : Op α → Bool
  | .halo _ _ => true
  | .vector _ _ _ => true
  | .sync _ _ => true
  | .wait _ => false
  | .compute _ => false

/-- Number of message tags an update uses. -/
def Op.nTags : Op α → Nat
  | .halo _ _ => 1
  | .vector _ _ _ => 2
  | .sync _ _ => 1
  | .wait _ => 0
  | .compute _ => 0

/-- Arrays packed by an operation. -/
def Op.out [Neg α] (l : Layout) (r : Int) (mem : Mem α) : Op α → Py (List (Outgoing α))
  | .halo q n => if n = 0 then .error .valueError else haloOut l q n r mem
  | .vector x y n => if n = 0 then .error .valueError else vectorOut l x y n r mem
  | .sync x y =>
    if onCGrid (mem x).dims (mem y).dims = false then .error .valueError else syncOut l x y r mem
  | .wait _ => .ok []
  | .compute _ => .ok []

/-- Arrays expected by an operation. -/
def Op.inn (l : Layout) (r : Int) (mem : Mem α) : Op α → Py (List Incoming)
  | .halo q n => haloIn l q n 0 r mem
  | .vector x y n => vectorIn l x y n r mem
  | .sync x y => syncIn l x y r mem
  | .wait _ => .ok []
  | .compute _ => .ok []

/-- An update a rank has started: the value of its tag counter then, the arrays it packed
and those it expects. -/
structure Started (α : Type) where
  tag : Nat
  out : List (Outgoing α)
  inc : List Incoming

/-- State of one rank: quantities, tag counter, updates started so far. -/
structure Local (α : Type) where
  mem : Mem α
  lastTag : Nat
  ups : List (Started α)

/-- Store the expected arrays; `arr src off` is the array received from `src`. -/
def deliver (arr : Int → Nat → Option (NDArray α)) : List Incoming → Mem α → Py (Mem α)
  | [], mem => .ok mem
  | x :: xs, mem =>
    match arr x.src x.off with
    | none => .error .runtimeError
    | some a => do
      let mem' ← storeInto mem x.q x.ix a
      deliver arr xs mem'

/-- One operation of rank `r`, when `arr k src off` is the array which `src` packed for it
in update number `k`. -/
def Op.localStep [Neg α] (l : Layout) (r : Int) (arr : Nat → Int → Nat → Option (NDArray α)) :
    Op α → Local α → Py (Local α)
  | .wait i, s =>
    match s.ups[i]? with
    | none => .error .indexError
    | some u => do
      let mem ← deliver (arr i) u.inc s.mem
      return { s with mem := mem }
  | .compute f, s => .ok { s with mem := f r s.mem }
  | op, s => do
    let o ← op.out l r s.mem
    let i ← op.inn l r s.mem
    return { s with lastTag := s.lastTag + op.nTags, ups := s.ups ++ [⟨s.lastTag, o, i⟩] }

/-- A sequence of operations of one rank, given the arrays it receives. -/
def localRun [Neg α] (l : Layout) (r : Int) (arr : Nat → Int → Nat → Option (NDArray α)) :
    List (Op α) → Local α → Py (Local α)
  | [], s => .ok s
  | op :: ops, s => do
    let s' ← op.localStep l r arr s
    localRun l r arr ops s'

/-- The array for rank `r` with component number `off` among packed arrays. -/
def arrayFor (r : Int) (off : Nat) (o : List (Outgoing α)) : Option (NDArray α) :=
  (o.find? fun x => x.dst = r ∧ x.off = off).map (·.a)

/-- What rank `r` receives when the ranks have started the updates in `fin`. -/
def received (fin : Int → Local α) (r : Int) (k : Nat) (src : Int) (off : Nat) :
    Option (NDArray α) :=
  match (fin src).ups[k]? with
  | none => none
  | some u => arrayFor r off u.out

/-- The state of a rank in the model of the communicator. -/
def Local.toRank (s : Local α) : RankState α :=
  { mem := s.mem, lastTag := s.lastTag
    reqs := s.ups.map fun u =>
      ⟨u.out.map fun x => ⟨x.dst, u.tag + 1 + x.off, 0⟩,
       u.inc.map fun x => ⟨x.src, u.tag + 1 + x.off, x.q, x.ix⟩⟩ }

/-- All ranks of the cube. -/
def allRanks (l : Layout) : List Int := (List.range l.cubeRanks.toNat).map Int.ofNat

/-- The ranks at work: rank `r` runs the operations `prog r` from a fresh communicator. -/
def cubeNet [Neg α] (l : Layout) (prog : Int → List (Op α)) (mem : Int → Mem α) :
    Net (Msg α) (Py Unit × RankState α) :=
  Net.start fun r =>
    if r ∈ allRanks l then execOps l r (prog r) ⟨mem r, 0, []⟩
    else .ret (.ok (), ⟨mem r, 0, []⟩)

/-- The outcome all schedules should have: every rank's result is its own local run, when
it receives from every other rank the arrays which that rank packed when it started the
update with the same number. -/
def Consistent [Neg α] (l : Layout) (prog : Int → List (Op α)) (mem : Int → Mem α)
    (fin : Int → Local α) : Prop :=
  ∀ r, (r ∈ allRanks l → localRun l r (received fin r) (prog r) ⟨mem r, 0, []⟩ = .ok (fin r)) ∧
    (r ∉ allRanks l → fin r = ⟨mem r, 0, []⟩)

end FV3
