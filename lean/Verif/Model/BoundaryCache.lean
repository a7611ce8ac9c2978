import Verif.Model.Partitioner

/-!
# Memoised boundaries

`TilePartitioner.boundary` and `CubedSpherePartitioner.boundary` memoise *mutable* boundary
objects in two unbounded `functools.lru_cache` tables and hand out shallow copies
(partitioner.py:205, 208, 365, 368).  This module models the object identities: a heap of
boundary objects addressed by position, the two tables, and the list of objects the
callers hold and may mutate at any time.
-/

namespace FV3

/-- Heap, memo tables and the objects handed out to callers. (partitioner.py:192-222, 353-384) -/
structure BSt where
  heap : List Boundary
  tileCache : List ((BType × Int) × Nat)
  cubeCache : List ((BType × Int) × Option Nat)
  held : List Nat

/-- A computation on that state which may raise. (partitioner.py:192-222, 353-384) -/
def CM (α : Type) := BSt → Py α × BSt

namespace CM

/-- Plumbing of the model (partitioner.py:192-222, 353-384) -/
def ret {α : Type} (a : α) : CM α := fun s => (.ok a, s)

/-- Plumbing of the model (partitioner.py:192-222, 353-384) -/
def bnd {α β : Type} (m : CM α) (f : α → CM β) : CM β := fun s =>
  match m s with
  | (.ok a, s') => f a s'
  | (.error e, s') => (.error e, s')

/-- The monad structure of the model (partitioner.py:192-222, 353-384) -/
instance : Monad CM where
  pure := ret
  bind := bnd

/-- A computation without effect on the state. (partitioner.py:192-222, 353-384) -/
def lift {α : Type} (p : Py α) : CM α := fun s => (p, s)

/-- Create a boundary object. (`SimpleBoundary(...)`, partitioner.py:224-270) -/
def alloc (b : Boundary) : CM Nat := fun s =>
  (.ok s.heap.length, { s with heap := s.heap ++ [b] })

/-- Read the fields of an object. (partitioner.py:192-222, 353-384) -/
def read (a : Nat) : CM Boundary := fun s =>
  match s.heap[a]? with
  | some b => (.ok b, s)
  | none => (.error .runtimeError, s)

/-- Overwrite the fields of an object. (partitioner.py:192-222, 353-384) -/
def write (a : Nat) (b : Boundary) : CM Unit := fun s =>
  (.ok (), { s with heap := s.heap.set a b })

end CM

open CM

/-- `boundary.to_rank += d` (partitioner.py:386-470) -/
def addToRank (a : Nat) (d : Int) : CM Nat := do
  let b ← read a
  write a { b with toRank := b.toRank + d }
  return a

/-- `copy.copy(boundary)` (partitioner.py:192-222, 353-384) -/
def copyObj (a : Nat) : CM Nat := do
  let b ← read a
  alloc b

namespace Tile

/-- partitioner.py:208-222 `TilePartitioner._cached_boundary` with its table: on a miss the
new object is stored. -/
def cachedBoundary (l : Layout) (b : BType) (r : Int) : CM Nat := fun s =>
  match s.tileCache.lookup (b, r) with
  | some a => (.ok a, s)
  | none =>
    let (res, s') := alloc (boundary l b r) s
    match res with
    | .ok a => (.ok a, { s' with tileCache := ((b, r), a) :: s'.tileCache })
    | .error e => (.error e, s')

/-- partitioner.py:192-206 `TilePartitioner.boundary`. -/
def boundaryC (l : Layout) (b : BType) (r : Int) : CM Nat := do
  let a ← cachedBoundary l b r
  copyObj a

end Tile

namespace Cube

/-- partitioner.py:386-408 -/
def leftEdgeC (l : Layout) (rank : Int) : CM Nat := do
  lift (ensureSquare l)
  if onTileLeft l rank then
    let t ← lift (tileIndex l rank)
    if isEven t then
      let toTile ← lift (rotatedTileRank l rank)
      alloc { boundaryType := .west, fromRank := rank
              toRank := tileRootRank l (rank - 2 * l.tileRanks) + toTile, rotations := 1 }
    else
      let b ← Tile.boundaryC l .west rank
      addToRank b (-l.tileRanks)
  else Tile.boundaryC l .west rank

/-- partitioner.py:410-430 -/
def rightEdgeC (l : Layout) (rank : Int) : CM Nat := do
  lift (ensureSquare l)
  if onTileRight l rank then
    let t ← lift (tileIndex l rank)
    if !isEven t then
      let toTile ← lift (rotatedTileRank l rank)
      alloc { boundaryType := .east, fromRank := rank
              toRank := tileRootRank l (rank + 2 * l.tileRanks) + toTile, rotations := 1 }
    else
      let b ← Tile.boundaryC l .east rank
      addToRank b l.tileRanks
  else Tile.boundaryC l .east rank

/-- partitioner.py:432-452 -/
def topEdgeC (l : Layout) (rank : Int) : CM Nat := do
  lift (ensureSquare l)
  if onTileTop l rank then
    let t ← lift (tileIndex l rank)
    if isEven t then
      let toTile ← lift (rotatedTileRank l rank)
      alloc { boundaryType := .north, fromRank := rank
              toRank := (t + 2) * l.tileRanks + toTile, rotations := 3 }
    else
      let b ← Tile.boundaryC l .north rank
      addToRank b l.tileRanks
  else Tile.boundaryC l .north rank

/-- partitioner.py:454-470 -/
def bottomEdgeC (l : Layout) (rank : Int) : CM Nat := do
  lift (ensureSquare l)
  let t ← lift (tileIndex l rank)
  if onTileBottom l rank && !isEven t then
    let toTile ← lift (rotatedTileRank l rank)
    alloc { boundaryType := .south, fromRank := rank
            toRank := (t - 2) * l.tileRanks + toTile, rotations := 3 }
  else
    let b ← Tile.boundaryC l .south rank
    if onTileBottom l rank then addToRank b (-l.tileRanks)
    else return b

/-- partitioner.py:538-553 -/
def getCornerC (b : BType) (rank : Int) (e1 e2 : Int → CM Nat) : CM (Option Nat) := do
  let a1 ← e1 rank
  let edge1 ← read a1
  let a2 ← e2 edge1.toRank
  let edge1 ← read a1
  let edge2 ← read a2
  let a ← alloc { boundaryType := b, fromRank := rank, toRank := edge2.toRank
                  rotations := edge1.rotations + edge2.rotations }
  return some a

/-- partitioner.py:472-485 -/
def topLeftCornerC (l : Layout) (rank : Int) : CM (Option Nat) := do
  if onTileTop l rank && onTileLeft l rank then return none
  else
    let t ← lift (tileIndex l rank)
    if isEven t && onTileLeft l rank then
      getCornerC .nw rank (leftEdgeC l) (leftEdgeC l)
    else
      getCornerC .nw rank (leftEdgeC l) (topEdgeC l)

/-- partitioner.py:487-502 -/
def topRightCornerC (l : Layout) (rank : Int) : CM (Option Nat) := do
  if onTileTop l rank && onTileRight l rank then return none
  else
    let t ← lift (tileIndex l rank)
    if isEven t && onTileTop l rank then
      getCornerC .ne rank (topEdgeC l) (bottomEdgeC l)
    else
      getCornerC .ne rank (topEdgeC l) (rightEdgeC l)

/-- partitioner.py:504-519 -/
def bottomLeftCornerC (l : Layout) (rank : Int) : CM (Option Nat) := do
  if onTileBottom l rank && onTileLeft l rank then return none
  else
    let t ← lift (tileIndex l rank)
    if !isEven t && onTileBottom l rank then
      getCornerC .sw rank (bottomEdgeC l) (topEdgeC l)
    else
      getCornerC .sw rank (bottomEdgeC l) (leftEdgeC l)

/-- partitioner.py:521-536 -/
def bottomRightCornerC (l : Layout) (rank : Int) : CM (Option Nat) := do
  if onTileBottom l rank && onTileRight l rank then return none
  else
    let t ← lift (tileIndex l rank)
    if !isEven t && onTileBottom l rank then
      getCornerC .se rank (bottomEdgeC l) (bottomEdgeC l)
    else
      getCornerC .se rank (bottomEdgeC l) (rightEdgeC l)

/-- Wrap an object in `Optional`. (partitioner.py:192-222, 353-384) -/
def someC (m : CM Nat) : CM (Option Nat) := do
  let a ← m
  return some a

/-- The dispatch table of partitioner.py:372-381. -/
def rawBoundaryC (l : Layout) : BType → Int → CM (Option Nat)
  | .west, r => someC (leftEdgeC l r)
  | .east, r => someC (rightEdgeC l r)
  | .north, r => someC (topEdgeC l r)
  | .south, r => someC (bottomEdgeC l r)
  | .nw, r => topLeftCornerC l r
  | .ne, r => topRightCornerC l r
  | .sw, r => bottomLeftCornerC l r
  | .se, r => bottomRightCornerC l r

/-- partitioner.py:371-384: the body of `_cached_boundary`; `to_rank` is reduced in place. -/
def missBoundary (l : Layout) (b : BType) (r : Int) : CM (Option Nat) := do
  match ← rawBoundaryC l b r with
  | none => return none
  | some a =>
    let bd ← read a
    write a { bd with toRank := pymod bd.toRank l.cubeRanks }
    return some a

/-- partitioner.py:368-384 `_cached_boundary` with its table; exceptions are not stored. -/
def cachedBoundary (l : Layout) (b : BType) (r : Int) : CM (Option Nat) := fun s =>
  match s.cubeCache.lookup (b, r) with
  | some o => (.ok o, s)
  | none =>
    match missBoundary l b r s with
    | (.ok o, s') => (.ok o, { s' with cubeCache := ((b, r), o) :: s'.cubeCache })
    | (.error e, s') => (.error e, s')

/-- partitioner.py:353-366 `CubedSpherePartitioner.boundary`. -/
def boundaryC (l : Layout) (b : BType) (r : Int) : CM (Option Nat) := do
  match ← cachedBoundary l b r with
  | none => return none
  | some a => someC (copyObj a)

end Cube

/-- What can happen: a caller asks a tile or cube partitioner (sharing one tile
partitioner) for a boundary, or overwrites a boundary object it holds, or a table is
cleared. (partitioner.py:192-222, 353-384) -/
inductive BEvent where
  | tile (b : BType) (r : Int)
  | cube (b : BType) (r : Int)
  | mutate (a : Nat) (v : Boundary)
  | cacheClear

/-- One event.  The output of a call is the value of the object handed out at that moment;
the object becomes held by the caller. (partitioner.py:192-222, 353-384) -/
def bstep (l : Layout) (s : BSt) : BEvent → Option (Py (Option Boundary)) × BSt
  | .tile b r =>
    match Tile.boundaryC l b r s with
    | (.ok a, s') => (some (.ok (s'.heap[a]?)), { s' with held := a :: s'.held })
    | (.error e, s') => (some (.error e), s')
  | .cube b r =>
    match Cube.boundaryC l b r s with
    | (.ok none, s') => (some (.ok none), s')
    | (.ok (some a), s') => (some (.ok (s'.heap[a]?)), { s' with held := a :: s'.held })
    | (.error e, s') => (some (.error e), s')
  | .mutate a v => (none, if a ∈ s.held then { s with heap := s.heap.set a v } else s)
  | .cacheClear => (none, { s with tileCache := [], cubeCache := [] })

/-- Outputs of a history. (partitioner.py:192-222, 353-384) -/
def brun (l : Layout) : BSt → List BEvent → List (Option (Py (Option Boundary)))
  | _, [] => []
  | s, e :: es => (bstep l s e).1 :: brun l (bstep l s e).2 es

/-- State after a history. (partitioner.py:192-222, 353-384) -/
def bafter (l : Layout) : BSt → List BEvent → BSt
  | s, [] => s
  | s, e :: es => bafter l (bstep l s e).2 es

/-- A new process: empty tables, no objects. (partitioner.py:192-222, 353-384) -/
def BSt.init : BSt := ⟨[], [], [], []⟩

end FV3
