import Verif.Model.NDArray
import Verif.Model.Float

/-!
# fv3gfs/util/partitioner.py
-/

namespace FV3

/-- `layout`: the (y, x) number of ranks along each tile axis (partitioner.py:104-109). -/
structure Layout where
  y : Int
  x : Int
  deriving DecidableEq, Repr

/-- partitioner.py:27-34 `get_tile_index`.  `total_ranks = 0` makes Python divide by 0. -/
def getTileIndex (rank totalRanks : Int) : Py Int :=
  if pymod totalRanks 6 ≠ 0 then .error .valueError
  else if pydiv totalRanks 6 = 0 then .error .zeroDivision
  else .ok (pydiv rank (pydiv totalRanks 6))

/-- partitioner.py:37-49 `get_tile_number`. -/
def getTileNumber (tileRank totalRanks : Int) : Py Int :=
  if pymod totalRanks 6 ≠ 0 then .error .valueError
  else if pydiv totalRanks 6 = 0 then .error .zeroDivision
  else .ok (pydiv tileRank (pydiv totalRanks 6) + 1)

/-- partitioner.py:124-126 `TilePartitioner.total_ranks`. -/
def Layout.tileRanks (l : Layout) : Int := l.y * l.x

/-- partitioner.py:348-351 `CubedSpherePartitioner.total_ranks`. -/
def Layout.cubeRanks (l : Layout) : Int := 6 * l.tileRanks

/-- partitioner.py:688-694 `subtile_index` (and the method at 120-122). -/
def subtileIndex (l : Layout) (rank : Int) : Int × Int :=
  let within := pymod rank l.tileRanks
  (pydiv within l.x, pymod within l.x)

/-- partitioner.py:336-338 `CubedSpherePartitioner.tile_index`. -/
def tileIndex (l : Layout) (rank : Int) : Py Int := getTileIndex rank l.cubeRanks

/-- partitioner.py:340-342 `CubedSpherePartitioner.tile_root_rank`. -/
def tileRootRank (l : Layout) (rank : Int) : Int := l.tileRanks * pydiv rank l.tileRanks

/-- partitioner.py:619-620 (via 186-187) `on_tile_left` -/
def onTileLeft (l : Layout) (rank : Int) : Bool := (subtileIndex l rank).2 = 0
/-- partitioner.py:623-624 (via 189-190) `on_tile_right` -/
def onTileRight (l : Layout) (rank : Int) : Bool := (subtileIndex l rank).2 = l.x - 1
/-- partitioner.py:627-628 (via 180-181) `on_tile_top` -/
def onTileTop (l : Layout) (rank : Int) : Bool := (subtileIndex l rank).1 = l.y - 1
/-- partitioner.py:631-632 (via 183-184) `on_tile_bottom` -/
def onTileBottom (l : Layout) (rank : Int) : Bool := (subtileIndex l rank).1 = 0

/-- boundary.py:6-16,60-64 `SimpleBoundary` (the data part). -/
structure Boundary where
  boundaryType : BType
  fromRank : Int
  toRank : Int
  rotations : Int
  deriving DecidableEq, Repr

namespace Tile

/-- partitioner.py:224-234 `TilePartitioner._left_edge` -/
def leftEdge (l : Layout) (rank : Int) : Boundary :=
  { boundaryType := .west, fromRank := rank, rotations := 0
    toRank := if onTileLeft l rank then rank + l.x - 1 else rank - 1 }

/-- partitioner.py:236-246 `TilePartitioner._right_edge` -/
def rightEdge (l : Layout) (rank : Int) : Boundary :=
  { boundaryType := .east, fromRank := rank, rotations := 0
    toRank := if onTileRight l rank then rank - l.x + 1 else rank + 1 }

/-- partitioner.py:248-258 `TilePartitioner._top_edge` -/
def topEdge (l : Layout) (rank : Int) : Boundary :=
  { boundaryType := .north, fromRank := rank, rotations := 0
    toRank := if onTileTop l rank then rank - (l.y - 1) * l.x else rank + l.x }

/-- partitioner.py:260-270 `TilePartitioner._bottom_edge` -/
def bottomEdge (l : Layout) (rank : Int) : Boundary :=
  { boundaryType := .south, fromRank := rank, rotations := 0
    toRank := if onTileBottom l rank then rank + (l.y - 1) * l.x else rank - l.x }

/-- partitioner.py:295-309 `_get_corner` -/
def getCorner (b : BType) (rank : Int) (e1 e2 : Int → Boundary) : Boundary :=
  let edge1 := e1 rank
  let edge2 := e2 edge1.toRank
  { boundaryType := b, fromRank := rank, toRank := edge2.toRank
    rotations := edge1.rotations + edge2.rotations }

/-- partitioner.py:208-222, 272-286 `TilePartitioner._cached_boundary`, without the
memo table (see Model/BoundaryCache.lean). -/
def boundary (l : Layout) : BType → Int → Boundary
  | .west, r => leftEdge l r
  | .east, r => rightEdge l r
  | .north, r => topEdge l r
  | .south, r => bottomEdge l r
  | .nw, r => getCorner .nw r (leftEdge l) (topEdge l)
  | .ne, r => getCorner .ne r (rightEdge l) (topEdge l)
  | .sw, r => getCorner .sw r (leftEdge l) (bottomEdge l)
  | .se, r => getCorner .se r (rightEdge l) (bottomEdge l)

end Tile

/-! ### Rank transforms on a tile -/

/-- partitioner.py:674-685 `transform_subtile_rank`. Layout entries are array sizes, so
non-negative. -/
def transformSubtileRank (f : NDArray Int → NDArray Int) (rank : Int) (l : Layout) : Py Int :=
  let rankArray := NDArray.arange2 l.y.toNat l.x.toNat
  rankArray.firstWhere (f rankArray) rank

/-- partitioner.py:660-664 `fliplr_subtile_rank` (`np.fliplr` flips axis 1). -/
def fliplrSubtileRank (rank : Int) (l : Layout) : Py Int :=
  transformSubtileRank (NDArray.flip 1) rank l

/-- partitioner.py:667-671 `flipud_subtile_rank` (`np.flipud` flips axis 0). -/
def flipudSubtileRank (rank : Int) (l : Layout) : Py Int :=
  transformSubtileRank (NDArray.flip 0) rank l

/-- partitioner.py:653-657 `transpose_subtile_rank`. -/
def transposeSubtileRank (rank : Int) (l : Layout) : Py Int :=
  transformSubtileRank (NDArray.transpose [1, 0]) rank l

/-- partitioner.py:635-650 `rotate_subtile_rank`. -/
def rotateSubtileRank (rank : Int) (l : Layout) (nClockwise : Int) : Py Int :=
  if nClockwise = 0 then .ok rank
  else if nClockwise = 1 then
    let rankArray := NDArray.arange2 l.y.toNat l.x.toNat
    rankArray.firstWhere (rankArray.rot90 1 0 1) rank
  else .error .notImplemented

/-- partitioner.py:697-698 `is_even`. -/
def isEven (v : Int) : Bool := pymod v 2 = 0

namespace Cube

/-- partitioner.py:332-334 `_ensure_square_layout`. -/
def ensureSquare (l : Layout) : Py Unit :=
  if l.y = l.x then .ok () else .error .notImplemented

/-- partitioner.py:391-394 and repeats: `fliplr_rank(rotate_rank(tile_rank, 1))`. -/
def rotatedTileRank (l : Layout) (rank : Int) : Py Int := do
  let tileRank := pymod rank l.tileRanks
  let rotated ← rotateSubtileRank tileRank l 1
  fliplrSubtileRank rotated l

/-- partitioner.py:386-408 `CubedSpherePartitioner._left_edge` -/
def leftEdge (l : Layout) (rank : Int) : Py Boundary := do
  ensureSquare l
  if onTileLeft l rank then
    let t ← tileIndex l rank
    if isEven t then
      let toRoot := tileRootRank l (rank - 2 * l.tileRanks)
      let toTile ← rotatedTileRank l rank
      return { boundaryType := .west, fromRank := rank, toRank := toRoot + toTile, rotations := 1 }
    else
      let b := Tile.boundary l .west rank
      return { b with toRank := b.toRank - l.tileRanks }
  else
    return Tile.boundary l .west rank

/-- partitioner.py:410-430 `CubedSpherePartitioner._right_edge` -/
def rightEdge (l : Layout) (rank : Int) : Py Boundary := do
  ensureSquare l
  if onTileRight l rank then
    let t ← tileIndex l rank
    if !isEven t then
      let toRoot := tileRootRank l (rank + 2 * l.tileRanks)
      let toTile ← rotatedTileRank l rank
      return { boundaryType := .east, fromRank := rank, toRank := toRoot + toTile, rotations := 1 }
    else
      let b := Tile.boundary l .east rank
      return { b with toRank := b.toRank + l.tileRanks }
  else
    return Tile.boundary l .east rank

/-- partitioner.py:432-452 `CubedSpherePartitioner._top_edge` -/
def topEdge (l : Layout) (rank : Int) : Py Boundary := do
  ensureSquare l
  if onTileTop l rank then
    let t ← tileIndex l rank
    if isEven t then
      let toRoot := (t + 2) * l.tileRanks
      let toTile ← rotatedTileRank l rank
      return { boundaryType := .north, fromRank := rank, toRank := toRoot + toTile, rotations := 3 }
    else
      let b := Tile.boundary l .north rank
      return { b with toRank := b.toRank + l.tileRanks }
  else
    return Tile.boundary l .north rank

/-- partitioner.py:454-470 `CubedSpherePartitioner._bottom_edge` -/
def bottomEdge (l : Layout) (rank : Int) : Py Boundary := do
  ensureSquare l
  let t ← tileIndex l rank
  if onTileBottom l rank && !isEven t then
    let toRoot := (t - 2) * l.tileRanks
    let toTile ← rotatedTileRank l rank
    return { boundaryType := .south, fromRank := rank, toRank := toRoot + toTile, rotations := 3 }
  else
    let b := Tile.boundary l .south rank
    if onTileBottom l rank then
      return { b with toRank := b.toRank - l.tileRanks }
    else
      return b

/-- partitioner.py:538-553 `CubedSpherePartitioner._get_corner` -/
def getCorner (b : BType) (rank : Int) (e1 e2 : Int → Py Boundary) : Py (Option Boundary) := do
  let edge1 ← e1 rank
  let edge2 ← e2 edge1.toRank
  return some { boundaryType := b, fromRank := rank, toRank := edge2.toRank
                rotations := edge1.rotations + edge2.rotations }

/-- partitioner.py:472-485 `_top_left_corner` -/
def topLeftCorner (l : Layout) (rank : Int) : Py (Option Boundary) := do
  if onTileTop l rank && onTileLeft l rank then return none
  else
    let t ← tileIndex l rank
    if isEven t && onTileLeft l rank then
      getCorner .nw rank (leftEdge l) (leftEdge l)
    else
      getCorner .nw rank (leftEdge l) (topEdge l)

/-- partitioner.py:487-502 `_top_right_corner` -/
def topRightCorner (l : Layout) (rank : Int) : Py (Option Boundary) := do
  if onTileTop l rank && onTileRight l rank then return none
  else
    let t ← tileIndex l rank
    if isEven t && onTileTop l rank then
      getCorner .ne rank (topEdge l) (bottomEdge l)
    else
      getCorner .ne rank (topEdge l) (rightEdge l)

/-- partitioner.py:504-519 `_bottom_left_corner` -/
def bottomLeftCorner (l : Layout) (rank : Int) : Py (Option Boundary) := do
  if onTileBottom l rank && onTileLeft l rank then return none
  else
    let t ← tileIndex l rank
    if !isEven t && onTileBottom l rank then
      getCorner .sw rank (bottomEdge l) (topEdge l)
    else
      getCorner .sw rank (bottomEdge l) (leftEdge l)

/-- partitioner.py:521-536 `_bottom_right_corner` -/
def bottomRightCorner (l : Layout) (rank : Int) : Py (Option Boundary) := do
  if onTileBottom l rank && onTileRight l rank then return none
  else
    let t ← tileIndex l rank
    if !isEven t && onTileBottom l rank then
      getCorner .se rank (bottomEdge l) (bottomEdge l)
    else
      getCorner .se rank (bottomEdge l) (rightEdge l)

/-- The dispatch table of partitioner.py:372-381. -/
def rawBoundary (l : Layout) : BType → Int → Py (Option Boundary)
  | .west, r => some <$> leftEdge l r
  | .east, r => some <$> rightEdge l r
  | .north, r => some <$> topEdge l r
  | .south, r => some <$> bottomEdge l r
  | .nw, r => topLeftCorner l r
  | .ne, r => topRightCorner l r
  | .sw, r => bottomLeftCorner l r
  | .se, r => bottomRightCorner l r

/-- partitioner.py:353-384 `CubedSpherePartitioner.boundary` without the memo table
(see Model/BoundaryCache.lean); `to_rank` is reduced modulo the number of ranks. -/
def boundary (l : Layout) (b : BType) (rank : Int) : Py (Option Boundary) := do
  match ← rawBoundary l b rank with
  | none => return none
  | some bd => return some { bd with toRank := pymod bd.toRank l.cubeRanks }

end Cube

/-! ### Extents and slices -/

/-- utils.py:21-36 `list_by_dims`. -/
def listByDims {T : Type} (dims : List Dim) (hy hx nonHorizontal : T) : List T :=
  dims.map fun d =>
    if d ∈ Y_DIMS then hy else if d ∈ X_DIMS then hx else nonHorizontal

/-- The `add_extent` of partitioner.py:748-751 is `-1` on interface dimensions; this is
its negation, the number of shared interface points. -/
def nShared (d : Dim) : Int := if d ∈ INTERFACE_DIMS then 1 else 0

/-- partitioner.py:743-754 `extent_from_metadata` with integer layout factors
(called from `tile_extent_from_rank_metadata`, 701-719). -/
def tileExtentFromRankMetadata (dims : List Dim) (rankExtent : List Int) (l : Layout) : List Int :=
  List.zipWith (fun (de : Dim × Int) factor => (de.2 - nShared de.1) * factor + nShared de.1)
    (dims.zip rankExtent) (listByDims dims l.y l.x 1)

/-- One entry of partitioner.py:743-754 with layout factor `1 / n` in double precision:
`int((extent - shared) * (1 / n) + shared)`, see Model/Float.lean. Extents below the
number of shared points and non-positive layouts are not modelled (result 0). -/
def rankExtent1D (d : Dim) (extent n : Int) : Int :=
  let shared := nShared d
  if extent - shared < 0 ∨ n ≤ 0 then 0
  else ((F64.ofNat (extent - shared).toNat).mul (F64.recip n.toNat)
          |>.add (F64.ofNat shared.toNat)).trunc

/-- partitioner.py:722-740 `rank_extent_from_tile_metadata`. -/
def rankExtentFromTileMetadata (dims : List Dim) (tileExtent : List Int) (l : Layout) : List Int :=
  List.zipWith (fun (de : Dim × Int) n => rankExtent1D de.1 de.2 n)
    (dims.zip tileExtent) (listByDims dims l.y l.x 1)

/-- partitioner.py:757-777 `_IndexData1D`. -/
structure IndexData1D where
  dim : Dim
  extent : Int
  iSubtile : Int
  nRanks : Int

/-- partitioner.py:764-766 -/
def IndexData1D.baseExtent (i : IndexData1D) : Int := i.extent - nShared i.dim
/-- partitioner.py:775-777 -/
def IndexData1D.isEndIndex (i : IndexData1D) : Bool := i.iSubtile = i.nRanks - 1

/-- partitioner.py:780-793 `_index_generator`. -/
def indexGenerator (dims : List Dim) (tileExtent : List Int) (sub : Int × Int) (l : Layout) :
    List IndexData1D :=
  List.zipWith (fun (de : Dim × Int) (iN : Int × Int) => ⟨de.1, de.2, iN.1, iN.2⟩)
    (dims.zip (rankExtentFromTileMetadata dims tileExtent l))
    ((listByDims dims sub.1 sub.2 0).zip (listByDims dims l.y l.x 1))

/-- partitioner.py:796-825 `subtile_slice`: list of `(start, end)`. -/
def subtileSlice (dims : List Dim) (globalExtent : List Int) (l : Layout) (sub : Int × Int)
    (overlap : Bool) : List (Int × Int) :=
  (indexGenerator dims globalExtent sub l).map fun ix =>
    let start := ix.iSubtile * ix.baseExtent
    (start, if ix.isEndIndex || overlap then start + ix.extent else start + ix.baseExtent)

/-- partitioner.py:147-178 `TilePartitioner.subtile_slice`. -/
def Tile.subtileSlice (l : Layout) (rank : Int) (dims : List Dim) (extent : List Int)
    (overlap : Bool) : List (Int × Int) :=
  FV3.subtileSlice dims extent l (subtileIndex l rank) overlap

/-- partitioner.py:128-139 -/
def Tile.globalExtent (l : Layout) (dims : List Dim) (extent : List Int) : List Int :=
  tileExtentFromRankMetadata dims extent l

/-- partitioner.py:141-145 -/
def Tile.subtileExtent (l : Layout) (dims : List Dim) (extent : List Int) : List Int :=
  rankExtentFromTileMetadata dims extent l

/-- partitioner.py:555-566 -/
def Cube.globalExtent (l : Layout) (dims : List Dim) (extent : List Int) : List Int :=
  6 :: tileExtentFromRankMetadata dims extent l

/-- partitioner.py:568-577 -/
def Cube.subtileExtent (l : Layout) (dims : List Dim) (extent : List Int) : Py (List Int) :=
  match dims with
  | [] => .error .indexError
  | d :: ds => if d ≠ .tile then .error .notImplemented
               else .ok (rankExtentFromTileMetadata ds extent.tail l)

/-- partitioner.py:579-616: the tile index and the slices of the remaining axes. -/
def Cube.subtileSlice (l : Layout) (rank : Int) (dims : List Dim) (extent : List Int)
    (overlap : Bool) : Py (Int × List (Int × Int)) := do
  match dims with
  | [] => throw .indexError
  | d :: ds =>
    if d ≠ .tile then throw .notImplemented
    else
      let iTile ← tileIndex l rank
      return (iTile, FV3.subtileSlice ds extent.tail l (subtileIndex l rank) overlap)

end FV3
