import Verif.Model.Collective

/-!
# The tile communicators of a cubed-sphere communicator (communicator.py:324-346)

`comm.Split(color, key)` of MPI: the ranks with the same colour form a new communicator, in which they
are ordered by `key` (and by their rank for equal keys).  Messages within the new communicator are
apart from all other messages; they travel between the ranks of the old communicator that the new ranks
stand for.
-/

namespace FV3
variable {α A : Type}

/-- The ranks of the communicator that rank `r` is in after `Split`. (MPI behind communicator.py:343-345) -/
def splitMembers (size : Int) (color : Int → Int) (r : Int) : List Int :=
  ((List.range size.toNat).map Int.ofNat).filter fun r' => decide (color r' = color r)

/-- The rank of `r` in its new communicator: how many members come before it.
(MPI behind communicator.py:343-345) -/
def splitRank (size : Int) (color key : Int → Int) (r : Int) : Int :=
  ((splitMembers size color r).filter fun r' => decide (key r' < key r ∨ (key r' = key r ∧ r' < r))).length

/-- communicator.py:342-346 `_initialize_tile_communicator`: colour is the tile, key the rank.
(`tile_index` raises for no rank of a cube communicator; -1 stands for an exception.) -/
def tileColor (l : Layout) (r : Int) : Int := (tileIndex l r).toOption.getD (-1)

/-- communicator.py:64-66, 335-346: `communicator.tile.rank`. -/
def tileCommRank (l : Layout) (r : Int) : Int := splitRank l.cubeRanks (tileColor l) (fun r => r) r

/-- The number of ranks of `communicator.tile.comm`. (communicator.py:335-346) -/
def tileCommSize (l : Layout) (r : Int) : Int := (splitMembers l.cubeRanks (tileColor l) r).length

/-- A program which uses other numbers for the ranks. (MPI behind communicator.py:343-345) -/
def Proc.renumber {M R : Type} (f : Int → Int) : Proc M R → Proc M R
  | .ret x => .ret x
  | .isend d t m k => .isend (f d) t m fun i => (k i).renumber f
  | .recv s t k => .recv (f s) t fun m => (k m).renumber f
  | .await d t i k => .await (f d) t i fun u => (k u).renumber f

/-- The rank of the cube communicator that rank `i` of the tile communicator of rank `r` stands for.
(MPI behind communicator.py:343-345) -/
def tileMember (l : Layout) (r i : Int) : Int :=
  ((splitMembers l.cubeRanks (tileColor l) r).find? fun r' => decide (tileCommRank l r' = i)).getD (-1)

/-- What rank `r` of the cube does when it runs `prog` on its tile communicator: `prog` gets the rank in
the tile. (communicator.py:335-346) -/
def onTile (l : Layout) (r : Int) (prog : Int → CollM α A) : Proc (Msg α) (Py A × Nat) :=
  ((prog (tileCommRank l r)) 0).renumber (tileMember l r)

end FV3
