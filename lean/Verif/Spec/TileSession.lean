import Verif.Model.TileSession
import Verif.Spec.StateSession

/-!
# What a session with tile communicators does, without message passing
-/

namespace FV3
variable {α : Type}

/-- Quantity `q` of the ranks of communicator `c` is cut like the parts `p` of a global quantity. -/
structure PartsOn (c : Comm) (m : Int → Mem α) (q : Nat) (p : Parts) : Prop where
  axes : ∃ ky kx, HAxes p.dims ky kx
  small : ∀ k, k < p.dims.length → p.cells.getD k 0 * ranksAlong c.layout (p.dims.getD k .x) < 2 ^ 51
  names : ∀ r ∈ c.ranks, (m r q).dims = p.dims
  shaped : ∀ r ∈ c.ranks, (m r q).RankShaped p.dims p.cells

/-- A collective call, performed on all ranks of the communicator `c` at once.  `parts g` are the parts of global
quantity `g`. -/
def COp.Step (c : Comm) (parts : Nat → Parts) : COp → Snap α → Snap α → Prop
  | .scatter q g, S, S' => S'.glob = S.glob ∧ S'.gtime = S.gtime ∧ ∃ v, S.glob g = some v ∧
      ∀ r ∈ c.ranks, S'.time r = S.time r ∧ IsPart c (parts g).dims (parts g).cells v (S'.mem r q) r ∧
        (S.mem r q).Refilled (S'.mem r q) ∧ ∀ q', q' ≠ q → S'.mem r q' = S.mem r q'
  | .gather q g, S, S' => (∀ r ∈ c.ranks, S'.mem r = S.mem r ∧ S'.time r = S.time r) ∧ S'.gtime = S.gtime ∧
      (∀ g', g' ≠ g → S'.glob g' = S.glob g') ∧
      ∃ v, S'.glob g = some v ∧ v.GlobalShaped c (parts g).dims (parts g).cells ∧
        GatheredFrom c (parts g).dims (parts g).cells (fun r => S.mem r q) v ∧
        (∀ v0, S.glob g = some v0 → v0.Refilled v) ∧
        (S.glob g = none → FreshGlobal c v (parts g).dims (parts g).cells (S.mem 0 q).units)
  | .scatterState i j vars, S, S' => S'.glob = S.glob ∧ S'.gtime = S.gtime ∧
      ∀ r ∈ c.ranks, S'.time r i = S.gtime j ∧ (∀ i', i' ≠ i → S'.time r i' = S.time r i') ∧
        (∀ v ∈ vars, ∃ w, S.glob v.g = some w ∧
          IsPart c (parts v.g).dims (parts v.g).cells w (S'.mem r v.q) r ∧ (S.mem r v.q).Refilled (S'.mem r v.q)) ∧
        ∀ q, (∀ v ∈ vars, v.q ≠ q) → S'.mem r q = S.mem r q
  | .gatherState i j vars, S, S' => (∀ r ∈ c.ranks, S'.mem r = S.mem r ∧ S'.time r = S.time r) ∧
      S'.gtime j = (S.time 0 i).or (S.gtime j) ∧ (∀ j', j' ≠ j → S'.gtime j' = S.gtime j') ∧
      (∀ g, (∀ v ∈ vars, v.g ≠ g) → S'.glob g = S.glob g) ∧
      ∀ v ∈ vars, ∃ w, S'.glob v.g = some w ∧
        w.GlobalShaped c (parts v.g).dims (parts v.g).cells ∧
        GatheredFrom c (parts v.g).dims (parts v.g).cells (fun r => S.mem r v.q) w ∧
        (∀ w0, S.glob v.g = some w0 → w0.Refilled w) ∧
        (S.glob v.g = none → FreshGlobal c w (parts v.g).dims (parts v.g).cells (S.mem 0 v.q).units)

/-- A collective call of communicator `c` is valid: distinct names and quantities in states, the quantities (with the
metadata they have in `m`) are parts of the global quantities, which exist (are in `filled`) if they are to be
scattered. -/
def COp.Valid (c : Comm) (m : Int → Mem α) (parts : Nat → Parts) (filled : List Nat) : COp → Prop
  | .scatter q g => g ∈ filled ∧ PartsOn c m q (parts g)
  | .gather q g => PartsOn c m q (parts g)
  | .scatterState _ _ vars => GoodNames vars ∧ (vars.map StateVar.q).Nodup ∧
      ∀ v ∈ vars, v.g ∈ filled ∧ PartsOn c m v.q (parts v.g)
  | .gatherState _ _ vars => GoodNames vars ∧ (vars.map StateVar.g).Nodup ∧ ∀ v ∈ vars, PartsOn c m v.q (parts v.g)

/-- The global quantities that exist after the call. -/
def COp.filledAfter (filled : List Nat) : COp → List Nat
  | .gather _ g => g :: filled
  | .gatherState _ _ vars => vars.map StateVar.g ++ filled
  | _ => filled

/-- The data of all ranks of a cubed sphere between two calls; tile quantities and times of tile states of the root ranks
of the tiles. -/
structure CubeSnap (α : Type) where
  cube : Snap α
  tglob : Int → Nat → Option (Quantity α)
  tgtime : Int → Nat → Option Int

/-- Tile `t` alone: its ranks are numbered from 0, its root's tile quantities are the global ones. -/
def CubeSnap.ofTile (l : Layout) (t : Int) (S : CubeSnap α) : Snap α where
  mem i := S.cube.mem (t * l.tileRanks + i)
  glob := S.tglob t
  time i := S.cube.time (t * l.tileRanks + i)
  gtime := S.tgtime t

/-- Nothing changes. -/
structure Snap.Same (c : Comm) (S S' : Snap α) : Prop where
  mem : ∀ r ∈ c.ranks, S'.mem r = S.mem r
  glob : S'.glob = S.glob
  time : ∀ r ∈ c.ranks, S'.time r = S.time r
  gtime : S'.gtime = S.gtime

/-- One call, performed on all ranks at once. `tparts t g` are the parts of quantity `g` of tile `t`. -/
def UOp.Step [Neg α] (l : Layout) (parts : Nat → Parts) (tparts : Int → Nat → Parts) :
    UOp α → CubeSnap α → CubeSnap α → Prop
  | .op o, S, S' => o.Step l parts S.cube S'.cube ∧
      ∀ t, 0 ≤ t → t < 6 → S'.tglob t = S.tglob t ∧ S'.tgtime t = S.tgtime t
  | .tiles o, S, S' => S'.cube.glob = S.cube.glob ∧ S'.cube.gtime = S.cube.gtime ∧
      ∀ t, 0 ≤ t → t < 6 → match o t with
        | none => (S.ofTile l t).Same (.tile l) (S'.ofTile l t)
        | some a => a.Step (.tile l) (tparts t) (S.ofTile l t) (S'.ofTile l t)

/-- A sequence of calls, one after the other on all ranks. -/
def TilesRun [Neg α] (l : Layout) (parts : Nat → Parts) (tparts : Int → Nat → Parts) :
    List (UOp α) → CubeSnap α → CubeSnap α → Prop
  | [], S, S' => S.cube.Same (.cube l) S'.cube ∧
      ∀ t, 0 ≤ t → t < 6 → S'.tglob t = S.tglob t ∧ S'.tgtime t = S.tgtime t
  | op :: ops, S, S' => ∃ S1, op.Step l parts tparts S S1 ∧ TilesRun l parts tparts ops S1 S'

/-- A call is valid. -/
def UOp.Valid [Neg α] (l : Layout) (m : Int → Mem α) (parts : Nat → Parts) (tparts : Int → Nat → Parts)
    (filled : List Nat) (tfilled : Int → List Nat) : UOp α → Prop
  | .op o => o.Valid l m parts filled
  | .tiles o => ∀ t, 0 ≤ t → t < 6 → ∀ a, o t = some a →
      a.Valid (.tile l) (fun i => m (t * l.tileRanks + i)) (tparts t) (tfilled t)

/-- All calls of a session are valid; a global quantity, or a quantity of a tile, can be scattered after it was
gathered. -/
def TilesValid [Neg α] (l : Layout) (m : Int → Mem α) (parts : Nat → Parts) (tparts : Int → Nat → Parts) :
    List Nat → (Int → List Nat) → List (UOp α) → Prop
  | _, _, [] => True
  | filled, tfilled, op :: ops => op.Valid l m parts tparts filled tfilled ∧
      TilesValid l m parts tparts
        (match op with
          | .op (.op (.gather _ g)) => g :: filled
          | .op (.gatherState _ _ vars) => vars.map StateVar.g ++ filled
          | _ => filled)
        (match op with
          | .tiles o => fun t => match o t with | some a => a.filledAfter (tfilled t) | none => tfilled t
          | _ => tfilled) ops

end FV3
