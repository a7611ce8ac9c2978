import Verif.Model.FullSession
import Verif.Spec.AsyncSession
import Verif.Spec.TileSplit

/-!
# What a complete session does, without message passing
-/

namespace FV3
variable {α : Type} [Neg α]

/-- The data of all ranks between two calls, and the updates started so far, in order, each with the quantities of all
ranks when it was started. -/
structure FSnap (α : Type) where
  data : CubeSnap α
  started : Pending α

/-- Quantities, global quantities of root and updates started. -/
def FSnap.whole (S : FSnap α) : Whole α := ⟨S.data.cube.mem, S.data.cube.glob, S.started⟩

/-- Tile quantities and times of tile states do not change. -/
def CubeSnap.SameTiles (S S' : CubeSnap α) : Prop :=
  ∀ t, 0 ≤ t → t < 6 → S'.tglob t = S.tglob t ∧ S'.tgtime t = S.tgtime t

/-- One call, performed on all ranks at once. -/
def FOp.Step (l : Layout) (parts : Nat → Parts) (tparts : Int → Nat → Parts) : FOp α → FSnap α → FSnap α → Prop
  | .op o, S, S' => (AOp.op o).Step l parts S.whole S'.whole ∧
      (∀ r ∈ allRanks l, S'.data.cube.time r = S.data.cube.time r) ∧ S'.data.cube.gtime = S.data.cube.gtime ∧
      S.data.SameTiles S'.data
  | .coll o, S, S' => S'.started = S.started ∧ o.Step (.cube l) parts S.data.cube S'.data.cube ∧ S.data.SameTiles S'.data
  | .tiles o, S, S' => S'.started = S.started ∧ (UOp.tiles o : UOp α).Step l parts tparts S.data S'.data

/-- A sequence of calls, one after the other on all ranks. -/
def FullRun (l : Layout) (parts : Nat → Parts) (tparts : Int → Nat → Parts) : List (FOp α) → FSnap α → FSnap α → Prop
  | [], S, S' => S'.started = S.started ∧ S.data.cube.Same (.cube l) S'.data.cube ∧ S.data.SameTiles S'.data
  | op :: ops, S, S' => ∃ S1, op.Step l parts tparts S S1 ∧ FullRun l parts tparts ops S1 S'

/-- A call is valid. -/
def FOp.Valid (l : Layout) (m : Int → Mem α) (parts : Nat → Parts) (tparts : Int → Nat → Parts) (filled : List Nat)
    (tfilled : Int → List Nat) : FOp α → Prop
  | .op (.compute f) => ∀ r ∈ allRanks l, ∀ mem, MetaIs m r mem → MetaIs m r (f r mem)
  | .op o => UpdateReady l m o
  | .coll o => o.Valid (.cube l) m parts filled
  | .tiles o => ∀ t, 0 ≤ t → t < 6 → ∀ a, o t = some a →
      a.Valid (.tile l) (fun i => m (t * l.tileRanks + i)) (tparts t) (tfilled t)

/-- The global quantities that exist after the call. -/
def FOp.fills (filled : List Nat) : FOp α → List Nat
  | .coll o => o.filledAfter filled
  | _ => filled

/-- The quantities of the tiles that exist after the call. -/
def FOp.tfills (tfilled : Int → List Nat) : FOp α → Int → List Nat
  | .tiles o => fun t => match o t with | some a => a.filledAfter (tfilled t) | none => tfilled t
  | _ => tfilled

/-- All calls are valid; a global quantity, or a quantity of a tile, can be scattered after it was gathered. -/
def FullCalls (l : Layout) (m : Int → Mem α) (parts : Nat → Parts) (tparts : Int → Nat → Parts) :
    List Nat → (Int → List Nat) → List (FOp α) → Prop
  | _, _, [] => True
  | filled, tfilled, op :: ops => op.Valid l m parts tparts filled tfilled ∧
      FullCalls l m parts tparts (op.fills filled) (op.tfills tfilled) ops

/-- The starts, waits and computations of a session. -/
def FOp.op? : FOp α → Option (Op α)
  | .op o => some o
  | _ => none

/-- The number of updates started by a sequence of calls. -/
def fullStarts (ops : List (FOp α)) : Nat := (ops.filterMap FOp.op?).countP Op.isStart

/-- When `communicator.tile` is used for the first time, the ranks of all tiles use it. -/
def FullFirstUse : List (FOp α) → Prop
  | [] => True
  | .tiles o :: ops =>
    (∀ t, 0 ≤ t → t < 6 → o t ≠ none) ∨ ((∀ t, 0 ≤ t → t < 6 → o t = none) ∧ FullFirstUse ops)
  | _ :: ops => FullFirstUse ops

/-- A valid session: valid calls; every `wait` is for an update started before, and no update is waited for twice; all
tiles take part in the first use of the tile communicators. -/
structure FullValid (l : Layout) (m : Int → Mem α) (parts : Nat → Parts) (tparts : Int → Nat → Parts)
    (filled : List Nat) (tfilled : Int → List Nat) (ops : List (FOp α)) : Prop where
  calls : FullCalls l m parts tparts filled tfilled ops
  started : WaitsStarted (ops.filterMap FOp.op?)
  once : WaitsOnce (ops.filterMap FOp.op?)
  first : FullFirstUse ops

end FV3
