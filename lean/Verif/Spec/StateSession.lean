import Verif.Model.StateSession
import Verif.Spec.Session

/-!
# What a session with states does, without message passing
-/

namespace FV3
variable {α : Type} [Neg α]

/-- The data of all ranks between two calls: quantities of the ranks, global quantities of root, times of the ranks'
states, times of the global states of root. -/
structure Snap (α : Type) where
  mem : Int → Mem α
  glob : Nat → Option (Quantity α)
  time : Int → Nat → Option Int
  gtime : Nat → Option Int

/-- One call, performed on all ranks at once.  `parts g` are the parts of global quantity `g`. -/
def TOp.Step (l : Layout) (parts : Nat → Parts) : TOp α → Snap α → Snap α → Prop
  | .op o, S, S' => o.Step l parts S.mem S.glob S'.mem S'.glob ∧ (∀ r ∈ allRanks l, S'.time r = S.time r) ∧
      S'.gtime = S.gtime
  | .scatterState i j vars, S, S' => S'.glob = S.glob ∧ S'.gtime = S.gtime ∧
      ∀ r ∈ allRanks l, S'.time r i = S.gtime j ∧ (∀ i', i' ≠ i → S'.time r i' = S.time r i') ∧
        (∀ v ∈ vars, ∃ w, S.glob v.g = some w ∧
          IsPart (.cube l) (parts v.g).dims (parts v.g).cells w (S'.mem r v.q) r ∧
          (S.mem r v.q).Refilled (S'.mem r v.q)) ∧
        ∀ q, (∀ v ∈ vars, v.q ≠ q) → S'.mem r q = S.mem r q
  | .gatherState i j vars, S, S' => (∀ r ∈ allRanks l, S'.mem r = S.mem r ∧ S'.time r = S.time r) ∧
      S'.gtime j = (S.time 0 i).or (S.gtime j) ∧ (∀ j', j' ≠ j → S'.gtime j' = S.gtime j') ∧
      (∀ g, (∀ v ∈ vars, v.g ≠ g) → S'.glob g = S.glob g) ∧
      ∀ v ∈ vars, ∃ w, S'.glob v.g = some w ∧
        w.GlobalShaped (.cube l) (parts v.g).dims (parts v.g).cells ∧
        GatheredFrom (.cube l) (parts v.g).dims (parts v.g).cells (fun r => S.mem r v.q) w ∧
        (∀ w0, S.glob v.g = some w0 → w0.Refilled w) ∧
        (S.glob v.g = none → FreshGlobal (.cube l) w (parts v.g).dims (parts v.g).cells (S.mem 0 v.q).units)

/-- A sequence of calls, one after the other on all ranks. -/
def StatesRun (l : Layout) (parts : Nat → Parts) : List (TOp α) → Snap α → Snap α → Prop
  | [], S, S' => (∀ r ∈ allRanks l, S'.mem r = S.mem r ∧ S'.time r = S.time r) ∧ S'.glob = S.glob ∧
      S'.gtime = S.gtime
  | op :: ops, S, S' => ∃ S1, op.Step l parts S S1 ∧ StatesRun l parts ops S1 S'

/-- The names of a state are distinct, and no variable is called "time". -/
structure GoodNames (vars : List StateVar) : Prop where
  distinct : (vars.map StateVar.name).Nodup
  notTime : ∀ v ∈ vars, v.name ≠ "time"

/-- A call is valid; for states: distinct names, distinct quantities to receive in, and the quantities are parts of the
global quantities, which exist if they are to be scattered. -/
def TOp.Valid (l : Layout) (m : Int → Mem α) (parts : Nat → Parts) (filled : List Nat) : TOp α → Prop
  | .op o => o.Valid l m parts filled
  | .scatterState _ _ vars => GoodNames vars ∧ (vars.map StateVar.q).Nodup ∧
      ∀ v ∈ vars, v.g ∈ filled ∧ HasParts l m v.q (parts v.g)
  | .gatherState _ _ vars => GoodNames vars ∧ (vars.map StateVar.g).Nodup ∧ ∀ v ∈ vars, HasParts l m v.q (parts v.g)

/-- All calls of a session are valid; a global quantity can be scattered after it was gathered. -/
def StatesValid (l : Layout) (m : Int → Mem α) (parts : Nat → Parts) : List Nat → List (TOp α) → Prop
  | _, [] => True
  | filled, op :: ops => op.Valid l m parts filled ∧
      StatesValid l m parts (match op with
        | .op (.gather _ g) => g :: filled
        | .gatherState _ _ vars => vars.map StateVar.g ++ filled
        | _ => filled) ops

end FV3
