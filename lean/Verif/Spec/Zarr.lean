import Verif.Model.Zarr
import Verif.Spec.Collective
import Verif.Spec.ZarrWorld

/-!
# What a recording of a run should contain (C39, C40, C41)
-/

namespace FV3
namespace Zarr
variable {α : Type}

/-- What a reader of the store finds at index `idx` of array `name`: `none` if there is no such array,
the index is outside its shape, or nothing has ever been stored in that chunk. -/
def Store.read (S : Store α) (name : String) (idx : List Nat) : Option α :=
  (S.infos name).bind fun i =>
    if InB i.shape idx then
      (S.chunks name (List.zipWith (· / ·) idx i.chunks)).map fun c => c (List.zipWith (· % ·) idx i.chunks)
    else none

/-- How a variable is laid out: `cells` per rank and `tile` points per tile along each of `dims`, of
which axis `ky` is the y-axis and axis `kx` the x-axis. -/
structure VarSpec where
  dims : List Dim
  cells : List Int
  tile : List Int
  ky : Nat
  kx : Nat

/-- The description fits: one y and one x axis, the lengths of the tile, and no empty axis. -/
structure VarSpec.Good (v : VarSpec) (l : Layout) : Prop where
  axes : HAxes v.dims v.ky v.kx
  tile : TileOf l v.dims v.cells v.tile
  cells : ∀ k, k < v.dims.length → 0 < v.cells.getD k 0

/-- A run: in each of `k` steps every rank stores a state with the variables `vars` (in any order),
`q name t r` on rank `r` in step `t`, and the model time.  Units do not change, nor does the calendar. -/
structure Recording (l : Layout) (k : Nat) (vars : List String) (spec : String → VarSpec)
    (q : String → Nat → Int → Quantity α) (tm : Nat → ZTime) (st : Nat → Int → State α) : Prop where
  safe : FloatSafe l
  good : ∀ name ∈ vars, (spec name).Good l
  notime : "time" ∉ vars
  dict : ∀ t r, t < k → r ∈ (Comm.cube l).ranks → (st t r).keys.Nodup
  names : ∀ t r, t < k → r ∈ (Comm.cube l).ranks → ∀ name, name ∈ (st t r).keys ↔ name = "time" ∨ name ∈ vars
  qty : ∀ t r, t < k → r ∈ (Comm.cube l).ranks → ∀ name ∈ vars,
    (st t r).get? name = some (.qty (q name t r)) ∧ (q name t r).RankShaped (spec name).dims (spec name).cells ∧
      (q name t r).dims = (spec name).dims
  time : ∀ t r, t < k → r ∈ (Comm.cube l).ranks → (st t r).get? "time" = some (.time (tm t))
  units : ∀ t, t < k → ∀ name ∈ vars, (q name t 0).units = (q name 0 0).units
  calendar : ∀ t, t < k → (tm t).calendar = (tm 0).calendar

/-- The state of step `k` cannot follow those before: what comes before `name` in alphabetical order is as it was in
the earlier steps, but `name` is not.  On rank 0 it has other units or dimensions, although the same number of
points, or it is a time of another calendar.  Nothing is said about what comes after `name`. -/
structure Unacceptable (l : Layout) (k : Nat) (vars : List String) (spec : String → VarSpec)
    (q : String → Nat → Int → Quantity α) (tm : Nat → ZTime) (st : Nat → Int → State α) (name : String) : Prop where
  dict : ∀ r ∈ (Comm.cube l).ranks, (st k r).keys.Nodup
  names : ∀ r ∈ (Comm.cube l).ranks, ∀ nm, nm ∈ (st k r).keys ↔ nm = "time" ∨ nm ∈ vars
  qty : ∀ r ∈ (Comm.cube l).ranks, ∀ nm ∈ vars, nm < name →
    (st k r).get? nm = some (.qty (q nm k r)) ∧ (q nm k r).RankShaped (spec nm).dims (spec nm).cells ∧
      (q nm k r).dims = (spec nm).dims ∧ (q nm k 0).units = (q nm 0 0).units
  time : "time" < name → (∀ r ∈ (Comm.cube l).ranks, (st k r).get? "time" = some (.time (tm k))) ∧
    (tm k).calendar = (tm 0).calendar
  bad : (name ∈ vars ∧ ∀ r ∈ (Comm.cube l).ranks, ∃ p : Quantity α, (st k r).get? name = some (.qty p) ∧
      (r = 0 → (p.units ≠ (q name 0 0).units ∨ p.dims ≠ (spec name).dims) ∧
        ∃ cells, RankOf p.dims cells p.extent ∧ TileOf l p.dims cells (spec name).tile)) ∨
    (name = "time" ∧ ∀ r ∈ (Comm.cube l).ranks, ∃ t : ZTime, (st k r).get? "time" = some (.time t) ∧
      (r = 0 → t.calendar ≠ (tm 0).calendar))

/-- Every rank stores its states, one after the other. -/
def recordAll (l : Layout) (enc : Int → α) (junk : List Nat → α) (k : Nat) (st : Nat → Int → State α) (r : Int) :
    Prog α (Py Unit) :=
  if r ∈ (Comm.cube l).ranks then storeAll l enc junk r none ((List.range k).map fun t => st t r) else .ret (.ok ())

/-- Some answers of the store and of the other ranks lead to result `x`. -/
def Prog.Ends {R : Type} : Prog α R → R → Prop
  | .ret r, x => r = x
  | .getInfo _ k, x => ∃ a, (k a).Ends x
  | .putInfo _ _ k, x => k.Ends x
  | .getChunk _ _ k, x => ∃ a, (k a).Ends x
  | .putChunk _ _ _ k, x => k.Ends x
  | .coll _ k, x => ∃ a, (k a).Ends x

/-- `m` is a monitor of rank `r` with which a state with variables `names` was stored first, whatever has
been stored since, with whatever results. -/
inductive MonitorAfter (l : Layout) (enc : Int → α) (junk : List Nat → α) (r : Int) (names : List String) : Monitor → Prop where
  | first {s : State α} {x : Py Unit} {m : Monitor} : s.keys = names → (store l enc junk r none s).Ends (x, m) →
      MonitorAfter l enc junk r names m
  | next {s : State α} {x : Py Unit} {m m' : Monitor} : MonitorAfter l enc junk r names m →
      (store l enc junk r m s).Ends (x, m') → MonitorAfter l enc junk r names m'

/-- A program on its own: result and store, unless it calls a collective. -/
def Prog.solo {R : Type} : Prog α R → Store α → Option (R × Store α)
  | .ret r, S => some (r, S)
  | .getInfo n k, S => (k (S.infos n)).solo S
  | .putInfo n i k, S => k.solo (S.putInfo n i)
  | .getChunk n j k, S => (k (S.chunks n j)).solo S
  | .putChunk n j c k, S => k.solo (S.putChunk n j c)
  | .coll _ _, _ => none

end Zarr
end FV3
