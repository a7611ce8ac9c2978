import Verif.Model.HeapStates
import Verif.Spec.HeapMixed
import Verif.Spec.HeapState
import Verif.Spec.Session
import Verif.Spec.FieldModel

/-!
# What calls with states do to memory and to dictionaries
-/

namespace FV3
namespace Heap
open Mem (World Gt4py)
variable {α : Type} [Inhabited α] [Neg α]

/-- A dictionary with a time, or without. -/
def withTime (d : HDict) : Option HVal → HDict
  | some t => d.set "time" t
  | none => d.filter fun e => e.1 ≠ "time"

/-- Dictionary `s` of the root can be scattered into the dictionaries `d`: apart from the time, its entries are quantities `sv`
which fit the quantities `rv` that the ranks have under the same names. -/
structure ScatterFits (c : Comm) (W : Int → World α) (s : HDict) (d : Int → HDict) (sv : String → Nat) (rv : Int → String → Nat) : Prop where
  time : ∃ t : Option Int, s.get? "time" = t.map HVal.time
  nodup : ∀ r ∈ c.ranks, (d r).keys.Nodup
  send : ∀ v ∈ s.keys, v ≠ "time" → s.get? v = some (.qty (sv v))
  recv : ∀ v ∈ s.keys, v ≠ "time" → ∀ r ∈ c.ranks, (d r).get? v = some (.qty (rv r v))
  fits : ∀ v ∈ s.keys, v ≠ "time" → ∃ dims cells, CFits c dims cells W (.scatter (sv v) fun r => rv r v)

/-- The dictionaries `s` can be gathered into the dictionary `d` of the root: they have the same names in the same order, and apart
from the time their entries are quantities `pv` which fit the quantities `gv` of the root. -/
structure GatherFits (c : Comm) (W : Int → World α) (s : Int → HDict) (d : HDict) (pv : Int → String → Nat) (gv : String → Nat) : Prop where
  names : ∀ r ∈ c.ranks, (s r).keys = (s 0).keys
  nodup : (s 0).keys.Nodup
  send : ∀ v ∈ (s 0).keys, v ≠ "time" → ∀ r ∈ c.ranks, (s r).get? v = some (.qty (pv r v))
  recv : ∀ v ∈ (s 0).keys, v ≠ "time" → d.get? v = some (.qty (gv v))
  fits : ∀ v ∈ (s 0).keys, v ≠ "time" → ∃ dims cells, CFits c dims cells W (.gather (fun r => pv r v) (gv v))

/-- The arguments of a call fit, when it is made. -/
def SReady (l : Layout) (W : Int → World α) (D : Int → Nat → HDict) : SCall α → Prop
  | .comm x => XReady l W x
  | .scatterState a b => ∃ sv rv, ScatterFits (.cube l) W (D 0 a) (fun r => D r b) sv rv
  | .gatherState a b => ∃ pv gv, GatherFits (.cube l) W (fun r => D r a) (D 0 b) pv gv

/-- What one call does on all ranks: `scatter_state` is scatters of the quantities of the root's dictionary in its order, and gives
the dictionaries the time of the root's (or none); `gather_state` is gathers in the order of the dictionaries that are sent, and
gives the dictionary of the root the root's time, if it sends one. -/
def SStep (g : Gt4py) (l : Layout) : SCall α → (Int → World α) → (Int → Nat → HDict) → (Int → World α) → (Int → Nat → HDict) → Prop
  | .comm x, W, D, W1, D1 => XStep g l x W W1 ∧ ∀ r ∈ allRanks l, D1 r = D r
  | .scatterState a b, W, D, W1, D1 =>
    (∃ sv rv, ScatterFits (.cube l) W (D 0 a) (fun r => D r b) sv rv ∧
      CRun g (.cube l) (((D 0 a).keys.filter (· ≠ "time")).map fun v => .scatter (sv v) fun r => rv r v) W W1) ∧
    ∀ r ∈ allRanks l, ∀ k, D1 r k = if k = b then withTime (D r b) ((D 0 a).get? "time") else D r k
  | .gatherState a b, W, D, W1, D1 =>
    (∃ pv gv, GatherFits (.cube l) W (fun r => D r a) (D 0 b) pv gv ∧
      CRun g (.cube l) (((D 0 a).keys.filter (· ≠ "time")).map fun v => .gather (fun r => pv r v) (gv v)) W W1) ∧
    ∀ r ∈ allRanks l, ∀ k, D1 r k = if r = 0 ∧ k = b ∧ "time" ∈ (D 0 a).keys then withTime (D 0 b) ((D 0 a).get? "time") else D r k

/-- One call after the other. -/
def SRun (g : Gt4py) (l : Layout) :
    List (SCall α) → (Int → World α) → (Int → Nat → HDict) → (Int → World α) → (Int → Nat → HDict) → Prop
  | [], W, D, W', D' => ∀ r ∈ allRanks l, W' r = W r ∧ D' r = D r
  | x :: xs, W, D, W', D' => ∃ W1 D1, SStep g l x W D W1 D1 ∧ SRun g l xs W1 D1 W' D'

/-- Dictionary `a` of the root has a global quantity `sv v` for each name `v` of `ns`, and perhaps a time; dictionary `b` of each rank
has a quantity `q v`, a part of the global one with `n × n` cells and halos of `h` points; the quantities of a rank do not overlap
each other, and their compute domains do not overlap global quantities of other names. -/
structure FieldStates (l : Layout) (W : Int → World α) (D : Int → Nat → HDict) (a b : Nat) (ns : List String) (sv q : String → Nat)
    (p : String → Parts) (ky kx : String → Nat) (n h : Int) : Prop where
  nodup : ns.Nodup
  names : ∀ v, v ∈ ns ↔ v ∈ (D 0 a).keys ∧ v ≠ "time"
  global : (D 0 a).keys.Nodup ∧ ∀ v ∈ ns, (D 0 a).get? v = some (.qty (sv v))
  time : ∃ t : Option Int, (D 0 a).get? "time" = t.map HVal.time
  parts : ∀ r ∈ allRanks l, (D r b).keys.Nodup ∧ ∀ v ∈ ns, (D r b).get? v = some (.qty (q v))
  fits : ∀ v ∈ ns, CFits (.cube l) (p v).dims (p v).cells W (.scatter (sv v) fun _ => q v)
  distinct : ∀ v ∈ ns, ∀ w ∈ ns, v ≠ w → q v ≠ q w
  usable : ∀ r ∈ allRanks l, Usable (W r) (ns.map q)
  clear : ∀ v ∈ ns, ∀ w ∈ ns, v ≠ w → Clear (W 0) (sv v) (q w)
  field : ∀ v ∈ ns, ScalarField l (fun r => quantities (W r)) (q v) (ky v) (kx v) n h
  dims : ∀ v ∈ ns, ∀ r ∈ allRanks l, (quantities (W r) (q v)).dims = (p v).dims
  cells : ∀ v ∈ ns, (p v).cells.getD (ky v) 0 = n ∧ (p v).cells.getD (kx v) 0 = n

/-- As `FieldStates`, for quantities of any kind. -/
structure PartStates (l : Layout) (W : Int → World α) (D : Int → Nat → HDict) (a b : Nat) (ns : List String) (sv q : String → Nat)
    (p : String → Parts) (ky kx : String → Nat) (n h : Int) : Prop where
  nodup : ns.Nodup
  names : ∀ v, v ∈ ns ↔ v ∈ (D 0 a).keys ∧ v ≠ "time"
  global : (D 0 a).keys.Nodup ∧ ∀ v ∈ ns, (D 0 a).get? v = some (.qty (sv v))
  time : ∃ t : Option Int, (D 0 a).get? "time" = t.map HVal.time
  parts : ∀ r ∈ allRanks l, (D r b).keys.Nodup ∧ ∀ v ∈ ns, (D r b).get? v = some (.qty (q v))
  fits : ∀ v ∈ ns, CFits (.cube l) (p v).dims (p v).cells W (.scatter (sv v) fun _ => q v)
  distinct : ∀ v ∈ ns, ∀ w ∈ ns, v ≠ w → q v ≠ q w
  usable : ∀ r ∈ allRanks l, Usable (W r) (ns.map q)
  clear : ∀ v ∈ ns, ∀ w ∈ ns, v ≠ w → Clear (W 0) (sv v) (q w)
  ready : ∀ v ∈ ns, ∀ r ∈ allRanks l, HaloReady (quantities (W r) (q v)) (ky v) (kx v) n h
  dims : ∀ v ∈ ns, ∀ r ∈ allRanks l, (quantities (W r) (q v)).dims = (p v).dims
  cells : ∀ v ∈ ns, (p v).cells.getD (ky v) 0 = n ∧ (p v).cells.getD (kx v) 0 = n

/-- The names in a state of a scalar field, or of the two components of a wind. -/
inductive Item where
  | scalar (v : String)
  | wind (x y : String)

def Item.names : Item → List String
  | .scalar v => [v]
  | .wind x y => [x, y]

/-- The halo update of a field, or of a wind. -/
def Item.update (q : String → Nat) (h : Int) : Item → SCall α
  | .scalar v => .comm (.update (.haloUpdate (q v) h))
  | .wind x y => .comm (.update (.vectorHaloUpdate (q x) (q y) h))

/-- The quantities can hold a scalar field, or a wind, on the cells of the ranks. -/
def Item.Fits (l : Layout) (W : Int → World α) (q ky kx : String → Nat) (n h : Int) : Item → Prop
  | .scalar v => ScalarField l (fun r => quantities (W r)) (q v) (ky v) (kx v) n h
  | .wind x y => VectorField l (fun r => quantities (W r)) (q x) (q y) (ky x) (kx x) n h ∧ ky y = ky x ∧ kx y = kx x

/-- Name `v` stands for component `comp v` of the field `F v`: a scalar field has one, a wind two, of the same field, which changes its
sign with the direction. -/
def Item.Means (comp : String → Comp) (F : String → Fld α) : Item → Prop
  | .scalar v => comp v = .scalar
  | .wind x y => comp x = .x ∧ comp y = .y ∧ F y = F x ∧ ∀ P o e, F x P o e.neg = -F x P o e

end Heap
end FV3
