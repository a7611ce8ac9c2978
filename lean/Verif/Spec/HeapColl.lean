import Verif.Model.HeapColl
import Verif.Spec.HeapComm
import Verif.Spec.Collective

/-!
# What scatter and gather do to memory
-/

namespace FV3
namespace Heap
open Mem (World Gt4py)
variable {α : Type} [Inhabited α]

/-- Memory has changed in the compute domain of variable `h` only. -/
def OnlyCompute (h : Nat) (W W1 : World α) : Prop :=
  OnlyCells (fun k idx => k = h ∧ (quantities W h).InCompute idx) W W1

/-- The arguments of a call fit: a global quantity on the root, parts of its domain on all ranks, and the one to receive into
can be written.  Nothing is said about memory which they share. -/
def CFits (c : Comm) (dims : List Dim) (cells : List Int) (W : Int → World α) : CCall α → Prop
  | .scatter send recv => 0 < dims.length ∧ (quantities (W 0) send).GlobalShaped c dims cells ∧
      ∀ r ∈ c.ranks, (quantities (W r) (recv r)).RankShaped dims cells ∧ (W r).writeable (recv r) .data = true
  | .gather send recv => (∃ ky kx, HAxes dims ky kx) ∧ (quantities (W 0) recv).GlobalShaped c dims cells ∧
      (W 0).writeable recv .data = true ∧ ∀ r ∈ c.ranks, (quantities (W r) (send r)).RankShaped dims cells
  | .compute _ => True

/-- What one call does on all ranks.  `scatter`: every rank has its part of what the root's quantity was before the call.
`gather`: the root's quantity has the values which the quantities of the ranks had before the call. -/
def CStep (g : Gt4py) (c : Comm) : CCall α → (Int → World α) → (Int → World α) → Prop
  | .scatter send recv, W, W1 => ∃ dims cells, CFits c dims cells W (.scatter send recv) ∧ ∀ r ∈ c.ranks,
      IsPart c dims cells (quantities (W 0) send) (quantities (W1 r) (recv r)) r ∧
      (quantities (W r) (recv r)).Refilled (quantities (W1 r) (recv r)) ∧ OnlyCompute (recv r) (W r) (W1 r)
  | .gather send recv, W, W1 => (∃ dims cells, CFits c dims cells W (.gather send recv) ∧
      GatheredFrom c dims cells (fun r => quantities (W r) (send r)) (quantities (W1 0) recv)) ∧
      (quantities (W 0) recv).Refilled (quantities (W1 0) recv) ∧ OnlyCompute recv (W 0) (W1 0) ∧
      ∀ r ∈ c.ranks, r ≠ 0 → W1 r = W r
  | .compute ops, W, W1 => ∀ r ∈ c.ranks, W1 r = (W r).after g (ops r)

/-- One call after the other. -/
def CRun (g : Gt4py) (c : Comm) : List (CCall α) → (Int → World α) → (Int → World α) → Prop
  | [], W, W' => ∀ r ∈ c.ranks, W' r = W r
  | x :: xs, W, W' => ∃ W1, CStep g c x W W1 ∧ CRun g c xs W1 W'

end Heap
end FV3
