import Verif.Model.CommTimer
import Verif.Spec.Timer
import Verif.Spec.Halo

/-!
# The clocks of a communicator
-/

namespace FV3
open TimerSpec
variable {T : Type} [Add T] [Sub T]

/-- The clocks a communicator uses during halo updates. -/
def commClocks : List String := ["pack", "Isend", "unpack", "Recv"]

/-- How often a clock was hit (0 if `hits` has no entry). -/
def Timer.hitsOf (s : Timer T) (n : String) : Nat := (s.hits.get? n).getD 0

/-- A timer on which a communicator can work: enabled, and none of the communicator's clocks
is running; read off the record of the calls made on it. -/
def ReadyClocks (r : Record T) : Prop := on r = true ∧ ∀ n ∈ commClocks, since n r = none

/-- A communicator whose timer cannot be used any more: the clock for packing or the clock for
unpacking was left running. -/
def StuckClock (r : Record T) : Prop :=
  on r = true ∧ ((since "pack" r).isSome ∨ (since "unpack" r).isSome)

variable {α : Type}

/-- The number of receives through a buffer. -/
def buffered (contig : Boundary → Bool) (bs : List Boundary) : Nat :=
  (bs.filter fun b => !contig b).length

/-- The arguments of a call are fine: quantities with `n × n` cells and at least as many halo points
as requested. -/
def UpdateCall.Fine : UpdateCall α → Prop
  | .halo q h _ => ∃ ky kx n, HaloReady q ky kx n h ∧ 0 < h ∧ h ≤ n
  | .vector x y h _ => ∃ ky kx n, HaloReady x ky kx n h ∧ HaloReady y ky kx n h ∧
      y.ndim = x.ndim ∧ 0 < h ∧ h ≤ n

end FV3
