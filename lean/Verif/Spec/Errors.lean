import Verif.Model.Communicator
import Verif.Spec.Quantity

/-!
# Programs which end after sending at most
-/

namespace FV3

/-- The program never receives or waits, so nothing can block it, and it ends with a result
that satisfies `P`, whatever handles its sends get. -/
inductive Proc.OnlySends {M R : Type} (P : R → Prop) : Proc M R → Prop
  | ret {r : R} (h : P r) : OnlySends P (.ret r)
  | isend {dst : Int} {tag : Tag} {m : M} {k : Nat → Proc M R} (h : ∀ i, OnlySends P (k i)) :
      OnlySends P (.isend dst tag m k)

/-- The array has room for `h` halo points on both sides of the axes `ky` and `kx`. -/
def HaloFits {α : Type} (q : Quantity α) (ky kx : Nat) (h : Int) : Prop :=
  (h ≤ q.o ky ∧ q.o ky + q.e ky + h ≤ q.n ky) ∧ (h ≤ q.o kx ∧ q.o kx + q.e kx + h ≤ q.n kx)

end FV3
