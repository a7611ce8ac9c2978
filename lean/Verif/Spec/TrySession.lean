import Verif.Model.TrySession
import Verif.Spec.FullSession
import Verif.Spec.Guarded

/-!
# Complete sessions with rejected starts
-/

namespace FV3
variable {α : Type} [Neg α]

/-- The start is rejected with the exception `e` on all ranks: no halo points are asked for (ValueError), or more than
the arrays hold (OutOfBoundsError), or the components are not on the C grid (ValueError). -/
def Op.Rejected (l : Layout) (m : Int → Mem α) : Op α → PyErr → Prop
  | .halo q n, e => FV3.Rejected l m (.haloUpdate q n) e
  | .vector x y n, e => FV3.Rejected l m (.vectorHaloUpdate x y n) e
  | .sync x y, e => FV3.Rejected l m (.synchronize x y) e
  | _, _ => False

/-- The outcomes are one for each attempt, and each attempt with an exception as its outcome is rejected with that
exception. -/
def OutcomesDue (l : Layout) (m : Int → Mem α) : List (TryOp α) → List (Option PyErr) → Prop
  | [], outs => outs = []
  | .plain _ :: ops, outs => OutcomesDue l m ops outs
  | .attempt _ :: ops, none :: outs => OutcomesDue l m ops outs
  | .attempt o :: ops, some e :: outs => o.Rejected l m e ∧ OutcomesDue l m ops outs
  | .attempt _ :: _, [] => False

/-- The program without the attempts that raise. -/
def kept : List (TryOp α) → List (Option PyErr) → List (FOp α)
  | .plain o :: ops, outs => o :: kept ops outs
  | .attempt o :: ops, none :: outs => .op o :: kept ops outs
  | .attempt _ :: ops, _ :: outs => kept ops outs
  | _, _ => []

end FV3
