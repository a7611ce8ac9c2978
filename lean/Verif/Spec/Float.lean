import Verif.Model.Float
import Mathlib.Data.Rat.Floor
import Mathlib.Algebra.Order.Field.Basic
import Mathlib.Algebra.Order.Field.Power

/-!
# What IEEE-754 asks of double precision arithmetic: the result of an operation is the double nearest to the exact
result, and of two nearest ones that with an even significand.  The exponent is unbounded.
-/

namespace FV3

/-- Non-negative doubles: significands of 53 bits. -/
def IsDouble (q : ℚ) : Prop := ∃ (m : Nat) (e : Int), m < 2 ^ 53 ∧ q = m * 2 ^ e

/-- Doubles whose significand (with its leading bit) is even. -/
def EvenDouble (q : ℚ) : Prop := ∃ (m : Nat) (e : Int), 2 ^ 52 ≤ m ∧ m < 2 ^ 53 ∧ m % 2 = 0 ∧ q = m * 2 ^ e

/-- `r` is the double to which `q` is rounded. -/
def RoundsTo (q r : ℚ) : Prop :=
  IsDouble r ∧ ∀ s, IsDouble s → s ≠ r → |q - r| < |q - s| ∨ (|q - r| = |q - s| ∧ EvenDouble r)

/-- The number which a model of a double stands for. -/
def F64.val (a : F64) : ℚ := a.num / 2 ^ a.scale

end FV3
