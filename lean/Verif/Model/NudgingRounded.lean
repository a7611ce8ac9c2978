import Verif.Model.Nudging
import Mathlib.Data.Rat.Defs
import Mathlib.Algebra.Order.Field.Rat

/-!
# Nudging with rounded arithmetic

The functions of Model/Nudging.lean for any number type are used with numbers whose operations round.  Overflow, infinities
and NaN are not modelled.
-/

namespace FV3.Nudge

/-- Floating-point numbers: every operation computes the exact result and rounds it with `fl`. (numpy arithmetic;
nudging.py:43, 69) -/
structure Rounded (fl : ℚ → ℚ) where
  val : ℚ

variable {fl : ℚ → ℚ}

/-- nudging.py:43 `+=` -/
instance : Add (Rounded fl) := ⟨fun a b => ⟨fl (a.val + b.val)⟩⟩
/-- nudging.py:69 `-` -/
instance : Sub (Rounded fl) := ⟨fun a b => ⟨fl (a.val - b.val)⟩⟩
/-- nudging.py:43 `*` -/
instance : Mul (Rounded fl) := ⟨fun a b => ⟨fl (a.val * b.val)⟩⟩
/-- nudging.py:69 `/` -/
instance : Div (Rounded fl) := ⟨fun a b => ⟨fl (a.val / b.val)⟩⟩

end FV3.Nudge
