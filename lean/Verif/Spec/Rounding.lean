import Verif.Spec.Float

/-!
# Rounding to nearest
-/

namespace FV3

/-- `fl` rounds to a nearest number of the format `F` (the set of its numbers), ties in any way; zero is in the format. -/
structure Nearest (F : ℚ → Prop) (fl : ℚ → ℚ) : Prop where
  zero : F 0
  mem : ∀ x, F (fl x)
  near : ∀ x s, F s → |x - fl x| ≤ |x - s|

/-- Double precision numbers (with unbounded exponent). -/
def Double (x : ℚ) : Prop := IsDouble |x|

end FV3
