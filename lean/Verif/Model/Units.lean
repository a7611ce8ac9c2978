import Verif.Model.Basic

/-!
# Units (units.py)

Strings are lists of characters.
-/

namespace FV3.Units

/-- The characters removed by Python's `str.strip()`: those for which `str.isspace` holds. (used at units.py:7) -/
def isSpace (c : Char) : Bool :=
  let n := c.toNat
  (0x09 ≤ n && n ≤ 0x0D) || (0x1C ≤ n && n ≤ 0x20) || n == 0x85 || n == 0xA0 || n == 0x1680 ||
  (0x2000 ≤ n && n ≤ 0x200A) || n == 0x2028 || n == 0x2029 || n == 0x202F || n == 0x205F || n == 0x3000

/-- `str.strip()` (used at units.py:7) -/
def strip (s : List Char) : List Char :=
  ((s.dropWhile isSpace).reverse.dropWhile isSpace).reverse

/-- units.py:6-7 `units_are_equal` -/
def unitsAreEqual (u v : List Char) : Bool := strip u == strip v

/-- units.py:1-3 `ensure_equal_units` -/
def ensureEqualUnits (u v : List Char) : Py Unit :=
  if ¬ unitsAreEqual u v then .error .unitsError else .ok ()

end FV3.Units
