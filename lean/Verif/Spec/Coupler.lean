import Verif.Model.Coupler
import Verif.Props.Units

/-!
# The format of coupler.res
-/

namespace FV3.Coupler
open Units (isSpace Blank)

/-- A decimal numeral of an integer: an optional sign, any leading zeros, the digits. -/
def Numeral (i : Int) (s : List Char) : Prop :=
  ∃ k n : Nat, let digits := List.replicate k '0' ++ Nat.toDigits 10 n
    (s = digits ∧ i = n) ∨ (s = '+' :: digits ∧ i = n) ∨ (s = '-' :: digits ∧ i = -(n : Int))

/-- The end of the text or whitespace. -/
def Boundary (rest : List Char) : Prop := rest = [] ∨ ∃ c r, rest = c :: r ∧ isSpace c = true

/-- `text` consists of numerals of the integers `is`, separated by whitespace, and then `rest`. -/
inductive Ints : List Int → List Char → List Char → Prop
  | nil (rest) : Boundary rest → Ints [] rest rest
  | cons (i is blank num text rest) : Blank blank → Numeral i num → Boundary text →
      Ints is text rest → Ints (i :: is) (blank ++ num ++ text) rest

/-- A text of one line. -/
def OneLine (l : List Char) : Prop := '\n' ∉ l

end FV3.Coupler
