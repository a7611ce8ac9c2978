import Verif.Model.Units

/-!
# Python text: splitting, lines, integers, formatting

Strings are lists of characters.
-/

namespace FV3.Text
open Units (isSpace)

/-- `str.split()`: the words of a text; `cur` is the current word, reversed. (CPython; used at io.py:59) -/
def splitAux : List Char → List Char → List (List Char)
  | [], cur => if cur = [] then [] else [cur.reverse]
  | c :: r, cur =>
    if isSpace c then (if cur = [] then splitAux r [] else cur.reverse :: splitAux r [])
    else splitAux r (c :: cur)

/-- `str.split()` (CPython; used at io.py:59) -/
def split (s : List Char) : List (List Char) := splitAux s []

/-- `file.readline()`: the line with its end, and the rest of the file. (used at io.py:64-66) -/
def readline : List Char → List Char × List Char
  | [] => ([], [])
  | c :: r => if c = '\n' then (['\n'], r) else (c :: (readline r).1, (readline r).2)

/-- Digits with single underscores between them. (CPython `int`; used at io.py:60) -/
def digitsOK : List Char → Bool
  | [] => false
  | [c] => c.isDigit
  | c :: c' :: r => c.isDigit && (if c' = '_' then digitsOK r else digitsOK (c' :: r))

/-- The value of a string of digits and underscores. (CPython `int`; used at io.py:60) -/
def natOf (s : List Char) : Option Nat :=
  if digitsOK s then some (Nat.ofDigitChars 10 (s.filter (· ≠ '_')) 0) else none

/-- `int(token)` for a token without whitespace (digits outside ASCII, which Python accepts too,
are not modelled). (used at io.py:60) -/
def parseInt : List Char → Option Int
  | '-' :: r => (natOf r).map fun n : Nat => -(n : Int)
  | '+' :: r => (natOf r).map fun n : Nat => (n : Int)
  | r => (natOf r).map fun n : Nat => (n : Int)

/-- `f"{n}"` for a natural number (used at _legacy_restart.py:77, 99) -/
def dec (n : Nat) : List Char := Nat.toDigits 10 n

/-- `f"{n:04}"` for a natural number (used at _legacy_restart.py:99) -/
def dec4 (n : Nat) : List Char := List.replicate (4 - (dec n).length) '0' ++ dec n

end FV3.Text
