/-!
# Non-negative IEEE-754 double precision numbers

Only what `rank_extent_from_tile_metadata` (partitioner.py:722-754) needs: conversion of
a non-negative integer, reciprocal of a positive integer, product, sum and truncation,
each correctly rounded to 53 significant bits, ties to even.  Overflow and underflow are
not modelled (the exponent is unbounded); extents are far from both.
-/

namespace FV3

/-- Round `x / d` to the nearest integer, ties to even. (IEEE-754 double arithmetic of partitioner.py:737-754) -/
def rneDiv (x d : Nat) : Nat :=
  if 2 * (x % d) < d then x / d
  else if 2 * (x % d) > d then x / d + 1
  else if x / d % 2 = 0 then x / d else x / d + 1

/-- Round a natural number to 53 significant bits, ties to even.
(IEEE-754 double arithmetic of partitioner.py:737-754) -/
def round53 (x : Nat) : Nat :=
  if x.log2 ≤ 52 then x
  else rneDiv x (2 ^ (x.log2 - 52)) * 2 ^ (x.log2 - 52)

/-- The value `num / 2 ^ scale`. (IEEE-754 double arithmetic of partitioner.py:737-754) -/
structure F64 where
  num : Nat
  scale : Nat
  deriving Repr

namespace F64

/-- Conversion of an integer to `float64`. (IEEE-754 double arithmetic of partitioner.py:737-754) -/
def ofNat (n : Nat) : F64 := ⟨round53 n, 0⟩

/-- `1 / n` for a positive integer `n`: with `2^L ≤ n < 2^(L+1)` the quotient
`2^(53+L) / n` lies in `(2^52, 2^53]`, so rounding it to an integer keeps 53 bits.
(IEEE-754 double arithmetic of partitioner.py:737-754) -/
def recip (n : Nat) : F64 := ⟨rneDiv (2 ^ (53 + n.log2)) n, 53 + n.log2⟩

/-- Rounded product. (IEEE-754 double arithmetic of partitioner.py:737-754) -/
def mul (a b : F64) : F64 := ⟨round53 (a.num * b.num), a.scale + b.scale⟩

/-- Rounded sum. (IEEE-754 double arithmetic of partitioner.py:737-754) -/
def add (a b : F64) : F64 :=
  ⟨round53 (a.num * 2 ^ b.scale + b.num * 2 ^ a.scale), a.scale + b.scale⟩

/-- Python `int(x)` for `x ≥ 0`. (IEEE-754 double arithmetic of partitioner.py:737-754) -/
def trunc (a : F64) : Int := ((a.num / 2 ^ a.scale : Nat) : Int)

end F64
end FV3
