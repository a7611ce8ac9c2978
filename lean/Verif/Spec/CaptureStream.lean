import Verif.Model.CaptureStream

/-!
# What capturing should do

Read off the program text, without descriptors and files.
-/

namespace FV3.Capture

/-- The program contains no exception. -/
def Prog.Calm : Prog → Prop
  | .write _ _ => True
  | .seq p q => p.Calm ∧ q.Calm
  | .capture _ p => p.Calm
  | .raise => False
  | .tryExcept p _ => p.Calm
  | .skip => True

/-- Every descriptor mentioned satisfies `P`. -/
def Prog.Uses (P : Nat → Prop) : Prog → Prop
  | .write fd _ => P fd
  | .seq p q => p.Uses P ∧ q.Uses P
  | .capture fd p => P fd ∧ p.Uses P
  | .raise => True
  | .tryExcept p h => p.Uses P ∧ h.Uses P
  | .skip => True

/-- The writes of an exception-free program that are not captured by a block inside it. -/
def Prog.writes : Prog → List (Nat × Bytes)
  | .write fd b => [(fd, b)]
  | .seq p q => p.writes ++ q.writes
  | .capture fd p => p.writes.filter (·.1 ≠ fd)
  | .raise => []
  | .tryExcept p _ => p.writes
  | .skip => []

/-- The bytes of those writes whose descriptor satisfies a condition. -/
def bytesWhere (c : Nat → Bool) (w : List (Nat × Bytes)) : Bytes :=
  (w.filter fun x => c x.1).flatMap (·.2)

/-- What each capture block of an exception-free program captures, in the order in which the
blocks are left: exactly what its body writes to that descriptor, except what blocks inside
have captured. -/
def Prog.captures : Prog → List Bytes
  | .write _ _ => []
  | .seq p q => p.captures ++ q.captures
  | .capture fd p => p.captures ++ [bytesWhere (· = fd) p.writes]
  | .raise => []
  | .tryExcept p _ => p.captures
  | .skip => []

end FV3.Capture
