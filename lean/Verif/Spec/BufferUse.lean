import Verif.Model.Buffer

/-!
# Specification: how many arrays are allocated for buffers

A history is given as the events of Model/Buffer.lean (blocks entered and left in any order), or as a program of
nested `with` blocks.
-/

namespace FV3
namespace Buf
variable {α : Type}

/-- How often the allocator was called for arrays with this key. -/
def allocated (s : BufSt α) (k : BKey) : Nat := (List.range s.next).countP fun a => decide (s.key a = k)

/-- The context holds a buffer with this key. -/
def uses (env : BufEnv α) (k : BKey) (c : Option Ctx) : Bool :=
  match c with
  | some c => c.buf.isSome && decide (kindKey env c.kind = k)
  | none => false

/-- How many open contexts hold a buffer with this key. -/
def inUse (env : BufEnv α) (s : BufSt α) (k : BKey) : Nat := s.ctxs.countP (uses env k)

/-- The largest number of buffers with this key in use at the same time, during a history. -/
def peak (env : BufEnv α) (k : BKey) : BufSt α → List (Ev α) → Nat
  | s, [] => inUse env s k
  | s, e :: es => max (inUse env s k) (peak env k (step env s e).2 es)

/-- 1 if the event is that a context which holds a buffer with this key is left by an exception. -/
def lostBy (env : BufEnv α) (k : BKey) (s : BufSt α) : Ev α → Nat
  | .abort i => if uses env k (ctx? s i) then 1 else 0
  | _ => 0

/-- How many contexts that hold a buffer with this key are left by an exception, during a history. -/
def lost (env : BufEnv α) (k : BKey) : BufSt α → List (Ev α) → Nat
  | _, [] => 0
  | s, e :: es => lostBy env k s e + lost env k (step env s e).2 es

/-- Programs of `with` blocks: nothing more; a block, with its body and what follows it.  In a block the array is
assigned first (plain and receive contexts). -/
inductive Withs (α : Type) where
  | done
  | block (kind : CtxKind) (v : NDArray α) (body rest : Withs α)

/-- The events of a program which begins when `n` contexts have been opened before, and the number afterwards. -/
def Withs.events : Withs α → Nat → List (Ev α) × Nat
  | .done, n => ([], n)
  | .block kind v body rest, n =>
    let b := body.events (n + 1)
    let r := rest.events b.2
    (.enter kind :: .write n v :: b.1 ++ .exit n :: r.1, r.2)

/-- Whether a context needs a buffer with this key: plain ones do, others if the user's array is not contiguous. -/
def needs (env : BufEnv α) (k : BKey) : CtxKind → Nat
  | .plain k' => if k' = k then 1 else 0
  | .send u => if env.contiguous u = false ∧ env.spec u = k then 1 else 0
  | .recv u => if env.contiguous u = false ∧ env.spec u = k then 1 else 0

/-- How deep the blocks that need a buffer with this key are nested in each other. -/
def Withs.depth (env : BufEnv α) (k : BKey) : Withs α → Nat
  | .done => 0
  | .block kind _ body rest => max (needs env k kind + body.depth env k) (rest.depth env k)

/-- One block after the other, none in another: the receives of halo updates (communicator.py:652-661). -/
def Withs.flat : List (CtxKind × NDArray α) → Withs α
  | [] => .done
  | x :: l => .block x.1 x.2 .done (Withs.flat l)

/-- `n` blocks which fail, one after the other, when `j` contexts have been opened before. -/
def failing (k : BKey) : Nat → Nat → List (Ev α)
  | _, 0 => []
  | j, n + 1 => .enter (.plain k) :: .abort j :: failing k (j + 1) n

end Buf
end FV3
