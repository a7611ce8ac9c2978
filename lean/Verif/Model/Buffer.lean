import Verif.Model.NDArray
import Verif.Model.Dict

/-!
# Recycled buffers (buffer.py)

A history of context managers: each `with array_buffer(...)`, `send_buffer(...)` or
`recv_buffer(...)` block is entered, its body writes to the array it was given, and it is
left normally or by an exception; blocks may be open at the same time and be left in any
order.  Arrays are numbered: the buffers created by allocators, and separately the arrays
of the user.

Not modelled: the timers (buffer.py:54-55,59,66,85-86,90-94), `array is None`; user arrays
do not overlap each other or the buffers.
-/

namespace FV3

/-- buffer.py:28: the key of the cache: allocator, shape, dtype. -/
structure BKey where
  allocator : Nat
  shape : List Nat
  dtype : Nat
  deriving DecidableEq, Repr

/-- The user's arrays (their allocator argument, shape and dtype, and whether they are
C-contiguous), and what a new array contains. (buffer.py:14, 41, 71) -/
structure BufEnv (α : Type) where
  spec : Nat → BKey
  contiguous : Nat → Bool
  fresh : BKey → Nat → NDArray α
  fresh_shape : ∀ k n, (fresh k n).shape = k.shape

/-- What a context was opened for: a plain buffer, sending or receiving a user array. (buffer.py:14, 41, 71) -/
inductive CtxKind where
  | plain (k : BKey)
  | send (u : Nat)
  | recv (u : Nat)
  deriving DecidableEq, Repr

/-- An open context; `buf` is the buffer it holds, `none` if the user array itself is
yielded. (buffer.py:10-95) -/
structure Ctx where
  kind : CtxKind
  buf : Option Nat
  deriving DecidableEq, Repr

/-- State: `BUFFER_CACHE` (lists as stacks, top first), number of arrays allocated so far,
with which key each was allocated, contents of the buffers, contents of the user's arrays,
all contexts ever opened (`none` once left). (buffer.py:10-95) -/
structure BufSt (α : Type) where
  cache : Dict BKey (List Nat)
  next : Nat
  key : Nat → BKey
  mem : Nat → NDArray α
  usr : Nat → NDArray α
  ctxs : List (Option Ctx)

/-- Update of a function at one number. (assignments to arrays, buffer.py:61, 95) -/
def upd {A : Type} (f : Nat → A) (n : Nat) (v : A) : Nat → A := fun m => if m = n then v else f m

namespace Buf
variable {α : Type}

/-- The requested key. (buffer.py:28, 60, 91) -/
def kindKey (env : BufEnv α) : CtxKind → BKey
  | .plain k => k
  | .send u => env.spec u
  | .recv u => env.spec u

/-- buffer.py:28-36: take an array from the cache or allocate one. -/
def acquire (env : BufEnv α) (k : BKey) (s : BufSt α) : Nat × BufSt α :=
  match s.cache.get? k with
  | some (a :: rest) => (a, { s with cache := s.cache.set k rest })
  | some [] =>
    (s.next, { s with next := s.next + 1, key := upd s.key s.next k, mem := upd s.mem s.next (env.fresh k s.next) })
  | none =>
    (s.next, { s with cache := s.cache.set k [], next := s.next + 1, key := upd s.key s.next k
                      mem := upd s.mem s.next (env.fresh k s.next) })

/-- buffer.py:37 -/
def release (k : BKey) (a : Nat) (s : BufSt α) : Py Unit × BufSt α :=
  match s.cache.get? k with
  | none => (.error .keyError, s)
  | some l => (.ok (), { s with cache := s.cache.set k (a :: l) })

/-- What can happen. (buffer.py:10-95) -/
inductive Ev (α : Type) where
  | enter (kind : CtxKind)
  /-- the body of context `i` writes to the array it was given (plain and receive contexts) -/
  | write (i : Nat) (v : NDArray α)
  /-- the user assigns to an array of theirs -/
  | userWrite (u : Nat) (v : NDArray α)
  /-- leave context `i` normally -/
  | exit (i : Nat)
  /-- leave context `i` by an exception -/
  | abort (i : Nat)

/-- Open a context: buffer.py:28-36 (plain), 54-67 (send), 85-93 (receive). -/
def enter (env : BufEnv α) (kind : CtxKind) (s : BufSt α) : Py Unit × BufSt α :=
  match kind with
  | .plain k =>
    let x := acquire env k s
    (.ok (), { x.2 with ctxs := s.ctxs ++ [some ⟨kind, some x.1⟩] })
  | .send u =>
    if env.contiguous u then (.ok (), { s with ctxs := s.ctxs ++ [some ⟨kind, none⟩] })
    else
      let x := acquire env (env.spec u) s
      (.ok (), { x.2 with mem := upd x.2.mem x.1 (x.2.usr u), ctxs := s.ctxs ++ [some ⟨kind, some x.1⟩] })
  | .recv u =>
    if env.contiguous u then (.ok (), { s with ctxs := s.ctxs ++ [some ⟨kind, none⟩] })
    else
      let x := acquire env (env.spec u) s
      (.ok (), { x.2 with ctxs := s.ctxs ++ [some ⟨kind, some x.1⟩] })

/-- The context number `i`, if it is open. (buffer.py:10-95) -/
def ctx? (s : BufSt α) (i : Nat) : Option Ctx := (s.ctxs[i]?).join

/-- One event.  An array which is assigned is broadcast, ValueError if this is not possible; using a context that was left RuntimeError. (buffer.py:10-95) -/
def step (env : BufEnv α) (s : BufSt α) : Ev α → Py Unit × BufSt α
  | .enter kind => enter env kind s
  | .write i v =>
    match ctx? s i with
    | none => (.error .runtimeError, s)
    | some c =>
      if fits v.shape (kindKey env c.kind).shape = false then (.error .valueError, s)
      else
        match c.buf, c.kind with
        | _, .send _ => (.error .runtimeError, s)
        | some a, _ => (.ok (), { s with mem := upd s.mem a (v.stretch (kindKey env c.kind).shape) })
        | none, .recv u => (.ok (), { s with usr := upd s.usr u (v.stretch (env.spec u).shape) })
        | none, .plain _ => (.error .runtimeError, s)
  | .userWrite u v =>
    if fits v.shape (env.spec u).shape = false then (.error .valueError, s)
    else (.ok (), { s with usr := upd s.usr u (v.stretch (env.spec u).shape) })
  | .exit i =>
    match ctx? s i with
    | none => (.error .runtimeError, s)
    | some c =>
      let s' := { s with ctxs := s.ctxs.set i none }
      match c.buf with
      | none => (.ok (), s')
      | some a =>
        match c.kind with
        | .recv u => release (env.spec u) a { s' with usr := upd s.usr u (s.mem a) }
        | .send u => release (env.spec u) a s'
        | .plain k => release k a s'
  | .abort i =>
    match ctx? s i with
    | none => (.error .runtimeError, s)
    | some _ => (.ok (), { s with ctxs := s.ctxs.set i none })

/-- State after a history. (buffer.py:10-95) -/
def run (env : BufEnv α) : BufSt α → List (Ev α) → BufSt α
  | s, [] => s
  | s, e :: es => run env (step env s e).2 es

/-- The array the body of an open context sees. (buffer.py:10-95) -/
def yielded (s : BufSt α) (i : Nat) : Option (NDArray α) :=
  match ctx? s i with
  | none => none
  | some c =>
    match c.buf, c.kind with
    | some a, _ => some (s.mem a)
    | none, .send u => some (s.usr u)
    | none, .recv u => some (s.usr u)
    | none, .plain _ => none

/-- A new process (`key`, `mem` are irrelevant until arrays are allocated). (buffer.py:10-95) -/
def init (env : BufEnv α) (usr : Nat → NDArray α) : BufSt α :=
  ⟨[], 0, fun _ => ⟨0, [], 0⟩, env.fresh ⟨0, [], 0⟩, usr, []⟩

end Buf
end FV3
