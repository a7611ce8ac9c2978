import Verif.Model.Basic

/-!
# capture_stream (_capture_stream.py)

The descriptor table of the process maps descriptor numbers to open files (open file
descriptions); a write appends to the file.  Programs write to descriptors, capture a
descriptor around a body, raise and handle exceptions.

Simplifications: Python-level buffering of the stream is not modelled (bytes reach the
descriptor when written); numbers of closed descriptors are not reused; the seek position
of a file is always its end, except for the final read of the temporary file.
-/

namespace FV3.Capture

/-- Bytes. (_capture_stream.py:7-25) -/
abbrev Bytes := List Nat

/-- Open files, descriptors, and the next unused numbers of both. (_capture_stream.py:7-25) -/
structure FS where
  fds : Nat → Option Nat
  files : Nat → Bytes
  nextFd : Nat
  nextFile : Nat

/-- `os.dup(fd)`: a new descriptor for the same file. (_capture_stream.py:14) -/
def dup (s : FS) (fd : Nat) : Option (Nat × FS) :=
  match s.fds fd with
  | none => none
  | some f => some (s.nextFd, { s with fds := fun d => if d = s.nextFd then some f else s.fds d
                                       nextFd := s.nextFd + 1 })

/-- `tempfile.NamedTemporaryFile()`: a new empty file with a descriptor. (_capture_stream.py:16) -/
def openTemp (s : FS) : Nat × FS :=
  (s.nextFd, { fds := fun d => if d = s.nextFd then some s.nextFile else s.fds d
               files := fun f => if f = s.nextFile then [] else s.files f
               nextFd := s.nextFd + 1, nextFile := s.nextFile + 1 })

/-- `os.dup2(src, dst)` (_capture_stream.py:19, 22) -/
def dup2 (s : FS) (src dst : Nat) : FS :=
  { s with fds := fun d => if d = dst then s.fds src else s.fds d }

/-- Closing a descriptor. (leaving the block of _capture_stream.py:16) -/
def close (s : FS) (fd : Nat) : FS :=
  { s with fds := fun d => if d = fd then none else s.fds d }

/-- Writing to a descriptor. (_capture_stream.py:7-25) -/
def write (s : FS) (fd : Nat) (b : Bytes) : Option FS :=
  match s.fds fd with
  | none => none
  | some f => some { s with files := fun g => if g = f then s.files f ++ b else s.files g }

/-- Contents of the file behind a descriptor (`out.seek(0)`, `out.read()`). (_capture_stream.py:24-25) -/
def readAll (s : FS) (fd : Nat) : Bytes :=
  match s.fds fd with
  | none => []
  | some f => s.files f

/-- Programs. (_capture_stream.py:7-25) -/
inductive Prog where
  | write (fd : Nat) (b : Bytes)
  | seq (p q : Prog)
  /-- `with capture_stream(stream) as out: body` where `stream.fileno() = fd` -/
  | capture (fd : Nat) (body : Prog)
  | raise
  | tryExcept (body handler : Prog)
  | skip

/-- Execution: `false` for an exception; the texts captured by the `capture` blocks left so
far, in the order in which they were left; the process state.  _capture_stream.py:7-25: the
statements after `yield` are skipped if the body raises; the temporary file is closed in
both cases. -/
def Prog.exec : Prog → FS → Bool × List Bytes × FS
  | .write fd b, s =>
    match Capture.write s fd b with
    | none => (false, [], s)
    | some s' => (true, [], s')
  | .seq p q, s =>
    let x := p.exec s
    if x.1 then
      let y := q.exec x.2.2
      (y.1, x.2.1 ++ y.2.1, y.2.2)
    else x
  | .capture fd body, s =>
    match dup s fd with
    | none => (false, [], s)
    | some (orig, s1) =>
      let (out, s2) := openTemp s1
      let s3 := dup2 s2 out fd
      let x := body.exec s3
      if x.1 then
        let s4 := dup2 x.2.2 orig fd
        (true, x.2.1 ++ [readAll s4 out], close s4 out)
      else (false, x.2.1, close x.2.2 out)
  | .raise, s => (false, [], s)
  | .tryExcept p h, s =>
    let x := p.exec s
    if x.1 then x
    else
      let y := h.exec x.2.2
      (y.1, x.2.1 ++ y.2.1, y.2.2)
  | .skip, s => (true, [], s)

end FV3.Capture
