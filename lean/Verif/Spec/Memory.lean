import Verif.Model.Memory

/-!
# Specification: blocks of data and windows on them

The same programs as in Model/Memory.lean, without addresses, strides or gt4py's layouts.  There are *blocks* of data;
an array object is a window on one block.  A quantity has **one** window; its `data` and its `view` are that window, and
if it has a backend, its `storage` is a window which shows the same elements of the same block.
-/

namespace FV3
namespace Mem
variable {α : Type}

/-- A window on a block: where its elements are in the block. -/
structure Window where
  block : Nat
  shape : List Nat
  place : List Nat → List Nat
  gpu : Bool
  writeable : Bool

/-- Part of a window. -/
def Window.part (w : Window) (rs : List RIx) : Window :=
  { w with shape := viewShape rs, place := fun idx => w.place (viewIdx rs idx) }

/-- A window with the axes in another order. -/
def Window.transpose (w : Window) (perm : List Nat) : Window :=
  { w with shape := perm.map fun k => w.shape.getD k 0
           place := fun idx => w.place ((List.range perm.length).map fun k => idx.getD (perm.idxOf k) 0) }

/-- The whole of a block. -/
def Window.whole (block : Nat) (shape : List Nat) (gpu : Bool) : Window := ⟨block, shape, id, gpu, true⟩

/-- A block after an assignment to a window. -/
def Window.write (w : Window) (b x : NDArray α) : NDArray α :=
  ⟨b.shape, fun i =>
    match (allIdx w.shape).find? fun j => w.place j == i with
    | some j => x.get j
    | none => b.get i⟩

/-- Variables; windows are objects too (they can be made read-only), and are given by number. -/
inductive SObj where
  | array (w : Nat)
  | storage (w : Nat) (backend : String)
  | quantity (data : Nat) (storage : Option Nat) (info : Info)

/-- Blocks (`count` of them are in use), windows, variables. -/
structure SWorld (α : Type) where
  blocks : Nat → NDArray α
  count : Nat
  wins : List Window
  objs : List SObj

/-- The part of a window that an index expression of an object refers to; `via` says through which attribute. -/
def Window.select (w : Window) (info : Option Info) (via : Via) (ix : List Ix) : Py Window := do
  let ix ← viaIndex info w.shape via ix
  let rs ← resolveAll ix w.shape
  return w.part rs

/-- The metadata of a quantity. -/
def SObj.info : SObj → Option Info
  | .quantity _ _ i => some i
  | _ => none

/-- The window that an attribute of an object is. -/
def SObj.target : SObj → Via → Py Nat
  | .array w, .self => .ok w
  | .storage w _, .self => .ok w
  | .quantity d _ _, .data => .ok d
  | .quantity d _ _, .view => .ok d
  | .quantity d _ _, .corner _ => .ok d
  | .quantity _ (some s) _, .storage => .ok s
  | .quantity _ none _, .storage => .error .typeError
  | _, _ => .error .attributeError

namespace SWorld

/-- A new variable. -/
def add (S : SWorld α) (o : SObj) : SWorld α := { S with objs := S.objs ++ [o] }
/-- A new window. -/
def newWin (S : SWorld α) (w : Window) : SWorld α := { S with wins := S.wins ++ [w] }
/-- A new block of memory with the elements of an array. -/
def newBlock (S : SWorld α) (x : NDArray α) : SWorld α :=
  { S with blocks := fun i => if i = S.count then x else S.blocks i, count := S.count + 1 }

/-- The elements seen through a window. -/
def look (S : SWorld α) (w : Window) : NDArray α := ⟨w.shape, fun idx => (S.blocks w.block).get (w.place idx)⟩

/-- Elements are written through a window. -/
def write (S : SWorld α) (w : Window) (x : NDArray α) : SWorld α :=
  { S with blocks := fun i => if i = w.block then w.write (S.blocks i) x else S.blocks i }

/-- The object of a variable. -/
def obj (S : SWorld α) (h : Nat) : Py SObj := match S.objs[h]? with | some o => .ok o | none => .error .keyError
/-- A window by its number. -/
def win (S : SWorld α) (i : Nat) : Py Window := match S.wins[i]? with | some w => .ok w | none => .error .keyError

/-- The rest of an operation; if there was an exception, it is raised and nothing has changed. -/
def after {β : Type} (S : SWorld α) (p : Py β) (f : β → Py Unit × SWorld α) : Py Unit × SWorld α :=
  match p with
  | .error e => (.error e, S)
  | .ok x => f x

/-- A quantity whose data is window `d`. -/
def finish (S : SWorld α) (shape : List Nat) (d : Nat) (storage : Option Nat) (dims : List Dim) (units : String)
    (origin extent : Option (List Int)) (backend : Option String) : Py Unit × SWorld α :=
  S.after (Quantity.mk? (⟨shape, fun _ => ()⟩ : NDArray Unit) dims units origin extent) fun q =>
    (.ok (), S.add (.quantity d storage ⟨dims, units, q.origin, q.extent, backend⟩))

/-- A quantity of an array.  Without a backend the array is its data.  With one it gets a new block, with a copy. -/
def ofArray (g : Gt4py) (S : SWorld α) (i : Nat) (dims : List Dim) (units : String)
    (origin extent : Option (List Int)) (backend : Option String) : Py Unit × SWorld α :=
  S.after (S.win i) fun w =>
    match backend with
    | none => S.finish w.shape i none dims units origin extent none
    | some b =>
      if g.kind b = .other then (.error .notImplemented, S.newBlock (S.look w))
      else
        let n := Window.whole S.count w.shape (g.kind b == .gpu)
        (((S.newBlock (S.look w)).newWin n).newWin n).finish w.shape (S.wins.length + 1) (some S.wins.length) dims units
          origin extent (some b)

/-- One operation: its outcome and the world afterwards. -/
def step (g : Gt4py) (S : SWorld α) : Op α → Py Unit × SWorld α
  | .array x gpu => (.ok (), ((S.newBlock x).newWin (.whole S.count x.shape gpu)).add (.array S.wins.length))
  | .storage b x =>
    (.ok (), ((S.newBlock x).newWin (.whole S.count x.shape (g.kind b == .gpu))).add (.storage S.wins.length b))
  | .dataOf h => S.after (S.obj h) fun
    | .quantity d _ _ => (.ok (), S.add (.array d))
    | _ => (.error .attributeError, S)
  | .storageOf h => S.after (S.obj h) fun
    | .quantity _ s i =>
      match s, i.backend with
      | some s, some b => (.ok (), S.add (.storage s b))
      | _, _ => (.error .typeError, S)
    | _ => (.error .attributeError, S)
  | .getItem h via ix => S.after (S.obj h) fun
    | .storage .. => (.error .notImplemented, S)
    | o =>
      if via = .storage then (.error .notImplemented, S)
      else if zeroDim o.info via = true then
        if ix = [] then S.after (o.target via) fun i => (.ok (), S.add (.array i)) else (.error .indexError, S)
      else
        S.after (o.target via >>= S.win) fun w => S.after (w.select o.info via ix) fun p =>
          if p.gpu = false ∧ p.shape = [] then (.ok (), S) else (.ok (), (S.newWin p).add (.array S.wins.length))
  | .setItem h via ix x => S.after (S.obj h) fun o =>
      S.after (o.target via >>= S.win) fun w =>
        S.after (viaIndex o.info w.shape via ix) fun _ =>
          if w.writeable = false then (.error .valueError, S)
          else S.after (w.select o.info via ix) fun p =>
            if fits x.shape p.shape then (.ok (), S.write p (x.stretch p.shape)) else (.error .valueError, S)
  | .values h => S.after (S.obj h) fun
    | .quantity d s i => S.after (S.win d) fun w =>
      if i.origin = [] then
        if w.gpu = true then (.error .typeError, S)
        else (.ok (), ({ S with wins := S.wins.set d { w with writeable := false } } : SWorld α).add (.array d))
      else S.after (w.select (some i) .view [.slice .full]) fun p =>
        if w.gpu = true then (.error .typeError, S)
        else (.ok (), (S.newWin { p with writeable := false }).add (.array S.wins.length))
    | _ => (.error .attributeError, S)
  | .quantity h dims units origin extent backend => S.after (S.obj h) fun
    | .quantity .. => (.error .attributeError, S)
    | .storage s b =>
      if backend.isSome ∨ g.kind b = .other then (.error .typeError, S)
      else S.after (S.win s) fun w =>
        (S.newWin w).finish w.shape S.wins.length (some s) dims units origin extent (some b)
    | .array i => S.ofArray g i dims units origin extent backend
  | .transpose h target => S.after (S.obj h) fun
    | .quantity d s i => S.after (Quantity.collapseDims i.dims target) fun t => S.after (S.win d) fun w =>
      let order := t.map fun d => i.dims.idxOf d
      if order.Perm (List.range w.shape.length) then
        (S.newWin (w.transpose order)).ofArray g S.wins.length (Quantity.transposeSeq .x i.dims order) i.units
          (some (Quantity.transposeSeq 0 i.origin order)) (some (Quantity.transposeSeq 0 i.extent order)) i.backend
      else (.error .valueError, S)
    | _ => (.error .attributeError, S)

/-- A history of operations: the outcomes in order and the world afterwards. -/
def run (g : Gt4py) : SWorld α → List (Op α) → List (Py Unit) × SWorld α
  | S, [] => ([], S)
  | S, op :: ops => ((S.step g op).1 :: (run g (S.step g op).2 ops).1, (run g (S.step g op).2 ops).2)

/-- What is read. -/
def get (S : SWorld α) (h : Nat) (via : Via) (ix : List Ix) : Py (NDArray α) := do
  let o ← S.obj h
  let w ← o.target via >>= S.win
  if zeroDim o.info via = true then (if ix = [] then .ok (S.look w) else .error .indexError)
  else
    let p ← w.select o.info via ix
    return S.look p

/-- Before a program. -/
def init (x : α) : SWorld α := ⟨fun _ => ⟨[], fun _ => x⟩, 0, [], []⟩

end SWorld

/-- Reading an object whose array has the elements `d`, in terms of arrays as values: `view` and the corners of
`Quantity` as in Model/Quantity.lean, plain indexing otherwise. -/
def readArr (d : NDArray α) (info : Option Info) (via : Via) (ix : List Ix) : Py (NDArray α) :=
  match info, via with
  | some i, .view => (⟨d, i.dims, i.units, i.origin, i.extent⟩ : Quantity α).viewGet (.tuple ix)
  | some i, .corner c => (⟨d, i.dims, i.units, i.origin, i.extent⟩ : Quantity α).cornerGet c (.tuple ix)
  | _, _ => d.getItem ix

/-- Assigning, in terms of arrays as values: the elements afterwards. -/
def writeArr (d : NDArray α) (info : Option Info) (via : Via) (ix : List Ix) (x : NDArray α) : Py (NDArray α) :=
  match info, via with
  | some i, .view => ((⟨d, i.dims, i.units, i.origin, i.extent⟩ : Quantity α).viewSet (.tuple ix) x).map (·.data)
  | some i, .corner c => ((⟨d, i.dims, i.units, i.origin, i.extent⟩ : Quantity α).cornerSet c (.tuple ix) x).map (·.data)
  | _, _ => d.setItem ix x

/-- The variable an operation is about. -/
def Op.on : Op α → Option Nat
  | .array .. => none
  | .storage .. => none
  | .dataOf h => some h
  | .storageOf h => some h
  | .getItem h .. => some h
  | .setItem h .. => some h
  | .values h => some h
  | .quantity h .. => some h
  | .transpose h _ => some h

/-- Results of reading: the same exception, or the same elements. -/
def SameRead (p q : Py (NDArray α)) : Prop :=
  match p, q with
  | .ok a, .ok b => a.Eqv b
  | .error e, .error e' => e = e'
  | _, _ => False

/-- The world after a program. -/
def World.after (g : Gt4py) (W : World α) (ops : List (Op α)) : World α := (W.run g ops).2

/-- The worlds of programs. -/
def Reachable (g : Gt4py) (W : World α) : Prop := ∃ mem ops, W = (World.init mem).after g ops

/-- The metadata of the variable, if it is a quantity. -/
def World.infoOf (W : World α) (h : Nat) : Option Info := W.objs[h]? >>= Obj.info

/-- Whether numpy would let the program assign to the array. -/
def World.writeable (W : World α) (h : Nat) (via : Via) : Bool :=
  match W.objs[h]? with
  | none => false
  | some o =>
    match o.target via with
    | .error _ => false
    | .ok i => (W.arrs[i]?.map (·.writeable)).getD false

end Mem
end FV3
