import Verif.Model.Net
import Verif.Model.Communicator
import Verif.Model.Partitioner
import Verif.Model.Dict

/-!
# ZarrMonitor (zarr_monitor.py)

Ranks that share a Zarr store (a directory) and an MPI communicator.

The store holds, for each array, its metadata (shape, chunk shape, attributes) and its chunks, one
file per chunk.  Ranks run sequential programs whose steps are interleaved arbitrarily; a step reads
or writes one metadata file or one chunk, or calls or leaves a collective.

Simplifications.
* The store is an empty group when the monitors are made (mode "w"); other modes: Model/ZarrOpen.lean.  The
  group is opened by rank 0 before the constructor's broadcast, hence before any rank uses it.
* Writing part of a chunk reads the chunk, changes it and writes it back; between the two steps other
  ranks may act.  Zarr does not read a chunk which is overwritten as a whole: the result is the same.
* The elements of a chunk which does not exist are arbitrary (`junk`), as `fill_value=None`.
* Compression, dtypes and the conversion of cupy arrays (zarr_monitor.py:192-205) are not modelled.
* Chunks which fall outside the array when an extent shrinks are deleted by Zarr: shrinking is not
  modelled (NotImplementedError).
* The only attribute of a quantity is its units.
-/

namespace FV3
namespace Zarr
variable {α A B R S : Type}

/-- A time: the name of the calendar and the seconds since some date. (zarr_monitor.py:264-279) -/
structure ZTime where
  calendar : String
  seconds : Int
  deriving DecidableEq

/-- The value of the attribute "units". (zarr_monitor.py:209-213, 265) -/
inductive UnitsAttr where
  | str (s : String)
  /-- `f"seconds since {time}"` -/
  | secondsSince (t : ZTime)
  deriving DecidableEq

/-- Attributes of an array: "_ARRAY_DIMENSIONS" (after "time", or "time" and "tile"), "units",
"calendar". (zarr_monitor.py:209-213, 264-269) -/
structure Attrs where
  dims : Option (List Dim) := none
  units : Option UnitsAttr := none
  calendar : Option String := none
  deriving DecidableEq

/-- Metadata of an array. (zarr library; zarr_monitor.py:150-156, 173) -/
structure Info where
  shape : List Nat
  chunks : List Nat
  attrs : Attrs
  deriving DecidableEq

/-- The contents of a Zarr group. (zarr library; zarr_monitor.py:63-67, 150, 193) -/
structure Store (α : Type) where
  infos : String → Option Info
  chunks : String → List Nat → Option (List Nat → α)

namespace Store

/-- Plumbing of the model (zarr library; zarr_monitor.py:150, 173) -/
def putInfo (s : Store α) (name : String) (i : Info) : Store α :=
  { s with infos := fun n => if n = name then some i else s.infos n }

/-- Plumbing of the model (zarr library; zarr_monitor.py:193) -/
def putChunk (s : Store α) (name : String) (ci : List Nat) (c : List Nat → α) : Store α :=
  { s with chunks := fun n j => if n = name ∧ j = ci then some c else s.chunks n j }

/-- Plumbing of the model (`mode="w"`, zarr_monitor.py:64) -/
def empty : Store α := ⟨fun _ => none, fun _ _ => none⟩

end Store

/-- Collective calls: `bcast` of an array (its name; `None`), from rank 0, and `barrier`.
(zarr_monitor.py:158-159, 293) -/
inductive Coll where
  | bcast (array : Option String)
  | barrier
  deriving DecidableEq

/-- Plumbing of the model (zarr_monitor.py:158-159, 293) -/
def Coll.isBcast : Coll → Bool
  | .bcast _ => true
  | .barrier => false

/-- The program of a rank. (zarr_monitor.py:43-293) -/
inductive Prog (α R : Type) : Type where
  | ret (r : R)
  | getInfo (name : String) (k : Option Info → Prog α R)
  | putInfo (name : String) (i : Info) (k : Prog α R)
  | getChunk (name : String) (ci : List Nat) (k : Option (List Nat → α) → Prog α R)
  | putChunk (name : String) (ci : List Nat) (c : List Nat → α) (k : Prog α R)
  | coll (c : Coll) (k : Option String → Prog α R)

/-- Sequential composition. (zarr_monitor.py:43-293) -/
def Prog.bind : Prog α R → (R → Prog α S) → Prog α S
  | .ret r, f => f r
  | .getInfo n k, f => .getInfo n fun x => (k x).bind f
  | .putInfo n i k, f => .putInfo n i (k.bind f)
  | .getChunk n j k, f => .getChunk n j fun x => (k x).bind f
  | .putChunk n j c k, f => .putChunk n j c (k.bind f)
  | .coll c k, f => .coll c fun x => (k x).bind f

/-- All ranks, the store, and the collectives each rank has called so far; `inside r` if rank `r` has
not yet returned from the last one. (MPI and zarr; zarr_monitor.py:103-113) -/
structure World (α R : Type) where
  procs : Int → Prog α R
  store : Store α
  log : Int → List Coll
  inside : Int → Bool

/-- Does the last collective called by rank `r` return, and with what?  A `bcast` returns on the other
ranks once rank 0 has called it, on rank 0 at once or once all have called it (`buf`); a `barrier`
once all have called it.  All ranks must call the same collectives in the same order.
(MPI; zarr_monitor.py:159, 293) -/
def World.leave (buf : Nat → Bool) (ranks : List Int) (r : Int) (W : World α R) : Option (Option String) :=
  let n := (W.log r).length - 1
  match (W.log r)[n]? with
  | none => none
  | some (.bcast own) =>
    if r = 0 then
      if buf n = true ∨ (ranks.all fun r' => (W.log r')[n]?.map Coll.isBcast == some true) = true then some own
      else none
    else
      match (W.log 0)[n]? with
      | some (.bcast p) => some p
      | _ => none
  | some .barrier =>
    if (ranks.all fun r' => (W.log r')[n]? == some .barrier) = true then some none else none

/-- One step of rank `r`, if it is not finished or blocked. (MPI and zarr; zarr_monitor.py:103-113) -/
def World.step (buf : Nat → Bool) (ranks : List Int) (r : Int) (W : World α R) : Option (World α R) :=
  match W.procs r with
  | .ret _ => none
  | .getInfo n k => some { W with procs := updRank W.procs r (k (W.store.infos n)) }
  | .putInfo n i k => some { W with procs := updRank W.procs r k, store := W.store.putInfo n i }
  | .getChunk n j k => some { W with procs := updRank W.procs r (k (W.store.chunks n j)) }
  | .putChunk n j c k => some { W with procs := updRank W.procs r k, store := W.store.putChunk n j c }
  | .coll c k =>
    if W.inside r = true then
      match W.leave buf ranks r with
      | none => none
      | some p => some { W with procs := updRank W.procs r (k p), inside := updRank W.inside r false }
    else
      some { W with log := updRank W.log r (W.log r ++ [c]), inside := updRank W.inside r true }

/-- Execution of a schedule. (zarr_monitor.py:103-113) -/
def World.run (buf : Nat → Bool) (ranks : List Int) : List Int → World α R → Option (World α R)
  | [], W => some W
  | r :: rs, W => (W.step buf ranks r).bind (World.run buf ranks rs)

/-! ### Writers -/

/-- A `zarr.Array` in the memory of a rank: shape and chunk shape are those of the store when it was
made, received or resized. (zarr library; zarr_monitor.py:150, 159, 173) -/
structure Handle where
  name : String
  shape : List Nat
  chunks : List Nat
  deriving DecidableEq

/-- zarr_monitor.py:116-129, 247-255 `_ZarrVariableWriter`, `_ZarrTimeWriter`: the changing state;
`encoding` is the first time stored. -/
structure Writer where
  name : String
  iTime : Nat := 0
  array : Option Handle := none
  encoding : Option ZTime := none

/-- Methods of a writer. (zarr_monitor.py:43-293) -/
def WM (α A : Type) := Writer → Prog α (Py A × Writer)

namespace WM

/-- Plumbing of the model (zarr_monitor.py:43-293) -/
def pure (a : A) : WM α A := fun w => .ret (.ok a, w)

/-- Sequencing; an exception propagates, what has been changed stays changed. (zarr_monitor.py:43-293) -/
def bind (m : WM α A) (f : A → WM α B) : WM α B := fun w =>
  (m w).bind fun x =>
    match x.1 with
    | .ok a => f a x.2
    | .error e => .ret (.error e, x.2)

/-- The monad structure of the model (zarr_monitor.py:43-293) -/
instance : Monad (WM α) where
  pure := WM.pure
  bind := WM.bind

/-- Plumbing of the model (zarr_monitor.py:43-293) -/
def lift (x : Py A) : WM α A := fun w => .ret (x, w)
/-- Plumbing of the model (zarr_monitor.py:43-293) -/
def self : WM α Writer := fun w => .ret (.ok w, w)
/-- Plumbing of the model (zarr_monitor.py:43-293) -/
def update (f : Writer → Writer) : WM α Unit := fun w => .ret (.ok (), f w)
/-- Plumbing of the model (zarr library; zarr_monitor.py:167, 217) -/
def getInfo (name : String) : WM α (Option Info) := fun w => .getInfo name fun x => .ret (.ok x, w)
/-- Plumbing of the model (zarr library; zarr_monitor.py:150, 173) -/
def putInfo (name : String) (i : Info) : WM α Unit := fun w => .putInfo name i (.ret (.ok (), w))
/-- Plumbing of the model (zarr library; zarr_monitor.py:193) -/
def getChunk (name : String) (ci : List Nat) : WM α (Option (List Nat → α)) := fun w =>
  .getChunk name ci fun x => .ret (.ok x, w)
/-- Plumbing of the model (zarr library; zarr_monitor.py:193) -/
def putChunk (name : String) (ci : List Nat) (c : List Nat → α) : WM α Unit := fun w =>
  .putChunk name ci c (.ret (.ok (), w))
/-- Plumbing of the model (zarr_monitor.py:158-159, 293) -/
def coll (c : Coll) : WM α (Option String) := fun w => .coll c fun x => .ret (.ok x, w)

end WM

/-- `if b: m` (zarr_monitor.py:43-293) -/
def when (b : Prop) [Decidable b] (m : WM α Unit) : WM α Unit := if b then m else WM.pure ()

/-- An optional value that must be there. (zarr_monitor.py:43-293) -/
def need {A : Type} (e : PyErr) : Option A → Py A
  | none => .error e
  | some a => .ok a

/-- Raise if the condition holds. (zarr_monitor.py:43-293) -/
def raiseIf (b : Prop) [Decidable b] (e : PyErr) : Py Unit := if b then .error e else .ok ()

/-! ### Operations of the zarr package -/

/-- `group.create_dataset(name, shape, chunks)`: ContainsArrayError (a ValueError) if there is one.
(A chunk size of 0 makes every later access divide by 0.) (zarr library; zarr_monitor.py:150-156, 260-262) -/
def createDataset (name : String) (shape chunks : List Nat) : WM α Handle := do
  let old ← WM.getInfo name
  .lift (raiseIf (old.isSome = true) .valueError)
  .lift (raiseIf (0 ∈ chunks) .zeroDivision)
  .putInfo name ⟨shape, chunks, {}⟩
  return ⟨name, shape, chunks⟩

/-- `array.attrs` (zarr_monitor.py:217) -/
def getAttrs (h : Handle) : WM α Attrs := do
  let i ← WM.getInfo h.name
  let i ← .lift (need .keyError i)
  return i.attrs

/-- `array.attrs.update(...)`, `array.attrs[key] = value` (zarr_monitor.py:142, 268-269) -/
def updateAttrs (h : Handle) (f : Attrs → Attrs) : WM α Unit := do
  let i ← WM.getInfo h.name
  let i ← .lift (need .keyError i)
  .putInfo h.name { i with attrs := f i.attrs }

/-- `array.resize(*shape)`, growing only. (zarr library; zarr_monitor.py:173, 288) -/
def resize (h : Handle) (shape : List Nat) : WM α Handle := do
  .lift (raiseIf (¬ shape.length = h.shape.length) .valueError)
  .lift (raiseIf (¬ (List.zipWith (fun (a b : Nat) => decide (a ≤ b)) h.shape shape).all id = true) .notImplemented)
  let i ← WM.getInfo h.name
  let i ← .lift (need .keyError i)
  .putInfo h.name { i with shape := shape }
  return { h with shape := shape }

/-- All indices of a box. (zarr library; zarr_monitor.py:193) -/
def boxIdx : List (Nat × Nat) → List (List Nat)
  | [] => [[]]
  | (a, b) :: box => ((List.range (b - a)).map (a + ·)).flatMap fun i => (boxIdx box).map (i :: ·)

/-- The chunks which intersect a box, per axis: first, and last plus one. (zarr library; zarr_monitor.py:193) -/
def chunkBox (box : List (Nat × Nat)) (chunks : List Nat) : List (Nat × Nat) :=
  List.zipWith (fun (b : Nat × Nat) c => (b.1 / c, (b.2 - 1) / c + 1)) box chunks

/-- Is the index in the box? (zarr library; zarr_monitor.py:193) -/
def inBox (box : List (Nat × Nat)) (idx : List Nat) : Bool :=
  (List.zipWith (fun (b : Nat × Nat) i => decide (b.1 ≤ i ∧ i < b.2)) box idx).all id

/-- The new contents of chunk `ci` when `value` is stored in the box (the first `nInts` axes of which
are not axes of `value`). (zarr library; zarr_monitor.py:193) -/
def mergeChunk (chunks : List Nat) (box : List (Nat × Nat)) (nInts : Nat) (value : NDArray α) (ci : List Nat)
    (old : List Nat → α) : List Nat → α := fun loc =>
  let idx := List.zipWith (· + ·) (List.zipWith (· * ·) ci chunks) loc
  if inBox box idx = true then value.get ((List.zipWith (· - ·) idx (box.map (·.1))).drop nInts) else old loc

/-- Storing one chunk after the other. (zarr library; zarr_monitor.py:193) -/
def storeChunks (junk : List Nat → α) (h : Handle) (box : List (Nat × Nat)) (nInts : Nat) (value : NDArray α) :
    List (List Nat) → WM α Unit
  | [] => return ()
  | ci :: cis => do
    let old ← WM.getChunk h.name ci
    WM.putChunk h.name ci (mergeChunk h.chunks box nInts value ci (old.getD junk))
    storeChunks junk h box nInts value cis

/-- `array[i, j, ..., a:b, c:d, ...] = value`: first integers, then slices.  An integer out of range
raises IndexError (BoundsCheckError).  The shape of the value must be that of the slices, which must lie
within the array (numpy broadcasting is not modelled). (zarr library; zarr_monitor.py:193, 291) -/
def setSelection (junk : List Nat → α) (h : Handle) (ints : List Int) (slices : List (Int × Int))
    (value : NDArray α) : WM α Unit := do
  .lift (raiseIf (¬ ints.length + slices.length = h.shape.length) .indexError)
  .lift (raiseIf (¬ (List.zipWith (fun (i : Int) (n : Nat) => decide (0 ≤ i ∧ i < n)) ints h.shape).all id = true) .indexError)
  .lift (raiseIf (¬ (List.zipWith (fun (s : Int × Int) (n : Nat) => decide (0 ≤ s.1 ∧ s.1 ≤ s.2 ∧ s.2 ≤ n)) slices
    (h.shape.drop ints.length)).all id = true) .valueError)
  .lift (raiseIf (¬ value.shape = slices.map fun s => (s.2 - s.1).toNat) .valueError)
  let box := (ints.map fun i => (i.toNat, i.toNat + 1)) ++ slices.map fun s => (s.1.toNat, s.2.toNat)
  when ((slices.all fun s => decide (s.1 < s.2)) = true)
    (storeChunks junk h box ints.length value (boxIdx (chunkBox box h.chunks)))

/-! ### zarr_monitor.py -/

/-- zarr_monitor.py:224-236 `array_chunks`. -/
def arrayChunks (l : Layout) (tileShape : List Int) (dims : List Dim) : List Int :=
  List.zipWith (fun (de : Dim × Int) n =>
      if de.1 ∈ INTERFACE_DIMS then pydiv (de.2 - 1) n else pydiv de.2 n)
    (dims.zip tileShape) (listByDims dims l.y l.x 1)

/-- `bcast` of an array as received by another rank than 0: it reads the metadata from the store.
(zarr_monitor.py:159) -/
def receiveArray : Option String → WM α Unit
  | none => WM.update fun w => { w with array := none }
  | some name => do
    let i ← WM.getInfo name
    let i ← .lift (need .keyError i)
    WM.update fun w => { w with array := some ⟨name, i.shape, i.chunks⟩ }

/-- zarr_monitor.py:158-159 `sync_array`: the other ranks get a copy of rank 0's array. -/
def syncArray (rank : Int) : WM α Unit := do
  let w ← WM.self
  let p ← WM.coll (.bcast (w.array.map (·.name)))
  when (rank ≠ ROOT_RANK) (receiveArray p)

/-- zarr_monitor.py:209-213 `_get_attrs`. -/
def attrsOf (q : Quantity α) : Attrs := { dims := some q.dims, units := some (.str q.units) }

/-- zarr_monitor.py:124-125, 145-156 `_init_zarr_root`. -/
def initZarrRoot (l : Layout) (q : Quantity α) : WM α Handle := do
  let w ← WM.self
  let tile := tileExtentFromRankMetadata q.dims q.extent l
  createDataset w.name (1 :: 6 :: tile.map Int.toNat) (1 :: 1 :: (arrayChunks l tile q.dims).map Int.toNat)

/-- zarr_monitor.py:141-142: what rank 0 does. -/
def makeArray (make : WM α Handle) (attrs : Attrs) : WM α Unit := do
  let h ← make
  WM.update fun w => { w with array := some h }
  updateAttrs h fun a => { attrs with units := attrs.units.or a.units, calendar := attrs.calendar.or a.calendar }

/-- zarr_monitor.py:139-143 `_init_zarr`. -/
def initZarr (rank : Int) (make : WM α Handle) (attrs : Attrs) : WM α Unit := do
  when (rank = ROOT_RANK) (makeArray make attrs)
  syncArray rank

/-- zarr_monitor.py:215-221 `_ensure_compatible_attrs`. -/
def ensureCompatibleAttrs (h : Handle) (q : Quantity α) : WM α Unit := do
  let a ← getAttrs h
  .lift (raiseIf (a ≠ attrsOf q) .valueError)

/-- zarr_monitor.py:168-174: the array is extended, then the attributes are checked. -/
def growChecked (l : Layout) (h : Handle) (q : Quantity α) : WM α Unit := do
  let w ← WM.self
  let h ← resize h ((w.iTime + 1) :: 6 :: (tileExtentFromRankMetadata q.dims q.extent l).map Int.toNat)
  WM.update fun w => { w with array := some h }
  ensureCompatibleAttrs h q

/-- zarr_monitor.py:167-174, on rank 0. -/
def extend (l : Layout) (q : Quantity α) : WM α Unit := do
  let w ← WM.self
  let h ← .lift (need .attributeError w.array)
  when (h.shape.getD 0 0 ≤ w.iTime) (growChecked l h q)

/-- zarr_monitor.py:177-193, 239-244: the rank's part is stored. -/
def writePart (l : Layout) (junk : List Nat → α) (rank : Int) (q : Quantity α) : WM α Unit := do
  let w ← WM.self
  let h ← .lift (need .attributeError w.array)
  let tile ← .lift (tileIndex l rank)
  let slices := subtileSlice q.dims ((h.shape.drop 2).map Int.ofNat) l (subtileIndex l rank) false
  let v ← .lift (q.viewGet (.one (.slice .full)))
  let v ← .lift (v.getItem (slices.map fun s => .slice (.of 0 (s.2 - s.1))))
  setSelection junk h [w.iTime, tile] slices v

/-- zarr_monitor.py:161-207 `_ZarrVariableWriter.append`. -/
def append (l : Layout) (junk : List Nat → α) (rank : Int) (q : Quantity α) : WM α Unit := do
  let w ← WM.self
  when (w.array = none) (initZarr rank (initZarrRoot l q) (attrsOf q))
  when (rank = ROOT_RANK) (extend l q)
  syncArray rank
  writePart l junk rank q
  WM.update fun w => { w with iTime := w.iTime + 1 }

/-- zarr_monitor.py:249, 253-262 `_ZarrTimeWriter._init_zarr_root`. -/
def initTimeRoot : WM α Handle := do
  let w ← WM.self
  createDataset w.name [1] [1024]

/-- zarr_monitor.py:268-269 -/
def putTimeAttrs (t : ZTime) : WM α Unit := do
  let w ← WM.self
  let h ← .lift (need .attributeError w.array)
  updateAttrs h fun a => { a with units := some (.secondsSince t) }
  updateAttrs h fun a => { a with calendar := some t.calendar }

/-- zarr_monitor.py:264-269 `_set_time_encoding_attrs`. -/
def setTimeEncodingAttrs (rank : Int) (t : ZTime) : WM α Unit := do
  WM.update fun w => { w with encoding := some t }
  when (rank = ROOT_RANK) (putTimeAttrs t)

/-- zarr_monitor.py:283-285 -/
def initTime (rank : Int) (t : ZTime) : WM α Unit := do
  initZarr rank initTimeRoot { dims := some [] }
  setTimeEncodingAttrs rank t

/-- zarr_monitor.py:287-288 -/
def growTime (h : Handle) : WM α Unit := do
  let w ← WM.self
  let h ← resize h [w.iTime + 1]
  WM.update fun w => { w with array := some h }

/-- zarr_monitor.py:286-288, on rank 0. -/
def extendTime : WM α Unit := do
  let w ← WM.self
  let h ← .lift (need .attributeError w.array)
  when (h.shape.getD 0 0 ≤ w.iTime) (growTime h)

/-- zarr_monitor.py:271-279 `_encode_time`: seconds since the first time. -/
def encodeTime (w : Writer) (t : ZTime) : Py Int :=
  match w.encoding with
  | none => .error .attributeError
  | some t0 => if t.calendar ≠ t0.calendar then .error .valueError else .ok (t.seconds - t0.seconds)

/-- zarr_monitor.py:291.  `enc` is the conversion of a number to an element of an array. -/
def writeTime (enc : Int → α) (junk : List Nat → α) (t : ZTime) : WM α Unit := do
  let w ← WM.self
  let h ← .lift (need .attributeError w.array)
  let n ← .lift (encodeTime w t)
  setSelection junk h [w.iTime] [] ⟨[], fun _ => enc n⟩

/-- zarr_monitor.py:281-293 `_ZarrTimeWriter.append`. -/
def appendTime (enc : Int → α) (junk : List Nat → α) (rank : Int) (t : ZTime) : WM α Unit := do
  let w ← WM.self
  when (w.array = none) (initTime rank t)
  when (rank = ROOT_RANK) extendTime
  syncArray rank
  when (rank = ROOT_RANK) (writeTime enc junk t)
  WM.update fun w => { w with iTime := w.iTime + 1 }
  let _ ← WM.coll .barrier

/-- An entry of a state. (zarr_monitor.py:103-113) -/
inductive Entry (α : Type) where
  | qty (q : Quantity α)
  | time (t : ZTime)

/-- A state: entries by name. (zarr_monitor.py:103-113) -/
abbrev State (α : Type) := Dict String (Entry α)

/-- zarr_monitor.py:43-70 `ZarrMonitor`: the writers by name, once there are any. -/
abbrev Monitor := Option (Dict String Writer)

/-- zarr_monitor.py:72-81 `_init_writers`. -/
def initWriters (s : State α) : Dict String Writer :=
  ((s.keys.filter (· ≠ "time")).map fun n => (n, ({ name := n } : Writer))) ++ [("time", { name := "time" })]

/-- zarr_monitor.py:83-101 `_check_writers`, `_ensure_writers_are_consistent`. -/
def ensureWriters (m : Monitor) (s : State α) : Py (Dict String Writer) :=
  match m with
  | none => .ok (initWriters s)
  | some ws =>
    if (s.keys.all fun k => ws.has k) = false then .error .valueError
    else if (ws.keys.all fun k => s.has k) = false then .error .valueError
    else .ok ws

/-- `self._writers[name].append(...)` (zarr_monitor.py:113, 161, 281). -/
def appendEntry (l : Layout) (enc : Int → α) (junk : List Nat → α) (rank : Int) (name : String) (e : Entry α) :
    WM α Unit :=
  if name = "time" then
    match e with
    | .time t => appendTime enc junk rank t
    | .qty _ => .lift (.error .attributeError)
  else
    match e with
    | .qty q => append l junk rank q
    | .time _ => .lift (.error .attributeError)

/-- The loop of zarr_monitor.py:112-113 over the sorted names; the writers as they are afterwards. -/
def storeLoop (l : Layout) (enc : Int → α) (junk : List Nat → α) (rank : Int) (s : State α) :
    List String → Dict String Writer → Prog α (Py Unit × Dict String Writer)
  | [], ws => .ret (.ok (), ws)
  | name :: names, ws =>
    match s.get? name, ws.get? name with
    | some e, some w =>
      (appendEntry l enc junk rank name e w).bind fun x =>
        match x.1 with
        | .ok _ => storeLoop l enc junk rank s names (ws.set name x.2)
        | .error err => .ret (.error err, ws.set name x.2)
    | _, _ => .ret (.error .keyError, ws)

/-- zarr_monitor.py:103-113 `store`. -/
def store (l : Layout) (enc : Int → α) (junk : List Nat → α) (rank : Int) (m : Monitor) (s : State α) :
    Prog α (Py Unit × Monitor) :=
  match ensureWriters m s with
  | .error e => .ret (.error e, m)
  | .ok ws =>
    (storeLoop l enc junk rank s (s.keys.mergeSort (fun a b => decide (a ≤ b))) ws).bind fun x => .ret (x.1, some x.2)

/-- Storing one state after the other, until an exception. (zarr_monitor.py:103-113) -/
def storeAll (l : Layout) (enc : Int → α) (junk : List Nat → α) (rank : Int) :
    Monitor → List (State α) → Prog α (Py Unit)
  | _, [] => .ret (.ok ())
  | m, s :: ss =>
    (store l enc junk rank m s).bind fun x =>
      match x.1 with
      | .ok _ => storeAll l enc junk rank x.2 ss
      | .error e => .ret (.error e)

end Zarr
end FV3
