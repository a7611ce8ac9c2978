import Verif.Model.Session

/-!
# Sessions with states

Calls of one communicator as in `Verif.Model.Session`, and calls of `scatter_state` and `gather_state` among them.
-/

namespace FV3
variable {α : Type}

/-- An entry of a state: variable `name` is quantity `q` of each rank, and global quantity `g` of root.
(communicator.py:207-283) -/
structure StateVar where
  name : String
  q : Nat
  g : Nat

/-- A call of a session with states. (communicator.py:81-283, 378-510) -/
inductive TOp (α : Type) where
  /-- communicator.py:81-205, 378-510, or a computation -/
  | op (o : SOp α)
  /-- communicator.py:237-283 `scatter_state(global state j, recv_state=state i of the rank)` -/
  | scatterState (i j : Nat) (vars : List StateVar)
  /-- communicator.py:207-235 `gather_state(state i of the rank, recv_state=global state j)` -/
  | gatherState (i j : Nat) (vars : List StateVar)

/-- State of a rank: as in a session without states, and the entries "time" of the rank's states and of its global states
(those of root matter).  The states are numbered. (communicator.py:207-283) -/
structure SessState (α : Type) where
  s : SState α
  time : Nat → Option Int
  gtime : Nat → Option Int

/-- The entry "time" of a state, if there is one. (communicator.py:223, 263) -/
def timeEntry (t : Option Int) : CState α :=
  match t with
  | some t => [("time", .time t)]
  | none => []

/-- A rank's state as a dictionary. (communicator.py:207-283, the arguments) -/
def SessState.rankDict (i : Nat) (vars : List StateVar) (s : SessState α) : CState α :=
  (vars.map fun v => (v.name, SVal.qty (s.s.mem v.q))) ++ timeEntry (s.time i)

/-- The global state as a dictionary; it has the global quantities that exist. (communicator.py:207-283, the
arguments) -/
def SessState.globDict (j : Nat) (vars : List StateVar) (s : SessState α) : CState α :=
  (vars.filterMap fun v => (s.s.glob v.g).map fun w => (v.name, SVal.qty w)) ++ timeEntry (s.gtime j)

/-- The quantity of that name. (communicator.py:222-234, 257-272: objects of the dictionaries) -/
def qtyOf (d : CState α) (name : String) : Option (Quantity α) :=
  match d.get? name with
  | some (.qty q) => some q
  | _ => none

/-- The time in a dictionary. (communicator.py:222-226, 262-264) -/
def timeIn (d : CState α) : Option Int :=
  match d.get? "time" with
  | some (.time t) => some t
  | _ => none

/-- The quantities of the rank after `scatter_state` returned the dictionary `d`.  (communicator.py:257-272: they are
modified in place; here they are replaced.) -/
def putVars (d : CState α) : List StateVar → Mem α → Mem α
  | [], m => m
  | v :: vars, m => putVars d vars (match qtyOf d v.name with | some p => m.put v.q p | none => m)

/-- The global quantities after `gather_state` returned the dictionary `d`. (communicator.py:222-234) -/
def putGlobs (d : CState α) : List StateVar → (Nat → Option (Quantity α)) → Nat → Option (Quantity α)
  | [], G => G
  | v :: vars, G => putGlobs d vars (match qtyOf d v.name with
    | some p => fun g => if g = v.g then some p else G g
    | none => G)

/-- The entry "time" of state `i` is now `t`. (communicator.py:225, 262-264) -/
def putTime (times : Nat → Option Int) (i : Nat) (t : Option Int) : Nat → Option Int :=
  fun i' => if i' = i then t else times i'

/-- One call of rank `r`. (communicator.py:81-283, 378-510) -/
def TOp.exec [Neg α] (l : Layout) (junk : Nat → List Nat → α) (r : Int) :
    TOp α → SessState α → Proc (Msg α) (Py (SessState α))
  | .op o, s => (o.exec l junk r s.s).bind fun x =>
    match x with
    | .error e => .ret (.error e)
    | .ok s' => .ret (.ok { s with s := s' })
  | .scatterState i j vars, s =>
    (FV3.scatterState (.cube l) (junk s.s.coll) r (some (s.globDict j vars)) (some (s.rankDict i vars)) s.s.coll).bind fun x =>
    match x.1 with
    | .error e => .ret (.error e)
    | .ok d => .ret (.ok { s with s := { s.s with mem := putVars d vars s.s.mem, coll := x.2 }, time := putTime s.time i (timeIn d) })
  | .gatherState i j vars, s =>
    (FV3.gatherState (.cube l) (junk s.s.coll) r (s.rankDict i vars) (some (s.globDict j vars)) s.s.coll).bind fun x =>
    match x.1 with
    | .error e => .ret (.error e)
    | .ok none => .ret (.ok { s with s := { s.s with coll := x.2 } })
    | .ok (some d) =>
      .ret (.ok { s with s := { s.s with glob := putGlobs d vars s.s.glob, coll := x.2 }, gtime := putTime s.gtime j (timeIn d) })

/-- A sequence of calls; an exception ends it. (communicator.py:81-283, 378-510) -/
def execStates [Neg α] (l : Layout) (junk : Nat → List Nat → α) (r : Int) :
    List (TOp α) → SessState α → Proc (Msg α) (Py (SessState α))
  | [], s => .ret (.ok s)
  | op :: ops, s => (op.exec l junk r s).bind fun x =>
    match x with
    | .error e => .ret (.error e)
    | .ok s' => execStates l junk r ops s'

/-- All ranks make the same calls, with new communicators. (communicator.py:81-283, 378-510) -/
def statesNet [Neg α] (l : Layout) (junk : Nat → List Nat → α) (ops : List (TOp α)) (mem : Int → Mem α)
    (glob : Int → Nat → Option (Quantity α)) (time gtime : Int → Nat → Option Int) :
    Net (Msg α) (Option (Py (SessState α))) :=
  Net.start fun r =>
    if r ∈ allRanks l then
      (execStates l junk r ops ⟨⟨mem r, glob r, 0, 0⟩, time r, gtime r⟩).bind fun x => .ret (some x)
    else .ret none

end FV3
