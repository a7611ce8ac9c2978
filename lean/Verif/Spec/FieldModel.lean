import Verif.Model.FieldModel
import Verif.Spec.StateSession
import Verif.Spec.Driver
import Verif.Spec.Sync

/-!
# Fields on the cube, and what a model code knows of them
-/

namespace FV3
variable {α : Type}

/-- A field: its component at a point of the cube, with given indices on the other axes, along a direction in space (a
scalar field has the same value for all directions). -/
abbrev Fld (α : Type) := Vec3 → (Nat → Int) → Vec3 → α

/-- What a quantity is of a field. -/
inductive Comp where
  | scalar
  | x
  | y
  deriving DecidableEq

/-- The direction in space that belongs to a quantity, at the doubled coordinates `(a, b)` of tile `t`: the axes of the tile,
folded over the edges of the cube. -/
def Comp.dir (N t a b : Int) : Comp → Vec3
  | .scalar => ⟨0, 0, 0⟩
  | .x => foldEx N t a
  | .y => foldEy N t b

/-- The quantities of a field. -/
def Slot.comps (s : Slot) : List (Nat × Comp) :=
  match s.y with
  | none => [(s.x, .scalar)]
  | some y => [(s.x, .x), (y, .y)]

/-- How much of a quantity has been computed: nothing; the compute domain without the north edge of x-winds and the
east edge of y-winds; the compute domain; the compute domain and the halo. -/
inductive Level where
  | nothing
  | own
  | compute
  | halo
  deriving DecidableEq

/-- The points of a level. -/
def Level.Has (q : Quantity α) (c : Comp) (ky kx : Nat) (h : Int) (idx : List Nat) : Level → Prop
  | .nothing => False
  | .own => q.InCompute idx ∧ (c = .x → ¬ OnNorthEdge q ky idx) ∧ (c = .y → ¬ OnEastEdge q kx idx)
  | .compute => q.InCompute idx
  | .halo => HasValue q ky kx h idx

/-- The quantity `v` of rank `r` holds the values of the field `F` at the points of the level (not across the corners of the
cube). -/
def Holds (l : Layout) (n : Int) (r : Int) (v : Quantity α) (c : Comp) (ky kx : Nat) (h : Int) (lv : Level) (F : Fld α) :
    Prop :=
  ∀ idx t a b, AtTile l (fun _ _ => v) 0 ky kx n r idx t a b → lv.Has v c ky kx h idx → SingleCross (l.x * n) a b →
    v.data.get idx = F (foldPos (l.x * n) t a b) (v.otherPos ky kx idx) (c.dir (l.x * n) t a b)

/-- The fields of the model code, named by their first quantity. -/
abbrev Fields (α : Type) := Nat → Fld α

/-- Winds are vectors: the component along the opposite direction is the opposite. -/
def VectorsIn [Neg α] (slots : List Slot) (W : Fields α) : Prop :=
  ∀ s ∈ slots, s.y ≠ none → ∀ P o e, W s.x P o e.neg = -W s.x P o e

/-- The quantities `mem` of rank `r` hold the fields `W`, each at its level. -/
def HoldsAll (l : Layout) (n : Int) (slots : List Slot) (r : Int) (mem : Mem α) (K : Nat → Level) (W : Fields α) : Prop :=
  ∀ s ∈ slots, ∀ c ∈ s.comps, Holds l n r (mem c.1) c.2 s.ky s.kx s.h (K s.x) (W s.x)

/-- A step of the model code: an update of the halo of a field, a synchronisation of winds, or a computation `f` of each rank,
which is meant to be the operation `Φ` on fields; it uses fields at the levels `needs` and computes them at the levels
`gives`. -/
inductive MStep (α : Type) where
  | update (s : Slot)
  | sync (s : Slot)
  | compute (f : Int → Mem α → Mem α) (Φ : Fields α → Fields α) (needs gives : Nat → Level)

/-- The calls made. -/
def MStep.call : MStep α → Call α
  | .update s => s.update
  | .sync s => s.sync
  | .compute f _ _ _ => .compute f

/-- The level of field `i` is at least `lv` afterwards. -/
def raiseTo (K : Nat → Level) (i : Nat) (lv : Level) : Nat → Level := fun j => if j = i then lv else K j

/-- The levels after a step. -/
def MStep.after (K : Nat → Level) : MStep α → Nat → Level
  | .update s => raiseTo K s.x .halo
  | .sync s => raiseTo K s.x (if K s.x = .halo then .halo else .compute)
  | .compute _ _ _ gives => gives

/-- The level `a` has all the points of the level `b`. -/
def Level.AtLeast : Level → Level → Bool
  | _, .nothing => true
  | .nothing, _ => false
  | _, .own => true
  | .own, _ => false
  | _, .compute => true
  | .compute, _ => false
  | _, .halo => true

/-- The steps respect the levels: halos are updated when the compute domain is there, winds are synchronised when all but
the edges to be received is there, computations have what they need. -/
def MStep.Allowed (K : Nat → Level) : MStep α → Prop
  | .update s => (K s.x).AtLeast .compute
  | .sync s => (K s.x).AtLeast .own
  | .compute _ _ needs _ => ∀ i, (K i).AtLeast (needs i)

/-- All steps respect the levels, and the last levels are `K'`. -/
def Levels (K' : Nat → Level) : (Nat → Level) → List (MStep α) → Prop
  | K, [] => K' = K
  | K, a :: acts => a.Allowed K ∧ Levels K' (a.after K) acts

/-- The fields after the steps: only computations change fields. -/
def fieldsAfter : List (MStep α) → Fields α → Fields α
  | [], W => W
  | .compute _ Φ _ _ :: acts, W => fieldsAfter acts (Φ W)
  | _ :: acts, W => fieldsAfter acts W

/-- A computation is the operation on fields it is meant to be, on any rank, and keeps the metadata of quantities. -/
structure Computes [Neg α] (l : Layout) (n : Int) (slots : List Slot) (m : Int → Mem α) (f : Int → Mem α → Mem α)
    (Φ : Fields α → Fields α) (needs gives : Nat → Level) : Prop where
  same : ∀ r mem, MetaIs m r mem → MetaIs m r (f r mem)
  vectors : ∀ W, VectorsIn slots W → VectorsIn slots (Φ W)
  value : ∀ r ∈ allRanks l, ∀ mem W, MetaIs m r mem → VectorsIn slots W → HoldsAll l n slots r mem needs W →
    HoldsAll l n slots r (f r mem) gives (Φ W)

/-- A step is possible: the fields are fields of the model code, winds to be synchronised are on a C-grid with the horizontal
axes first, computations compute what they should. -/
def MStep.Good [Neg α] (l : Layout) (n : Int) (slots : List Slot) (m : Int → Mem α) : MStep α → Prop
  | .update s => s ∈ slots
  | .sync s => s ∈ slots ∧ ∀ y, s.y = some y → SyncField l m s.x y s.ky s.kx n
  | .compute f Φ needs gives => Computes l n slots m f Φ needs gives

/-- The quantities of the ranks are fields with `n × n` cells on each rank; no quantity belongs to two fields. -/
structure FieldsOf (l : Layout) (n : Int) (slots : List Slot) (m : Int → Mem α) : Prop where
  distinct : (slots.flatMap fun s => s.comps.map Prod.fst).Nodup
  halo : ∀ s ∈ slots, 0 < s.h ∧ s.h ≤ n
  field : ∀ s ∈ slots, match s.y with
    | none => ScalarField l m s.x s.ky s.kx n s.h
    | some y => VectorField l m s.x y s.ky s.kx n s.h

/-- The global quantity `g`, cut into the parts `p`, is a sample of the field `F`: at index `q` of tile `t` it is the
component along the axis of tile `t`. -/
def GlobalHolds (g : Quantity α) (p : Parts) (c : Comp) (ky kx : Nat) (N : Int) (F : Fld α) : Prop :=
  ∀ q P others, GlobalAt g p.dims ky kx N q P others → g.computeArr.get q = F P others (match c with
    | .scalar => ⟨0, 0, 0⟩
    | .x => (face (at' q 0)).ex
    | .y => (face (at' q 0)).ey)

/-- The state `vars` of a rank goes with a global state: names, quantities and global quantities are distinct, the quantities
are cut like the parts of the global quantities, and quantities of a field have `n × n` cells on each rank. -/
structure StateOf (l : Layout) (n : Int) (m : Int → Mem α) (parts : Nat → Parts) (slots : List Slot)
    (vars : List StateVar) : Prop where
  names : GoodNames vars
  quantities : (vars.map StateVar.q).Nodup
  globals : (vars.map StateVar.g).Nodup
  cut : ∀ v ∈ vars, HasParts l m v.q (parts v.g)
  cells : ∀ v ∈ vars, ∀ s ∈ slots, ∀ c, (v.q, c) ∈ s.comps →
    (parts v.g).cells.getD s.ky 0 = n ∧ (parts v.g).cells.getD s.kx 0 = n

/-- The variables `vars` of global quantities `G` are samples of the fields `W`. -/
def StateHolds (l : Layout) (n : Int) (parts : Nat → Parts) (slots : List Slot) (vars : List StateVar)
    (G : Nat → Option (Quantity α)) (W : Fields α) : Prop :=
  ∀ v ∈ vars, ∃ w, G v.g = some w ∧ w.GlobalShaped (.cube l) (parts v.g).dims (parts v.g).cells ∧
    ∀ s ∈ slots, ∀ c, (v.q, c) ∈ s.comps → GlobalHolds w (parts v.g) c s.ky s.kx (l.x * n) (W s.x)

/-- The levels after a state was scattered: the compute domains of fields all of whose quantities are in the state. -/
def LevelsFrom (slots : List Slot) (vars : List StateVar) (K : Nat → Level) : Prop :=
  ∀ s ∈ slots, K s.x = .nothing ∨ (K s.x = .compute ∧ ∀ c ∈ s.comps, ∃ v ∈ vars, v.q = c.1)

/-- The levels suffice to gather a state: the compute domains of its fields are there. -/
def LevelsFor (slots : List Slot) (vars : List StateVar) (K : Nat → Level) : Prop :=
  ∀ v ∈ vars, ∀ s ∈ slots, ∀ c, (v.q, c) ∈ s.comps → (K s.x).AtLeast .compute

/-- The calls of a run of the model code: scatter a state, make steps, gather a state. -/
def modelRun (i j j' : Nat) (inp out : List StateVar) (steps : List (MStep α)) : List (TOp α) :=
  .scatterState i j inp :: ((steps.map MStep.call).map fun c => .op (.call c)) ++ [.gatherState i j' out]

/-- The operations on fields of the computations, in order. -/
def operations : List (MStep α) → List (Fields α → Fields α)
  | [] => []
  | .compute _ Φ _ _ :: steps => Φ :: operations steps
  | _ :: steps => operations steps

/-- The parts `p` on layout `l` and `p'` on layout `l'` are parts of global quantities with the same axes and extents. -/
def SameGlobal (l l' : Layout) (p p' : Parts) : Prop :=
  p'.dims = p.dims ∧ ∃ e, (Comm.cube l).GlobalExtent p.dims p.cells e ∧ (Comm.cube l').GlobalExtent p'.dims p'.cells e

end FV3
