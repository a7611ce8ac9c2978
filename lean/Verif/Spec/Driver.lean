import Verif.Spec.Collective
import Verif.Spec.HaloResult
import Verif.Model.Driver

/-!
# Points of a global quantity on the cube
-/

namespace FV3
variable {α : Type}

/-- `p` is an index of the compute domain of the global quantity `g` (first the tile, then one index for each of
`dims`), at the point `P` of the surface of the cube with `N` cells along an edge; `others` are the indices on the
axes that are not horizontal. -/
structure GlobalAt (g : Quantity α) (dims : List Dim) (ky kx : Nat) (N : Int) (p : List Nat) (P : Vec3)
    (others : Nat → Int) : Prop where
  index : InB g.computeArr.shape p
  other : ∀ k, others k = if k < dims.length ∧ k ≠ ky ∧ k ≠ kx then at' p (k + 1) else 0
  point : pos N (at' p 0) (2 * at' p (kx + 1) + 1 - overlapOf (dims.getD kx .x))
    (2 * at' p (ky + 1) + 1 - overlapOf (dims.getD ky .x)) = P

/-- A model run on layout `l` with `n × n` cells on each rank: quantity `q` of the ranks (`mem r q` on rank `r`) is one
field with at least `h ≤ n` points of halo, and the compute domain of the global quantity `g` is the compute domains
of the ranks put together. -/
structure RunSetup (l : Layout) (dims : List Dim) (cells : List Int) (ky kx : Nat) (n h : Int) (g : Quantity α)
    (mem : Int → Mem α) (q : Nat) : Prop where
  safe : FloatSafe l
  square : l.y = l.x
  halo : 0 < h
  enough : h ≤ n
  axes : HAxes dims ky kx
  cellsY : cells.getD ky 0 = n
  cellsX : cells.getD kx 0 = n
  globl : g.GlobalShaped (.cube l) dims cells
  field : ScalarField l mem q ky kx n h
  names : ∀ r ∈ allRanks l, (mem r q).dims = dims
  shaped : ∀ r ∈ allRanks l, (mem r q).RankShaped dims cells

/-- A call of a model run that updates the halo of quantity `q` by at most `h` points, or computes without changing
the metadata of quantities (`m` has the quantities with their metadata). -/
def UpdateOrCompute (m : Int → Mem α) (q : Nat) (h : Int) : Call α → Prop
  | .haloUpdate q' d => q' = q ∧ 0 < d ∧ d ≤ h
  | .compute f => ∀ r mem, MetaIs m r mem → MetaIs m r (f r mem)
  | _ => False

/-- The global quantity `g` is a sample of the field `F` on the surface of the cube. -/
def GlobalSample (g : Quantity α) (dims : List Dim) (ky kx : Nat) (N : Int) (F : Vec3 → (Nat → Int) → α) : Prop :=
  ∀ p P others, GlobalAt g dims ky kx N p P others → g.computeArr.get p = F P others

/-- The compute domain of the quantity `v` of rank `r` is a sample of `F`. -/
def RankSample (l : Layout) (r : Int) (v : Quantity α) (ky kx : Nat) (n : Int) (F : Vec3 → (Nat → Int) → α) : Prop :=
  ∀ idx t a b, AtTile l (fun _ _ => v) 0 ky kx n r idx t a b → v.InCompute idx →
    v.data.get idx = F (pos (l.x * n) t a b) (v.otherPos ky kx idx)

/-- The quantity `v` of rank `r` holds values of `F`, in its compute domain and in `h` points of halo (not across
the corners of the cube). -/
def RankHolds (l : Layout) (r : Int) (v : Quantity α) (ky kx : Nat) (n h : Int) (F : Vec3 → (Nat → Int) → α) : Prop :=
  ∀ idx t a b, AtTile l (fun _ _ => v) 0 ky kx n r idx t a b → HasValue v ky kx h idx → SingleCross (l.x * n) a b →
    v.data.get idx = F (foldPos (l.x * n) t a b) (v.otherPos ky kx idx)

/-- The computation `f` of the ranks is the operation `Φ` on fields: given values of a field `F` in the compute
domain and `h` points of halo, a rank gets the values of `Φ F` in its compute domain. -/
structure Stencil (l : Layout) (m : Int → Mem α) (q ky kx : Nat) (n h : Int) (f : Int → Mem α → Mem α)
    (Φ : (Vec3 → (Nat → Int) → α) → Vec3 → (Nat → Int) → α) : Prop where
  same : ∀ r mem, MetaIs m r mem → MetaIs m r (f r mem)
  value : ∀ r ∈ allRanks l, ∀ mem F, MetaIs m r mem → RankHolds l r (mem q) ky kx n h F →
    RankSample l r (f r mem q) ky kx n (Φ F)

/-- `k` time steps: update the halo of `q`, compute. -/
def timeSteps (q : Nat) (h : Int) (f : Int → Mem α → Mem α) : Nat → List (Call α)
  | 0 => []
  | k + 1 => .haloUpdate q h :: .compute f :: timeSteps q h f k

/-- `Φ` applied `k` times. -/
def timesField (Φ : (Vec3 → (Nat → Int) → α) → Vec3 → (Nat → Int) → α) :
    Nat → (Vec3 → (Nat → Int) → α) → Vec3 → (Nat → Int) → α
  | 0, F => F
  | k + 1, F => timesField Φ k (Φ F)

end FV3
