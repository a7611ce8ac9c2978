import Verif.Model.Guarded
import Verif.Spec.StateSession
import Verif.Spec.Errors

/-!
# Which calls are rejected
-/

namespace FV3
variable {α : Type} [Neg α]

/-- The call is rejected with the exception `e` on all ranks: no halo points are asked for (ValueError), or more than
the arrays hold (OutOfBoundsError), or the components are not on the C grid (ValueError). -/
def Rejected (l : Layout) (m : Int → Mem α) : Call α → PyErr → Prop
  | .haloUpdate q n, e => (n = 0 ∧ e = .valueError) ∨
      (0 < n ∧ e = .outOfBounds ∧ ∀ r ∈ allRanks l, (m r q).WF ∧
        ∃ ky kx, HAxes (m r q).dims ky kx ∧ ¬ HaloFits (m r q) ky kx n)
  | .vectorHaloUpdate x y n, e => (n = 0 ∧ e = .valueError) ∨
      (0 < n ∧ e = .outOfBounds ∧ ∀ r ∈ allRanks l, (m r x).WF ∧ (m r y).WF ∧ (m r y).ndim = (m r x).ndim ∧
        ∃ ky kx, HAxes (m r x).dims ky kx ∧ HAxes (m r y).dims ky kx ∧
          ¬ (HaloFits (m r x) ky kx n ∧ HaloFits (m r y) ky kx n))
  | .synchronize x y, e => e = .valueError ∧ ∀ r ∈ allRanks l,
      ¬ (.x ∈ (m r x).dims ∧ .yI ∈ (m r x).dims ∧ .y ∈ (m r y).dims ∧ .xI ∈ (m r y).dims)
  | .compute _, _ => False

/-- The calls that are not attempts are valid; each attempt is valid (outcome `none`) or rejected (outcome
`some e`). -/
def GuardedValid (l : Layout) (m : Int → Mem α) (parts : Nat → Parts) :
    List Nat → List (GOp α) → List (Option PyErr) → Prop
  | _, [], outs => outs = []
  | filled, .plain o :: ops, outs => o.Valid l m parts filled ∧
      GuardedValid l m parts (match o with
        | .op (.gather _ g) => g :: filled
        | .gatherState _ _ vars => vars.map StateVar.g ++ filled
        | _ => filled) ops outs
  | filled, .attempt c :: ops, none :: outs => (TOp.op (.call c)).Valid l m parts filled ∧
      GuardedValid l m parts filled ops outs
  | filled, .attempt c :: ops, some e :: outs => Rejected l m c e ∧ GuardedValid l m parts filled ops outs
  | _, .attempt _ :: _, [] => False

/-- The program without the attempts that raise. -/
def accepted : List (GOp α) → List (Option PyErr) → List (TOp α)
  | .plain o :: ops, outs => o :: accepted ops outs
  | .attempt c :: ops, none :: outs => .op (.call c) :: accepted ops outs
  | .attempt _ :: ops, _ :: outs => accepted ops outs
  | _, _ => []

end FV3
