import Verif.Model.LooseFull
import Verif.Props.LooseMpi
import Verif.Props.FullSession

/-!
# C71 for complete sessions
-/

namespace FV3
variable {α : Type} [Neg α]

theorem Loose.execFOp_agree (left : List Nat → α) (l : Layout) (junk tjunk : Nat → List Nat → α) (r : Int) (o : FOp α)
    (s : FState α) : (o.exec l junk tjunk r s).Agree Loose.ErrP (Loose.execFOp left l junk tjunk r o s) := by
  cases o with
  | op o => exact Loose.agree_then (Loose.execOp_agree left l r o _) fun e _ => ⟨_, rfl, e, rfl⟩
  | coll o =>
    refine (Loose.execColl_agree left (.cube l) junk r o s.lazy.s.base).bind ?_ fun x _ => Proc.Agree.refl _ _
    rintro x ⟨e, rfl⟩
    exact ⟨_, rfl, e, rfl⟩
  | tiles o =>
    refine (Loose.execUOp_agree left l junk tjunk r (.tiles o) s.lazy).bind ?_ fun x _ => Proc.Agree.refl _ _
    rintro x ⟨e, rfl⟩
    exact ⟨_, rfl, e, rfl⟩

theorem Loose.execFull_agree (left : List Nat → α) (l : Layout) (junk tjunk : Nat → List Nat → α) (r : Int)
    (ops : List (FOp α)) (s : FState α) :
    (FV3.execFull l junk tjunk r ops s).Agree Loose.ErrP (Loose.execFull left l junk tjunk r ops s) := by
  induction ops generalizing s with
  | nil => exact Proc.Agree.refl _ _
  | cons o ops ih =>
    refine (Loose.execFOp_agree left l junk tjunk r o s).bind ?_ ?_
    · rintro x ⟨e, rfl⟩
      exact ⟨_, rfl, e, rfl⟩
    · intro x hx
      cases x with
      | error e => exact absurd ⟨e, rfl⟩ hx
      | ok s' => exact ih s'

/-- **C71** for complete sessions (C75): updates started and waited for in separate calls, collective calls of the
cubed-sphere communicator and of its tile communicators, also while updates are outstanding.  Also if MPI checks nothing
of a message but that it is not longer than the receive buffer, and whatever is in the receive buffers, the session ends
on all ranks and has the effect of performing the calls one after the other. -/
theorem C71_full {l : Layout} (hl : FloatSafe l) (hsq : l.y = l.x) (buf : Buffering) (junk tjunk : Nat → List Nat → α)
    (left : Int → List Nat → α)
    (mem : Int → Mem α) (glob : Int → Nat → Option (Quantity α)) (time gtime : Int → Nat → Option Int)
    (tglob : Int → Nat → Option (Quantity α)) (tgtime : Int → Nat → Option Int)
    (parts : Nat → Parts) (tparts : Int → Nat → Parts) (filled : List Nat) (tfilled : Int → List Nat)
    (hglob : ∀ g v, glob 0 g = some v → v.GlobalShaped (.cube l) (parts g).dims (parts g).cells)
    (hfilled : ∀ g ∈ filled, ∃ v, glob 0 g = some v)
    (htglob : ∀ t, 0 ≤ t → t < 6 → ∀ g v, tglob (t * l.tileRanks) g = some v →
      v.GlobalShaped (.tile l) (tparts t g).dims (tparts t g).cells)
    (htfilled : ∀ t, 0 ≤ t → t < 6 → ∀ g ∈ tfilled t, ∃ v, tglob (t * l.tileRanks) g = some v)
    (ops : List (FOp α)) (hops : FullValid l mem parts tparts filled tfilled ops) :
    ∃ (fin : Int → FState α) (started : Pending α),
      (Loose.fullNet left l junk tjunk ops mem glob time gtime tglob tgtime).Completes buf (fun r =>
        if r ∈ allRanks l then some (.ok (fin r)) else none) ∧
      FullRun l parts tparts ops (.new l mem glob time gtime tglob tgtime) (.ofStates l fin started) ∧
      ∀ r ∈ allRanks l, MetaIs mem r (fin r).comm.mem := by
  obtain ⟨fin, started, h1, h2⟩ := C75_full hl hsq buf junk tjunk mem glob time gtime tglob tgtime parts tparts filled
    tfilled hglob hfilled htglob htfilled ops hops
  refine ⟨fin, started, h1.agree (bad := Loose.ErrO) (fun r => ?_)
    (Loose.start_agree _ fun r => Loose.execFull_agree (left r) l junk tjunk r ops _), h2⟩
  split
  · rintro ⟨e, he⟩
    cases he
  · rintro ⟨e, he⟩
    cases he

/-- The session of the example of C75, with any contents of the receive buffers. -/
example (buf : Buffering) (z : α) (F : Int → Nat → List Nat → α) (left : Int → List Nat → α) :
    ∃ fin : Int → FState α,
      (Loose.fullNet left ⟨2, 2⟩ (fun _ _ => z) (fun _ _ => z) ([] ++ .op (.halo 0 1) :: exFullBetween ++ [.op (.wait 0)])
        (exAnyMem z F) (fun _ _ => none) (fun _ _ => none) (fun _ _ => none) (fun _ _ => none)
        (fun _ _ => none)).Completes buf (fun r => if r ∈ allRanks ⟨2, 2⟩ then some (.ok (fin r)) else none) := by
  obtain ⟨fin, -, h1, -⟩ := C71_full (C05_safe_up_to_48 ⟨2, 2⟩ (by decide) (by decide) (by decide) (by decide)) rfl buf
    (fun _ _ => z) (fun _ _ => z) left (exAnyMem z F) (fun _ _ => none)
    (fun _ _ => none) (fun _ _ => none) (fun _ _ => none) (fun _ _ => none) exParts
    (fun _ => exParts) [] (fun _ => []) (fun _ _ h => by cases h) (fun _ h => by cases h) (fun _ _ _ _ _ h => by cases h)
    (fun _ _ _ _ h => by cases h) _ (exFull_valid z F)
  exact ⟨fin, h1⟩

end FV3
