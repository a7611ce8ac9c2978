import Verif.Proofs.HeapLate
import Verif.Props.HeapComm
import Verif.Props.LateSend

/-!
# C82: sends of quantities in memory which are read late

`_Isend` (communicator.py:637-646) passes the memory of a quantity to MPI without a copy.  This memory may be that of other
variables too, and MPI may read it at any time until the send is complete.
-/

namespace FV3
namespace Heap
open Mem (World Gt4py Reachable)
open Strided
variable {α : Type} [Inhabited α] [Neg α] {g : Gt4py} {l : Layout}

/-- **C82**: quantities are objects which may share memory with others, and the network reads each element of what is sent,
in the memory of the sender, at a time of its own choice.  Every execution of a sequence of blocking calls and programs on
memory ends, with all ranks finished, and memory is then as after one call after the other (`HRun`, which knows neither
messages nor schedules).  The quantities of a call need to fit when it is made, as for C80. -/
theorem C82_session {W : Int → World α} {calls : List (HCall α)} (hx : 0 < l.x) (hsq : l.y = l.x)
    (hW : ∀ r ∈ allRanks l, Reachable g (W r))
    (hr : ∀ (pre : List (HCall α)) c post, calls = pre ++ c :: post → ∀ op, c.start = some op → ∀ W1, HRun g l pre W W1 →
      (∀ r ∈ allRanks l, Usable (W1 r) op.qs) ∧ UpdateReady l (fun r => quantities (W1 r)) op) (buf : Buffering) :
    ∃ W' : Int → World α, HRun g l calls W W' ∧
      (Lazy.callNet g l calls W).Ends buf
        (fun r => (.ok (), ⟨if r ∈ allRanks l then (calls.map HCall.nTags).sum else 0, []⟩)) W' := by
  have hw : ∀ r ∈ allRanks l, WF g (W r) := fun r h => (hW r h).spec
  have G := session_fits hx hsq hW hr
  obtain ⟨W', h1, -, h3⟩ := session_good hx hsq hw G buf
  refine ⟨W', h1, Late.late_ends (fin := hfin) (ranks := allRanks l) hfin_inj (fun r h => ⟨_, if_neg h⟩) ?_ ?_⟩
  · intro r
    by_cases h : r ∈ allRanks l
    · simp only [if_pos h]
      exact Late.SafeP.mono (safe_calls hx hsq h (sk := fun r => skel (W r)) (fun mem => (hw r h).mem mem) G rfl ⟨0, []⟩)
        fun _ _ _ _ => trivial
    · simp only [if_neg h]
      trivial
  · have e : callNet g l calls W = Net.start fun r => Late.eager hfin
        (if r ∈ allRanks l then Lazy.execCalls g l r calls ⟨0, []⟩ else .ret (.ok (), ⟨0, []⟩)) (W r) := by
      unfold callNet
      congr 1
      funext r
      by_cases h : r ∈ allRanks l
      · simp only [if_pos h]
        rw [← toHM_execCalls]
        rfl
      · simp only [if_neg h]
        rfl
    rw [e] at h3
    exact h3

/-- **C82** for one halo update: whenever the elements are read, every execution ends with the halo of the quantity filled with
the values which their owners had at the beginning, and with nothing in memory changed but the cells of that halo. -/
theorem C82_halo {W : Int → World α} {h ky kx : Nat} {n w : Int} (hx : 0 < l.x) (hsq : l.y = l.x) (hh : 0 < w) (hn : w ≤ n)
    (hW : ∀ r ∈ allRanks l, Reachable g (W r)) (hU : ∀ r ∈ allRanks l, Usable (W r) [h])
    (S : ScalarField l (fun r => quantities (W r)) h ky kx n w) (buf : Buffering) :
    ∃ W' : Int → World α,
      ((Lazy.callNet g l [.haloUpdate h w] W).Ends buf (fun r => (.ok (), ⟨if r ∈ allRanks l then 1 else 0, []⟩)) W') ∧
      HaloFilled l h ky kx n w (fun r => quantities (W r)) (fun r => quantities (W' r)) ∧
      ∀ r ∈ allRanks l, OnlyCells (HaloCells l W h ky kx n w r) (W r) (W' r) := by
  obtain ⟨W', ⟨W1, h1, h2⟩, h3⟩ := C82_session (g := g) (calls := [.haloUpdate h w]) hx hsq hW
    (fun pre c post e op ho V hV => by
      cases pre with
      | nil =>
        cases e
        cases ho
        refine ⟨fun r hr => by rw [hV r hr]; exact hU r hr, updateReady_same (m := fun r => quantities (W r)) ⟨ky, kx, n, hh, hn, S⟩ fun r hr q _ => ?_⟩
        rw [hV r hr]
        exact SameMeta.refl _
      | cons d pre => cases pre <;> cases e) buf
  obtain ⟨k1, k2⟩ := commStep_halo hx hsq hh hn S h1
  refine ⟨W', h3, fun r idx t a b hat hin hsc => ?_, fun r hr => ?_⟩
  · obtain ⟨r', src, o1, o2⟩ := k1 r idx t a b hat hin hsc
    refine ⟨r', src, o1, ?_⟩
    dsimp only
    rw [h2 r hat.rank]
    exact o2
  · rw [h2 r hr]
    exact k2 r hr

end Heap
end FV3
