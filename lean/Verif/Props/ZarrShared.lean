import Verif.Props.ZarrErrors

/-!
# C40 Variables without horizontal dimensions
-/

namespace FV3
namespace Zarr
variable {α R : Type}

/-- The first rank of `order` which can do a step does it, again and again. -/
def World.greedyBy (order : List Int) (buf : Nat → Bool) (ranks : List Int) : Nat → World α R → World α R
  | 0, W => W
  | n + 1, W =>
    match order.findSome? fun r => W.step buf ranks r with
    | none => W
    | some W' => World.greedyBy order buf ranks n W'

theorem greedyBy_run (order : List Int) (buf : Nat → Bool) (ranks : List Int) : ∀ (n : Nat) (W : World α R),
    ∃ sched, W.run buf ranks sched = some (W.greedyBy order buf ranks n)
  | 0, W => ⟨[], rfl⟩
  | n + 1, W => by
    rw [World.greedyBy]
    cases h : order.findSome? fun r => W.step buf ranks r with
    | none => exact ⟨[], rfl⟩
    | some W' =>
      obtain ⟨r, -, hr⟩ := List.exists_of_findSome?_eq_some h
      obtain ⟨sched, hs⟩ := greedyBy_run order buf ranks n W'
      exact ⟨r :: sched, by rw [World.run, hr]; exact hs⟩

/-- A profile with one level; its value is the number of the rank. -/
def exProfile (r : Int) : State Nat :=
  [("a", .qty { data := ⟨[1], fun _ => r.toNat⟩, dims := [.z], units := "m", origin := [0], extent := [1] }),
    ("time", .time (exTime 0))]

theorem exProfile_sorted (r : Int) : (exProfile r).keys.Pairwise fun a b => decide (a ≤ b) = true := by
  show ["a", "time"].Pairwise _
  decide

/-- Every rank stores its profile. -/
def exProfiles (r : Int) : Prog Nat (Py Unit) :=
  (store ⟨2, 2⟩ Int.toNat (fun _ => 0) r none (exProfile r)).bind fun x => .ret x.1

def exProfiles' (r : Int) : Prog Nat (Py Unit) :=
  (storeSorted ⟨2, 2⟩ Int.toNat (fun _ => 0) r none (exProfile r)).bind fun x => .ret x.1

theorem exProfiles_eq : exProfiles = exProfiles' := by
  funext r
  unfold exProfiles exProfiles'
  rw [store_sorted _ _ _ _ _ _ (exProfile_sorted _)]

def exProfilesEnd (order : List Int) : World Nat (Py Unit) :=
  (World.start exProfiles' Store.empty).greedyBy order (fun _ => true) (Comm.cube ⟨2, 2⟩).ranks 700

def exUp : List Int := (Comm.cube ⟨2, 2⟩).ranks
def exDown : List Int := (Comm.cube ⟨2, 2⟩).ranks.reverse

set_option maxHeartbeats 4000000 in
/-- **C40**, limit: a variable without x- or y-dimension.  The ranks of a tile all write to the same chunk, and which
value is stored depends on the schedule: twice all ranks store their states and return, and of the value for the
first tile once that of rank 3 and once that of rank 0 is left. -/
theorem C40_limit_shared : ∃ sched sched' A A',
    (World.start exProfiles Store.empty).run (fun _ => true) (Comm.cube ⟨2, 2⟩).ranks sched = some A ∧
    (World.start exProfiles Store.empty).run (fun _ => true) (Comm.cube ⟨2, 2⟩).ranks sched' = some A' ∧
    (∀ r ∈ (Comm.cube ⟨2, 2⟩).ranks, A.procs r = .ret (.ok ()) ∧ A'.procs r = .ret (.ok ())) ∧
    A.store.read "a" [0, 0, 0] = some 3 ∧ A'.store.read "a" [0, 0, 0] = some 0 := by
  rw [exProfiles_eq]
  obtain ⟨sched, hs⟩ := greedyBy_run exUp (fun _ => true) (Comm.cube ⟨2, 2⟩).ranks 700 (World.start exProfiles' Store.empty)
  obtain ⟨sched', hs'⟩ := greedyBy_run exDown (fun _ => true) (Comm.cube ⟨2, 2⟩).ranks 700 (World.start exProfiles' Store.empty)
  refine ⟨sched, sched', exProfilesEnd exUp, exProfilesEnd exDown, hs, hs', ?_, ?_, ?_⟩
  · have h1 : ∀ r ∈ (Comm.cube ⟨2, 2⟩).ranks, ((exProfilesEnd exUp).procs r).result? = some (.ok ()) := by decide +kernel
    have h2 : ∀ r ∈ (Comm.cube ⟨2, 2⟩).ranks, ((exProfilesEnd exDown).procs r).result? = some (.ok ()) := by decide +kernel
    exact fun r hr => ⟨Prog.result?_eq (h1 r hr), Prog.result?_eq (h2 r hr)⟩
  · decide +kernel
  · decide +kernel

end Zarr
end FV3
