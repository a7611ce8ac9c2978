import Verif.Props.HeapStates
import Verif.Props.HeapMixedOne

/-!
# C87: programs with states on memory have one outcome
-/

namespace FV3
namespace Heap
open Mem (World Gt4py Reachable)
variable {α : Type} [Inhabited α] {g : Gt4py} {l : Layout}

/-- Only the quantities of the ranks of the communicator matter. -/
theorem scatter_same {c : Comm} {send : Nat} {recv recv' : Int → Nat} {W W1 : Int → World α} (e : ∀ r ∈ c.ranks, recv r = recv' r)
    (h : CStep g c (.scatter send recv) W W1) : CStep g c (.scatter send recv') W W1 := by
  obtain ⟨dims, cells, ⟨h1, h2, h3⟩, h4⟩ := h
  refine ⟨dims, cells, ⟨h1, h2, fun r hr => ?_⟩, fun r hr => ?_⟩
  · rw [← e r hr]
    exact h3 r hr
  · rw [← e r hr]
    exact h4 r hr

theorem gather_same {c : Comm} {send send' : Int → Nat} {recv : Nat} {W W1 : Int → World α} (h0 : 0 ∈ c.ranks)
    (e : ∀ r ∈ c.ranks, send r = send' r) (h : CStep g c (.gather send recv) W W1) : CStep g c (.gather send' recv) W W1 := by
  obtain ⟨⟨dims, cells, ⟨h1, h2, h3, h4⟩, h5⟩, h6⟩ := h
  refine ⟨⟨dims, cells, ⟨h1, h2, h3, fun r hr => ?_⟩, fun p hp => ?_⟩, h6⟩
  · rw [← e r hr]
    exact h4 r hr
  · obtain ⟨r, rel, x1, x2, x3⟩ := h5 p hp
    dsimp only at x1 x3 ⊢
    rw [e 0 h0] at x1
    rw [e r x1.1] at x3
    exact ⟨r, rel, x1, x2, x3⟩

theorem names_one (hl : FloatSafe l) {ns : List String} {f f' : String → CCall α} {A A1 B B1 : Int → World α}
    (he : ∀ v ∈ ns, ∀ W W1 : Int → World α, CStep g (.cube l) (f' v) W W1 → CStep g (.cube l) (f v) W W1)
    (h : ∀ r ∈ (Comm.cube l).ranks, A r = B r) (ha : CRun g (.cube l) (ns.map f) A A1) (hb : CRun g (.cube l) (ns.map f') B B1) :
    ∀ r ∈ (Comm.cube l).ranks, A1 r = B1 r := by
  induction ns generalizing A B with
  | nil =>
    intro r hr
    rw [ha r hr, hb r hr, h r hr]
  | cons v ns ih =>
    obtain ⟨A2, a1, a2⟩ := ha
    obtain ⟨B2, b1, b2⟩ := hb
    exact ih (fun w hw => he w (List.mem_cons_of_mem _ hw)) (coll_one hl h a1 (he v List.mem_cons_self _ _ b1)) a2 b2

variable [Neg α]

theorem state_one (hl : FloatSafe l) {x : SCall α} {A A1 B B1 : Int → World α} {D D1 E E1 : Int → Nat → HDict}
    (h : ∀ r ∈ allRanks l, A r = B r ∧ D r = E r) (ha : SStep g l x A D A1 D1) (hb : SStep g l x B E B1 E1) :
    ∀ r ∈ allRanks l, A1 r = B1 r ∧ D1 r = E1 r := by
  have h0 := zero_rank hl
  have hw : ∀ r ∈ (Comm.cube l).ranks, A r = B r := fun r hr => (h r ((cube_ranks l r).1 hr)).1
  have hd : ∀ r ∈ (Comm.cube l).ranks, D r = E r := fun r hr => (h r ((cube_ranks l r).1 hr)).2
  have key : ∀ v (ks : List String), v ∈ ks.filter (fun k => decide (k ≠ "time")) → v ∈ ks ∧ v ≠ "time" := fun v ks hv => by
    simpa using List.mem_filter.1 hv
  cases x with
  | comm x =>
    intro r hr
    refine ⟨mixed_one hl (calls := [x]) (fun r hr => (h r hr).1) ⟨A1, ha.1, fun _ _ => rfl⟩ ⟨B1, hb.1, fun _ _ => rfl⟩ r hr, ?_⟩
    rw [ha.2 r hr, hb.2 r hr, (h r hr).2]
  | scatterState a b =>
    obtain ⟨⟨sv, rv, fa, ra⟩, da⟩ := ha
    obtain ⟨⟨sv', rv', fb, rb⟩, db⟩ := hb
    intro r hr
    refine ⟨?_, funext fun k => ?_⟩
    · rw [hd 0 h0] at ra
      refine names_one hl (fun v hv W W1 st => ?_) hw ra rb r ((cube_ranks l r).2 hr)
      obtain ⟨k1, k2⟩ := key v _ hv
      have e1 := fa.send v (by rw [hd 0 h0]; exact k1) k2
      rw [hd 0 h0, fb.send v k1 k2] at e1
      have e1 : sv' v = sv v := by simpa using e1
      rw [← e1]
      refine scatter_same (fun r hr => ?_) st
      have e2 := fa.recv v (by rw [hd 0 h0]; exact k1) k2 r hr
      rw [hd r hr, fb.recv v k1 k2 r hr] at e2
      simpa using e2
    · rw [da r hr k, db r hr k, (h r hr).2, hd 0 h0]
  | gatherState a b =>
    obtain ⟨⟨pv, gv, fa, ra⟩, da⟩ := ha
    obtain ⟨⟨pv', gv', fb, rb⟩, db⟩ := hb
    intro r hr
    refine ⟨?_, funext fun k => ?_⟩
    · rw [hd 0 h0] at ra
      refine names_one hl (fun v hv W W1 st => ?_) hw ra rb r ((cube_ranks l r).2 hr)
      obtain ⟨k1, k2⟩ := key v _ hv
      have k1' : v ∈ (D 0 a).keys := by rw [hd 0 h0]; exact k1
      have e1 := fa.recv v k1' k2
      rw [hd 0 h0, fb.recv v k1 k2] at e1
      have e1 : gv' v = gv v := by simpa using e1
      rw [← e1]
      refine gather_same h0 (fun r hr => ?_) st
      have e2 := fa.send v k1' k2 r hr
      rw [hd r hr, fb.send v k1 k2 r hr] at e2
      simpa using e2
    · rw [da r hr k, db r hr k, (h r hr).2, hd 0 h0]

theorem states_one (hl : FloatSafe l) {calls : List (SCall α)} {A A1 B B1 : Int → World α} {D D1 E E1 : Int → Nat → HDict}
    (h : ∀ r ∈ allRanks l, A r = B r ∧ D r = E r) (ha : SRun g l calls A D A1 D1) (hb : SRun g l calls B E B1 E1) :
    ∀ r ∈ allRanks l, A1 r = B1 r ∧ D1 r = E1 r := by
  induction calls generalizing A B D E with
  | nil =>
    intro r hr
    rw [(ha r hr).1, (ha r hr).2, (hb r hr).1, (hb r hr).2]
    exact h r hr
  | cons x xs ih =>
    obtain ⟨A2, D2, a1, a2⟩ := ha
    obtain ⟨B2, E2, b1, b2⟩ := hb
    exact ih (state_one hl h a1 b1) a2 b2

/-- **C87**: the outcome of a program with states, updates, scatters and gathers on shared memory is determined.  Whatever memory
and dictionaries it may lead to according to the specification, one call after the other: every schedule, whatever the buffering,
ends with exactly that memory and those dictionaries on every rank. -/
theorem C87_one_outcome (hl : FloatSafe l) (hsq : l.y = l.x) {W : Int → World α} {D : Int → Nat → HDict} {calls : List (SCall α)}
    (hW : ∀ r ∈ allRanks l, Reachable g (W r))
    (hr : ∀ (pre : List (SCall α)) x post, calls = pre ++ x :: post → ∀ W1 D1, SRun g l pre W D W1 D1 → SReady l W1 D1 x) :
    ∃ W' D', SRun g l calls W D W' D' ∧ ∀ V E, SRun g l calls W D V E → ∀ buf, ∃ (fin : Int → World α) (dicts : Int → Nat → HDict),
      ((statesNet g l calls W D).Completes buf fun r => (.ok (), fin r, dicts r)) ∧
      ∀ r ∈ allRanks l, fin r = V r ∧ dicts r = E r := by
  obtain ⟨W', D', h1, -⟩ := C87_session hl hsq hW hr (fun _ _ _ _ => true)
  refine ⟨W', D', h1, fun V E hV buf => ?_⟩
  obtain ⟨W2, D2, k1, k2⟩ := C87_session hl hsq hW hr buf
  exact ⟨W2, D2, k2, states_one hl (fun _ _ => ⟨rfl, rfl⟩) k1 hV⟩

end Heap
end FV3
