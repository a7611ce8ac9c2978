import Verif.Props.HeapOne
import Verif.Props.HeapMixed
import Verif.Props.Nudging
import Verif.Props.Pipeline

/-!
# C85: updates, scatters and gathers on memory have one outcome
-/

namespace FV3
namespace Heap
open Mem (World Gt4py Reachable)
open Strided
variable {α : Type} [Inhabited α] {g : Gt4py} {l : Layout}

/-- Memory is known when it is known in the compute domain of a variable and unchanged elsewhere. -/
theorem OnlyCompute.one {h : Nat} {W W1 W2 : World α} (wf : (quantities W h).WF) (h1 : OnlyCompute h W W1) (h2 : OnlyCompute h W W2)
    (r1 : (quantities W h).Refilled (quantities W1 h)) (r2 : (quantities W h).Refilled (quantities W2 h))
    (e : ∀ rel, InB (quantities W h).computeArr.shape rel →
      (quantities W1 h).computeArr.get rel = (quantities W2 h).computeArr.get rel) : W1 = W2 := by
  have hm : W1.mem = W2.mem := by
    funext a
    by_cases hc : ∃ k idx, (k = h ∧ (quantities W h).InCompute idx) ∧ Cell W k idx a
    · obtain ⟨k, idx, ⟨rfl, hi⟩, x, hx, hin, ha⟩ := hc
      have := e _ (Nudge.relIn _ wf idx hi)
      simp only [Quantity.computeArr, r1.origin, r2.origin, Nudge.absRel _ wf idx hi] at this
      rw [quantities_eq ((dataOf_congr h1.arrs h1.objs k).trans hx), quantities_eq ((dataOf_congr h2.arrs h2.objs k).trans hx)]
        at this
      simp only [clip, View.read, if_pos hin, ha] at this
      exact this
    · rcases h1.mem a with k | k
      · rcases h2.mem a with k' | k'
        · rw [k, k']
        · exact absurd k' hc
      · exact absurd k hc
  cases W1
  cases W2
  have := h1.next.trans h2.next.symm
  have := h1.arrs.trans h2.arrs.symm
  have := h1.objs.trans h2.objs.symm
  simp_all

/-- The extent of a rank determines its numbers of grid cells. -/
theorem cells_one {dims : List Dim} {cells cells' ext : List Int} (h : RankOf dims cells ext) (h' : RankOf dims cells' ext) :
    cells = cells' := by
  obtain ⟨a1, a2, a3⟩ := h
  obtain ⟨b1, b2, b3⟩ := h'
  refine List.ext_getElem (by omega) fun k hk hk' => ?_
  have x := (a3 k dims[k] cells[k] ext[k] (List.getElem?_eq_getElem _) (List.getElem?_eq_getElem _) (List.getElem?_eq_getElem _)).2
  have y := (b3 k dims[k] cells'[k] ext[k] (List.getElem?_eq_getElem _) (List.getElem?_eq_getElem _) (List.getElem?_eq_getElem _)).2
  unfold pointsOf at x y
  split at x <;> simp_all

theorem zero_rank (hl : FloatSafe l) : (0 : Int) ∈ (Comm.cube l).ranks :=
  (mem_ranks (.cube l) 0).2 ⟨by omega, comm_size_pos (c := .cube l) hl⟩

theorem coll_one (hl : FloatSafe l) {x : CCall α} {A A1 B B1 : Int → World α} (h : ∀ r ∈ (Comm.cube l).ranks, A r = B r)
    (ha : CStep g (.cube l) x A A1) (hb : CStep g (.cube l) x B B1) : ∀ r ∈ (Comm.cube l).ranks, A1 r = B1 r := by
  have h0 := zero_rank hl
  cases x with
  | scatter send recv =>
    intro r hr
    obtain ⟨dims, cells, ⟨-, a1, a2⟩, a3⟩ := ha
    obtain ⟨dims', cells', ⟨-, b1, b2⟩, b3⟩ := hb
    obtain ⟨a4, a5, a6⟩ := a3 r hr
    obtain ⟨b4, b5, b6⟩ := b3 r hr
    rw [h 0 h0] at a1 a4
    rw [h r hr] at a5 a6
    obtain rfl : dims = dims' := (List.cons.inj (a1.names.symm.trans b1.names)).2
    have e2 := (a2 r hr).1
    rw [h r hr] at e2
    obtain rfl : cells = cells' := cells_one e2.extent (b2 r hr).1.extent
    refine a6.one e2.wf b6 a5 b5 fun rel hrel => ?_
    have s1 : (quantities (A1 r) (recv r)).computeArr.shape = (quantities (B r) (recv r)).computeArr.shape := by
      simp only [Quantity.computeArr, a5.extent]
    have s2 : (quantities (B1 r) (recv r)).computeArr.shape = (quantities (B r) (recv r)).computeArr.shape := by
      simp only [Quantity.computeArr, b5.extent]
    rw [a4 rel (by rw [s1]; exact hrel), b4 rel (by rw [s2]; exact hrel)]
  | gather send recv =>
    obtain ⟨⟨dims, cells, ⟨-, a1, -, a2⟩, a3⟩, a4, a5, a6⟩ := ha
    obtain ⟨⟨dims', cells', ⟨-, b1, -, b2⟩, b3⟩, b4, b5, b6⟩ := hb
    intro r hr
    by_cases hz : r = 0
    · subst hz
      rw [h 0 h0] at a1 a4 a5
      obtain rfl : dims = dims' := (List.cons.inj (a1.names.symm.trans b1.names)).2
      have e2 := a2 0 h0
      rw [h 0 h0] at e2
      obtain rfl : cells = cells' := cells_one e2.extent (b2 0 h0).extent
      refine a5.one b1.wf b5 a4 b4 fun p hp => ?_
      have s1 : (quantities (A1 0) recv).computeArr.shape = (quantities (B 0) recv).computeArr.shape := by
        simp only [Quantity.computeArr, a4.extent]
      have s2 : (quantities (B1 0) recv).computeArr.shape = (quantities (B 0) recv).computeArr.shape := by
        simp only [Quantity.computeArr, b4.extent]
      obtain ⟨r, rel, x1, x2, x3⟩ := a3 p (by rw [s1]; exact hp)
      obtain ⟨r', rel', y1, y2, y3⟩ := b3 p (by rw [s2]; exact hp)
      dsimp only at x1 x3 y1 y3
      rw [h 0 h0, rankShaped_shape e2] at x1
      rw [rankShaped_shape e2] at y1
      have hc : ∀ k, k < dims.length → 0 ≤ cells.getD k 0 := by
        intro k hk
        obtain ⟨c1, c2, c3⟩ := e2.extent
        have := (c3 k dims[k] (cells[k]'(by omega)) ((quantities (B 0) (send 0)).extent[k]'(by omega)) (List.getElem?_eq_getElem _)
          (List.getElem?_eq_getElem _) (List.getElem?_eq_getElem _)).1
        rw [getD_lt _ (show k < cells.length by omega)]
        exact this
      obtain ⟨rfl, rfl⟩ := highest_unique hl hc x1 y1 (x2.trans y2.symm)
      rw [x3, y3, h r x1.1]
    · rw [a6 r hr hz, b6 r hr hz, h r hr]
  | compute ops =>
    intro r hr
    rw [ha r hr, hb r hr, h r hr]

variable [Neg α]

theorem mixed_one (hl : FloatSafe l) {calls : List (XCall α)} {A A1 B B1 : Int → World α} (h : ∀ r ∈ allRanks l, A r = B r)
    (ha : XRun g l calls A A1) (hb : XRun g l calls B B1) : ∀ r ∈ allRanks l, A1 r = B1 r := by
  induction calls generalizing A B with
  | nil =>
    intro r hr
    rw [ha r hr, hb r hr, h r hr]
  | cons x xs ih =>
    obtain ⟨A2, a1, a2⟩ := ha
    obtain ⟨B2, b1, b2⟩ := hb
    refine ih (A := A2) (B := B2) ?_ a2 b2
    cases x with
    | update c => exact calls_one (cs := [c]) h ⟨A2, a1, fun _ _ => rfl⟩ ⟨B2, b1, fun _ _ => rfl⟩
    | collective x => exact coll_one hl h a1 b1

/-- **C85**: the outcome of updates, scatters, gathers and programs on memory is determined.  Whatever memory they may lead to
according to the specification, one after the other: every schedule, whatever the buffering, ends with exactly that memory on
every rank. -/
theorem C85_one_outcome (hl : FloatSafe l) (hsq : l.y = l.x) {W : Int → World α} {calls : List (XCall α)}
    (hW : ∀ r ∈ allRanks l, Reachable g (W r))
    (hr : ∀ (pre : List (XCall α)) x post, calls = pre ++ x :: post → ∀ W1, XRun g l pre W W1 → XReady l W1 x) :
    ∃ W', XRun g l calls W W' ∧ ∀ V, XRun g l calls W V → ∀ buf, ∃ fin : Int → World α,
      ((mixedNet g l calls W).Completes buf fun r => (.ok (), fin r)) ∧ ∀ r ∈ allRanks l, fin r = V r := by
  obtain ⟨W', h1, -⟩ := C85_session hl hsq hW hr (fun _ _ _ _ => true)
  refine ⟨W', h1, fun V hV buf => ?_⟩
  obtain ⟨W2, k1, k2⟩ := C85_session hl hsq hW hr buf
  exact ⟨W2, k2, mixed_one hl (fun _ _ => rfl) k1 hV⟩

end Heap
end FV3
