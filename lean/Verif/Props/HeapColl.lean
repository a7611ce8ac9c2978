import Verif.Proofs.HeapColl

/-!
# C84: scatter and gather on memory
-/

namespace FV3
namespace Heap
open Mem (World Gt4py Reachable)
open Strided
variable {α : Type} [Inhabited α] {g : Gt4py} {c : Comm}

theorem global_pos {q : Quantity α} {dims : List Dim} {cells : List Int} (h : q.GlobalShaped c dims cells) (hpos : 0 < dims.length) :
    0 < q.ndim := by
  unfold Quantity.ndim
  rw [h.names]
  cases c with
  | tile l => exact hpos
  | cube l => exact Nat.succ_pos _

theorem global_bound {q : Quantity α} {dims : List Dim} {cells : List Int} (h : q.GlobalShaped c dims cells) :
    ∀ k, k < dims.length → cells.getD k 0 * ranksAlong c.layout (dims.getD k .x) < 2 ^ 51 := by
  intro k hk
  have h := h.extent
  cases c with
  | tile l => exact (tileOf_getD h hk).2.1
  | cube l =>
    obtain ⟨t, -, ht⟩ := h
    exact (tileOf_getD ht hk).2.1

/-- One call. -/
theorem coll_step (hl : FloatSafe c.layout) {W : Int → World α} (hw : ∀ r ∈ c.ranks, WF g (W r)) (x : CCall α)
    (hf : ∃ dims cells, CFits c dims cells W x) (n : Nat) (buf : Buffering) :
    ∃ n' W1, AllH buf c (fun r => x.exec g c r) n n' W W1 ∧ CStep g c x W W1 ∧ (∀ r ∈ c.ranks, WF g (W1 r)) ∧
      ∀ r, r ∉ c.ranks → W1 r = W r := by
  have h0mem : (0 : Int) ∈ c.ranks := (mem_ranks c 0).2 ⟨by omega, comm_size_pos hl⟩
  obtain ⟨dims, cells, hf⟩ := hf
  cases x with
  | scatter send recv =>
    have hF := hf
    obtain ⟨hpos, hg, hr⟩ := hf
    obtain ⟨out, h1, h2⟩ := scatter_does buf hl (fun _ => default) hpos hg (fun r => some (quantities (W r) send))
      (fun r => some (quantities (W r) (recv r))) rfl (fun r h q e => by cases e; exact (hr r h).1) n
    obtain ⟨W1, k1, k2, k3⟩ := AllH.of h1 (W := W) (p' := fun r => scatter c r (some send) (recv r))
      (Q := fun r q _ W1 => Stored (recv r) (W r) q W1) fun r h => by
        refine ref_scatter c _ (axes_held (hw r h) ?_ (hr r h).2) fun e => axes_value ?_
        · rw [rankShaped_ndim (hr r h).1]; exact hpos
        · rw [e]; exact global_pos hg hpos
    refine ⟨n + 2, W1, k1, ⟨dims, cells, hF, fun r h => ?_⟩, fun r h => (k2 r h).2.wf (hw r h), k3⟩
    obtain ⟨e, hc⟩ := k2 r h
    have hrf := (h2 r h).given _ rfl
    rw [← e] at hrf
    refine ⟨?_, hrf, only_compute hc hrf⟩
    rw [e]
    exact (h2 r h).part
  | gather send recv =>
    have hF := hf
    obtain ⟨⟨ky, kx, ha⟩, hg, hwr, hs⟩ := hf
    have hpos : 0 < dims.length := by have := ha.ylt; omega
    obtain ⟨root, h1, h2⟩ := gather_does buf hl (fun _ => default) hpos (global_bound hg) (fun r => quantities (W r) (send r))
      (fun r => some (quantities (W r) recv)) hs (fun q e => by cases e; exact hg) (fun e => by cases e) n
    obtain ⟨W1, k1, k2, k3⟩ := AllH.of h1 (W := W) (p' := fun r => gather c r (send r) recv)
      (Q := fun r q _ W1 => (r = ROOT_RANK → ∃ p, q = some p ∧ Stored recv (W r) p W1) ∧ (r ≠ ROOT_RANK → W1 = W r)) fun r h => by
        refine ref_gather c _ (fun e => ?_) (axes_value ?_)
        · have e' : r = 0 := e
          subst e'
          exact axes_held (hw 0 h) (global_pos hg hpos) hwr
        · rw [rankShaped_ndim (hs r h)]; exact hpos
    obtain ⟨p, e1, e2, hc⟩ := (k2 0 h0mem).1 rfl
    rw [if_pos rfl] at e1
    cases e1
    have hrf := h2.given _ rfl
    rw [← e2] at hrf
    have hoth : ∀ r ∈ c.ranks, r ≠ 0 → W1 r = W r := fun r h h0 => (k2 r h).2 h0
    refine ⟨n + 1, W1, k1, ⟨⟨dims, cells, hF, ?_⟩, hrf, only_compute hc hrf, hoth⟩, fun r h => ?_, k3⟩
    · rw [e2]
      exact h2.gathered hl ha (hs 0 h0mem)
    · by_cases h0 : r = 0
      · subst h0
        exact hc.wf (hw 0 h)
      · rw [hoth r h h0]
        exact hw r h
  | compute ops =>
    refine ⟨n, fun r => if r ∈ c.ranks then (W r).after g (ops r) else W r, ⟨_, Seg.nil buf c.ranks n, fun r h => ?_⟩, fun r h => ?_,
      fun r h => ?_, fun r h => if_neg h⟩
    · dsimp only
      rw [if_pos h]
      exact Real.ret _
    · dsimp only
      rw [if_pos h]
    · dsimp only
      rw [if_pos h]
      exact (hw r h).run (ops r)

/-- A sequence of calls. -/
theorem coll_session (hl : FloatSafe c.layout) {W : Int → World α} (hw : ∀ r ∈ c.ranks, WF g (W r)) {calls : List (CCall α)}
    (hr : ∀ (pre : List (CCall α)) x post, calls = pre ++ x :: post → ∀ W1, CRun g c pre W W1 → ∃ dims cells, CFits c dims cells W1 x)
    (n : Nat) (buf : Buffering) :
    ∃ n' W', AllH buf c (fun r => execColls g c r calls) n n' W W' ∧ CRun g c calls W W' ∧ ∀ r, r ∉ c.ranks → W' r = W r := by
  induction calls generalizing W n with
  | nil => exact ⟨n, W, ⟨_, Seg.nil buf c.ranks n, fun r h => Real.ret _⟩, fun r h => rfl, fun r h => rfl⟩
  | cons x xs ih =>
    obtain ⟨n1, W1, a1, a2, a3, a4⟩ := coll_step hl hw x (hr [] x xs rfl W fun r h => rfl) n buf
    obtain ⟨n', W', b1, b2, b3⟩ := ih a3 (fun pre y post e W2 hrun => hr (x :: pre) y post (by rw [e]; rfl) W2 ⟨W1, a2, hrun⟩) n1
    exact ⟨n', W', a1.bind b1, ⟨W1, a2, b2⟩, fun r h => (b3 r h).trans (a4 r h)⟩

/-- **C84**: any sequence of scatters and gathers of a communicator, with programs between them which work on quantities, arrays
and storages, on memory which these share as they like - also the quantity which is sent and the one which is received into:
whatever the schedule and the buffering of MPI, all ranks return, and memory is as after the calls one after the other (`CRun`). -/
theorem C84_session (hl : FloatSafe c.layout) {W : Int → World α} {calls : List (CCall α)} (hW : ∀ r ∈ c.ranks, Reachable g (W r))
    (hr : ∀ (pre : List (CCall α)) x post, calls = pre ++ x :: post → ∀ W1, CRun g c pre W W1 → ∃ dims cells, CFits c dims cells W1 x)
    (buf : Buffering) :
    ∃ W' : Int → World α, CRun g c calls W W' ∧ (collNet g c calls W).Completes buf fun r => (.ok (), W' r) := by
  obtain ⟨n', W', ⟨plan, hs, hreal⟩, h2, h3⟩ := coll_session hl (fun r h => (hW r h).spec) hr 0 buf
  refine ⟨W', h2, hs.ok.completes ?_ (fun _ _ _ _ _ _ => rfl) (fun _ _ _ _ _ _ => rfl)⟩
  intro r
  show Real (if r ∈ c.ranks then _ else _) _ _
  by_cases hm : r ∈ c.ranks
  · rw [if_pos hm]
    have := Real.bind (f := fun x : Py Unit × (World α × Nat) => Proc.ret (x.1, x.2.1)) (hreal r hm)
      (Real.ret (M := Msg α) ((.ok (), W' r) : Py Unit × World α))
    rwa [List.append_nil] at this
  · rw [if_neg hm, hs.ok.idle r hm, h3 r hm]
    exact .ret _

/-! ### When everything exists from the beginning -/

/-- Quantities with axes stay what they are, apart from their values. -/
def Keeps (W W1 : World α) : Prop := ∀ h y, dataOf W h = .ok y → y.2.1.view.shape ≠ [] → dataOf W1 h = .ok y

omit [Inhabited α] in
theorem OnlyCells.keeps {P : Nat → List Nat → Prop} {W W1 : World α} (h : OnlyCells P W W1) : Keeps W W1 :=
  fun k y hy _ => (dataOf_congr h.arrs h.objs k).trans hy

theorem CStep.keeps {x : CCall α} {W W1 : Int → World α} (h : CStep g c x W W1) {r : Int} (hr : r ∈ c.ranks) (hw : WF g (W r)) :
    Keeps (W r) (W1 r) ∧ WF g (W1 r) := by
  cases x with
  | scatter send recv =>
    obtain ⟨dims, cells, -, h⟩ := h
    exact ⟨(h r hr).2.2.keeps, (h r hr).2.2.wf hw⟩
  | gather send recv =>
    obtain ⟨-, -, h1, h2⟩ := h
    by_cases h0 : r = 0
    · subst h0
      exact ⟨h1.keeps, h1.wf hw⟩
    · rw [h2 r hr h0]
      exact ⟨fun _ _ h _ => h, hw⟩
  | compute ops =>
    rw [h r hr]
    exact ⟨fun k y hy hs => dataOf_kept (hw.kept (ops r)).1 (hw.kept (ops r)).2 hy hs, hw.run (ops r)⟩

theorem CRun.keeps {calls : List (CCall α)} {W W1 : Int → World α} (h : CRun g c calls W W1) {r : Int} (hr : r ∈ c.ranks)
    (hw : WF g (W r)) : Keeps (W r) (W1 r) := by
  induction calls generalizing W with
  | nil => rw [h r hr]; exact fun _ _ h _ => h
  | cons x xs ih =>
    obtain ⟨W2, h1, h2⟩ := h
    obtain ⟨k1, k2⟩ := h1.keeps hr hw
    exact fun k y hy hs => ih h2 k2 k y (k1 k y hy hs) hs

theorem Keeps.same {W W1 : World α} (hk : Keeps W W1) {h : Nat} (hq : 0 < (quantities W h).ndim) (hq' : (quantities W h).WF) :
    ∃ f f' s dims units origin extent, quantities W h = ⟨⟨s, f⟩, dims, units, origin, extent⟩ ∧
      quantities W1 h = ⟨⟨s, f'⟩, dims, units, origin, extent⟩ ∧ W1.writeable h .data = W.writeable h .data := by
  obtain ⟨y, hy⟩ := axes_data hq
  have hs : y.2.1.view.shape ≠ [] := by
    intro e
    have h1 := hq'.shape
    rw [quantities_eq hy] at h1 hq
    change y.2.1.view.shape.length = _ at h1
    rw [e] at h1
    rw [← h1] at hq
    exact absurd hq (Nat.lt_irrefl 0)
  have hy1 := hk h y hy hs
  have key : ∀ V : World α, dataOf V h = .ok y → V.writeable h .data = y.2.1.writeable := by
    intro V hV
    unfold dataOf at hV
    unfold Mem.World.writeable
    cases ho : V.objs[h]? with
    | none => rw [ho] at hV; cases hV
    | some o =>
      rw [ho] at hV
      cases o with
      | array _ => cases hV
      | storage _ _ _ => cases hV
      | quantity q =>
        dsimp only at hV
        simp only [Mem.Obj.target]
        cases ha : V.arrs[q.data]? with
        | none => rw [ha] at hV; cases hV
        | some a =>
          rw [ha] at hV
          cases hV
          rfl
  exact ⟨_, _, _, _, _, _, _, quantities_eq hy, quantities_eq hy1, (key W1 hy1).trans (key W hy).symm⟩

theorem Keeps.rankShaped {W W1 : World α} (hk : Keeps W W1) {h : Nat} {dims : List Dim} {cells : List Int} (hpos : 0 < dims.length)
    (hq : (quantities W h).RankShaped dims cells) :
    (quantities W1 h).RankShaped dims cells ∧ W1.writeable h .data = W.writeable h .data := by
  obtain ⟨f, f', s, d, u, o, e, h1, h2, h3⟩ := hk.same (by rw [rankShaped_ndim hq]; exact hpos) hq.wf
  rw [h1] at hq
  rw [h2]
  exact ⟨⟨⟨⟨hq.wf.shape, hq.wf.origin, hq.wf.extent⟩, hq.wf.inside⟩, hq.extent⟩, h3⟩

theorem Keeps.globalShaped {W W1 : World α} (hk : Keeps W W1) {h : Nat} {dims : List Dim} {cells : List Int} (hpos : 0 < dims.length)
    (hq : (quantities W h).GlobalShaped c dims cells) :
    (quantities W1 h).GlobalShaped c dims cells ∧ W1.writeable h .data = W.writeable h .data := by
  obtain ⟨f, f', s, d, u, o, e, h1, h2, h3⟩ := hk.same (global_pos hq hpos) hq.wf
  rw [h1] at hq
  rw [h2]
  exact ⟨⟨⟨⟨hq.wf.shape, hq.wf.origin, hq.wf.extent⟩, hq.wf.inside⟩, hq.names, hq.extent⟩, h3⟩

theorem CFits.kept {W W1 : Int → World α} {dims : List Dim} {cells : List Int} {x : CCall α} (h0 : (0 : Int) ∈ c.ranks)
    (h : CFits c dims cells W x) (hk : ∀ r ∈ c.ranks, Keeps (W r) (W1 r)) : CFits c dims cells W1 x := by
  cases x with
  | scatter send recv =>
    obtain ⟨hpos, hg, hr⟩ := h
    refine ⟨hpos, ((hk 0 h0).globalShaped hpos hg).1, fun r hm => ?_⟩
    obtain ⟨k1, k2⟩ := (hk r hm).rankShaped hpos (hr r hm).1
    exact ⟨k1, k2.trans (hr r hm).2⟩
  | gather send recv =>
    obtain ⟨ha, hg, hwr, hs⟩ := h
    have hpos : 0 < dims.length := by
      obtain ⟨ky, kx, ha⟩ := ha
      have := ha.ylt
      omega
    obtain ⟨k1, k2⟩ := (hk 0 h0).globalShaped hpos hg
    exact ⟨ha, k1, k2.trans hwr, fun r hm => ((hk r hm).rankShaped hpos (hs r hm)).1⟩
  | compute ops => trivial

/-- **C84**: the same, when the quantities of all calls exist from the beginning. -/
theorem C84_calls (hl : FloatSafe c.layout) {W : Int → World α} {calls : List (CCall α)} (hW : ∀ r ∈ c.ranks, Reachable g (W r))
    (hr : ∀ x ∈ calls, ∃ dims cells, CFits c dims cells W x) (buf : Buffering) :
    ∃ W' : Int → World α, CRun g c calls W W' ∧ (collNet g c calls W).Completes buf fun r => (.ok (), W' r) := by
  have h0mem : (0 : Int) ∈ c.ranks := (mem_ranks c 0).2 ⟨by omega, comm_size_pos hl⟩
  refine C84_session hl hW (fun pre x post e W1 hrun => ?_) buf
  obtain ⟨dims, cells, hf⟩ := hr x (by rw [e]; exact List.mem_append_right _ List.mem_cons_self)
  exact ⟨dims, cells, hf.kept h0mem fun r hm => hrun.keeps hm (hW r hm).spec⟩

/-! ### There and back -/

theorem rankOf_unique {dims : List Dim} {cells cells' ext : List Int} (h : RankOf dims cells ext) (h' : RankOf dims cells' ext) :
    cells = cells' := by
  apply ext_getD 0 (by rw [h.1, h'.1])
  intro k hk
  rw [h.1] at hk
  have h1 := rankOf_getD h hk
  have h2 := rankOf_getD h' hk
  omega

theorem globalDims_inj {dims dims' : List Dim} (h : c.globalDims dims = c.globalDims dims') : dims = dims' := by
  cases c with
  | tile l => exact h
  | cube l => exact (List.cons.inj h).2

/-- **C84**: `gather` into the quantity which was scattered gives its compute domain back, even if the parts share memory with
it, so that the scatter has overwritten some of it. -/
theorem C84_round_trip (hl : FloatSafe c.layout) {W : Int → World α} (hW : ∀ r ∈ c.ranks, Reachable g (W r)) {send : Nat}
    {recv : Int → Nat} {dims : List Dim} {cells : List Int} {ky kx : Nat} (ha : HAxes dims ky kx)
    (hs : CFits c dims cells W (.scatter send recv)) (hwr : (W 0).writeable send .data = true) (buf : Buffering) :
    ∃ W' : Int → World α, ((collNet g c [.scatter send recv, .gather recv send] W).Completes buf fun r => (.ok (), W' r)) ∧
      (quantities (W' 0) send).computeArr.Eqv (quantities (W 0) send).computeArr := by
  have h0mem : (0 : Int) ∈ c.ranks := (mem_ranks c 0).2 ⟨by omega, comm_size_pos hl⟩
  obtain ⟨W', ⟨W1, s1, W2, s2, s3⟩, h2⟩ := C84_calls (calls := [.scatter send recv, .gather recv send]) hl hW (fun x hx => by
    rcases List.mem_cons.1 hx with rfl | hx
    · exact ⟨dims, cells, hs⟩
    · rw [List.mem_singleton.1 hx]
      exact ⟨dims, cells, ⟨ky, kx, ha⟩, hs.2.1, hwr, fun r hr => (hs.2.2 r hr).1⟩) buf
  refine ⟨W', h2, ?_⟩
  rw [s3 0 h0mem]
  obtain ⟨hpos, hg, hr⟩ := hs
  have hk1 : ∀ r ∈ c.ranks, Keeps (W r) (W1 r) := fun r hm => (s1.keeps hm (hW r hm).spec).1
  obtain ⟨dims1, cells1, f1, p1⟩ := s1
  obtain ⟨⟨dims2, cells2, f2, p2⟩, rf, -, -⟩ := s2
  have e1 : dims1 = dims := globalDims_inj (f1.2.1.names.symm.trans hg.names)
  subst e1
  have e2 : cells1 = cells := rankOf_unique (f1.2.2 0 h0mem).1.extent (hr 0 h0mem).1.extent
  subst e2
  have g1 := (hk1 0 h0mem).globalShaped hpos hg
  have e3 : dims2 = dims1 := globalDims_inj (f2.2.1.names.symm.trans g1.1.names)
  subst e3
  have r1 := fun r hm => (hk1 r hm).rankShaped hpos (hr r hm).1
  have e4 : cells2 = cells1 := rankOf_unique (f2.2.2.2 0 h0mem).extent (r1 0 h0mem).1.extent
  subst e4
  have hext : (quantities (W2 0) send).extent = (quantities (W 0) send).extent := by
    rw [rf.extent]
    exact globalExtent_unique g1.1.extent hg.extent
  refine ⟨by show (quantities (W2 0) send).extent.map _ = (quantities (W 0) send).extent.map _; rw [hext], fun p hp => ?_⟩
  obtain ⟨r, rel, hH, hpl, hv⟩ := p2 p hp
  rw [hv, ← hpl]
  refine (p1 r hH.1).1 rel ?_
  rw [show (quantities (W1 r) (recv r)).computeArr.shape = _ from rankOf_shape (r1 r hH.1).1.extent,
    ← show (quantities (W1 0) (recv 0)).computeArr.shape = _ from rankOf_shape (r1 0 h0mem).1.extent]
  exact hH.2.1

end Heap
end FV3
