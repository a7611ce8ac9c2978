import Verif.Proofs.HeapState
import Verif.Spec.HeapState
import Verif.Props.HeapMixed

/-!
# C86: scatter_state and gather_state on memory
-/

namespace FV3
namespace Heap
open Mem (World Gt4py Reachable)
variable {α A B : Type} [Inhabited α] {g : Gt4py} {c : Comm}

omit [Inhabited α] in
/-- A program which all ranks carry out. -/
theorem stateNet_completes {buf : Buffering} {p : Int → HC α A} {n' : Nat} {W W' : Int → World α} {out : Int → A}
    {plan : Int → List (Nat × Act (Msg α))} (hs : Seg buf c.ranks 0 n' plan)
    (hp : ∀ r ∈ c.ranks, RealH (p r) (W r) 0 (plan r) (out r) (W' r) n') (hi : ∀ r, r ∉ c.ranks → W' r = W r) :
    (stateNet c p W).Completes buf fun r => (if r ∈ c.ranks then some (.ok (out r)) else none, W' r) := by
  refine hs.ok.completes ?_ (fun _ _ _ _ _ _ => rfl) (fun _ _ _ _ _ _ => rfl)
  intro r
  show Real (if r ∈ c.ranks then _ else _) _ _
  by_cases hm : r ∈ c.ranks
  · rw [if_pos hm, if_pos hm]
    have := Real.bind (f := fun x : Py A × (World α × Nat) => Proc.ret (M := Msg α) (some x.1, x.2.1)) (hp r hm) (Real.ret _)
    rwa [List.append_nil] at this
  · rw [if_neg hm, if_neg hm, hs.ok.idle r hm, hi r hm]
    exact .ret _

theorem calls_ready (hl : FloatSafe c.layout) {W : Int → World α} {calls : List (CCall α)} (hw : ∀ r ∈ c.ranks, WF g (W r))
    (hr : ∀ x ∈ calls, ∃ dims cells, CFits c dims cells W x) (n : Nat) (buf : Buffering) :
    ∃ n' W', AllH buf c (fun r => execColls g c r calls) n n' W W' ∧ CRun g c calls W W' ∧ ∀ r, r ∉ c.ranks → W' r = W r := by
  have h0mem : (0 : Int) ∈ c.ranks := (mem_ranks c 0).2 ⟨by omega, comm_size_pos hl⟩
  refine coll_session hl hw (fun pre x post e W1 hrun => ?_) n buf
  obtain ⟨dims, cells, hf⟩ := hr x (by rw [e]; exact List.mem_append_right _ List.mem_cons_self)
  exact ⟨dims, cells, hf.kept h0mem fun r hm => hrun.keeps hm (hw r hm)⟩

/-- `scatter_state` on all ranks, started after `n` collectives. -/
theorem scatterState_mem (hl : FloatSafe c.layout) {W : Int → World α} (hw : ∀ r ∈ c.ranks, WF g (W r)) {s : HDict} {send : Int → Option HDict}
    {d : Int → HDict} {sv : String → Nat} {rv : Int → String → Nat} {time : Option Int} (hsend : send 0 = some s)
    (htime : s.get? "time" = time.map .time) (hs : ∀ v ∈ s.keys, v ≠ "time" → s.get? v = some (.qty (sv v)))
    (hd : ∀ r ∈ c.ranks, ∀ v ∈ s.keys, v ≠ "time" → (d r).get? v = some (.qty (rv r v)))
    (hf : ∀ v ∈ s.keys, v ≠ "time" → ∃ dims cells, CFits c dims cells W (.scatter (sv v) fun r => rv r v)) (n : Nat) (buf : Buffering) :
    ∃ n' W' plan, Seg buf c.ranks n n' plan ∧
      (∀ r ∈ c.ranks, RealH (scatterState c r (send r) (d r)) (W r) n (plan r) (hSetTime (d r) time) (W' r) n') ∧
      CRun g c ((s.keys.filter (· ≠ "time")).map fun v => .scatter (sv v) fun r => rv r v) W W' ∧ ∀ r, r ∉ c.ranks → W' r = W r := by
  have hsize := comm_size_pos hl
  have hmem : ∀ v, v ∈ s.keys.filter (· ≠ "time") ↔ v ∈ s.keys ∧ v ≠ "time" := by intro v; simp
  obtain ⟨n', W', ⟨plan, h1, h2⟩, h3, h4⟩ := calls_ready (g := g) hl hw
    (calls := (s.keys.filter (· ≠ "time")).map fun v => .scatter (sv v) fun r => rv r v) (fun x hx => by
      obtain ⟨v, hv, rfl⟩ := List.mem_map.1 hx
      exact hf v ((hmem v).1 hv).1 ((hmem v).1 hv).2) (n + 1) buf
  refine ⟨n' + 1, W', fun r => distPlan c.size n (fun _ => Msg.names (s.keys.filter (· ≠ "time"))) r ++
      (plan r ++ distPlan c.size n' (fun _ => Msg.time time) r),
    (distPlan_seg buf c hsize n _).append (h1.append (distPlan_seg buf c hsize n' _)), fun r hr => ?_, h3, h4⟩
  have hr' := (mem_ranks c r).1 hr
  have a2 : RealH (execColls g c r _) (W r) (n + 1) (plan r) () (W' r) n' := h2 r hr
  unfold scatterState
  by_cases h0 : r = 0
  · subst h0
    rw [if_pos (show (0 : Int) = ROOT_RANK from rfl)]
    simp only [hsend]
    refine RealH.bind (RealH.coll (bcast_real c.size (fun _ => Msg.names (s.keys.filter (· ≠ "time"))) n 0 hr') _) ?_
    refine RealH.lift_bind rfl ?_
    rw [rootLoop_eq (g := g) (rv := rv) (fun v hv => hs v ((hmem v).1 hv).1 ((hmem v).1 hv).2)
      fun v hv => hd 0 hr v ((hmem v).1 hv).1 ((hmem v).1 hv).2]
    refine RealH.bind a2 ?_
    refine RealH.lift_bind (a := time) ?_ ?_
    · unfold hTimeOf
      rw [htime]
      cases time <;> rfl
    refine RealH.bind_end (RealH.coll (bcast_real c.size (fun _ => Msg.time time) n' 0 hr') _) ?_
    exact RealH.lift_bind rfl (RealH.pure _ _ _)
  · rw [if_neg (show ¬ r = ROOT_RANK from h0)]
    refine RealH.bind (a := Msg.names (s.keys.filter (· ≠ "time"))) (n1 := n + 1) (W1 := W r) (RealH.coll ?_ _) ?_
    · have := bcast_real c.size (fun r => if r = 0 then Msg.names (s.keys.filter (· ≠ "time")) else (Msg.time none : Msg α)) n r hr'
      simp only [if_neg h0, if_true] at this
      exact this
    refine RealH.lift_bind rfl ?_
    rw [clientLoop_eq (g := g) (sv := sv) (rv := rv) h0 fun v hv => hd r hr v ((hmem v).1 hv).1 ((hmem v).1 hv).2]
    refine RealH.bind a2 ?_
    refine RealH.bind_end (a := Msg.time time) (n1 := n' + 1) (W1 := W' r) (RealH.coll ?_ _) ?_
    · have := bcast_real c.size (fun r => if r = 0 then Msg.time time else (Msg.time none : Msg α)) n' r hr'
      simp only [if_neg h0, if_true] at this
      exact this
    exact RealH.lift_bind rfl (RealH.pure _ _ _)

/-- **C86**: `scatter_state` of states whose quantities share memory: all ranks return, whatever the schedule and the buffering,
memory is as after scatters of the quantities of the root's state one after the other, in its order, and the returned state has
the time of the root (or none) and otherwise the entries it had. -/
theorem C86_scatter_state (hl : FloatSafe c.layout) {W : Int → World α} (hW : ∀ r ∈ c.ranks, Reachable g (W r)) {s : HDict}
    {send : Int → Option HDict} {d : Int → HDict} {sv : String → Nat} {rv : Int → String → Nat} {time : Option Int}
    (hsend : send 0 = some s) (htime : s.get? "time" = time.map .time)
    (hs : ∀ v ∈ s.keys, v ≠ "time" → s.get? v = some (.qty (sv v)))
    (hd : ∀ r ∈ c.ranks, (d r).keys.Nodup ∧ ∀ v ∈ s.keys, v ≠ "time" → (d r).get? v = some (.qty (rv r v)))
    (hf : ∀ v ∈ s.keys, v ≠ "time" → ∃ dims cells, CFits c dims cells W (.scatter (sv v) fun r => rv r v)) (buf : Buffering) :
    ∃ (W' : Int → World α) (out : Int → HDict),
      CRun g c ((s.keys.filter (· ≠ "time")).map fun v => .scatter (sv v) fun r => rv r v) W W' ∧
      ((stateNet c (fun r => scatterState c r (send r) (d r)) W).Completes buf fun r =>
        (if r ∈ c.ranks then some (.ok (out r)) else none, W' r)) ∧
      ∀ r ∈ c.ranks, (out r).get? "time" = s.get? "time" ∧ ∀ v, v ≠ "time" → (out r).get? v = (d r).get? v := by
  obtain ⟨n', W', plan, h1, h2, h3, h4⟩ := scatterState_mem hl (fun r h => (hW r h).spec) hsend htime hs
    (fun r hr => (hd r hr).2) hf 0 buf
  refine ⟨W', fun r => hSetTime (d r) time, h3, stateNet_completes h1 h2 h4, fun r hr => ⟨?_, fun v hv => ?_⟩⟩
  · rw [get?_hSetTime _ (hd r hr).1, if_pos rfl, htime]
  · rw [get?_hSetTime _ (hd r hr).1, if_neg hv]

/-- `gather_state` on all ranks, started after `n` collectives. -/
theorem gatherState_mem (hl : FloatSafe c.layout) {W : Int → World α} (hw : ∀ r ∈ c.ranks, WF g (W r)) {names : List String}
    {val : Int → String → HVal} {recv : Int → Option HDict} {st : HDict} {pv : Int → String → Nat} {gv : String → Nat}
    (hrecv : recv 0 = some st) (hs : ∀ r ∈ c.ranks, ∀ v ∈ names, v ≠ "time" → val r v = .qty (pv r v))
    (hd : ∀ v ∈ names, v ≠ "time" → st.get? v = some (.qty (gv v)))
    (hf : ∀ v ∈ names, v ≠ "time" → ∃ dims cells, CFits c dims cells W (.gather (fun r => pv r v) (gv v))) (n : Nat) (buf : Buffering) :
    ∃ n' W' plan, Seg buf c.ranks n n' plan ∧
      (∀ r ∈ c.ranks, RealH (gatherState c r (names.map fun v => (v, val r v)) (recv r)) (W r) n (plan r)
        (if r = 0 then some (gatheredDict (val 0) gv names st) else recv r) (W' r) n') ∧
      CRun g c ((names.filter (· ≠ "time")).map fun v => .gather (fun r => pv r v) (gv v)) W W' ∧ ∀ r, r ∉ c.ranks → W' r = W r := by
  have hmem : ∀ v, v ∈ names.filter (· ≠ "time") ↔ v ∈ names ∧ v ≠ "time" := by intro v; simp
  obtain ⟨n', W', ⟨plan, h1, h2⟩, h3, h4⟩ := calls_ready (g := g) hl hw
    (calls := (names.filter (· ≠ "time")).map fun v => .gather (fun r => pv r v) (gv v)) (fun x hx => by
      obtain ⟨v, hv, rfl⟩ := List.mem_map.1 hx
      exact hf v ((hmem v).1 hv).1 ((hmem v).1 hv).2) n buf
  refine ⟨n', W', plan, h1, fun r hr => ?_, h3, h4⟩
  have a2 : RealH (execColls g c r _) (W r) n (plan r) () (W' r) n' := h2 r hr
  unfold gatherState
  by_cases h0 : r = 0
  · subst h0
    rw [if_pos (show (0 : Int) = ROOT_RANK from rfl), if_pos rfl, hrecv, Option.getD_some,
      gatherLoop_root (g := g) (gv := gv) (hs 0 hr) hd]
    exact RealH.bind_end a2 (RealH.pure _ _ _)
  · rw [if_neg (show ¬ r = ROOT_RANK from h0), if_neg h0, gatherLoop_client (g := g) (gv := gv) h0 (hs r hr)]
    exact RealH.bind_end a2 (RealH.pure _ _ _)

/-- **C86**: `gather_state` of states whose quantities share memory: all ranks return, memory is as after gathers of the
quantities one after the other, in the order of the state; the root returns its state, with its own time if it sent one, and the
others what they were given.  All ranks must have the same names in the same order. -/
theorem C86_gather_state (hl : FloatSafe c.layout) {W : Int → World α} (hW : ∀ r ∈ c.ranks, Reachable g (W r)) {names : List String}
    {val : Int → String → HVal} {recv : Int → Option HDict} {st : HDict} {pv : Int → String → Nat} {gv : String → Nat}
    (hrecv : recv 0 = some st) (hs : ∀ r ∈ c.ranks, ∀ v ∈ names, v ≠ "time" → val r v = .qty (pv r v))
    (hd : ∀ v ∈ names, v ≠ "time" → st.get? v = some (.qty (gv v)))
    (hf : ∀ v ∈ names, v ≠ "time" → ∃ dims cells, CFits c dims cells W (.gather (fun r => pv r v) (gv v))) (buf : Buffering) :
    ∃ (W' : Int → World α) (out : HDict),
      CRun g c ((names.filter (· ≠ "time")).map fun v => .gather (fun r => pv r v) (gv v)) W W' ∧
      ((stateNet c (fun r => gatherState c r (names.map fun v => (v, val r v)) (recv r)) W).Completes buf fun r =>
        (if r ∈ c.ranks then some (.ok (if r = 0 then some out else recv r)) else none, W' r)) ∧
      (out.get? "time" = if "time" ∈ names then some (val 0 "time") else st.get? "time") ∧
      ∀ v, v ≠ "time" → out.get? v = st.get? v := by
  obtain ⟨n', W', plan, h1, h2, h3, h4⟩ := gatherState_mem hl (fun r h => (hW r h).spec) hrecv hs hd hf 0 buf
  refine ⟨W', gatheredDict (val 0) gv names st, h3, stateNet_completes h1 h2 h4, ?_, fun v hv => ?_⟩
  · rw [get?_gathered _ _ _ _ hd]
    by_cases ht : "time" ∈ names
    · rw [if_pos ⟨rfl, ht⟩, if_pos ht]
    · rw [if_neg fun h => ht h.2, if_neg ht]
  · rw [get?_gathered _ _ _ _ hd, if_neg fun h => hv h.1]

/-! ### Quantities which are clear of each other -/

omit [Inhabited α] in
theorem OnlyCells.cell {P : Nat → List Nat → Prop} {W W1 : World α} (h : OnlyCells P W W1) (k : Nat) (idx : List Nat) (a : Int) :
    Cell W1 k idx a ↔ Cell W k idx a := by
  unfold Cell
  rw [dataOf_congr h.arrs h.objs]

theorem OnlyCells.compute {P : Nat → List Nat → Prop} {W W1 : World α} (h : OnlyCells P W W1) (k : Nat) (idx : List Nat) :
    (quantities W1 k).InCompute idx ↔ (quantities W k).InCompute idx := by
  have e := dataOf_congr h.arrs h.objs k
  cases hy : dataOf W k with
  | ok y => rw [quantities_eq hy, quantities_eq (e.trans hy)]; rfl
  | error er =>
    have : quantities W1 k = quantities W k := by
      unfold quantities value
      rw [e, hy]
      rfl
    rw [this]

theorem Clear.after {P : Nat → List Nat → Prop} {W W1 : World α} {h k : Nat} (hc : Clear W h k) (ho : OnlyCells P W W1) : Clear W1 h k :=
  fun idx idx' a h1 h2 h3 => hc idx idx' a ((ho.cell h idx a).1 h1) ((ho.compute k idx').1 h2) ((ho.cell k idx' a).1 h3)

/-- Scatters one after the other change memory in the compute domains of what is received into only. -/
theorem scatters_only {sv : String → Nat} {rv : Int → String → Nat} {names : List String} {W W' : Int → World α}
    (h : CRun g c (names.map fun v => .scatter (sv v) fun r => rv r v) W W') {r : Int} (hr : r ∈ c.ranks) :
    OnlyCells (fun k idx => (∃ v ∈ names, k = rv r v) ∧ (quantities (W r) k).InCompute idx) (W r) (W' r) := by
  induction names generalizing W with
  | nil =>
    rw [h r hr]
    exact OnlyCells.refl _ _
  | cons v names ih =>
    obtain ⟨W1, ⟨dims, cells, -, h1⟩, h2⟩ := h
    have o1 := (h1 r hr).2.2
    have o2 := ih h2
    have a1 : OnlyCells (fun k idx => (∃ w ∈ v :: names, k = rv r w) ∧ (quantities (W r) k).InCompute idx) (W r) (W1 r) :=
      ⟨o1.next, o1.arrs, o1.objs, fun a => (o1.mem a).imp id fun ⟨k, idx, hp, hc⟩ =>
        ⟨k, idx, ⟨⟨v, List.mem_cons_self, hp.1⟩, by rw [hp.1]; exact hp.2⟩, hc⟩⟩
    refine a1.trans ⟨o2.next, o2.arrs, o2.objs, fun a => (o2.mem a).imp id fun ⟨k, idx, hp, hc⟩ => ⟨k, idx, ⟨?_, ?_⟩, hc⟩⟩
    · obtain ⟨w, hw, e⟩ := hp.1
      exact ⟨w, List.mem_cons_of_mem _ hw, e⟩
    · exact (o1.compute k idx).1 hp.2

/-- Scatters into quantities which are clear of each other and of the other global quantities. -/
theorem scatters_parts (hl : FloatSafe c.layout) {vdims : String → List Dim} {vcells : String → List Int} {sv : String → Nat}
    {rv : Int → String → Nat} {names : List String} (hnd : names.Nodup) {W W' : Int → World α} (hw : ∀ r ∈ c.ranks, WF g (W r))
    (hf : ∀ v ∈ names, CFits c (vdims v) (vcells v) W (.scatter (sv v) fun r => rv r v))
    (hc : ∀ v ∈ names, ∀ w ∈ names, v ≠ w → Clear (W 0) (sv v) (rv 0 w) ∧ ∀ r ∈ c.ranks, Clear (W r) (rv r v) (rv r w))
    (h : CRun g c (names.map fun v => .scatter (sv v) fun r => rv r v) W W') :
    ∀ v ∈ names, ∀ r ∈ c.ranks, IsPart c (vdims v) (vcells v) (quantities (W 0) (sv v)) (quantities (W' r) (rv r v)) r := by
  have h0mem : (0 : Int) ∈ c.ranks := (mem_ranks c 0).2 ⟨by omega, comm_size_pos hl⟩
  induction names generalizing W with
  | nil => intro v hv; cases hv
  | cons v names ih =>
    rw [List.nodup_cons] at hnd
    obtain ⟨W1, s1, h2⟩ := h
    have kk := fun r hr => s1.keeps hr (hw r hr)
    obtain ⟨hpos, hg, hrs⟩ := hf v List.mem_cons_self
    obtain ⟨dims1, cells1, f1, p1⟩ := s1
    have e1 : dims1 = vdims v := globalDims_inj (f1.2.1.names.symm.trans hg.names)
    subst e1
    have e2 : cells1 = vcells v := rankOf_unique (f1.2.2 0 h0mem).1.extent (hrs 0 h0mem).1.extent
    subst e2
    intro w hwm r hr
    rcases List.mem_cons.1 hwm with rfl | hwm
    · have : quantities (W' r) (rv r w) = quantities (W1 r) (rv r w) :=
        (scatters_only h2 hr).untouched fun idx a hca k idx' hp => by
          obtain ⟨u, hu, rfl⟩ := hp.1
          have hne : w ≠ u := fun e => hnd.1 (e ▸ hu)
          exact (((hc w List.mem_cons_self u (List.mem_cons_of_mem _ hu) hne).2 r hr).after (p1 r hr).2.2) idx idx' a hca hp.2
      rw [this]
      exact (p1 r hr).1
    · have hne : w ≠ v := fun e => hnd.1 (e ▸ hwm)
      have : quantities (W1 0) (sv w) = quantities (W 0) (sv w) :=
        (p1 0 h0mem).2.2.untouched fun idx a hca k idx' hp => by
          rw [hp.1]
          exact (hc w (List.mem_cons_of_mem _ hwm) v List.mem_cons_self hne).1 idx idx' a hca hp.2
      rw [← this]
      refine ih hnd.2 (fun r hr => (kk r hr).2) (fun u hu => (hf u (List.mem_cons_of_mem _ hu)).kept h0mem fun r hr => (kk r hr).1)
        (fun u hu u' hu' hne => ?_) h2 w hwm r hr
      obtain ⟨x1, x2⟩ := hc u (List.mem_cons_of_mem _ hu) u' (List.mem_cons_of_mem _ hu') hne
      exact ⟨x1.after (p1 0 h0mem).2.2, fun r hr => (x2 r hr).after (p1 r hr).2.2⟩

/-- **C86**: if the quantities that are received into are clear of each other and of the global quantities of other names,
`scatter_state` gives every rank its part of each global quantity as it was before the call, and memory changes in the compute
domains of these quantities and nowhere else. -/
theorem C86_parts (hl : FloatSafe c.layout) {W : Int → World α} (hW : ∀ r ∈ c.ranks, Reachable g (W r)) {s : HDict} (hnd : s.keys.Nodup)
    {send : Int → Option HDict} {d : Int → HDict} {sv : String → Nat} {rv : Int → String → Nat} {time : Option Int}
    {vdims : String → List Dim} {vcells : String → List Int}
    (hsend : send 0 = some s) (htime : s.get? "time" = time.map .time)
    (hs : ∀ v ∈ s.keys, v ≠ "time" → s.get? v = some (.qty (sv v)))
    (hd : ∀ r ∈ c.ranks, (d r).keys.Nodup ∧ ∀ v ∈ s.keys, v ≠ "time" → (d r).get? v = some (.qty (rv r v)))
    (hf : ∀ v ∈ s.keys, v ≠ "time" → CFits c (vdims v) (vcells v) W (.scatter (sv v) fun r => rv r v))
    (hc : ∀ v ∈ s.keys, v ≠ "time" → ∀ w ∈ s.keys, w ≠ "time" → v ≠ w →
      Clear (W 0) (sv v) (rv 0 w) ∧ ∀ r ∈ c.ranks, Clear (W r) (rv r v) (rv r w)) (buf : Buffering) :
    ∃ (W' : Int → World α) (out : Int → HDict),
      ((stateNet c (fun r => scatterState c r (send r) (d r)) W).Completes buf fun r =>
        (if r ∈ c.ranks then some (.ok (out r)) else none, W' r)) ∧
      ∀ r ∈ c.ranks,
        ((out r).get? "time" = s.get? "time" ∧ ∀ v, v ≠ "time" → (out r).get? v = (d r).get? v) ∧
        (∀ v ∈ s.keys, v ≠ "time" → IsPart c (vdims v) (vcells v) (quantities (W 0) (sv v)) (quantities (W' r) (rv r v)) r) ∧
        OnlyCells (fun k idx => (∃ v ∈ s.keys, v ≠ "time" ∧ k = rv r v) ∧ (quantities (W r) k).InCompute idx) (W r) (W' r) := by
  have hmem : ∀ v, v ∈ s.keys.filter (· ≠ "time") ↔ v ∈ s.keys ∧ v ≠ "time" := by intro v; simp
  obtain ⟨W', out, h1, h2, h3⟩ := C86_scatter_state (g := g) hl hW hsend htime hs hd (fun v hv hne => ⟨_, _, hf v hv hne⟩) buf
  refine ⟨W', out, h2, fun r hr => ⟨h3 r hr, fun v hv hne => ?_, ?_⟩⟩
  · refine scatters_parts (g := g) hl (hnd.filter _) (fun r h => (hW r h).spec) (fun v hv => hf v ((hmem v).1 hv).1 ((hmem v).1 hv).2)
      (fun v hv w hw hvw => ?_) h1 v ((hmem v).2 ⟨hv, hne⟩) r hr
    exact hc v ((hmem v).1 hv).1 ((hmem v).1 hv).2 w ((hmem w).1 hw).1 ((hmem w).1 hw).2 hvw
  · have o := scatters_only h1 hr
    refine ⟨o.next, o.arrs, o.objs, fun a => (o.mem a).imp id fun ⟨k, idx, hp, hcl⟩ => ⟨k, idx, ⟨?_, hp.2⟩, hcl⟩⟩
    obtain ⟨w, hw, e⟩ := hp.1
    exact ⟨w, ((hmem w).1 hw).1, ((hmem w).1 hw).2, e⟩

/-- Gathers one after the other change memory of the root in the compute domains of what is received into only. -/
theorem gathers_only {pv : Int → String → Nat} {gv : String → Nat} {names : List String} {W W' : Int → World α}
    (h : CRun g c (names.map fun v => .gather (fun r => pv r v) (gv v)) W W') (h0 : (0 : Int) ∈ c.ranks) :
    OnlyCells (fun k idx => (∃ v ∈ names, k = gv v) ∧ (quantities (W 0) k).InCompute idx) (W 0) (W' 0) ∧
      ∀ r ∈ c.ranks, r ≠ 0 → W' r = W r := by
  induction names generalizing W with
  | nil =>
    rw [h 0 h0]
    exact ⟨OnlyCells.refl _ _, fun r hr _ => h r hr⟩
  | cons v names ih =>
    obtain ⟨W1, ⟨-, -, o1, x1⟩, h2⟩ := h
    obtain ⟨o2, x2⟩ := ih h2
    have a1 : OnlyCells (fun k idx => (∃ w ∈ v :: names, k = gv w) ∧ (quantities (W 0) k).InCompute idx) (W 0) (W1 0) :=
      ⟨o1.next, o1.arrs, o1.objs, fun a => (o1.mem a).imp id fun ⟨k, idx, hp, hc⟩ =>
        ⟨k, idx, ⟨⟨v, List.mem_cons_self, hp.1⟩, by rw [hp.1]; exact hp.2⟩, hc⟩⟩
    refine ⟨a1.trans ⟨o2.next, o2.arrs, o2.objs, fun a => (o2.mem a).imp id fun ⟨k, idx, hp, hc⟩ => ⟨k, idx, ⟨?_, ?_⟩, hc⟩⟩,
      fun r hr hne => (x2 r hr hne).trans (x1 r hr hne)⟩
    · obtain ⟨w, hw, e⟩ := hp.1
      exact ⟨w, List.mem_cons_of_mem _ hw, e⟩
    · exact (o1.compute k idx).1 hp.2

/-- Gathers into quantities which are clear of each other and of the parts of other names. -/
theorem gathers_global (hl : FloatSafe c.layout) {vdims : String → List Dim} {vcells : String → List Int} {pv : Int → String → Nat}
    {gv : String → Nat} {names : List String} (hnd : names.Nodup) {W W' : Int → World α} (hw : ∀ r ∈ c.ranks, WF g (W r))
    (hf : ∀ v ∈ names, CFits c (vdims v) (vcells v) W (.gather (fun r => pv r v) (gv v)))
    (hc : ∀ v ∈ names, ∀ w ∈ names, v ≠ w → Clear (W 0) (pv 0 v) (gv w) ∧ Clear (W 0) (gv v) (gv w))
    (h : CRun g c (names.map fun v => .gather (fun r => pv r v) (gv v)) W W') :
    ∀ v ∈ names, GatheredFrom c (vdims v) (vcells v) (fun r => quantities (W r) (pv r v)) (quantities (W' 0) (gv v)) := by
  have h0mem : (0 : Int) ∈ c.ranks := (mem_ranks c 0).2 ⟨by omega, comm_size_pos hl⟩
  induction names generalizing W with
  | nil => intro v hv; cases hv
  | cons v names ih =>
    rw [List.nodup_cons] at hnd
    obtain ⟨W1, s1, h2⟩ := h
    have kk := fun r hr => s1.keeps hr (hw r hr)
    obtain ⟨-, hg, -, hrs⟩ := hf v List.mem_cons_self
    obtain ⟨⟨dims1, cells1, f1, p1⟩, -, o1, x1⟩ := s1
    have e1 : dims1 = vdims v := globalDims_inj (f1.2.1.names.symm.trans hg.names)
    subst e1
    have e2 : cells1 = vcells v := rankOf_unique (f1.2.2.2 0 h0mem).extent (hrs 0 h0mem).extent
    subst e2
    intro w hwm
    rcases List.mem_cons.1 hwm with rfl | hwm
    · have : quantities (W' 0) (gv w) = quantities (W1 0) (gv w) :=
        (gathers_only h2 h0mem).1.untouched fun idx a hca k idx' hp => by
          obtain ⟨u, hu, rfl⟩ := hp.1
          have hne : w ≠ u := fun e => hnd.1 (e ▸ hu)
          exact ((hc w List.mem_cons_self u (List.mem_cons_of_mem _ hu) hne).2.after o1) idx idx' a hca hp.2
      rw [this]
      exact p1
    · have hne : w ≠ v := fun e => hnd.1 (e ▸ hwm)
      have e0 : quantities (W1 0) (pv 0 w) = quantities (W 0) (pv 0 w) :=
        o1.untouched fun idx a hca k idx' hp => by
          rw [hp.1]
          exact (hc w (List.mem_cons_of_mem _ hwm) v List.mem_cons_self hne).1 idx idx' a hca hp.2
      have er : ∀ r ∈ c.ranks, quantities (W1 r) (pv r w) = quantities (W r) (pv r w) := fun r hr => by
        by_cases h0 : r = 0
        · subst h0; exact e0
        · rw [x1 r hr h0]
      have k := ih hnd.2 (fun r hr => (kk r hr).2) (fun u hu => (hf u (List.mem_cons_of_mem _ hu)).kept h0mem fun r hr => (kk r hr).1)
        (fun u hu u' hu' hne => by
          obtain ⟨y1, y2⟩ := hc u (List.mem_cons_of_mem _ hu) u' (List.mem_cons_of_mem _ hu') hne
          exact ⟨y1.after o1, y2.after o1⟩) h2 w hwm
      intro p hp
      obtain ⟨r, rel, k1, k2, k3⟩ := k p hp
      dsimp only at k1 k3 ⊢
      rw [er 0 h0mem] at k1
      rw [er r k1.1] at k3
      exact ⟨r, rel, k1, k2, k3⟩

/-- **C86**: if the quantities of the root that are received into are clear of each other and of the parts of other names,
`gather_state` gives the root the values which the ranks had before the call; its memory changes in the compute domains of these
quantities and nowhere else, and the memory of the other ranks does not change. -/
theorem C86_global (hl : FloatSafe c.layout) {W : Int → World α} (hW : ∀ r ∈ c.ranks, Reachable g (W r)) {names : List String}
    (hnd : names.Nodup) {val : Int → String → HVal} {recv : Int → Option HDict} {st : HDict} {pv : Int → String → Nat} {gv : String → Nat}
    {vdims : String → List Dim} {vcells : String → List Int}
    (hrecv : recv 0 = some st) (hs : ∀ r ∈ c.ranks, ∀ v ∈ names, v ≠ "time" → val r v = .qty (pv r v))
    (hd : ∀ v ∈ names, v ≠ "time" → st.get? v = some (.qty (gv v)))
    (hf : ∀ v ∈ names, v ≠ "time" → CFits c (vdims v) (vcells v) W (.gather (fun r => pv r v) (gv v)))
    (hc : ∀ v ∈ names, v ≠ "time" → ∀ w ∈ names, w ≠ "time" → v ≠ w → Clear (W 0) (pv 0 v) (gv w) ∧ Clear (W 0) (gv v) (gv w))
    (buf : Buffering) :
    ∃ (W' : Int → World α) (out : HDict),
      ((stateNet c (fun r => gatherState c r (names.map fun v => (v, val r v)) (recv r)) W).Completes buf fun r =>
        (if r ∈ c.ranks then some (.ok (if r = 0 then some out else recv r)) else none, W' r)) ∧
      ((out.get? "time" = if "time" ∈ names then some (val 0 "time") else st.get? "time") ∧ ∀ v, v ≠ "time" → out.get? v = st.get? v) ∧
      (∀ v ∈ names, v ≠ "time" →
        GatheredFrom c (vdims v) (vcells v) (fun r => quantities (W r) (pv r v)) (quantities (W' 0) (gv v))) ∧
      OnlyCells (fun k idx => (∃ v ∈ names, v ≠ "time" ∧ k = gv v) ∧ (quantities (W 0) k).InCompute idx) (W 0) (W' 0) ∧
      ∀ r ∈ c.ranks, r ≠ 0 → W' r = W r := by
  have h0mem : (0 : Int) ∈ c.ranks := (mem_ranks c 0).2 ⟨by omega, comm_size_pos hl⟩
  have hmem : ∀ v, v ∈ names.filter (· ≠ "time") ↔ v ∈ names ∧ v ≠ "time" := by intro v; simp
  obtain ⟨W', out, h1, h2, h3⟩ := C86_gather_state (g := g) hl hW hrecv hs hd (fun v hv hne => ⟨_, _, hf v hv hne⟩) buf
  obtain ⟨o, x⟩ := gathers_only h1 h0mem
  refine ⟨W', out, h2, h3, fun v hv hne => ?_, ⟨o.next, o.arrs, o.objs, fun a => (o.mem a).imp id fun ⟨k, idx, hp, hcl⟩ =>
    ⟨k, idx, ⟨?_, hp.2⟩, hcl⟩⟩, x⟩
  · exact gathers_global (g := g) hl (hnd.filter _) (fun r h => (hW r h).spec) (fun v hv => hf v ((hmem v).1 hv).1 ((hmem v).1 hv).2)
      (fun v hv w hw hvw => hc v ((hmem v).1 hv).1 ((hmem v).1 hv).2 w ((hmem w).1 hw).1 ((hmem w).1 hw).2 hvw) h1 v ((hmem v).2 ⟨hv, hne⟩)
  · obtain ⟨w, hw, e⟩ := hp.1
    exact ⟨w, ((hmem w).1 hw).1, ((hmem w).1 hw).2, e⟩

/-! ### There and back -/

omit [Inhabited α] in
/-- A state of quantities with a time set. -/
theorem hSetTime_entries {ns : List String} (ht : "time" ∉ ns) (f : String → Nat) (time : Option Int) :
    hSetTime (ns.map fun v => (v, .qty (f v))) time =
      (ns ++ (time.map fun _ => "time").toList).map fun v => (v, if v = "time" then .time (time.getD 0) else .qty (f v)) := by
  have key : ∀ (ns : List String), "time" ∉ ns → ∀ t : Int,
      Dict.set (ns.map fun v => (v, HVal.qty (f v))) "time" (.time t) = (ns.map fun v => (v, HVal.qty (f v))) ++ [("time", .time t)] := by
    intro ns
    induction ns with
    | nil => intro _ t; rfl
    | cons v ns ih =>
      intro h t
      rw [List.mem_cons, not_or] at h
      simp only [List.map_cons, List.cons_append, Dict.set]
      rw [if_neg h.1, ih h.2]
  have key2 : ∀ (ns : List String), "time" ∉ ns →
      Dict.del ((ns.map fun v => (v, HVal.qty (f v))) ++ [("time", .time 0)]) "time" = ns.map fun v => (v, HVal.qty (f v)) := by
    intro ns
    induction ns with
    | nil => intro _; rfl
    | cons v ns ih =>
      intro h
      rw [List.mem_cons, not_or] at h
      simp only [List.map_cons, List.cons_append, Dict.del]
      rw [if_neg h.1, ih h.2]
  have key3 : ∀ t : HVal, (ns.map fun v => (v, HVal.qty (f v))) = ns.map fun v => (v, if v = "time" then t else .qty (f v)) := fun t =>
    List.map_congr_left fun v hv => by rw [if_neg fun e : v = "time" => ht (e ▸ hv)]
  unfold hSetTime
  cases time with
  | none =>
    refine (congrArg (fun x => Dict.del x "time") (key ns ht 0)).trans ((key2 ns ht).trans ((key3 (.time 0)).trans ?_))
    simp
  | some t =>
    refine (key ns ht t).trans ((congrArg (· ++ [("time", HVal.time t)]) (key3 (.time t))).trans ?_)
    simp

/-- **C86**: `scatter_state` of a state and `gather_state` of what it returns into the quantities of the same state, all ranks one
call after the other: the compute domain of every global quantity and the time are as before, whatever the schedule and the
buffering, also if the part of a variable shares memory with its own global quantity. -/
theorem C86_round_trip (hl : FloatSafe c.layout) {W : Int → World α} (hW : ∀ r ∈ c.ranks, Reachable g (W r)) {s : HDict}
    (hnd : s.keys.Nodup) {send recv : Int → Option HDict} {st : HDict} {ns : List String} {sv : String → Nat} {rv : Int → String → Nat}
    {time : Option Int} {vdims : String → List Dim} {vcells : String → List Int} {ky kx : String → Nat}
    (hns : ns.Nodup) (hmem : ∀ v, v ∈ ns ↔ v ∈ s.keys ∧ v ≠ "time")
    (hsend : send 0 = some s) (hrecv : recv 0 = some st) (htime : s.get? "time" = time.map .time)
    (hs : ∀ v ∈ ns, s.get? v = some (.qty (sv v))) (hst : ∀ v ∈ ns, st.get? v = some (.qty (sv v)))
    (ha : ∀ v ∈ ns, HAxes (vdims v) (ky v) (kx v))
    (hf : ∀ v ∈ ns, CFits c (vdims v) (vcells v) W (.scatter (sv v) fun r => rv r v))
    (hwr : ∀ v ∈ ns, (W 0).writeable (sv v) .data = true)
    (hc : ∀ v ∈ ns, ∀ w ∈ ns, v ≠ w →
      Clear (W 0) (sv v) (rv 0 w) ∧ Clear (W 0) (rv 0 v) (sv w) ∧ Clear (W 0) (sv v) (sv w) ∧
      ∀ r ∈ c.ranks, Clear (W r) (rv r v) (rv r w)) (buf : Buffering) :
    ∃ (W' : Int → World α) (out : HDict),
      ((stateNet c (fun r => do
          let got ← scatterState c r (send r) (ns.map fun v => (v, .qty (rv r v)))
          gatherState c r got (recv r)) W).Completes buf fun r =>
        (if r ∈ c.ranks then some (.ok (if r = 0 then some out else recv r)) else none, W' r)) ∧
      (out.get? "time" = if time.isSome then s.get? "time" else st.get? "time") ∧
      (∀ v, v ≠ "time" → out.get? v = st.get? v) ∧
      ∀ v ∈ ns, (quantities (W' 0) (sv v)).computeArr.Eqv (quantities (W 0) (sv v)).computeArr := by
  have h0mem : (0 : Int) ∈ c.ranks := (mem_ranks c 0).2 ⟨by omega, comm_size_pos hl⟩
  have hmem' : ∀ v, v ∈ s.keys.filter (· ≠ "time") ↔ v ∈ ns := by intro v; rw [hmem]; simp
  have ht : "time" ∉ ns := fun h => ((hmem _).1 h).2 rfl
  have hd : ∀ (r : Int), ∀ v ∈ ns, Dict.get? (ns.map fun v => (v, HVal.qty (rv r v))) v = some (.qty (rv r v)) := by
    intro r
    clear hs hst ha hf hwr hc hmem hmem' ht hns
    induction ns with
    | nil => intro v hv; cases hv
    | cons u ns ih =>
      intro v hv
      by_cases e : v = u
      · subst e; simp [Dict.get?]
      · have := ih v ((List.mem_cons.1 hv).resolve_left e)
        simp only [List.map_cons, Dict.get?]
        first
          | rw [if_neg e, this]
          | rw [if_neg (Ne.symm e), this]
  obtain ⟨n1, W1, plan1, a1, a2, a3, a4⟩ := scatterState_mem (g := g) hl (fun r h => (hW r h).spec) (send := send)
    (d := fun r => ns.map fun v => (v, .qty (rv r v))) hsend htime (fun v hv hne => hs v ((hmem v).2 ⟨hv, hne⟩))
    (fun r _ v hv hne => hd r v ((hmem v).2 ⟨hv, hne⟩)) (fun v hv hne => ⟨_, _, hf v ((hmem v).2 ⟨hv, hne⟩)⟩) 0 buf
  have hk1 : ∀ r ∈ c.ranks, Keeps (W r) (W1 r) ∧ WF g (W1 r) := fun r hr =>
    ⟨a3.keeps hr (hW r hr).spec, (scatters_only a3 hr).wf (hW r hr).spec⟩
  have hf2 : ∀ v ∈ ns, CFits c (vdims v) (vcells v) W1 (.gather (fun r => rv r v) (sv v)) := fun v hv => by
    have : CFits c (vdims v) (vcells v) W (.gather (fun r => rv r v) (sv v)) :=
      ⟨⟨ky v, kx v, ha v hv⟩, (hf v hv).2.1, hwr v hv, fun r hr => ((hf v hv).2.2 r hr).1⟩
    exact this.kept h0mem fun r hr => (hk1 r hr).1
  have hin : ∀ v ∈ ns ++ (time.map fun _ => "time").toList, v ≠ "time" → v ∈ ns := fun v hv hne => by
    rcases List.mem_append.1 hv with h | h
    · exact h
    · cases time with
      | none => simp at h
      | some t => exact absurd (by simpa using h) hne
  obtain ⟨n2, W2, plan2, b1, b2, b3, b4⟩ := gatherState_mem (g := g) hl (fun r h => (hk1 r h).2)
    (names := ns ++ (time.map fun _ => "time").toList)
    (val := fun r v => if v = "time" then .time (time.getD 0) else .qty (rv r v)) (recv := recv) (pv := rv) (gv := sv) hrecv
    (fun r _ v _ hne => if_neg hne) (fun v hv hne => hst v (hin v hv hne)) (fun v hv hne => ⟨_, _, hf2 v (hin v hv hne)⟩) n1 buf
  have hfil : (ns ++ (time.map fun _ => "time").toList).filter (· ≠ "time") = ns := by
    rw [List.filter_append]
    have e1 : ns.filter (· ≠ "time") = ns := List.filter_eq_self.2 fun v hv => by
      simpa using ((hmem v).1 hv).2
    rw [e1]
    cases time <;> simp
  rw [hfil] at b3
  refine ⟨W2, _, stateNet_completes (a1.append b1) (fun r hr => RealH.bind (a2 r hr) (by
    rw [hSetTime_entries ht]; exact b2 r hr)) (fun r hr => (b4 r hr).trans (a4 r hr)), ?_, fun v hv => ?_, fun v hv => ?_⟩
  · rw [get?_gathered _ _ _ _ fun v hv hne => hst v (hin v hv hne)]
    cases time with
    | none => rw [if_neg (by simpa using ht)]; rfl
    | some t => rw [if_pos (by simp), htime]; rfl
  · rw [get?_gathered _ _ _ _ fun v hv hne => hst v (hin v hv hne), if_neg fun h => hv h.1]
  · have so := fun r hr => scatters_only a3 (r := r) hr
    have p1 := scatters_parts (g := g) hl (hnd.filter _) (fun r h => (hW r h).spec) (fun v hv => hf v ((hmem' v).1 hv))
      (fun v hv w hw hvw => ⟨(hc v ((hmem' v).1 hv) w ((hmem' w).1 hw) hvw).1, (hc v ((hmem' v).1 hv) w ((hmem' w).1 hw) hvw).2.2.2⟩)
      a3 v ((hmem' v).2 hv)
    have p2 := gathers_global (g := g) hl hns (fun r h => (hk1 r h).2) hf2
      (fun v hv w hw hvw => ⟨(hc v hv w hw hvw).2.1.after (so 0 h0mem), (hc v hv w hw hvw).2.2.1.after (so 0 h0mem)⟩) b3 v hv
    obtain ⟨hpos, hg, hr⟩ := hf v hv
    have g1 := (hk1 0 h0mem).1.globalShaped hpos hg
    have g2 := (b3.keeps h0mem (hk1 0 h0mem).2).globalShaped hpos g1.1
    have hext : (quantities (W2 0) (sv v)).extent = (quantities (W 0) (sv v)).extent :=
      globalExtent_unique g2.1.extent hg.extent
    have r1 := fun r hm => (hk1 r hm).1.rankShaped hpos (hr r hm).1
    refine ⟨by show (quantities (W2 0) (sv v)).extent.map _ = (quantities (W 0) (sv v)).extent.map _; rw [hext], fun p hp => ?_⟩
    obtain ⟨r, rel, hH, hpl, hv'⟩ := p2 p hp
    rw [hv', ← hpl]
    refine p1 r hH.1 rel ?_
    rw [show (quantities (W1 r) (rv r v)).computeArr.shape = _ from rankOf_shape (r1 r hH.1).1.extent,
      ← show (quantities (W1 0) (rv 0 v)).computeArr.shape = _ from rankOf_shape (r1 0 h0mem).1.extent]
    exact hH.2.1

end Heap
end FV3
