import Verif.Proofs.OneProcessColl

/-!
# C73: scatter and gather with all ranks in one process (over DummyComm)
-/

namespace FV3
open OneProcess
variable {α : Type}

/-- **C73**: new communicators: nothing to be received, one empty slot for each rank. -/
theorem C73_new (c : Comm) : (Board.new c.size.toNat : Board α).Settled c :=
  ⟨fun _ _ => rfl, fun _ _ => rfl, by simp [Board.new]⟩

/-- **C73**: after any rounds of calls, `scatter` called on rank 0 and then on the others in any order gives every rank its
part of root's compute domain, and the next round may follow. -/
theorem C73_scatter (c : Comm) (hl : FloatSafe c.layout) (junk : List Nat → α)
    (dims : List Dim) (cells : List Int) (hpos : 0 < dims.length)
    (g : Quantity α) (hg : g.GlobalShaped c dims cells)
    (send recv : Int → Option (Quantity α)) (hsend : send 0 = some g)
    (hrecv : ∀ r ∈ c.ranks, ∀ q, recv r = some q → q.RankShaped dims cells)
    (b : Board α) (hb : b.Settled c) (order : List Int) (ho : RootFirst c order) :
    ∃ (out : Int → Quantity α) (b' : Board α),
      each (fun r => OneProcess.scatter c junk r (send r) (recv r)) order b = (.ok (order.map out), b') ∧
      b'.Settled c ∧
      ∀ r ∈ c.ranks, IsPart c dims cells g (out r) r ∧
        (∀ q, recv r = some q → q.Refilled (out r)) ∧
        (recv r = none → FreshPart (out r) dims cells g.units) := by
  obtain ⟨out, h1, h2⟩ := scatter_spread hl junk hpos hg send recv hsend hrecv
  obtain ⟨b', h3, h4⟩ := h1.run hb ho
  exact ⟨out, b', h3, h4, fun r hr => ⟨(h2 r hr).part, (h2 r hr).given, (h2 r hr).fresh⟩⟩

/-- **C73**: the same for `scatter_state`. -/
theorem C73_scatter_state (c : Comm) (hl : FloatSafe c.layout) (junk : List Nat → α)
    (vdims : String → List Dim) (vcells : String → List Int) (vqty : String → Quantity α)
    (s : CState α) (hnd : s.keys.Nodup) (time : Option Int) (htime : s.get? "time" = time.map .time)
    (hs : ∀ v ∈ s.keys, v ≠ "time" → s.get? v = some (.qty (vqty v)) ∧ 0 < (vdims v).length ∧
      (vqty v).GlobalShaped c (vdims v) (vcells v))
    (send recv : Int → Option (CState α)) (hsend : send 0 = some s)
    (hst : ∀ r ∈ c.ranks, ∀ st, recv r = some st → st.keys.Nodup ∧ ∀ v ∈ s.keys, v ≠ "time" → ∀ x,
      st.get? v = some x → ∃ q, x = .qty q ∧ q.RankShaped (vdims v) (vcells v))
    (b : Board α) (hb : b.Settled c) (order : List Int) (ho : RootFirst c order) :
    ∃ (out : Int → CState α) (b' : Board α),
      each (fun r => OneProcess.scatterState c junk r (send r) (recv r)) order b = (.ok (order.map out), b') ∧
      b'.Settled c ∧
      ∀ r ∈ c.ranks, (out r).get? "time" = s.get? "time" ∧
        (∀ v ∉ s.keys, v ≠ "time" → (out r).get? v = ((recv r).getD []).get? v) ∧
        ∀ v ∈ s.keys, v ≠ "time" →
          ScatteredInto c (vdims v) (vcells v) (vqty v) (((recv r).getD []).get? v) ((out r).get? v) r := by
  obtain ⟨out, h1, h2⟩ := scatterState_spread hl junk vdims vcells vqty s hnd time htime hs send recv hsend hst
  obtain ⟨b', h3, h4⟩ := h1.run hb ho
  exact ⟨out, b', h3, h4, h2⟩

/-- All ranks but 0, as used by the calls of `order`. -/
theorem rootLast_rest {c : Comm} {order : List Int} (ho : RootLast c order) :
    ∃ rest, order = rest ++ [0] ∧ rest.Nodup ∧ (0 : Int) ∈ c.ranks ∧ ∀ r, r ∈ rest ↔ r ∈ c.ranks ∧ r ≠ 0 := by
  obtain ⟨rest, rfl, hp⟩ := ho
  have hnd : (rest ++ [0] : List Int).Nodup := hp.nodup_iff.2 (ranks_nodup c)
  rw [List.nodup_append] at hnd
  refine ⟨rest, rfl, hnd.1, hp.mem_iff.1 (by simp), fun r => ⟨fun h => ⟨hp.mem_iff.1 (by simp [h]), ?_⟩, fun ⟨h, h0⟩ => ?_⟩⟩
  · exact hnd.2.2 r h 0 (by simp)
  · have := hp.mem_iff.2 h
    rw [List.mem_append, List.mem_singleton] at this
    exact this.resolve_right h0

/-- **C73**: after any rounds of calls, and whatever these left in the slots, `gather` called on rank 0 after the others
returns on rank 0 the global quantity, in which every point has the value of the highest rank that has it, and `None` on
the others. -/
theorem C73_gather (c : Comm) (hl : FloatSafe c.layout) (junk : List Nat → α)
    (dims : List Dim) (cells : List Int) (ky kx : Nat) (ha : HAxes dims ky kx)
    (hb : ∀ k, k < dims.length → cells.getD k 0 * ranksAlong c.layout (dims.getD k .x) < 2 ^ 51)
    (send : Int → Quantity α) (recv : Int → Option (Quantity α))
    (hsend : ∀ r ∈ c.ranks, (send r).RankShaped dims cells)
    (hrecv : ∀ q, recv 0 = some q → q.GlobalShaped c dims cells)
    (hdims : recv 0 = none → (send 0).dims = dims)
    (b : Board α) (hs : b.Settled c) (order : List Int) (ho : RootLast c order) :
    ∃ (root : Quantity α) (b' : Board α),
      each (fun r => OneProcess.gather c junk r (send r) (recv r)) order b =
        (.ok (order.map fun r => if r = 0 then some root else none), b') ∧
      b'.Settled c ∧
      root.GlobalShaped c dims cells ∧
      (∀ q, recv 0 = some q → q.Refilled root) ∧
      (recv 0 = none → FreshGlobal c root dims cells (send 0).units) ∧
      GatheredFrom c dims cells send root := by
  have hpos : 0 < dims.length := by have := ha.ylt; omega
  obtain ⟨rest, rfl, hnd, h0mem, hmem⟩ := rootLast_rest ho
  have hrest : ∀ r ∈ rest, 0 < r ∧ r.toNat < b.slots.length := by
    intro r hr
    have h1 := (mem_ranks c r).1 ((hmem r).1 hr).1
    have h2 := ((hmem r).1 hr).2
    rw [hs.slots]
    omega
  obtain ⟨slots, e1, e2, e3, -⟩ := each_leaves (fun r => OneProcess.gather c junk r (send r) (recv r)) (fun _ => none) send
    rest hnd (fun r hr => (hrest r hr).1)
    (fun r hr => gather_leaves c junk (hrest r hr).1 hpos (hsend r ((hmem r).1 hr).1) _) b (fun r hr => (hrest r hr).2)
  obtain ⟨root, slots', f1, f2, -, f4⟩ := gather_root_ok hl junk hpos hb send (recv 0) hsend hrecv hdims
    { b with slots := slots } (e2.trans hs.slots) (fun r hr h0 => e3 r ((hmem r).2 ⟨hr, h0⟩))
  refine ⟨root, { b with slots := slots' }, ?_, ⟨hs.bcasts, hs.scatters, f2⟩, f4.shaped, f4.given,
    fun h => (f4.fresh h).1, f4.gathered hl ha (hsend 0 h0mem)⟩
  rw [each_append _ _ _ _ _ _ e1, each_cons, f1]
  show (Except.ok _, _) = (Except.ok _, _)
  rw [List.map_append, List.map_cons, List.map_nil, if_pos rfl]
  congr 3
  apply List.map_congr_left
  intro r hr
  rw [if_neg ((hmem r).1 hr).2]

/-- **C73** (limit): called on rank 0 before another rank, `gather` does not wait: if all ranks have gathered before, it
silently returns, for the other ranks, what these gathered then (`old`). -/
theorem C73_limit_gather_order (c : Comm) (hl : FloatSafe c.layout) (junk : List Nat → α)
    (dims : List Dim) (cells : List Int) (ky kx : Nat) (ha : HAxes dims ky kx)
    (hb : ∀ k, k < dims.length → cells.getD k 0 * ranksAlong c.layout (dims.getD k .x) < 2 ^ 51)
    (old : Int → Quantity α) (recv : Int → Option (Quantity α))
    (hold : ∀ r ∈ c.ranks, (old r).RankShaped dims cells)
    (hrecv : ∀ q, recv 0 = some q → q.GlobalShaped c dims cells)
    (hdims : recv 0 = none → (old 0).dims = dims)
    (new : Quantity α) (hnew : new.RankShaped dims cells) (hnd : new.dims = dims)
    (b : Board α) (hs : b.Settled c) (order : List Int) (ho : RootLast c order) :
    ∃ (outs : List (Option (Quantity α))) (b' b'' : Board α) (root : Quantity α),
      each (fun r => OneProcess.gather c junk r (old r) (recv r)) order b = (.ok outs, b') ∧
      OneProcess.gather c junk 0 new none b' = (.ok (some root), b'') ∧
      GatheredFrom c dims cells (fun r => if r = 0 then new else old r) root := by
  have hpos : 0 < dims.length := by have := ha.ylt; omega
  obtain ⟨rest, rfl, hndr, h0mem, hmem⟩ := rootLast_rest ho
  have hrest : ∀ r ∈ rest, 0 < r ∧ r.toNat < b.slots.length := by
    intro r hr
    have h1 := (mem_ranks c r).1 ((hmem r).1 hr).1
    have h2 := ((hmem r).1 hr).2
    rw [hs.slots]
    omega
  obtain ⟨slots, e1, e2, e3, -⟩ := each_leaves (fun r => OneProcess.gather c junk r (old r) (recv r)) (fun _ => none) old
    rest hndr (fun r hr => (hrest r hr).1)
    (fun r hr => gather_leaves c junk (hrest r hr).1 hpos (hold r ((hmem r).1 hr).1) _) b (fun r hr => (hrest r hr).2)
  obtain ⟨root, slots', f1, f2, f3, -⟩ := gather_root_ok hl junk hpos hb old (recv 0) hold hrecv hdims
    { b with slots := slots } (e2.trans hs.slots) (fun r hr h0 => e3 r ((hmem r).2 ⟨hr, h0⟩))
  have hsend : ∀ r ∈ c.ranks, (if r = 0 then new else old r).RankShaped dims cells := by
    intro r hr
    split_ifs
    · exact hnew
    · exact hold r hr
  obtain ⟨root', slots'', g1, -, -, g4⟩ := gather_root_ok hl junk hpos hb (fun r => if r = 0 then new else old r) none hsend
    (by simp) (by intro _; simpa using hnd) { b with slots := slots' } f2 (fun r hr h0 => by
      simp only [if_neg h0]; exact f3 r hr)
  refine ⟨rest.map (fun _ => none) ++ [some root], _, _, root', ?_, g1, g4.gathered hl ha (hsend 0 h0mem)⟩
  rw [each_append _ _ _ _ _ _ e1, each_cons, f1]
  rfl

/-- **C73**: `gather_state`, called on rank 0 after the others, for states whose variables have the same compute domain:
every variable of rank 0's result has rank 0's own values, but of every other rank the values of the **last** variable of its
state, as there is one slot for each rank. -/
theorem C73_gather_state (c : Comm) (hl : FloatSafe c.layout) (junk : List Nat → α)
    (dims : List Dim) (cells : List Int) (ky kx : Nat) (ha : HAxes dims ky kx)
    (hb : ∀ k, k < dims.length → cells.getD k 0 * ranksAlong c.layout (dims.getD k .x) < 2 ^ 51)
    (names pre post : List String) (last : String) (hnames : names = pre ++ last :: post) (hnd : names.Nodup)
    (hlast : last ≠ "time") (hpost : ∀ v ∈ post, v = "time")
    (val : Int → String → SVal α) (part : Int → String → Quantity α)
    (hv : ∀ v ∈ names, v ≠ "time" → ∀ r ∈ c.ranks, val r v = .qty (part r v) ∧ (part r v).RankShaped dims cells)
    (recv : Int → Option (CState α))
    (hst : ∀ v ∈ names, v ≠ "time" →
      (∀ x, ((recv 0).getD []).get? v = some x → ∃ q, x = .qty q ∧ q.GlobalShaped c dims cells) ∧
      (((recv 0).getD []).get? v = none → (part 0 v).dims = dims))
    (b : Board α) (hs : b.Settled c) (order : List Int) (ho : RootLast c order) :
    ∃ (out : CState α) (b' : Board α),
      each (fun r => OneProcess.gatherState c junk r (names.map fun v => (v, val r v)) (recv r)) order b =
        (.ok (order.map fun r => if r = 0 then some out else recv r), b') ∧
      b'.Settled c ∧
      (∀ v ∉ names, out.get? v = ((recv 0).getD []).get? v) ∧
      ("time" ∈ names → out.get? "time" = some (val 0 "time")) ∧
      ∀ v ∈ names, v ≠ "time" →
        GatheredInto c dims cells (fun r => part r (if r = 0 then v else last)) (((recv 0).getD []).get? v) (out.get? v) := by
  have hpos : 0 < dims.length := by have := ha.ylt; omega
  obtain ⟨rest, rfl, hndr, h0mem, hmem⟩ := rootLast_rest ho
  have hrest : ∀ r ∈ rest, 0 < r ∧ r.toNat < b.slots.length := by
    intro r hr
    have h1 := (mem_ranks c r).1 ((hmem r).1 hr).1
    have h2 := ((hmem r).1 hr).2
    rw [hs.slots]
    omega
  have hlm : last ∈ names := by rw [hnames]; simp
  obtain ⟨slots, e1, e2, e3, -⟩ := each_leaves
    (fun r => OneProcess.gatherState c junk r (names.map fun v => (v, val r v)) (recv r)) recv (fun r => part r last)
    rest hndr (fun r hr => (hrest r hr).1)
    (fun r hr => by
      have hr' := ((hmem r).1 hr).1
      have h0 := ((hmem r).1 hr).2
      unfold OneProcess.gatherState
      rw [if_neg (show ¬ r = ROOT_RANK from h0), hnames, List.map_append, List.map_cons, (hv last hlm hlast r hr').1]
      refine gatherLoop_leaves c junk (hrest r hr).1 hpos _ _ last hlast _ (hv last hlm hlast r hr').2 ?_ ?_ _
      · intro e he hne
        obtain ⟨v, hvm, rfl⟩ := List.mem_map.1 he
        exact ⟨part r v, hv v (by rw [hnames]; simp [hvm]) hne r hr'⟩
      · intro e he
        obtain ⟨v, hvm, rfl⟩ := List.mem_map.1 he
        exact hpost v hvm)
    b (fun r hr => (hrest r hr).2)
  obtain ⟨out, slots', f1, f2, f3, f4, f5⟩ := gatherLoop_root hl junk ha hb (val 0) (part 0) (fun r => part r last)
    (fun r hr => (hv last hlm hlast r hr).2) names hnd (fun v hvm hne => hv v hvm hne 0 h0mem) ((recv 0).getD []) hst
    { b with slots := slots } (e2.trans hs.slots) (fun r hr h0 => e3 r ((hmem r).2 ⟨hr, h0⟩))
  refine ⟨out, { b with slots := slots' }, ?_, ⟨hs.bcasts, hs.scatters, f2⟩, f3, f4, ?_⟩
  · have f1' : OneProcess.gatherState c junk 0 (names.map fun v => (v, val 0 v)) (recv 0) { b with slots := slots } =
        (.ok (some out), { b with slots := slots' }) := f1
    rw [each_append _ _ _ _ _ _ e1, each_cons, f1']
    show (Except.ok _, _) = (Except.ok _, _)
    rw [List.map_append, List.map_cons, List.map_nil, if_pos rfl]
    congr 3
    apply List.map_congr_left
    intro r hr
    rw [if_neg ((hmem r).1 hr).2]
  · intro v hvm hne
    have := f5 v hvm hne
    have e : (fun r => if r = 0 then part 0 v else part r last) = fun r : Int => part r (if r = 0 then v else last) := by
      funext r
      split_ifs with h
      · rw [h]
      · rfl
    rwa [e] at this

/-- **C73**: so a state with one variable (and perhaps the time) is gathered as it should be. -/
theorem C73_gather_state_single (c : Comm) (hl : FloatSafe c.layout) (junk : List Nat → α)
    (dims : List Dim) (cells : List Int) (ky kx : Nat) (ha : HAxes dims ky kx)
    (hb : ∀ k, k < dims.length → cells.getD k 0 * ranksAlong c.layout (dims.getD k .x) < 2 ^ 51)
    (names : List String) (var : String) (hvar : var ∈ names) (hne : var ≠ "time") (hnd : names.Nodup)
    (hone : ∀ v ∈ names, v = var ∨ v = "time")
    (val : Int → String → SVal α) (part : Int → Quantity α)
    (hv : ∀ r ∈ c.ranks, val r var = .qty (part r) ∧ (part r).RankShaped dims cells)
    (recv : Int → Option (CState α))
    (hst : (∀ x, ((recv 0).getD []).get? var = some x → ∃ q, x = .qty q ∧ q.GlobalShaped c dims cells) ∧
      (((recv 0).getD []).get? var = none → (part 0).dims = dims))
    (b : Board α) (hs : b.Settled c) (order : List Int) (ho : RootLast c order) :
    ∃ (out : CState α) (b' : Board α),
      each (fun r => OneProcess.gatherState c junk r (names.map fun v => (v, val r v)) (recv r)) order b =
        (.ok (order.map fun r => if r = 0 then some out else recv r), b') ∧
      b'.Settled c ∧
      ("time" ∈ names → out.get? "time" = some (val 0 "time")) ∧
      GatheredInto c dims cells part (((recv 0).getD []).get? var) (out.get? var) := by
  obtain ⟨pre, post, e⟩ := List.append_of_mem hvar
  have hpost : ∀ v ∈ post, v = "time" := by
    intro v hvm
    refine (hone v (by rw [e]; simp [hvm])).resolve_left ?_
    rintro rfl
    rw [e, List.nodup_append, List.nodup_cons] at hnd
    exact hnd.2.1.1 hvm
  obtain ⟨out, b', h1, h2, -, h4, h5⟩ := C73_gather_state c hl junk dims cells ky kx ha hb names pre post var e hnd hne hpost
    val (fun r _ => part r)
    (by
      intro v hvm hvt r hr
      obtain rfl := (hone v hvm).resolve_right hvt
      exact hv r hr)
    recv
    (by
      intro v hvm hvt
      obtain rfl := (hone v hvm).resolve_right hvt
      exact hst)
    b hs order ho
  exact ⟨out, b', h1, h2, h4, h5 var hvar hne⟩

/-- **C73** (limit): on new communicators it raises ConcurrencyError, if there is another rank. -/
theorem C73_limit_gather_first (c : Comm) (junk : List Nat → α) (h2 : 1 < c.size) (dims : List Dim) (cells : List Int)
    (hpos : 0 < dims.length) (send : Quantity α) (hsend : send.RankShaped dims cells) (recv : Option (Quantity α)) :
    (OneProcess.gather c junk 0 send recv (Board.new c.size.toNat)).1 = .error .concurrency := by
  obtain ⟨a, h1, -, -⟩ := C29_view_all send hsend.wf (by rw [rankShaped_ndim hsend]; exact hpos)
  obtain ⟨n, hn⟩ : ∃ n, c.size.toNat = n + 1 + 1 := ⟨c.size.toNat - 2, by omega⟩
  unfold OneProcess.gather
  rw [h1]
  show (DM.bind (gatherArr 0 a) _ _).1 = _
  unfold DM.bind gatherArr Dummy.gather Board.new
  rw [hn]
  simp [List.replicate_succ, List.mapM_cons]

/-- **C73** (limit): `scatter` on another rank before rank 0 raises IndexError. -/
theorem C73_limit_scatter_order (c : Comm) (junk : List Nat → α) (b : Board α) (hb : b.Settled c) (r : Int)
    (hr : r ∈ c.ranks) (h0 : r ≠ 0) (send recv : Option (Quantity α)) :
    (OneProcess.scatter c junk r send recv b).1 = .error .indexError := by
  unfold OneProcess.scatter
  rw [if_neg (show ¬ r = ROOT_RANK from h0)]
  show (DM.bind (OneProcess.bcast r _) _ _).1 = _
  unfold DM.bind OneProcess.bcast Dummy.bcast
  simp only [if_neg h0, hb.bcasts r hr]
  rw [List.getElem?_eq_none (by omega)]

/-- **C73**: a round of `scatter` and a round of `gather` of the parts give root's compute domain back. -/
theorem C73_round_trip (c : Comm) (hl : FloatSafe c.layout) (junk junk' : List Nat → α)
    (dims : List Dim) (cells : List Int) (ky kx : Nat) (ha : HAxes dims ky kx)
    (g : Quantity α) (hg : g.GlobalShaped c dims cells) (send : Int → Option (Quantity α)) (hsend : send 0 = some g)
    (b : Board α) (hb : b.Settled c) (order order' : List Int) (ho : RootFirst c order) (ho' : RootLast c order') :
    ∃ (parts : Int → Quantity α) (b1 b2 : Board α) (root : Quantity α),
      each (fun r => OneProcess.scatter c junk r (send r) none) order b = (.ok (order.map parts), b1) ∧
      each (fun r => OneProcess.gather c junk' r (parts r) none) order' b1 =
        (.ok (order'.map fun r => if r = 0 then some root else none), b2) ∧
      b2.Settled c ∧ root.dims = g.dims ∧ root.extent = g.extent ∧ root.computeArr.Eqv g.computeArr := by
  have hpos : 0 < dims.length := by have := ha.ylt; omega
  have hsize := comm_size_pos hl
  have h0mem : (0 : Int) ∈ c.ranks := (mem_ranks c 0).2 ⟨by omega, hsize⟩
  have hsm : ∀ k, k < dims.length → cells.getD k 0 * ranksAlong c.layout (dims.getD k .x) < 2 ^ 51 := by
    intro k hk
    have h := hg.extent
    cases c with
    | tile l => exact (tileOf_getD h hk).2.1
    | cube l =>
      obtain ⟨t, -, ht⟩ := h
      exact (tileOf_getD ht hk).2.1
  obtain ⟨parts, s1, s2⟩ := scatter_spread hl junk hpos hg send (fun _ => none) hsend (by simp)
  obtain ⟨b1, e1, e2⟩ := s1.run hb ho
  obtain ⟨root, b2, g1, g2, g3, -, -, g6⟩ := C73_gather c hl junk' dims cells ky kx ha hsm parts (fun _ => none)
    (fun r hr => (s2 r hr).shaped) (by simp) (fun _ => ((s2 0 h0mem).fresh rfl).names) b1 e2 order' ho'
  have hext : root.extent = g.extent := globalExtent_unique g3.extent hg.extent
  refine ⟨parts, b1, b2, root, e1, g1, g2, g3.names.trans hg.names.symm, hext, ?_, ?_⟩
  · show root.extent.map _ = g.extent.map _
    rw [hext]
  · intro p hp
    obtain ⟨r, rel, ⟨hr, hrel, -⟩, rfl, hv⟩ := g6 p hp
    rw [hv, (s2 r hr).part rel]
    have h0 : (parts 0).computeArr.shape = rankShape dims cells := rankOf_shape (s2 0 h0mem).shaped.extent
    have h1 : (parts r).computeArr.shape = rankShape dims cells := rankOf_shape (s2 r hr).shaped.extent
    rw [h1, ← h0]; exact hrel

/-- One slot and more rows. -/
theorem fillRows_one (junk : List Nat → α) (n : Nat) {shape : List Nat} (hs : shape ≠ []) (a : NDArray α)
    (ha : a.shape = shape) : fillRows junk (n + 1) shape [a] = .ok (a :: List.replicate n ⟨shape, junk⟩) := by
  unfold fillRows
  rw [castRows_ok hs [a] (by simpa using ha)]
  simp [bind, Except.bind, Pure.pure, Except.pure]

/-- **C73** (limit): over DummyComm, the tile communicator of every rank has this rank only, as its rank 0 (C48).  For a
layout with more ranks `gather` on it succeeds, and the result has the rank's values at the place of the first rank of the
tile, and elsewhere whatever was in the memory of the receive buffer. -/
theorem C73_limit_tile (l : Layout) (hl : FloatSafe l) (junk : List Nat → α)
    (dims : List Dim) (cells : List Int) (ky kx : Nat) (ha : HAxes dims ky kx)
    (hb : ∀ k, k < dims.length → cells.getD k 0 * ranksAlong l (dims.getD k .x) < 2 ^ 51)
    (send : Quantity α) (hsend : send.RankShaped dims cells) (hd : send.dims = dims) :
    ∃ (root : Quantity α) (b' : Board α),
      OneProcess.gather (.tile l) junk 0 send none (Board.new 1) = (.ok (some root), b') ∧
      root.GlobalShaped (.tile l) dims cells ∧
      ∀ r rel, HighestAt (.tile l) dims cells send.computeArr.shape r rel →
        root.computeArr.get ((Comm.tile l).place dims cells r rel) = if r = 0 then send.computeArr.get rel else junk rel := by
  have hpos : 0 < dims.length := by have := ha.ylt; omega
  have hl' : FloatSafe (Comm.tile l).layout := hl
  have hsize := comm_size_pos hl'
  have hsh : send.computeArr.shape = rankShape dims cells := rankOf_shape hsend.extent
  obtain ⟨a, h1, h2, h3⟩ := C29_view_all send hsend.wf (by rw [rankShaped_ndim hsend]; exact hpos)
  have h2' : a.shape = rankShape dims cells := h2.trans (rankOf_shape hsend.extent)
  obtain ⟨rq, q1, q2, -⟩ := gatherRecv_fresh hl' junk (globalExtent_ok (c := .tile l) hsend.extent hb) send.metadata hd
  rw [← hd] at q1
  let blk : Int → NDArray α := fun r => if r = 0 then a else ⟨rankShape dims cells, junk⟩
  have hblk : ∀ r, (blk r).shape = rankShape dims cells := by
    intro r
    show (if r = 0 then a else _).shape = _
    split_ifs
    · exact h2'
    · rfl
  obtain ⟨root, s1, s2, -, s4⟩ := gatherStore_ok hl' hpos ((Comm.tile l).ranks.map fun r => (r, blk r)) (by
      intro p hp
      obtain ⟨r, hr, rfl⟩ := List.mem_map.1 hp
      exact ⟨hr, hblk r⟩)
    (by rw [List.pairwise_map]; exact ranks_pairwise _) rq q2.shaped
  have hne : rankShape dims cells ≠ [] := by
    intro e
    have := hsend.extent.2.1
    have h2 := congrArg List.length ((rankOf_shape hsend.extent).trans e)
    rw [List.length_map, List.length_nil] at h2
    omega
  obtain ⟨n, hn⟩ : ∃ n, (Comm.tile l).size.toNat = n + 1 := ⟨(Comm.tile l).size.toNat - 1, by omega⟩
  have hz : (Comm.tile l).ranks.zip (a :: List.replicate n ⟨rankShape dims cells, junk⟩) =
      (Comm.tile l).ranks.map fun r => (r, blk r) := by
    have hm : (Comm.tile l).ranks.map blk = a :: List.replicate n ⟨rankShape dims cells, junk⟩ := by
      unfold Comm.ranks
      rw [hn, List.range_succ_eq_map, List.map_cons, List.map_cons]
      congr 1
      rw [List.map_map, List.map_map]
      apply List.eq_replicate_iff.2
      refine ⟨by simp, ?_⟩
      intro x hx
      obtain ⟨i, -, rfl⟩ := List.mem_map.1 hx
      exact if_neg (t := a) (show ¬ ((i + 1 : Nat) : Int) = 0 by omega)
    rw [← hm, zip_map_self]
  refine ⟨root, _, gather_root (.tile l) junk send none h1 (Board.new 1) (rows := [a]) rfl
    (by rw [hn, rankOf_shape hsend.extent]; exact fillRows_one junk n hne a h2') q1 (by rw [hz]; exact s1),
    s2.globalShaped q2.shaped, ?_⟩
  intro r rel hH
  obtain ⟨hr, hrel, hmax⟩ := hH
  rw [hsh] at hrel hmax
  have := s4 (r, blk r) (List.mem_map.2 ⟨r, hr, rfl⟩) rel hrel (by
      intro p' hp' rel' hrel' he
      obtain ⟨r', hr', rfl⟩ := List.mem_map.1 hp'
      exact hmax r' hr' rel' hrel' he)
  simp only at this
  rw [this]
  show (if r = 0 then a else _).get rel = _
  split_ifs
  · exact h3 rel (by rw [h2']; exact hrel)
  · rfl

/-! ### An example -/

/-- All twelve ranks, the others in decreasing order. -/
def exOrder : List Int := [11, 10, 9, 8, 7, 6, 5, 4, 3, 2, 1]

example : RootFirst (.cube ⟨1, 2⟩) (0 :: exOrder) ∧ RootLast (.cube ⟨1, 2⟩) (exOrder ++ [0]) :=
  ⟨⟨_, rfl, by decide⟩, ⟨_, rfl, by decide⟩⟩

example (b : Board Nat) (hb : b.Settled (.cube ⟨1, 2⟩)) :
    ∃ (out : Int → Quantity Nat) (b' : Board Nat),
      each (fun r => OneProcess.scatter (.cube ⟨1, 2⟩) (fun _ => 0) r (if r = 0 then some exGlobal else none)
        (if r = 11 then some exPart else none)) (0 :: exOrder) b = (.ok ((0 :: exOrder).map out), b') ∧
      (out 11).computeArr.get [1, 3] = 527 := by
  have hl : FloatSafe (Comm.cube ⟨1, 2⟩).layout := C05_safe_up_to_48 _ (by decide) (by decide) (by decide) (by decide)
  obtain ⟨out, b', h1, -, h2⟩ := C73_scatter (.cube ⟨1, 2⟩) hl (fun _ => 0) [.y, .xI] [2, 3] (by decide) exGlobal
    exGlobal_shaped (fun r => if r = 0 then some exGlobal else none) (fun r => if r = 11 then some exPart else none) rfl
    (by
      intro r _ q hq
      split at hq
      · cases hq; exact exPart_shaped
      · cases hq) b hb (0 :: exOrder) ⟨_, rfl, by decide⟩
  refine ⟨out, b', h1, ?_⟩
  obtain ⟨p1, p2, -⟩ := h2 11 (by decide)
  have hre := p2 exPart rfl
  have hs : (out 11).computeArr.shape = [2, 4] := by
    show (out 11).extent.map _ = _
    rw [hre.extent]; rfl
  rw [p1 [1, 3] (by rw [hs]; decide)]
  decide

/-- A variable of rank `r`: one point. -/
def exVar (r : Int) (v : String) : Quantity Int :=
  { data := ⟨[1, 1], fun _ => 10 * r + if v = "a" then 1 else 2⟩, dims := [.y, .x], units := "m", origin := [0, 0],
    extent := [1, 1] }

theorem exVar_shaped (r : Int) (v : String) : (exVar r v).RankShaped [.y, .x] [1, 1] := by
  refine ⟨⟨⟨rfl, rfl, rfl⟩, ?_⟩, rfl, rfl, ?_⟩
  · show ∀ k, k < 2 → 0 ≤ [(0 : Int), 0].getD k 0 ∧ 0 ≤ [(1 : Int), 1].getD k 0 ∧
      [(0 : Int), 0].getD k 0 + [(1 : Int), 1].getD k 0 ≤ (([1, 1] : List Nat).getD k 0 : Nat)
    decide
  intro k d c t hd hc ht
  match k with
  | 0 => simp [exVar] at hd hc ht; subst hd hc ht; decide
  | 1 => simp [exVar] at hd hc ht; subst hd hc ht; decide
  | k + 2 => simp at hd

/-- **C73** (limit, example): two ranks beside each other gather a state with variables "a" and "b".  In "a" of the result,
the point of rank 1 has rank 1's "b". -/
theorem C73_limit_gather_state : ∃ (out : CState Int) (b' : Board Int) (q : Quantity Int),
    each (fun r => OneProcess.gatherState (.tile ⟨1, 2⟩) (fun _ => 0) r
      [("a", .qty (exVar r "a")), ("b", .qty (exVar r "b"))] none) [1, 0] (Board.new 2) = (.ok [none, some out], b') ∧
    out.get? "a" = some (.qty q) ∧ q.computeArr.shape = [1, 2] ∧
    q.computeArr.get [0, 1] = (exVar 1 "b").computeArr.get [0, 0] ∧
    (exVar 1 "b").computeArr.get [0, 0] ≠ (exVar 1 "a").computeArr.get [0, 0] := by
  have hl : FloatSafe (Comm.tile ⟨1, 2⟩).layout := C05_safe_up_to_48 _ (by decide) (by decide) (by decide) (by decide)
  have ha : HAxes [.y, .x] 0 1 := by
    refine ⟨?_, ?_, by decide, by decide⟩ <;>
    · intro k d hd
      match k with
      | 0 => simp at hd; subst hd; decide
      | 1 => simp at hd; subst hd; decide
      | k + 2 => simp at hd
  obtain ⟨out, b', h1, -, -, -, h5⟩ := C73_gather_state (.tile ⟨1, 2⟩) hl (fun _ => (0 : Int)) [.y, .x] [1, 1] 0 1 ha
    (by decide) ["a", "b"] ["a"] [] "b" rfl (by decide) (by decide) (by simp) (fun r v => .qty (exVar r v)) exVar
    (fun v _ _ r _ => ⟨rfl, exVar_shaped r v⟩) (fun _ => none)
    (fun v _ _ => ⟨fun x (hx : none = some x) => (by cases hx), fun _ => rfl⟩)
    (Board.new 2) (C73_new (.tile ⟨1, 2⟩)) [1, 0] ⟨[1], rfl, by decide⟩
  obtain ⟨q, e1, e2, e3, -, -⟩ := h5 "a" (by decide) (by decide)
  have hs : q.computeArr.shape = [1, 2] := by
    show q.extent.map _ = _
    rw [globalExtent_unique e2.extent (ext' := [1, 2]) (by
      refine ⟨rfl, rfl, ?_⟩
      intro k d c t hd hc ht
      match k with
      | 0 => simp at hd hc ht; subst hd hc ht; decide
      | 1 => simp at hd hc ht; subst hd hc ht; decide
      | k + 2 => simp at hd)]
    rfl
  refine ⟨out, b', q, h1, e1, hs, ?_, by decide⟩
  obtain ⟨r, rel, ⟨hr, hrel, -⟩, hp, hv⟩ := e3 [0, 1] (by rw [hs]; decide)
  rw [hv]
  have hr' : r = 0 ∨ r = 1 := by
    have := (mem_ranks (.tile ⟨1, 2⟩) r).1 hr
    have h2 : (Comm.tile ⟨1, 2⟩).size = 2 := by decide
    omega
  have hrel' : InB [1, 1] rel := hrel
  have hz : rel = [0, 0] := by
    match rel, hrel' with
    | [i, j], h =>
      have h0 : i < 1 := h.1
      have h1 : j < 1 := h.2.1
      congr <;> omega
  subst hz
  rcases hr' with rfl | rfl
  · exact absurd hp (by decide)
  · rfl

end FV3
