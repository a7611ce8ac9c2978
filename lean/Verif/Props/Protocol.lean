import Verif.Proofs.Outstanding
import Verif.Props.Halo
import Verif.Props.Sync

/-!
# C22, C23: no deadlock, and no mixing of outstanding updates
-/

namespace FV3
variable {α : Type} [Neg α]

theorem ready_sound {l : Layout} {m : Int → Mem α} (hx : 0 < l.x) (hsq : l.y = l.x) {op : Op α}
    (hst : op.isStart = true) (h : UpdateReady l m op) : StartSound l (MetaIs m) op := by
  cases op with
  | halo q n =>
    obtain ⟨ky, kx, n', h1, h2, S⟩ := h
    exact halo_sound hx hsq h1 h2 S
  | vector x y n =>
    obtain ⟨ky, kx, n', h1, h2, S⟩ := h
    exact vector_sound hx hsq h1 h2 S
  | sync x y =>
    obtain ⟨ky, kx, n', S⟩ := h
    exact sync_sound hx hsq S
  | wait i => simp [Op.isStart] at hst
  | compute f => simp [Op.isStart] at hst

/-- **C22**: when all ranks make the same blocking calls on quantities distributed as the calls
expect, every schedule ends with every rank finished, whatever the buffering of sends, and the
result is that of performing each call on all ranks as one step. -/
theorem C22_blocking_calls {l : Layout} {m : Int → Mem α} {calls : List (Call α)} (hx : 0 < l.x)
    (hsq : l.y = l.x) (hr : ∀ c ∈ calls, ∀ op, c.start = some op → UpdateReady l m op)
    (hc : ∀ f, Call.compute f ∈ calls → ∀ r ∈ allRanks l, ∀ mem, MetaIs m r mem → MetaIs m r (f r mem))
    (buf : Buffering) :
    ∃ m' : Int → Mem α, CallsRun l calls m m' ∧
      (callNet l calls m).Completes buf fun r =>
        (.ok (), ⟨m' r, if r ∈ allRanks l then (calls.map Call.nTags).sum else 0, []⟩) := by
  obtain ⟨m', h1, -, h2⟩ := calls_bulk (l := l) (Good := MetaIs m) (calls := calls) (mem := m) buf
    (fun r _ q => SameMeta.refl _)
    (fun c hcs op ho => ready_sound hx hsq (by cases c <;> simp [Call.start] at ho <;> subst ho <;> rfl)
      (hr c hcs op ho)) hc
  exact ⟨m', h1, h2⟩

/-- The protocol when all ranks start and wait in the same order. -/
theorem same_order_completes {l : Layout} {m : Int → Mem α} {ops : List (Op α)} (hx : 0 < l.x)
    (hsq : l.y = l.x) (hr : ∀ op ∈ ops, UpdateReady l m op) (hws : WaitsStarted ops)
    (hwo : WaitsOnce ops) (hc : ComputesKeep l (MetaIs m) ops) (buf : Buffering) :
    ∃ fin, Consistent l (fun _ => ops) m fin ∧ (∀ r ∈ allRanks l, MetaIs m r (fin r).mem) ∧
      (cubeNet l (fun _ => ops) m).Completes buf fun r => (.ok (), (fin r).toRank) :=
  protocol_completes (l := l) (Good := MetaIs m) (starts := startsOf ops)
    (prog := fun _ => ops) (mem := m) (buf := buf) (T := fun j _ p => 3 * p + j)
    (B := fun _ p => 3 * p) (fun r _ q => SameMeta.refl _)
    (fun op ho => ready_sound hx hsq (List.mem_filter.1 ho).2 (hr op (List.mem_filter.1 ho).1))
    (fun _ _ => rfl) (fun _ _ => hws) (fun _ _ => hwo) (fun _ _ => hc)
    ⟨fun _ _ => by simp, fun _ _ => by simp, fun _ _ => by simp, fun _ _ => by omega,
      fun _ _ => by omega⟩
    ⟨fun r _ src _ d d' i op hd hd' hst hcnt => by
      have := hws d i hd
      have : d' < d := by
        by_contra hle
        have h := (List.take_sublist_take_left (l := ops) (show d ≤ d' by omega)).countP_le (p := Op.isStart)
        omega
      omega,
    fun r _ dst _ d i hd => Or.inr ⟨d, hd, by omega⟩⟩

/-- **C22** for programs which start updates and wait for them later: if all ranks start and
wait in the same order, every schedule ends with every rank finished, whatever the buffering
of sends. -/
theorem C22_same_order {l : Layout} {m : Int → Mem α} {ops : List (Op α)} (hx : 0 < l.x)
    (hsq : l.y = l.x) (hr : ∀ op ∈ ops, UpdateReady l m op) (hws : WaitsStarted ops)
    (hwo : WaitsOnce ops) (hc : ComputesKeep l (MetaIs m) ops) (buf : Buffering) :
    ∃ fin, Consistent l (fun _ => ops) m fin ∧
      (cubeNet l (fun _ => ops) m).Completes buf fun r => (.ok (), (fin r).toRank) := by
  obtain ⟨fin, h1, -, h2⟩ := same_order_completes hx hsq hr hws hwo hc buf
  exact ⟨fin, h1, h2⟩

/-- **C23**: all ranks start the same updates in the same order, and each rank waits for them in
an order of its own, computing in between; sends are buffered.  Every schedule ends with every
rank finished, and each wait stores the arrays which the other ranks packed for the update of
that number (`Consistent`). -/
theorem C23_outstanding {l : Layout} {m : Int → Mem α} {starts : List (Op α)}
    {prog : Int → List (Op α)} (hx : 0 < l.x) (hsq : l.y = l.x)
    (hr : ∀ op ∈ starts, UpdateReady l m op)
    (hst : ∀ r ∈ allRanks l, startsOf (prog r) = starts)
    (hws : ∀ r ∈ allRanks l, WaitsStarted (prog r)) (hwo : ∀ r ∈ allRanks l, WaitsOnce (prog r))
    (hc : ∀ r ∈ allRanks l, ComputesKeep l (MetaIs m) (prog r))
    (buf : Buffering) (hbuf : ∀ r ∈ allRanks l, ∀ dst ∈ allRanks l, ∀ t i, buf r dst t i = true) :
    ∃ fin, Consistent l prog m fin ∧
      (cubeNet l prog m).Completes buf fun r => (.ok (), (fin r).toRank) := by
  obtain ⟨fin, h1, -, h2⟩ := protocol_completes (l := l) (Good := MetaIs m) (starts := starts)
    (prog := prog) (mem := m) (buf := buf) (T := fun j k _ => if j = 0 then 2 * k + 1 else 2 * k)
    (B := fun k _ => 2 * k) (fun r _ q => SameMeta.refl _)
    (fun op ho => ready_sound hx hsq (by
      by_cases hne : ∃ r, r ∈ allRanks l
      · obtain ⟨r, hr'⟩ := hne
        rw [← hst r hr'] at ho
        exact (List.mem_filter.1 ho).2
      · exfalso
        apply hne
        refine ⟨0, ?_⟩
        have : 0 < l.cubeRanks := by
          simp only [Layout.cubeRanks, Layout.tileRanks, hsq]; positivity
        exact List.mem_map.2 ⟨0, List.mem_range.2 (by omega), rfl⟩) (hr op ho))
    hst hws hwo hc
    ⟨fun _ _ => by simp, fun _ _ => by simp, fun _ _ => by simp, fun _ _ => by simp; omega,
      fun _ _ => by simp⟩
    ⟨fun r hr' src _ d d' i op hd hd' hst hcnt => by
      have := hws r hr' d i hd
      simp only [if_true]
      rw [if_neg (by decide)]
      omega,
    fun r hr' dst hd' d i hd => Or.inl fun t => hbuf r hr' dst hd' t 0⟩
  exact ⟨fin, h1, h2⟩

/-- **C23** for updates of different quantities: each update has, on its own quantities, the
effect it has when it is performed alone on all ranks, whatever is started or waited for in
between and in whatever order each rank waits. -/
theorem C23_as_alone {l : Layout} {m : Int → Mem α} {starts : List (Op α)}
    {prog : Int → List (Op α)} (hx : 0 < l.x) (hsq : l.y = l.x)
    (hr : ∀ op ∈ starts, UpdateReady l m op) (hdis : DisjointUpdates starts)
    (hst : ∀ r ∈ allRanks l, startsOf (prog r) = starts)
    (hws : ∀ r ∈ allRanks l, WaitsStarted (prog r)) (hwo : ∀ r ∈ allRanks l, WaitsOnce (prog r))
    (hall : ∀ r ∈ allRanks l, ∀ k, k < starts.length → Op.wait k ∈ prog r)
    (hc : ∀ r ∈ allRanks l, ComputesKeep l (MetaIs m) (prog r))
    (hc' : ∀ r ∈ allRanks l, ComputesElsewhere l starts (prog r))
    (buf : Buffering) (hbuf : ∀ r ∈ allRanks l, ∀ dst ∈ allRanks l, ∀ t i, buf r dst t i = true) :
    ∃ fin : Int → Local α, ((cubeNet l prog m).Completes buf fun r => (.ok (), (fin r).toRank)) ∧
      ∀ op ∈ starts, ∃ m', UpdateStep l op m m' ∧
        ∀ r ∈ allRanks l, ∀ q ∈ op.qs, (fin r).mem q = m' r q := by
  obtain ⟨fin, h1, h2⟩ := C23_outstanding hx hsq hr hst hws hwo hc buf hbuf
  refine ⟨fin, h2, fun op ho => ?_⟩
  obtain ⟨k, hk⟩ := List.getElem?_of_mem ho
  have hlt := (List.getElem?_eq_some_iff.1 hk).1
  exact updates_alone h1 hst hwo hdis hc' k op hk fun r hr' => hall r hr' k hlt

/-- **C23** for scalar halo updates of different quantities: every halo holds the data of its own
quantity. -/
theorem C23_halos {l : Layout} {m : Int → Mem α} {starts : List (Op α)}
    {prog : Int → List (Op α)} (hx : 0 < l.x) (hsq : l.y = l.x)
    (hr : ∀ op ∈ starts, UpdateReady l m op) (hdis : DisjointUpdates starts)
    (hst : ∀ r ∈ allRanks l, startsOf (prog r) = starts)
    (hws : ∀ r ∈ allRanks l, WaitsStarted (prog r)) (hwo : ∀ r ∈ allRanks l, WaitsOnce (prog r))
    (hall : ∀ r ∈ allRanks l, ∀ k, k < starts.length → Op.wait k ∈ prog r)
    (hc : ∀ r ∈ allRanks l, ComputesKeep l (MetaIs m) (prog r))
    (hc' : ∀ r ∈ allRanks l, ComputesElsewhere l starts (prog r))
    (buf : Buffering) (hbuf : ∀ r ∈ allRanks l, ∀ dst ∈ allRanks l, ∀ t i, buf r dst t i = true) :
    ∃ fin : Int → Local α, ((cubeNet l prog m).Completes buf fun r => (.ok (), (fin r).toRank)) ∧
      ∀ q ky kx n h, 0 < h → h ≤ n → ScalarField l m q ky kx n h → Op.halo q h ∈ starts →
        HaloFilled l q ky kx n h m (fun r => (fin r).mem) := by
  obtain ⟨fin, h1, h2⟩ := C23_as_alone hx hsq hr hdis hst hws hwo hall hc hc' buf hbuf
  refine ⟨fin, h1, fun q ky kx n h hh hn S ho => ?_⟩
  obtain ⟨m', u1, u2⟩ := h2 _ ho
  have e := step_filled hx hsq hh hn S u1
  intro r idx t a b hat hi hsc
  simp only
  rw [u2 r hat.rank q (by simp [Op.qs])]
  exact e r idx t a b hat hi hsc

/-! ### The hypotheses can be met -/

/-- Quantities 0 and 1 are the components of the example vector on interfaces, the others are
example scalars. -/
def exMixMem (l : Layout) (F : Vec3 → (Nat → Int) → α) (f : Int → Nat → List Nat → α) : Int → Mem α :=
  fun r q => if q = 0 ∨ q = 1 then exEdgeMem f r q else exFieldMem l F r q

omit [Neg α] in
theorem exMix_scalar (l : Layout) (F : Vec3 → (Nat → Int) → α) (f : Int → Nat → List Nat → α) :
    ∀ q, 2 ≤ q → ScalarField l (exMixMem l F f) q 0 1 3 2 := by
  intro q hq
  have e : ∀ r, exMixMem l F f r q = exFieldMem l F r q := fun r => by
    unfold exMixMem; rw [if_neg (by omega)]
  have S := exField_scalar l F q
  constructor
  · intro r hr; rw [e]; exact S.ready r hr
  · intro r hr r' hr'; rw [e, e]; exact S.dims r hr r' hr'
  · intro r hr r' hr'; rw [e, e]; exact S.other r hr r' hr'
  · intro r hr; rw [e]; exact S.stagger r hr

omit [Neg α] in
theorem exMix_sync (l : Layout) (F : Vec3 → (Nat → Int) → α) (f : Int → Nat → List Nat → α) :
    SyncField l (exMixMem l F f) 0 1 0 1 3 := by
  have S := exEdge_field l f
  exact ⟨S.cells, S.lead, S.wfX, S.wfY, S.axesX, S.axesY, S.dimsX, S.dimsY, S.extX, S.extY, S.ndim, S.other⟩

/-- Blocking calls which meet the hypotheses of C22. -/
example (f : Int → Nat → List Nat → Int) (F : Vec3 → (Nat → Int) → Int) (buf : Buffering) :
    ∃ m', CallsRun ⟨2, 2⟩ [.haloUpdate 2 2, .synchronize 0 1, .haloUpdate 3 2, .haloUpdate 2 2]
        (exMixMem ⟨2, 2⟩ F f) m' ∧
      (callNet ⟨2, 2⟩ [.haloUpdate 2 2, .synchronize 0 1, .haloUpdate 3 2, .haloUpdate 2 2]
        (exMixMem ⟨2, 2⟩ F f)).Completes buf fun r =>
        (.ok (), ⟨m' r, if r ∈ allRanks ⟨2, 2⟩ then 4 else 0, []⟩) := by
  refine C22_blocking_calls (by decide) rfl ?_ ?_ buf
  · intro c hc op ho
    simp only [List.mem_cons, List.not_mem_nil, or_false] at hc
    have hs : ∀ q, 2 ≤ q → UpdateReady ⟨2, 2⟩ (exMixMem ⟨2, 2⟩ F f) (.halo q 2) := fun q hq =>
      ⟨0, 1, 3, by decide, by decide, exMix_scalar _ _ _ q hq⟩
    rcases hc with rfl | rfl | rfl | rfl <;> simp only [Call.start, Option.some.injEq] at ho <;> subst ho
    · exact hs 2 (by decide)
    · exact ⟨0, 1, 3, exMix_sync _ F f⟩
    · exact hs 3 (by decide)
    · exact hs 2 (by decide)
  · intro g hg
    simp at hg

/-- Two outstanding updates: even ranks wait in the order of the starts, odd ranks in the
opposite order. -/
def exTwo (r : Int) : List (Op α) :=
  if r % 2 = 0 then [.halo 2 2, .halo 3 2, .wait 0, .wait 1] else [.halo 2 2, .halo 3 2, .wait 1, .wait 0]

example (F : Vec3 → (Nat → Int) → Int) (f : Int → Nat → List Nat → Int) :
    ∃ fin : Int → Local Int, ((cubeNet ⟨2, 2⟩ exTwo (exMixMem ⟨2, 2⟩ F f)).Completes (fun _ _ _ _ => true) fun r =>
        (.ok (), (fin r).toRank)) ∧
      ∀ q ky kx n h, 0 < h → h ≤ n → ScalarField ⟨2, 2⟩ (exMixMem ⟨2, 2⟩ F f) q ky kx n h →
        Op.halo q h ∈ [(.halo 2 2 : Op Int), .halo 3 2] →
        HaloFilled ⟨2, 2⟩ q ky kx n h (exMixMem ⟨2, 2⟩ F f) (fun r => (fin r).mem) := by
  refine C23_halos (by decide) rfl ?_ ?_ ?_ ?_ ?_ ?_ ?_ ?_ _ (fun _ _ _ _ _ _ => rfl)
  · intro op ho
    simp only [List.mem_cons, List.not_mem_nil, or_false] at ho
    rcases ho with rfl | rfl <;> exact ⟨0, 1, 3, by decide, by decide, exMix_scalar _ _ _ _ (by decide)⟩
  · intro j k a b ha hb hjk q hqa hqb
    match j, k with
    | 0, 0 => simp at hjk
    | 0, 1 => simp at ha hb; subst ha hb; simp [Op.qs] at hqa hqb; omega
    | 1, 0 => simp at ha hb; subst ha hb; simp [Op.qs] at hqa hqb; omega
    | 1, 1 => simp at hjk
    | j + 2, _ => simp at ha
    | _, k + 2 => simp at hb
  · intro r _; unfold exTwo; split <;> rfl
  · intro r _ d i hd
    unfold exTwo at hd ⊢
    split at hd <;> rename_i hr <;> simp only [if_pos hr, hr, if_false, if_true]
    all_goals
      match d with
      | 0 => simp at hd
      | 1 => simp at hd
      | 2 => simp at hd; subst hd; decide
      | 3 => simp at hd; subst hd; decide
      | d + 4 => simp at hd
  · intro r _; unfold exTwo WaitsOnce; split <;> decide
  · intro r _ k hk
    unfold exTwo
    have : k = 0 ∨ k = 1 := by simp at hk; omega
    rcases this with rfl | rfl <;> split <;> simp
  · intro r _ g hg; unfold exTwo at hg; split at hg <;> simp at hg
  · intro r _ g hg; unfold exTwo at hg; split at hg <;> simp at hg

end FV3
