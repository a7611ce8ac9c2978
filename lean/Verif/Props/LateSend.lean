import Verif.Proofs.LateSafe

/-!
# C54: sends that are read late

`_Isend` (communicator.py:637-646) passes a contiguous view of the quantity to MPI without a copy,
so MPI may read the data at any time between the call and the completion of the send.  In
`Step` (Model/LateSend.lean), the network reads the view at a time of its own choice.
-/

namespace FV3.Late
open FV3
variable {α : Type} [Neg α]

/-- **C54** for blocking calls: whenever the network reads the data of sends, whatever the schedule
and the buffering, all ranks finish, with the result of one collective call after the other
(`CallsRun`, which knows neither messages nor schedules). -/
theorem C54_blocking_calls {l : Layout} {m : Int → Mem α} {calls : List (Call α)} (hx : 0 < l.x)
    (hsq : l.y = l.x) (hr : ∀ c ∈ calls, ∀ op, c.start = some op → UpdateReady l m op)
    (hc : ∀ f, Call.compute f ∈ calls → ∀ r ∈ allRanks l, ∀ mem, MetaIs m r mem → MetaIs m r (f r mem))
    (buf : Buffering) :
    ∃ m' : Int → Mem α, CallsRun l calls m m' ∧
      (callNet l calls m).Ends buf
        (fun r => (.ok (), ⟨if r ∈ allRanks l then (calls.map Call.nTags).sum else 0, []⟩)) m' := by
  obtain ⟨m', h1, h2⟩ := C22_blocking_calls hx hsq hr hc buf
  refine ⟨m', h1, late_ends (fin := lfin) (ranks := allRanks l) lfin_inj (fun r h => ⟨_, if_neg h⟩) ?_ ?_⟩
  · intro r
    by_cases h : r ∈ allRanks l
    · simp only [if_pos h]
      exact SafeP.mono (safe_calls hx hsq h calls hr (fun f hf mem => hc f hf r h mem) ⟨0, []⟩ (m r)
        fun q => SameMeta.refl _) fun _ _ _ _ => trivial
    · simp only [if_neg h]
      trivial
  · have e : FV3.callNet l calls m = Net.start fun r => eager lfin
        (if r ∈ allRanks l then execCalls l r calls ⟨0, []⟩ else .ret (.ok (), ⟨0, []⟩)) (m r) := by
      unfold FV3.callNet
      congr 1
      funext r
      by_cases h : r ∈ allRanks l
      · simp only [if_pos h]
        rw [← toComm_execCalls]
        rfl
      · simp only [if_neg h]
        rfl
    rw [e] at h2
    exact h2

theorem late_outstanding {l : Layout} {m : Int → Mem α} {prog : Int → List (Op α)} (hx : 0 < l.x)
    (hsq : l.y = l.x) (hr : ∀ r ∈ allRanks l, ∀ op ∈ startsOf (prog r), UpdateReady l m op)
    (hws : ∀ r ∈ allRanks l, WaitsStarted (prog r))
    (hc : ∀ r ∈ allRanks l, ComputesKeep l (MetaIs m) (prog r))
    (hl : ∀ r ∈ allRanks l, LeavesSends l m r (prog r)) {buf : Buffering} {fin : Int → Local α}
    (h : (FV3.cubeNet l prog m).Completes buf fun r => (.ok (), (fin r).toRank)) :
    (cubeNet l prog m).Ends buf (fun r => (.ok (), ⟨(fin r).toRank.lastTag, (fin r).toRank.reqs⟩))
      fun r => (fin r).mem := by
  refine late_ends (fin := lfin) (ranks := allRanks l) lfin_inj (fun r h => ⟨_, if_neg h⟩) ?_ ?_
  · intro r
    by_cases h : r ∈ allRanks l
    · simp only [if_pos h]
      refine SafeP.mono (safe_ops hx hsq h (hr r h) (fun f hf mem => hc r h f hf r h mem) (hws r h) (hl r h) (prog r) []
        rfl ⟨0, []⟩ (m r) [] ⟨fun q => SameMeta.refl _, ?_, rfl, ?_, ?_⟩) fun _ _ _ _ => trivial
      · intro p hp; simp at hp
      · intro k req hk; simp at hk
      · intro p hp; simp at hp
    · simp only [if_neg h]
      trivial
  · have e : FV3.cubeNet l prog m = Net.start fun r => eager lfin
        (if r ∈ allRanks l then execOps l r (prog r) ⟨0, []⟩ else .ret (.ok (), ⟨0, []⟩)) (m r) := by
      unfold FV3.cubeNet
      congr 1
      funext r
      by_cases h : r ∈ allRanks l
      · simp only [if_pos h]
        rw [← toComm_execOps]
        rfl
      · simp only [if_neg h]
        rfl
    rw [e] at h
    exact h

/-- **C54** for updates that are started and waited for later, by all ranks in the same order: if
the ranks do not themselves change what they are sending (`LeavesSends`), then whenever the network
reads the data, whatever the schedule and the buffering, all ranks finish, with the result of
reading it at once (`Consistent`). -/
theorem C54_same_order {l : Layout} {m : Int → Mem α} {ops : List (Op α)} (hx : 0 < l.x)
    (hsq : l.y = l.x) (hr : ∀ op ∈ ops, UpdateReady l m op) (hws : WaitsStarted ops)
    (hwo : WaitsOnce ops) (hc : ComputesKeep l (MetaIs m) ops)
    (hl : ∀ r ∈ allRanks l, LeavesSends l m r ops) (buf : Buffering) :
    ∃ fin, Consistent l (fun _ => ops) m fin ∧
      (cubeNet l (fun _ => ops) m).Ends buf
        (fun r => (.ok (), ⟨(fin r).toRank.lastTag, (fin r).toRank.reqs⟩)) fun r => (fin r).mem := by
  obtain ⟨fin, h1, h2⟩ := C22_same_order hx hsq hr hws hwo hc buf
  exact ⟨fin, h1, late_outstanding hx hsq (fun _ _ op ho => hr op (List.mem_filter.1 ho).1) (fun _ _ => hws)
    (fun _ _ => hc) hl h2⟩

/-- **C54** when each rank waits in an order of its own, with buffered sends. -/
theorem C54_outstanding {l : Layout} {m : Int → Mem α} {starts : List (Op α)}
    {prog : Int → List (Op α)} (hx : 0 < l.x) (hsq : l.y = l.x)
    (hr : ∀ op ∈ starts, UpdateReady l m op)
    (hst : ∀ r ∈ allRanks l, startsOf (prog r) = starts)
    (hws : ∀ r ∈ allRanks l, WaitsStarted (prog r)) (hwo : ∀ r ∈ allRanks l, WaitsOnce (prog r))
    (hc : ∀ r ∈ allRanks l, ComputesKeep l (MetaIs m) (prog r))
    (hl : ∀ r ∈ allRanks l, LeavesSends l m r (prog r))
    (buf : Buffering) (hbuf : ∀ r ∈ allRanks l, ∀ dst ∈ allRanks l, ∀ t i, buf r dst t i = true) :
    ∃ fin, Consistent l prog m fin ∧
      (cubeNet l prog m).Ends buf
        (fun r => (.ok (), ⟨(fin r).toRank.lastTag, (fin r).toRank.reqs⟩)) fun r => (fin r).mem := by
  obtain ⟨fin, h1, h2⟩ := C23_outstanding hx hsq hr hst hws hwo hc buf hbuf
  exact ⟨fin, h1, late_outstanding hx hsq (fun r hr' op ho => hr op (by rw [← hst r hr']; exact ho)) hws hc hl h2⟩

/-- Updates of different quantities, computations on other quantities: the condition holds. -/
theorem LeavesSends.of_disjoint {l : Layout} {m : Int → Mem α} (hx : 0 < l.x) (hsq : l.y = l.x) {r : Int}
    (hr : r ∈ allRanks l) {ops : List (Op α)} (hready : ∀ op ∈ startsOf ops, UpdateReady l m op)
    (hdis : DisjointUpdates (startsOf ops)) (hc : ComputesElsewhere l (startsOf ops) ops) :
    LeavesSends l m r ops := by
  refine ⟨fun d i _ k hk _ a b ha hb => Or.inl (hdis k i a b ha hb hk), fun d f hf k _ a ha mem hm => ?_⟩
  have hmem := List.mem_of_getElem? ha
  obtain ⟨o, -, ho, -⟩ := (ready_sound hx hsq (List.mem_filter.1 hmem).2 (hready a hmem)).start r hr mem hm
  refine ⟨o, o, ho, ?_, List.forall₂_same.2 fun x _ => ⟨rfl, rfl, NDArray.Eqv.refl _⟩⟩
  rw [out_congr (mem := mem) fun q hq => hc f (List.mem_of_getElem? hf) r hr mem a hmem q hq]
  exact ho

/-- The halo updates of a program without computations and synchronisations may be outstanding
together, even of the same quantity: the condition holds. -/
theorem LeavesSends.of_halos {l : Layout} {m : Int → Mem α} {r : Int} {ops : List (Op α)}
    (hops : ∀ op ∈ ops, op.isHalo = true ∨ ∃ i, op = .wait i) : LeavesSends l m r ops := by
  have h : ∀ op ∈ startsOf ops, op.isHalo = true := by
    intro op ho
    obtain ⟨h1, h2⟩ := List.mem_filter.1 ho
    rcases hops op h1 with h | ⟨i, rfl⟩
    · exact h
    · simp [Op.isStart] at h2
  refine ⟨fun d i _ k hk _ a b ha hb => Or.inr ⟨h a (List.mem_of_getElem? ha), h b (List.mem_of_getElem? hb)⟩,
    fun d f hf => ?_⟩
  rcases hops _ (List.mem_of_getElem? hf) with h | ⟨i, h⟩
  · simp [Op.isHalo] at h
  · simp at h

/-! ### The hypotheses can be met -/

section
variable (F : Vec3 → (Nat → Int) → Int) (f : Int → Nat → List Nat → Int)

theorem exMix_ready {q : Nat} (hq : 2 ≤ q) : UpdateReady ⟨2, 2⟩ (exMixMem ⟨2, 2⟩ F f) (.halo q 2) :=
  ⟨0, 1, 3, by decide, by decide, exMix_scalar _ _ _ q hq⟩

/-- Blocking calls. -/
example (buf : Buffering) :
    ∃ m', CallsRun ⟨2, 2⟩ [.haloUpdate 2 2, .synchronize 0 1, .haloUpdate 2 2] (exMixMem ⟨2, 2⟩ F f) m' ∧
      (callNet ⟨2, 2⟩ [.haloUpdate 2 2, .synchronize 0 1, .haloUpdate 2 2] (exMixMem ⟨2, 2⟩ F f)).Ends buf
        (fun r => (.ok (), ⟨if r ∈ allRanks ⟨2, 2⟩ then 3 else 0, []⟩)) m' := by
  refine C54_blocking_calls (by decide) rfl ?_ ?_ buf
  · intro c hc op ho
    simp only [List.mem_cons, List.not_mem_nil, or_false] at hc
    rcases hc with rfl | rfl | rfl <;> simp only [Call.start, Option.some.injEq] at ho <;> subst ho
    · exact exMix_ready F f (by decide)
    · exact ⟨0, 1, 3, exMix_sync _ F f⟩
    · exact exMix_ready F f (by decide)
  · intro g hg
    simp at hg

/-- A computation on quantity 3. -/
def exDouble (_ : Int) (mem : Mem Int) : Mem Int := fun q =>
  if q = 3 then { mem q with data := (mem q).data.map (2 * ·) } else mem q

/-- A halo update, a synchronisation and a computation, overlapping. -/
def exOverlap : List (Op Int) := [.halo 2 2, .sync 0 1, .compute exDouble, .wait 1, .wait 0]

example (buf : Buffering) :
    ∃ fin, Consistent ⟨2, 2⟩ (fun _ => exOverlap) (exMixMem ⟨2, 2⟩ F f) fin ∧
      (cubeNet ⟨2, 2⟩ (fun _ => exOverlap) (exMixMem ⟨2, 2⟩ F f)).Ends buf
        (fun r => (.ok (), ⟨(fin r).toRank.lastTag, (fin r).toRank.reqs⟩)) fun r => (fin r).mem := by
  have hready : ∀ op ∈ exOverlap, UpdateReady ⟨2, 2⟩ (exMixMem ⟨2, 2⟩ F f) op := by
    intro op ho
    simp only [exOverlap, List.mem_cons, List.not_mem_nil, or_false] at ho
    rcases ho with rfl | rfl | rfl | rfl | rfl
    · exact exMix_ready F f (by decide)
    · exact ⟨0, 1, 3, exMix_sync _ F f⟩
    · trivial
    · trivial
    · trivial
  have hcomp : ∀ g, Op.compute g ∈ exOverlap → g = exDouble := by
    intro g hg
    simpa [exOverlap] using hg
  refine C54_same_order (by decide) rfl hready ?_ (by unfold WaitsOnce; decide) ?_ (fun r hr => ?_) buf
  · intro d i hd
    match d with
    | 0 => simp [exOverlap] at hd
    | 1 => simp [exOverlap] at hd
    | 2 => simp [exOverlap] at hd
    | 3 => simp [exOverlap] at hd; subst hd; decide
    | 4 => simp [exOverlap] at hd; subst hd; decide
    | d + 5 => simp [exOverlap] at hd
  · intro g hg r _ mem hm q
    rw [hcomp g hg]
    unfold exDouble
    split
    · exact ⟨(hm q).shape, (hm q).dims, (hm q).units, (hm q).origin, (hm q).extent⟩
    · exact hm q
  · refine LeavesSends.of_disjoint (by decide) rfl hr (fun op ho => hready op (List.mem_filter.1 ho).1) ?_ ?_
    · intro j k a b ha hb hjk q hqa hqb
      have hs : startsOf exOverlap = [.halo 2 2, .sync 0 1] := rfl
      rw [hs] at ha hb
      match j, k with
      | 0, 0 => simp at hjk
      | 0, 1 => simp at ha hb; subst ha hb; simp [Op.qs] at hqa hqb; omega
      | 1, 0 => simp at ha hb; subst ha hb; simp [Op.qs] at hqa hqb; omega
      | 1, 1 => simp at hjk
      | j + 2, _ => simp at ha
      | _, k + 2 => simp at hb
    · intro g hg r _ mem op ho q hq
      rw [hcomp g hg]
      have hs : startsOf exOverlap = [.halo 2 2, .sync 0 1] := rfl
      rw [hs] at ho
      simp only [List.mem_cons, List.not_mem_nil, or_false] at ho
      unfold exDouble
      rw [if_neg]
      rcases ho with rfl | rfl <;> simp [Op.qs] at hq <;> omega

/-- Two outstanding updates of the same halo, waited for in a different order by different ranks. -/
def exTwice (r : Int) : List (Op Int) :=
  if r % 2 = 0 then [.halo 2 2, .halo 2 2, .wait 0, .wait 1] else [.halo 2 2, .halo 2 2, .wait 1, .wait 0]

example :
    ∃ fin, Consistent ⟨2, 2⟩ exTwice (exMixMem ⟨2, 2⟩ F f) fin ∧
      (cubeNet ⟨2, 2⟩ exTwice (exMixMem ⟨2, 2⟩ F f)).Ends (fun _ _ _ _ => true)
        (fun r => (.ok (), ⟨(fin r).toRank.lastTag, (fin r).toRank.reqs⟩)) fun r => (fin r).mem := by
  refine C54_outstanding (starts := [.halo 2 2, .halo 2 2]) (by decide) rfl ?_ ?_ ?_ ?_ ?_ ?_ _ (fun _ _ _ _ _ _ => rfl)
  · intro op ho
    simp only [List.mem_cons, List.not_mem_nil, or_false] at ho
    rcases ho with rfl | rfl <;> exact exMix_ready F f (by decide)
  · intro r _; unfold exTwice; split <;> rfl
  · intro r _ d i hd
    unfold exTwice at hd ⊢
    split at hd <;> rename_i hr <;> simp only [if_pos hr, hr, if_false, if_true]
    all_goals
      match d with
      | 0 => simp at hd
      | 1 => simp at hd
      | 2 => simp at hd; subst hd; decide
      | 3 => simp at hd; subst hd; decide
      | d + 4 => simp at hd
  · intro r _; unfold exTwice WaitsOnce; split <;> decide
  · intro r _ g hg; unfold exTwice at hg; split at hg <;> simp at hg
  · intro r _
    refine LeavesSends.of_halos fun op ho => ?_
    unfold exTwice at ho
    split at ho <;> simp only [List.mem_cons, List.not_mem_nil, or_false] at ho <;>
      rcases ho with rfl | rfl | rfl | rfl <;> first | exact Or.inl rfl | exact Or.inr ⟨_, rfl⟩

end

end FV3.Late
