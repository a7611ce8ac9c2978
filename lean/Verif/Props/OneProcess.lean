import Verif.Proofs.OneProcess
import Verif.Props.Protocol
import Verif.Props.Deadlock

/-!
# C72: all ranks in one process over DummyComm
-/

namespace FV3
open OneProcess
variable {α : Type} [Neg α]

omit [Neg α] in
theorem WaitsInOrder.once {ops : List (Op α)} (h : WaitsInOrder ops) : WaitsOnce ops := by
  obtain ⟨n, hn⟩ := h
  unfold WaitsOnce
  rw [hn]
  exact List.nodup_range

/-- **C72**: all ranks start the same updates and wait for them in the order of the starts.  If one process makes the
calls of all ranks over `DummyComm`, in any order in which no rank waits for an update before all have started it, then
no call raises an exception, and all ranks end with the quantities (and communicators) that they end with under MPI,
whatever the schedule and the buffering. -/
theorem C72_dummy {l : Layout} {m : Int → Mem α} {ops : List (Op α)} (hx : 0 < l.x) (hsq : l.y = l.x)
    (hr : ∀ op ∈ ops, UpdateReady l m op) (hws : WaitsStarted ops) (hwo : WaitsInOrder ops)
    (hc : ComputesKeep l (MetaIs m) ops) {order : List Int} (ho : OrderOk l ops order) :
    ∃ (fin : Int → Local α) (w : World α), Consistent l (fun _ => ops) m fin ∧
      turns l ops order (World.new m) = .ok w ∧ (∀ r ∈ allRanks l, w.states r = (fin r).toRank) ∧
      ∀ buf, (cubeNet l (fun _ => ops) m).Completes buf fun r => (.ok (), (fin r).toRank) := by
  have hs : ∀ op ∈ startsOf ops, StartSound l (MetaIs m) op := fun op ho =>
    ready_sound hx hsq (List.mem_filter.1 ho).2 (hr op (List.mem_filter.1 ho).1)
  obtain ⟨fin, h1, h2, h3⟩ := exists_fin (l := l) (Good := MetaIs m) (startsOf ops) []
    (fun r => ⟨m r, 0, []⟩) (fun _ => ops)
    ⟨fun r _ q => SameMeta.refl _, fun _ _ => rfl, fun _ _ => rfl, fun r hr k op u hk _ => by simp at hk⟩
    (fun op h => hs op (by simpa using h)) (fun _ _ => rfl)
    (fun r hr => ⟨fun d i hd => by have := hws d i hd; simpa using this, hc⟩)
  rw [List.nil_append] at h3
  have hcons : Consistent l (fun _ => ops) m fin := fun r => ⟨fun hr => h1 r hr, fun hr => (h2 r).2 hr⟩
  obtain ⟨w, hw, t⟩ := (Track.new l ops m fin).turns hcons h3 hs hwo ho order [] rfl
  refine ⟨fin, w, hcons, hw, fun r hr => ?_, fun buf => ?_⟩
  · obtain ⟨s, hs1, hs2⟩ := t.states r hr
    rw [ho.all r hr, List.take_length, h1 r hr] at hs1
    cases hs1
    exact hs2
  · obtain ⟨fin', c1, c2⟩ := C22_same_order hx hsq hr hws hwo.once hc buf
    rw [hcons.unique c1 hws]
    exact c2

/-- Every call is made on one rank after the other before the next one is made on any. -/
def rounds (l : Layout) (n : Nat) : List Int := (List.replicate n (allRanks l)).flatten

theorem rounds_count {L : List Int} (hn : L.Nodup) (n : Nat) (before : List Int) (r : Int) (after : List Int)
    (h : (List.replicate n L).flatten = before ++ r :: after) : ∀ s ∈ L, before.count r ≤ before.count s := by
  induction n generalizing before with
  | zero => simp at h
  | succ n ih =>
    rw [List.replicate_succ, List.flatten_cons] at h
    intro s hs
    rcases List.append_eq_append_iff.1 h with ⟨b, rfl, hb⟩ | ⟨c, hc, hb⟩
    · have := ih b hb s hs
      rw [List.count_append, List.count_append]
      have h1 : L.count r ≤ 1 := List.nodup_iff_count_le_one.1 hn r
      have h2 : 0 < L.count s := List.count_pos_iff.2 hs
      omega
    · cases c with
      | nil =>
        rw [List.append_nil] at hc
        subst hc
        have h1 : L.count r ≤ 1 := List.nodup_iff_count_le_one.1 hn r
        have h2 : 0 < L.count s := List.count_pos_iff.2 hs
        omega
      | cons x c =>
        rw [List.cons_append, List.cons.injEq] at hb
        obtain ⟨rfl, -⟩ := hb
        have : before.count r = 0 := by
          rw [List.count_eq_zero]
          intro hm
          rw [hc] at hn
          exact (List.nodup_append.1 hn).2.2 r hm r List.mem_cons_self rfl
        omega

/-- The loops of the tests: an order that C72 allows. -/
theorem rounds_ok {l : Layout} {ops : List (Op α)} (hws : WaitsStarted ops) : OrderOk l ops (rounds l ops.length) := by
  have hn : (allRanks l).Nodup := by
    unfold allRanks
    exact List.nodup_range.map fun a b h => Int.ofNat.inj h
  refine ⟨fun r hr => ?_, fun r hr => ?_, fun before r after i h hi s hs => ?_⟩
  · obtain ⟨L, h1, h2⟩ := List.mem_flatten.1 hr
    rwa [List.eq_of_mem_replicate h1] at h2
  · unfold rounds
    rw [List.count_flatten, List.map_replicate, List.count_eq_one_of_mem hn hr]
    simp
  · have h1 := rounds_count hn _ before r after h s hs
    have h2 := hws _ _ hi
    exact Nat.lt_of_lt_of_le h2 (List.take_sublist_take_left h1).countP_le

/-- **C72** for the usual loops: each call is made for all ranks before the next one. -/
theorem C72_rounds {l : Layout} {m : Int → Mem α} {ops : List (Op α)} (hx : 0 < l.x) (hsq : l.y = l.x)
    (hr : ∀ op ∈ ops, UpdateReady l m op) (hws : WaitsStarted ops) (hwo : WaitsInOrder ops)
    (hc : ComputesKeep l (MetaIs m) ops) :
    ∃ (fin : Int → Local α) (w : World α), turns l ops (rounds l ops.length) (World.new m) = .ok w ∧
      (∀ r ∈ allRanks l, w.states r = (fin r).toRank) ∧
      ∀ buf, (cubeNet l (fun _ => ops) m).Completes buf fun r => (.ok (), (fin r).toRank) := by
  obtain ⟨fin, w, -, h⟩ := C72_dummy hx hsq hr hws hwo hc (rounds_ok hws)
  exact ⟨fin, w, h⟩

/-- **C72** for a halo update: all ranks start it, then all wait for it; the halos hold the data of the neighbours. -/
theorem C72_halo {l : Layout} {m : Int → Mem α} {q ky kx : Nat} {n h : Int} (hx : 0 < l.x) (hsq : l.y = l.x)
    (hh : 0 < h) (hn : h ≤ n) (S : ScalarField l m q ky kx n h) :
    ∃ w : World α, turns l [.halo q h, .wait 0] (allRanks l ++ allRanks l) (World.new m) = .ok w ∧
      HaloFilled l q ky kx n h m fun r => (w.states r).mem := by
  have hws : WaitsStarted [(.halo q h : Op α), .wait 0] := by
    intro d i hd
    match d with
    | 0 => simp at hd
    | 1 => simp at hd; subst hd; exact Nat.zero_lt_one
    | d + 2 => simp at hd
  have hwo : WaitsInOrder [(.halo q h : Op α), .wait 0] := ⟨1, rfl⟩
  obtain ⟨fin, w, hc, h1, h2, -⟩ := C72_dummy (m := m) hx hsq (ops := [.halo q h, .wait 0]) (by
    intro op ho
    simp only [List.mem_cons, List.not_mem_nil, or_false] at ho
    rcases ho with rfl | rfl
    · exact ⟨ky, kx, n, hh, hn, S⟩
    · trivial) hws hwo (fun f hf => by simp at hf) (rounds_ok hws)
  have e : rounds l [(.halo q h : Op α), .wait 0].length = allRanks l ++ allRanks l := by
    show (List.replicate 2 (allRanks l)).flatten = _
    simp [List.replicate_succ]
  rw [e] at h1
  refine ⟨w, h1, ?_⟩
  obtain ⟨m', u1, u2⟩ := updates_alone (starts := [.halo q h]) hc (fun _ _ => rfl) (fun _ _ => hwo.once)
    (fun j k a b ha hb hjk => by
      match j, k with
      | 0, 0 => simp at hjk
      | 0, k + 1 => simp at hb
      | j + 1, _ => simp at ha) (fun _ _ f hf => by simp at hf) 0 _ rfl (fun _ _ => by simp)
  have e := step_filled hx hsq hh hn S u1
  intro r idx t a b hat hi hsc
  simp only
  have e2 : (w.states r).mem = (fin r).mem := by rw [h2 r hat.rank]; rfl
  rw [e2, u2 r hat.rank q (by simp [Op.qs])]
  exact e r idx t a b hat hi hsc

/-! ### The hypotheses can be met -/

/-- Three updates of the example quantities on 24 ranks, two of them outstanding at the same time. -/
def exDummy : List (Op α) := [.halo 2 2, .sync 0 1, .wait 0, .halo 3 2, .wait 1, .wait 2]

example (F : Vec3 → (Nat → Int) → Int) (f : Int → Nat → List Nat → Int) :
    ∃ (fin : Int → Local Int) (w : World Int),
      turns ⟨2, 2⟩ exDummy (rounds ⟨2, 2⟩ 6) (World.new (exMixMem ⟨2, 2⟩ F f)) = .ok w ∧
      (∀ r ∈ allRanks ⟨2, 2⟩, w.states r = (fin r).toRank) ∧
      ∀ buf, (cubeNet ⟨2, 2⟩ (fun _ => exDummy) (exMixMem ⟨2, 2⟩ F f)).Completes buf fun r =>
        (.ok (), (fin r).toRank) := by
  refine C72_rounds (by decide) rfl ?_ ?_ ⟨3, rfl⟩ ?_
  · intro op ho
    have hs : ∀ q, 2 ≤ q → UpdateReady ⟨2, 2⟩ (exMixMem ⟨2, 2⟩ F f) (.halo q 2) := fun q hq =>
      ⟨0, 1, 3, by decide, by decide, exMix_scalar _ _ _ q hq⟩
    simp only [exDummy, List.mem_cons, List.not_mem_nil, or_false] at ho
    rcases ho with rfl | rfl | rfl | rfl | rfl | rfl
    · exact hs 2 (by decide)
    · exact ⟨0, 1, 3, exMix_sync _ F f⟩
    · trivial
    · exact hs 3 (by decide)
    · trivial
    · trivial
  · intro d i hd
    match d with
    | 0 => simp [exDummy] at hd
    | 1 => simp [exDummy] at hd
    | 2 => simp [exDummy] at hd; subst hd; decide
    | 3 => simp [exDummy] at hd
    | 4 => simp [exDummy] at hd; subst hd; decide
    | 5 => simp [exDummy] at hd; subst hd; decide
    | d + 6 => simp [exDummy] at hd
  · intro g hg
    simp [exDummy] at hg

/-! ### Limits of the test communicator -/

theorem Net.Completes.unique {M R : Type} {buf : Buffering} {N : Net M R} {res res' : Int → R} (h : N.Completes buf res)
    (h' : N.Completes buf res') : res = res' := by
  obtain ⟨T, n, h1, h2⟩ := h
  obtain ⟨T', n', h3, h4⟩ := h'
  obtain ⟨s, e, -⟩ := h2 [] N rfl
  obtain ⟨s', e', -⟩ := h4 s T e
  funext r
  have a := Net.run_finished e' (h1 r)
  rw [h3 r] at a
  exact (Proc.ret.inj a).symm

omit [Neg α] in
theorem call_bind {R R' : Type} {r : Int} {p : Proc (Msg α) R} {as : List (Act (Msg α))} {x : R} (h : Real p as x)
    {Q Q' : Queues α} (hf : Fits r as Q Q') (f : R → Proc (Msg α) R') : call r (p.bind f) Q = call r (f x) Q' := by
  induction h generalizing Q with
  | ret x => cases hf; rfl
  | send _ ih => exact ih hf
  | recv _ ih =>
    obtain ⟨ms, h1, h2⟩ := hf
    rw [← ih h2, Proc.bind, call, h1]
  | await _ ih => exact ih hf

omit [Neg α] in
theorem fits_send_other {r : Int} {tag : Nat} {o : List (Outgoing α)} {Q Q' : Queues α}
    (h : Fits r (sendActs tag o) Q Q') {s : Int} (hs : s ≠ r) (d : Int) : Q' s d = Q s d := by
  induction o generalizing Q with
  | nil => cases h; rfl
  | cons x o ih =>
    rw [ih (Q := put Q r x.dst (.data x.a)) h]
    unfold put
    rw [if_neg fun e => hs e.1]

/-- **C72** (limit): over `DummyComm` the blocking `halo_update` cannot be used in a loop over the ranks: on the first
rank it raises `ConcurrencyError`, as nothing was sent yet to be received (whereas with MPI it waits). -/
theorem C72_limit_blocking {l : Layout} {m : Int → Mem α} {q : Nat} {n : Int} (hx : 0 < l.x) (hsq : l.y = l.x)
    (hr : UpdateReady l m (.halo q n)) {r : Int} (hr' : r ∈ allRanks l) {s : RankState α} (hs : MetaIs m r s.mem)
    {Q : Queues α} (hQ : ∀ x, x ≠ r → Q x r = none) :
    (call r (OneProcess.haloUpdate l r q n s) Q).1 = .error .concurrency := by
  obtain ⟨o, i, ho, hi⟩ := (ready_sound hx hsq rfl hr).start r hr' s.mem hs
  obtain ⟨Q', hQ1, -⟩ := fits_send r s.lastTag o Q
  have hd := Does.begin (op := .halo q n) (s := s) rfl ho hi
  have e : call r (OneProcess.haloUpdate l r q n s) Q = _ := call_bind hd hQ1 _
  rw [e]
  clear e
  dsimp only
  obtain ⟨bs, hbs, hm⟩ := bind_ok (show Cube.boundaries l r >>= _ = Except.ok i from hi)
  obtain ⟨bs', hb1, hb2, -⟩ := boundaries_ok hx hsq hr'
  rw [hb1] at hbs
  cases hbs
  have hrr := mem_allRanks.1 hr'
  have hne : bs ≠ [] := by
    rintro rfl
    obtain ⟨B, hB, hBt, -⟩ := (C07_cube_boundary_closed l hx hsq .west r _ _ rfl).2 id
    exact absurd ((hb2 B).2 (by rw [hBt]; exact hB)) (List.not_mem_nil)
  obtain ⟨b, bs2, rfl⟩ := List.exists_cons_of_ne_nil hne
  obtain ⟨x, xs, h1, -, rfl⟩ := pyMap_cons hm
  obtain ⟨ix, -, h2⟩ := bind_ok h1
  cases h2
  have hb := (hb2 b).1 List.mem_cons_self
  have hto := (C09_distinct_neighbours l hx hsq r hrr.1 hrr.2 _ _ b b hb hb).1
  have hq : Q' b.toRank r = none := by rw [fits_send_other hQ1 hto, hQ _ hto]
  dsimp only [OneProcess.waitRequest, recvReqs, List.map_cons, CommM.forEach]
  show (call r (.recv b.toRank _ _) Q').1 = _
  unfold call
  rw [hq]

/-- Two quantities on six ranks, one cell and one halo point; the values tell quantity and rank. -/
def exSwapMem : Int → Mem Int := fun r q =>
  { data := ⟨[3, 3], fun idx => 1000 * q + 100 * r + 10 * idx.getD 0 0 + idx.getD 1 0⟩
    dims := [.y, .x], units := "m", origin := [1, 1], extent := [1, 1] }

/-- Two updates, waited for in the opposite order. -/
def exSwap : List (Op Int) := [.halo 0 1, .halo 1 1, .wait 1, .wait 0]

theorem exSwap_ready (q : Nat) : UpdateReady ⟨1, 1⟩ exSwapMem (.halo q 1) := by
  refine ⟨0, 1, 1, by decide, by decide, ⟨fun r _ => ⟨⟨⟨rfl, rfl, rfl⟩, ?_⟩, ⟨?_, ?_, Nat.zero_lt_two, Nat.one_lt_two⟩, rfl, rfl, ?_, ?_⟩,
    fun _ _ _ _ => rfl, fun _ _ _ _ _ _ _ _ => rfl, fun _ _ => rfl⟩⟩
  · show ∀ k, k < 2 → 0 ≤ ([1, 1] : List Int).getD k 0 ∧ 0 ≤ ([1, 1] : List Int).getD k 0 ∧
      ([1, 1] : List Int).getD k 0 + ([1, 1] : List Int).getD k 0 ≤ (([3, 3] : List Nat).getD k 0 : Nat)
    decide
  all_goals first
    | (intro k d h
       match k, h with
       | 0, h => simp [exSwapMem] at h; subst h; simp [IsX, IsY]
       | 1, h => simp [exSwapMem] at h; subst h; simp [IsX, IsY]
       | k + 2, h => simp [exSwapMem] at h)
    | skip
  · show (1 : Int) ≤ 1 ∧ (1 : Int) + 1 + 1 ≤ 3; decide
  · show (1 : Int) ≤ 1 ∧ (1 : Int) + 1 + 1 ≤ 3; decide

theorem exSwap_dummy : (match turns ⟨1, 1⟩ exSwap (rounds ⟨1, 1⟩ 4) (World.new exSwapMem) with
    | .ok w => (((w.states 0).mem 0).data.get [1, 2] == 1111) && (((w.states 0).mem 1).data.get [1, 2] == 111)
    | .error _ => false) = true := by decide +kernel

/-- **C72** (limit): `DummyComm` ignores tags.  If two updates are outstanding and waited for in the opposite order, no
exception is raised, and each halo gets the data of the other quantity; under MPI each gets its own. -/
theorem C72_limit_order :
    (∀ op ∈ exSwap, UpdateReady ⟨1, 1⟩ exSwapMem op) ∧ WaitsStarted exSwap ∧ WaitsOnce exSwap ∧
    OrderOk ⟨1, 1⟩ exSwap (rounds ⟨1, 1⟩ 4) ∧
    (∃ w, turns ⟨1, 1⟩ exSwap (rounds ⟨1, 1⟩ 4) (World.new exSwapMem) = .ok w ∧
      ((w.states 0).mem 0).data.get [1, 2] = (exSwapMem 1 1).data.get [1, 1] ∧
      ((w.states 0).mem 1).data.get [1, 2] = (exSwapMem 1 0).data.get [1, 1]) ∧
    ∃ res, (∀ buf, (cubeNet ⟨1, 1⟩ (fun _ => exSwap) exSwapMem).Completes buf res) ∧
      ((res 0).2.mem 0).data.get [1, 2] = (exSwapMem 1 0).data.get [1, 1] ∧
      ((res 0).2.mem 1).data.get [1, 2] = (exSwapMem 1 1).data.get [1, 1] := by
  have hr : ∀ op ∈ exSwap, UpdateReady ⟨1, 1⟩ exSwapMem op := by
    intro op ho
    simp only [exSwap, List.mem_cons, List.not_mem_nil, or_false] at ho
    rcases ho with rfl | rfl | rfl | rfl
    · exact exSwap_ready 0
    · exact exSwap_ready 1
    · trivial
    · trivial
  have hws : WaitsStarted exSwap := by
    intro d i hd
    match d with
    | 0 => simp [exSwap] at hd
    | 1 => simp [exSwap] at hd
    | 2 => simp [exSwap] at hd; subst hd; decide
    | 3 => simp [exSwap] at hd; subst hd; decide
    | d + 4 => simp [exSwap] at hd
  have hwo : WaitsOnce exSwap := by unfold WaitsOnce; decide
  have hc : ComputesKeep ⟨1, 1⟩ (MetaIs exSwapMem) exSwap := fun g hg => by simp [exSwap] at hg
  refine ⟨hr, hws, hwo, rounds_ok hws, ?_, ?_⟩
  · have h := exSwap_dummy
    cases hw : turns ⟨1, 1⟩ exSwap (rounds ⟨1, 1⟩ 4) (World.new exSwapMem) with
    | error e => rw [hw] at h; cases h
    | ok w =>
      rw [hw] at h
      simp only [Bool.and_eq_true, beq_iff_eq] at h
      exact ⟨w, rfl, by rw [h.1]; decide, by rw [h.2]; decide⟩
  · obtain ⟨fin, c1, c2⟩ := C22_same_order (by decide) rfl hr hws hwo hc (fun _ _ _ _ => true)
    refine ⟨fun r => (.ok (), (fin r).toRank), fun buf => ?_, ?_⟩
    · obtain ⟨fin', d1, d2⟩ := C22_same_order (by decide) rfl hr hws hwo hc buf
      rw [c1.unique d1 hws]
      exact d2
    · obtain ⟨res, h1, h2⟩ := completes_of (rs := allRanks ⟨1, 1⟩) (buf := fun _ _ _ _ => true)
        (N := cubeNet ⟨1, 1⟩ (fun _ => exSwap) exSwapMem)
        (sched := greedy (fun _ _ _ _ => true) (allRanks ⟨1, 1⟩) 200 (cubeNet ⟨1, 1⟩ (fun _ => exSwap) exSwapMem))
        (p := fun r x => r != 0 || ((x.2.mem 0).data.get [1, 2] == 111 && (x.2.mem 1).data.get [1, 2] == 1111))
        (by decide +kernel) (fun _ hr => cubeNet_out hr)
      have := h2 0 (by decide)
      have e : res 0 = (.ok (), (fin 0).toRank) := congrFun (h1.unique c2) 0
      rw [e] at this
      simp only [bne_self_eq_false, Bool.false_or, Bool.and_eq_true, beq_iff_eq] at this
      exact ⟨by dsimp only; rw [this.1]; decide, by dsimp only; rw [this.2]; decide⟩

end FV3
