import Verif.Proofs.CollState

/-!
# C27: scatter_state and gather_state
-/

namespace FV3
variable {α : Type}

/-- **C27**: whatever the schedule and the buffering, every rank returns from `scatter_state`; its state
has root's time (no time if root has none), its part of each of root's variables, in the quantity of the
receive state if there is one (`ScatteredInto`), and every other entry of the receive state unchanged.
The states of the other ranks (`send r`, `r ≠ 0`) are not used, and no receive state is needed. -/
theorem C27_scatter_state (buf : Buffering) (c : Comm) (hl : FloatSafe c.layout) (junk : List Nat → α)
    (vdims : String → List Dim) (vcells : String → List Int) (vqty : String → Quantity α)
    (s : CState α) (hnd : s.keys.Nodup) (time : Option Int) (htime : s.get? "time" = time.map .time)
    (hs : ∀ v ∈ s.keys, v ≠ "time" → s.get? v = some (.qty (vqty v)) ∧ 0 < (vdims v).length ∧
      (vqty v).GlobalShaped c (vdims v) (vcells v))
    (send recv : Int → Option (CState α)) (hsend : send 0 = some s)
    (hst : ∀ r ∈ c.ranks, ∀ st, recv r = some st → st.keys.Nodup ∧ ∀ v ∈ s.keys, v ≠ "time" → ∀ x,
      st.get? v = some x → ∃ q, x = .qty q ∧ q.RankShaped (vdims v) (vcells v)) :
    ∃ out : Int → CState α,
      c.Returns buf (fun r => scatterState c junk r (send r) (recv r)) (fun r => .ok (out r)) ∧
      ∀ r ∈ c.ranks, (out r).get? "time" = s.get? "time" ∧
        (∀ v ∉ s.keys, v ≠ "time" → (out r).get? v = ((recv r).getD []).get? v) ∧
        ∀ v ∈ s.keys, v ≠ "time" →
          ScatteredInto c (vdims v) (vcells v) (vqty v) (((recv r).getD []).get? v) ((out r).get? v) r := by
  obtain ⟨out, n', h1, -, h2⟩ := scatterState_does buf hl junk vdims vcells vqty s hnd time htime hs send recv hsend hst 0
  exact ⟨out, h1.returns, fun r hr => (h2 r hr).2⟩

/-- **C27**: root's `scatter_state` without a state raises TypeError, before any communication. -/
theorem C27_root_needs_state (c : Comm) (junk : List Nat → α) (recv : Option (CState α)) (n : Nat) :
    scatterState c junk 0 none recv n = .ret (.error .typeError, n) := rfl

/-- **C27**: whatever the schedule and the buffering, all ranks return from `gather_state`: root with a
state that has one global quantity for each variable (`GatheredInto`), root's time if it has one, and
every other entry of its receive state unchanged; the others with the receive state they were given
(or `None`).  All ranks must have the same variables in the same order. -/
theorem C27_gather_state (buf : Buffering) (c : Comm) (hl : FloatSafe c.layout) (junk : List Nat → α)
    (vdims : String → List Dim) (vcells : String → List Int) (ky kx : String → Nat)
    (names : List String) (hnd : names.Nodup) (val : Int → String → SVal α) (part : Int → String → Quantity α)
    (hs : ∀ v ∈ names, v ≠ "time" → HAxes (vdims v) (ky v) (kx v) ∧
      (∀ k, k < (vdims v).length → (vcells v).getD k 0 * ranksAlong c.layout ((vdims v).getD k .x) < 2 ^ 51) ∧
      ∀ r ∈ c.ranks, val r v = .qty (part r v) ∧ (part r v).RankShaped (vdims v) (vcells v))
    (recv : Int → Option (CState α))
    (hst : ∀ v ∈ names, v ≠ "time" →
      (∀ x, ((recv 0).getD []).get? v = some x → ∃ q, x = .qty q ∧ q.GlobalShaped c (vdims v) (vcells v)) ∧
      (((recv 0).getD []).get? v = none → (part 0 v).dims = vdims v)) :
    ∃ out : CState α,
      c.Returns buf (fun r => gatherState c junk r (names.map fun v => (v, val r v)) (recv r))
        (fun r => .ok (if r = 0 then some out else recv r)) ∧
      (∀ v ∉ names, out.get? v = ((recv 0).getD []).get? v) ∧
      ("time" ∈ names → out.get? "time" = some (val 0 "time")) ∧
      ∀ v ∈ names, v ≠ "time" →
        GatheredInto c (vdims v) (vcells v) (fun r => part r v) (((recv 0).getD []).get? v) (out.get? v) := by
  obtain ⟨out, n', ⟨p, s1, r1⟩, h2⟩ := gatherLoop_does buf hl junk vdims vcells ky kx part val names hnd hs
    ((recv 0).getD []) hst recv 0
  refine ⟨out, AllDo.returns (c := n') ⟨p, s1, ?_⟩, h2⟩
  intro r hr
  have := r1 r hr
  unfold gatherState
  by_cases h0 : r = 0
  · subst h0
    exact this
  · beta_reduce at this ⊢
    rw [if_neg h0] at this
    rw [if_neg (show ¬ r = ROOT_RANK from h0)]
    exact this

/-- **C27** (limit): the names of the variables are not communicated: the values of another rank than
root are matched with root's variables by their position in the dictionary.  Two states with the same
values under other names cannot be distinguished, so a different order silently exchanges variables. -/
theorem C27_gather_by_position (c : Comm) (junk : List Nat → α) (r : Int) (h0 : r ≠ 0) (recv : Option (CState α))
    (s s' : CState α) (h : s.map (·.2) = s'.map (·.2)) (ht : "time" ∉ s.keys) (ht' : "time" ∉ s'.keys) :
    gatherState c junk r s recv = gatherState c junk r s' recv := by
  unfold gatherState
  rw [if_neg (show ¬ r = ROOT_RANK from h0)]
  induction s generalizing s' with
  | nil =>
    cases s' with
    | nil => rfl
    | cons => simp at h
  | cons p s ih =>
    cases s' with
    | nil => simp at h
    | cons p' s' =>
      obtain ⟨k, v⟩ := p
      obtain ⟨k', v'⟩ := p'
      simp only [List.map_cons, List.cons.injEq] at h
      obtain ⟨rfl, h⟩ := h
      simp only [Dict.keys, List.map_cons, List.mem_cons, not_or] at ht ht'
      unfold gatherLoop
      rw [if_neg (Ne.symm ht.1), if_neg (Ne.symm ht'.1)]
      simp only [if_neg (show ¬ r = ROOT_RANK from h0)]
      have e := ih s' h ht.2 ht'.2
      cases hv : v.asQty with
      | error x => rfl
      | ok q =>
        funext n
        have key : ∀ (f : Quantity α → CollM α (Option (CState α))) (g : CollM α (Option (CState α))),
            (gather c junk r q none >>= fun o => match o with
              | some q' => f q'
              | none => g) n = (match q.viewGet (.one (.slice .full)) with
              | .error x => .ret (.error x, n)
              | .ok a => Proc.isend 0 (.coll n) (.data a) fun i => Proc.await 0 (.coll n) i fun _ => g (n + 1)) := by
          intro f g
          unfold gather
          rw [if_neg (show ¬ r = ROOT_RANK from h0)]
          cases q.viewGet (.one (.slice .full)) <;> rfl
        refine (key _ _).trans (Eq.trans ?_ (key _ _).symm)
        rw [e]

theorem dict_eq_map (d : CState α) (hnd : d.keys.Nodup) :
    d = d.keys.map fun v => (v, (d.get? v).getD (.time 0)) := by
  induction d with
  | nil => rfl
  | cons p d ih =>
    obtain ⟨a, b⟩ := p
    have hn : a ∉ Dict.keys d := (List.nodup_cons.1 hnd).1
    have hd := ih (List.nodup_cons.1 hnd).2
    show (a, b) :: d = (a, ((Dict.get? ((a, b) :: d) a).getD (.time 0))) :: (Dict.keys d).map fun v => (v, ((Dict.get? ((a, b) :: d) v).getD (.time 0)))
    congr 1
    · simp [Dict.get?]
    · conv_lhs => rw [hd]
      apply List.map_congr_left
      intro v hv
      have : v ≠ a := fun e => hn (e ▸ hv)
      simp [Dict.get?, this]

/-- **C27**: `gather_state` after `scatter_state` gives root's state back: the time, and the compute domain
of every variable, in new quantities or in those of the receive state.  The states the ranks receive
their parts in may be given, with the same names in the same order, no others than root's. -/
theorem C27_round_trip (buf : Buffering) (c : Comm) (hl : FloatSafe c.layout) (junk junk' : List Nat → α)
    (vdims : String → List Dim) (vcells : String → List Int) (ky kx : String → Nat) (vqty : String → Quantity α)
    (s : CState α) (hnd : s.keys.Nodup) (time : Option Int) (htime : s.get? "time" = time.map .time)
    (hs : ∀ v ∈ s.keys, v ≠ "time" → s.get? v = some (.qty (vqty v)) ∧ HAxes (vdims v) (ky v) (kx v) ∧
      (vqty v).GlobalShaped c (vdims v) (vcells v))
    (send parts recv : Int → Option (CState α)) (hsend : send 0 = some s)
    (hparts : ∀ r ∈ c.ranks, ∀ st, parts r = some st → st.keys.Nodup ∧ ∀ v ∈ s.keys, v ≠ "time" → ∀ x,
      st.get? v = some x → ∃ q, x = .qty q ∧ q.dims = vdims v ∧ q.RankShaped (vdims v) (vcells v))
    (hsame : ∀ r ∈ c.ranks, ((parts r).getD []).keys = ((parts 0).getD []).keys)
    (hsub : ∀ v ∈ ((parts 0).getD []).keys, v ≠ "time" → v ∈ s.keys)
    (hrecv : ∀ v ∈ s.keys, v ≠ "time" → ∀ x, ((recv 0).getD []).get? v = some x →
      ∃ q, x = .qty q ∧ q.GlobalShaped c (vdims v) (vcells v)) :
    ∃ out : CState α,
      c.Returns buf (fun r => do
          let st ← scatterState c junk r (send r) (parts r)
          gatherState c junk' r st (recv r))
        (fun r => .ok (if r = 0 then some out else recv r)) ∧
      (∀ v ∉ s.keys, out.get? v = ((recv 0).getD []).get? v) ∧
      ("time" ∈ s.keys → out.get? "time" = s.get? "time") ∧
      ∀ v ∈ s.keys, v ≠ "time" → ∃ q, out.get? v = some (.qty q) ∧
        q.dims = (vqty v).dims ∧ q.extent = (vqty v).extent ∧ q.computeArr.Eqv (vqty v).computeArr ∧
        (∀ old, ((recv 0).getD []).get? v = some (.qty old) → old.Refilled q) := by
  have hsize := comm_size_pos hl
  have h0mem : (0 : Int) ∈ c.ranks := (mem_ranks c 0).2 ⟨by omega, hsize⟩
  obtain ⟨mid, n', s1, s2, s3⟩ := scatterState_does buf hl junk vdims vcells vqty s hnd time htime
    (fun v hv hne => ⟨(hs v hv hne).1, by have := (hs v hv hne).2.1.ylt; omega, (hs v hv hne).2.2⟩) send parts hsend
    (fun r hr st hst => ⟨(hparts r hr st hst).1, fun v hv hne x hx => by
      obtain ⟨q, e, -, h⟩ := (hparts r hr st hst).2 v hv hne x hx
      exact ⟨q, e, h⟩⟩) 0
  have hkeys : ∀ r ∈ c.ranks, (mid r).keys = (mid 0).keys := fun r hr => s2 r hr 0 h0mem (hsame r hr)
  have hmemk : ∀ v, v ∈ (mid 0).keys ↔ v ∈ s.keys := by
    intro v
    obtain ⟨-, t1, t2, t3⟩ := s3 0 h0mem
    rw [Dict.mem_keys_iff]
    by_cases hv : v = "time"
    · subst hv
      rw [t1, ← Dict.mem_keys_iff]
    · by_cases hvs : v ∈ s.keys
      · obtain ⟨q, e, -⟩ := t3 v hvs hv
        exact ⟨fun _ => hvs, fun _ => ⟨_, e⟩⟩
      · rw [t2 v hvs hv, ← Dict.mem_keys_iff]
        exact ⟨fun h => hsub v h hv, fun h => absurd h hvs⟩
  have hq : ∀ r v, ∃ q, r ∈ c.ranks → v ∈ s.keys → v ≠ "time" → (mid r).get? v = some (.qty q) ∧
      IsPart c (vdims v) (vcells v) (vqty v) q r ∧ q.dims = vdims v ∧ q.RankShaped (vdims v) (vcells v) := by
    intro r v
    by_cases h : r ∈ c.ranks ∧ v ∈ s.keys ∧ v ≠ "time"
    · obtain ⟨hr, hv, hne⟩ := h
      obtain ⟨q, e, hsh, h1, h2, h3⟩ := (s3 r hr).2.2.2 v hv hne
      refine ⟨q, fun _ _ _ => ⟨e, h1, ?_, hsh⟩⟩
      cases ho : ((parts r).getD []).get? v with
      | none =>
        exact (h3 ho).names
      | some x =>
        have hst : ∃ st, parts r = some st ∧ st.get? v = some x := by
          cases hp : parts r with
          | none => rw [hp] at ho; cases ho
          | some st => rw [hp] at ho; exact ⟨st, rfl, ho⟩
        obtain ⟨st, hst, hx⟩ := hst
        obtain ⟨q0, rfl, hd, -⟩ := (hparts r hr st hst).2 v hv hne x hx
        exact (h2 q0 ho).dims.trans hd
    · exact ⟨vqty v, fun a b d => absurd ⟨a, b, d⟩ h⟩
  choose part hpart using fun r v => hq r v
  obtain ⟨out, n'', ⟨p, g1, g2⟩, g3, g4, g5⟩ := gatherLoop_does buf hl junk' vdims vcells ky kx part
    (fun r v => ((mid r).get? v).getD (.time 0)) (mid 0).keys (s3 0 h0mem).1
    (by
      intro v hv hne
      rw [hmemk] at hv
      obtain ⟨-, ha, hg⟩ := hs v hv hne
      refine ⟨ha, ?_, ?_⟩
      · intro k hk
        have h := hg.extent
        cases c with
        | tile l => exact (tileOf_getD h hk).2.1
        | cube l =>
          obtain ⟨t, -, ht⟩ := h
          exact (tileOf_getD ht hk).2.1
      · intro r hr
        obtain ⟨a1, a2, a3, a4⟩ := hpart r v hr hv hne
        exact ⟨by rw [a1]; rfl, a4⟩)
    ((recv 0).getD [])
    (by
      intro v hv hne
      rw [hmemk] at hv
      exact ⟨hrecv v hv hne, fun _ => (hpart 0 v h0mem hv hne).2.2.1⟩) recv n'
  have hgs : AllDo buf c (fun r => gatherState c junk' r (mid r) (recv r)) n' n''
      (fun r => .ok (if r = 0 then some out else recv r)) := by
    refine ⟨p, g1, ?_⟩
    intro r hr
    have := g2 r hr
    unfold gatherState
    have e : mid r = (mid 0).keys.map fun v => (v, ((mid r).get? v).getD (.time 0)) := by
      rw [← hkeys r hr]
      exact dict_eq_map _ (s3 r hr).1
    beta_reduce at this ⊢
    rw [← e] at this
    by_cases h0 : r = 0
    · subst h0
      exact this
    · rw [if_neg h0] at this
      rw [if_neg (show ¬ r = ROOT_RANK from h0)]
      exact this
  refine ⟨out, (AllDo.bind (f := fun r st => gatherState c junk' r st (recv r)) s1 hgs).returns, ?_, ?_, ?_⟩
  · intro v hv
    exact g3 v (fun h => hv ((hmemk v).1 h))
  · intro hv
    rw [g4 ((hmemk _).2 hv)]
    obtain ⟨x, hx⟩ := (Dict.mem_keys_iff _ _).1 hv
    rw [(s3 0 h0mem).2.1, hx]
    rfl
  · intro v hv hne
    obtain ⟨q, e, a1, a2, a3, -⟩ := g5 v ((hmemk v).2 hv) hne
    have hg := (hs v hv hne).2.2
    have hext : q.extent = (vqty v).extent := globalExtent_unique a1.extent hg.extent
    refine ⟨q, e, a1.names.trans hg.names.symm, hext, ⟨?_, ?_⟩, a3⟩
    · show q.extent.map _ = (vqty v).extent.map _
      rw [hext]
    · intro p hp
      obtain ⟨r, rel, ⟨hr, hrel, -⟩, hpl, hval⟩ := a2 p hp
      obtain ⟨-, b2, -, b4⟩ := hpart r v hr hv hne
      rw [hval, ← hpl]
      refine b2 rel ?_
      rw [show (part r v).computeArr.shape = _ from rankOf_shape b4.extent]
      rwa [show (part 0 v).computeArr.shape = _ from rankOf_shape (hpart 0 v h0mem hv hne).2.2.2.extent] at hrel

/-! ### A concrete case: two variables and the time -/

/-- A field without stagger. -/
def exGlobal2 : Quantity Nat :=
  { data := ⟨[6, 2, 6], fun i => i.foldl (fun a k => 10 * a + k) 7⟩, dims := [.tile, .y, .x], units := "K"
    origin := [0, 0, 0], extent := [6, 2, 6] }

theorem exGlobal2_shaped : exGlobal2.GlobalShaped (.cube ⟨1, 2⟩) [.y, .x] [2, 3] := by
  refine ⟨⟨⟨rfl, rfl, rfl⟩, by unfold Quantity.ndim Quantity.o Quantity.e Quantity.n; decide⟩, rfl, [2, 6], rfl, rfl, rfl, ?_⟩
  intro k d c t hd hc ht
  match k with
  | 0 => simp at hd hc ht; subst hd hc ht; decide
  | 1 => simp at hd hc ht; subst hd hc ht; decide
  | k + 2 => simp at hd

def exCState : CState Nat := [("u", .qty exGlobal), ("time", .time 86400), ("T", .qty exGlobal2)]

/-- The hypotheses of C27 are met: rank 7 has a receive quantity for "u" and an entry of its own. -/
example (buf : Buffering) :
    ∃ out : Int → CState Nat, (Comm.cube ⟨1, 2⟩).Returns buf
      (fun r => scatterState (.cube ⟨1, 2⟩) (fun _ => 0) r (if r = 0 then some exCState else none)
        (if r = 7 then some [("own", .qty exGlobal), ("u", .qty exPart), ("time", .time 0)] else none))
      (fun r => .ok (out r)) ∧
      (out 7).get? "time" = some (.time 86400) ∧ (out 7).get? "own" = some (.qty exGlobal) ∧
      (out 3).get? "own" = none ∧
      ∃ q, (out 7).get? "u" = some (.qty q) ∧ exPart.Refilled q := by
  have hl : FloatSafe (Comm.cube ⟨1, 2⟩).layout := C05_safe_up_to_48 _ (by decide) (by decide) (by decide) (by decide)
  obtain ⟨out, h1, h2⟩ := C27_scatter_state buf (.cube ⟨1, 2⟩) hl (fun _ => 0)
    (fun v => if v = "u" then [.y, .xI] else [.y, .x]) (fun _ => [2, 3])
    (fun v => if v = "u" then exGlobal else exGlobal2) exCState (by decide) (some 86400) rfl
    (by
      intro v hv hne
      have : v = "u" ∨ v = "time" ∨ v = "T" := by simpa [exCState, Dict.keys] using hv
      rcases this with rfl | rfl | rfl
      · exact ⟨rfl, by decide, exGlobal_shaped⟩
      · exact absurd rfl hne
      · exact ⟨rfl, by decide, exGlobal2_shaped⟩)
    (fun r => if r = 0 then some exCState else none)
    (fun r => if r = 7 then some [("own", .qty exGlobal), ("u", .qty exPart), ("time", .time 0)] else none) rfl
    (by
      intro r _ st hst
      split at hst
      · cases hst
        refine ⟨by decide, ?_⟩
        intro v hv hne x hx
        have : v = "u" ∨ v = "time" ∨ v = "T" := by simpa [exCState, Dict.keys] using hv
        rcases this with rfl | rfl | rfl
        · cases hx
          exact ⟨_, rfl, exPart_shaped⟩
        · exact absurd rfl hne
        · cases hx
      · cases hst)
  refine ⟨out, h1, (h2 7 (by decide)).1, ?_, ?_, ?_⟩
  · exact (h2 7 (by decide)).2.1 "own" (by decide) (by decide)
  · exact (h2 3 (by decide)).2.1 "own" (by decide) (by decide)
  · obtain ⟨q, e, -, -, h, -⟩ := (h2 7 (by decide)).2.2 "u" (by decide) (by decide)
    exact ⟨q, e, h exPart rfl⟩

/-- Gathering: every rank sends `exPart` and the time; root receives into an empty state. -/
example (buf : Buffering) :
    ∃ out : CState Nat, (Comm.cube ⟨1, 2⟩).Returns buf
      (fun r => gatherState (.cube ⟨1, 2⟩) (fun _ => 0) r [("u", .qty exPart), ("time", .time (r + 5))] none)
      (fun r => .ok (if r = 0 then some out else none)) ∧
      out.get? "time" = some (.time 5) ∧ out.get? "v" = none ∧
      ∃ q, out.get? "u" = some (.qty q) ∧ FreshGlobal (.cube ⟨1, 2⟩) q [.y, .xI] [2, 3] "m" := by
  have hl : FloatSafe (Comm.cube ⟨1, 2⟩).layout := C05_safe_up_to_48 _ (by decide) (by decide) (by decide) (by decide)
  obtain ⟨out, h1, h2, h3, h4⟩ := C27_gather_state buf (.cube ⟨1, 2⟩) hl (fun _ => 0)
    (fun _ => [.y, .xI]) (fun _ => [2, 3]) (fun _ => 0) (fun _ => 1) ["u", "time"] (by decide)
    (fun r v => if v = "u" then .qty exPart else .time (r + 5)) (fun _ _ => exPart)
    (by
      intro v hv hne
      have : v = "u" ∨ v = "time" := by simpa using hv
      rcases this with rfl | rfl
      · exact ⟨exAxes, by decide, fun r _ => ⟨rfl, exPart_shaped⟩⟩
      · exact absurd rfl hne)
    (fun _ => none) (by
      intro v _ _
      refine ⟨?_, fun _ => rfl⟩
      intro x hx
      cases hx)
  refine ⟨out, h1, h3 (by decide), h2 "v" (by decide), ?_⟩
  obtain ⟨q, e, -, -, -, h⟩ := h4 "u" (by decide) (by decide)
  exact ⟨q, e, h rfl⟩

theorem exAxesYX : HAxes [.y, .x] 0 1 := by
  refine ⟨?_, ?_, by decide, by decide⟩ <;>
  · intro k d hd
    match k with
    | 0 => simp at hd; subst hd; decide
    | 1 => simp at hd; subst hd; decide
    | k + 2 => simp at hd

/-- Scattering `exCState` and gathering it again, without receive states. -/
example (buf : Buffering) :
    ∃ out : CState Nat, (Comm.cube ⟨1, 2⟩).Returns buf
      (fun r => do
        let st ← scatterState (.cube ⟨1, 2⟩) (fun _ => 0) r (if r = 0 then some exCState else none) none
        gatherState (.cube ⟨1, 2⟩) (fun _ => 0) r st none)
      (fun r => .ok (if r = 0 then some out else none)) ∧
      out.get? "time" = some (.time 86400) ∧
      ∃ q, out.get? "u" = some (.qty q) ∧ q.computeArr.Eqv exGlobal.computeArr := by
  have hl : FloatSafe (Comm.cube ⟨1, 2⟩).layout := C05_safe_up_to_48 _ (by decide) (by decide) (by decide) (by decide)
  obtain ⟨out, h1, -, h2, h3⟩ := C27_round_trip buf (.cube ⟨1, 2⟩) hl (fun _ => 0) (fun _ => 0)
    (fun v => if v = "u" then [.y, .xI] else [.y, .x]) (fun _ => [2, 3]) (fun _ => 0) (fun _ => 1)
    (fun v => if v = "u" then exGlobal else exGlobal2) exCState (by decide) (some 86400) rfl
    (by
      intro v hv hne
      have : v = "u" ∨ v = "time" ∨ v = "T" := by simpa [exCState, Dict.keys] using hv
      rcases this with rfl | rfl | rfl
      · exact ⟨rfl, exAxes, exGlobal_shaped⟩
      · exact absurd rfl hne
      · exact ⟨rfl, exAxesYX, exGlobal2_shaped⟩)
    (fun r => if r = 0 then some exCState else none) (fun _ => none) (fun _ => none) rfl
    (by intro r _ st h; cases h) (fun _ _ => rfl) (by intro v hv; cases hv) (by intro v _ _ x hx; cases hx)
  refine ⟨out, h1, h2 (by decide), ?_⟩
  obtain ⟨q, e, -, -, h, -⟩ := h3 "u" (by decide) (by decide)
  exact ⟨q, e, h⟩

end FV3
