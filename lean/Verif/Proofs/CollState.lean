import Verif.Proofs.ScatterProg
import Verif.Proofs.Dict
import Verif.Props.Scatter
import Verif.Spec.CollState

/-!
# The programs `scatter_state` and `gather_state`
-/

namespace FV3
variable {α : Type}

/-- The loop of a rank. -/
def scatterLoop (c : Comm) (junk : List Nat → α) (s : CState α) (names : List String) (r : Int) (st : CState α) :
    CollM α (CState α) :=
  if r = 0 then scatterRootLoop c junk s names st else scatterClientLoop c junk r names st

theorem recvOf_ok (st : CState α) (name : String)
    (h : ∀ v, st.get? name = some v → ∃ q, v = .qty q) :
    ∃ o, recvOf st name = .ok o ∧ (∀ q, o = some q ↔ st.get? name = some (.qty q)) ∧
      (o = none ↔ st.get? name = none) := by
  unfold recvOf
  cases hs : st.get? name with
  | none => exact ⟨none, rfl, by simp, by simp⟩
  | some v =>
    obtain ⟨q, rfl⟩ := h v hs
    exact ⟨some q, rfl, by simp, by simp⟩

/-- The keys of a dictionary with keys `ks` after setting `names`. -/
def addKeys (ks : List String) (names : List String) : List String :=
  names.foldl (fun ks k => if k ∈ ks then ks else ks ++ [k]) ks

theorem scatterLoop_does (buf : Buffering) {c : Comm} (hl : FloatSafe c.layout) (junk : List Nat → α)
    (vdims : String → List Dim) (vcells : String → List Int) (vqty : String → Quantity α) (s : CState α)
    (names : List String) (hnd : names.Nodup)
    (hs : ∀ v ∈ names, s.get? v = some (.qty (vqty v)) ∧ 0 < (vdims v).length ∧
      (vqty v).GlobalShaped c (vdims v) (vcells v))
    (st : Int → CState α)
    (hst : ∀ r ∈ c.ranks, ∀ v ∈ names, ∀ x, (st r).get? v = some x → ∃ q, x = .qty q ∧ q.RankShaped (vdims v) (vcells v))
    (hk : ∀ r ∈ c.ranks, (st r).keys.Nodup) (n : Nat) :
    ∃ (out : Int → CState α) (n' : Nat),
      AllDo buf c (fun r => scatterLoop c junk s names r (st r)) n n' (fun r => .ok (out r)) ∧
      ∀ r ∈ c.ranks, (out r).keys.Nodup ∧ (out r).keys = addKeys (st r).keys names ∧
        (∀ v ∉ names, (out r).get? v = (st r).get? v) ∧
        ∀ v ∈ names, ScatteredInto c (vdims v) (vcells v) (vqty v) ((st r).get? v) ((out r).get? v) r := by
  induction names generalizing st n with
  | nil =>
    refine ⟨st, n, ⟨fun _ => [], Seg.nil _ _ _, ?_⟩, fun r hr => ⟨hk r hr, rfl, fun _ _ => rfl, by simp⟩⟩
    intro r _
    unfold scatterLoop scatterRootLoop scatterClientLoop
    beta_reduce
    split_ifs <;> exact RealC.pure _ _
  | cons name names ih =>
    rw [List.nodup_cons] at hnd
    obtain ⟨g1, g2, g3⟩ := hs name List.mem_cons_self
    have hrecv : ∀ r, ∃ o, r ∈ c.ranks → recvOf (st r) name = .ok o ∧
        (∀ q, o = some q ↔ (st r).get? name = some (.qty q)) ∧ (o = none ↔ (st r).get? name = none) := by
      intro r
      by_cases hr : r ∈ c.ranks
      · obtain ⟨o, h⟩ := recvOf_ok (st r) name (fun v hv => by
          obtain ⟨q, hq, -⟩ := hst r hr name List.mem_cons_self v hv
          exact ⟨q, hq⟩)
        exact ⟨o, fun _ => h⟩
      · exact ⟨none, fun h => absurd h hr⟩
    choose rv hrv using hrecv
    obtain ⟨q, ⟨p1, s1, r1⟩, o1⟩ := scatter_does buf hl junk g2 g3 (fun r => if r = 0 then some (vqty name) else none) rv rfl
      (by
        intro r hr x hx
        obtain ⟨q, e, hq⟩ := hst r hr name List.mem_cons_self _ (((hrv r hr).2.1 x).1 hx)
        cases e; exact hq) n
    obtain ⟨out, n', ⟨p2, s2, r2⟩, o2⟩ := ih hnd.2 (fun v hv => hs v (List.mem_cons_of_mem _ hv))
      (fun r => (st r).set name (.qty (q r)))
      (by
        intro r hr v hv x hx
        have hne : v ≠ name := fun e => hnd.1 (e ▸ hv)
        rw [Dict.get?_set_ne _ _ hne] at hx
        exact hst r hr v (List.mem_cons_of_mem _ hv) x hx)
      (fun r hr => Dict.nodup_set _ _ _ (hk r hr)) (n + 2)
    refine ⟨out, n', ⟨_, s1.append s2, ?_⟩, ?_⟩
    · intro r hr
      have a1 := r1 r hr
      have a2 := r2 r hr
      have a3 := (hrv r hr).1
      unfold scatterLoop at a2 ⊢
      beta_reduce at a1 a2 ⊢
      by_cases h0 : r = 0
      · subst h0
        rw [if_pos rfl] at a2 ⊢
        rw [if_pos rfl] at a1
        unfold scatterRootLoop
        refine RealC.lift_bind (a := vqty name) (by rw [g1]; rfl) ?_
        refine RealC.lift_bind a3 ?_
        exact RealC.bind a1 a2
      · rw [if_neg h0] at a1
        rw [if_neg h0] at a2 ⊢
        unfold scatterClientLoop
        refine RealC.lift_bind a3 ?_
        exact RealC.bind a1 a2
    · intro r hr
      obtain ⟨b1, bk, b2, b3⟩ := o2 r hr
      refine ⟨b1, ?_, ?_, ?_⟩
      · rw [bk, Dict.keys_set]
        rfl
      · intro v hv
        rw [List.mem_cons, not_or] at hv
        rw [b2 v hv.2, Dict.get?_set_ne _ _ hv.1]
      · intro v hv
        rcases List.mem_cons.1 hv with rfl | hv
        · have ho := o1 r hr
          refine ⟨q r, ?_, ho.shaped, ho.part, ?_, ?_⟩
          · rw [b2 v hnd.1, Dict.get?_set_self]
          · intro x hx
            exact ho.given x (((hrv r hr).2.1 x).2 hx)
          · intro hx
            exact ho.fresh ((hrv r hr).2.2.2 hx)
        · have hne : v ≠ name := fun e => hnd.1 (e ▸ hv)
          have := b3 v hv
          rwa [Dict.get?_set_ne _ _ hne] at this

theorem get?_setTime (st : CState α) (hk : st.keys.Nodup) (t : Option Int) (v : String) :
    (setTime st t).get? v = if v = "time" then t.map SVal.time else st.get? v := by
  unfold setTime
  cases t with
  | none =>
    rw [Dict.get?_del _ (Dict.nodup_set _ _ _ hk)]
    by_cases h : v = "time"
    · simp [h]
    · simp only [h, if_false]
      rw [Dict.get?_set_ne _ _ h]
  | some t =>
    simp only [Option.map_some]
    rw [Dict.get?_set]

theorem keys_setTime {st st' : CState α} (h : st.keys = st'.keys) (t : Option Int) :
    (setTime st t).keys = (setTime st' t).keys := by
  unfold setTime
  cases t with
  | none => simp only [Dict.keys_del, Dict.keys_set, h]
  | some t => simp only [Dict.keys_set, h]

theorem scatterState_does (buf : Buffering) {c : Comm} (hl : FloatSafe c.layout) (junk : List Nat → α)
    (vdims : String → List Dim) (vcells : String → List Int) (vqty : String → Quantity α) (s : CState α)
    (hnd : s.keys.Nodup) (time : Option Int) (htime : s.get? "time" = time.map .time)
    (hs : ∀ v ∈ s.keys, v ≠ "time" → s.get? v = some (.qty (vqty v)) ∧ 0 < (vdims v).length ∧
      (vqty v).GlobalShaped c (vdims v) (vcells v))
    (send recv : Int → Option (CState α)) (hsend : send 0 = some s)
    (hst : ∀ r ∈ c.ranks, ∀ st, recv r = some st → st.keys.Nodup ∧ ∀ v ∈ s.keys, v ≠ "time" → ∀ x,
      st.get? v = some x → ∃ q, x = .qty q ∧ q.RankShaped (vdims v) (vcells v)) (n : Nat) :
    ∃ (out : Int → CState α) (n' : Nat),
      AllDo buf c (fun r => scatterState c junk r (send r) (recv r)) n n' (fun r => .ok (out r)) ∧
      (∀ r ∈ c.ranks, ∀ r' ∈ c.ranks, ((recv r).getD []).keys = ((recv r').getD []).keys →
        (out r).keys = (out r').keys) ∧
      ∀ r ∈ c.ranks, (out r).keys.Nodup ∧ (out r).get? "time" = s.get? "time" ∧
        (∀ v ∉ s.keys, v ≠ "time" → (out r).get? v = ((recv r).getD []).get? v) ∧
        ∀ v ∈ s.keys, v ≠ "time" →
          ScatteredInto c (vdims v) (vcells v) (vqty v) (((recv r).getD []).get? v) ((out r).get? v) r := by
  have hsize := comm_size_pos hl
  have hmem : ∀ v, v ∈ s.keys.filter (· ≠ "time") ↔ v ∈ s.keys ∧ v ≠ "time" := by
    intro v; simp
  obtain ⟨out, n', ⟨plan, h1, h2⟩, h3⟩ := scatterLoop_does buf hl junk vdims vcells vqty s (s.keys.filter (· ≠ "time"))
    (hnd.filter _) (fun v hv => hs v ((hmem v).1 hv).1 ((hmem v).1 hv).2) (fun r => (recv r).getD [])
    (by
      intro r hr v hv x hx
      cases h : recv r with
      | none => rw [h] at hx; cases hx
      | some st => rw [h] at hx; exact (hst r hr st h).2 v ((hmem v).1 hv).1 ((hmem v).1 hv).2 x hx)
    (by
      intro r hr
      cases h : recv r with
      | none => exact List.nodup_nil
      | some st => exact (hst r hr st h).1) (n + 1)
  refine ⟨fun r => setTime (out r) time, n' + 1, ⟨fun r => distPlan c.size n
      (fun _ => Msg.names (s.keys.filter (· ≠ "time"))) r ++ (plan r ++ distPlan c.size n' (fun _ => Msg.time time) r),
    (distPlan_seg buf c hsize n _).append (h1.append (distPlan_seg buf c hsize n' _)), ?_⟩, ?_, ?_⟩
  · intro r hr
    have hr' := (mem_ranks c r).1 hr
    have a2 := h2 r hr
    unfold scatterLoop at a2
    beta_reduce at a2
    unfold scatterState
    dsimp only
    by_cases h0 : r = 0
    · subst h0
      rw [if_pos rfl] at a2
      rw [if_pos (show (0 : Int) = ROOT_RANK from rfl)]
      simp only [hsend]
      refine RealC.bind (bcast_real c.size (fun _ => Msg.names (s.keys.filter (· ≠ "time"))) n 0 hr') ?_
      refine RealC.lift_bind rfl ?_
      refine RealC.bind a2 ?_
      refine RealC.lift_bind (a := time) ?_ ?_
      · unfold timeOf
        rw [htime]
        cases time <;> rfl
      refine RealC.bind_end (bcast_real c.size (fun _ => Msg.time time) n' 0 hr') ?_
      refine RealC.lift_bind rfl ?_
      exact RealC.pure _ _
    · rw [if_neg h0] at a2
      rw [if_neg (show ¬ r = ROOT_RANK from h0)]
      refine RealC.bind (a := Msg.names (s.keys.filter (· ≠ "time"))) ?_ ?_ (c' := n + 1)
      · have := bcast_real c.size (fun r => if r = 0 then Msg.names (s.keys.filter (· ≠ "time")) else (Msg.time none : Msg α)) n r hr'
        simp only [if_neg h0, if_true] at this
        exact this
      refine RealC.lift_bind rfl ?_
      refine RealC.bind a2 ?_
      refine RealC.bind_end (a := Msg.time time) ?_ ?_ (c' := n' + 1)
      · have := bcast_real c.size (fun r => if r = 0 then Msg.time time else (Msg.time none : Msg α)) n' r hr'
        simp only [if_neg h0, if_true] at this
        exact this
      refine RealC.lift_bind rfl ?_
      exact RealC.pure _ _
  · intro r hr r' hr' hkk
    refine keys_setTime ?_ time
    rw [(h3 r hr).2.1, (h3 r' hr').2.1, hkk]
  · intro r hr
    obtain ⟨b1, -, b2, b3⟩ := h3 r hr
    refine ⟨?_, ?_, ?_, ?_⟩
    · unfold setTime
      cases time with
      | none => exact Dict.nodup_del _ _ (Dict.nodup_set _ _ _ b1)
      | some t => exact Dict.nodup_set _ _ _ b1
    · rw [get?_setTime _ b1, if_pos rfl, htime]
    · intro v hv hne
      rw [get?_setTime _ b1, if_neg hne, b2 v (fun h => hv ((hmem v).1 h).1)]
    · intro v hv hne
      rw [get?_setTime _ b1, if_neg hne]
      exact b3 v ((hmem v).2 ⟨hv, hne⟩)

/-! ### gather_state -/

theorem gatherLoop_does (buf : Buffering) {c : Comm} (hl : FloatSafe c.layout) (junk : List Nat → α)
    (vdims : String → List Dim) (vcells : String → List Int) (ky kx : String → Nat) (part : Int → String → Quantity α)
    (val : Int → String → SVal α) (names : List String) (hnd : names.Nodup)
    (hs : ∀ v ∈ names, v ≠ "time" → HAxes (vdims v) (ky v) (kx v) ∧
      (∀ k, k < (vdims v).length → (vcells v).getD k 0 * ranksAlong c.layout ((vdims v).getD k .x) < 2 ^ 51) ∧
      ∀ r ∈ c.ranks, val r v = .qty (part r v) ∧ (part r v).RankShaped (vdims v) (vcells v))
    (st : CState α) (hst : ∀ v ∈ names, v ≠ "time" →
      (∀ x, st.get? v = some x → ∃ q, x = .qty q ∧ q.GlobalShaped c (vdims v) (vcells v)) ∧
      (st.get? v = none → (part 0 v).dims = vdims v))
    (others : Int → Option (CState α)) (n : Nat) :
    ∃ (out : CState α) (n' : Nat),
      AllDo buf c (fun r => gatherLoop c junk r (names.map fun v => (v, val r v)) (if r = 0 then some st else others r)) n n'
        (fun r => .ok (if r = 0 then some out else others r)) ∧
      (∀ v ∉ names, out.get? v = st.get? v) ∧
      ("time" ∈ names → out.get? "time" = some (val 0 "time")) ∧
      ∀ v ∈ names, v ≠ "time" →
        GatheredInto c (vdims v) (vcells v) (fun r => part r v) (st.get? v) (out.get? v) := by
  have hsize := comm_size_pos hl
  have h0mem : (0 : Int) ∈ c.ranks := (mem_ranks c 0).2 ⟨by omega, hsize⟩
  induction names generalizing st n with
  | nil =>
    refine ⟨st, n, ⟨fun _ => [], Seg.nil _ _ _, ?_⟩, fun _ _ => rfl, by simp, by simp⟩
    intro r _
    exact RealC.pure _ _
  | cons name names ih =>
    rw [List.nodup_cons] at hnd
    have hs' := fun v (hv : v ∈ names) => hs v (List.mem_cons_of_mem _ hv)
    have hstep : ∀ x, ∀ v ∈ names, v ≠ "time" →
        (∀ y, (st.set name x).get? v = some y → ∃ q, y = .qty q ∧ q.GlobalShaped c (vdims v) (vcells v)) ∧
        ((st.set name x).get? v = none → (part 0 v).dims = vdims v) := by
      intro x v hv hne
      have hv' : v ≠ name := fun e => hnd.1 (e ▸ hv)
      rw [Dict.get?_set_ne _ _ hv']
      exact hst v (List.mem_cons_of_mem _ hv) hne
    by_cases ht : name = "time"
    · subst ht
      obtain ⟨out, n', ⟨p2, s2, r2⟩, o1, o2, o3⟩ := ih hnd.2 hs' (st.set "time" (val 0 "time")) (hstep _) n
      refine ⟨out, n', ⟨p2, s2, ?_⟩, ?_, ?_, ?_⟩
      · intro r hr
        have a2 := r2 r hr
        beta_reduce at a2 ⊢
        simp only [List.map_cons]
        unfold gatherLoop
        rw [if_pos rfl]
        by_cases h0 : r = 0
        · subst h0; exact a2
        · rw [if_neg h0] at a2 ⊢
          rw [if_neg h0] at a2
          rw [if_neg h0, if_neg (show ¬ r = ROOT_RANK from h0)]; exact a2
      · intro v hv
        rw [List.mem_cons, not_or] at hv
        rw [o1 v hv.2, Dict.get?_set_ne _ _ hv.1]
      · intro _
        rw [o1 _ hnd.1, Dict.get?_set_self]
      · intro v hv hne
        rcases List.mem_cons.1 hv with rfl | hv
        · exact absurd rfl hne
        · have := o3 v hv hne
          rwa [Dict.get?_set_ne _ _ hne] at this
    · obtain ⟨ha, hb, hp⟩ := hs name List.mem_cons_self ht
      obtain ⟨k1, k2⟩ := hst name List.mem_cons_self ht
      obtain ⟨o, e1, e2, e3⟩ := recvOf_ok st name (fun v hv => by
          obtain ⟨q, hq, -⟩ := k1 v hv
          exact ⟨q, hq⟩)
      have hpos : 0 < (vdims name).length := by
        have := ha.ylt
        omega
      obtain ⟨root, ⟨p1, s1, r1⟩, g1⟩ := gather_does buf hl junk hpos hb (fun r => part r name)
        (fun r => if r = 0 then o else none) (fun r hr => (hp r hr).2)
        (by
          intro q hq
          rw [if_pos rfl] at hq
          obtain ⟨q', e, h⟩ := k1 _ ((e2 q).1 hq)
          cases e; exact h)
        (by
          intro h
          rw [if_pos rfl] at h
          exact k2 (e3.1 h)) n
      obtain ⟨out, n', ⟨p2, s2, r2⟩, o1, o2, o3⟩ := ih hnd.2 hs' (st.set name (.qty root)) (hstep _) (n + 1)
      refine ⟨out, n', ⟨_, s1.append s2, ?_⟩, ?_, ?_, ?_⟩
      · intro r hr
        have a1 := r1 r hr
        have a2 := r2 r hr
        beta_reduce at a1 a2 ⊢
        simp only [List.map_cons]
        unfold gatherLoop
        rw [if_neg ht]
        refine RealC.lift_bind (a := part r name) (by rw [(hp r hr).1]; rfl) ?_
        by_cases h0 : r = 0
        · subst h0
          rw [if_pos rfl] at a1 ⊢
          rw [if_pos (show (0 : Int) = ROOT_RANK from rfl)]
          refine RealC.lift_bind (a := o) e1 ?_
          exact RealC.bind a1 a2
        · rw [if_neg h0] at a1
          simp only [if_neg h0] at a1 a2 ⊢
          rw [if_neg (show ¬ r = ROOT_RANK from h0)]
          refine RealC.lift_bind (a := none) rfl ?_
          exact RealC.bind a1 a2
      · intro v hv
        rw [List.mem_cons, not_or] at hv
        rw [o1 v hv.2, Dict.get?_set_ne _ _ hv.1]
      · intro h
        rcases List.mem_cons.1 h with h | h
        · exact absurd h.symm ht
        · exact o2 h
      · intro v hv hne
        rcases List.mem_cons.1 hv with rfl | hv
        · refine ⟨root, ?_, g1.shaped, GatherOut.gathered hl ha g1 (hp 0 h0mem).2, ?_, ?_⟩
          · rw [o1 _ hnd.1, Dict.get?_set_self]
          · intro q hq
            exact g1.given q (by rw [if_pos rfl]; exact (e2 q).2 hq)
          · intro h
            exact (g1.fresh (by rw [if_pos rfl]; exact e3.2 h)).1
        · have hne' : v ≠ name := fun e => hnd.1 (e ▸ hv)
          have := o3 v hv hne
          rwa [Dict.get?_set_ne _ _ hne'] at this

end FV3
