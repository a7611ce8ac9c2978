import Verif.Spec.HeapStates
import Verif.Props.HeapState
import Verif.Proofs.DictFold

/-!
# Programs with states on memory
-/

namespace FV3

theorem Dict.set_same {K V : Type} [DecidableEq K] {d : Dict K V} {k : K} {v : V} (h : d.get? k = some v) : d.set k v = d := by
  induction d with
  | nil => cases h
  | cons e d ih =>
    obtain ⟨k', v'⟩ := e
    simp only [Dict.get?] at h
    simp only [Dict.set]
    split
    · next e => rw [if_pos e] at h; cases h; rfl
    · next e => rw [if_neg e] at h; rw [ih h]

theorem Dict.del_set {K V : Type} [DecidableEq K] {d : Dict K V} (hd : d.keys.Nodup) (k : K) (v : V) :
    (d.set k v).del k = d.filter fun e => e.1 ≠ k := by
  induction d with
  | nil => simp [Dict.set, Dict.del]
  | cons e d ih =>
    obtain ⟨k', v'⟩ := e
    rw [show Dict.keys ((k', v') :: d) = k' :: Dict.keys d from rfl, List.nodup_cons] at hd
    simp only [Dict.set]
    by_cases h : k = k'
    · subst h
      rw [if_pos rfl, List.filter_cons_of_neg (by simp)]
      simp only [Dict.del, if_pos]
      symm
      refine List.filter_eq_self.2 fun e he => ?_
      have : e.1 ≠ k := fun h => hd.1 (h ▸ List.mem_map_of_mem (f := (·.1)) he)
      simpa using this
    · rw [if_neg h, List.filter_cons_of_pos (by simpa using Ne.symm h)]
      simp only [Dict.del]
      rw [if_neg h, ih hd.2]

theorem Dict.eq_entries {K V : Type} [DecidableEq K] {d : Dict K V} (hd : d.keys.Nodup) (x : V) :
    d = d.keys.map fun k => (k, (d.get? k).getD x) := by
  have : ∀ e ∈ d, ((e.1, (d.get? e.1).getD x) : K × V) = e := fun e he => by
    rw [Dict.get?_of_mem hd (k := e.1) (v := e.2) he]
    rfl
  unfold Dict.keys
  rw [List.map_map]
  conv_lhs => rw [← List.map_id d]
  exact List.map_congr_left fun e he => (this e he).symm

namespace Heap
open Mem (World Gt4py)
open Strided

theorem hSetTime_eq {d : HDict} (hd : d.keys.Nodup) (t : Option Int) : hSetTime d t = withTime d (t.map .time) := by
  cases t with
  | none => exact Dict.del_set hd _ _
  | some t => rfl

theorem gatheredDict_eq (val : String → HVal) (gv : String → Nat) {names : List String} (hn : names.Nodup) (st : HDict)
    (hd : ∀ v ∈ names, v ≠ "time" → st.get? v = some (.qty (gv v))) :
    gatheredDict val gv names st = if "time" ∈ names then st.set "time" (val "time") else st := by
  induction names generalizing st with
  | nil => simp [gatheredDict]
  | cons w names ih =>
    rw [List.nodup_cons] at hn
    unfold gatheredDict
    by_cases ht : w = "time"
    · subst ht
      rw [if_pos rfl, ih hn.2, if_neg hn.1, if_pos List.mem_cons_self]
      intro v hv hne
      rw [Dict.get?_set_ne _ _ hne]
      exact hd v (List.mem_cons_of_mem _ hv) hne
    · rw [if_neg ht, Dict.set_same (hd w List.mem_cons_self ht), ih hn.2 st fun v hv hne => hd v (List.mem_cons_of_mem _ hv) hne]
      have : "time" ∈ w :: names ↔ "time" ∈ names := by
        rw [List.mem_cons]
        exact or_iff_right (Ne.symm ht)
      simp only [this]

variable {α : Type} [Inhabited α] [Neg α] {g : Gt4py} {l : Layout}

omit [Inhabited α] [Neg α] in
/-- A collective phase, between other phases. -/
theorem seg_phase {A : Type} {buf : Buffering} {p : Int → HC α A} {n n' : Nat} {W W1 : Int → World α} {out : Int → A}
    {plan : Int → List (Nat × Act (Msg α))} (hs : Seg buf (Comm.cube l).ranks n n' plan)
    (hp : ∀ r ∈ (Comm.cube l).ranks, RealH (p r) (W r) n (plan r) (out r) (W1 r) n') (k : Nat)
    {sent : Int → Int → Tag → List (Msg α)} {rcvd : Int → Int → Tag → Nat} (hc : Net.CleanOn (LaterTag k n) sent rcvd) :
    ∃ sched T, (⟨fun r => if r ∈ allRanks l then p r (W r, n) else .ret (.ok (out r), (W1 r, n')), sent, rcvd⟩ :
        Net (Msg α) (Py A × (World α × Nat))).run buf sched = some T ∧
      (∀ r, T.procs r = .ret (.ok (out r), (W1 r, n'))) ∧ Net.CleanOn (LaterTag k n') T.sent T.rcvd := by
  obtain ⟨sched, T, d1, d2, d3⟩ := hs.phase (procs := fun r => if r ∈ allRanks l then p r (W r, n) else .ret (.ok (out r), (W1 r, n')))
    (res := fun r => (.ok (out r), (W1 r, n'))) (fun r => by
      by_cases h : r ∈ allRanks l
      · rw [if_pos h]
        exact hp r ((cube_ranks l r).2 h)
      · rw [if_neg h, hs.ok.idle r fun h' => h ((cube_ranks l r).1 h')]
        exact .ret _) (sent := sent) (rcvd := rcvd)
    ⟨fun a b t ht => hc.sent a b t (by obtain ⟨i, e, h, -⟩ := ht; exact .inr ⟨i, e, h⟩),
      fun a b t ht => hc.rcvd a b t (by obtain ⟨i, e, h, -⟩ := ht; exact .inr ⟨i, e, h⟩)⟩
  refine ⟨sched, T, d1, d2, d3 _ ?_ ⟨fun a b t ht => hc.sent a b t (ht.mono (by omega) hs.le),
      fun a b t ht => hc.rcvd a b t (ht.mono (by omega) hs.le)⟩⟩
  rintro t (⟨i, e, h⟩ | ⟨i, e, h⟩) ⟨j, e', h1, h2⟩
  · rw [e] at e'; cases e'
  · rw [e] at e'; cases e'; omega

/-- Arrays and variables are as programs make them. -/
theorem SStep.keeps {x : SCall α} {W W1 : Int → World α} {D D1 : Int → Nat → HDict} (h : SStep g l x W D W1 D1) {r : Int}
    (hr : r ∈ allRanks l) (hw : WF g (W r)) : Keeps (W r) (W1 r) ∧ WF g (W1 r) := by
  have hr' := (cube_ranks l r).2 hr
  cases x with
  | comm x => exact h.1.keeps hr hw
  | scatterState a b =>
    obtain ⟨⟨sv, rv, -, h⟩, -⟩ := h
    exact ⟨h.keeps hr' hw, (scatters_only h hr').wf hw⟩
  | gatherState a b =>
    obtain ⟨⟨pv, gv, -, h⟩, -⟩ := h
    refine ⟨h.keeps hr' hw, ?_⟩
    by_cases h0 : r = 0
    · subst h0
      exact (gathers_only h hr').1.wf hw
    · have h0' : (0 : Int) ∈ (Comm.cube l).ranks := by
        obtain ⟨a, b⟩ := (mem_ranks _ r).1 hr'
        exact (mem_ranks _ 0).2 ⟨by omega, by omega⟩
      rw [(gathers_only h h0').2 r hr' h0]
      exact hw

/-- One call: what remains of the program is done after it. -/
theorem states_step (hl : FloatSafe l) (hsq : l.y = l.x) {W : Int → World α} (hw : ∀ r ∈ allRanks l, WF g (W r))
    {D : Int → Nat → HDict} {x : SCall α} (hr : SReady l W D x) (k n : Nat) (buf : Buffering)
    {sent : Int → Int → Tag → List (Msg α)} {rcvd : Int → Int → Tag → Nat} (hc : Net.CleanOn (LaterTag k n) sent rcvd) :
    ∃ k' n' W1 D1 sent' rcvd', SStep g l x W D W1 D1 ∧ (∀ r, r ∉ allRanks l → W1 r = W r ∧ D1 r = D r) ∧
      Net.CleanOn (LaterTag k' n') sent' rcvd' ∧
      ∀ {S : Type} (K : Int → Py Unit × SState α → Proc (Msg α) S) (Z out : Int → S),
        (⟨fun r => if r ∈ allRanks l then K r (.ok (), ⟨⟨W1 r, k', []⟩, n', D1 r⟩) else .ret (Z r), sent', rcvd'⟩ :
          Net (Msg α) S).Completes buf out →
        (⟨fun r => if r ∈ allRanks l then (x.exec g l r ⟨⟨W r, k, []⟩, n, D r⟩).bind (K r) else .ret (Z r), sent, rcvd⟩ :
          Net (Msg α) S).Completes buf out := by
  classical
  have h0mem : (0 : Int) ∈ (Comm.cube l).ranks := (mem_ranks _ 0).2 ⟨by omega, comm_size_pos (c := .cube l) hl⟩
  have hw' : ∀ r ∈ (Comm.cube l).ranks, WF g (W r) := fun r h => hw r ((cube_ranks l r).1 h)
  cases x with
  | comm x =>
    obtain ⟨k', n', W1, a1, a2, a3⟩ := mixed_phase hl hsq hw hr k n buf
    obtain ⟨sched, T, b1, b2, b3⟩ := a1 sent rcvd hc
    refine ⟨k', n', W1, D, T.sent, T.rcvd, ⟨a2, fun _ _ => rfl⟩, fun r h => ⟨a3 r h, rfl⟩, b3, fun K Z out hK => ?_⟩
    have := Net.Completes.andThen (K := fun r y => if r ∈ allRanks l then K r (y.1, ⟨y.2.1, y.2.2, D r⟩) else .ret (Z r)) b1 b2 hK
    refine cast ?_ this
    congr 1
    unfold Net.andThen
    congr 1
    funext r
    dsimp only
    by_cases h : r ∈ allRanks l
    · simp only [if_pos h]
      show _ = ((x.exec g l r _).bind _).bind _
      rw [Proc.bind_bind]
      rfl
    · simp only [if_neg h]
      rfl
  | scatterState a b =>
    obtain ⟨sv, rv, F⟩ := hr
    obtain ⟨time, ht⟩ := F.time
    obtain ⟨n', W1, plan, a1, a2, a3, a4⟩ := scatterState_mem (g := g) (c := .cube l) hl hw'
      (send := fun r => if r = ROOT_RANK then some (D r a) else none) (d := fun r => D r b)
      (s := D 0 a) rfl ht F.send (fun r hr v hv hne => F.recv v hv hne r hr) F.fits n buf
    obtain ⟨sched, T, b1, b2, b3⟩ := seg_phase a1 a2 k hc
    refine ⟨k, n', W1, fun r => if r ∈ allRanks l then fun i => if i = b then hSetTime (D r b) time else D r i else D r, T.sent, T.rcvd,
      ⟨⟨sv, rv, F, a3⟩, fun r hm i => ?_⟩, fun r h => ⟨a4 r fun h' => h ((cube_ranks l r).1 h'), if_neg h⟩, b3, fun K Z out hK => ?_⟩
    · dsimp only
      rw [if_pos hm, hSetTime_eq (F.nodup r ((cube_ranks l r).2 hm)), ht]
    have := Net.Completes.andThen (K := fun r (y : Py HDict × (World α × Nat)) => if r ∈ allRanks l then
        (match y.1 with
        | .ok d => K r (.ok (), ⟨⟨y.2.1, k, []⟩, y.2.2, fun i => if i = b then d else D r i⟩)
        | .error e => K r (.error e, ⟨⟨y.2.1, k, []⟩, y.2.2, D r⟩)) else .ret (Z r)) b1 b2 (out := out) (by
      refine cast ?_ hK
      congr 2
      funext r
      by_cases h : r ∈ allRanks l
      · simp only [if_pos h]
      · simp only [if_neg h])
    refine cast ?_ this
    congr 1
    unfold Net.andThen
    congr 1
    funext r
    dsimp only
    by_cases h : r ∈ allRanks l
    · simp only [if_pos h]
      show _ = ((Heap.scatterState _ _ _ _ _).bind _).bind _
      rw [Proc.bind_bind]
      congr 1
      funext y
      obtain ⟨y | y, z⟩ := y <;> rfl
    · simp only [if_neg h]
      rfl
  | gatherState a b =>
    obtain ⟨pv, gv, F⟩ := hr
    have nod : ∀ r ∈ (Comm.cube l).ranks, (D r a).keys.Nodup := fun r hr => by rw [F.names r hr]; exact F.nodup
    obtain ⟨n', W1, plan, a1, a2, a3, a4⟩ := gatherState_mem (g := g) (c := .cube l) hl hw' (names := (D 0 a).keys)
      (val := fun r v => ((D r a).get? v).getD (.time 0)) (recv := fun r => if r = ROOT_RANK then some (D r b) else none) (st := D 0 b)
      (pv := pv) (gv := gv) rfl (fun r hr v hv hne => by simp only [F.send v hv hne r hr, Option.getD_some]) F.recv F.fits n buf
    have a2' : ∀ r ∈ (Comm.cube l).ranks, RealH (Heap.gatherState (.cube l) r (D r a) (if r = ROOT_RANK then some (D r b) else none)) (W r) n
        (plan r) (if r = 0 then some (gatheredDict (fun v => ((D 0 a).get? v).getD (.time 0)) gv (D 0 a).keys (D 0 b)) else none) (W1 r) n' := by
      intro r hr
      have h := a2 r hr
      have e : (D 0 a).keys.map (fun v => (v, ((D r a).get? v).getD (.time 0))) = D r a := by
        rw [← F.names r hr]
        exact (Dict.eq_entries (nod r hr) _).symm
      rw [e] at h
      by_cases h0 : r = 0
      · rw [if_pos h0] at h ⊢
        exact h
      · rw [if_neg h0] at h ⊢
        rw [if_neg (show ¬ r = ROOT_RANK from h0)] at h ⊢
        exact h
    obtain ⟨sched, T, b1, b2, b3⟩ := seg_phase a1 a2' k hc
    refine ⟨k, n', W1, fun r => if r = 0 then fun i => if i = b then
        gatheredDict (fun v => ((D 0 a).get? v).getD (.time 0)) gv (D 0 a).keys (D 0 b) else D r i else D r, T.sent, T.rcvd,
      ⟨⟨pv, gv, F, a3⟩, fun r hm i => ?_⟩, fun r h => ⟨a4 r fun h' => h ((cube_ranks l r).1 h'), if_neg fun e : r = 0 => ?_⟩, b3, fun K Z out hK => ?_⟩
    · dsimp only
      by_cases h0 : r = 0
      · subst h0
        rw [if_pos rfl]
        by_cases hi : i = b
        · subst hi
          rw [if_pos rfl, gatheredDict_eq _ _ F.nodup _ F.recv]
          by_cases ht : "time" ∈ (D 0 a).keys
          · rw [if_pos ht, if_pos ⟨rfl, rfl, ht⟩]
            obtain ⟨t, ht⟩ := (Dict.mem_keys_iff _ _).1 ht
            rw [ht]
            rfl
          · rw [if_neg ht, if_neg fun h => ht h.2.2]
        · rw [if_neg hi, if_neg fun h => hi h.2.1]
      · rw [if_neg h0, if_neg fun h => h0 h.1]
    · subst e
      exact h ((cube_ranks l 0).1 h0mem)
    have := Net.Completes.andThen (K := fun r (y : Py (Option HDict) × (World α × Nat)) => if r ∈ allRanks l then
        (match y.1 with
        | .ok (some d) => K r (.ok (), ⟨⟨y.2.1, k, []⟩, y.2.2, fun i => if i = b then d else D r i⟩)
        | .ok none => K r (.ok (), ⟨⟨y.2.1, k, []⟩, y.2.2, D r⟩)
        | .error e => K r (.error e, ⟨⟨y.2.1, k, []⟩, y.2.2, D r⟩)) else .ret (Z r)) b1 b2 (out := out) (by
      refine cast ?_ hK
      congr 2
      funext r
      by_cases h : r ∈ allRanks l
      · by_cases h0 : r = 0
        · simp only [if_pos h, if_pos h0]
        · simp only [if_pos h, if_neg h0]
      · simp only [if_neg h])
    refine cast ?_ this
    congr 1
    unfold Net.andThen
    congr 1
    funext r
    dsimp only
    by_cases h : r ∈ allRanks l
    · simp only [if_pos h]
      show _ = ((Heap.gatherState _ _ _ _ _).bind _).bind _
      rw [Proc.bind_bind]
      congr 1
      funext y
      obtain ⟨y | (_ | y), z⟩ := y <;> rfl
    · simp only [if_neg h]
      rfl

/-- The arguments of each call fit, when it is made. -/
def SGood (g : Gt4py) (l : Layout) : List (SCall α) → (Int → World α) → (Int → Nat → HDict) → Prop
  | [], _, _ => True
  | x :: xs, W, D => SReady l W D x ∧ ∀ W1 D1, SStep g l x W D W1 D1 → SGood g l xs W1 D1

theorem good_of {calls : List (SCall α)} {W : Int → World α} {D : Int → Nat → HDict}
    (hr : ∀ (pre : List (SCall α)) x post, calls = pre ++ x :: post → ∀ W1 D1, SRun g l pre W D W1 D1 → SReady l W1 D1 x) :
    SGood g l calls W D := by
  induction calls generalizing W D with
  | nil => trivial
  | cons x xs ih =>
    exact ⟨hr [] x xs rfl W D fun _ _ => ⟨rfl, rfl⟩, fun W1 D1 h => ih fun pre y post e W2 D2 hrun =>
      hr (x :: pre) y post (by rw [e]; rfl) W2 D2 ⟨W1, D1, h, hrun⟩⟩

/-- All calls. -/
theorem states_from (hl : FloatSafe l) (hsq : l.y = l.x) {W : Int → World α} (hw : ∀ r ∈ allRanks l, WF g (W r))
    {D : Int → Nat → HDict} {calls : List (SCall α)}
    (hr : SGood g l calls W D) (k n : Nat) (buf : Buffering) {sent : Int → Int → Tag → List (Msg α)} {rcvd : Int → Int → Tag → Nat}
    (hc : Net.CleanOn (LaterTag k n) sent rcvd) :
    ∃ W' D', SRun g l calls W D W' D' ∧ (∀ r, r ∉ allRanks l → W' r = W r ∧ D' r = D r) ∧ (⟨fun r => if r ∈ allRanks l then
        (execStates g l r calls ⟨⟨W r, k, []⟩, n, D r⟩).bind fun y => .ret (y.1, y.2.heap.world, y.2.dicts)
        else .ret (.ok (), W r, D r), sent, rcvd⟩ :
          Net (Msg α) (Py Unit × World α × (Nat → HDict))).Completes buf fun r => (.ok (), W' r, D' r) := by
  induction calls generalizing W D k n sent rcvd with
  | nil =>
    refine ⟨W, D, fun _ _ => ⟨rfl, rfl⟩, fun _ _ => ⟨rfl, rfl⟩, Net.completes_of_run (sched := []) rfl fun r => ?_⟩
    dsimp only
    split <;> rfl
  | cons x xs ih =>
    obtain ⟨k', n', W1, D1, sent', rcvd', a1, a2, a3, a4⟩ :=
      states_step hl hsq hw hr.1 k n buf hc
    obtain ⟨W', D', c1, c2, c3⟩ := ih (fun r h => (a1.keeps h (hw r h)).2)
      (hr.2 W1 D1 a1) k' n' a3
    refine ⟨W', D', ⟨W1, D1, a1, c1⟩, fun r h => ⟨(c2 r h).1.trans (a2 r h).1, (c2 r h).2.trans (a2 r h).2⟩, ?_⟩
    have := a4 (fun r y => (match y.1 with
        | .ok _ => execStates g l r xs y.2
        | .error e => .ret (.error e, y.2)).bind fun y => .ret (y.1, y.2.heap.world, y.2.dicts))
      (fun r => (.ok (), W r, D r)) (fun r => (.ok (), W' r, D' r)) (by
        refine cast ?_ c3
        congr 2
        funext r
        by_cases h : r ∈ allRanks l
        · simp only [if_pos h]
        · simp only [if_neg h]
          rw [(a2 r h).1, (a2 r h).2])
    refine cast ?_ this
    congr 2
    funext r
    by_cases h : r ∈ allRanks l
    · simp only [if_pos h]
      show _ = ((x.exec g l r _).bind _).bind _
      rw [Proc.bind_bind]
      congr 1
    · simp only [if_neg h]

end Heap
end FV3
