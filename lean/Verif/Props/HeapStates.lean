import Verif.Proofs.HeapStates

/-!
# C87: programs with states, updates, scatters and gathers, on memory
-/

namespace FV3
namespace Heap
open Mem (World Gt4py Reachable)
variable {α : Type} [Inhabited α] [Neg α] {g : Gt4py} {l : Layout}

theorem states_good (hl : FloatSafe l) (hsq : l.y = l.x) {W : Int → World α} {D : Int → Nat → HDict} {calls : List (SCall α)}
    (hW : ∀ r ∈ allRanks l, Reachable g (W r)) (hr : SGood g l calls W D) (buf : Buffering) :
    ∃ (W' : Int → World α) (D' : Int → Nat → HDict), SRun g l calls W D W' D' ∧
      (statesNet g l calls W D).Completes buf fun r => (.ok (), W' r, D' r) := by
  obtain ⟨W', D', h1, -, h2⟩ := states_from hl hsq (fun r h => (hW r h).spec) hr 0 0 buf
    (sent := fun _ _ _ => []) (rcvd := fun _ _ _ => 0) ⟨fun _ _ _ _ => rfl, fun _ _ _ _ => rfl⟩
  exact ⟨W', D', h1, h2⟩

/-- **C87**: any sequence of halo updates, vector updates, synchronisations, scatters, gathers, `scatter_state` and `gather_state` of
one communicator, with programs between them which work on quantities, arrays and storages, on memory which these share:
whatever the schedule and the buffering of MPI, all ranks return, and memory and the dictionaries are as after the calls one after
the other (`SRun`).  The arguments of a call need to fit when it is made. -/
theorem C87_session (hl : FloatSafe l) (hsq : l.y = l.x) {W : Int → World α} {D : Int → Nat → HDict} {calls : List (SCall α)}
    (hW : ∀ r ∈ allRanks l, Reachable g (W r))
    (hr : ∀ (pre : List (SCall α)) x post, calls = pre ++ x :: post → ∀ W1 D1, SRun g l pre W D W1 D1 → SReady l W1 D1 x)
    (buf : Buffering) :
    ∃ (W' : Int → World α) (D' : Int → Nat → HDict), SRun g l calls W D W' D' ∧
      (statesNet g l calls W D).Completes buf fun r => (.ok (), W' r, D' r) :=
  states_good hl hsq hW (good_of hr) buf

/-! ### Halo updates of all quantities of a state -/

/-- Halo updates of variables, one after the other. -/
def haloCalls (q : String → Nat) (h : Int) (ns : List String) : List (SCall α) :=
  ns.map fun v => .comm (.update (.haloUpdate (q v) h))

theorem Keeps.trans' {W W1 W2 : World α} (h1 : Keeps W W1) (h2 : Keeps W1 W2) : Keeps W W2 :=
  fun k y hy hs => h2 k y (h1 k y hy hs) hs

theorem halos_good {q : String → Nat} {h : Int} {ns : List String} {rest : List (SCall α)} (hl : FloatSafe l) {W : Int → World α}
    {D : Int → Nat → HDict} (hw : ∀ r ∈ allRanks l, WF g (W r))
    (hr : ∀ v ∈ ns, XReady l W (.update (.haloUpdate (q v) h) : XCall α))
    (hrest : ∀ W1 D1, (∀ r ∈ allRanks l, Keeps (W r) (W1 r)) → (∀ r ∈ allRanks l, WF g (W1 r)) → (∀ r ∈ allRanks l, D1 r = D r) →
      SGood g l rest W1 D1) :
    SGood g l (haloCalls q h ns ++ rest) W D := by
  induction ns generalizing W D with
  | nil => exact hrest W D (fun _ _ _ _ h _ => h) hw fun _ _ => rfl
  | cons v ns ih =>
    refine ⟨hr v List.mem_cons_self, fun W1 D1 hst => ?_⟩
    have kk := fun r hm => SStep.keeps hst (r := r) hm (hw r hm)
    refine ih (fun r hm => (kk r hm).2) (fun w hwm => (hr w (List.mem_cons_of_mem _ hwm)).kept hl hw fun r hm => (kk r hm).1)
      fun W2 D2 k2 w2 d2 => hrest W2 D2 (fun r hm => (kk r hm).1.trans' (k2 r hm)) w2 fun r hm => (d2 r hm).trans (hst.2 r hm)

theorem ScalarField.at {W W1 : Int → World α} {q ky kx : Nat} {n h : Int} (S : ScalarField l (fun r => quantities (W r)) q ky kx n h)
    (me : ∀ r ∈ allRanks l, SameMeta (quantities (W r) q) (quantities (W1 r) q)) :
    ScalarField l (fun r => quantities (W1 r)) q ky kx n h := by
  have S0 : ScalarField l (fun r _ => quantities (W1 r) q) q ky kx n h :=
    ScalarField.same (m := fun r _ => quantities (W r) q) ⟨S.ready, S.dims, S.other, S.stagger⟩ fun r hr _ => me r hr
  exact ⟨S0.ready, S0.dims, S0.other, S0.stagger⟩

theorem srun_append {xs ys : List (SCall α)} {W W' : Int → World α} {D D' : Int → Nat → HDict} (h : SRun g l (xs ++ ys) W D W' D') :
    ∃ W1 D1, SRun g l xs W D W1 D1 ∧ SRun g l ys W1 D1 W' D' := by
  induction xs generalizing W D with
  | nil => exact ⟨W, D, fun _ _ => ⟨rfl, rfl⟩, h⟩
  | cons x xs ih =>
    obtain ⟨W1, D1, h1, h2⟩ := h
    obtain ⟨W2, D2, h3, h4⟩ := ih h2
    exact ⟨W2, D2, ⟨W1, D1, h1, h3⟩, h4⟩

/-- The halo updates of quantities which hold fields and are apart. -/
theorem halos_run (hl : FloatSafe l) (hsq : l.y = l.x) {q : String → Nat} {ns : List String} (hnd : ns.Nodup)
    (hq : ∀ v ∈ ns, ∀ w ∈ ns, v ≠ w → q v ≠ q w) {W W' : Int → World α} {D D' : Int → Nat → HDict} (hw : ∀ r ∈ allRanks l, WF g (W r))
    (hu : ∀ r ∈ allRanks l, Usable (W r) (ns.map q)) {ky kx : String → Nat} {n h : Int} {F : String → Fld α} (hh : 0 < h) (hn : h ≤ n)
    (S : ∀ v ∈ ns, ScalarField l (fun r => quantities (W r)) (q v) (ky v) (kx v) n h)
    (hF : ∀ v ∈ ns, ∀ r ∈ allRanks l, Holds l n r (quantities (W r) (q v)) .scalar (ky v) (kx v) h .compute (F v))
    (hrun : SRun g l (haloCalls q h ns) W D W' D') :
    (∀ r ∈ allRanks l, D' r = D r ∧ OnlyCells (fun k _ => ∃ v ∈ ns, k = q v) (W r) (W' r)) ∧
      ∀ v ∈ ns, ∀ r ∈ allRanks l, Holds l n r (quantities (W' r) (q v)) .scalar (ky v) (kx v) h .halo (F v) := by
  induction ns generalizing W D with
  | nil =>
    refine ⟨fun r hr => ⟨(hrun r hr).2, ?_⟩, fun v hv => by cases hv⟩
    rw [(hrun r hr).1]
    exact OnlyCells.refl _ _
  | cons v ns ih =>
    rw [List.nodup_cons] at hnd
    obtain ⟨W1, D1, st, hrun⟩ := hrun
    have kk := fun r hm => SStep.keeps st (r := r) hm (hw r hm)
    have hu1 := fun r hm => (hu r hm).keeps (hw r hm) (kk r hm).1
    obtain ⟨⟨m', u1, u2⟩, hD⟩ := st
    have same : ∀ w ∈ ns, ∀ r ∈ allRanks l, quantities (W1 r) (q w) = quantities (W r) (q w) := fun w hwm r hr =>
      (u2 r hr).2.untouched fun idx a hca k idx' hp => by
        have : k = q v := by simpa [Op.qs] using hp
        subst this
        exact (hu r hr).apart (q w) (List.mem_map_of_mem (List.mem_cons_of_mem _ hwm)) (q v) (List.mem_map_of_mem List.mem_cons_self)
          (hq w (List.mem_cons_of_mem _ hwm) v List.mem_cons_self fun e => hnd.1 (e ▸ hwm)) idx idx' a hca
    obtain ⟨i1, i2⟩ := ih hnd.2 (fun w hwm w' hw' => hq w (List.mem_cons_of_mem _ hwm) w' (List.mem_cons_of_mem _ hw'))
      (fun r hr => (kk r hr).2)
      (fun r hr => ⟨fun k hk => (hu1 r hr).quantity k (List.mem_cons_of_mem _ hk), fun k hk => (hu1 r hr).writeable k (List.mem_cons_of_mem _ hk),
        fun k hk k' hk' => (hu1 r hr).apart k (List.mem_cons_of_mem _ hk) k' (List.mem_cons_of_mem _ hk')⟩)
      (fun w hwm => ScalarField.at (S w (List.mem_cons_of_mem _ hwm)) fun r hr => by rw [same w hwm r hr]; exact SameMeta.refl _)
      (fun w hwm r hr => by rw [same w hwm r hr]; exact hF w (List.mem_cons_of_mem _ hwm) r hr) hrun
    refine ⟨fun r hr => ⟨(i1 r hr).1.trans (hD r hr), ?_⟩, fun w hwm r hr => ?_⟩
    · have o1 := (u2 r hr).2
      have o2 := (i1 r hr).2
      have a1 : OnlyCells (fun k _ => ∃ w ∈ v :: ns, k = q w) (W r) (W1 r) :=
        ⟨o1.next, o1.arrs, o1.objs, fun a => (o1.mem a).imp id fun ⟨k, idx, hp, hc⟩ =>
          ⟨k, idx, ⟨v, List.mem_cons_self, by simpa [Op.qs] using hp⟩, hc⟩⟩
      exact a1.trans ⟨o2.next, o2.arrs, o2.objs, fun a => (o2.mem a).imp id fun ⟨k, idx, ⟨w, hwm, e⟩, hc⟩ =>
        ⟨k, idx, ⟨w, List.mem_cons_of_mem _ hwm, e⟩, hc⟩⟩
    · rcases List.mem_cons.1 hwm with rfl | hwm
      · have : quantities (W' r) (q w) = quantities (W1 r) (q w) := (i1 r hr).2.untouched fun idx a hca k idx' ⟨u, hu', e⟩ => by
          subst e
          exact (hu1 r hr).apart (q w) (List.mem_map_of_mem List.mem_cons_self) (q u) (List.mem_map_of_mem (List.mem_cons_of_mem _ hu'))
            (hq w List.mem_cons_self u (List.mem_cons_of_mem _ hu') fun e => hnd.1 (e ▸ hu')) idx idx' a hca
        rw [this, (u2 r hr).1 (q w) (by simp [Op.qs])]
        exact update_scalar hl.xpos hsq hh hn (S w List.mem_cons_self) u1 (hF w List.mem_cons_self) hr
      · exact i2 w hwm r hr

/-! ### The fields of a state -/

section
variable {W W' : Int → World α} {D D' : Int → Nat → HDict} {a b : Nat} {ns : List String} {sv q : String → Nat}
  {p : String → Parts} {ky kx : String → Nat} {n h : Int} {F : String → Fld α}

theorem FieldStates.scatterFits (M : FieldStates l W D a b ns sv q p ky kx n h) :
    ScatterFits (.cube l) W (D 0 a) (fun r => D r b) sv fun _ => q where
  time := M.time
  nodup := fun r hr => (M.parts r ((cube_ranks l r).1 hr)).1
  send := fun v hv hne => M.global.2 v ((M.names v).2 ⟨hv, hne⟩)
  recv := fun v hv hne r hr => (M.parts r ((cube_ranks l r).1 hr)).2 v ((M.names v).2 ⟨hv, hne⟩)
  fits := fun v hv hne => ⟨_, _, M.fits v ((M.names v).2 ⟨hv, hne⟩)⟩

theorem FieldStates.ready (M : FieldStates l W D a b ns sv q p ky kx n h) (hh : 0 < h) (hn : h ≤ n) :
    ∀ v ∈ ns, XReady l W (.update (.haloUpdate (q v) h) : XCall α) := by
  intro v hv op ho
  cases ho
  refine ⟨fun r hr => ?_, ky v, kx v, n, hh, hn, M.field v hv⟩
  have U := M.usable r hr
  have sub : ∀ k ∈ (Op.halo (q v) h : Op α).qs, k ∈ ns.map q := fun k hk => by
    have : k = q v := by simpa [Op.qs] using hk
    subst this
    exact List.mem_map_of_mem hv
  exact ⟨fun k hk => U.quantity k (sub k hk), fun k hk => U.writeable k (sub k hk), fun k hk k' hk' => U.apart k (sub k hk) k' (sub k' hk')⟩

theorem FieldStates.partStates (M : FieldStates l W D a b ns sv q p ky kx n h) : PartStates l W D a b ns sv q p ky kx n h :=
  ⟨M.nodup, M.names, M.global, M.time, M.parts, M.fits, M.distinct, M.usable, M.clear, fun v hv => (M.field v hv).ready, M.dims, M.cells⟩

/-- The call `scatter_state`. -/
theorem PartStates.scattered (hl : FloatSafe l) (hsq : l.y = l.x) (M : PartStates l W D a b ns sv q p ky kx n h) (hn : 0 ≤ n) {comp : String → Comp}
    (hw : ∀ r ∈ allRanks l, WF g (W r)) (hF : ∀ v ∈ ns, GlobalHolds (quantities (W 0) (sv v)) (p v) (comp v) (ky v) (kx v) (l.x * n) (F v))
    (st : SStep g l (.scatterState a b) W D W' D') :
    (∀ r ∈ allRanks l, OnlyCells (fun k idx => (∃ v ∈ ns, k = q v) ∧ (quantities (W r) k).InCompute idx) (W r) (W' r)) ∧
      ∀ v ∈ ns, ∀ r ∈ allRanks l, SameMeta (quantities (W r) (q v)) (quantities (W' r) (q v)) ∧
        Holds l n r (quantities (W' r) (q v)) (comp v) (ky v) (kx v) h .compute (F v) := by
  have kk := fun r hm => SStep.keeps st (r := r) hm (hw r hm)
  obtain ⟨⟨sv', rv', T, run⟩, -⟩ := st
  have hmem : ∀ v, v ∈ (D 0 a).keys.filter (· ≠ "time") ↔ v ∈ ns := by intro v; rw [M.names]; simp
  have e1 : ∀ v ∈ ns, sv' v = sv v := fun v hv => by
    have h1 := T.send v ((M.names v).1 hv).1 ((M.names v).1 hv).2
    rw [M.global.2 v hv] at h1
    exact (HVal.qty.inj (Option.some.inj h1)).symm
  have e2 : ∀ v ∈ ns, ∀ r ∈ (Comm.cube l).ranks, rv' r v = q v := fun v hv r hr => by
    have h1 := T.recv v ((M.names v).1 hv).1 ((M.names v).1 hv).2 r hr
    rw [(M.parts r ((cube_ranks l r).1 hr)).2 v hv] at h1
    exact (HVal.qty.inj (Option.some.inj h1)).symm
  have h0mem : (0 : Int) ∈ (Comm.cube l).ranks := (mem_ranks _ 0).2 ⟨by omega, comm_size_pos (c := .cube l) hl⟩
  have prt := scatters_parts (g := g) (c := .cube l) (vdims := fun v => (p v).dims) (vcells := fun v => (p v).cells) hl
    (M.global.1.filter _) (fun r hr => hw r ((cube_ranks l r).1 hr))
    (fun v hv => by
      have hv := (hmem v).1 hv
      obtain ⟨f1, f2, f3⟩ := M.fits v hv
      exact ⟨f1, by rw [e1 v hv]; exact f2, fun r hr => by dsimp only; rw [e2 v hv r hr]; exact f3 r hr⟩)
    (fun v hv w hw' hne => by
      have hv := (hmem v).1 hv
      have hw' := (hmem w).1 hw'
      refine ⟨by rw [e1 v hv, e2 w hw' 0 h0mem]; exact M.clear v hv w hw' hne, fun r hr => ?_⟩
      rw [e2 v hv r hr, e2 w hw' r hr]
      exact fun idx idx' x hx _ => (M.usable r ((cube_ranks l r).1 hr)).apart _ (List.mem_map_of_mem hv) _ (List.mem_map_of_mem hw')
        (M.distinct v hv w hw' hne) idx idx' x hx) run
  refine ⟨fun r hr => ?_, fun v hv r hr => ?_⟩
  · have o := scatters_only run ((cube_ranks l r).2 hr)
    refine ⟨o.next, o.arrs, o.objs, fun x => (o.mem x).imp id fun ⟨k, idx, ⟨⟨v, hv, e⟩, hp⟩, hc⟩ => ⟨k, idx, ⟨⟨v, (hmem v).1 hv, ?_⟩, hp⟩, hc⟩⟩
    rw [e, e2 v ((hmem v).1 hv) r ((cube_ranks l r).2 hr)]
  · have hr' := (cube_ranks l r).2 hr
    have ip := prt v ((hmem v).2 hv) r hr'
    rw [e1 v hv, e2 v hv r hr'] at ip
    have me := usable_meta (M.usable r hr) (hw r hr) (kk r hr).1 (List.mem_map_of_mem (f := q) hv)
    obtain ⟨-, hg, hrs⟩ := M.fits v hv
    have hsh := (hrs r hr').1
    exact ⟨me, part_holds (m := fun r => quantities (W' r)) hl hsq hn (M.cells v hv).1 (M.cells v hv).2 hg
      (me.haloReady (M.ready v hv r hr)) (me.dims.trans (M.dims v hv r hr))
      ⟨me.wf hsh.wf, by rw [me.extent]; exact hsh.extent⟩ ip (hF v hv)⟩

theorem FieldStates.scattered (hl : FloatSafe l) (hsq : l.y = l.x) (M : FieldStates l W D a b ns sv q p ky kx n h) (hn : 0 ≤ n)
    (hw : ∀ r ∈ allRanks l, WF g (W r)) (hF : ∀ v ∈ ns, GlobalHolds (quantities (W 0) (sv v)) (p v) .scalar (ky v) (kx v) (l.x * n) (F v))
    (st : SStep g l (.scatterState a b) W D W' D') :
    (∀ r ∈ allRanks l, OnlyCells (fun k idx => (∃ v ∈ ns, k = q v) ∧ (quantities (W r) k).InCompute idx) (W r) (W' r)) ∧
      ∀ v ∈ ns, ∀ r ∈ allRanks l, SameMeta (quantities (W r) (q v)) (quantities (W' r) (q v)) ∧
        Holds l n r (quantities (W' r) (q v)) .scalar (ky v) (kx v) h .compute (F v) :=
  M.partStates.scattered (comp := fun _ => .scalar) hl hsq hn hw hF st

/-- **C87**: if the global quantities of a dictionary of the root hold fields on the cube, then after `scatter_state` and a halo update
of every quantity received, the quantities of all ranks hold the fields, also in their halos (but not across the corners of the
cube), even if they share memory with the global quantities of their name; and their dictionaries have the time of the root's. -/
theorem C87_fields (hl : FloatSafe l) (hsq : l.y = l.x) (hW : ∀ r ∈ allRanks l, Reachable g (W r)) (hh : 0 < h) (hn : h ≤ n)
    (M : FieldStates l W D a b ns sv q p ky kx n h)
    (hF : ∀ v ∈ ns, GlobalHolds (quantities (W 0) (sv v)) (p v) .scalar (ky v) (kx v) (l.x * n) (F v)) (buf : Buffering) :
    ∃ (W' : Int → World α) (D' : Int → Nat → HDict),
      ((statesNet g l (.scatterState a b :: haloCalls q h ns) W D).Completes buf fun r => (.ok (), W' r, D' r)) ∧
      ∀ r ∈ allRanks l, (D' r b).get? "time" = (D 0 a).get? "time" ∧ ∀ v ∈ ns, (D' r b).get? v = some (.qty (q v)) ∧
        Holds l n r (quantities (W' r) (q v)) .scalar (ky v) (kx v) h .halo (F v) := by
  have hw := fun r hr => (hW r hr).spec
  obtain ⟨W', D', ⟨W1, D1, st, run⟩, h2⟩ := states_good (g := g) (W := W) (D := D) (calls := .scatterState a b :: haloCalls q h ns) hl hsq hW
    ⟨⟨sv, _, M.scatterFits⟩, fun W1 D1 st => by
      have kk := fun r hm => SStep.keeps st (r := r) hm (hw r hm)
      have := halos_good (g := g) (D := D1) (rest := []) hl (fun r hr => (kk r hr).2)
        (fun v hv => (M.ready hh hn v hv).kept hl hw fun r hr => (kk r hr).1) fun _ _ _ _ _ => trivial
      rwa [List.append_nil] at this⟩ buf
  have kk := fun r hm => SStep.keeps st (r := r) hm (hw r hm)
  obtain ⟨-, sc⟩ := M.scattered hl hsq (by omega) hw hF st
  obtain ⟨h3, h4⟩ := halos_run hl hsq M.nodup M.distinct (fun r hr => (kk r hr).2) (fun r hr => (M.usable r hr).keeps (hw r hr) (kk r hr).1)
    hh hn (fun v hv => ScalarField.at (M.field v hv) fun r hr => (sc v hv r hr).1) (fun v hv r hr => (sc v hv r hr).2) run
  refine ⟨W', D', h2, fun r hr => ?_⟩
  have eD : D' r b = withTime (D r b) ((D 0 a).get? "time") := by
    rw [(h3 r hr).1, st.2 r hr b, if_pos rfl]
  obtain ⟨t, ht⟩ := M.time
  have eg : ∀ v, (D' r b).get? v = if v = "time" then (D 0 a).get? "time" else (D r b).get? v := fun v => by
    rw [eD, ht, ← hSetTime_eq (M.parts r hr).1, get?_hSetTime _ (M.parts r hr).1]
  refine ⟨by rw [eg, if_pos rfl], fun v hv => ⟨?_, h4 v hv r hr⟩⟩
  rw [eg, if_neg ((M.names v).1 hv).2]
  exact (M.parts r hr).2 v hv

omit [Inhabited α] [Neg α] in
theorem withTime_keys {d d' : HDict} (e : d.keys = d'.keys) (t : Option HVal) : (withTime d t).keys = (withTime d' t).keys := by
  cases t with
  | none =>
    have : ∀ d : HDict, (withTime d none).keys = d.keys.filter (· ≠ "time") := fun d => by
      unfold withTime Dict.keys
      rw [List.filter_map]
      rfl
    rw [this, this, e]
  | some t =>
    show (d.set _ _).keys = (d'.set _ _).keys
    rw [Dict.keys_set, Dict.keys_set, e]

/-- **C87**: and `gather_state` of the dictionaries received into the dictionary that was scattered leaves its quantities as samples of
the fields, and the dictionary as it was, time included - even if the quantities of the root share memory with the global
quantities of their name, so that the scatter and the updates have overwritten some of them. -/
theorem C87_fields_back (hl : FloatSafe l) (hsq : l.y = l.x) (hW : ∀ r ∈ allRanks l, Reachable g (W r)) (hh : 0 < h) (hn : h ≤ n)
    (M : FieldStates l W D a b ns sv q p ky kx n h) (hab : a ≠ b)
    (hb : ∀ r ∈ allRanks l, (D r b).keys = (D 0 b).keys) (hbn : ∀ v ∈ (D 0 b).keys, v ≠ "time" → v ∈ ns)
    (hwr : ∀ v ∈ ns, (W 0).writeable (sv v) .data = true)
    (hc : ∀ v ∈ ns, ∀ w ∈ ns, v ≠ w → Clear (W 0) (q v) (sv w) ∧ Clear (W 0) (sv v) (sv w))
    (hF : ∀ v ∈ ns, GlobalHolds (quantities (W 0) (sv v)) (p v) .scalar (ky v) (kx v) (l.x * n) (F v)) (buf : Buffering) :
    ∃ (W' : Int → World α) (D' : Int → Nat → HDict),
      ((statesNet g l (.scatterState a b :: (haloCalls q h ns ++ [.gatherState b a])) W D).Completes buf fun r => (.ok (), W' r, D' r)) ∧
      D' 0 a = D 0 a ∧ ∀ v ∈ ns, GlobalHolds (quantities (W' 0) (sv v)) (p v) .scalar (ky v) (kx v) (l.x * n) (F v) := by
  have hw := fun r hr => (hW r hr).spec
  have h0mem : (0 : Int) ∈ (Comm.cube l).ranks := (mem_ranks _ 0).2 ⟨by omega, comm_size_pos (c := .cube l) hl⟩
  have h0 : (0 : Int) ∈ allRanks l := (cube_ranks l 0).1 h0mem
  obtain ⟨t, ht⟩ := M.time
  -- dictionaries after the scatter and the updates
  have dicts : ∀ (W1 : Int → World α) (D1 D2 : Int → Nat → HDict), SStep g l (.scatterState a b) W D W1 D1 → (∀ r ∈ allRanks l, D2 r = D1 r) →
      D2 0 a = D 0 a ∧ ∀ r ∈ allRanks l, D2 r b = withTime (D r b) ((D 0 a).get? "time") ∧
        ∀ v, (D2 r b).get? v = if v = "time" then (D 0 a).get? "time" else (D r b).get? v := by
    intro W1 D1 D2 st e
    refine ⟨by rw [e 0 h0, st.2 0 h0 a, if_neg hab], fun r hr => ?_⟩
    have eD : D2 r b = withTime (D r b) ((D 0 a).get? "time") := by rw [e r hr, st.2 r hr b, if_pos rfl]
    exact ⟨eD, fun v => by rw [eD, ht, ← hSetTime_eq (M.parts r hr).1, get?_hSetTime _ (M.parts r hr).1]⟩
  have mem : ∀ (W1 : Int → World α) (D1 D2 : Int → Nat → HDict), SStep g l (.scatterState a b) W D W1 D1 → (∀ r ∈ allRanks l, D2 r = D1 r) →
      ∀ v ∈ (D2 0 b).keys, v ≠ "time" → v ∈ ns := by
    intro W1 D1 D2 st e v hv hne
    obtain ⟨-, d2⟩ := dicts W1 D1 D2 st e
    obtain ⟨x, hx⟩ := (Dict.mem_keys_iff _ _).1 hv
    rw [(d2 0 h0).2, if_neg hne] at hx
    exact hbn v ((Dict.mem_keys_iff _ _).2 ⟨x, hx⟩) hne
  obtain ⟨W', D', ⟨W1, D1, st, run⟩, h2⟩ := states_good (g := g) (W := W) (D := D)
    (calls := .scatterState a b :: (haloCalls q h ns ++ [.gatherState b a])) hl hsq hW
    ⟨⟨sv, _, M.scatterFits⟩, fun W1 D1 st => by
      have kk := fun r hm => SStep.keeps st (r := r) hm (hw r hm)
      refine halos_good (g := g) (D := D1) hl (fun r hr => (kk r hr).2)
        (fun v hv => (M.ready hh hn v hv).kept hl hw fun r hr => (kk r hr).1) fun W2 D2 k2 w2 e2 => ⟨?_, fun _ _ _ => trivial⟩
      obtain ⟨d1, d2⟩ := dicts W1 D1 D2 st e2
      have mm := mem W1 D1 D2 st e2
      refine ⟨fun _ => q, sv, ⟨fun r hr => ?_, ?_, fun v hv hne r hr => ?_, fun v hv hne => ?_, fun v hv hne => ?_⟩⟩
      · rw [(d2 r ((cube_ranks l r).1 hr)).1, (d2 0 h0).1]
        exact withTime_keys (hb r ((cube_ranks l r).1 hr)) _
      · rw [(d2 0 h0).1, ht, ← hSetTime_eq (M.parts 0 h0).1]
        unfold hSetTime
        cases t with
        | none => exact Dict.nodup_del _ _ (Dict.nodup_set _ _ _ (M.parts 0 h0).1)
        | some t => exact Dict.nodup_set _ _ _ (M.parts 0 h0).1
      · rw [(d2 r ((cube_ranks l r).1 hr)).2, if_neg hne]
        exact (M.parts r ((cube_ranks l r).1 hr)).2 v (mm v hv hne)
      · rw [d1]
        exact M.global.2 v (mm v hv hne)
      · have hv := mm v hv hne
        have : CFits (.cube l) (p v).dims (p v).cells W (.gather (fun _ => q v) (sv v)) :=
          ⟨⟨ky v, kx v, by rw [← M.dims v hv 0 h0]; exact ((M.field v hv).ready 0 h0).axes⟩, (M.fits v hv).2.1, hwr v hv,
            fun r hr => ((M.fits v hv).2.2 r hr).1⟩
        exact ⟨_, _, this.kept h0mem fun r hr => (kk r ((cube_ranks l r).1 hr)).1.trans' (k2 r ((cube_ranks l r).1 hr))⟩⟩ buf
  obtain ⟨W2, D2, run2, W3, D3, sg, run3⟩ := srun_append run
  have kk := fun r hm => SStep.keeps st (r := r) hm (hw r hm)
  obtain ⟨sc1, sc⟩ := M.scattered hl hsq (by omega) hw hF st
  obtain ⟨h3, h4⟩ := halos_run hl hsq M.nodup M.distinct (fun r hr => (kk r hr).2) (fun r hr => (M.usable r hr).keeps (hw r hr) (kk r hr).1)
    hh hn (fun v hv => ScalarField.at (M.field v hv) fun r hr => (sc v hv r hr).1) (fun v hv r hr => (sc v hv r hr).2) run2
  obtain ⟨d1, d2⟩ := dicts W1 D1 D2 st fun r hr => (h3 r hr).1
  have mm := mem W1 D1 D2 st fun r hr => (h3 r hr).1
  have w2 : ∀ r ∈ allRanks l, WF g (W2 r) := fun r hr => (h3 r hr).2.wf (kk r hr).2
  have k2 : ∀ r ∈ allRanks l, Keeps (W r) (W2 r) := fun r hr => (kk r hr).1.trans' fun k y hy _ => by
    rw [dataOf_congr (h3 r hr).2.arrs (h3 r hr).2.objs]; exact hy
  have k3 := SStep.keeps sg h0 (w2 0 h0)
  obtain ⟨⟨pv, gv, T, grun⟩, gd⟩ := sg
  have hin : ∀ v ∈ ns, v ∈ (D2 0 b).keys ∧ v ≠ "time" := fun v hv =>
    ⟨(Dict.mem_keys_iff _ _).2 ⟨.qty (q v), by rw [(d2 0 h0).2, if_neg ((M.names v).1 hv).2]; exact (M.parts 0 h0).2 v hv⟩, ((M.names v).1 hv).2⟩
  have hmem : ∀ v, v ∈ (D2 0 b).keys.filter (· ≠ "time") ↔ v ∈ ns := fun v => by
    constructor
    · intro hv
      have hv := List.mem_filter.1 hv
      exact mm v hv.1 (by simpa using hv.2)
    · intro hv
      exact List.mem_filter.2 ⟨(hin v hv).1, by simpa using (hin v hv).2⟩
  have e1 : ∀ v ∈ ns, gv v = sv v := fun v hv => by
    have h1 := T.recv v (hin v hv).1 (hin v hv).2
    rw [d1, M.global.2 v hv] at h1
    exact (HVal.qty.inj (Option.some.inj h1)).symm
  have e2 : ∀ v ∈ ns, ∀ r ∈ (Comm.cube l).ranks, pv r v = q v := fun v hv r hr => by
    have h1 := T.send v (hin v hv).1 (hin v hv).2 r hr
    rw [(d2 r ((cube_ranks l r).1 hr)).2, if_neg (hin v hv).2, (M.parts r ((cube_ranks l r).1 hr)).2 v hv] at h1
    exact (HVal.qty.inj (Option.some.inj h1)).symm
  refine ⟨W', D', h2, ?_, fun v hv => ?_⟩
  · rw [(run3 0 h0).2, gd 0 h0 a]
    by_cases hk : "time" ∈ (D2 0 b).keys
    · rw [if_pos ⟨rfl, rfl, hk⟩, d1]
      obtain ⟨x, hx⟩ := (Dict.mem_keys_iff _ _).1 hk
      rw [hx]
      rw [(d2 0 h0).2, if_pos rfl] at hx
      exact Dict.set_same hx
    · rw [if_neg fun x => hk x.2.2, d1]
  · rw [(run3 0 h0).1]
    have clr : ∀ i j, Clear (W 0) i j → Clear (W2 0) i j := fun i j x => (x.after (sc1 0 h0)).after (h3 0 h0).2
    have gg := gathers_global (g := g) (c := .cube l) (vdims := fun v => (p v).dims) (vcells := fun v => (p v).cells) hl
      (T.nodup.filter _) (fun r hr => w2 r ((cube_ranks l r).1 hr))
      (fun u hu => by
        have hu := (hmem u).1 hu
        have : CFits (.cube l) (p u).dims (p u).cells W (.gather (fun r => pv r u) (gv u)) :=
          ⟨⟨ky u, kx u, by rw [← M.dims u hu 0 h0]; exact ((M.field u hu).ready 0 h0).axes⟩, by rw [e1 u hu]; exact (M.fits u hu).2.1,
            by rw [e1 u hu]; exact hwr u hu, fun r hr => by dsimp only; rw [e2 u hu r hr]; exact ((M.fits u hu).2.2 r hr).1⟩
        exact this.kept h0mem fun r hr => k2 r ((cube_ranks l r).1 hr))
      (fun u hu w hw' hne => by
        have hu := (hmem u).1 hu
        have hw' := (hmem w).1 hw'
        rw [e1 u hu, e1 w hw', e2 u hu 0 h0mem]
        exact ⟨clr _ _ (hc u hu w hw' hne).1, clr _ _ (hc u hu w hw' hne).2⟩) grun v ((hmem v).2 hv)
    rw [e1 v hv] at gg
    have hG : GatheredFrom (.cube l) (p v).dims (p v).cells (fun r => quantities (W2 r) (q v)) (quantities (W3 0) (sv v)) := by
      intro x hx
      obtain ⟨r, rel, hH, hpl, hv'⟩ := gg x hx
      have eq := e2 v hv r hH.1
      dsimp only at hv'
      rw [eq] at hv'
      dsimp only at hH
      rw [e2 v hv 0 h0mem] at hH
      exact ⟨r, rel, hH, hpl, hv'⟩
    obtain ⟨hpos, hg, hrs⟩ := M.fits v hv
    have me := fun r hr => usable_meta (M.usable r hr) (hw r hr) (k2 r hr) (List.mem_map_of_mem (f := q) hv)
    have r2 := fun r (hr : r ∈ allRanks l) => ((k2 r hr).rankShaped hpos (hrs r ((cube_ranks l r).2 hr)).1).1
    have g3 := (k3.1.globalShaped hpos ((k2 0 h0).globalShaped hpos hg).1).1
    exact gathered_holds (m := fun r => quantities (W2 r)) (q := q v) (h := h) (lv := .halo) hl hsq (by omega) (M.cells v hv).1 (M.cells v hv).2
      g3 (fun r hr => (me r hr).haloReady ((M.field v hv).ready r hr)) (fun r hr => (me r hr).dims.trans (M.dims v hv r hr)) r2 hG rfl
      (h4 v hv)

end

end Heap
end FV3
