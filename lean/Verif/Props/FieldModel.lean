import Verif.Proofs.FieldModel

/-!
# C65: model codes with scalars and winds
-/

namespace FV3
variable {α : Type}

section
variable {l : Layout} {m : Int → Mem α} {ky kx : Nat} {n h : Int} {F : Fld α}

theorem place_tile (hl : FloatSafe l) {r t : Int} (hr : r ∈ allRanks l) (ht : tileIndex l r = .ok t) (dims : List Dim)
    (cells : List Int) (rel : List Nat) : at' ((Comm.cube l).place dims cells r rel) 0 = t := by
  have hrank := mem_allRanks.1 hr
  rw [tileIndex_eq hl.ypos hl.xpos] at ht
  simp only [Except.ok.injEq] at ht
  rw [cube_place]
  unfold at'
  rw [List.getD_cons_zero, ← ht]
  have := Int.ediv_nonneg hrank.1 (Int.le_of_lt (Int.mul_pos hl.ypos hl.xpos))
  omega

variable [Neg α]

/-- A part of a sampled global quantity is a sample. -/
theorem part_holds (hl : FloatSafe l) (hsq : l.y = l.x) (hn : 0 ≤ n) {p : Parts} {g : Quantity α} {q : Nat} {r : Int}
    {c : Comp} (hy : p.cells.getD ky 0 = n) (hx : p.cells.getD kx 0 = n) (hg : g.GlobalShaped (.cube l) p.dims p.cells)
    (H : HaloReady (m r q) ky kx n h) (hd : (m r q).dims = p.dims) (hs : (m r q).RankShaped p.dims p.cells)
    (hp : IsPart (.cube l) p.dims p.cells g (m r q) r) (hF : GlobalHolds g p c ky kx (l.x * n) F) :
    Holds l n r (m r q) c ky kx h .compute F := by
  intro idx t a b hat hc _
  replace hat : AtTile l m q ky kx n r idx t a b := ⟨hat.rank, hat.tile, hat.x, hat.y⟩
  have i := inside_of_ready hl.xpos hsq hn H hat hc
  have ha : HAxes p.dims ky kx := by rw [← hd]; exact H.axes
  have hG := global_at hl ha hy hx hg hc hat hd hs
  have e : (m r q).data.get idx = (m r q).computeArr.get (relIdx (m r q).origin idx) := by
    show _ = (m r q).data.get (absIdx (m r q).origin (relIdx (m r q).origin idx))
    rw [Nudge.absRel (m r q) hs.wf idx hc]
  rw [e, hp _ (Nudge.relIn (m r q) hs.wf idx hc), hF _ _ _ hG, place_tile hl hat.rank hat.tile,
    (fold_inside i c).1, (fold_inside i c).2]
  cases c <;> rfl

/-- What is gathered from samples is a sample. -/
theorem gathered_holds (hl : FloatSafe l) (hsq : l.y = l.x) (hn : 0 ≤ n) {p : Parts} {root : Quantity α} {q : Nat}
    {c : Comp} (hy : p.cells.getD ky 0 = n) (hx : p.cells.getD kx 0 = n)
    (hg : root.GlobalShaped (.cube l) p.dims p.cells) (H : ∀ r ∈ allRanks l, HaloReady (m r q) ky kx n h)
    (hd : ∀ r ∈ allRanks l, (m r q).dims = p.dims) (hs : ∀ r ∈ allRanks l, (m r q).RankShaped p.dims p.cells)
    (hG : GatheredFrom (.cube l) p.dims p.cells (fun r => m r q) root) {lv : Level} (hlv : lv.AtLeast .compute = true)
    (hF : ∀ r ∈ allRanks l, Holds l n r (m r q) c ky kx h lv F) :
    GlobalHolds root p c ky kx (l.x * n) F := by
  rintro x P others ⟨hp, hoth, hpos⟩
  obtain ⟨r, rel, hH, hpl, hv⟩ := hG x hp
  have hr : r ∈ allRanks l := (cube_ranks l r).1 hH.1
  have h0 : (0 : Int) ∈ allRanks l := by
    rw [mem_allRanks] at hr ⊢
    omega
  have hrel : InB (m r q).computeArr.shape rel := by
    have := hH.2.1
    have e0 : (m 0 q).computeArr.shape = rankShape p.dims p.cells := rankOf_shape (hs 0 h0).extent
    have er : (m r q).computeArr.shape = rankShape p.dims p.cells := rankOf_shape (hs r hr).extent
    rw [er, ← e0]
    exact this
  have hin := absIdx_ok (m r q) (hs r hr).wf rel hrel
  obtain ⟨t, ht⟩ : ∃ t, tileIndex l r = .ok t := ⟨_, tileIndex_eq hl.ypos hl.xpos r⟩
  have hat : AtTile l m q ky kx n r (absIdx (m r q).origin rel) t _ _ := ⟨hr, ht, rfl, rfl⟩
  have ha : HAxes p.dims ky kx := by rw [← hd r hr]; exact (H r hr).axes
  have hGa := global_at hl ha hy hx hg hin.2.1 hat (hd r hr) (hs r hr)
  rw [hin.2.2, hpl] at hGa
  rw [hv]
  have e := ((hF r hr).mono hlv).at_compute hl.xpos hsq hn (H r hr) hat hin.2.1 hin.2.1
  have hP := hGa.point.symm.trans hpos
  have ho : (m r q).otherPos ky kx (absIdx (m r q).origin rel) = others := by
    funext k
    rw [hGa.other k, hoth k]
  rw [hP, ho] at e
  show (m r q).data.get (absIdx (m r q).origin rel) = _
  rw [e, ← hpl, place_tile hl hr ht]
  cases c <;> rfl

/-- The metadata of the quantities of a field. -/
theorem FieldsOf.ready {slots : List Slot} (R : FieldsOf l n slots m) {s : Slot} (hs : s ∈ slots) {q : Nat} {c : Comp}
    (hc : (q, c) ∈ s.comps) {r : Int} (hr : r ∈ allRanks l) : HaloReady (m r q) s.ky s.kx n s.h := by
  have hf := R.field s hs
  unfold Slot.comps at hc
  cases hy : s.y with
  | none =>
    rw [hy] at hf hc
    simp at hc
    rw [hc.1]
    exact hf.ready r hr
  | some y =>
    rw [hy] at hf hc
    simp at hc
    rcases hc with ⟨rfl, -⟩ | ⟨rfl, -⟩
    · exact hf.readyX r hr
    · exact hf.readyY r hr

/-- The calls of the steps are valid. -/
theorem msteps_valid {slots : List Slot} {parts : Nat → Parts} (R : FieldsOf l n slots m) {rest : List (TOp α)}
    (hrest : ∀ filled, StatesValid l m parts filled rest) :
    ∀ (steps : List (MStep α)) (filled : List Nat), (∀ a ∈ steps, a.Good l n slots m) →
      StatesValid l m parts filled (((steps.map MStep.call).map fun c => TOp.op (.call c)) ++ rest) := by
  intro steps
  induction steps with
  | nil => intro filled _; exact hrest filled
  | cons a steps ih =>
    intro filled hg
    refine ⟨?_, ih _ fun b hb => hg b (List.mem_cons_of_mem _ hb)⟩
    have ha := hg a (List.mem_cons_self ..)
    cases a with
    | update s =>
      have hs : s ∈ slots := ha
      have hf := R.field s hs
      obtain ⟨hh, hn⟩ := R.halo s hs
      show SOp.Valid l m parts filled (.call s.update)
      unfold Slot.update
      cases hy : s.y with
      | none =>
        rw [hy] at hf
        intro op ho
        cases ho
        exact ⟨s.ky, s.kx, n, hh, hn, hf⟩
      | some y =>
        rw [hy] at hf
        intro op ho
        cases ho
        exact ⟨s.ky, s.kx, n, hh, hn, hf⟩
    | sync s =>
      obtain ⟨hs, hf⟩ := ha
      show SOp.Valid l m parts filled (.call s.sync)
      unfold Slot.sync
      cases hy : s.y with
      | none => exact fun r _ mem hm => hm
      | some y =>
        intro op ho
        cases ho
        exact ⟨s.ky, s.kx, n, hf y hy⟩
    | compute f Φ needs gives => exact fun r _ mem hm => (show Computes l n slots m f Φ needs gives from ha).same r mem hm

end

variable [Neg α]

/-- **C65**: a run of a model code with scalars and winds.  From a global state which samples the fields `W`: scatter the
state; any steps (halo updates of scalars, vector halo updates and interface synchronisation of winds, computations that are
operations on fields) which respect the levels; gather a state.  The run ends on all ranks, whatever the schedule and the
buffering of MPI, and the gathered state samples the fields after the operations; its time is that of the scattered state. -/
theorem C65_model_run {l : Layout} (hl : FloatSafe l) (hsq : l.y = l.x) (buf : Buffering) (junk : Nat → List Nat → α)
    {n : Int} {slots : List Slot} {mem : Int → Mem α} (R : FieldsOf l n slots mem)
    (glob : Int → Nat → Option (Quantity α)) (time gtime : Int → Nat → Option Int) {parts : Nat → Parts}
    (hglob : ∀ g v, glob 0 g = some v → v.GlobalShaped (.cube l) (parts g).dims (parts g).cells)
    (i j j' : Nat) {inp out : List StateVar} (hinp : StateOf l n mem parts slots inp)
    (hout : StateOf l n mem parts slots out) {W : Fields α} (hW : VectorsIn slots W)
    (hstart : StateHolds l n parts slots inp (glob 0) W)
    {K K' : Nat → Level} (hK : LevelsFrom slots inp K) (hK' : LevelsFor slots out K')
    (steps : List (MStep α)) (hgood : ∀ a ∈ steps, a.Good l n slots mem) (hlev : Levels K' K steps) :
    ∃ fin : Int → SessState α,
      (statesNet l junk (modelRun i j j' inp out steps) mem glob time gtime).Completes buf (fun r =>
        if r ∈ allRanks l then some (.ok (fin r)) else none) ∧
      StateHolds l n parts slots out (fin 0).s.glob (fieldsAfter steps W) ∧
      (fin 0).gtime j' = (gtime 0 j).or (gtime 0 j') := by
  have hlast : ∀ filled, StatesValid l mem parts filled [(.gatherState i j' out : TOp α)] :=
    fun _ => ⟨⟨hout.names, hout.globals, hout.cut⟩, trivial⟩
  have hvalid : StatesValid l mem parts (inp.map StateVar.g) (modelRun i j j' inp out steps) :=
    ⟨⟨hinp.names, hinp.quantities, fun v hv => ⟨List.mem_map_of_mem hv, hinp.cut v hv⟩⟩,
      msteps_valid R hlast steps _ hgood⟩
  obtain ⟨fin, h1, h2, h3⟩ := C64_states hl hsq buf junk mem glob time gtime parts (inp.map StateVar.g) hglob
    (fun g hg => by
      obtain ⟨v, hv, rfl⟩ := List.mem_map.1 hg
      obtain ⟨w, hw, -⟩ := hstart v hv
      exact ⟨w, hw⟩) _ hvalid
  have h0 : (0 : Int) ∈ allRanks l :=
    (cube_ranks l 0).1 ((mem_ranks _ 0).2 ⟨by omega, comm_size_pos (c := .cube l) hl⟩)
  obtain ⟨S1, ⟨s1, s2, s3⟩, h4⟩ := h2
  obtain ⟨S2, h5, S3, ⟨g1, g2, -, -, g3⟩, h6⟩ := statesRun_append h4
  obtain ⟨c1, c2, c3, c4⟩ := statesRun_calls _ h5
  have hm1 : ∀ r ∈ allRanks l, MetaIs mem r (S1.mem r) := by
    intro r hr q
    by_cases hq : ∃ v ∈ inp, v.q = q
    · obtain ⟨v, hv, rfl⟩ := hq
      obtain ⟨w, -, -, hw⟩ := (s3 r hr).2.2.1 v hv
      exact hw.sameMeta
    · rw [(s3 r hr).2.2.2 q fun v hv e => hq ⟨v, hv, e⟩]
      exact SameMeta.refl _
  have hcut : ∀ {m : Int → Mem α}, (∀ r ∈ allRanks l, MetaIs mem r (m r)) → ∀ {q : Nat} {p : Parts},
      HasParts l mem q p → (∀ r ∈ allRanks l, (m r q).dims = p.dims) ∧
        ∀ r ∈ allRanks l, (m r q).RankShaped p.dims p.cells := by
    intro m hm q p hp
    refine ⟨fun r hr => (hm r hr q).dims.trans (hp.names r hr), fun r hr => ?_⟩
    exact ⟨(hm r hr q).wf (hp.shaped r hr).wf, by rw [(hm r hr q).extent]; exact (hp.shaped r hr).extent⟩
  have hstart' : ∀ r ∈ allRanks l, HoldsAll l n slots r (S1.mem r) K W := by
    intro r hr s hs c hc
    have hn : 0 ≤ n := by have := R.halo s hs; omega
    rcases hK s hs with e | ⟨e, hv⟩
    · rw [e]
      intro idx t a b _ hh
      exact hh.elim
    · rw [e]
      obtain ⟨v, hv, hq⟩ := hv c hc
      obtain ⟨w, w1, w2, -⟩ := (s3 r hr).2.2.1 v hv
      obtain ⟨w', w1', w3, w4⟩ := hstart v hv
      have hw : w = w' := by
        have w1 : glob 0 v.g = some w := w1
        rw [w1'] at w1
        exact (Option.some.inj w1).symm
      subst hw
      have hc' : (v.q, c.2) ∈ s.comps := by rw [hq]; exact hc
      obtain ⟨y1, x1⟩ := hinp.cells v hv s hs c.2 hc'
      obtain ⟨d1, d2⟩ := hcut hm1 (hinp.cut v hv)
      rw [← hq]
      exact part_holds hl hsq hn y1 x1 w3 ((hm1 r hr v.q).haloReady (R.ready hs hc' hr)) (d1 r hr) (d2 r hr) w2
        (w4 s hs c.2 hc')
  obtain ⟨e1, e2⟩ := msteps_hold hl.xpos hsq R steps S1.mem S2.mem K W hm1 hW hstart' hgood hlev c1
  refine ⟨fin, h1, fun v hv => ?_, ?_⟩
  · obtain ⟨w, w1, w2, w3, -⟩ := g3 v hv
    have hfin : (fin 0).s.glob = S3.glob := h6.2.1
    refine ⟨w, by rw [hfin]; exact w1, w2, fun s hs c hc => ?_⟩
    have hn : 0 ≤ n := by have := R.halo s hs; omega
    obtain ⟨y1, x1⟩ := hout.cells v hv s hs c hc
    obtain ⟨d1, d2⟩ := hcut e1 (hout.cut v hv)
    exact gathered_holds hl hsq hn y1 x1 w2 (fun r hr => (e1 r hr v.q).haloReady (R.ready hs hc hr)) d1 d2 w3
      (hK' v hv s hs c hc) fun r hr => e2 r hr s hs (v.q, c) hc
  · have hfin : (fin 0).gtime = S3.gtime := h6.2.2
    rw [hfin, g2, c3, c4 0 h0, (s3 0 h0).1, s2]

omit [Neg α] in
theorem fieldsAfter_operations (steps : List (MStep α)) (W : Fields α) :
    fieldsAfter steps W = (operations steps).foldl (fun V Φ => Φ V) W := by
  induction steps generalizing W with
  | nil => rfl
  | cons a steps ih =>
    cases a with
    | update s => exact ih W
    | sync s => exact ih W
    | compute f Φ needs gives => exact ih (Φ W)

/-- **C65**: the result of a run does not depend on the layout, nor on when halos are updated: two runs on two layouts of the
same grid, from states which sample the same fields, with the same operations on fields (by different code, with other halo
updates and synchronisations between them), under any schedules and bufferings, gather the same values of all quantities of
fields. -/
theorem C65_same_on_every_layout {l l' : Layout} (hl : FloatSafe l) (hl' : FloatSafe l') (hsq : l.y = l.x)
    (hsq' : l'.y = l'.x) (buf buf' : Buffering) (junk junk' : Nat → List Nat → α)
    {n n' : Int} (hN : l.x * n = l'.x * n') {slots : List Slot} {mem mem' : Int → Mem α}
    (R : FieldsOf l n slots mem) (R' : FieldsOf l' n' slots mem')
    (glob glob' : Int → Nat → Option (Quantity α)) (time time' gtime gtime' : Int → Nat → Option Int)
    {parts parts' : Nat → Parts}
    (hglob : ∀ g v, glob 0 g = some v → v.GlobalShaped (.cube l) (parts g).dims (parts g).cells)
    (hglob' : ∀ g v, glob' 0 g = some v → v.GlobalShaped (.cube l') (parts' g).dims (parts' g).cells)
    (i j k : Nat) {inp out : List StateVar} (hinp : StateOf l n mem parts slots inp)
    (hout : StateOf l n mem parts slots out) (hinp' : StateOf l' n' mem' parts' slots inp)
    (hout' : StateOf l' n' mem' parts' slots out) (hsame : ∀ v ∈ out, SameGlobal l l' (parts v.g) (parts' v.g))
    {W : Fields α} (hW : VectorsIn slots W) (hstart : StateHolds l n parts slots inp (glob 0) W)
    (hstart' : StateHolds l' n' parts' slots inp (glob' 0) W)
    {K K' L L' : Nat → Level} (hK : LevelsFrom slots inp K) (hK' : LevelsFor slots out K')
    (hL : LevelsFrom slots inp L) (hL' : LevelsFor slots out L')
    (steps steps' : List (MStep α)) (hgood : ∀ a ∈ steps, a.Good l n slots mem)
    (hgood' : ∀ a ∈ steps', a.Good l' n' slots mem') (hlev : Levels K' K steps) (hlev' : Levels L' L steps')
    (hops : operations steps = operations steps') :
    ∃ fin fin' : Int → SessState α,
      (statesNet l junk (modelRun i j k inp out steps) mem glob time gtime).Completes buf (fun r =>
        if r ∈ allRanks l then some (.ok (fin r)) else none) ∧
      (statesNet l' junk' (modelRun i j k inp out steps') mem' glob' time' gtime').Completes buf' (fun r =>
        if r ∈ allRanks l' then some (.ok (fin' r)) else none) ∧
      ∀ v ∈ out, (∃ s ∈ slots, ∃ c, (v.q, c) ∈ s.comps) → ∃ w w', (fin 0).s.glob v.g = some w ∧
        (fin' 0).s.glob v.g = some w' ∧ w.computeArr.Eqv w'.computeArr := by
  obtain ⟨fin, a1, a2, -⟩ := C65_model_run hl hsq buf junk R glob time gtime hglob i j k hinp hout hW hstart hK hK'
    steps hgood hlev
  obtain ⟨fin', b1, b2, -⟩ := C65_model_run hl' hsq' buf' junk' R' glob' time' gtime' hglob' i j k hinp' hout' hW
    hstart' hL hL' steps' hgood' hlev'
  refine ⟨fin, fin', a1, b1, ?_⟩
  rintro v hv ⟨s, hs, c, hc⟩
  obtain ⟨w, w1, w2, w3⟩ := a2 v hv
  obtain ⟨w', w1', w2', w3'⟩ := b2 v hv
  obtain ⟨hd, e, e1, e2⟩ := hsame v hv
  have hext : w'.extent = w.extent :=
    (globalExtent_unique w2'.extent e2).trans (globalExtent_unique w2.extent e1).symm
  have hshape : w'.computeArr.shape = w.computeArr.shape := by
    show w'.extent.map _ = w.extent.map _
    rw [hext]
  refine ⟨w, w', w1, w1', hshape.symm, fun p hp => ?_⟩
  have v1 := w3 s hs c hc p _ _ ⟨hp, fun _ => rfl, rfl⟩
  have v2 := w3' s hs c hc p (pos (l.x * n) (at' p 0) (2 * at' p (s.kx + 1) + 1 - overlapOf ((parts v.g).dims.getD s.kx .x))
    (2 * at' p (s.ky + 1) + 1 - overlapOf ((parts v.g).dims.getD s.ky .x)))
    (fun k => if k < (parts v.g).dims.length ∧ k ≠ s.ky ∧ k ≠ s.kx then at' p (k + 1) else 0)
    ⟨by rw [hshape]; exact hp, fun k => by rw [hd], by rw [hd, hN]⟩
  rw [v1, v2, fieldsAfter_operations, fieldsAfter_operations, hops]

end FV3
