import Verif.Proofs.ZarrAppend

/-!
# One step of the writer of times
-/

namespace FV3
namespace Zarr
variable {α : Type}

/-- The attributes of the array of times. -/
def timeAttrs (t0 : ZTime) : Attrs := { dims := some [], units := some (.secondsSince t0), calendar := some t0.calendar }

/-- The collectives of step `t`. -/
def timeSigs (name : String) (t : Nat) : List Sig :=
  (if t = 0 then [arraySig name [1] [1024]] else []) ++ [arraySig name [t + 1] [1024], (.barrier, none)]

/-- The writer and the metadata on rank 0 after `t` steps. -/
structure RootT (name : String) (t0 : ZTime) (t : Nat) (w : Writer) (L : Store α) : Prop where
  named : w.name = name
  time : w.iTime = t
  first : t = 0 → w.array = none ∧ L.infos name = none
  later : t ≠ 0 → w.array = some ⟨name, [t], [1024]⟩ ∧ L.infos name = some ⟨[t], [1024], timeAttrs t0⟩ ∧
    w.encoding = some t0

variable {own : String → List Nat → Int} {L : Store α}

theorem initTime_runs {w : Writer} (hL : L.infos w.name = none) (kn : Known) :
    Runs own 0 (OkPost fun h w' => h = ⟨w.name, [1], [1024]⟩ ∧ w' = w) (L.putInfo w.name ⟨[1], [1024], {}⟩)
      (initTimeRoot w) 2 L kn [] := by
  unfold initTimeRoot
  rw [WM.self_bind]
  exact createDataset_runs hL (by decide)

theorem putTimeAttrs_runs {w : Writer} {name : String} {shape chunks : List Nat} {t0 : ZTime} (kn : Known)
    (hw : w.array = some ⟨name, shape, chunks⟩) {a : Attrs} (hL : L.infos name = some ⟨shape, chunks, a⟩) :
    Runs own 0 (OkPost fun _ w' => w' = w)
      (L.putInfo name ⟨shape, chunks, { a with units := some (.secondsSince t0), calendar := some t0.calendar }⟩)
      (putTimeAttrs t0 w) 4 L kn [] := by
  unfold putTimeAttrs
  rw [WM.self_bind, hw]
  simp only [need]
  rw [WM.lift_bind]
  refine (updateAttrs_runs (kn := kn) (h := ⟨name, shape, chunks⟩) hL).wbind (n := 2) (n' := 2) (gs := []) (gs' := []) ?_
  rintro _ w' rfl
  have := updateAttrs_runs (own := own) (kn := []) (h := ⟨name, shape, chunks⟩) (w := w')
    (f := fun a => { a with calendar := some t0.calendar })
    (L := L.putInfo name ⟨shape, chunks, { a with units := some (.secondsSince t0) }⟩) (Store.putInfo_get _ _ _)
  rw [Store.putInfo_putInfo] at this
  exact this

theorem growTime_runs {w : Writer} {name : String} {t : Nat} {a : Attrs}
    (hw : w.array = some ⟨name, [t], [1024]⟩) (ht : w.iTime = t) (hL : L.infos name = some ⟨[t], [1024], a⟩) (kn : Known) :
    Runs own 0 (OkPost fun _ w' => w' = { w with array := some ⟨name, [t + 1], [1024]⟩ })
      (L.putInfo name ⟨[t + 1], [1024], a⟩) (extendTime w) 2 L kn [] := by
  unfold extendTime
  rw [WM.self_bind, hw]
  simp only [need]
  rw [WM.lift_bind]
  unfold when
  rw [if_pos (by simp [ht])]
  unfold growTime
  rw [WM.self_bind, ht]
  refine (resize_runs (kn := kn) (h := ⟨name, [t], [1024]⟩) (shape := [t + 1]) (i := ⟨[t], [1024], a⟩) (w := w) hL rfl ?_ ?_).wbind
    (n := 2) (n' := 0) (gs := []) (gs' := []) ?_
  · simp
  · exact ⟨rfl, rfl, by simp, rfl⟩
  · rintro hd w' ⟨rfl, rfl⟩
    exact .ret ⟨_, rfl, by simp [ht]⟩

/-- What storing a time does. -/
def TimeStepped (junk : List Nat → α) (name : String) (t : Nat) (v : α) (L : Store α) : Store α :=
  putChunks junk ⟨name, [], [1024]⟩ [(t, t + 1)] 1 ⟨[], fun _ => v⟩ (boxIdx (chunkBox [(t, t + 1)] [1024])) L

theorem writeTime_runs {J : Store α → Prop} (enc : Int → α) (junk : List Nat → α) {w : Writer} {name : String} {t : Nat} {t0 tm : ZTime}
    (hown : ∀ ci, own name ci = 0) (hw : w.array = some ⟨name, [t + 1], [1024]⟩) (ht : w.iTime = t)
    (he : w.encoding = some t0) (hcal : tm.calendar = t0.calendar) (kn : Known)
    (h0 : J L) (h1 : J (TimeStepped junk name t (enc (tm.seconds - t0.seconds)) L)) :
    RunsI own (fun L _ => J L) 0 (OkPost fun _ w' => w' = w) (TimeStepped junk name t (enc (tm.seconds - t0.seconds)) L)
      (writeTime enc junk tm w) (2 * (boxIdx (chunkBox [(t, t + 1)] [1024])).length) L kn [] := by
  unfold writeTime
  rw [WM.self_bind, hw]
  simp only [need]
  rw [WM.lift_bind]
  have henc : encodeTime w tm = .ok (tm.seconds - t0.seconds) := by
    unfold encodeTime
    rw [he]
    simp [hcal]
  rw [henc, WM.lift_bind, ht]
  unfold setSelection
  rw [raiseIf_no (by simp), WM.lift_bind, raiseIf_no (by simp), WM.lift_bind, raiseIf_no (by simp), WM.lift_bind,
    raiseIf_no (by simp), WM.lift_bind]
  unfold when
  rw [if_pos (by rfl)]
  have hb : boxIdx (chunkBox [(t, t + 1)] [1024]) = [[t / 1024]] := by
    simp [chunkBox, boxIdx, List.range_succ]
  unfold TimeStepped at h1 ⊢
  rw [← putChunks_congr junk (h := ⟨name, [t + 1], [1024]⟩) (h' := ⟨name, [], [1024]⟩) rfl rfl] at h1 ⊢
  rw [hb] at h1
  have e1 : (([(t : Int)].map fun i => (i.toNat, i.toNat + 1)) ++ ([] : List (Int × Int)).map fun s => (s.1.toNat, s.2.toNat)) =
      [(t, t + 1)] := by simp
  rw [e1, hb]
  have := storeChunk_runs (own := own) (r := 0) junk ⟨name, [t + 1], [1024]⟩ [(t, t + 1)] 1
    ⟨[], fun _ => enc (tm.seconds - t0.seconds)⟩ w kn [t / 1024] L (hown _) h0 h1
  exact this.mono (by rintro x rfl; exact ⟨(), rfl, rfl⟩)

theorem barrier_root {w : Writer} (L : Store α) (kn : Known) :
    Runs own 0 (OkPost fun _ w' => w' = w) L ((do let _ ← WM.coll .barrier : WM α Unit) w) 2 L kn [⟨.barrier, none⟩] := by
  rw [WM.coll_bind]
  refine .collRoot rfl rfl ?_ (.ret ⟨_, rfl, rfl⟩)
  intro name hn
  cases hn

theorem barrier_other {r : Int} (hr : r ≠ 0) {w : Writer} (L : Store α) (kn : Known) {g : GItem} (hg : g.coll = .barrier) :
    Runs own r (OkPost fun _ w' => w' = w) L ((do let _ ← WM.coll .barrier : WM α Unit) w) 2 L kn [g] := by
  rw [WM.coll_bind]
  exact .collOther hr (by rw [hg]) (.ret ⟨_, rfl, rfl⟩)

theorem retS {R : Type} {J : Store α → Prop} {r : Int} {Q : R → Prop} {L : Store α} {a : R} {kn : Known} (hJ : J L) (h : Q a) :
    RunsI own (fun L _ => J L) r Q L (.ret a) 0 L kn [] :=
  have : Sat (fun (L : Store α) _ => J L) L [] := ⟨hJ⟩
  .ret h

theorem appendTime_root {J : Store α → Prop} (enc : Int → α) (junk : List Nat → α) {name : String} (hown : ∀ ci, own name ci = 0)
    {t : Nat} {t0 tm : ZTime} (hcal : tm.calendar = t0.calendar) (hfirst : t = 0 → tm = t0)
    {w : Writer} (hw : RootT name t0 t w L)
    (hJ : ∀ L1, L1.chunks = L.chunks ∨ L1.chunks = (TimeStepped junk name t (enc (tm.seconds - t0.seconds))
      (L.putInfo name ⟨[t + 1], [1024], timeAttrs t0⟩)).chunks → J L1) :
    ∃ n gs, gs.map sig = timeSigs name t ∧
      RunsI own (fun L _ => J L) 0 (OkPost fun _ w' => w' = { w with
          iTime := t + 1, array := some ⟨name, [t + 1], [1024]⟩, encoding := some t0 })
        (TimeStepped junk name t (enc (tm.seconds - t0.seconds)) (L.putInfo name ⟨[t + 1], [1024], timeAttrs t0⟩))
        (appendTime enc junk 0 tm w) n L [] gs := by
  have hnm := hw.named
  subst hnm
  have hend : ∀ (w1 : Writer), w1.array = some ⟨w.name, [t + 1], [1024]⟩ → w1.iTime = t →
      w1.name = w.name → w1.encoding = some t0 → ∀ L1 : Store α,
      L1.infos w.name = some ⟨[t + 1], [1024], timeAttrs t0⟩ → (∀ L2, L2.chunks = L1.chunks → J L2) →
      (∀ L2, L2.chunks = (TimeStepped junk w.name t (enc (tm.seconds - t0.seconds)) L1).chunks → J L2) →
      RunsI own (fun L _ => J L) 0 (OkPost fun _ w' => w' = { w with
          iTime := t + 1, array := some ⟨w.name, [t + 1], [1024]⟩, encoding := some t0 })
        (TimeStepped junk w.name t (enc (tm.seconds - t0.seconds)) L1)
        ((do
          syncArray 0
          when ((0 : Int) = ROOT_RANK) (writeTime enc junk tm)
          WM.update fun w => { w with iTime := w.iTime + 1 }
          let _ ← WM.coll .barrier : WM α Unit) w1)
        (2 + (2 * (boxIdx (chunkBox [(t, t + 1)] [1024])).length + 2)) L1 []
        [⟨.bcast (some w.name), some ⟨[t + 1], [1024], timeAttrs t0⟩⟩, ⟨.barrier, none⟩] := by
    intro w1 h1 h2 h3 h4 L1 hL1 hJ1 hJ2
    refine (Runs.still (by decide) (sync_root (h := ⟨w.name, [t + 1], [1024]⟩) h1 hL1) hJ1).wbindS (gs' := [⟨.barrier, none⟩]) ?_
    rintro _ w' rfl
    unfold when
    rw [if_pos (show (0 : Int) = ROOT_RANK from rfl)]
    refine (writeTime_runs enc junk hown h1 h2 h4 hcal [] (hJ1 _ rfl) (hJ2 _ rfl)).wbindS (gs := []) (gs' := [⟨.barrier, none⟩]) ?_
    rintro _ w'' rfl
    rw [WM.update_bind]
    refine (Runs.still (by decide) (barrier_root _ _) hJ2).mono ?_
    rintro x ⟨a, ha, hx⟩
    refine ⟨a, ha, hx.trans ?_⟩
    cases w''
    simp only at h1 h2 h3 h4 ⊢
    rw [h1, h2, h3, h4]
  unfold appendTime
  rw [WM.self_bind]
  by_cases ht : t = 0
  · obtain ⟨ha, hL⟩ := hw.first ht
    have htm := hfirst ht
    subst htm
    have hinit := Runs.still (own := own) (J := J) (by decide) (initZarr_root (attrs := { dims := some [] }) (kn := []) (fun kn => initTime_runs hL kn))
      fun L1 h => hJ L1 (.inl h)
    have hinit' : RunsI own (fun L _ => J L) 0 (OkPost fun _ w' => w' = { w with
          array := some ⟨w.name, [1], [1024]⟩, encoding := some tm })
        (L.putInfo w.name ⟨[1], [1024], timeAttrs tm⟩) (initTime 0 tm w) (6 + 4) L []
        [⟨.bcast (some w.name), some ⟨[1], [1024], { dims := some [] }⟩⟩] := by
      unfold initTime
      refine hinit.wbindS (gs' := []) ?_
      rintro _ w1 rfl
      unfold setTimeEncodingAttrs
      rw [WM.update_bind]
      unfold when
      rw [if_pos (show (0 : Int) = ROOT_RANK from rfl)]
      have := putTimeAttrs_runs (own := fun _ _ => -1) (t0 := tm) (kn := []) (L := L.putInfo w.name ⟨[1], [1024], { dims := some [] }⟩)
        (w := { w with array := some ⟨w.name, [1], [1024]⟩, encoding := some tm }) (name := w.name) rfl (Store.putInfo_get _ _ _)
      rw [Store.putInfo_putInfo] at this
      exact Runs.still (by decide) this fun L1 h => hJ L1 (.inl h)
    refine ⟨_, _, ?_, RunsI.wbindS (own := own) (J := J) (P := fun _ w' => w' = { w with
          array := some ⟨w.name, [1], [1024]⟩, encoding := some tm })
      (n' := 0 + (2 + (2 * (boxIdx (chunkBox [(t, t + 1)] [1024])).length + 2)))
      (gs' := [⟨.bcast (some w.name), some ⟨[t + 1], [1024], timeAttrs tm⟩⟩, ⟨.barrier, none⟩])
      (m := when (w.array = none) (initTime 0 tm))
      (by unfold when; rw [if_pos ha]; exact hinit') ?_⟩
    · subst ht
      rfl
    · rintro _ w1 rfl
      refine RunsI.wbindS (own := own) (J := J) (P := fun _ w' => w' = { w with
          array := some ⟨w.name, [1], [1024]⟩, encoding := some tm }) (gs := [])
        (L1 := L.putInfo w.name ⟨[1], [1024], timeAttrs tm⟩) (m := when ((0 : Int) = ROOT_RANK) extendTime)
        (by
          unfold when
          rw [if_pos (show (0 : Int) = ROOT_RANK from rfl)]
          unfold extendTime
          rw [WM.self_bind]
          simp only [need]
          rw [WM.lift_bind]
          unfold when
          rw [if_neg (by show ¬ 1 ≤ w.iTime; rw [hw.time, ht]; omega)]
          exact retS (hJ _ (.inl rfl)) ⟨_, rfl, rfl⟩) ?_
      rintro _ w1 rfl
      subst ht
      exact hend { w with array := some ⟨w.name, [0 + 1], [1024]⟩, encoding := some tm } rfl hw.time rfl rfl _
        (Store.putInfo_get _ _ _) (fun L1 h => hJ L1 (.inl h)) fun L1 h => hJ L1 (.inr h)
  · obtain ⟨ha, hL, hen⟩ := hw.later ht
    refine ⟨_, _, ?_, RunsI.wbindS (own := own) (J := J) (P := fun _ w' => w' = w) (L1 := L) (n := 0) (gs := [])
      (n' := 2 + (2 + (2 * (boxIdx (chunkBox [(t, t + 1)] [1024])).length + 2)))
      (gs' := [⟨.bcast (some w.name), some ⟨[t + 1], [1024], timeAttrs t0⟩⟩, ⟨.barrier, none⟩])
      (m := when (w.array = none) (initTime 0 tm))
      (by unfold when; rw [if_neg (by rw [ha]; simp)]; exact retS (hJ _ (.inl rfl)) ⟨_, rfl, rfl⟩) ?_⟩
    · unfold timeSigs
      rw [if_neg ht]
      rfl
    · rintro _ w1 rfl
      refine RunsI.wbindS (own := own) (J := J) (P := fun _ w' => w' = { w1 with array := some ⟨w1.name, [t + 1], [1024]⟩ }) (gs := [])
        (m := when ((0 : Int) = ROOT_RANK) extendTime)
        (by
          unfold when
          rw [if_pos (show (0 : Int) = ROOT_RANK from rfl)]
          exact Runs.still (by decide) (growTime_runs ha hw.time hL _) fun L1 h => hJ L1 (.inl h)) ?_
      rintro _ w2 rfl
      exact hend { w1 with array := some ⟨w1.name, [t + 1], [1024]⟩ } rfl hw.time rfl hen _ (Store.putInfo_get _ _ _)
        (fun L1 h => hJ L1 (.inl h)) fun L1 h => hJ L1 (.inr h)

theorem appendTime_other (enc : Int → α) (junk : List Nat → α) {r : Int} (h0 : r ≠ 0) {name : String} {t : Nat} (tm : ZTime)
    {gs : List GItem} (hgs : gs.map sig = timeSigs name t) :
    ∃ n, ∀ (w : Writer) (L : Store α), OtherW name t w →
      Runs own r (OkPost fun _ w' => OtherW name (t + 1) w') L (appendTime enc junk r tm w) n L [] gs := by
  have hend : ∀ g g', sig g = arraySig name [t + 1] [1024] → sig g' = (.barrier, none) →
      ∀ (w1 : Writer) (L : Store α), w1.name = name → w1.iTime = t →
      Runs own r (OkPost fun _ w' => OtherW name (t + 1) w') L
        ((do
          when (r = ROOT_RANK) extendTime
          syncArray r
          when (r = ROOT_RANK) (writeTime enc junk tm)
          WM.update fun w => { w with iTime := w.iTime + 1 }
          let _ ← WM.coll .barrier : WM α Unit) w1)
        (3 + 2) L [] [g, g'] := by
    intro g g' hg hg' w1 L h3 h2
    obtain ⟨hgc, i0, hgi, hsh, hch⟩ := sig_array hg
    have hb : g'.coll = .barrier := congrArg Prod.fst hg'
    unfold when
    rw [if_neg (show ¬ r = ROOT_RANK from h0), WM.pure_bind]
    refine (sync_other h0 hgc hgi).wbind (gs' := [g']) ?_
    rintro _ w' ⟨i, hle, rfl⟩
    rw [if_neg (show ¬ r = ROOT_RANK from h0), WM.pure_bind, WM.update_bind]
    refine (barrier_other h0 L [] hb).mono ?_
    rintro x ⟨a, ha, hx⟩
    refine ⟨a, ha, ?_⟩
    rw [hx]
    exact ⟨h3, by simp [h2], by simp⟩
  by_cases ht : t = 0
  · unfold timeSigs at hgs
    rw [if_pos ht, List.cons_append, List.nil_append, List.map_eq_cons_iff] at hgs
    obtain ⟨g1, gs1, rfl, hg1, hgs⟩ := hgs
    rw [List.map_eq_cons_iff] at hgs
    obtain ⟨g2, gs2, rfl, hg2, hgs⟩ := hgs
    rw [List.map_eq_cons_iff] at hgs
    obtain ⟨g3, gs3, rfl, hg3, hgs⟩ := hgs
    rw [List.map_eq_nil_iff] at hgs
    subst hgs
    refine ⟨3 + (3 + 2), ?_⟩
    intro w L hw
    unfold appendTime
    rw [WM.self_bind]
    obtain ⟨hgc, i0, hgi, hsh, hch⟩ := sig_array hg1
    refine Runs.wbind (P := fun _ w' => w'.name = name ∧ w'.iTime = t) (gs := [g1]) (gs' := [g2, g3]) (L1 := L) (n := 3)
      (m := when (w.array = none) (initTime r tm)) ?_ ?_
    · unfold when
      rw [if_pos (hw.array.2 ht)]
      unfold initTime
      have hi := initZarr_other (own := own) (L := L) (kn := []) (make := initTimeRoot) (attrs := { dims := some [] }) (w := w)
        h0 hgc hgi
      refine hi.wbind (n := 3) (n' := 0) (gs := [g1]) (gs' := []) ?_
      rintro _ w1 ⟨i, hle, rfl⟩
      unfold setTimeEncodingAttrs
      rw [WM.update_bind]
      unfold when
      rw [if_neg (show ¬ r = ROOT_RANK from h0)]
      exact .ret ⟨_, rfl, hw.named, hw.time⟩
    · rintro _ w1 ⟨h1, h2⟩
      exact hend g2 g3 hg2 hg3 w1 L h1 h2
  · unfold timeSigs at hgs
    rw [if_neg ht, List.nil_append, List.map_eq_cons_iff] at hgs
    obtain ⟨g2, gs2, rfl, hg2, hgs⟩ := hgs
    rw [List.map_eq_cons_iff] at hgs
    obtain ⟨g3, gs3, rfl, hg3, hgs⟩ := hgs
    rw [List.map_eq_nil_iff] at hgs
    subst hgs
    refine ⟨3 + 2, ?_⟩
    intro w L hw
    unfold appendTime
    rw [WM.self_bind]
    unfold when
    rw [if_neg (fun hn => ht (hw.array.1 hn)), WM.pure_bind]
    exact hend g2 g3 hg2 hg3 w L hw.named hw.time

end Zarr
end FV3
