import Verif.Spec.OpenRestart
import Verif.Props.TileComm
import Verif.Props.CollState

/-!
# C52: open_restart
-/

namespace FV3.Restart
variable {α : Type}

theorem updateState_get (tok : DataArray α → Int) (new : Dict String (Value α)) : ∀ (s : CState α),
    (Dict.keys new).Nodup → s.keys.Nodup →
    (updateState tok s new).keys.Nodup ∧
    ∀ n, (updateState tok s new).get? n = match Dict.get? new n with
      | some x => some (toSVal tok x)
      | none => s.get? n := by
  induction new with
  | nil => intro s _ hs; exact ⟨hs, fun n => rfl⟩
  | cons p new ih =>
    intro s hn hs
    obtain ⟨k, v⟩ := p
    simp only [Dict.keys, List.map_cons, List.nodup_cons] at hn
    obtain ⟨h1, h2⟩ := ih (s.set k (toSVal tok v)) hn.2 (Dict.nodup_set _ _ _ hs)
    refine ⟨h1, ?_⟩
    intro n
    refine (h2 n).trans ?_
    by_cases h : n = k
    · subst h
      have : Dict.get? new n = none := (Dict.get?_eq_none_iff new n).2 hn.1
      rw [this]
      simp only [Dict.get?, if_pos]
      rw [Dict.get?_set_self]
    · simp only [Dict.get?, if_neg h]
      rw [Dict.get?_set_ne _ _ h]

theorem loadable_load {fs : FileSys α} {t : Table} {f : List Char} (h : Loadable fs t f) (only : Option (List String)) :
    ∃ file new, fs.nc f = some file ∧ loadPartialState file t only = .ok new ∧ (Dict.keys new).Nodup ∧
      ∀ n x, Dict.get? new n = some x ↔ Provides fs t only f n x := by
  obtain ⟨file, hf, h1, h2, hT, h3, h4⟩ := h.found
  obtain ⟨new, e, hn, hget⟩ := C42_load file h1 t only h2 hT h3 h4
  refine ⟨file, new, hf, e, hn, ?_⟩
  intro n x
  rw [hget]
  constructor
  · rintro ⟨v, da, h⟩; exact ⟨file, v, da, hf, h⟩
  · rintro ⟨file', v, da, hf', h⟩
    rw [hf] at hf'; cases hf'
    exact ⟨v, da, h⟩

theorem loadFiles_ok (fs : FileSys α) (tok : DataArray α → Int) (t : Table) (only : Option (List String))
    (files : List (List Char)) : ∀ (s : CState α), (∀ f ∈ files, Loadable fs t f) → s.keys.Nodup →
    ∃ s', loadFiles fs tok t only files s = .ok s' ∧ s'.keys.Nodup ∧
      (∀ n x, LastProvides fs t only files n x → s'.get? n = some (toSVal tok x)) ∧
      ∀ n, (∀ f ∈ files, ∀ x, ¬ Provides fs t only f n x) → s'.get? n = s.get? n := by
  induction files with
  | nil =>
    intro s _ hs
    refine ⟨s, rfl, hs, ?_, fun _ _ => rfl⟩
    rintro n x ⟨pre, f, post, e, -⟩
    simp at e
  | cons f files ih =>
    intro s hl hs
    obtain ⟨file, new, hf, e, hn, hget⟩ := loadable_load (hl f (by simp)) only
    obtain ⟨u1, u2⟩ := updateState_get tok new s hn hs
    obtain ⟨s', r1, r2, r3, r4⟩ := ih (updateState tok s new) (fun f' h => hl f' (by simp [h])) u1
    refine ⟨s', ?_, r2, ?_, ?_⟩
    · simp only [loadFiles, hf, e, bind, Except.bind]
      exact r1
    · rintro n x ⟨pre, g, post, e', hp, hpost⟩
      cases pre with
      | nil =>
        simp only [List.nil_append, List.cons.injEq] at e'
        obtain ⟨rfl, rfl⟩ := e'
        rw [r4 n hpost, u2, (hget n x).2 hp]
      | cons a pre =>
        simp only [List.cons_append, List.cons.injEq] at e'
        exact r3 n x ⟨pre, g, post, e'.2, hp, hpost⟩
    · intro n hnone
      rw [r4 n fun f' h => hnone f' (by simp [h]), u2]
      cases hg : Dict.get? new n with
      | none => rfl
      | some x => exact absurd ((hget n x).1 hg) (hnone f (by simp) x)

/-- **C52**: what the root of a tile loads.  For every name other than "time" it is what the last of the
tile's restart files with that variable has for it, and nothing if no file has it.  The time is the
date in coupler.res, if there is one and the time is requested; otherwise it is treated like the other
names. -/
theorem C52_loaded (fs : FileSys α) (tok : DataArray α → Int)
    (construct : Coupler.Calendar → Int → Int → Int → Int → Int → Int → Py Int) (builtin : Table) (a : Args) (tile : Int)
    (hl : ∀ f ∈ restartFilenames fs.isFile fs.exists_ a.dirname tile a.label, Loadable fs (a.table builtin) f)
    (date : Option Int)
    (hdate : fs.isFile (couplerFilename a.dirname a.label) = true ∧ Requested a.onlyNames "time" →
      ∃ txt d, fs.text (couplerFilename a.dirname a.label) = some txt ∧
        Coupler.getCurrentDate construct txt = .ok d ∧ date = some d)
    (hnone : ¬ (fs.isFile (couplerFilename a.dirname a.label) = true ∧ Requested a.onlyNames "time") → date = none) :
    let files := restartFilenames fs.isFile fs.exists_ a.dirname tile a.label
    ∃ s, loadTile fs tok construct builtin a tile = .ok s ∧ s.keys.Nodup ∧
      (∀ d, date = some d → s.get? "time" = some (.time d)) ∧
      (∀ n x, (n ≠ "time" ∨ date = none) → LastProvides fs (a.table builtin) a.onlyNames files n x →
        s.get? n = some (toSVal tok x)) ∧
      ∀ n, (n ≠ "time" ∨ date = none) → (∀ f ∈ files, ∀ x, ¬ Provides fs (a.table builtin) a.onlyNames f n x) →
        s.get? n = none := by
  intro files
  obtain ⟨s, h1, h2, h3, h4⟩ := loadFiles_ok fs tok (a.table builtin) a.onlyNames files [] hl (by simp [Dict.keys])
  have hreq : timeRequested a.onlyNames = true ↔ Requested a.onlyNames "time" := by
    unfold timeRequested Requested
    cases a.onlyNames <;> simp
  unfold loadTile
  simp only [bind, Except.bind]
  rw [show restartFilenames fs.isFile fs.exists_ a.dirname tile a.label = files from rfl, h1]
  dsimp only
  unfold loadTime
  by_cases hc : fs.isFile (couplerFilename a.dirname a.label) = true ∧ Requested a.onlyNames "time"
  · obtain ⟨txt, d, e1, e2, rfl⟩ := hdate hc
    have : (fs.isFile (couplerFilename a.dirname a.label) && timeRequested a.onlyNames) = true := by
      rw [hc.1, hreq.2 hc.2]; rfl
    simp only [this, if_true, e1, e2, bind, Except.bind, pure, Except.pure]
    refine ⟨_, rfl, Dict.nodup_set _ _ _ h2, ?_, ?_, ?_⟩
    · rintro d' h; cases h
      exact Dict.get?_set_self _ _ _
    · intro n x hn hx
      rcases hn with hn | hn
      · rw [Dict.get?_set_ne _ _ hn]; exact h3 n x hx
      · cases hn
    · intro n hn hx
      rcases hn with hn | hn
      · rw [Dict.get?_set_ne _ _ hn, h4 n hx]; rfl
      · cases hn
  · have hdate := hnone hc
    subst hdate
    have : (fs.isFile (couplerFilename a.dirname a.label) && timeRequested a.onlyNames) = false := by
      cases hb : (fs.isFile (couplerFilename a.dirname a.label) && timeRequested a.onlyNames) with
      | false => rfl
      | true =>
        rw [Bool.and_eq_true] at hb
        exact absurd ⟨hb.1, hreq.1 hb.2⟩ hc
    simp only [this]
    refine ⟨s, rfl, h2, by simp, fun n x _ hx => h3 n x hx, fun n _ hx => ?_⟩
    rw [h4 n hx]; rfl

theorem openRestartIn_within (fs : FileSys α) (tok : DataArray α → Int)
    (construct : Coupler.Calendar → Int → Int → Int → Int → Int → Int → Py Int) (builtin : Table) (a : Args)
    (junk : List Nat → α) (l : Layout) (hn : 0 < l.tileRanks) (toState : Option (CState α)) (r i : Int) :
    (openRestartIn fs tok construct builtin a junk l toState r i).Within l.tileRanks := by
  unfold openRestartIn
  refine (CollM.within_lift _).bind fun tile => CollM.Within.bind ?_ fun s => scatterState_within (c := .tile l) hn _ _ _ _
  split
  · exact CollM.within_lift _
  · exact CollM.within_pure _

/-- **C52**: `open_restart` on all ranks of the cube, whatever the schedule: if the root rank of every
tile can load its files, then every rank returns a state with its part of each variable of its tile
(in the quantity of `to_state`, if there is one), the time of its tile (none if there is none), and
the other entries of `to_state` unchanged. -/
theorem C52_open_restart (buf : Buffering) (l : Layout) (hl : FloatSafe l) (fs : FileSys α) (tok : DataArray α → Int)
    (construct : Coupler.Calendar → Int → Int → Int → Int → Int → Int → Py Int) (builtin : Table) (a : Args)
    (junk : List Nat → α) (toState : Int → Option (CState α))
    (s : Int → CState α) (hload : ∀ t, 0 ≤ t → t < 6 → loadTile fs tok construct builtin a t = .ok (s t))
    (hnd : ∀ t, 0 ≤ t → t < 6 → (s t).keys.Nodup)
    (time : Int → Option Int) (htime : ∀ t, 0 ≤ t → t < 6 → (s t).get? "time" = (time t).map .time)
    (vdims : Int → String → List Dim) (vcells : Int → String → List Int) (vqty : Int → String → Quantity α)
    (hs : ∀ t, 0 ≤ t → t < 6 → ∀ v ∈ (s t).keys, v ≠ "time" → (s t).get? v = some (.qty (vqty t v)) ∧
      0 < (vdims t v).length ∧ (vqty t v).GlobalShaped (.tile l) (vdims t v) (vcells t v))
    (hst : ∀ r, 0 ≤ r → r < l.cubeRanks → ∀ st, toState r = some st → st.keys.Nodup ∧
      ∀ v ∈ (s (r / l.tileRanks)).keys, v ≠ "time" → ∀ x, st.get? v = some x →
        ∃ q, x = .qty q ∧ q.RankShaped (vdims (r / l.tileRanks) v) (vcells (r / l.tileRanks) v)) :
    ∃ out : Int → CState α,
      TilesReturn buf l (fun r => openRestartIn fs tok construct builtin a junk l (toState r) r) (fun r => .ok (out r)) ∧
      ∀ r, 0 ≤ r → r < l.cubeRanks →
        (out r).get? "time" = (s (r / l.tileRanks)).get? "time" ∧
        (∀ v ∉ (s (r / l.tileRanks)).keys, v ≠ "time" → (out r).get? v = ((toState r).getD []).get? v) ∧
        ∀ v ∈ (s (r / l.tileRanks)).keys, v ≠ "time" →
          ScatteredInto (.tile l) (vdims (r / l.tileRanks) v) (vcells (r / l.tileRanks) v) (vqty (r / l.tileRanks) v)
            (((toState r).getD []).get? v) ((out r).get? v) (r % l.tileRanks) := by
  have hy := hl.ypos
  have hx := hl.xpos
  have hn := tileRanks_pos hy hx
  have hc : l.cubeRanks = 6 * l.tileRanks := rfl
  have hrange : ∀ t i, 0 ≤ t → t < 6 → 0 ≤ i → i < l.tileRanks →
      0 ≤ t * l.tileRanks + i ∧ t * l.tileRanks + i < l.cubeRanks := by
    intro t i h0 h6 hi0 hi1
    have h5 : t ≤ 5 := by omega
    have h1 := Int.mul_le_mul_of_nonneg_right h5 (show 0 ≤ l.tileRanks by omega)
    have h2 := Int.mul_nonneg h0 (show 0 ≤ l.tileRanks by omega)
    omega
  have hmem : ∀ i, i ∈ (Comm.tile l).ranks ↔ 0 ≤ i ∧ i < l.tileRanks := fun i => mem_ranks (Comm.tile l) i
  have key : ∀ t, ∃ out : Int → CState α, 0 ≤ t → t < 6 →
      (Comm.tile l).Returns (groupBuf l.tileRanks buf t)
        (fun i => openRestartIn fs tok construct builtin a junk l (toState (t * l.tileRanks + i)) (t * l.tileRanks + i) i)
        (fun i => .ok (out i)) ∧
      ∀ i, 0 ≤ i → i < l.tileRanks →
        (out i).get? "time" = (s t).get? "time" ∧
        (∀ v ∉ (s t).keys, v ≠ "time" → (out i).get? v = ((toState (t * l.tileRanks + i)).getD []).get? v) ∧
        ∀ v ∈ (s t).keys, v ≠ "time" →
          ScatteredInto (.tile l) (vdims t v) (vcells t v) (vqty t v)
            (((toState (t * l.tileRanks + i)).getD []).get? v) ((out i).get? v) i := by
    intro t
    by_cases ht : 0 ≤ t ∧ t < 6
    · obtain ⟨out, h1, h2⟩ := C27_scatter_state (groupBuf l.tileRanks buf t) (.tile l) hl junk (vdims t) (vcells t) (vqty t)
        (s t) (hnd t ht.1 ht.2) (time t) (htime t ht.1 ht.2) (hs t ht.1 ht.2)
        (fun i => if i = 0 then some (s t) else some []) (fun i => toState (t * l.tileRanks + i)) (by simp)
        (by
          intro i hi st hst'
          have hi := (hmem i).1 hi
          obtain ⟨r0, r6⟩ := hrange t i ht.1 ht.2 hi.1 hi.2
          obtain ⟨b1, b2⟩ := hst _ r0 r6 st hst'
          rw [(group_div hn hi.1 hi.2).1] at b2
          exact ⟨b1, b2⟩)
      refine ⟨out, fun _ _ => ⟨?_, fun i h0 hi => h2 i ((hmem i).2 ⟨h0, hi⟩)⟩⟩
      have e : (Comm.tile l).net (fun i => openRestartIn fs tok construct builtin a junk l
            (toState (t * l.tileRanks + i)) (t * l.tileRanks + i) i)
          = (Comm.tile l).net (fun i => scatterState (.tile l) junk i (if i = 0 then some (s t) else some [])
            (toState (t * l.tileRanks + i))) := by
        unfold Comm.net
        congr 1
        funext i
        by_cases hi : i ∈ (Comm.tile l).ranks
        · rw [if_pos hi, if_pos hi]
          have hi' := (hmem i).1 hi
          have et : tileIndex l (t * l.tileRanks + i) = .ok t := by
            rw [tileIndex_eq hy hx]
            congr 1
            exact (group_div hn hi'.1 hi'.2).1
          have ep : openRestartIn fs tok construct builtin a junk l (toState (t * l.tileRanks + i)) (t * l.tileRanks + i) i
              = scatterState (.tile l) junk i (if i = 0 then some (s t) else some []) (toState (t * l.tileRanks + i)) := by
            unfold openRestartIn
            rw [et]
            by_cases h0 : i = 0
            · rw [if_pos h0]
              simp only [if_pos (show i = ROOT_RANK from h0)]
              change CollM.bind (CollM.lift (.ok t)) _ = _
              change CollM.bind (CollM.lift (loadTile fs tok construct builtin a t)) _ = _
              rw [hload t ht.1 ht.2]
              rfl
            · rw [if_neg h0]
              simp only [if_neg (show ¬ i = ROOT_RANK from h0)]
              rfl
          exact congrArg (fun p => (p 0).bind fun x => .ret (some x.1)) ep
        · rw [if_neg hi, if_neg hi]
      unfold Comm.Returns at h1 ⊢
      rw [e]
      exact h1
    · exact ⟨fun _ => [], fun h h' => absurd ⟨h, h'⟩ ht⟩
  choose out hout using key
  refine ⟨fun r => out (r / l.tileRanks) (r % l.tileRanks), ?_, ?_⟩
  · refine C51_tiles_independent buf l hy hx _ (fun r i => openRestartIn_within fs tok construct builtin a junk l hn _ _ _) _ ?_
    intro t h0 h6
    have h1 := (hout t h0 h6).1
    unfold Comm.Returns at h1 ⊢
    have e : (fun r => if r ∈ (Comm.tile l).ranks then some (Except.ok (out t r) : Py (CState α)) else none)
        = fun r => if r ∈ (Comm.tile l).ranks then
          some (Except.ok (out ((t * l.tileRanks + r) / l.tileRanks) ((t * l.tileRanks + r) % l.tileRanks)) : Py (CState α)) else none := by
      funext i
      by_cases hi : i ∈ (Comm.tile l).ranks
      · have hi' := (hmem i).1 hi
        obtain ⟨a1, a2⟩ := group_div (g := t) hn hi'.1 hi'.2
        rw [if_pos hi, if_pos hi, a1, a2]
      · rw [if_neg hi, if_neg hi]
    rw [← e]
    exact h1
  · intro r h0 h6
    obtain ⟨t0, t6⟩ := div_range hn h0 (by omega : r < 6 * l.tileRanks)
    have hm := Int.emod_add_mul_ediv r l.tileRanks
    have hm0 := Int.emod_nonneg r (show l.tileRanks ≠ 0 by omega)
    have hm1 := Int.emod_lt_of_pos r hn
    have e : r / l.tileRanks * l.tileRanks + r % l.tileRanks = r := by rw [Int.mul_comm]; omega
    have := (hout _ t0 t6).2 _ hm0 hm1
    rw [e] at this
    exact this

theorem waits_step {M R : Type} {buf : Buffering} {s r q : Int} {tag : Tag} {x : R} {k : M → Proc M R} {N N' : Net M R}
    (hs : N.procs s = .ret x) (h0 : N.sent s r tag = []) (hr : N.procs r = .recv s tag k) (h : N.step buf q = some N') :
    N'.procs s = .ret x ∧ N'.sent s r tag = [] ∧ N'.procs r = .recv s tag k := by
  have hqs : q ≠ s := by
    rintro rfl
    simp [Net.step, hs] at h
  have hqr : q ≠ r := by
    rintro rfl
    simp [Net.step, hr, h0] at h
  have hp : ∀ (v : Proc M R) p, p ≠ q → updRank N.procs q v p = N.procs p := fun v p hp => if_neg hp
  unfold Net.step at h
  split at h
  · cases h
  · cases h
    refine ⟨(hp _ _ (Ne.symm hqs)).trans hs, ?_, (hp _ _ (Ne.symm hqr)).trans hr⟩
    dsimp only
    unfold updCh
    rw [if_neg fun hh => hqs hh.1.symm, h0]
  · split at h
    · cases h
    · cases h
      exact ⟨(hp _ _ (Ne.symm hqs)).trans hs, h0, (hp _ _ (Ne.symm hqr)).trans hr⟩
  · split at h
    · cases h
      exact ⟨(hp _ _ (Ne.symm hqs)).trans hs, h0, (hp _ _ (Ne.symm hqr)).trans hr⟩
    · cases h

theorem waits_run {M R : Type} {buf : Buffering} {s r : Int} {tag : Tag} {x : R} {k : M → Proc M R} (sched : List Int) :
    ∀ {N N' : Net M R}, N.procs s = .ret x → N.sent s r tag = [] → N.procs r = .recv s tag k →
      N.run buf sched = some N' → N'.procs s = .ret x ∧ N'.procs r = .recv s tag k := by
  induction sched with
  | nil => intro N N' hs _ hr h; cases h; exact ⟨hs, hr⟩
  | cons q sched ih =>
    intro N N' hs h0 hr h
    unfold Net.run at h
    obtain ⟨N1, e, h⟩ := Option.bind_eq_some_iff.1 h
    obtain ⟨a, b, c⟩ := waits_step hs h0 hr e
    exact ih a b c h

/-- **C52, limit**: if the root rank of a tile cannot load its files (say one does not exist), its call
raises, and all other ranks of the tile wait for ever. -/
theorem C52_load_failure (buf : Buffering) (l : Layout) (hy : 0 < l.y) (hx : 0 < l.x) (fs : FileSys α)
    (tok : DataArray α → Int) (construct : Coupler.Calendar → Int → Int → Int → Int → Int → Int → Py Int)
    (builtin : Table) (a : Args) (junk : List Nat → α) (toState : Int → Option (CState α))
    (t : Int) (ht : 0 ≤ t) (h6 : t < 6) (e : PyErr) (hload : loadTile fs tok construct builtin a t = .error e)
    (sched : List Int) (N : Net (Msg α) (Option (Py (CState α))))
    (hrun : (tilesNet l fun r => openRestartIn fs tok construct builtin a junk l (toState r) r).run buf sched = some N)
    (i : Int) (h0 : 0 < i) (hi : i < l.tileRanks) :
    N.procs (t * l.tileRanks) = .ret (some (.error e)) ∧ ∀ x, N.procs (t * l.tileRanks + i) ≠ .ret x := by
  have hn := tileRanks_pos hy hx
  have hrange : ∀ j, 0 ≤ j → j < l.tileRanks → 0 ≤ t * l.tileRanks + j ∧ t * l.tileRanks + j < l.cubeRanks := by
    intro j hj0 hj1
    have hc : l.cubeRanks = 6 * l.tileRanks := rfl
    have h5 : t ≤ 5 := by omega
    have h1 := Int.mul_le_mul_of_nonneg_right h5 (show 0 ≤ l.tileRanks by omega)
    have h2 := Int.mul_nonneg ht (show 0 ≤ l.tileRanks by omega)
    omega
  have htile : ∀ j, 0 ≤ j → j < l.tileRanks → tileIndex l (t * l.tileRanks + j) = .ok t := by
    intro j hj0 hj1
    rw [tileIndex_eq hy hx]
    congr 1
    exact (group_div hn hj0 hj1).1
  have hcr : ∀ j, 0 ≤ j → j < l.tileRanks → tileCommRank l (t * l.tileRanks + j) = j := by
    intro j hj0 hj1
    rw [tileCommRank_eq hy hx (hrange j hj0 hj1).1 (hrange j hj0 hj1).2]
    exact (group_div hn hj0 hj1).2
  have hroot : (tilesNet l fun r => openRestartIn fs tok construct builtin a junk l (toState r) r).procs
      (t * l.tileRanks) = .ret (some (.error e)) := by
    have hr := hrange 0 (by omega) hn
    have h1 := htile 0 (by omega) hn
    have h2 := hcr 0 (by omega) hn
    rw [Int.add_zero] at hr h1 h2
    unfold tilesNet Net.start
    dsimp only
    rw [if_pos hr]
    unfold onTile
    rw [h2]
    have : openRestartIn fs tok construct builtin a junk l (toState (t * l.tileRanks)) (t * l.tileRanks) 0 0
        = .ret (.error e, 0) := by
      unfold openRestartIn
      rw [h1]
      change (CollM.bind (CollM.lift (loadTile fs tok construct builtin a t)) _) 0 = _
      rw [hload]
      rfl
    rw [this]
    rfl
  obtain ⟨k, hclient⟩ : ∃ k, (tilesNet l fun r => openRestartIn fs tok construct builtin a junk l (toState r) r).procs
      (t * l.tileRanks + i) = .recv (t * l.tileRanks) (.coll 0) k := by
    have hr := hrange i (by omega) hi
    unfold tilesNet Net.start
    dsimp only
    rw [if_pos hr]
    unfold onTile
    rw [hcr i (by omega) hi]
    have hm : tileMember l (t * l.tileRanks + i) ROOT_RANK = t * l.tileRanks := by
      refine (tileMember_eq hy hx hr.1 hr.2 (show 0 ≤ ROOT_RANK by decide) hn).trans ?_
      rw [(group_div hn (by omega) hi).1]
      show _ + (0 : Int) = _
      omega
    have : ∃ k, openRestartIn fs tok construct builtin a junk l (toState (t * l.tileRanks + i)) (t * l.tileRanks + i) i 0
        = .recv ROOT_RANK (.coll 0) k := by
      unfold openRestartIn
      rw [htile i (by omega) hi]
      simp only [if_neg (show ¬ i = ROOT_RANK by unfold ROOT_RANK; omega)]
      change ∃ k, scatterState (.tile l) junk i (some []) (toState (t * l.tileRanks + i)) 0 = _
      unfold scatterState bcast
      simp only [if_neg (show ¬ i = ROOT_RANK by unfold ROOT_RANK; omega)]
      exact ⟨_, rfl⟩
    obtain ⟨k, hk⟩ := this
    rw [hk]
    simp only [Proc.renumber, hm, Proc.bind]
    exact ⟨_, rfl⟩
  obtain ⟨a1, a2⟩ := waits_run sched hroot rfl hclient hrun
  refine ⟨a1, ?_⟩
  intro x hx'
  rw [a2] at hx'
  cases hx'

/-! ### examples -/

/-- Restart files of a small cube: fv_core.res has a variable of the table and one of its own, the others
have no variables but the time axis; the values depend on the tile.  "T" is also in phy_data, for tile 3. -/
def exFs : FileSys Nat where
  nc f :=
    let tile := (f.getD (f.length - 4) '0').toNat - 48
    let t : String × DataArray Nat := ("T", ⟨⟨[1, 2, 4], fun i => i.getD 1 0 * 4 + i.getD 2 0 + 100 * tile + f.length⟩,
        [.other "Time", .other "yaxis_1", .other "xaxis_1"], none⟩)
    if "fv_core".toList.isPrefixOf (f.drop 8) then
      some [("Time", ⟨⟨[1], fun _ => 0⟩, [.other "Time"], none⟩), t]
    else if f.drop 8 = "phy_data.tile3.nc".toList then
      some [("Time", ⟨⟨[1], fun _ => 0⟩, [.other "Time"], none⟩), t, ("xaxis_1", ⟨⟨[4], fun _ => 0⟩, [.other "xaxis_1"], some "none"⟩)]
    else some [("Time", ⟨⟨[1], fun _ => 0⟩, [.other "Time"], none⟩)]
  text _ := none
  isFile _ := false
  exists_ f := decide (f = "RESTART/phy_data.tile3.nc".toList)

/-- Every file of the example can be loaded (the hypothesis of `C52_loaded`). -/
theorem exFs_loadable (f : List Char) : Loadable exFs exTable f := by
  have key : ∀ file : Dict String (DataArray Nat), (Dict.keys file).Nodup →
      (∀ x ∈ file, x.1 = "Time" ∨ x.1 = "T" ∨ x.1 = "xaxis_1") →
      (∀ x ∈ file, x.1 = "Time" → x.2.dims = [.other "Time"] ∧ x.2.data.shape = [1]) →
      (∀ x ∈ file, x.1 = "T" → x.2.dims = [.other "Time", .other "yaxis_1", .other "xaxis_1"] ∧
        x.2.data.shape = [1, 2, 4]) →
      (∀ x ∈ file, x.1 = "xaxis_1" → x.2.dims = [.other "xaxis_1"] ∧ x.2.data.shape = [4]) →
      "Time" ∈ Dict.keys file → (Dict.keys file).Nodup ∧
    (∀ v da, Dict.get? file v = some da → da.dims.length = da.data.shape.length) ∧ HasTime file ∧
    (∀ v w, v ∈ Dict.keys file → w ∈ Dict.keys file → ¬ IsDimension file v → ¬ IsDimension file w →
      nameOf (standardNames exTable) v = nameOf (standardNames exTable) w → v = w) ∧
    (∀ v da p, Dict.get? file v = some da → ¬ IsDimension file v →
      Dict.get? exTable (nameOf (standardNames exTable) v) = some p →
      (renamed (da.isel0 (.other "Time")).dims p.dims).Nodup) := by
    intro file hF hn h1 h2 h3 hT
    refine ⟨hF, fun v da h => ?_, ⟨hT, ?_, fun v da k h hk => ?_⟩, fun v w hv hw _ _ e => ?_, fun v da p h _ hp => ?_⟩
    · have hm := Dict.mem_of_get? h
      rcases hn _ hm with e | e | e
      · rw [(h1 _ hm e).1, (h1 _ hm e).2]; rfl
      · rw [(h2 _ hm e).1, (h2 _ hm e).2]; rfl
      · rw [(h3 _ hm e).1, (h3 _ hm e).2]; rfl
    · obtain ⟨da, h⟩ := (Dict.mem_keys_iff file _).1 hT
      refine ⟨_, da, h, .other "Time", ?_, rfl⟩
      rw [(h1 _ (Dict.mem_of_get? h) rfl).1]
      exact List.mem_singleton_self _
    · have hm := Dict.mem_of_get? h
      rcases hn _ hm with e | e | e
      · rw [(h1 _ hm e).1] at hk
        rw [(h1 _ hm e).2]
        match k, hk with
        | 0, _ => decide
      · rw [(h2 _ hm e).1] at hk
        rw [(h2 _ hm e).2]
        match k, hk with
        | 0, _ => decide
        | 1, _ => decide
        | 2, _ => decide
      · rw [(h3 _ hm e).1] at hk
        match k, hk with
        | 0, hk => exact absurd hk (by decide)
    · obtain ⟨a, ha⟩ := (Dict.mem_keys_iff file _).1 hv
      obtain ⟨b, hb⟩ := (Dict.mem_keys_iff file _).1 hw
      have c1 := hn _ (Dict.mem_of_get? ha)
      have c2 := hn _ (Dict.mem_of_get? hb)
      have all : ∀ v ∈ ["Time", "T", "xaxis_1"], ∀ w ∈ ["Time", "T", "xaxis_1"],
        nameOf (standardNames exTable) v = nameOf (standardNames exTable) w → v = w := by decide +kernel
      exact all v (by simpa using c1) w (by simpa using c2) e
    · have hm := Dict.mem_of_get? h
      have all : ∀ v ∈ ["Time", "T", "xaxis_1"], ∀ x ∈ exTable, x.1 = nameOf (standardNames exTable) v →
          v = "T" ∧ x.2.dims = [.y, .x] := by decide +kernel
      obtain ⟨rfl, e⟩ := all v (by simpa using hn _ hm) _ (Dict.mem_of_get? hp) rfl
      have e : p.dims = [.y, .x] := e
      have : (da.isel0 (.other "Time")).dims = [.other "yaxis_1", .other "xaxis_1"] := by
        unfold DataArray.isel0
        rw [(h2 _ hm rfl).1, if_pos (by decide)]
        rfl
      rw [this, e]
      decide
  refine ⟨?_⟩
  unfold exFs
  dsimp only
  split
  · exact ⟨_, rfl, key _ (by simp [Dict.keys]) (by simp) (by simp) (by simp) (by simp) (by simp [Dict.keys])⟩
  · split
    · exact ⟨_, rfl, key _ (by simp [Dict.keys]) (by simp) (by simp) (by simp) (by simp) (by simp [Dict.keys])⟩
    · exact ⟨_, rfl, key _ (by simp [Dict.keys]) (by simp) (by simp) (by simp) (by simp) (by simp [Dict.keys])⟩

/-- Arguments for the example. -/
def exArgs : Args := ⟨"RESTART".toList, none, none, none⟩

def exConstruct : Coupler.Calendar → Int → Int → Int → Int → Int → Int → Py Int := fun _ _ _ _ _ _ _ => .ok 0

def exLoad (t : Int) : Py (CState Nat) := loadTile exFs (fun _ => 0) exConstruct exTable exArgs t

def exLoaded (t : Int) : CState Nat := match exLoad t with
  | .ok s => s
  | .error _ => []

def exQty (t : Int) (v : String) : Quantity Nat := match (exLoaded t).get? v with
  | some (.qty q) => q
  | _ => exPart

/-- Tile 1 has the value of fv_core.res.tile2.nc, tile 2 that of phy_data.tile3.nc, which is read last. -/
example : (exQty 1 "air_temperature").data.get [1, 2] = 6 + 200 + 28 ∧
    (exQty 2 "air_temperature").data.get [1, 2] = 6 + 300 + 25 := by decide +kernel

/-- The hypotheses of C52 are met, with twelve ranks. -/
example (buf : Buffering) : ∃ out : Int → CState Nat,
    TilesReturn buf ⟨1, 2⟩ (fun r => openRestartIn exFs (fun _ => 0) exConstruct exTable exArgs (fun _ => 0) ⟨1, 2⟩
      (if r = 7 then some [("own", .qty exPart)] else none) r) (fun r => .ok (out r)) ∧
    (out 7).get? "own" = some (.qty exPart) ∧
    ∃ q, (out 5).get? "air_temperature" = some (.qty q) ∧ q.computeArr.get [1, 1] = 7 + 300 + 25 := by
  have hl : FloatSafe ⟨1, 2⟩ := C05_safe_up_to_48 _ (by decide) (by decide) (by decide) (by decide)
  have cases6 : ∀ t : Int, 0 ≤ t → t < 6 → t = 0 ∨ t = 1 ∨ t = 2 ∨ t = 3 ∨ t = 4 ∨ t = 5 := by
    intro t h0 h6; omega
  have hkeys : ∀ t : Int, 0 ≤ t → t < 6 → (exLoaded t).keys = ["air_temperature"] := by
    intro t h0 h6
    rcases cases6 t h0 h6 with rfl | rfl | rfl | rfl | rfl | rfl <;> decide +kernel
  have hdim : ∀ t : Int, 0 ≤ t → t < 6 → (exQty t "air_temperature").dims = [.y, .x] ∧
      (exQty t "air_temperature").data.shape = [2, 4] ∧ (exQty t "air_temperature").origin = [0, 0] ∧
      (exQty t "air_temperature").extent = [2, 4] := by
    intro t h0 h6
    rcases cases6 t h0 h6 with rfl | rfl | rfl | rfl | rfl | rfl <;> decide +kernel
  have hget : ∀ t : Int, 0 ≤ t → t < 6 →
      (exLoaded t).get? "air_temperature" = some (.qty (exQty t "air_temperature")) := by
    intro t h0 h6
    rcases cases6 t h0 h6 with rfl | rfl | rfl | rfl | rfl | rfl <;> rfl
  obtain ⟨out, h1, h2⟩ := C52_open_restart buf ⟨1, 2⟩ hl exFs (fun _ => 0) exConstruct exTable exArgs (fun _ => 0)
    (fun r => if r = 7 then some [("own", .qty exPart)] else none) exLoaded
    (by
      intro t h0 h6
      rcases cases6 t h0 h6 with rfl | rfl | rfl | rfl | rfl | rfl <;> rfl)
    (by intro t h0 h6; rw [hkeys t h0 h6]; decide)
    (fun _ => none)
    (by
      intro t h0 h6
      rw [(Dict.get?_eq_none_iff _ _).2 (by rw [hkeys t h0 h6]; decide)]; rfl)
    (fun _ _ => [.y, .x]) (fun _ _ => [2, 2]) exQty
    (by
      intro t h0 h6 v hv hne
      rw [hkeys t h0 h6] at hv
      obtain rfl : v = "air_temperature" := by simpa using hv
      obtain ⟨d1, d2, d3, d4⟩ := hdim t h0 h6
      refine ⟨hget t h0 h6, by decide, ?_, d1, ?_⟩
      · have hn : (exQty t "air_temperature").ndim = 2 := by unfold Quantity.ndim; rw [d1]; rfl
        refine ⟨⟨by rw [hn, d2]; rfl, by rw [hn, d3]; rfl, by rw [hn, d4]; rfl⟩, ?_⟩
        rw [hn]
        unfold Quantity.o Quantity.e Quantity.n
        rw [d2, d3, d4]; decide
      · rw [d4]
        refine ⟨rfl, rfl, ?_⟩
        intro k d c t hd hc ht
        match k with
        | 0 => simp at hd hc ht; subst hd hc ht; decide
        | 1 => simp at hd hc ht; subst hd hc ht; decide
        | k + 2 => simp at hd)
    (by
      intro r h0 h12 st hst
      split at hst
      · cases hst
        refine ⟨by decide, ?_⟩
        intro v hv hne x hx
        obtain ⟨t0, t6⟩ := div_range (n := (⟨1, 2⟩ : Layout).tileRanks) (by decide) h0 h12
        rw [hkeys _ t0 t6] at hv
        obtain rfl : v = "air_temperature" := by simpa using hv
        cases hx
      · cases hst)
  refine ⟨out, h1, ?_, ?_⟩
  · exact (h2 7 (by decide) (by decide)).2.1 "own" (by decide +kernel) (by decide)
  · obtain ⟨q, e, -, hp, -, hf⟩ := (h2 5 (by decide) (by decide)).2.2 "air_temperature" (by decide +kernel) (by decide)
    refine ⟨q, e, ?_⟩
    have hx := (hf rfl).extent
    have hsh : q.computeArr.shape = [2, 2] := by
      obtain ⟨l1, l2, h⟩ := hx
      show q.extent.map Int.toNat = _
      match hq : q.extent, l2 with
      | [u, v], _ =>
        rw [hq] at h
        rw [(h 0 .y 2 u rfl rfl rfl).2, (h 1 .x 2 v rfl rfl rfl).2]
        decide
    rw [hp [1, 1] (by rw [hsh]; decide)]
    decide +kernel

/-- **C43.**  The name of the file with the date, spelled out. -/
theorem C43_coupler_filename (dirname : List Char) (hdir : dirname ≠ []) (hend : dirname.getLast? ≠ some '/')
    (label : List Char) (hlabel : label.head? ≠ some '/') :
    couplerFilename dirname (some label) =
      dirname ++ "/".toList ++ (if label = [] then [] else label ++ ".".toList) ++ "coupler.res".toList ∧
    couplerFilename dirname none = dirname ++ "/".toList ++ "coupler.res".toList := by
  have hjoin : ∀ f : List Char, f.head? ≠ some '/' → pathJoin dirname f = dirname ++ '/' :: f := by
    intro f hf
    unfold pathJoin
    rw [if_neg hf, if_neg (by rintro (h | h); exacts [hdir h, hend h])]
  refine ⟨?_, ?_⟩
  · unfold couplerFilename prependLabel
    dsimp only
    by_cases hl : label = []
    · subst hl
      rw [if_neg (by simp), if_pos rfl, hjoin _ (by decide)]
      simp
    · have : 0 < label.length := List.length_pos_of_ne_nil hl
      rw [if_pos this, if_neg hl, hjoin]
      · simp
      · cases label with
        | nil => exact absurd rfl hl
        | cons c x => simpa using hlabel
  · unfold couplerFilename prependLabel
    rw [hjoin _ (by decide)]
    simp

example : couplerFilename "RESTART".toList (some "20160801.001500".toList) = "RESTART/20160801.001500.coupler.res".toList := by
  decide +kernel

end FV3.Restart
