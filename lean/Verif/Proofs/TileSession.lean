import Verif.Proofs.TilePhase
import Verif.Spec.TileSession

/-!
# Sessions with tile communicators: one call after the other
-/

namespace FV3
variable {α : Type} [Neg α]

/-- The data of all ranks. -/
def cubeSnapOf (l : Layout) (s : Int → TileState α) : CubeSnap α where
  cube := snapOf fun r => (s r).base
  tglob t := (s (t * l.tileRanks)).tglob
  tgtime t := (s (t * l.tileRanks)).tgtime

omit [Neg α] in
theorem ofTile_cubeSnapOf (l : Layout) (s : Int → TileState α) (t : Int) :
    (cubeSnapOf l s).ofTile l t = snapOf fun i => (s (t * l.tileRanks + i)).view := by
  unfold CubeSnap.ofTile cubeSnapOf snapOf TileState.view
  simp only [Int.add_zero]

/-- The state of all ranks between two calls. -/
structure UBetween (l : Layout) (mem : Int → Mem α) (parts : Nat → Parts) (tparts : Int → Nat → Parts)
    (filled : List Nat) (tfilled : Int → List Nat) (k n : Nat) (tn : Int → Nat) (s : Int → TileState α) : Prop where
  base : TBetween l mem parts filled k n fun r => (s r).base
  tile : ∀ t, 0 ≤ t → t < 6 → CBetween (.tile l) (fun i => mem (t * l.tileRanks + i)) (tparts t) (tfilled t) (tn t)
    fun i => (s (t * l.tileRanks + i)).view

/-- The tags that have not been used. -/
def ULater (k n : Nat) (tn : Int → Nat) (t : Tag) : Prop := LaterTag k n t ∨ ∃ c i, t = .tile c i ∧ tn c ≤ i

/-- Number of halo tags. -/
def UOp.nTags : UOp α → Nat
  | .op o => o.nTags
  | .tiles _ => 0

/-- Global quantities that exist after the call. -/
def UOp.fills (filled : List Nat) : UOp α → List Nat
  | .op o => o.fills filled
  | .tiles _ => filled

/-- Quantities of the tiles that exist after the call. -/
def UOp.tfills (tfilled : Int → List Nat) : UOp α → Int → List Nat
  | .op _ => tfilled
  | .tiles o => fun t => match o t with | some a => a.filledAfter (tfilled t) | none => tfilled t

/-- All ranks make one call. -/
def uopProcs (l : Layout) (junk tjunk : Nat → List Nat → α) (op : UOp α) (s : Int → TileState α) (r : Int) :
    Proc (Msg α) (Option (Py (TileState α))) :=
  if r ∈ allRanks l then (op.exec l junk tjunk r (s r)).bind fun x => .ret (some x) else .ret none

/-- What one call does, on a network on which other calls were made before. -/
def UOpRuns (buf : Buffering) (l : Layout) (junk tjunk : Nat → List Nat → α) (mem : Int → Mem α) (parts : Nat → Parts)
    (tparts : Int → Nat → Parts) (filled : List Nat) (tfilled : Int → List Nat) (k : Nat) (op : UOp α)
    (s : Int → TileState α) (sent : Int → Int → Tag → List (Msg α)) (rcvd : Int → Int → Tag → Nat) : Prop :=
  ∃ (s' : Int → TileState α) (n' : Nat) (tn' : Int → Nat) (sched : List Int)
    (T : Net (Msg α) (Option (Py (TileState α)))),
    (⟨uopProcs l junk tjunk op s, sent, rcvd⟩ : Net _ _).run buf sched = some T ∧
    (∀ r, T.procs r = .ret (if r ∈ allRanks l then some (.ok (s' r)) else none)) ∧
    Net.CleanOn (ULater (k + op.nTags) n' tn') T.sent T.rcvd ∧
    op.Step l parts tparts (cubeSnapOf l s) (cubeSnapOf l s') ∧
    UBetween l mem parts tparts (op.fills filled) (op.tfills tfilled) (k + op.nTags) n' tn' s'

/-- The rank goes on with the changed state. -/
def withBase (s : Int → TileState α) (r : Int) (y : Option (Py (SessState α))) :
    Proc (Msg α) (Option (Py (TileState α))) :=
  .ret (match y with
    | none => none
    | some (.error e) => some (.error e)
    | some (.ok x) => some (.ok { s r with base := x }))

/-- A call of the cubed-sphere communicator. -/
theorem cube_runs {l : Layout} (hl : FloatSafe l) (hsq : l.y = l.x) (buf : Buffering) (junk tjunk : Nat → List Nat → α)
    {mem : Int → Mem α} {parts : Nat → Parts} {tparts : Int → Nat → Parts} {filled : List Nat}
    {tfilled : Int → List Nat} {k n : Nat} {tn : Int → Nat} {s : Int → TileState α}
    (B : UBetween l mem parts tparts filled tfilled k n tn s) {o : TOp α} (hv : o.Valid l mem parts filled)
    {sent : Int → Int → Tag → List (Msg α)} {rcvd : Int → Int → Tag → Nat}
    (hc : Net.CleanOn (ULater k n tn) sent rcvd) :
    UOpRuns buf l junk tjunk mem parts tparts filled tfilled k (.op o) s sent rcvd := by
  have hn : 0 < l.tileRanks := tileRanks_pos hl.ypos hl.xpos
  obtain ⟨b', n', sched, T, h1, h2, h3, h4, h5, h6⟩ := top_runs hl hsq buf junk B.base hv
    ⟨fun a b t ht => hc.sent a b t (.inl ht), fun a b t ht => hc.rcvd a b t (.inl ht)⟩
  have r1 := Net.run_andThen (withBase s) h1
  refine ⟨fun r => { s r with base := b' r }, n', tn, sched, T.andThen (withBase s), ?_, fun r => ?_, ?_, ⟨h5, fun _ _ _ => ⟨rfl, rfl⟩⟩,
    ⟨h6, fun t t0 t6 => ?_⟩⟩
  · refine cast ?_ r1
    congr 2
    unfold Net.andThen
    congr 1
    funext r
    dsimp only [topProcs, uopProcs]
    by_cases hr : r ∈ allRanks l
    · rw [if_pos hr, if_pos hr]
      show _ = ((o.exec l junk r (s r).base).bind _).bind _
      rw [Proc.bind_bind, Proc.bind_bind]
      congr 1
      funext y
      cases y <;> rfl
    · rw [if_neg hr, if_neg hr]
      rfl
  · show (T.procs r).bind _ = _
    rw [h2 r]
    by_cases hr : r ∈ allRanks l
    · rw [if_pos hr, if_pos hr]
      rfl
    · rw [if_neg hr, if_neg hr]
      rfl
  · have h4 := h4 (fun t => ∃ c i, t = .tile c i ∧ tn c ≤ i) (fun t ⟨c, i, e, _⟩ => ⟨c, i, e⟩)
      ⟨fun a b t ht => hc.sent a b t (.inr ht), fun a b t ht => hc.rcvd a b t (.inr ht)⟩
    exact ⟨fun a b t ht => ht.elim (h3.sent a b t) (h4.sent a b t), fun a b t ht => ht.elim (h3.rcvd a b t) (h4.rcvd a b t)⟩
  · have := B.tile t t0 t6
    refine ⟨fun i hi => ?_, this.coll, this.shaped, this.filled⟩
    have hi := (mem_ranks (.tile l) i).1 hi
    refine h6.same _ (mem_allRanks.2 ⟨?_, ?_⟩)
    · have := Int.mul_nonneg t0 (Int.le_of_lt hn)
      omega
    · have := Int.mul_le_mul_of_nonneg_right (show t ≤ 5 by omega) (Int.le_of_lt hn)
      have e1 : l.cubeRanks = 6 * l.tileRanks := rfl
      have e2 : (Comm.tile l).size = l.tileRanks := rfl
      omega

/-- What the ranks of tile `t` do. -/
def tileProc (l : Layout) (tjunk : Nat → List Nat → α) (o : Int → Option COp) (t i : Int) (v : SessState α) :
    Proc (Msg α) (Py (SessState α)) :=
  match o t with
  | none => .ret (.ok v)
  | some a => a.exec (.tile l) tjunk i v

omit [Neg α] in
theorem tileProc_does {l : Layout} (hl : FloatSafe l) (buf : Buffering) (tjunk : Nat → List Nat → α)
    {mem : Int → Mem α} {parts : Nat → Parts} {filled : List Nat} {n : Nat} {s : Int → SessState α}
    (B : CBetween (.tile l) mem parts filled n s) (o : Int → Option COp) (t : Int)
    (hv : ∀ a, o t = some a → a.Valid (.tile l) mem parts filled) :
    ∃ (s' : Int → SessState α) (n' : Nat) (plan : Int → List (Nat × Act (Msg α))), Seg buf (Comm.tile l).ranks n n' plan ∧
      (∀ i ∈ (Comm.tile l).ranks, Real (tileProc l tjunk o t i (s i)) ((plan i).map (·.2)) (.ok (s' i))) ∧
      (match o t with
        | none => (snapOf s).Same (.tile l) (snapOf s')
        | some a => a.Step (.tile l) parts (snapOf s) (snapOf s')) ∧
      CBetween (.tile l) mem parts (match o t with | some a => a.filledAfter filled | none => filled) n' s' := by
  cases ho : o t with
  | none =>
    refine ⟨s, n, fun _ => [], Seg.nil .., fun i _ => ?_, ⟨fun _ _ => rfl, rfl, fun _ _ => rfl, rfl⟩, B⟩
    unfold tileProc
    rw [ho]
    exact .ret _
  | some a =>
    obtain ⟨s', n', plan, h1, h2, h3, h4, -⟩ := cop_does (c := .tile l) hl buf tjunk B (hv a ho)
    refine ⟨s', n', plan, h1, fun i hi => ?_, h3, h4⟩
    unfold tileProc
    rw [ho]
    exact h2 i hi

omit [Neg α] in
/-- Only the data of the ranks of the communicator matters. -/
theorem COp.Step.congr {c : Comm} {parts : Nat → Parts} {op : COp} {S S1 S2 : Snap α} (h : op.Step c parts S S1)
    (hs : S1.Same c S2) : op.Step c parts S S2 := by
  cases op with
  | scatter q g =>
    obtain ⟨h1, h2, v, h3, h4⟩ := h
    refine ⟨hs.glob.trans h1, hs.gtime.trans h2, v, h3, fun r hr => ?_⟩
    rw [hs.mem r hr, hs.time r hr]
    exact h4 r hr
  | gather q g =>
    obtain ⟨h1, h2, h3, h4⟩ := h
    refine ⟨fun r hr => ?_, hs.gtime.trans h2, ?_, ?_⟩
    · rw [hs.mem r hr, hs.time r hr]
      exact h1 r hr
    · rw [hs.glob]; exact h3
    · rw [hs.glob]; exact h4
  | scatterState i j vars =>
    obtain ⟨h1, h2, h3⟩ := h
    refine ⟨hs.glob.trans h1, hs.gtime.trans h2, fun r hr => ?_⟩
    rw [hs.mem r hr, hs.time r hr]
    exact h3 r hr
  | gatherState i j vars =>
    obtain ⟨h1, h2, h3, h4, h5⟩ := h
    refine ⟨fun r hr => ?_, ?_, ?_, ?_, ?_⟩
    · rw [hs.mem r hr, hs.time r hr]
      exact h1 r hr
    · rw [hs.gtime]; exact h2
    · rw [hs.gtime]; exact h3
    · rw [hs.glob]; exact h4
    · rw [hs.glob]; exact h5

theorem tiles_exec {l : Layout} (hl : FloatSafe l) {junk tjunk : Nat → List Nat → α} {o : Int → Option COp} {r : Int}
    (hr : r ∈ allRanks l) {s : TileState α} : (UOp.tiles o).exec l junk tjunk r s =
      (((tileProc l tjunk o (r / l.tileRanks) (r % l.tileRanks) s.view).retag (.inTile (r / l.tileRanks))).renumber
        fun i => r / l.tileRanks * l.tileRanks + i).bind fun x => match x with
          | .error e => .ret (.error e)
          | .ok v => .ret (.ok (s.after v)) := by
  have hn : 0 < l.tileRanks := tileRanks_pos hl.ypos hl.xpos
  have hr := mem_allRanks.1 hr
  unfold UOp.exec tileProc
  dsimp only
  rw [tileColor_eq hl.ypos hl.xpos, tileCommRank_eq hl.ypos hl.xpos hr.1 hr.2]
  cases o (r / l.tileRanks) with
  | none => rfl
  | some a =>
    dsimp only
    rw [Proc.renumber_congr (g := tileMember l r) (h := fun i => r / l.tileRanks * l.tileRanks + i)
      (P := fun d => 0 ≤ d ∧ d < l.tileRanks) (fun i hi => tileMember_eq hl.ypos hl.xpos hr.1 hr.2 hi.1 hi.2) _
      (Proc.retag_within (COp.exec_within (c := .tile l) hn _ _ _ _) _)]
    congr 1

/-- The ranks of the tiles call their tile communicators. -/
theorem tiles_run {l : Layout} (hl : FloatSafe l) (buf : Buffering) (junk tjunk : Nat → List Nat → α)
    {mem : Int → Mem α} {parts : Nat → Parts} {tparts : Int → Nat → Parts} {filled : List Nat}
    {tfilled : Int → List Nat} {k n : Nat} {tn : Int → Nat} {s : Int → TileState α}
    (B : UBetween l mem parts tparts filled tfilled k n tn s) {o : Int → Option COp}
    (hv : (UOp.tiles o : UOp α).Valid l mem parts tparts filled tfilled)
    {sent : Int → Int → Tag → List (Msg α)} {rcvd : Int → Int → Tag → Nat}
    (hc : Net.CleanOn (ULater k n tn) sent rcvd) :
    UOpRuns buf l junk tjunk mem parts tparts filled tfilled k (.tiles o) s sent rcvd := by
  have hn : 0 < l.tileRanks := tileRanks_pos hl.ypos hl.xpos
  have hsz : (Comm.tile l).size = l.tileRanks := rfl
  have hranks : ∀ r, r ∈ allRanks l ↔ 0 ≤ r ∧ r < 6 * l.tileRanks := fun r => mem_allRanks
  have htr : ∀ i, i ∈ (Comm.tile l).ranks ↔ 0 ≤ i ∧ i < l.tileRanks := fun i => mem_ranks (.tile l) i
  generalize hN : l.tileRanks = N at *
  have hin : ∀ t, 0 ≤ t → t < 6 → ∀ i, 0 ≤ i → i < N → t * N + i ∈ allRanks l := by
    intro t t0 t6 i i0 i1
    refine (hranks _).2 ⟨?_, ?_⟩
    · have := Int.mul_nonneg t0 (Int.le_of_lt hn)
      omega
    · have := Int.mul_le_mul_of_nonneg_right (show t ≤ 5 by omega) (Int.le_of_lt hn)
      omega
  have hdo : ∀ t : Int, ∃ (s' : Int → SessState α) (n' : Nat) (plan : Int → List (Nat × Act (Msg α))), 0 ≤ t ∧ t < 6 → _ :=
    fun t => by
      by_cases h : 0 ≤ t ∧ t < 6
      · obtain ⟨a, b, c, d⟩ := tileProc_does hl (tileBuf N buf t) tjunk (B.tile t h.1 h.2) o t (hv t h.1 h.2)
        exact ⟨a, b, c, fun _ => d⟩
      · exact ⟨fun _ => ⟨⟨mem 0, fun _ => none, 0, 0⟩, fun _ => none, fun _ => none⟩, 0, fun _ => [], fun h' => absurd h' h⟩
  choose v' tn' plans hdo using hdo
  have hplan : Plan buf (allRanks l) (groupPlan N (allRanks l) plans) := by
    refine groupPlan_ok hn hranks htr (fun t t0 t6 => (hdo t ⟨t0, t6⟩).1.ok) (fun t t0 t6 i j a ha => ?_)
      fun t t0 t6 i j a ha => ?_
    · have hi : i ∈ (Comm.tile l).ranks := by
        by_contra h
        rw [(hdo t ⟨t0, t6⟩).1.ok.idle i h] at ha
        cases ha
      have hw : (tileProc l tjunk o t i ((s (t * l.tileRanks + i)).view)).Within fun d => 0 ≤ d ∧ d < N := by
        unfold tileProc
        cases o t with
        | none => trivial
        | some a =>
          have := COp.exec_within (c := .tile l) (by omega) tjunk i a (s (t * l.tileRanks + i)).view
          rwa [hsz] at this
      exact ((hdo t ⟨t0, t6⟩).2.1 i hi).within hw a (List.mem_map.2 ⟨_, ha, rfl⟩)
    · obtain ⟨m, hm, -⟩ := (hdo t ⟨t0, t6⟩).1.tag i _ _ ha
      exact ⟨m, hm⟩
  have htag : ∀ r j a, (j, a) ∈ groupPlan N (allRanks l) plans r →
      ∃ c i, a.tag = .tile c i ∧ (0 ≤ c ∧ c < 6) ∧ tn c ≤ i ∧ i < tn' c := by
    intro r j a ha
    unfold groupPlan at ha
    split at ha
    · next hr =>
      obtain ⟨⟨j', a'⟩, hm, e⟩ := List.mem_map.1 ha
      have hr := (hranks r).1 hr
      have hd := div_range hn hr.1 hr.2
      obtain ⟨i, h1, h2⟩ := (hdo (r / N) hd).1.tag _ _ _ hm
      refine ⟨r / N, i, ?_, hd, h2⟩
      cases e
      have : (a'.move (fun i => r / N * N + i) (Tag.inTile (r / N))).tag = a'.tag.inTile (r / N) := by cases a' <;> rfl
      rw [this, h1]
      rfl
    · cases ha
  let s' : Int → TileState α := fun r => if r ∈ allRanks l then (s r).after (v' (r / N) (r % N)) else s r
  have hs' : ∀ t, 0 ≤ t → t < 6 → ∀ i, 0 ≤ i → i < N → s' (t * N + i) = (s (t * N + i)).after (v' t i) := by
    intro t t0 t6 i i0 i1
    dsimp only [s']
    obtain ⟨e1, e2⟩ := group_div (g := t) hn i0 i1
    rw [if_pos (hin t t0 t6 i i0 i1), e1, e2]
  have hkeep : ∀ r, (s' r).base.s.glob = (s r).base.s.glob ∧ (s' r).base.gtime = (s r).base.gtime ∧
      (s' r).base.s.tag = (s r).base.s.tag ∧ (s' r).base.s.coll = (s r).base.s.coll := by
    intro r
    dsimp only [s']
    split <;> exact ⟨rfl, rfl, rfl, rfl⟩
  have hview : ∀ t, 0 ≤ t → t < 6 → (snapOf (v' t)).Same (.tile l) (snapOf fun i => (s' (t * N + i)).view) := by
    intro t t0 t6
    have hz := hs' t t0 t6 0 (by omega) hn
    refine ⟨fun i hi => ?_, ?_, fun i hi => ?_, ?_⟩
    · show (s' (t * N + i)).view.s.mem = _
      rw [hs' t t0 t6 i ((htr i).1 hi).1 ((htr i).1 hi).2]
      rfl
    · show (s' (t * N + 0)).view.s.glob = _
      rw [hz]
      rfl
    · show (s' (t * N + i)).view.time = _
      rw [hs' t t0 t6 i ((htr i).1 hi).1 ((htr i).1 hi).2]
      rfl
    · show (s' (t * N + 0)).view.gtime = _
      rw [hz]
      rfl
  have hle : ∀ t, 0 ≤ t ∧ t < 6 → tn t ≤ tn' t := fun t h => (hdo t h).1.le
  have hreal : ∀ r, Real (uopProcs l junk tjunk (.tiles o) s r) ((groupPlan N (allRanks l) plans r).map (·.2))
      (if r ∈ allRanks l then some (.ok (s' r)) else none) := by
    intro r
    unfold uopProcs groupPlan
    by_cases hr : r ∈ allRanks l
    · obtain ⟨r0, r6⟩ := (hranks r).1 hr
      have hd := div_range hn r0 r6
      have hm : 0 ≤ r % N ∧ r % N < N := ⟨Int.emod_nonneg _ (by omega), Int.emod_lt_of_pos _ hn⟩
      have he : r / N * N + r % N = r := by
        have := Int.emod_add_mul_ediv r N
        rw [Int.mul_comm] at this
        omega
      rw [if_pos hr, if_pos hr, if_pos hr, tiles_exec hl hr]
      have h := (hdo (r / N) hd).2.1 (r % N) ((htr _).2 hm)
      rw [hN, he] at h
      rw [hN]
      have := Real.bind (f := fun x : Py (SessState α) => (match x with
          | .error e => (.ret (some (.error e)) : Proc (Msg α) (Option (Py (TileState α))))
          | .ok v => .ret (some (.ok ((s r).after v)))))
        (h.move (fun i => r / N * N + i) (.inTile (r / N))) (Real.ret _)
      have e' : s' r = (s r).after (v' (r / N) (r % N)) := by
        dsimp only [s']
        rw [if_pos hr]
      rw [List.append_nil] at this
      rw [Proc.bind_bind, e']
      refine cast ?_ this
      congr 1
      · congr 1
        funext x
        cases x <;> rfl
      · rw [List.map_map, List.map_map]
        rfl
    · rw [if_neg hr, if_neg hr, if_neg hr]
      exact .ret _
  obtain ⟨sched, T, t1, t2, t3⟩ := hplan.settles_other
    (A := fun t => ∃ c i, t = .tile c i ∧ (0 ≤ c ∧ c < 6) ∧ tn c ≤ i ∧ i < tn' c) htag
    (N := ⟨uopProcs l junk tjunk (.tiles o) s, sent, rcvd⟩)
    (res := fun r => if r ∈ allRanks l then some (.ok (s' r)) else none) (dn := fun _ => [])
    (td := groupPlan N (allRanks l) plans)
    ⟨fun r => rfl, hreal, fun s n d t m h => by simp at h,
      fun s n d t m h => by
        obtain ⟨c, i, e, -, h, -⟩ := htag _ _ _ h
        exact hc.sent s d t (.inr ⟨c, i, e, h⟩),
      fun s n d t m h => by simp at h,
      fun d n s t m h => by
        obtain ⟨c, i, e, -, h, -⟩ := htag _ _ _ h
        exact hc.rcvd s d t (.inr ⟨c, i, e, h⟩)⟩
  have hother : ∀ t, ULater k n (fun c => if 0 ≤ c ∧ c < 6 then tn' c else tn c) t →
      ULater k n tn t ∧ ∀ a b, T.sent a b t = sent a b t ∧ T.rcvd a b t = rcvd a b t := by
    intro t ht
    refine ⟨?_, t3 t ?_⟩
    · rcases ht with ht | ⟨c, i, rfl, h⟩
      · exact .inl ht
      · refine .inr ⟨c, i, rfl, ?_⟩
        dsimp only at h
        split at h
        · next hh => have := hle c hh; omega
        · exact h
    · rintro ⟨c, i, rfl, hh, h1, h2⟩
      rcases ht with (⟨j, e, -⟩ | ⟨j, e, -⟩) | ⟨c', j, e, h⟩
      · cases e
      · cases e
      · cases e
        dsimp only at h
        rw [if_pos hh] at h
        omega
  refine ⟨s', n, fun c => if 0 ≤ c ∧ c < 6 then tn' c else tn c, sched, T, t1, t2,
    ⟨fun a b t ht => ?_, fun a b t ht => ?_⟩, ⟨?_, ?_, fun t t0 t6 => ?_⟩, ⟨⟨fun r hr => ?_, fun r hr => ?_, fun r hr => ?_, ?_, ?_⟩,
      fun t t0 t6 => ?_⟩⟩
  · rw [((hother t ht).2 a b).1]; exact hc.sent a b t (hother t ht).1
  · rw [((hother t ht).2 a b).2]; exact hc.rcvd a b t (hother t ht).1
  · exact (hkeep 0).1
  · exact (hkeep 0).2.1
  · rw [ofTile_cubeSnapOf, ofTile_cubeSnapOf, hN]
    have h3 := (hdo t ⟨t0, t6⟩).2.2.1
    have hsame := hview t t0 t6
    rw [hN] at h3
    cases ho : o t with
    | none =>
      rw [ho] at h3
      exact ⟨fun r hr => (hsame.mem r hr).trans (h3.mem r hr), hsame.glob.trans h3.glob,
        fun r hr => (hsame.time r hr).trans (h3.time r hr), hsame.gtime.trans h3.gtime⟩
    | some a =>
      rw [ho] at h3
      exact h3.congr hsame
  · have hr' := (hranks r).1 hr
    have hd := div_range hn hr'.1 hr'.2
    have hm : r % N ∈ (Comm.tile l).ranks := (htr _).2 ⟨Int.emod_nonneg _ (by omega), Int.emod_lt_of_pos _ hn⟩
    have he : r / N * N + r % N = r := by
      have := Int.emod_add_mul_ediv r N
      rw [Int.mul_comm] at this
      omega
    have := (hdo (r / N) hd).2.2.2.same (r % N) hm
    have e : (s' r).base.s.mem = (v' (r / N) (r % N)).s.mem := by
      dsimp only [s']
      rw [if_pos hr]
      rfl
    rw [e]
    rw [hN] at this
    intro q
    have := this q
    dsimp only at this
    rwa [he] at this
  · rw [(hkeep r).2.2.1]; exact B.base.tag r hr
  · rw [(hkeep r).2.2.2]; exact B.base.coll r hr
  · rw [(hkeep 0).1]; exact B.base.shaped
  · rw [(hkeep 0).1]; exact B.base.filled
  · have h4 := (hdo t ⟨t0, t6⟩).2.2.2
    have hz := hs' t t0 t6 0 (by omega) hn
    rw [hN] at h4 ⊢
    rw [if_pos ⟨t0, t6⟩]
    refine ⟨fun i hi => ?_, fun i hi => ?_, ?_, ?_⟩
    · rw [hs' t t0 t6 i ((htr i).1 hi).1 ((htr i).1 hi).2]; exact h4.same i hi
    · rw [hs' t t0 t6 i ((htr i).1 hi).1 ((htr i).1 hi).2]; exact h4.coll i hi
    · rw [hz]; exact h4.shaped
    · rw [hz]; exact h4.filled

theorem uop_runs {l : Layout} (hl : FloatSafe l) (hsq : l.y = l.x) (buf : Buffering) (junk tjunk : Nat → List Nat → α)
    {mem : Int → Mem α} {parts : Nat → Parts} {tparts : Int → Nat → Parts} {filled : List Nat}
    {tfilled : Int → List Nat} {k n : Nat} {tn : Int → Nat} {s : Int → TileState α}
    (B : UBetween l mem parts tparts filled tfilled k n tn s) {op : UOp α}
    (hv : op.Valid l mem parts tparts filled tfilled)
    {sent : Int → Int → Tag → List (Msg α)} {rcvd : Int → Int → Tag → Nat}
    (hc : Net.CleanOn (ULater k n tn) sent rcvd) :
    UOpRuns buf l junk tjunk mem parts tparts filled tfilled k op s sent rcvd := by
  cases op with
  | op o => exact cube_runs hl hsq buf junk tjunk B hv hc
  | tiles o => exact tiles_run hl buf junk tjunk B hv hc

/-- All calls. -/
theorem tiles_from {l : Layout} (hl : FloatSafe l) (hsq : l.y = l.x) (buf : Buffering) (junk tjunk : Nat → List Nat → α)
    {mem : Int → Mem α} {parts : Nat → Parts} {tparts : Int → Nat → Parts} {ops : List (UOp α)} {filled : List Nat}
    {tfilled : Int → List Nat} {k n : Nat} {tn : Int → Nat} {s : Int → TileState α}
    (B : UBetween l mem parts tparts filled tfilled k n tn s) (hv : TilesValid l mem parts tparts filled tfilled ops)
    {sent : Int → Int → Tag → List (Msg α)} {rcvd : Int → Int → Tag → Nat}
    (hc : Net.CleanOn (ULater k n tn) sent rcvd) :
    ∃ fin : Int → TileState α, (⟨fun r => if r ∈ allRanks l then
          (execTiles l junk tjunk r ops (s r)).bind fun x => .ret (some x) else .ret none, sent, rcvd⟩ :
            Net (Msg α) _).Completes buf (fun r => if r ∈ allRanks l then some (.ok (fin r)) else none) ∧
      TilesRun l parts tparts ops (cubeSnapOf l s) (cubeSnapOf l fin) ∧
      ∀ r ∈ allRanks l, MetaIs mem r (fin r).base.s.mem := by
  induction ops generalizing s filled tfilled k n tn sent rcvd with
  | nil =>
    refine ⟨s, Net.completes_of_run (sched := []) rfl fun r => ?_,
      ⟨⟨fun _ _ => rfl, rfl, fun _ _ => rfl, rfl⟩, fun _ _ _ => ⟨rfl, rfl⟩⟩, B.base.same⟩
    dsimp only
    split <;> rfl
  | cons op ops ih =>
    obtain ⟨v1, v2⟩ := hv
    obtain ⟨s', n', tn', sched, T, b1, b2, hc', a2, a3⟩ := uop_runs hl hsq buf junk tjunk B v1 hc
    have hfill : TilesValid l mem parts tparts (op.fills filled) (op.tfills tfilled) ops := by
      cases op with
      | op o =>
        cases o with
        | op o => cases o <;> exact v2
        | _ => exact v2
      | tiles o => exact v2
    obtain ⟨fin, c1, c2, c3⟩ := ih (s := s') a3 hfill hc'
    refine ⟨fin, ?_, ⟨_, a2, c2⟩, c3⟩
    let K : Int → Option (Py (TileState α)) → Proc (Msg α) (Option (Py (TileState α))) := fun r x =>
      match x with
      | none => .ret none
      | some (.error e) => .ret (some (.error e))
      | some (.ok s') => (execTiles l junk tjunk r ops s').bind fun x => .ret (some x)
    have := Net.Completes.andThen (K := K) b1 b2 (out := fun r =>
      if r ∈ allRanks l then some (.ok (fin r)) else none) (by
        refine cast ?_ c1
        congr 2
        funext r
        by_cases hr : r ∈ allRanks l
        · simp only [if_pos hr]
          rfl
        · simp only [if_neg hr]
          rfl)
    refine cast ?_ this
    congr 1
    unfold Net.andThen
    congr 1
    funext r
    dsimp only [uopProcs]
    by_cases hr : r ∈ allRanks l
    · simp only [if_pos hr]
      show _ = ((op.exec l junk tjunk r (s r)).bind _).bind _
      rw [Proc.bind_bind, Proc.bind_bind]
      congr 1
      funext y
      cases y <;> rfl
    · simp only [if_neg hr]
      rfl

end FV3
