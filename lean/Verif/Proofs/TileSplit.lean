import Verif.Proofs.TileSession
import Verif.Spec.TileSplit

/-!
# Making the tile communicators
-/

namespace FV3
variable {α : Type}

/-- Colours and keys of all ranks. -/
def allKeys (size : Int) (col key : Int → Int) : List (Int × Int) :=
  (List.range size.toNat).map fun i => (col (i : Nat), key (i : Nat))

theorem allKeys_root {size : Int} (h : 0 < size) (col key : Int → Int) :
    allKeys size col key = (col 0, key 0) :: ((clients size).map fun r => [(col r, key r)]).flatten := by
  have e : size.toNat = (size.toNat - 1) + 1 := by omega
  unfold allKeys clients
  rw [e, List.range_succ_eq_map, List.map_cons, List.map_map, List.map_map, Nat.add_sub_cancel]
  congr 1
  induction List.range (size.toNat - 1) with
  | nil => rfl
  | cons a as ih => simp only [List.map_cons, List.flatten_cons, ih]; rfl

theorem mapM_asKeys (f : Int → List (Int × Int)) (rs : List Int) :
    (rs.map fun r => (Msg.keys (f r) : Msg α)).mapM Msg.asKeys = .ok (rs.map f) := by
  induction rs with
  | nil => rfl
  | cons r rs ih => rw [List.map_cons, List.mapM_cons, ih]; rfl

/-- All ranks call `Split`: each learns the colours and keys of all. -/
theorem split_does (buf : Buffering) {c : Comm} (h : 0 < c.size) (col key : Int → Int) (n : Nat) :
    AllDo (α := α) buf c (fun r => splitCall c.size r (col r) (key r)) n (n + 2)
      fun _ => .ok (allKeys c.size col key) := by
  refine ⟨_, (collectPlan_seg buf c h n fun r => .keys [(col r, key r)]).append
    (distPlan_seg buf c h (n + 1) fun _ => .keys (allKeys c.size col key)), fun r hr => ?_⟩
  have hr := (mem_ranks c r).1 hr
  show RealC (splitCall c.size r (col r) (key r)) n _ (.ok _) (n + 2)
  unfold splitCall
  by_cases h0 : r = 0
  · subst h0
    rw [if_pos (show (0 : Int) = ROOT_RANK from rfl)]
    refine RealC.bind (rootRecvs_real c.size (fun r => .keys [(col r, key r)]) n)
      (RealC.lift_bind (mapM_asKeys (fun r => [(col r, key r)]) (clients c.size)) ?_)
    rw [← allKeys_root h]
    exact RealC.map_pure (f := fun _ => allKeys c.size col key)
      (rootSends_real c.size (fun _ => .keys (allKeys c.size col key)) (n + 1))
  · rw [if_neg (show ¬ r = ROOT_RANK from h0)]
    refine RealC.bind (clientSends_real c.size (fun r => .keys [(col r, key r)]) n r (by omega)) ?_
    exact RealC.bind_end (clientRecvs_real c.size (fun _ => .keys (allKeys c.size col key)) (n + 1) r (by omega))
      (RealC.lift _ _)

/-! ### The communicators that are made -/

/-- Colours and keys of the tile communicators. -/
def tileKeys (l : Layout) : List (Int × Int) := allKeys l.cubeRanks (tileColor l) fun r => r

theorem tileKeys_length (l : Layout) : ((tileKeys l).length : Int) = l.cubeRanks.toNat := by
  unfold tileKeys allKeys
  rw [List.length_map, List.length_range]

theorem tileKeys_getD {l : Layout} {r : Int} (h0 : 0 ≤ r) (h6 : r < l.cubeRanks) :
    (tileKeys l).getD r.toNat (-1, 0) = (tileColor l r, r) := by
  unfold tileKeys allKeys
  rw [List.getD_eq_getElem?_getD, List.getElem?_map, List.getElem?_range (by omega)]
  have e : ((r.toNat : Nat) : Int) = r := by omega
  simp only [Option.map_some, Option.getD_some, e]

theorem splitMembers_congr {size : Int} {col col' : Int → Int} {r : Int} (h : ∀ i, 0 ≤ i → i < size → col i = col' i)
    (h0 : 0 ≤ r) (hr : r < size) : splitMembers size col r = splitMembers size col' r := by
  unfold splitMembers
  refine List.filter_congr fun x hx => ?_
  obtain ⟨i, hi, rfl⟩ := List.mem_map.1 hx
  rw [List.mem_range] at hi
  rw [h (Int.ofNat i) (Int.natCast_nonneg i) (by show (i : Int) < _; omega), h r h0 hr]

theorem mem_split {size : Int} {col : Int → Int} {r x : Int} (h : x ∈ splitMembers size col r) : 0 ≤ x ∧ x < size := by
  unfold splitMembers at h
  obtain ⟨i, hi, rfl⟩ := List.mem_map.1 (List.mem_of_mem_filter h)
  rw [List.mem_range] at hi
  constructor
  · exact Int.natCast_nonneg i
  · show (i : Int) < _
    omega

theorem find?_congr' {A : Type} {p q : A → Bool} {as : List A} (h : ∀ a ∈ as, p a = q a) : as.find? p = as.find? q := by
  induction as with
  | nil => rfl
  | cons a as ih =>
    rw [List.find?_cons, List.find?_cons, h a (List.mem_cons_self ..), ih fun b hb => h b (List.mem_cons_of_mem _ hb)]

theorem groupColor_tile {l : Layout} {r : Int} (h0 : 0 ≤ r) (h6 : r < l.cubeRanks) :
    groupColor (tileKeys l) r = tileColor l r := by
  unfold groupColor
  rw [tileKeys_getD h0 h6]

theorem groupRank_tile {l : Layout} {r : Int} (h0 : 0 ≤ r) (h6 : r < l.cubeRanks) :
    groupRank (tileKeys l) r = tileCommRank l r := by
  unfold groupRank tileCommRank splitRank
  have e : ((tileKeys l).length : Int) = l.cubeRanks := by rw [tileKeys_length]; omega
  rw [e, splitMembers_congr (fun i hi hi' => groupColor_tile hi hi') h0 h6]
  congr 1
  congr 1
  refine List.filter_congr fun x hx => ?_
  have hx := mem_split hx
  unfold groupKey
  rw [tileKeys_getD h0 h6, tileKeys_getD hx.1 hx.2]

theorem groupMember_tile {l : Layout} {r : Int} (h0 : 0 ≤ r) (h6 : r < l.cubeRanks) :
    groupMember (tileKeys l) r = tileMember l r := by
  funext i
  unfold groupMember tileMember
  have e : ((tileKeys l).length : Int) = l.cubeRanks := by rw [tileKeys_length]; omega
  rw [e, splitMembers_congr (fun i hi hi' => groupColor_tile hi hi') h0 h6]
  congr 1
  refine find?_congr' fun x hx => ?_
  have hx := mem_split hx
  rw [groupRank_tile hx.1 hx.2]

/-! ### Sessions -/

variable [Neg α]

/-- Rank `r` does not have to make its tile communicator for the call. -/
def NoNew (l : Layout) (r : Int) (op : UOp α) (k : Option (List (Int × Int))) : Prop :=
  k = some (tileKeys l) ∨ ∀ o, op = .tiles o → o (tileColor l r) = none

/-- The rank's result with the tile communicator. -/
def keepTile (k : Option (List (Int × Int))) (x : Py (TileState α)) : Proc (Msg α) (Py (LazyState α)) :=
  .ret (match x with
    | .error e => .error e
    | .ok s => .ok ⟨s, k⟩)

theorem execLazy_noNew {l : Layout} (junk tjunk : Nat → List Nat → α) {r : Int} (h0 : 0 ≤ r) (h6 : r < l.cubeRanks)
    {op : UOp α} {k : Option (List (Int × Int))} (h : NoNew l r op k) (s : TileState α) :
    op.execLazy l junk tjunk r ⟨s, k⟩ = (op.exec l junk tjunk r s).bind (keepTile k) := by
  cases op with
  | op o =>
    simp only [UOp.execLazy, UOp.exec]
    rw [Proc.bind_bind]
    congr 1
    funext x
    cases x <;> rfl
  | tiles o =>
    simp only [UOp.execLazy, UOp.exec]
    cases ho : o (tileColor l r) with
    | none => rfl
    | some a =>
      have hk : k = some (tileKeys l) := h.resolve_right fun h => by rw [h o rfl] at ho; cases ho
      subst hk
      simp only [LazyState.getTile, Proc.bind]
      rw [groupRank_tile h0 h6, groupColor_tile h0 h6, groupMember_tile h0 h6, Proc.bind_bind]
      congr 1
      funext x
      cases x <;> rfl

theorem execLazy_made {l : Layout} (junk tjunk : Nat → List Nat → α) {r : Int} (h0 : 0 ≤ r) (h6 : r < l.cubeRanks)
    (ops : List (UOp α)) (s : TileState α) :
    execLazy l junk tjunk r ops ⟨s, some (tileKeys l)⟩ =
      (execTiles l junk tjunk r ops s).bind (keepTile (some (tileKeys l))) := by
  induction ops generalizing s with
  | nil => rfl
  | cons op ops ih =>
    unfold execLazy execTiles
    rw [execLazy_noNew junk tjunk h0 h6 (.inl rfl), Proc.bind_bind, Proc.bind_bind]
    congr 1
    funext x
    cases x with
    | error e => rfl
    | ok s' => exact ih s'

/-- All ranks make one call. -/
def lazyProcs (l : Layout) (junk tjunk : Nat → List Nat → α) (op : UOp α) (s : Int → LazyState α) (r : Int) :
    Proc (Msg α) (Option (Py (LazyState α))) :=
  if r ∈ allRanks l then (op.execLazy l junk tjunk r (s r)).bind fun x => .ret (some x) else .ret none

/-- The other calls, after one. -/
def lazyRest (l : Layout) (junk tjunk : Nat → List Nat → α) (ops : List (UOp α)) (r : Int) :
    Option (Py (LazyState α)) → Proc (Msg α) (Option (Py (LazyState α)))
  | none => .ret none
  | some (.error e) => .ret (some (.error e))
  | some (.ok s) => (execLazy l junk tjunk r ops s).bind fun x => .ret (some x)

/-- The ranks make their tile communicators. -/
def splitProcs (l : Layout) (s : Int → TileState α) (r : Int) : Proc (Msg α) (Option (Py (LazyState α))) :=
  if r ∈ allRanks l then (LazyState.getTile l r ⟨s r, none⟩).bind fun y => .ret (some (y.map (·.2))) else .ret none

/-- The state of a rank after making the tile communicator. -/
def TileState.split (s : TileState α) (n : Nat) : TileState α :=
  { s with base := { s.base with s := { s.base.s with coll := n } } }

omit [Neg α] in
theorem split_runs {l : Layout} (hl : FloatSafe l) (buf : Buffering)
    {mem : Int → Mem α} {parts : Nat → Parts} {tparts : Int → Nat → Parts} {filled : List Nat}
    {tfilled : Int → List Nat} {k n : Nat} {tn : Int → Nat} {s : Int → TileState α}
    (B : UBetween l mem parts tparts filled tfilled k n tn s)
    {sent : Int → Int → Tag → List (Msg α)} {rcvd : Int → Int → Tag → Nat}
    (hc : Net.CleanOn (ULater k n tn) sent rcvd) :
    ∃ (sched : List Int) (T : Net (Msg α) (Option (Py (LazyState α)))),
      (⟨splitProcs l s, sent, rcvd⟩ : Net _ _).run buf sched = some T ∧
      (∀ r, T.procs r = .ret (if r ∈ allRanks l then some (.ok ⟨(s r).split (n + 2), some (tileKeys l)⟩) else none)) ∧
      Net.CleanOn (ULater k (n + 2) tn) T.sent T.rcvd ∧
      UBetween l mem parts tparts filled tfilled k (n + 2) tn fun r => (s r).split (n + 2) := by
  have hn : 0 < l.tileRanks := tileRanks_pos hl.ypos hl.xpos
  have hs : 0 < (Comm.cube l).size := by
    have e : (Comm.cube l).size = 6 * l.tileRanks := rfl
    omega
  obtain ⟨plan, h1, h2⟩ := split_does (α := α) buf hs (tileColor l) (fun r => r) n
  obtain ⟨sched, T, t1, t2, t3⟩ := h1.phase (procs := splitProcs l s)
    (res := fun r => if r ∈ allRanks l then some (.ok ⟨(s r).split (n + 2), some (tileKeys l)⟩) else none) (by
      intro r
      unfold splitProcs
      by_cases hm : r ∈ allRanks l
      · rw [if_pos hm, if_pos hm]
        unfold LazyState.getTile
        dsimp only
        rw [B.base.coll r hm, Proc.bind_bind]
        have := Real.bind (f := fun x : Py (List (Int × Int)) × Nat =>
          Proc.ret (match x.1 with
            | .error e => some (Except.error e)
            | .ok ks => some (Except.ok (ε := PyErr) (⟨(s r).split x.2, some ks⟩ : LazyState α))))
            (h2 r ((cube_ranks l r).2 hm)) (Real.ret (M := Msg α) _)
        rw [List.append_nil] at this
        refine cast ?_ this
        congr 2
        funext x
        obtain ⟨x, m⟩ := x
        cases x <;> rfl
      · rw [if_neg hm, if_neg hm, h1.ok.idle r fun h => hm ((cube_ranks l r).1 h)]
        exact .ret _) (sent := sent) (rcvd := rcvd)
    ⟨fun a b t ⟨i, e, h1, h2⟩ => hc.sent a b t (.inl (.inr ⟨i, e, h1⟩)),
      fun a b t ⟨i, e, h1, h2⟩ => hc.rcvd a b t (.inl (.inr ⟨i, e, h1⟩))⟩
  refine ⟨sched, T, t1, t2, t3 _ ?_ ⟨fun a b t ht => hc.sent a b t ?_, fun a b t ht => hc.rcvd a b t ?_⟩,
    ⟨⟨B.base.same, B.base.tag, fun _ _ => rfl, B.base.shaped, B.base.filled⟩, fun t t0 t6 => ?_⟩⟩
  · rintro t ((⟨i, rfl, -⟩ | ⟨i, rfl, h⟩) | ⟨c, i, rfl, -⟩) ⟨j, e, h1, h2⟩
    · cases e
    · cases e
      omega
    · cases e
  · exact ht.imp (fun h => h.mono (Nat.le_refl _) (by omega)) id
  · exact ht.imp (fun h => h.mono (Nat.le_refl _) (by omega)) id
  · exact B.tile t t0 t6

/-- `communicator.tile` is made before the call. -/
theorem execLazy_split {l : Layout} (junk tjunk : Nat → List Nat → α) {r : Int} {o : Int → Option COp}
    (ho : o (tileColor l r) ≠ none) (ops : List (UOp α)) (s : TileState α) :
    execLazy l junk tjunk r (.tiles o :: ops) ⟨s, none⟩ =
      (LazyState.getTile l r ⟨s, none⟩).bind fun y =>
        match y with
        | .error e => .ret (.error e)
        | .ok y => execLazy l junk tjunk r (.tiles o :: ops) y.2 := by
  cases ha : o (tileColor l r) with
  | none => exact absurd ha ho
  | some a =>
    simp only [execLazy, UOp.execLazy, ha]
    simp only [LazyState.getTile]
    rw [Proc.bind_bind, Proc.bind_bind, Proc.bind_bind]
    congr 1
    funext x
    obtain ⟨x, m⟩ := x
    cases x <;> rfl

/-- All calls after the tile communicators were made. -/
theorem lazy_made {l : Layout} (hl : FloatSafe l) (hsq : l.y = l.x) (buf : Buffering) (junk tjunk : Nat → List Nat → α)
    {mem : Int → Mem α} {parts : Nat → Parts} {tparts : Int → Nat → Parts} {ops : List (UOp α)} {filled : List Nat}
    {tfilled : Int → List Nat} {k n : Nat} {tn : Int → Nat} {s : Int → TileState α}
    (B : UBetween l mem parts tparts filled tfilled k n tn s) (hv : TilesValid l mem parts tparts filled tfilled ops)
    {sent : Int → Int → Tag → List (Msg α)} {rcvd : Int → Int → Tag → Nat}
    (hc : Net.CleanOn (ULater k n tn) sent rcvd) :
    ∃ fin : Int → TileState α, (⟨fun r => if r ∈ allRanks l then
          (execLazy l junk tjunk r ops ⟨s r, some (tileKeys l)⟩).bind fun x => .ret (some x) else .ret none, sent, rcvd⟩ :
            Net (Msg α) _).Completes buf
              (fun r => if r ∈ allRanks l then some (.ok ⟨fin r, some (tileKeys l)⟩) else none) ∧
      TilesRun l parts tparts ops (cubeSnapOf l s) (cubeSnapOf l fin) ∧
      ∀ r ∈ allRanks l, MetaIs mem r (fin r).base.s.mem := by
  obtain ⟨fin, h1, h2, h3⟩ := tiles_from hl hsq buf junk tjunk B hv hc
  refine ⟨fin, ?_, h2, h3⟩
  have := h1.map fun _ x => x.map fun y => y.map fun z => (⟨z, some (tileKeys l)⟩ : LazyState α)
  refine cast ?_ this
  congr 1
  · unfold Net.andThen
    congr 1
    funext r
    dsimp only
    by_cases hr : r ∈ allRanks l
    · have hr' := mem_allRanks.1 hr
      rw [if_pos hr, if_pos hr, execLazy_made junk tjunk hr'.1 hr'.2, Proc.bind_bind, Proc.bind_bind]
      congr 1
      funext x
      cases x <;> rfl
    · rw [if_neg hr, if_neg hr]
      rfl
  · funext r
    split <;> rfl

/-- The calls do not use `communicator.tile`. -/
def NoUse (ops : List (UOp α)) : Prop := ∀ o, UOp.tiles o ∈ ops → ∀ t, 0 ≤ t → t < 6 → o t = none

/-- The calls until `communicator.tile` is used. -/
theorem lazy_pre {l : Layout} (hl : FloatSafe l) (hsq : l.y = l.x) (buf : Buffering) (junk tjunk : Nat → List Nat → α)
    {mem : Int → Mem α} {parts : Nat → Parts} {tparts : Int → Nat → Parts} {pre post : List (UOp α)} {filled : List Nat}
    {tfilled : Int → List Nat} {k n : Nat} {tn : Int → Nat} {s : Int → TileState α}
    (B : UBetween l mem parts tparts filled tfilled k n tn s)
    (hv : TilesValid l mem parts tparts filled tfilled (pre ++ post)) (hno : NoUse pre)
    {sent : Int → Int → Tag → List (Msg α)} {rcvd : Int → Int → Tag → Nat}
    (hc : Net.CleanOn (ULater k n tn) sent rcvd) :
    ∃ (s' : Int → TileState α) (filled' : List Nat) (tfilled' : Int → List Nat) (k' n' : Nat) (tn' : Int → Nat)
      (sched : List Int) (T : Net (Msg α) (Option (Py (LazyState α)))),
      (⟨fun r => if r ∈ allRanks l then (execLazy l junk tjunk r pre ⟨s r, none⟩).bind fun x => .ret (some x)
          else .ret none, sent, rcvd⟩ : Net (Msg α) _).run buf sched = some T ∧
      (∀ r, T.procs r = .ret (if r ∈ allRanks l then some (.ok ⟨s' r, none⟩) else none)) ∧
      Net.CleanOn (ULater k' n' tn') T.sent T.rcvd ∧ UBetween l mem parts tparts filled' tfilled' k' n' tn' s' ∧
      TilesValid l mem parts tparts filled' tfilled' post ∧
      ∀ S, TilesRun l parts tparts post (cubeSnapOf l s') S → TilesRun l parts tparts (pre ++ post) (cubeSnapOf l s) S := by
  induction pre generalizing s filled tfilled k n tn sent rcvd with
  | nil =>
    refine ⟨s, filled, tfilled, k, n, tn, [], _, rfl, fun r => ?_, hc, B, hv, fun S h => h⟩
    dsimp only
    split <;> rfl
  | cons op ops ih =>
    obtain ⟨v1, v2⟩ := hv
    obtain ⟨s1, n1, tn1, sched1, T1, b1, b2, hc1, a2, a3⟩ := uop_runs hl hsq buf junk tjunk B v1 hc
    have hfill : TilesValid l mem parts tparts (op.fills filled) (op.tfills tfilled) (ops ++ post) := by
      cases op with
      | op o =>
        cases o with
        | op o => cases o <;> exact v2
        | _ => exact v2
      | tiles o => exact v2
    obtain ⟨s', filled', tfilled', k', n', tn', sched, T, c1, c2, c3, c4, c5, c6⟩ := ih (s := s1) a3 hfill
      (fun o ho => hno o (List.mem_cons_of_mem _ ho)) hc1
    refine ⟨s', filled', tfilled', k', n', tn', sched1 ++ sched, T, ?_, c2, c3, c4, c5, fun S h => ⟨_, a2, c6 S h⟩⟩
    let K : Int → Option (Py (TileState α)) → Proc (Msg α) (Option (Py (LazyState α))) := fun r x =>
      match x with
      | none => .ret none
      | some (.error e) => .ret (some (.error e))
      | some (.ok s') => (execLazy l junk tjunk r ops ⟨s', none⟩).bind fun x => .ret (some x)
    have r1 := Net.run_andThen K b1
    have e1 : (⟨uopProcs l junk tjunk op s, sent, rcvd⟩ : Net _ _).andThen K =
        ⟨fun r => if r ∈ allRanks l then (execLazy l junk tjunk r (op :: ops) ⟨s r, none⟩).bind fun x => .ret (some x)
          else .ret none, sent, rcvd⟩ := by
      unfold Net.andThen
      congr 1
      funext r
      dsimp only [uopProcs]
      by_cases hr : r ∈ allRanks l
      · have hr' := mem_allRanks.1 hr
        simp only [if_pos hr]
        unfold execLazy
        rw [execLazy_noNew junk tjunk hr'.1 hr'.2 (.inr fun o e => ?_), Proc.bind_bind, Proc.bind_bind, Proc.bind_bind]
        · congr 1
          funext y
          cases y <;> rfl
        · have hn : 0 < l.tileRanks := tileRanks_pos hl.ypos hl.xpos
          rw [tileColor_eq hl.ypos hl.xpos]
          have hd := div_range hn hr'.1 hr'.2
          exact hno o (e ▸ List.mem_cons_self ..) _ hd.1 hd.2
      · simp only [if_neg hr]
        rfl
    have e2 : T1.andThen K = ⟨fun r => if r ∈ allRanks l then
        (execLazy l junk tjunk r ops ⟨s1 r, none⟩).bind fun x => .ret (some x) else .ret none, T1.sent, T1.rcvd⟩ := by
      unfold Net.andThen
      congr 1
      funext r
      rw [b2 r]
      by_cases hr : r ∈ allRanks l
      · simp only [if_pos hr]
        rfl
      · simp only [if_neg hr]
        rfl
    rw [e1] at r1
    rw [e2] at r1
    rw [Net.run_append, r1]
    exact c1

theorem FirstUseTogether.cases {ops : List (UOp α)} (h : FirstUseTogether ops) :
    NoUse ops ∨ ∃ pre o post, ops = pre ++ .tiles o :: post ∧ NoUse pre ∧ ∀ t, 0 ≤ t → t < 6 → o t ≠ none := by
  induction ops with
  | nil => exact .inl fun o ho => by cases ho
  | cons op ops ih =>
    cases op with
    | op x =>
      rcases ih h with h | ⟨pre, o, post, rfl, h1, h2⟩
      · refine .inl fun o ho => ?_
        rcases List.mem_cons.1 ho with e | ho
        · cases e
        · exact h o ho
      · refine .inr ⟨.op x :: pre, o, post, rfl, fun o ho => ?_, h2⟩
        rcases List.mem_cons.1 ho with e | ho
        · cases e
        · exact h1 o ho
    | tiles x =>
      rcases h with h | ⟨h0, h⟩
      · exact .inr ⟨[], x, ops, rfl, (fun o ho => by cases ho), h⟩
      rcases ih h with h | ⟨pre, o, post, rfl, h1, h2⟩
      · refine .inl fun o ho => ?_
        rcases List.mem_cons.1 ho with e | ho
        · cases e
          exact h0
        · exact h o ho
      · refine .inr ⟨.tiles x :: pre, o, post, rfl, fun o ho => ?_, h2⟩
        rcases List.mem_cons.1 ho with e | ho
        · cases e
          exact h0
        · exact h1 o ho

theorem execLazy_append (l : Layout) (junk tjunk : Nat → List Nat → α) (r : Int) (a b : List (UOp α)) (s : LazyState α) :
    execLazy l junk tjunk r (a ++ b) s = (execLazy l junk tjunk r a s).bind fun x =>
      match x with
      | .error e => .ret (.error e)
      | .ok s' => execLazy l junk tjunk r b s' := by
  induction a generalizing s with
  | nil => rfl
  | cons op a ih =>
    show (op.execLazy l junk tjunk r s).bind _ = ((op.execLazy l junk tjunk r s).bind _).bind _
    rw [Proc.bind_bind]
    congr 1
    funext x
    cases x with
    | error e => rfl
    | ok s' => exact ih s'

/-- All calls. -/
theorem lazy_from {l : Layout} (hl : FloatSafe l) (hsq : l.y = l.x) (buf : Buffering) (junk tjunk : Nat → List Nat → α)
    {mem : Int → Mem α} {parts : Nat → Parts} {tparts : Int → Nat → Parts} {ops : List (UOp α)} {filled : List Nat}
    {tfilled : Int → List Nat} {k n : Nat} {tn : Int → Nat} {s : Int → TileState α}
    (B : UBetween l mem parts tparts filled tfilled k n tn s) (hv : TilesValid l mem parts tparts filled tfilled ops)
    (hfirst : FirstUseTogether ops)
    {sent : Int → Int → Tag → List (Msg α)} {rcvd : Int → Int → Tag → Nat}
    (hc : Net.CleanOn (ULater k n tn) sent rcvd) :
    ∃ fin : Int → LazyState α, (⟨fun r => if r ∈ allRanks l then
          (execLazy l junk tjunk r ops ⟨s r, none⟩).bind fun x => .ret (some x) else .ret none, sent, rcvd⟩ :
            Net (Msg α) _).Completes buf (fun r => if r ∈ allRanks l then some (.ok (fin r)) else none) ∧
      TilesRun l parts tparts ops (cubeSnapOf l s) (cubeSnapOf l fun r => (fin r).s) ∧
      ∀ r ∈ allRanks l, MetaIs mem r (fin r).s.base.s.mem := by
  rcases hfirst.cases with hno | ⟨pre, o, post, rfl, hno, ho⟩
  · obtain ⟨s', filled', tfilled', k', n', tn', sched, T, c1, c2, c3, c4, c5, c6⟩ := lazy_pre hl hsq buf junk tjunk B
      (pre := ops) (post := []) (by rwa [List.append_nil]) hno hc
    rw [List.append_nil] at c6
    exact ⟨fun r => ⟨s' r, none⟩, Net.completes_of_run c1 c2,
      c6 _ ⟨⟨fun _ _ => rfl, rfl, fun _ _ => rfl, rfl⟩, fun _ _ _ => ⟨rfl, rfl⟩⟩, c4.base.same⟩
  · obtain ⟨s1, filled1, tfilled1, k1, n1, tn1, sched1, T1, c1, c2, c3, c4, c5, c6⟩ := lazy_pre hl hsq buf junk tjunk B
      (pre := pre) (post := .tiles o :: post) hv hno hc
    obtain ⟨sched2, T2, d1, d2, d3, d4⟩ := split_runs hl buf c4 c3
    obtain ⟨fin, e1, e2, e3⟩ := lazy_made hl hsq buf junk tjunk d4 c5 d3
    refine ⟨fun r => ⟨fin r, some (tileKeys l)⟩, ?_, c6 _ e2, e3⟩
    have h2 := Net.Completes.andThen (K := lazyRest l junk tjunk (.tiles o :: post)) d1 d2 (out := fun r =>
      if r ∈ allRanks l then some (.ok ⟨fin r, some (tileKeys l)⟩) else none) (by
        refine cast ?_ e1
        congr 2
        funext r
        by_cases hr : r ∈ allRanks l
        · simp only [if_pos hr]
          rfl
        · simp only [if_neg hr]
          rfl)
    have h1 := Net.Completes.andThen (K := lazyRest l junk tjunk (.tiles o :: post)) c1 c2 (out := fun r =>
      if r ∈ allRanks l then some (.ok ⟨fin r, some (tileKeys l)⟩) else none) (by
        refine cast ?_ h2
        congr 1
        unfold Net.andThen
        congr 1
        funext r
        dsimp only [splitProcs]
        by_cases hr : r ∈ allRanks l
        · have hr' := mem_allRanks.1 hr
          have hn : 0 < l.tileRanks := tileRanks_pos hl.ypos hl.xpos
          have hd := div_range hn hr'.1 hr'.2
          simp only [if_pos hr, lazyRest]
          rw [execLazy_split junk tjunk (by rw [tileColor_eq hl.ypos hl.xpos]; exact ho _ hd.1 hd.2), Proc.bind_bind,
            Proc.bind_bind]
          congr 1
          funext y
          cases y <;> rfl
        · simp only [if_neg hr]
          rfl)
    refine cast ?_ h1
    congr 1
    unfold Net.andThen
    congr 1
    funext r
    dsimp only
    by_cases hr : r ∈ allRanks l
    · simp only [if_pos hr]
      rw [execLazy_append, Proc.bind_bind, Proc.bind_bind]
      congr 1
      funext y
      cases y <;> rfl
    · simp only [if_neg hr]
      rfl

end FV3
