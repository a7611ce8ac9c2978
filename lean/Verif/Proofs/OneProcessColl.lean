import Verif.Spec.OneProcessColl
import Verif.Proofs.CollState
import Verif.Proofs.Broadcast

/-!
# Scatter and gather in one process
-/

namespace FV3.OneProcess
open FV3
variable {α A B : Type}

/-! ### What a call does to the dictionary -/

/-- Rank 0 broadcast `M` and scattered `S`. -/
def rootAdv (b : Board α) (M : List (Msg α)) (S : List (List (NDArray α))) : Board α :=
  { b with
    bcasts := ⟨b.bcasts.values ++ M, fun r => if r = 0 then b.bcasts.calls 0 + M.length else b.bcasts.calls r⟩
    scatters := ⟨b.scatters.values ++ S.map some,
      fun r => if r = 0 then b.scatters.calls 0 + S.length else b.scatters.calls r⟩ }

/-- Rank `r` received `i` broadcast values and `j` scattered ones. -/
def adv (b : Board α) (r : Int) (i j : Nat) : Board α :=
  { b with
    bcasts := ⟨b.bcasts.values, fun r' => if r' = r then b.bcasts.calls r + i else b.bcasts.calls r'⟩
    scatters := ⟨b.scatters.values, fun r' => if r' = r then b.scatters.calls r + j else b.scatters.calls r'⟩ }

theorem calls_self {V : Type} (s : Dummy.CSt V) (r : Int) :
    (⟨s.values, fun r' => if r' = r then s.calls r else s.calls r'⟩ : Dummy.CSt V) = s := by
  cases s with
  | mk v f =>
    congr
    funext r'; split_ifs with h <;> simp [h]

theorem rootAdv_nil (b : Board α) : rootAdv b [] [] = b := by
  unfold rootAdv
  simp only [List.append_nil, List.map_nil, List.length_nil, Nat.add_zero]
  congr
  · funext r; split_ifs with h <;> simp [h]
  · funext r; split_ifs with h <;> simp [h]

theorem adv_zero (b : Board α) (r : Int) : adv b r 0 0 = b := by
  unfold adv
  simp only [Nat.add_zero]
  congr
  · funext r'; split_ifs with h <;> simp [h]
  · funext r'; split_ifs with h <;> simp [h]

theorem rootAdv_append (b : Board α) (M M' : List (Msg α)) (S S' : List (List (NDArray α))) :
    rootAdv (rootAdv b M S) M' S' = rootAdv b (M ++ M') (S ++ S') := by
  unfold rootAdv
  simp only [List.append_assoc, List.map_append, List.length_append, if_true, Nat.add_assoc]
  congr
  · funext r; split_ifs with h <;> rfl
  · funext r; split_ifs with h <;> rfl

theorem adv_add (b : Board α) (r : Int) (i j i' j' : Nat) : adv (adv b r i j) r i' j' = adv b r (i + i') (j + j') := by
  unfold adv
  simp only [if_true, Nat.add_assoc]
  congr
  · funext r'; split_ifs with h <;> rfl
  · funext r'; split_ifs with h <;> rfl

/-- Rank 0 has received all. -/
structure Ready (b : Board α) : Prop where
  b0 : b.bcasts.calls 0 = b.bcasts.values.length
  s0 : b.scatters.calls 0 = b.scatters.values.length

theorem Ready.rootAdv {b : Board α} (h : Ready b) (M : List (Msg α)) (S : List (List (NDArray α))) :
    Ready (rootAdv b M S) :=
  ⟨by simp [OneProcess.rootAdv, h.b0], by simp [OneProcess.rootAdv, h.s0]⟩

/-- What rank `r` receives next is `M` and `S`. -/
structure Sees (b : Board α) (r : Int) (M : List (Msg α)) (S : List (List (NDArray α))) : Prop where
  msgs : ∀ k, k < M.length → b.bcasts.values[b.bcasts.calls r + k]? = M[k]?
  arrs : ∀ k, k < S.length → b.scatters.values[b.scatters.calls r + k]? = (S[k]?).map some

theorem Sees.left {b : Board α} {r : Int} {M M' : List (Msg α)} {S S' : List (List (NDArray α))}
    (h : Sees b r (M ++ M') (S ++ S')) : Sees b r M S := by
  constructor
  · intro k hk
    rw [h.msgs k (by rw [List.length_append]; omega), List.getElem?_append_left hk]
  · intro k hk
    rw [h.arrs k (by rw [List.length_append]; omega), List.getElem?_append_left hk]

theorem Sees.right {b : Board α} {r : Int} {M M' : List (Msg α)} {S S' : List (List (NDArray α))}
    (h : Sees b r (M ++ M') (S ++ S')) : Sees (adv b r M.length S.length) r M' S' := by
  constructor
  · intro k hk
    simp only [adv, if_true]
    rw [Nat.add_assoc, h.msgs (M.length + k) (by rw [List.length_append]; omega),
      List.getElem?_append_right (by omega)]
    congr 1; omega
  · intro k hk
    simp only [adv, if_true]
    rw [Nat.add_assoc, h.arrs (S.length + k) (by rw [List.length_append]; omega),
      List.getElem?_append_right (by omega)]
    congr 2; omega

/-- A call on rank 0 which broadcasts `M` and scatters `S`. -/
def RootDo (x : DM α A) (M : List (Msg α)) (S : List (List (NDArray α))) (a : A) : Prop :=
  ∀ b, Ready b → x b = (.ok a, rootAdv b M S)

/-- A call on rank `r` which receives `M` and `S`. -/
def CliDo (r : Int) (x : DM α A) (M : List (Msg α)) (S : List (List (NDArray α))) (a : A) : Prop :=
  ∀ b, Sees b r M S → x b = (.ok a, adv b r M.length S.length)

theorem RootDo.pure (a : A) : RootDo (α := α) (Pure.pure a : DM α A) [] [] a := by
  intro b _
  rw [rootAdv_nil]; rfl

theorem CliDo.pure (r : Int) (a : A) : CliDo (α := α) r (Pure.pure a : DM α A) [] [] a := by
  intro b _
  rw [List.length_nil, List.length_nil, adv_zero]; rfl

theorem RootDo.bind {x : DM α A} {f : A → DM α B} {M M' : List (Msg α)} {S S' : List (List (NDArray α))} {a : A} {y : B}
    (h : RootDo x M S a) (h' : RootDo (f a) M' S' y) : RootDo (x >>= f) (M ++ M') (S ++ S') y := by
  intro b hb
  show DM.bind x f b = _
  unfold DM.bind
  rw [h b hb]
  dsimp only
  rw [h' _ (hb.rootAdv _ _), rootAdv_append]

theorem CliDo.bind {r : Int} {x : DM α A} {f : A → DM α B} {M M' : List (Msg α)} {S S' : List (List (NDArray α))} {a : A}
    {y : B} (h : CliDo r x M S a) (h' : CliDo r (f a) M' S' y) : CliDo r (x >>= f) (M ++ M') (S ++ S') y := by
  intro b hb
  show DM.bind x f b = _
  unfold DM.bind
  rw [h b hb.left]
  dsimp only
  rw [h' _ hb.right, adv_add, List.length_append, List.length_append]

theorem RootDo.lift_bind {x : Py A} {f : A → DM α B} {M : List (Msg α)} {S : List (List (NDArray α))} {a : A} {y : B}
    (h : x = .ok a) (h' : RootDo (f a) M S y) : RootDo (DM.lift x >>= f) M S y := by
  subst h; exact h'

theorem CliDo.lift_bind {r : Int} {x : Py A} {f : A → DM α B} {M : List (Msg α)} {S : List (List (NDArray α))} {a : A}
    {y : B} (h : x = .ok a) (h' : CliDo r (f a) M S y) : CliDo r (DM.lift x >>= f) M S y := by
  subst h; exact h'

theorem RootDo.lift {x : Py A} {a : A} (h : x = .ok a) : RootDo (α := α) (DM.lift x) [] [] a := by
  subst h; exact RootDo.pure a

theorem CliDo.lift {r : Int} {x : Py A} {a : A} (h : x = .ok a) : CliDo (α := α) r (DM.lift x) [] [] a := by
  subst h; exact CliDo.pure r a

theorem RootDo.bcast (m : Msg α) : RootDo (bcast 0 m) [m] [] m := by
  intro b hb
  unfold OneProcess.bcast Dummy.bcast rootAdv
  simp only [if_true, hb.b0, List.getElem?_concat_length, List.length_cons, List.length_nil, Nat.zero_add,
    List.map_nil, List.append_nil, Nat.add_zero, calls_self]

theorem CliDo.bcast {r : Int} (h0 : r ≠ 0) (m m' : Msg α) : CliDo r (bcast r m') [m] [] m := by
  intro b hb
  have := hb.msgs 0 (by simp)
  simp only [Nat.add_zero, List.getElem?_cons_zero] at this
  unfold OneProcess.bcast Dummy.bcast adv
  simp only [if_neg h0, this, List.length_cons, List.length_nil, Nat.zero_add, Nat.add_zero, calls_self]

theorem RootDo.scatterArr {blocks : List (NDArray α)} {a : NDArray α} (h : blocks[0]? = some a) :
    RootDo (scatterArr 0 (some blocks)) [] [blocks] a := by
  intro b hb
  unfold OneProcess.scatterArr Dummy.scatter Dummy.bcast rootAdv
  simp only [if_true, hb.s0, List.getElem?_concat_length, List.length_cons, List.length_nil, Nat.zero_add,
    List.map_nil, List.append_nil, Nat.add_zero, List.map_cons, Int.toNat_zero, h, calls_self]

theorem CliDo.scatterArr {r : Int} (h0 : r ≠ 0) {blocks : List (NDArray α)} {a : NDArray α}
    (h : blocks[r.toNat]? = some a) : CliDo r (scatterArr r none) [] [blocks] a := by
  intro b hb
  have := hb.arrs 0 (by simp)
  simp only [Nat.add_zero, List.getElem?_cons_zero, Option.map_some] at this
  unfold OneProcess.scatterArr Dummy.scatter Dummy.bcast adv
  simp only [if_neg h0, this, List.length_cons, List.length_nil, Nat.zero_add, Nat.add_zero, h, calls_self]

/-! ### All ranks -/

/-- A call made on all ranks, first on rank 0. -/
def Spread (c : Comm) (prog : Int → DM α A) (out : Int → A) : Prop :=
  ∃ M S, RootDo (prog 0) M S (out 0) ∧ ∀ r ∈ c.ranks, r ≠ 0 → CliDo r (prog r) M S (out r)

theorem each_clients (prog : Int → DM α A) (out : Int → A) (M : List (Msg α)) (S : List (List (NDArray α)))
    (rs : List Int) (hnd : rs.Nodup) (h : ∀ r ∈ rs, CliDo r (prog r) M S (out r)) (b : Board α)
    (hb : ∀ r ∈ rs, Sees b r M S) :
    ∃ b', each prog rs b = (.ok (rs.map out), b') ∧ b'.bcasts.values = b.bcasts.values ∧
      b'.scatters.values = b.scatters.values ∧ b'.slots = b.slots ∧
      (∀ r, b'.bcasts.calls r = if r ∈ rs then b.bcasts.calls r + M.length else b.bcasts.calls r) ∧
      ∀ r, b'.scatters.calls r = if r ∈ rs then b.scatters.calls r + S.length else b.scatters.calls r := by
  induction rs generalizing b with
  | nil => exact ⟨b, rfl, rfl, rfl, rfl, fun r => by simp, fun r => by simp⟩
  | cons r rs ih =>
    rw [List.nodup_cons] at hnd
    have e := h r List.mem_cons_self b (hb r List.mem_cons_self)
    obtain ⟨b', h1, h2, h3, h4, h5, h6⟩ := ih hnd.2 (fun x hx => h x (List.mem_cons_of_mem _ hx))
      (adv b r M.length S.length) (by
        intro x hx
        have hne : x ≠ r := fun e => hnd.1 (e ▸ hx)
        have hs := hb x (List.mem_cons_of_mem _ hx)
        constructor
        · intro k hk; simp only [adv, if_neg hne]; exact hs.msgs k hk
        · intro k hk; simp only [adv, if_neg hne]; exact hs.arrs k hk)
    refine ⟨b', ?_, h2, h3, h4, ?_, ?_⟩
    · show DM.bind (prog r) _ b = _
      unfold DM.bind
      rw [e]
      dsimp only
      show DM.bind (each prog rs) _ _ = _
      unfold DM.bind
      rw [h1]
      rfl
    · intro x
      rw [h5]
      by_cases hx : x = r
      · subst hx
        rw [if_neg hnd.1, if_pos List.mem_cons_self]
        simp [adv]
      · simp [adv, hx]
    · intro x
      rw [h6]
      by_cases hx : x = r
      · subst hx
        rw [if_neg hnd.1, if_pos List.mem_cons_self]
        simp [adv]
      · simp [adv, hx]

theorem ranks_nodup (c : Comm) : c.ranks.Nodup := (ranks_pairwise c).imp fun h => by
  intro e; subst e; exact absurd h (by omega)

theorem Spread.run {c : Comm} {prog : Int → DM α A} {out : Int → A} (h : Spread c prog out) {b : Board α}
    (hb : b.Settled c) {order : List Int} (ho : RootFirst c order) :
    ∃ b', each prog order b = (.ok (order.map out), b') ∧ b'.Settled c := by
  obtain ⟨M, S, h0, hc⟩ := h
  obtain ⟨rest, rfl, hp⟩ := ho
  have hnd : (0 :: rest : List Int).Nodup := hp.nodup_iff.2 (ranks_nodup c)
  rw [List.nodup_cons] at hnd
  have hm0 : (0 : Int) ∈ c.ranks := hp.mem_iff.1 List.mem_cons_self
  have hm : ∀ r ∈ rest, r ∈ c.ranks ∧ r ≠ 0 := fun r hr =>
    ⟨hp.mem_iff.1 (List.mem_cons_of_mem _ hr), fun e => hnd.1 (e ▸ hr)⟩
  have e := h0 b ⟨hb.bcasts 0 hm0, hb.scatters 0 hm0⟩
  obtain ⟨b', h1, h2, h3, h4, h5, h6⟩ := each_clients prog out M S rest hnd.2 (fun r hr => hc r (hm r hr).1 (hm r hr).2)
    (rootAdv b M S) (by
      intro r hr
      obtain ⟨hr1, hr2⟩ := hm r hr
      constructor
      · intro k hk
        simp only [rootAdv, if_neg hr2]
        rw [hb.bcasts r hr1, List.getElem?_append_right (by omega)]
        congr 1; omega
      · intro k hk
        simp only [rootAdv, if_neg hr2]
        rw [hb.scatters r hr1, List.getElem?_append_right (by omega), List.getElem?_map]
        congr 2; omega)
  refine ⟨b', ?_, ?_, ?_, ?_⟩
  · show DM.bind (prog 0) _ b = _
    unfold DM.bind
    rw [e]
    dsimp only
    show DM.bind (each prog rest) _ _ = _
    unfold DM.bind
    rw [h1]
    rfl
  · intro r hr
    rw [h5, h2]
    rcases List.mem_cons.1 (hp.mem_iff.2 hr) with rfl | hr'
    · rw [if_neg hnd.1]
      simp [rootAdv, hb.bcasts 0 hr]
    · rw [if_pos hr']
      simp [rootAdv, hb.bcasts r hr, (hm r hr').2]
  · intro r hr
    rw [h6, h3]
    rcases List.mem_cons.1 (hp.mem_iff.2 hr) with rfl | hr'
    · rw [if_neg hnd.1]
      simp [rootAdv, hb.scatters 0 hr]
    · rw [if_pos hr']
      simp [rootAdv, hb.scatters r hr, (hm r hr').2]
  · rw [h4]; exact hb.slots

/-! ### scatter -/

theorem assignView_same (q : Quantity α) {shape : List Nat} (hs : shape ≠ []) {a : NDArray α} (h : a.shape = shape) :
    assignView q shape a = q.fillView a := by
  unfold assignView
  rw [if_neg hs, if_pos (fits_of h), NDArray.stretch_of h]

theorem scatter_spread {c : Comm} (hl : FloatSafe c.layout) (junk : List Nat → α)
    {dims : List Dim} {cells : List Int} (hpos : 0 < dims.length) {g : Quantity α} (hg : g.GlobalShaped c dims cells)
    (send recv : Int → Option (Quantity α)) (hsend : send 0 = some g)
    (hrecv : ∀ r ∈ c.ranks, ∀ q, recv r = some q → q.RankShaped dims cells) :
    ∃ out : Int → Quantity α, Spread c (fun r => scatter c junk r (send r) (recv r)) out ∧
      ∀ r ∈ c.ranks, ScatterOut c dims cells g (recv r) r (out r) := by
  have hsize := comm_size_pos hl
  have h0mem : (0 : Int) ∈ c.ranks := (mem_ranks c 0).2 ⟨by omega, hsize⟩
  obtain ⟨shape, hsh, hs⟩ := subtileExtent_ok hl hg.extent
  rw [← hg.names] at hsh
  have hrq : ∀ r, ∃ q, r ∈ c.ranks → recvOrNew (recv r) (c.scatterRecvQuantity junk shape g.metadata) = .ok q ∧
        q.RankShaped dims cells ∧ (∀ p, recv r = some p → p = q) ∧ (recv r = none → FreshPart q dims cells g.units) := by
    intro r
    cases h : recv r with
    | some q => exact ⟨q, fun hr => ⟨rfl, hrecv r hr q h, fun p hp => by cases hp; rfl, by simp⟩⟩
    | none =>
      obtain ⟨q, h1, h2, h3⟩ := scatterRecv_fresh c junk hs g.metadata hg.names
      exact ⟨q, fun _ => ⟨h1, ⟨h2, h3.extent⟩, by simp, fun _ => h3⟩⟩
  choose rq hrq using hrq
  have hout : ∀ r, ∃ q', r ∈ c.ranks → (∃ v, (rq r).viewGet (.one (.slice .full)) = .ok v ∧
      assignView (rq r) v.shape (partOf c dims cells g r) = .ok q') ∧ ScatterOut c dims cells g (recv r) r q' := by
    intro r
    by_cases hr : r ∈ c.ranks
    · obtain ⟨h1, h2, h3, h4⟩ := hrq r hr
      have hshape : (rq r).computeArr.shape = rankShape dims cells := rankOf_shape h2.extent
      obtain ⟨v, v1, v2, -⟩ := C29_view_all (rq r) h2.wf (by rw [rankShaped_ndim h2]; exact hpos)
      have hv : v.shape = rankShape dims cells := v2.trans hshape
      obtain ⟨q', f1, f2, f3⟩ := fillView_ok (rq r) h2.wf (by rw [rankShaped_ndim h2]; exact hpos)
        (partOf c dims cells g r) hshape.symm
      refine ⟨q', fun _ => ⟨⟨v, v1, ?_⟩, ?_, f2.rankShaped h2, ?_, fun h => (h4 h).refilled f2⟩⟩
      · rw [assignView_same _ _ hv.symm]
        · exact f1
        · intro e
          have hlen : v.shape.length = dims.length := by
            rw [v2, List.length_map, h2.extent.2.1]
          rw [e, List.length_nil] at hlen
          omega
      · intro rel hrel
        have : q'.computeArr.shape = (rq r).computeArr.shape := by
          show q'.extent.map _ = (rq r).extent.map _
          rw [f2.extent]
        rw [f3 rel (by rw [← this]; exact hrel)]
        rfl
      · intro q hq
        rw [h3 q hq]; exact f2
    · exact ⟨rq r, fun h => absurd h hr⟩
  choose out hout using hout
  refine ⟨out, ⟨[.metadata g.metadata], [c.ranks.map (partOf c dims cells g)], ?_, ?_⟩, fun r hr => (hout r hr).2⟩
  · obtain ⟨h1, -⟩ := hrq 0 h0mem
    obtain ⟨⟨v, v1, v2⟩, -⟩ := hout 0 h0mem
    beta_reduce
    unfold scatter
    rw [if_pos (show (0 : Int) = ROOT_RANK from rfl)]
    simp only [hsend]
    refine RootDo.bind (M := [_]) (S := []) (M' := []) (RootDo.bcast _) ?_
    refine RootDo.lift_bind (a := g.metadata) rfl ?_
    refine RootDo.lift_bind (a := shape) hsh ?_
    refine RootDo.lift_bind (a := rq 0) h1 ?_
    refine RootDo.lift_bind (scatterBlocks_ok hl hpos hg hs _ (fun _ h => h)) ?_
    refine RootDo.lift_bind v1 ?_
    refine RootDo.bind (M := []) (S := [_]) (S' := []) (RootDo.scatterArr (a := partOf c dims cells g 0) ?_) ?_
    · rw [ranks_cons c hsize]; rfl
    · exact RootDo.lift v2
  · intro r hr h0
    have hr' := (mem_ranks c r).1 hr
    obtain ⟨h1, -⟩ := hrq r hr
    obtain ⟨⟨v, v1, v2⟩, -⟩ := hout r hr
    beta_reduce
    unfold scatter
    rw [if_neg (show ¬ r = ROOT_RANK from h0)]
    refine CliDo.bind (M := [_]) (S := []) (M' := []) (CliDo.bcast h0 (.metadata g.metadata) _) ?_
    refine CliDo.lift_bind (a := g.metadata) rfl ?_
    refine CliDo.lift_bind (a := shape) hsh ?_
    refine CliDo.lift_bind (a := rq r) h1 ?_
    refine CliDo.lift_bind v1 ?_
    refine CliDo.bind (M := []) (S := [_]) (S' := []) (CliDo.scatterArr h0 (a := partOf c dims cells g r) ?_) ?_
    · unfold Comm.ranks
      rw [List.map_map, List.getElem?_map, List.getElem?_range (by omega)]
      show some (partOf c dims cells g ((r.toNat : Nat) : Int)) = _
      congr 2; omega
    · exact CliDo.lift v2

/-! ### scatter_state -/

/-- The loop of a rank. -/
def loopOf (c : Comm) (junk : List Nat → α) (s : CState α) (names : List String) (r : Int) (st : CState α) :
    DM α (CState α) :=
  if r = 0 then scatterRootLoop c junk s names st else scatterClientLoop c junk r names st

theorem loop_spread {c : Comm} (hl : FloatSafe c.layout) (junk : List Nat → α)
    (vdims : String → List Dim) (vcells : String → List Int) (vqty : String → Quantity α) (s : CState α)
    (names : List String) (hnd : names.Nodup)
    (hs : ∀ v ∈ names, s.get? v = some (.qty (vqty v)) ∧ 0 < (vdims v).length ∧
      (vqty v).GlobalShaped c (vdims v) (vcells v))
    (st : Int → CState α)
    (hst : ∀ r ∈ c.ranks, ∀ v ∈ names, ∀ x, (st r).get? v = some x → ∃ q, x = .qty q ∧ q.RankShaped (vdims v) (vcells v))
    (hk : ∀ r ∈ c.ranks, (st r).keys.Nodup) :
    ∃ out : Int → CState α, Spread c (fun r => loopOf c junk s names r (st r)) out ∧
      ∀ r ∈ c.ranks, (out r).keys.Nodup ∧
        (∀ v ∉ names, (out r).get? v = (st r).get? v) ∧
        ∀ v ∈ names, ScatteredInto c (vdims v) (vcells v) (vqty v) ((st r).get? v) ((out r).get? v) r := by
  have hsize := comm_size_pos hl
  have h0mem : (0 : Int) ∈ c.ranks := (mem_ranks c 0).2 ⟨by omega, hsize⟩
  induction names generalizing st with
  | nil =>
    refine ⟨st, ⟨[], [], RootDo.pure _, fun r _ h0 => ?_⟩, fun r hr => ⟨hk r hr, fun _ _ => rfl, by simp⟩⟩
    unfold loopOf
    beta_reduce
    rw [if_neg h0]
    exact CliDo.pure r _
  | cons name names ih =>
    rw [List.nodup_cons] at hnd
    obtain ⟨g1, g2, g3⟩ := hs name List.mem_cons_self
    have hrecv : ∀ r, ∃ o, r ∈ c.ranks → recvOf (st r) name = .ok o ∧
        (∀ q, o = some q ↔ (st r).get? name = some (.qty q)) ∧ (o = none ↔ (st r).get? name = none) := by
      intro r
      by_cases hr : r ∈ c.ranks
      · obtain ⟨o, h⟩ := recvOf_ok (st r) name (fun v hv => by
          obtain ⟨q, hq, -⟩ := hst r hr name List.mem_cons_self v hv
          exact ⟨q, hq⟩)
        exact ⟨o, fun _ => h⟩
      · exact ⟨none, fun h => absurd h hr⟩
    choose rv hrv using hrecv
    obtain ⟨q, ⟨M1, S1, r1, c1⟩, o1⟩ := scatter_spread hl junk g2 g3 (fun r => if r = 0 then some (vqty name) else none) rv
      rfl
      (by
        intro r hr x hx
        obtain ⟨q, e, hq⟩ := hst r hr name List.mem_cons_self _ (((hrv r hr).2.1 x).1 hx)
        cases e; exact hq)
    obtain ⟨out, ⟨M2, S2, r2, c2⟩, o2⟩ := ih hnd.2 (fun v hv => hs v (List.mem_cons_of_mem _ hv))
      (fun r => (st r).set name (.qty (q r)))
      (by
        intro r hr v hv x hx
        have hne : v ≠ name := fun e => hnd.1 (e ▸ hv)
        rw [Dict.get?_set_ne _ _ hne] at hx
        exact hst r hr v (List.mem_cons_of_mem _ hv) x hx)
      (fun r hr => Dict.nodup_set _ _ _ (hk r hr))
    refine ⟨out, ⟨M1 ++ M2, S1 ++ S2, ?_, ?_⟩, ?_⟩
    · have a3 := (hrv 0 h0mem).1
      unfold loopOf at r2 ⊢
      beta_reduce at r1 r2 ⊢
      rw [if_pos rfl] at r1 r2 ⊢
      unfold scatterRootLoop
      refine RootDo.lift_bind (a := vqty name) (by rw [g1]; rfl) ?_
      refine RootDo.lift_bind a3 ?_
      exact RootDo.bind r1 r2
    · intro r hr h0
      have a1 := c1 r hr h0
      have a2 := c2 r hr h0
      have a3 := (hrv r hr).1
      unfold loopOf at a2 ⊢
      beta_reduce at a1 a2 ⊢
      rw [if_neg h0] at a1
      rw [if_neg h0] at a2 ⊢
      unfold scatterClientLoop
      refine CliDo.lift_bind a3 ?_
      exact CliDo.bind a1 a2
    · intro r hr
      obtain ⟨b1, b2, b3⟩ := o2 r hr
      refine ⟨b1, ?_, ?_⟩
      · intro v hv
        rw [List.mem_cons, not_or] at hv
        rw [b2 v hv.2, Dict.get?_set_ne _ _ hv.1]
      · intro v hv
        rcases List.mem_cons.1 hv with rfl | hv
        · have ho := o1 r hr
          refine ⟨q r, ?_, ho.shaped, ho.part, ?_, ?_⟩
          · rw [b2 v hnd.1, Dict.get?_set_self]
          · intro x hx
            exact ho.given x (((hrv r hr).2.1 x).2 hx)
          · intro hx
            exact ho.fresh ((hrv r hr).2.2.2 hx)
        · have hne : v ≠ name := fun e => hnd.1 (e ▸ hv)
          have := b3 v hv
          rwa [Dict.get?_set_ne _ _ hne] at this

theorem scatterState_spread {c : Comm} (hl : FloatSafe c.layout) (junk : List Nat → α)
    (vdims : String → List Dim) (vcells : String → List Int) (vqty : String → Quantity α) (s : CState α)
    (hnd : s.keys.Nodup) (time : Option Int) (htime : s.get? "time" = time.map .time)
    (hs : ∀ v ∈ s.keys, v ≠ "time" → s.get? v = some (.qty (vqty v)) ∧ 0 < (vdims v).length ∧
      (vqty v).GlobalShaped c (vdims v) (vcells v))
    (send recv : Int → Option (CState α)) (hsend : send 0 = some s)
    (hst : ∀ r ∈ c.ranks, ∀ st, recv r = some st → st.keys.Nodup ∧ ∀ v ∈ s.keys, v ≠ "time" → ∀ x,
      st.get? v = some x → ∃ q, x = .qty q ∧ q.RankShaped (vdims v) (vcells v)) :
    ∃ out : Int → CState α, Spread c (fun r => scatterState c junk r (send r) (recv r)) out ∧
      ∀ r ∈ c.ranks, (out r).get? "time" = s.get? "time" ∧
        (∀ v ∉ s.keys, v ≠ "time" → (out r).get? v = ((recv r).getD []).get? v) ∧
        ∀ v ∈ s.keys, v ≠ "time" →
          ScatteredInto c (vdims v) (vcells v) (vqty v) (((recv r).getD []).get? v) ((out r).get? v) r := by
  have hmem : ∀ v, v ∈ s.keys.filter (· ≠ "time") ↔ v ∈ s.keys ∧ v ≠ "time" := by
    intro v; simp
  obtain ⟨out, ⟨M, S, h1, h2⟩, h3⟩ := loop_spread hl junk vdims vcells vqty s (s.keys.filter (· ≠ "time"))
    (hnd.filter _) (fun v hv => hs v ((hmem v).1 hv).1 ((hmem v).1 hv).2) (fun r => (recv r).getD [])
    (by
      intro r hr v hv x hx
      cases h : recv r with
      | none => rw [h] at hx; cases hx
      | some st => rw [h] at hx; exact (hst r hr st h).2 v ((hmem v).1 hv).1 ((hmem v).1 hv).2 x hx)
    (by
      intro r hr
      cases h : recv r with
      | none => exact List.nodup_nil
      | some st => exact (hst r hr st h).1)
  refine ⟨fun r => setTime (out r) time, ⟨[Msg.names (s.keys.filter (· ≠ "time"))] ++ (M ++ ([Msg.time time] ++ [])),
    [] ++ (S ++ ([] ++ [])), ?_, ?_⟩, ?_⟩
  · unfold loopOf at h1
    beta_reduce at h1
    rw [if_pos rfl] at h1
    unfold scatterState
    dsimp only
    rw [if_pos (show (0 : Int) = ROOT_RANK from rfl)]
    simp only [hsend]
    refine RootDo.bind (RootDo.bcast _) ?_
    refine RootDo.lift_bind rfl ?_
    refine RootDo.bind h1 ?_
    refine RootDo.lift_bind (a := time) ?_ ?_
    · unfold timeOf
      rw [htime]
      cases time <;> rfl
    refine RootDo.bind (RootDo.bcast _) ?_
    refine RootDo.lift_bind rfl ?_
    exact RootDo.pure _
  · intro r hr h0
    have a2 := h2 r hr h0
    unfold loopOf at a2
    beta_reduce at a2
    rw [if_neg h0] at a2
    unfold scatterState
    dsimp only
    rw [if_neg (show ¬ r = ROOT_RANK from h0)]
    refine CliDo.bind (CliDo.bcast h0 (.names (s.keys.filter (· ≠ "time"))) _) ?_
    refine CliDo.lift_bind rfl ?_
    refine CliDo.bind a2 ?_
    refine CliDo.bind (CliDo.bcast h0 (.time time) _) ?_
    refine CliDo.lift_bind rfl ?_
    exact CliDo.pure r _
  · intro r hr
    obtain ⟨b1, b2, b3⟩ := h3 r hr
    refine ⟨?_, ?_, ?_⟩
    · rw [get?_setTime _ b1, if_pos rfl, htime]
    · intro v hv hne
      rw [get?_setTime _ b1, if_neg hne, b2 v (fun h => hv ((hmem v).1 h).1)]
    · intro v hv hne
      rw [get?_setTime _ b1, if_neg hne]
      exact b3 v ((hmem v).2 ⟨hv, hne⟩)

/-! ### gather -/

theorem mapM_id_map {B : Type} (l : List B) : (l.map some).mapM (id : Option B → Option B) = some l := by
  induction l with
  | nil => rfl
  | cons a l ih => simp [List.mapM_cons, ih]

theorem castRows_ok {shape : List Nat} (hs : shape ≠ []) (rows : List (NDArray α)) (h : ∀ a ∈ rows, a.shape = shape) :
    castRows shape rows = .ok rows := by
  induction rows with
  | nil => rfl
  | cons a as ih =>
    unfold castRows
    rw [if_neg hs, if_pos (fits_of (h a List.mem_cons_self)), ih (fun x hx => h x (List.mem_cons_of_mem _ hx)),
      NDArray.stretch_of (h a List.mem_cons_self)]
    rfl

/-- A call on rank `r` other than 0 which leaves `a` in its slot. -/
theorem gather_client (c : Comm) (junk : List Nat → α) {r : Int} (h0 : 0 < r) (send : Quantity α)
    (recv : Option (Quantity α)) {a : NDArray α} (ha : send.viewGet (.one (.slice .full)) = .ok a) (b : Board α) :
    gather c junk r send recv b = (.ok none, { b with slots := b.slots.set r.toNat (some a) }) := by
  unfold gather
  rw [ha]
  show DM.bind (gatherArr r a) _ b = _
  unfold DM.bind gatherArr Dummy.gather
  have : ¬ r.toNat = 0 := by omega
  simp only [this, if_false]
  rfl

/-- A call on rank 0, when the slots (with its own) have the arrays `rows`. -/
theorem gather_root (c : Comm) (junk : List Nat → α) (send : Quantity α)
    (recv : Option (Quantity α)) {a : NDArray α} (ha : send.viewGet (.one (.slice .full)) = .ok a) (b : Board α)
    {rows blocks : List (NDArray α)} (hr : b.slots.set 0 (some a) = rows.map some)
    (hf : fillRows junk c.size.toNat (send.extent.map Int.toNat) rows = .ok blocks) {rq q : Quantity α}
    (hq : recvOrNew recv (c.gatherRecvQuantity junk (c.globalExtent send.dims send.extent) send.metadata) = .ok rq)
    (hg : gatherStore c (c.ranks.zip blocks) rq = .ok q) :
    gather c junk 0 send recv b = (.ok (some q), { b with slots := rows.map some }) := by
  unfold gather
  rw [ha]
  show DM.bind (gatherArr 0 a) _ b = _
  unfold DM.bind gatherArr Dummy.gather
  simp only [Int.toNat_zero, if_true, hr, mapM_id_map]
  show DM.bind (DM.lift _) _ _ = _
  rw [hf]
  show DM.bind (DM.lift _) _ _ = _
  rw [hq]
  show DM.bind (DM.lift (gatherStore c (c.ranks.zip blocks) rq)) (fun q => pure (some q)) _ = _
  rw [hg]
  rfl

/-- What a slot has after `gather` was called with `q`. -/
def Holds (slots : List (Option (NDArray α))) (r : Int) (q : Quantity α) : Prop :=
  ∃ a, q.viewGet (.one (.slice .full)) = .ok a ∧ slots[r.toNat]? = some (some a)

theorem gather_root_ok {c : Comm} (hl : FloatSafe c.layout) (junk : List Nat → α)
    {dims : List Dim} {cells : List Int} (hpos : 0 < dims.length)
    (hb : ∀ k, k < dims.length → cells.getD k 0 * ranksAlong c.layout (dims.getD k .x) < 2 ^ 51)
    (send : Int → Quantity α) (recv : Option (Quantity α))
    (hsend : ∀ r ∈ c.ranks, (send r).RankShaped dims cells)
    (hrecv : ∀ q, recv = some q → q.GlobalShaped c dims cells)
    (hdims : recv = none → (send 0).dims = dims) (b : Board α) (hlen : b.slots.length = c.size.toNat)
    (hslots : ∀ r ∈ c.ranks, r ≠ 0 → Holds b.slots r (send r)) :
    ∃ root slots, gather c junk 0 (send 0) recv b = (.ok (some root), { b with slots := slots }) ∧
      slots.length = c.size.toNat ∧ (∀ r ∈ c.ranks, Holds slots r (send r)) ∧
      GatherOut c dims cells send recv root := by
  have hsize := comm_size_pos hl
  have h0mem : (0 : Int) ∈ c.ranks := (mem_ranks c 0).2 ⟨by omega, hsize⟩
  have hblk : ∀ r, ∃ a : NDArray α, r ∈ c.ranks → (send r).viewGet (.one (.slice .full)) = .ok a ∧
      a.shape = rankShape dims cells ∧ ∀ rel, InB (rankShape dims cells) rel → a.get rel = (send r).computeArr.get rel := by
    intro r
    by_cases hr : r ∈ c.ranks
    · have h := hsend r hr
      obtain ⟨a, h1, h2, h3⟩ := C29_view_all (send r) h.wf (by rw [rankShaped_ndim h]; exact hpos)
      have h2' : a.shape = rankShape dims cells := h2.trans (rankOf_shape h.extent)
      exact ⟨a, fun _ => ⟨h1, h2', fun rel hrel => h3 rel (by rw [h2']; exact hrel)⟩⟩
    · exact ⟨(send r).computeArr, fun h => absurd h hr⟩
  choose blk hblk using hblk
  have hrq : ∃ rq : Quantity α, recvOrNew recv (c.gatherRecvQuantity junk (c.globalExtent (send 0).dims (send 0).extent) (send 0).metadata) = .ok rq ∧
      rq.GlobalShaped c dims cells ∧ (∀ q, recv = some q → q = rq) ∧
      (recv = none → FreshGlobal c rq dims cells (send 0).units ∧
        rq.extent = c.globalExtent (send 0).dims (send 0).extent) := by
    cases h : recv with
    | some q => exact ⟨q, rfl, hrecv q h, fun p hp => by cases hp; rfl, by simp⟩
    | none =>
      have hd := hdims h
      obtain ⟨q, h1, h2, h3⟩ := gatherRecv_fresh hl junk
        (globalExtent_ok (c := c) (hsend 0 h0mem).extent hb) (send 0).metadata hd
      rw [hd]
      exact ⟨q, h1, h2.shaped, by simp, fun _ => ⟨h2, h3⟩⟩
  obtain ⟨rq, hrq1, hrq2, hrq3, hrq4⟩ := hrq
  obtain ⟨root, s1, s2, -, s4⟩ := gatherStore_ok hl hpos (c.ranks.map fun r => (r, blk r)) (by
      intro p hp
      obtain ⟨r, hr, rfl⟩ := List.mem_map.1 hp
      exact ⟨hr, (hblk r hr).2.1⟩)
    (by rw [List.pairwise_map]; exact ranks_pairwise c) rq hrq2
  have hrl : c.ranks.length = c.size.toNat := by simp [Comm.ranks]
  have hget : ∀ r ∈ c.ranks, c.ranks[r.toNat]? = some r := by
    intro r hr
    have hr' := (mem_ranks c r).1 hr
    unfold Comm.ranks
    rw [List.getElem?_map, List.getElem?_range (by omega)]
    show some ((r.toNat : Nat) : Int) = _
    congr 1; omega
  have hrows : b.slots.set 0 (some (blk 0)) = (c.ranks.map blk).map some := by
    apply List.ext_getElem?
    intro i
    by_cases hi : i < c.size.toNat
    · have hm : (i : Int) ∈ c.ranks := (mem_ranks c i).2 ⟨by omega, by omega⟩
      have := hget i hm
      rw [Int.toNat_natCast] at this
      rw [List.getElem?_map, List.getElem?_map, this]
      by_cases h0 : i = 0
      · subst h0
        rw [List.getElem?_set_self (by omega)]
        rfl
      · rw [List.getElem?_set_ne (by omega)]
        obtain ⟨a, e1, e2⟩ := hslots i hm (by omega)
        rw [(hblk i hm).1] at e1
        cases e1
        exact e2
    · rw [List.getElem?_eq_none (by rw [List.length_set]; omega),
        List.getElem?_eq_none (by rw [List.length_map, List.length_map]; omega)]
  have hne : rankShape dims cells ≠ [] := by
    intro e
    have := (hsend 0 h0mem).extent.2.1
    have h2 := congrArg List.length ((rankOf_shape (hsend 0 h0mem).extent).trans e)
    rw [List.length_map, List.length_nil] at h2
    omega
  have hfill : fillRows junk c.size.toNat ((send 0).extent.map Int.toNat) (c.ranks.map blk) = .ok (c.ranks.map blk) := by
    unfold fillRows
    rw [rankOf_shape (hsend 0 h0mem).extent, castRows_ok hne _ (by
      intro a ha
      obtain ⟨r, hr, rfl⟩ := List.mem_map.1 ha
      exact (hblk r hr).2.1)]
    simp only [bind, Except.bind, List.length_map, hrl, Nat.lt_irrefl, if_false, Nat.sub_self, List.replicate_zero,
      List.append_nil]
    rfl
  refine ⟨root, (c.ranks.map blk).map some, gather_root c junk (send 0) recv (hblk 0 h0mem).1 b hrows hfill hrq1
    (by rw [zip_map_self]; exact s1), by simp [hrl], ?_, s2.globalShaped hrq2, ?_, ?_, ?_⟩
  · intro r hr
    refine ⟨blk r, (hblk r hr).1, ?_⟩
    rw [List.getElem?_map, List.getElem?_map, hget r hr]
    rfl
  · intro r rel hH
    obtain ⟨hr, hrel, hmax⟩ := hH
    have := s4 (r, blk r) (List.mem_map.2 ⟨r, hr, rfl⟩) rel hrel (by
      intro p' hp' rel' hrel' he
      obtain ⟨r', hr', rfl⟩ := List.mem_map.1 hp'
      exact hmax r' hr' rel' hrel' he)
    simp only at this
    rw [this, (hblk r hr).2.2 rel hrel]
  · intro q hq
    rw [hrq3 q hq]; exact s2
  · intro h
    obtain ⟨h1, h2⟩ := hrq4 h
    refine ⟨⟨s2.globalShaped hrq2, s2.units.trans h1.units, ?_, by rw [s2.shape, s2.extent]; exact h1.shape⟩,
      s2.extent.trans h2⟩
    intro k
    unfold Quantity.o
    rw [s2.origin]; exact h1.origin k

/-- A call on rank `r` which leaves the data of `q` in its slot and does nothing else. -/
def Leaves (r : Int) (x : DM α A) (q : Quantity α) (y : A) : Prop :=
  ∃ a, q.viewGet (.one (.slice .full)) = .ok a ∧
    ∀ b : Board α, x b = (.ok y, { b with slots := b.slots.set r.toNat (some a) })

theorem gather_leaves (c : Comm) (junk : List Nat → α) {r : Int} (h0 : 0 < r) {dims : List Dim} {cells : List Int}
    (hpos : 0 < dims.length) {send : Quantity α} (h : send.RankShaped dims cells) (recv : Option (Quantity α)) :
    Leaves r (gather c junk r send recv) send none := by
  obtain ⟨a, h1, -, -⟩ := C29_view_all send h.wf (by rw [rankShaped_ndim h]; exact hpos)
  exact ⟨a, h1, fun b => gather_client c junk h0 send recv h1 b⟩

/-- Several clients, one after the other. -/
theorem each_leaves (prog : Int → DM α A) (out : Int → A) (q : Int → Quantity α) (rs : List Int) (hnd : rs.Nodup)
    (hpos : ∀ r ∈ rs, 0 < r) (h : ∀ r ∈ rs, Leaves r (prog r) (q r) (out r)) (b : Board α)
    (hlen : ∀ r ∈ rs, r.toNat < b.slots.length) :
    ∃ slots, each prog rs b = (.ok (rs.map out), { b with slots := slots }) ∧ slots.length = b.slots.length ∧
      (∀ r ∈ rs, Holds slots r (q r)) ∧ ∀ i : Nat, (i : Int) ∉ rs → slots[i]? = b.slots[i]? := by
  induction rs generalizing b with
  | nil => exact ⟨b.slots, rfl, rfl, by simp, fun _ _ => rfl⟩
  | cons r rs ih =>
    rw [List.nodup_cons] at hnd
    obtain ⟨a, ha, hx⟩ := h r List.mem_cons_self
    obtain ⟨slots, h1, h2, h3, h4⟩ := ih hnd.2 (fun x hx => hpos x (List.mem_cons_of_mem _ hx))
      (fun x hx => h x (List.mem_cons_of_mem _ hx)) { b with slots := b.slots.set r.toNat (some a) }
      (by
        intro x hx
        show x.toNat < (b.slots.set _ _).length
        rw [List.length_set]
        exact hlen x (List.mem_cons_of_mem _ hx))
    refine ⟨slots, ?_, by rw [h2]; exact List.length_set, ?_, ?_⟩
    · show DM.bind (prog r) _ b = _
      unfold DM.bind
      rw [hx]
      dsimp only
      show DM.bind (each prog rs) _ _ = _
      unfold DM.bind
      rw [h1]
      rfl
    · intro x hx
      rcases List.mem_cons.1 hx with rfl | hx
      · refine ⟨a, ha, ?_⟩
        have hp := hpos x List.mem_cons_self
        rw [h4 x.toNat (by rw [Int.toNat_of_nonneg (by omega)]; exact hnd.1)]
        exact List.getElem?_set_self (hlen x List.mem_cons_self)
      · exact h3 x hx
    · intro i hi
      rw [List.mem_cons, not_or] at hi
      rw [h4 i hi.2]
      have hp := hpos r List.mem_cons_self
      exact List.getElem?_set_ne (by omega)

theorem each_cons (prog : Int → DM α A) (r : Int) (rs : List Int) (b : Board α) :
    each prog (r :: rs) b = match prog r b with
        | (.ok x, b') => (match each prog rs b' with
          | (.ok ys, b2) => (.ok (x :: ys), b2)
          | (.error e, b2) => (.error e, b2))
        | (.error e, b') => (.error e, b') := by
  show DM.bind (prog r) _ b = _
  unfold DM.bind
  rcases prog r b with ⟨x | x, b'⟩
  · rfl
  · dsimp only
    show DM.bind (each prog rs) _ b' = _
    unfold DM.bind
    rcases each prog rs b' with ⟨y | y, b2⟩ <;> rfl

theorem each_append (prog : Int → DM α A) (rs rs' : List Int) (b b1 : Board α) (xs : List A)
    (h : each prog rs b = (.ok xs, b1)) :
    each prog (rs ++ rs') b = match each prog rs' b1 with
      | (.ok ys, b2) => (.ok (xs ++ ys), b2)
      | (.error e, b2) => (.error e, b2) := by
  induction rs generalizing b xs with
  | nil =>
    cases h
    rw [List.nil_append]
    rcases each prog rs' b1 with ⟨y | y, b2⟩ <;> rfl
  | cons r rs ih =>
    rw [each_cons] at h
    rw [List.cons_append, each_cons]
    rcases hp : prog r b with ⟨x | x, b'⟩
    · rw [hp] at h; cases h
    · rw [hp] at h
      dsimp only at h ⊢
      rcases hq : each prog rs b' with ⟨y | y, b2⟩
      · rw [hq] at h; cases h
      · rw [hq] at h
        dsimp only at h
        cases h
        rw [ih b' y hq]
        rcases each prog rs' b1 with ⟨z | z, b3⟩ <;> rfl

/-! ### gather_state -/

theorem gatherLoop_times (c : Comm) (junk : List Nat → α) {r : Int} (h0 : r ≠ 0) (post : List (String × SVal α))
    (hp : ∀ e ∈ post, e.1 = "time") (st : Option (CState α)) : gatherLoop c junk r post st = Pure.pure st := by
  induction post with
  | nil => rfl
  | cons e post ih =>
    rcases e with ⟨n, v⟩
    have hn : n = "time" := hp (n, v) List.mem_cons_self
    unfold gatherLoop
    rw [if_pos hn, if_neg (show ¬ r = ROOT_RANK from h0)]
    exact ih fun e he => hp e (List.mem_cons_of_mem _ he)

/-- Another rank's `gather_state`: only its last variable stays in its slot. -/
theorem gatherLoop_leaves (c : Comm) (junk : List Nat → α) {r : Int} (h0 : 0 < r) {dims : List Dim} {cells : List Int}
    (hpos : 0 < dims.length) (pre post : List (String × SVal α)) (last : String) (hl : last ≠ "time") (q : Quantity α)
    (hq : q.RankShaped dims cells)
    (hpre : ∀ e ∈ pre, e.1 ≠ "time" → ∃ q, e.2 = .qty q ∧ q.RankShaped dims cells)
    (hpost : ∀ e ∈ post, e.1 = "time") (st : Option (CState α)) :
    Leaves r (gatherLoop c junk r (pre ++ (last, .qty q) :: post) st) q st := by
  have hr : ¬ r = ROOT_RANK := by show ¬ r = 0; omega
  have step : ∀ (n : String) (q' : Quantity α) (rest : List (String × SVal α)) (a : NDArray α), n ≠ "time" →
      q'.viewGet (.one (.slice .full)) = .ok a → ∀ b : Board α,
      gatherLoop c junk r ((n, .qty q') :: rest) st b =
        gatherLoop c junk r rest st { b with slots := b.slots.set r.toNat (some a) } := by
    intro n q' rest a hn ha b
    rw [gatherLoop, if_neg hn, if_neg hr]
    show DM.bind (gather c junk r q' none) _ b = _
    unfold DM.bind
    rw [gather_client c junk h0 q' none ha b]
  obtain ⟨a, ha, -, -⟩ := C29_view_all q hq.wf (by rw [rankShaped_ndim hq]; exact hpos)
  refine ⟨a, ha, ?_⟩
  induction pre with
  | nil =>
    intro b
    rw [List.nil_append, step last q post a hl ha, gatherLoop_times c junk (by omega) post hpost]
    rfl
  | cons e pre ih =>
    intro b
    rcases e with ⟨n, v⟩
    have ih := ih fun e he => hpre e (List.mem_cons_of_mem _ he)
    rw [List.cons_append]
    by_cases hn : n = "time"
    · rw [gatherLoop, if_pos hn, if_neg hr]
      exact ih b
    · obtain ⟨q', e1, e2⟩ := hpre (n, v) List.mem_cons_self hn
      simp only at e1
      subst e1
      obtain ⟨a', ha', -, -⟩ := C29_view_all q' e2.wf (by rw [rankShaped_ndim e2]; exact hpos)
      rw [step n q' _ a' hn ha', ih]
      simp only [List.set_set]

/-- Rank 0's `gather_state`, when the slots of the others hold `last`. -/
theorem gatherLoop_root {c : Comm} (hl : FloatSafe c.layout) (junk : List Nat → α)
    {dims : List Dim} {cells : List Int} {ky kx : Nat} (ha : HAxes dims ky kx)
    (hb : ∀ k, k < dims.length → cells.getD k 0 * ranksAlong c.layout (dims.getD k .x) < 2 ^ 51)
    (val : String → SVal α) (own : String → Quantity α) (last : Int → Quantity α)
    (hlast : ∀ r ∈ c.ranks, (last r).RankShaped dims cells) (names : List String) (hnd : names.Nodup)
    (hs : ∀ v ∈ names, v ≠ "time" → val v = .qty (own v) ∧ (own v).RankShaped dims cells)
    (st : CState α) (hst : ∀ v ∈ names, v ≠ "time" →
      (∀ x, st.get? v = some x → ∃ q, x = .qty q ∧ q.GlobalShaped c dims cells) ∧
      (st.get? v = none → (own v).dims = dims))
    (b : Board α) (hlen : b.slots.length = c.size.toNat) (hslots : ∀ r ∈ c.ranks, r ≠ 0 → Holds b.slots r (last r)) :
    ∃ out slots, gatherLoop c junk 0 (names.map fun v => (v, val v)) (some st) b =
        (.ok (some out), { b with slots := slots }) ∧ slots.length = c.size.toNat ∧
      (∀ v ∉ names, out.get? v = st.get? v) ∧
      ("time" ∈ names → out.get? "time" = some (val "time")) ∧
      ∀ v ∈ names, v ≠ "time" →
        GatheredInto c dims cells (fun r => if r = 0 then own v else last r) (st.get? v) (out.get? v) := by
  have hsize := comm_size_pos hl
  have hpos : 0 < dims.length := by have := ha.ylt; omega
  have h0mem : (0 : Int) ∈ c.ranks := (mem_ranks c 0).2 ⟨by omega, hsize⟩
  induction names generalizing st b with
  | nil => exact ⟨st, b.slots, rfl, hlen, fun _ _ => rfl, by simp, by simp⟩
  | cons name names ih =>
    rw [List.nodup_cons] at hnd
    have hs' := fun v (hv : v ∈ names) => hs v (List.mem_cons_of_mem _ hv)
    have hstep : ∀ x, ∀ v ∈ names, v ≠ "time" →
        (∀ y, (st.set name x).get? v = some y → ∃ q, y = .qty q ∧ q.GlobalShaped c dims cells) ∧
        ((st.set name x).get? v = none → (own v).dims = dims) := by
      intro x v hv hne
      have hv' : v ≠ name := fun e => hnd.1 (e ▸ hv)
      rw [Dict.get?_set_ne _ _ hv']
      exact hst v (List.mem_cons_of_mem _ hv) hne
    by_cases ht : name = "time"
    · subst ht
      obtain ⟨out, slots, r1, r2, o1, o2, o3⟩ := ih hnd.2 hs' (st.set "time" (val "time")) (hstep _) b hlen hslots
      refine ⟨out, slots, ?_, r2, ?_, ?_, ?_⟩
      · rw [List.map_cons, gatherLoop, if_pos rfl, if_pos (show (0 : Int) = ROOT_RANK from rfl)]
        exact r1
      · intro v hv
        rw [List.mem_cons, not_or] at hv
        rw [o1 v hv.2, Dict.get?_set_ne _ _ hv.1]
      · intro _
        rw [o1 _ hnd.1, Dict.get?_set_self]
      · intro v hv hne
        rcases List.mem_cons.1 hv with rfl | hv
        · exact absurd rfl hne
        · have := o3 v hv hne
          rwa [Dict.get?_set_ne _ _ hne] at this
    · obtain ⟨hv1, hv2⟩ := hs name List.mem_cons_self ht
      obtain ⟨k1, k2⟩ := hst name List.mem_cons_self ht
      obtain ⟨o, e1, e2, e3⟩ := recvOf_ok st name (fun v hv => by
          obtain ⟨q, hq, -⟩ := k1 v hv
          exact ⟨q, hq⟩)
      have hsend : ∀ r ∈ c.ranks, (if r = 0 then own name else last r).RankShaped dims cells := by
        intro r hr
        split_ifs
        · exact hv2
        · exact hlast r hr
      obtain ⟨root, slots, g1, g2, g3, g4⟩ := gather_root_ok hl junk hpos hb (fun r => if r = 0 then own name else last r) o
        hsend
        (by
          intro q hq
          obtain ⟨q', e, h⟩ := k1 _ ((e2 q).1 hq)
          cases e; exact h)
        (by
          intro h
          rw [if_pos rfl]
          exact k2 (e3.1 h)) b hlen (fun r hr h0 => by simp only [if_neg h0]; exact hslots r hr h0)
      obtain ⟨out, slots', r1, r2, o1, o2, o3⟩ := ih hnd.2 hs' (st.set name (.qty root)) (hstep _)
        { b with slots := slots } g2 (fun r hr h0 => by
          have := g3 r hr
          simp only [if_neg h0] at this
          exact this)
      refine ⟨out, slots', ?_, r2, ?_, ?_, ?_⟩
      · rw [List.map_cons, hv1, gatherLoop, if_neg ht, if_pos (show (0 : Int) = ROOT_RANK from rfl)]
        show DM.bind (DM.lift (recvOf st name)) _ b = _
        rw [e1]
        show DM.bind (gather c junk 0 (own name) o) _ b = _
        unfold DM.bind
        rw [if_pos rfl] at g1
        rw [g1]
        exact r1
      · intro v hv
        rw [List.mem_cons, not_or] at hv
        rw [o1 v hv.2, Dict.get?_set_ne _ _ hv.1]
      · intro h
        exact o2 ((List.mem_cons.1 h).resolve_left (Ne.symm ht))
      · intro v hv hne
        rcases List.mem_cons.1 hv with rfl | hv
        · refine ⟨root, ?_, g4.shaped, g4.gathered hl ha (hsend 0 h0mem), ?_, ?_⟩
          · rw [o1 v hnd.1, Dict.get?_set_self]
          · intro q hq
            exact g4.given q ((e2 q).2 hq)
          · intro h
            exact (g4.fresh (e3.2 h)).1
        · have hne' : v ≠ name := fun e => hnd.1 (e ▸ hv)
          have := o3 v hv hne
          rwa [Dict.get?_set_ne _ _ hne'] at this

end FV3.OneProcess
