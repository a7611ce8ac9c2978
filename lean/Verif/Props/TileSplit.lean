import Verif.Proofs.TileSplit
import Verif.Proofs.Never
import Verif.Props.TileSession

/-!
# C70: the tile communicators are made when they are first used
-/

namespace FV3
variable {α : Type} [Neg α]

/-- **C70**: the tile communicators need not be made beforehand: if the ranks of all tiles use `communicator.tile` in the
call in which it is first used (and different tiles then use it as they like), the session ends on all ranks, whatever
the schedule and the buffering of MPI, and has the effect of performing the calls one after the other, as in C67. -/
theorem C70_lazy {l : Layout} (hl : FloatSafe l) (hsq : l.y = l.x) (buf : Buffering) (junk tjunk : Nat → List Nat → α)
    (mem : Int → Mem α) (glob : Int → Nat → Option (Quantity α)) (time gtime : Int → Nat → Option Int)
    (tglob : Int → Nat → Option (Quantity α)) (tgtime : Int → Nat → Option Int)
    (parts : Nat → Parts) (tparts : Int → Nat → Parts) (filled : List Nat) (tfilled : Int → List Nat)
    (hglob : ∀ g v, glob 0 g = some v → v.GlobalShaped (.cube l) (parts g).dims (parts g).cells)
    (hfilled : ∀ g ∈ filled, ∃ v, glob 0 g = some v)
    (htglob : ∀ t, 0 ≤ t → t < 6 → ∀ g v, tglob (t * l.tileRanks) g = some v →
      v.GlobalShaped (.tile l) (tparts t g).dims (tparts t g).cells)
    (htfilled : ∀ t, 0 ≤ t → t < 6 → ∀ g ∈ tfilled t, ∃ v, tglob (t * l.tileRanks) g = some v)
    (ops : List (UOp α)) (hops : TilesValid l mem parts tparts filled tfilled ops) (hfirst : FirstUseTogether ops) :
    ∃ fin : Int → LazyState α,
      (lazySessionNet l junk tjunk ops mem glob time gtime tglob tgtime).Completes buf (fun r =>
        if r ∈ allRanks l then some (.ok (fin r)) else none) ∧
      TilesRun l parts tparts ops
        ⟨⟨mem, glob 0, time, gtime 0⟩, fun t => tglob (t * l.tileRanks), fun t => tgtime (t * l.tileRanks)⟩
        ⟨⟨fun r => (fin r).s.base.s.mem, (fin 0).s.base.s.glob, fun r => (fin r).s.base.time, (fin 0).s.base.gtime⟩,
          fun t => (fin (t * l.tileRanks)).s.tglob, fun t => (fin (t * l.tileRanks)).s.tgtime⟩ ∧
      ∀ r ∈ allRanks l, MetaIs mem r (fin r).s.base.s.mem :=
  lazy_from (k := 0) (n := 0) (tn := fun _ => 0)
    (s := fun r => ⟨⟨⟨mem r, glob r, 0, 0⟩, time r, gtime r⟩, tglob r, tgtime r, 0⟩) hl hsq buf junk tjunk
    ⟨⟨fun _ _ _ => SameMeta.refl _, fun _ _ => rfl, fun _ _ => rfl, hglob, hfilled⟩,
      fun t t0 t6 => ⟨fun _ _ _ => SameMeta.refl _, fun _ _ => rfl,
        by simpa only [TileState.view, Int.add_zero] using htglob t t0 t6,
        by simpa only [TileState.view, Int.add_zero] using htfilled t t0 t6⟩⟩ hops hfirst
    ⟨fun _ _ _ _ => rfl, fun _ _ _ _ => rfl⟩

/-! ### Limit -/

theorem Proc.Spec.quiet {M R : Type} {A : Tag → Prop} {Q : R → Prop} {C : Int → Tag → Prop} {p : Proc M R}
    (hp : p.Spec A Q) (hc : ∀ d t, A t → ¬ C d t) : p.Quiet C := by
  induction p with
  | ret x => exact .ret x
  | isend d t m k ih => exact .isend (hc d t hp.1) fun i => ih i (hp.2 i)
  | recv s t k ih => exact .recv fun i => ih i (hp.2 i)
  | await d t i k ih => exact .await fun i => ih i (hp.2 i)

theorem Proc.Quiet.bind {M R S : Type} {C : Int → Tag → Prop} {p : Proc M R} {f : R → Proc M S} (hp : p.Quiet C)
    (hf : ∀ x, (f x).Quiet C) : (p.bind f).Quiet C := by
  induction hp with
  | ret x => exact hf x
  | isend h _ ih => exact .isend h ih
  | recv _ ih => exact .recv ih
  | await _ ih => exact .await ih

theorem Proc.Blocked.bind {M R S : Type} {C : Int → Tag → Prop} {s : Int} {t : Tag} {p : Proc M R} (f : R → Proc M S)
    (hp : p.Blocked C s t) : (p.bind f).Blocked C s t := by
  induction hp with
  | here k => exact .here _
  | isend h _ ih => exact .isend h ih
  | recv _ ih => exact .recv ih
  | await _ ih => exact .await ih

/-- Without collective calls nothing is sent in collectives. -/
theorem execLazy_quiet {l : Layout} (junk tjunk : Nat → List Nat → α) {r : Int} {C : Int → Tag → Prop}
    (hC : ∀ d i, ¬ C d (.halo i)) {ops : List (UOp α)} (h : ∀ op ∈ ops, op.NoColl (tileColor l r)) (s : LazyState α) :
    (execLazy l junk tjunk r ops s).Quiet C := by
  induction ops generalizing s with
  | nil => exact .ret _
  | cons op ops ih =>
    have h1 := h op (List.mem_cons_self ..)
    refine Proc.Quiet.bind ?_ fun x => ?_
    · cases op with
      | op o =>
        cases o with
        | op o =>
          cases o with
          | call c =>
            refine Proc.Quiet.bind (Proc.Quiet.bind ?_ fun x => ?_) fun x => ?_
            · refine Proc.Quiet.bind (Proc.Spec.quiet (CommM.Uses.exec l r c _ rfl) ?_) fun x => ?_
              · rintro d t ⟨i, rfl, -⟩
                exact hC d i
              · split <;> exact .ret _
            · split <;> exact .ret _
            · split <;> exact .ret _
          | scatter q g => exact h1.elim
          | gather q g => exact h1.elim
        | scatterState i j vars => exact h1.elim
        | gatherState i j vars => exact h1.elim
      | tiles o =>
        have e : o (tileColor l r) = none := h1
        simp only [UOp.execLazy, e]
        exact .ret _
    · cases x with
      | error e => exact .ret _
      | ok s' => exact ih (fun op ho => h op (List.mem_cons_of_mem _ ho)) s'

omit [Neg α] in
theorem recvAll_blocked {R : Type} {C : Int → Tag → Prop} {tag : Tag} {v : Int} {rs : List Int} (hv : v ∈ rs)
    (k : List (Msg α) → Proc (Msg α) R) : (recvAll tag rs k).Blocked C v tag := by
  induction rs generalizing k with
  | nil => cases hv
  | cons r rs ih =>
    by_cases e : v = r
    · subst e
      exact .here _
    · exact .recv fun m => ih ((List.mem_cons.1 hv).resolve_left e) _

/-- **C70**, limit: if `communicator.tile` is used for the first time by the ranks of some tiles but not of others, and the
other ranks make no collective call later (they may go on with halo updates), the ranks that use it do not return, in no
schedule and whatever MPI buffers. -/
theorem C70_limit {l : Layout} (hl : FloatSafe l) (hsq : l.y = l.x) (buf : Buffering) (junk tjunk : Nat → List Nat → α)
    (mem : Int → Mem α) (glob : Int → Nat → Option (Quantity α)) (time gtime : Int → Nat → Option Int)
    (tglob : Int → Nat → Option (Quantity α)) (tgtime : Int → Nat → Option Int)
    (parts : Nat → Parts) (tparts : Int → Nat → Parts) (filled : List Nat) (tfilled : Int → List Nat)
    (hglob : ∀ g v, glob 0 g = some v → v.GlobalShaped (.cube l) (parts g).dims (parts g).cells)
    (hfilled : ∀ g ∈ filled, ∃ v, glob 0 g = some v)
    (htglob : ∀ t, 0 ≤ t → t < 6 → ∀ g v, tglob (t * l.tileRanks) g = some v →
      v.GlobalShaped (.tile l) (tparts t g).dims (tparts t g).cells)
    (htfilled : ∀ t, 0 ≤ t → t < 6 → ∀ g ∈ tfilled t, ∃ v, tglob (t * l.tileRanks) g = some v)
    (pre post : List (UOp α)) (o : Int → Option COp) (hpre : TilesValid l mem parts tparts filled tfilled pre)
    (hno : ∀ o, UOp.tiles o ∈ pre → ∀ t, 0 ≤ t → t < 6 → o t = none)
    (t : Int) (t0 : 0 ≤ t) (t6 : t < 6) (ht : o t = none)
    (hpost : ∀ t, 0 ≤ t → t < 6 → o t = none → ∀ op ∈ post, op.NoColl t)
    (sched : List Int) (A : Net (Msg α) (Option (Py (LazyState α))))
    (hA : (lazySessionNet l junk tjunk (pre ++ .tiles o :: post) mem glob time gtime tglob tgtime).run buf sched = some A)
    (r : Int) (hr : r ∈ allRanks l) (huse : o (r / l.tileRanks) ≠ none) (x : Option (Py (LazyState α))) :
    A.procs r ≠ .ret x := by
  have hn : 0 < l.tileRanks := tileRanks_pos hl.ypos hl.xpos
  have hcube : l.cubeRanks = 6 * l.tileRanks := rfl
  obtain ⟨s', filled', tfilled', k, n, tn, s0, T, c1, c2, c3, c4, -, -⟩ := lazy_pre (k := 0) (n := 0) (tn := fun _ => 0)
    (s := fun r => ⟨⟨⟨mem r, glob r, 0, 0⟩, time r, gtime r⟩, tglob r, tgtime r, 0⟩) (post := []) (sent := fun _ _ _ => [])
    (rcvd := fun _ _ _ => 0) hl hsq buf junk tjunk
    ⟨⟨fun _ _ _ => SameMeta.refl _, fun _ _ => rfl, fun _ _ => rfl, hglob, hfilled⟩,
      fun t t0 t6 => ⟨fun _ _ _ => SameMeta.refl _, fun _ _ => rfl,
        by simpa only [TileState.view, Int.add_zero] using htglob t t0 t6,
        by simpa only [TileState.view, Int.add_zero] using htfilled t t0 t6⟩⟩ (by rw [List.append_nil]; exact hpre) hno
    ⟨fun _ _ _ _ => rfl, fun _ _ _ _ => rfl⟩
  have r1 := Net.run_andThen (lazyRest l junk tjunk (.tiles o :: post)) c1
  have e1 : (⟨fun r => if r ∈ allRanks l then (execLazy l junk tjunk r pre
        ⟨⟨⟨⟨mem r, glob r, 0, 0⟩, time r, gtime r⟩, tglob r, tgtime r, 0⟩, none⟩).bind fun x => .ret (some x)
        else .ret none, fun _ _ _ => [], fun _ _ _ => 0⟩ : Net (Msg α) _).andThen
          (lazyRest l junk tjunk (.tiles o :: post)) =
      lazySessionNet l junk tjunk (pre ++ .tiles o :: post) mem glob time gtime tglob tgtime := by
    unfold Net.andThen lazySessionNet Net.start
    congr 1
    funext r
    dsimp only
    by_cases hr : r ∈ allRanks l
    · simp only [if_pos hr]
      rw [execLazy_append, Proc.bind_bind, Proc.bind_bind]
      congr 1
      funext y
      cases y <;> rfl
    · simp only [if_neg hr]
      rfl
  rw [e1] at r1
  -- the ranks that use their tile communicator
  let U : Int → Prop := fun r => r ∈ allRanks l ∧ o (r / l.tileRanks) ≠ none
  let C : Int → Int → Tag → Prop := fun s d t => (∃ m, t = .coll m ∧ n ≤ m) ∧ ¬ (U s ∧ d = 0 ∧ t = .coll n)
  refine Net.Waits.never (C := C) (W := U) r1 ⟨fun s d t hc => ?_, fun r hu => ?_, fun r hu => ?_⟩ sched A hA r ⟨hr, huse⟩ x
  · obtain ⟨⟨m, rfl, hm⟩, -⟩ := hc
    exact c3.sent s d _ (.inl (.inr ⟨m, rfl, hm⟩))
  · obtain ⟨hr, hu'⟩ := hu
    have hr' := mem_allRanks.1 hr
    have hcol : tileColor l r = r / l.tileRanks := tileColor_eq hl.ypos hl.xpos r
    have hcoll : (s' r).base.s.coll = n := c4.base.coll r hr
    have hp : ∀ D src tag, (splitCall (α := α) l.cubeRanks r (tileColor l r) r n).Blocked D src tag →
        ((T.andThen (lazyRest l junk tjunk (.tiles o :: post))).procs r).Blocked D src tag := by
      intro D src tag hb
      show ((T.procs r).bind _).Blocked D src tag
      rw [c2 r, if_pos hr]
      simp only [Proc.bind, lazyRest]
      rw [execLazy_split junk tjunk (by rw [hcol]; exact hu')]
      refine Proc.Blocked.bind _ (Proc.Blocked.bind _ ?_)
      unfold LazyState.getTile
      dsimp only
      rw [hcoll]
      exact Proc.Blocked.bind _ hb
    by_cases h0 : r = 0
    · subst h0
      have hv0 := Int.mul_nonneg t0 (Int.le_of_lt hn)
      have hdt : t * l.tileRanks / l.tileRanks = t := Int.mul_ediv_cancel t (by omega)
      have hv6 : t * l.tileRanks < l.cubeRanks := by
        have := Int.mul_lt_mul_of_pos_right t6 hn
        omega
      have hne : t * l.tileRanks ≠ 0 := by
        intro e
        rw [e, Int.zero_ediv] at hdt
        rw [Int.zero_ediv, hdt] at hu'
        exact hu' ht
      refine ⟨t * l.tileRanks, .coll n, ⟨⟨n, rfl, Nat.le_refl _⟩, fun h => ?_⟩, hp _ _ _ ?_⟩
      · have := h.1.2
        rw [hdt] at this
        exact this ht
      · unfold splitCall
        rw [if_pos (show (0 : Int) = ROOT_RANK from rfl)]
        refine Proc.Blocked.bind _ (recvAll_blocked ?_ _)
        unfold clients
        rw [List.mem_map]
        refine ⟨(t * l.tileRanks - 1).toNat, List.mem_range.2 (by omega), by omega⟩
    · refine ⟨0, .coll (n + 1), ⟨⟨n + 1, rfl, by omega⟩, fun h => by
        have := h.2.2
        simp at this⟩, hp _ _ _ ?_⟩
      unfold splitCall
      rw [if_neg (show ¬ r = ROOT_RANK from h0)]
      refine .isend (fun h => h.2 ⟨⟨hr, hu'⟩, rfl, rfl⟩) fun i => .await fun u => .here _
  · show ((T.procs r).bind _).Quiet _
    rw [c2 r]
    by_cases hr : r ∈ allRanks l
    · have hr' := mem_allRanks.1 hr
      have hcol : tileColor l r = r / l.tileRanks := tileColor_eq hl.ypos hl.xpos r
      have hd := div_range hn hr'.1 hr'.2
      have hoff : o (r / l.tileRanks) = none := by
        by_contra h
        exact hu ⟨hr, h⟩
      rw [if_pos hr]
      show ((execLazy l junk tjunk r (.tiles o :: post) ⟨s' r, none⟩).bind _).Quiet _
      refine Proc.Quiet.bind (execLazy_quiet junk tjunk (fun d i h => ?_) (fun op hop => ?_) _) fun _ => .ret _
      · obtain ⟨⟨m, e, -⟩, -⟩ := h
        cases e
      · rcases List.mem_cons.1 hop with rfl | hop
        · show o (tileColor l r) = none
          rw [hcol]
          exact hoff
        · rw [hcol]
          exact hpost _ hd.1 hd.2 hoff op hop
    · rw [if_neg hr]
      exact .ret _

/-! ### Concrete cases -/

/-- After a computation all tiles gather a quantity (which makes the tile communicators), then tile 3 alone scatters it, then
all ranks gather it. -/
def exLazy : List (UOp α) :=
  [.op (.op (.call (.compute exNext))), .tiles (fun _ => some (.gather 1 0)),
    .tiles (fun t => if t = 3 then some (.scatter 1 0) else none), .op (.op (.gather 1 5))]

example (buf : Buffering) (z : α) (F : Int → Nat → List Nat → α) :
    ∃ fin : Int → LazyState α,
      (lazySessionNet ⟨2, 2⟩ (fun _ _ => z) (fun _ _ => z) exLazy (exAnyMem z F) (fun _ _ => none) (fun _ _ => none)
        (fun _ _ => none) (fun _ _ => none) (fun _ _ => none)).Completes buf
        (fun r => if r ∈ allRanks ⟨2, 2⟩ then some (.ok (fin r)) else none) ∧
      ∃ w v, (fin 0).s.base.s.glob 5 = some w ∧ (fin 16).s.tglob 0 = some v := by
  have hv : TilesValid ⟨2, 2⟩ (exAnyMem z F) exParts (fun _ => exParts) [] (fun _ => []) exLazy := by
    refine ⟨fun _ _ _ hm q' => ⟨(hm q').shape, (hm q').dims, (hm q').units, (hm q').origin, (hm q').extent⟩,
      fun t t0 t6 a ha => ?_, fun t t0 t6 a ha => ?_, exAny_parts z F _ _, trivial⟩
    · cases ha
      exact exAny_onTile z F t0 t6 _ _
    · dsimp only at ha
      split at ha
      · cases ha
        exact ⟨(by decide : (0 : Nat) ∈ [0]), exAny_onTile z F t0 t6 _ _⟩
      · cases ha
  obtain ⟨fin, h1, ⟨S1, -, S2, h3, S3, h4, S4, h5, h6⟩, -⟩ := C70_lazy (C05_safe_up_to_48 ⟨2, 2⟩ (by decide) (by decide)
    (by decide) (by decide)) rfl buf (fun _ _ => z) (fun _ _ => z) (exAnyMem z F) (fun _ _ => none) (fun _ _ => none)
    (fun _ _ => none) (fun _ _ => none) (fun _ _ => none) exParts
    (fun _ => exParts) [] (fun _ => []) (fun _ _ h => by cases h) (fun _ h => by cases h) (fun _ _ _ _ _ h => by cases h)
    (fun _ _ _ _ h => by cases h) exLazy
    hv
    (.inl fun _ _ _ h => by cases h)
  refine ⟨fin, h1, ?_⟩
  obtain ⟨-, -, w, hw, -⟩ := h5.1.1
  obtain ⟨-, -, -, v, hv, -⟩ := h3.2.2 4 (by decide) (by decide)
  refine ⟨w, v, ?_, ?_⟩
  · have := h6.1.glob
    exact (congrFun this 5).trans hw
  · have e1 := (h6.2 4 (by decide) (by decide)).1
    have e2 := (h5.2 4 (by decide) (by decide)).1
    have e3 := (h4.2.2 4 (by decide) (by decide)).glob
    exact (congrFun e1 0).trans ((congrFun e2 0).trans ((congrFun e3 0).trans hv))

/-- After a computation tile 3 alone gathers a quantity, then all ranks update halos: ranks 12 to 15 do not return. -/
example (buf : Buffering) (z : α) (F : Int → Nat → List Nat → α) (sched : List Int)
    (A : Net (Msg α) (Option (Py (LazyState α))))
    (hA : (lazySessionNet ⟨2, 2⟩ (fun _ _ => z) (fun _ _ => z) ([.op (.op (.call (.compute exNext)))] ++
        .tiles (fun t => if t = 3 then some (.gather 1 0) else none) :: [.op (.op (.call (.haloUpdate 0 1)))])
        (exAnyMem z F) (fun _ _ => none) (fun _ _ => none) (fun _ _ => none) (fun _ _ => none)
        (fun _ _ => none)).run buf sched = some A) (r : Int) (h0 : 12 ≤ r) (h1 : r < 16) (x : Option (Py (LazyState α))) :
    A.procs r ≠ .ret x := by
  have e : (⟨2, 2⟩ : Layout).tileRanks = 4 := rfl
  refine C70_limit (C05_safe_up_to_48 ⟨2, 2⟩ (by decide) (by decide) (by decide) (by decide)) rfl buf _ _ _ _ _ _ _ _
    exParts (fun _ => exParts) [] (fun _ => []) (fun _ _ h => by cases h) (fun _ h => by cases h)
    (fun _ _ _ _ _ h => by cases h) (fun _ _ _ _ h => by cases h) [.op (.op (.call (.compute exNext)))]
    [.op (.op (.call (.haloUpdate 0 1)))] _
    ⟨fun _ _ _ hm q' => ⟨(hm q').shape, (hm q').dims, (hm q').units, (hm q').origin, (hm q').extent⟩, trivial⟩
    ?_ 0 (by decide) (by decide) rfl ?_ sched A hA r
    (mem_allRanks.2 ⟨by omega, by have : (⟨2, 2⟩ : Layout).cubeRanks = 24 := rfl; omega⟩) ?_ x
  · intro o ho
    simp only [List.mem_cons, reduceCtorEq, List.not_mem_nil, or_false] at ho
  · intro t _ _ _ op ho
    simp only [List.mem_cons, List.not_mem_nil, or_false] at ho
    subst ho
    exact trivial
  · have : r / 4 = 3 := by omega
    rw [e, this]
    simp

end FV3
