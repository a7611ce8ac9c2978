import Verif.Model.TagFull
import Verif.Spec.TagFull
import Verif.Props.TagBound
import Verif.Props.FullSession

/-!
# C74 for complete sessions
-/

namespace FV3
variable {α : Type} [Neg α]

omit [Neg α] in
theorem fullTags_op (o : Op α) (ops : List (FOp α)) : fullTags (.op o :: ops) = o.nTags + fullTags ops := by
  cases o <;> rfl

omit [Neg α] in
theorem fullTags_coll (o : COp) (ops : List (FOp α)) : fullTags (.coll o :: ops) = fullTags ops := Nat.zero_add _

omit [Neg α] in
theorem fullTags_tiles (o : Int → Option COp) (ops : List (FOp α)) : fullTags (.tiles o :: ops) = fullTags ops :=
  Nat.zero_add _

omit [Neg α] in
theorem fine_notHalo {ub : Nat} {t : Tag} (h : NotHalo t) : Fine ub t := by
  cases t with
  | halo n => exact absurd ⟨n, rfl⟩ h
  | _ => rfl

/-- A sequence of calls with the tags it needs. -/
theorem execFull_fits {ub : Nat} (l : Layout) (junk tjunk : Nat → List Nat → α) (r : Int) (ops : List (FOp α))
    (s : FState α) (hub : s.comm.lastTag + fullTags ops ≤ ub) (hq : ReqsIn ub s.comm) :
    (execFull l junk tjunk r ops s).Spec (Fine ub) fun x => ∀ s', x = .ok s' →
      s'.comm.lastTag = s.comm.lastTag + fullTags ops ∧ ReqsIn ub s'.comm := by
  induction ops generalizing s with
  | nil =>
    intro s' h
    cases h
    exact ⟨rfl, hq⟩
  | cons op ops ih =>
    have key : (op.exec l junk tjunk r s).Spec (Fine ub) fun x => ∀ s', x = .ok s' →
        s'.comm.lastTag + fullTags ops = s.comm.lastTag + fullTags (op :: ops) ∧ ReqsIn ub s'.comm := by
      cases op with
      | op o =>
        rw [fullTags_op] at hub ⊢
        refine Proc.Spec.bind (CommM.Fits.op l r o (by omega) s.comm rfl hq) fun y hy => ?_
        obtain ⟨a | a, s1⟩ := y
        · intro s' h
          cases h
        · intro s' h
          cases h
          obtain ⟨h1, h2, -⟩ := hy a rfl
          have h1 : s1.lastTag = _ := h1
          exact ⟨by show s1.lastTag + _ = _; omega, h2⟩
      | coll o =>
        rw [fullTags_coll]
        refine Proc.Spec.bind (Q := fun _ => True) ((COp.exec_only ..).mono (fun _ h => fine_notHalo (notHalo_coll h))
          fun _ _ => trivial) fun y _ => ?_
        cases y with
        | error e =>
          intro s' h
          cases h
        | ok v =>
          intro s' h
          cases h
          exact ⟨rfl, hq⟩
      | tiles o =>
        rw [fullTags_tiles]
        refine Proc.Spec.bind (Q := fun _ => True) ((tiles_notHalo l junk tjunk r o s.lazy).mono
          (fun _ h => fine_notHalo h) fun _ _ => trivial) fun y _ => ?_
        cases y with
        | error e =>
          intro s' h
          cases h
        | ok v =>
          intro s' h
          cases h
          exact ⟨rfl, hq⟩
    refine Proc.Spec.bind key fun y hy => ?_
    cases y with
    | error e =>
      intro s' h
      cases h
    | ok s1 =>
      obtain ⟨h1, h2⟩ := hy s1 rfl
      refine (ih s1 (by omega) h2).mono (fun _ h => h) fun x hx s' h => ?_
      obtain ⟨h3, h4⟩ := hx s' h
      exact ⟨by omega, h4⟩

theorem execFull_append (l : Layout) (junk tjunk : Nat → List Nat → α) (r : Int) (a b : List (FOp α)) (s : FState α) :
    execFull l junk tjunk r (a ++ b) s = (execFull l junk tjunk r a s).bind fun x =>
      match x with
      | .error e => .ret (.error e)
      | .ok s' => execFull l junk tjunk r b s' := by
  induction a generalizing s with
  | nil => rfl
  | cons op a ih =>
    show (op.exec l junk tjunk r s).bind _ = ((op.exec l junk tjunk r s).bind _).bind _
    rw [Proc.bind_bind]
    congr 1
    funext x
    cases x with
    | error e => rfl
    | ok s' => exact ih s'

omit [Neg α] in
/-- The call that needs a tag beyond the bound. -/
theorem fullTags_split {ub : Nat} : ∀ {n : Nat} {ops : List (FOp α)}, n ≤ ub → ub < n + fullTags ops →
    ∃ pre o rest, ops = pre ++ .op o :: rest ∧ o.isStart = true ∧ n + fullTags pre ≤ ub ∧ ub < n + fullTags pre + o.nTags
  | n, [], h1, h2 => absurd h2 (by simp [fullTags]; omega)
  | n, .coll o :: ops, h1, h2 => by
    rw [fullTags_coll] at h2
    obtain ⟨pre, o', rest, rfl, g1, g2, g3⟩ := fullTags_split h1 h2
    exact ⟨.coll o :: pre, o', rest, rfl, g1, by rw [fullTags_coll]; exact g2, by rw [fullTags_coll]; exact g3⟩
  | n, .tiles o :: ops, h1, h2 => by
    rw [fullTags_tiles] at h2
    obtain ⟨pre, o', rest, rfl, g1, g2, g3⟩ := fullTags_split h1 h2
    exact ⟨.tiles o :: pre, o', rest, rfl, g1, by rw [fullTags_tiles]; exact g2, by rw [fullTags_tiles]; exact g3⟩
  | n, .op o :: ops, h1, h2 => by
    rw [fullTags_op] at h2
    by_cases h : n + o.nTags ≤ ub
    · obtain ⟨pre, o', rest, rfl, g1, g2, g3⟩ := fullTags_split h (show ub < n + o.nTags + fullTags ops by omega)
      exact ⟨.op o :: pre, o', rest, rfl, g1, by rw [fullTags_op]; omega, by rw [fullTags_op]; omega⟩
    · refine ⟨[], o, ops, rfl, ?_, by simpa [fullTags] using h1, by simp [fullTags]; omega⟩
      cases o with
      | wait i => exact absurd h (by simp [Op.nTags]; omega)
      | compute f => exact absurd h (by simp [Op.nTags]; omega)
      | _ => rfl

theorem FullCalls.split {l : Layout} {m : Int → Mem α} {parts : Nat → Parts} {tparts : Int → Nat → Parts}
    {filled : List Nat} {tfilled : Int → List Nat} {a b : List (FOp α)}
    (h : FullCalls l m parts tparts filled tfilled (a ++ b)) :
    FullCalls l m parts tparts filled tfilled a ∧ ∃ filled' tfilled', FullCalls l m parts tparts filled' tfilled' b := by
  induction a generalizing filled tfilled with
  | nil => exact ⟨trivial, _, _, h⟩
  | cons op a ih =>
    obtain ⟨h1, h2⟩ := h
    obtain ⟨g1, g2⟩ := ih h2
    exact ⟨⟨h1, g1⟩, g2⟩

omit [Neg α] in
theorem FullFirstUse.split {a b : List (FOp α)} (h : FullFirstUse (a ++ b)) : FullFirstUse a := by
  induction a with
  | nil => trivial
  | cons op a ih =>
    cases op with
    | op o => exact ih h
    | coll o => exact ih h
    | tiles o =>
      rcases h with h | ⟨h1, h2⟩
      · exact .inl h
      · exact .inr ⟨h1, ih h2⟩

/-- **C74** for complete sessions (C75): with an MPI whose largest tag is `ub`, a session whose halo updates and
synchronisations are at most `ub`, vector halo updates counted twice, ends on all ranks and does what it does with any
other MPI.  The collectives and the creation of the tile communicators take no tags. -/
theorem C74_full {l : Layout} (hl : FloatSafe l) (hsq : l.y = l.x) (ub : Nat) (buf : Buffering)
    (junk tjunk : Nat → List Nat → α)
    (mem : Int → Mem α) (glob : Int → Nat → Option (Quantity α)) (time gtime : Int → Nat → Option Int)
    (tglob : Int → Nat → Option (Quantity α)) (tgtime : Int → Nat → Option Int)
    (parts : Nat → Parts) (tparts : Int → Nat → Parts) (filled : List Nat) (tfilled : Int → List Nat)
    (hglob : ∀ g v, glob 0 g = some v → v.GlobalShaped (.cube l) (parts g).dims (parts g).cells)
    (hfilled : ∀ g ∈ filled, ∃ v, glob 0 g = some v)
    (htglob : ∀ t, 0 ≤ t → t < 6 → ∀ g v, tglob (t * l.tileRanks) g = some v →
      v.GlobalShaped (.tile l) (tparts t g).dims (tparts t g).cells)
    (htfilled : ∀ t, 0 ≤ t → t < 6 → ∀ g ∈ tfilled t, ∃ v, tglob (t * l.tileRanks) g = some v)
    (ops : List (FOp α)) (hops : FullValid l mem parts tparts filled tfilled ops) (hub : fullTags ops ≤ ub) :
    ∃ (fin : Int → FState α) (started : Pending α),
      (boundedFull ub l junk tjunk ops mem glob time gtime tglob tgtime).Completes buf (fun r =>
        if r ∈ allRanks l then some (.ok (fin r)) else none) ∧
      FullRun l parts tparts ops (.new l mem glob time gtime tglob tgtime) (.ofStates l fin started) ∧
      ∀ r ∈ allRanks l, MetaIs mem r (fin r).comm.mem := by
  have e : boundedFull ub l junk tjunk ops mem glob time gtime tglob tgtime =
      fullNet l junk tjunk ops mem glob time gtime tglob tgtime := by
    unfold boundedFull fullNet
    congr 1
    funext r
    rw [Proc.bounded_eq (execFull_fits (ub := ub) l junk tjunk r ops
      (.new (mem r) (glob r) (time r) (gtime r) (tglob r) (tgtime r)) (by show 0 + _ ≤ ub; omega) fun _ h => by cases h)]
  rw [e]
  exact C75_full hl hsq buf junk tjunk mem glob time gtime tglob tgtime parts tparts filled tfilled hglob hfilled htglob
    htfilled ops hops

/-- **C74** (limit) for complete sessions: with more of them an exception is raised on every rank, whatever the schedule
and the buffering of MPI, and no rank hangs. -/
theorem C74_full_exhausted {l : Layout} (hl : FloatSafe l) (hsq : l.y = l.x) (ub : Nat) (buf : Buffering)
    (junk tjunk : Nat → List Nat → α)
    (mem : Int → Mem α) (glob : Int → Nat → Option (Quantity α)) (time gtime : Int → Nat → Option Int)
    (tglob : Int → Nat → Option (Quantity α)) (tgtime : Int → Nat → Option Int)
    (parts : Nat → Parts) (tparts : Int → Nat → Parts) (filled : List Nat) (tfilled : Int → List Nat)
    (hglob : ∀ g v, glob 0 g = some v → v.GlobalShaped (.cube l) (parts g).dims (parts g).cells)
    (hfilled : ∀ g ∈ filled, ∃ v, glob 0 g = some v)
    (htglob : ∀ t, 0 ≤ t → t < 6 → ∀ g v, tglob (t * l.tileRanks) g = some v →
      v.GlobalShaped (.tile l) (tparts t g).dims (tparts t g).cells)
    (htfilled : ∀ t, 0 ≤ t → t < 6 → ∀ g ∈ tfilled t, ∃ v, tglob (t * l.tileRanks) g = some v)
    (ops : List (FOp α)) (hops : FullValid l mem parts tparts filled tfilled ops) (hub : ub < fullTags ops) :
    (boundedFull ub l junk tjunk ops mem glob time gtime tglob tgtime).Completes buf (fun r =>
      if r ∈ allRanks l then some (.error .runtimeError) else none) := by
  obtain ⟨pre, o, rest, rfl, ho, h1, h2⟩ := fullTags_split (n := 0) (ops := ops) (Nat.zero_le ub) (by omega)
  rw [Nat.zero_add] at h1 h2
  obtain ⟨v1, filled', tfilled', v2, -⟩ := hops.calls.split
  have hpre : FullValid l mem parts tparts filled tfilled pre :=
    ⟨v1, by have := hops.started; rw [List.filterMap_append] at this; exact this.prefix,
      by have := hops.once; rw [List.filterMap_append] at this; exact this.prefix, hops.first.split⟩
  obtain ⟨fin, started, c1, -, c3⟩ := C75_full hl hsq buf junk tjunk mem glob time gtime tglob tgtime parts tparts filled
    tfilled hglob hfilled htglob htfilled pre hpre
  have hfits := fun r => execFull_fits (ub := ub) l junk tjunk r pre
      (.new (mem r) (glob r) (time r) (gtime r) (tglob r) (tgtime r)) (by show 0 + _ ≤ ub; omega) fun _ h => by cases h
  have htag : ∀ r ∈ allRanks l, (fin r).comm.lastTag = fullTags pre := by
    intro r hr
    have := c1.spec (A := Fine ub) (Q := fun r x => ∀ s', x = some (.ok s') → s'.comm.lastTag = fullTags pre) (fun r => by
      unfold fullNet Net.start
      dsimp only
      split
      · refine Proc.Spec.bind (hfits r) fun x hx s' h => ?_
        cases h
        have := (hx s' rfl).1
        rw [this]
        exact Nat.zero_add _
      · intro s' h
        cases h) r (fin r) (by rw [if_pos hr])
    exact this
  obtain ⟨sched, T, t1, t2⟩ := c1.run
  let K : Int → Option (Py (FState α)) → Proc (Msg α) (Option (Py (FState α))) := fun r x =>
    match x with
    | none => .ret none
    | some (.error e) => .ret (some (.error e))
    | some (.ok s') => ((execFull l junk tjunk r (.op o :: rest) s').bounded ub (.error .runtimeError)).bind
        fun x => .ret (some x)
  have hK := Net.Completes.andThen (K := K) t1 t2 (out := fun r =>
    if r ∈ allRanks l then some (.error .runtimeError) else none) (by
      refine Net.completes_of_onlySends' (allRanks l) (fun r hr => ?_) fun r hr => ?_
      · simp only [if_pos hr]
        refine Proc.OnlySends.bind (Q := (· = .error .runtimeError)) (Proc.Trips.sends ?_) fun x hx => by
          rw [hx]
          exact .ret rfl
        have hready : UpdateReady l mem o := by
          cases o with
          | compute f => simp [Op.isStart] at ho
          | _ => exact v2
        obtain ⟨out, inn, g1, -⟩ := (ready_sound hl.xpos hsq ho hready).start r hr (fin r).comm.mem (c3 r hr)
        refine Proc.Trips.bind ?_ _
        exact Proc.Trips.bind (start_trips hl.xpos hsq hr ho g1 (by rw [htag r hr]; exact h2)) _
      · simp only [if_neg hr]
        rfl)
  refine cast ?_ hK
  congr 1
  unfold Net.andThen boundedFull fullNet Net.start
  congr 1
  funext r
  dsimp only
  by_cases hr : r ∈ allRanks l
  · simp only [if_pos hr]
    rw [execFull_append, Proc.bounded_bind (hfits r), Proc.bind_bind, Proc.bind_bind]
    congr 1
    funext y
    cases y <;> rfl
  · simp only [if_neg hr]
    rfl

/-- The session of the example of C75 takes one tag. -/
example (ub : Nat) (buf : Buffering) (z : α) (F : Int → Nat → List Nat → α) :
    ∃ res : Int → Option (Py (FState α)),
      (boundedFull ub ⟨2, 2⟩ (fun _ _ => z) (fun _ _ => z) ([] ++ .op (.halo 0 1) :: exFullBetween ++ [.op (.wait 0)])
        (exAnyMem z F) (fun _ _ => none) (fun _ _ => none) (fun _ _ => none) (fun _ _ => none)
        (fun _ _ => none)).Completes buf res ∧
      ∀ r ∈ allRanks ⟨2, 2⟩, (∃ s, res r = some (.ok s)) ↔ 0 < ub := by
  have s2 : FloatSafe ⟨2, 2⟩ := C05_safe_up_to_48 _ (by decide) (by decide) (by decide) (by decide)
  have e : fullTags ([] ++ .op (.halo 0 1) :: exFullBetween ++ [.op (.wait 0)] : List (FOp α)) = 1 := rfl
  by_cases h : 0 < ub
  · obtain ⟨fin, -, h1, -⟩ := C74_full s2 rfl ub buf (fun _ _ => z) (fun _ _ => z) (exAnyMem z F) (fun _ _ => none)
      (fun _ _ => none) (fun _ _ => none) (fun _ _ => none) (fun _ _ => none) exParts
      (fun _ => exParts) [] (fun _ => []) (fun _ _ h => by cases h) (fun _ h => by cases h)
      (fun _ _ _ _ _ h => by cases h) (fun _ _ _ _ h => by cases h) _ (exFull_valid z F) (e.trans_le h)
    exact ⟨_, h1, fun r hr => ⟨fun _ => h, fun _ => ⟨fin r, by rw [if_pos hr]⟩⟩⟩
  · refine ⟨_, C74_full_exhausted s2 rfl ub buf (fun _ _ => z) (fun _ _ => z) (exAnyMem z F) (fun _ _ => none)
      (fun _ _ => none) (fun _ _ => none) (fun _ _ => none) (fun _ _ => none) exParts
      (fun _ => exParts) [] (fun _ => []) (fun _ _ h => by cases h) (fun _ h => by cases h)
      (fun _ _ _ _ _ h => by cases h) (fun _ _ _ _ h => by cases h) _ (exFull_valid z F) ((Nat.lt_one_iff.2 (by omega)).trans_eq e.symm),
      fun r hr => ⟨fun ⟨s, hs⟩ => ?_, fun h' => absurd h' h⟩⟩
    rw [if_pos hr] at hs
    cases hs

end FV3
