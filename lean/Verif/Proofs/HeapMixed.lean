import Verif.Spec.HeapMixed
import Verif.Props.HeapColl
import Verif.Proofs.SessionRun
import Verif.Proofs.PlanPhase

/-!
# Updates, scatters and gathers on memory, one call after the other
-/

namespace FV3

theorem Proc.Spec.same_tags {M R R' : Type} {A : Tag → Prop} {P : R → Prop} {Q : R → R' → Prop} {p : Proc M R} {p' : Proc M R'}
    (hm : p.Mirror id Q p') (h : p.Spec A P) : p'.Spec A fun _ => True := by
  induction hm with
  | ret _ => trivial
  | isend _ ih => exact ⟨h.1, fun i => ih i (h.2 i)⟩
  | recv _ ih => exact ⟨h.1, fun i => ih i (h.2 i)⟩
  | await _ ih => exact ⟨h.1, fun i => ih i (h.2 i)⟩

namespace Heap
open Mem (World Gt4py)
open Strided
variable {α : Type} [Inhabited α] [Neg α] {g : Gt4py} {l : Layout}

/-- The call on quantities as values. -/
def HCall.plain : HCall α → Call α
  | .haloUpdate q n => .haloUpdate q n
  | .vectorHaloUpdate x y n => .vectorHaloUpdate x y n
  | .synchronize x y => .synchronize x y
  | .compute _ => .compute fun _ m => m

theorem plain_start {c : HCall α} : c.plain.start = c.start := by cases c <;> rfl

theorem plain_tags {c : HCall α} : c.plain.nTags = c.nTags := by cases c <;> rfl

theorem plain_ref {K : Nat} {sk : Skel} {c : HCall α} {op : Op α} (ho : c.start = some op) (hK : K ∉ op.qs) (r : Int) :
    Ref op.qs K sk sk (fun _ => True) (c.plain.exec l r) (c.exec g l r) := by
  cases c with
  | haloUpdate q n => cases ho; exact Ref.haloUpdate hK l r (by simp [Op.qs]) n
  | vectorHaloUpdate x y n => cases ho; exact Ref.vectorHaloUpdate hK l r (by simp [Op.qs]) (by simp [Op.qs]) n
  | synchronize x y => cases ho; exact Ref.synchronize hK l r (by simp [Op.qs]) (by simp [Op.qs])
  | compute ops => cases ho

theorem plain_step {c : HCall α} {op : Op α} (ho : c.start = some op) {m m' : Int → FV3.Mem α} (h : CallStep l c.plain m m') :
    UpdateStep l op m m' := by
  cases c <;> cases ho <;> exact h

theorem step_start {c : HCall α} {op : Op α} (ho : c.start = some op) {W W1 : Int → World α} (h : CommStep l op W W1) :
    HStep g l c W W1 := by
  cases c <;> cases ho <;> exact h

/-- What a phase of the program does: the messages which remain are of no later phase. -/
def Phase (buf : Buffering) (g : Gt4py) (l : Layout) (x : XCall α) (k n : Nat) (W : Int → World α) (k' n' : Nat) (W1 : Int → World α) : Prop :=
  ∀ (sent : Int → Int → Tag → List (Msg α)) (rcvd : Int → Int → Tag → Nat), Net.CleanOn (LaterTag k n) sent rcvd →
    ∃ sched T, (⟨fun r => if r ∈ allRanks l then x.exec g l r (⟨W r, k, []⟩, n) else .ret (.ok (), (⟨W r, k', []⟩, n')), sent, rcvd⟩ :
        Net (Msg α) (Py Unit × (HState α × Nat))).run buf sched = some T ∧
      (∀ r, T.procs r = .ret (.ok (), (⟨W1 r, k', []⟩, n'))) ∧ Net.CleanOn (LaterTag k' n') T.sent T.rcvd

/-- An update. -/
theorem update_phase (hx : 0 < l.x) (hsq : l.y = l.x) {W : Int → World α} (hw : ∀ r ∈ allRanks l, WF g (W r)) {c : HCall α} {op : Op α}
    (ho : c.start = some op) (hr : (∀ r ∈ allRanks l, Usable (W r) op.qs) ∧ UpdateReady l (fun r => quantities (W r)) op)
    (k n : Nat) (buf : Buffering) :
    ∃ W1, Phase buf g l (.update c) k n W (k + c.nTags) n W1 ∧ HStep g l c W W1 ∧ ∀ r, r ∉ allRanks l → W1 r = W r := by
  classical
  obtain ⟨hu, hrd⟩ := hr
  obtain ⟨K, hK⟩ := notMem_exists op.qs
  let m0 : Int → FV3.Mem α := fun r k =>
    if k = K then { quantities (W r) K with data := ⟨(quantities (W r) K).data.shape, fun idx => (W r).mem (dec idx)⟩ }
    else quantities (W r) k
  have hm0 : ∀ r, ∀ q ∈ op.qs, m0 r q = quantities (W r) q := fun r q hq => if_neg fun e : q = K => hK (e ▸ hq)
  have hR : ∀ r ∈ allRanks l, MRel op.qs K (W r) (m0 r) := by
    intro r h
    refine ⟨(usable_held (hw r h) (hu r h)).1, hm0 r, fun a _ => ?_⟩
    have : m0 r K = _ := if_pos rfl
    rw [this]
    show (W r).mem (dec (enc a)) = _
    rw [dec_enc]
  have hrd0 : UpdateReady l m0 op := updateReady_same hrd fun r h q hq => by
    rw [hm0 r q hq]
    exact SameMeta.refl _
  obtain ⟨m', a1, -, a3⟩ := call_at (l := l) (Good := MetaIs m0) buf k (c := c.plain) (m := m0) (fun r _ q => SameMeta.refl _)
    (fun op' ho' => by
      rw [plain_start, ho] at ho'
      cases ho'
      exact ready_sound hx hsq (Call.start_isStart (plain_start.trans ho)) hrd0)
    (fun f hf => by cases c <;> cases ho <;> cases hf)
  obtain ⟨W1, b1, b2⟩ := comm_step hK hR (fun _ h => h) (plain_step ho a1)
  let V : Int → World α := fun r => if r ∈ allRanks l then W1 r else W r
  let P : Int → Proc (Msg α) (Py Unit × (HState α × Nat)) := fun r =>
    if r ∈ allRanks l then (XCall.update c).exec g l r (⟨W r, k, []⟩, n) else .ret (.ok (), (⟨W r, k + c.nTags, []⟩, n))
  let vp : Int → Proc (Msg α) (Py Unit × RankState α) := fun r =>
    if r ∈ allRanks l then c.plain.exec l r ⟨m0 r, k, []⟩ else .ret (.ok (), ⟨m0 r, 0, []⟩)
  let Q : Int → Py Unit × RankState α → Py Unit × (HState α × Nat) → Prop := fun r x y =>
    if r ∈ allRanks l then y.1 = x.1 ∧ y.2.2 = n ∧ (∀ a, x.1 = .ok a → Rel op.qs K (skel (W r)) x.2 y.2.1)
    else y = (.ok (), (⟨W r, k + c.nTags, []⟩, n))
  have mir : ∀ r, (vp r).Mirror id (Q r) (P r) := by
    intro r
    show Proc.Mirror id (Q r) (if r ∈ allRanks l then _ else _) (if r ∈ allRanks l then _ else _)
    by_cases h : r ∈ allRanks l
    · simp only [if_pos h]
      rw [← Proc.bind_ret' (c.plain.exec l r ⟨m0 r, k, []⟩)]
      refine Proc.Mirror.bind (plain_ref ho hK r ⟨m0 r, k, []⟩ ⟨W r, k, []⟩ ⟨rfl, rfl, rfl, hR r h⟩) ?_
      rintro ⟨x, s⟩ ⟨y, s'⟩ ⟨e1, e2⟩
      refine .ret ?_
      show if r ∈ allRanks l then _ else _
      rw [if_pos h]
      refine ⟨e1, rfl, fun a e => ?_⟩
      dsimp only at e
      subst e
      exact e2.2.2
    · simp only [if_neg h]
      refine .ret ?_
      show if r ∈ allRanks l then _ else _
      rw [if_neg h]
  have spec : ∀ r, (P r).Spec (SessTag k (k + c.nTags) n n) fun _ => True := by
    intro r
    refine Proc.Spec.same_tags (mir r) (P := fun _ => True) ?_
    show Proc.Spec _ _ (if r ∈ allRanks l then _ else _)
    split
    · refine (CommM.Uses.exec (n := k) l r c.plain ⟨m0 r, k, []⟩ rfl).mono (fun t h => .inl ?_) fun _ _ => trivial
      rw [plain_tags] at h
      exact h
    · trivial
  obtain ⟨res, c1, c2⟩ := Net.Completes.mirror (N' := Net.start P) (Q := Q) a3 ⟨mir, fun _ _ _ => rfl, fun _ _ _ => rfl⟩
  have hres : res = fun r => (.ok (), (⟨V r, k + c.nTags, []⟩, n)) := by
    funext r
    have h2 := c2 r
    change if r ∈ allRanks l then _ else _ at h2
    by_cases h : r ∈ allRanks l
    · simp only [if_pos h] at h2
      obtain ⟨h3, h4, h5⟩ := h2
      have h5 := h5 () trivial
      have ew : (res r).2.1.world = W1 r := by
        have := h5.skel.trans (b2 r h).2.symm
        exact (b2 r h).1.unique h5.mem (congrArg Skel.next this) (congrArg Skel.arrs this) (congrArg Skel.objs this)
      have et : (res r).2.1.lastTag = k + c.nTags := h5.tag.trans (congrArg (k + ·) plain_tags)
      have er : (res r).2.1.reqs = [] := h5.reqs
      show _ = (_, ((⟨if r ∈ allRanks l then W1 r else W r, _, _⟩ : HState α), n))
      rw [if_pos h]
      generalize res r = z at h3 h4 ew et er
      obtain ⟨z1, ⟨z2, z3, z4⟩, z5⟩ := z
      simp only at h3 h4 ew et er
      rw [h3, h4, ew, et, er]
    · simp only [if_neg h] at h2
      show _ = (_, ((⟨if r ∈ allRanks l then W1 r else W r, _, _⟩ : HState α), n))
      rw [if_neg h]
      exact h2
  rw [hres] at c1
  refine ⟨V, fun sent rcvd hc => ?_, step_start ho ?_, fun r h => if_neg h⟩
  · obtain ⟨sched, T, d1, d2, d3⟩ := Net.phase (A := SessTag k (k + c.nTags) n n) c1 spec
      (sent := sent) (rcvd := rcvd) ⟨fun a b t ht => hc.sent a b t ht.later, fun a b t ht => hc.rcvd a b t ht.later⟩
    exact ⟨sched, T, d1, d2, d3 _ (fun t ht => ht.not) ⟨fun a b t ht => hc.sent a b t (ht.mono (by omega) (by omega)),
      fun a b t ht => hc.rcvd a b t (ht.mono (by omega) (by omega))⟩⟩
  · obtain ⟨m1, e1, e2⟩ := b1
    refine ⟨m1, e1, fun r h => ?_⟩
    show (∀ q ∈ op.qs, quantities (if r ∈ allRanks l then W1 r else W r) q = _) ∧ OnlyCells _ _ (if r ∈ allRanks l then W1 r else W r)
    rw [if_pos h]
    exact e2 r h

/-- A scatter or gather, or a program. -/
theorem collective_phase (hl : FloatSafe l) {W : Int → World α} (hw : ∀ r ∈ allRanks l, WF g (W r)) {x : CCall α}
    (hf : ∃ dims cells, CFits (.cube l) dims cells W x) (k n : Nat) (buf : Buffering) :
    ∃ n' W1, Phase buf g l (.collective x) k n W k n' W1 ∧ CStep g (.cube l) x W W1 ∧ (∀ r, r ∉ allRanks l → W1 r = W r) := by
  obtain ⟨n', W1, ⟨plan, hs, hreal⟩, h2, -, h4⟩ := coll_step (c := .cube l) hl (fun r h => hw r ((cube_ranks l r).1 h)) x hf n buf
  have out : ∀ r, r ∉ allRanks l → W1 r = W r := fun r h => h4 r fun h' => h ((cube_ranks l r).1 h')
  refine ⟨n', W1, fun sent rcvd hc => ?_, h2, out⟩
  obtain ⟨sched, T, d1, d2, d3⟩ := hs.phase (procs := fun r =>
      if r ∈ allRanks l then (XCall.collective x).exec g l r (⟨W r, k, []⟩, n) else .ret (.ok (), (⟨W r, k, []⟩, n')))
    (res := fun r => (.ok (), (⟨W1 r, k, []⟩, n'))) (fun r => by
      by_cases h : r ∈ allRanks l
      · rw [if_pos h]
        have := Real.bind (f := fun y : Py Unit × (World α × Nat) => Proc.ret (y.1, ((⟨y.2.1, k, []⟩ : HState α), y.2.2)))
          (hreal r ((cube_ranks l r).2 h)) (Real.ret (M := Msg α) ((.ok (), (⟨W1 r, k, []⟩, n')) : Py Unit × (HState α × Nat)))
        rwa [List.append_nil] at this
      · rw [if_neg h, hs.ok.idle r fun h' => h ((cube_ranks l r).1 h'), out r h]
        exact .ret _) (sent := sent) (rcvd := rcvd)
    ⟨fun a b t ht => hc.sent a b t (by obtain ⟨i, e, h, -⟩ := ht; exact .inr ⟨i, e, h⟩),
      fun a b t ht => hc.rcvd a b t (by obtain ⟨i, e, h, -⟩ := ht; exact .inr ⟨i, e, h⟩)⟩
  refine ⟨sched, T, d1, d2, d3 _ ?_ ⟨fun a b t ht => hc.sent a b t (ht.mono (by omega) hs.le),
      fun a b t ht => hc.rcvd a b t (ht.mono (by omega) hs.le)⟩⟩
  rintro t (⟨i, e, h⟩ | ⟨i, e, h⟩) ⟨j, e', h1, h2⟩
  · rw [e] at e'; cases e'
  · rw [e] at e'; cases e'; omega

/-- One call. -/
theorem mixed_phase (hl : FloatSafe l) (hsq : l.y = l.x) {W : Int → World α} (hw : ∀ r ∈ allRanks l, WF g (W r)) {x : XCall α}
    (hr : XReady l W x) (k n : Nat) (buf : Buffering) :
    ∃ k' n' W1, Phase buf g l x k n W k' n' W1 ∧ XStep g l x W W1 ∧ ∀ r, r ∉ allRanks l → W1 r = W r := by
  cases x with
  | collective x =>
    obtain ⟨n', W1, h⟩ := collective_phase hl hw hr k n buf
    exact ⟨k, n', W1, h⟩
  | update c =>
    cases c with
    | compute ops =>
      obtain ⟨n', W1, h1, h2, h3⟩ := collective_phase (x := .compute ops) hl hw ⟨[], [], trivial⟩ k n buf
      exact ⟨k, n', W1, h1, fun r h => h2 r ((cube_ranks l r).2 h), h3⟩
    | haloUpdate q w =>
      obtain ⟨W1, h⟩ := update_phase hl.xpos hsq hw (c := .haloUpdate q w) rfl (hr _ rfl) k n buf
      exact ⟨_, n, W1, h⟩
    | vectorHaloUpdate a b w =>
      obtain ⟨W1, h⟩ := update_phase hl.xpos hsq hw (c := .vectorHaloUpdate a b w) rfl (hr _ rfl) k n buf
      exact ⟨_, n, W1, h⟩
    | synchronize a b =>
      obtain ⟨W1, h⟩ := update_phase hl.xpos hsq hw (c := .synchronize a b) rfl (hr _ rfl) k n buf
      exact ⟨_, n, W1, h⟩

/-- Quantities with axes stay what they are, and arrays and variables are as programs make them. -/
theorem XStep.keeps {x : XCall α} {W W1 : Int → World α} (h : XStep g l x W W1) {r : Int} (hr : r ∈ allRanks l) (hw : WF g (W r)) :
    Keeps (W r) (W1 r) ∧ WF g (W1 r) := by
  cases x with
  | collective x => exact CStep.keeps h ((cube_ranks l r).2 hr) hw
  | update c =>
    obtain ⟨k1, k2, k3⟩ := hrun_kept (calls := [c]) (W := W) (W1 := W1) ⟨W1, h, fun _ _ => rfl⟩ hr hw
    exact ⟨fun i y hy hs => dataOf_kept k2 k3 hy hs, k1⟩

/-- All calls. -/
theorem mixed_from (hl : FloatSafe l) (hsq : l.y = l.x) {W : Int → World α} (hw : ∀ r ∈ allRanks l, WF g (W r)) {calls : List (XCall α)}
    (hr : ∀ (pre : List (XCall α)) x post, calls = pre ++ x :: post → ∀ W1, XRun g l pre W W1 → XReady l W1 x)
    (k n : Nat) (buf : Buffering) {sent : Int → Int → Tag → List (Msg α)} {rcvd : Int → Int → Tag → Nat}
    (hc : Net.CleanOn (LaterTag k n) sent rcvd) :
    ∃ W', XRun g l calls W W' ∧ (⟨fun r => if r ∈ allRanks l then
        (execMixed g l r calls (⟨W r, k, []⟩, n)).bind fun y => .ret (y.1, y.2.1.world) else .ret (.ok (), W r), sent, rcvd⟩ :
          Net (Msg α) (Py Unit × World α)).Completes buf fun r => (.ok (), W' r) := by
  induction calls generalizing W k n sent rcvd with
  | nil =>
    refine ⟨W, fun _ _ => rfl, Net.completes_of_run (sched := []) rfl fun r => ?_⟩
    dsimp only
    split <;> rfl
  | cons x xs ih =>
    obtain ⟨k', n', W1, a1, a2, a3⟩ := mixed_phase hl hsq hw (hr [] x xs rfl W fun _ _ => rfl) k n buf
    obtain ⟨sched, T, b1, b2, b3⟩ := a1 sent rcvd hc
    obtain ⟨W', c1, c2⟩ := ih (fun r h => (a2.keeps h (hw r h)).2)
      (fun pre y post e W2 hrun => hr (x :: pre) y post (by rw [e]; rfl) W2 ⟨W1, a2, hrun⟩) k' n' b3
    refine ⟨W', ⟨W1, a2, c1⟩, ?_⟩
    let Kt : Int → Py Unit × (HState α × Nat) → Proc (Msg α) (Py Unit × World α) := fun r y =>
      if r ∈ allRanks l then
        (match y.1 with
        | .ok _ => execMixed g l r xs y.2
        | .error e => .ret (.error e, y.2)).bind fun y => .ret (y.1, y.2.1.world)
      else .ret (.ok (), W r)
    have := Net.Completes.andThen (K := Kt) b1 b2 (out := fun r => (.ok (), W' r)) (by
        refine cast ?_ c2
        congr 2
        funext r
        by_cases h : r ∈ allRanks l
        · simp only [if_pos h, Kt]
        · simp only [if_neg h, Kt]
          rw [a3 r h])
    refine cast ?_ this
    congr 1
    unfold Net.andThen
    congr 1
    funext r
    dsimp only
    by_cases h : r ∈ allRanks l
    · simp only [if_pos h, Kt]
      show _ = ((x.exec g l r _).bind _).bind _
      rw [Proc.bind_bind]
      congr 1
    · simp only [if_neg h, Kt]
      rfl

end Heap
end FV3
