import Verif.Proofs.HeapSession
import Verif.Props.HaloTranspose

/-!
# C80: communicator calls and variables which share memory
-/

namespace FV3
namespace Heap
open Mem (World Gt4py Reachable)
open Strided
variable {α : Type} [Inhabited α] {g : Gt4py} {l : Layout}

omit [Inhabited α] in
theorem usable_held {W : World α} {hs : List Nat} (hw : WF g W) (U : Usable W hs) :
    Held W hs ∧ ∀ h ∈ hs, ∀ x, dataOf W h = .ok x → x.2.1.view.shape ≠ [] := by
  have key : ∀ h ∈ hs, ∃ q a, W.objs[h]? = some (.quantity q) ∧ W.arrs[q.data]? = some a ∧ dataOf W h = .ok (q.data, a, q.info) ∧
      a.view.Injective ∧ a.view.strides.length = a.view.shape.length ∧ a.view.shape ≠ [] := by
    intro h hh
    obtain ⟨i, hi, hd⟩ := U.quantity h hh
    unfold Mem.World.infoOf at hi
    cases ho : W.objs[h]? with
    | none => rw [ho] at hi; cases hi
    | some o =>
      rw [ho] at hi
      cases o with
      | array _ => cases hi
      | storage _ _ _ => cases hi
      | quantity q =>
        cases hi
        obtain ⟨-, a, h1, h2, h3, -, h5, -⟩ := hw.quantity ho
        refine ⟨q, a, rfl, h1, ?_, h2, h3, fun e => hd ?_⟩
        · unfold dataOf
          rw [ho]
          dsimp only
          rw [h1]
        · rw [e] at h5
          exact List.eq_nil_of_length_eq_zero h5
  refine ⟨⟨fun h hh => ?_, U.apart⟩, fun h hh x hx => ?_⟩
  · obtain ⟨q, a, h1, h2, h3, h4, h5, -⟩ := key h hh
    refine ⟨_, h3, ?_, h4, h5⟩
    have := U.writeable h hh
    unfold Mem.World.writeable at this
    rw [h1] at this
    simp only [Mem.Obj.target, h2] at this
    exact this
  · obtain ⟨q, a, h1, h2, h3, -, -, h6⟩ := key h hh
    rw [h3] at hx
    cases hx
    exact h6

omit [Inhabited α] in
theorem notMem_exists (hs : List Nat) : ∃ K, K ∉ hs := by
  have key : ∃ K, ∀ h ∈ hs, h < K := by
    induction hs with
    | nil => exact ⟨0, fun h hh => by cases hh⟩
    | cons a hs ih =>
      obtain ⟨K, hK⟩ := ih
      refine ⟨max (a + 1) K, fun h hh => ?_⟩
      rcases List.mem_cons.1 hh with rfl | hh
      · omega
      · have := hK h hh
        omega
  obtain ⟨K, hK⟩ := key
  exact ⟨K, fun h => Nat.lt_irrefl _ (hK K h)⟩

variable [Neg α]

omit [Neg α] in
theorem usable_fit {W : World α} {qs : List Nat} (hw : WF g W) (U : Usable W qs) :
    Held ((skel W).with fun _ => (default : α)) qs ∧ ∀ h ∈ qs, HasAxes ((skel W).with fun _ => (default : α)) h := by
  obtain ⟨h1, h2⟩ := usable_held hw U
  refine ⟨h1.congr rfl rfl, fun h hh => ?_⟩
  obtain ⟨x, hx, -⟩ := h1.data h hh
  exact ⟨x, hx, h2 h hh x hx⟩

/-- The calls, when all of them have fitting quantities. -/
theorem session_good {W : Int → World α} {calls : List (HCall α)} (hx : 0 < l.x) (hsq : l.y = l.x)
    (hW : ∀ r ∈ allRanks l, WF g (W r)) (G : Good g l (fun r => skel (W r)) calls) (buf : Buffering) :
    ∃ W' : Int → World α, HRun g l calls W W' ∧ (∀ r ∈ allRanks l, skel (W' r) = finalSk g (fun r => skel (W r)) calls r) ∧
      (callNet g l calls W).Completes buf fun r =>
        (.ok (), ⟨W' r, if r ∈ allRanks l then (calls.map HCall.nTags).sum else 0, []⟩) := by
  classical
  obtain ⟨K, hK0⟩ := notMem_exists (calls.flatMap fun c => (c.start.map Op.qs).getD [])
  have hK : ∀ c ∈ calls, ∀ op, c.start = some op → K ∉ op.qs := fun c hc op ho hk =>
    hK0 (List.mem_flatMap.2 ⟨c, hc, by rw [ho]; exact hk⟩)
  let sk : Int → Skel := fun r => skel (W r)
  have hw : ∀ r ∈ allRanks l, WFS g α (sk r) := fun r hr mem => (hW r hr).mem mem
  let fin : Int → FV3.Mem α := fun r => quantities ((finalSk g sk calls r).with fun _ => (default : α))
  let m0 : Int → FV3.Mem α := fun r k =>
    if k = K then { fin r K with data := ⟨(fin r K).data.shape, fun idx => (W r).mem (dec idx)⟩ }
    else if HasAxes (W r) k then quantities (W r) k else fin r k
  have hF : ∀ r ∈ allRanks l, Full K (W r) (m0 r) := by
    intro r hr
    refine ⟨fun k hk ha => (if_neg hk).trans (if_pos ha), fun a => ?_⟩
    have : m0 r K = _ := if_pos rfl
    rw [this]
    show (W r).mem (dec (enc a)) = _
    rw [dec_enc]
  have hM : ∀ r ∈ allRanks l, MetaOf K (finalSk g sk calls r) (m0 r) := by
    intro r hr k hk hax
    show SameMeta _ (if k = K then _ else _)
    rw [if_neg hk]
    split
    · next ha =>
      obtain ⟨x, hx, hs⟩ := ha
      have hf := dataOf_final (calls := calls) (sk := sk) (hw r hr) hx hs
      rw [quantities_eq hf, quantities_eq hx]
      exact ⟨rfl, rfl, rfl, rfl, rfl⟩
    · exact SameMeta.refl _
  obtain ⟨m', c1, c2⟩ := C22_blocking_calls (l := l) (m := m0) (calls := toCalls g K sk calls) hx hsq
    (fun c hc op ho => by
      obtain ⟨d, d1, d2⟩ := toCalls_start hc ho
      exact good_ready hK hw G hM d d1 op d2)
    (fun f hf r h mem hm => toCalls_compute (hw r h) (hM r h) hf mem hm) buf
  obtain ⟨W', w1, w2⟩ := hrun_of hK hw G hF (fun _ _ => rfl) c1
  have mir : (FV3.callNet l (toCalls g K sk calls) m0).Mirror id (fun r x y =>
      if r ∈ allRanks l then y.1 = x.1 ∧ match x.1 with
        | .ok _ => RelF K (finalSk g sk calls r) x.2 y.2
        | .error _ => True
      else y = (.ok (), ⟨W r, 0, []⟩)) (callNet g l calls W) := by
    refine ⟨fun r => ?_, fun _ _ _ => rfl, fun _ _ _ => rfl⟩
    show Proc.Mirror id _ (if r ∈ allRanks l then _ else _) (if r ∈ allRanks l then _ else _)
    by_cases h : r ∈ allRanks l
    · simp only [if_pos h]
      refine (ref_calls l h (sk := sk) hK (hw r h) G ⟨m0 r, 0, []⟩ ⟨W r, 0, []⟩ ⟨rfl, rfl, rfl, hF r h⟩).mono ?_
      rintro ⟨x, s⟩ ⟨y, s'⟩ ⟨e1, e2⟩
      refine ⟨e1, ?_⟩
      cases x with
      | ok a => exact e2
      | error e => trivial
    · simp only [if_neg h]
      exact .ret rfl
  obtain ⟨res, r1, r2⟩ := c2.mirror mir
  refine ⟨fun r => if r ∈ allRanks l then W' r else W r, ?_, fun r h => ?_, ?_⟩
  · have loc : ∀ (cs : List (HCall α)) (V V' : Int → World α), HRun g l cs V V' →
        HRun g l cs V (fun r => if r ∈ allRanks l then V' r else W r) := by
      intro cs
      induction cs with
      | nil => exact fun V V' h r hr => (if_pos hr).trans (h r hr)
      | cons c cs ih => exact fun V V' ⟨V1, a, b⟩ => ⟨V1, a, ih V1 V' b⟩
    exact loc _ _ _ w1
  · show skel (if r ∈ allRanks l then W' r else W r) = _
    rw [if_pos h]
    exact (w2 r h).2
  · have e : res = fun r => (.ok (), ⟨if r ∈ allRanks l then W' r else W r,
        if r ∈ allRanks l then (calls.map HCall.nTags).sum else 0, []⟩) := by
      funext r
      have h2 := r2 r
      by_cases h : r ∈ allRanks l
      · simp only [if_pos h] at h2 ⊢
        obtain ⟨h3, h4⟩ := h2
        have ew : (res r).2.world = W' r := (w2 r h).1.unique h4.mem (h4.skel.trans (w2 r h).2.symm)
        have et := h4.tag
        have er := h4.reqs
        rw [toCalls_tags] at et
        generalize res r = z at h3 ew et er
        obtain ⟨z1, z2, z3, z4⟩ := z
        simp only at h3 ew et er
        rw [h3, ew, et, er]
      · simp only [if_neg h] at h2 ⊢
        exact h2
    rw [← e]
    exact r1

/-- What stays during calls and programs. -/
theorem hrun_kept {calls : List (HCall α)} {W W1 : Int → World α} (hR : HRun g l calls W W1) {r : Int} (hr : r ∈ allRanks l)
    (hw : WF g (W r)) : WF g (W1 r) ∧ (∀ (i : Nat) o, (W r).objs[i]? = some o → (W1 r).objs[i]? = some o) ∧
      ∀ (i : Nat) a, (W r).arrs[i]? = some a → a.view.shape ≠ [] → (W1 r).arrs[i]? = some a := by
  induction calls generalizing W with
  | nil =>
    rw [hR r hr]
    exact ⟨hw, fun _ _ h => h, fun _ _ h _ => h⟩
  | cons c calls ih =>
    obtain ⟨V, hc, hR⟩ := hR
    have comm : ∀ {op : Op α}, CommStep l op W V → WF g (V r) ∧ (∀ (i : Nat) o, (W r).objs[i]? = some o → (V r).objs[i]? = some o) ∧
        ∀ (i : Nat) a, (W r).arrs[i]? = some a → a.view.shape ≠ [] → (V r).arrs[i]? = some a := by
      rintro op ⟨m', -, h⟩
      have h2 := (h r hr).2
      have e : V r = { W r with mem := (V r).mem } := by
        generalize V r = v at h2
        obtain ⟨a, b, c, d⟩ := v
        obtain ⟨k1, k2, k3, -⟩ := h2
        simp only at k1 k2 k3
        rw [k1, k2, k3]
      rw [e]
      exact ⟨hw.mem _, fun _ _ h => h, fun _ _ h _ => h⟩
    have step : WF g (V r) ∧ (∀ (i : Nat) o, (W r).objs[i]? = some o → (V r).objs[i]? = some o) ∧
        ∀ (i : Nat) a, (W r).arrs[i]? = some a → a.view.shape ≠ [] → (V r).arrs[i]? = some a := by
      cases c with
      | compute ops =>
        rw [hc r hr]
        exact ⟨hw.run _, hw.kept _⟩
      | _ => exact comm hc
    obtain ⟨s1, s2, s3⟩ := step
    obtain ⟨i1, i2, i3⟩ := ih hR s1
    exact ⟨i1, fun i o h => i2 i o (s2 i o h), fun i a h ha => i3 i a (s3 i a h ha) ha⟩

/-- The quantities of the calls fit, in terms of arrays and variables. -/
theorem session_fits {W : Int → World α} {calls : List (HCall α)} (hx : 0 < l.x) (hsq : l.y = l.x)
    (hW : ∀ r ∈ allRanks l, Reachable g (W r))
    (hr : ∀ (pre : List (HCall α)) c post, calls = pre ++ c :: post → ∀ op, c.start = some op → ∀ W1, HRun g l pre W W1 →
      (∀ r ∈ allRanks l, Usable (W1 r) op.qs) ∧ UpdateReady l (fun r => quantities (W1 r)) op) :
    Good g l (fun r => skel (W r)) calls := by
  have hw : ∀ r ∈ allRanks l, WF g (W r) := fun r h => (hW r h).spec
  induction calls using List.reverseRecOn with
  | nil => trivial
  | append_singleton cs c ih =>
    have G := ih fun pre d post e => hr pre d (post ++ [c]) (by rw [e, List.append_assoc]; rfl)
    refine G.append ⟨fun op ho => ?_, trivial⟩
    obtain ⟨W1, h1, h2, -⟩ := session_good hx hsq hw G fun _ _ _ _ => true
    obtain ⟨u1, u2⟩ := hr cs c [] rfl op ho W1 h1
    have k : ∀ r ∈ allRanks l, WF g (W1 r) := fun r h => (hrun_kept h1 h (hw r h)).1
    refine ⟨fun r h => ?_, fun r h => ?_, updateReady_same u2 fun r h q hq => ?_⟩
    · rw [← h2 r h]
      exact (usable_fit (k r h) (u1 r h)).1
    · rw [← h2 r h]
      exact (usable_fit (k r h) (u1 r h)).2
    · rw [← h2 r h]
      exact meta_congr (W := W1 r) (W1 := (skel (W1 r)).with fun _ => (default : α)) rfl rfl ((hasAxes_congr (W := W1 r) rfl rfl).1 ((usable_fit (k r h) (u1 r h)).2 q hq))

/-- **C80**: communicator calls and programs on the memory of the ranks, in any order: every schedule ends with every rank
finished, whatever the buffering, and the result is that of the calls one after the other.  A call changes memory only where
the data of its quantities is, and there as for quantities as values; so it is seen through all variables which share that
memory, and through no others.  The quantities of a call need to fit when it is made: they may have been created, or changed
through other variables, since the beginning, and may share memory with the quantities of other calls. -/
theorem C80_session {W : Int → World α} {calls : List (HCall α)} (hx : 0 < l.x) (hsq : l.y = l.x)
    (hW : ∀ r ∈ allRanks l, Reachable g (W r))
    (hr : ∀ (pre : List (HCall α)) c post, calls = pre ++ c :: post → ∀ op, c.start = some op → ∀ W1, HRun g l pre W W1 →
      (∀ r ∈ allRanks l, Usable (W1 r) op.qs) ∧ UpdateReady l (fun r => quantities (W1 r)) op) (buf : Buffering) :
    ∃ W' : Int → World α, HRun g l calls W W' ∧
      (callNet g l calls W).Completes buf fun r =>
        (.ok (), ⟨W' r, if r ∈ allRanks l then (calls.map HCall.nTags).sum else 0, []⟩) := by
  have hw : ∀ r ∈ allRanks l, WF g (W r) := fun r h => (hW r h).spec
  have key := session_fits hx hsq hW hr
  obtain ⟨W', h1, -, h3⟩ := session_good hx hsq hw key buf
  exact ⟨W', h1, h3⟩

/-- **C80**: the same, when the quantities of all calls exist from the beginning. -/
theorem C80_calls {W : Int → World α} {calls : List (HCall α)} (hx : 0 < l.x) (hsq : l.y = l.x)
    (hW : ∀ r ∈ allRanks l, Reachable g (W r))
    (hr : ∀ c ∈ calls, ∀ op, c.start = some op →
      (∀ r ∈ allRanks l, Usable (W r) op.qs) ∧ UpdateReady l (fun r => quantities (W r)) op) (buf : Buffering) :
    ∃ W' : Int → World α, HRun g l calls W W' ∧
      (callNet g l calls W).Completes buf fun r =>
        (.ok (), ⟨W' r, if r ∈ allRanks l then (calls.map HCall.nTags).sum else 0, []⟩) := by
  refine C80_session hx hsq hW (fun pre c post e op ho W1 h1 => ?_) buf
  obtain ⟨u1, u2⟩ := hr c (by rw [e]; simp) op ho
  have hk := fun r h => hrun_kept h1 (r := r) h (hW r h).spec
  have hd : ∀ r ∈ allRanks l, ∀ h ∈ op.qs, dataOf (W1 r) h = dataOf (W r) h := by
    intro r hr h hh
    obtain ⟨x, hx, hs⟩ := (usable_fit (hW r hr).spec (u1 r hr)).2 h hh
    have hx' : dataOf (W r) h = .ok x := hx
    rw [hx']
    exact dataOf_kept (hk r hr).2.1 (hk r hr).2.2 hx' hs
  refine ⟨fun r hr => ⟨fun h hh => ?_, fun h hh => ?_, fun h hh h' hh' hne idx idx' a => ?_⟩, updateReady_same u2 fun r hr h hh => ?_⟩
  · obtain ⟨i, hi, hne⟩ := (u1 r hr).quantity h hh
    refine ⟨i, ?_, hne⟩
    unfold Mem.World.infoOf at hi ⊢
    cases ho : (W r).objs[h]? with
    | none => rw [ho] at hi; cases hi
    | some o =>
      rw [ho] at hi
      rw [(hk r hr).2.1 _ _ ho]
      exact hi
  · have hwr := (u1 r hr).writeable h hh
    obtain ⟨i, hi, hne⟩ := (u1 r hr).quantity h hh
    unfold Mem.World.infoOf at hi
    unfold Mem.World.writeable at hwr ⊢
    cases ho : (W r).objs[h]? with
    | none => rw [ho] at hi; cases hi
    | some o =>
      rw [ho] at hi hwr
      rw [(hk r hr).2.1 _ _ ho]
      cases o with
      | array _ => cases hi
      | storage _ _ _ => cases hi
      | quantity q =>
        cases hi
        obtain ⟨-, a, h1, -, -, -, h5, -⟩ := (WF.quantity (hW r hr).spec ho)
        simp only [Mem.Obj.target] at hwr ⊢
        rw [h1] at hwr
        rw [(hk r hr).2.2 _ _ h1 fun e => hne (List.eq_nil_of_length_eq_zero (by rw [h5, e]; rfl))]
        exact hwr
  · unfold Cell
    rw [hd r hr h hh, hd r hr h' hh']
    exact (u1 r hr).apart h hh h' hh' hne idx idx' a
  · obtain ⟨x, hx, hs⟩ := (usable_fit (hW r hr).spec (u1 r hr)).2 h hh
    have hx' : dataOf (W r) h = .ok x := hx
    rw [quantities_eq hx', quantities_eq ((hd r hr h hh).trans hx')]
    exact ⟨rfl, rfl, rfl, rfl, rfl⟩

omit [Neg α] in
theorem cell_value {W : World α} {h : Nat} {idx : List Nat} {a : Int} (hc : Cell W h idx a) :
    (quantities W h).data.get idx = W.mem a := by
  obtain ⟨x, hx, hi, rfl⟩ := hc
  rw [quantities_eq hx]
  exact if_pos hi

omit [Neg α] in
theorem cell_ndim {W : World α} {h : Nat} {idx : List Nat} {a : Int} (hl : (quantities W h).data.shape.length = (quantities W h).ndim)
    (hc : Cell W h idx a) : idx.length = (quantities W h).ndim := by
  obtain ⟨x, hx, hi, -⟩ := hc
  rw [((inB_iff _ _).1 hi).1, ← hl, quantities_eq hx]
  rfl

theorem CommStep.congr {op : Op α} {W V W1 : Int → World α} (h : CommStep l op W W1) (hw : ∀ r ∈ allRanks l, W r = V r) : CommStep l op V W1 := by
  obtain ⟨m', hu, hc⟩ := h
  refine ⟨m', fun r hr => ?_, fun r hr => ⟨(hc r hr).1, hw r hr ▸ (hc r hr).2⟩⟩
  have hp : packedFor l op (fun r => quantities (V r)) r = packedFor l op (fun r => quantities (W r)) r := by
    funext src off
    unfold packedFor
    split
    · next hs =>
      dsimp only
      rw [hw src hs]
    · rfl
  rw [hp]
  dsimp only
  rw [← hw r hr]
  exact hu r hr

/-- What a halo update does, in the values of its quantity and in memory. -/
theorem commStep_halo {W W1 : Int → World α} {h ky kx : Nat} {n w : Int} (hx : 0 < l.x) (hsq : l.y = l.x) (hh : 0 < w) (hn : w ≤ n)
    (S : ScalarField l (fun r => quantities (W r)) h ky kx n w) (hs : CommStep l (.halo h w) W W1) :
    HaloFilled l h ky kx n w (fun r => quantities (W r)) (fun r => quantities (W1 r)) ∧
      ∀ r ∈ allRanks l, OnlyCells (HaloCells l W h ky kx n w r) (W r) (W1 r) := by
  obtain ⟨m', hu, hc⟩ := hs
  refine ⟨fun r idx t a b hat hin hsc => ?_, fun r hr => ?_⟩
  · obtain ⟨r', src, o1, o2⟩ := step_filled hx hsq hh hn S hu r idx t a b hat hin hsc
    refine ⟨r', src, o1, ?_⟩
    dsimp only
    rw [(hc r hat.rank).1 h (by simp [Op.qs])]
    exact o2
  · obtain ⟨c1, c2⟩ := hc r hr
    refine ⟨c2.next, c2.arrs, c2.objs, fun a => ?_⟩
    rcases c2.mem a with e | ⟨k, idx, hk, hcell⟩
    · exact .inl e
    · have hk' : k = h := by simpa [Op.qs] using hk
      subst hk'
      by_cases hp : HaloCells l W k ky kx n w r k idx
      · exact .inr ⟨k, idx, hp, hcell⟩
      · left
        have v0 := cell_value hcell
        have v1 := cell_value ((cell_congr c2.arrs c2.objs).2 hcell)
        rw [← v0, ← v1, c1 k (by simp [Op.qs])]
        have htile : ∃ t, tileIndex l r = .ok t := ⟨_, tileIndex_eq (by omega) hx r⟩
        obtain ⟨t, ht⟩ := htile
        exact (step_only hx hsq hh hn S hu r hr).2.2 idx t _ _ ⟨hr, ht, rfl, rfl⟩ (cell_ndim (S.ready r hr).wf.shape hcell)
          fun hq => hp ⟨rfl, hq.1, t, _, _, ⟨hr, ht, rfl, rfl⟩, hq.2⟩

/-- **C80**: a halo update of a quantity fills its halo with the values of the owners, and changes nothing in memory but the
cells of that halo; whatever other variables share the memory of the quantity, before or after. -/
theorem C80_halo {W : Int → World α} {h ky kx : Nat} {n w : Int} (hx : 0 < l.x) (hsq : l.y = l.x) (hh : 0 < w) (hn : w ≤ n)
    (hW : ∀ r ∈ allRanks l, Reachable g (W r)) (hU : ∀ r ∈ allRanks l, Usable (W r) [h])
    (S : ScalarField l (fun r => quantities (W r)) h ky kx n w) (buf : Buffering) :
    ∃ W' : Int → World α,
      ((callNet g l [.haloUpdate h w] W).Completes buf fun r => (.ok (), ⟨W' r, if r ∈ allRanks l then 1 else 0, []⟩)) ∧
      HaloFilled l h ky kx n w (fun r => quantities (W r)) (fun r => quantities (W' r)) ∧
      ∀ r ∈ allRanks l, OnlyCells (HaloCells l W h ky kx n w r) (W r) (W' r) := by
  obtain ⟨W', ⟨W1, h1, h2⟩, h3⟩ := C80_calls (g := g) (calls := [.haloUpdate h w]) hx hsq hW
    (fun c hc op ho => by
      rw [List.mem_singleton.1 hc] at ho
      cases ho
      refine ⟨hU, ?_⟩
      exact ⟨ky, kx, n, hh, hn, S⟩) buf
  obtain ⟨k1, k2⟩ := commStep_halo hx hsq hh hn S h1
  refine ⟨W', h3, fun r idx t a b hat hin hsc => ?_, fun r hr => ?_⟩
  · obtain ⟨r', src, o1, o2⟩ := k1 r idx t a b hat hin hsc
    refine ⟨r', src, o1, ?_⟩
    dsimp only
    rw [h2 r hat.rank]
    exact o2
  · rw [h2 r hr]
    exact k2 r hr

omit [Inhabited α] [Neg α] in
theorem WF.strides {W : World α} (h : WF g W) {i : Nat} {a : Mem.Arr} (ha : W.arrs[i]? = some a) :
    a.view.strides.length = a.view.shape.length := by
  obtain ⟨bv, S, hs, -⟩ := h
  rcases Mem.forall₂_get hs.arr i with ⟨h1, -⟩ | ⟨a', w, h1, -, hr⟩
  · rw [h1] at ha; cases ha
  · rw [h1] at ha
    cases ha
    exact hr.strides

omit [Inhabited α] [Neg α] in
/-- **C80**: what is read of variables (arrays, storages, quantities) which do not share memory with the cells that change is
the same as before. -/
theorem C80_others {P : Nat → List Nat → Prop} {W W1 : World α} (hW : Reachable g W) (h : OnlyCells P W W1) {k : Nat} {via : Mem.Via}
    (hk : ∀ idx a, At W k via idx a → ∀ h' idx', P h' idx' → ¬ Cell W h' idx' a) (ix : List Ix) :
    Mem.SameRead (W1.get k via ix) (W.get k via ix) := by
  have hw : WF g W := hW.spec
  unfold Mem.World.get
  rw [h.objs, h.arrs]
  cases ho : W.objs[k]? with
  | none => exact rfl
  | some o =>
    dsimp only
    cases ht : o.target via with
    | error e => exact rfl
    | ok i =>
      dsimp only
      cases ha : W.arrs[i]? with
      | none => exact rfl
      | some a =>
        dsimp only
        have hsame : ∀ idx, InB a.view.shape idx → W1.mem (a.view.addr idx) = W.mem (a.view.addr idx) := by
          intro idx hb
          rcases h.mem (a.view.addr idx) with e | ⟨h', idx', hp, hc⟩
          · exact e
          · exact absurd hc (hk idx _ ⟨o, i, a, ho, ht, ha, hb, rfl⟩ h' idx' hp)
        by_cases hz : Mem.zeroDim o.info via = true
        · rw [if_pos hz, if_pos hz]
          by_cases hi : ix = []
          · rw [if_pos hi, if_pos hi]
            exact ⟨rfl, hsame⟩
          · rw [if_neg hi, if_neg hi]
            exact rfl
        · rw [if_neg hz, if_neg hz]
          cases hv : Mem.viaIndex o.info a.view.shape via ix with
          | error e => exact rfl
          | ok ix' =>
            dsimp only
            cases hr : resolveAll ix' a.view.shape with
            | error e => exact rfl
            | ok rs =>
              refine ⟨rfl, fun rel hrel => ?_⟩
              have hok := resolveAll_ok hr
              have hrel' : InB (viewShape rs) rel := hrel
              show W1.mem ((a.view.slice rs).addr rel) = W.mem ((a.view.slice rs).addr rel)
              rw [slice_addr hok (hw.strides ha) hrel']
              exact hsame _ (viewIdx_inB hok hrel')

omit [Neg α] in
/-- **C80**: what is in the data of a quantity is seen through every variable which shares its memory. -/
theorem C80_shared {P : Nat → List Nat → Prop} {W W1 : World α} (hW : Reachable g W) (h : OnlyCells P W W1) {k q : Nat} {via : Mem.Via}
    {idx idx' : List Nat} {a : Int} (hk : At W k (Mem.plain via) idx a) (hq : Cell W q idx' a) :
    ∃ d : NDArray α, W1.get k (Mem.plain via) [] = .ok d ∧ d.get idx = (quantities W1 q).data.get idx' := by
  have hw : WF g W := hW.spec
  rw [cell_value ((cell_congr h.arrs h.objs).2 hq)]
  obtain ⟨o, i, arr, ho, ht, ha, hb, rfl⟩ := hk
  unfold Mem.World.get
  rw [h.objs, h.arrs, ho]
  dsimp only
  rw [ht]
  dsimp only
  rw [ha]
  dsimp only
  by_cases hz : Mem.zeroDim o.info (Mem.plain via) = true
  · rw [if_pos hz, if_pos rfl]
    exact ⟨_, rfl, rfl⟩
  · rw [if_neg hz]
    have hv : Mem.viaIndex o.info arr.view.shape (Mem.plain via) [] = .ok [] := by
      cases o <;> cases via <;> rfl
    rw [hv]
    obtain ⟨rs, r1, r2, r3⟩ := Mem.full_rs arr.view.shape
    dsimp only
    rw [r1]
    refine ⟨_, rfl, ?_⟩
    show W1.mem ((arr.view.slice rs).addr idx) = _
    rw [slice_addr (resolveAll_ok r1) (hw.strides ha) (by rw [r2]; exact hb), r3 idx hb]

omit [Neg α] in
theorem quantities_dims (W : World α) (mem : Int → α) (h : Nat) : (quantities { W with mem := mem } h).dims = (quantities W h).dims := by
  cases hd : dataOf W h with
  | ok x => rw [quantities_mem hd, quantities_eq hd]
  | error e =>
    have hd' : dataOf { W with mem := mem } h = .error e := hd
    unfold quantities value
    rw [hd, hd']
    rfl

/-- **C80**: a halo update of a quantity which is another one with its axes in another order, in the same memory, fills the
halo of that other one, and changes nothing in memory but the cells of that halo. -/
theorem C80_alias {W W1 : Int → World α} {h h' ky kx : Nat} {n w : Int} (hx : 0 < l.x) (hsq : l.y = l.x) (hh : 0 < w) (hn : w ≤ n)
    (S : ScalarField l (fun r => quantities (W r)) h ky kx n w) (hA : ∀ r ∈ allRanks l, Aliases (W r) h h')
    (D : ∀ r ∈ allRanks l, ∀ r' ∈ allRanks l, (quantities (W r') h').dims = (quantities (W r) h').dims)
    (hs : CommStep l (.halo h' w) W W1) :
    HaloFilled l h ky kx n w (fun r => quantities (W r)) (fun r => quantities (W1 r)) ∧
      ∀ r ∈ allRanks l, OnlyCells (HaloCells l W h ky kx n w r) (W r) (W1 r) := by
  obtain ⟨m', hu, hc⟩ := hs
  obtain ⟨p, ⟨p1, a1, a2⟩, -⟩ := haloCall_bulk hx hsq hh hn S (fun _ _ _ _ => true) 1
  have R : ∀ r ∈ allRanks l, Reordered (quantities (W r) h) (quantities (W r) h') := fun r hr => (hA r hr).values (W r).mem
  obtain ⟨ky', kx', S', K⟩ := S.reordered (p := fun r => quantities (W r)) (q' := h') R D (zero_mem_ranks hx hsq)
  have key : ∀ r ∈ allRanks l, ∀ idx : List Nat, idx.length = (quantities (W r) h).ndim →
      (quantities (W1 r) h).data.get idx = (p1 r h).data.get idx := by
    intro r hr idx hidx
    have k1 : Reordered (p1 r h) (m' r h') := step_reordered hx hsq hh hn S S' R K a1 hu hr
    have c2 := (hc r hr).2
    have e1 : W1 r = { W r with mem := (W1 r).mem } := by
      have := c2.next
      have := c2.arrs
      have := c2.objs
      generalize W1 r = z at *
      cases z
      simp only at *
      subst_vars
      rfl
    have k2 : Reordered (quantities (W1 r) h) (quantities (W1 r) h') := by
      have := (hA r hr).values (W1 r).mem
      rw [← e1] at this
      exact this
    rw [(hc r hr).1 h' (by simp [Op.qs])] at k2
    have hnd : (p1 r h).dims = (quantities (W r) h).dims := ((halo_step_value hx hsq hh hn S a1 hr).1 h).dims
    have hnd' : (quantities (W1 r) h).dims = (quantities (W r) h).dims := by
      rw [e1]
      exact quantities_dims _ _ _
    obtain ⟨f, rfl⟩ := (quantities (W r) h).named (R r hr).nodup hidx
    have d1 := k1.data f
    have d2 := k2.data f
    rw [hnd] at d1
    rw [hnd'] at d2
    exact d2.symm.trans d1
  refine ⟨fun r idx t a b hat hin hsc => ?_, fun r hr => ?_⟩
  · obtain ⟨r', src, o1, o2⟩ := step_filled hx hsq hh hn S a1 r idx t a b hat hin hsc
    exact ⟨r', src, o1, (key r hat.rank idx hin.1).trans o2⟩
  · obtain ⟨-, c2⟩ := hc r hr
    refine ⟨c2.next, c2.arrs, c2.objs, fun a => ?_⟩
    rcases c2.mem a with e | ⟨k, idx', hk, hcell'⟩
    · exact .inl e
    · have hk' : k = h' := by simpa [Op.qs] using hk
      subst hk'
      obtain ⟨idx, hcell⟩ := (hA r hr).cells idx' a hcell'
      by_cases hp : HaloCells l W h ky kx n w r h idx
      · exact .inr ⟨h, idx, hp, hcell⟩
      · left
        have v0 := cell_value hcell
        have v1 := cell_value ((cell_congr c2.arrs c2.objs).2 hcell)
        have hlen := cell_ndim (S.ready r hr).wf.shape hcell
        rw [← v0, ← v1, key r hr idx hlen]
        have ht : tileIndex l r = .ok _ := tileIndex_eq (by omega) hx r
        exact (step_only hx hsq hh hn S a1 r hr).2.2 idx _ _ _ ⟨hr, ht, rfl, rfl⟩ hlen
          fun hq => hp ⟨rfl, hq.1, _, _, _, ⟨hr, ht, rfl, rfl⟩, hq.2⟩

/-! ### a transposed quantity -/

omit [Inhabited α] [Neg α] in
theorem nodup_of_order {dims t : List Dim} (h : (t.map fun d => dims.idxOf d).Perm (List.range dims.length)) : dims.Nodup := by
  rw [List.nodup_iff_injective_getElem]
  intro a b e
  have key : ∀ k : Fin dims.length, dims.idxOf dims[k.1] = k.1 := by
    intro k
    obtain ⟨d, -, hd⟩ := List.mem_map.1 (h.mem_iff.2 (List.mem_range.2 k.2))
    have h1 : dims.idxOf d < dims.length := by rw [hd]; exact k.2
    have h2 : dims[k.1] = d := by
      have := List.getElem_idxOf h1
      simpa only [hd] using this
    rw [h2, hd]
  apply Fin.ext
  have e' : dims[a.1] = dims[b.1] := e
  rw [← key a, ← key b, e']

omit [Inhabited α] [Neg α] in
theorem transpose_result {V : World α} {h : Nat} {q : Mem.QObj} {a : Mem.Arr} (hq : V.objs[h]? = some (.quantity q))
    (ha : V.arrs[q.data]? = some a) (hb : q.info.backend = none) {target : List Quantity.TDim}
    (hok : (V.step g (.transpose h target)).1 = .ok ()) :
    ∃ (t : List Dim) (u : Quantity Unit), Quantity.collapseDims q.info.dims target = .ok t ∧
      (t.map fun d => q.info.dims.idxOf d).Perm (List.range a.view.shape.length) ∧
      Quantity.mk? (⟨(t.map fun d => q.info.dims.idxOf d).map fun k => a.view.shape.getD k 0, fun _ => ()⟩ : NDArray Unit)
        (Quantity.transposeSeq .x q.info.dims (t.map fun d => q.info.dims.idxOf d)) q.info.units
        (some (Quantity.transposeSeq 0 q.info.origin (t.map fun d => q.info.dims.idxOf d)))
        (some (Quantity.transposeSeq 0 q.info.extent (t.map fun d => q.info.dims.idxOf d))) = .ok u ∧
      (V.step g (.transpose h target)).2 = (V.newArr { a with view := Mem.transposeView (t.map fun d => q.info.dims.idxOf d) a.view }).add
        (.quantity ⟨V.arrs.length, none, V.arrs.length,
          ⟨Quantity.transposeSeq .x q.info.dims (t.map fun d => q.info.dims.idxOf d), q.info.units, u.origin, u.extent, none⟩⟩) := by
  have e0 : V.step g (.transpose h target) = V.transpose g q target := by
    show (match V.objs[h]? with | none => _ | some (.quantity q) => _ | some _ => _) = _
    rw [hq]
  rw [e0] at hok ⊢
  unfold Mem.World.transpose at hok ⊢
  cases ht : Quantity.collapseDims q.info.dims target with
  | error e => rw [ht] at hok; cases hok
  | ok t =>
    rw [ht, ha] at hok
    rw [ha]
    dsimp only at hok ⊢
    by_cases hp : (t.map fun d => q.info.dims.idxOf d).length = a.view.shape.length ∧ (t.map fun d => q.info.dims.idxOf d).Nodup ∧
        ∀ k ∈ t.map fun d => q.info.dims.idxOf d, k < a.view.shape.length
    · rw [if_pos hp] at hok ⊢
      unfold Mem.World.quantityOfArray at hok ⊢
      have hga : (V.newArr { a with view := Mem.transposeView (t.map fun d => q.info.dims.idxOf d) a.view }).arrs[V.arrs.length]? =
          some { a with view := Mem.transposeView (t.map fun d => q.info.dims.idxOf d) a.view } := by
        show (V.arrs ++ [_])[V.arrs.length]? = _
        simp
      rw [hga, hb] at hok
      rw [hga, hb]
      dsimp only at hok ⊢
      unfold Mem.World.finishInit at hok ⊢
      split at hok
      · cases hok
      · next u hu =>
        exact ⟨t, u, rfl, Mem.perm_iff.1 hp, hu, rfl⟩
    · rw [if_neg hp] at hok
      cases hok

omit [Inhabited α] [Neg α] in
theorem tr_inB_rev {perm s : List Nat} (hp : perm.Perm (List.range s.length)) {idx : List Nat} (hl : idx.length = perm.length)
    (hi : InB s ((List.range perm.length).map fun k => idx.getD (perm.idxOf k) 0)) : InB (perm.map fun k => s.getD k 0) idx := by
  have hnd : perm.Nodup := hp.nodup_iff.2 List.nodup_range
  have hpl : perm.length = s.length := by simpa using hp.length_eq
  obtain ⟨-, h2⟩ := (inB_iff _ _).1 hi
  rw [inB_iff]
  refine ⟨by simpa using hl, fun j hj => ?_⟩
  have hj' : j < perm.length := by simpa using hj
  have hk : perm[j] < s.length := List.mem_range.1 (hp.mem_iff.1 (List.getElem_mem hj'))
  have := h2 perm[j] hk
  rw [getD_lt (l := (List.range perm.length).map _) _ (by simpa [hpl] using hk), List.getElem_map, List.getElem_range, hnd.idxOf_getElem j hj'] at this
  rw [getD_lt (l := perm.map _) _ hj, List.getElem_map]
  exact this

omit [Neg α] in
theorem transposed {V : World α} (hV : WF g V) {h : Nat} {i : Mem.Info} (hi : V.infoOf h = some i) (hb : i.backend = none)
    {target : List Quantity.TDim} (hok : (V.step g (.transpose h target)).1 = .ok ()) :
    Aliases (V.step g (.transpose h target)).2 h V.objs.length ∧
      (V.writeable h .data = true → (V.step g (.transpose h target)).2.writeable V.objs.length .data = true) ∧
      (∃ j, (V.step g (.transpose h target)).2.infoOf V.objs.length = some j ∧ j.dims.length = i.dims.length) ∧
      quantities (V.step g (.transpose h target)).2 h = quantities V h ∧
      (∃ t, Quantity.collapseDims i.dims target = .ok t ∧ (quantities (V.step g (.transpose h target)).2 V.objs.length).dims =
        Quantity.transposeSeq .x i.dims (t.map fun d => i.dims.idxOf d)) := by
  have hobj : ∃ q, V.objs[h]? = some (.quantity q) ∧ q.info = i := by
    unfold Mem.World.infoOf at hi
    cases ho : V.objs[h]? with
    | none => rw [ho] at hi; cases hi
    | some o =>
      rw [ho] at hi
      cases o with
      | array _ => cases hi
      | storage _ _ _ => cases hi
      | quantity q => cases hi; exact ⟨q, rfl, rfl⟩
  obtain ⟨q, hq, rfl⟩ := hobj
  obtain ⟨-, a, ha, hinj, hstr, horig, hdims, hext⟩ := hV.quantity hq
  obtain ⟨t, u, ht, hp, hu, e⟩ := transpose_result hq ha hb hok
  rw [e]
  clear e hok
  have hlt : h < V.objs.length := (List.getElem?_eq_some_iff.1 hq).1
  have hal : q.data < V.arrs.length := (List.getElem?_eq_some_iff.1 ha).1
  have d1 : ∀ mem : Int → α, dataOf { (V.newArr { a with view := Mem.transposeView (t.map fun d => q.info.dims.idxOf d) a.view }).add
      (.quantity ⟨V.arrs.length, none, V.arrs.length,
        ⟨Quantity.transposeSeq .x q.info.dims (t.map fun d => q.info.dims.idxOf d), q.info.units, u.origin, u.extent, none⟩⟩) with mem := mem } h =
        .ok (q.data, a, q.info) := by
    intro mem
    unfold dataOf
    show (match (V.objs ++ [_])[h]? with | none => _ | some (.quantity q) => _ | some _ => _) = _
    rw [snoc_get hq]
    show (match (V.arrs ++ [_])[q.data]? with | none => _ | some a => _) = _
    rw [snoc_get ha]
  have d2 : ∀ mem : Int → α, dataOf { (V.newArr { a with view := Mem.transposeView (t.map fun d => q.info.dims.idxOf d) a.view }).add
      (.quantity ⟨V.arrs.length, none, V.arrs.length,
        ⟨Quantity.transposeSeq .x q.info.dims (t.map fun d => q.info.dims.idxOf d), q.info.units, u.origin, u.extent, none⟩⟩) with mem := mem }
        V.objs.length = .ok (V.arrs.length, { a with view := Mem.transposeView (t.map fun d => q.info.dims.idxOf d) a.view },
        ⟨Quantity.transposeSeq .x q.info.dims (t.map fun d => q.info.dims.idxOf d), q.info.units, u.origin, u.extent, none⟩) := by
    intro mem
    unfold dataOf
    show (match (V.objs ++ [_])[V.objs.length]? with | none => _ | some (.quantity q) => _ | some _ => _) = _
    rw [List.getElem?_concat_length]
    show (match (V.arrs ++ [_])[V.arrs.length]? with | none => _ | some a => _) = _
    rw [List.getElem?_concat_length]
  have d0 : dataOf V h = .ok (q.data, a, q.info) := by
    unfold dataOf
    rw [hq]
    dsimp only
    rw [ha]
  have hp' : (t.map fun d => q.info.dims.idxOf d).Perm (List.range q.info.dims.length) := by rw [hdims]; exact hp
  have hnd := nodup_of_order hp'
  have hol : (t.map fun d => q.info.dims.idxOf d).length = a.view.shape.length := by simpa using hp.length_eq
  have hdot : ∀ idx : List Nat, idx.length = (t.map fun d => q.info.dims.idxOf d).length →
      (Mem.transposeView (t.map fun d => q.info.dims.idxOf d) a.view).addr idx =
        a.view.addr ((List.range (t.map fun d => q.info.dims.idxOf d).length).map fun k =>
          idx.getD ((t.map fun d => q.info.dims.idxOf d).idxOf k) 0) := by
    intro idx hil
    show a.view.offset + _ = a.view.offset + _
    congr 1
    exact Mem.dot_transpose (by rw [hstr]; exact hp) (by rw [hil, hol, hstr])
  refine ⟨⟨fun idx' b hc => ?_, fun mem => ?_⟩, fun hw => ?_, ?_, ?_, t, ht, ?_⟩
  · obtain ⟨x, hx, hin, rfl⟩ := hc
    have hx' := (d2 V.mem).symm.trans hx
    cases hx'
    have hin' : InB ((t.map fun d => q.info.dims.idxOf d).map fun k => a.view.shape.getD k 0) idx' := hin
    refine ⟨_, _, d1 V.mem, Mem.tr_inB hp hin', (hdot idx' ?_).symm⟩
    simpa using ((inB_iff _ _).1 hin').1
  · rw [quantities_eq (d1 mem), quantities_eq (d2 mem)]
    dsimp only
    have hv := Mem.transpose_value ht hp hu (clip (a.view.read mem)) rfl
    have R := reordered_of_transpose (A := ⟨clip (a.view.read mem), q.info.dims, q.info.units, q.info.origin, q.info.extent⟩)
      ⟨hdims.symm, horig.trans hdims.symm, hext.trans hdims.symm⟩ hnd hv
    refine SameMeta.reordered R (SameMeta.refl _) ⟨rfl, rfl, rfl, rfl, rfl⟩ fun f => ?_
    refine Eq.trans ?_ (R.data f)
    dsimp only
    generalize hidx : (Quantity.transposeSeq .x q.info.dims (t.map fun d => q.info.dims.idxOf d)).map f = idx
    have hil : idx.length = (t.map fun d => q.info.dims.idxOf d).length := by
      rw [← hidx]
      simp [Quantity.transposeSeq]
    by_cases hb : InB ((t.map fun d => q.info.dims.idxOf d).map fun k => a.view.shape.getD k 0) idx
    · refine (if_pos hb).trans ?_
      refine Eq.trans ?_ (if_pos (Mem.tr_inB hp hb)).symm
      show mem _ = mem _
      rw [hdot idx hil]
    · refine (if_neg hb).trans (if_neg fun hc => hb ?_).symm
      exact tr_inB_rev hp hil hc
  · unfold Mem.World.writeable at hw ⊢
    rw [hq] at hw
    show (match (V.objs ++ [_])[V.objs.length]? with | none => _ | some o => _) = _
    rw [List.getElem?_concat_length]
    simp only [Mem.Obj.target, ha] at hw
    show (Option.map _ (V.arrs ++ [_])[V.arrs.length]?).getD false = true
    rw [List.getElem?_concat_length]
    exact hw
  · refine ⟨⟨Quantity.transposeSeq .x q.info.dims (t.map fun d => q.info.dims.idxOf d), q.info.units, u.origin, u.extent, none⟩, ?_, ?_⟩
    · show ((V.objs ++ [_])[V.objs.length]? >>= Mem.Obj.info) = _
      rw [List.getElem?_concat_length]
      rfl
    · show (Quantity.transposeSeq .x q.info.dims (t.map fun d => q.info.dims.idxOf d)).length = _
      rw [hdims, ← hol]
      simp [Quantity.transposeSeq]
  · rw [quantities_eq d0]
    exact quantities_eq (d1 V.mem)
  · have := quantities_eq (d2 V.mem)
    exact congrArg Quantity.dims this

omit [Neg α] in
theorem quantities_info {V : World α} (hV : WF g V) {h : Nat} {i : Mem.Info} (hi : V.infoOf h = some i) :
    (quantities V h).dims = i.dims := by
  unfold Mem.World.infoOf at hi
  cases ho : V.objs[h]? with
  | none => rw [ho] at hi; cases hi
  | some o =>
    rw [ho] at hi
    cases o with
    | array _ => cases hi
    | storage _ _ _ => cases hi
    | quantity q =>
      cases hi
      obtain ⟨-, a, h1, -⟩ := hV.quantity ho
      have d0 : dataOf V h = .ok (q.data, a, q.info) := by
        unfold dataOf
        rw [ho]
        dsimp only
        rw [h1]
      rw [quantities_eq d0]

/-- **C80**: `comm.halo_update(quantity.transpose(target), w)` fills the halo of `quantity`, and changes nothing else in memory:
the transpose of a quantity without backend shares its memory. -/
theorem C80_transpose {V W : Int → World α} {h h' ky kx : Nat} {n w : Int} {target : List Quantity.TDim} (hx : 0 < l.x) (hsq : l.y = l.x)
    (hh : 0 < w) (hn : w ≤ n) (hV : ∀ r ∈ allRanks l, Reachable g (V r)) (hlen : ∀ r ∈ allRanks l, (V r).objs.length = h')
    (hi : ∀ r ∈ allRanks l, ∃ i, (V r).infoOf h = some i ∧ i.backend = none)
    (hw : ∀ r ∈ allRanks l, (V r).writeable h .data = true)
    (hT : ∀ r ∈ allRanks l, (V r).step g (.transpose h target) = (.ok (), W r))
    (S : ScalarField l (fun r => quantities (W r)) h ky kx n w) (buf : Buffering) :
    ∃ W' : Int → World α,
      ((callNet g l [.compute fun _ => [.transpose h target], .haloUpdate h' w] V).Completes buf
        fun r => (.ok (), ⟨W' r, if r ∈ allRanks l then 1 else 0, []⟩)) ∧
      HaloFilled l h ky kx n w (fun r => quantities (W r)) (fun r => quantities (W' r)) ∧
      ∀ r ∈ allRanks l, OnlyCells (HaloCells l W h ky kx n w r) (W r) (W' r) := by
  have T : ∀ r ∈ allRanks l, Aliases (W r) h h' ∧ (W r).writeable h' .data = true ∧ (∃ j, (W r).infoOf h' = some j ∧ j.dims ≠ []) ∧
      ∃ t, Quantity.collapseDims (quantities (W r) h).dims target = .ok t ∧ (quantities (W r) h').dims =
        Quantity.transposeSeq .x (quantities (W r) h).dims (t.map fun d => (quantities (W r) h).dims.idxOf d) := by
    intro r hr
    obtain ⟨i, i1, i2⟩ := hi r hr
    have e : ((V r).step g (.transpose h target)).2 = W r := by rw [hT r hr]
    obtain ⟨t1, t2, ⟨j, t3, t4⟩, t5, t6⟩ := transposed (g := g) (hV r hr).spec i1 i2 (by rw [hT r hr])
    rw [e, hlen r hr] at t1 t2 t3 t6
    rw [e] at t5
    have hd : (quantities (W r) h).dims = i.dims := by
      rw [t5]
      exact quantities_info (hV r hr).spec i1
    refine ⟨t1, t2 (hw r hr), ⟨j, t3, fun e0 => ?_⟩, ?_⟩
    · have h1 := (S.ready r hr).axes.ylt
      change ky < (quantities (W r) h).dims.length at h1
      rw [hd, ← t4, e0] at h1
      exact Nat.not_lt_zero _ h1
    · rw [hd]
      exact t6
  have D : ∀ r ∈ allRanks l, ∀ r' ∈ allRanks l, (quantities (W r') h').dims = (quantities (W r) h').dims := by
    intro r hr r' hr'
    obtain ⟨-, -, -, t, t1, t2⟩ := T r hr
    obtain ⟨-, -, -, t', t1', t2'⟩ := T r' hr'
    have hd : (quantities (W r') h).dims = (quantities (W r) h).dims := S.dims r hr r' hr'
    rw [hd] at t1' t2'
    rw [t1] at t1'
    cases t1'
    rw [t2, t2']
  have hW : ∀ r ∈ allRanks l, Reachable g (W r) := fun r hr => by
    have := (hV r hr).step (.transpose h target)
    rw [hT r hr] at this
    exact this
  have R : ∀ r ∈ allRanks l, Reordered (quantities (W r) h) (quantities (W r) h') := fun r hr => (T r hr).1.values (W r).mem
  obtain ⟨ky', kx', S', -⟩ := S.reordered (p := fun r => quantities (W r)) (q' := h') R D (zero_mem_ranks hx hsq)
  have after : ∀ r ∈ allRanks l, (V r).after g [.transpose h target] = W r := fun r hr => by
    show ((V r).step g (.transpose h target)).2 = W r
    rw [hT r hr]
  obtain ⟨W', ⟨W0, h0, W1, h1, h2⟩, h3⟩ := C80_session (g := g) (W := V) (calls := [.compute fun _ => [.transpose h target], .haloUpdate h' w])
    hx hsq hV (fun pre c post e op ho W1 h1 => by
      rcases pre with _ | ⟨d, _ | ⟨d', pre⟩⟩
      · cases e
        cases ho
      · cases e
        cases ho
        obtain ⟨W0, a, b⟩ := h1
        have e1 : ∀ r ∈ allRanks l, W1 r = W r := fun r hr => ((b r hr).trans (a r hr)).trans (after r hr)
        refine ⟨fun r hr => ?_, updateReady_same (m := fun r => quantities (W r)) ⟨ky', kx', n, hh, hn, S'⟩ fun r hr q _ => ?_⟩
        · rw [e1 r hr]
          exact ⟨fun k hk => by
            rw [List.mem_singleton.1 hk]
            exact (T r hr).2.2.1, fun k hk => by
            rw [List.mem_singleton.1 hk]
            exact (T r hr).2.1, fun k hk k' hk' hne => absurd ((List.mem_singleton.1 hk).trans (List.mem_singleton.1 hk').symm) hne⟩
        · rw [e1 r hr]
          exact SameMeta.refl _
      · cases pre <;> cases e) buf
  replace h1 := h1.congr fun r hr => (h0 r hr).trans (after r hr)
  obtain ⟨k1, k2⟩ := C80_alias hx hsq hh hn S (fun r hr => (T r hr).1) D h1
  refine ⟨W', h3, fun r idx t a b hat hin hsc => ?_, fun r hr => ?_⟩
  · obtain ⟨r', src, o1, o2⟩ := k1 r idx t a b hat hin hsc
    refine ⟨r', src, o1, ?_⟩
    dsimp only
    rw [h2 r hat.rank]
    exact o2
  · rw [h2 r hr]
    exact k2 r hr

end Heap
end FV3
