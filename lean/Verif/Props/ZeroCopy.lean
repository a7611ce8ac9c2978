import Verif.Proofs.HaloValue
import Verif.Proofs.SyncValue
import Verif.Props.Protocol

/-!
# C24: data that is sent is not overwritten by the same update

`_Isend` (communicator.py:637-646) passes contiguous data to MPI without a copy, so MPI may read
it at any time until the send is complete, while the rank is already storing arrays it receives.
-/

namespace FV3
variable {α : Type}

theorem pyMap_rel {A B C : Type} {f : A → Py B} {g : A → Py C} {R : B → C → Prop} {l : List A}
    (h : ∀ a ∈ l, ∃ b c, f a = .ok b ∧ g a = .ok c ∧ R b c) :
    ∃ bs cs, pyMap f l = .ok bs ∧ pyMap g l = .ok cs ∧ List.Forall₂ R bs cs := by
  induction l with
  | nil => exact ⟨[], [], rfl, rfl, .nil⟩
  | cons a l ih =>
    obtain ⟨b, c, h1, h2, h3⟩ := h a List.mem_cons_self
    obtain ⟨bs, cs, h4, h5, h6⟩ := ih fun a' ha' => h a' (List.mem_cons_of_mem _ ha')
    refine ⟨b :: bs, c :: cs, ?_, ?_, .cons h3 h6⟩
    · simp only [pyMap, h1, h4]; rfl
    · simp only [pyMap, h2, h5]; rfl

theorem forall₂_append {A B : Type} {R : A → B → Prop} {a a' : List A} {b b' : List B}
    (h : List.Forall₂ R a b) (h' : List.Forall₂ R a' b') : List.Forall₂ R (a ++ a') (b ++ b') := by
  induction h with
  | nil => exact h'
  | cons h1 _ ih => exact .cons h1 ih

theorem forall₂_flatten {A B : Type} {R : A → B → Prop} {as : List (List A)} {bs : List (List B)}
    (h : List.Forall₂ (List.Forall₂ R) as bs) : List.Forall₂ R as.flatten bs.flatten := by
  induction h with
  | nil => exact .nil
  | cons h1 _ ih => exact forall₂_append h1 ih

theorem IsTurn.congr {a a' r r' : NDArray α} {ky kx : Nat} {k : Int} (hne : ky ≠ kx)
    (hy : ky < a.shape.length) (hx : kx < a.shape.length) (h : a.IsTurn ky kx k r)
    (h' : a'.IsTurn ky kx k r') (e : a'.Eqv a) : r'.Eqv r := by
  have es : r'.shape = r.shape := by rw [h'.1, h.1, e.1]
  refine ⟨es, fun idx hi => ?_⟩
  rw [h'.2 idx hi, h.2 idx (by rw [← es]; exact hi), e.1]
  refine e.2 _ ?_
  rw [e.1]
  refine inB_turnSrc hne hy hx k ?_
  rw [← h.1, ← es]; exact hi

theorem Eqv.flip {a b : NDArray α} (h : a.Eqv b) (ax : Nat) : (a.flip ax).Eqv (b.flip ax) := by
  refine ⟨h.1, fun idx hi => ?_⟩
  show a.get _ = b.get _
  rw [← h.1]
  refine h.2 _ ?_
  replace hi : InB a.shape idx := hi
  rw [inB_iff] at hi ⊢
  refine ⟨by simpa using hi.1, fun k hk => ?_⟩
  have := hi.2 k hk
  by_cases e : k = ax
  · subst e
    have hk' : k < idx.length := by rw [hi.1]; exact hk
    simp only [List.getD_eq_getElem?_getD, List.getElem?_set_self hk', Option.getD_some] at this ⊢
    omega
  · simpa [List.getD_eq_getElem?_getD, List.getElem?_set_ne (Ne.symm e)] using this

section
variable {mem mem' : Mem α} {q ky kx : Nat} {n h : Int}

/-- The array is stored in the halo of a quantity. -/
def HaloStore (mem : Mem α) (x : Incoming) : Prop :=
  ∃ ky kx n h b, 0 < h ∧ HaloReady (mem x.q) ky kx n h ∧ x.ix = recvIx (mem x.q) b h

/-- The points that are sent are in the compute domain. -/
theorem compute_send_kept (H : HaloReady (mem q) ky kx n h) (hh : 0 < h) (hn : h ≤ n) (g : SameMeta (mem q) (mem' q))
    (g2 : ∀ idx, (mem q).InCompute idx → (mem' q).data.get idx = (mem q).data.get idx) (b : BType) :
    (sendArr (mem' q) b h).Eqv (sendArr (mem q) b h) := by
  have hsh : (sendArr (mem' q) b h).shape = (sendArr (mem q) b h).shape := by
    unfold sendArr sLen
    simp only [g.ndim, g.d, g.o, g.e]
  refine ⟨hsh, fun rel hi => ?_⟩
  rw [hsh] at hi
  have hst : (fun k => ((sStart (mem' q) b h k + at' rel k).toNat)) =
      fun k => ((sStart (mem q) b h k + at' rel k).toNat) := by
    funext k; unfold sStart; rw [g.d, g.o, g.e]
  show (mem' q).data.get (tab (mem' q).ndim _) = (mem q).data.get (tab (mem q).ndim _)
  rw [hst, g.ndim]
  set idx := tab (mem q).ndim fun k => ((sStart (mem q) b h k + at' rel k).toNat) with hidx
  have hl : idx.length = (mem q).ndim := by simp [hidx]
  have hin : InSend (mem q) b h idx := by
    refine ⟨hl, fun k hk => ?_⟩
    have hfit := H.sendFits hh hn b k hk
    rw [inB_iff] at hi
    have hk2 := hi.2 k (by simpa [sendArr] using hk)
    simp only [sendArr, getD_tab _ _ hk] at hk2
    have e : at' idx k = ((sStart (mem q) b h k + at' rel k).toNat : Int) := by
      unfold at' ; rw [hidx, getD_tab _ _ hk]
    rw [e]
    unfold sLen at hk2
    unfold sStart at' at *
    omega
  refine g2 idx (C12_send_inside (mem q) b h (fun k hk hdir => ?_) idx hin)
  by_cases h1 : k = ky
  · subst h1; have := H.ey; omega
  · by_cases h2 : k = kx
    · subst h2; have := H.ex; omega
    · exact absurd (dirAlong_other H.axes b hk h1 h2) hdir

/-- Storing arrays in halos does not change compute domains. -/
theorem haloStore_compute {arr : Int → Nat → Option (NDArray α)} {xs : List Incoming} (hxs : ∀ x ∈ xs, HaloStore mem x)
    (hd : deliver arr xs mem = .ok mem') (q : Nat) (idx : List Nat) (hc : (mem q).InCompute idx) :
    (mem' q).data.get idx = (mem q).data.get idx := by
  rcases (deliver_get hd).2 q idx with ⟨-, e⟩ | ⟨x, hx, hxq, rel', a, hcov, -, -⟩
  · exact e
  · exfalso
    obtain ⟨ky', kx', n', h', b', hh', H', hix⟩ := hxs x hx
    obtain ⟨src, off, q', ix⟩ := x
    simp only at hxq hix H'
    subst hxq hix
    have hno : ¬ InRecv (mem q') b' h' idx := fun hi =>
      (C12_recv_outside_disjoint (mem q') ky' kx' H'.axes H'.wf b' h' idx hi).1 hc
    rw [(cover_halo H' hh' src off b' idx hc.1).2 hno] at hcov
    simp at hcov

/-- Storing arrays in the high edge of a component does not change its low edge. -/
theorem edge_send_kept {arr : Int → Nat → Option (NDArray α)} {xs : List Incoming} {d : Bool}
    (H : CompOK (mem q) d ky kx n)
    (hxs : ∀ x ∈ xs, x.q = q → resolveAll x.ix (mem q).data.shape =
      .ok (edgeRs (mem q) (pax ky kx d) (hiPos (mem q) ky kx d)))
    (hd : deliver arr xs mem = .ok mem') :
    (loEdge (mem' q) ky kx d).Eqv (loEdge (mem q) ky kx d) := by
  obtain ⟨g1, g2⟩ := deliver_get hd
  have g := g1 q
  have hrs : edgeRs (mem' q) (pax ky kx d) (loPos (mem' q) ky kx d) =
      edgeRs (mem q) (pax ky kx d) (loPos (mem q) ky kx d) := by
    unfold edgeRs loPos
    simp only [g.ndim, g.o, g.e]
  refine ⟨by unfold loEdge NDArray.view; rw [hrs], fun rel hi => ?_⟩
  unfold loEdge NDArray.view at hi ⊢
  simp only [hrs] at hi ⊢
  rw [edge_shape _ H.lead' H.nd] at hi
  match rel, hi with
  | v :: rest, hi =>
    obtain ⟨v1, v2, v3, v4⟩ := edge_viewIdx (mem q) H.lead' H.nd (loPos (mem q) ky kx d) v rest
    rcases g2 q (viewIdx (edgeRs (mem q) (pax ky kx d) (loPos (mem q) ky kx d)) (v :: rest)) with
      ⟨-, e⟩ | ⟨x, hx, hxq, rel', a, hcov, -, -⟩
    · exact e
    · exfalso
      obtain ⟨i1, i2, i3⟩ := H.inside
      have he := H.ext
      unfold cover at hcov
      rw [hxq, hxs x hx hxq] at hcov
      simp only at hcov
      rw [(edge_unview (mem q) H.wf H.lead' H.nd (hiPos (mem q) ky kx d) _ v1
        (by unfold hiPos; omega) (by unfold hiPos; omega)).2] at hcov
      · simp at hcov
      · rintro ⟨-, e⟩
        rw [v2] at e
        unfold loPos hiPos at e
        omega

end

variable [Neg α]

omit [Neg α] in
/-- Updates of halos store in halos. -/
theorem inn_haloStore {l : Layout} {m : Int → Mem α} {op : Op α} (hx : 0 < l.x)
    (hsq : l.y = l.x) (hst : op.isHalo = true) (hready : UpdateReady l m op) {r : Int}
    (hr : r ∈ allRanks l) {mem : Mem α} (hmeta : MetaIs m r mem) {i : List Incoming}
    (hi : op.inn l r mem = .ok i) : ∀ x ∈ i, HaloStore mem x := by
  cases op with
  | sync x y => simp [Op.isHalo] at hst
  | wait j => simp [Op.isHalo] at hst
  | compute f => simp [Op.isHalo] at hst
  | halo q h =>
    obtain ⟨ky, kx, n, hh, hn, S⟩ := hready
    have H : HaloReady (mem q) ky kx n h := (hmeta q).haloReady (S.ready r hr)
    obtain ⟨i', e1, e2, -⟩ := halo_in hx hsq hr hh H 0
    simp only [Op.inn] at hi
    rw [hi] at e1
    simp only [Except.ok.injEq] at e1
    subst e1
    intro x hx
    obtain ⟨B, -, rfl⟩ := (e2 x).1 hx
    exact ⟨ky, kx, n, h, _, hh, H, rfl⟩
  | vector x y h =>
    obtain ⟨ky, kx, n, hh, hn, S⟩ := hready
    have Hx : HaloReady (mem x) ky kx n h := (hmeta x).haloReady (S.readyX r hr)
    have Hy : HaloReady (mem y) ky kx n h := (hmeta y).haloReady (S.readyY r hr)
    obtain ⟨i', e1, e2, -⟩ := vector_in hx hsq hr hh Hx Hy
    simp only [Op.inn] at hi
    rw [hi] at e1
    simp only [Except.ok.injEq] at e1
    subst e1
    intro z hz
    obtain ⟨B, -, rfl | rfl⟩ := (e2 z).1 hz
    · exact ⟨ky, kx, n, h, _, hh, Hx, rfl⟩
    · exact ⟨ky, kx, n, h, _, hh, Hy, rfl⟩

/-- Updates of halos send points of the compute domains. -/
theorem halo_out_compute {l : Layout} {m : Int → Mem α} {op : Op α} (hx : 0 < l.x)
    (hsq : l.y = l.x) (hst : op.isHalo = true) (hready : UpdateReady l m op) {r : Int}
    (hr : r ∈ allRanks l) {mem mem' : Mem α} (hmeta : MetaIs m r mem)
    (gm : ∀ q ∈ op.qs, SameMeta (mem q) (mem' q))
    (gc : ∀ q ∈ op.qs, ∀ idx, (mem q).InCompute idx → (mem' q).data.get idx = (mem q).data.get idx) :
    ∃ o o', op.out l r mem = .ok o ∧ op.out l r mem' = .ok o' ∧ SameMessages o o' := by
  cases op with
  | sync x y => simp [Op.isHalo] at hst
  | wait j => simp [Op.isHalo] at hst
  | compute f => simp [Op.isHalo] at hst
  | halo q h =>
    obtain ⟨ky, kx, n, hh, hn, S⟩ := hready
    have H : HaloReady (mem q) ky kx n h := (hmeta q).haloReady (S.ready r hr)
    have gm := gm q (by simp [Op.qs])
    have H' : HaloReady (mem' q) ky kx n h := gm.haloReady H
    have kept := compute_send_kept H hh hn gm (gc q (by simp [Op.qs]))
    obtain ⟨bs, hb, -⟩ := boundaries_ok hx hsq hr
    simp only [Op.out, if_neg (show ¬ h = 0 by omega), haloOut, hb]
    refine pyMap_rel fun B _ => ?_
    obtain ⟨a, h1, h2⟩ := rotateScalar_eq (sendArr (mem q) B.boundaryType h) (mem q).dims H.axes
      (by simp [sendArr, Quantity.ndim]) (-B.rotations)
    obtain ⟨a', h1', h2'⟩ := rotateScalar_eq (sendArr (mem' q) B.boundaryType h) (mem' q).dims H'.axes
      (by simp [sendArr, Quantity.ndim]) (-B.rotations)
    refine ⟨⟨B.toRank, 0, a⟩, ⟨B.toRank, 0, a'⟩, ?_, ?_, rfl, rfl, ?_⟩
    · rw [sendView_eq _ H.wf _ (by omega) (H.sendFits hh hn _)]
      simp only [Bind.bind, Except.bind, h1, Pure.pure, Except.pure]
    · rw [sendView_eq _ H'.wf _ (by omega) (H'.sendFits hh hn _)]
      simp only [Bind.bind, Except.bind, h1', Pure.pure, Except.pure]
    · exact IsTurn.congr H.axes.dne (by simpa [sendArr] using (show ky < (mem q).ndim from H.axes.ylt))
        (by simpa [sendArr] using (show kx < (mem q).ndim from H.axes.xlt)) h2 h2' (kept B.boundaryType)
  | vector x y h =>
    obtain ⟨ky, kx, n, hh, hn, S⟩ := hready
    have Hx : HaloReady (mem x) ky kx n h := (hmeta x).haloReady (S.readyX r hr)
    have Hy : HaloReady (mem y) ky kx n h := (hmeta y).haloReady (S.readyY r hr)
    have gx := gm x (by simp [Op.qs])
    have gy := gm y (by simp [Op.qs])
    have Hx' : HaloReady (mem' x) ky kx n h := gx.haloReady Hx
    have Hy' : HaloReady (mem' y) ky kx n h := gy.haloReady Hy
    have hnd : (mem y).ndim = (mem x).ndim := by
      rw [(hmeta y).ndim, (hmeta x).ndim]; exact S.ndim r hr
    have hnd' : (mem' y).ndim = (mem' x).ndim := by rw [gy.ndim, gx.ndim]; exact hnd
    have keptX := compute_send_kept Hx hh hn gx (gc x (by simp [Op.qs]))
    have keptY := compute_send_kept Hy hh hn gy (gc y (by simp [Op.qs]))
    obtain ⟨bs, hb, -⟩ := boundaries_ok hx hsq hr
    have key : ∀ B : Boundary, ∃ b c,
        (do
          let xd ← sendView (mem x) B.boundaryType h
          let yd ← sendView (mem y) B.boundaryType h
          let xy ← rotateVector xd yd (-B.rotations) (mem x).dims
          return ([⟨B.toRank, 0, xy.1⟩, ⟨B.toRank, 1, xy.2⟩] : List (Outgoing α))) = .ok b ∧
        (do
          let xd ← sendView (mem' x) B.boundaryType h
          let yd ← sendView (mem' y) B.boundaryType h
          let xy ← rotateVector xd yd (-B.rotations) (mem' x).dims
          return ([⟨B.toRank, 0, xy.1⟩, ⟨B.toRank, 1, xy.2⟩] : List (Outgoing α))) = .ok c ∧
        SameMessages b c := by
      intro B
      obtain ⟨u, v, h1, h2, h3⟩ := C14_vector_turns (sendArr (mem x) B.boundaryType h)
        (sendArr (mem y) B.boundaryType h) (mem x).dims ky kx Hx.axes
        (by simp [sendArr, Quantity.ndim])
        (by simp only [sendArr, length_tab, hnd]; rfl) (-B.rotations)
      obtain ⟨u', v', h1', h2', h3'⟩ := C14_vector_turns (sendArr (mem' x) B.boundaryType h)
        (sendArr (mem' y) B.boundaryType h) (mem' x).dims ky kx Hx'.axes
        (by simp [sendArr, Quantity.ndim])
        (by simp only [sendArr, length_tab, hnd']; rfl) (-B.rotations)
      have eu : u'.Eqv u := IsTurn.congr Hx.axes.dne (by simpa [sendArr] using (show ky < (mem x).ndim from Hx.axes.ylt))
        (by simpa [sendArr] using (show kx < (mem x).ndim from Hx.axes.xlt)) h1 h1' (keptX B.boundaryType)
      have ev : v'.Eqv v := IsTurn.congr Hx.axes.dne
        (by have : ky < (mem y).ndim := Hy.axes.ylt; simpa [sendArr] using this)
        (by have : kx < (mem y).ndim := Hy.axes.xlt; simpa [sendArr] using this) h2 h2' (keptY B.boundaryType)
      have et : (turnVec (-B.rotations) u' v').1.Eqv (turnVec (-B.rotations) u v).1 ∧
          (turnVec (-B.rotations) u' v').2.Eqv (turnVec (-B.rotations) u v).2 := by
        unfold turnVec
        split <;> [exact ⟨eu, ev⟩; split <;> [exact ⟨ev, eu.neg⟩; split <;>
          [exact ⟨eu.neg, ev.neg⟩; exact ⟨ev.neg, eu⟩]]]
      refine ⟨[⟨B.toRank, 0, (turnVec (-B.rotations) u v).1⟩, ⟨B.toRank, 1, (turnVec (-B.rotations) u v).2⟩],
        [⟨B.toRank, 0, (turnVec (-B.rotations) u' v').1⟩, ⟨B.toRank, 1, (turnVec (-B.rotations) u' v').2⟩],
        ?_, ?_, .cons ⟨rfl, rfl, et.1⟩ (.cons ⟨rfl, rfl, et.2⟩ .nil)⟩
      · rw [sendView_eq _ Hx.wf _ (by omega) (Hx.sendFits hh hn _),
          sendView_eq _ Hy.wf _ (by omega) (Hy.sendFits hh hn _)]
        simp only [Bind.bind, Except.bind, h3, Pure.pure, Except.pure]
      · rw [sendView_eq _ Hx'.wf _ (by omega) (Hx'.sendFits hh hn _),
          sendView_eq _ Hy'.wf _ (by omega) (Hy'.sendFits hh hn _)]
        simp only [Bind.bind, Except.bind, h3', Pure.pure, Except.pure]
    obtain ⟨ps, cs, p1, p2, p3⟩ := pyMap_rel (l := bs) fun B _ => key B
    refine ⟨ps.flatten, cs.flatten, ?_, ?_, forall₂_flatten p3⟩
    · simp only [Op.out, if_neg (show ¬ h = 0 by omega), vectorOut, hb]
      simp only [Bind.bind, Except.bind] at p1 ⊢
      rw [p1]; rfl
    · simp only [Op.out, if_neg (show ¬ h = 0 by omega), vectorOut, hb]
      simp only [Bind.bind, Except.bind] at p2 ⊢
      rw [p2]; rfl

/-- Storing in halos does not change what updates of halos send. -/
theorem halo_out_kept {l : Layout} {m : Int → Mem α} {op : Op α} (hx : 0 < l.x)
    (hsq : l.y = l.x) (hst : op.isHalo = true) (hready : UpdateReady l m op) {r : Int}
    (hr : r ∈ allRanks l) {mem mem' : Mem α} (hmeta : MetaIs m r mem) {xs : List Incoming}
    {arr : Int → Nat → Option (NDArray α)} (hxs : ∀ x ∈ xs, HaloStore mem x)
    (hd : deliver arr xs mem = .ok mem') :
    ∃ o o', op.out l r mem = .ok o ∧ op.out l r mem' = .ok o' ∧ SameMessages o o' :=
  halo_out_compute hx hsq hst hready hr hmeta (fun q _ => (deliver_get hd).1 q) (fun q _ => haloStore_compute hxs hd q)

/-- **C24**: while the arrays received in an update are being stored (after any of them, in any order,
whatever they contain), the arrays that the update sends are unchanged: packing them again gives
the same messages. -/
theorem C24_sends_unchanged {l : Layout} {m : Int → Mem α} {op : Op α} (hx : 0 < l.x)
    (hsq : l.y = l.x) (hst : op.isStart = true) (hready : UpdateReady l m op) {r : Int}
    (hr : r ∈ allRanks l) {mem mem' : Mem α} (hmeta : MetaIs m r mem) {i : List Incoming}
    (hi : op.inn l r mem = .ok i) (arr : Int → Nat → Option (NDArray α))
    (xs : List Incoming) (hxs : ∀ x ∈ xs, x ∈ i) (hd : deliver arr xs mem = .ok mem') :
    ∃ o o', op.out l r mem = .ok o ∧ op.out l r mem' = .ok o' ∧ SameMessages o o' := by
  have gm := (deliver_get hd).1
  cases op with
  | wait j => simp [Op.isStart] at hst
  | compute f => simp [Op.isStart] at hst
  | halo q h =>
    exact halo_out_kept hx hsq rfl hready hr hmeta
      (fun x h => inn_haloStore hx hsq rfl hready hr hmeta hi x (hxs x h)) hd
  | vector x y h =>
    exact halo_out_kept hx hsq rfl hready hr hmeta
      (fun x h => inn_haloStore hx hsq rfl hready hr hmeta hi x (hxs x h)) hd
  | sync x y =>
    obtain ⟨ky, kx, n, S⟩ := hready
    have hmeta' : MetaIs m r mem' := fun q => (hmeta q).trans (gm q)
    obtain ⟨B, ix, b1, b2, b3⟩ := sync_in hx hsq S hr hmeta
    simp only [Op.inn] at hi
    rw [hi] at b3
    simp only [Except.ok.injEq] at b3
    subst b3
    obtain ⟨C, c1, c2⟩ := sync_out hx hsq S hr hmeta
    obtain ⟨C', c1', c2'⟩ := sync_out hx hsq S hr hmeta'
    have hC : ∀ s, C' s = C s := fun s => by
      have := c1' s
      rw [c1 s] at this
      simpa using this.symm
    have hxy : x ≠ y := by
      rintro rfl
      have h1 := (S.compOK hr hmeta true).ext
      have h2 := (S.compOK hr hmeta false).ext'
      simp only [FV3.comp, pax] at h1 h2
      omega
    have kept : ∀ d : Bool, (loEdge (mem' (comp x y d)) ky kx d).Eqv (loEdge (mem (comp x y d)) ky kx d) := by
      intro d
      refine edge_send_kept (S.compOK hr hmeta d) (fun z hz hq => ?_) hd
      have hz := hxs _ hz
      simp only [List.mem_cons, List.not_mem_nil, or_false] at hz
      cases d with
      | true =>
        rcases hz with rfl | rfl
        · exact b2 true
        · exact absurd hq.symm hxy
      | false =>
        rcases hz with rfl | rfl
        · exact absurd hq hxy
        · exact b2 false
    have keptE : ∀ (d : Bool) (c : Int), (edgeArr (loEdge (mem' (comp x y d)) ky kx d) c).Eqv
        (edgeArr (loEdge (mem (comp x y d)) ky kx d) c) := by
      intro d c
      obtain ⟨k1, k2⟩ := kept d
      unfold edgeArr
      split
      · exact ⟨k1, k2⟩
      · exact NDArray.Eqv.neg (Eqv.flip ⟨k1, k2⟩ 0)
    have f1 : (Op.sync x y).out l r mem = syncOut l x y r mem := by
      simp only [Op.out]
      rw [if_neg (by rw [S.cgrid hr hmeta]; decide)]
    have f2 : (Op.sync x y).out l r mem' = syncOut l x y r mem' := by
      simp only [Op.out]
      rw [if_neg (by rw [S.cgrid hr hmeta']; decide)]
    rw [c2] at f1
    rw [c2'] at f2
    rw [hC, hC] at f2
    exact ⟨_, _, f1, f2, .cons ⟨rfl, rfl, keptE true _⟩ (.cons ⟨rfl, rfl, keptE false _⟩ .nil)⟩

/-- **C24** for two outstanding halo updates, of the same or of different quantities: storing the
arrays received in one leaves what the other sends unchanged. -/
theorem C24_across_updates {l : Layout} {m : Int → Mem α} {op op' : Op α} (hx : 0 < l.x)
    (hsq : l.y = l.x) (hst : op.isHalo = true) (hst' : op'.isHalo = true) (hready : UpdateReady l m op)
    (hready' : UpdateReady l m op') {r : Int}
    (hr : r ∈ allRanks l) {mem mem' : Mem α} (hmeta : MetaIs m r mem) {i : List Incoming}
    (hi : op'.inn l r mem = .ok i) (arr : Int → Nat → Option (NDArray α))
    (xs : List Incoming) (hxs : ∀ x ∈ xs, x ∈ i) (hd : deliver arr xs mem = .ok mem') :
    ∃ o o', op.out l r mem = .ok o ∧ op.out l r mem' = .ok o' ∧ SameMessages o o' :=
  halo_out_kept hx hsq hst hready hr hmeta
    (fun x h => inn_haloStore hx hsq hst' hready' hr hmeta hi x (hxs x h)) hd

/-- The hypotheses can be met: after three of the arrays of a halo update. -/
example (F : Vec3 → (Nat → Int) → Int) (f : Int → Nat → List Nat → Int)
    (arr : Int → Nat → Option (NDArray Int)) (mem' : Mem Int) (i : List Incoming)
    (hi : (Op.halo 2 2).inn ⟨2, 2⟩ 5 (exMixMem ⟨2, 2⟩ F f 5) = .ok i)
    (hd : deliver arr (i.take 3) (exMixMem ⟨2, 2⟩ F f 5) = .ok mem') :
    ∃ o o', (Op.halo 2 2).out ⟨2, 2⟩ 5 (exMixMem ⟨2, 2⟩ F f 5) = .ok o ∧
      (Op.halo 2 2).out ⟨2, 2⟩ 5 mem' = .ok o' ∧ SameMessages o o' :=
  C24_sends_unchanged (l := ⟨2, 2⟩) (op := .halo 2 2) (m := exMixMem ⟨2, 2⟩ F f) (by decide) rfl rfl
    ⟨0, 1, 3, by decide, by decide, exMix_scalar _ _ _ 2 (by decide)⟩ (by decide)
    (fun q => SameMeta.refl _) hi arr _ (fun _ h => List.mem_of_mem_take h) hd

/-- The hypotheses can be met: two halo updates of one quantity, of one and of two points. -/
example (F : Vec3 → (Nat → Int) → Int) (f : Int → Nat → List Nat → Int)
    (arr : Int → Nat → Option (NDArray Int)) (mem' : Mem Int) (i : List Incoming)
    (hi : (Op.halo 2 1).inn ⟨2, 2⟩ 5 (exMixMem ⟨2, 2⟩ F f 5) = .ok i)
    (hd : deliver arr i (exMixMem ⟨2, 2⟩ F f 5) = .ok mem') :
    ∃ o o', (Op.halo 2 2).out ⟨2, 2⟩ 5 (exMixMem ⟨2, 2⟩ F f 5) = .ok o ∧
      (Op.halo 2 2).out ⟨2, 2⟩ 5 mem' = .ok o' ∧ SameMessages o o' := by
  have S := exMix_scalar ⟨2, 2⟩ F f 2 (by decide)
  refine C24_across_updates (l := ⟨2, 2⟩) (op := .halo 2 2) (op' := .halo 2 1) (m := exMixMem ⟨2, 2⟩ F f)
    (by decide) rfl rfl rfl ⟨0, 1, 3, by decide, by decide, S⟩
    ⟨0, 1, 3, by decide, by decide, ⟨fun r hr => ?_, S.dims, S.other, S.stagger⟩⟩ (by decide)
    (fun q => SameMeta.refl _) hi arr _ (fun _ h => h) hd
  have H := S.ready r hr
  exact ⟨H.wf, H.axes, H.ey, H.ex, ⟨by have := H.haloY; omega, by have := H.haloY; omega⟩,
    ⟨by have := H.haloX; omega, by have := H.haloX; omega⟩⟩

end FV3
