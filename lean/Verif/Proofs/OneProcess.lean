import Verif.Model.OneProcess
import Verif.Spec.OneProcess
import Verif.Proofs.AsyncRun
import Verif.Proofs.LooseMpi
import Verif.Proofs.Broadcast
import Mathlib.Data.List.Sort

/-!
# One process with DummyComm does what MPI does
-/

namespace FV3.OneProcess
open FV3
variable {α : Type}

/-- The messages from `s` to `d` that have not been received. -/
def content (Q : Queues α) (s d : Int) : List (Msg α) := (Q s d).getD []

/-- The actions of rank `r` can be performed one after the other, and change the queues from `Q` to `Q'`. -/
def Fits (r : Int) : List (Act (Msg α)) → Queues α → Queues α → Prop
  | [], Q, Q' => Q' = Q
  | .send d _ m :: as, Q, Q' => Fits r as (put Q r d m) Q'
  | .recv s _ m :: as, Q, Q' => ∃ ms, Q s r = some (m :: ms) ∧ Fits r as (keep Q s r ms) Q'
  | .await _ _ :: as, Q, Q' => Fits r as Q Q'

theorem call_of_real {R : Type} {r : Int} {p : Proc (Msg α) R} {as : List (Act (Msg α))} {x : R} (h : Real p as x)
    {Q Q' : Queues α} (hf : Fits r as Q Q') : call r p Q = (.ok x, Q') := by
  induction h generalizing Q with
  | ret x => cases hf; rfl
  | send _ ih => exact ih hf
  | recv _ ih =>
    obtain ⟨ms, h1, h2⟩ := hf
    unfold call
    rw [h1]
    exact ih h2
  | await _ ih => exact ih hf

theorem Fits.append {r : Int} {as bs : List (Act (Msg α))} {Q Q' Q'' : Queues α} (h : Fits r as Q Q')
    (h' : Fits r bs Q' Q'') : Fits r (as ++ bs) Q Q'' := by
  induction as generalizing Q with
  | nil => cases h; exact h'
  | cons a as ih =>
    cases a with
    | send d t m => exact ih h
    | recv s t m =>
      obtain ⟨ms, h1, h2⟩ := h
      exact ⟨ms, h1, ih h2⟩
    | await d t => exact ih h

theorem fits_await (r : Int) (tag : Nat) (o : List (Outgoing α)) (Q : Queues α) : Fits r (awaitActs tag o) Q Q := by
  induction o with
  | nil => rfl
  | cons x o ih => exact ih

/-- The messages for `d` among packed arrays. -/
def outTo (d : Int) (o : List (Outgoing α)) : List (Msg α) :=
  (o.filter fun x => x.dst = d).map fun x => .data x.a

theorem content_put (Q : Queues α) (src dst : Int) (m : Msg α) (s d : Int) :
    content (put Q src dst m) s d = content Q s d ++ if s = src ∧ d = dst then [m] else [] := by
  unfold content put
  split
  · next h => obtain ⟨rfl, rfl⟩ := h; rfl
  · rw [List.append_nil]

theorem fits_send (r : Int) (tag : Nat) (o : List (Outgoing α)) (Q : Queues α) :
    ∃ Q', Fits r (sendActs tag o) Q Q' ∧
      ∀ s d, content Q' s d = content Q s d ++ if s = r then outTo d o else [] := by
  induction o generalizing Q with
  | nil => exact ⟨Q, rfl, fun s d => by simp [outTo]⟩
  | cons x o ih =>
    obtain ⟨Q', h1, h2⟩ := ih (put Q r x.dst (.data x.a))
    refine ⟨Q', h1, fun s d => ?_⟩
    rw [h2, content_put, List.append_assoc]
    congr 1
    by_cases hs : s = r
    · simp only [hs, true_and, if_true]
      unfold outTo
      by_cases hd : d = x.dst
      · rw [List.filter_cons_of_pos (by simp [hd]), if_pos hd]; rfl
      · rw [List.filter_cons_of_neg (by simp only [decide_eq_true_eq]; exact fun h => hd h.symm), if_neg hd]; rfl
    · simp [hs]

theorem fits_recv (r : Int) (tag : Nat) (arr : Int → Nat → Option (NDArray α)) (i : List Incoming) (Q : Queues α)
    (rest : Int → List (Msg α))
    (h : ∀ s, ((i.filter fun x => x.src = s).map fun x => (arr s x.off).map Msg.data) ++ (rest s).map some =
      (content Q s r).map some) :
    ∃ Q', Fits r (recvActs tag arr i) Q Q' ∧ (∀ s, content Q' s r = rest s) ∧ ∀ s d, d ≠ r → Q' s d = Q s d := by
  induction i generalizing Q with
  | nil =>
    refine ⟨Q, rfl, fun s => ?_, fun _ _ _ => rfl⟩
    have := h s
    simp only [List.filter_nil, List.map_nil, List.nil_append] at this
    exact (List.map_injective_iff.2 (Option.some_injective _) this).symm
  | cons x i ih =>
    have hx := h x.src
    rw [List.filter_cons_of_pos (by simp), List.map_cons, List.cons_append] at hx
    cases hc : content Q x.src r with
    | nil => rw [hc] at hx; simp at hx
    | cons m ms =>
      rw [hc, List.map_cons, List.cons.injEq] at hx
      obtain ⟨hx1, hx2⟩ := hx
      obtain ⟨a, ha, rfl⟩ := Option.map_eq_some_iff.1 hx1
      have hq : Q x.src r = some (.data a :: ms) := by
        unfold content at hc
        cases hq : Q x.src r with
        | none => rw [hq] at hc; simp at hc
        | some l => rw [hq] at hc; simp only [Option.getD_some] at hc; rw [hc]
      obtain ⟨Q', h1, h2, h3⟩ := ih (keep Q x.src r ms) (fun s => by
        unfold content keep
        by_cases hs : s = x.src
        · subst hs
          simpa using hx2
        · rw [if_neg (fun h => hs h.1)]
          have := h s
          rw [List.filter_cons_of_neg (by simp only [decide_eq_true_eq]; exact fun h => hs h.symm)] at this
          exact this)
      refine ⟨Q', ?_, h2, fun s d hd => ?_⟩
      · have e : recvActs tag arr (x :: i) = .recv x.src (.halo (tag + 1 + x.off)) (.data a) :: recvActs tag arr i := by
          simp [recvActs, ha]
        rw [e]
        exact ⟨ms, hq, h1⟩
      · rw [h3 s d hd]
        unfold keep
        rw [if_neg fun h => hd h.2]

/-! ### Shapes -/

open Loose in
theorem storeInto_le (mem : Mem α) (q : Nat) (ix : List Ix) (a : NDArray α) :
    Le (FV3.storeInto mem q ix a) (storeInto mem q ix a) := by
  refine Le.bind (Le.bind (Le.refl _) fun rs b hb => ?_) fun _ => Le.refl _
  split at hb
  · rename_i e
    rw [if_pos (fits_of e.symm)]
    cases hb
    unfold NDArray.stretch
    rw [if_pos e.symm]
  · cases hb

open Loose in
theorem recvInto_agree (rq : RecvReq) : CAgree (α := α) (FV3.recvInto rq) (recvInto rq) := by
  intro s
  refine ⟨_, rfl, fun m => ?_⟩
  cases m with
  | data a =>
    dsimp only
    have h := storeInto_le s.mem rq.q rq.ix a
    cases he : FV3.storeInto s.mem rq.q rq.ix a with
    | error e => exact .inl ⟨e, rfl⟩
    | ok mem => rw [h mem he]; exact Proc.Agree.refl _ _
  | metadata m => exact Proc.Agree.refl _ _
  | names m => exact Proc.Agree.refl _ _
  | time m => exact Proc.Agree.refl _ _
  | keys m => exact Proc.Agree.refl _ _

open Loose in
theorem waitRequest_agree (req : Request) : CAgree (α := α) (FV3.waitRequest req) (waitRequest req) :=
  (CAgree.forEach recvInto_agree _).bind fun _ => CAgree.refl _

open Loose in
theorem execOp_agree [Neg α] (l : Layout) (r : Int) (o : Op α) : CAgree (o.exec l r) (execOp l r o) := by
  cases o with
  | wait i =>
    refine (CAgree.refl _).bind fun s => ?_
    cases s.reqs[i]? with
    | none => exact CAgree.refl _
    | some req => exact waitRequest_agree req
  | halo q n => exact CAgree.refl _
  | vector x y n => exact CAgree.refl _
  | sync x y => exact CAgree.refl _
  | compute f => exact CAgree.refl _

theorem call_agree {R : Type} {bad : R → Prop} {r : Int} {p q : Proc (Msg α) R} (h : p.Agree bad q) {Q Q' : Queues α}
    {x : R} (hc : call r p Q = (.ok x, Q')) (hx : ¬ bad x) : call r q Q = (.ok x, Q') := by
  induction p generalizing q Q with
  | ret y =>
    cases hc
    rcases h with h | rfl
    · exact absurd h hx
    · rfl
  | isend d t m k ih => obtain ⟨k', rfl, h⟩ := h; exact ih 0 (h 0) hc
  | recv s t k ih =>
    obtain ⟨k', rfl, h⟩ := h
    unfold call at hc ⊢
    cases hq : Q s r with
    | none => rw [hq] at hc; cases hc
    | some l =>
      cases l with
      | nil => rw [hq] at hc; cases hc
      | cons m ms =>
        rw [hq] at hc
        exact ih m (h m) hc
  | await d t i k ih => obtain ⟨k', rfl, h⟩ := h; exact ih () (h ()) hc

theorem call_does {r : Int} [Neg α] {l : Layout} {op : Op α} {s s' : RankState α} {as : List (Act (Msg α))}
    {Q Q' : Queues α} (h : Does (op.exec l r) s as () s') (hf : Fits r as Q Q') :
    call r (execOp l r op s) Q = (.ok (.ok (), s'), Q') :=
  call_agree (execOp_agree l r op s) (call_of_real h hf) (by rintro ⟨e, he⟩; cases he)

/-! ### Messages between two ranks are packed and expected in the same order -/

theorem pairs_ordered (ps : List (List (Outgoing α)))
    (hp : ∀ p ∈ ps, ∃ d a b, p = [⟨d, 0, a⟩, ⟨d, 1, b⟩])
    (hn : (ps.flatten.map fun x => (x.dst, x.off)).Nodup) :
    ps.flatten.Pairwise fun a b => a.dst = b.dst → a.off < b.off := by
  induction ps with
  | nil => exact List.Pairwise.nil
  | cons p ps ih =>
    obtain ⟨d, a, b, rfl⟩ := hp p List.mem_cons_self
    have hps : ∀ p ∈ ps, ∃ d a b, p = [(⟨d, 0, a⟩ : Outgoing α), ⟨d, 1, b⟩] :=
      fun p h => hp p (List.mem_cons_of_mem _ h)
    simp only [List.flatten_cons, List.cons_append, List.nil_append, List.map_cons, List.nodup_cons] at hn ⊢
    obtain ⟨h0, h1, h2⟩ := hn
    have key : ∀ z ∈ ps.flatten, z.dst ≠ d := by
      intro z hz hd
      obtain ⟨p, hp1, hp2⟩ := List.mem_flatten.1 hz
      obtain ⟨d', a', b', rfl⟩ := hps p hp1
      simp only [List.mem_cons, List.not_mem_nil, or_false] at hp2
      rcases hp2 with rfl | rfl
      · apply h0
        refine List.mem_cons_of_mem _ (List.mem_map.2 ⟨_, hz, ?_⟩)
        cases hd; rfl
      · apply h1
        refine List.mem_map.2 ⟨_, hz, ?_⟩
        cases hd; rfl
    refine List.Pairwise.cons ?_ (List.Pairwise.cons ?_ (ih hps h2))
    · intro z hz hd
      rcases List.mem_cons.1 hz with rfl | hz
      · exact Nat.zero_lt_one
      · exact absurd hd.symm (key z hz)
    · intro z hz hd
      exact absurd hd.symm (key z hz)

theorem zeros_ordered {A : Type} {key : A → Int} {off : A → Nat} {o : List A} (h0 : ∀ x ∈ o, ∀ y ∈ o, off x = off y)
    (hn : (o.map fun x => (key x, off x)).Nodup) : o.Pairwise fun a b => key a = key b → off a < off b := by
  induction o with
  | nil => exact List.Pairwise.nil
  | cons x o ih =>
    rw [List.map_cons, List.nodup_cons] at hn
    refine List.Pairwise.cons ?_ (ih (fun a ha b hb => h0 a (List.mem_cons_of_mem _ ha) b (List.mem_cons_of_mem _ hb)) hn.2)
    intro z hz hd
    exfalso
    apply hn.1
    refine List.mem_map.2 ⟨z, hz, ?_⟩
    rw [hd, h0 x List.mem_cons_self z (List.mem_cons_of_mem _ hz)]

theorem haloIn_off {l : Layout} {q : Nat} {n : Int} {off : Nat} {r : Int} {mem : Mem α} {i : List Incoming}
    (h : haloIn l q n off r mem = .ok i) : ∀ x ∈ i, x.off = off := by
  obtain ⟨bs, -, h2⟩ := bind_ok h
  intro x hx
  obtain ⟨b, -, hb⟩ := (pyMap_mem h2).1 hx
  obtain ⟨ix, -, h3⟩ := bind_ok hb
  cases h3
  rfl

variable [Neg α]

theorem out_ordered {l : Layout} {r : Int} {mem : Mem α} {op : Op α} {o : List (Outgoing α)}
    (h : op.out l r mem = .ok o) (hn : (o.map fun x => (x.dst, x.off)).Nodup) :
    o.Pairwise fun a b => a.dst = b.dst → a.off < b.off := by
  cases op with
  | wait i => cases h; exact List.Pairwise.nil
  | compute f => cases h; exact List.Pairwise.nil
  | halo q n =>
    simp only [Op.out] at h
    split at h
    · cases h
    · refine zeros_ordered (key := Outgoing.dst) ?_ hn
      obtain ⟨bs, -, h2⟩ := bind_ok h
      have : ∀ x ∈ o, x.off = 0 := by
        intro x hx
        obtain ⟨b, -, hb⟩ := (pyMap_mem h2).1 hx
        obtain ⟨d, -, h3⟩ := bind_ok hb
        obtain ⟨d', -, h4⟩ := bind_ok h3
        cases h4
        rfl
      intro x hx y hy
      rw [this x hx, this y hy]
  | sync x y =>
    simp only [Op.out] at h
    split at h
    · cases h
    · refine zeros_ordered (key := Outgoing.dst) ?_ hn
      obtain ⟨s, -, h2⟩ := bind_ok h
      obtain ⟨w, -, h3⟩ := bind_ok h2
      obtain ⟨sd, -, h4⟩ := bind_ok h3
      obtain ⟨wd, -, h5⟩ := bind_ok h4
      cases h5
      intro x hx y hy
      simp only [List.mem_cons, List.not_mem_nil, or_false] at hx hy
      rcases hx with rfl | rfl <;> rcases hy with rfl | rfl <;> rfl
  | vector x y n =>
    simp only [Op.out] at h
    split at h
    · cases h
    · obtain ⟨bs, -, h2⟩ := bind_ok h
      obtain ⟨ps, h3, h4⟩ := bind_ok h2
      cases h4
      refine pairs_ordered ps (fun p hp => ?_) hn
      obtain ⟨b, -, hb⟩ := (pyMap_mem h3).1 hp
      obtain ⟨xd, -, h5⟩ := bind_ok hb
      obtain ⟨yd, -, h6⟩ := bind_ok h5
      obtain ⟨xy, -, h7⟩ := bind_ok h6
      cases h7
      exact ⟨_, _, _, rfl⟩

omit [Neg α] in
theorem inn_ordered {l : Layout} {r : Int} {mem : Mem α} {op : Op α} {i : List Incoming}
    (h : op.inn l r mem = .ok i) (hn : (i.map fun x => (x.src, x.off)).Nodup) :
    i.Pairwise fun a b => a.src = b.src → a.off < b.off := by
  cases op with
  | wait i => cases h; exact List.Pairwise.nil
  | compute f => cases h; exact List.Pairwise.nil
  | halo q n =>
    refine zeros_ordered (key := Incoming.src) ?_ hn
    intro x hx y hy
    rw [haloIn_off h x hx, haloIn_off h y hy]
  | sync x y =>
    refine zeros_ordered (key := Incoming.src) ?_ hn
    obtain ⟨s, -, h2⟩ := bind_ok h
    obtain ⟨w, -, h3⟩ := bind_ok h2
    obtain ⟨sd, -, h4⟩ := bind_ok h3
    obtain ⟨wd, -, h5⟩ := bind_ok h4
    cases h5
    intro x hx y hy
    simp only [List.mem_cons, List.not_mem_nil, or_false] at hx hy
    rcases hx with rfl | rfl <;> rcases hy with rfl | rfl <;> rfl
  | vector x y n =>
    obtain ⟨i1, h1, h2⟩ := bind_ok h
    obtain ⟨i2, h3, h4⟩ := bind_ok h2
    cases h4
    rw [List.map_append, List.nodup_append] at hn
    refine List.pairwise_append.2 ⟨zeros_ordered (key := Incoming.src) ?_ hn.1,
      zeros_ordered (key := Incoming.src) ?_ hn.2.1, ?_⟩
    · intro x hx y hy
      rw [haloIn_off h1 x hx, haloIn_off h1 y hy]
    · intro x hx y hy
      rw [haloIn_off h3 x hx, haloIn_off h3 y hy]
    · intro x hx y hy _
      rw [haloIn_off h1 x hx, haloIn_off h3 y hy]
      exact Nat.zero_lt_one

/-- Among the updates all ranks start, the arrays which `s` packs for `r` are those `r` expects from `s`, in order. -/
theorem expected_eq {l : Layout} {Good : Int → Mem α → Prop} {hist : List (Op α)} {fin : Int → Local α}
    (h : Inv l Good hist fin) (hs : ∀ op ∈ hist, StartSound l Good op) {r s : Int} (hr : r ∈ allRanks l)
    (hs' : s ∈ allRanks l) {k : Nat} {u v : Started α} (hu : (fin r).ups[k]? = some u) (hv : (fin s).ups[k]? = some v) :
    ((u.inc.filter fun x => x.src = s).map fun x => (received fin r k s x.off).map Msg.data) =
      (outTo r v.out).map some := by
  have hk : k < hist.length := by rw [← h.len r hr]; exact (List.getElem?_eq_some_iff.1 hu).1
  obtain ⟨op, u', m, hop, hu', -, hg, ho, hi⟩ := h.get hr hk
  rw [hu] at hu'
  cases hu'
  obtain ⟨op', v', m', hop', hv', -, hg', ho', hi'⟩ := h.get hs' hk
  rw [hv] at hv'
  cases hv'
  rw [hop] at hop'
  cases hop'
  have hsd := hs op (List.mem_of_getElem? hop)
  obtain ⟨n1, -⟩ := hsd.inKeys r hr m _ hg hi
  obtain ⟨n2, -⟩ := hsd.outKeys s hs' m' _ hg' ho'
  have p1 := inn_ordered hi n1
  have p2 := out_ordered ho' n2
  have e : ((u.inc.filter fun x => x.src = s).map Incoming.off) = ((v.out.filter fun x => x.dst = r).map Outgoing.off) := by
    refine List.Pairwise.eq_of_mem_iff (r := (· < ·)) ?_ ?_ fun j => ?_
    · rw [List.pairwise_map]
      refine (p1.filter _).imp_of_mem ?_
      intro a b ha hb hab
      have ha := (List.mem_filter.1 ha).2
      have hb := (List.mem_filter.1 hb).2
      simp only [decide_eq_true_eq] at ha hb
      exact hab (ha.trans hb.symm)
    · rw [List.pairwise_map]
      refine (p2.filter _).imp_of_mem ?_
      intro a b ha hb hab
      have ha := (List.mem_filter.1 ha).2
      have hb := (List.mem_filter.1 hb).2
      simp only [decide_eq_true_eq] at ha hb
      exact hab (ha.trans hb.symm)
    · simp only [List.mem_map, List.mem_filter, decide_eq_true_eq]
      constructor
      · rintro ⟨x, ⟨hx, rfl⟩, rfl⟩
        obtain ⟨-, hx2⟩ := hsd.inMatch r hr m _ hg hi x hx
        obtain ⟨y, hy, hyd, hyo, -⟩ := hx2 m' _ hg' ho'
        exact ⟨y, ⟨hy, hyd⟩, hyo⟩
      · rintro ⟨y, ⟨hy, rfl⟩, rfl⟩
        obtain ⟨-, hy2⟩ := hsd.outMatch s hs' m' _ hg' ho' y hy
        obtain ⟨x, hx, hxs, hxo⟩ := hy2 m _ hg hi
        exact ⟨x, ⟨hx, hxs⟩, hxo⟩
  have e2 : ((u.inc.filter fun x => x.src = s).map fun x => (received fin r k s x.off).map Msg.data) =
      ((u.inc.filter fun x => x.src = s).map Incoming.off).map fun j => (received fin r k s j).map Msg.data := by
    rw [List.map_map]; rfl
  rw [e2, e]
  unfold outTo
  rw [List.map_map, List.map_map]
  refine List.map_congr_left fun y hy => ?_
  obtain ⟨hy1, hy2⟩ := List.mem_filter.1 hy
  simp only [decide_eq_true_eq] at hy2
  simp only [Function.comp_apply]
  unfold received
  rw [hv]
  dsimp only
  rw [arrayFor_eq hy1 hy2 rfl n2]
  rfl

/-! ### The run -/

/-- Updates started by the first `c` calls. -/
def nStarted (ops : List (Op α)) (c : Nat) : Nat := (ops.take c).countP Op.isStart

/-- Updates waited for in the first `c` calls. -/
def nWaited (ops : List (Op α)) (c : Nat) : Nat := ((ops.take c).filterMap Op.waitIdx).length

/-- What is true when the ranks have made the calls of `done`. -/
structure Track (l : Layout) (ops : List (Op α)) (mem : Int → Mem α) (fin : Int → Local α) (done : List Int)
    (w : World α) : Prop where
  made : ∀ r ∈ allRanks l, w.made r = done.count r
  states : ∀ r ∈ allRanks l, ∃ s, localRun l r (received fin r) (ops.take (done.count r)) ⟨mem r, 0, []⟩ = .ok s ∧
    w.states r = s.toRank
  queues : ∀ s ∈ allRanks l, ∀ d ∈ allRanks l, content w.queues s d =
    (((fin s).ups.take (nStarted ops (done.count s))).drop (nWaited ops (done.count d))).flatMap fun u => outTo d u.out
  le : ∀ s ∈ allRanks l, ∀ d ∈ allRanks l, nWaited ops (done.count d) ≤ nStarted ops (done.count s)

theorem nStarted_succ {ops : List (Op α)} {c : Nat} {op : Op α} (h : ops[c]? = some op) :
    nStarted ops (c + 1) = nStarted ops c + if op.isStart then 1 else 0 := by
  unfold nStarted
  rw [List.take_add_one, h, List.countP_append]
  simp [List.countP_cons]

theorem nWaited_succ {ops : List (Op α)} {c : Nat} {op : Op α} (h : ops[c]? = some op) :
    nWaited ops (c + 1) = nWaited ops c + if op.waitIdx.isSome then 1 else 0 := by
  unfold nWaited
  rw [List.take_add_one, h, List.filterMap_append, List.length_append]
  cases h' : op.waitIdx <;> simp [List.filterMap_cons, h']

theorem waits_next {ops : List (Op α)} (hw : WaitsInOrder ops) {c i : Nat} (h : ops[c]? = some (.wait i)) :
    i = nWaited ops c := by
  obtain ⟨n, hn⟩ := hw
  obtain ⟨hc, h'⟩ := List.getElem?_eq_some_iff.1 h
  have e : ops = ops.take c ++ .wait i :: ops.drop (c + 1) := by
    rw [← h', ← List.drop_eq_getElem_cons hc, List.take_append_drop]
  rw [e, List.filterMap_append] at hn
  have h1 : ((ops.take c).filterMap Op.waitIdx ++ (Op.wait i :: ops.drop (c + 1)).filterMap Op.waitIdx)[nWaited ops c]? =
      some i := by
    unfold nWaited
    rw [List.getElem?_append_right (Nat.le_refl _), Nat.sub_self]
    rfl
  rw [hn] at h1
  obtain ⟨h2, h3⟩ := List.getElem?_eq_some_iff.1 h1
  rw [List.getElem_range] at h3
  exact h3.symm

theorem Track.new (l : Layout) (ops : List (Op α)) (mem : Int → Mem α) (fin : Int → Local α) :
    Track l ops mem fin [] (World.new mem) :=
  ⟨fun _ _ => rfl, fun r _ => ⟨⟨mem r, 0, []⟩, rfl, rfl⟩, fun s _ d _ => by
    simp [content, World.new, nStarted], fun _ _ _ _ => by simp [nWaited]⟩

theorem count_snoc (done : List Int) (r s : Int) : (done ++ [r]).count s = done.count s + if s = r then 1 else 0 := by
  rw [List.count_append, List.count_singleton]
  by_cases h : s = r
  · simp [h]
  · rw [if_neg h, if_neg (by simpa using fun e => h e.symm)]

/-- One call. -/
theorem Track.step {l : Layout} {Good : Int → Mem α → Prop} {ops : List (Op α)} {mem : Int → Mem α}
    {fin : Int → Local α} (hfin : Consistent l (fun _ => ops) mem fin) (hinv : Inv l Good (startsOf ops) fin)
    (hs : ∀ op ∈ startsOf ops, StartSound l Good op) (hwo : WaitsInOrder ops) {done : List Int} {w : World α}
    (t : Track l ops mem fin done w) {r : Int} (hr : r ∈ allRanks l) (hc : done.count r < ops.length)
    (hwait : ∀ i, ops[done.count r]? = some (.wait i) → ∀ s ∈ allRanks l, i < nStarted ops (done.count s)) :
    ∃ w', turn l ops r w = .ok w' ∧ Track l ops mem fin (done ++ [r]) w' := by
  obtain ⟨s, hrun, hst⟩ := t.states r hr
  have hop : ops[done.count r]? = some ops[done.count r] := List.getElem?_eq_getElem hc
  generalize ops[done.count r] = op at hop
  have htake : ops.take (done.count r + 1) = ops.take (done.count r) ++ [op] := by
    rw [List.take_add_one, hop]; rfl
  -- the step of the rank, seen locally
  have hfull := (hfin r).1 hr
  rw [← List.take_append_drop (done.count r + 1) ops, localRun_append] at hfull
  obtain ⟨s', hs', hrest⟩ := bind_ok hfull
  have hs'2 := hs'
  rw [htake, localRun_append, hrun] at hs'
  have hs'3 : (op.localStep l r (received fin r) s >>= fun s' => localRun l r (received fin r) [] s') = .ok s' := hs'
  obtain ⟨s1, hstep, h1⟩ := bind_ok hs'3
  clear hs' hs'3
  cases h1
  have hpre : s'.ups <+: (fin r).ups := localRun_prefix hrest
  have hlen : s.ups.length = nStarted ops (done.count r) := by
    have := localRun_ups hrun
    simpa [nStarted] using this
  have hlens : ∀ x ∈ allRanks l, ∀ c, nStarted ops c ≤ (fin x).ups.length := by
    intro x hx c
    rw [hinv.len x hx]
    unfold nStarted startsOf
    rw [← List.countP_eq_length_filter]
    exact (List.take_sublist c ops).countP_le
  -- what remains to be shown
  suffices hcall : ∃ Q', call r (execOp l r op s.toRank) w.queues = (.ok (.ok (), s'.toRank), Q') ∧
      (∀ x ∈ allRanks l, ∀ d ∈ allRanks l, content Q' x d =
        (((fin x).ups.take (nStarted ops ((done ++ [r]).count x))).drop
          (nWaited ops ((done ++ [r]).count d))).flatMap fun u => outTo d u.out) ∧
      (∀ x ∈ allRanks l, ∀ d ∈ allRanks l,
        nWaited ops ((done ++ [r]).count d) ≤ nStarted ops ((done ++ [r]).count x)) by
    obtain ⟨Q', h1, h2, h3⟩ := hcall
    refine ⟨⟨updRank w.made r (w.made r + 1), updRank w.states r s'.toRank, Q'⟩, ?_, ?_, ?_, h2, h3⟩
    · unfold turn
      rw [t.made r hr, hop]
      dsimp only
      rw [hst, h1]
    · intro x hx
      rw [count_snoc]
      unfold updRank
      by_cases h : x = r
      · subst h; simp [t.made x hx]
      · simp [h, t.made x hx]
    · intro x hx
      rw [count_snoc]
      unfold updRank
      by_cases h : x = r
      · subst h
        refine ⟨s', ?_, by simp⟩
        simpa using hs'2
      · simpa [h] using t.states x hx
  have hmono : ∀ x, nStarted ops (done.count x) ≤ nStarted ops ((done ++ [r]).count x) := by
    intro x
    unfold nStarted
    refine (List.take_sublist_take_left ?_).countP_le
    rw [count_snoc]; omega
  by_cases hstart : op.isStart = true
  · -- a start
    have hnw : ∀ x, nWaited ops ((done ++ [r]).count x) = nWaited ops (done.count x) := by
      intro x
      rw [count_snoc]
      by_cases h : x = r
      · subst h
        rw [if_pos rfl, nWaited_succ hop]
        cases op <;> first | rfl | cases hstart
      · rw [if_neg h]; rfl
    rw [localStep_start hstart] at hstep
    obtain ⟨o, ho, h2⟩ := bind_ok hstep
    obtain ⟨i, hi, h3⟩ := bind_ok h2
    have e := pure_ok h3
    obtain ⟨Q', hQ1, hQ2⟩ := fits_send r s.lastTag o w.queues
    have hdoes : Does (op.exec l r) s.toRank (sendActs s.lastTag o) () (s.toRank.started op.nTags o i) :=
      Does.start (s := s.toRank) hstart ho hi
    refine ⟨Q', ?_, ?_, ?_⟩
    · rw [call_does hdoes hQ1, ← e]
      simp [RankState.started, Local.toRank, sendReqs, recvReqs]
    · intro x hx d hd
      rw [hQ2, t.queues x hx d hd, hnw, count_snoc]
      by_cases h : x = r
      · subst h
        rw [if_pos rfl, if_pos rfl, nStarted_succ hop, if_pos hstart]
        have hu : (fin x).ups[nStarted ops (done.count x)]? = some ⟨s.lastTag, o, i⟩ := by
          have : s'.ups[nStarted ops (done.count x)]? = some ⟨s.lastTag, o, i⟩ := by
            rw [← e]
            simp [← hlen]
          rw [prefix_getElem? hpre (by rw [← e]; simp [hlen]), this]
        rw [List.take_add_one, hu, List.drop_append_of_le_length, List.flatMap_append]
        · simp
        · rw [List.length_take, Nat.min_eq_left (hlens x hx _)]
          exact t.le x hx d hd
      · rw [if_neg h, if_neg h, List.append_nil]; rfl
    · intro x hx d hd
      rw [hnw]
      exact (t.le x hx d hd).trans (hmono x)
  · have hns : ∀ x, nStarted ops ((done ++ [r]).count x) = nStarted ops (done.count x) := by
      intro x
      rw [count_snoc]
      by_cases h : x = r
      · subst h
        rw [if_pos rfl, nStarted_succ hop, if_neg hstart]; rfl
      · rw [if_neg h]; rfl
    cases op with
    | compute f =>
      have hnw : ∀ x, nWaited ops ((done ++ [r]).count x) = nWaited ops (done.count x) := by
        intro x
        rw [count_snoc]
        by_cases h : x = r
        · subst h
          rw [if_pos rfl, nWaited_succ hop]; rfl
        · rw [if_neg h]; rfl
      cases hstep
      refine ⟨w.queues, rfl, fun x hx d hd => ?_, fun x hx d hd => ?_⟩
      · rw [hns, hnw]; exact t.queues x hx d hd
      · rw [hns, hnw]; exact t.le x hx d hd
    | wait i =>
      have hi := waits_next hwo hop
      have hlt := hwait i hop
      rw [localStep_wait] at hstep
      cases hu : s.ups[i]? with
      | none => rw [hu] at hstep; cases hstep
      | some u =>
        rw [hu] at hstep
        dsimp only at hstep
        cases hd : deliver (received fin r i) u.inc s.mem with
        | error e => rw [hd] at hstep; cases hstep
        | ok m =>
          rw [hd] at hstep
          cases hstep
          have hur : (fin r).ups[i]? = some u := by
            rw [prefix_getElem? hpre (List.getElem?_eq_some_iff.1 hu).1]; exact hu
          have hsrc : ∀ x ∈ u.inc, x.src ∈ allRanks l := by
            have hk : i < (startsOf ops).length := by
              rw [← hinv.len r hr]; exact (List.getElem?_eq_some_iff.1 hur).1
            obtain ⟨op, u', m, hop, hu', -, hg, -, hi⟩ := hinv.get hr hk
            rw [hur] at hu'
            cases hu'
            exact fun x hx => ((hs op (List.mem_of_getElem? hop)).inMatch r hr m _ hg hi x hx).1
          obtain ⟨Q', hQ1, hQ2, hQ3⟩ := fits_recv r u.tag (received fin r i) u.inc w.queues
            (fun x => if x ∈ allRanks l then
              (((fin x).ups.take (nStarted ops (done.count x))).drop (i + 1)).flatMap fun u => outTo r u.out
              else content w.queues x r) (fun x => by
            by_cases hx : x ∈ allRanks l
            · rw [if_pos hx, t.queues x hx r hr, ← hi]
              have hix := hlt x hx
              have hl : i < ((fin x).ups.take (nStarted ops (done.count x))).length := by
                rw [List.length_take, Nat.min_eq_left (hlens x hx _)]; exact hix
              rw [List.drop_eq_getElem_cons hl, List.flatMap_cons, List.map_append, List.getElem_take]
              rw [expected_eq hinv hs hr hx hur (List.getElem?_eq_getElem _)]
            · rw [if_neg hx, List.filter_eq_nil_iff.2]
              · rfl
              · intro y hy
                simp only [decide_eq_true_eq]
                exact fun h => hx (h ▸ hsrc y hy))
          have hdoes : Does ((Op.wait i).exec l r) s.toRank (recvActs u.tag (received fin r i) u.inc ++ awaitActs u.tag u.out)
              () { s.toRank with mem := m } := by
            refine Does.bind0 (Does.get _) ?_
            have : s.toRank.reqs[i]? = some ⟨sendReqs u.tag u.out, recvReqs u.tag u.inc⟩ := by
              simp [Local.toRank, hu, sendReqs, recvReqs]
            rw [this]
            exact Does.wait u.tag hd
          have hnw : ∀ x, nWaited ops ((done ++ [r]).count x) = nWaited ops (done.count x) + if x = r then 1 else 0 := by
            intro x
            rw [count_snoc]
            by_cases h : x = r
            · subst h
              rw [if_pos rfl, nWaited_succ hop]; rfl
            · rw [if_neg h]; rfl
          refine ⟨Q', call_does hdoes (hQ1.append (fits_await _ _ _ _)), fun x hx d hd => ?_, fun x hx d hd => ?_⟩
          · rw [hns, hnw]
            by_cases h : d = r
            · subst h
              rw [hQ2, if_pos hx, if_pos rfl, ← hi]
            · rw [if_neg h]
              unfold content
              rw [hQ3 x d h]
              exact t.queues x hx d hd
          · rw [hns, hnw]
            by_cases h : d = r
            · subst h
              rw [if_pos rfl, ← hi]
              exact hlt x hx
            · rw [if_neg h]
              exact t.le x hx d hd
    | _ => exact absurd rfl hstart

theorem Track.turns {l : Layout} {Good : Int → Mem α → Prop} {ops : List (Op α)} {mem : Int → Mem α}
    {fin : Int → Local α} (hfin : Consistent l (fun _ => ops) mem fin) (hinv : Inv l Good (startsOf ops) fin)
    (hs : ∀ op ∈ startsOf ops, StartSound l Good op) (hwo : WaitsInOrder ops) {order : List Int}
    (ho : OrderOk l ops order) (rest done : List Int) (h : order = done ++ rest) {w : World α}
    (t : Track l ops mem fin done w) : ∃ w', turns l ops rest w = .ok w' ∧ Track l ops mem fin order w' := by
  induction rest generalizing done w with
  | nil => rw [List.append_nil] at h; subst h; exact ⟨w, rfl, t⟩
  | cons r rest ih =>
    have hr : r ∈ allRanks l := ho.ranks r (by rw [h]; simp)
    obtain ⟨w1, h1, t1⟩ := t.step hfin hinv hs hwo hr (by
      rw [← ho.all r hr, h, List.count_append, List.count_cons_self]; omega)
      (fun i hi => ho.wait done r rest i h hi)
    obtain ⟨w2, h2, t2⟩ := ih (done ++ [r]) (by rw [h]; simp) t1
    refine ⟨w2, ?_, t2⟩
    unfold OneProcess.turns
    rw [h1]
    exact h2

end FV3.OneProcess
