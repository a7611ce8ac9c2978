import Verif.Proofs.HeapSession
import Verif.Spec.HeapAsync

/-!
# Updates of quantities in memory, started and waited for in separate calls
-/

namespace FV3

theorem Proc.Mirror.left {M R R' S : Type} {f : Tag → Tag} {Q : R → R' → Prop} {Q' : S → R' → Prop} {p : Proc M R} {p' : Proc M R'}
    (h : p.Mirror f Q p') {G : R → Proc M S} (hG : ∀ x y, Q x y → (G x).Mirror f Q' (.ret y)) : (p.bind G).Mirror f Q' p' := by
  induction h with
  | ret h => exact hG _ _ h
  | isend _ ih => exact .isend ih
  | recv _ ih => exact .recv ih
  | await _ ih => exact .await ih

namespace Heap
open Mem (World Gt4py)
open Strided
variable {α : Type} {g : Gt4py}

/-- As a call: what happens to arrays and variables. -/
def HOp.call : HOp α → HCall α
  | .halo q n => .haloUpdate q n
  | .vector x y n => .vectorHaloUpdate x y n
  | .sync x y => .synchronize x y
  | .wait _ => .compute fun _ => []
  | .compute ops => .compute ops

/-- The quantities of the update which an operation starts. -/
def HOp.held : HOp α → Option (List Nat)
  | .halo q _ => some [q]
  | .vector x y _ => some [x, y]
  | .sync x y => some [x, y]
  | .wait _ => none
  | .compute _ => none

section
variable [Inhabited α]

/-- Operations on quantities in memory, as operations on quantities: after each, all quantities follow memory. -/
noncomputable def toOps (g : Gt4py) (K : Nat) : (Int → Skel) → List (List Nat) → List (HOp α) → List (AOp α)
  | _, _, [] => []
  | sk, hist, .halo q n :: os =>
    .op (.halo q n) :: .op (.compute fun r m => computeOn g [q] K (sk r) [] m) :: toOps g K sk (hist ++ [[q]]) os
  | sk, hist, .vector x y n :: os =>
    .op (.vector x y n) :: .op (.compute fun r m => computeOn g [x, y] K (sk r) [] m) :: toOps g K sk (hist ++ [[x, y]]) os
  | sk, hist, .sync x y :: os =>
    .op (.sync x y) :: .op (.compute fun r m => computeOn g [x, y] K (sk r) [] m) :: toOps g K sk (hist ++ [[x, y]]) os
  | sk, hist, .wait i :: os =>
    .op (.wait i) :: .op (.compute fun r m => computeOn g (hist.getD i []) K (sk r) [] m) :: toOps g K sk hist os
  | sk, hist, .compute ops :: os =>
    .op (.compute fun r m => computeOn g [] K (sk r) (ops r) m) :: toOps g K (fun r => (sk r).run g (ops r)) hist os

theorem skel_run_nil (sk : Skel) : sk.run g ([] : List (Mem.Op α)) = sk := rfl

/-- Quantities with axes stay usable. -/
theorem held_run {sk : Skel} (hw : WFS g α sk) (ops : List (Mem.Op α)) {qs : List Nat} (H : Held (sk.with fun _ => (default : α)) qs)
    (A : ∀ h ∈ qs, HasAxes (sk.with fun _ => (default : α)) h) :
    Held ((sk.run g ops).with fun _ => (default : α)) qs ∧ ∀ h ∈ qs, HasAxes ((sk.run g ops).with fun _ => (default : α)) h := by
  have key : ∀ h ∈ qs, dataOf ((sk.run g ops).with fun _ => (default : α)) h = dataOf (sk.with fun _ => (default : α)) h := by
    intro h hh
    obtain ⟨x, hx, hs⟩ := A h hh
    rw [hx]
    exact dataOf_run hw ops hx hs
  refine ⟨⟨fun h hh => ?_, fun h hh h' hh' => ?_⟩, fun h hh => ?_⟩
  · rw [key h hh]
    exact H.data h hh
  · unfold Cell
    rw [key h hh, key h' hh']
    exact H.apart h hh h' hh'
  · unfold HasAxes
    rw [key h hh]
    exact A h hh

/-- The quantities of the updates started so far. -/
def HistFit (α : Type) [Inhabited α] (K : Nat) (sk : Skel) (hist : List (List Nat)) : Prop :=
  ∀ qs ∈ hist, K ∉ qs ∧ Held (sk.with fun _ => (default : α)) qs ∧ ∀ h ∈ qs, HasAxes (sk.with fun _ => (default : α)) h

theorem HistFit.run {K : Nat} {sk : Skel} {hist : List (List Nat)} (h : HistFit α K sk hist) (hw : WFS g α sk) (ops : List (Mem.Op α)) :
    HistFit α K (sk.run g ops) hist := fun qs hq =>
  ⟨(h qs hq).1, held_run hw ops (h qs hq).2.1 (h qs hq).2.2⟩

theorem HistFit.getD {K : Nat} {sk : Skel} {hist : List (List Nat)} (h : HistFit α K sk hist) (i : Nat) :
    K ∉ hist.getD i [] ∧ Held (sk.with fun _ => (default : α)) (hist.getD i []) ∧
      ∀ h ∈ hist.getD i [], HasAxes (sk.with fun _ => (default : α)) h := by
  rw [List.getD_eq_getElem?_getD]
  cases hi : hist[i]? with
  | none => exact ⟨List.not_mem_nil, ⟨(fun h hh => by cases hh), (fun h hh => by cases hh)⟩, (fun h hh => by cases hh)⟩
  | some qs => exact h qs (List.mem_of_getElem? hi)

theorem HistFit.push {K : Nat} {sk : Skel} {hist : List (List Nat)} (h : HistFit α K sk hist) {qs : List Nat} (hK : K ∉ qs)
    (H : Held (sk.with fun _ => (default : α)) qs) (A : ∀ h ∈ qs, HasAxes (sk.with fun _ => (default : α)) h) :
    HistFit α K sk (hist ++ [qs]) := by
  intro q hq
  rcases List.mem_append.1 hq with hq | hq
  · exact h q hq
  · rw [List.mem_singleton.1 hq]
    exact ⟨hK, H, A⟩

/-- A rank with quantities as values, and one with memory, between operations. -/
structure RelA (K : Nat) (sk : Skel) (hist : List (List Nat)) (s : RankState α) (s' : HState α) : Prop where
  rel : RelF K sk s s'
  len : s.reqs.length = hist.length
  qs : ∀ (i : Nat) req, s.reqs[i]? = some req → ∀ rq ∈ req.recvs, rq.q ∈ hist.getD i []

variable [Neg α]

/-- The two programs do the same between operations. -/
def RefA (K : Nat) (sk sk' : Skel) (hist hist' : List (List Nat)) (c : AState α → Proc (Msg α) (Py (AState α))) (c' : HM α Unit) : Prop :=
  ∀ s s', RelA K sk hist s.comm s' → (c s).Mirror id (fun x y =>
    match x with
    | .ok t => y.1 = .ok () ∧ RelA K sk' hist' t.comm y.2
    | .error e => y.1 = .error e) (c' s')

/-- The quantities of the updates started at the end. -/
def finalHist (hist : List (List Nat)) (ops : List (HOp α)) : List (List Nat) := hist ++ ops.filterMap HOp.held

theorem exec_cons {l : Layout} {junk : Nat → List Nat → α} {r : Int} {K : Nat} {sk sk' : Skel} {hist hist' : List (List Nat)} {qs : List Nat}
    {o : Op α} {rest : List (AOp α)} {c' d' : HM α Unit}
    (hc : ∀ s s', RelA K sk hist s s' → (o.exec l r s).Mirror id (fun x y => y.1 = x.1 ∧
      match x.1 with
      | .ok _ => Rel qs K sk x.2 y.2 ∧ x.2.reqs.length = hist'.length ∧
          ∀ (i : Nat) req, x.2.reqs[i]? = some req → ∀ rq ∈ req.recvs, rq.q ∈ hist'.getD i []
      | .error _ => True) (c' s'))
    {hist'' : List (List Nat)} (hd : RefA K sk sk' hist' hist'' (execAsync l junk r rest) d') :
    RefA K sk sk' hist hist'' (execAsync l junk r (.op o :: .op (.compute fun _ m => computeOn g qs K sk [] m) :: rest)) (c' >>= fun _ => d') := by
  intro s s' h
  refine Proc.Mirror.bind (Q := fun (x : Py (AState α)) (y : Py Unit × HState α) =>
    match x with
    | .ok t => y.1 = .ok () ∧ Rel qs K sk t.comm y.2 ∧ t.comm.reqs.length = hist'.length ∧
        ∀ (i : Nat) req, t.comm.reqs[i]? = some req → ∀ rq ∈ req.recvs, rq.q ∈ hist'.getD i []
    | .error e => y.1 = .error e) (Proc.Mirror.left (hc s.comm s' h) ?_) ?_
  · rintro ⟨a, s1⟩ ⟨b, s2⟩ ⟨e1, e2⟩
    dsimp only at e1 e2
    subst e1
    cases b with
    | ok u => exact .ret ⟨rfl, e2⟩
    | error e => exact .ret rfl
  · rintro x ⟨b, s2⟩ hx
    cases x with
    | error e =>
      dsimp only at hx
      subst hx
      exact .ret rfl
    | ok t =>
      obtain ⟨e, hr, h1, h2⟩ := hx
      dsimp only at e hr
      subst e
      show Proc.Mirror id _ (execAsync l junk r rest { t with comm := { t.comm with mem := computeOn g qs K sk [] t.comm.mem } }) (d' s2)
      refine hd _ _ ⟨⟨hr.tag, hr.reqs, hr.skel, ?_⟩, h1, h2⟩
      have := hr.mem.compute (g := g) []
      rw [hr.skel] at this
      exact this

/-- Starting an update. -/
theorem start_cons {K : Nat} {sk : Skel} {hist : List (List Nat)} {qs : List Nat} (hK : K ∉ qs)
    (H : Held (sk.with fun _ => (default : α)) qs) (A : ∀ h ∈ qs, HasAxes (sk.with fun _ => (default : α)) h)
    {c : CommM α Request} {c' : HM α Request} (hc : Ref qs K sk sk (fun req => ∀ rq ∈ req.recvs, rq.q ∈ qs) c c')
    (s : RankState α) (s' : HState α) (h : RelA K sk hist s s') :
    ((c >>= FV3.pushReq) s).Mirror id (fun x y => y.1 = x.1 ∧
      match x.1 with
      | .ok _ => Rel qs K sk x.2 y.2 ∧ x.2.reqs.length = (hist ++ [qs]).length ∧
          ∀ (i : Nat) req, x.2.reqs[i]? = some req → ∀ rq ∈ req.recvs, rq.q ∈ (hist ++ [qs]).getD i []
      | .error _ => True) ((c' >>= Heap.pushReq) s') := by
  refine Proc.Mirror.bind (hc s s' ⟨h.rel.tag, h.rel.reqs, h.rel.skel, h.rel.mem.mrel hK (H.any h.rel.skel) fun k hk => (A k hk).any h.rel.skel⟩) ?_
  rintro ⟨a, s1⟩ ⟨b, s2⟩ ⟨e1, e2⟩
  dsimp only at e1 e2
  subst e1
  cases b with
  | error e => exact .ret ⟨rfl, trivial⟩
  | ok req =>
    obtain ⟨h1, h2, h3⟩ := e2
    refine .ret ⟨rfl, ⟨h3.tag, ?_, h3.skel, h3.mem⟩, ?_, fun i rq hi => ?_⟩
    · show s2.reqs ++ [req] = s1.reqs ++ [req]
      rw [h3.reqs]
    · show (s1.reqs ++ [req]).length = _
      rw [h2, List.length_append, List.length_append, h.len]
      rfl
    · have hi : (s1.reqs ++ [req])[i]? = some rq := hi
      rw [h2] at hi
      rw [List.getD_eq_getElem?_getD]
      by_cases hlt : i < s.reqs.length
      · rw [List.getElem?_append_left hlt] at hi
        rw [List.getElem?_append_left (h.len ▸ hlt), ← List.getD_eq_getElem?_getD]
        exact h.qs i rq hi
      · rw [List.getElem?_append_right (by omega)] at hi
        rw [List.getElem?_append_right (by rw [← h.len]; omega), ← h.len]
        generalize i - s.reqs.length = j at hi
        cases j with
        | zero =>
          cases hi
          exact h1
        | succ j => cases hi

/-- Waiting. -/
theorem wait_cons {K : Nat} {sk : Skel} {hist : List (List Nat)} (hf : HistFit α K sk hist) (l : Layout) (r : Int) (i : Nat)
    (s : RankState α) (s' : HState α) (h : RelA K sk hist s s') :
    ((Op.wait i).exec l r s).Mirror id (fun x y => y.1 = x.1 ∧
      match x.1 with
      | .ok _ => Rel (hist.getD i []) K sk x.2 y.2 ∧ x.2.reqs.length = hist.length ∧
          ∀ (i : Nat) req, x.2.reqs[i]? = some req → ∀ rq ∈ req.recvs, rq.q ∈ hist.getD i []
      | .error _ => True) ((do let req ← getReq i; Heap.waitRequest req : HM α Unit) s') := by
  obtain ⟨hK, H, A⟩ := hf.getD i
  have e1 : (Op.wait i).exec l r s = match s.reqs[i]? with
    | none => .ret (.error .indexError, s)
    | some req => FV3.waitRequest req s := by
    show (match s.reqs[i]? with
      | none => CommM.raise .indexError
      | some req => FV3.waitRequest req : CommM α Unit) s = _
    cases s.reqs[i]? <;> rfl
  have e2 : (do let req ← getReq i; Heap.waitRequest req : HM α Unit) s' = match s'.reqs[i]? with
    | none => .ret (.error .indexError, s')
    | some req => Heap.waitRequest req s' := by
    show Proc.bind (getReq i s') _ = _
    unfold getReq
    cases s'.reqs[i]? <;> rfl
  rw [e1, e2, h.rel.reqs]
  cases hq : s.reqs[i]? with
  | none => exact .ret ⟨rfl, trivial⟩
  | some req =>
    dsimp only
    refine (Ref.waitRequest hK req (h.qs i req hq) s s' ⟨h.rel.tag, h.rel.reqs, h.rel.skel,
      h.rel.mem.mrel hK (H.any h.rel.skel) fun k hk => (A k hk).any h.rel.skel⟩).mono ?_
    rintro ⟨x, s1⟩ ⟨y, s2⟩ ⟨g1, g2⟩
    refine ⟨g1, ?_⟩
    cases x with
    | error e => trivial
    | ok u =>
      obtain ⟨-, h2, h3⟩ := g2
      refine ⟨h3, ?_, ?_⟩
      · dsimp only
        rw [h2]
        exact h.len
      · dsimp only at h2 ⊢
        rw [h2]
        exact h.qs

theorem ref_ops {K : Nat} (l : Layout) {junk : Nat → List Nat → α} {r : Int} (hr : r ∈ allRanks l) {ops : List (HOp α)} {sk : Int → Skel}
    {hist : List (List Nat)} (hK : ∀ o ∈ ops, ∀ op, o.start = some op → K ∉ op.qs) (hw : WFS g α (sk r))
    (G : Good g l sk (ops.map HOp.call)) (hf : HistFit α K (sk r) hist) :
    RefA K (sk r) (finalSk g sk (ops.map HOp.call) r) hist (finalHist hist ops) (execAsync l junk r (toOps g K sk hist ops))
      (execHOps g l r ops) := by
  induction ops generalizing sk hist with
  | nil =>
    intro s s' h
    unfold finalHist
    rw [List.filterMap_nil, List.append_nil]
    exact .ret ⟨rfl, h⟩
  | cons d ops ih =>
    have hK' : ∀ o ∈ ops, ∀ op, o.start = some op → K ∉ op.qs := fun c hc => hK c (List.mem_cons_of_mem _ hc)
    have hd := hK d List.mem_cons_self
    have push : ∀ qs, HOp.held d = some qs → finalHist hist (d :: ops) = finalHist (hist ++ [qs]) ops := by
      intro qs hq
      unfold finalHist
      rw [List.filterMap_cons, hq]
      simp
    cases d with
    | halo q n =>
      have F := G.1 (.halo q n) rfl
      have k := hd _ rfl
      rw [push _ rfl]
      exact exec_cons (fun s s' h => start_cons k (F.held r hr) (F.axes r hr) (Ref.startHaloUpdate l r (by simp [Op.qs]) n) s s' h)
        (ih hK' hw G.2 (hf.push k (F.held r hr) (F.axes r hr)))
    | vector x y n =>
      have F := G.1 (.vector x y n) rfl
      have k := hd _ rfl
      rw [push _ rfl]
      exact exec_cons (fun s s' h => start_cons k (F.held r hr) (F.axes r hr)
        (Ref.startVectorHaloUpdate l r (by simp [Op.qs]) (by simp [Op.qs]) n) s s' h)
        (ih hK' hw G.2 (hf.push k (F.held r hr) (F.axes r hr)))
    | sync x y =>
      have F := G.1 (.sync x y) rfl
      have k := hd _ rfl
      rw [push _ rfl]
      exact exec_cons (fun s s' h => start_cons k (F.held r hr) (F.axes r hr)
        (Ref.startSynchronize l r (by simp [Op.qs]) (by simp [Op.qs])) s s' h)
        (ih hK' hw G.2 (hf.push k (F.held r hr) (F.axes r hr)))
    | wait i =>
      exact exec_cons (fun s s' h => wait_cons hf l r i s s' h) (ih (sk := sk) hK' hw G.2 hf)
    | compute os =>
      have hi := ih hK' (hw.run (os r)) G.2 (hf.run hw (os r))
      intro s s' h
      refine hi { s with comm := { s.comm with mem := computeOn g [] K (sk r) (os r) s.comm.mem } }
        { s' with world := (s'.world.run g (os r)).2 } ⟨⟨h.rel.tag, h.rel.reqs, ?_, ?_⟩, h.len, h.qs⟩
      · have := run_skel (hw s'.world.mem) (os r)
        rw [← h.rel.skel] at this
        show skel (s'.world.run g (os r)).2 = (sk r).run g (os r)
        rw [← h.rel.skel]
        exact this
      · have := h.rel.mem.mrel0.compute (g := g) (os r)
        rw [h.rel.skel] at this
        exact this

/-- A wait. -/
theorem wait_step {l : Layout} {hs : List Nat} {K : Nat} (hK : ∀ r ∈ allRanks l, K ∉ hs) {W W0 : Int → World α} {m m0 m1 : Int → FV3.Mem α} {op : Op α}
    (R : ∀ r ∈ allRanks l, MRel hs K (W r) (m r)) (hv : ∀ h ∈ op.qs, h ∈ hs)
    (h0 : ∀ r ∈ allRanks l, ∀ h ∈ op.qs, quantities (W0 r) h = m0 r h) (hu : WaitStep l op m0 m m1) :
    ∃ W1, HWait l op W0 W W1 ∧ ∀ r ∈ allRanks l, MRel hs K (W1 r) (m1 r) ∧ skel (W1 r) = skel (W r) := by
  have agree : ∀ r ∈ allRanks l, ∀ q ∈ op.qs, quantities (W r) q = m r q := fun r hr q hq => ((R r hr).vals q (hv q hq)).symm
  have packed : ∀ r, ∀ src off, packedFor l op (fun r => quantities (W0 r)) r src off = packedFor l op m0 r src off := by
    intro r src off
    unfold packedFor
    split
    · next hs => rw [out_congr (h0 src hs)]
    · rfl
  have key : ∀ r, ∃ W1, r ∈ allRanks l → MRel hs K W1 (m1 r) ∧ OnlyCells (fun h _ => h ∈ op.qs) (W r) W1 := by
    intro r
    by_cases hr : r ∈ allRanks l
    · obtain ⟨i, hi, hd⟩ := hu r hr
      obtain ⟨W1, h⟩ := (R r hr).deliver (hK r hr) (inn_qs hi) hv hd
      exact ⟨W1, fun _ => h⟩
    · exact ⟨W r, fun h => absurd h hr⟩
  choose W1 hW1 using key
  have key' : ∀ r, ∃ m', r ∈ allRanks l → (∃ i, op.inn l r (quantities (W0 r)) = .ok i ∧
      deliver (packedFor l op (fun r => quantities (W0 r)) r) i (quantities (W r)) = .ok m') ∧ ∀ q ∈ op.qs, m' q = m1 r q := by
    intro r
    by_cases hr : r ∈ allRanks l
    · obtain ⟨i, hi, hd⟩ := hu r hr
      obtain ⟨m2, d1, d2, -⟩ := deliver_local (inn_qs hi) hd (agree r hr)
      refine ⟨m2, fun _ => ⟨⟨i, by rw [inn_congr (h0 r hr)]; exact hi, ?_⟩, d2⟩⟩
      rw [deliver_congr (packed r)]
      exact d1
    · exact ⟨m r, fun h => absurd h hr⟩
  choose m' hm' using key'
  refine ⟨W1, ⟨m', fun r hr => (hm' r hr).1, fun r hr => ⟨fun h hh => ?_, (hW1 r hr).2⟩⟩, fun r hr => ⟨(hW1 r hr).1, ?_⟩⟩
  · rw [(hm' r hr).2 h hh, (hW1 r hr).1.vals h (hv h hh)]
  · have := (hW1 r hr).2
    unfold skel
    rw [this.next, this.arrs, this.objs]

/-- The updates started so far, with values and with memory. -/
def PendR (l : Layout) (pend : Pending α) (hp : List (Op α × (Int → World α))) : Prop :=
  List.Forall₂ (fun x y => y.1 = x.1 ∧ ∀ r ∈ allRanks l, ∀ h ∈ x.1.qs, quantities (y.2 r) h = x.2 r h) pend hp

theorem hops_of {l : Layout} {K : Nat} {parts : Nat → Parts} {ops : List (HOp α)} {W : Int → World α} {m : Int → FV3.Mem α}
    {gl : Nat → Option (Quantity α)} {pend : Pending α} {hp : List (Op α × (Int → World α))} {w' : Whole α} {sk : Int → Skel}
    (hK : ∀ o ∈ ops, ∀ op, o.start = some op → K ∉ op.qs) (hw : ∀ r ∈ allRanks l, WFS g α (sk r))
    (G : Good g l sk (ops.map HOp.call)) (hf : ∀ r ∈ allRanks l, HistFit α K (sk r) (hp.map fun y => y.1.qs))
    (R : ∀ r ∈ allRanks l, Full K (W r) (m r)) (hsk : ∀ r ∈ allRanks l, skel (W r) = sk r) (hpend : PendR l pend hp)
    (hc : AsyncRun l parts (toOps g K sk (hp.map fun y => y.1.qs) ops) ⟨m, gl, pend⟩ w') :
    ∃ w, HOpsRun g l ops ⟨W, hp⟩ w ∧ ∀ r ∈ allRanks l, Full K (w.world r) (w'.mem r) ∧ skel (w.world r) = finalSk g sk (ops.map HOp.call) r := by
  induction ops generalizing W m gl pend hp sk with
  | nil => exact ⟨⟨W, hp⟩, ⟨rfl, fun r hr => rfl⟩, fun r hr => ⟨by rw [hc.1 r hr]; exact R r hr, hsk r hr⟩⟩
  | cons d ops ih =>
    have hK' : ∀ o ∈ ops, ∀ op, o.start = some op → K ∉ op.qs := fun c hc => hK c (List.mem_cons_of_mem _ hc)
    have start : ∀ (op : Op α) (m1 m2 : Int → FV3.Mem α) (g2 : Nat → Option (Quantity α)) (p2 : Pending α), K ∉ op.qs → Fit l α sk op →
        (∀ r ∈ allRanks l, m1 r = m r) → (∀ r ∈ allRanks l, m2 r = computeOn g op.qs K (sk r) [] (m1 r)) → p2 = pend ++ [(op, m)] →
        Good g l sk (ops.map HOp.call) → AsyncRun l parts (toOps g K sk ((hp.map fun y => y.1.qs) ++ [op.qs]) ops) ⟨m2, g2, p2⟩ w' →
        ∃ w w1, HStart l op ⟨W, hp⟩ w1 ∧ HOpsRun g l ops w1 w ∧
          ∀ r ∈ allRanks l, Full K (w.world r) (w'.mem r) ∧ skel (w.world r) = finalSk g sk (ops.map HOp.call) r := by
      intro op m1 m2 g2 p2 hq F h1 h2 h3 G' hc
      have M : ∀ r ∈ allRanks l, MRel op.qs K (W r) (m r) := fun r hr =>
        (R r hr).mrel hq ((F.held r hr).any (hsk r hr)) fun k hk => (F.axes r hr k hk).any (hsk r hr)
      have e : (hp.map fun y => y.1.qs) ++ [op.qs] = (hp ++ [(op, W)]).map fun y => y.1.qs := by simp
      rw [e] at hc
      obtain ⟨w, a1, a2⟩ := ih (W := W) (m := m2) (hp := hp ++ [(op, W)]) hK' hw G'
        (fun r hr => by rw [← e]; exact (hf r hr).push hq (F.held r hr) (F.axes r hr))
        (fun r hr => by
          have := (M r hr).compute (g := g) []
          rw [hsk r hr] at this
          rw [h2 r hr, h1 r hr]
          exact this) hsk
        (by
          subst h3
          exact List.rel_append hpend (.cons ⟨rfl, fun r hr h hh => ((M r hr).vals h hh).symm⟩ .nil)) hc
      exact ⟨w, ⟨W, hp ++ [(op, W)]⟩, ⟨rfl, fun r hr => rfl⟩, a1, a2⟩
    cases d with
    | halo q n =>
      obtain ⟨w1, ⟨-, s1, s2⟩, w2, ⟨-, s3, s4⟩, h3⟩ := hc
      obtain ⟨w, v, c1, c2, c3⟩ := start (.halo q n) w1.mem w2.mem w2.glob w2.started (hK _ List.mem_cons_self _ rfl) (G.1 _ rfl)
        (fun r hr => (s2 r hr).2) s4 (s3.trans s1) G.2 h3
      exact ⟨w, ⟨v, c1, c2⟩, c3⟩
    | vector x y n =>
      obtain ⟨w1, ⟨-, s1, s2⟩, w2, ⟨-, s3, s4⟩, h3⟩ := hc
      obtain ⟨w, v, c1, c2, c3⟩ := start (.vector x y n) w1.mem w2.mem w2.glob w2.started (hK _ List.mem_cons_self _ rfl) (G.1 _ rfl)
        (fun r hr => (s2 r hr).2) s4 (s3.trans s1) G.2 h3
      exact ⟨w, ⟨v, c1, c2⟩, c3⟩
    | sync x y =>
      obtain ⟨w1, ⟨-, s1, s2⟩, w2, ⟨-, s3, s4⟩, h3⟩ := hc
      obtain ⟨w, v, c1, c2, c3⟩ := start (.sync x y) w1.mem w2.mem w2.glob w2.started (hK _ List.mem_cons_self _ rfl) (G.1 _ rfl)
        (fun r hr => (s2 r hr).2) s4 (s3.trans s1) G.2 h3
      exact ⟨w, ⟨v, c1, c2⟩, c3⟩
    | wait i =>
      obtain ⟨w1, ⟨-, s1, op, m0, s2, s5⟩, w2, ⟨-, s3, s4⟩, h3⟩ := hc
      have s2 : pend[i]? = some (op, m0) := s2
      have s5 : WaitStep l op m0 m w1.mem := s5
      rcases Mem.forall₂_get hpend i with ⟨e, -⟩ | ⟨x, y, e1, e2, e3, e4⟩
      · rw [e] at s2; cases s2
      rw [e1] at s2
      cases s2
      obtain ⟨op', W0⟩ := y
      dsimp only at e3 e4
      subst e3
      have hg : (hp.map fun y => y.1.qs).getD i [] = op'.qs := by
        rw [List.getD_eq_getElem?_getD, List.getElem?_map, e2]
        rfl
      have hfit := fun r hr => (hf r hr).getD i
      rw [hg] at hfit
      obtain ⟨W1, a1, a2⟩ := wait_step (W := W) (fun r hr => (hfit r hr).1) (fun r hr => (R r hr).mrel (hfit r hr).1 ((hfit r hr).2.1.any (hsk r hr))
        fun k hk => ((hfit r hr).2.2 k hk).any (hsk r hr)) (fun _ h => h) e4 s5
      obtain ⟨w, b1, b2⟩ := ih (W := W1) (m := w2.mem) (gl := w2.glob) (pend := w2.started) (hp := hp) (sk := sk) hK' hw G.2 hf
        (fun r hr => by
          have := (a2 r hr).1.compute (g := g) []
          rw [(a2 r hr).2, hsk r hr] at this
          have e5 : w2.mem r = computeOn g ((hp.map fun y => y.1.qs).getD i []) K (sk r) [] (w1.mem r) := s4 r hr
          rw [e5, hg]
          exact this) (fun r hr => by rw [(a2 r hr).2]; exact hsk r hr)
        (by rw [s3, s1]; exact hpend) h3
      exact ⟨w, ⟨⟨W1, hp⟩, ⟨rfl, op', W0, e2, a1⟩, b1⟩, b2⟩
    | compute os =>
      obtain ⟨w1, ⟨-, s1, s2⟩, h2⟩ := hc
      obtain ⟨w, b1, b2⟩ := ih (W := fun r => (W r).after g (os r)) (m := w1.mem) (gl := w1.glob) (pend := w1.started) (hp := hp)
        (sk := fun r => (sk r).run g (os r)) hK'
        (fun r h => (hw r h).run _) G.2 (fun r h => (hf r h).run (hw r h) _)
        (fun r h => by
          rw [show w1.mem r = _ from s2 r h]
          have := (R r h).mrel0.compute (g := g) (os r)
          rw [hsk r h] at this
          exact this)
        (fun r h => by
          have := run_skel (hw r h (W r).mem) (os r)
          rw [← hsk r h] at this
          show skel ((W r).run g (os r)).2 = (sk r).run g (os r)
          rw [← hsk r h]
          exact this) (by rw [s1]; exact hpend) h2
      exact ⟨w, ⟨⟨fun r => (W r).after g (os r), hp⟩, ⟨rfl, fun r _ => rfl⟩, b1⟩, b2⟩

end
end Heap
end FV3
