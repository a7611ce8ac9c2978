import Verif.Proofs.HeapAsync
import Verif.Props.HeapComm

/-!
# C81: outstanding updates of quantities which share memory
-/

namespace FV3
namespace Heap
open Mem (World Gt4py Reachable)
open Strided
variable {α : Type} [Inhabited α] [Neg α] {g : Gt4py} {l : Layout}

omit [Inhabited α] [Neg α] in
theorem call_start (o : HOp α) : o.call.start = o.start := by cases o <;> rfl

/-- Waits come after starts, from `n` starts on. -/
def WaitsFrom (n : Nat) : List (Op α) → Prop
  | [] => True
  | o :: os => (∀ i, o = .wait i → i < n) ∧ WaitsFrom (n + if o.isStart then 1 else 0) os

omit [Inhabited α] [Neg α] in
theorem WaitsFrom.started {n : Nat} {ops : List (Op α)} (h : WaitsFrom n ops) (d i : Nat) (hd : ops[d]? = some (.wait i)) :
    i < n + (ops.take d).countP Op.isStart := by
  induction ops generalizing n d with
  | nil => cases hd
  | cons o os ih =>
    cases d with
    | zero =>
      cases hd
      exact h.1 i rfl
    | succ d =>
      have := ih h.2 d hd
      rw [List.take_succ_cons, List.countP_cons]
      omega

theorem toOps_waits {K : Nat} {sk : Int → Skel} {hist : List (List Nat)} {ops : List (HOp α)} {n : Nat}
    (h : ∀ pre i post, ops = pre ++ .wait i :: post → i < n + (pre.filterMap HOp.start).length) :
    WaitsFrom n ((toOps g K sk hist ops).filterMap AOp.op?) := by
  induction ops generalizing n sk hist with
  | nil => trivial
  | cons o ops ih =>
    have start : ∀ op, o.start = some op → ∀ pre i post, ops = pre ++ .wait i :: post → i < n + 1 + (pre.filterMap HOp.start).length := by
      intro op ho pre i post e
      have := h (o :: pre) i post (by rw [e]; rfl)
      rw [List.filterMap_cons, ho] at this
      simp only [List.length_cons] at this
      omega
    have other : o.start = none → ∀ pre i post, ops = pre ++ .wait i :: post → i < n + (pre.filterMap HOp.start).length := by
      intro ho pre i post e
      have := h (o :: pre) i post (by rw [e]; rfl)
      rw [List.filterMap_cons, ho] at this
      exact this
    cases o with
    | wait i =>
      exact ⟨(fun j e => by cases e; exact h [] i ops rfl), (fun j e => by cases e), ih (other rfl)⟩
    | compute f => exact ⟨(fun j e => by cases e), ih (other rfl)⟩
    | halo q w => exact ⟨(fun j e => by cases e), (fun j e => by cases e), ih (start _ rfl)⟩
    | vector x y w => exact ⟨(fun j e => by cases e), (fun j e => by cases e), ih (start _ rfl)⟩
    | sync x y => exact ⟨(fun j e => by cases e), (fun j e => by cases e), ih (start _ rfl)⟩

/-- The request a `wait` names. -/
def HOp.waitIdx : HOp α → Option Nat
  | .wait i => some i
  | _ => none

omit [Neg α] in
theorem toOps_idx {K : Nat} {sk : Int → Skel} {hist : List (List Nat)} {ops : List (HOp α)} :
    ((toOps g K sk hist ops).filterMap AOp.op?).filterMap Op.waitIdx = ops.filterMap HOp.waitIdx := by
  induction ops generalizing sk hist with
  | nil => rfl
  | cons o ops ih =>
    cases o with
    | wait i => exact congrArg (List.cons i) ih
    | _ => exact ih

omit [Inhabited α] [Neg α] in
theorem once_nodup {ops : List (HOp α)} (h : ∀ pre i mid post, ops ≠ pre ++ .wait i :: mid ++ .wait i :: post) :
    (ops.filterMap HOp.waitIdx).Nodup := by
  induction ops with
  | nil => exact List.nodup_nil
  | cons o ops ih =>
    have h' := ih fun pre i mid post e => h (o :: pre) i mid post (by rw [e]; rfl)
    rw [List.filterMap_cons]
    cases o with
    | wait i =>
      refine List.nodup_cons.2 ⟨fun hi => ?_, h'⟩
      obtain ⟨o', ho, e⟩ := List.mem_filterMap.1 hi
      cases o' with
      | wait j =>
        cases e
        obtain ⟨mid, post, e⟩ := List.append_of_mem ho
        exact h [] i mid post (by rw [e]; rfl)
      | _ => cases e
    | _ => exact h'

omit [Inhabited α] in
theorem callsValid_of {m0 : Int → FV3.Mem α} {parts : Nat → Parts} {L : List (AOp α)}
    (h : ∀ x ∈ L, ∃ o, x = .op o ∧ (AOp.op o).Valid l m0 parts []) : CallsValid l m0 parts [] L := by
  induction L with
  | nil => trivial
  | cons x L ih =>
    obtain ⟨o, rfl, hv⟩ := h x List.mem_cons_self
    exact ⟨hv, ih fun y hy => h y (List.mem_cons_of_mem _ hy)⟩

theorem toOps_mem {K : Nat} {sk : Int → Skel} {hist : List (List Nat)} {ops : List (HOp α)} {m0 : Int → FV3.Mem α} {x : AOp α}
    (hx : x ∈ toOps g K sk hist ops) :
    (∃ d ∈ ops, ∃ op, d.start = some op ∧ x = .op op) ∨ (∃ i, x = .op (.wait i)) ∨
      ∃ f, x = .op (.compute f) ∧ ∀ r, WFS g α (sk r) → MetaOf K (finalSk g sk (ops.map HOp.call) r) (m0 r) →
        ∀ m, MetaIs m0 r m → MetaIs m0 r (f r m) := by
  induction ops generalizing sk hist with
  | nil => cases hx
  | cons o ops ih =>
    have later : ∀ {sk' : Int → Skel} {hist' : List (List Nat)}, (∀ r, WFS g α (sk r) → WFS g α (sk' r)) →
        finalSk g sk' (ops.map HOp.call) = finalSk g sk ((o :: ops).map HOp.call) → x ∈ toOps g K sk' hist' ops →
        (∃ d ∈ o :: ops, ∃ op, d.start = some op ∧ x = .op op) ∨ (∃ i, x = .op (.wait i)) ∨
          ∃ f, x = .op (.compute f) ∧ ∀ r, WFS g α (sk r) → MetaOf K (finalSk g sk ((o :: ops).map HOp.call) r) (m0 r) →
            ∀ m, MetaIs m0 r m → MetaIs m0 r (f r m) := by
      intro sk' hist' h1 h2 h3
      rcases ih h3 with ⟨d, h4, h5⟩ | h4 | ⟨f, h4, h5⟩
      · exact .inl ⟨d, List.mem_cons_of_mem _ h4, h5⟩
      · exact .inr (.inl h4)
      · exact .inr (.inr ⟨f, h4, fun r hw h0 => h5 r (h1 r hw) (by rw [h2]; exact h0)⟩)
    have comp : ∀ (qs : List Nat) (os : Int → List (Mem.Op α)), (∀ r, skAfter g sk o.call r = (sk r).run g (os r)) →
        ∀ r, WFS g α (sk r) → MetaOf K (finalSk g sk ((o :: ops).map HOp.call) r) (m0 r) →
          ∀ m, MetaIs m0 r m → MetaIs m0 r (computeOn g qs K (sk r) (os r) m) := by
      intro qs os he r hw h0 m hm k
      have h1 : MetaOf K (skAfter g sk o.call r) (m0 r) := MetaOf.first (calls := ops.map HOp.call) (hw.after o.call) h0
      rw [he] at h1
      exact computeOn_meta hw (os r) hm h1 k
    cases o with
    | wait i =>
      rcases List.mem_cons.1 hx with e | hx
      · exact .inr (.inl ⟨i, e⟩)
      rcases List.mem_cons.1 hx with e | hx
      · exact .inr (.inr ⟨_, e, comp _ (fun _ => []) fun _ => rfl⟩)
      · exact later (fun _ h => h) rfl hx
    | compute os =>
      rcases List.mem_cons.1 hx with e | hx
      · exact .inr (.inr ⟨_, e, comp _ os fun _ => rfl⟩)
      · exact later (fun r h => h.run (os r)) rfl hx
    | halo q w =>
      rcases List.mem_cons.1 hx with e | hx
      · exact .inl ⟨_, List.mem_cons_self, _, rfl, e⟩
      rcases List.mem_cons.1 hx with e | hx
      · exact .inr (.inr ⟨_, e, comp _ (fun _ => []) fun _ => rfl⟩)
      · exact later (fun _ h => h) rfl hx
    | vector q q' w =>
      rcases List.mem_cons.1 hx with e | hx
      · exact .inl ⟨_, List.mem_cons_self, _, rfl, e⟩
      rcases List.mem_cons.1 hx with e | hx
      · exact .inr (.inr ⟨_, e, comp _ (fun _ => []) fun _ => rfl⟩)
      · exact later (fun _ h => h) rfl hx
    | sync q q' =>
      rcases List.mem_cons.1 hx with e | hx
      · exact .inl ⟨_, List.mem_cons_self, _, rfl, e⟩
      rcases List.mem_cons.1 hx with e | hx
      · exact .inr (.inr ⟨_, e, comp _ (fun _ => []) fun _ => rfl⟩)
      · exact later (fun _ h => h) rfl hx

theorem HOpsRun.last {ops : List (HOp α)} {w w' : HWhole α} {V : Int → World α} (h : HOpsRun g l ops w w')
    (hV : ∀ r ∈ allRanks l, V r = w'.world r) : HOpsRun g l ops w ⟨V, w'.started⟩ := by
  induction ops generalizing w with
  | nil => exact ⟨h.1, fun r hr => (hV r hr).trans (h.2 r hr)⟩
  | cons o ops ih =>
    obtain ⟨w1, h1, h2⟩ := h
    exact ⟨w1, h1, ih h2⟩

theorem HOpsRun.append {a b : List (HOp α)} {w w' : HWhole α} (h : HOpsRun g l (a ++ b) w w') :
    ∃ w1, HOpsRun g l a w w1 ∧ HOpsRun g l b w1 w' := by
  induction a generalizing w with
  | nil => exact ⟨w, ⟨rfl, fun _ _ => rfl⟩, h⟩
  | cons o a ih =>
    obtain ⟨v, h1, h2⟩ := h
    obtain ⟨w1, h3, h4⟩ := ih h2
    exact ⟨w1, ⟨v, h1, h3⟩, h4⟩

/-- The operations, when all of them have fitting quantities. -/
theorem ops_good {W : Int → World α} {ops : List (HOp α)} (hx : 0 < l.x) (hsq : l.y = l.x)
    (hW : ∀ r ∈ allRanks l, WF g (W r)) (hws : HWaitsStarted ops) (hwo : HWaitsOnce ops)
    (G : Good g l (fun r => skel (W r)) (ops.map HOp.call)) (buf : Buffering) :
    ∃ (fin : Int → HState α) (started : List (Op α × (Int → World α))),
      ((hopNet g l ops W).Completes buf fun r => (.ok (), fin r)) ∧ HOpsRun g l ops ⟨W, []⟩ ⟨fun r => (fin r).world, started⟩ ∧
      ∀ r ∈ allRanks l, skel (fin r).world = finalSk g (fun r => skel (W r)) (ops.map HOp.call) r := by
  classical
  obtain ⟨K, hK0⟩ := notMem_exists (ops.flatMap fun c => (c.start.map Op.qs).getD [])
  have hK : ∀ c ∈ ops, ∀ op, c.start = some op → K ∉ op.qs := fun c hc op ho hk =>
    hK0 (List.mem_flatMap.2 ⟨c, hc, by rw [ho]; exact hk⟩)
  have hK' : ∀ c ∈ ops.map HOp.call, ∀ op, c.start = some op → K ∉ op.qs := by
    intro c hc op ho
    obtain ⟨o, h1, rfl⟩ := List.mem_map.1 hc
    rw [call_start] at ho
    exact hK o h1 op ho
  let sk : Int → Skel := fun r => skel (W r)
  have hw : ∀ r ∈ allRanks l, WFS g α (sk r) := fun r hr mem => (hW r hr).mem mem
  let fin : Int → FV3.Mem α := fun r => quantities ((finalSk g sk (ops.map HOp.call) r).with fun _ => (default : α))
  let m0 : Int → FV3.Mem α := fun r k =>
    if k = K then { fin r K with data := ⟨(fin r K).data.shape, fun idx => (W r).mem (dec idx)⟩ }
    else if HasAxes (W r) k then quantities (W r) k else fin r k
  have hF : ∀ r ∈ allRanks l, Full K (W r) (m0 r) := by
    intro r hr
    refine ⟨fun k hk ha => (if_neg hk).trans (if_pos ha), fun a => ?_⟩
    have : m0 r K = _ := if_pos rfl
    rw [this]
    show (W r).mem (dec (enc a)) = _
    rw [dec_enc]
  have hM : ∀ r ∈ allRanks l, MetaOf K (finalSk g sk (ops.map HOp.call) r) (m0 r) := by
    intro r hr k hk hax
    show SameMeta _ (if k = K then _ else _)
    rw [if_neg hk]
    split
    · next ha =>
      obtain ⟨x, hx, hs⟩ := ha
      have hf := dataOf_final (calls := ops.map HOp.call) (sk := sk) (hw r hr) hx hs
      rw [quantities_eq hf, quantities_eq hx]
      exact ⟨rfl, rfl, rfl, rfl, rfl⟩
    · exact SameMeta.refl _
  have hv : AsyncValid l m0 (fun _ => ⟨[], []⟩) [] (toOps g K sk [] ops) := by
    refine ⟨callsValid_of fun x hx => ?_, ?_, ?_⟩
    · rcases toOps_mem (m0 := m0) hx with ⟨d, d1, op, d2, rfl⟩ | ⟨i, rfl⟩ | ⟨f, rfl, hf⟩
      · refine ⟨op, rfl, ?_⟩
        have := good_ready hK' hw G hM d.call (List.mem_map.2 ⟨d, d1, rfl⟩) op (by rw [call_start]; exact d2)
        cases d <;> cases d2 <;> exact this
      · exact ⟨_, rfl, trivial⟩
      · exact ⟨_, rfl, fun r hr m => hf r (hw r hr) (hM r hr) m⟩
    · have h1 : WaitsFrom 0 ((toOps g K sk [] ops).filterMap AOp.op?) := toOps_waits (fun pre i post e => by
        have := hws pre i post e
        omega)
      intro d i hd
      have := h1.started d i hd
      omega
    · show (((toOps g K sk [] ops).filterMap AOp.op?).filterMap Op.waitIdx).Nodup
      rw [toOps_idx]
      exact once_nodup hwo
  obtain ⟨afin, apend, c1, c2, -⟩ := async_any hx hsq buf (fun _ _ => default) m0 (fun _ _ => none) (fun _ => ⟨[], []⟩) []
    (fun g v h => by cases h) (fun g hg => by cases hg) _ hv (fun ⟨x, h1, e⟩ => by
      rcases toOps_mem (m0 := m0) h1 with ⟨d, d1, op, d2, rfl⟩ | ⟨i, rfl⟩ | ⟨f, rfl, hf⟩ <;> cases e)
  obtain ⟨w, w1, w2⟩ := hops_of (hp := []) hK hw G (fun r hr qs hq => by cases hq) hF (fun _ _ => rfl) .nil c2
  have mir : (asyncNet l (fun _ _ => default) (toOps g K sk [] ops) m0 (fun _ _ => none)).Mirror id (fun r x y =>
      if r ∈ allRanks l then (match x with
        | some (.ok t) => y.1 = .ok () ∧ RelA K (finalSk g sk (ops.map HOp.call) r) (finalHist [] ops) t.comm y.2
        | _ => True)
      else y = (.ok (), ⟨W r, 0, []⟩)) (hopNet g l ops W) := by
    refine ⟨fun r => ?_, fun _ _ _ => rfl, fun _ _ _ => rfl⟩
    show Proc.Mirror id _ (if r ∈ allRanks l then _ else _) (if r ∈ allRanks l then _ else _)
    by_cases h : r ∈ allRanks l
    · simp only [if_pos h]
      refine Proc.Mirror.left (ref_ops l h (sk := sk) hK (hw r h) G (fun qs hq => by cases hq) ⟨⟨m0 r, 0, []⟩, fun _ => none, 0⟩ ⟨W r, 0, []⟩
        ⟨⟨rfl, rfl, rfl, hF r h⟩, rfl, fun i req hi => by cases hi⟩) ?_
      rintro x ⟨y, s'⟩ hx
      refine .ret ?_
      cases x with
      | ok t => exact hx
      | error e => trivial
    · simp only [if_neg h]
      exact .ret rfl
  obtain ⟨res, r1, r2⟩ := c1.mirror mir
  have key : ∀ r ∈ allRanks l, (res r).1 = .ok () ∧ (res r).2.world = w.world r := by
    intro r h
    have h2 := r2 r
    simp only [if_pos h] at h2
    obtain ⟨h3, h4⟩ := h2
    exact ⟨h3, (w2 r h).1.unique h4.rel.mem (h4.rel.skel.trans (w2 r h).2.symm)⟩
  refine ⟨fun r => (res r).2, w.started, ?_, w1.last fun r hr => (key r hr).2, fun r hr => ?_⟩
  · have e : res = fun r => (.ok (), (res r).2) := by
      funext r
      by_cases h : r ∈ allRanks l
      · rw [← (key r h).1]
      · have h2 := r2 r
        simp only [if_neg h] at h2
        rw [h2]
    rw [← e]
    exact r1
  · dsimp only
    rw [(key r hr).2]
    exact (w2 r hr).2

/-- What stays during operations. -/
theorem hops_kept {ops : List (HOp α)} {w w1 : HWhole α} (hR : HOpsRun g l ops w w1) {r : Int} (hr : r ∈ allRanks l)
    (hw : WF g (w.world r)) : WF g (w1.world r) ∧ (∀ (i : Nat) o, (w.world r).objs[i]? = some o → (w1.world r).objs[i]? = some o) ∧
      ∀ (i : Nat) a, (w.world r).arrs[i]? = some a → a.view.shape ≠ [] → (w1.world r).arrs[i]? = some a := by
  induction ops generalizing w with
  | nil =>
    rw [hR.2 r hr]
    exact ⟨hw, fun _ _ h => h, fun _ _ h _ => h⟩
  | cons o ops ih =>
    obtain ⟨v, hc, hR⟩ := hR
    have step : WF g (v.world r) ∧ (∀ (i : Nat) o, (w.world r).objs[i]? = some o → (v.world r).objs[i]? = some o) ∧
        ∀ (i : Nat) a, (w.world r).arrs[i]? = some a → a.view.shape ≠ [] → (v.world r).arrs[i]? = some a := by
      have start : v.world r = w.world r → WF g (v.world r) ∧
          (∀ (i : Nat) o, (w.world r).objs[i]? = some o → (v.world r).objs[i]? = some o) ∧
          ∀ (i : Nat) a, (w.world r).arrs[i]? = some a → a.view.shape ≠ [] → (v.world r).arrs[i]? = some a := by
        intro e
        rw [e]
        exact ⟨hw, fun _ _ h => h, fun _ _ h _ => h⟩
      cases o with
      | compute os =>
        rw [hc.2 r hr]
        exact ⟨hw.run _, hw.kept _⟩
      | wait i =>
        obtain ⟨-, op, W0, -, m', -, h⟩ := hc
        have h2 := (h r hr).2
        have e : v.world r = { w.world r with mem := (v.world r).mem } := by
          generalize v.world r = v at h2
          obtain ⟨a, b, c, d⟩ := v
          obtain ⟨k1, k2, k3, -⟩ := h2
          simp only at k1 k2 k3
          rw [k1, k2, k3]
        rw [e]
        exact ⟨hw.mem _, fun _ _ h => h, fun _ _ h _ => h⟩
      | halo q n => exact start (hc.2 r hr)
      | vector x y n => exact start (hc.2 r hr)
      | sync x y => exact start (hc.2 r hr)
    obtain ⟨s1, s2, s3⟩ := step
    obtain ⟨i1, i2, i3⟩ := ih hR s1
    exact ⟨i1, fun i o h => i2 i o (s2 i o h), fun i a h ha => i3 i a (s3 i a h ha) ha⟩

/-- The updates fit when they are started. -/
theorem ops_fits {W : Int → World α} {ops : List (HOp α)} (hx : 0 < l.x) (hsq : l.y = l.x)
    (hW : ∀ r ∈ allRanks l, Reachable g (W r)) (hws : HWaitsStarted ops) (hwo : HWaitsOnce ops)
    (hr : ∀ (pre : List (HOp α)) o post, ops = pre ++ o :: post → ∀ op, o.start = some op → ∀ V, HOpsRun g l pre ⟨W, []⟩ V →
      (∀ r ∈ allRanks l, Usable (V.world r) op.qs) ∧ UpdateReady l (fun r => quantities (V.world r)) op) :
    Good g l (fun r => skel (W r)) (ops.map HOp.call) := by
  have hw : ∀ r ∈ allRanks l, WF g (W r) := fun r h => (hW r h).spec
  induction ops using List.reverseRecOn with
  | nil => trivial
  | append_singleton os o ih =>
    have ws : HWaitsStarted os := fun pre i post e => hws pre i (post ++ [o]) (by rw [e, List.append_assoc]; rfl)
    have wo : HWaitsOnce os := fun pre i mid post e => hwo pre i mid (post ++ [o]) (by rw [e]; simp)
    have G := ih ws wo fun pre d post e => hr pre d (post ++ [o]) (by rw [e, List.append_assoc]; rfl)
    rw [List.map_append]
    refine G.append ⟨fun op ho => ?_, trivial⟩
    rw [call_start] at ho
    obtain ⟨fin, st, -, h1, h2⟩ := ops_good hx hsq hw ws wo G fun _ _ _ _ => true
    obtain ⟨u1, u2⟩ := hr os o [] rfl op ho _ h1
    have k : ∀ r ∈ allRanks l, WF g (fin r).world := fun r h => (hops_kept h1 h (hw r h)).1
    refine ⟨fun r h => ?_, fun r h => ?_, updateReady_same u2 fun r h q hq => ?_⟩
    · rw [← h2 r h]
      exact (usable_fit (k r h) (u1 r h)).1
    · rw [← h2 r h]
      exact (usable_fit (k r h) (u1 r h)).2
    · rw [← h2 r h]
      exact meta_congr (W := (fin r).world) (W1 := (skel (fin r).world).with fun _ => (default : α)) rfl rfl
        ((hasAxes_congr (W := (fin r).world) rfl rfl).1 ((usable_fit (k r h) (u1 r h)).2 q hq))

/-- **C81**: updates of quantities in memory which are started and waited for in separate calls, in any order, with programs on
the memory of the ranks between them: every schedule ends with every rank finished, whatever the buffering, and the result is that
of the operations one after the other.  Starting an update changes nothing in memory.  Waiting for it changes memory only where
the data of its quantities is, and stores there what was packed at the start; so it is seen through all variables which share that
memory, and through no others.  The quantities of an update need to fit when it is started; they may share memory with other
variables and with the quantities of other updates, outstanding or not. -/
theorem C81_session {W : Int → World α} {ops : List (HOp α)} (hx : 0 < l.x) (hsq : l.y = l.x)
    (hW : ∀ r ∈ allRanks l, Reachable g (W r)) (hws : HWaitsStarted ops) (hwo : HWaitsOnce ops)
    (hr : ∀ (pre : List (HOp α)) o post, ops = pre ++ o :: post → ∀ op, o.start = some op → ∀ V, HOpsRun g l pre ⟨W, []⟩ V →
      (∀ r ∈ allRanks l, Usable (V.world r) op.qs) ∧ UpdateReady l (fun r => quantities (V.world r)) op) (buf : Buffering) :
    ∃ (fin : Int → HState α) (started : List (Op α × (Int → World α))),
      ((hopNet g l ops W).Completes buf fun r => (.ok (), fin r)) ∧
      HOpsRun g l ops ⟨W, []⟩ ⟨fun r => (fin r).world, started⟩ := by
  obtain ⟨fin, st, h1, h2, -⟩ := ops_good hx hsq (fun r h => (hW r h).spec) hws hwo (ops_fits hx hsq hW hws hwo hr) buf
  exact ⟨fin, st, h1, h2⟩

/-- The updates started, in order. -/
theorem hops_started {ops : List (HOp α)} {w w1 : HWhole α} (h : HOpsRun g l ops w w1) :
    ∃ s, w1.started = w.started ++ s ∧ s.length = (ops.filterMap HOp.start).length := by
  induction ops generalizing w with
  | nil => exact ⟨[], by rw [h.1, List.append_nil], rfl⟩
  | cons o ops ih =>
    obtain ⟨v, hc, h⟩ := h
    obtain ⟨s, h1, h2⟩ := ih h
    rw [List.filterMap_cons]
    have start : ∀ op, v.started = w.started ++ [(op, w.world)] →
        ∃ s, w1.started = w.started ++ s ∧ s.length = (op :: ops.filterMap HOp.start).length := by
      intro op e
      exact ⟨(op, w.world) :: s, by rw [h1, e, List.append_assoc]; rfl, by simp [h2]⟩
    cases o with
    | compute os => exact ⟨s, by rw [h1, hc.1], h2⟩
    | wait i => exact ⟨s, by rw [h1, hc.1], h2⟩
    | halo q n => exact start _ hc.1
    | vector x y n => exact start _ hc.1
    | sync x y => exact start _ hc.1

theorem HWait.last {op : Op α} {W0 W W1 V V0 : Int → World α} (h : HWait l op W0 W W1) (h0 : ∀ r ∈ allRanks l, V0 r = W0 r)
    (hV : ∀ r ∈ allRanks l, V r = W1 r) : HWait l op V0 W V := by
  obtain ⟨m', h1, h2⟩ := h
  have packed : ∀ r, ∀ src off, packedFor l op (fun r => quantities (V0 r)) r src off = packedFor l op (fun r => quantities (W0 r)) r src off := by
    intro r src off
    unfold packedFor
    split
    · next hs =>
      dsimp only
      rw [h0 src hs]
    · rfl
  refine ⟨m', fun r hr => ?_, fun r hr => ?_⟩
  · obtain ⟨i, h3, h4⟩ := h1 r hr
    refine ⟨i, by dsimp only; rw [h0 r hr]; exact h3, ?_⟩
    rw [deliver_congr (packed r)]
    exact h4
  · rw [hV r hr]
    exact h2 r hr

/-- The last operation is the wait for the update `o`. -/
theorem outstanding_run {W V : Int → World α} {before between : List (HOp α)} {o : HOp α} {op : Op α} (ho : o.start = some op)
    {st : List (Op α × (Int → World α))}
    (h2 : HOpsRun g l (before ++ o :: between ++ [.wait (before.filterMap HOp.start).length]) ⟨W, []⟩ ⟨V, st⟩) :
    ∃ atStart beforeWait : HWhole α, HOpsRun g l before ⟨W, []⟩ atStart ∧ HOpsRun g l (o :: between) atStart beforeWait ∧
      HWait l op atStart.world beforeWait.world V := by
  obtain ⟨w1, h3, w2, ⟨h4, op', W0, h5, h6⟩, h7⟩ := h2.append
  obtain ⟨w0, h8, h9⟩ := h3.append
  refine ⟨w0, w1, h8, h9, ?_⟩
  obtain ⟨s0, a1, a2⟩ := hops_started h8
  have a1 : w0.started = s0 := a1
  obtain ⟨v, b1, b2⟩ := h9
  obtain ⟨s1, c1, -⟩ := hops_started b2
  have hv : v.started = w0.started ++ [(op, w0.world)] := by
    cases o with
    | compute os => cases ho
    | wait i => cases ho
    | halo q n => cases ho; exact b1.1
    | vector x y n => cases ho; exact b1.1
    | sync x y => cases ho; exact b1.1
  rw [c1, hv, a1, ← a2, List.append_assoc, List.getElem?_append_right (Nat.le_refl _), Nat.sub_self] at h5
  cases h5
  exact h6.last (fun _ _ => rfl) h7.2

/-- **C81**: an update started in a session, with any operations before it and any operations between the start and the wait
(other updates, started or waited for, and programs which may change the same memory): the wait stores what the ranks had at the
start in the quantities as they are just before the wait. -/
theorem C81_outstanding {W : Int → World α} (hx : 0 < l.x) (hsq : l.y = l.x) (hW : ∀ r ∈ allRanks l, Reachable g (W r))
    (before between : List (HOp α)) (o : HOp α) (op : Op α) (ho : o.start = some op)
    (hws : HWaitsStarted (before ++ o :: between ++ [.wait (before.filterMap HOp.start).length]))
    (hwo : HWaitsOnce (before ++ o :: between ++ [.wait (before.filterMap HOp.start).length]))
    (hr : ∀ (pre : List (HOp α)) o' post, before ++ o :: between ++ [.wait (before.filterMap HOp.start).length] = pre ++ o' :: post →
      ∀ op, o'.start = some op → ∀ V, HOpsRun g l pre ⟨W, []⟩ V →
      (∀ r ∈ allRanks l, Usable (V.world r) op.qs) ∧ UpdateReady l (fun r => quantities (V.world r)) op) (buf : Buffering) :
    ∃ (fin : Int → HState α) (atStart beforeWait : HWhole α),
      ((hopNet g l (before ++ o :: between ++ [.wait (before.filterMap HOp.start).length]) W).Completes buf fun r => (.ok (), fin r)) ∧
      HOpsRun g l before ⟨W, []⟩ atStart ∧ HOpsRun g l (o :: between) atStart beforeWait ∧
      HWait l op atStart.world beforeWait.world (fun r => (fin r).world) := by
  obtain ⟨fin, st, h1, h2⟩ := C81_session hx hsq hW hws hwo hr buf
  obtain ⟨w0, w1, h3⟩ := outstanding_run ho h2
  exact ⟨fin, w0, w1, h1, h3⟩

/-- Only the quantities of the update matter for a wait. -/
theorem waitStep_congr {op : Op α} {m0 m m' n0 n : Int → FV3.Mem α} (hu : WaitStep l op m0 m m')
    (h0 : ∀ r ∈ allRanks l, ∀ q ∈ op.qs, n0 r q = m0 r q) (h1 : ∀ r ∈ allRanks l, ∀ q ∈ op.qs, n r q = m r q) :
    ∃ n', WaitStep l op n0 n n' ∧ ∀ r ∈ allRanks l, ∀ q ∈ op.qs, n' r q = m' r q := by
  have packed : ∀ r, ∀ src off, packedFor l op n0 r src off = packedFor l op m0 r src off := by
    intro r src off
    unfold packedFor
    split
    · next hs => rw [out_congr (h0 src hs)]
    · rfl
  have key : ∀ r, ∃ n', r ∈ allRanks l → (∃ i, op.inn l r (n0 r) = .ok i ∧ deliver (packedFor l op n0 r) i (n r) = .ok n') ∧
      ∀ q ∈ op.qs, n' q = m' r q := by
    intro r
    by_cases hr : r ∈ allRanks l
    · obtain ⟨i, hi, hd⟩ := hu r hr
      obtain ⟨m2, d1, d2, -⟩ := deliver_local (inn_qs hi) hd (h1 r hr)
      refine ⟨m2, fun _ => ⟨⟨i, by rw [inn_congr (h0 r hr)]; exact hi, ?_⟩, d2⟩⟩
      rw [deliver_congr (packed r)]
      exact d1
    · exact ⟨m r, fun h => absurd h hr⟩
  choose n' hn' using key
  exact ⟨n', fun r hr => (hn' r hr).1, fun r hr => (hn' r hr).2⟩

/-- What waiting for a halo update does, in the values of its quantity and in memory. -/
theorem hwait_halo {W0 W W1 : Int → World α} {h ky kx : Nat} {n w : Int} (hx : 0 < l.x) (hsq : l.y = l.x) (hh : 0 < w) (hn : w ≤ n)
    (S : ScalarField l (fun r => quantities (W0 r)) h ky kx n w)
    (hm : ∀ r ∈ allRanks l, SameMeta (quantities (W0 r) h) (quantities (W r) h)) (hs : HWait l (.halo h w) W0 W W1) :
    HaloFilled l h ky kx n w (fun r => quantities (W0 r)) (fun r => quantities (W1 r)) ∧
      ∀ r ∈ allRanks l, OnlyCells (HaloCells l W h ky kx n w r) (W r) (W1 r) := by
  obtain ⟨m', hu, hc⟩ := hs
  obtain ⟨n', hu', hn'⟩ := waitStep_congr (n0 := fun r _ => quantities (W0 r) h) (n := fun r _ => quantities (W r) h) hu
    (fun r hr q hq => by rw [show q = h by simpa [Op.qs] using hq]) (fun r hr q hq => by rw [show q = h by simpa [Op.qs] using hq])
  have S' : ScalarField l (fun r _ => quantities (W0 r) h) h ky kx n w := ⟨S.ready, S.dims, S.other, S.stagger⟩
  have e' : ∀ r ∈ allRanks l, n' r h = quantities (W1 r) h := fun r hr =>
    (hn' r hr h (by simp [Op.qs])).trans ((hc r hr).1 h (by simp [Op.qs])).symm
  refine ⟨fun r idx t a b hat hin hsc => ?_, fun r hr => ?_⟩
  · obtain ⟨r', src, o1, o2⟩ := wait_filled hx hsq hh hn S' (fun r hr _ => hm r hr) hu' r idx t a b ⟨hat.rank, hat.tile, hat.x, hat.y⟩ hin hsc
    obtain ⟨t', a', b', p1, p2⟩ := o1.point
    refine ⟨r', src, ⟨o1.compute, o1.other, t', a', b', ⟨p1.rank, p1.tile, p1.x, p1.y⟩, p2⟩, ?_⟩
    dsimp only
    rw [← e' r hat.rank]
    exact o2
  · obtain ⟨-, c2⟩ := hc r hr
    refine ⟨c2.next, c2.arrs, c2.objs, fun a => ?_⟩
    rcases c2.mem a with e | ⟨k, idx, hk, hcell⟩
    · exact .inl e
    · have hk' : k = h := by simpa [Op.qs] using hk
      subst hk'
      by_cases hp : HaloCells l W k ky kx n w r k idx
      · exact .inr ⟨k, idx, hp, hcell⟩
      · left
        have v0 := cell_value hcell
        have v1 := cell_value ((cell_congr c2.arrs c2.objs).2 hcell)
        rw [← v0, ← v1, ← e' r hr]
        have htile : ∃ t, tileIndex l r = .ok t := ⟨_, tileIndex_eq (by omega) hx r⟩
        obtain ⟨t, ht⟩ := htile
        have hlen : idx.length = (quantities (W r) k).ndim := by
          refine cell_ndim ?_ hcell
          have := (S.ready r hr).wf.shape
          rw [(hm r hr).ndim, (hm r hr).shape]
          exact this
        exact (wait_only hx hsq hh hn S' (fun r hr _ => hm r hr) hu' r hr).2.2 idx t _ _ ⟨hr, ht, rfl, rfl⟩ hlen
          fun hq => hp ⟨rfl, hq.1, t, _, _, ⟨hr, ht, rfl, rfl⟩, hq.2⟩

/-- The halo update, with what is known of its quantity at the start. -/
theorem halo_run {W V : Int → World α} (hx : 0 < l.x) (hsq : l.y = l.x) (hW : ∀ r ∈ allRanks l, Reachable g (W r))
    {before between : List (HOp α)} {h ky kx : Nat} {n w : Int} (hh : 0 < w) (hn : w ≤ n) {w0 w1 : HWhole α}
    (S : ScalarField l (fun r => quantities (w0.world r)) h ky kx n w) (hu : ∀ r ∈ allRanks l, Usable (w0.world r) [h])
    (h2 : HOpsRun g l before ⟨W, []⟩ w0) (h3 : HOpsRun g l (.halo h w :: between) w0 w1) (h4 : HWait l (.halo h w) w0.world w1.world V) :
    HaloFilled l h ky kx n w (fun r => quantities (w0.world r)) (fun r => quantities (V r)) ∧
      ∀ r ∈ allRanks l, OnlyCells (HaloCells l w1.world h ky kx n w r) (w1.world r) (V r) := by
  refine hwait_halo hx hsq hh hn S (fun r hrk => ?_) h4
  have hw0 : WF g (w0.world r) := (hops_kept h2 hrk (hW r hrk).spec).1
  obtain ⟨-, k1, k2⟩ := hops_kept h3 hrk hw0
  obtain ⟨x, hx, hs⟩ := (usable_fit hw0 (hu r hrk)).2 h (by simp)
  have hx : dataOf (w0.world r) h = .ok x := hx
  rw [quantities_eq hx, quantities_eq (dataOf_kept k1 k2 hx hs)]
  exact ⟨rfl, rfl, rfl, rfl, rfl⟩

/-- **C81**: a halo update of a quantity started in a session: after the wait the halo holds the values which the owners of the
points had at the start, and nothing else in memory is different from just before the wait, whatever other variables share the
memory of the quantity and whatever was done to them between the start and the wait. -/
theorem C81_halo {W : Int → World α} (hx : 0 < l.x) (hsq : l.y = l.x) (hW : ∀ r ∈ allRanks l, Reachable g (W r))
    (before between : List (HOp α)) {h ky kx : Nat} {n w : Int} (hh : 0 < w) (hn : w ≤ n)
    (S : ∀ V, HOpsRun g l before ⟨W, []⟩ V → ScalarField l (fun r => quantities (V.world r)) h ky kx n w)
    (hws : HWaitsStarted (before ++ .halo h w :: between ++ [.wait (before.filterMap HOp.start).length]))
    (hwo : HWaitsOnce (before ++ .halo h w :: between ++ [.wait (before.filterMap HOp.start).length]))
    (hr : ∀ (pre : List (HOp α)) o' post,
      before ++ .halo h w :: between ++ [.wait (before.filterMap HOp.start).length] = pre ++ o' :: post →
      ∀ op, o'.start = some op → ∀ V, HOpsRun g l pre ⟨W, []⟩ V →
      (∀ r ∈ allRanks l, Usable (V.world r) op.qs) ∧ UpdateReady l (fun r => quantities (V.world r)) op) (buf : Buffering) :
    ∃ (fin : Int → HState α) (atStart beforeWait : HWhole α),
      ((hopNet g l (before ++ .halo h w :: between ++ [.wait (before.filterMap HOp.start).length]) W).Completes buf
        fun r => (.ok (), fin r)) ∧
      HOpsRun g l before ⟨W, []⟩ atStart ∧ HOpsRun g l (.halo h w :: between) atStart beforeWait ∧
      HaloFilled l h ky kx n w (fun r => quantities (atStart.world r)) (fun r => quantities (fin r).world) ∧
      ∀ r ∈ allRanks l, OnlyCells (HaloCells l beforeWait.world h ky kx n w r) (beforeWait.world r) (fin r).world := by
  obtain ⟨fin, w0, w1, h1, h2, h3, h4⟩ := C81_outstanding hx hsq hW before between (.halo h w) (.halo h w) rfl hws hwo hr buf
  exact ⟨fin, w0, w1, h1, h2, h3, halo_run hx hsq hW hh hn (S w0 h2)
    (hr before (.halo h w) (between ++ [.wait (before.filterMap HOp.start).length]) (by simp) (.halo h w) rfl w0 h2).1 h2 h3 h4⟩

end Heap
end FV3
