import Verif.Proofs.HeapGrow
import Verif.Props.Protocol
import Verif.Props.AsyncSession

/-!
# Sequences of communicator calls and programs, with quantities in memory
-/

namespace FV3
namespace Heap
open Mem (World Gt4py)
open Strided
variable {α : Type} {g : Gt4py}

/-- Arrays and variables as programs make them. -/
def WF (g : Gt4py) (W : World α) : Prop := ∃ (bv : Nat → View) (S : Mem.SWorld α), Mem.Sim g bv W S ∧ Mem.SInv S

theorem WF.mem {W : World α} (h : WF g W) (mem : Int → α) : WF g { W with mem := mem } := by
  obtain ⟨bv, S, hs, hi⟩ := h
  refine ⟨bv, { S with blocks := fun i => (bv i).read mem }, ⟨fun i hc => ?_, hs.dis, hs.arr, hs.obj⟩, hi.win, hi.obj⟩
  have := hs.blk i hc
  exact ⟨rfl, this.inj, this.below, fun idx _ => rfl⟩

theorem WF.run {W : World α} (h : WF g W) (ops : List (Mem.Op α)) : WF g (W.run g ops).2 := by
  obtain ⟨bv, S, hs, hi⟩ := h
  obtain ⟨-, bv', h2⟩ := Mem.run_sim hs ops
  exact ⟨bv', _, h2, (Mem.run_any hi ops).inv⟩

theorem WF.step {W : World α} (h : WF g W) (op : Mem.Op α) : WF g (W.step g op).2 := h.run [op]

/-- What is known about a quantity. -/
theorem WF.quantity {W : World α} (h : WF g W) {i : Nat} {q : Mem.QObj} (hq : W.objs[i]? = some (.quantity q)) :
    q.bounded = q.data ∧ ∃ a, W.arrs[q.data]? = some a ∧ a.view.Injective ∧ a.view.strides.length = a.view.shape.length ∧
      q.info.origin.length = a.view.shape.length ∧ q.info.dims.length = a.view.shape.length ∧ q.info.extent.length = a.view.shape.length := by
  obtain ⟨bv, S, hs, hi⟩ := h
  rcases Mem.forall₂_get hs.obj i with ⟨h1, -⟩ | ⟨o, so, h1, h2, ho⟩
  · rw [h1] at hq; cases hq
  · rw [h1] at hq
    cases hq
    cases ho with
    | quantity d s inf =>
      obtain ⟨w, w1, w2, w3, w4, -⟩ := hi.obj i _ h2
      refine ⟨rfl, ?_⟩
      rcases Mem.forall₂_get hs.arr d with ⟨-, a2⟩ | ⟨a, w', a1, a2, ha⟩
      · rw [a2] at w1; cases w1
      · rw [a2] at w1
        cases w1
        exact ⟨a, a1, Mem.ArrR.injective hs ha, ha.strides, by rw [w3, ha.shape], by rw [w2, ha.shape], by rw [w4, ha.shape]⟩

/-- A program: arrays and variables do not depend on the contents of memory, and those with axes stay. -/
theorem run_ss (ops : List (Mem.Op α)) {sk : Skel} {m1 m2 : Int → α} (hw : WF g (sk.with m1)) :
    skel ((sk.with m1).run g ops).2 = skel ((sk.with m2).run g ops).2 ∧
      (∀ (i : Nat) o, sk.objs[i]? = some o → ((sk.with m1).run g ops).2.objs[i]? = some o) ∧
      (∀ (i : Nat) a, sk.arrs[i]? = some a → a.view.shape ≠ [] → ((sk.with m1).run g ops).2.arrs[i]? = some a) := by
  induction ops generalizing sk m1 m2 with
  | nil => exact ⟨rfl, fun _ _ h => h, fun _ _ h _ => h⟩
  | cons op ops ih =>
    obtain ⟨-, h2, h3, h4⟩ := ss_step (g := g) (m1 := m1) (m2 := m2) op fun h q a _ ho ha h0 => by
      obtain ⟨e, b, hb, -, -, hl, -⟩ := hw.quantity ho
      rw [e] at ha
      have hb' : sk.arrs[q.data]? = some b := hb
      rw [hb'] at ha
      cases ha
      exact List.eq_nil_of_length_eq_zero (by omega)
    have w1 : WF g ((sk.with m1).step g op).2 := hw.step op
    have e1 : ((sk.with m1).step g op).2 = (skel ((sk.with m1).step g op).2).with ((sk.with m1).step g op).2.mem := rfl
    have e2 : ((sk.with m2).step g op).2 = (skel ((sk.with m1).step g op).2).with ((sk.with m2).step g op).2.mem := skel_eq h2.symm
    rw [e1] at w1
    obtain ⟨i1, i2, i3⟩ := ih (m2 := ((sk.with m2).step g op).2.mem) w1
    refine ⟨?_, fun i o ho => i2 i o (h3 i o ho), fun i a ha hs => i3 i a (h4 i a ha hs) hs⟩
    show skel (((sk.with m1).step g op).2.run g ops).2 = skel (((sk.with m2).step g op).2.run g ops).2
    rw [e2]
    exact i1

theorem dataOf_kept {W W1 : World α} (ho : ∀ (i : Nat) o, W.objs[i]? = some o → W1.objs[i]? = some o)
    (ha : ∀ (i : Nat) a, W.arrs[i]? = some a → a.view.shape ≠ [] → W1.arrs[i]? = some a) {h : Nat} {x : Nat × Mem.Arr × Mem.Info}
    (hx : dataOf W h = .ok x) (hs : x.2.1.view.shape ≠ []) : dataOf W1 h = .ok x := by
  unfold dataOf at hx ⊢
  split at hx
  · cases hx
  · next q hq =>
    split at hx
    · cases hx
    · next a h1 =>
      cases hx
      rw [ho _ _ hq]
      dsimp only
      rw [ha _ _ h1 hs]
  · cases hx

theorem WF.kept {W : World α} (hw : WF g W) (ops : List (Mem.Op α)) :
    (∀ (i : Nat) o, W.objs[i]? = some o → (W.run g ops).2.objs[i]? = some o) ∧
      ∀ (i : Nat) a, W.arrs[i]? = some a → a.view.shape ≠ [] → (W.run g ops).2.arrs[i]? = some a :=
  (run_ss (sk := skel W) (m1 := W.mem) (m2 := W.mem) ops hw).2

/-- The arrays and variables after a program. -/
def Skel.run (g : Gt4py) [Inhabited α] (sk : Skel) (ops : List (Mem.Op α)) : Skel := skel ((sk.with fun _ => (default : α)).run g ops).2

/-- A quantity with axes. -/
def HasAxes (W : World α) (h : Nat) : Prop := ∃ x, dataOf W h = .ok x ∧ x.2.1.view.shape ≠ []

section
variable [Inhabited α]

theorem run_skel {sk : Skel} {mem : Int → α} (hw : WF g (sk.with mem)) (ops : List (Mem.Op α)) :
    skel ((sk.with mem).run g ops).2 = sk.run g ops :=
  (run_ss ops hw).1

theorem WF.skel {W : World α} (hw : WF g W) (ops : List (Mem.Op α)) : Heap.skel (W.run g ops).2 = (Heap.skel W).run g ops :=
  run_skel (sk := Heap.skel W) (mem := W.mem) hw ops

/-- From the cell number back to the cell. -/
def dec (idx : List Nat) : Int := (idx.getD 0 0 : Int) - idx.getD 1 0

theorem dec_enc (a : Int) : dec (enc a) = a := by
  simp only [dec, enc, List.getD_cons_zero, List.getD_cons_succ]
  omega

open Classical in
/-- Memory, from the quantities and the rest. -/
noncomputable def rebuild (hs : List Nat) (K : Nat) (sk : Skel) (m : FV3.Mem α) : Int → α := fun a =>
  if h : ∃ p : Nat × List Nat, p.1 ∈ hs ∧ Cell (sk.with fun _ => (default : α)) p.1 p.2 a then
    (m h.choose.1).data.get h.choose.2
  else (m K).data.get (enc a)

theorem MRel.get {hs : List Nat} {K : Nat} {W : World α} {m : FV3.Mem α} (R : MRel hs K W m) {h : Nat} (hh : h ∈ hs) {idx : List Nat}
    {a : Int} (hc : Cell W h idx a) : (m h).data.get idx = W.mem a := by
  obtain ⟨x, hx, hi, rfl⟩ := hc
  rw [R.vals h hh, quantities_eq hx]
  exact if_pos hi

theorem MRel.rebuild {hs : List Nat} {K : Nat} {W : World α} {m : FV3.Mem α} (R : MRel hs K W m) :
    rebuild hs K (skel W) m = W.mem := by
  funext a
  unfold Heap.rebuild
  split
  · next h =>
    exact R.get h.choose_spec.1 h.choose_spec.2
  · next h =>
    exact R.rest a fun k hk idx hc => h ⟨⟨k, idx⟩, hk, hc⟩

/-- The quantities `m` are those of `W` which have axes; quantity `K` holds the memory. -/
structure Full (K : Nat) (W : World α) (m : FV3.Mem α) : Prop where
  vals : ∀ h, h ≠ K → HasAxes W h → m h = quantities W h
  rest : ∀ a, (m K).data.get (enc a) = W.mem a

theorem Full.mrel {K : Nat} {W : World α} {m : FV3.Mem α} (F : Full K W m) {qs : List Nat} (hK : K ∉ qs) (H : Held W qs)
    (A : ∀ h ∈ qs, HasAxes W h) : MRel qs K W m :=
  ⟨H, fun h hh => F.vals h (fun e => hK (e ▸ hh)) (A h hh), fun a _ => F.rest a⟩

theorem Full.mrel0 {K : Nat} {W : World α} {m : FV3.Mem α} (F : Full K W m) : MRel [] K W m :=
  F.mrel (List.not_mem_nil) ⟨(fun h hh => by cases hh), (fun h hh => by cases hh)⟩ fun h hh => by cases hh

open Classical in
/-- A program on memory, as a function on quantities, after an update of the quantities `qs`. -/
noncomputable def computeOn (g : Gt4py) (qs : List Nat) (K : Nat) (sk : Skel) (ops : List (Mem.Op α)) (m : FV3.Mem α) : FV3.Mem α :=
  fun k =>
    if k = K then
      { m K with data := ⟨(m K).data.shape, fun idx => ((sk.with (rebuild qs K sk m)).run g ops).2.mem (dec idx)⟩ }
    else if HasAxes ((sk.with (rebuild qs K sk m)).run g ops).2 k then quantities ((sk.with (rebuild qs K sk m)).run g ops).2 k
    else m k

theorem MRel.compute {qs : List Nat} {K : Nat} {W : World α} {m : FV3.Mem α} (R : MRel qs K W m) (ops : List (Mem.Op α)) :
    Full K (W.run g ops).2 (computeOn g qs K (skel W) ops m) := by
  have e : (skel W).with (Heap.rebuild qs K (skel W) m) = W := by
    rw [R.rebuild]
    rfl
  refine ⟨fun k hk ha => ?_, fun a => ?_⟩
  · unfold computeOn
    rw [if_neg hk, e, if_pos ha]
  · unfold computeOn
    rw [if_pos rfl, e]
    show (W.run g ops).2.mem (dec (enc a)) = _
    rw [dec_enc]

/-- The metadata of `m0` are those of the variables of `sk`. -/
def MetaOf (K : Nat) (sk : Skel) (m0 : FV3.Mem α) : Prop :=
  ∀ k, k ≠ K → HasAxes (sk.with fun _ => (default : α)) k → SameMeta (quantities (sk.with fun _ => (default : α)) k) (m0 k)

theorem hasAxes_congr {W W1 : World α} (ha : W1.arrs = W.arrs) (ho : W1.objs = W.objs) {h : Nat} : HasAxes W1 h ↔ HasAxes W h := by
  unfold HasAxes
  rw [dataOf_congr ha ho]

theorem meta_congr {W W1 : World α} (ha : W1.arrs = W.arrs) (ho : W1.objs = W.objs) {h : Nat} (hx : HasAxes W h) :
    SameMeta (quantities W h) (quantities W1 h) := by
  obtain ⟨x, hx, -⟩ := hx
  rw [quantities_eq hx, quantities_eq ((dataOf_congr ha ho h).trans hx)]
  exact ⟨rfl, rfl, rfl, rfl, rfl⟩

theorem _root_.FV3.SameMeta.sym {q q' : Quantity α} (h : SameMeta q q') : SameMeta q' q :=
  ⟨h.shape.symm, h.dims.symm, h.units.symm, h.origin.symm, h.extent.symm⟩

/-- Computing changes no metadata. -/
theorem computeOn_meta {qs : List Nat} {K : Nat} {sk : Skel} (hw : ∀ mem : Int → α, WF g (sk.with mem)) (ops : List (Mem.Op α))
    {m0 m : FV3.Mem α} (hm : ∀ k, SameMeta (m0 k) (m k)) (h0 : MetaOf K (sk.run g ops) m0) (k : Nat) :
    SameMeta (m0 k) (computeOn g qs K sk ops m k) := by
  unfold computeOn
  split
  · next e =>
    subst e
    exact ⟨(hm k).shape, (hm k).dims, (hm k).units, (hm k).origin, (hm k).extent⟩
  · next hk =>
    split
    · next ha =>
      have e := run_skel (hw (rebuild qs K sk m)) ops
      have e1 := congrArg Skel.arrs e
      have e2 := congrArg Skel.objs e
      have ha' := (hasAxes_congr (W1 := (sk.run g ops).with fun _ => (default : α)) e1.symm e2.symm).2 ha
      have h1 := meta_congr (W1 := (sk.run g ops).with fun _ => (default : α)) e1.symm e2.symm ha
      have h2 := h0 k hk ha'
      exact (h1.trans h2).sym
    · exact hm k

/-! ### sequences of calls -/

/-- Calls on quantities in memory, as calls on quantities: after a call, all quantities follow memory. -/
noncomputable def toCalls (g : Gt4py) (K : Nat) : (Int → Skel) → List (HCall α) → List (Call α)
  | _, [] => []
  | sk, .haloUpdate q n :: cs => .haloUpdate q n :: .compute (fun r m => computeOn g [q] K (sk r) [] m) :: toCalls g K sk cs
  | sk, .vectorHaloUpdate x y n :: cs =>
    .vectorHaloUpdate x y n :: .compute (fun r m => computeOn g [x, y] K (sk r) [] m) :: toCalls g K sk cs
  | sk, .synchronize x y :: cs => .synchronize x y :: .compute (fun r m => computeOn g [x, y] K (sk r) [] m) :: toCalls g K sk cs
  | sk, .compute ops :: cs =>
    .compute (fun r m => computeOn g [] K (sk r) (ops r) m) :: toCalls g K (fun r => (sk r).run g (ops r)) cs

/-- The arrays and variables after a call. -/
def skAfter (g : Gt4py) (sk : Int → Skel) : HCall α → Int → Skel
  | .compute ops => fun r => (sk r).run g (ops r)
  | _ => sk

/-- The arrays and variables at the end. -/
def finalSk (g : Gt4py) : (Int → Skel) → List (HCall α) → Int → Skel
  | sk, [] => sk
  | sk, c :: cs => finalSk g (skAfter g sk c) cs

theorem finalSk_append (sk : Int → Skel) (a b : List (HCall α)) : finalSk g sk (a ++ b) = finalSk g (finalSk g sk a) b := by
  induction a generalizing sk with
  | nil => rfl
  | cons c a ih => exact ih _

/-- Well-formed whatever the contents of memory. -/
def WFS (g : Gt4py) (α : Type) (sk : Skel) : Prop := ∀ mem : Int → α, WF g (sk.with mem)

theorem WFS.run {sk : Skel} (h : WFS g α sk) (ops : List (Mem.Op α)) : WFS g α (sk.run g ops) :=
  fun mem => ((h fun _ => default).run ops).mem mem

theorem WFS.after {sk : Int → Skel} {r : Int} (h : WFS g α (sk r)) (c : HCall α) : WFS g α (skAfter g sk c r) := by
  cases c with
  | compute ops => exact h.run (ops r)
  | _ => exact h

theorem dataOf_run {sk : Skel} (hw : WFS g α sk) (ops : List (Mem.Op α)) {h : Nat} {x : Nat × Mem.Arr × Mem.Info}
    (hx : dataOf (sk.with fun _ => (default : α)) h = .ok x) (hs : x.2.1.view.shape ≠ []) :
    dataOf ((sk.run g ops).with fun _ => (default : α)) h = .ok x := by
  obtain ⟨k1, k2⟩ := (hw fun _ => default).kept ops
  have : dataOf ((sk.with fun _ => (default : α)).run g ops).2 h = .ok x := dataOf_kept k1 k2 hx hs
  exact (dataOf_congr rfl rfl h).trans this

theorem dataOf_final {calls : List (HCall α)} {sk : Int → Skel} {r : Int} (hw : WFS g α (sk r)) {h : Nat} {x : Nat × Mem.Arr × Mem.Info}
    (hx : dataOf ((sk r).with fun _ => (default : α)) h = .ok x) (hs : x.2.1.view.shape ≠ []) :
    dataOf ((finalSk g sk calls r).with fun _ => (default : α)) h = .ok x := by
  induction calls generalizing sk with
  | nil => exact hx
  | cons c calls ih =>
    refine ih (hw.after c) ?_
    cases c with
    | compute ops => exact dataOf_run hw (ops r) hx hs
    | _ => exact hx

/-- Metadata stay until the end. -/
theorem MetaOf.first {calls : List (HCall α)} {sk : Int → Skel} {r : Int} (hw : WFS g α (sk r)) {K : Nat} {m0 : FV3.Mem α}
    (h : MetaOf K (finalSk g sk calls r) m0) : MetaOf K (sk r) m0 := by
  rintro k hk ⟨x, hx, hs⟩
  have hf := dataOf_final (calls := calls) hw hx hs
  have := h k hk ⟨x, hf, hs⟩
  rw [quantities_eq hf] at this
  rw [quantities_eq hx]
  exact ⟨this.shape, this.dims, this.units, this.origin, this.extent⟩

theorem toCalls_compute {K : Nat} {calls : List (HCall α)} {sk : Int → Skel} {f : Int → FV3.Mem α → FV3.Mem α}
    {m0 : Int → FV3.Mem α} {r : Int} (hw : WFS g α (sk r)) (h0 : MetaOf K (finalSk g sk calls r) (m0 r))
    (hc : Call.compute f ∈ toCalls g K sk calls) (m : FV3.Mem α) (hm : MetaIs m0 r m) : MetaIs m0 r (f r m) := by
  induction calls generalizing sk with
  | nil => cases hc
  | cons d calls ih =>
    have h1 : MetaOf K (skAfter g sk d r) (m0 r) := MetaOf.first (hw.after d) h0
    cases d with
    | compute ops =>
      rcases List.mem_cons.1 hc with e | hc
      · cases e
        exact fun k => computeOn_meta hw (ops r) hm h1 k
      · exact ih (hw.run _) h0 hc
    | _ =>
      rcases List.mem_cons.1 hc with e | hc
      · cases e
      rcases List.mem_cons.1 hc with e | hc
      · cases e
        exact fun k => computeOn_meta hw [] hm h1 k
      · exact ih hw h0 hc

variable [Neg α]

theorem toCalls_start {K : Nat} {calls : List (HCall α)} {sk : Int → Skel} {c : Call α} {op : Op α}
    (hc : c ∈ toCalls g K sk calls) (ho : c.start = some op) : ∃ d ∈ calls, d.start = some op := by
  induction calls generalizing sk with
  | nil => cases hc
  | cons d calls ih =>
    cases d with
    | compute ops =>
      rcases List.mem_cons.1 hc with rfl | hc
      · cases ho
      · obtain ⟨d, h1, h2⟩ := ih hc
        exact ⟨d, List.mem_cons_of_mem _ h1, h2⟩
    | _ =>
      rcases List.mem_cons.1 hc with rfl | hc
      · exact ⟨_, List.mem_cons_self, ho⟩
      rcases List.mem_cons.1 hc with rfl | hc
      · cases ho
      · obtain ⟨d, h1, h2⟩ := ih hc
        exact ⟨d, List.mem_cons_of_mem _ h1, h2⟩

theorem toCalls_tags {K : Nat} {calls : List (HCall α)} {sk : Int → Skel} :
    ((toCalls g K sk calls).map Call.nTags).sum = (calls.map HCall.nTags).sum := by
  induction calls generalizing sk with
  | nil => rfl
  | cons d calls ih => cases d <;> simp [toCalls, Call.nTags, HCall.nTags, ih]

/-- The quantities of an update, in terms of arrays and variables. -/
structure Fit (l : Layout) (α : Type) [Inhabited α] [Neg α] (sk : Int → Skel) (op : Op α) : Prop where
  held : ∀ r ∈ allRanks l, Held ((sk r).with fun _ => (default : α)) op.qs
  axes : ∀ r ∈ allRanks l, ∀ h ∈ op.qs, HasAxes ((sk r).with fun _ => (default : α)) h
  ready : UpdateReady l (fun r => quantities ((sk r).with fun _ => (default : α))) op

/-- All calls have fitting quantities. -/
def Good (g : Gt4py) (l : Layout) : (Int → Skel) → List (HCall α) → Prop
  | _, [] => True
  | sk, c :: cs => (∀ op, c.start = some op → Fit l α sk op) ∧ Good g l (skAfter g sk c) cs

theorem Good.append {l : Layout} {sk : Int → Skel} {a b : List (HCall α)} (h : Good g l sk a) (h' : Good g l (finalSk g sk a) b) :
    Good g l sk (a ++ b) := by
  induction a generalizing sk with
  | nil => exact h'
  | cons c a ih => exact ⟨h.1, ih h.2 h'⟩

/-- Only the metadata of the quantities of an update matter. -/
theorem updateReady_same {l : Layout} {m m' : Int → FV3.Mem α} {op : Op α} (h : UpdateReady l m op)
    (hm : ∀ r ∈ allRanks l, ∀ q ∈ op.qs, SameMeta (m r q) (m' r q)) : UpdateReady l m' op := by
  cases op with
  | halo q n =>
    obtain ⟨ky, kx, n', h1, h2, S⟩ := h
    have gq : ∀ r ∈ allRanks l, SameMeta (m r q) (m' r q) := fun r hr => hm r hr q (by simp [Op.qs])
    have S' : ScalarField l (fun r _ => m' r q) q ky kx n' n :=
      ScalarField.same (m := fun r _ => m r q) ⟨S.ready, S.dims, S.other, S.stagger⟩ fun r hr _ => gq r hr
    exact ⟨ky, kx, n', h1, h2, S'.ready, S'.dims, S'.other, S'.stagger⟩
  | vector x y n =>
    obtain ⟨ky, kx, n', h1, h2, S⟩ := h
    have gx : ∀ r ∈ allRanks l, SameMeta (m r x) (m' r x) := fun r hr => hm r hr x (by simp [Op.qs])
    have gy : ∀ r ∈ allRanks l, SameMeta (m r y) (m' r y) := fun r hr => hm r hr y (by simp [Op.qs])
    have S' : VectorField l (fun r k => if k = 0 then m' r x else m' r y) 0 1 ky kx n' n :=
      VectorField.same (m := fun r k => if k = 0 then m r x else m r y)
        ⟨S.readyX, S.readyY, S.dimsX, S.dimsY, S.ndim, S.other, S.staggerY, S.staggerX⟩ fun r hr k => by
          split
          · exact gx r hr
          · exact gy r hr
    exact ⟨ky, kx, n', h1, h2, S'.readyX, S'.readyY, S'.dimsX, S'.dimsY, S'.ndim, S'.other, S'.staggerY, S'.staggerX⟩
  | sync x y =>
    obtain ⟨ky, kx, n', S⟩ := h
    have gx : ∀ r ∈ allRanks l, SameMeta (m r x) (m' r x) := fun r hr => hm r hr x (by simp [Op.qs])
    have gy : ∀ r ∈ allRanks l, SameMeta (m r y) (m' r y) := fun r hr => hm r hr y (by simp [Op.qs])
    have S' : SyncField l (fun r k => if k = 0 then m' r x else m' r y) 0 1 ky kx n' :=
      SyncField.same' (m := fun r k => if k = 0 then m r x else m r y)
        ⟨S.cells, S.lead, S.wfX, S.wfY, S.axesX, S.axesY, S.dimsX, S.dimsY, S.extX, S.extY, S.ndim, S.other⟩ fun r hr k => by
          split
          · exact gx r hr
          · exact gy r hr
    exact ⟨ky, kx, n', S'.cells, S'.lead, S'.wfX, S'.wfY, S'.axesX, S'.axesY, S'.dimsX, S'.dimsY, S'.extX, S'.extY, S'.ndim, S'.other⟩
  | wait i => trivial
  | compute f => trivial

omit [Neg α] in
/-- The quantities of a call, whatever memory contains. -/
theorem Held.any {sk : Skel} {qs : List Nat} (h : Held (sk.with fun _ => (default : α)) qs) {W : World α} (hW : skel W = sk) : Held W qs :=
  h.congr (congrArg Skel.arrs hW) (congrArg Skel.objs hW)

omit [Neg α] in
theorem HasAxes.any {sk : Skel} {h : Nat} (hx : HasAxes (sk.with fun _ => (default : α)) h) {W : World α} (hW : skel W = sk) : HasAxes W h :=
  (hasAxes_congr (W := sk.with fun _ => (default : α)) (congrArg Skel.arrs hW) (congrArg Skel.objs hW)).2 hx

theorem good_ready {l : Layout} {K : Nat} {calls : List (HCall α)} {sk : Int → Skel} {m0 : Int → FV3.Mem α}
    (hK : ∀ c ∈ calls, ∀ op, c.start = some op → K ∉ op.qs)
    (hw : ∀ r ∈ allRanks l, WFS g α (sk r)) (G : Good g l sk calls) (h0 : ∀ r ∈ allRanks l, MetaOf K (finalSk g sk calls r) (m0 r)) :
    ∀ d ∈ calls, ∀ op, d.start = some op → UpdateReady l m0 op := by
  induction calls generalizing sk with
  | nil => intro d hd; cases hd
  | cons c calls ih =>
    intro d hd op ho
    rcases List.mem_cons.1 hd with rfl | hd
    · have F := G.1 op ho
      refine updateReady_same F.ready fun r hr q hq => ?_
      exact MetaOf.first (calls := d :: calls) (hw r hr) (h0 r hr) q (fun e => hK d List.mem_cons_self op ho (e ▸ hq)) (F.axes r hr q hq)
    · exact ih (fun c hc => hK c (List.mem_cons_of_mem _ hc)) (fun r hr => (hw r hr).after c) G.2 h0 d hd op ho

omit [Neg α] in
/-- A rank with quantities as values, and one with memory, between calls. -/
structure RelF (K : Nat) (sk : Skel) (s : RankState α) (s' : HState α) : Prop where
  tag : s'.lastTag = s.lastTag
  reqs : s'.reqs = s.reqs
  skel : Heap.skel s'.world = sk
  mem : Full K s'.world s.mem

omit [Neg α] in
/-- The two programs do the same between calls. -/
def RefF (K : Nat) (sk sk' : Skel) {A : Type} (c : CommM α A) (c' : HM α A) : Prop :=
  ∀ s s', RelF K sk s s' → (c s).Mirror id (fun x y => y.1 = x.1 ∧
    match x.1 with
    | .ok _ => RelF K sk' x.2 y.2
    | .error _ => True) (c' s')

omit [Neg α] in
/-- A call, and then everything follows memory. -/
theorem RefF.comm {K : Nat} {qs : List Nat} (hK : K ∉ qs) {sk sk' : Skel} (H : Held (sk.with fun _ => (default : α)) qs)
    (A : ∀ h ∈ qs, HasAxes (sk.with fun _ => (default : α)) h) {P : Unit → Prop} {c : CommM α Unit} {c' : HM α Unit} (hc : Ref qs K sk sk P c c')
    {d d1 : CommM α Unit} {d' : HM α Unit} (hd : RefF K sk sk' d d')
    (h1 : ∀ s, d1 s = d { s with mem := computeOn g qs K sk [] s.mem }) :
    RefF K sk sk' (c >>= fun _ => d1) (c' >>= fun _ => d') := by
  intro s s' h
  refine Proc.Mirror.bind (hc s s' ⟨h.tag, h.reqs, h.skel, h.mem.mrel hK (H.any h.skel) fun k hk => (A k hk).any h.skel⟩) ?_
  rintro ⟨a, s1⟩ ⟨b, s2⟩ ⟨e1, e2⟩
  dsimp only at e1 e2
  subst e1
  cases b with
  | ok a =>
    obtain ⟨-, -, e2⟩ := e2
    show Proc.Mirror id _ (d1 s1) (d' s2)
    rw [h1]
    refine hd _ _ ⟨e2.tag, e2.reqs, e2.skel, ?_⟩
    have := e2.mem.compute (g := g) []
    rw [e2.skel] at this
    exact this
  | error e => exact .ret ⟨rfl, trivial⟩

theorem ref_calls {K : Nat} (l : Layout) {r : Int} (hr : r ∈ allRanks l) {calls : List (HCall α)} {sk : Int → Skel}
    (hK : ∀ c ∈ calls, ∀ op, c.start = some op → K ∉ op.qs) (hw : WFS g α (sk r)) (G : Good g l sk calls) :
    RefF K (sk r) (finalSk g sk calls r) (FV3.execCalls l r (toCalls g K sk calls)) (Heap.execCalls g l r calls) := by
  induction calls generalizing sk with
  | nil => exact fun s s' h => .ret ⟨rfl, h⟩
  | cons d calls ih =>
    have hK' : ∀ c ∈ calls, ∀ op, c.start = some op → K ∉ op.qs := fun c hc => hK c (List.mem_cons_of_mem _ hc)
    have hd := hK d List.mem_cons_self
    have hi := ih hK' (hw.after d) G.2
    cases d with
    | haloUpdate q n =>
      have F := G.1 _ rfl
      have k := hd _ rfl
      exact RefF.comm k (F.held r hr) (F.axes r hr) (Ref.haloUpdate k l r (by simp [Op.qs]) n) hi fun s => rfl
    | vectorHaloUpdate x y n =>
      have F := G.1 _ rfl
      have k := hd _ rfl
      exact RefF.comm k (F.held r hr) (F.axes r hr) (Ref.vectorHaloUpdate k l r (by simp [Op.qs]) (by simp [Op.qs]) n) hi fun s => rfl
    | synchronize x y =>
      have F := G.1 _ rfl
      have k := hd _ rfl
      exact RefF.comm k (F.held r hr) (F.axes r hr) (Ref.synchronize k l r (by simp [Op.qs]) (by simp [Op.qs])) hi fun s => rfl
    | compute ops =>
      intro s s' h
      refine hi { s with mem := computeOn g [] K (sk r) (ops r) s.mem } { s' with world := (s'.world.run g (ops r)).2 } ⟨h.tag, h.reqs, ?_, ?_⟩
      · have := run_skel (hw s'.world.mem) (ops r)
        rw [← h.skel] at this
        show skel (s'.world.run g (ops r)).2 = (sk r).run g (ops r)
        rw [← h.skel]
        exact this
      · have := h.mem.mrel0.compute (g := g) (ops r)
        rw [h.skel] at this
        exact this

/-- Storing what arrives: memory, and values. -/
theorem MRel.deliver {hs : List Nat} {K : Nat} (hK : K ∉ hs) {W : World α} {m m' : FV3.Mem α} (R : MRel hs K W m)
    {arr : Int → Nat → Option (NDArray α)} {Q : List Nat} {xs : List Incoming} (hq : ∀ x ∈ xs, x.q ∈ Q) (hQ : ∀ h ∈ Q, h ∈ hs)
    (hd : deliver arr xs m = .ok m') : ∃ W1, MRel hs K W1 m' ∧ OnlyCells (fun h _ => h ∈ Q) W W1 := by
  induction xs generalizing W m with
  | nil =>
    cases hd
    exact ⟨W, R, rfl, rfl, rfl, fun a => .inl rfl⟩
  | cons x xs ih =>
    unfold FV3.deliver at hd
    split at hd
    · cases hd
    next a ha =>
    obtain ⟨m1, h1, h2⟩ := bind_ok hd
    have hx := hq x List.mem_cons_self
    rcases R.fill hK (hQ _ hx) x.ix a with ⟨e, he, -⟩ | ⟨m2, W1, k1, -, k3, k4⟩
    · rw [h1] at he; cases he
    · rw [h1] at k1
      cases k1
      obtain ⟨W2, r1, r2⟩ := ih k3 (fun y hy => hq y (List.mem_cons_of_mem _ hy)) h2
      refine ⟨W2, r1, r2.next.trans k4.next, r2.arrs.trans k4.arrs, r2.objs.trans k4.objs, fun b => ?_⟩
      rcases r2.mem b with e | ⟨h, idx, p1, p2⟩
      · rcases k4.mem b with e' | ⟨h, idx, p1, p2⟩
        · exact .inl (e.trans e')
        · exact .inr ⟨h, idx, p1 ▸ hx, p2⟩
      · exact .inr ⟨h, idx, p1, (cell_congr k4.arrs k4.objs).1 p2⟩

/-- An update. -/
theorem comm_step {l : Layout} {hs : List Nat} {K : Nat} (hK : K ∉ hs) {W : Int → World α} {m m1 : Int → FV3.Mem α} {op : Op α}
    (R : ∀ r ∈ allRanks l, MRel hs K (W r) (m r)) (hv : ∀ h ∈ op.qs, h ∈ hs) (hu : UpdateStep l op m m1) :
    ∃ W1, CommStep l op W W1 ∧ ∀ r ∈ allRanks l, MRel hs K (W1 r) (m1 r) ∧ skel (W1 r) = skel (W r) := by
  have agree : ∀ r ∈ allRanks l, ∀ q ∈ op.qs, quantities (W r) q = m r q := fun r hr q hq => ((R r hr).vals q (hv q hq)).symm
  have packed : ∀ r, ∀ src off, packedFor l op (fun r => quantities (W r)) r src off = packedFor l op m r src off := by
    intro r src off
    unfold packedFor
    split
    · next hs => rw [out_congr (agree src hs)]
    · rfl
  have key : ∀ r, ∃ W1, r ∈ allRanks l → MRel hs K W1 (m1 r) ∧ OnlyCells (fun h _ => h ∈ op.qs) (W r) W1 := by
    intro r
    by_cases hr : r ∈ allRanks l
    · obtain ⟨-, i, hi, hd⟩ := hu r hr
      obtain ⟨W1, h⟩ := (R r hr).deliver hK (inn_qs hi) hv hd
      exact ⟨W1, fun _ => h⟩
    · exact ⟨W r, fun h => absurd h hr⟩
  choose W1 hW1 using key
  have key' : ∀ r, ∃ m', r ∈ allRanks l → (∃ i, op.inn l r (quantities (W r)) = .ok i ∧
      deliver (packedFor l op (fun r => quantities (W r)) r) i (quantities (W r)) = .ok m') ∧ ∀ q ∈ op.qs, m' q = m1 r q := by
    intro r
    by_cases hr : r ∈ allRanks l
    · obtain ⟨-, i, hi, hd⟩ := hu r hr
      obtain ⟨m2, d1, d2, -⟩ := deliver_local (inn_qs hi) hd (agree r hr)
      refine ⟨m2, fun _ => ⟨⟨i, by rw [inn_congr (agree r hr)]; exact hi, ?_⟩, d2⟩⟩
      rw [deliver_congr (packed r)]
      exact d1
    · exact ⟨m r, fun h => absurd h hr⟩
  choose m' hm' using key'
  refine ⟨W1, ⟨m', fun r hr => ⟨?_, (hm' r hr).1⟩, fun r hr => ⟨fun h hh => ?_, (hW1 r hr).2⟩⟩, fun r hr => ⟨(hW1 r hr).1, ?_⟩⟩
  · obtain ⟨⟨o, ho⟩, -⟩ := hu r hr
    exact ⟨o, by rw [out_congr (agree r hr)]; exact ho⟩
  · rw [(hm' r hr).2 h hh, (hW1 r hr).1.vals h (hv h hh)]
  · have := (hW1 r hr).2
    unfold skel
    rw [this.next, this.arrs, this.objs]

theorem hrun_of {l : Layout} {K : Nat} {calls : List (HCall α)} {W : Int → World α} {m m' : Int → FV3.Mem α} {sk : Int → Skel}
    (hK : ∀ c ∈ calls, ∀ op, c.start = some op → K ∉ op.qs) (hw : ∀ r ∈ allRanks l, WFS g α (sk r)) (G : Good g l sk calls)
    (R : ∀ r ∈ allRanks l, Full K (W r) (m r)) (hsk : ∀ r ∈ allRanks l, skel (W r) = sk r)
    (hc : CallsRun l (toCalls g K sk calls) m m') :
    ∃ W', HRun g l calls W W' ∧ ∀ r ∈ allRanks l, Full K (W' r) (m' r) ∧ skel (W' r) = finalSk g sk calls r := by
  induction calls generalizing W m sk with
  | nil => exact ⟨W, fun r hr => rfl, fun r hr => ⟨by rw [hc r hr]; exact R r hr, hsk r hr⟩⟩
  | cons d calls ih =>
    have hK' : ∀ c ∈ calls, ∀ op, c.start = some op → K ∉ op.qs := fun c hc => hK c (List.mem_cons_of_mem _ hc)
    have comm : ∀ {op : Op α} {m1 m2 : Int → FV3.Mem α}, K ∉ op.qs → Fit l α sk op → UpdateStep l op m m1 →
        (∀ r ∈ allRanks l, m2 r = computeOn g op.qs K (sk r) [] (m1 r)) → Good g l sk calls →
        CallsRun l (toCalls g K sk calls) m2 m' →
        ∃ W' W1, CommStep l op W W1 ∧ HRun g l calls W1 W' ∧
          ∀ r ∈ allRanks l, Full K (W' r) (m' r) ∧ skel (W' r) = finalSk g sk calls r := by
      intro op m1 m2 hq F hu h2 G' hc
      obtain ⟨W1, a1, a2⟩ := comm_step hq (fun r hr => (R r hr).mrel hq ((F.held r hr).any (hsk r hr)) fun k hk => (F.axes r hr k hk).any (hsk r hr))
        (fun _ h => h) hu
      obtain ⟨W', b1, b2⟩ := ih (W := W1) hK' hw G' (fun r h => by
          have := (a2 r h).1.compute (g := g) []
          rw [(a2 r h).2, hsk r h] at this
          rw [h2 r h]
          exact this)
        (fun r h => by rw [(a2 r h).2]; exact hsk r h) hc
      exact ⟨W', W1, a1, b1, b2⟩
    cases d with
    | haloUpdate q n =>
      obtain ⟨m1, h1, m2, h2, h3⟩ := hc
      obtain ⟨W', W1, c1, c2, c3⟩ := comm (hK _ List.mem_cons_self _ rfl) (G.1 _ rfl) h1 h2 G.2 h3
      exact ⟨W', ⟨W1, c1, c2⟩, c3⟩
    | vectorHaloUpdate x y n =>
      obtain ⟨m1, h1, m2, h2, h3⟩ := hc
      obtain ⟨W', W1, c1, c2, c3⟩ := comm (hK _ List.mem_cons_self _ rfl) (G.1 _ rfl) h1 h2 G.2 h3
      exact ⟨W', ⟨W1, c1, c2⟩, c3⟩
    | synchronize x y =>
      obtain ⟨m1, h1, m2, h2, h3⟩ := hc
      obtain ⟨W', W1, c1, c2, c3⟩ := comm (hK _ List.mem_cons_self _ rfl) (G.1 _ rfl) h1 h2 G.2 h3
      exact ⟨W', ⟨W1, c1, c2⟩, c3⟩
    | compute ops =>
      obtain ⟨m1, h1, h2⟩ := hc
      obtain ⟨W', b1, b2⟩ := ih (W := fun r => (W r).after g (ops r)) (m := m1) (sk := fun r => (sk r).run g (ops r)) hK'
        (fun r h => (hw r h).run _) G.2
        (fun r h => by
          rw [show m1 r = _ from h1 r h]
          have := (R r h).mrel0.compute (g := g) (ops r)
          rw [hsk r h] at this
          exact this)
        (fun r h => by
          have := run_skel (hw r h (W r).mem) (ops r)
          rw [← hsk r h] at this
          show skel ((W r).run g (ops r)).2 = (sk r).run g (ops r)
          rw [← hsk r h]
          exact this) h2
      exact ⟨W', ⟨_, fun r _ => rfl, b1⟩, b2⟩

omit [Neg α] in
/-- The values determine the memory. -/
theorem Full.unique {K : Nat} {W W1 : World α} {m : FV3.Mem α} (F : Full K W m) (F1 : Full K W1 m) (hs : skel W1 = skel W) : W1 = W :=
  F.mrel0.unique F1.mrel0 (congrArg Skel.next hs) (congrArg Skel.arrs hs) (congrArg Skel.objs hs)

end
end Heap
end FV3
