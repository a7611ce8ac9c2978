import Verif.Props.Strided
import Verif.Spec.Memory
import Mathlib.Algebra.BigOperators.Group.List.Basic

/-!
# The memory model refines the specification
-/

namespace FV3
namespace Mem
open Strided
variable {α : Type}

/-! ### Transposed views -/

theorem getD_lt {β : Type} (l : List β) (d : β) {k : Nat} (h : k < l.length) : l.getD k d = l[k] := by
  rw [List.getD_eq_getElem?_getD, List.getElem?_eq_getElem h]
  rfl

theorem dot_sum {ss : List Int} {is : List Nat} (h : is.length = ss.length) :
    dot ss is = ((List.range ss.length).map fun k => ss.getD k 0 * (is.getD k 0 : Int)).sum := by
  induction ss generalizing is with
  | nil => cases is <;> rfl
  | cons s ss ih =>
    cases is with
    | nil => simp at h
    | cons i is =>
      rw [List.length_cons, List.range_succ_eq_map]
      simp only [List.map_cons, List.map_map, List.sum_cons, dot]
      rw [ih (by simpa using h)]
      rfl

theorem map_range_getD {β : Type} (l : List β) (d : β) : ((List.range l.length).map fun k => l.getD k d) = l := by
  apply List.ext_getElem
  · simp
  · intro k h1 h2
    simp only [List.getElem_map, List.getElem_range]
    rw [getD_lt _ _ h2]

theorem sum_perm {perm : List Nat} {n : Nat} (hp : perm.Perm (List.range n)) (f : Nat → Nat → Int) :
    ((List.range n).map fun j => f (perm.getD j 0) j).sum = ((List.range n).map fun k => f k (perm.idxOf k)).sum := by
  have hl : perm.length = n := by simpa using hp.length_eq
  have hnd : perm.Nodup := hp.nodup_iff.2 List.nodup_range
  rw [← (hp.map fun k => f k (perm.idxOf k)).sum_eq]
  congr 1
  conv_rhs => rw [← map_range_getD perm 0, hl]
  rw [List.map_map]
  apply List.map_congr_left
  intro j hj
  have hj' : j < perm.length := by rw [hl]; exact List.mem_range.1 hj
  simp only [Function.comp]
  congr 1
  conv_rhs => rw [← hl, map_range_getD perm 0]
  rw [getD_lt _ _ hj', List.Nodup.idxOf_getElem hnd j hj']

theorem dot_transpose {perm : List Nat} {ss : List Int} (hp : perm.Perm (List.range ss.length)) {idx : List Nat}
    (hi : idx.length = ss.length) :
    dot (perm.map fun k => ss.getD k 0) idx = dot ss ((List.range perm.length).map fun k => idx.getD (perm.idxOf k) 0) := by
  have hl : perm.length = ss.length := by simpa using hp.length_eq
  rw [dot_sum (by simpa [hl] using hi), dot_sum (by simp [hl])]
  rw [List.length_map, hl]
  have := sum_perm hp fun k j => ss.getD k 0 * (idx.getD j 0 : Int)
  refine Eq.trans ?_ (this.trans ?_)
  · congr 1
    apply List.map_congr_left
    intro j hj
    have hj' : j < perm.length := by rw [hl]; exact List.mem_range.1 hj
    congr 1
    rw [getD_lt _ _ (by simpa using hj'), List.getElem_map, getD_lt perm _ hj']
  · congr 1
    apply List.map_congr_left
    intro k hk
    have hk' : k < ss.length := List.mem_range.1 hk
    congr 2
    rw [getD_lt ((List.range ss.length).map _) _ (by simpa using hk'), List.getElem_map, List.getElem_range]

theorem tr_inB {perm s : List Nat} (hp : perm.Perm (List.range s.length)) {idx : List Nat}
    (hi : InB (perm.map fun k => s.getD k 0) idx) :
    InB s ((List.range perm.length).map fun k => idx.getD (perm.idxOf k) 0) := by
  have hl : perm.length = s.length := by simpa using hp.length_eq
  obtain ⟨h1, h2⟩ := (inB_iff _ _).1 hi
  rw [inB_iff]
  refine ⟨by simp [hl], fun k hk => ?_⟩
  have hm : k ∈ perm := hp.mem_iff.2 (List.mem_range.2 hk)
  have hlt : perm.idxOf k < perm.length := List.idxOf_lt_length_iff.2 hm
  have := h2 (perm.idxOf k) (by simpa using hlt)
  rw [getD_lt (perm.map _) _ (by simpa using hlt), List.getElem_map, List.getElem_idxOf] at this
  rw [getD_lt _ _ (by simpa [hl] using hk), List.getElem_map, List.getElem_range]
  exact this

theorem tr_inj {perm s : List Nat} (hp : perm.Perm (List.range s.length)) {idx idx' : List Nat}
    (hi : InB (perm.map fun k => s.getD k 0) idx) (hi' : InB (perm.map fun k => s.getD k 0) idx')
    (e : ((List.range perm.length).map fun k => idx.getD (perm.idxOf k) 0) =
      (List.range perm.length).map fun k => idx'.getD (perm.idxOf k) 0) : idx = idx' := by
  have hl : perm.length = s.length := by simpa using hp.length_eq
  have hnd : perm.Nodup := hp.nodup_iff.2 List.nodup_range
  have l1 := ((inB_iff _ _).1 hi).1
  have l2 := ((inB_iff _ _).1 hi').1
  rw [List.length_map] at l1 l2
  apply List.ext_getElem (by omega)
  intro j h1 h2
  have hj : j < perm.length := by omega
  have hk : perm[j] < perm.length := by
    have : perm[j] ∈ List.range s.length := hp.mem_iff.1 (List.getElem_mem hj)
    rw [hl]; exact List.mem_range.1 this
  have := congrArg (fun l : List Nat => l.getD perm[j] 0) e
  beta_reduce at this
  rw [getD_lt _ _ (by simpa using hk), getD_lt _ _ (by simpa using hk), List.getElem_map,
    List.getElem_map, List.getElem_range, List.Nodup.idxOf_getElem hnd j hj,
    getD_lt _ _ h1, getD_lt _ _ h2] at this
  exact this

/-! ### The simulation -/

/-- An array of the model and a window of the specification; `bv` says where the blocks are. -/
structure ArrR (count : Nat) (bv : Nat → View) (a : Arr) (w : Window) : Prop where
  gpu : a.gpu = w.gpu
  wr : a.writeable = w.writeable
  shape : a.view.shape = w.shape
  strides : a.view.strides.length = a.view.shape.length
  block : w.block < count
  place : ∀ idx, InB w.shape idx → InB (bv w.block).shape (w.place idx) ∧ a.view.addr idx = (bv w.block).addr (w.place idx)
  inj : ∀ idx idx', InB w.shape idx → InB w.shape idx' → w.place idx = w.place idx' → idx = idx'

/-- Variables. -/
inductive ObjR (g : Gt4py) : Obj → SObj → Prop where
  | array (i : Nat) : ObjR g (.array i) (.array i)
  | storage (i : Nat) (b : String) : ObjR g (.storage i b (g.kind b)) (.storage i b)
  | quantity (d : Nat) (s : Option Nat) (i : Info) : ObjR g (.quantity ⟨d, s, d, i⟩) (.quantity d s i)

/-- A block. -/
structure BlkR (mem : Int → α) (next : Int) (v : View) (b : NDArray α) : Prop where
  shape : v.shape = b.shape
  inj : v.Injective
  below : ∀ a, v.Has a → a < next
  val : ∀ idx, InB b.shape idx → mem (v.addr idx) = b.get idx

structure Sim (g : Gt4py) (bv : Nat → View) (W : World α) (S : SWorld α) : Prop where
  blk : ∀ i, i < S.count → BlkR W.mem W.next (bv i) (S.blocks i)
  dis : ∀ i j, i < S.count → j < S.count → i ≠ j → ∀ a, (bv i).Has a → ¬ (bv j).Has a
  arr : List.Forall₂ (ArrR S.count bv) W.arrs S.wins
  obj : List.Forall₂ (ObjR g) W.objs S.objs

theorem ArrR.part {count : Nat} {bv : Nat → View} {a : Arr} {w : Window} (h : ArrR count bv a w) {ix : List Ix}
    {rs : List RIx} (hr : resolveAll ix w.shape = .ok rs) :
    ArrR count bv { a with view := a.view.slice rs } (w.part rs) := by
  rw [← h.shape] at hr
  have hok := resolveAll_ok hr
  have hin : ∀ idx, InB (w.part rs).shape idx → InB w.shape (viewIdx rs idx) := fun idx hi => h.shape ▸ viewIdx_inB hok hi
  refine ⟨h.gpu, h.wr, rfl, length_sliceStrides hok h.strides, h.block, fun idx hi => ⟨(h.place _ (hin idx hi)).1, ?_⟩, ?_⟩
  · show _ = (bv w.block).addr (w.place (viewIdx rs idx))
    rw [← (h.place _ (hin idx hi)).2]
    show a.view.offset + sliceStart rs a.view.strides + dot (sliceStrides rs a.view.strides) idx =
      a.view.offset + dot a.view.strides (viewIdx rs idx)
    rw [dot_view hok h.strides hi]
    omega
  · intro idx idx' hi hi' e
    exact viewIdx_inj hok hi hi' (h.inj _ _ (hin _ hi) (hin _ hi') e)

theorem ArrR.transpose {count : Nat} {bv : Nat → View} {a : Arr} {w : Window} (h : ArrR count bv a w) {perm : List Nat}
    (hp : perm.Perm (List.range w.shape.length)) :
    ArrR count bv { a with view := transposeView perm a.view } (w.transpose perm) := by
  refine ⟨h.gpu, h.wr, ?_, by simp [transposeView], h.block, fun idx hi => ⟨(h.place _ (tr_inB hp hi)).1, ?_⟩, ?_⟩
  · show perm.map _ = perm.map _
    rw [h.shape]
  · show _ = (bv w.block).addr (w.place _)
    rw [← (h.place _ (tr_inB hp hi)).2]
    show a.view.offset + _ = a.view.offset + _
    congr 1
    refine dot_transpose (by rw [h.strides, h.shape]; exact hp) ?_
    have := ((inB_iff _ _).1 hi).1
    rw [this, h.strides, h.shape]
    show (perm.map _).length = _
    rw [List.length_map]
    simpa using hp.length_eq
  · intro idx idx' hi hi' e
    exact tr_inj hp hi hi' (h.inj _ _ (tr_inB hp hi) (tr_inB hp hi') e)

theorem ArrR.readonly {count : Nat} {bv : Nat → View} {a : Arr} {w : Window} (h : ArrR count bv a w) :
    ArrR count bv { a with writeable := false } { w with writeable := false } :=
  ⟨h.gpu, rfl, h.shape, h.strides, h.block, h.place, h.inj⟩

theorem ArrR.injective {g : Gt4py} {bv : Nat → View} {W : World α} {S : SWorld α} (hs : Sim g bv W S) {a : Arr} {w : Window}
    (h : ArrR S.count bv a w) : a.view.Injective := by
  intro i j hi hj e
  rw [h.shape] at hi hj
  rw [(h.place i hi).2, (h.place j hj).2] at e
  exact h.inj _ _ hi hj ((hs.blk _ h.block).inj _ _ (h.place i hi).1 (h.place j hj).1 e)

theorem Sim.read {g : Gt4py} {bv : Nat → View} {W : World α} {S : SWorld α} (hs : Sim g bv W S) {a : Arr} {w : Window}
    (h : ArrR S.count bv a w) : (a.view.read W.mem).Eqv (S.look w) := by
  refine ⟨h.shape, fun idx hi => ?_⟩
  have hi' : InB w.shape idx := by rw [← h.shape]; exact hi
  show W.mem (a.view.addr idx) = (S.blocks w.block).get (w.place idx)
  rw [(h.place idx hi').2]
  refine (hs.blk _ h.block).val _ ?_
  rw [← (hs.blk _ h.block).shape]
  exact (h.place idx hi').1

/-- New memory. -/
theorem Sim.alloc {g : Gt4py} {bv : Nat → View} {W : World α} {S : SWorld α} (hs : Sim g bv W S) {v : View} {room : Nat}
    {x y : NDArray α} (hxy : x.Eqv y) (hv : v.shape = x.shape) (hinj : v.Injective)
    (hin : ∀ a, v.Has a → W.next ≤ a ∧ a < W.next + room) :
    Sim g (fun i => if i = S.count then v else bv i) (W.alloc v room x) (S.newBlock y) := by
  have hold : ∀ i, i < S.count → ∀ a, (bv i).Has a → ¬ v.Has a := by
    intro i hi a ha hv
    have := (hs.blk i hi).below a ha
    have := hin a hv
    omega
  have hne : ∀ i, i < S.count → (if i = S.count then v else bv i) = bv i := fun i hi => if_neg (by omega)
  have hlt : ∀ i, i < S.count + 1 → i ≠ S.count → i < S.count := fun i _ _ => by omega
  refine ⟨fun i hi => ?_, fun i j hi hj hij a ha => ?_, ?_, hs.obj⟩
  · by_cases h : i = S.count
    · subst h
      show BlkR _ _ (if S.count = S.count then v else bv _) (if S.count = S.count then y else _)
      rw [if_pos rfl, if_pos rfl]
      refine ⟨hv.trans hxy.1, hinj, fun a ha => (hin a ha).2, fun idx hi => ?_⟩
      rw [← hxy.1] at hi
      show v.assign W.mem x (v.addr idx) = _
      rw [assign_get hinj _ _ (by rw [hv]; exact hi)]
      exact hxy.2 idx hi
    · have hi' := hlt i hi h
      show BlkR _ _ (if i = S.count then v else bv i) (if i = S.count then y else S.blocks i)
      rw [if_neg h, if_neg h]
      have hb := hs.blk i hi'
      refine ⟨hb.shape, hb.inj, fun a ha => ?_, fun idx hi2 => ?_⟩
      · have := hb.below a ha
        show a < W.next + room
        omega
      · show v.assign W.mem x _ = _
        rw [assign_other _ _ (hold i hi' _ ⟨idx, by rw [hb.shape]; exact hi2, rfl⟩)]
        exact hb.val idx hi2
  · by_cases h : i = S.count
    · subst h
      have hj' := hlt j hj (Ne.symm hij)
      simp only [if_true] at ha
      simp only [hne j hj']
      exact fun hc => hold j hj' a hc ha
    · have hi' := hlt i hi h
      simp only [hne i hi'] at ha
      by_cases h2 : j = S.count
      · subst h2
        simp only [if_true]
        exact hold i hi' a ha
      · have hj' := hlt j hj h2
        simp only [hne j hj']
        exact hs.dis i j hi' hj' hij a ha
  · refine hs.arr.imp fun a w h => ?_
    have := h.block
    refine ⟨h.gpu, h.wr, h.shape, h.strides, Nat.lt_succ_of_lt h.block, ?_, h.inj⟩
    rw [hne _ h.block]
    exact h.place

/-- A write through a window. -/
theorem Sim.write {g : Gt4py} {bv : Nat → View} {W : World α} {S : SWorld α} (hs : Sim g bv W S) {a : Arr} {w : Window}
    (h : ArrR S.count bv a w) (x : NDArray α) :
    Sim g bv { W with mem := a.view.assign W.mem x } (S.write w x) := by
  have hinj := h.injective hs
  refine ⟨fun i hi => ?_, hs.dis, hs.arr, hs.obj⟩
  have hb := hs.blk i hi
  by_cases hw : i = w.block
  · subst hw
    show BlkR _ _ _ (if w.block = w.block then w.write (S.blocks w.block) x else _)
    rw [if_pos rfl]
    refine ⟨hb.shape, hb.inj, hb.below, fun idx hidx => ?_⟩
    show a.view.assign W.mem x _ = match (allIdx w.shape).find? fun j => w.place j == idx with
      | some j => x.get j
      | none => (S.blocks w.block).get idx
    cases hf : (allIdx w.shape).find? fun j => w.place j == idx with
    | some j =>
      have hj : InB w.shape j := (mem_allIdx _ _).1 (List.mem_of_find?_eq_some hf)
      have he : w.place j = idx := by simpa using List.find?_some hf
      rw [← he, ← (h.place j hj).2]
      exact assign_get hinj _ _ (by rw [h.shape]; exact hj)
    | none =>
      simp only
      rw [assign_other _ _ ?_]
      · exact hb.val idx hidx
      · rintro ⟨j, hj, e⟩
        rw [h.shape] at hj
        rw [(h.place j hj).2] at e
        have := hb.inj _ _ (h.place j hj).1 (by rw [hb.shape]; exact hidx) e
        rw [List.find?_eq_none] at hf
        exact hf j ((mem_allIdx _ _).2 hj) (by simpa using this)
  · show BlkR _ _ _ (if i = w.block then _ else S.blocks i)
    rw [if_neg hw]
    refine ⟨hb.shape, hb.inj, hb.below, fun idx hidx => ?_⟩
    show a.view.assign W.mem x _ = _
    rw [assign_other _ _ ?_]
    · exact hb.val idx hidx
    · rintro ⟨j, hj, e⟩
      rw [h.shape] at hj
      rw [(h.place j hj).2] at e
      exact hs.dis i w.block hi h.block hw _ ⟨idx, by rw [hb.shape]; exact hidx, rfl⟩ ⟨_, (h.place j hj).1, e⟩

theorem forall₂_snoc {β γ : Type} {R : β → γ → Prop} {l : List β} {m : List γ} (h : List.Forall₂ R l m) {x : β} {y : γ}
    (hxy : R x y) : List.Forall₂ R (l ++ [x]) (m ++ [y]) := by
  induction h with
  | nil => exact .cons hxy .nil
  | cons h0 _ ih => exact .cons h0 ih

theorem forall₂_set {β γ : Type} {R : β → γ → Prop} {l : List β} {m : List γ} (h : List.Forall₂ R l m) (i : Nat) {x : β} {y : γ}
    (hxy : R x y) : List.Forall₂ R (l.set i x) (m.set i y) := by
  induction h generalizing i with
  | nil => exact .nil
  | cons h0 h1 ih =>
    cases i with
    | zero => exact .cons hxy h1
    | succ i => exact .cons h0 (ih i)

theorem forall₂_get {β γ : Type} {R : β → γ → Prop} {l : List β} {m : List γ} (h : List.Forall₂ R l m) (i : Nat) :
    (l[i]? = none ∧ m[i]? = none) ∨ ∃ x y, l[i]? = some x ∧ m[i]? = some y ∧ R x y := by
  induction h generalizing i with
  | nil => left; simp
  | cons h0 _ ih =>
    cases i with
    | zero => right; exact ⟨_, _, rfl, rfl, h0⟩
    | succ i => simpa using ih i

section
variable {g : Gt4py} {bv : Nat → View} {W : World α} {S : SWorld α}

theorem Sim.add (hs : Sim g bv W S) {o : Obj} {s : SObj} (h : ObjR g o s) : Sim g bv (W.add o) (S.add s) :=
  ⟨hs.blk, hs.dis, hs.arr, forall₂_snoc hs.obj h⟩

theorem Sim.newArr (hs : Sim g bv W S) {a : Arr} {w : Window} (h : ArrR S.count bv a w) :
    Sim g bv (W.newArr a) (S.newWin w) :=
  ⟨hs.blk, hs.dis, forall₂_snoc hs.arr h, hs.obj⟩

theorem Sim.lenArr (hs : Sim g bv W S) : W.arrs.length = S.wins.length := hs.arr.length_eq
theorem Sim.lenObj (hs : Sim g bv W S) : W.objs.length = S.objs.length := hs.obj.length_eq

/-- The two results are the same, and the worlds still correspond. -/
def StepR (g : Gt4py) (p : Py Unit × World α) (q : Py Unit × SWorld α) : Prop :=
  p.1 = q.1 ∧ ∃ bv, Sim g bv p.2 q.2

theorem StepR.mk' (hs : Sim g bv W S) (r : Py Unit) : StepR g (r, W) (r, S) := ⟨rfl, bv, hs⟩

theorem whole_arrR {count : Nat} {v : View} {shape : List Nat} {gpu : Bool} (hv : v.shape = shape)
    (hl : v.strides.length = v.shape.length) :
    ArrR (count + 1) (fun i => if i = count then v else bv i) ⟨v, gpu, true⟩ (.whole count shape gpu) := by
  refine ⟨rfl, rfl, hv, hl, Nat.lt_succ_self _, fun idx hi => ?_, fun _ _ _ _ e => e⟩
  show InB (if count = count then v else _).shape idx ∧ v.addr idx = (if count = count then v else _).addr idx
  rw [if_pos rfl]
  exact ⟨by rw [hv]; exact hi, rfl⟩

theorem gview_inj (b : String) (base : Int) (s : List Nat) : (g.view b base s).Injective := by
  intro i j hi hj e
  refine g.inj b s i j hi hj ?_
  have : base + (g.start b s : Int) + dot (g.strides b s) i = base + (g.start b s : Int) + dot (g.strides b s) j := e
  omega

theorem gview_has (b : String) (base : Int) (s : List Nat) {a : Int} (h : (g.view b base s).Has a) :
    base ≤ a ∧ a < base + g.room b s := by
  obtain ⟨idx, hi, rfl⟩ := h
  have := g.within b s idx hi
  show base ≤ base + (g.start b s : Int) + dot (g.strides b s) idx ∧ base + (g.start b s : Int) + dot (g.strides b s) idx < _
  omega

theorem step_finish (hs : Sim g bv W S) (shape : List Nat) (d : Nat) (st : Option Nat) (dims : List Dim)
    (units : String) (origin extent : Option (List Int)) (backend : Option String) :
    StepR g (W.finishInit shape d st dims units origin extent backend) (S.finish shape d st dims units origin extent backend) := by
  unfold World.finishInit SWorld.finish SWorld.after
  cases Quantity.mk? (⟨shape, fun _ => ()⟩ : NDArray Unit) dims units origin extent with
  | error e => exact .mk' hs _
  | ok q => exact .mk' (hs.add (.quantity d st _)) _

theorem step_ofArray (hs : Sim g bv W S) (i : Nat) (dims : List Dim) (units : String)
    (origin extent : Option (List Int)) (backend : Option String) :
    StepR g (W.quantityOfArray g i dims units origin extent backend) (S.ofArray g i dims units origin extent backend) := by
  unfold World.quantityOfArray SWorld.ofArray SWorld.after SWorld.win
  rcases forall₂_get hs.arr i with ⟨h1, h2⟩ | ⟨a, w, h1, h2, h⟩
  · rw [h1, h2]
    exact .mk' hs _
  · rw [h1, h2]
    simp only
    cases backend with
    | none =>
      rw [h.shape]
      exact step_finish hs _ _ _ _ _ _ _ _
    | some b =>
      simp only
      have hal := hs.alloc (v := g.view b W.next a.view.shape) (room := g.room b a.view.shape) (hs.read h) rfl
        (gview_inj _ _ _) fun _ => gview_has _ _ _
      have hw : ∀ gpu, ArrR (S.count + 1) (fun i => if i = S.count then g.view b W.next a.view.shape else bv i)
          ⟨g.view b W.next a.view.shape, gpu, true⟩ (.whole S.count w.shape gpu) :=
        fun gpu => whole_arrR h.shape (g.axes _ _)
      have key : ∀ gpu, Sim g (fun i => if i = S.count then g.view b W.next a.view.shape else bv i)
          (((W.alloc (g.view b W.next a.view.shape) (g.room b a.view.shape) (a.view.read W.mem)).newArr
            ⟨g.view b W.next a.view.shape, gpu, true⟩).newArr ⟨g.view b W.next a.view.shape, gpu, true⟩)
          (((S.newBlock (S.look w)).newWin (.whole S.count w.shape gpu)).newWin (.whole S.count w.shape gpu)) :=
        fun gpu => (hal.newArr (hw gpu)).newArr (hw gpu)
      unfold World.initStorage
      cases hk : g.kind b with
      | other =>
        simp only [if_true]
        exact .mk' hal _
      | cpu =>
        simp only
        rw [if_neg (by decide), h.shape, hs.lenArr, ← h.shape]
        have := key false
        rw [h.shape] at this ⊢
        exact step_finish this _ _ _ _ _ _ _ _
      | gpu =>
        simp only
        rw [if_neg (by decide), h.shape, hs.lenArr]
        have := key true
        rw [h.shape] at this
        exact step_finish this _ _ _ _ _ _ _ _

theorem ObjR.info {o : Obj} {s : SObj} (h : ObjR g o s) : o.info = s.info := by
  cases h <;> rfl

theorem ObjR.target {o : Obj} {s : SObj} (h : ObjR g o s) (via : Via) : o.target via = s.target via := by
  cases h with
  | array i => cases via <;> rfl
  | storage i b => cases via <;> rfl
  | quantity d st i => cases via <;> first | rfl | (cases st <;> rfl)

theorem select_eq {a : Arr} {w : Window} (hsh : a.view.shape = w.shape) (info : Option Info) (via : Via) (ix : List Ix) :
    (∃ e, viaIndex info a.view.shape via ix = .error e ∧ w.select info via ix = .error e) ∨
    (∃ ix', viaIndex info a.view.shape via ix = .ok ix' ∧
      ((∃ e, resolveAll ix' a.view.shape = .error e ∧ w.select info via ix = .error e) ∨
       ∃ rs, resolveAll ix' a.view.shape = .ok rs ∧ w.select info via ix = .ok (w.part rs))) := by
  unfold Window.select
  rw [hsh]
  cases h1 : viaIndex info w.shape via ix with
  | error e => left; exact ⟨e, rfl, rfl⟩
  | ok ix' =>
    right
    refine ⟨ix', rfl, ?_⟩
    cases h2 : resolveAll ix' w.shape with
    | error e => left; exact ⟨e, rfl, by simp only [bind, Except.bind, h2]⟩
    | ok rs => right; exact ⟨rs, rfl, by simp only [bind, Except.bind, h2, pure, Except.pure]⟩

theorem getItem_sim (hs : Sim g bv W S) {o : Obj} {s : SObj} (ho : ObjR g o s) (via : Via) (ix : List Ix) :
    StepR g (W.getItem o via ix)
      (if zeroDim s.info via = true then
        if ix = [] then S.after (s.target via) fun i => (.ok (), S.add (.array i)) else (.error .indexError, S)
      else
        S.after (s.target via >>= S.win) fun w => S.after (w.select s.info via ix) fun p =>
          if p.gpu = false ∧ p.shape = [] then (.ok (), S) else (.ok (), (S.newWin p).add (.array S.wins.length))) := by
  unfold World.getItem World.access World.index
  rw [ho.info, ho.target]
  by_cases hz : zeroDim s.info via = true
  · rw [if_pos hz, if_pos hz]
    by_cases hix : ix = []
    · rw [if_pos hix, if_pos hix]
      cases s.target via with
      | error e => exact .mk' hs _
      | ok i => exact .mk' (hs.add (.array i)) _
    · rw [if_neg hix, if_neg hix]
      exact .mk' hs _
  · rw [if_neg hz, if_neg hz]
    cases s.target via with
    | error e => exact .mk' hs _
    | ok i =>
      simp only [bind, Except.bind, SWorld.after, SWorld.win]
      rcases forall₂_get hs.arr i with ⟨h1, h2⟩ | ⟨a, w, h1, h2, h⟩
      · rw [h1, h2]
        exact .mk' hs _
      · rw [h1, h2]
        simp only
        rcases select_eq h.shape s.info via ix with ⟨e, e1, e2⟩ | ⟨ix', e1, ⟨e, e2, e3⟩ | ⟨rs, e2, e3⟩⟩
        · rw [e1, e2]
          exact .mk' hs _
        · rw [e1, e3]
          simp only [h1, e2]
          exact .mk' hs _
        · rw [e1, e3]
          simp only [h1, e2]
          have hp := h.part (h.shape ▸ e2)
          have hg : (w.part rs).gpu = a.gpu := h.gpu.symm
          have hsh : (w.part rs).shape = viewShape rs := rfl
          rw [hg, hsh]
          split
          · exact .mk' hs _
          · rw [hs.lenArr]
            exact .mk' ((hs.newArr hp).add (.array _)) _

theorem nil_of_beq {l : List Int} : (l.length = 0) ↔ l = [] := List.length_eq_zero_iff

theorem perm_iff {order : List Nat} {n : Nat} :
    (order.length = n ∧ order.Nodup ∧ ∀ k ∈ order, k < n) ↔ order.Perm (List.range n) := by
  constructor
  · rintro ⟨h1, h2, h3⟩
    refine List.Subperm.perm_of_length_le ?_ (by simp [h1])
    exact List.subperm_of_subset h2 fun k hk => List.mem_range.2 (h3 k hk)
  · intro h
    refine ⟨by simpa using h.length_eq, h.nodup_iff.2 List.nodup_range, fun k hk => ?_⟩
    exact List.mem_range.1 (h.mem_iff.1 hk)

/-- One operation. -/
theorem step_sim (hs : Sim g bv W S) (op : Op α) : StepR g (W.step g op) (S.step g op) := by
  cases op with
  | array x gpu =>
    have hal := hs.alloc (v := fresh W.next x.shape) (room := size x.shape) (x := x) (y := x) ⟨rfl, fun _ _ => rfl⟩ rfl
      (injective_of_inOrder (inOrder_cStrides _)) fun a ha => fresh_has ha
    have := (hal.newArr (whole_arrR (bv := bv) (gpu := gpu) (shape := x.shape) rfl (length_cStrides _))).add (.array S.wins.length)
    show StepR g (_, World.add _ (.array W.arrs.length)) _
    rw [hs.lenArr]
    exact .mk' this _
  | storage b x =>
    have hal := hs.alloc (v := g.view b W.next x.shape) (room := g.room b x.shape) (x := x) (y := x) ⟨rfl, fun _ _ => rfl⟩ rfl
      (gview_inj _ _ _) fun a ha => gview_has _ _ _ ha
    have := (hal.newArr (whole_arrR (bv := bv) (gpu := g.kind b == .gpu) (shape := x.shape) rfl (g.axes _ _))).add
      (.storage S.wins.length b)
    show StepR g (_, World.add (World.newArr _ ⟨_, decide (g.kind b = .gpu), true⟩) (.storage W.arrs.length b _)) _
    have hd : decide (g.kind b = .gpu) = (g.kind b == .gpu) := by cases g.kind b <;> rfl
    rw [hs.lenArr, hd]
    exact .mk' this _
  | dataOf h =>
    unfold World.step SWorld.step SWorld.after SWorld.obj
    rcases forall₂_get hs.obj h with ⟨h1, h2⟩ | ⟨o, s, h1, h2, ho⟩
    · simp only [h1, h2]; exact .mk' hs _
    · simp only [h1, h2]
      cases ho with
      | array i => exact .mk' hs _
      | storage i b => exact .mk' hs _
      | quantity d st i => exact .mk' (hs.add (.array d)) _
  | storageOf h =>
    unfold World.step SWorld.step SWorld.after SWorld.obj
    rcases forall₂_get hs.obj h with ⟨h1, h2⟩ | ⟨o, s, h1, h2, ho⟩
    · simp only [h1, h2]; exact .mk' hs _
    · simp only [h1, h2]
      cases ho with
      | array i => exact .mk' hs _
      | storage i b => exact .mk' hs _
      | quantity d st i =>
        obtain ⟨dims, units, o, e, bk⟩ := i
        cases st with
        | none => exact .mk' hs _
        | some st =>
          cases bk with
          | none => exact .mk' hs _
          | some b => exact .mk' (hs.add (.storage st b)) _
  | getItem h via ix =>
    unfold World.step SWorld.step SWorld.obj
    rcases forall₂_get hs.obj h with ⟨h1, h2⟩ | ⟨o, s, h1, h2, ho⟩
    · simp only [h1, h2]; exact .mk' hs _
    · simp only [h1, h2]
      cases ho with
      | array i =>
        simp only [SWorld.after]
        split
        · exact .mk' hs _
        · exact getItem_sim hs (.array i) via ix
      | storage i b => exact .mk' hs _
      | quantity d st i =>
        simp only [SWorld.after]
        split
        · exact .mk' hs _
        · exact getItem_sim hs (.quantity d st i) via ix
  | setItem h via ix x =>
    unfold World.step SWorld.step SWorld.obj
    rcases forall₂_get hs.obj h with ⟨h1, h2⟩ | ⟨o, s, h1, h2, ho⟩
    · simp only [h1, h2]; exact .mk' hs _
    · simp only [h1, h2]
      unfold World.access World.assign
      rw [ho.info, ho.target]
      simp only [SWorld.after]
      cases s.target via with
      | error e => exact .mk' hs _
      | ok i =>
        simp only [bind, Except.bind, SWorld.win]
        rcases forall₂_get hs.arr i with ⟨h1, h2⟩ | ⟨a, w, h1, h2, h⟩
        · simp only [h1, h2]; exact .mk' hs _
        · simp only [h1, h2]
          rcases select_eq h.shape s.info via ix with ⟨e, e1, e2⟩ | ⟨ix', e1, ⟨e, e2, e3⟩ | ⟨rs, e2, e3⟩⟩
          · rw [← h.shape]
            simp only [e1]
            exact .mk' hs _
          · rw [← h.shape, ← h.wr]
            simp only [e1, h1, e2, e3]
            split
            · exact .mk' hs _
            · exact .mk' hs _
          · rw [← h.shape, ← h.wr]
            simp only [e1, h1, e2, e3]
            have hsh : (w.part rs).shape = viewShape rs := rfl
            rw [hsh]
            split
            · exact .mk' hs _
            · split
              · exact .mk' (hs.write (h.part (h.shape ▸ e2)) _) _
              · exact .mk' hs _
  | values h =>
    unfold World.step SWorld.step SWorld.obj
    rcases forall₂_get hs.obj h with ⟨h1, h2⟩ | ⟨o, s, h1, h2, ho⟩
    · simp only [h1, h2]; exact .mk' hs _
    · simp only [h1, h2, SWorld.after]
      cases ho with
      | array i => exact .mk' hs _
      | storage i b => exact .mk' hs _
      | quantity d st i =>
        simp only [World.values, SWorld.win]
        rcases forall₂_get hs.arr d with ⟨h1, h2⟩ | ⟨a, w, h1, h2, h⟩
        · simp only [h1, h2]; exact .mk' hs _
        · simp only [h1, h2]
          simp only [nil_of_beq, ← h.gpu]
          split
          · split
            · exact .mk' hs _
            · refine .mk' (Sim.add (bv := bv) ?_ (.array d)) _
              have hro := h.readonly
              rw [h.gpu] at hro ⊢
              exact ⟨hs.blk, hs.dis, forall₂_set hs.arr d hro, hs.obj⟩
          · rcases select_eq h.shape (some i) .view [.slice .full] with ⟨e, e1, e2⟩ | ⟨ix', e1, ⟨e, e2, e3⟩ | ⟨rs, e2, e3⟩⟩
            · simp only [e1, e2]
              exact .mk' hs _
            · simp only [e1, e2, e3]
              exact .mk' hs _
            · simp only [e1, e2, e3]
              split
              · exact .mk' hs _
              · rw [hs.lenArr]
                exact .mk' ((hs.newArr (h.part (h.shape ▸ e2)).readonly).add (.array _)) _
  | quantity h dims units origin extent backend =>
    unfold World.step SWorld.step SWorld.obj
    rcases forall₂_get hs.obj h with ⟨h1, h2⟩ | ⟨o, s, h1, h2, ho⟩
    · simp only [h1, h2]; exact .mk' hs _
    · simp only [h1, h2, SWorld.after]
      cases ho with
      | array i => exact step_ofArray hs i _ _ _ _ _
      | storage i b =>
        simp only [World.quantity, SWorld.win]
        cases backend with
        | some b' => exact .mk' hs _
        | none =>
          simp only [Option.isSome_none, Bool.false_eq_true, false_or]
          cases hk : g.kind b with
          | other =>
            rw [if_pos rfl]
            exact .mk' hs _
          | cpu =>
            rw [if_neg (by decide)]
            rcases forall₂_get hs.arr i with ⟨h1, h2⟩ | ⟨a, w, h1, h2, h⟩
            · simp only [h1, h2]; exact .mk' hs _
            · simp only [h1, h2]
              rw [h.shape, hs.lenArr]
              exact step_finish (hs.newArr h) _ _ _ _ _ _ _ _
          | gpu =>
            rw [if_neg (by decide)]
            rcases forall₂_get hs.arr i with ⟨h1, h2⟩ | ⟨a, w, h1, h2, h⟩
            · simp only [h1, h2]; exact .mk' hs _
            · simp only [h1, h2]
              rw [h.shape, hs.lenArr]
              exact step_finish (hs.newArr h) _ _ _ _ _ _ _ _
      | quantity d st i => exact .mk' hs _
  | transpose h target =>
    unfold World.step SWorld.step SWorld.obj
    rcases forall₂_get hs.obj h with ⟨h1, h2⟩ | ⟨o, s, h1, h2, ho⟩
    · simp only [h1, h2]; exact .mk' hs _
    · simp only [h1, h2, SWorld.after]
      cases ho with
      | array i => exact .mk' hs _
      | storage i b => exact .mk' hs _
      | quantity d st i =>
        simp only [World.transpose, SWorld.win]
        cases Quantity.collapseDims i.dims target with
        | error e => exact .mk' hs _
        | ok t =>
          rcases forall₂_get hs.arr d with ⟨h1, h2⟩ | ⟨a, w, h1, h2, h⟩
          · simp only [h1, h2]; exact .mk' hs _
          · simp only [h1, h2]
            rw [h.shape]
            by_cases hp : (t.map fun d => i.dims.idxOf d).Perm (List.range w.shape.length)
            · rw [if_pos hp, if_pos (perm_iff.2 hp), hs.lenArr]
              exact step_ofArray (hs.newArr (h.transpose hp)) _ _ _ _ _ _
            · rw [if_neg hp, if_neg (fun hc => hp (perm_iff.1 hc))]
              exact .mk' hs _

theorem run_sim (hs : Sim g bv W S) (ops : List (Op α)) :
    (W.run g ops).1 = (S.run g ops).1 ∧ ∃ bv', Sim g bv' (W.run g ops).2 (S.run g ops).2 := by
  induction ops generalizing bv W S with
  | nil => exact ⟨rfl, bv, hs⟩
  | cons op ops ih =>
    obtain ⟨h1, bv', h2⟩ := step_sim hs op
    obtain ⟨h3, h4⟩ := ih h2
    exact ⟨by show _ :: _ = _ :: _; rw [h1, h3], h4⟩

theorem init_sim (g : Gt4py) (mem : Int → α) (x : α) : Sim g (fun _ => fresh 0 []) (World.init mem) (SWorld.init x) :=
  ⟨fun i hi => absurd hi (Nat.not_lt_zero i), fun i _ hi => absurd hi (Nat.not_lt_zero i), .nil, .nil⟩

theorem get_sim (hs : Sim g bv W S) (h : Nat) (via : Via) (ix : List Ix) : SameRead (W.get h via ix) (S.get h via ix) := by
  unfold World.get SWorld.get SWorld.obj
  rcases forall₂_get hs.obj h with ⟨h1, h2⟩ | ⟨o, s, h1, h2, ho⟩
  · rw [h1, h2]; exact rfl
  · rw [h1, h2]
    simp only
    rw [ho.target, ho.info]
    cases ht : s.target via with
    | error e => simp only [bind, Except.bind, ht]; exact rfl
    | ok i =>
      simp only [bind, Except.bind, ht, SWorld.win]
      rcases forall₂_get hs.arr i with ⟨h1, h2⟩ | ⟨a, w, h1, h2, h⟩
      · simp only [h1, h2]; exact rfl
      · simp only [h1, h2]
        split
        · split
          · exact hs.read h
          · exact rfl
        · rcases select_eq h.shape s.info via ix with ⟨e, e1, e2⟩ | ⟨ix', e1, ⟨e, e2, e3⟩ | ⟨rs, e2, e3⟩⟩
          · simp only [e1, e2]; exact rfl
          · simp only [e1, e2, e3]; exact rfl
          · simp only [e1, e2, e3]
            exact hs.read (h.part (h.shape ▸ e2))

end
end Mem
end FV3
