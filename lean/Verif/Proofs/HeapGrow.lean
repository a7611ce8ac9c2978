import Verif.Proofs.HeapComm
import Verif.Props.Memory

/-!
# What programs on memory do to arrays and variables does not depend on the contents of memory
-/

namespace FV3
namespace Heap
open Mem (World Gt4py)
open Strided
variable {α : Type} {g : Gt4py}

/-- The same program part from the same arrays and variables, with two contents of memory: the same result, the same
arrays and variables afterwards, those from before among them. -/
structure SS (sk : Skel) (p q : Py Unit × World α) : Prop where
  res : p.1 = q.1
  skel : Heap.skel p.2 = Heap.skel q.2
  objs : ∀ (i : Nat) o, sk.objs[i]? = some o → p.2.objs[i]? = some o
  arrs : ∀ (i : Nat) a, sk.arrs[i]? = some a → p.2.arrs[i]? = some a

variable {sk : Skel} {m1 m2 : Int → α}

theorem skel_eq {W W1 : World α} (h : skel W = skel W1) : W = (skel W1).with W.mem := by
  rw [← h]
  rfl

theorem SS.refl' (r : Py Unit) : SS sk (r, sk.with m1) (r, sk.with m2) := ⟨rfl, rfl, fun _ _ h => h, fun _ _ h => h⟩

theorem snoc_get {β : Type} {l : List β} {x y : β} {i : Nat} (h : l[i]? = some y) : (l ++ [x])[i]? = some y := by
  rw [List.getElem?_append_left (List.getElem?_eq_some_iff.1 h).1]
  exact h

/-- Starting later. -/
theorem SS.later {sk1 : Skel} {p q : Py Unit × World α} (h : SS sk1 p q) (ho : ∀ (i : Nat) o, sk.objs[i]? = some o → sk1.objs[i]? = some o)
    (ha : ∀ (i : Nat) a, sk.arrs[i]? = some a → sk1.arrs[i]? = some a) : SS sk p q :=
  ⟨h.res, h.skel, fun i o hi => h.objs i o (ho i o hi), fun i a hi => h.arrs i a (ha i a hi)⟩

theorem ss_finish (shape : List Nat) (d : Nat) (st : Option Nat) (dims : List Dim) (units : String)
    (origin extent : Option (List Int)) (b : Option String) :
    SS sk ((sk.with m1).finishInit shape d st dims units origin extent b) ((sk.with m2).finishInit shape d st dims units origin extent b) := by
  unfold Mem.World.finishInit
  split
  · exact .refl' _
  · exact ⟨rfl, rfl, fun _ _ h => snoc_get h, fun _ _ h => h⟩

theorem ss_ofArray (i : Nat) (dims : List Dim) (units : String) (origin extent : Option (List Int)) (b : Option String) :
    SS sk ((sk.with m1).quantityOfArray g i dims units origin extent b) ((sk.with m2).quantityOfArray g i dims units origin extent b) := by
  unfold Mem.World.quantityOfArray
  show SS sk (match sk.arrs[i]? with | none => _ | some a => _) (match sk.arrs[i]? with | none => _ | some a => _)
  cases sk.arrs[i]? with
  | none => exact .refl' _
  | some a =>
    dsimp only
    cases b with
    | none => exact ss_finish ..
    | some b =>
      dsimp only
      unfold Mem.World.initStorage
      dsimp only
      have key : ∀ gpu, SS (α := α) ⟨sk.next + g.room b a.view.shape, sk.arrs ++ [⟨g.view b sk.next a.view.shape, gpu, true⟩] ++
          [⟨g.view b sk.next a.view.shape, gpu, true⟩], sk.objs⟩ _ _ := fun gpu =>
        ss_finish (m1 := (g.view b sk.next a.view.shape).assign m1 (a.view.read m1))
          (m2 := (g.view b sk.next a.view.shape).assign m2 (a.view.read m2)) a.view.shape (sk.arrs.length + 1) (some sk.arrs.length)
          dims units origin extent (some b)
      cases g.kind b with
      | cpu => exact (key false).later (fun _ _ h => h) fun _ _ h => snoc_get (snoc_get h)
      | gpu => exact (key true).later (fun _ _ h => h) fun _ _ h => snoc_get (snoc_get h)
      | other => exact ⟨rfl, rfl, fun _ _ h => h, fun _ _ h => h⟩

theorem ss_assign (i : Nat) (ix : List Ix) (x : NDArray α) : SS sk ((sk.with m1).assign i ix x) ((sk.with m2).assign i ix x) := by
  unfold Mem.World.assign
  show SS sk (match sk.arrs[i]? with | none => _ | some a => _) (match sk.arrs[i]? with | none => _ | some a => _)
  cases sk.arrs[i]? with
  | none => exact .refl' _
  | some a =>
    dsimp only
    split
    · exact .refl' _
    · split
      · exact .refl' _
      · split
        · exact ⟨rfl, rfl, fun _ _ h => h, fun _ _ h => h⟩
        · exact .refl' _

theorem ss_index (i : Nat) (ix : List Ix) : SS sk ((sk.with m1).index i ix) ((sk.with m2).index i ix) := by
  unfold Mem.World.index
  show SS sk (match sk.arrs[i]? with | none => _ | some a => _) (match sk.arrs[i]? with | none => _ | some a => _)
  cases sk.arrs[i]? with
  | none => exact .refl' _
  | some a =>
    dsimp only
    split
    · exact .refl' _
    · split
      · exact .refl' _
      · exact ⟨rfl, rfl, fun _ _ h => snoc_get h, fun _ _ h => snoc_get h⟩

theorem access_with (o : Mem.Obj) (via : Mem.Via) (ix : List Ix) (m1 m2 : Int → α) :
    (sk.with m2).access o via ix = (sk.with m1).access o via ix := rfl

theorem ss_getItem (o : Mem.Obj) (via : Mem.Via) (ix : List Ix) : SS sk ((sk.with m1).getItem o via ix) ((sk.with m2).getItem o via ix) := by
  unfold Mem.World.getItem
  split
  · split
    · split
      · exact .refl' _
      · exact ⟨rfl, rfl, fun _ _ h => snoc_get h, fun _ _ h => h⟩
    · exact .refl' _
  · rw [access_with o via ix m1 m2]
    cases (sk.with m1).access o via ix with
    | error e => exact .refl' _
    | ok x => exact ss_index ..

theorem ss_quantity (o : Mem.Obj) (dims : List Dim) (units : String) (origin extent : Option (List Int)) (b : Option String) :
    SS sk ((sk.with m1).quantity g o dims units origin extent b) ((sk.with m2).quantity g o dims units origin extent b) := by
  unfold Mem.World.quantity
  cases o with
  | quantity q => exact .refl' _
  | array i => exact ss_ofArray ..
  | storage s bk kind =>
    show SS sk (match b, kind, sk.arrs[s]? with | some _, _, _ => _ | none, .other, _ => _ | none, _, none => _ | none, _, some a => _)
      (match b, kind, sk.arrs[s]? with | some _, _, _ => _ | none, .other, _ => _ | none, _, none => _ | none, _, some a => _)
    split
    · exact .refl' _
    · exact .refl' _
    · exact .refl' _
    · next a _ _ =>
      exact (ss_finish (sk := ⟨sk.next, sk.arrs ++ [a], sk.objs⟩) (m1 := m1) (m2 := m2) a.view.shape sk.arrs.length (some s) dims units
        origin extent (some bk)).later (fun _ _ h => h) fun _ _ h => snoc_get h

theorem ss_transpose (q : Mem.QObj) (target : List Quantity.TDim) :
    SS sk ((sk.with m1).transpose g q target) ((sk.with m2).transpose g q target) := by
  unfold Mem.World.transpose
  show SS sk (match Quantity.collapseDims q.info.dims target, sk.arrs[q.data]? with | .error e, _ => _ | _, none => _ | .ok t, some a => _)
    (match Quantity.collapseDims q.info.dims target, sk.arrs[q.data]? with | .error e, _ => _ | _, none => _ | .ok t, some a => _)
  split
  · exact .refl' _
  · exact .refl' _
  · next t a _ _ =>
    dsimp only
    split
    · have key := ss_ofArray (g := g) (sk := ⟨sk.next, sk.arrs ++ [{ a with view := Mem.transposeView (t.map fun d => q.info.dims.idxOf d) a.view }],
        sk.objs⟩) (m1 := m1) (m2 := m2) sk.arrs.length
        (Quantity.transposeSeq .x q.info.dims (t.map fun d => q.info.dims.idxOf d)) q.info.units
        (some (Quantity.transposeSeq 0 q.info.origin (t.map fun d => q.info.dims.idxOf d)))
        (some (Quantity.transposeSeq 0 q.info.extent (t.map fun d => q.info.dims.idxOf d))) q.info.backend
      exact key.later (fun _ _ h => h) fun _ _ h => snoc_get h
    · exact .refl' _

/-- One operation.  (`values` of a quantity without axes changes an array object, see C58_limit_values.) -/
theorem ss_step (op : Mem.Op α) (hv : ∀ h q a, op = .values h → sk.objs[h]? = some (.quantity q) → sk.arrs[q.bounded]? = some a →
      q.info.origin.length = 0 → a.view.shape = []) :
    ((sk.with m1).step g op).1 = ((sk.with m2).step g op).1 ∧ skel ((sk.with m1).step g op).2 = skel ((sk.with m2).step g op).2 ∧
      (∀ (i : Nat) o, sk.objs[i]? = some o → ((sk.with m1).step g op).2.objs[i]? = some o) ∧
      (∀ (i : Nat) a, sk.arrs[i]? = some a → a.view.shape ≠ [] → ((sk.with m1).step g op).2.arrs[i]? = some a) := by
  have of : ∀ {p q : Py Unit × World α}, SS sk p q → p.1 = q.1 ∧ skel p.2 = skel q.2 ∧
      (∀ (i : Nat) o, sk.objs[i]? = some o → p.2.objs[i]? = some o) ∧
      (∀ (i : Nat) a, sk.arrs[i]? = some a → a.view.shape ≠ [] → p.2.arrs[i]? = some a) :=
    fun h => ⟨h.res, h.skel, h.objs, fun i a hi _ => h.arrs i a hi⟩
  cases op with
  | array x gpu => exact of ⟨rfl, rfl, fun _ _ h => snoc_get h, fun _ _ h => snoc_get h⟩
  | storage b x => exact of ⟨rfl, rfl, fun _ _ h => snoc_get h, fun _ _ h => snoc_get h⟩
  | dataOf h =>
    unfold Mem.World.step
    show _ ∧ _
    refine of ?_
    show SS sk (match sk.objs[h]? with | none => _ | some (.quantity q) => _ | some _ => _)
      (match sk.objs[h]? with | none => _ | some (.quantity q) => _ | some _ => _)
    split
    · exact .refl' _
    · exact ⟨rfl, rfl, fun _ _ h => snoc_get h, fun _ _ h => h⟩
    · exact .refl' _
  | storageOf h =>
    refine of ?_
    unfold Mem.World.step
    show SS sk (match sk.objs[h]? with | none => _ | some (.quantity q) => _ | some _ => _)
      (match sk.objs[h]? with | none => _ | some (.quantity q) => _ | some _ => _)
    split
    · exact .refl' _
    · split
      · exact ⟨rfl, rfl, fun _ _ h => snoc_get h, fun _ _ h => h⟩
      · exact .refl' _
    · exact .refl' _
  | getItem h via ix =>
    refine of ?_
    unfold Mem.World.step
    show SS sk (match sk.objs[h]? with | none => _ | some (.storage ..) => _ | some o => _)
      (match sk.objs[h]? with | none => _ | some (.storage ..) => _ | some o => _)
    split
    · exact .refl' _
    · exact .refl' _
    · split
      · exact .refl' _
      · exact ss_getItem ..
  | setItem h via ix x =>
    refine of ?_
    unfold Mem.World.step
    show SS sk (match sk.objs[h]? with | none => _ | some o => _) (match sk.objs[h]? with | none => _ | some o => _)
    split
    · exact .refl' _
    · next o _ =>
      rw [access_with o via ix m1 m2]
      cases (sk.with m1).access o via ix with
      | error e => exact .refl' _
      | ok x => exact ss_assign ..
  | values h =>
    unfold Mem.World.step
    dsimp only
    have e1 : (sk.with m1).objs = sk.objs := rfl
    have e2 : (sk.with m2).objs = sk.objs := rfl
    rw [e1, e2]
    cases ho : sk.objs[h]? with
    | none => exact of (.refl' _)
    | some o =>
      cases o with
      | array i => exact of (.refl' _)
      | storage s b k => exact of (.refl' _)
      | quantity q =>
        dsimp only
        unfold Mem.World.values
        have e1 : (sk.with m1).arrs = sk.arrs := rfl
        have e2 : (sk.with m2).arrs = sk.arrs := rfl
        rw [e1, e2]
        cases ha : sk.arrs[q.bounded]? with
        | none => exact of (.refl' _)
        | some a =>
          dsimp only
          by_cases h0 : q.info.origin.length = 0
          · rw [if_pos h0, if_pos h0]
            by_cases hg : a.gpu = true
            · rw [if_pos hg, if_pos hg]
              exact of (.refl' _)
            · rw [if_neg hg, if_neg hg]
              refine ⟨rfl, rfl, fun _ _ h => snoc_get h, fun i b hi hb => ?_⟩
              show (sk.arrs.set q.bounded _)[i]? = some b
              have hne : q.bounded ≠ i := by
                rintro rfl
                rw [ha] at hi
                cases hi
                exact hb (hv h q a rfl ho ha h0)
              rw [List.getElem?_set_ne hne]
              exact hi
          · rw [if_neg h0, if_neg h0]
            refine of ?_
            split
            · exact .refl' _
            · split
              · exact .refl' _
              · split
                · exact .refl' _
                · exact ⟨rfl, rfl, fun _ _ h => snoc_get h, fun _ _ h => snoc_get h⟩
  | quantity h dims units origin extent b =>
    refine of ?_
    unfold Mem.World.step
    show SS sk (match sk.objs[h]? with | none => _ | some o => _) (match sk.objs[h]? with | none => _ | some o => _)
    split
    · exact .refl' _
    · exact ss_quantity ..
  | transpose h target =>
    refine of ?_
    unfold Mem.World.step
    show SS sk (match sk.objs[h]? with | none => _ | some (.quantity q) => _ | some _ => _)
      (match sk.objs[h]? with | none => _ | some (.quantity q) => _ | some _ => _)
    split
    · exact .refl' _
    · exact ss_transpose ..
    · exact .refl' _

end Heap
end FV3
