import Verif.Spec.HeapComm
import Verif.Proofs.Retag
import Verif.Proofs.Memory
import Verif.Proofs.MemorySpec
import Verif.Proofs.LateSim
import Verif.Proofs.Broadcast

/-!
# Communicator calls on quantities in memory do what they do on quantities as values
-/

namespace FV3

/-- Networks which do the same finish together. -/
theorem Net.Completes.mirror {M R R' : Type} {buf : Buffering} {Q : Int → R → R' → Prop} {N : Net M R} {N' : Net M R'}
    {res : Int → R} (h : N.Completes buf res) (hm : N.Mirror id Q N') :
    ∃ res', N'.Completes buf res' ∧ ∀ r, Q r (res r) (res' r) := by
  obtain ⟨T, n, hr, hc⟩ := h
  obtain ⟨sched, hs, -⟩ := hc [] N rfl
  obtain ⟨T', h1, h2⟩ := hm.run (buf := buf) Function.injective_id hs
  have key : ∀ r, ∃ y, T'.procs r = .ret y ∧ Q r (res r) y := by
    intro r
    have hp := h2.procs r
    rw [hr r] at hp
    generalize T'.procs r = p at hp
    cases hp with
    | ret h => exact ⟨_, rfl, h⟩
  choose res' k1 k2 using key
  exact ⟨res', Net.completes_of_run h1 k1, k2⟩

namespace Heap
open Mem (World Gt4py)
open Strided
variable {α : Type}

theorem unview_some {s : List Nat} {rs : List RIx} (h : List.Forall₂ ROk s rs) {idx rel : List Nat}
    (hu : unview rs idx = some rel) : InB s idx := by
  induction h generalizing idx rel with
  | nil =>
    cases idx with
    | nil => trivial
    | cons _ _ => simp [unview] at hu
  | @cons n r s rs h0 h1 ih =>
    cases idx with
    | nil => cases r <;> simp [unview] at hu
    | cons k idx =>
      cases r with
      | int i =>
        simp only [unview] at hu
        split at hu
        next e => exact ⟨by rw [e]; exact h0, ih hu⟩
        · cases hu
      | slice a st c =>
        simp only [unview] at hu
        split at hu
        next e =>
          rw [Option.map_eq_some_iff] at hu
          obtain ⟨rel', h2, -⟩ := hu
          refine ⟨?_, ih h2⟩
          obtain ⟨e1, e2, e3⟩ := e
          have := h0.2 (((k : Int) - a) / st).toNat (by omega)
          rw [Int.toNat_of_nonneg e1, e3] at this
          omega
        · cases hu

/-- What is needed of the variables which are passed to the communicator. -/
structure Held (W : World α) (hs : List Nat) : Prop where
  data : ∀ h ∈ hs, ∃ x, dataOf W h = .ok x ∧ x.2.1.writeable = true ∧ x.2.1.view.Injective ∧
    x.2.1.view.strides.length = x.2.1.view.shape.length
  apart : ∀ h ∈ hs, ∀ h' ∈ hs, h ≠ h' → ∀ idx idx' a, Cell W h idx a → ¬ Cell W h' idx' a

theorem dataOf_congr {W W1 : World α} (ha : W1.arrs = W.arrs) (ho : W1.objs = W.objs) (h : Nat) : dataOf W1 h = dataOf W h := by
  unfold dataOf
  rw [ha, ho]

theorem cell_congr {W W1 : World α} (ha : W1.arrs = W.arrs) (ho : W1.objs = W.objs) {h : Nat} {idx : List Nat} {a : Int} :
    Cell W1 h idx a ↔ Cell W h idx a := by
  unfold Cell
  rw [dataOf_congr ha ho]

theorem Held.congr {W W1 : World α} {hs : List Nat} (H : Held W hs) (ha : W1.arrs = W.arrs) (ho : W1.objs = W.objs) :
    Held W1 hs := by
  refine ⟨fun h hh => ?_, fun h hh h' hh' hne idx idx' a => ?_⟩
  · rw [dataOf_congr ha ho]; exact H.data h hh
  · rw [cell_congr ha ho, cell_congr ha ho]; exact H.apart h hh h' hh' hne idx idx' a

theorem dataOf_get {W : World α} {h : Nat} {x : Nat × Mem.Arr × Mem.Info} (hd : dataOf W h = .ok x) :
    W.arrs[x.1]? = some x.2.1 := by
  unfold dataOf at hd
  split at hd
  · cases hd
  · split at hd
    · cases hd
    next h1 => cases hd; exact h1
  · cases hd

section
variable [Inhabited α]

theorem value_eq {W : World α} {h : Nat} {x : Nat × Mem.Arr × Mem.Info} (hd : dataOf W h = .ok x) :
    value W h = .ok ⟨clip (x.2.1.view.read W.mem), x.2.2.dims, x.2.2.units, x.2.2.origin, x.2.2.extent⟩ := by
  unfold value
  rw [hd]
  rfl

theorem quantities_eq {W : World α} {h : Nat} {x : Nat × Mem.Arr × Mem.Info} (hd : dataOf W h = .ok x) :
    quantities W h = ⟨clip (x.2.1.view.read W.mem), x.2.2.dims, x.2.2.units, x.2.2.origin, x.2.2.extent⟩ := by
  unfold quantities
  rw [value_eq hd]

theorem quantities_mem {W : World α} {h : Nat} {x : Nat × Mem.Arr × Mem.Info} (hd : dataOf W h = .ok x) (mem : Int → α) :
    quantities { W with mem := mem } h =
      ⟨clip (x.2.1.view.read mem), x.2.2.dims, x.2.2.units, x.2.2.origin, x.2.2.extent⟩ :=
  quantities_eq (W := { W with mem := mem }) hd

theorem Held.value {W : World α} {hs : List Nat} (H : Held W hs) {h : Nat} (hh : h ∈ hs) :
    Heap.value W h = .ok (quantities W h) := by
  obtain ⟨x, hx, -⟩ := H.data h hh
  rw [value_eq hx, quantities_eq hx]

theorem slice_addr {v : View} {rs : List RIx} (hok : List.Forall₂ ROk v.shape rs) (hl : v.strides.length = v.shape.length)
    {rel : List Nat} (hr : InB (viewShape rs) rel) : (v.slice rs).addr rel = v.addr (viewIdx rs rel) := by
  show v.offset + sliceStart rs v.strides + dot (sliceStrides rs v.strides) rel = v.offset + dot v.strides (viewIdx rs rel)
  rw [dot_view hok hl hr]
  omega

theorem slice_injective {v : View} {rs : List RIx} (hok : List.Forall₂ ROk v.shape rs) (hl : v.strides.length = v.shape.length)
    (hi : v.Injective) : (v.slice rs).Injective := by
  intro idx idx' h1 h2 e
  rw [slice_addr hok hl h1, slice_addr hok hl h2] at e
  exact viewIdx_inj hok h1 h2 (hi _ _ (viewIdx_inB hok h1) (viewIdx_inB hok h2) e)

/-- An array in memory, after an assignment to a part of it. -/
theorem clip_assign {v : View} {rs : List RIx} (hok : List.Forall₂ ROk v.shape rs) (hl : v.strides.length = v.shape.length)
    (hi : v.Injective) (mem : Int → α) (x : NDArray α) :
    clip (v.read ((v.slice rs).assign mem x)) = (clip (v.read mem)).assign rs x := by
  show (⟨v.shape, _⟩ : NDArray α) = ⟨v.shape, _⟩
  congr 1
  funext idx
  show (if InB v.shape idx then (v.slice rs).assign mem x (v.addr idx) else default) = _
  by_cases hb : InB v.shape idx
  · rw [if_pos hb]
    cases hu : unview rs idx with
    | some rel =>
      obtain ⟨h1, h2⟩ := (Mem.unview_iff hok hb).1 hu
      show _ = x.get rel
      rw [← h2, ← slice_addr hok hl h1]
      exact assign_get (slice_injective hok hl hi) _ _ h1
    | none =>
      show _ = if InB v.shape idx then mem (v.addr idx) else default
      rw [if_pos hb]
      refine assign_other _ _ ?_
      rintro ⟨rel, h1, h2⟩
      rw [slice_addr hok hl h1] at h2
      have := (Mem.unview_iff hok hb (rel := rel)).2 ⟨h1, hi _ _ (viewIdx_inB hok h1) hb h2⟩
      rw [hu] at this
      cases this
  · rw [if_neg hb]
    cases hu : unview rs idx with
    | some rel => exact absurd (unview_some hok hu) hb
    | none => exact (if_neg hb).symm

/-- Receiving into a part of a quantity: memory, and values. -/
theorem fill_store {W : World α} {hs : List Nat} (H : Held W hs) {m : FV3.Mem α} (hm : ∀ k ∈ hs, m k = quantities W k)
    {h : Nat} (hh : h ∈ hs) (ix : List Ix) (x : NDArray α) :
    (∃ e, storeInto m h ix x = .error e ∧ fill W h ix x = (.error e, W)) ∨
    (∃ m' W1, storeInto m h ix x = .ok m' ∧ fill W h ix x = (.ok (), W1) ∧ (∀ k, k ∉ hs → m' k = m k) ∧
      (∀ k ∈ hs, m' k = quantities W1 k) ∧ OnlyCells (fun k _ => k = h) W W1) := by
  obtain ⟨y, hy, hw, hinj, hl⟩ := H.data h hh
  have hq := hm h hh
  rw [quantities_eq hy] at hq
  have hsh : (m h).data.shape = y.2.1.view.shape := by rw [hq]; rfl
  unfold storeInto NDArray.fillItem fill
  rw [hy, hsh]
  dsimp only
  cases hr : resolveAll ix y.2.1.view.shape with
  | error e => exact .inl ⟨e, rfl, rfl⟩
  | ok rs =>
    have hok := resolveAll_ok hr
    simp only [bind, Except.bind]
    by_cases hv : viewShape rs = x.shape
    · right
      rw [if_pos hv, if_pos hv]
      refine ⟨_, { W with mem := (y.2.1.view.slice rs).assign W.mem x }, rfl, ?_, ?_, ?_, rfl, rfl, rfl, ?_⟩
      · unfold Mem.World.assign
        rw [dataOf_get hy]
        dsimp only
        rw [if_neg (by rw [hw]; exact Bool.noConfusion), hr]
        dsimp only
        rw [if_pos (fits_of hv.symm)]
        have : x.stretch (viewShape rs) = x := if_pos hv.symm
        rw [this]
      · intro k hk
        exact if_neg fun (e : k = h) => hk (e ▸ hh)
      · intro k hk
        show (if k = h then _ else m k) = _
        by_cases e : k = h
        · subst e
          rw [if_pos rfl, quantities_mem hy, hq]
          dsimp only
          rw [clip_assign hok hl hinj]
        · rw [if_neg e, hm k hk]
          obtain ⟨z, hz, -⟩ := H.data k hk
          rw [quantities_eq hz, quantities_mem hz]
          congr 1
          show (⟨_, _⟩ : NDArray α) = ⟨_, _⟩
          congr 1
          funext idx
          by_cases hb : InB z.2.1.view.shape idx
          · refine (if_pos hb).trans (Eq.trans (assign_other _ _ ?_).symm (if_pos hb).symm)
            rintro ⟨rel, h1, h2⟩
            have h1' : InB (viewShape rs) rel := h1
            rw [slice_addr hok hl h1'] at h2
            exact H.apart h hh k hk (Ne.symm e) _ idx _ ⟨y, hy, viewIdx_inB hok h1', h2⟩ ⟨z, hz, hb, rfl⟩
          · exact (if_neg hb).trans (if_neg hb).symm
      · intro a
        by_cases ha : (y.2.1.view.slice rs).Has a
        · obtain ⟨rel, h1, h2⟩ := ha
          have h1' : InB (viewShape rs) rel := h1
          rw [slice_addr hok hl h1'] at h2
          exact .inr ⟨h, viewIdx rs rel, rfl, y, hy, viewIdx_inB hok h1', h2⟩
        · exact .inl (assign_other _ _ ha)
    · left
      rw [if_neg hv, if_neg hv]
      exact ⟨_, rfl, rfl⟩

/-! ### States of ranks -/

/-- Where a memory cell is kept among the values. -/
def enc (a : Int) : List Nat := [a.toNat, (-a).toNat]

/-- The quantities `m` are the variables `hs` of `W`; quantity `K` holds the rest of the memory. -/
structure MRel (hs : List Nat) (K : Nat) (W : World α) (m : FV3.Mem α) : Prop where
  held : Held W hs
  vals : ∀ h ∈ hs, m h = quantities W h
  rest : ∀ a, (∀ h ∈ hs, ∀ idx, ¬ Cell W h idx a) → (m K).data.get (enc a) = W.mem a

theorem MRel.fill {hs : List Nat} {K : Nat} (hK : K ∉ hs) {W : World α} {m : FV3.Mem α} (R : MRel hs K W m) {h : Nat} (hh : h ∈ hs)
    (ix : List Ix) (x : NDArray α) :
    (∃ e, storeInto m h ix x = .error e ∧ Heap.fill W h ix x = (.error e, W)) ∨
    (∃ m' W1, storeInto m h ix x = .ok m' ∧ Heap.fill W h ix x = (.ok (), W1) ∧ MRel hs K W1 m' ∧
      OnlyCells (fun k _ => k = h) W W1) := by
  rcases fill_store R.held R.vals hh ix x with ⟨e, h1, h2⟩ | ⟨m', W1, h1, h2, h3, h4, h5⟩
  · exact .inl ⟨e, h1, h2⟩
  · refine .inr ⟨m', W1, h1, h2, ⟨R.held.congr h5.arrs h5.objs, h4, fun a ha => ?_⟩, h5⟩
    rw [h3 K hK]
    have ha' : ∀ k ∈ hs, ∀ idx, ¬ Cell W k idx a := fun k hk idx hc => ha k hk idx ((cell_congr h5.arrs h5.objs).2 hc)
    rw [R.rest a ha']
    rcases h5.mem a with e | ⟨k, idx, rfl, hc⟩
    · exact e.symm
    · exact absurd hc (ha' _ hh idx)

/-- The values determine the memory. -/
theorem MRel.unique {hs : List Nat} {K : Nat} {W W1 : World α} {m : FV3.Mem α} (R : MRel hs K W m) (R1 : MRel hs K W1 m)
    (hn : W1.next = W.next) (ha : W1.arrs = W.arrs) (ho : W1.objs = W.objs) : W1 = W := by
  have hm : W1.mem = W.mem := by
    funext a
    by_cases hc : ∃ h ∈ hs, ∃ idx, Cell W h idx a
    · obtain ⟨h, hh, idx, x, hx, hi, e⟩ := hc
      have h1 := R.vals h hh
      rw [R1.vals h hh, quantities_eq hx, quantities_eq ((dataOf_congr ha ho h).trans hx)] at h1
      have h2 := congrArg (fun q : Quantity α => q.data.get idx) h1
      change (if _ then _ else _) = (if _ then _ else _) at h2
      have hi' : InB (x.2.1.view.read W.mem).shape idx := hi
      have hi'' : InB (x.2.1.view.read W1.mem).shape idx := hi
      rw [if_pos hi', if_pos hi''] at h2
      rw [← e]
      exact h2
    · have hno : ∀ h ∈ hs, ∀ idx, ¬ Cell W h idx a := fun h hh idx c => hc ⟨h, hh, idx, c⟩
      rw [← R.rest a hno, R1.rest a fun h hh idx c => hno h hh idx ((cell_congr ha ho).1 c)]
  cases W
  cases W1
  simp only at hm hn ha ho
  rw [hm, hn, ha, ho]

/-- Arrays and variables, without the contents of memory. -/
structure Skel where
  next : Int
  arrs : List Mem.Arr
  objs : List Mem.Obj

/-- With contents of memory. -/
def Skel.with (sk : Skel) (mem : Int → α) : World α := ⟨mem, sk.next, sk.arrs, sk.objs⟩

/-- Without. -/
def skel (W : World α) : Skel := ⟨W.next, W.arrs, W.objs⟩

/-- A rank with quantities as values, and one with memory. -/
structure Rel (hs : List Nat) (K : Nat) (sk : Skel) (s : RankState α) (s' : HState α) : Prop where
  tag : s'.lastTag = s.lastTag
  reqs : s'.reqs = s.reqs
  skel : Heap.skel s'.world = sk
  mem : MRel hs K s'.world s.mem

/-- The two programs do the same, with results in `P`, and change the arrays and variables from `sk` to `sk'`. -/
def Ref (hs : List Nat) (K : Nat) (sk sk' : Skel) {A : Type} (P : A → Prop) (c : CommM α A) (c' : HM α A) : Prop :=
  ∀ s s', Rel hs K sk s s' → (c s).Mirror id (fun x y => y.1 = x.1 ∧
    match x.1 with
    | .ok a => P a ∧ x.2.reqs = s.reqs ∧ Rel hs K sk' x.2 y.2
    | .error _ => True) (c' s')

namespace Ref
variable {hs : List Nat} {K : Nat} {sk sk1 sk2 : Skel} {A B : Type} {P : A → Prop} {P' : B → Prop}

theorem bind {c : CommM α A} {c' : HM α A} {f : A → CommM α B} {f' : A → HM α B} (hc : Ref hs K sk sk1 P c c')
    (hf : ∀ a, P a → Ref hs K sk1 sk2 P' (f a) (f' a)) : Ref hs K sk sk2 P' (c >>= f) (c' >>= f') := by
  intro s s' h
  refine Proc.Mirror.bind (hc s s' h) ?_
  rintro ⟨a, s1⟩ ⟨b, s2⟩ ⟨h1, h2⟩
  dsimp only at h1 h2
  subst h1
  cases b with
  | ok a =>
    refine (hf a h2.1 s1 s2 h2.2.2).mono ?_
    rintro ⟨x, t1⟩ ⟨y, t2⟩ ⟨g1, g2⟩
    refine ⟨g1, ?_⟩
    cases x with
    | ok b => exact ⟨g2.1, g2.2.1.trans h2.2.1, g2.2.2⟩
    | error e => trivial
  | error e => exact .ret ⟨rfl, trivial⟩

theorem pure {a : A} (h : P a) : Ref hs K sk sk P (Pure.pure a : CommM α A) (Pure.pure a : HM α A) :=
  fun _ _ hr => .ret ⟨rfl, h, rfl, hr⟩

theorem lift (x : Py A) : Ref hs K sk sk (fun _ => True) (CommM.lift x : CommM α A) (HM.lift x : HM α A) := by
  intro s s' h
  refine .ret ⟨rfl, ?_⟩
  cases x with
  | error e => trivial
  | ok a => exact ⟨trivial, rfl, h⟩

theorem raise (e : PyErr) : Ref hs K sk sk1 P (CommM.raise e : CommM α A) (HM.raise e : HM α A) :=
  fun _ _ _ => .ret ⟨rfl, trivial⟩

theorem mono {c : CommM α A} {c' : HM α A} {P1 : A → Prop} (h : Ref hs K sk sk1 P c c') (hp : ∀ a, P a → P1 a) :
    Ref hs K sk sk1 P1 c c' := by
  intro s s' hr
  refine (h s s' hr).mono ?_
  rintro ⟨x, s1⟩ ⟨y, s2⟩ ⟨h1, h2⟩
  refine ⟨h1, ?_⟩
  cases x with
  | ok a => exact ⟨hp a h2.1, h2.2⟩
  | error e => trivial

theorem quantity {h : Nat} (hh : h ∈ hs) :
    Ref hs K sk sk (fun _ => True) (CommM.quantity h : CommM α _) (HM.quantity h : HM α _) := by
  intro s s' hr
  refine .ret ⟨?_, trivial, rfl, hr⟩
  show value s'.world h = .ok (s.mem h)
  rw [hr.mem.held.value hh, hr.mem.vals h hh]

theorem getTag : Ref hs K sk sk (fun _ => True) (FV3.getHaloTag : CommM α Nat) (Heap.getHaloTag : HM α Nat) := by
  intro s s' hr
  refine .ret ⟨?_, trivial, rfl, ?_, hr.reqs, hr.skel, hr.mem⟩
  · show Except.ok (s'.lastTag + 1) = Except.ok (s.lastTag + 1)
    rw [hr.tag]
  · show s'.lastTag + 1 = s.lastTag + 1
    rw [hr.tag]

theorem isend (dst : Int) (tag : Nat) (a : NDArray α) :
    Ref hs K sk sk (fun _ => True) (FV3.isend dst tag a) (Heap.isend dst tag a) :=
  fun _ _ hr => .isend (t := .halo tag) fun _ => .ret ⟨rfl, trivial, rfl, hr⟩

theorem awaitSend (sr : SendReq) :
    Ref hs K sk sk (fun _ => True) (FV3.awaitSend sr : CommM α Unit) (Heap.awaitSend sr : HM α Unit) :=
  fun _ _ hr => .await (t := .halo sr.tag) fun _ => .ret ⟨rfl, trivial, rfl, hr⟩

theorem recvInto (hK : K ∉ hs) (rq : RecvReq) (hq : rq.q ∈ hs) :
    Ref hs K sk sk (fun _ => True) (FV3.recvInto rq : CommM α Unit) (Heap.recvInto rq : HM α Unit) := by
  intro s s' hr
  refine .recv (t := .halo rq.tag) fun m => ?_
  cases m with
  | data a =>
    dsimp only
    rcases hr.mem.fill hK hq rq.ix a with ⟨e, h1, h2⟩ | ⟨m', W1, h1, h2, h3, h4⟩
    · rw [h1, h2]
      exact .ret ⟨rfl, trivial⟩
    · rw [h1, h2]
      refine .ret ⟨rfl, trivial, rfl, hr.tag, hr.reqs, ?_, h3⟩
      rw [← hr.skel]
      show (⟨_, _, _⟩ : Skel) = ⟨_, _, _⟩
      rw [h4.next, h4.arrs, h4.objs]
  | _ => exact .ret ⟨rfl, trivial⟩

theorem forEach {f : A → CommM α B} {f' : A → HM α B} {as : List A} (h : ∀ a ∈ as, Ref hs K sk sk P' (f a) (f' a)) :
    Ref hs K sk sk (fun bs => ∀ b ∈ bs, P' b) (CommM.forEach f as) (HM.forEach f' as) := by
  induction as with
  | nil => exact pure fun b hb => by cases hb
  | cons a as ih =>
    refine bind (h a (List.mem_cons_self ..)) fun b hb => bind (ih fun a ha => h a (List.mem_cons_of_mem _ ha)) fun bs hbs => ?_
    refine pure fun x hx => ?_
    rcases List.mem_cons.1 hx with rfl | hx
    · exact hb
    · exact hbs x hx

theorem waitRequest (hK : K ∉ hs) (req : Request) (hq : ∀ rq ∈ req.recvs, rq.q ∈ hs) :
    Ref hs K sk sk (fun _ => True) (FV3.waitRequest req : CommM α Unit) (Heap.waitRequest req : HM α Unit) :=
  bind (forEach fun rq h => recvInto hK rq (hq rq h)) fun _ _ =>
    bind (forEach fun sr _ => awaitSend sr) fun _ _ => pure trivial

theorem isendHalos (l : Layout) (r : Int) {q : Nat} (hq : q ∈ hs) (n : Int) (tag : Nat) :
    Ref hs K sk sk (fun _ => True) (FV3.isendHalos l r q n tag : CommM α _) (Heap.isendHalos l r q n tag : HM α _) :=
  bind (lift _) fun _ _ => mono (P := fun bs => ∀ b ∈ bs, True) (forEach fun _ _ => bind (quantity hq) fun _ _ =>
    bind (lift _) fun _ _ => bind (lift _) fun _ _ => isend _ _ _) fun _ _ => trivial

theorem irecvHalos (l : Layout) (r : Int) {q : Nat} (hq : q ∈ hs) (n : Int) (tag : Nat) :
    Ref hs K sk sk (fun rs => ∀ rq ∈ rs, rq.q ∈ hs) (FV3.irecvHalos l r q n tag : CommM α _) (Heap.irecvHalos l r q n tag : HM α _) :=
  bind (lift _) fun _ _ => forEach fun _ _ => bind (quantity hq) fun _ _ => bind (lift _) fun _ _ => pure hq

theorem startHaloUpdate (l : Layout) (r : Int) {q : Nat} (hq : q ∈ hs) (n : Int) :
    Ref hs K sk sk (fun req => ∀ rq ∈ req.recvs, rq.q ∈ hs) (FV3.startHaloUpdate l r q n : CommM α _)
      (Heap.startHaloUpdate l r q n : HM α _) := by
  unfold FV3.startHaloUpdate Heap.startHaloUpdate
  split
  · exact raise _
  · exact bind getTag fun _ _ => bind (isendHalos l r hq n _) fun _ _ => bind (irecvHalos l r hq n _) fun _ h => pure h

theorem haloUpdate (hK : K ∉ hs) (l : Layout) (r : Int) {q : Nat} (hq : q ∈ hs) (n : Int) :
    Ref hs K sk sk (fun _ => True) (FV3.haloUpdate l r q n : CommM α _) (Heap.haloUpdate l r q n : HM α _) :=
  bind (startHaloUpdate l r hq n) fun _ h => waitRequest hK _ h

variable [Neg α]

theorem isendVectorHalos (l : Layout) (r : Int) {x y : Nat} (hx : x ∈ hs) (hy : y ∈ hs) (n : Int) (t1 t2 : Nat) :
    Ref hs K sk sk (fun _ => True) (FV3.isendVectorHalos l r x y n t1 t2 : CommM α _)
      (Heap.isendVectorHalos l r x y n t1 t2 : HM α _) :=
  bind (lift _) fun _ _ => bind (forEach (P' := fun _ => True) fun _ _ => bind (quantity hx) fun _ _ => bind (quantity hy) fun _ _ =>
    bind (lift _) fun _ _ => bind (lift _) fun _ _ => bind (lift _) fun _ _ => bind (isend _ _ _) fun _ _ =>
    bind (isend _ _ _) fun _ _ => pure trivial) fun _ _ => pure trivial

theorem startVectorHaloUpdate (l : Layout) (r : Int) {x y : Nat} (hx : x ∈ hs) (hy : y ∈ hs) (n : Int) :
    Ref hs K sk sk (fun req => ∀ rq ∈ req.recvs, rq.q ∈ hs) (FV3.startVectorHaloUpdate l r x y n : CommM α _)
      (Heap.startVectorHaloUpdate l r x y n : HM α _) := by
  unfold FV3.startVectorHaloUpdate Heap.startVectorHaloUpdate
  split
  · exact raise _
  · refine bind getTag fun _ _ => bind getTag fun _ _ => bind (isendVectorHalos l r hx hy n _ _) fun _ _ =>
      bind (irecvHalos l r hx n _) fun _ h => bind (irecvHalos l r hy n _) fun _ h' => pure fun rq hr => ?_
    rcases List.mem_append.1 hr with hr | hr
    · exact h rq hr
    · exact h' rq hr

theorem vectorHaloUpdate (hK : K ∉ hs) (l : Layout) (r : Int) {x y : Nat} (hx : x ∈ hs) (hy : y ∈ hs) (n : Int) :
    Ref hs K sk sk (fun _ => True) (FV3.vectorHaloUpdate l r x y n : CommM α _) (Heap.vectorHaloUpdate l r x y n : HM α _) :=
  bind (startVectorHaloUpdate l r hx hy n) fun _ h => waitRequest hK _ h

theorem isendSharedBoundary (l : Layout) (r : Int) {x y : Nat} (hx : x ∈ hs) (hy : y ∈ hs) (tag : Nat) :
    Ref hs K sk sk (fun _ => True) (FV3.isendSharedBoundary l r x y tag : CommM α _)
      (Heap.isendSharedBoundary l r x y tag : HM α _) :=
  bind (lift _) fun _ _ => bind (lift _) fun _ _ => bind (quantity hx) fun _ _ => bind (quantity hy) fun _ _ =>
    bind (lift _) fun _ _ => bind (lift _) fun _ _ => bind (isend _ _ _) fun _ _ => bind (isend _ _ _) fun _ _ => pure trivial

omit [Neg α] in
theorem irecvSharedBoundary (l : Layout) (r : Int) {x y : Nat} (hx : x ∈ hs) (hy : y ∈ hs) (tag : Nat) :
    Ref hs K sk sk (fun rs => ∀ rq ∈ rs, rq.q ∈ hs) (FV3.irecvSharedBoundary l r x y tag : CommM α _)
      (Heap.irecvSharedBoundary l r x y tag : HM α _) :=
  bind (lift _) fun _ _ => bind (lift _) fun _ _ => bind (quantity hx) fun _ _ => bind (quantity hy) fun _ _ =>
    bind (lift _) fun _ _ => bind (lift _) fun _ _ => pure fun rq h => by
      simp only [List.mem_cons, List.not_mem_nil, or_false] at h
      rcases h with rfl | rfl
      · exact hx
      · exact hy

theorem startSynchronize (l : Layout) (r : Int) {x y : Nat} (hx : x ∈ hs) (hy : y ∈ hs) :
    Ref hs K sk sk (fun req => ∀ rq ∈ req.recvs, rq.q ∈ hs) (FV3.startSynchronize l r x y : CommM α _)
      (Heap.startSynchronize l r x y : HM α _) := by
  refine bind (quantity hx) fun _ _ => bind (quantity hy) fun _ _ => ?_
  split
  · exact raise _
  · exact bind getTag fun _ _ => bind (isendSharedBoundary l r hx hy _) fun _ _ =>
      bind (irecvSharedBoundary l r hx hy _) fun _ h => pure h

theorem synchronize (hK : K ∉ hs) (l : Layout) (r : Int) {x y : Nat} (hx : x ∈ hs) (hy : y ∈ hs) :
    Ref hs K sk sk (fun _ => True) (FV3.synchronize l r x y : CommM α _) (Heap.synchronize l r x y : HM α _) :=
  bind (startSynchronize l r hx hy) fun _ h => waitRequest hK _ h

end Ref

end
end Heap
end FV3
