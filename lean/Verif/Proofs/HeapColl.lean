import Verif.Spec.HeapColl
import Verif.Proofs.HeapSession
import Verif.Props.HeapComm
import Verif.Props.Scatter

/-!
# Scatter and gather on quantities in memory do what they do on quantities as values
-/

namespace FV3

theorem Proc.Mirror.refl {M R : Type} (p : Proc M R) : p.Mirror id (fun x y => y = x) p := by
  induction p with
  | ret x => exact .ret rfl
  | isend d t m k ih => exact .isend (f := id) ih
  | recv s t k ih => exact .recv (f := id) ih
  | await d t i k ih => exact .await (f := id) ih

theorem Proc.bind_ret' {M R : Type} (p : Proc M R) : p.bind (fun x => Proc.ret x) = p := by
  induction p with
  | ret x => rfl
  | isend d t m k ih => exact congrArg _ (funext ih)
  | recv s t k ih => exact congrArg _ (funext ih)
  | await d t i k ih => exact congrArg _ (funext ih)

theorem Real.mirror {M R R' : Type} {Q : R → R' → Prop} {p : Proc M R} {p' : Proc M R'} {as : List (Act M)} {x : R}
    (h : Real p as x) (hm : p.Mirror id Q p') : ∃ y, Real p' as y ∧ Q x y := by
  induction h generalizing p' with
  | ret r =>
    cases hm with
    | ret h => exact ⟨_, .ret _, h⟩
  | send _ ih =>
    cases hm with
    | isend h =>
      obtain ⟨y, h1, h2⟩ := ih (h 0)
      exact ⟨y, .send h1, h2⟩
  | @recv s t m k as r _ ih =>
    cases hm with
    | recv h =>
      obtain ⟨y, h1, h2⟩ := ih (h m)
      exact ⟨y, .recv h1, h2⟩
  | await _ ih =>
    cases hm with
    | await h =>
      obtain ⟨y, h1, h2⟩ := ih (h ())
      exact ⟨y, .await h1, h2⟩

namespace Heap
open Mem (World Gt4py Reachable)
open Strided
variable {α A B C D : Type} {g : Gt4py}

/-- The two programs communicate in the same way; if the first one returns, so does the second one, and the results and
the memory are in relation. -/
def RefC (W : World α) (Q : A → B → World α → Prop) (c : CollM α A) (c' : HC α B) : Prop :=
  ∀ n, (c n).Mirror id (fun x y => y.2.2 = x.2 ∧
    match x.1 with
    | .ok a => ∃ b, y.1 = .ok b ∧ Q a b y.2.1
    | .error e => y.1 = .error e) (c' (W, n))

namespace RefC

theorem bind {W : World α} {Q : A → B → World α → Prop} {Q' : C → D → World α → Prop} {c : CollM α A} {c' : HC α B}
    {f : A → CollM α C} {f' : B → HC α D} (hc : RefC W Q c c') (hf : ∀ a b W1, Q a b W1 → RefC W1 Q' (f a) (f' b)) :
    RefC W Q' (c >>= f) (c' >>= f') := by
  intro n
  refine Proc.Mirror.bind (hc n) ?_
  rintro ⟨a, k⟩ ⟨b, W1, k'⟩ ⟨h1, h2⟩
  dsimp only at h1 h2
  subst h1
  cases a with
  | ok a =>
    obtain ⟨b, rfl, hq⟩ := h2
    exact hf a b W1 hq _
  | error e =>
    cases h2
    exact .ret ⟨rfl, rfl⟩

theorem mono {W : World α} {Q Q' : A → B → World α → Prop} {c : CollM α A} {c' : HC α B} (h : RefC W Q c c')
    (hq : ∀ a b W1, Q a b W1 → Q' a b W1) : RefC W Q' c c' := by
  intro n
  refine (h n).mono ?_
  rintro ⟨a, k⟩ ⟨b, W1, k'⟩ ⟨h1, h2⟩
  refine ⟨h1, ?_⟩
  cases a with
  | ok a =>
    obtain ⟨b, e, h3⟩ := h2
    exact ⟨b, e, hq _ _ _ h3⟩
  | error e => exact h2

theorem pure {W : World α} {Q : A → B → World α → Prop} {a : A} {b : B} (h : Q a b W) :
    RefC W Q (Pure.pure a : CollM α A) (Pure.pure b : HC α B) := fun _ => .ret ⟨rfl, b, rfl, h⟩

theorem lift (W : World α) (x : Py A) :
    RefC W (fun a b W1 => b = a ∧ W1 = W ∧ x = .ok a) (CollM.lift x : CollM α A) (HC.lift x) := by
  intro n
  refine .ret ⟨rfl, ?_⟩
  cases x with
  | ok a => exact ⟨a, rfl, rfl, rfl, rfl⟩
  | error e => rfl

theorem raise {W : World α} {Q : A → B → World α → Prop} (e : PyErr) :
    RefC W Q (CollM.raise e : CollM α A) (HC.raise e : HC α B) := fun _ => .ret ⟨rfl, rfl⟩

theorem coll (W : World α) (c : CollM α A) : RefC W (fun a b W1 => b = a ∧ W1 = W) c (HC.coll c) := by
  intro n
  have h := Proc.Mirror.bind (Q' := fun x y => y.2.2 = x.2 ∧
      match x.1 with
      | .ok a => ∃ b, y.1 = .ok b ∧ b = a ∧ y.2.1 = W
      | .error e => y.1 = .error e) (g := fun x : Py A × Nat => Proc.ret x)
    (g' := fun x : Py A × Nat => Proc.ret (x.1, (W, x.2))) (Proc.Mirror.refl (c n)) (by
      rintro ⟨a, k⟩ _ rfl
      refine .ret ⟨rfl, ?_⟩
      cases a with
      | ok a => exact ⟨a, rfl, rfl, rfl⟩
      | error e => rfl)
  rw [Proc.bind_ret'] at h
  exact h

/-- The first program does something with its result. -/
theorem map_left {W : World α} {Q : A → B → World α → Prop} {Q' : C → B → World α → Prop} {c : CollM α A} {c' : HC α B} (f : A → C)
    (h : RefC W Q c c') (hq : ∀ a b W1, Q a b W1 → Q' (f a) b W1) : RefC W Q' (c >>= fun a => Pure.pure (f a)) c' := by
  intro n
  have h2 := Proc.Mirror.bind (Q' := fun (x : Py C × Nat) (y : Py B × (World α × Nat)) => y.2.2 = x.2 ∧
      match x.1 with
      | .ok a => ∃ b, y.1 = .ok b ∧ Q' a b y.2.1
      | .error e => y.1 = .error e) (g := fun x : Py A × Nat => match x.1 with
        | .ok a => Proc.ret ((.ok (f a) : Py C), x.2)
        | .error e => Proc.ret (.error e, x.2))
    (g' := fun x : Py B × (World α × Nat) => Proc.ret x) (h n) (by
      rintro ⟨a, k⟩ ⟨b, W1, k'⟩ ⟨h1, h2⟩
      cases a with
      | ok a =>
        obtain ⟨b, e, h3⟩ := h2
        exact .ret ⟨h1, b, e, hq _ _ _ h3⟩
      | error e => exact .ret ⟨h1, h2⟩)
  rw [Proc.bind_ret'] at h2
  exact h2

/-- The second program reads a quantity. -/
theorem quantity [Inhabited α] {W : World α} {Q : A → B → World α → Prop} {c : CollM α A} {f : Quantity α → HC α B} {h : Nat}
    (hv : value W h = .ok (quantities W h)) (hf : RefC W Q c (f (quantities W h))) : RefC W Q c (HC.quantity h >>= f) := by
  intro n
  have : (HC.quantity h >>= f) (W, n) = f (quantities W h) (W, n) := by
    show HC.bind (HC.quantity h) f (W, n) = _
    unfold HC.bind HC.quantity
    rw [hv]
    rfl
  rw [this]
  exact hf n

/-- The first program has nothing to do. -/
theorem skip {W : World α} {Q : A → B → World α → Prop} {x : Py C} {a : C} (hx : x = .ok a) {f : C → CollM α A} {c' : HC α B}
    (hf : RefC W Q (f a) c') : RefC W Q (CollM.lift x >>= f) c' := by
  subst hx
  exact hf

end RefC

theorem lift_bind (x : Py A) (f : A → Py B) :
    (CollM.lift (x >>= f) : CollM α B) = CollM.lift x >>= fun a => CollM.lift (f a) := by
  funext n
  cases x <;> rfl

theorem lift_assoc (x : Py A) (f : A → CollM α B) (k : B → CollM α C) :
    (CollM.lift x >>= f) >>= k = CollM.lift x >>= fun a => f a >>= k := by
  funext n
  cases x <;> rfl

theorem OnlyCells.trans {P : Nat → List Nat → Prop} {W W1 W2 : World α} (h : OnlyCells P W W1) (h' : OnlyCells P W1 W2) :
    OnlyCells P W W2 := by
  refine ⟨h'.next.trans h.next, h'.arrs.trans h.arrs, h'.objs.trans h.objs, fun a => ?_⟩
  rcases h'.mem a with e | ⟨k, idx, hp, hc⟩
  · rcases h.mem a with e' | e'
    · exact .inl (e.trans e')
    · exact .inr e'
  · exact .inr ⟨k, idx, hp, (cell_congr h.arrs h.objs).1 hc⟩

theorem OnlyCells.refl (P : Nat → List Nat → Prop) (W : World α) : OnlyCells P W W :=
  ⟨rfl, rfl, rfl, fun _ => .inl rfl⟩

theorem OnlyCells.wf {P : Nat → List Nat → Prop} {W W1 : World α} (h : OnlyCells P W W1) (hw : WF g W) : WF g W1 := by
  have := hw.mem W1.mem
  rw [← h.next, ← h.arrs, ← h.objs] at this
  exact this

section
variable [Inhabited α]

/-- Storing what has been received. -/
theorem fill_one {W : World α} {h : Nat} (H : Held W [h]) (ix : List Ix) (x : NDArray α) :
    (∃ e, (quantities W h).data.fillItem ix x = .error e ∧ fill W h ix x = (.error e, W)) ∨
    (∃ d W1, (quantities W h).data.fillItem ix x = .ok d ∧ fill W h ix x = (.ok (), W1) ∧
      quantities W1 h = { quantities W h with data := d } ∧ OnlyCells (fun k _ => k = h) W W1) := by
  have hs := fill_store H (m := quantities W) (fun _ _ => rfl) (List.mem_singleton.2 rfl) ix x
  unfold storeInto at hs
  cases hd : (quantities W h).data.fillItem ix x with
  | error e =>
    rw [hd] at hs
    rcases hs with ⟨e', h1, h2⟩ | ⟨m', W1, h1, -⟩
    · cases h1; exact .inl ⟨_, rfl, h2⟩
    · cases h1
  | ok d =>
    rw [hd] at hs
    rcases hs with ⟨e', h1, h2⟩ | ⟨m', W1, h1, h2, -, h4, h5⟩
    · cases h1
    · cases h1
      refine .inr ⟨d, W1, rfl, h2, ?_, h5⟩
      rw [← h4 h (List.mem_singleton.2 rfl)]
      exact if_pos rfl

/-- Assignment. -/
theorem store_one {W : World α} {h : Nat} (H : Held W [h]) (ix : List Ix) (x : NDArray α) :
    (∃ e, (quantities W h).data.setItem ix x = .error e ∧ store W h ix x = (.error e, W)) ∨
    (∃ d W1, (quantities W h).data.setItem ix x = .ok d ∧ store W h ix x = (.ok (), W1) ∧
      quantities W1 h = { quantities W h with data := d } ∧ OnlyCells (fun k _ => k = h) W W1) := by
  obtain ⟨y, hy, hw, hinj, hl⟩ := H.data h (List.mem_singleton.2 rfl)
  have hsh : (quantities W h).data.shape = y.2.1.view.shape := by rw [quantities_eq hy]; rfl
  cases hr : resolveAll ix y.2.1.view.shape with
  | error e =>
    refine .inl ⟨e, ?_, ?_⟩
    · unfold NDArray.setItem
      rw [hsh, hr]
      rfl
    · unfold store Mem.World.assign
      rw [hy]
      dsimp only
      rw [dataOf_get hy]
      dsimp only
      rw [if_neg (by rw [hw]; exact Bool.noConfusion), hr]
  | ok rs =>
    by_cases hf : fits x.shape (viewShape rs)
    · have e1 : (quantities W h).data.setItem ix x = (quantities W h).data.fillItem ix (x.stretch (viewShape rs)) := by
        unfold NDArray.setItem NDArray.fillItem
        rw [hsh, hr]
        simp only [bind, Except.bind]
        rw [if_pos hf, if_pos (NDArray.stretch_shape _ _).symm]
      have e2 : store W h ix x = fill W h ix (x.stretch (viewShape rs)) := by
        unfold store fill Mem.World.assign
        rw [hy]
        dsimp only
        rw [dataOf_get hy]
        dsimp only
        rw [if_neg (by rw [hw]; exact Bool.noConfusion), hr]
        dsimp only
        rw [if_pos hf, if_pos (NDArray.stretch_shape _ _).symm, if_neg (by rw [hw]; exact Bool.noConfusion), if_pos (fits_of (NDArray.stretch_shape _ _))]
        have : (x.stretch (viewShape rs)).stretch (viewShape rs) = x.stretch (viewShape rs) := if_pos (NDArray.stretch_shape _ _)
        rw [this]
      rw [e1, e2]
      exact fill_one H ix _
    · refine .inl ⟨.valueError, ?_, ?_⟩
      · unfold NDArray.setItem
        rw [hsh, hr]
        simp only [bind, Except.bind]
        rw [if_neg hf]
      · unfold store Mem.World.assign
        rw [hy]
        dsimp only
        rw [dataOf_get hy]
        dsimp only
        rw [if_neg (by rw [hw]; exact Bool.noConfusion), hr]
        dsimp only
        rw [if_neg hf]

/-- The quantity is now in memory; nothing else has changed. -/
def Stored (h : Nat) (W : World α) (q : Quantity α) (W1 : World α) : Prop :=
  quantities W1 h = q ∧ OnlyCells (fun k _ => k = h) W W1

theorem held_value {W : World α} {h : Nat} (H : Held W [h]) : value W h = .ok (quantities W h) :=
  H.value (List.mem_singleton.2 rfl)

theorem ref_fill {W : World α} {h : Nat} (H : Held W [h]) (ix : List Ix) (a : NDArray α) :
    RefC W (fun q (_ : Unit) W1 => Stored h W q W1)
      (CollM.lift (do let d ← (quantities W h).data.fillItem ix a; return { quantities W h with data := d })) (HC.fill h ix a) := by
  intro n
  unfold HC.fill
  rcases fill_one H ix a with ⟨e, h1, h2⟩ | ⟨d, W1, h1, h2, h3, h4⟩
  · rw [h1, h2]; exact .ret ⟨rfl, rfl⟩
  · rw [h1, h2]; exact .ret ⟨rfl, (), rfl, h3, h4⟩

theorem ref_store {W : World α} {h : Nat} (H : Held W [h]) (ix : List Ix) (a : NDArray α) :
    RefC W (fun q (_ : Unit) W1 => Stored h W q W1)
      (CollM.lift (do let d ← (quantities W h).data.setItem ix a; return { quantities W h with data := d })) (HC.store h ix a) := by
  intro n
  unfold HC.store
  rcases store_one H ix a with ⟨e, h1, h2⟩ | ⟨d, W1, h1, h2, h3, h4⟩
  · rw [h1, h2]; exact .ret ⟨rfl, rfl⟩
  · rw [h1, h2]; exact .ret ⟨rfl, (), rfl, h3, h4⟩

theorem ref_fillView {W : World α} {h : Nat} (H : Held W [h]) (a : NDArray α) :
    RefC W (fun q (_ : Unit) W1 => Stored h W q W1) (CollM.lift ((quantities W h).fillView a)) (fillView h a) := by
  unfold Quantity.fillView fillView
  refine RefC.quantity (held_value H) ?_
  by_cases h0 : (quantities W h).origin.length = 0
  · rw [if_pos h0]
    dsimp only
    rw [if_pos h0, lift_bind]
    refine RefC.bind (RefC.lift W _) ?_
    rintro _ ix _ ⟨rfl, rfl, -⟩
    exact ref_fill H ix a
  · rw [if_neg h0]
    dsimp only
    rw [if_neg h0, lift_bind]
    refine RefC.bind (RefC.lift W _) ?_
    rintro _ ix _ ⟨rfl, rfl, -⟩
    exact ref_fill H ix a

theorem Stored.held {h : Nat} {W W1 : World α} {q : Quantity α} (hs : Stored h W q W1) (H : Held W [h]) : Held W1 [h] :=
  H.congr hs.2.arrs hs.2.objs

theorem ref_gatherStore (c : Comm) {W : World α} {h : Nat} (H : Held W [h]) (bs : List (Int × NDArray α)) :
    RefC W (fun q (_ : Unit) W1 => Stored h W q W1) (CollM.lift (FV3.gatherStore c bs (quantities W h))) (gatherStore c h bs) := by
  induction bs generalizing W with
  | nil => exact RefC.pure ⟨rfl, OnlyCells.refl _ _⟩
  | cons p bs ih =>
    obtain ⟨r, a⟩ := p
    unfold FV3.gatherStore gatherStore
    refine RefC.quantity (held_value H) ?_
    rw [lift_bind]
    refine RefC.bind (RefC.lift W _) ?_
    rintro _ ix _ ⟨rfl, rfl, -⟩
    by_cases h0 : a.shape.length = 0
    · rw [if_pos h0, if_pos h0]
      exact RefC.raise _
    · rw [if_neg h0, if_neg h0, lift_bind]
      unfold Quantity.viewSet
      rw [lift_bind, lift_assoc]
      refine RefC.bind (RefC.lift _ _) ?_
      rintro _ ix' _ ⟨rfl, rfl, -⟩
      refine RefC.bind (ref_store H ix' a) ?_
      rintro q _ W1 hs
      have h2 := ih (hs.held H)
      rw [hs.1] at h2
      exact h2.mono fun q' _ W2 hs2 => ⟨hs2.1, hs.2.trans hs2.2⟩

theorem ref_scatter (c : Comm) (junk : List Nat → α) {W : World α} {r : Int} {send recv : Nat} (H : Held W [recv])
    (hv : r = ROOT_RANK → value W send = .ok (quantities W send)) :
    RefC W (fun q (_ : Unit) W1 => Stored recv W q W1)
      (FV3.scatter c junk r (some (quantities W send)) (some (quantities W recv))) (scatter c r (some send) recv) := by
  unfold FV3.scatter scatter
  by_cases h0 : r = ROOT_RANK
  · rw [if_pos h0, if_pos h0]
    refine RefC.quantity (hv h0) ?_
    refine RefC.bind (RefC.coll W _) ?_
    rintro _ m W1 ⟨rfl, e⟩
    subst W1
    refine RefC.bind (RefC.lift W _) ?_
    rintro _ md W1 ⟨rfl, e, -⟩
    subst W1
    refine RefC.bind (RefC.lift W _) ?_
    rintro _ shape W1 ⟨rfl, e, -⟩
    subst W1
    refine RefC.quantity (hv h0) ?_
    refine RefC.skip (a := quantities W recv) rfl ?_
    refine RefC.bind (RefC.lift W _) ?_
    rintro _ blocks W1 ⟨rfl, e, -⟩
    subst W1
    cases blocks with
    | nil => exact RefC.raise _
    | cons own others =>
      refine RefC.bind (RefC.coll W _) ?_
      rintro _ _ W1 ⟨-, e⟩
      subst W1
      exact ref_fillView H own
  · rw [if_neg h0, if_neg h0]
    refine RefC.bind (RefC.coll W _) ?_
    rintro _ m W1 ⟨rfl, e⟩
    subst W1
    refine RefC.bind (RefC.lift W _) ?_
    rintro _ md W1 ⟨rfl, e, -⟩
    subst W1
    refine RefC.bind (RefC.lift W _) ?_
    rintro _ shape W1 ⟨rfl, e, -⟩
    subst W1
    refine RefC.skip (a := quantities W recv) rfl ?_
    refine RefC.bind (RefC.coll W _) ?_
    rintro _ d W1 ⟨rfl, e⟩
    subst W1
    refine RefC.bind (RefC.lift W _) ?_
    rintro _ a W1 ⟨rfl, e, -⟩
    subst W1
    exact ref_fillView H a

theorem ref_gather (c : Comm) (junk : List Nat → α) {W : World α} {r : Int} {send recv : Nat}
    (H : r = ROOT_RANK → Held W [recv]) (hv : value W send = .ok (quantities W send)) :
    RefC W (fun q (_ : Unit) W1 => (r = ROOT_RANK → ∃ p, q = some p ∧ Stored recv W p W1) ∧ (r ≠ ROOT_RANK → W1 = W))
      (FV3.gather c junk r (quantities W send) (some (quantities W recv))) (gather c r send recv) := by
  unfold FV3.gather gather
  by_cases h0 : r = ROOT_RANK
  · rw [if_pos h0, if_pos h0]
    refine RefC.quantity hv ?_
    refine RefC.bind (RefC.lift W _) ?_
    rintro _ own W1 ⟨rfl, e, -⟩
    subst W1
    refine RefC.bind (RefC.coll W _) ?_
    rintro _ ms W1 ⟨rfl, e⟩
    subst W1
    refine RefC.bind (RefC.lift W _) ?_
    rintro _ blocks W1 ⟨rfl, e, -⟩
    subst W1
    refine RefC.skip (a := quantities W recv) rfl ?_
    exact RefC.map_left some (ref_gatherStore c (H h0) _) fun q _ W1 hs => ⟨fun _ => ⟨q, rfl, hs⟩, fun h => absurd h0 h⟩
  · rw [if_neg h0, if_neg h0]
    refine RefC.quantity hv ?_
    refine RefC.bind (RefC.lift W _) ?_
    rintro _ own W1 ⟨rfl, e, -⟩
    subst W1
    exact RefC.map_left (fun _ => none) (RefC.coll W _) fun _ _ W1 hs => ⟨fun h => absurd h h0, fun _ => hs.2⟩

/-! ### All ranks -/

/-- The programs take the ranks from memory `W` to `W'`. -/
def AllH (buf : Buffering) (c : Comm) (p : Int → HC α Unit) (n n' : Nat) (W W' : Int → World α) : Prop :=
  ∃ plan, Seg buf c.ranks n n' plan ∧ ∀ r ∈ c.ranks, Real (p r (W r, n)) ((plan r).map (·.2)) (.ok (), (W' r, n'))

omit [Inhabited α] in
theorem AllH.of {buf : Buffering} {c : Comm} {p : Int → CollM α A} {p' : Int → HC α Unit} {n n' : Nat} {out : Int → A}
    (h : AllDo buf c p n n' fun r => .ok (out r)) {W : Int → World α} {Q : Int → A → Unit → World α → Prop}
    (hm : ∀ r ∈ c.ranks, RefC (W r) (Q r) (p r) (p' r)) :
    ∃ W', AllH buf c p' n n' W W' ∧ (∀ r ∈ c.ranks, Q r (out r) () (W' r)) ∧ ∀ r, r ∉ c.ranks → W' r = W r := by
  obtain ⟨plan, hs, hr⟩ := h
  have key : ∀ r, ∃ W1 : World α, (r ∈ c.ranks → Real (p' r (W r, n)) ((plan r).map (·.2)) (.ok (), (W1, n')) ∧ Q r (out r) () W1) ∧
      (r ∉ c.ranks → W1 = W r) := by
    intro r
    by_cases hm' : r ∈ c.ranks
    · obtain ⟨⟨y1, W1, k⟩, h1, h2, b, h3, h4⟩ := Real.mirror (hr r hm') (hm r hm' n)
      dsimp only at h2 h3 h4
      subst h2 h3
      exact ⟨W1, fun _ => ⟨h1, h4⟩, fun h => absurd hm' h⟩
    · exact ⟨W r, fun h => absurd h hm', fun _ => rfl⟩
  choose W' k1 k2 using key
  exact ⟨W', ⟨plan, hs, fun r h => (k1 r h).1⟩, fun r h => (k1 r h).2, k2⟩

omit [Inhabited α] in
theorem AllH.bind {buf : Buffering} {c : Comm} {p q : Int → HC α Unit} {n n' n'' : Nat} {W W1 W' : Int → World α}
    (h : AllH buf c p n n' W W1) (h' : AllH buf c q n' n'' W1 W') : AllH buf c (fun r => p r >>= fun _ => q r) n n'' W W' := by
  obtain ⟨p1, s1, r1⟩ := h
  obtain ⟨p2, s2, r2⟩ := h'
  refine ⟨_, s1.append s2, fun r hr => ?_⟩
  rw [List.map_append]
  exact Real.bind (r1 r hr) (r2 r hr)

/-! ### What is known of the arguments -/

theorem axes_data {W : World α} {h : Nat} (hq : 0 < (quantities W h).ndim) :
    ∃ x, dataOf W h = .ok x := by
  cases hd : dataOf W h with
  | ok x => exact ⟨x, rfl⟩
  | error e =>
    have : quantities W h = ⟨⟨[], fun _ => default⟩, [], "", [], []⟩ := by
      unfold quantities value
      rw [hd]
      rfl
    rw [this] at hq
    exact absurd hq (Nat.lt_irrefl 0)

theorem axes_value {W : World α} {h : Nat} (hq : 0 < (quantities W h).ndim) : value W h = .ok (quantities W h) := by
  obtain ⟨x, hx⟩ := axes_data hq
  rw [value_eq hx, quantities_eq hx]

theorem axes_held {W : World α} {h : Nat} (hw : WF g W) (hq : 0 < (quantities W h).ndim) (hwr : W.writeable h .data = true) :
    Held W [h] := by
  obtain ⟨x, hx⟩ := axes_data hq
  refine (usable_held hw ⟨fun k hk => ?_, fun k hk => ?_, fun k hk k' hk' hne =>
    absurd ((List.mem_singleton.1 hk).trans (List.mem_singleton.1 hk').symm) hne⟩).1
  · rw [List.mem_singleton.1 hk]
    have hd := hx
    unfold dataOf at hd
    split at hd
    · cases hd
    · next q ho =>
      split at hd
      · cases hd
      · cases hd
        refine ⟨q.info, by unfold Mem.World.infoOf; rw [ho]; rfl, fun e => ?_⟩
        rw [quantities_eq hx] at hq
        have : (0 : Nat) < q.info.dims.length := hq
        rw [e] at this
        exact absurd this (Nat.lt_irrefl 0)
    · cases hd
  · rw [List.mem_singleton.1 hk]
    exact hwr

/-- Stores which leave the rest of the quantity. -/
theorem only_compute {W W1 : World α} {h : Nat} (hc : OnlyCells (fun k _ => k = h) W W1)
    (hr : (quantities W h).Refilled (quantities W1 h)) : OnlyCompute h W W1 := by
  refine ⟨hc.next, hc.arrs, hc.objs, fun a => ?_⟩
  rcases hc.mem a with e | ⟨k, idx, rfl, x, hx, hb, ha⟩
  · exact .inl e
  · by_cases hi : (quantities W k).InCompute idx
    · exact .inr ⟨k, idx, ⟨rfl, hi⟩, x, hx, hb, ha⟩
    · left
      have h1 := hr.outside idx (by rw [quantities_eq hx]; exact hb) hi
      rw [quantities_eq hx, quantities_eq ((dataOf_congr hc.arrs hc.objs k).trans hx)] at h1
      change (if _ then _ else _) = (if _ then _ else _) at h1
      have hb' : InB (x.2.1.view.read W.mem).shape idx := hb
      have hb'' : InB (x.2.1.view.read W1.mem).shape idx := hb
      rw [if_pos hb', if_pos hb''] at h1
      rw [← ha]
      exact h1

end
end Heap
end FV3
