import Verif.Props.HeapStates

/-!
# C87: states with fields and winds
-/

namespace FV3
namespace Heap
open Mem (World Gt4py Reachable)
variable {α : Type} [Inhabited α] [Neg α] {g : Gt4py} {l : Layout}

theorem PartStates.scatterFits {W : Int → World α} {D : Int → Nat → HDict} {a b : Nat} {ns : List String} {sv q : String → Nat}
    {p : String → Parts} {ky kx : String → Nat} {n h : Int} (M : PartStates l W D a b ns sv q p ky kx n h) :
    ScatterFits (.cube l) W (D 0 a) (fun r => D r b) sv fun _ => q where
  time := M.time
  nodup := fun r hr => (M.parts r ((cube_ranks l r).1 hr)).1
  send := fun v hv hne => M.global.2 v ((M.names v).2 ⟨hv, hne⟩)
  recv := fun v hv hne r hr => (M.parts r ((cube_ranks l r).1 hr)).2 v ((M.names v).2 ⟨hv, hne⟩)
  fits := fun v hv hne => ⟨_, _, M.fits v ((M.names v).2 ⟨hv, hne⟩)⟩

theorem VectorField.at {W W1 : Int → World α} {x y ky kx : Nat} {n h : Int} (S : VectorField l (fun r => quantities (W r)) x y ky kx n h)
    (mx : ∀ r ∈ allRanks l, SameMeta (quantities (W r) x) (quantities (W1 r) x))
    (my : ∀ r ∈ allRanks l, SameMeta (quantities (W r) y) (quantities (W1 r) y)) :
    VectorField l (fun r => quantities (W1 r)) x y ky kx n h := by
  have S' : VectorField l (fun r k => if k = 0 then quantities (W1 r) x else quantities (W1 r) y) 0 1 ky kx n h :=
    VectorField.same (m := fun r k => if k = 0 then quantities (W r) x else quantities (W r) y)
      ⟨S.readyX, S.readyY, S.dimsX, S.dimsY, S.ndim, S.other, S.staggerY, S.staggerX⟩ fun r hr k => by
        split
        · exact mx r hr
        · exact my r hr
  exact ⟨S'.readyX, S'.readyY, S'.dimsX, S'.dimsY, S'.ndim, S'.other, S'.staggerY, S'.staggerX⟩

theorem Item.Fits.at {W W1 : Int → World α} {q ky kx : String → Nat} {n h : Int} {i : Item} (S : i.Fits l W q ky kx n h)
    (me : ∀ v ∈ i.names, ∀ r ∈ allRanks l, SameMeta (quantities (W r) (q v)) (quantities (W1 r) (q v))) : i.Fits l W1 q ky kx n h := by
  cases i with
  | scalar v => exact ScalarField.at S (me v List.mem_cons_self)
  | wind x y => exact ⟨VectorField.at S.1 (me x List.mem_cons_self) (me y (List.mem_cons_of_mem _ List.mem_cons_self)), S.2⟩

theorem Usable.sub {W : World α} {xs ys : List Nat} (h : Usable W ys) (hs : ∀ k ∈ xs, k ∈ ys) : Usable W xs :=
  ⟨fun k hk => h.quantity k (hs k hk), fun k hk => h.writeable k (hs k hk), fun k hk k' hk' => h.apart k (hs k hk) k' (hs k' hk')⟩

theorem Item.ready {W : Int → World α} {D : Int → Nat → HDict} {q ky kx : String → Nat} {n h : Int} {i : Item} (hh : 0 < h) (hn : h ≤ n)
    (hu : ∀ r ∈ allRanks l, Usable (W r) (i.names.map q)) (S : i.Fits l W q ky kx n h) : SReady l W D (i.update q h : SCall α) := by
  cases i with
  | scalar v =>
    intro op ho
    cases ho
    exact ⟨hu, ky v, kx v, n, hh, hn, S⟩
  | wind x y =>
    intro op ho
    cases ho
    exact ⟨hu, ky x, kx x, n, hh, hn, S.1⟩

/-- One update. -/
theorem item_step (hl : FloatSafe l) (hsq : l.y = l.x) {q ky kx : String → Nat} {n h : Int} {comp : String → Comp} {F : String → Fld α}
    {i : Item} {W W' : Int → World α} {D D' : Int → Nat → HDict} (hh : 0 < h) (hn : h ≤ n)
    (hq : ∀ v ∈ i.names, ∀ w ∈ i.names, v ≠ w → q v ≠ q w) (hnd : i.names.Nodup)
    (S : i.Fits l W q ky kx n h) (hm : i.Means comp F)
    (hF : ∀ v ∈ i.names, ∀ r ∈ allRanks l, Holds l n r (quantities (W r) (q v)) (comp v) (ky v) (kx v) h .compute (F v))
    (st : SStep g l (i.update q h) W D W' D') :
    (∀ r ∈ allRanks l, D' r = D r ∧ OnlyCells (fun k _ => ∃ v ∈ i.names, k = q v) (W r) (W' r)) ∧
      ∀ v ∈ i.names, ∀ r ∈ allRanks l, Holds l n r (quantities (W' r) (q v)) (comp v) (ky v) (kx v) h .halo (F v) := by
  cases i with
  | scalar v =>
    obtain ⟨⟨m', u1, u2⟩, hD⟩ := st
    refine ⟨fun r hr => ⟨hD r hr, ?_⟩, fun w hwm r hr => ?_⟩
    · have o := (u2 r hr).2
      exact ⟨o.next, o.arrs, o.objs, fun a => (o.mem a).imp id fun ⟨k, idx, hp, hc⟩ =>
        ⟨k, idx, ⟨v, List.mem_cons_self, by simpa [Op.qs] using hp⟩, hc⟩⟩
    · have : w = v := by simpa [Item.names] using hwm
      subst this
      have hm' : comp w = .scalar := hm
      have hF' := hF w List.mem_cons_self
      rw [hm'] at hF' ⊢
      rw [(u2 r hr).1 (q w) (by simp [Op.qs])]
      exact update_scalar hl.xpos hsq hh hn S u1 hF' hr
  | wind x y =>
    obtain ⟨⟨m', u1, u2⟩, hD⟩ := st
    obtain ⟨S, ey, ex⟩ := S
    obtain ⟨cx, cy, eF, hV⟩ := hm
    have hne : x ≠ y := fun e => by
      subst e
      simp [Item.names] at hnd
    have hx := hF x List.mem_cons_self
    have hy := hF y (List.mem_cons_of_mem _ List.mem_cons_self)
    rw [cx] at hx
    rw [cy, ey, ex, eF] at hy
    have hqq := hq x List.mem_cons_self y (List.mem_cons_of_mem _ List.mem_cons_self) hne
    refine ⟨fun r hr => ⟨hD r hr, ?_⟩, fun w hwm r hr => ?_⟩
    · have o := (u2 r hr).2
      refine ⟨o.next, o.arrs, o.objs, fun a => (o.mem a).imp id fun ⟨k, idx, hp, hc⟩ => ⟨k, idx, ?_, hc⟩⟩
      have hp : k = q x ∨ k = q y := by simpa [Op.qs] using hp
      rcases hp with e | e
      · exact ⟨x, List.mem_cons_self, e⟩
      · exact ⟨y, List.mem_cons_of_mem _ List.mem_cons_self, e⟩
    · have hwm : w = x ∨ w = y := by simpa [Item.names] using hwm
      have := update_wind hl.xpos hsq hh hn hqq S u1 hV hx hy hr
      rcases hwm with e | e
      · subst e
        rw [cx, (u2 r hr).1 (q w) (by simp [Op.qs])]
        exact this.1
      · subst e
        rw [cy, ey, ex, eF, (u2 r hr).1 (q w) (by simp [Op.qs])]
        exact this.2

theorem items_good {q ky kx : String → Nat} {n h : Int} {items : List Item} (hh : 0 < h) (hn : h ≤ n) {W : Int → World α}
    {D : Int → Nat → HDict} (hw : ∀ r ∈ allRanks l, WF g (W r))
    (hu : ∀ r ∈ allRanks l, Usable (W r) ((items.flatMap Item.names).map q)) (S : ∀ i ∈ items, i.Fits l W q ky kx n h)
    {rest : List (SCall α)} (hrest : ∀ W1 D1, (∀ r ∈ allRanks l, Keeps (W r) (W1 r)) → (∀ r ∈ allRanks l, WF g (W1 r)) →
      (∀ r ∈ allRanks l, D1 r = D r) → SGood g l rest W1 D1) :
    SGood g l ((items.map fun i => i.update q h) ++ rest) W D := by
  induction items generalizing W D with
  | nil => exact hrest W D (fun _ _ _ _ h _ => h) hw fun _ _ => rfl
  | cons i items ih =>
    have sub : ∀ k ∈ i.names.map q, k ∈ ((i :: items).flatMap Item.names).map q := fun k hk => by
      rw [List.flatMap_cons, List.map_append]
      exact List.mem_append_left _ hk
    refine ⟨Item.ready hh hn (fun r hr => (hu r hr).sub sub) (S i List.mem_cons_self), fun W1 D1 st => ?_⟩
    have kk := fun r hm => SStep.keeps st (r := r) hm (hw r hm)
    have hD : ∀ r ∈ allRanks l, D1 r = D r := by
      cases i with
      | scalar v => exact st.2
      | wind x y => exact st.2
    refine ih (fun r hr => (kk r hr).2) (fun r hr => ((hu r hr).keeps (hw r hr) (kk r hr).1).sub fun k hk => ?_) (fun j hj =>
      (S j (List.mem_cons_of_mem _ hj)).at fun v hv r hr => usable_meta (hu r hr) (hw r hr) (kk r hr).1 ?_)
      fun W2 D2 k2 w2 d2 => hrest W2 D2 (fun r hm => (kk r hm).1.trans' (k2 r hm)) w2 fun r hm => (d2 r hm).trans (hD r hm)
    · rw [List.flatMap_cons, List.map_append]
      exact List.mem_append_right _ hk
    · exact List.mem_map_of_mem (List.mem_flatMap.2 ⟨j, List.mem_cons_of_mem _ hj, hv⟩)

/-- The updates of fields and winds which are apart. -/
theorem items_run (hl : FloatSafe l) (hsq : l.y = l.x) {q ky kx : String → Nat} {n h : Int} {comp : String → Comp} {F : String → Fld α}
    {items : List Item} {W W' : Int → World α} {D D' : Int → Nat → HDict} (hh : 0 < h) (hn : h ≤ n)
    (hnd : (items.flatMap Item.names).Nodup)
    (hq : ∀ v ∈ items.flatMap Item.names, ∀ w ∈ items.flatMap Item.names, v ≠ w → q v ≠ q w)
    (hw : ∀ r ∈ allRanks l, WF g (W r)) (hu : ∀ r ∈ allRanks l, Usable (W r) ((items.flatMap Item.names).map q))
    (S : ∀ i ∈ items, i.Fits l W q ky kx n h) (hm : ∀ i ∈ items, i.Means comp F)
    (hF : ∀ v ∈ items.flatMap Item.names, ∀ r ∈ allRanks l,
      Holds l n r (quantities (W r) (q v)) (comp v) (ky v) (kx v) h .compute (F v))
    (hrun : SRun g l (items.map fun i => i.update q h) W D W' D') :
    (∀ r ∈ allRanks l, D' r = D r ∧ OnlyCells (fun k _ => ∃ v ∈ items.flatMap Item.names, k = q v) (W r) (W' r)) ∧
      ∀ v ∈ items.flatMap Item.names, ∀ r ∈ allRanks l, Holds l n r (quantities (W' r) (q v)) (comp v) (ky v) (kx v) h .halo (F v) := by
  induction items generalizing W D with
  | nil =>
    refine ⟨fun r hr => ⟨(hrun r hr).2, ?_⟩, fun v hv => by cases hv⟩
    rw [(hrun r hr).1]
    exact OnlyCells.refl _ _
  | cons i items ih =>
    obtain ⟨W1, D1, st, hrun⟩ := hrun
    have kk := fun r hm => SStep.keeps st (r := r) hm (hw r hm)
    have hu1 := fun r hm => (hu r hm).keeps (hw r hm) (kk r hm).1
    rw [List.flatMap_cons] at hnd hq hF hu hu1 ⊢
    have L : ∀ {v}, v ∈ i.names → v ∈ i.names ++ items.flatMap Item.names := fun h => List.mem_append_left _ h
    have R : ∀ {v}, v ∈ items.flatMap Item.names → v ∈ i.names ++ items.flatMap Item.names := fun h => List.mem_append_right _ h
    obtain ⟨n1, n2, n3⟩ := List.nodup_append.1 hnd
    obtain ⟨a1, a2⟩ := item_step hl hsq hh hn (fun v hv w hw => hq v (L hv) w (L hw)) n1 (S i List.mem_cons_self) (hm i List.mem_cons_self)
      (fun v hv => hF v (L hv)) st
    have same : ∀ w ∈ items.flatMap Item.names, ∀ r ∈ allRanks l, quantities (W1 r) (q w) = quantities (W r) (q w) := fun w hwm r hr =>
      (a1 r hr).2.untouched fun idx a hca k idx' ⟨v, hv, e⟩ => by
        subst e
        exact (hu r hr).apart (q w) (List.mem_map_of_mem (R hwm)) (q v) (List.mem_map_of_mem (L hv))
          (hq w (R hwm) v (L hv) fun e => n3 v hv w hwm e.symm) idx idx' a hca
    obtain ⟨i1, i2⟩ := ih n2 (fun v hv w hw => hq v (R hv) w (R hw)) (fun r hr => (kk r hr).2)
      (fun r hr => (hu1 r hr).sub fun k hk => by rw [List.map_append]; exact List.mem_append_right _ hk)
      (fun j hj => (S j (List.mem_cons_of_mem _ hj)).at fun v hv r hr => by
        rw [same v (List.mem_flatMap.2 ⟨j, hj, hv⟩) r hr]; exact SameMeta.refl _)
      (fun j hj => hm j (List.mem_cons_of_mem _ hj))
      (fun w hwm r hr => by rw [same w hwm r hr]; exact hF w (R hwm) r hr) hrun
    refine ⟨fun r hr => ⟨(i1 r hr).1.trans (a1 r hr).1, ?_⟩, fun w hwm r hr => ?_⟩
    · have o1 := (a1 r hr).2
      have o2 := (i1 r hr).2
      have b1 : OnlyCells (fun k _ => ∃ v ∈ i.names ++ items.flatMap Item.names, k = q v) (W r) (W1 r) :=
        ⟨o1.next, o1.arrs, o1.objs, fun a => (o1.mem a).imp id fun ⟨k, idx, ⟨w, hwm, e⟩, hc⟩ => ⟨k, idx, ⟨w, L hwm, e⟩, hc⟩⟩
      exact b1.trans ⟨o2.next, o2.arrs, o2.objs, fun a => (o2.mem a).imp id fun ⟨k, idx, ⟨w, hwm, e⟩, hc⟩ => ⟨k, idx, ⟨w, R hwm, e⟩, hc⟩⟩
    · rcases List.mem_append.1 hwm with hv | hv
      · have : quantities (W' r) (q w) = quantities (W1 r) (q w) := (i1 r hr).2.untouched fun idx a hca k idx' ⟨u, hu', e⟩ => by
          subst e
          exact (hu1 r hr).apart (q w) (List.mem_map_of_mem (L hv)) (q u) (List.mem_map_of_mem (R hu'))
            (hq w (L hv) u (R hu') (n3 w hv u hu')) idx idx' a hca
        rw [this]
        exact a2 w hv r hr
      · exact i2 w hv r hr

/-- **C87**: if the global quantities of a dictionary of the root hold scalar fields and the components of winds, then after
`scatter_state`, halo updates of the fields and vector halo updates of the winds, in any order, the quantities of all ranks hold the
fields and the components of the winds along the axes of their own tile, also in their halos (but not across the corners of the
cube), even if they share memory with the global quantities of their name; and their dictionaries have the time of the root's. -/
theorem C87_winds (hl : FloatSafe l) (hsq : l.y = l.x) {W : Int → World α} {D : Int → Nat → HDict} {a b : Nat} {ns : List String}
    {sv q : String → Nat} {p : String → Parts} {ky kx : String → Nat} {n h : Int} {comp : String → Comp} {F : String → Fld α}
    {items : List Item} (hW : ∀ r ∈ allRanks l, Reachable g (W r)) (hh : 0 < h) (hn : h ≤ n)
    (M : PartStates l W D a b ns sv q p ky kx n h) (hi : (items.flatMap Item.names).Perm ns)
    (S : ∀ i ∈ items, i.Fits l W q ky kx n h) (hm : ∀ i ∈ items, i.Means comp F)
    (hF : ∀ v ∈ ns, GlobalHolds (quantities (W 0) (sv v)) (p v) (comp v) (ky v) (kx v) (l.x * n) (F v)) (buf : Buffering) :
    ∃ (W' : Int → World α) (D' : Int → Nat → HDict),
      ((statesNet g l (.scatterState a b :: items.map fun i => i.update q h) W D).Completes buf fun r => (.ok (), W' r, D' r)) ∧
      ∀ r ∈ allRanks l, (D' r b).get? "time" = (D 0 a).get? "time" ∧ ∀ v ∈ ns, (D' r b).get? v = some (.qty (q v)) ∧
        Holds l n r (quantities (W' r) (q v)) (comp v) (ky v) (kx v) h .halo (F v) := by
  have hw := fun r hr => (hW r hr).spec
  have mem : ∀ {v}, v ∈ items.flatMap Item.names ↔ v ∈ ns := hi.mem_iff
  have sub : ∀ k ∈ (items.flatMap Item.names).map q, k ∈ ns.map q := fun k hk => (hi.map q).mem_iff.1 hk
  have S1 : ∀ {W1 : Int → World α}, (∀ r ∈ allRanks l, Keeps (W r) (W1 r)) → ∀ i ∈ items, i.Fits l W1 q ky kx n h := fun k1 i hi' =>
    (S i hi').at fun v hv r hr => usable_meta (M.usable r hr) (hw r hr) (k1 r hr)
      (List.mem_map_of_mem (mem.1 (List.mem_flatMap.2 ⟨i, hi', hv⟩)))
  obtain ⟨W', D', ⟨W1, D1, st, run⟩, h2⟩ := states_good (g := g) (W := W) (D := D)
    (calls := .scatterState a b :: items.map fun i => i.update q h) hl hsq hW
    ⟨⟨sv, _, M.scatterFits⟩, fun W1 D1 st => by
      have kk := fun r hm => SStep.keeps st (r := r) hm (hw r hm)
      have := items_good (g := g) (D := D1) (rest := []) hh hn (fun r hr => (kk r hr).2)
        (fun r hr => ((M.usable r hr).keeps (hw r hr) (kk r hr).1).sub sub) (S1 fun r hr => (kk r hr).1) fun _ _ _ _ _ => trivial
      rwa [List.append_nil] at this⟩ buf
  have kk := fun r hm => SStep.keeps st (r := r) hm (hw r hm)
  obtain ⟨-, sc⟩ := M.scattered hl hsq (by omega) hw hF st
  obtain ⟨h3, h4⟩ := items_run hl hsq hh hn (hi.nodup_iff.2 M.nodup) (fun v hv w hw => M.distinct v (mem.1 hv) w (mem.1 hw))
    (fun r hr => (kk r hr).2) (fun r hr => ((M.usable r hr).keeps (hw r hr) (kk r hr).1).sub sub) (S1 fun r hr => (kk r hr).1) hm
    (fun v hv r hr => (sc v (mem.1 hv) r hr).2) run
  refine ⟨W', D', h2, fun r hr => ?_⟩
  have eD : D' r b = withTime (D r b) ((D 0 a).get? "time") := by
    rw [(h3 r hr).1, st.2 r hr b, if_pos rfl]
  obtain ⟨t, ht⟩ := M.time
  have eg : ∀ v, (D' r b).get? v = if v = "time" then (D 0 a).get? "time" else (D r b).get? v := fun v => by
    rw [eD, ht, ← hSetTime_eq (M.parts r hr).1, get?_hSetTime _ (M.parts r hr).1]
  refine ⟨by rw [eg, if_pos rfl], fun v hv => ⟨?_, h4 v (mem.2 hv) r hr⟩⟩
  rw [eg, if_neg ((M.names v).1 hv).2]
  exact (M.parts r hr).2 v hv

/-- **C87**: and `gather_state` of the dictionaries received into the dictionary that was scattered leaves its quantities as samples of
the fields and winds, and the dictionary as it was, time included. -/
theorem C87_winds_back (hl : FloatSafe l) (hsq : l.y = l.x) {W : Int → World α} {D : Int → Nat → HDict} {a b : Nat} {ns : List String}
    {sv q : String → Nat} {p : String → Parts} {ky kx : String → Nat} {n h : Int} {comp : String → Comp} {F : String → Fld α}
    {items : List Item} (hW : ∀ r ∈ allRanks l, Reachable g (W r)) (hh : 0 < h) (hn : h ≤ n)
    (M : PartStates l W D a b ns sv q p ky kx n h) (hi : (items.flatMap Item.names).Perm ns)
    (S : ∀ i ∈ items, i.Fits l W q ky kx n h) (hm : ∀ i ∈ items, i.Means comp F) (hab : a ≠ b)
    (hb : ∀ r ∈ allRanks l, (D r b).keys = (D 0 b).keys) (hbn : ∀ v ∈ (D 0 b).keys, v ≠ "time" → v ∈ ns)
    (hwr : ∀ v ∈ ns, (W 0).writeable (sv v) .data = true)
    (hc : ∀ v ∈ ns, ∀ w ∈ ns, v ≠ w → Clear (W 0) (q v) (sv w) ∧ Clear (W 0) (sv v) (sv w))
    (hF : ∀ v ∈ ns, GlobalHolds (quantities (W 0) (sv v)) (p v) (comp v) (ky v) (kx v) (l.x * n) (F v)) (buf : Buffering) :
    ∃ (W' : Int → World α) (D' : Int → Nat → HDict),
      ((statesNet g l (.scatterState a b :: ((items.map fun i => i.update q h) ++ [.gatherState b a])) W D).Completes buf
        fun r => (.ok (), W' r, D' r)) ∧
      D' 0 a = D 0 a ∧ ∀ v ∈ ns, GlobalHolds (quantities (W' 0) (sv v)) (p v) (comp v) (ky v) (kx v) (l.x * n) (F v) := by
  have hw := fun r hr => (hW r hr).spec
  have nmem : ∀ {v}, v ∈ items.flatMap Item.names ↔ v ∈ ns := hi.mem_iff
  have sub : ∀ k ∈ (items.flatMap Item.names).map q, k ∈ ns.map q := fun k hk => (hi.map q).mem_iff.1 hk
  have S1 : ∀ {W1 : Int → World α}, (∀ r ∈ allRanks l, Keeps (W r) (W1 r)) → ∀ i ∈ items, i.Fits l W1 q ky kx n h := fun k1 i hi' =>
    (S i hi').at fun v hv r hr => usable_meta (M.usable r hr) (hw r hr) (k1 r hr)
      (List.mem_map_of_mem (nmem.1 (List.mem_flatMap.2 ⟨i, hi', hv⟩)))
  have h0mem : (0 : Int) ∈ (Comm.cube l).ranks := (mem_ranks _ 0).2 ⟨by omega, comm_size_pos (c := .cube l) hl⟩
  have h0 : (0 : Int) ∈ allRanks l := (cube_ranks l 0).1 h0mem
  obtain ⟨t, ht⟩ := M.time
  -- dictionaries after the scatter and the updates
  have dicts : ∀ (W1 : Int → World α) (D1 D2 : Int → Nat → HDict), SStep g l (.scatterState a b) W D W1 D1 → (∀ r ∈ allRanks l, D2 r = D1 r) →
      D2 0 a = D 0 a ∧ ∀ r ∈ allRanks l, D2 r b = withTime (D r b) ((D 0 a).get? "time") ∧
        ∀ v, (D2 r b).get? v = if v = "time" then (D 0 a).get? "time" else (D r b).get? v := by
    intro W1 D1 D2 st e
    refine ⟨by rw [e 0 h0, st.2 0 h0 a, if_neg hab], fun r hr => ?_⟩
    have eD : D2 r b = withTime (D r b) ((D 0 a).get? "time") := by rw [e r hr, st.2 r hr b, if_pos rfl]
    exact ⟨eD, fun v => by rw [eD, ht, ← hSetTime_eq (M.parts r hr).1, get?_hSetTime _ (M.parts r hr).1]⟩
  have mem : ∀ (W1 : Int → World α) (D1 D2 : Int → Nat → HDict), SStep g l (.scatterState a b) W D W1 D1 → (∀ r ∈ allRanks l, D2 r = D1 r) →
      ∀ v ∈ (D2 0 b).keys, v ≠ "time" → v ∈ ns := by
    intro W1 D1 D2 st e v hv hne
    obtain ⟨-, d2⟩ := dicts W1 D1 D2 st e
    obtain ⟨x, hx⟩ := (Dict.mem_keys_iff _ _).1 hv
    rw [(d2 0 h0).2, if_neg hne] at hx
    exact hbn v ((Dict.mem_keys_iff _ _).2 ⟨x, hx⟩) hne
  obtain ⟨W', D', ⟨W1, D1, st, run⟩, h2⟩ := states_good (g := g) (W := W) (D := D)
    (calls := .scatterState a b :: ((items.map fun i => i.update q h) ++ [.gatherState b a])) hl hsq hW
    ⟨⟨sv, _, M.scatterFits⟩, fun W1 D1 st => by
      have kk := fun r hm => SStep.keeps st (r := r) hm (hw r hm)
      refine items_good (g := g) (D := D1) hh hn (fun r hr => (kk r hr).2)
        (fun r hr => ((M.usable r hr).keeps (hw r hr) (kk r hr).1).sub sub) (S1 fun r hr => (kk r hr).1) fun W2 D2 k2 w2 e2 => ⟨?_, fun _ _ _ => trivial⟩
      obtain ⟨d1, d2⟩ := dicts W1 D1 D2 st e2
      have mm := mem W1 D1 D2 st e2
      refine ⟨fun _ => q, sv, ⟨fun r hr => ?_, ?_, fun v hv hne r hr => ?_, fun v hv hne => ?_, fun v hv hne => ?_⟩⟩
      · rw [(d2 r ((cube_ranks l r).1 hr)).1, (d2 0 h0).1]
        exact withTime_keys (hb r ((cube_ranks l r).1 hr)) _
      · rw [(d2 0 h0).1, ht, ← hSetTime_eq (M.parts 0 h0).1]
        unfold hSetTime
        cases t with
        | none => exact Dict.nodup_del _ _ (Dict.nodup_set _ _ _ (M.parts 0 h0).1)
        | some t => exact Dict.nodup_set _ _ _ (M.parts 0 h0).1
      · rw [(d2 r ((cube_ranks l r).1 hr)).2, if_neg hne]
        exact (M.parts r ((cube_ranks l r).1 hr)).2 v (mm v hv hne)
      · rw [d1]
        exact M.global.2 v (mm v hv hne)
      · have hv := mm v hv hne
        have : CFits (.cube l) (p v).dims (p v).cells W (.gather (fun _ => q v) (sv v)) :=
          ⟨⟨ky v, kx v, by rw [← M.dims v hv 0 h0]; exact (M.ready v hv 0 h0).axes⟩, (M.fits v hv).2.1, hwr v hv,
            fun r hr => ((M.fits v hv).2.2 r hr).1⟩
        exact ⟨_, _, this.kept h0mem fun r hr => (kk r ((cube_ranks l r).1 hr)).1.trans' (k2 r ((cube_ranks l r).1 hr))⟩⟩ buf
  obtain ⟨W2, D2, run2, W3, D3, sg, run3⟩ := srun_append run
  have kk := fun r hm => SStep.keeps st (r := r) hm (hw r hm)
  obtain ⟨sc1, sc⟩ := M.scattered hl hsq (by omega) hw hF st
  obtain ⟨h3, h4⟩ := items_run hl hsq hh hn (hi.nodup_iff.2 M.nodup) (fun v hv w hw => M.distinct v (nmem.1 hv) w (nmem.1 hw))
    (fun r hr => (kk r hr).2) (fun r hr => ((M.usable r hr).keeps (hw r hr) (kk r hr).1).sub sub) (S1 fun r hr => (kk r hr).1) hm
    (fun v hv r hr => (sc v (nmem.1 hv) r hr).2) run2
  obtain ⟨d1, d2⟩ := dicts W1 D1 D2 st fun r hr => (h3 r hr).1
  have mm := mem W1 D1 D2 st fun r hr => (h3 r hr).1
  have w2 : ∀ r ∈ allRanks l, WF g (W2 r) := fun r hr => (h3 r hr).2.wf (kk r hr).2
  have k2 : ∀ r ∈ allRanks l, Keeps (W r) (W2 r) := fun r hr => (kk r hr).1.trans' fun k y hy _ => by
    rw [dataOf_congr (h3 r hr).2.arrs (h3 r hr).2.objs]; exact hy
  have k3 := SStep.keeps sg h0 (w2 0 h0)
  obtain ⟨⟨pv, gv, T, grun⟩, gd⟩ := sg
  have hin : ∀ v ∈ ns, v ∈ (D2 0 b).keys ∧ v ≠ "time" := fun v hv =>
    ⟨(Dict.mem_keys_iff _ _).2 ⟨.qty (q v), by rw [(d2 0 h0).2, if_neg ((M.names v).1 hv).2]; exact (M.parts 0 h0).2 v hv⟩, ((M.names v).1 hv).2⟩
  have hmem : ∀ v, v ∈ (D2 0 b).keys.filter (· ≠ "time") ↔ v ∈ ns := fun v => by
    constructor
    · intro hv
      have hv := List.mem_filter.1 hv
      exact mm v hv.1 (by simpa using hv.2)
    · intro hv
      exact List.mem_filter.2 ⟨(hin v hv).1, by simpa using (hin v hv).2⟩
  have e1 : ∀ v ∈ ns, gv v = sv v := fun v hv => by
    have h1 := T.recv v (hin v hv).1 (hin v hv).2
    rw [d1, M.global.2 v hv] at h1
    exact (HVal.qty.inj (Option.some.inj h1)).symm
  have e2 : ∀ v ∈ ns, ∀ r ∈ (Comm.cube l).ranks, pv r v = q v := fun v hv r hr => by
    have h1 := T.send v (hin v hv).1 (hin v hv).2 r hr
    rw [(d2 r ((cube_ranks l r).1 hr)).2, if_neg (hin v hv).2, (M.parts r ((cube_ranks l r).1 hr)).2 v hv] at h1
    exact (HVal.qty.inj (Option.some.inj h1)).symm
  refine ⟨W', D', h2, ?_, fun v hv => ?_⟩
  · rw [(run3 0 h0).2, gd 0 h0 a]
    by_cases hk : "time" ∈ (D2 0 b).keys
    · rw [if_pos ⟨rfl, rfl, hk⟩, d1]
      obtain ⟨x, hx⟩ := (Dict.mem_keys_iff _ _).1 hk
      rw [hx]
      rw [(d2 0 h0).2, if_pos rfl] at hx
      exact Dict.set_same hx
    · rw [if_neg fun x => hk x.2.2, d1]
  · rw [(run3 0 h0).1]
    have clr : ∀ i j, Clear (W 0) i j → Clear (W2 0) i j := fun i j x => (x.after (sc1 0 h0)).after (h3 0 h0).2
    have gg := gathers_global (g := g) (c := .cube l) (vdims := fun v => (p v).dims) (vcells := fun v => (p v).cells) hl
      (T.nodup.filter _) (fun r hr => w2 r ((cube_ranks l r).1 hr))
      (fun u hu => by
        have hu := (hmem u).1 hu
        have : CFits (.cube l) (p u).dims (p u).cells W (.gather (fun r => pv r u) (gv u)) :=
          ⟨⟨ky u, kx u, by rw [← M.dims u hu 0 h0]; exact (M.ready u hu 0 h0).axes⟩, by rw [e1 u hu]; exact (M.fits u hu).2.1,
            by rw [e1 u hu]; exact hwr u hu, fun r hr => by dsimp only; rw [e2 u hu r hr]; exact ((M.fits u hu).2.2 r hr).1⟩
        exact this.kept h0mem fun r hr => k2 r ((cube_ranks l r).1 hr))
      (fun u hu w hw' hne => by
        have hu := (hmem u).1 hu
        have hw' := (hmem w).1 hw'
        rw [e1 u hu, e1 w hw', e2 u hu 0 h0mem]
        exact ⟨clr _ _ (hc u hu w hw' hne).1, clr _ _ (hc u hu w hw' hne).2⟩) grun v ((hmem v).2 hv)
    rw [e1 v hv] at gg
    have hG : GatheredFrom (.cube l) (p v).dims (p v).cells (fun r => quantities (W2 r) (q v)) (quantities (W3 0) (sv v)) := by
      intro x hx
      obtain ⟨r, rel, hH, hpl, hv'⟩ := gg x hx
      have eq := e2 v hv r hH.1
      dsimp only at hv'
      rw [eq] at hv'
      dsimp only at hH
      rw [e2 v hv 0 h0mem] at hH
      exact ⟨r, rel, hH, hpl, hv'⟩
    obtain ⟨hpos, hg, hrs⟩ := M.fits v hv
    have me := fun r hr => usable_meta (M.usable r hr) (hw r hr) (k2 r hr) (List.mem_map_of_mem (f := q) hv)
    have r2 := fun r (hr : r ∈ allRanks l) => ((k2 r hr).rankShaped hpos (hrs r ((cube_ranks l r).2 hr)).1).1
    have g3 := (k3.1.globalShaped hpos ((k2 0 h0).globalShaped hpos hg).1).1
    exact gathered_holds (m := fun r => quantities (W2 r)) (q := q v) (h := h) (lv := .halo) hl hsq (by omega) (M.cells v hv).1 (M.cells v hv).2
      g3 (fun r hr => (me r hr).haloReady (M.ready v hv r hr)) (fun r hr => (me r hr).dims.trans (M.dims v hv r hr)) r2 hG rfl
      (h4 v (nmem.2 hv))

end Heap
end FV3
