import Verif.Props.Memory
import Verif.Props.Sizer
import Verif.Model.Allocator

/-!
# C58: parts of a program which do not refer to each other's variables are separate.  C32: allocated quantities, with any
backend, and their memory
-/

namespace FV3
namespace Mem
variable {α : Type} {g : Gt4py} {W : World α}

/-- **C58**: what exists cannot be changed by operations on what is made later. -/
theorem C58_frame (hW : Reachable g W) (ops : List (Op α)) (hon : ∀ op ∈ ops, ∀ k, op.on = some k → W.objs.length ≤ k)
    {k : Nat} (hk : k < W.objs.length) (via : Via) (ix : List Ix) :
    SameRead ((W.after g ops).get k via ix) (W.get k via ix) := by
  obtain ⟨bv, S, hs, hinv⟩ := hW.spec
  rw [hs.lenObj] at hon hk
  have tr : Trans (fun b => S.count ≤ b) S (S.run g ops).2 := by
    refine run_trans hinv (fun h => S.objs.length ≤ h) (fun h hh => hh) (fun h o' hge ho' => ?_) (fun b hb => hb) ops
      fun op hop h hh => hon op hop h hh
    have := (List.getElem?_eq_some_iff.1 ho').1
    omega
  have hk' : S.objs[k]? = some S.objs[k] := List.getElem?_eq_getElem hk
  refine (run_both hs ops k via ix).trans ?_
  rw [get_unaffected hinv (tr.facts hinv) hk' (fun via i w ht hw hle => ?_)]
  · exact (get_sim hs k via ix).symm
  · have := hinv.win i w hw
    have : S.count ≤ w.block := hle
    omega

theorem run_len (hW : Reachable g W) (ops : List (Op α)) : W.objs.length ≤ (W.after g ops).objs.length := by
  obtain ⟨bv, S, hs, hinv⟩ := hW.spec
  obtain ⟨-, bv', hs'⟩ := run_sim hs ops
  rw [hs.lenObj, show (W.after g ops).objs.length = _ from hs'.lenObj]
  exact (run_any hinv ops).len

/-- **C58**: a part of a program, `ops`, which only refers to variables it has made itself, has memory of its own:
what the program does afterwards with other variables does not change what this part's variables show. -/
theorem C58_frame_new (hW : Reachable g W) (ops : List (Op α)) (hon : ∀ op ∈ ops, ∀ k, op.on = some k → W.objs.length ≤ k)
    (ops' : List (Op α))
    (hon' : ∀ op ∈ ops', ∀ k, op.on = some k → k < W.objs.length ∨ (W.after g ops).objs.length ≤ k)
    {k : Nat} (hk : W.objs.length ≤ k) (hk' : k < (W.after g ops).objs.length) (via : Via) (ix : List Ix) :
    SameRead (((W.after g ops).after g ops').get k via ix) ((W.after g ops).get k via ix) := by
  obtain ⟨bv, S, hs, hinv⟩ := hW.spec
  obtain ⟨-, bv1, hs1⟩ := run_sim hs ops
  have e1 : (W.after g ops).objs.length = (S.run g ops).2.objs.length := hs1.lenObj
  rw [e1] at hon' hk'
  rw [hs.lenObj] at hon hon' hk
  have tr : Trans (fun b => S.count ≤ b) S (S.run g ops).2 := by
    refine run_trans hinv (fun h => S.objs.length ≤ h) (fun h hh => hh) (fun h o' hge ho' => ?_) (fun b hb => hb) ops
      fun op hop h hh => hon op hop h hh
    have := (List.getElem?_eq_some_iff.1 ho').1
    omega
  have f := tr.facts hinv
  generalize hS1 : (S.run g ops).2 = S1 at *
  have tr' : Trans (fun b => b < S.count ∨ S1.count ≤ b) S1 (S1.run g ops').2 := by
    refine run_trans f.inv (fun h => h < S.objs.length ∨ S1.objs.length ≤ h) (fun h hh => .inr hh)
      (fun h o' hge ho' => ?_) (fun b hb => .inr hb) ops' fun op hop h hh => hon' op hop h hh
    have hlt := (List.getElem?_eq_some_iff.1 ho').1
    have hlt' : h < S.objs.length := by
      rcases hge with h1 | h1
      · exact h1
      · omega
    have ho : S.objs[h]? = some o' := by
      have h1 := List.getElem?_eq_getElem hlt'
      have h2 := f.old h _ h1
      rw [ho'] at h2
      rw [h1]
      exact h2.symm
    intro via i w ht hw
    obtain ⟨v, hv⟩ := (hinv.obj h o' ho).target ht
    obtain ⟨v', hv', e, -⟩ := f.ext i v hv
    rw [hw] at hv'
    cases hv'
    left
    rw [(core_shape e).1]
    exact hinv.win i v hv
  have hko : S1.objs[k]? = some S1.objs[k] := List.getElem?_eq_getElem hk'
  have hr := run_both hs1 ops' k via ix
  refine SameRead.trans hr ?_
  rw [get_unaffected f.inv (tr'.facts f.inv) hko (fun via i w ht hw hp => ?_)]
  · exact (get_sim hs1 k via ix).symm
  · have h1 : S.count ≤ w.block := f.new k _ hk hko via i w ht hw
    have h2 := f.inv.win i w hw
    rcases hp with h3 | h3 <;> omega

/-! ### QuantityFactory -/

theorem tryCall_eq (a : Allocator) (shape : List Int) (fill : List Nat → α) (origin : List Int) :
    a.tryCall shape fill origin = match npFull shape fill with
      | .error e => .error e
      | .ok x => match a with
        | .numpy => .ok (none, .array x false)
        | .storage b => .ok (some (List.replicate shape.length 0), .storage b x) := rfl

/-- **C32** (a limit): whatever the origin of the quantity, the default origin of the storages of a factory is zero along
every axis: the origin which the factory passes on is always dropped. -/
theorem C32_limit_default_origin (b : String) (shape : List Int) (fill : List Nat → α) (origin : List Int)
    {r : Option (List Int) × Op α} (h : (Allocator.storage b).tryCall shape fill origin = .ok r) :
    r.1 = some (List.replicate shape.length 0) := by
  rw [tryCall_eq] at h
  split at h
  · cases h
  · cases h
    rfl

/-- The operation of an allocator. -/
def Allocator.op (a : Allocator) (x : NDArray α) : Op α :=
  match a with
  | .numpy => .array x false
  | .storage b => .storage b x

/-- The object it makes. -/
def Allocator.sobj (a : Allocator) (i : Nat) : SObj :=
  match a with
  | .numpy => .array i
  | .storage b => .storage i b

theorem mk?_data {x : NDArray α} {dims : List Dim} {units : String} {origin extent : Option (List Int)} {q : Quantity α}
    (h : Quantity.mk? x dims units origin extent = .ok q) : x = q.data := by
  unfold Quantity.mk? at h
  simp only [bind, Except.bind, pure, Except.pure] at h
  split at h
  · cases h
  · cases h
    rfl

/-- An array or a storage, then a quantity of it. -/
theorem make_two (hW : Reachable g W) (a : Allocator) (ha : ∀ b, a = .storage b → g.kind b ≠ .other) (x : NDArray α) {dims : List Dim}
    {units : String} {origin extent : Option (List Int)} {q : Quantity α} (hq : Quantity.mk? x dims units origin extent = .ok q) :
    let op : Op α := a.op x
    let r := (W.step g op).2.step g (.quantity W.objs.length dims units origin extent none)
    r.1 = .ok () ∧ r.2.objs.length = W.objs.length + 2 ∧
      r.2.infoOf (W.objs.length + 1) = some ⟨dims, units, q.origin, q.extent, a.backend⟩ ∧
      (∀ ix, SameRead (r.2.get (W.objs.length + 1) .data ix) (x.getItem ix)) ∧
      ∀ ix, SameRead (r.2.get W.objs.length .self ix) (x.getItem ix) := by
  intro op r
  obtain ⟨bv, S, hs, hinv⟩ := hW.spec
  obtain ⟨-, bv1, hs1⟩ := step_sim hs op
  obtain ⟨hres, bv2, hs2⟩ := step_sim hs1 (.quantity W.objs.length dims units origin extent none)
  have hq' : ∃ q' : Quantity Unit, Quantity.mk? (⟨x.shape, fun _ => ()⟩ : NDArray Unit) dims units origin extent = .ok q' ∧
      q'.origin = q.origin ∧ q'.extent = q.extent := by
    unfold Quantity.mk? at hq ⊢
    simp only [bind, Except.bind, pure, Except.pure] at hq ⊢
    split at hq
    · cases hq
    · cases hq
      exact ⟨_, rfl, rfl, rfl⟩
  obtain ⟨q', hq', eo, ee⟩ := hq'
  -- in the specification
  obtain ⟨d, st, n, nwin, hSpec, hnw, hob, hlook⟩ : ∃ (d : Nat) (st : Option Nat) (n : Window) (S2 : SWorld α),
      (S.step g op).2.step g (.quantity W.objs.length dims units origin extent none) = (.ok (), S2) ∧
      S2.wins[d]? = some n ∧
      S2.objs = S.objs ++ [a.sobj S.wins.length] ++
        [.quantity d st ⟨dims, units, q.origin, q.extent, a.backend⟩] ∧
      S2.look n = x ∧ S2.wins[S.wins.length]? = some n := by
    rw [← eo, ← ee, hs.lenObj, step_quantity]
    cases a with
    | numpy =>
      have h0 : (S.step g (.array x false)).2.obj S.objs.length = .ok (.array S.wins.length) := by
        show (match (S.objs ++ [_])[S.objs.length]? with | some o => _ | none => _) = _
        simp
      have h1 : (S.step g (.array x false)).2.win S.wins.length = .ok (.whole S.count x.shape false) := by
        show (match (S.wins ++ [_])[S.wins.length]? with | some o => _ | none => _) = _
        simp
      refine ⟨S.wins.length, none, .whole S.count x.shape false, (S.step g (.array x false)).2.add
        (.quantity S.wins.length none ⟨dims, units, q'.origin, q'.extent, none⟩), ?_, ?_, rfl, ?_⟩
      · show SWorld.after _ (SWorld.obj (S.step g (.array x false)).2 _) _ = _
        rw [h0]
        show SWorld.ofArray g (S.step g (.array x false)).2 S.wins.length dims units origin extent none = _
        unfold SWorld.ofArray
        rw [h1]
        show SWorld.finish (S.step g (.array x false)).2 x.shape _ _ _ _ _ _ _ = _
        unfold SWorld.finish
        rw [hq']
        rfl
      · show (S.wins ++ [_])[S.wins.length]? = _
        simp
      · refine ⟨whole_look S x false, ?_⟩
        show (S.wins ++ [_])[S.wins.length]? = _
        simp
    | storage b =>
      have h0 : (S.step g (.storage b x)).2.obj S.objs.length = .ok (.storage S.wins.length b) := by
        show (match (S.objs ++ [_])[S.objs.length]? with | some o => _ | none => _) = _
        simp
      have h1 : (S.step g (.storage b x)).2.win S.wins.length = .ok (.whole S.count x.shape (g.kind b == .gpu)) := by
        show (match (S.wins ++ [_])[S.wins.length]? with | some o => _ | none => _) = _
        simp
      have hl : (S.step g (.storage b x)).2.wins.length = S.wins.length + 1 := by
        show (S.wins ++ [_]).length = _
        simp
      refine ⟨S.wins.length + 1, some S.wins.length, .whole S.count x.shape (g.kind b == .gpu),
        ((S.step g (.storage b x)).2.newWin (.whole S.count x.shape (g.kind b == .gpu))).add
        (.quantity (S.wins.length + 1) (some S.wins.length) ⟨dims, units, q'.origin, q'.extent, some b⟩), ?_, ?_, rfl, ?_, ?_⟩
      · show SWorld.after _ (SWorld.obj (S.step g (.storage b x)).2 _) _ = _
        rw [h0]
        show (if (none : Option String).isSome ∨ g.kind b = .other then _ else _) = _
        rw [if_neg (by simpa using ha b rfl)]
        show SWorld.after _ (SWorld.win (S.step g (.storage b x)).2 _) _ = _
        rw [h1]
        show SWorld.finish _ x.shape (S.step g (.storage b x)).2.wins.length _ _ _ _ _ _ = _
        rw [hl]
        unfold SWorld.finish
        rw [hq']
        rfl
      · exact (snoc2_get (wins := S.wins) (n := .whole S.count x.shape (g.kind b == .gpu))).1
      · exact whole_look S x _
      · exact (snoc2_get (wins := S.wins) (n := .whole S.count x.shape (g.kind b == .gpu))).2
  rw [hSpec] at hres hs2
  obtain ⟨hob, hl⟩ := And.intro hob hlook
  have hlen : S.objs.length = W.objs.length := hs.lenObj.symm
  have ho1 : nwin.objs[W.objs.length + 1]? = some (.quantity d st ⟨dims, units, q.origin, q.extent, a.backend⟩) := by
    rw [hob, ← hlen, List.getElem?_append_right (by simp)]; simp
  have ho0 : nwin.objs[W.objs.length]? =
      some (a.sobj S.wins.length) := by
    rw [hob, ← hlen, List.getElem?_append_left (by simp), List.getElem?_append_right (by simp)]; simp
  refine ⟨hres, ?_, ?_, fun ix => ?_, fun ix => ?_⟩
  · show r.2.objs.length = _
    rw [show r.2.objs.length = _ from hs2.lenObj, hob, ← hlen]
    simp
  · show (r.2.objs[W.objs.length + 1]? >>= Obj.info) = _
    rcases forall₂_get hs2.obj (W.objs.length + 1) with ⟨h3, h4⟩ | ⟨o, s, h3, h4, hr⟩
    · rw [ho1] at h4; cases h4
    · rw [ho1] at h4
      cases h4
      have h3' : r.2.objs[W.objs.length + 1]? = some o := h3
      rw [h3']
      exact hr.info
  · have := get_sim hs2 (W.objs.length + 1) .data ix
    rw [get_of ho1 (show SObj.target _ .data = .ok d from rfl) hnw, hl.1] at this
    exact this
  · have := get_sim hs2 W.objs.length .self ix
    rw [get_of (i := S.wins.length) ho0 (by cases a <;> rfl) hl.2, hl.1] at this
    cases a <;> exact this

/-- **C32**, **C58**: `QuantityFactory.empty`, `zeros` and `ones`, with numpy or with storages of any backend: the quantity has
the dimensions, units, origin, extent and elements of the specification and the backend asked for, and memory that
it shares with nothing else: not with what was there (variables below `n`), and not with what is made later, e.g. by
the same factory. -/
theorem C32_backend (hW : Reachable g W) (a : Allocator) (ha : ∀ b, a = .storage b → g.kind b ≠ .other)
    (s : GridSizer) (hs : s.Valid) (fill : List Nat → α) (dims : List Dim) (units : String)
    (hd : ∀ d ∈ dims, s.cellsAlong d ≠ none) :
    let r := W.allocate g a s fill dims units
    let n := W.objs.length
    ∃ q, s.allocate fill dims units = .ok q ∧ r.1 = .ok () ∧ Reachable g r.2 ∧ r.2.objs.length = n + 2 ∧
      r.2.infoOf (n + 1) = some ⟨dims, units, q.origin, q.extent, a.backend⟩ ∧
      SameRead (r.2.get (n + 1) .data []) (.ok q.data) ∧
      (∀ ops, (∀ op ∈ ops, ∀ k, op.on = some k → k < n ∨ n + 2 ≤ k) → ∀ via ix,
        SameRead ((r.2.after g ops).get (n + 1) via ix) (r.2.get (n + 1) via ix)) ∧
      (∀ ops, (∀ op ∈ ops, ∀ k, op.on = some k → n ≤ k) → ∀ k, k < n → ∀ via ix,
        SameRead ((r.2.after g ops).get k via ix) (W.get k via ix)) := by
  intro r n
  have hc : ∀ d ∈ dims, s.cellsAlong d = some ((s.cellsAlong d).getD 0) := by
    intro d h
    cases e : s.cellsAlong d with
    | none => exact absurd e (hd d h)
    | some v => rfl
  have hall := allocate_eq s hs fill dims units _ hc
  obtain ⟨extent, shape, x, hext, hsh, hx, hmk⟩ : ∃ extent shape x, s.getExtent dims = .ok extent ∧ s.getShape dims = .ok shape ∧
      npFull shape fill = .ok x ∧ Quantity.mk? x dims units (some (s.getOrigin dims)) (some extent) = s.allocate fill dims units := by
    have h := hall
    unfold GridSizer.allocate at h
    cases h1 : s.getExtent dims with
    | error e => rw [h1] at h; cases h
    | ok extent =>
      rw [h1] at h
      cases h2 : s.getShape dims with
      | error e => rw [h2] at h; cases h
      | ok shape =>
        rw [h2] at h
        cases h3 : npFull shape fill with
        | error e =>
          simp only [bind, Except.bind, h3] at h
          cases h
        | ok x =>
          refine ⟨_, _, x, rfl, rfl, h3, ?_⟩
          simp only [GridSizer.allocate, h1, h2, h3, bind, Except.bind]
  rw [hall] at hmk ⊢
  have hxq := mk?_data hmk
  have hr : r = (W.step g (a.op x)).2.step g
      (.quantity W.objs.length dims units (some (s.getOrigin dims)) (some extent) none) := by
    show W.allocate g a s fill dims units = _
    unfold World.allocate
    simp only [hext, hsh, tryCall_eq, hx]
    cases a <;> rfl
  obtain ⟨h1, h2, h3, h4, -⟩ := make_two hW a ha x hmk
  have hafter : r.2 = W.after g [a.op x,
      .quantity W.objs.length dims units (some (s.getOrigin dims)) (some extent) none] := by rw [hr]; rfl
  have hon : ∀ op ∈ [(a.op x),
      .quantity W.objs.length dims units (some (s.getOrigin dims)) (some extent) none], ∀ k, op.on = some k →
      W.objs.length ≤ k := by
    intro op hop k hk
    rcases List.mem_cons.1 hop with e | hop
    · subst e
      cases a <;> cases hk
    · rcases List.mem_cons.1 hop with e | hop
      · subst e
        cases hk
        exact Nat.le_refl _
      · cases hop
  rw [← hr] at h1 h2 h3 h4
  refine ⟨_, rfl, h1, ?_, h2, h3, ?_, fun ops ho via ix => ?_, fun ops ho k hk via ix => ?_⟩
  · rw [hafter]; exact hW.after _
  · have := (h4 []).trans (getItem_full _)
    rw [hxq] at this
    exact this
  · rw [hafter] at h2 ⊢
    exact C58_frame_new hW _ hon ops (by rw [h2]; exact ho) (by omega) (by rw [h2]; omega) via ix
  · rw [hafter]
    have e : ∀ (W : World α) (A B : List (Op α)), (W.after g A).after g B = W.after g (A ++ B) :=
      fun W A B => (wrun_append g W A B).symm
    rw [e]
    refine C58_frame hW _ (fun op hop => ?_) hk via ix
    rcases List.mem_append.1 hop with h | h
    · exact hon op h
    · exact ho op h

/-- A factory makes two quantities with storages; writing to one does not change the other. -/
def demoFactory : World Nat :=
  let W := ((World.init fun _ => 5).allocate demo (.storage "numpy") ⟨2, 1, 3, 1, []⟩ (fun _ => 0) [.y, .x] "K").2
  (W.allocate demo (.storage "numpy") ⟨2, 1, 3, 1, []⟩ (fun _ => 1) [.y, .x] "K").2

example : demoFactory.infoOf 3 = some ⟨[.y, .x], "K", [1, 1], [1, 2], some "numpy"⟩ ∧
    shown ((demoFactory.step demo (.setItem 1 .storage [.int 1, .int 1] ⟨[], fun _ => 9⟩)).2.get 1 .view []) = some ([1, 2], [9, 0]) ∧
    shown ((demoFactory.step demo (.setItem 1 .storage [.int 1, .int 1] ⟨[], fun _ => 9⟩)).2.get 3 .view []) = some ([1, 2], [1, 1]) := by
  decide +kernel

end Mem
end FV3
