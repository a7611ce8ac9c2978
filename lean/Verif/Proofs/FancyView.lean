import Verif.Spec.FancyView
import Verif.Proofs.Views

namespace FV3.Fancy
variable {α : Type}

/-! ### integers and slices only -/

/-- The same entry for numpy. -/
def nOfIx : Ix → NIx
  | .int i => .int i
  | .slice s => .slice s

/-- The same resolved entry. -/
def rOfIx : RIx → RNx
  | .int i => .int i
  | .slice a st c => .slice a st c

theorem resolve_ofIx (ix : List Ix) (s : List Nat) :
    resolve (ix.map nOfIx) s = (resolveAll ix s).map (List.map rOfIx) := by
  induction ix generalizing s with
  | nil =>
    induction s with
    | nil => rfl
    | cons n s ih =>
      simp only [List.map_nil, resolve, resolveAll] at ih ⊢
      cases h : resolveAll [] s with
      | error e => rw [h] at ih; cases ih
      | ok l =>
        rw [h] at ih
        simp only [Except.map] at ih
        injection ih with ih
        simp only [List.map_cons, ih]
        rfl
  | cons e es ih =>
    cases s with
    | nil => cases e <;> rfl
    | cons n s =>
      cases e with
      | int i =>
        simp only [List.map_cons, nOfIx, resolve, resolveAll, ih, Ix.resolve]
        generalize (if i < 0 then i + (n : Int) else i) = j
        split
        · cases resolveAll es s <;> rfl
        · rfl
      | slice sl =>
        simp only [List.map_cons, nOfIx, resolve, resolveAll, ih, Ix.resolve]
        cases h : sl.resolve n with
        | error e => rfl
        | ok r => cases r <;> cases resolveAll es s <;> rfl

theorem arrLen_ofIx (rs : List RIx) : arrLen (rs.map rOfIx) = .ok none := by
  induction rs with
  | nil => rfl
  | cons r rs ih => cases r <;> exact ih

theorem axes_ofIx (rs : List RIx) : axes (rs.map rOfIx) = viewShape rs := by
  induction rs with
  | nil => rfl
  | cons r rs ih => cases r <;> simp [rOfIx, axes, viewShape, ih]

theorem place_ofIx (rs : List RIx) (out : List Nat) : place (rs.map rOfIx) 0 out = viewIdx rs out := by
  induction rs generalizing out with
  | nil => rfl
  | cons r rs ih =>
    cases r with
    | int i => simp [rOfIx, place, viewIdx, ih]
    | slice a st c => cases out <;> simp [rOfIx, place, viewIdx, ih]

theorem getItem_ofIx (a : NDArray α) (ix : List Ix) : getItem a (ix.map nOfIx) = a.getItem ix := by
  unfold getItem NDArray.getItem
  rw [resolve_ofIx]
  cases h : resolveAll ix a.shape with
  | error e => rfl
  | ok rs =>
    simp only [Except.map, bind, Except.bind, arrLen_ofIx, axes_ofIx, place_ofIx]
    rfl

theorem shiftEntries_ofIx (ix : List Ix) (os es : List Int) :
    shiftEntries (ix.map ofIx) os es = .ok ((FV3.shiftEntries ix os es).map nOfIx) := by
  induction ix generalizing os es with
  | nil => cases os <;> cases es <;> rfl
  | cons e ix ih =>
    cases os with
    | nil => rfl
    | cons o os =>
      cases es with
      | nil => rfl
      | cons x es =>
        simp only [List.map_cons, shiftEntries, FV3.shiftEntries, ih]
        cases e <;> rfl

theorem shiftBoundaryEntries_ofIx (c : Corner) (ds : List Dim) (ix : List Ix) (os es : List Int) :
    shiftBoundaryEntries c ds (ix.map ofIx) os es = .ok ((FV3.shiftBoundaryEntries c ds ix os es).map nOfIx) := by
  induction ix generalizing ds os es with
  | nil => cases ds <;> cases os <;> cases es <;> rfl
  | cons e ix ih =>
    cases ds with
    | nil => rfl
    | cons d ds =>
      cases os with
      | nil => rfl
      | cons o os =>
        cases es with
        | nil => rfl
        | cons x es =>
          simp only [List.map_cons, shiftBoundaryEntries, FV3.shiftBoundaryEntries, ih]
          cases e <;> rfl

theorem fill_ofIx (ix : List Ix) (m : Nat) : fill (ix.map ofIx) m = (fillIndex ix m).map ofIx := by
  simp [fill, fillIndex, ofIx]

/-! ### plain entries: the shift by the origin -/

/-- A resolved entry moved by the origin. -/
def RNx.shift (o : Int) : RNx → RNx
  | .int i => .int (o + i).toNat
  | .slice a st c => .slice (o + a) st c
  | .newaxis => .newaxis
  | .arr js => .arr (js.map fun (j : Nat) => (o + j).toNat)

/-- Slices which start and go upwards from 0; no new axes. -/
def RNx.Up : RNx → Prop
  | .slice a st _ => 0 ≤ a ∧ 0 < st
  | .newaxis => False
  | _ => True

/-- Lists of resolved entries moved by the origins. -/
inductive Sh : List Int → List RNx → List RNx → Prop
  | nil : Sh [] [] []
  | cons {o : Int} {os : List Int} {r : RNx} {rs ss : List RNx} : 0 ≤ o → r.Up →
      Sh os rs ss → Sh (o :: os) (r :: rs) (r.shift o :: ss)

theorem resolveInts_shift {o e : Int} {n : Nat} (ho : 0 ≤ o) (hn : o + e ≤ n) (a : List Int)
    (ha : ∀ i ∈ a, 0 ≤ i ∧ i < e) : ∃ js, resolveInts e.toNat a = .ok js ∧
      resolveInts n (a.map (· + o)) = .ok (js.map fun (j : Nat) => (o + j).toNat) := by
  induction a with
  | nil => exact ⟨[], rfl, rfl⟩
  | cons i a ih =>
    obtain ⟨js, h1, h2⟩ := ih fun x hx => ha x (List.mem_cons_of_mem _ hx)
    have hi := ha i (List.mem_cons_self)
    refine ⟨i.toNat :: js, ?_, ?_⟩
    · simp only [resolveInts]
      rw [if_neg (show ¬ i < 0 by omega), if_pos (by omega), h1]
      rfl
    · simp only [List.map_cons, resolveInts]
      rw [if_neg (show ¬ i + o < 0 by omega), if_pos (by omega), h2]
      simp only [bind, Except.bind]
      congr 2
      omega

theorem resolve_shifted (m : Nat) (ix : List NIx) (os es : List Int) (ns : List Nat)
    (hi : ix.length = m) (ho : os.length = m) (he : es.length = m) (hn : ns.length = m)
    (hin : ∀ k, k < m → 0 ≤ os.getD k 0 ∧ 0 ≤ es.getD k 0 ∧
      os.getD k 0 + es.getD k 0 ≤ (ns.getD k 0 : Nat))
    (hp : ∀ k, k < m → (ix.getD k (.int 0)).Plain (es.getD k 0)) :
    ∃ L rs ss, resolve ix (es.map Int.toNat) = .ok rs ∧
      shiftEntries (ix.map NIx.entry) os es = .ok L ∧ resolve L ns = .ok ss ∧ Sh os rs ss := by
  induction m generalizing ix os es ns with
  | zero =>
    rw [List.length_eq_zero_iff] at hi ho he hn
    subst hi ho he hn
    exact ⟨[], [], [], rfl, rfl, rfl, .nil⟩
  | succ m ih =>
    match ix, os, es, ns, hi, ho, he, hn with
    | x :: ix, o :: os, e :: es, n :: ns, hi, ho, he, hn =>
      obtain ⟨L, rs, ss, h1, h2, h3, h4⟩ := ih ix os es ns (by simpa using hi) (by simpa using ho)
        (by simpa using he) (by simpa using hn)
        (fun k hk => by simpa using hin (k + 1) (by omega))
        (fun k hk => by simpa using hp (k + 1) (by omega))
      have h0 := hin 0 (by omega)
      have p0 := hp 0 (by omega)
      simp only [List.getD_cons_zero] at h0 p0
      cases x with
      | newaxis => exact p0.elim
      | int i =>
        obtain ⟨q0, q1⟩ := p0
        refine ⟨.int (i + o) :: L, .int i.toNat :: rs, .int (o + i.toNat).toNat :: ss, ?_, ?_, ?_, .cons h0.1 trivial h4⟩
        · simp only [List.map_cons, resolve]
          rw [if_neg (show ¬ i < 0 by omega), if_pos (by omega), h1]; rfl
        · simp only [List.map_cons, NIx.entry, shiftEntries, shiftEntry, h2]; rfl
        · simp only [resolve]
          rw [if_neg (show ¬ i + o < 0 by omega), if_pos (by omega), h3]
          simp only [bind, Except.bind]
          congr 3
          omega
      | slice s =>
        obtain ⟨r, g1, g2, g3⟩ := resolve_shift (.slice s) h0.1 h0.2.1 h0.2.2 p0
        cases r with
        | int i =>
          exfalso
          simp only [Ix.resolve, PySlice.resolve] at g1
          split at g1
          · cases g1
          · split at g1 <;> cases g1
        | slice a st c =>
          simp only [Ix.resolve] at g1
          simp only [FV3.shiftEntry, Ix.resolve, RIx.shift] at g3
          refine ⟨.slice (boundDefaultSlice (shiftSlice s o e) o (o + e)) :: L, .slice a st c :: rs, .slice (o + a) st c :: ss, ?_, ?_, ?_, .cons h0.1 ⟨g2.1, g2.2.1⟩ h4⟩
          · simp only [List.map_cons, resolve, g1, h1]; rfl
          · simp only [List.map_cons, NIx.entry, shiftEntries, shiftEntry, h2]; rfl
          · simp only [resolve, g3, h3]; rfl
      | ints a =>
        obtain ⟨js, g1, g2⟩ := resolveInts_shift h0.1 h0.2.2 a p0
        refine ⟨.ints (a.map (· + o)) :: L, .arr js :: rs, .arr (js.map fun (j : Nat) => (o + j).toNat) :: ss, ?_, ?_, ?_,
          .cons h0.1 trivial h4⟩
        · simp only [List.map_cons, resolve, g1, h1]; rfl
        · simp only [List.map_cons, NIx.entry, shiftEntries, shiftEntry, h2]; rfl
        · simp only [resolve, g2, h3]; rfl

theorem Sh.arrLen_eq {os : List Int} {rs ss : List RNx} (h : Sh os rs ss) : arrLen ss = arrLen rs := by
  induction h with
  | nil => rfl
  | @cons o os r rs ss _ _ _ ih => cases r <;> simp [RNx.shift, arrLen, ih]

theorem Sh.axes_eq {os : List Int} {rs ss : List RNx} (h : Sh os rs ss) : axes ss = axes rs := by
  induction h with
  | nil => rfl
  | @cons o os r rs ss _ _ _ ih => cases r <;> simp [RNx.shift, axes, ih]

theorem shift_advanced (o : Int) (r : RNx) : (r.shift o).advanced = r.advanced := by cases r <;> rfl

theorem Sh.adv_eq {os : List Int} {rs ss : List RNx} (h : Sh os rs ss) :
    ss.map RNx.advanced = rs.map RNx.advanced := by
  induction h with
  | nil => rfl
  | @cons o os r rs ss _ _ _ ih => simp [shift_advanced, ih]

theorem arrAxis_congr {rs ss : List RNx} (h : ss.map RNx.advanced = rs.map RNx.advanced) : arrAxis ss = arrAxis rs := by
  have key : ∀ l : List RNx, arrAxis l =
      if (((l.map RNx.advanced).dropWhile (fun b => !b)).dropWhile id).all (fun b => !b)
      then ((l.map RNx.advanced).takeWhile (fun b => !b)).length else 0 := by
    intro l
    unfold arrAxis
    have e1 : ∀ l : List RNx, (l.map RNx.advanced).takeWhile (fun b => !b) =
        (l.takeWhile fun r => !r.advanced).map RNx.advanced := by
      intro l; rw [List.takeWhile_map]; rfl
    have e2 : ∀ l : List RNx, (l.map RNx.advanced).dropWhile (fun b => !b) =
        (l.dropWhile fun r => !r.advanced).map RNx.advanced := by
      intro l; rw [List.dropWhile_map]; rfl
    have e3 : ∀ l : List RNx, (l.map RNx.advanced).dropWhile id = (l.dropWhile RNx.advanced).map RNx.advanced := by
      intro l; rw [List.dropWhile_map]; rfl
    rw [e1, e2, e3, List.all_map, List.length_map]
    rfl
  rw [key, key, h]

/-- Position `j` is one of each array of indices. -/
def Covers (j : Nat) (rs : List RNx) : Prop := ∀ js, RNx.arr js ∈ rs → js.length = 1 ∨ j < js.length

theorem Sh.place_eq {os : List Int} {rs ss : List RNx} (h : Sh os rs ss) (j : Nat) (hj : Covers j rs)
    (out : List Nat) : place ss j out = absIdx os (place rs j out) := by
  induction h generalizing out with
  | nil => rfl
  | @cons o os r rs ss ho hr _ ih =>
    have ih := ih fun js hjs => hj js (List.mem_cons_of_mem _ hjs)
    cases r with
    | int i => simp only [RNx.shift, place, ih, absIdx_cons]
    | newaxis => exact hr.elim
    | slice a st c =>
      obtain ⟨h0, h1⟩ := hr
      simp only [RNx.shift, place, ih, absIdx_cons]
      have : 0 ≤ st * ((out.headD 0 : Nat) : Int) := Int.mul_nonneg (by omega) (by omega)
      congr 1; omega
    | arr js =>
      have hl := hj js List.mem_cons_self
      simp only [RNx.shift, place, ih, absIdx_cons, List.length_map]
      congr 1
      have hlt : (if js.length = 1 then 0 else j) < js.length := by split <;> omega
      rw [List.getD_eq_getElem?_getD, List.getD_eq_getElem?_getD, List.getElem?_map,
        List.getElem?_eq_getElem hlt]
      rfl

theorem arrLen_covers {rs : List RNx} {n : Nat} (h : arrLen rs = .ok (some n)) :
    ∀ js, RNx.arr js ∈ rs → js.length = n ∨ js.length = 1 := by
  induction rs generalizing n with
  | nil => intro js hjs; cases hjs
  | cons r rs ih =>
    intro js hjs
    cases r with
    | int i => exact ih h js (by simpa using hjs)
    | slice a st c => exact ih h js (by simpa using hjs)
    | newaxis => exact ih h js (by simpa using hjs)
    | arr ks =>
      simp only [arrLen, bind, Except.bind] at h
      cases h' : arrLen rs with
      | error e => rw [h'] at h; cases h
      | ok o =>
        rw [h'] at h
        dsimp only at h
        have hmem : js = ks ∨ RNx.arr js ∈ rs := by simpa using hjs
        cases o with
        | none =>
          cases h
          rcases hmem with rfl | hmem
          · exact .inl rfl
          · exfalso
            clear ih hjs
            induction rs with
            | nil => cases hmem
            | cons r rs ih2 =>
              cases r with
              | int i => exact ih2 h' (by simpa using hmem)
              | slice a st c => exact ih2 h' (by simpa using hmem)
              | newaxis => exact ih2 h' (by simpa using hmem)
              | arr ls =>
                simp only [arrLen, bind, Except.bind] at h'
                cases h2 : arrLen rs with
                | error e => rw [h2] at h'; cases h'
                | ok o =>
                  rw [h2] at h'
                  dsimp only at h'
                  cases o with
                  | none => cases h'
                  | some x =>
                    dsimp only at h'
                    split at h'
                    · cases h'
                    · split at h'
                      · cases h'
                      · split at h' <;> cases h'
        | some x =>
          have ih := ih h' js
          dsimp only at h
          split at h
          · cases h
            rcases hmem with rfl | hmem
            · left; assumption
            · exact ih hmem
          · split at h
            · cases h
              rcases hmem with rfl | hmem
              · exact .inl rfl
              · rcases ih hmem with h | h <;> right <;> omega
            · split at h
              · cases h
                rcases hmem with rfl | hmem
                · right; assumption
                · exact ih hmem
              · cases h

theorem arrLen_none {rs : List RNx} (h : arrLen rs = .ok none) : ∀ js, RNx.arr js ∉ rs := by
  induction rs with
  | nil => intro js hjs; cases hjs
  | cons r rs ih =>
    intro js hjs
    cases r with
    | int i => exact ih h js (by simpa using hjs)
    | slice a st c => exact ih h js (by simpa using hjs)
    | newaxis => exact ih h js (by simpa using hjs)
    | arr ks =>
      simp only [arrLen, bind, Except.bind] at h
      cases h' : arrLen rs with
      | error e => rw [h'] at h; cases h
      | ok o =>
        rw [h'] at h
        dsimp only at h
        cases o with
        | none => cases h
        | some x =>
          dsimp only at h
          split at h
          · cases h
          · split at h
            · cases h
            · split at h <;> cases h

theorem arrLen_error {rs : List RNx} {e : PyErr} (h : arrLen rs = .error e) : e = .indexError := by
  induction rs with
  | nil => cases h
  | cons r rs ih =>
    cases r with
    | int i => exact ih h
    | slice a st c => exact ih h
    | newaxis => exact ih h
    | arr ks =>
      simp only [arrLen, bind, Except.bind] at h
      cases h' : arrLen rs with
      | error e' => rw [h'] at h; cases h; exact ih h'
      | ok o =>
        rw [h'] at h
        dsimp only at h
        cases o with
        | none => cases h
        | some x =>
          dsimp only at h
          split at h
          · cases h
          · split at h
            · cases h
            · split at h
              · cases h
              · cases h; rfl

theorem takeWhile_le_axes (rs : List RNx) : (rs.takeWhile fun r => !r.advanced).length ≤ (axes rs).length := by
  induction rs with
  | nil => simp
  | cons r rs ih =>
    cases r with
    | int i => simp [RNx.advanced]
    | arr js => simp [RNx.advanced]
    | slice a st c => exact Nat.succ_le_succ ih
    | newaxis => exact Nat.succ_le_succ ih

theorem arrAxis_le (rs : List RNx) : arrAxis rs ≤ (axes rs).length := by
  unfold arrAxis
  dsimp only
  split
  · exact takeWhile_le_axes rs
  · omega

theorem getItem_shifted {a b : NDArray α} {L M : List NIx} {os : List Int} {rs ss : List RNx}
    (h1 : resolve M b.shape = .ok rs) (h2 : resolve L a.shape = .ok ss) (h : Sh os rs ss)
    (hb : ∀ idx, b.get idx = a.get (absIdx os idx)) :
    (∃ w w', getItem a L = .ok w ∧ getItem b M = .ok w' ∧ w.Eqv w') ∨
    (getItem a L = .error .indexError ∧ getItem b M = .error .indexError) := by
  unfold getItem
  rw [h1, h2]
  simp only [bind, Except.bind]
  rw [h.arrLen_eq]
  cases h3 : arrLen rs with
  | error e => rw [arrLen_error h3]; exact .inr ⟨rfl, rfl⟩
  | ok o =>
    left
    cases o with
    | none =>
      refine ⟨_, _, rfl, rfl, h.axes_eq, fun idx _ => ?_⟩
      dsimp only
      rw [hb, h.place_eq 0 (fun js hjs => absurd hjs (arrLen_none h3 js))]
    | some n =>
      refine ⟨_, _, rfl, rfl, ?_, fun idx hidx => ?_⟩
      · dsimp only
        rw [h.axes_eq, arrAxis_congr h.adv_eq]
      · dsimp only at hidx ⊢
        rw [arrAxis_congr h.adv_eq] at hidx ⊢
        rw [hb, h.place_eq]
        intro js hjs
        have hlen : arrAxis rs ≤ (axes ss).length := by rw [h.axes_eq]; exact arrAxis_le rs
        have := (inB_iff _ _).1 hidx
        have h5 := this.2 (arrAxis rs) (by rw [List.length_insertIdx]; split <;> omega)
        rw [List.getD_eq_getElem?_getD (l := List.insertIdx _ _ _), List.getElem?_insertIdx_self, if_pos hlen] at h5
        simp only [Option.getD_some] at h5
        rcases arrLen_covers h3 js hjs with h | h
        · right; omega
        · left; exact h

/-! ### filling up -/

theorem resolve_fill_aux (s : List Nat) : resolve (List.replicate s.length (.slice .full)) s = resolve [] s := by
  induction s with
  | nil => rfl
  | cons n s ih =>
    simp only [List.length_cons, List.replicate_succ, resolve, resolve_full, ih]
    rfl

theorem resolve_fill (s : List Nat) (ix : List NIx) (h : ix.length ≤ s.length) (hn : NIx.newaxis ∉ ix) :
    resolve (ix ++ List.replicate (s.length - ix.length) (.slice .full)) s = resolve ix s := by
  induction s generalizing ix with
  | nil =>
    have : ix = [] := List.length_eq_zero_iff.1 (by simpa using h)
    subst this; rfl
  | cons n s ih =>
    cases ix with
    | nil => simpa using resolve_fill_aux (n :: s)
    | cons e es =>
      have h1 := ih es (by simpa using h) (fun hh => hn (List.mem_cons_of_mem _ hh))
      have e1 : (n :: s).length - (e :: es).length = s.length - es.length := by simp
      rw [e1]
      cases e with
      | newaxis => exact absurd List.mem_cons_self hn
      | int i => simp only [List.cons_append, resolve, h1]
      | slice sl => simp only [List.cons_append, resolve, h1]
      | ints a => simp only [List.cons_append, resolve, h1]

/-! ### one array of indices -/

/-- The compute domain of every axis. -/
def domN (os es : List Int) : List NIx := List.zipWith (fun o e => .slice (.of o (o + e))) os es

/-- Resolved. -/
def domR (os es : List Int) : List RNx := List.zipWith (fun o e => .slice o 1 e.toNat) os es

/-- Integers `a` on axis `k`, the compute domain elsewhere. -/
def takeN (a : List Int) : Nat → List Int → List Int → List NIx
  | 0, _ :: os, _ :: es => .ints a :: domN os es
  | k + 1, o :: os, e :: es => .slice (.of o (o + e)) :: takeN a k os es
  | _, _, _ => []

/-- Resolved. -/
def takeR (js : List Nat) : Nat → List Int → List Int → List RNx
  | 0, _ :: os, _ :: es => .arr js :: domR os es
  | k + 1, o :: os, e :: es => .slice o 1 e.toNat :: takeR js k os es
  | _, _, _ => []

theorem resolve_domN (os es : List Int) (ns : List Nat) (ho : os.length = ns.length) (he : es.length = ns.length)
    (hin : ∀ k, k < ns.length → 0 ≤ os.getD k 0 ∧ 0 ≤ es.getD k 0 ∧
      os.getD k 0 + es.getD k 0 ≤ (ns.getD k 0 : Nat)) : resolve (domN os es) ns = .ok (domR os es) := by
  induction ns generalizing os es with
  | nil =>
    rw [List.length_nil, List.length_eq_zero_iff] at ho he
    subst ho he; rfl
  | cons n ns ih =>
    match os, es, ho, he with
    | o :: os, e :: es, ho, he =>
      have h0 := hin 0 (by simp)
      simp only [List.getD_cons_zero] at h0
      have := ih os es (by simpa using ho) (by simpa using he) fun k hk => by simpa using hin (k + 1) (by simpa using hk)
      simp only [domN, domR] at this
      simp only [domN, domR, List.zipWith_cons_cons, resolve, this]
      rw [resolve_of h0.1 (by omega) h0.2.2, show o + e - o = e by omega]
      rfl

theorem resolve_takeN (a : List Int) (js : List Nat) (k : Nat) (os es : List Int) (ns : List Nat)
    (ho : os.length = ns.length) (he : es.length = ns.length) (hk : k < ns.length)
    (ha : resolveInts (ns.getD k 0) a = .ok js)
    (hin : ∀ k, k < ns.length → 0 ≤ os.getD k 0 ∧ 0 ≤ es.getD k 0 ∧
      os.getD k 0 + es.getD k 0 ≤ (ns.getD k 0 : Nat)) : resolve (takeN a k os es) ns = .ok (takeR js k os es) := by
  induction k generalizing os es ns with
  | zero =>
    match os, es, ns, ho, he with
    | o :: os, e :: es, n :: ns, ho, he =>
      simp only [takeN, takeR, resolve]
      rw [resolve_domN os es ns (by simpa using ho) (by simpa using he) fun k hk => by
        simpa using hin (k + 1) (by simpa using hk)]
      simp only [List.getD_cons_zero] at ha
      rw [ha]
      rfl
    | _, _, [], _, _ => exact absurd hk (by simp)
  | succ k ih =>
    match os, es, ns, ho, he with
    | o :: os, e :: es, n :: ns, ho, he =>
      have h0 := hin 0 (by simp)
      simp only [List.getD_cons_zero] at h0
      simp only [takeN, takeR, resolve]
      rw [ih os es ns (by simpa using ho) (by simpa using he) (by simpa using hk) (by simpa using ha) fun k hk => by
        simpa using hin (k + 1) (by simpa using hk)]
      rw [resolve_of h0.1 (by omega) h0.2.2, show o + e - o = e by omega]
      rfl
    | _, _, [], _, _ => exact absurd hk (by simp)

theorem domR_adv (os es : List Int) : ∀ r ∈ domR os es, r.advanced = false := by
  induction os generalizing es with
  | nil => intro r hr; simp [domR] at hr
  | cons o os ih =>
    cases es with
    | nil => intro r hr; simp [domR] at hr
    | cons e es =>
      intro r hr
      simp only [domR, List.zipWith_cons_cons, List.mem_cons] at hr
      rcases hr with rfl | hr
      · rfl
      · exact ih es r hr

theorem arrLen_basic {rs : List RNx} (h : ∀ r ∈ rs, r.advanced = false) : arrLen rs = .ok none := by
  induction rs with
  | nil => rfl
  | cons r rs ih =>
    have := h r List.mem_cons_self
    have ih := ih fun r hr => h r (List.mem_cons_of_mem _ hr)
    cases r with
    | int i => cases this
    | arr i => cases this
    | slice a st c => exact ih
    | newaxis => exact ih

theorem takeR_spec (js : List Nat) (k : Nat) (os es : List Int) (he : es.length = os.length) (hk : k < os.length) :
    arrLen (takeR js k os es) = .ok (some js.length) ∧ arrAxis (takeR js k os es) = k ∧
    (axes (takeR js k os es)).insertIdx k js.length = (es.map Int.toNat).set k js.length := by
  induction k generalizing os es with
  | zero =>
    match os, es, he, hk with
    | o :: os, e :: es, he, hk =>
      simp only [takeR]
      refine ⟨?_, ?_, ?_⟩
      · simp only [arrLen, arrLen_basic (domR_adv os es)]; rfl
      · unfold arrAxis
        dsimp only
        rw [List.takeWhile_cons_of_neg (by simp [RNx.advanced]), List.length_nil]
        split <;> rfl
      · have : ∀ os es : List Int, es.length = os.length → axes (domR os es) = es.map Int.toNat := by
          intro os
          induction os with
          | nil => intro es h; rw [List.length_nil, List.length_eq_zero_iff] at h; subst h; rfl
          | cons o os ih =>
            intro es h
            match es, h with
            | e :: es, h =>
              have := ih es (by simpa using h)
              simp only [domR] at this
              simp [domR, axes, this]
        simp only [axes, this os es (by simpa using he)]
        rfl
  | succ k ih =>
    match os, es, he, hk with
    | o :: os, e :: es, he, hk =>
      obtain ⟨h1, h2, h3⟩ := ih os es (by simpa using he) (by simpa using hk)
      simp only [takeR]
      refine ⟨h1, ?_, ?_⟩
      · have hadj : ∀ k os es, k < os.length → es.length = os.length →
            (((takeR js k os es).dropWhile fun r => !r.advanced).dropWhile RNx.advanced).all
              (fun r => !r.advanced) = true := by
          intro k
          induction k with
          | zero =>
            intro os es hk he
            match os, es, he, hk with
            | o :: os, e :: es, he, hk =>
              simp only [takeR]
              rw [List.dropWhile_cons_of_neg (by simp [RNx.advanced]), List.dropWhile_cons_of_pos (by simp [RNx.advanced])]
              rw [List.all_eq_true]
              intro r hr
              rw [domR_adv os es r ((List.dropWhile_sublist _).subset hr)]
              rfl
          | succ k ih =>
            intro os es hk he
            match os, es, he, hk with
            | o :: os, e :: es, he, hk =>
              simp only [takeR]
              rw [List.dropWhile_cons_of_pos (by simp [RNx.advanced])]
              exact ih os es (by simpa using hk) (by simpa using he)
        have h4 := hadj k os es (by simpa using hk) (by simpa using he)
        unfold arrAxis at h2 ⊢
        dsimp only at h2 ⊢
        rw [if_pos h4] at h2
        rw [List.dropWhile_cons_of_pos (by simp [RNx.advanced]), if_pos h4,
          List.takeWhile_cons_of_pos (by simp [RNx.advanced]), List.length_cons, h2]
      · simp only [axes, List.insertIdx_succ_cons, h3]
        rfl

theorem place_domR (os es : List Int) (he : es.length = os.length) (j : Nat) (idx : List Nat)
    (hi : idx.length = os.length) : place (domR os es) j idx = absIdx os idx := by
  induction os generalizing es idx with
  | nil => simp [domR, place, absIdx]
  | cons o os ih =>
    match es, idx, he, hi with
    | e :: es, i :: idx, he, hi =>
      have := ih es (by simpa using he) idx (by simpa using hi)
      simp only [domR] at this
      simp only [domR, List.zipWith_cons_cons, place, absIdx_cons, List.headD_cons, List.tail_cons, this]
      congr 2
      omega

theorem place_takeR (js : List Nat) (k : Nat) (os es : List Int) (he : es.length = os.length) (hk : k < os.length)
    (j : Nat) (idx : List Nat) (hi : idx.length = os.length) :
    place (takeR js k os es) j (idx.eraseIdx k) =
      (absIdx os idx).set k (js.getD (if js.length = 1 then 0 else j) 0) := by
  induction k generalizing os es idx with
  | zero =>
    match os, es, idx, he, hi, hk with
    | o :: os, e :: es, i :: idx, he, hi, hk =>
      simp only [takeR, place, List.eraseIdx_cons_zero, absIdx_cons, List.set_cons_zero]
      rw [place_domR os es (by simpa using he) _ idx (by simpa using hi)]
  | succ k ih =>
    match os, es, idx, he, hi, hk with
    | o :: os, e :: es, i :: idx, he, hi, hk =>
      simp only [takeR, place, List.eraseIdx_cons_succ, absIdx_cons, List.set_cons_succ, List.headD_cons, List.tail_cons]
      rw [ih os es (by simpa using he) (by simpa using hk) idx (by simpa using hi)]
      congr 2
      omega

theorem resolveInts_ok (n : Nat) (a : List Int) (ha : ∀ i ∈ a, 0 ≤ i ∧ i < n) :
    resolveInts n a = .ok (a.map Int.toNat) := by
  induction a with
  | nil => rfl
  | cons i a ih =>
    have hi := ha i List.mem_cons_self
    simp only [resolveInts]
    rw [if_neg (show ¬ i < 0 by omega), if_pos (by omega), ih fun x hx => ha x (List.mem_cons_of_mem _ hx)]
    rfl

/-- Positions of integers depend on the integers up to the length of the axis. -/
theorem resolveInts_wrap (n : Nat) (a : List Int) :
    resolveInts n (a.map fun (i : Int) => if i < 0 ∧ -(n : Int) ≤ i then i + n else i) = resolveInts n a := by
  induction a with
  | nil => rfl
  | cons i a ih =>
    simp only [List.map_cons, resolveInts, ih]
    by_cases h : i < 0 ∧ -(n : Int) ≤ i
    · rw [if_pos h, if_pos h.1, if_neg (show ¬ i + (n : Int) < 0 by omega)]
    · rw [if_neg h]

theorem resolveInts_error (n : Nat) (a : List Int) (h : ∃ i ∈ a, i < -n ∨ n ≤ i) :
    resolveInts n a = .error .indexError := by
  induction a with
  | nil => obtain ⟨i, hi, _⟩ := h; cases hi
  | cons i a ih =>
    simp only [resolveInts]
    by_cases hi : i < -(n : Int) ∨ (n : Int) ≤ i
    · rw [if_neg (by split <;> omega)]
    · obtain ⟨j, hj, h2⟩ := h
      rcases List.mem_cons.1 hj with rfl | hj
      · exact absurd h2 hi
      · rw [ih ⟨j, hj, h2⟩]
        split <;> (split <;> rfl)

theorem resolve_takeN_congr (a b : List Int) (k : Nat) (os es : List Int) (ns : List Nat)
    (ho : os.length = ns.length) (he : es.length = ns.length)
    (ha : resolveInts (ns.getD k 0) a = resolveInts (ns.getD k 0) b) :
    resolve (takeN a k os es) ns = resolve (takeN b k os es) ns := by
  induction k generalizing os es ns with
  | zero =>
    match os, es, ns, ho, he with
    | o :: os, e :: es, n :: ns, ho, he =>
      simp only [List.getD_cons_zero] at ha
      simp only [takeN, resolve, ha]
    | [], _, _, _, _ => rfl
    | o :: os, [], _, _, _ => rfl
  | succ k ih =>
    match os, es, ns, ho, he with
    | o :: os, e :: es, n :: ns, ho, he =>
      simp only [takeN, resolve, ih os es ns (by simpa using ho) (by simpa using he) (by simpa using ha)]
    | [], _, _, _, _ => rfl
    | o :: os, [], _, _, _ => rfl

theorem resolve_takeN_error (a : List Int) (k : Nat) (os es : List Int) (ns : List Nat)
    (ho : os.length = ns.length) (he : es.length = ns.length) (hk : k < ns.length)
    (ha : resolveInts (ns.getD k 0) a = .error .indexError)
    (hin : ∀ k, k < ns.length → 0 ≤ os.getD k 0 ∧ 0 ≤ es.getD k 0 ∧
      os.getD k 0 + es.getD k 0 ≤ (ns.getD k 0 : Nat)) : resolve (takeN a k os es) ns = .error .indexError := by
  induction k generalizing os es ns with
  | zero =>
    match os, es, ns, ho, he with
    | o :: os, e :: es, n :: ns, ho, he =>
      simp only [List.getD_cons_zero] at ha
      simp only [takeN, resolve, ha]
      rfl
    | _, _, [], _, _ => exact absurd hk (by simp)
  | succ k ih =>
    match os, es, ns, ho, he with
    | o :: os, e :: es, n :: ns, ho, he =>
      have h0 := hin 0 (by simp)
      simp only [List.getD_cons_zero] at h0
      simp only [takeN, resolve]
      rw [ih os es ns (by simpa using ho) (by simpa using he) (by simpa using hk) (by simpa using ha) fun k hk => by
        simpa using hin (k + 1) (by simpa using hk)]
      rw [resolve_of h0.1 (by omega) h0.2.2]
      rfl
    | _, _, [], _, _ => exact absurd hk (by simp)

/-- The result of indexing with integers `a` on axis `k` and the compute domain elsewhere. -/
theorem getItem_takeN (q : Quantity α) (hq : q.WF) (k : Nat) (hk : k < q.ndim) (a : List Int)
    (ha : ∀ i ∈ a, 0 ≤ i ∧ i < q.n k) :
    ∃ w, getItem q.data (takeN a k q.origin q.extent) = .ok w ∧ IsTake q k a.length (fun j => a.getD j 0) w := by
  have hr := resolve_takeN a (a.map Int.toNat) k q.origin q.extent q.data.shape (by rw [hq.origin, hq.shape])
    (by rw [hq.extent, hq.shape]) (by rw [hq.shape]; exact hk) (resolveInts_ok _ a ha)
    (fun k hk => hq.inside k (by rwa [hq.shape] at hk))
  have hs := takeR_spec (a.map Int.toNat) k q.origin q.extent (by rw [hq.origin, hq.extent]) (by rw [hq.origin]; exact hk)
  obtain ⟨h1, h2, h3⟩ := hs
  unfold getItem
  rw [hr]
  simp only [bind, Except.bind, h1, h2]
  refine ⟨_, rfl, ?_, ?_⟩
  · simpa using h3
  · intro idx hidx
    dsimp only at hidx ⊢
    rw [h3] at hidx
    have hl := (inB_iff _ _).1 hidx
    have hl1 : idx.length = q.origin.length := by rw [hl.1, hq.origin]; simp [hq.extent]
    rw [place_takeR _ _ _ _ (by rw [hq.origin, hq.extent]) (by rw [hq.origin]; exact hk) _ _ hl1]
    have hlt := hl.2 k (by simpa [hq.extent] using hk)
    rw [List.getD_eq_getElem?_getD (l := List.set _ _ _), List.getElem?_set_self (by simpa [hq.extent] using hk)] at hlt
    simp only [Option.getD_some, List.length_map] at hlt
    congr 2
    simp only [List.length_map]
    have e : (if a.length = 1 then 0 else idx.getD k 0) = idx.getD k 0 := by split <;> omega
    rw [e]
    rw [List.getD_eq_getElem?_getD, List.getElem?_map, List.getElem?_eq_getElem hlt, getD_lt _ hlt]
    rfl

theorem shiftEntries_full (os es : List Int) (he : es.length = os.length) :
    shiftEntries (List.replicate os.length (.slice .full)) os es = .ok (domN os es) := by
  induction os generalizing es with
  | nil => rfl
  | cons o os ih =>
    match es, he with
    | e :: es, he =>
      have := ih es (by simpa using he)
      simp only [domN] at this
      simp only [List.length_cons, List.replicate_succ, shiftEntries, this, domN]
      rfl

theorem shiftEntries_take (x : Entry) (a : Int → List Int) (hx : ∀ o e, shiftEntry x o e = .ok (.ints (a o))) (k : Nat)
    (os es : List Int) (he : es.length = os.length) (hk : k < os.length) :
    shiftEntries (fill (List.replicate k (.slice .full) ++ [x]) os.length) os es =
      .ok (takeN (a (os.getD k 0)) k os es) := by
  induction k generalizing os es with
  | zero =>
    match os, es, he, hk with
    | o :: os, e :: es, he, hk =>
      have := shiftEntries_full os es (by simpa using he)
      simp only [fill, List.replicate_zero, List.nil_append, List.cons_append, shiftEntries, hx, List.length_cons,
        List.length_nil, Nat.zero_add, Nat.add_sub_cancel, this]
      rfl
  | succ k ih =>
    match os, es, he, hk with
    | o :: os, e :: es, he, hk =>
      have := ih os es (by simpa using he) (by simpa using hk)
      have e1 : fill (List.replicate (k + 1) (.slice .full) ++ [x]) (o :: os).length =
          .slice .full :: fill (List.replicate k (.slice .full) ++ [x]) os.length := by
        simp [fill, List.replicate_succ]
      rw [e1]
      simp only [shiftEntries, this]
      rfl

theorem shiftBoundaryEntries_full (c : Corner) (ds : List Dim) (os es : List Int) (he : es.length = os.length)
    (hd : ds.length = os.length) :
    shiftBoundaryEntries c ds (List.replicate os.length (.slice .full)) os es = .ok (domN os es) := by
  induction os generalizing es ds with
  | nil => cases ds <;> rfl
  | cons o os ih =>
    match es, ds, he, hd with
    | e :: es, d :: ds, he, hd =>
      have := ih ds es (by simpa using he) (by simpa using hd)
      simp only [domN] at this
      simp only [List.length_cons, List.replicate_succ, shiftBoundaryEntries, this, domN]
      rfl

theorem shiftBoundaryEntries_take (c : Corner) (x : Entry) (a : Int → List Int)
    (hx : ∀ d o e, shiftBoundaryEntry c d o e x = .ok (.ints (a (getOffset c d o e).1))) (k : Nat)
    (ds : List Dim) (os es : List Int) (he : es.length = os.length) (hd : ds.length = os.length) (hk : k < os.length) :
    shiftBoundaryEntries c ds (fill (List.replicate k (.slice .full) ++ [x]) os.length) os es =
      .ok (takeN (a (getOffset c (ds.getD k .x) (os.getD k 0) (es.getD k 0)).1) k os es) := by
  induction k generalizing ds os es with
  | zero =>
    match os, es, ds, he, hd, hk with
    | o :: os, e :: es, d :: ds, he, hd, hk =>
      have := shiftBoundaryEntries_full c ds os es (by simpa using he) (by simpa using hd)
      simp only [fill, List.replicate_zero, List.nil_append, List.cons_append, shiftBoundaryEntries, hx, List.length_cons,
        List.length_nil, Nat.zero_add, Nat.add_sub_cancel, this]
      rfl
  | succ k ih =>
    match os, es, ds, he, hd, hk with
    | o :: os, e :: es, d :: ds, he, hd, hk =>
      have := ih ds os es (by simpa using he) (by simpa using hd) (by simpa using hk)
      have e1 : fill (List.replicate (k + 1) (.slice .full) ++ [x]) (o :: os).length =
          .slice .full :: fill (List.replicate k (.slice .full) ++ [x]) os.length := by
        simp [fill, List.replicate_succ]
      rw [e1]
      simp only [shiftBoundaryEntries, this]
      rfl

/-! ### a new axis -/

/-- The axes after the new one, with the origins and extents of the axes after them; the last one whole. -/
def tailR : List Int → List Int → List Nat → List RNx
  | o :: os, e :: es, _ :: ns => .slice o 1 e.toNat :: tailR os es ns
  | _, _, n :: _ => [.slice 0 1 n]
  | _, _, [] => []

/-- A new axis before axis `p`. -/
def newR : Nat → List Int → List Int → List Nat → List RNx
  | 0, _ :: os, _ :: es, ns => .newaxis :: tailR os es ns
  | p + 1, o :: os, e :: es, _ :: ns => .slice o 1 e.toNat :: newR p os es ns
  | _, _, _, _ => []

theorem tailR_spec (os es : List Int) (ns : List Nat) (ho : ns.length = os.length + 1) (he : es.length = os.length)
    (hin : ∀ k, k < os.length → 0 ≤ os.getD k 0 ∧ 0 ≤ es.getD k 0 ∧
      os.getD k 0 + es.getD k 0 ≤ (ns.getD k 0 : Nat)) :
    resolve (domN os es) ns = .ok (tailR os es ns) ∧ arrLen (tailR os es ns) = .ok none ∧
    axes (tailR os es ns) = es.map Int.toNat ++ [ns.getD os.length 0] ∧
    ∀ out, out.length = os.length + 1 → place (tailR os es ns) 0 out =
      absIdx os out ++ [out.getD os.length 0] := by
  induction os generalizing es ns with
  | nil =>
    match es, ns, he, ho with
    | [], [n], _, _ =>
      refine ⟨rfl, rfl, rfl, ?_⟩
      intro out h
      match out, h with
      | [i], _ => simp [tailR, place, absIdx]
  | cons o os ih =>
    match es, ns, he, ho with
    | e :: es, n :: ns, he, ho =>
      have h0 := hin 0 (by simp)
      simp only [List.getD_cons_zero] at h0
      obtain ⟨h1, h2, h3, h4⟩ := ih es ns (by simpa using ho) (by simpa using he) fun k hk => by
        simpa using hin (k + 1) (by simpa using hk)
      refine ⟨?_, h2, ?_, ?_⟩
      · simp only [domN] at h1
        simp only [domN, List.zipWith_cons_cons, resolve, h1]
        rw [resolve_of h0.1 (by omega) h0.2.2, show o + e - o = e by omega]
        rfl
      · simp only [tailR, axes, h3]; simp
      · intro out h
        match out, h with
        | i :: out, h =>
          simp only [tailR, place, List.headD_cons, List.tail_cons, h4 out (by simpa using h), absIdx_cons]
          simp

theorem newR_spec (p : Nat) (os es : List Int) (ns : List Nat) (ho : ns.length = os.length) (he : es.length = os.length)
    (hp : p < os.length)
    (hin : ∀ k, k < p → 0 ≤ os.getD k 0 ∧ 0 ≤ es.getD k 0 ∧ os.getD k 0 + es.getD k 0 ≤ (ns.getD k 0 : Nat))
    (hin' : ∀ k, p < k → k < os.length → 0 ≤ os.getD k 0 ∧ 0 ≤ es.getD k 0 ∧
      os.getD k 0 + es.getD k 0 ≤ (ns.getD (k - 1) 0 : Nat)) :
    ∃ L, shiftEntries (fill (List.replicate p (.slice .full) ++ [.newaxis]) os.length) os es = .ok L ∧
    resolve L ns = .ok (newR p os es ns) ∧ arrLen (newR p os es ns) = .ok none ∧
    axes (newR p os es ns) = (es.map Int.toNat).set p 1 ++ [ns.getD (os.length - 1) 0] ∧
    ∀ out, out.length = os.length + 1 → place (newR p os es ns) 0 out =
      (absIdx os out).eraseIdx p ++ [out.getD os.length 0] := by
  induction p generalizing os es ns with
  | zero =>
    match os, es, he, hp with
    | o :: os, e :: es, he, hp =>
      obtain ⟨h1, h2, h3, h4⟩ := tailR_spec os es ns (by simpa using ho) (by simpa using he) fun k hk => by
        simpa using hin' (k + 1) (by omega) (by simpa using hk)
      refine ⟨.newaxis :: domN os es, ?_, ?_, h2, ?_, ?_⟩
      · have := shiftEntries_full os es (by simpa using he)
        simp only [fill, List.replicate_zero, List.nil_append, List.cons_append, shiftEntries, shiftEntry, List.length_cons,
          List.length_nil, Nat.zero_add, Nat.add_sub_cancel, this]
        rfl
      · simp only [resolve, h1]; rfl
      · simp only [newR, axes, h3]; simp
      · intro out h
        match out, h with
        | i :: out, h =>
          simp only [newR, place, List.tail_cons, h4 out (by simpa using h), absIdx_cons]
          simp
  | succ p ih =>
    match os, es, ns, he, ho, hp with
    | o :: os, e :: es, n :: ns, he, ho, hp =>
      have h0 := hin 0 (by omega)
      simp only [List.getD_cons_zero] at h0
      obtain ⟨L, h1, h2, h3, h4, h5⟩ := ih os es ns (by simpa using ho) (by simpa using he) (by simpa using hp)
        (fun k hk => by simpa using hin (k + 1) (by omega))
        (fun k hk hk' => by
          have := hin' (k + 1) (by omega) (by simpa using hk')
          have e1 : (n :: ns).getD (k + 1 - 1) 0 = ns.getD (k - 1) 0 := by
            match k, hk with
            | k + 1, _ => simp
          rw [e1] at this
          simpa using this)
      refine ⟨.slice (.of o (o + e)) :: L, ?_, ?_, h3, ?_, ?_⟩
      · have e1 : fill (List.replicate (p + 1) (.slice .full) ++ [Entry.newaxis]) (o :: os).length =
            .slice .full :: fill (List.replicate p (.slice .full) ++ [Entry.newaxis]) os.length := by
          simp [fill, List.replicate_succ]
        rw [e1]
        simp only [shiftEntries, h1]
        rfl
      · simp only [resolve, h2]
        rw [resolve_of h0.1 (by omega) h0.2.2, show o + e - o = e by omega]
        rfl
      · simp only [newR, axes, h4]
        match os, hp with
        | o' :: os, _ => simp
      · intro out h
        match out, h with
        | i :: out, h =>
          simp only [newR, place, List.headD_cons, List.tail_cons, h5 out (by simpa using h), absIdx_cons]
          simp

end FV3.Fancy
