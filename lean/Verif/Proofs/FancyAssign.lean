import Verif.Proofs.FancyView
import Verif.Proofs.Broadcast
import Verif.Proofs.MemorySpec
import Verif.Spec.FancyAssign

/-!
# Assignments through arrays of indices: where each element is shown
-/

namespace FV3.Fancy
variable {α : Type}

/-- Slices which do not stand still and stay at or after the first element. -/
def RNx.Ok : RNx → Prop
  | .slice a st c => st ≠ 0 ∧ ∀ j : Nat, j < c → 0 ≤ a + st * j
  | _ => True

theorem resolve_allOk {ix : List NIx} {s : List Nat} {rs : List RNx} (h : resolve ix s = .ok rs) : ∀ r ∈ rs, r.Ok := by
  induction ix generalizing s rs with
  | nil =>
    have e : rs = s.map fun n => .slice 0 1 n := by simpa [resolve] using h.symm
    subst e
    intro r hr
    obtain ⟨n, _, rfl⟩ := List.mem_map.1 hr
    exact ⟨by decide, fun j _ => by omega⟩
  | cons x ix ih =>
    cases x with
    | newaxis =>
      simp only [resolve, bind, Except.bind] at h
      cases h' : resolve ix s with
      | error e => rw [h'] at h; cases h
      | ok rest =>
        rw [h'] at h
        cases h
        intro r hr
        rcases List.mem_cons.1 hr with rfl | hr
        · trivial
        · exact ih h' r hr
    | int i =>
      cases s with
      | nil => cases h
      | cons n s =>
        simp only [resolve, bind, Except.bind] at h
        generalize (if i < 0 then i + (n : Int) else i) = k at h
        split at h
        · cases h' : resolve ix s with
          | error e => rw [h'] at h; cases h
          | ok rest =>
            rw [h'] at h
            cases h
            intro r hr
            rcases List.mem_cons.1 hr with rfl | hr
            · trivial
            · exact ih h' r hr
        · cases h
    | ints a =>
      cases s with
      | nil => cases h
      | cons n s =>
        simp only [resolve, bind, Except.bind] at h
        cases h0 : resolveInts n a with
        | error e => rw [h0] at h; cases h
        | ok js =>
          rw [h0] at h
          cases h' : resolve ix s with
          | error e => rw [h'] at h; cases h
          | ok rest =>
            rw [h'] at h
            cases h
            intro r hr
            rcases List.mem_cons.1 hr with rfl | hr
            · trivial
            · exact ih h' r hr
    | slice sl =>
      cases s with
      | nil => cases h
      | cons n s =>
        simp only [resolve, bind, Except.bind] at h
        cases h0 : sl.resolve n with
        | error e => rw [h0] at h; cases h
        | ok x =>
          have hok := Strided.ix_resolve_ok (e := .slice sl) (n := n) (r := x) h0
          rw [h0] at h
          cases x with
          | int i =>
            dsimp only at h
            cases h' : resolve ix s with
            | error e => rw [h'] at h; cases h
            | ok rest =>
              rw [h'] at h
              cases h
              intro r hr
              rcases List.mem_cons.1 hr with rfl | hr
              · trivial
              · exact ih h' r hr
          | slice a st c =>
            dsimp only at h
            cases h' : resolve ix s with
            | error e => rw [h'] at h; cases h
            | ok rest =>
              rw [h'] at h
              cases h
              intro r hr
              rcases List.mem_cons.1 hr with rfl | hr
              · exact ⟨hok.1, fun j hj => (hok.2 j hj).1⟩
              · exact ih h' r hr

theorem unplace_iff {rs : List RNx} (h : ∀ r ∈ rs, r.Ok) (j : Nat) {idx out : List Nat} :
    unplace rs j idx = some out ↔ InB (axes rs) out ∧ place rs j out = idx := by
  induction rs generalizing idx out with
  | nil =>
    cases idx <;> cases out <;> simp [unplace, axes, place, InB]
  | cons r rs ih =>
    have ih := @ih (fun r hr => h r (List.mem_cons_of_mem _ hr))
    have h0 := h r List.mem_cons_self
    cases r with
    | newaxis =>
      simp only [unplace, axes, Option.map_eq_some_iff]
      constructor
      · rintro ⟨o, e, rfl⟩
        have := ih.1 e
        exact ⟨⟨by omega, this.1⟩, this.2⟩
      · rintro ⟨h1, h2⟩
        cases out with
        | nil => exact absurd h1 id
        | cons x out =>
          have hx : x < 1 := h1.1
          refine ⟨out, ih.2 ⟨h1.2, h2⟩, ?_⟩
          congr 1; omega
    | int i =>
      cases idx with
      | nil => simp [unplace, place]
      | cons x idx =>
        simp only [unplace, axes, place, List.cons.injEq]
        by_cases hc : x = i
        · rw [if_pos hc, ih]
          simp [hc]
        · rw [if_neg hc]
          constructor
          · intro hh; cases hh
          · rintro ⟨-, hh, -⟩; exact absurd hh.symm hc
    | arr js =>
      cases idx with
      | nil => simp [unplace, place]
      | cons x idx =>
        simp only [unplace, axes, place, List.cons.injEq]
        by_cases hc : x = js.getD (if js.length = 1 then 0 else j) 0
        · rw [if_pos hc, ih]
          simp [hc]
        · rw [if_neg hc]
          constructor
          · intro hh; cases hh
          · rintro ⟨-, hh, -⟩; exact absurd hh.symm hc
    | slice a st c =>
      cases idx with
      | nil => simp [unplace, place]
      | cons x idx =>
        simp only [unplace, axes]
        constructor
        · intro hh
          split at hh
          next hc =>
            rw [Option.map_eq_some_iff] at hh
            obtain ⟨o, e1, rfl⟩ := hh
            have := ih.1 e1
            refine ⟨⟨by omega, this.1⟩, ?_⟩
            show (a + st * _).toNat :: place rs j o = x :: idx
            rw [this.2]
            congr 1
            simp only [List.headD_cons]
            rw [Int.toNat_of_nonneg hc.1]
            omega
          · cases hh
        · rintro ⟨hin, he⟩
          cases out with
          | nil => exact absurd hin id
          | cons i out =>
            have hi : i < c := hin.1
            have he' : (a + st * i).toNat :: place rs j out = x :: idx := he
            rw [List.cons.injEq] at he'
            have h3 := h0.2 i hi
            have e : (x : Int) - a = st * i := by omega
            have e2 : ((x : Int) - a) / st = i := by rw [e, Int.mul_ediv_cancel_left _ h0.1]
            rw [e2, if_pos ⟨by omega, by omega, by omega⟩, ih.2 ⟨hin.2, he'.2⟩]
            simp

/-- The place on the other axes does not depend on the position on the axis of the arrays. -/
theorem unplace_unique {rs : List RNx} {j j' : Nat} {idx out out' : List Nat} (h : unplace rs j idx = some out)
    (h' : unplace rs j' idx = some out') : out = out' := by
  induction rs generalizing idx out out' with
  | nil =>
    cases idx with
    | nil => cases h; cases h'; rfl
    | cons _ _ => cases h
  | cons r rs ih =>
    cases r with
    | newaxis =>
      simp only [unplace, Option.map_eq_some_iff] at h h'
      obtain ⟨o, e, rfl⟩ := h
      obtain ⟨o', e', rfl⟩ := h'
      rw [ih e e']
    | int i =>
      cases idx with
      | nil => cases h
      | cons x idx =>
        simp only [unplace] at h h'
        split at h
        · next hc => rw [if_pos hc] at h'; exact ih h h'
        · cases h
    | arr js =>
      cases idx with
      | nil => cases h
      | cons x idx =>
        simp only [unplace] at h h'
        generalize js.getD (if js.length = 1 then 0 else j) 0 = y at h
        generalize js.getD (if js.length = 1 then 0 else j') 0 = y' at h'
        split at h
        · split at h'
          · exact ih h h'
          · cases h'
        · cases h
    | slice a st c =>
      cases idx with
      | nil => cases h
      | cons x idx =>
        simp only [unplace] at h h'
        split at h
        · next hc =>
          rw [if_pos hc] at h'
          rw [Option.map_eq_some_iff] at h h'
          obtain ⟨o, e, rfl⟩ := h
          obtain ⟨o', e', rfl⟩ := h'
          rw [ih e e']
        · cases h

theorem latest_none {β : Type} {f : Nat → Option β} {n : Nat} (h : latest f n = none) (j : Nat) (hj : j < n) :
    f j = none := by
  induction n with
  | zero => omega
  | succ n ih =>
    simp only [latest] at h
    cases hf : f n with
    | some b => rw [hf] at h; cases h
    | none =>
      rw [hf] at h
      by_cases e : j = n
      · rw [e]; exact hf
      · exact ih h (by omega)

theorem latest_some {β : Type} {f : Nat → Option β} {n j : Nat} {b : β} (h : latest f n = some (j, b)) :
    j < n ∧ f j = some b ∧ ∀ i, j < i → i < n → f i = none := by
  induction n with
  | zero => cases h
  | succ n ih =>
    simp only [latest] at h
    cases hf : f n with
    | some c =>
      rw [hf] at h
      cases h
      exact ⟨by omega, hf, fun i h1 h2 => by omega⟩
    | none =>
      rw [hf] at h
      obtain ⟨h1, h2, h3⟩ := ih h
      refine ⟨by omega, h2, fun i hi1 hi2 => ?_⟩
      by_cases e : i = n
      · rw [e]; exact hf
      · exact h3 i hi1 (by omega)

theorem inB_insertIdx {s out : List Nat} {p n j : Nat} (hp : p ≤ s.length) :
    InB (s.insertIdx p n) (out.insertIdx p j) ∧ p ≤ out.length ↔ InB s out ∧ j < n := by
  induction p generalizing s out with
  | zero =>
    simp only [List.insertIdx_zero, Nat.zero_le, and_true]
    exact and_comm
  | succ p ih =>
    cases s with
    | nil => exact absurd hp (by simp)
    | cons m s =>
      cases out with
      | nil => simp [InB]
      | cons x out =>
        have := @ih s out (by simpa using hp)
        simp only [List.insertIdx_succ_cons, InB, List.length_cons, Nat.add_le_add_iff_right, and_assoc]
        rw [this]

theorem insertIdx_eraseIdx_getD {l : List Nat} {p : Nat} (h : p < l.length) :
    (l.eraseIdx p).insertIdx p (l.getD p 0) = l := by
  rw [getD_lt _ h]
  exact List.insertIdx_eraseIdx_getElem h

/-- Reading and assigning through the same index: each element of the result has one element of the array behind it,
which gets the value at the last place where it is shown; the others stay. -/
theorem setItem_spec {a r0 : NDArray α} {ix : List NIx} (h : getItem a ix = .ok r0) (value : NDArray α) :
    ∃ src : List Nat → List Nat,
      (∀ d : NDArray α, d.shape = a.shape → ∃ r, getItem d ix = .ok r ∧ r.shape = r0.shape ∧
        ∀ rel, r.get rel = d.get (src rel)) ∧
      (¬ Broadcastable value.shape r0.shape → setItem a ix value = .error .valueError) ∧
      (Broadcastable value.shape r0.shape → ∃ b, setItem a ix value = .ok b ∧ b.shape = a.shape ∧
        (∀ rel, InB r0.shape rel → (∀ rel', InB r0.shape rel' → src rel' = src rel → ¬ Later rel rel') →
          b.get (src rel) = (value.stretch r0.shape).get rel) ∧
        ∀ idx, (∀ rel, InB r0.shape rel → src rel ≠ idx) → b.get idx = a.get idx) := by
  unfold getItem at h
  cases hr : resolve ix a.shape with
  | error e => rw [hr] at h; cases h
  | ok rs =>
    rw [hr] at h
    have hok := resolve_allOk hr
    simp only [bind, Except.bind] at h
    cases ha : arrLen rs with
    | error e => rw [ha] at h; cases h
    | ok o =>
      rw [ha] at h
      cases o with
      | none =>
        cases h
        refine ⟨place rs 0, fun d hd => ?_, fun hn => ?_, fun hb => ?_⟩
        · unfold getItem
          rw [hd, hr]
          simp only [bind, Except.bind, ha]
          exact ⟨_, rfl, rfl, fun _ => rfl⟩
        · unfold setItem
          rw [hr]
          simp only [bind, Except.bind, ha]
          exact if_neg fun h => hn ((fits_iff _ _).1 h)
        · unfold setItem
          rw [hr]
          simp only [bind, Except.bind, ha]
          refine ⟨_, if_pos ((fits_iff _ _).2 hb), rfl, fun rel hrel _ => ?_, fun idx hidx => ?_⟩
          · dsimp only
            rw [(unplace_iff hok 0).2 ⟨hrel, rfl⟩]
          · dsimp only
            cases hu : unplace rs 0 idx with
            | none => rfl
            | some out =>
              have := (unplace_iff hok 0).1 hu
              exact absurd this.2 (hidx out this.1)
      | some n =>
        cases h
        have hp := arrAxis_le rs
        refine ⟨fun out => place rs (out.getD (arrAxis rs) 0) (out.eraseIdx (arrAxis rs)), fun d hd => ?_, fun hn => ?_,
          fun hb => ?_⟩
        · unfold getItem
          rw [hd, hr]
          simp only [bind, Except.bind, ha]
          exact ⟨_, rfl, rfl, fun _ => rfl⟩
        · unfold setItem
          rw [hr]
          simp only [bind, Except.bind, ha]
          exact if_neg fun h => hn ((fits_iff _ _).1 h)
        · unfold setItem
          rw [hr]
          simp only [bind, Except.bind, ha]
          have key : ∀ {j : Nat} {out idx : List Nat}, j < n → unplace rs j idx = some out →
              InB ((axes rs).insertIdx (arrAxis rs) n) (out.insertIdx (arrAxis rs) j) ∧
              place rs ((out.insertIdx (arrAxis rs) j).getD (arrAxis rs) 0)
                ((out.insertIdx (arrAxis rs) j).eraseIdx (arrAxis rs)) = idx := by
            intro j out idx hj hu
            obtain ⟨h1, h2⟩ := (unplace_iff hok j).1 hu
            have hl : arrAxis rs ≤ out.length := by rw [((inB_iff _ _).1 h1).1]; exact hp
            refine ⟨((inB_insertIdx hp).2 ⟨h1, hj⟩).1, ?_⟩
            rw [List.getD_eq_getElem?_getD, List.getElem?_insertIdx_self, if_pos hl, List.eraseIdx_insertIdx_self]
            exact h2
          refine ⟨_, if_pos ((fits_iff _ _).2 hb), rfl, fun rel hrel hlast => ?_, fun idx hidx => ?_⟩
          · dsimp only at hrel hlast ⊢
            have hlen : arrAxis rs < rel.length := by
              rw [((inB_iff _ _).1 hrel).1, List.length_insertIdx, if_pos hp]; omega
            have hback := insertIdx_eraseIdx_getD hlen
            have hin : InB (axes rs) (rel.eraseIdx (arrAxis rs)) ∧ rel.getD (arrAxis rs) 0 < n :=
              (inB_insertIdx hp).1 ⟨by rw [hback]; exact hrel, by rw [List.length_eraseIdx_of_lt hlen]; omega⟩
            have hu := (unplace_iff hok (rel.getD (arrAxis rs) 0)).2 ⟨hin.1, rfl⟩
            generalize hidx : place rs (rel.getD (arrAxis rs) 0) (rel.eraseIdx (arrAxis rs)) = idx at *
            cases hl : latest (fun j => unplace rs j idx) n with
            | none =>
              have := latest_none hl _ hin.2
              rw [hu] at this
              cases this
            | some x =>
              obtain ⟨j, out⟩ := x
              obtain ⟨h1, h2, h3⟩ := latest_some hl
              have he : out = rel.eraseIdx (arrAxis rs) := unplace_unique h2 hu
              dsimp only
              have hle : rel.getD (arrAxis rs) 0 ≤ j := by
                by_cases hc : rel.getD (arrAxis rs) 0 ≤ j
                · exact hc
                · have := h3 _ (by omega) hin.2
                  rw [hu] at this
                  cases this
              by_cases hj : rel.getD (arrAxis rs) 0 = j
              · rw [he, ← hj, hback]
              · exfalso
                have hk := key h1 h2
                refine hlast _ hk.1 hk.2 ⟨arrAxis rs, ?_, ?_⟩
                · rw [he]
                  have e1 : arrAxis rs ≤ (rel.eraseIdx (arrAxis rs)).length := by
                    rw [List.length_eraseIdx_of_lt hlen]; omega
                  apply List.ext_getElem?
                  intro i
                  by_cases hi : i < arrAxis rs
                  · rw [List.getElem?_take_of_lt hi, List.getElem?_take_of_lt hi, List.getElem?_insertIdx_of_lt hi,
                      List.getElem?_eraseIdx_of_lt hi]
                  · rw [List.getElem?_eq_none (by rw [List.length_take]; omega),
                      List.getElem?_eq_none (by rw [List.length_take]; omega)]
                · have hl' : arrAxis rs ≤ out.length := by
                    rw [he, List.length_eraseIdx_of_lt hlen]; omega
                  rw [List.getD_eq_getElem?_getD (l := out.insertIdx _ _), List.getElem?_insertIdx_self, if_pos hl']
                  simp only [Option.getD_some]
                  omega
          · dsimp only at hidx ⊢
            cases hl : latest (fun j => unplace rs j idx) n with
            | none => rfl
            | some x =>
              obtain ⟨j, out⟩ := x
              obtain ⟨h1, h2, -⟩ := latest_some hl
              have hk := key h1 h2
              exact absurd hk.2 (hidx _ hk.1)

end FV3.Fancy
