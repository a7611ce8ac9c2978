import Verif.Model.NDArray
import Verif.Spec.Broadcast
import Verif.Proofs.NDLemmas

/-!
# Broadcasting: arrays of the right shape are used as they are
-/

namespace FV3
variable {α : Type}

theorem fitsRev_self : ∀ s : List Nat, fitsRev s s = true
  | [] => rfl
  | m :: s => by simp [fitsRev, fitsRev_self s]

theorem fits_self (s : List Nat) : fits s s = true := fitsRev_self _

theorem broadcastRev_self : ∀ s : List Nat, broadcastRev s s = some s
  | [] => rfl
  | m :: s => by simp [broadcastRev, broadcastRev_self s]

theorem broadcastShape_self (s : List Nat) : broadcastShape s s = some s := by
  unfold broadcastShape
  rw [broadcastRev_self]
  simp

theorem NDArray.stretch_self (v : NDArray α) : v.stretch v.shape = v := if_pos rfl

theorem NDArray.stretch_of {v : NDArray α} {s : List Nat} (h : v.shape = s) : v.stretch s = v := if_pos h

theorem NDArray.stretch_shape (v : NDArray α) (s : List Nat) : (v.stretch s).shape = s := by
  unfold NDArray.stretch
  split <;> simp [*]

theorem fits_of {s t : List Nat} (h : s = t) : fits s t = true := h ▸ fits_self s

theorem NDArray.setItem_same {a v : NDArray α} {ix : List Ix} {rs : List RIx} (h : resolveAll ix a.shape = .ok rs)
    (hs : viewShape rs = v.shape) : a.setItem ix v = .ok (a.assign rs v) := by
  unfold NDArray.setItem
  rw [h]
  simp only [bind, Except.bind]
  rw [if_pos (fits_of hs.symm), NDArray.stretch_of hs.symm]

/-- For arrays of the right shape it makes no difference. -/
theorem NDArray.fillItem_eq {a v r : NDArray α} {ix : List Ix} (h : a.getItem ix = .ok r) (hs : r.shape = v.shape) :
    a.fillItem ix v = a.setItem ix v := by
  unfold NDArray.getItem at h
  cases hr : resolveAll ix a.shape with
  | error e => rw [hr] at h; cases h
  | ok rs =>
    rw [hr] at h
    cases h
    rw [NDArray.setItem_same hr hs]
    unfold NDArray.fillItem
    rw [hr]
    exact if_pos hs

/-! ### the rule of the documentation -/

theorem fitsRev_iff : ∀ s d : List Nat, fitsRev s d = true ↔ ∀ k, s.getD k 1 = d.getD k 1 ∨ s.getD k 1 = 1
  | [], d => by simp [fitsRev]
  | m :: s, [] => by
    simp only [fitsRev, Bool.and_eq_true, beq_iff_eq, fitsRev_iff s []]
    constructor
    · rintro ⟨h1, h2⟩ (_ | k)
      · exact .inl h1
      · exact h2 k
    · intro h
      refine ⟨?_, fun k => h (k + 1)⟩
      rcases h 0 with h | h <;> exact h
  | m :: s, n :: d => by
    simp only [fitsRev, Bool.and_eq_true, Bool.or_eq_true, beq_iff_eq, fitsRev_iff s d]
    constructor
    · rintro ⟨h1, h2⟩ (_ | k)
      · exact h1
      · exact h2 k
    · intro h
      exact ⟨h 0, fun k => h (k + 1)⟩

theorem fits_iff (s d : List Nat) : fits s d = true ↔ Broadcastable s d := fitsRev_iff _ _

theorem Broadcastable.refl (s : List Nat) : Broadcastable s s := fun _ => .inl rfl

/-- Indices in reverse. -/
def InRev (s i : List Nat) : Prop := InB s.reverse i.reverse

theorem InRev_iff (s i : List Nat) : InRev s i ↔ i.length = s.length ∧ ∀ k, k < s.length → i.getD k 0 < s.getD k 0 := by
  unfold InRev
  rw [inB_iff]
  simp only [List.length_reverse]
  constructor
  · rintro ⟨h1, h2⟩
    refine ⟨h1, fun k hk => ?_⟩
    have := h2 (s.length - 1 - k) (by omega)
    rw [getD_lt _ (by simp; omega), getD_lt _ (by simp; omega), List.getElem_reverse, List.getElem_reverse] at this
    rw [getD_lt _ (by omega), getD_lt _ hk]
    simp only [h1] at this
    have e : s.length - 1 - (s.length - 1 - k) = k := by omega
    simpa only [e] using this
  · rintro ⟨h1, h2⟩
    refine ⟨h1, fun k hk => ?_⟩
    have := h2 (s.length - 1 - k) (by omega)
    rw [getD_lt _ (by omega), getD_lt _ (by omega)] at this
    rw [getD_lt _ (by simp; omega), getD_lt _ (by simp; omega), List.getElem_reverse, List.getElem_reverse]
    simpa only [h1] using this

theorem broadcastIdxRev_length : ∀ s i : List Nat, (broadcastIdxRev s i).length = s.length
  | [], _ => rfl
  | _ :: s, [] => by simp [broadcastIdxRev, broadcastIdxRev_length s []]
  | _ :: s, _ :: i => by simp [broadcastIdxRev, broadcastIdxRev_length s i]

theorem broadcastIdxRev_getD : ∀ (s i : List Nat) (k : Nat), k < s.length →
    (broadcastIdxRev s i).getD k 0 = if s.getD k 1 = 1 then 0 else i.getD k 0
  | [], _, _, h => absurd h (by simp)
  | m :: s, [], 0, _ => by simp [broadcastIdxRev]
  | m :: s, [], k + 1, h => by
    have := broadcastIdxRev_getD s [] k (by simpa using h)
    simpa [broadcastIdxRev] using this
  | m :: s, i :: is, 0, _ => by simp [broadcastIdxRev]
  | m :: s, i :: is, k + 1, h => by
    have := broadcastIdxRev_getD s is k (by simpa using h)
    simpa [broadcastIdxRev] using this

theorem broadcastIdx_in {s d idx : List Nat} (h : Broadcastable s d) (hi : InB d idx) : InB s (broadcastIdx s idx) := by
  have h1 : InRev s.reverse (broadcastIdxRev s.reverse idx.reverse) := by
    rw [InRev_iff]
    refine ⟨broadcastIdxRev_length _ _, fun k hk => ?_⟩
    rw [broadcastIdxRev_getD _ _ _ hk]
    have hd : InRev d.reverse idx.reverse := by unfold InRev; simpa using hi
    rw [InRev_iff] at hd
    have hk' := h k
    unfold axisFromEnd at hk'
    rw [getD_lt 1 hk] at hk' ⊢
    rw [getD_lt 0 hk]
    split
    · next e => omega
    · next e =>
      have hkd : k < d.reverse.length := by
        by_contra hc
        have h1 : d.reverse.getD k 1 = 1 := by
          rw [List.getD_eq_getElem?_getD, List.getElem?_eq_none (by omega)]; rfl
        rw [h1] at hk'
        omega
      have := hd.2 k hkd
      rw [getD_lt 1 hkd] at hk'
      rw [getD_lt 0 hkd] at this
      omega
  unfold InRev at h1
  simpa [broadcastIdx] using h1

theorem stretch_spec {v : NDArray α} {shape : List Nat} (h : Broadcastable v.shape shape) :
    IsBroadcast v shape (v.stretch shape) := by
  refine ⟨NDArray.stretch_shape _ _, fun idx hi => ?_⟩
  by_cases e : v.shape = shape
  · refine ⟨idx, by rw [e]; exact hi, by rw [NDArray.stretch_of e], fun k hk => ?_⟩
    split
    · next h1 =>
      have hd : InRev shape.reverse idx.reverse := by unfold InRev; simpa using hi
      rw [InRev_iff] at hd
      have := hd.2 k (by simpa [e] using hk)
      unfold axisFromEnd at h1
      rw [getD_lt 1 (by simpa using hk)] at h1
      rw [← e, getD_lt (0 : Nat) (l := v.shape.reverse) (by simpa using hk)] at this
      unfold entryFromEnd
      omega
    · rfl
  · refine ⟨broadcastIdx v.shape idx, broadcastIdx_in h hi, ?_, fun k hk => ?_⟩
    · unfold NDArray.stretch
      rw [if_neg e]
    · unfold entryFromEnd broadcastIdx axisFromEnd
      rw [List.reverse_reverse]
      exact broadcastIdxRev_getD _ _ _ (by simpa using hk)

end FV3
