import Verif.Spec.Updates
import Verif.Spec.Halo
import Verif.Proofs.ExecReal
import Verif.Proofs.Exchange

/-!
# Storing received arrays
-/

namespace FV3
variable {α : Type}

theorem SameMeta.refl (q : Quantity α) : SameMeta q q := ⟨rfl, rfl, rfl, rfl, rfl⟩

theorem SameMeta.trans {a b c : Quantity α} (h : SameMeta a b) (h' : SameMeta b c) : SameMeta a c :=
  ⟨h'.shape.trans h.shape, h'.dims.trans h.dims, h'.units.trans h.units,
    h'.origin.trans h.origin, h'.extent.trans h.extent⟩

theorem SameMeta.symm {a b : Quantity α} (h : SameMeta a b) : SameMeta b a :=
  ⟨h.shape.symm, h.dims.symm, h.units.symm, h.origin.symm, h.extent.symm⟩

section
variable {q q' : Quantity α} (h : SameMeta q q')
include h

theorem SameMeta.d (k : Nat) : q'.d k = q.d k := by unfold Quantity.d; rw [h.dims]
theorem SameMeta.o (k : Nat) : q'.o k = q.o k := by unfold Quantity.o; rw [h.origin]
theorem SameMeta.e (k : Nat) : q'.e k = q.e k := by unfold Quantity.e; rw [h.extent]
theorem SameMeta.n (k : Nat) : q'.n k = q.n k := by unfold Quantity.n; rw [h.shape]
theorem SameMeta.ndim : q'.ndim = q.ndim := by unfold Quantity.ndim; rw [h.dims]
theorem SameMeta.rel (idx : List Nat) (k : Nat) : q'.rel idx k = q.rel idx k := by
  unfold Quantity.rel; rw [h.o]
theorem SameMeta.tilePos (n c : Int) (idx : List Nat) (k : Nat) :
    q'.tilePos n c idx k = q.tilePos n c idx k := by
  unfold Quantity.tilePos; rw [h.rel, h.d]
theorem SameMeta.inDom (idx : List Nat) (k : Nat) : q'.InDom idx k ↔ q.InDom idx k := by
  unfold Quantity.InDom; rw [h.o, h.e]
theorem SameMeta.inCompute (idx : List Nat) : q'.InCompute idx ↔ q.InCompute idx := by
  unfold Quantity.InCompute; rw [h.ndim]; simp only [h.inDom]
theorem SameMeta.inRecv (b : BType) (n : Int) (idx : List Nat) :
    InRecv q' b n idx ↔ InRecv q b n idx := by
  unfold InRecv; rw [h.ndim]; simp only [h.d, h.o, h.e]
theorem SameMeta.recvIx (b : BType) (n : Int) : FV3.recvIx q' b n = FV3.recvIx q b n := by
  unfold FV3.recvIx; rw [h.ndim]; simp only [h.d, h.o, h.e]
theorem SameMeta.recvRel (b : BType) (n : Int) (idx : List Nat) :
    FV3.recvRel q' b n idx = FV3.recvRel q b n idx := by
  unfold FV3.recvRel rStart; rw [h.ndim]; simp only [h.d, h.o, h.e]

theorem SameMeta.wf (w : q.WF) : q'.WF := by
  refine ⟨⟨?_, ?_, ?_⟩, ?_⟩
  · rw [h.shape, h.ndim]; exact w.shape
  · rw [h.origin, h.ndim]; exact w.origin
  · rw [h.extent, h.ndim]; exact w.extent
  · intro k hk
    rw [h.ndim] at hk
    rw [h.o, h.e, h.n]; exact w.inside k hk

theorem SameMeta.haloReady {ky kx : Nat} {n d : Int} (H : HaloReady q ky kx n d) :
    HaloReady q' ky kx n d := by
  refine ⟨h.wf H.wf, ?_, ?_, ?_, ?_, ?_⟩
  · rw [h.dims]; exact H.axes
  · rw [h.e, h.d]; exact H.ey
  · rw [h.e, h.d]; exact H.ex
  · rw [h.o, h.e, h.n]; exact H.haloY
  · rw [h.o, h.e, h.n]; exact H.haloX

end

theorem storeInto_ok {mem mem' : Mem α} {q : Nat} {ix : List Ix} {a : NDArray α}
    (h : storeInto mem q ix a = .ok mem') :
    ∃ rs, resolveAll ix (mem q).data.shape = .ok rs ∧ viewShape rs = a.shape ∧
      mem' = fun q' => if q' = q then { mem q with data := (mem q).data.assign rs a } else mem q' := by
  unfold storeInto NDArray.fillItem at h
  obtain ⟨d, hd, h⟩ := bind_ok h
  obtain ⟨rs, hr, hd⟩ := bind_ok hd
  split at hd
  · next he =>
    simp only [Except.ok.injEq] at hd
    subst hd
    exact ⟨rs, hr, he, (pure_ok h).symm⟩
  · simp at hd

theorem storeInto_eq {mem : Mem α} {q : Nat} {ix : List Ix} {a : NDArray α} {rs : List RIx}
    (h1 : resolveAll ix (mem q).data.shape = .ok rs) (h2 : viewShape rs = a.shape) :
    storeInto mem q ix a = .ok fun q' =>
      if q' = q then { mem q with data := (mem q).data.assign rs a } else mem q' := by
  unfold storeInto NDArray.fillItem
  rw [h1]
  simp only [Bind.bind, Except.bind, if_pos h2, Pure.pure, Except.pure]

theorem storeInto_meta {mem mem' : Mem α} {q : Nat} {ix : List Ix} {a : NDArray α}
    (h : storeInto mem q ix a = .ok mem') (q' : Nat) : SameMeta (mem q') (mem' q') := by
  obtain ⟨rs, -, -, rfl⟩ := storeInto_ok h
  by_cases e : q' = q
  · subst e
    simp only [if_true]
    exact ⟨rfl, rfl, rfl, rfl, rfl⟩
  · simp only [if_neg e]
    exact SameMeta.refl _

/-- Position in the view of an expected array which index `idx` of its quantity has. -/
def cover (mem : Mem α) (x : Incoming) (idx : List Nat) : Option (List Nat) :=
  match resolveAll x.ix (mem x.q).data.shape with
  | .ok rs => unview rs idx
  | .error _ => none

theorem cover_same {mem mem' : Mem α} (h : ∀ q, SameMeta (mem q) (mem' q)) : cover mem' = cover mem := by
  funext x idx
  unfold cover
  rw [(h x.q).shape]

/-- Every element afterwards is the old one, when no view covers it, or the element of a
received array whose view covers it; nothing else changes. -/
theorem deliver_get {arr : Int → Nat → Option (NDArray α)} {xs : List Incoming} {mem mem' : Mem α}
    (h : deliver arr xs mem = .ok mem') :
    (∀ q, SameMeta (mem q) (mem' q)) ∧
    ∀ q idx, ((∀ x ∈ xs, x.q = q → cover mem x idx = none) ∧
        (mem' q).data.get idx = (mem q).data.get idx) ∨
      ∃ x ∈ xs, x.q = q ∧ ∃ rel a, cover mem x idx = some rel ∧ arr x.src x.off = some a ∧
        (mem' q).data.get idx = a.get rel := by
  induction xs generalizing mem with
  | nil =>
    simp only [deliver, Except.ok.injEq] at h
    subst h
    exact ⟨fun q => SameMeta.refl _, fun q idx => Or.inl ⟨by simp, rfl⟩⟩
  | cons x xs ih =>
    unfold deliver at h
    split at h
    · simp at h
    next a ha =>
    obtain ⟨m, hm, h⟩ := bind_ok h
    have hmeta := storeInto_meta hm
    obtain ⟨i1, i2⟩ := ih h
    have hcov : ∀ x idx, cover m x idx = cover mem x idx := by
      intro x idx; unfold cover; rw [(hmeta x.q).shape]
    simp only [hcov] at i2
    refine ⟨fun q => (hmeta q).trans (i1 q), fun q idx => ?_⟩
    rcases i2 q idx with ⟨n1, n2⟩ | ⟨x', hx', r⟩
    · obtain ⟨rs, hr, -, hmm⟩ := storeInto_ok hm
      by_cases e : x.q = q
      · cases hc : cover mem x idx with
        | some rel =>
          refine Or.inr ⟨x, List.mem_cons_self, e, rel, a, hc, ha, ?_⟩
          rw [n2, hmm]
          simp only [if_pos e.symm]
          unfold cover at hc
          rw [hr] at hc
          simp only at hc
          simp only [NDArray.assign, hc]
        | none =>
          refine Or.inl ⟨?_, ?_⟩
          · intro y hy hq
            rcases List.mem_cons.1 hy with rfl | hy
            · exact hc
            · exact n1 y hy hq
          · rw [n2, hmm]
            simp only [if_pos e.symm]
            unfold cover at hc
            rw [hr] at hc
            simp only at hc
            simp only [NDArray.assign, hc]
            rw [e]
      · refine Or.inl ⟨?_, ?_⟩
        · intro y hy hq
          rcases List.mem_cons.1 hy with rfl | hy
          · exact absurd hq e
          · exact n1 y hy hq
        · rw [n2, hmm]
          simp only [if_neg (Ne.symm e)]
    · exact Or.inr ⟨x', List.mem_cons_of_mem _ hx', r⟩

end FV3
