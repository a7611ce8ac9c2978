import Verif.Spec.Reorder
import Verif.Props.Halo
import Verif.Props.VectorHalo
import Verif.Props.Transpose

/-!
# C59: halo updates do not depend on the order of the axes
-/

namespace FV3
variable {α : Type}
open Quantity (TDim)

namespace Reordered
variable {A B : Quantity α}

theorem symm (R : Reordered A B) : Reordered B A :=
  ⟨R.lens', R.lens, R.perm.nodup_iff.2 R.nodup, R.perm.symm, R.units.symm,
    fun i j hi hj e => (R.origin j i hj hi e.symm).symm,
    fun i j hi hj e => (R.extent j i hj hi e.symm).symm,
    fun i j hi hj e => (R.shape j i hj hi e.symm).symm, fun f => (R.data f).symm⟩

theorem refl (h : A.Lens) (hn : A.dims.Nodup) : Reordered A A := by
  have key : ∀ i j, i < A.ndim → j < A.ndim → A.d j = A.d i → j = i := by
    intro i j hi hj e
    unfold Quantity.d at e
    unfold Quantity.ndim at hi hj
    rw [getD_lt _ hi, getD_lt _ hj] at e
    exact hn.getElem_inj_iff.1 e
  exact ⟨h, h, hn, .refl _, rfl, fun i j hi hj e => by rw [key i j hi hj e],
    fun i j hi hj e => by rw [key i j hi hj e], fun i j hi hj e => by rw [key i j hi hj e],
    fun f => rfl⟩

theorem ndim (R : Reordered A B) : B.ndim = A.ndim := R.perm.length_eq

theorem inj (R : Reordered A B) {i j : Nat} (hi : i < A.ndim) (hj : j < A.ndim)
    (e : A.d i = A.d j) : i = j := by
  unfold Quantity.d at e
  unfold Quantity.ndim at hi hj
  rw [getD_lt _ hi, getD_lt _ hj] at e
  exact R.nodup.getElem_inj_iff.1 e

/-- Every axis of one is an axis of the other. -/
theorem axis (R : Reordered A B) {k : Nat} (hk : k < B.ndim) : ∃ j, j < A.ndim ∧ B.d k = A.d j := by
  have h1 : B.d k ∈ A.dims := by
    apply R.perm.subset
    unfold Quantity.d
    unfold Quantity.ndim at hk
    rw [getD_lt _ hk]
    exact List.getElem_mem hk
  exact ⟨A.dims.idxOf (B.d k), List.idxOf_lt_length_of_mem h1, (getD_idxOf h1).symm⟩

end Reordered

theorem Quantity.at_named (q : Quantity α) (f : Dim → Nat) {k : Nat} (hk : k < q.ndim) :
    at' (q.dims.map f) k = f (q.d k) := by
  unfold Quantity.ndim at hk
  unfold at' Quantity.d
  rw [getD_lt _ (by simpa using hk), getD_lt _ hk]
  simp

/-- Every index is given by coordinates per name. -/
theorem Quantity.named (q : Quantity α) (hnd : q.dims.Nodup) {idx : List Nat}
    (hl : idx.length = q.ndim) : ∃ f : Dim → Nat, idx = q.dims.map f := by
  refine ⟨fun d => idx.getD (q.dims.idxOf d) 0, ?_⟩
  apply ext_getD 0 (by simpa [Quantity.ndim] using hl)
  intro k hk
  have hk' : k < q.dims.length := by rw [hl] at hk; exact hk
  rw [getD_lt (l := q.dims.map _) _ (by simpa using hk')]
  simp only [List.getElem_map]
  rw [hnd.idxOf_getElem k hk']

namespace Reordered
variable {A B : Quantity α}

theorem rel (R : Reordered A B) (f : Dim → Nat) {i k : Nat} (hi : i < A.ndim) (hk : k < B.ndim)
    (e : B.d k = A.d i) : B.rel (B.dims.map f) k = A.rel (A.dims.map f) i := by
  unfold Quantity.rel
  rw [B.at_named f hk, A.at_named f hi, e, R.origin i k hi hk e]

theorem inRecv (R : Reordered A B) {b : BType} {h : Int} {f : Dim → Nat}
    (hi : InRecv A b h (A.dims.map f)) : InRecv B b h (B.dims.map f) := by
  refine ⟨by simp [Quantity.ndim], fun k hk => ?_⟩
  obtain ⟨i, i1, i2⟩ := R.axis hk
  have := hi.2 i i1
  rw [A.at_named f i1] at this
  rw [B.at_named f hk, i2, R.origin i k i1 hk i2, R.extent i k i1 hk i2]
  exact this

theorem inRecv_iff (R : Reordered A B) {b : BType} {h : Int} {f : Dim → Nat} :
    InRecv A b h (A.dims.map f) ↔ InRecv B b h (B.dims.map f) := ⟨R.inRecv, R.symm.inRecv⟩

theorem haxes (R : Reordered A B) {ky kx ky' kx' : Nat} (H : HAxes A.dims ky kx)
    (y1 : ky' < B.ndim) (y2 : B.d ky' = A.d ky) (x1 : kx' < B.ndim) (x2 : B.d kx' = A.d kx) :
    HAxes B.dims ky' kx' := by
  have key : ∀ k d, B.dims[k]? = some d → ∃ i, i < A.ndim ∧ A.dims[i]? = some d ∧ k < B.ndim ∧
      B.d k = A.d i := by
    intro k d hd
    obtain ⟨hk, he⟩ := List.getElem?_eq_some_iff.1 hd
    obtain ⟨i, i1, i2⟩ := R.axis hk
    refine ⟨i, i1, ?_, hk, i2⟩
    have : B.d k = d := by unfold Quantity.d; rw [getD_lt _ hk, he]
    unfold Quantity.ndim at i1
    rw [List.getElem?_eq_getElem i1, ← this, i2]
    unfold Quantity.d
    rw [getD_lt _ i1]
  refine ⟨fun k d hd => ?_, fun k d hd => ?_, y1, x1⟩
  · obtain ⟨i, i1, i2, i3, i4⟩ := key k d hd
    rw [H.y i d i2]
    constructor
    · intro e; subst e; exact R.symm.inj i3 y1 (by rw [i4, y2])
    · intro e; subst e; exact R.inj i1 H.ylt (by rw [← i4, y2])
  · obtain ⟨i, i1, i2, i3, i4⟩ := key k d hd
    rw [H.x i d i2]
    constructor
    · intro e; subst e; exact R.symm.inj i3 x1 (by rw [i4, x2])
    · intro e; subst e; exact R.inj i1 H.xlt (by rw [← i4, x2])

theorem haloReady (R : Reordered A B) {ky kx ky' kx' : Nat} {n h : Int}
    (H : HaloReady A ky kx n h)
    (y1 : ky' < B.ndim) (y2 : B.d ky' = A.d ky) (x1 : kx' < B.ndim) (x2 : B.d kx' = A.d kx) :
    HaloReady B ky' kx' n h := by
  have yl := H.axes.ylt
  have xl := H.axes.xlt
  refine ⟨⟨R.lens', fun k hk => ?_⟩, R.haxes H.axes y1 y2 x1 x2, ?_, ?_, ?_, ?_⟩
  · obtain ⟨i, i1, i2⟩ := R.axis hk
    rw [R.origin i k i1 hk i2, R.extent i k i1 hk i2, R.shape i k i1 hk i2]
    exact H.wf.inside i i1
  · rw [R.extent _ _ yl y1 y2, y2]; exact H.ey
  · rw [R.extent _ _ xl x1 x2, x2]; exact H.ex
  · rw [R.origin _ _ yl y1 y2, R.extent _ _ yl y1 y2, R.shape _ _ yl y1 y2]; exact H.haloY
  · rw [R.origin _ _ xl x1 x2, R.extent _ _ xl x1 x2, R.shape _ _ xl x1 x2]; exact H.haloX

end Reordered

section
variable {l : Layout} {m p : Int → Mem α} {q ky kx : Nat} {n h : Int}

theorem Quantity.d_of_dims {A B : Quantity α} (h : A.dims = B.dims) (k : Nat) : A.d k = B.d k := by
  unfold Quantity.d; rw [h]
theorem Quantity.ndim_of_dims {A B : Quantity α} (h : A.dims = B.dims) : A.ndim = B.ndim := by
  unfold Quantity.ndim; rw [h]

/-- A scalar field with its axes in another order is a scalar field. -/
theorem ScalarField.reordered {q' : Nat} (S : ScalarField l m q ky kx n h)
    (R : ∀ r ∈ allRanks l, Reordered (m r q) (p r q'))
    (D : ∀ r ∈ allRanks l, ∀ r' ∈ allRanks l, (p r' q').dims = (p r q').dims) {r0 : Int}
    (h0 : r0 ∈ allRanks l) :
    ∃ ky' kx', ScalarField l p q' ky' kx' n h ∧
      ∀ r ∈ allRanks l, (p r q').d ky' = (m r q).d ky ∧ (p r q').d kx' = (m r q).d kx := by
  obtain ⟨ky', y1, y2⟩ := (R r0 h0).symm.axis (S.ready r0 h0).axes.ylt
  obtain ⟨kx', x1, x2⟩ := (R r0 h0).symm.axis (S.ready r0 h0).axes.xlt
  have Y : ∀ r ∈ allRanks l, ky' < (p r q').ndim ∧ (p r q').d ky' = (m r q).d ky := by
    intro r hr
    rw [Quantity.ndim_of_dims (D r0 h0 r hr), Quantity.d_of_dims (D r0 h0 r hr),
      Quantity.d_of_dims (S.dims r0 h0 r hr)]
    exact ⟨y1, y2.symm⟩
  have X : ∀ r ∈ allRanks l, kx' < (p r q').ndim ∧ (p r q').d kx' = (m r q).d kx := by
    intro r hr
    rw [Quantity.ndim_of_dims (D r0 h0 r hr), Quantity.d_of_dims (D r0 h0 r hr),
      Quantity.d_of_dims (S.dims r0 h0 r hr)]
    exact ⟨x1, x2.symm⟩
  refine ⟨ky', kx', ⟨fun r hr => ?_, D, fun r hr r' hr' k hk e1 e2 => ?_, fun r hr => ?_⟩,
    fun r hr => ⟨(Y r hr).2, (X r hr).2⟩⟩
  · exact (R r hr).haloReady (S.ready r hr) (Y r hr).1 (Y r hr).2 (X r hr).1 (X r hr).2
  · obtain ⟨i, i1, i2⟩ := (R r hr).axis hk
    have hk' : k < (p r' q').ndim := by rw [Quantity.ndim_of_dims (D r hr r' hr')]; exact hk
    have i1' : i < (m r' q).ndim := by rw [Quantity.ndim_of_dims (S.dims r hr r' hr')]; exact i1
    rw [(R r hr).extent i k i1 hk i2, (R r' hr').extent i k i1' hk' (by
      rw [Quantity.d_of_dims (D r hr r' hr'), Quantity.d_of_dims (S.dims r hr r' hr'), i2])]
    refine S.other r hr r' hr' i i1 ?_ ?_
    · intro e; subst e
      exact e1 ((R r hr).symm.inj hk (Y r hr).1 (by rw [i2, (Y r hr).2]))
    · intro e; subst e
      exact e2 ((R r hr).symm.inj hk (X r hr).1 (by rw [i2, (X r hr).2]))
  · rw [(Y r hr).2, (X r hr).2]; exact S.stagger r hr

/-- The point of the source is the same in both orders of the axes. -/
theorem source_reordered {A P A' P' : Quantity α} {ky' kx' : Nat} (R : Reordered A P)
    (R' : Reordered A' P') (hA : A'.ndim = A.ndim) (hP : P'.ndim = P.ndim)
    (H : HAxes A.dims ky kx) (H' : HAxes A'.dims ky kx) (I : HAxes P.dims ky' kx')
    (I' : HAxes P'.dims ky' kx')
    (K : P.d ky' = A.d ky ∧ P.d kx' = A.d kx) (K' : P'.d ky' = A'.d ky ∧ P'.d kx' = A'.d kx)
    (W : ∀ i k, i < A.ndim → k < P.ndim → P'.d k = A'.d i → P.d k = A.d i)
    {f g : Dim → Nat} {src' : List Nat} {rot u v : Int}
    (s3 : ∀ k, k < A.ndim → k ≠ ky → k ≠ kx →
      A'.rel (A'.dims.map g) k = A.rel (A.dims.map f) k)
    (s4 : (A'.rel (A'.dims.map g) kx, A'.rel (A'.dims.map g) ky) =
      turnPt rot n (overlapOf (A.d kx)) (overlapOf (A.d ky)) (A.rel (A.dims.map f) kx - u * n)
        (A.rel (A.dims.map f) ky - v * n))
    (c1 : src'.length = P'.ndim)
    (c3 : ∀ k, k < P.ndim → k ≠ ky' → k ≠ kx' → P'.rel src' k = P.rel (P.dims.map f) k)
    (c4 : (P'.rel src' kx', P'.rel src' ky') =
      turnPt rot n (overlapOf (P.d kx')) (overlapOf (P.d ky')) (P.rel (P.dims.map f) kx' - u * n)
        (P.rel (P.dims.map f) ky' - v * n)) :
    src' = P'.dims.map g := by
  rw [R.rel f H.xlt I.xlt K.2, R.rel f H.ylt I.ylt K.1, K.1, K.2, ← s4] at c4
  simp only [Prod.mk.injEq] at c4
  apply rel_compute_ext c1 (by simp [Quantity.ndim])
  intro k hk
  by_cases e1 : k = kx'
  · subst e1; rw [c4.1, R'.rel g H'.xlt I'.xlt K'.2]
  by_cases e2 : k = ky'
  · subst e2; rw [c4.2, R'.rel g H'.ylt I'.ylt K'.1]
  have hk' : k < P.ndim := by rw [← hP]; exact hk
  rw [c3 k hk' e2 e1]
  obtain ⟨i, i1, i2⟩ := R'.axis hk
  have i1' : i < A.ndim := by rw [← hA]; exact i1
  have i2' : P.d k = A.d i := W i k i1' hk' i2
  rw [R.rel f i1' hk' i2', R'.rel g i1 hk i2, s3 i i1' ?_ ?_]
  · intro e; subst e; exact e2 (R'.symm.inj hk I'.ylt (by rw [i2, K'.1]))
  · intro e; subst e; exact e1 (R'.symm.inj hk I'.xlt (by rw [i2, K'.2]))

variable [Neg α]

omit [Neg α] in
theorem SameMeta.reordered {A B A' B' : Quantity α} (R : Reordered A B) (hA : SameMeta A A')
    (hB : SameMeta B B')
    (hd : ∀ f : Dim → Nat, B'.data.get (B.dims.map f) = A'.data.get (A.dims.map f)) :
    Reordered A' B' := by
  refine ⟨⟨?_, ?_, ?_⟩, ⟨?_, ?_, ?_⟩, ?_, ?_, ?_, ?_, ?_, ?_, ?_⟩
  · rw [hA.shape, hA.ndim]; exact R.lens.shape
  · rw [hA.origin, hA.ndim]; exact R.lens.origin
  · rw [hA.extent, hA.ndim]; exact R.lens.extent
  · rw [hB.shape, hB.ndim]; exact R.lens'.shape
  · rw [hB.origin, hB.ndim]; exact R.lens'.origin
  · rw [hB.extent, hB.ndim]; exact R.lens'.extent
  · rw [hA.dims]; exact R.nodup
  · rw [hA.dims, hB.dims]; exact R.perm
  · rw [hA.units, hB.units]; exact R.units
  · intro i j; rw [hA.ndim, hB.ndim, hA.d, hB.d, hA.o, hB.o]; exact R.origin i j
  · intro i j; rw [hA.ndim, hB.ndim, hA.d, hB.d, hA.e, hB.e]; exact R.extent i j
  · intro i j; rw [hA.ndim, hB.ndim, hA.d, hB.d, hA.n, hB.n]; exact R.shape i j
  · intro f; rw [hA.dims, hB.dims]; exact hd f

/-- A halo update as one step, with the axes in two orders. -/
theorem step_reordered {q' : Nat} (hx : 0 < l.x) (hsq : l.y = l.x) (hh : 0 < h) (hn : h ≤ n)
    (S : ScalarField l m q ky kx n h) {ky' kx' : Nat} (S' : ScalarField l p q' ky' kx' n h)
    (R : ∀ r ∈ allRanks l, Reordered (m r q) (p r q'))
    (K : ∀ r ∈ allRanks l, (p r q').d ky' = (m r q).d ky ∧ (p r q').d kx' = (m r q).d kx)
    {m' p' : Int → Mem α} (hm : UpdateStep l (.halo q h) m m') (hp : UpdateStep l (.halo q' h) p p')
    {r : Int} (hr : r ∈ allRanks l) : Reordered (m' r q) (p' r q') := by
  obtain ⟨a1, -, a3⟩ := halo_step_value hx hsq hh hn S hm hr
  obtain ⟨b1, -, b3⟩ := halo_step_value hx hsq hh hn S' hp hr
  refine SameMeta.reordered (R r hr) (a1 q) (b1 q') fun f => ?_
  rcases a3 ((m r q).dims.map f) (by simp [Quantity.ndim]) with
    ⟨no, e⟩ | ⟨B, hB, hin, M, src, s1, s2, s3, s4⟩
  · rcases b3 ((p r q').dims.map f) (by simp [Quantity.ndim]) with
      ⟨no', e'⟩ | ⟨B', hB', hin', -⟩
    · rw [e, e']; exact (R r hr).data f
    · exact absurd ((R r hr).inRecv_iff.2 hin') (no B' hB')
  · rcases b3 ((p r q').dims.map f) (by simp [Quantity.ndim]) with
      ⟨no', e'⟩ | ⟨B', hB', hin', M', src', c1, c2, c3, c4⟩
    · exact absurd ((R r hr).inRecv hin) (no' B hB)
    · have H := S.ready r hr
      have eb := (C12_recv_outside_disjoint _ ky kx H.axes H.wf _ _ _ hin).2 _ _
        ((R r hr).inRecv_iff.2 hin')
      rw [eb, hB] at hB'
      simp only [Except.ok.injEq, Option.some.injEq] at hB'
      subst hB'
      have hs := boundary_toRank hx hsq hB
      have Rs := R _ hs
      obtain ⟨g, rfl⟩ := (m B.toRank q).named Rs.nodup s1.1
      rw [s2, c2]
      have : src' = (p B.toRank q').dims.map g :=
        source_reordered (R r hr) Rs M.ndim M'.ndim H.axes (S.ready _ hs).axes (S'.ready r hr).axes
          (S'.ready _ hs).axes (K r hr) (K _ hs) (fun i k _ _ e => by
            rw [Quantity.d_of_dims (S'.dims _ hs _ hr), Quantity.d_of_dims (S.dims _ hs _ hr), e])
          s3 s4 c1.1 c3 c4
      rw [this]
      exact Rs.data g

omit [Neg α] in
theorem zero_mem_ranks (hx : 0 < l.x) (hsq : l.y = l.x) : (0 : Int) ∈ allRanks l := by
  rw [mem_allRanks]
  have := Int.mul_pos hx hx
  constructor
  · omega
  · unfold Layout.cubeRanks Layout.tileRanks; rw [hsq]; omega

/-- **C59**: if all ranks hold the same scalar field twice, once with its axes in one order and
once in another, then updating the halos of the one and of the other gives, again, the same field
in the two orders: every halo point gets the same value, whatever the order of the axes. -/
theorem C59_halo_axis_order (hx : 0 < l.x) (hsq : l.y = l.x) (hh : 0 < h) (hn : h ≤ n)
    (S : ScalarField l m q ky kx n h) (R : ∀ r ∈ allRanks l, Reordered (m r q) (p r q))
    (D : ∀ r ∈ allRanks l, ∀ r' ∈ allRanks l, (p r' q).dims = (p r q).dims) (buf : Buffering) :
    ∃ m' p' : Int → Mem α,
      ((callNet l [.haloUpdate q h] m).Completes buf fun r =>
        (.ok (), ⟨m' r, if r ∈ allRanks l then 1 else 0, []⟩)) ∧
      ((callNet l [.haloUpdate q h] p).Completes buf fun r =>
        (.ok (), ⟨p' r, if r ∈ allRanks l then 1 else 0, []⟩)) ∧
      ∀ r ∈ allRanks l, SameMeta (m r q) (m' r q) ∧ SameMeta (p r q) (p' r q) ∧
        Reordered (m' r q) (p' r q) := by
  obtain ⟨m', ⟨m1, a1, a2⟩, a3⟩ := haloCall_bulk hx hsq hh hn S buf 1
  have h0 : (0 : Int) ∈ allRanks l := zero_mem_ranks hx hsq
  obtain ⟨ky', kx', S', K⟩ := S.reordered R D h0
  obtain ⟨p', ⟨p1, b1, b2⟩, b3⟩ := haloCall_bulk hx hsq hh hn S' buf 1
  refine ⟨m', p', a3, b3, fun r hr => ?_⟩
  rw [a2 r hr, b2 r hr]
  exact ⟨(halo_step_value hx hsq hh hn S a1 hr).1 q, (halo_step_value hx hsq hh hn S' b1 hr).1 q,
    step_reordered hx hsq hh hn S S' R K a1 b1 hr⟩

omit [Neg α] in
/-- Transposing gives the same field with its axes in another order. -/
theorem reordered_of_transpose {A B : Quantity α} (hA : A.Lens) (hn : A.dims.Nodup)
    {target : List TDim} (h : A.transpose target = .ok B) : Reordered A B := by
  obtain ⟨-, p1, l1, u1, n1, b1⟩ := C31_transpose_by_name A hA hn target B h
  have hn' : B.dims.Nodup := p1.nodup_iff.2 hn
  have key : ∀ {β : Type} (dflt : β) (la lb : List β),
      (∀ d ∈ A.dims, ofName dflt B.dims lb d = ofName dflt A.dims la d) →
      ∀ i j, i < A.ndim → j < B.ndim → B.d j = A.d i → lb.getD j dflt = la.getD i dflt := by
    intro β dflt la lb hl i j hi hj e
    unfold Quantity.ndim at hi hj
    unfold Quantity.d at e
    rw [getD_lt _ hi, getD_lt _ hj] at e
    have := hl _ (List.getElem_mem hi)
    unfold ofName at this
    rwa [hn.idxOf_getElem i hi, ← e, hn'.idxOf_getElem j hj] at this
  refine ⟨hA, l1, hn, p1, u1, key 0 _ _ fun d hd => (n1 d hd).1,
    key 0 _ _ fun d hd => (n1 d hd).2.1, fun i j hi hj e => ?_, fun f => b1 f⟩
  unfold Quantity.n
  rw [key 0 _ _ (fun d hd => (n1 d hd).2.2) i j hi hj e]

omit [Neg α] in
/-- The order of the names determines the quantity. -/
theorem Reordered.unique {A B C : Quantity α} (R : Reordered A B) (R' : Reordered A C)
    (hd : C.dims = B.dims) : SameMeta B C ∧ C.data.Eqv B.data := by
  have hnd : C.ndim = B.ndim := Quantity.ndim_of_dims hd
  have ax : ∀ k, k < B.ndim → ∃ i, i < A.ndim ∧ k < C.ndim ∧ B.d k = A.d i ∧ C.d k = A.d i := by
    intro k hk
    obtain ⟨i, i1, i2⟩ := R.axis hk
    exact ⟨i, i1, by omega, i2, by rw [Quantity.d_of_dims hd, i2]⟩
  have hs : C.data.shape = B.data.shape := by
    apply ext_getD 0 (by rw [R.lens'.shape, R'.lens'.shape, hnd])
    intro k hk
    rw [R'.lens'.shape, hnd] at hk
    obtain ⟨i, i1, i2, i3, i4⟩ := ax k hk
    have := (R.shape i k i1 hk i3).trans (R'.shape i k i1 i2 i4).symm
    unfold Quantity.n at this
    omega
  refine ⟨⟨hs, hd, by rw [R.units, R'.units], ?_, ?_⟩, hs, ?_⟩
  · apply ext_getD 0 (by rw [R.lens'.origin, R'.lens'.origin, hnd])
    intro k hk
    rw [R'.lens'.origin, hnd] at hk
    obtain ⟨i, i1, i2, i3, i4⟩ := ax k hk
    exact (R'.origin i k i1 i2 i4).trans (R.origin i k i1 hk i3).symm
  · apply ext_getD 0 (by rw [R.lens'.extent, R'.lens'.extent, hnd])
    intro k hk
    rw [R'.lens'.extent, hnd] at hk
    obtain ⟨i, i1, i2, i3, i4⟩ := ax k hk
    exact (R'.extent i k i1 i2 i4).trans (R.extent i k i1 hk i3).symm
  · intro idx hi
    have hl : idx.length = C.ndim := by rw [inB_iff] at hi; rw [hi.1, R'.lens'.shape]
    obtain ⟨f, rfl⟩ := C.named R'.symm.nodup hl
    have := R.data f
    rw [← hd] at this
    rw [this]
    exact R'.data f

omit [Neg α] in
/-- The order of the names of a transpose depends on the names only. -/
theorem transpose_dims {A B A' B' : Quantity α} (hA : A.Lens) (hn : A.dims.Nodup) (hA' : A'.Lens)
    (hd : A'.dims = A.dims) {target : List TDim} (h : A.transpose target = .ok B)
    (h' : A'.transpose target = .ok B') : B'.dims = B.dims := by
  have m1 := (C31_transpose_by_name A hA hn target B h).1
  have m2 := (C31_transpose_by_name A' hA' (hd ▸ hn) target B' h').1
  rw [hd] at m2
  have := (collapse_ok.2 m1).symm.trans (collapse_ok.2 m2)
  exact (Except.ok.inj this).symm

/-- **C59**: transposing a scalar field on all ranks and updating its halos gives the same as
updating its halos and transposing: same metadata and same array, element by element. -/
theorem C59_halo_transpose (hx : 0 < l.x) (hsq : l.y = l.x) (hh : 0 < h) (hn : h ≤ n)
    (S : ScalarField l m q ky kx n h) (hnd : ∀ r ∈ allRanks l, (m r q).dims.Nodup)
    {target : List TDim} (T : ∀ r ∈ allRanks l, (m r q).transpose target = .ok (p r q))
    (buf : Buffering) :
    ∃ m' p' : Int → Mem α,
      ((callNet l [.haloUpdate q h] m).Completes buf fun r =>
        (.ok (), ⟨m' r, if r ∈ allRanks l then 1 else 0, []⟩)) ∧
      ((callNet l [.haloUpdate q h] p).Completes buf fun r =>
        (.ok (), ⟨p' r, if r ∈ allRanks l then 1 else 0, []⟩)) ∧
      ∀ r ∈ allRanks l, SameMeta (m r q) (m' r q) ∧ ∃ t, (m' r q).transpose target = .ok t ∧
        SameMeta (p' r q) t ∧ t.data.Eqv (p' r q).data := by
  have R : ∀ r ∈ allRanks l, Reordered (m r q) (p r q) := fun r hr =>
    reordered_of_transpose (S.ready r hr).wf.toLens (hnd r hr) (T r hr)
  have D : ∀ r ∈ allRanks l, ∀ r' ∈ allRanks l, (p r' q).dims = (p r q).dims := fun r hr r' hr' =>
    transpose_dims (S.ready r hr).wf.toLens (hnd r hr) (S.ready r' hr').wf.toLens
      (S.dims r hr r' hr') (T r hr) (T r' hr')
  obtain ⟨m', ⟨m1, a1, a2⟩, a3⟩ := haloCall_bulk hx hsq hh hn S buf 1
  have h0 : (0 : Int) ∈ allRanks l := zero_mem_ranks hx hsq
  obtain ⟨ky', kx', S', K⟩ := S.reordered R D h0
  obtain ⟨p', ⟨p1, b1, b2⟩, b3⟩ := haloCall_bulk hx hsq hh hn S' buf 1
  refine ⟨m', p', a3, b3, fun r hr => ?_⟩
  rw [a2 r hr, b2 r hr]
  have Q := step_reordered hx hsq hh hn S S' R K a1 b1 hr
  have g := (halo_step_value hx hsq hh hn S a1 hr).1 q
  have g' := (halo_step_value hx hsq hh hn S' b1 hr).1 q
  have m1 := C31_transpose_by_name _ (S.ready r hr).wf.toLens (hnd r hr) target _ (T r hr)
  obtain ⟨t, ht⟩ := (C31_transpose_defined _ Q.lens Q.nodup target).1.2
    ⟨(p r q).dims, by rw [g.dims]; exact m1.1, by rw [g.dims]; exact m1.2.1⟩
  refine ⟨g, t, ht, Q.unique (reordered_of_transpose Q.lens Q.nodup ht) ?_⟩
  rw [g'.dims]
  exact transpose_dims (S.ready r hr).wf.toLens (hnd r hr) Q.lens g.dims (T r hr) ht

end

section
variable {l : Layout} {m p : Int → Mem α} {x y ky kx : Nat} {n h : Int}

/-- A vector field with its axes in another order is a vector field. -/
theorem VectorField.reordered (S : VectorField l m x y ky kx n h)
    (Rx : ∀ r ∈ allRanks l, Reordered (m r x) (p r x))
    (Ry : ∀ r ∈ allRanks l, Reordered (m r y) (p r y))
    (Dx : ∀ r ∈ allRanks l, ∀ r' ∈ allRanks l, (p r' x).dims = (p r x).dims)
    (Dy : ∀ r ∈ allRanks l, ∀ r' ∈ allRanks l, (p r' y).dims = (p r y).dims)
    (W : ∀ r ∈ allRanks l, ∀ i j, i < (m r x).ndim → j < (p r x).ndim →
      (p r x).d j = (m r x).d i → (p r y).d j = (m r y).d i) {r0 : Int}
    (h0 : r0 ∈ allRanks l) :
    ∃ ky' kx', VectorField l p x y ky' kx' n h ∧
      ∀ r ∈ allRanks l, ((p r x).d ky' = (m r x).d ky ∧ (p r x).d kx' = (m r x).d kx) ∧
        ((p r y).d ky' = (m r y).d ky ∧ (p r y).d kx' = (m r y).d kx) := by
  obtain ⟨ky', y1, y2⟩ := (Rx r0 h0).symm.axis (S.readyX r0 h0).axes.ylt
  obtain ⟨kx', x1, x2⟩ := (Rx r0 h0).symm.axis (S.readyX r0 h0).axes.xlt
  have N : ∀ r ∈ allRanks l, (p r y).ndim = (p r x).ndim := fun r hr => by
    rw [(Ry r hr).ndim, (Rx r hr).ndim, S.ndim r hr]
  have Y : ∀ r ∈ allRanks l, ky' < (p r x).ndim ∧ (p r x).d ky' = (m r x).d ky := by
    intro r hr
    rw [Quantity.ndim_of_dims (Dx r0 h0 r hr), Quantity.d_of_dims (Dx r0 h0 r hr),
      Quantity.d_of_dims (S.dimsX r0 h0 r hr)]
    exact ⟨y1, y2.symm⟩
  have X : ∀ r ∈ allRanks l, kx' < (p r x).ndim ∧ (p r x).d kx' = (m r x).d kx := by
    intro r hr
    rw [Quantity.ndim_of_dims (Dx r0 h0 r hr), Quantity.d_of_dims (Dx r0 h0 r hr),
      Quantity.d_of_dims (S.dimsX r0 h0 r hr)]
    exact ⟨x1, x2.symm⟩
  have Y' : ∀ r ∈ allRanks l, ky' < (p r y).ndim ∧ (p r y).d ky' = (m r y).d ky := fun r hr =>
    ⟨by rw [N r hr]; exact (Y r hr).1,
      W r hr _ _ (S.readyX r hr).axes.ylt (Y r hr).1 (Y r hr).2⟩
  have X' : ∀ r ∈ allRanks l, kx' < (p r y).ndim ∧ (p r y).d kx' = (m r y).d kx := fun r hr =>
    ⟨by rw [N r hr]; exact (X r hr).1,
      W r hr _ _ (S.readyX r hr).axes.xlt (X r hr).1 (X r hr).2⟩
  refine ⟨ky', kx', ⟨fun r hr => ?_, fun r hr => ?_, Dx, Dy, N, fun r hr r' hr' k hk e1 e2 => ?_,
    fun r hr => ?_, fun r hr => ?_⟩, fun r hr => ⟨⟨(Y r hr).2, (X r hr).2⟩, (Y' r hr).2, (X' r hr).2⟩⟩
  · exact (Rx r hr).haloReady (S.readyX r hr) (Y r hr).1 (Y r hr).2 (X r hr).1 (X r hr).2
  · exact (Ry r hr).haloReady (S.readyY r hr) (Y' r hr).1 (Y' r hr).2 (X' r hr).1 (X' r hr).2
  · obtain ⟨i, i1, i2⟩ := (Rx r hr).axis hk
    have hk' : k < (p r' x).ndim := by rw [Quantity.ndim_of_dims (Dx r hr r' hr')]; exact hk
    have i1' : i < (m r' x).ndim := by rw [Quantity.ndim_of_dims (S.dimsX r hr r' hr')]; exact i1
    have i2' := W r' hr' i k i1' hk' (by
      rw [Quantity.d_of_dims (Dx r hr r' hr'), Quantity.d_of_dims (S.dimsX r hr r' hr'), i2])
    rw [(Rx r hr).extent i k i1 hk i2, (Ry r' hr').extent i k (by rw [S.ndim r' hr']; exact i1')
      (by rw [N r' hr']; exact hk') i2']
    refine S.other r hr r' hr' i i1 ?_ ?_
    · intro e; subst e
      exact e1 ((Rx r hr).symm.inj hk (Y r hr).1 (by rw [i2, (Y r hr).2]))
    · intro e; subst e
      exact e2 ((Rx r hr).symm.inj hk (X r hr).1 (by rw [i2, (X r hr).2]))
  · rw [(Y' r hr).2, (X r hr).2]; exact S.staggerY r hr
  · rw [(X' r hr).2, (Y r hr).2]; exact S.staggerX r hr

variable [Neg α]

omit [Neg α] in
/-- One component after an update, with the axes in two orders. -/
theorem stored_reordered {m' p' : Int → Mem α} {ky' kx' : Nat} {r : Int} {q : Nat} {B : Boundary}
    {c : Nat} {F : α → α} {f : Dim → Nat} (R : Reordered (m r q) (p r q))
    (R' : Reordered (m B.toRank c) (p B.toRank c))
    (H : HAxes (m r q).dims ky kx) (H' : HAxes (m B.toRank c).dims ky kx)
    (I : HAxes (p r q).dims ky' kx') (I' : HAxes (p B.toRank c).dims ky' kx')
    (K : (p r q).d ky' = (m r q).d ky ∧ (p r q).d kx' = (m r q).d kx)
    (K' : (p B.toRank c).d ky' = (m B.toRank c).d ky ∧ (p B.toRank c).d kx' = (m B.toRank c).d kx)
    (W : ∀ i k, i < (m r q).ndim → k < (p r q).ndim →
      (p B.toRank c).d k = (m B.toRank c).d i → (p r q).d k = (m r q).d i)
    (a : StoredFrom m m' ky kx n h r q B c F ((m r q).dims.map f))
    (b : StoredFrom p p' ky' kx' n h r q B c F ((p r q).dims.map f)) :
    (p' r q).data.get ((p r q).dims.map f) = (m' r q).data.get ((m r q).dims.map f) := by
  obtain ⟨-, M, src, s1, s2, s3, s4⟩ := a
  obtain ⟨-, M', src', c1, c2, c3, c4⟩ := b
  obtain ⟨g, rfl⟩ := (m B.toRank c).named R'.nodup s1.1
  rw [s2, c2, source_reordered R R' M.ndim M'.ndim H H' I I' K K' W s3 s4 c1.1 c3 c4, R'.data g]

/-- A vector halo update as one step, with the axes in two orders. -/
theorem vector_step_reordered (hx : 0 < l.x) (hsq : l.y = l.x) (hh : 0 < h) (hn : h ≤ n) (hxy : x ≠ y)
    (S : VectorField l m x y ky kx n h) {ky' kx' : Nat} (S' : VectorField l p x y ky' kx' n h)
    (Rx : ∀ r ∈ allRanks l, Reordered (m r x) (p r x))
    (Ry : ∀ r ∈ allRanks l, Reordered (m r y) (p r y))
    (W : ∀ r ∈ allRanks l, ∀ i j, i < (m r x).ndim → j < (p r x).ndim →
      (p r x).d j = (m r x).d i → (p r y).d j = (m r y).d i)
    (K : ∀ r ∈ allRanks l, ((p r x).d ky' = (m r x).d ky ∧ (p r x).d kx' = (m r x).d kx) ∧
        ((p r y).d ky' = (m r y).d ky ∧ (p r y).d kx' = (m r y).d kx))
    {m' p' : Int → Mem α} (hm : UpdateStep l (.vector x y h) m m')
    (hp : UpdateStep l (.vector x y h) p p') {r : Int} (hr : r ∈ allRanks l) :
    Reordered (m' r x) (p' r x) ∧ Reordered (m' r y) (p' r y) := by
  -- the axes of the two components correspond
  have N : ∀ r ∈ allRanks l, (p r y).ndim = (p r x).ndim := S'.ndim
  have W' : ∀ r ∈ allRanks l, ∀ i j, i < (m r y).ndim → j < (p r y).ndim →
      (p r y).d j = (m r y).d i → (p r x).d j = (m r x).d i := by
    intro r hr i j hi hj e
    rw [N r hr] at hj
    obtain ⟨i', i1, i2⟩ := (Rx r hr).axis hj
    have := W r hr i' j i1 hj i2
    have e' : i' = i := (Ry r hr).inj (by rw [S.ndim r hr]; exact i1) hi (by rw [← this, e])
    rw [i2, e']
  have dx : ∀ r ∈ allRanks l, ∀ s ∈ allRanks l, ∀ i k, (p s x).d k = (m s x).d i →
      (p r x).d k = (m r x).d i := fun r hr s hs i k e => by
    rw [Quantity.d_of_dims (S'.dimsX _ hs _ hr), Quantity.d_of_dims (S.dimsX _ hs _ hr), e]
  have dy : ∀ r ∈ allRanks l, ∀ s ∈ allRanks l, ∀ i k, (p s y).d k = (m s y).d i →
      (p r y).d k = (m r y).d i := fun r hr s hs i k e => by
    rw [Quantity.d_of_dims (S'.dimsY _ hs _ hr), Quantity.d_of_dims (S.dimsY _ hs _ hr), e]
  obtain ⟨a1, -, a3, a4⟩ := vector_step_value hx hsq hh hn hxy S hm hr
  obtain ⟨b1, -, b3, b4⟩ := vector_step_value hx hsq hh hn hxy S' hp hr
  constructor
  · refine SameMeta.reordered (Rx r hr) (a1 x) (b1 x) fun f => ?_
    rcases a3 ((m r x).dims.map f) (by simp [Quantity.ndim]) with ⟨no, e⟩ | ⟨B, hB, -, st⟩
    · rcases b3 ((p r x).dims.map f) (by simp [Quantity.ndim]) with ⟨no', e'⟩ | ⟨B', hB', -, st'⟩
      · rw [e, e']; exact (Rx r hr).data f
      · exact absurd ((Rx r hr).inRecv_iff.2 st'.inn) (no B' hB')
    · rcases b3 ((p r x).dims.map f) (by simp [Quantity.ndim]) with ⟨no', e'⟩ | ⟨B', hB', -, st'⟩
      · exact absurd ((Rx r hr).inRecv st.inn) (no' B hB)
      · have H := S.readyX r hr
        have eb := (C12_recv_outside_disjoint _ ky kx H.axes H.wf _ _ _ st.inn).2 _ _
          ((Rx r hr).inRecv_iff.2 st'.inn)
        rw [eb, hB] at hB'
        simp only [Except.ok.injEq, Option.some.injEq] at hB'
        subst hB'
        have hs := boundary_toRank hx hsq hB
        by_cases c0 : B.rotations = 0
        · rw [if_pos c0] at st st'
          exact stored_reordered (Rx r hr) (Rx _ hs) H.axes (S.readyX _ hs).axes
            (S'.readyX r hr).axes (S'.readyX _ hs).axes (K r hr).1 (K _ hs).1
            (fun i k _ _ e => dx r hr _ hs i k e) st st'
        · rw [if_neg c0] at st st'
          exact stored_reordered (Rx r hr) (Ry _ hs) H.axes (S.readyY _ hs).axes
            (S'.readyX r hr).axes (S'.readyY _ hs).axes (K r hr).1 (K _ hs).2
            (fun i k hi hk e => W' r hr i k (by rw [S.ndim r hr]; exact hi)
              (by rw [N r hr]; exact hk) (dy r hr _ hs i k e)) st st'
  · refine SameMeta.reordered (Ry r hr) (a1 y) (b1 y) fun f => ?_
    rcases a4 ((m r y).dims.map f) (by simp [Quantity.ndim]) with ⟨no, e⟩ | ⟨B, hB, -, st⟩
    · rcases b4 ((p r y).dims.map f) (by simp [Quantity.ndim]) with ⟨no', e'⟩ | ⟨B', hB', -, st'⟩
      · rw [e, e']; exact (Ry r hr).data f
      · exact absurd ((Ry r hr).inRecv_iff.2 st'.inn) (no B' hB')
    · rcases b4 ((p r y).dims.map f) (by simp [Quantity.ndim]) with ⟨no', e'⟩ | ⟨B', hB', -, st'⟩
      · exact absurd ((Ry r hr).inRecv st.inn) (no' B hB)
      · have H := S.readyY r hr
        have eb := (C12_recv_outside_disjoint _ ky kx H.axes H.wf _ _ _ st.inn).2 _ _
          ((Ry r hr).inRecv_iff.2 st'.inn)
        rw [eb, hB] at hB'
        simp only [Except.ok.injEq, Option.some.injEq] at hB'
        subst hB'
        have hs := boundary_toRank hx hsq hB
        by_cases c0 : B.rotations = 0
        · rw [if_pos c0] at st st'
          exact stored_reordered (Ry r hr) (Ry _ hs) H.axes (S.readyY _ hs).axes
            (S'.readyY r hr).axes (S'.readyY _ hs).axes (K r hr).2 (K _ hs).2
            (fun i k _ _ e => dy r hr _ hs i k e) st st'
        · rw [if_neg c0] at st st'
          exact stored_reordered (Ry r hr) (Rx _ hs) H.axes (S.readyX _ hs).axes
            (S'.readyY r hr).axes (S'.readyX _ hs).axes (K r hr).2 (K _ hs).1
            (fun i k hi hk e => W r hr i k (by rw [← S.ndim r hr]; exact hi)
              (by rw [← N r hr]; exact hk) (dx r hr _ hs i k e)) st st'

/-- **C59** for vectors: with the axes of both components put in another order (the same one for
both), a vector halo update gives the same field, name by name. -/
theorem C59_vector_axis_order (hx : 0 < l.x) (hsq : l.y = l.x) (hh : 0 < h) (hn : h ≤ n) (hxy : x ≠ y)
    (S : VectorField l m x y ky kx n h)
    (Rx : ∀ r ∈ allRanks l, Reordered (m r x) (p r x))
    (Ry : ∀ r ∈ allRanks l, Reordered (m r y) (p r y))
    (Dx : ∀ r ∈ allRanks l, ∀ r' ∈ allRanks l, (p r' x).dims = (p r x).dims)
    (Dy : ∀ r ∈ allRanks l, ∀ r' ∈ allRanks l, (p r' y).dims = (p r y).dims)
    (W : ∀ r ∈ allRanks l, ∀ i j, i < (m r x).ndim → j < (p r x).ndim →
      (p r x).d j = (m r x).d i → (p r y).d j = (m r y).d i) (buf : Buffering) :
    ∃ m' p' : Int → Mem α,
      ((callNet l [.vectorHaloUpdate x y h] m).Completes buf fun r =>
        (.ok (), ⟨m' r, if r ∈ allRanks l then 2 else 0, []⟩)) ∧
      ((callNet l [.vectorHaloUpdate x y h] p).Completes buf fun r =>
        (.ok (), ⟨p' r, if r ∈ allRanks l then 2 else 0, []⟩)) ∧
      ∀ r ∈ allRanks l, (∀ c, SameMeta (m r c) (m' r c) ∧ SameMeta (p r c) (p' r c)) ∧
        Reordered (m' r x) (p' r x) ∧ Reordered (m' r y) (p' r y) := by
  have run : ∀ {m : Int → Mem α} {ky kx : Nat}, VectorField l m x y ky kx n h →
      ∃ m' : Int → Mem α, (∃ m1, UpdateStep l (.vector x y h) m m1 ∧
          ∀ r ∈ allRanks l, m' r = m1 r) ∧
        ((callNet l [.vectorHaloUpdate x y h] m).Completes buf fun r =>
          (.ok (), ⟨m' r, if r ∈ allRanks l then 2 else 0, []⟩)) := by
    intro m ky kx S
    obtain ⟨m', ⟨m1, h1, h2⟩, -, h3⟩ := calls_bulk (l := l) (Good := MetaIs m)
      (calls := [.vectorHaloUpdate x y h]) (mem := m) buf (fun r _ q => SameMeta.refl _)
      (fun c hc op ho => by
        rw [List.mem_singleton] at hc
        subst hc
        simp only [Call.start, Option.some.injEq] at ho
        subst ho
        exact vector_sound hx hsq hh hn S)
      (fun f hf => by simp at hf)
    exact ⟨m', ⟨m1, h1, h2⟩, h3⟩
  obtain ⟨ky', kx', S', K⟩ := S.reordered Rx Ry Dx Dy W (zero_mem_ranks hx hsq)
  obtain ⟨m', ⟨m1, a1, a2⟩, a3⟩ := run S
  obtain ⟨p', ⟨p1, b1, b2⟩, b3⟩ := run S'
  refine ⟨m', p', a3, b3, fun r hr => ?_⟩
  rw [a2 r hr, b2 r hr]
  exact ⟨fun c => ⟨(vector_step_value hx hsq hh hn hxy S a1 hr).1 c,
    (vector_step_value hx hsq hh hn hxy S' b1 hr).1 c⟩,
    vector_step_reordered hx hsq hh hn hxy S S' Rx Ry W K a1 b1 hr⟩

end

/-! ### Concrete cases

The field of `exFieldMem` (cells `3 × 3` per rank, a `2 × 2` layout) with its axes `y, x, z` and with
its axes `z, x, y`; D-grid winds with their axes `z, y, x` and with their axes `x, z, y`. -/

/-- `q.transpose(target)`, which succeeds in the examples. -/
def transposedMem (m : Int → Mem α) (target : List TDim) : Int → Mem α := fun r q =>
  match (m r q).transpose target with | .ok t => t | .error _ => m r q

/-- The order `z, x, y` given as in `transpose([Z_DIM, X_DIMS, Y_DIMS])`. -/
def zxy : List TDim := [.name .z, .anyOf [.x, .xI], .anyOf [.y, .yI]]
def xzy : List TDim := [.anyOf [.x, .xI], .name .z, .anyOf [.y, .yI]]

theorem exField_transposed (l : Layout) (F : Vec3 → (Nat → Int) → α) (r : Int) (q : Nat) :
    (exFieldMem l F r q).transpose zxy = .ok (transposedMem (exFieldMem l F) zxy r q) := rfl

/-- One halo point of rank 2, across the edge of the cube, in the two orders. -/
example (buf : Buffering) : ∃ m' p' : Int → Mem Int,
    ((callNet ⟨2, 2⟩ [.haloUpdate 0 2] (exFieldMem ⟨2, 2⟩ fun P _ => 10000 * P.x + 100 * P.y + P.z)).Completes
      buf fun r => (.ok (), ⟨m' r, if r ∈ allRanks ⟨2, 2⟩ then 1 else 0, []⟩)) ∧
    ((callNet ⟨2, 2⟩ [.haloUpdate 0 2] (transposedMem (exFieldMem ⟨2, 2⟩ fun P _ =>
      10000 * P.x + 100 * P.y + P.z) zxy)).Completes
      buf fun r => (.ok (), ⟨p' r, if r ∈ allRanks ⟨2, 2⟩ then 1 else 0, []⟩)) ∧
    (p' 2 0).dims = [.z, .x, .y] ∧
    (p' 2 0).data.get [1, 1, 3] = (m' 2 0).data.get [3, 1, 1] := by
  obtain ⟨m', p', h1, h2, h3⟩ := C59_halo_axis_order (l := ⟨2, 2⟩) (h := 2)
    (p := transposedMem (exFieldMem ⟨2, 2⟩ fun P _ => 10000 * P.x + 100 * P.y + P.z) zxy)
    (by decide) rfl (by decide) (by decide) (exField_scalar ⟨2, 2⟩ (fun P _ => 10000 * P.x + 100 * P.y + P.z) 0)
    (fun r _ => reordered_of_transpose ⟨rfl, rfl, rfl⟩ (by show [Dim.y, .x, .z].Nodup; decide)
      (exField_transposed _ _ r 0)) (fun _ _ _ _ => rfl) buf
  obtain ⟨g1, g2, g3⟩ := h3 2 (by decide)
  refine ⟨m', p', h1, h2, g2.dims, ?_⟩
  have := g3.data fun d => if d = .y then 3 else 1
  rw [g1.dims, g2.dims] at this
  exact this

/-- The hypotheses of the other theorems, met by the same field and by D-grid winds. -/
example (buf : Buffering) : ∃ m' p' : Int → Mem Int,
    ((callNet ⟨2, 2⟩ [.haloUpdate 0 2] (exFieldMem ⟨2, 2⟩ fun P _ => P.x)).Completes
      buf fun r => (.ok (), ⟨m' r, if r ∈ allRanks ⟨2, 2⟩ then 1 else 0, []⟩)) ∧
    ((callNet ⟨2, 2⟩ [.haloUpdate 0 2] (transposedMem (exFieldMem ⟨2, 2⟩ fun P _ => P.x) zxy)).Completes
      buf fun r => (.ok (), ⟨p' r, if r ∈ allRanks ⟨2, 2⟩ then 1 else 0, []⟩)) ∧
    ∀ r ∈ allRanks ⟨2, 2⟩, SameMeta (exFieldMem ⟨2, 2⟩ (fun P _ => P.x) r 0) (m' r 0) ∧
      ∃ t, (m' r 0).transpose zxy = .ok t ∧ SameMeta (p' r 0) t ∧ t.data.Eqv (p' r 0).data :=
  C59_halo_transpose (l := ⟨2, 2⟩) (h := 2) (by decide) rfl (by decide)
    (by decide) (exField_scalar ⟨2, 2⟩ (fun P _ => P.x) 0)
    (fun r _ => by show [Dim.y, .x, .z].Nodup; decide) (fun r _ => exField_transposed _ _ r 0) buf

example (V : Vec3 → (Nat → Int) → Vec3 → Int) (buf : Buffering) : ∃ m' p' : Int → Mem Int,
    ((callNet ⟨2, 2⟩ [.vectorHaloUpdate 0 1 2] (exWindMem ⟨2, 2⟩ V)).Completes
      buf fun r => (.ok (), ⟨m' r, if r ∈ allRanks ⟨2, 2⟩ then 2 else 0, []⟩)) ∧
    ((callNet ⟨2, 2⟩ [.vectorHaloUpdate 0 1 2] (transposedMem (exWindMem ⟨2, 2⟩ V) xzy)).Completes
      buf fun r => (.ok (), ⟨p' r, if r ∈ allRanks ⟨2, 2⟩ then 2 else 0, []⟩)) ∧
    (p' 2 0).dims = [.x, .z, .yI] ∧ (p' 2 1).dims = [.xI, .z, .y] ∧
    (p' 2 0).data.get [1, 0, 3] = (m' 2 0).data.get [0, 3, 1] ∧
    (p' 2 1).data.get [1, 0, 3] = (m' 2 1).data.get [0, 3, 1] := by
  obtain ⟨m', p', h1, h2, h3⟩ := C59_vector_axis_order (l := ⟨2, 2⟩) (h := 2) (p := transposedMem (exWindMem ⟨2, 2⟩ V) xzy)
    (by decide) rfl (by decide)
    (by decide) (by decide : 0 ≠ 1) (exWind_vector ⟨2, 2⟩ V)
    (fun r _ => reordered_of_transpose ⟨rfl, rfl, rfl⟩ (by show [Dim.z, .yI, .x].Nodup; decide)
      (target := xzy) rfl)
    (fun r _ => reordered_of_transpose ⟨rfl, rfl, rfl⟩ (by show [Dim.z, .y, .xI].Nodup; decide)
      (target := xzy) rfl) (fun _ _ _ _ => rfl) (fun _ _ _ _ => rfl)
    (fun r _ i j hi hj => by
      have : ∀ i, i < 3 → ∀ j, j < 3 → [Dim.x, .z, .yI].getD j .x = [Dim.z, .yI, .x].getD i .x →
        [Dim.xI, .z, .y].getD j .x = [Dim.z, .y, .xI].getD i .x := by decide
      exact this i hi j hj) buf
  obtain ⟨g1, g2, g3⟩ := h3 2 (by decide)
  refine ⟨m', p', h1, h2, (g1 0).2.dims, (g1 1).2.dims, ?_, ?_⟩
  · have := g2.data fun | .z => 0 | .x => 1 | _ => 3
    rw [(g1 0).1.dims, (g1 0).2.dims] at this
    exact this
  · have := g3.data fun | .z => 0 | .xI => 1 | _ => 3
    rw [(g1 1).1.dims, (g1 1).2.dims] at this
    exact this

end FV3
