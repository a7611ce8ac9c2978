import Verif.Spec.Protocol
import Verif.Proofs.Boundaries
import Verif.Proofs.Deliver
import Verif.Props.Rotate

/-!
# Halo updates can be exchanged
-/

namespace FV3
variable {α : Type}

section
variable {l : Layout} {r : Int} {mem : Mem α} {q : Nat} {ky kx : Nat} {n h : Int}

theorem HaloReady.recvIndex (H : HaloReady (mem q) ky kx n h) (hh : 0 < h) (b : BType) :
    FV3.recvIndex (mem q) b h = .ok (recvIx (mem q) b h) := by
  rw [recvIndex_eq _ H.wf.toLens, if_pos (H.recvFits hh b)]

/-- Arrays packed by a scalar update. -/
theorem halo_out (hx : 0 < l.x) (hsq : l.y = l.x) (hr : r ∈ allRanks l) (hh : 0 < h) (hn : h ≤ n)
    (H : HaloReady (mem q) ky kx n h) :
    ∃ o, haloOut l q h r mem = .ok o ∧
      (∀ y ∈ o, ∃ B, Cube.boundary l B.boundaryType r = .ok (some B) ∧ y.dst = B.toRank ∧
        y.off = 0 ∧ (sendArr (mem q) B.boundaryType h).IsTurn ky kx (-B.rotations) y.a) ∧
      (∀ B, Cube.boundary l B.boundaryType r = .ok (some B) → ∃ y ∈ o, y.dst = B.toRank ∧
        y.off = 0 ∧ (sendArr (mem q) B.boundaryType h).IsTurn ky kx (-B.rotations) y.a) ∧
      (o.map fun x => (x.dst, x.off)).Nodup := by
  obtain ⟨bs, hb, hm, hnd⟩ := boundaries_ok hx hsq hr
  have key : ∀ B : Boundary, ∃ a, (sendArr (mem q) B.boundaryType h).IsTurn ky kx (-B.rotations) a ∧
      (do
        let d ← sendView (mem q) B.boundaryType h
        let d ← rotateScalar d (mem q).dims (-B.rotations)
        return (⟨B.toRank, 0, d⟩ : Outgoing α)) = .ok ⟨B.toRank, 0, a⟩ := by
    intro B
    obtain ⟨a, h1, h2⟩ := rotateScalar_eq (sendArr (mem q) B.boundaryType h) (mem q).dims H.axes
      (by simp [sendArr, Quantity.ndim]) (-B.rotations)
    refine ⟨a, h2, ?_⟩
    rw [sendView_eq _ H.wf _ (by omega) (H.sendFits hh hn _)]
    simp only [Bind.bind, Except.bind, h1, Pure.pure, Except.pure]
  obtain ⟨o, ho⟩ := pyMap_exists (l := bs) (f := fun b : Boundary => do
    let d ← sendView (mem q) b.boundaryType h
    let d ← rotateScalar d (mem q).dims (-b.rotations)
    return (⟨b.toRank, 0, d⟩ : Outgoing α)) fun B _ => by
      obtain ⟨a, -, h2⟩ := key B
      exact ⟨_, h2⟩
  refine ⟨o, ?_, ?_, ?_, ?_⟩
  · unfold haloOut
    rw [hb]
    exact ho
  · intro y hy
    obtain ⟨B, hB, e⟩ := (pyMap_mem ho).1 hy
    obtain ⟨a, h1, h2⟩ := key B
    rw [h2] at e
    simp only [Except.ok.injEq] at e
    subst e
    exact ⟨B, (hm B).1 hB, rfl, rfl, h1⟩
  · intro B hB
    obtain ⟨a, h1, h2⟩ := key B
    exact ⟨_, (pyMap_mem ho).2 ⟨B, (hm B).2 hB, h2⟩, rfl, rfl, h1⟩
  · rw [pyMap_map ho (g := fun x => (x.dst, x.off)) (g' := fun B => (B.toRank, 0)) (by
      intro B _ y e
      obtain ⟨a, -, h2⟩ := key B
      rw [h2] at e
      simp only [Except.ok.injEq] at e
      subst e
      rfl)]
    rw [show (fun B : Boundary => (B.toRank, 0)) = (fun t : Int => (t, 0)) ∘ (·.toRank) from rfl,
      ← List.map_map]
    exact hnd.map fun a b e => by simpa using e

/-- Arrays expected by an update for one quantity. -/
theorem halo_in (hx : 0 < l.x) (hsq : l.y = l.x) (hr : r ∈ allRanks l) (hh : 0 < h)
    (H : HaloReady (mem q) ky kx n h) (off : Nat) :
    ∃ i, haloIn l q h off r mem = .ok i ∧
      (∀ x, x ∈ i ↔ ∃ B, Cube.boundary l B.boundaryType r = .ok (some B) ∧
        x = ⟨B.toRank, off, q, recvIx (mem q) B.boundaryType h⟩) ∧
      (i.map fun x => (x.src, x.off)).Nodup := by
  obtain ⟨bs, hb, hm, hnd⟩ := boundaries_ok hx hsq hr
  have key : ∀ B : Boundary, (do
        let ix ← FV3.recvIndex (mem q) B.boundaryType h
        return (⟨B.toRank, off, q, ix⟩ : Incoming)) =
      .ok ⟨B.toRank, off, q, recvIx (mem q) B.boundaryType h⟩ := by
    intro B
    rw [H.recvIndex hh]
    rfl
  obtain ⟨i, hi⟩ := pyMap_exists (l := bs) (f := fun B : Boundary => do
        let ix ← FV3.recvIndex (mem q) B.boundaryType h
        return (⟨B.toRank, off, q, ix⟩ : Incoming)) fun B _ => ⟨_, key B⟩
  refine ⟨i, ?_, ?_, ?_⟩
  · unfold haloIn
    rw [hb]
    exact hi
  · intro x
    rw [pyMap_mem hi]
    constructor
    · rintro ⟨B, hB, e⟩
      rw [key] at e
      simp only [Except.ok.injEq] at e
      exact ⟨B, (hm B).1 hB, e.symm⟩
    · rintro ⟨B, hB, rfl⟩
      exact ⟨B, (hm B).2 hB, key B⟩
  · rw [pyMap_map hi (g := fun x => (x.src, x.off)) (g' := fun B => (B.toRank, off)) (by
      intro B _ y e
      rw [key] at e
      simp only [Except.ok.injEq] at e
      subst e
      rfl)]
    rw [show (fun B : Boundary => (B.toRank, off)) = (fun t : Int => (t, off)) ∘ (·.toRank) from rfl,
      ← List.map_map]
    exact hnd.map fun a b e => by simpa using e

end

theorem nodup_pairs {A : Type} {f : A → Int} {bs : List A} (h : (bs.map f).Nodup) :
    ((bs.map fun b => [(f b, 0), (f b, 1)]).flatten : List (Int × Nat)).Nodup := by
  induction bs with
  | nil => simp
  | cons b bs ih =>
    rw [List.map_cons, List.nodup_cons] at h
    rw [List.map_cons, List.flatten_cons, List.nodup_append]
    refine ⟨by simp, ih h.2, ?_⟩
    intro p hp p' hp' e
    subst e
    apply h.1
    obtain ⟨L, hL, hpL⟩ := List.mem_flatten.1 hp'
    obtain ⟨c, hc, rfl⟩ := List.mem_map.1 hL
    refine List.mem_map.2 ⟨c, hc, ?_⟩
    have h1 : p.1 = f b := by simp at hp; rcases hp with rfl | rfl <;> rfl
    have h2 : p.1 = f c := by simp at hpL; rcases hpL with rfl | rfl <;> rfl
    rw [← h2, h1]

section
variable [Neg α] {l : Layout} {r : Int} {mem : Mem α} {x y : Nat} {ky kx : Nat} {n h : Int}

/-- Arrays packed by a vector update. -/
theorem vector_out (hx : 0 < l.x) (hsq : l.y = l.x) (hr : r ∈ allRanks l) (hh : 0 < h) (hn : h ≤ n)
    (Hx : HaloReady (mem x) ky kx n h) (Hy : HaloReady (mem y) ky kx n h)
    (hd : (mem y).ndim = (mem x).ndim) :
    ∃ o, vectorOut l x y h r mem = .ok o ∧
      (∀ z ∈ o, ∃ B u v, Cube.boundary l B.boundaryType r = .ok (some B) ∧
        (sendArr (mem x) B.boundaryType h).IsTurn ky kx (-B.rotations) u ∧
        (sendArr (mem y) B.boundaryType h).IsTurn ky kx (-B.rotations) v ∧
        (z = ⟨B.toRank, 0, (turnVec (-B.rotations) u v).1⟩ ∨
          z = ⟨B.toRank, 1, (turnVec (-B.rotations) u v).2⟩)) ∧
      (∀ B, Cube.boundary l B.boundaryType r = .ok (some B) → ∃ u v,
        (sendArr (mem x) B.boundaryType h).IsTurn ky kx (-B.rotations) u ∧
        (sendArr (mem y) B.boundaryType h).IsTurn ky kx (-B.rotations) v ∧
        ⟨B.toRank, 0, (turnVec (-B.rotations) u v).1⟩ ∈ o ∧
        ⟨B.toRank, 1, (turnVec (-B.rotations) u v).2⟩ ∈ o) ∧
      (o.map fun x => (x.dst, x.off)).Nodup := by
  obtain ⟨bs, hb, hm, hnd⟩ := boundaries_ok hx hsq hr
  have key : ∀ B : Boundary, ∃ u v,
      (sendArr (mem x) B.boundaryType h).IsTurn ky kx (-B.rotations) u ∧
      (sendArr (mem y) B.boundaryType h).IsTurn ky kx (-B.rotations) v ∧
      (do
        let xd ← sendView (mem x) B.boundaryType h
        let yd ← sendView (mem y) B.boundaryType h
        let xy ← rotateVector xd yd (-B.rotations) (mem x).dims
        return ([⟨B.toRank, 0, xy.1⟩, ⟨B.toRank, 1, xy.2⟩] : List (Outgoing α))) =
      .ok [⟨B.toRank, 0, (turnVec (-B.rotations) u v).1⟩,
        ⟨B.toRank, 1, (turnVec (-B.rotations) u v).2⟩] := by
    intro B
    obtain ⟨u, v, h1, h2, h3⟩ := C14_vector_turns (sendArr (mem x) B.boundaryType h)
      (sendArr (mem y) B.boundaryType h) (mem x).dims ky kx Hx.axes
      (by simp [sendArr, Quantity.ndim])
      (by simp only [sendArr, length_tab, hd]; rfl) (-B.rotations)
    refine ⟨u, v, h1, h2, ?_⟩
    rw [sendView_eq _ Hx.wf _ (by omega) (Hx.sendFits hh hn _),
      sendView_eq _ Hy.wf _ (by omega) (Hy.sendFits hh hn _)]
    simp only [Bind.bind, Except.bind, h3, Pure.pure, Except.pure]
  obtain ⟨ps, hps⟩ := pyMap_exists (l := bs) (f := fun B : Boundary => do
        let xd ← sendView (mem x) B.boundaryType h
        let yd ← sendView (mem y) B.boundaryType h
        let xy ← rotateVector xd yd (-B.rotations) (mem x).dims
        return ([⟨B.toRank, 0, xy.1⟩, ⟨B.toRank, 1, xy.2⟩] : List (Outgoing α))) fun B _ => by
      obtain ⟨u, v, -, -, h2⟩ := key B
      exact ⟨_, h2⟩
  refine ⟨ps.flatten, ?_, ?_, ?_, ?_⟩
  · unfold vectorOut
    rw [hb]
    simp only [Bind.bind, Except.bind] at hps ⊢
    rw [hps]
    rfl
  · intro z hz
    obtain ⟨L, hL, hzL⟩ := List.mem_flatten.1 hz
    obtain ⟨B, hB, e⟩ := (pyMap_mem hps).1 hL
    obtain ⟨u, v, h1, h2, h3⟩ := key B
    rw [h3] at e
    simp only [Except.ok.injEq] at e
    subst e
    exact ⟨B, u, v, (hm B).1 hB, h1, h2, by simpa using hzL⟩
  · intro B hB
    obtain ⟨u, v, h1, h2, h3⟩ := key B
    have := (pyMap_mem hps).2 ⟨B, (hm B).2 hB, h3⟩
    exact ⟨u, v, h1, h2, List.mem_flatten.2 ⟨_, this, by simp⟩,
      List.mem_flatten.2 ⟨_, this, by simp⟩⟩
  · rw [List.map_flatten, pyMap_map hps (g' := fun B => [(B.toRank, 0), (B.toRank, 1)]) (by
      intro B _ y e
      obtain ⟨u, v, -, -, h2⟩ := key B
      rw [h2] at e
      simp only [Except.ok.injEq] at e
      subst e
      rfl)]
    exact nodup_pairs hnd

omit [Neg α] in
theorem vector_in (hx : 0 < l.x) (hsq : l.y = l.x) (hr : r ∈ allRanks l) (hh : 0 < h)
    (Hx : HaloReady (mem x) ky kx n h) (Hy : HaloReady (mem y) ky kx n h) :
    ∃ i, vectorIn l x y h r mem = .ok i ∧
      (∀ z, z ∈ i ↔ ∃ B, Cube.boundary l B.boundaryType r = .ok (some B) ∧
        (z = ⟨B.toRank, 0, x, recvIx (mem x) B.boundaryType h⟩ ∨
          z = ⟨B.toRank, 1, y, recvIx (mem y) B.boundaryType h⟩)) ∧
      (i.map fun x => (x.src, x.off)).Nodup := by
  obtain ⟨i1, a1, a2, a3⟩ := halo_in hx hsq hr hh Hx 0
  obtain ⟨i2, b1, b2, b3⟩ := halo_in hx hsq hr hh Hy 1
  refine ⟨i1 ++ i2, ?_, ?_, ?_⟩
  · unfold vectorIn
    rw [a1, b1]; rfl
  · intro z
    rw [List.mem_append, a2, b2]
    constructor
    · rintro (⟨B, hB, e⟩ | ⟨B, hB, e⟩)
      · exact ⟨B, hB, Or.inl e⟩
      · exact ⟨B, hB, Or.inr e⟩
    · rintro ⟨B, hB, e | e⟩
      · exact Or.inl ⟨B, hB, e⟩
      · exact Or.inr ⟨B, hB, e⟩
  · rw [List.map_append, List.nodup_append]
    refine ⟨a3, b3, ?_⟩
    intro p hp p' hp' e
    subst e
    obtain ⟨z, hz, rfl⟩ := List.mem_map.1 hp
    obtain ⟨z', hz', e⟩ := List.mem_map.1 hp'
    obtain ⟨B, -, rfl⟩ := (a2 z).1 hz
    obtain ⟨B', -, rfl⟩ := (b2 z').1 hz'
    simp at e

end

/-- A boundary and the one leading back. -/
theorem pair_unique {l : Layout} (hx : 0 < l.x) (hsq : l.y = l.x) {r : Int}
    (hr : r ∈ allRanks l) {B C : Boundary} (hB : Cube.boundary l B.boundaryType r = .ok (some B))
    (hC : Cube.boundary l C.boundaryType B.toRank = .ok (some C)) (hCr : C.toRank = r) :
    C.boundaryType = B.boundaryType.opposite.ccwN B.rotations.toNat ∧
      (-C.rotations) % 4 = B.rotations ∧
      (B.rotations = 0 ∨ B.rotations = 1 ∨ B.rotations = 3) := by
  have hr' := mem_allRanks.1 hr
  obtain ⟨⟨B', h1, h2, h3⟩, h4⟩ := C08_boundary_reciprocal l hx hsq r hr'.1 hr'.2 _ B hB
  have e := h4 _ C hC hCr
  rw [e, h1] at hC
  simp only [Except.ok.injEq, Option.some.injEq] at hC
  subst hC
  have hrot : B.rotations = 0 ∨ B.rotations = 1 ∨ B.rotations = 3 := by
    obtain ⟨t, j, i, -, -, -, -, -, hB'⟩ := boundary_some hx hsq hr'.1 hr'.2 hB
    rw [hB']
    exact cubeStep_rot _ _ _ _
  exact ⟨e, by omega, hrot⟩

section
variable {l : Layout} {m : Int → Mem α} {q : Nat} {ky kx : Nat} {n h : Int}

theorem ScalarField.match (S : ScalarField l m q ky kx n h) {r r' : Int} (hr : r ∈ allRanks l)
    (hr' : r' ∈ allRanks l) {mem mem' : Mem α} (g : MetaIs m r mem) (g' : MetaIs m r' mem') (k : Int) :
    Match (mem q) (mem' q) ky kx k := by
  have e : (mem' q).dims = (mem q).dims := by
    rw [(g q).dims, (g' q).dims]; exact S.dims r hr r' hr'
  have ed : ∀ k, (mem' q).d k = (mem q).d k := fun k => by unfold Quantity.d; rw [e]
  have st : overlapOf ((mem q).d ky) = overlapOf ((mem q).d kx) := by
    rw [(g q).d, (g q).d]; exact S.stagger r hr
  refine ⟨by unfold Quantity.ndim; rw [e], ?_, ?_, ?_⟩
  · intro k hk h1 h2
    rw [(g q).ndim] at hk
    rw [(g q).e, (g' q).e]
    exact S.other r hr r' hr' k hk h1 h2
  · intro _; rw [ed, ed]; exact ⟨rfl, rfl⟩
  · intro _; rw [ed, ed]; exact ⟨st, st.symm⟩

/-- Storing an array of the right shape in a halo. -/
theorem store_halo {qd : Quantity α} {mem : Mem α} (g : SameMeta qd (mem q))
    (H : HaloReady qd ky kx n h) (hh : 0 < h) {b : BType} {a : NDArray α}
    (ha : a.shape = tab qd.ndim (rLen qd b h)) :
    ∃ m', storeInto mem q (recvIx qd b h) a = .ok m' := by
  have := recvResolve qd H.wf b (by omega) (H.recvFits hh b)
  rw [← g.shape] at this
  exact ⟨_, storeInto_eq this (by rw [viewShape_box, ha])⟩

theorem MetaIs.store {m : Int → Mem α} {r : Int} {mem mem' : Mem α} {ix : List Ix} {a : NDArray α}
    (g : MetaIs m r mem) (h : storeInto mem q ix a = .ok mem') : MetaIs m r mem' :=
  fun q' => (g q').trans (storeInto_meta h q')

theorem SameMeta.rLen {q q' : Quantity α} (g : SameMeta q q') (b : BType) (h : Int) :
    tab q'.ndim (FV3.rLen q' b h) = tab q.ndim (FV3.rLen q b h) := by
  rw [g.ndim]
  congr 1
  funext k
  unfold FV3.rLen
  rw [g.d, g.o, g.e]

variable [Neg α]

/-- Scalar halo updates can be exchanged. -/
theorem halo_sound (hx : 0 < l.x) (hsq : l.y = l.x) (hh : 0 < h) (hn : h ≤ n)
    (S : ScalarField l m q ky kx n h) : StartSound l (MetaIs m) (.halo q h) := by
  have ready : ∀ r ∈ allRanks l, ∀ mem, MetaIs m r mem → HaloReady (mem q) ky kx n h :=
    fun r hr mem g => (g q).haloReady (S.ready r hr)
  have eo : ∀ r mem, (Op.halo q h : Op α).out l r mem = haloOut l q h r mem := fun r mem => by
    simp only [Op.out]; rw [if_neg (by omega)]
  have ei : ∀ r mem, (Op.halo q h : Op α).inn l r mem = haloIn l q h 0 r mem := fun r mem => rfl
  constructor
  · rfl
  · intro r hr mem g
    obtain ⟨o, ho, -⟩ := halo_out hx hsq hr hh hn (ready r hr mem g)
    obtain ⟨i, hi, -⟩ := halo_in hx hsq hr hh (ready r hr mem g) 0
    exact ⟨o, i, by rw [eo, ho], by rw [ei, hi]⟩
  · intro r hr mem o g ho
    obtain ⟨o', ho', p1, p2, p3⟩ := halo_out hx hsq hr hh hn (ready r hr mem g)
    rw [eo, ho'] at ho
    simp only [Except.ok.injEq] at ho
    subst ho
    refine ⟨p3, fun y hy => ?_⟩
    obtain ⟨B, -, -, e, -⟩ := p1 y hy
    simp [e, Op.nTags]
  · intro r hr mem i g hi
    obtain ⟨i', hi', p1, p2⟩ := halo_in hx hsq hr hh (ready r hr mem g) 0
    rw [ei, hi'] at hi
    simp only [Except.ok.injEq] at hi
    subst hi
    refine ⟨p2, fun y hy => ?_⟩
    obtain ⟨B, -, rfl⟩ := (p1 y).1 hy
    simp [Op.nTags]
  · intro r hr mem i g hi z hz
    obtain ⟨i', hi', p1, p2⟩ := halo_in hx hsq hr hh (ready r hr mem g) 0
    rw [ei, hi'] at hi
    simp only [Except.ok.injEq] at hi
    subst hi
    obtain ⟨B, hB, rfl⟩ := (p1 z).1 hz
    have hr' := boundary_toRank hx hsq hB
    refine ⟨hr', ?_⟩
    intro mem' o g' ho
    obtain ⟨o', ho', o1, o2, o3⟩ := halo_out hx hsq hr' hh hn (ready _ hr' mem' g')
    rw [eo, ho'] at ho
    simp only [Except.ok.injEq] at ho
    subst ho
    obtain ⟨C, hC, hCr, -⟩ := boundary_pair hx hsq hr hB
    obtain ⟨e1, e2, e3⟩ := pair_unique hx hsq hr hB hC hCr
    obtain ⟨y, hy, y1, y2, y3⟩ := o2 C hC
    refine ⟨y, hy, by rw [y1, hCr], y2, ?_⟩
    intro mem'' g''
    rw [e1] at y3
    have hs := exchange_shape hh (ready r hr mem g) (ready _ hr' mem' g')
      (S.match hr hr' g g' B.rotations) e3 e2 y3
    have gm : SameMeta (mem q) (mem'' q) := (g q).symm.trans (g'' q)
    obtain ⟨m', hm'⟩ := store_halo gm (ready r hr mem g) hh hs
    exact ⟨m', hm', g''.store hm'⟩
  · intro r hr mem o g ho y hy
    obtain ⟨o', ho', o1, -⟩ := halo_out hx hsq hr hh hn (ready r hr mem g)
    rw [eo, ho'] at ho
    simp only [Except.ok.injEq] at ho
    subst ho
    obtain ⟨B, hB, y1, y2, -⟩ := o1 y hy
    have hr' := boundary_toRank hx hsq hB
    refine ⟨by rw [y1]; exact hr', ?_⟩
    intro mem' i g' hi
    rw [y1] at g' hi
    obtain ⟨i', hi', p1, p2⟩ := halo_in hx hsq hr' hh (ready _ hr' mem' g') 0
    rw [ei, hi'] at hi
    simp only [Except.ok.injEq] at hi
    subst hi
    obtain ⟨C, hC, hCr, -⟩ := boundary_pair hx hsq hr hB
    exact ⟨_, (p1 _).2 ⟨C, hC, rfl⟩, hCr, y2.symm⟩

variable {x y : Nat}

/-- Which component's data a component receives across a boundary with `k` turns. -/
theorem VectorField.matchX (S : VectorField l m x y ky kx n h) {r r' : Int} (hr : r ∈ allRanks l)
    (hr' : r' ∈ allRanks l) {mem mem' : Mem α} (g : MetaIs m r mem) (g' : MetaIs m r' mem') {k : Int}
    (hk : k = 0 ∨ k = 1 ∨ k = 3) :
    Match (mem x) (mem' (if k = 0 then x else y)) ky kx k ∧
    Match (mem y) (mem' (if k = 0 then y else x)) ky kx k := by
  have ex : (mem' x).dims = (mem x).dims := by
    rw [(g x).dims, (g' x).dims]; exact S.dimsX r hr r' hr'
  have ey : (mem' y).dims = (mem y).dims := by
    rw [(g y).dims, (g' y).dims]; exact S.dimsY r hr r' hr'
  have exd : ∀ k, (mem' x).d k = (mem x).d k := fun k => by unfold Quantity.d; rw [ex]
  have eyd : ∀ k, (mem' y).d k = (mem y).d k := fun k => by unfold Quantity.d; rw [ey]
  have exn : (mem' x).ndim = (mem x).ndim := by unfold Quantity.ndim; rw [ex]
  have eyn : (mem' y).ndim = (mem y).ndim := by unfold Quantity.ndim; rw [ey]
  have nd : (mem y).ndim = (mem x).ndim := by
    rw [(g x).ndim, (g y).ndim]; exact S.ndim r hr
  have s1 : overlapOf ((mem y).d ky) = overlapOf ((mem x).d kx) := by
    rw [(g x).d, (g y).d]; exact S.staggerY r hr
  have s2 : overlapOf ((mem y).d kx) = overlapOf ((mem x).d ky) := by
    rw [(g x).d, (g y).d]; exact S.staggerX r hr
  have oth : ∀ k, k < (mem x).ndim → k ≠ ky → k ≠ kx → (mem' x).e k = (mem x).e k ∧
      (mem' y).e k = (mem x).e k ∧ (mem y).e k = (mem x).e k := by
    intro k hk h1 h2
    rw [(g x).ndim] at hk
    rw [(g x).e, (g y).e, (g' x).e, (g' y).e]
    have a1 := S.other r hr r hr k hk h1 h2
    have a2 := S.other r hr r' hr' k hk h1 h2
    have a3 := S.other r' hr' r hr k (by unfold Quantity.ndim at hk ⊢; rw [S.dimsX r hr r' hr']; exact hk) h1 h2
    exact ⟨by rw [← a3, a1], a2, a1⟩
  rcases hk with e | e
  · subst e
    rw [if_pos rfl, if_pos rfl]
    refine ⟨⟨exn, fun k hk h1 h2 => (oth k hk h1 h2).1, fun _ => ?_, fun h => by omega⟩,
      ⟨eyn, fun k hk h1 h2 => ?_, fun _ => ?_, fun h => by omega⟩⟩
    · rw [exd, exd]; exact ⟨rfl, rfl⟩
    · have := oth k (by omega) h1 h2; omega
    · rw [eyd, eyd]; exact ⟨rfl, rfl⟩
  · rw [if_neg (by omega), if_neg (by omega)]
    refine ⟨⟨by omega, fun k hk h1 h2 => (oth k hk h1 h2).2.1, fun h => by omega, fun _ => ?_⟩,
      ⟨by omega, fun k hk h1 h2 => ?_, fun h => by omega, fun _ => ?_⟩⟩
    · rw [eyd, eyd]; exact ⟨s1, s2⟩
    · have := oth k (by omega) h1 h2; omega
    · rw [exd, exd]; exact ⟨s2.symm, s1.symm⟩

/-- The components after turning, by number of turns. -/
theorem turnVec_eq {k k' : Int} (hk : k = 0 ∨ k = 1 ∨ k = 3) (hk' : k' % 4 = k) (u v : NDArray α) :
    turnVec k' u v = ((if k = 0 then u else v).map (if k = 3 then Neg.neg else id),
      (if k = 0 then v else u).map (if k = 1 then Neg.neg else id)) := by
  unfold turnVec
  rw [hk']
  rcases hk with rfl | rfl | rfl <;> simp [NDArray.map]

theorem IsTurn_if {A B u v : NDArray α} {ky kx : Nat} {k' : Int} {c : Prop} [Decidable c]
    (h1 : A.IsTurn ky kx k' u) (h2 : B.IsTurn ky kx k' v) :
    (if c then A else B).IsTurn ky kx k' (if c then u else v) := by
  split <;> assumption

theorem sendArr_if {qs qt : Quantity α} {b : BType} {c : Prop} [Decidable c] :
    sendArr (if c then qs else qt) b h = if c then sendArr qs b h else sendArr qt b h := by
  split <;> rfl

/-- Vector halo updates can be exchanged. -/
theorem vector_sound (hx : 0 < l.x) (hsq : l.y = l.x) (hh : 0 < h) (hn : h ≤ n)
    (S : VectorField l m x y ky kx n h) : StartSound l (MetaIs m) (.vector x y h) := by
  have rX : ∀ r ∈ allRanks l, ∀ mem, MetaIs m r mem → HaloReady (mem x) ky kx n h :=
    fun r hr mem g => (g x).haloReady (S.readyX r hr)
  have rY : ∀ r ∈ allRanks l, ∀ mem, MetaIs m r mem → HaloReady (mem y) ky kx n h :=
    fun r hr mem g => (g y).haloReady (S.readyY r hr)
  have rn : ∀ r ∈ allRanks l, ∀ mem, MetaIs m r mem → (mem y).ndim = (mem x).ndim :=
    fun r hr mem g => by rw [(g x).ndim, (g y).ndim]; exact S.ndim r hr
  have eo : ∀ r mem, (Op.vector x y h : Op α).out l r mem = vectorOut l x y h r mem :=
    fun r mem => by simp only [Op.out]; rw [if_neg (by omega)]
  have ei : ∀ r mem, (Op.vector x y h : Op α).inn l r mem = vectorIn l x y h r mem :=
    fun r mem => rfl
  constructor
  · rfl
  · intro r hr mem g
    obtain ⟨o, ho, -⟩ := vector_out hx hsq hr hh hn (rX r hr mem g) (rY r hr mem g) (rn r hr mem g)
    obtain ⟨i, hi, -⟩ := vector_in hx hsq hr hh (rX r hr mem g) (rY r hr mem g)
    exact ⟨o, i, by rw [eo, ho], by rw [ei, hi]⟩
  · intro r hr mem o g ho
    obtain ⟨o', ho', p1, p2, p3⟩ := vector_out hx hsq hr hh hn (rX r hr mem g) (rY r hr mem g)
      (rn r hr mem g)
    rw [eo, ho'] at ho
    simp only [Except.ok.injEq] at ho
    subst ho
    refine ⟨p3, fun z hz => ?_⟩
    obtain ⟨B, u, v, -, -, -, rfl | rfl⟩ := p1 z hz <;> simp [Op.nTags]
  · intro r hr mem i g hi
    obtain ⟨i', hi', p1, p2⟩ := vector_in hx hsq hr hh (rX r hr mem g) (rY r hr mem g)
    rw [ei, hi'] at hi
    simp only [Except.ok.injEq] at hi
    subst hi
    refine ⟨p2, fun z hz => ?_⟩
    obtain ⟨B, -, rfl | rfl⟩ := (p1 z).1 hz <;> simp [Op.nTags]
  · intro r hr mem i g hi z hz
    obtain ⟨i', hi', p1, p2⟩ := vector_in hx hsq hr hh (rX r hr mem g) (rY r hr mem g)
    rw [ei, hi'] at hi
    simp only [Except.ok.injEq] at hi
    subst hi
    obtain ⟨B, hB, hzz⟩ := (p1 z).1 hz
    have hr' := boundary_toRank hx hsq hB
    have hsrc : z.src = B.toRank := by rcases hzz with rfl | rfl <;> rfl
    rw [hsrc]
    refine ⟨hr', ?_⟩
    intro mem' o g' ho
    obtain ⟨o', ho', o1, o2, o3⟩ := vector_out hx hsq hr' hh hn (rX _ hr' mem' g') (rY _ hr' mem' g')
      (rn _ hr' mem' g')
    rw [eo, ho'] at ho
    simp only [Except.ok.injEq] at ho
    subst ho
    obtain ⟨C, hC, hCr, -⟩ := boundary_pair hx hsq hr hB
    obtain ⟨e1, e2, e3⟩ := pair_unique hx hsq hr hB hC hCr
    obtain ⟨u, v, hu, hv, m1, m2⟩ := o2 C hC
    rw [turnVec_eq e3 e2] at m1 m2
    rw [hCr] at m1 m2
    rw [e1] at hu hv
    obtain ⟨M1, M2⟩ := S.matchX hr hr' g g' e3
    have R : ∀ (c : Prop) [Decidable c] a b, (a = x ∨ a = y) → (b = x ∨ b = y) →
        HaloReady (mem' (if c then a else b)) ky kx n h := by
      intro c _ a b ha hb
      split
      · rcases ha with rfl | rfl <;> [exact rX _ hr' mem' g'; exact rY _ hr' mem' g']
      · rcases hb with rfl | rfl <;> [exact rX _ hr' mem' g'; exact rY _ hr' mem' g']
    rcases hzz with rfl | rfl
    · refine ⟨_, m1, rfl, rfl, ?_⟩
      intro mem'' g''
      have hs := exchange_shape hh (rX r hr mem g) (R _ x y (by simp) (by simp)) M1 e3 e2
        (a := if B.rotations = 0 then u else v) (by
          rw [apply_ite mem', sendArr_if]; exact IsTurn_if hu hv)
      obtain ⟨m', hm'⟩ := store_halo ((g x).symm.trans (g'' x)) (rX r hr mem g) hh
        (b := B.boundaryType)
        (a := (if B.rotations = 0 then u else v).map (if B.rotations = 3 then Neg.neg else id)) hs
      exact ⟨m', hm', g''.store hm'⟩
    · refine ⟨_, m2, rfl, rfl, ?_⟩
      intro mem'' g''
      have hs := exchange_shape hh (rY r hr mem g) (R _ y x (by simp) (by simp)) M2 e3 e2
        (a := if B.rotations = 0 then v else u) (by
          rw [apply_ite mem', sendArr_if]; exact IsTurn_if hv hu)
      obtain ⟨m', hm'⟩ := store_halo ((g y).symm.trans (g'' y)) (rY r hr mem g) hh
        (b := B.boundaryType)
        (a := (if B.rotations = 0 then v else u).map (if B.rotations = 1 then Neg.neg else id)) hs
      exact ⟨m', hm', g''.store hm'⟩
  · intro r hr mem o g ho z hz
    obtain ⟨o', ho', o1, -⟩ := vector_out hx hsq hr hh hn (rX r hr mem g) (rY r hr mem g)
      (rn r hr mem g)
    rw [eo, ho'] at ho
    simp only [Except.ok.injEq] at ho
    subst ho
    obtain ⟨B, u, v, hB, -, -, hzz⟩ := o1 z hz
    have hr' := boundary_toRank hx hsq hB
    have hd : z.dst = B.toRank := by rcases hzz with rfl | rfl <;> rfl
    rw [hd]
    refine ⟨hr', ?_⟩
    intro mem' i g' hi
    obtain ⟨i', hi', p1, p2⟩ := vector_in hx hsq hr' hh (rX _ hr' mem' g') (rY _ hr' mem' g')
    rw [ei, hi'] at hi
    simp only [Except.ok.injEq] at hi
    subst hi
    obtain ⟨C, hC, hCr, -⟩ := boundary_pair hx hsq hr hB
    rcases hzz with rfl | rfl
    · exact ⟨_, (p1 _).2 ⟨C, hC, Or.inl rfl⟩, hCr, rfl⟩
    · exact ⟨_, (p1 _).2 ⟨C, hC, Or.inr rfl⟩, hCr, rfl⟩

end

end FV3
