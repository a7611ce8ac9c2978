import Verif.Spec.Bulk
import Verif.Proofs.UpdatesSound

/-!
# What a halo update stores
-/

namespace FV3
variable {α : Type}

section
variable {l : Layout} {mem : Mem α} {q : Nat} {ky kx : Nat} {n h : Int}

theorem rLen_cast (H : HaloReady (mem q) ky kx n h) (hh : 0 < h) (b : BType) {k : Nat}
    (hk : k < (mem q).ndim) :
    ((rLen (mem q) b h k : Nat) : Int) =
      (recvRange b h ((mem q).d k) ((mem q).o k) ((mem q).e k)).2 - rStart (mem q) b h k := by
  have := (range_le b ((mem q).d k) ((mem q).o k) (h := h) (by omega) (H.wf.inside k hk).2.1).2
  unfold rLen rStart
  omega

/-- The view of the halo across `b` covers exactly the points of the halo. -/
theorem cover_halo (H : HaloReady (mem q) ky kx n h) (hh : 0 < h) (src : Int) (off : Nat)
    (b : BType) (idx : List Nat) (hl : idx.length = (mem q).ndim) :
    (InRecv (mem q) b h idx → cover mem ⟨src, off, q, recvIx (mem q) b h⟩ idx =
      some (recvRel (mem q) b h idx)) ∧
    (¬ InRecv (mem q) b h idx → cover mem ⟨src, off, q, recvIx (mem q) b h⟩ idx = none) := by
  have hc : cover mem ⟨src, off, q, recvIx (mem q) b h⟩ idx =
      unview (boxRs (mem q).ndim (rStart (mem q) b h) (rLen (mem q) b h)) idx := by
    unfold cover
    simp only [recvResolve (mem q) H.wf b (by omega) (H.recvFits hh b)]
  rw [hc, unview_box _ _ _ _ hl]
  constructor
  · intro hi
    rw [if_pos]
    · rfl
    · intro k hk
      have := hi.2 k hk
      rw [rLen_cast H hh b hk]
      unfold rStart at' at *
      omega
  · intro hi
    rw [if_neg]
    intro hall
    apply hi
    refine ⟨hl, fun k hk => ?_⟩
    have := hall k hk
    rw [rLen_cast H hh b hk] at this
    unfold rStart at' at *
    omega

theorem arrayFor_some {r : Int} {off : Nat} {o : List (Outgoing α)} {a : NDArray α}
    (h : arrayFor r off o = some a) : ∃ y ∈ o, y.dst = r ∧ y.off = off ∧ y.a = a := by
  unfold arrayFor at h
  cases hf : o.find? fun x => decide (x.dst = r ∧ x.off = off) with
  | none => rw [hf] at h; simp at h
  | some y =>
    rw [hf] at h
    simp only [Option.map_some, Option.some.injEq] at h
    have := List.find?_some hf
    simp only [decide_eq_true_eq] at this
    exact ⟨y, List.mem_of_find?_eq_some hf, this.1, this.2, h⟩

variable [Neg α] {m m' : Int → Mem α}

/-- What waiting for an update stores, element by element: the update was started with quantities `m`, and the
quantities are `p` when its messages are stored. -/
theorem halo_wait_value (hx : 0 < l.x) (hsq : l.y = l.x) (hh : 0 < h) (hn : h ≤ n)
    (S : ScalarField l m q ky kx n h) {p p' : Int → Mem α} {r : Int}
    (hp : ∀ q', SameMeta (m r q') (p r q')) (hu : WaitStep l (.halo q h) m p p') (hr : r ∈ allRanks l) :
    (∀ q', SameMeta (p r q') (p' r q')) ∧
    (∀ q', q' ≠ q → ∀ idx, (p' r q').data.get idx = (p r q').data.get idx) ∧
    ∀ idx, idx.length = (m r q).ndim →
      ((∀ B, Cube.boundary l B.boundaryType r = .ok (some B) →
          ¬ InRecv (m r q) B.boundaryType h idx) ∧
        (p' r q).data.get idx = (p r q).data.get idx) ∨
      ∃ B, Cube.boundary l B.boundaryType r = .ok (some B) ∧ InRecv (m r q) B.boundaryType h idx ∧
        Match (m r q) (m B.toRank q) ky kx B.rotations ∧
        ∃ src, (m B.toRank q).InCompute src ∧
          (p' r q).data.get idx = (m B.toRank q).data.get src ∧
          (∀ k, k < (m r q).ndim → k ≠ ky → k ≠ kx →
            (m B.toRank q).rel src k = (m r q).rel idx k) ∧
          ((m B.toRank q).rel src kx, (m B.toRank q).rel src ky) =
            turnPt B.rotations n (overlapOf ((m r q).d kx)) (overlapOf ((m r q).d ky))
              ((m r q).rel idx kx - B.boundaryType.dx * n)
              ((m r q).rel idx ky - B.boundaryType.dy * n) := by
  obtain ⟨i, hi, hd⟩ := hu r hr
  obtain ⟨i', hi', p1, -⟩ := halo_in (mem := m r) hx hsq hr hh (S.ready r hr) 0
  have : i' = i := by
    have e : (Op.halo q h : Op α).inn l r (m r) = haloIn l q h 0 r (m r) := rfl
    rw [e, hi'] at hi
    exact Except.ok.inj hi
  subst this
  obtain ⟨g1, g2⟩ := deliver_get hd
  rw [cover_same hp] at g2
  refine ⟨g1, ?_, ?_⟩
  · intro q' hq' idx
    rcases g2 q' idx with ⟨-, e⟩ | ⟨x, hx', e, -⟩
    · exact e
    · obtain ⟨B, -, rfl⟩ := (p1 x).1 hx'
      exact absurd e.symm hq'
  · intro idx hl
    rcases g2 q idx with ⟨hc, e⟩ | ⟨x, hx', -, rel, a, hc, ha, e⟩
    · refine Or.inl ⟨fun B hB hin => ?_, e⟩
      have := hc _ ((p1 _).2 ⟨B, hB, rfl⟩) rfl
      rw [(cover_halo (S.ready r hr) hh _ _ _ _ hl).1 hin] at this
      simp at this
    · obtain ⟨B, hB, rfl⟩ := (p1 x).1 hx'
      have hr' := boundary_toRank hx hsq hB
      have hin : InRecv (m r q) B.boundaryType h idx := by
        by_contra hin
        rw [(cover_halo (S.ready r hr) hh _ _ _ _ hl).2 hin] at hc
        simp at hc
      rw [(cover_halo (S.ready r hr) hh _ _ _ _ hl).1 hin] at hc
      simp only [Option.some.injEq] at hc
      subst hc
      obtain ⟨o, ho, o1, -⟩ := halo_out (mem := m B.toRank) hx hsq hr' hh hn (S.ready _ hr')
      simp only [packedFor, if_pos hr'] at ha
      rw [show (Op.halo q h : Op α).out l B.toRank (m B.toRank) = .ok o by
        simp only [Op.out]; rw [if_neg (by omega)]; exact ho] at ha
      simp only at ha
      obtain ⟨y, hy, y1, -, rfl⟩ := arrayFor_some ha
      obtain ⟨C, hC, c1, -, c3⟩ := o1 y hy
      obtain ⟨e1, e2, e3⟩ := pair_unique hx hsq hr hB hC (by rw [← c1, y1])
      rw [e1] at c3
      have M := S.match (mem := m r) (mem' := m B.toRank) hr hr' (fun _ => SameMeta.refl _)
        (fun _ => SameMeta.refl _) B.rotations
      obtain ⟨src, s1, s2, s3, s4⟩ := exchange_value hh hn (S.ready r hr) (S.ready _ hr') M e3 e2 c3
        hin
      exact Or.inr ⟨B, hB, hin, M, src, s1, by rw [e, s2], s3, s4⟩

/-- A scalar halo update, element by element. -/
theorem halo_step_value (hx : 0 < l.x) (hsq : l.y = l.x) (hh : 0 < h) (hn : h ≤ n)
    (S : ScalarField l m q ky kx n h) (hu : UpdateStep l (.halo q h) m m') {r : Int}
    (hr : r ∈ allRanks l) :
    (∀ q', SameMeta (m r q') (m' r q')) ∧
    (∀ q', q' ≠ q → ∀ idx, (m' r q').data.get idx = (m r q').data.get idx) ∧
    ∀ idx, idx.length = (m r q).ndim →
      ((∀ B, Cube.boundary l B.boundaryType r = .ok (some B) →
          ¬ InRecv (m r q) B.boundaryType h idx) ∧
        (m' r q).data.get idx = (m r q).data.get idx) ∨
      ∃ B, Cube.boundary l B.boundaryType r = .ok (some B) ∧ InRecv (m r q) B.boundaryType h idx ∧
        Match (m r q) (m B.toRank q) ky kx B.rotations ∧
        ∃ src, (m B.toRank q).InCompute src ∧
          (m' r q).data.get idx = (m B.toRank q).data.get src ∧
          (∀ k, k < (m r q).ndim → k ≠ ky → k ≠ kx →
            (m B.toRank q).rel src k = (m r q).rel idx k) ∧
          ((m B.toRank q).rel src kx, (m B.toRank q).rel src ky) =
            turnPt B.rotations n (overlapOf ((m r q).d kx)) (overlapOf ((m r q).d ky))
              ((m r q).rel idx kx - B.boundaryType.dx * n)
              ((m r q).rel idx ky - B.boundaryType.dy * n) :=
  halo_wait_value hx hsq hh hn S (fun _ => SameMeta.refl _) (fun r hr => (hu r hr).2) hr

end

section
variable {q qd qs : Quantity α} {ky kx : Nat} {n h : Int}

/-- Halo points are the points of the eight receive regions. -/
theorem inHalo_iff (H : HaloReady q ky kx n h) (hh : 0 < h) (hn : h ≤ n) (idx : List Nat) :
    InHalo q ky kx h idx ↔ ∃ b, InRecv q b h idx := by
  have hne := H.axes.dne
  have ey0 := (H.wf.inside ky H.axes.ylt).2.1
  have ex0 := (H.wf.inside kx H.axes.xlt).2.1
  constructor
  · rintro ⟨a1, a2, a3, a4, a5⟩
    have hb : ∃ b : BType,
        (b.dx = if q.rel idx kx < 0 then -1 else if q.rel idx kx < q.e kx then 0 else 1) ∧
        (b.dy = if q.rel idx ky < 0 then -1 else if q.rel idx ky < q.e ky then 0 else 1) := by
      unfold Quantity.InDom Quantity.rel at *
      by_cases c1 : at' idx kx - q.o kx < 0 <;> by_cases c2 : at' idx kx - q.o kx < q.e kx <;>
      by_cases c3 : at' idx ky - q.o ky < 0 <;> by_cases c4 : at' idx ky - q.o ky < q.e ky <;>
        simp only [c1, c2, c3, c4, if_true, if_false] <;>
        first
          | exact ⟨.west, rfl, rfl⟩ | exact ⟨.east, rfl, rfl⟩ | exact ⟨.north, rfl, rfl⟩
          | exact ⟨.south, rfl, rfl⟩ | exact ⟨.nw, rfl, rfl⟩ | exact ⟨.ne, rfl, rfl⟩
          | exact ⟨.sw, rfl, rfl⟩ | exact ⟨.se, rfl, rfl⟩
          | (exfalso; apply a5; omega)
    obtain ⟨b, b1, b2⟩ := hb
    refine ⟨b, a1, fun k hk => ?_⟩
    unfold Quantity.InDom Quantity.rel at *
    by_cases e1 : k = kx
    · subst e1
      have R := recvRange_dir (dirAlong_x H.axes b) b.dir_range.1 h (q.o k) (q.e k)
      split at b1
      · rw [R.1 b1]; dsimp only; omega
      · split at b1
        · rw [R.2.1 b1]; dsimp only; omega
        · rw [R.2.2 b1]; dsimp only; omega
    by_cases e2 : k = ky
    · subst e2
      have R := recvRange_dir (dirAlong_y H.axes b) b.dir_range.2.1 h (q.o k) (q.e k)
      split at b2
      · rw [R.1 b2]; dsimp only; omega
      · split at b2
        · rw [R.2.1 b2]; dsimp only; omega
        · rw [R.2.2 b2]; dsimp only; omega
    rw [(recvRange_dir (dirAlong_other H.axes b hk e2 e1) (by omega) h (q.o k) (q.e k)).2.1 rfl]
    exact a4 k hk e2 e1
  · rintro ⟨b, hl, hi⟩
    have Rx := recvRange_dir (dirAlong_x H.axes b) b.dir_range.1 h (q.o kx) (q.e kx)
    have Ry := recvRange_dir (dirAlong_y H.axes b) b.dir_range.2.1 h (q.o ky) (q.e ky)
    have ix := hi kx H.axes.xlt
    have iy := hi ky H.axes.ylt
    obtain ⟨d1, d2, d3⟩ := b.dir_range
    have fx : (b.dx = -1 → -h ≤ q.rel idx kx ∧ q.rel idx kx < 0) ∧
        (b.dx = 0 → 0 ≤ q.rel idx kx ∧ q.rel idx kx < q.e kx) ∧
        (b.dx = 1 → q.e kx ≤ q.rel idx kx ∧ q.rel idx kx < q.e kx + h) := by
      unfold Quantity.rel
      refine ⟨fun e => ?_, fun e => ?_, fun e => ?_⟩
      · rw [Rx.1 e] at ix; dsimp only at ix; omega
      · rw [Rx.2.1 e] at ix; dsimp only at ix; omega
      · rw [Rx.2.2 e] at ix; dsimp only at ix; omega
    have fy : (b.dy = -1 → -h ≤ q.rel idx ky ∧ q.rel idx ky < 0) ∧
        (b.dy = 0 → 0 ≤ q.rel idx ky ∧ q.rel idx ky < q.e ky) ∧
        (b.dy = 1 → q.e ky ≤ q.rel idx ky ∧ q.rel idx ky < q.e ky + h) := by
      unfold Quantity.rel
      refine ⟨fun e => ?_, fun e => ?_, fun e => ?_⟩
      · rw [Ry.1 e] at iy; dsimp only at iy; omega
      · rw [Ry.2.1 e] at iy; dsimp only at iy; omega
      · rw [Ry.2.2 e] at iy; dsimp only at iy; omega
    refine ⟨hl, by omega, by omega, ?_, ?_⟩
    · intro k hk e2 e1
      have := hi k hk
      rw [(recvRange_dir (dirAlong_other H.axes b hk e2 e1) (by omega) h (q.o k) (q.e k)).2.1 rfl]
        at this
      exact this
    · rintro ⟨c1, c2⟩
      unfold Quantity.InDom at c1 c2
      unfold Quantity.rel at fx fy
      omega

/-- Block coordinates of a halo point. -/
theorem recv_block (H : HaloReady q ky kx n h) (hh : 0 < h) (hn : h ≤ n) {b : BType} {idx : List Nat}
    (hi : InRecv q b h idx) {L i j : Int} (h1 : 0 ≤ i) (h2 : i < L) (h3 : 0 ≤ j) (h4 : j < L) :
    BlockPt n (overlapOf (q.d kx)) L (i + b.dx) (q.rel idx kx - b.dx * n) ∧
    BlockPt n (overlapOf (q.d ky)) L (j + b.dy) (q.rel idx ky - b.dy * n) := by
  have Rx := recvRange_dir (dirAlong_x H.axes b) b.dir_range.1 h (q.o kx) (q.e kx)
  have Ry := recvRange_dir (dirAlong_y H.axes b) b.dir_range.2.1 h (q.o ky) (q.e ky)
  have ix := hi.2 kx H.axes.xlt
  have iy := hi.2 ky H.axes.ylt
  have ex := H.ex
  have ey := H.ey
  have sx := overlapOf_01 (q.d kx)
  have sy := overlapOf_01 (q.d ky)
  obtain ⟨d1, d2, d3⟩ := b.dir_range
  unfold Quantity.rel
  constructor
  · rcases d1 with d | d | d
    · rw [Rx.1 d] at ix; dsimp only at ix
      rw [d]; constructor <;> omega
    · rw [Rx.2.1 d] at ix; dsimp only at ix
      rw [d]; constructor <;> omega
    · rw [Rx.2.2 d] at ix; dsimp only at ix
      rw [d]; constructor <;> omega
  · rcases d2 with d | d | d
    · rw [Ry.1 d] at iy; dsimp only at iy
      rw [d]; constructor <;> omega
    · rw [Ry.2.1 d] at iy; dsimp only at iy
      rw [d]; constructor <;> omega
    · rw [Ry.2.2 d] at iy; dsimp only at iy
      rw [d]; constructor <;> omega

theorem tilePos_dbl (n c d : Int) (idx : List Nat) (k : Nat) :
    q.tilePos n c idx k = dbl n (overlapOf (q.d k)) (c + d) (q.rel idx k - d * n) := by
  unfold Quantity.tilePos dbl
  have : (c + d) * n + (q.rel idx k - d * n) = c * n + q.rel idx k := by ring
  rw [this]

theorem pos_mod (N t a b : Int) : pos N (t % 6) a b = pos N t a b := by
  unfold pos
  rw [face_of t (t % 6) rfl]

/-- A halo point across an existing boundary is where the source point is. -/
theorem recv_geometry {l : Layout} (hx : 0 < l.x) (hsq : l.y = l.x) {r : Int} (hr : r ∈ allRanks l)
    (Hd : HaloReady qd ky kx n h) (hh : 0 < h) (hn : h ≤ n) {B : Boundary}
    (hB : Cube.boundary l B.boundaryType r = .ok (some B)) (M : Match qd qs ky kx B.rotations)
    {idx src : List Nat} (hi : InRecv qd B.boundaryType h idx)
    (hs : (qs.rel src kx, qs.rel src ky) =
      turnPt B.rotations n (overlapOf (qd.d kx)) (overlapOf (qd.d ky))
        (qd.rel idx kx - B.boundaryType.dx * n) (qd.rel idx ky - B.boundaryType.dy * n))
    {t j i : Int} (ht : tileIndex l r = .ok t) (hji : subtileIndex l r = (j, i)) :
    ∃ t' j' i', (0 ≤ t' ∧ t' < 6) ∧ tileIndex l B.toRank = .ok t' ∧
      subtileIndex l B.toRank = (j', i') ∧
      SingleCross (l.x * n) (qd.tilePos n i idx kx) (qd.tilePos n j idx ky) ∧
      pos (l.x * n) t' (qs.tilePos n i' src kx) (qs.tilePos n j' src ky) =
        foldPos (l.x * n) t (qd.tilePos n i idx kx) (qd.tilePos n j idx ky) ∧
      TurnedCW B.rotations (foldEx (l.x * n) t (qd.tilePos n i idx kx))
        (foldEy (l.x * n) t (qd.tilePos n j idx ky)) (face t').ex (face t').ey := by
  have hr' := mem_allRanks.1 hr
  obtain ⟨t0, j0, i0, ht0, ho, rfl, hb, ho1, hBe⟩ := boundary_some hx hsq hr'.1 hr'.2 hB
  rw [ho.tile] at ht
  rw [ho.sub] at hji
  simp only [Except.ok.injEq] at ht
  simp only [Prod.mk.injEq] at hji
  obtain ⟨rfl, rfl⟩ := hji
  subst ht
  have ⟨a1, a2, a3, a4, a5, a6⟩ := ho
  obtain ⟨bx, by'⟩ := recv_block Hd hh hn hi (L := l.x) a5 a6 a3 (by omega)
  have sx := overlapOf_01 (qd.d kx)
  have sy := overlapOf_01 (qd.d ky)
  have hnpos : 0 < n := by omega
  obtain ⟨d1, d2, d3⟩ := B.boundaryType.dir_range
  have hfold := foldPt_block l.x n t0 (j0 + B.boundaryType.dy) (i0 + B.boundaryType.dx) _ _ _ _ hx hnpos
    (by omega) (by omega) (by omega) (by omega) sx sy bx by' hb _ rfl
  have hsc := block_single hnpos sx sy bx by' hb
  rw [← tilePos_dbl, ← tilePos_dbl] at hfold hsc
  have hN : 0 ≤ l.x * n := Int.mul_nonneg (by omega) (by omega)
  have hpos := foldPt_pos (l.x * n) t0 _ _ hN hsc
  have hturn := foldPt_turn (l.x * n) t0 _ _ hN hsc
  have hrot : B.rotations = (cubeStep l.x t0 (j0 + B.boundaryType.dy) (i0 + B.boundaryType.dx)).2.2.2 := by
    rw [hBe]
  have hto : B.toRank = mkRank l
      ((cubeStep l.x t0 (j0 + B.boundaryType.dy) (i0 + B.boundaryType.dx)).1 % 6)
      (cubeStep l.x t0 (j0 + B.boundaryType.dy) (i0 + B.boundaryType.dx)).2.1
      (cubeStep l.x t0 (j0 + B.boundaryType.dy) (i0 + B.boundaryType.dx)).2.2.1 := by
    rw [hBe]
  have hk := cubeStep_rot l.x t0 (j0 + B.boundaryType.dy) (i0 + B.boundaryType.dx)
  rw [← hrot] at hk hfold
  generalize hst : cubeStep l.x t0 (j0 + B.boundaryType.dy) (i0 + B.boundaryType.dx) = st at *
  rw [hfold] at hpos hturn
  refine ⟨st.1 % 6, st.2.1, st.2.2.1, by omega, by rw [hto]; exact ho1.tile,
    by rw [hto]; exact ho1.sub, hsc, ?_, ?_⟩
  · rw [← hpos, pos_mod]
    rw [← hs]
    have e1 : overlapOf (qs.d kx) = if B.rotations = 0 then overlapOf (qd.d kx) else overlapOf (qd.d ky) := by
      rcases hk with e | e | e
      · rw [if_pos e]; exact (M.even (by omega)).2
      · rw [if_neg (by omega)]; exact (M.odd (by omega)).2
      · rw [if_neg (by omega)]; exact (M.odd (by omega)).2
    have e2 : overlapOf (qs.d ky) = if B.rotations = 0 then overlapOf (qd.d ky) else overlapOf (qd.d kx) := by
      rcases hk with e | e | e
      · rw [if_pos e]; exact (M.even (by omega)).1
      · rw [if_neg (by omega)]; exact (M.odd (by omega)).1
      · rw [if_neg (by omega)]; exact (M.odd (by omega)).1
    dsimp only
    rw [← e1, ← e2]
    rfl
  · rw [show face (st.1 % 6) = face st.1 from (face_of st.1 (st.1 % 6) rfl).symm]
    exact hturn

/-- Halo points that are not across a cube corner are across an existing boundary. -/
theorem boundary_of_single {l : Layout} (hx : 0 < l.x) (hsq : l.y = l.x) {r : Int}
    (H : HaloReady q ky kx n h) (hh : 0 < h) (hn : h ≤ n) {b : BType}
    {idx : List Nat} (hi : InRecv q b h idx)
    {t j i : Int} (ht : tileIndex l r = .ok t) (hji : subtileIndex l r = (j, i))
    (hsc : SingleCross (l.x * n) (q.tilePos n i idx kx) (q.tilePos n j idx ky)) :
    ∃ B, B.boundaryType = b ∧ Cube.boundary l b r = .ok (some B) := by
  obtain ⟨t0, j0, i0, rfl, ho, -, -, -⟩ := onTile_of_rank (by omega : 0 < l.y) hx r
  rw [ho.sub] at hji
  simp only [Prod.mk.injEq] at hji
  obtain ⟨rfl, rfl⟩ := hji
  have ⟨a1, a2, a3, a4, a5, a6⟩ := ho
  obtain ⟨bx, by'⟩ := recv_block H hh hn hi (L := l.x) a5 a6 a3 (by omega)
  have sx := overlapOf_01 (q.d kx)
  have sy := overlapOf_01 (q.d ky)
  have hnpos : 0 < n := by omega
  have hb : leavesBoth l.x (j0 + b.dy) (i0 + b.dx) = false := by
    rw [tilePos_dbl n i0 b.dx, tilePos_dbl n j0 b.dy] at hsc
    by_contra hb
    simp only [leavesBoth, Bool.not_eq_false, Bool.and_eq_true, Bool.or_eq_true,
      decide_eq_true_eq] at hb
    obtain ⟨hb1, hb2⟩ := hb
    unfold SingleCross at hsc
    rcases hsc with hs | hs
    · rcases hb1 with e | e
      · have := dbl_neg hnpos sx bx e; omega
      · have := dbl_big hnpos sx bx e; omega
    · rcases hb2 with e | e
      · have := dbl_neg hnpos sy by' e; omega
      · have := dbl_big hnpos sy by' e; omega
  rw [cube_boundary hsq ho b, hb]
  exact ⟨_, rfl, rfl⟩

end

end FV3
