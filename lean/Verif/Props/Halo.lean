import Verif.Spec.HaloResult
import Verif.Proofs.HaloValue
import Verif.Proofs.Bulk
import Verif.Props.BoundarySlice

/-!
# C15, C16, C17: scalar halo updates
-/

namespace FV3
variable {α : Type}

section
variable {l : Layout} {m m' : Int → Mem α} {q ky kx : Nat} {n h : Int}

theorem Quantity.otherPos_eq {qs qd : Quantity α} (hn : qs.ndim = qd.ndim) {src idx : List Nat}
    (h : ∀ k, k < qd.ndim → k ≠ ky → k ≠ kx → qs.rel src k = qd.rel idx k) :
    qs.otherPos ky kx src = qd.otherPos ky kx idx := by
  funext k
  unfold Quantity.otherPos
  rw [hn]
  by_cases c : k < qd.ndim ∧ k ≠ ky ∧ k ≠ kx
  · rw [if_pos c, if_pos c]; exact h k c.1 c.2.1 c.2.2
  · rw [if_neg c, if_neg c]

variable [Neg α]

/-- Waiting for a halo update: halos are filled with the values at the start. -/
theorem wait_filled (hx : 0 < l.x) (hsq : l.y = l.x) (hh : 0 < h) (hn : h ≤ n)
    (S : ScalarField l m q ky kx n h) {p p' : Int → Mem α}
    (hp : ∀ r ∈ allRanks l, ∀ q', SameMeta (m r q') (p r q')) (hu : WaitStep l (.halo q h) m p p') :
    HaloFilled l q ky kx n h m p' := by
  intro r idx t a b hat hi hsc
  have hr := hat.rank
  have ha := hat.x
  have hb := hat.y
  subst ha hb
  have H := S.ready r hr
  obtain ⟨bt, hbt⟩ := (inHalo_iff H hh hn idx).1 hi
  obtain ⟨B0, rfl, hB0⟩ := boundary_of_single hx hsq H hh hn hbt hat.tile rfl hsc
  obtain ⟨-, -, g⟩ := halo_wait_value hx hsq hh hn S (hp r hr) hu hr
  rcases g idx hi.len with ⟨h1, -⟩ | ⟨B, hB, hin, M, src, s1, s2, s3, s4⟩
  · exact absurd hbt (h1 B0 hB0)
  · obtain ⟨t', j', i', -, ht', hs', -, hp, -⟩ :=
      recv_geometry hx hsq hr H hh hn hB M hin s4 hat.tile rfl
    exact ⟨B.toRank, src, ⟨s1, Quantity.otherPos_eq M.ndim s3,
      t', _, _, ⟨boundary_toRank hx hsq hB, ht', by rw [hs'], by rw [hs']⟩, hp⟩, s2⟩

/-- A halo update as one step: halos are filled. -/
theorem step_filled (hx : 0 < l.x) (hsq : l.y = l.x) (hh : 0 < h) (hn : h ≤ n)
    (S : ScalarField l m q ky kx n h) (hu : UpdateStep l (.halo q h) m m') :
    HaloFilled l q ky kx n h m m' :=
  wait_filled hx hsq hh hn S (fun _ _ _ => SameMeta.refl _) fun r hr => (hu r hr).2

theorem SameMeta.inHalo {a b : Quantity α} (g : SameMeta a b) (ky kx : Nat) (h : Int)
    (idx : List Nat) : InHalo b ky kx h idx ↔ InHalo a ky kx h idx := by
  constructor
  · rintro ⟨h1, h2, h3, h4, h5⟩
    simp only [g.ndim, g.rel, g.e, g.inDom] at h1 h2 h3 h4 h5
    exact ⟨h1, h2, h3, h4, h5⟩
  · rintro ⟨h1, h2, h3, h4, h5⟩
    refine ⟨?_, ?_, ?_, ?_, ?_⟩ <;> simp only [g.ndim, g.rel, g.e, g.inDom] <;> assumption

theorem AtTile.same {p : Int → Mem α} {r t a b : Int} {idx : List Nat}
    (hat : AtTile l p q ky kx n r idx t a b) (g : SameMeta (m r q) (p r q)) :
    AtTile l m q ky kx n r idx t a b :=
  ⟨hat.rank, hat.tile, by rw [hat.x, g.tilePos], by rw [hat.y, g.tilePos]⟩

/-- Waiting for a halo update: nothing else changes. -/
theorem wait_only (hx : 0 < l.x) (hsq : l.y = l.x) (hh : 0 < h) (hn : h ≤ n)
    (S : ScalarField l m q ky kx n h) {p p' : Int → Mem α}
    (hp : ∀ r ∈ allRanks l, ∀ q', SameMeta (m r q') (p r q')) (hu : WaitStep l (.halo q h) m p p') :
    OnlyHaloChanged l q ky kx n h p p' := by
  intro r hr
  obtain ⟨g1, g2, g3⟩ := halo_wait_value hx hsq hh hn S (hp r hr) hu hr
  have gq := hp r hr q
  refine ⟨g1, fun q' hq' => ?_, fun idx t a b hat hl hno => ?_⟩
  · have := g2 q' hq'
    have e := g1 q'
    rcases hm : p r q' with ⟨⟨s, g⟩, d, u, o, x⟩
    rcases hm' : p' r q' with ⟨⟨s', g'⟩, d', u', o', x'⟩
    rw [hm, hm'] at e
    rw [hm, hm'] at this
    obtain ⟨e1, e2, e3, e4, e5⟩ := e
    have e6 : g' = g := funext this
    simp only at e1 e2 e3 e4 e5
    rw [e1, e2, e3, e4, e5, e6]
  · replace hat := hat.same gq
    rw [gq.ndim] at hl
    rw [gq.inHalo] at hno
    rcases g3 idx hl with ⟨-, e⟩ | ⟨B, hB, hin, M, src, s1, s2, s3, s4⟩
    · exact e
    · exfalso
      apply hno
      refine ⟨(inHalo_iff (S.ready r hr) hh hn idx).2 ⟨_, hin⟩, ?_⟩
      obtain ⟨t', j', i', -, -, -, hsc, -⟩ :=
        recv_geometry hx hsq hr (S.ready r hr) hh hn hB M hin s4 hat.tile rfl
      rw [hat.x, hat.y]
      exact hsc

/-- A halo update as one step: nothing else changes. -/
theorem step_only (hx : 0 < l.x) (hsq : l.y = l.x) (hh : 0 < h) (hn : h ≤ n)
    (S : ScalarField l m q ky kx n h) (hu : UpdateStep l (.halo q h) m m') :
    OnlyHaloChanged l q ky kx n h m m' :=
  wait_only hx hsq hh hn S (fun _ _ _ => SameMeta.refl _) fun r hr => (hu r hr).2

theorem ScalarField.same (S : ScalarField l m q ky kx n h)
    (g : ∀ r ∈ allRanks l, ∀ q', SameMeta (m r q') (m' r q')) : ScalarField l m' q ky kx n h := by
  refine ⟨fun r hr => (g r hr q).haloReady (S.ready r hr), fun r hr r' hr' => ?_,
    fun r hr r' hr' k hk e1 e2 => ?_, fun r hr => ?_⟩
  · rw [(g r hr q).dims, (g r' hr' q).dims]; exact S.dims r hr r' hr'
  · rw [(g r hr q).e, (g r' hr' q).e]
    exact S.other r hr r' hr' k (by rw [← (g r hr q).ndim]; exact hk) e1 e2
  · rw [(g r hr q).d, (g r hr q).d]; exact S.stagger r hr

theorem haloCall_bulk (hx : 0 < l.x) (hsq : l.y = l.x) (hh : 0 < h) (hn : h ≤ n)
    (S : ScalarField l m q ky kx n h) (buf : Buffering) (k : Nat) :
    ∃ m' : Int → Mem α, CallsRun l (List.replicate k (.haloUpdate q h)) m m' ∧
      (callNet l (List.replicate k (.haloUpdate q h)) m).Completes buf fun r =>
        (.ok (), ⟨m' r, if r ∈ allRanks l then k else 0, []⟩) := by
  obtain ⟨m', h1, -, h3⟩ := calls_bulk (l := l) (Good := MetaIs m)
    (calls := List.replicate k (.haloUpdate q h)) (mem := m) buf (fun r _ q => SameMeta.refl _)
    (fun c hc op ho => by
      obtain ⟨-, rfl⟩ := List.mem_replicate.1 hc
      simp only [Call.start, Option.some.injEq] at ho
      subst ho
      exact halo_sound hx hsq hh hn S)
    (fun f hf => by
      have := (List.mem_replicate.1 hf).2
      simp at this)
  refine ⟨m', h1, ?_⟩
  simp only [List.map_replicate, Call.nTags, List.sum_replicate_nat, Nat.mul_one] at h3
  exact h3

/-- **C15**: after all ranks have called `halo_update(q, h)`, whatever the schedule and whether
or not MPI buffers messages, every halo point (not across a corner of the cube) holds the value
which the rank owning that point of the cube had before. -/
theorem C15_halo_update (hx : 0 < l.x) (hsq : l.y = l.x) (hh : 0 < h) (hn : h ≤ n)
    (S : ScalarField l m q ky kx n h) (buf : Buffering) :
    ∃ m' : Int → Mem α,
      ((callNet l [.haloUpdate q h] m).Completes buf fun r =>
        (.ok (), ⟨m' r, if r ∈ allRanks l then 1 else 0, []⟩)) ∧
      HaloFilled l q ky kx n h m m' := by
  obtain ⟨m', ⟨m1, h1, h2⟩, h3⟩ := haloCall_bulk hx hsq hh hn S buf 1
  refine ⟨m', h3, ?_⟩
  have e := step_filled hx hsq hh hn S h1
  intro r idx t a b hat hi hsc
  rw [h2 r hat.rank]
  exact e r idx t a b hat hi hsc

/-- **C15** for a field sampled on the ranks: the halo holds the values of the field. -/
theorem C15_halo_update_field (hx : 0 < l.x) (hsq : l.y = l.x) (hh : 0 < h) (hn : h ≤ n)
    (S : ScalarField l m q ky kx n h) (buf : Buffering) (F : Vec3 → (Nat → Int) → α)
    (hF : SampleOf l m q ky kx n F) :
    ∃ m' : Int → Mem α,
      ((callNet l [.haloUpdate q h] m).Completes buf fun r =>
        (.ok (), ⟨m' r, if r ∈ allRanks l then 1 else 0, []⟩)) ∧
      ∀ r idx t a b, AtTile l m q ky kx n r idx t a b → InHalo (m r q) ky kx h idx →
        SingleCross (l.x * n) a b →
        (m' r q).data.get idx = F (foldPos (l.x * n) t a b) ((m r q).otherPos ky kx idx) := by
  obtain ⟨m', h1, h2⟩ := C15_halo_update hx hsq hh hn S buf
  refine ⟨m', h1, fun r idx t a b hat hi hsc => ?_⟩
  obtain ⟨r', src, ho, e⟩ := h2 r idx t a b hat hi hsc
  rw [e, hF r' src _ _ ho]

/-- **C16**: `halo_update(q, h)` changes only halo points of `q` within `h` points of the compute
domain, inside the extent of the other axes and not across a corner of the cube. -/
theorem C16_only_halo_changed (hx : 0 < l.x) (hsq : l.y = l.x) (hh : 0 < h) (hn : h ≤ n)
    (S : ScalarField l m q ky kx n h) (buf : Buffering) :
    ∃ m' : Int → Mem α,
      ((callNet l [.haloUpdate q h] m).Completes buf fun r =>
        (.ok (), ⟨m' r, if r ∈ allRanks l then 1 else 0, []⟩)) ∧
      OnlyHaloChanged l q ky kx n h m m' := by
  obtain ⟨m', ⟨m1, h1, h2⟩, h3⟩ := haloCall_bulk hx hsq hh hn S buf 1
  refine ⟨m', h3, ?_⟩
  have e := step_only hx hsq hh hn S h1
  intro r hr
  rw [h2 r hr]
  exact e r hr

omit [Neg α] in
theorem rel_compute_ext {qs : Quantity α} {s s' : List Nat} (h1 : s.length = qs.ndim)
    (h2 : s'.length = qs.ndim) (h : ∀ k, k < qs.ndim → qs.rel s k = qs.rel s' k) : s = s' := by
  apply List.ext_getElem (by rw [h1, h2])
  intro k k1 k2
  have := h k (by omega)
  unfold Quantity.rel at'  at this
  rw [getD_lt _ k1, getD_lt _ k2] at this
  omega

/-- Two halo updates in a row do the same as one. -/
theorem step_twice (hx : 0 < l.x) (hsq : l.y = l.x) (hh : 0 < h) (hn : h ≤ n)
    (S : ScalarField l m q ky kx n h) {m1 m2 : Int → Mem α} (h1 : UpdateStep l (.halo q h) m m1)
    (h2 : UpdateStep l (.halo q h) m1 m2) {r : Int} (hr : r ∈ allRanks l) (idx : List Nat)
    (hl : idx.length = (m r q).ndim) :
    (m2 r q).data.get idx = (m1 r q).data.get idx := by
  have V1 := fun r (hr : r ∈ allRanks l) => halo_step_value hx hsq hh hn S h1 hr
  have S1 : ScalarField l m1 q ky kx n h := S.same fun r hr => (V1 r hr).1
  have keep : ∀ r ∈ allRanks l, ∀ s, (m r q).InCompute s →
      (m1 r q).data.get s = (m r q).data.get s := by
    intro r hr s hs
    rcases (V1 r hr).2.2 s hs.1 with ⟨-, e⟩ | ⟨B, hB, hin, -⟩
    · exact e
    · exact absurd hs (C12_recv_outside_disjoint _ ky kx (S.ready r hr).axes (S.ready r hr).wf _ _ _ hin).1
  obtain ⟨-, -, v2⟩ := halo_step_value hx hsq hh hn S1 h2 hr
  have g := (V1 r hr).1 q
  rcases v2 idx (by rw [g.ndim]; exact hl) with ⟨-, e⟩ | ⟨B, hB, hin, M, src, s1, s2, s3, s4⟩
  · exact e
  · have hr' := boundary_toRank hx hsq hB
    have g' := (V1 _ hr').1 q
    have hin' : InRecv (m r q) B.boundaryType h idx := (g.inRecv _ _ _).1 hin
    have s1' : (m B.toRank q).InCompute src := (g'.inCompute _).1 s1
    rw [s2, keep _ hr' _ s1']
    rcases (V1 r hr).2.2 idx hl with ⟨no, -⟩ | ⟨B', hB', hin2, M', src', c1, c2, c3, c4⟩
    · exact absurd hin' (no B hB)
    · have eb := (C12_recv_outside_disjoint _ ky kx (S.ready r hr).axes (S.ready r hr).wf _ _ _ hin').2 _ _ hin2
      rw [eb] at hB'
      rw [hB] at hB'
      simp only [Except.ok.injEq, Option.some.injEq] at hB'
      subst hB'
      rw [c2]
      congr 1
      have hnd : (m B.toRank q).ndim = (m r q).ndim := M'.ndim
      have hHx := (S.ready r hr).axes
      apply rel_compute_ext s1'.1 c1.1
      intro k hk
      simp only [g.d, g.rel, g'.rel, g.ndim] at s3 s4
      rw [← s4] at c4
      simp only [Prod.mk.injEq] at c4
      by_cases e1 : k = kx
      · rw [e1]; exact c4.1.symm
      by_cases e2 : k = ky
      · rw [e2]; exact c4.2.symm
      rw [s3 k (by omega) e2 e1, c3 k (by omega) e2 e1]

/-- **C17**: repeating a halo update changes nothing: one or two updates give the same result. -/
theorem C17_idempotent (hx : 0 < l.x) (hsq : l.y = l.x) (hh : 0 < h) (hn : h ≤ n)
    (S : ScalarField l m q ky kx n h) (buf : Buffering) :
    ∃ m1 m2 : Int → Mem α,
      ((callNet l [.haloUpdate q h] m).Completes buf fun r =>
        (.ok (), ⟨m1 r, if r ∈ allRanks l then 1 else 0, []⟩)) ∧
      ((callNet l [.haloUpdate q h, .haloUpdate q h] m).Completes buf fun r =>
        (.ok (), ⟨m2 r, if r ∈ allRanks l then 2 else 0, []⟩)) ∧
      ∀ r ∈ allRanks l, (∀ q', q' ≠ q → m2 r q' = m1 r q') ∧ SameMeta (m1 r q) (m2 r q) ∧
        (m2 r q).data.Eqv (m1 r q).data := by
  obtain ⟨m1, ⟨a, a1, a2⟩, a3⟩ := haloCall_bulk hx hsq hh hn S buf 1
  obtain ⟨m2, ⟨b, b1, c, b2, b3⟩, b4⟩ := haloCall_bulk hx hsq hh hn S buf 2
  refine ⟨m1, m2, a3, b4, fun r hr => ?_⟩
  have S1 : ScalarField l b q ky kx n h :=
    S.same fun r hr => (halo_step_value hx hsq hh hn S b1 hr).1
  have hab : ∀ r ∈ allRanks l, b r = m1 r := by
    intro r hr
    obtain ⟨-, i, hi, hd⟩ := a1 r hr
    obtain ⟨-, i', hi', hd'⟩ := b1 r hr
    rw [hi] at hi'
    simp only [Except.ok.injEq] at hi'
    subst hi'
    rw [hd] at hd'
    rw [a2 r hr]
    exact (Except.ok.inj hd').symm
  have v1 := halo_step_value hx hsq hh hn S b1 hr
  have v := step_only hx hsq hh hn S1 b2 r hr
  rw [b3 r hr, ← hab r hr]
  refine ⟨v.2.1, v.1 q, (v.1 q).shape, fun idx hi => ?_⟩
  refine step_twice hx hsq hh hn S b1 b2 hr idx ?_
  rw [(v.1 q).shape, (v1.1 q).shape] at hi
  rw [((inB_iff _ _).1 hi).1, (S.ready r hr).wf.shape]

/-- Two decompositions hold the same field: equal values at equal points of the cube. -/
def SameField (l l' : Layout) (m m' : Int → Mem α) (q ky kx : Nat) (n n' : Int) : Prop :=
  ∀ r r' idx idx' P others, Owns l m q ky kx n r idx P others → Owns l' m' q ky kx n' r' idx' P others →
    (m r q).data.get idx = (m' r' q).data.get idx'

/-- Compute points are inside the tile. -/
theorem compute_inside (hx : 0 < l.x) (hsq : l.y = l.x) (hn : 0 ≤ n)
    (S : ScalarField l m q ky kx n h) {r : Int} {idx : List Nat} {t a b : Int}
    (hat : AtTile l m q ky kx n r idx t a b) (hc : (m r q).InCompute idx) :
    (0 ≤ a ∧ a ≤ 2 * (l.x * n)) ∧ (0 ≤ b ∧ b ≤ 2 * (l.x * n)) := by
  have H := S.ready r hat.rank
  obtain ⟨t0, j0, i0, er, ho, -, -, -⟩ := onTile_of_rank (by omega : 0 < l.y) hx r
  subst er
  have ⟨a1, a2, a3, a4, a5, a6⟩ := ho
  have ha := hat.x
  have hb := hat.y
  rw [ho.sub] at ha hb
  have cx := hc.2 kx H.axes.xlt
  have cy := hc.2 ky H.axes.ylt
  have ex := H.ex
  have ey := H.ey
  have sx := overlapOf_01 ((m (mkRank l t0 j0 i0) q).d kx)
  have sy := overlapOf_01 ((m (mkRank l t0 j0 i0) q).d ky)
  have m1 : (i0 + 1) * n ≤ l.x * n := Int.mul_le_mul_of_nonneg_right (by omega) hn
  have m2 : (j0 + 1) * n ≤ l.x * n := Int.mul_le_mul_of_nonneg_right (by omega) hn
  have m3 : 0 ≤ i0 * n := Int.mul_nonneg a5 hn
  have m4 : 0 ≤ j0 * n := Int.mul_nonneg a3 hn
  rw [Int.add_mul, Int.one_mul] at m1 m2
  unfold Quantity.tilePos Quantity.rel at ha hb
  unfold Quantity.InDom at cx cy
  simp only at ha hb
  omega

/-- After a halo update, compute domain and halo hold the values of the owners. -/
theorem step_valid (hx : 0 < l.x) (hsq : l.y = l.x) (hh : 0 < h) (hn : h ≤ n)
    (S : ScalarField l m q ky kx n h) (hu : UpdateStep l (.halo q h) m m')
    {r : Int} {idx : List Nat} {t a b : Int} (hat : AtTile l m q ky kx n r idx t a b)
    (hv : HasValue (m r q) ky kx h idx) (hsc : SingleCross (l.x * n) a b) :
    ∃ r' src, Owns l m q ky kx n r' src (foldPos (l.x * n) t a b) ((m r q).otherPos ky kx idx) ∧
      (m' r q).data.get idx = (m r' q).data.get src := by
  rcases hv with hc | hi
  · obtain ⟨c1, c2⟩ := compute_inside hx hsq (by omega) S hat hc
    refine ⟨r, idx, ⟨hc, rfl, t, a, b, hat, ?_⟩, ?_⟩
    · unfold foldPos
      rw [if_neg (by omega), if_neg (by omega), if_neg (by omega), if_neg (by omega)]
    · refine (step_only hx hsq hh hn S hu r hat.rank).2.2 idx t a b hat hc.1 ?_
      rintro ⟨i1, -⟩
      exact i1.out ⟨hc.2 _ (S.ready r hat.rank).axes.ylt, hc.2 _ (S.ready r hat.rank).axes.xlt⟩
  · exact step_filled hx hsq hh hn S hu r idx t a b hat hi hsc

/-- **C17**: the same field on the same grid, decomposed in two ways, gets the same values at
the same place of a tile, whether that is in the compute domain or the halo of a rank. -/
theorem C17_layout_independent {l' : Layout} {p : Int → Mem α} {n' h' : Int} (hx : 0 < l.x)
    (hsq : l.y = l.x) (hh : 0 < h) (hn : h ≤ n) (S : ScalarField l m q ky kx n h)
    (hx' : 0 < l'.x) (hsq' : l'.y = l'.x) (hh' : 0 < h') (hn' : h' ≤ n')
    (S' : ScalarField l' p q ky kx n' h') (hN : l.x * n = l'.x * n')
    (hF : SameField l l' m p q ky kx n n') (buf buf' : Buffering) :
    ∃ m1 p1 : Int → Mem α,
      ((callNet l [.haloUpdate q h] m).Completes buf fun r =>
        (.ok (), ⟨m1 r, if r ∈ allRanks l then 1 else 0, []⟩)) ∧
      ((callNet l' [.haloUpdate q h'] p).Completes buf' fun r =>
        (.ok (), ⟨p1 r, if r ∈ allRanks l' then 1 else 0, []⟩)) ∧
      ∀ r idx r' idx' t a b,
        AtTile l m q ky kx n r idx t a b → HasValue (m r q) ky kx h idx →
        AtTile l' p q ky kx n' r' idx' t a b → HasValue (p r' q) ky kx h' idx' →
        (m r q).otherPos ky kx idx = (p r' q).otherPos ky kx idx' →
        SingleCross (l.x * n) a b →
        (m1 r q).data.get idx = (p1 r' q).data.get idx' := by
  obtain ⟨m1, ⟨m0, a0, a2⟩, a1⟩ := haloCall_bulk hx hsq hh hn S buf 1
  obtain ⟨p1, ⟨p0, b0, b2⟩, b1⟩ := haloCall_bulk hx' hsq' hh' hn' S' buf' 1
  refine ⟨m1, p1, a1, b1, fun r idx r' idx' t a b c1 c2 c3 c4 ho hsc => ?_⟩
  obtain ⟨s, i, o1, e1⟩ := step_valid hx hsq hh hn S a0 c1 c2 hsc
  obtain ⟨s', i', o2, e2⟩ := step_valid hx' hsq' hh' hn' S' b0 c3 c4 (by rw [← hN]; exact hsc)
  rw [a2 r c1.rank, b2 r' c3.rank, e1, e2]
  rw [← hN, ← ho] at o2
  exact hF _ _ _ _ _ _ o1 o2

end

/-! ### A concrete case

Cells `3 × 3` per rank on a `2 × 2` layout, two levels, two halo points. -/

/-- The quantity on rank `r`, holding the field `F`. -/
def exFieldQ (l : Layout) (F : Vec3 → (Nat → Int) → α) (r : Int) : Quantity α :=
  let q0 : Quantity α :=
    { data := ⟨[7, 7, 2], fun _ => F ⟨0, 0, 0⟩ fun _ => 0⟩
      dims := [.y, .x, .z], units := "m", origin := [2, 2, 0], extent := [3, 3, 2] }
  { q0 with data := ⟨[7, 7, 2], fun idx =>
      F (pos (l.x * 3) (match tileIndex l r with | .ok t => t | .error _ => 0)
        (q0.tilePos 3 (subtileIndex l r).2 idx 1) (q0.tilePos 3 (subtileIndex l r).1 idx 0))
        (q0.otherPos 0 1 idx)⟩ }

def exFieldMem (l : Layout) (F : Vec3 → (Nat → Int) → α) : Int → Mem α := fun r _ => exFieldQ l F r

theorem exField_axes : HAxes [Dim.y, .x, .z] 0 1 := exQ_axes

theorem exField_scalar (l : Layout) (F : Vec3 → (Nat → Int) → α) (q : Nat) :
    ScalarField l (exFieldMem l F) q 0 1 3 2 := by
  refine ⟨fun r _ => ⟨⟨⟨rfl, rfl, rfl⟩, ?_⟩, exField_axes, rfl, rfl, ?_, ?_⟩, fun _ _ _ _ => rfl,
    fun _ _ _ _ _ _ _ _ => rfl, fun _ _ => rfl⟩
  · show ∀ k, k < 3 → 0 ≤ ([2, 2, 0] : List Int).getD k 0 ∧ 0 ≤ ([3, 3, 2] : List Int).getD k 0 ∧
      ([2, 2, 0] : List Int).getD k 0 + ([3, 3, 2] : List Int).getD k 0 ≤
        (([7, 7, 2] : List Nat).getD k 0 : Nat)
    decide
  · show (2 : Int) ≤ 2 ∧ (2 : Int) + 3 + 2 ≤ 7
    decide
  · show (2 : Int) ≤ 2 ∧ (2 : Int) + 3 + 2 ≤ 7
    decide

theorem exField_sample (l : Layout) (F : Vec3 → (Nat → Int) → α) (q : Nat) :
    SampleOf l (exFieldMem l F) q 0 1 3 F := by
  rintro r idx P others ⟨h1, h2, t, a, b, h3, h4⟩
  rw [← h2, ← h4, h3.x, h3.y]
  show F (pos (l.x * 3) (match tileIndex l r with | .ok t => t | .error _ => 0) _ _) _ = _
  rw [h3.tile]
  rfl

example : AtTile ⟨2, 2⟩ (exFieldMem ⟨2, 2⟩ fun P _ => P) 0 0 1 3 2 [5, 1, 1] 0 (-1) 13 ∧
    InHalo (exFieldMem ⟨2, 2⟩ (fun P _ => P) 2 0) 0 1 2 [5, 1, 1] ∧ ¬ SingleCross (2 * 3) (-1) 13 := by
  refine ⟨⟨by decide, by decide, by decide, by decide⟩, ⟨rfl, by decide, by decide, ?_, ?_⟩, by
    unfold SingleCross; omega⟩
  · intro k hk h1 h2
    have : k = 2 := by have : k < 3 := hk; omega
    subst this
    show (0 : Int) ≤ 1 ∧ (1 : Int) < 0 + 2
    decide
  · rintro ⟨h1, -⟩
    have : (2 : Int) ≤ 5 ∧ (5 : Int) < 2 + 3 := h1
    omega

/-- In the concrete case, a halo point of tile 0 beyond its west edge gets the value at a point of
tile 4. -/
example (buf : Buffering) : ∃ m' : Int → Mem Int,
    ((callNet ⟨2, 2⟩ [.haloUpdate 0 2] (exFieldMem ⟨2, 2⟩ fun P _ => 10000 * P.x + 100 * P.y + P.z)).Completes buf fun r =>
      (.ok (), ⟨m' r, if r ∈ allRanks ⟨2, 2⟩ then 1 else 0, []⟩)) ∧
    (m' 2 0).data.get [3, 1, 1] = 49403 := by
  obtain ⟨m', h1, h2⟩ := C15_halo_update_field (l := ⟨2, 2⟩) (h := 2) (by decide) rfl (by decide)
    (by decide) (exField_scalar ⟨2, 2⟩ (fun P _ => 10000 * P.x + 100 * P.y + P.z) 0) buf _ (exField_sample _ _ _)
  refine ⟨m', h1, ?_⟩
  rw [h2 2 [3, 1, 1] 0 (-1) 9 ⟨by decide, by decide, by decide, by decide⟩
    ⟨rfl, by decide, by decide, ?_, ?_⟩ (Or.inr (by decide))]
  · decide
  · intro k hk h1 h2
    have : k = 2 := by have : k < 3 := hk; omega
    subst this
    show (0 : Int) ≤ 1 ∧ (1 : Int) < 0 + 2
    decide
  · rintro ⟨-, h1⟩
    have : (2 : Int) ≤ 1 ∧ (1 : Int) < 2 + 3 := h1
    omega

end FV3
