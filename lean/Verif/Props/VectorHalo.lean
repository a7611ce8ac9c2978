import Verif.Proofs.VectorValue
import Verif.Props.Halo

/-!
# C19: vector halo updates
-/

namespace FV3
variable {α : Type}

section
variable {l : Layout} {m m' : Int → Mem α} {x y : Nat} {ky kx : Nat} {n h : Int}

theorem quantity_ext {q q' : Quantity α} (g : SameMeta q q')
    (e : ∀ idx, q'.data.get idx = q.data.get idx) : q' = q := by
  rcases q with ⟨⟨s, f⟩, d, u, o, x⟩
  rcases q' with ⟨⟨s', f'⟩, d', u', o', x'⟩
  obtain ⟨e1, e2, e3, e4, e5⟩ := g
  have e6 : f' = f := funext e
  simp only at e1 e2 e3 e4 e5
  rw [e1, e2, e3, e4, e5, e6]

theorem neg_neg3 (u : Vec3) : u.neg.neg = u := by
  ext <;> simp [Vec3.neg]

variable [Neg α]

theorem StoredFrom.component (hx : 0 < l.x) (hsq : l.y = l.x) (hh : 0 < h) (hn : h ≤ n) {r : Int}
    (hr : r ∈ allRanks l) {q c : Nat} {f : α → α} {B : Boundary} {idx : List Nat}
    (H : HaloReady (m r q) ky kx n h) (hB : Cube.boundary l B.boundaryType r = .ok (some B))
    (s : StoredFrom m m' ky kx n h r q B c f idx) {t a b : Int}
    (hat : AtTile l m q ky kx n r idx t a b) :
    SingleCross (l.x * n) a b ∧ ∃ src t', tileIndex l B.toRank = .ok t' ∧
      Owns l m c ky kx n B.toRank src (foldPos (l.x * n) t a b) ((m r q).otherPos ky kx idx) ∧
      (m' r q).data.get idx = f ((m B.toRank c).data.get src) ∧
      TurnedCW B.rotations (foldEx (l.x * n) t a) (foldEy (l.x * n) t b) (face t').ex (face t').ey := by
  obtain ⟨hin, M, src, s1, s2, s3, s4⟩ := s
  have ha := hat.x
  have hb := hat.y
  subst ha hb
  obtain ⟨t', j', i', -, ht', hs', hsc, hp, hturn⟩ :=
    recv_geometry hx hsq hr H hh hn hB M hin s4 hat.tile rfl
  exact ⟨hsc, src, t', ht', ⟨s1, Quantity.otherPos_eq M.ndim s3,
      t', _, _, ⟨boundary_toRank hx hsq hB, ht', by rw [hs'], by rw [hs']⟩, hp⟩, s2, hturn⟩

/-- Waiting for a vector halo update: halos are filled with the vectors at the start. -/
theorem vector_wait_filled (hx : 0 < l.x) (hsq : l.y = l.x) (hh : 0 < h) (hn : h ≤ n) (hxy : x ≠ y)
    (S : VectorField l m x y ky kx n h) {p p' : Int → Mem α}
    (hp : ∀ r ∈ allRanks l, ∀ q', SameMeta (m r q') (p r q'))
    (hu : WaitStep l (.vector x y h) m p p') :
    VectorHaloFilled l x y ky kx n h m p' := by
  constructor
  · intro r idx t a b hat hi hsc
    have hr := hat.rank
    have H := S.readyX r hr
    obtain ⟨bt, hbt⟩ := (inHalo_iff H hh hn idx).1 hi
    obtain ⟨B0, rfl, hB0⟩ := boundary_of_single hx hsq H hh hn hbt hat.tile rfl
      (by have e := hsc; rw [hat.x, hat.y] at e; exact e)
    obtain ⟨-, -, g, -⟩ := vector_wait_value hx hsq hh hn hxy S (hp r hr) hu hr
    rcases g idx hi.len with ⟨h1, -⟩ | ⟨B, hB, hk, s⟩
    · exact absurd hbt (h1 B0 hB0)
    · obtain ⟨-, src, t', ht', ho, hv, T⟩ := s.component hx hsq hh hn hr H hB hat
      refine ⟨B.toRank, src, t', ht', ?_⟩
      rcases hk with k | k | k <;> simp only [k] at ho hv T
      · exact Or.inl ⟨ho, Or.inl ⟨((T.1 (by decide)).1).symm, hv⟩⟩
      · exact Or.inr ⟨ho, Or.inl ⟨((T.2.1 (by decide)).2).symm, hv⟩⟩
      · exact Or.inr ⟨ho, Or.inr ⟨by rw [(T.2.2.2 (by decide)).2, neg_neg3], hv⟩⟩
  · intro r idx t a b hat hi hsc
    have hr := hat.rank
    have H := S.readyY r hr
    obtain ⟨bt, hbt⟩ := (inHalo_iff H hh hn idx).1 hi
    obtain ⟨B0, rfl, hB0⟩ := boundary_of_single hx hsq H hh hn hbt hat.tile rfl
      (by have e := hsc; rw [hat.x, hat.y] at e; exact e)
    obtain ⟨-, -, -, g⟩ := vector_wait_value hx hsq hh hn hxy S (hp r hr) hu hr
    rcases g idx hi.len with ⟨h1, -⟩ | ⟨B, hB, hk, s⟩
    · exact absurd hbt (h1 B0 hB0)
    · obtain ⟨-, src, t', ht', ho, hv, T⟩ := s.component hx hsq hh hn hr H hB hat
      refine ⟨B.toRank, src, t', ht', ?_⟩
      rcases hk with k | k | k <;> simp only [k] at ho hv T
      · exact Or.inr ⟨ho, Or.inl ⟨((T.1 (by decide)).2).symm, hv⟩⟩
      · exact Or.inl ⟨ho, Or.inr ⟨by rw [(T.2.1 (by decide)).1, neg_neg3], hv⟩⟩
      · exact Or.inl ⟨ho, Or.inl ⟨((T.2.2.2 (by decide)).1).symm, hv⟩⟩

theorem vector_step_filled (hx : 0 < l.x) (hsq : l.y = l.x) (hh : 0 < h) (hn : h ≤ n) (hxy : x ≠ y)
    (S : VectorField l m x y ky kx n h) (hu : UpdateStep l (.vector x y h) m m') :
    VectorHaloFilled l x y ky kx n h m m' :=
  vector_wait_filled hx hsq hh hn hxy S (fun _ _ _ => SameMeta.refl _) fun r hr => (hu r hr).2

/-- Waiting for a vector halo update: nothing else changes. -/
theorem vector_wait_only (hx : 0 < l.x) (hsq : l.y = l.x) (hh : 0 < h) (hn : h ≤ n) (hxy : x ≠ y)
    (S : VectorField l m x y ky kx n h) {p p' : Int → Mem α}
    (hp : ∀ r ∈ allRanks l, ∀ q', SameMeta (m r q') (p r q'))
    (hu : WaitStep l (.vector x y h) m p p') :
    OnlyVectorHaloChanged l x y ky kx n h p p' := by
  intro r hr
  obtain ⟨g1, g2, g3, g4⟩ := vector_wait_value hx hsq hh hn hxy S (hp r hr) hu hr
  refine ⟨g1, fun q' h1 h2 => quantity_ext (g1 q') (g2 q' h1 h2), fun q hq idx t a b hat hl hno => ?_⟩
  rcases hq with rfl | rfl
  · replace hat := hat.same (hp r hr _)
    rw [(hp r hr _).ndim] at hl
    rw [(hp r hr _).inHalo] at hno
    rcases g3 idx hl with ⟨-, e⟩ | ⟨B, hB, -, s⟩
    · exact e
    · exact absurd ⟨(inHalo_iff (S.readyX r hr) hh hn idx).2 ⟨_, s.inn⟩,
        (s.component hx hsq hh hn hr (S.readyX r hr) hB hat).1⟩ hno
  · replace hat := hat.same (hp r hr _)
    rw [(hp r hr _).ndim] at hl
    rw [(hp r hr _).inHalo] at hno
    rcases g4 idx hl with ⟨-, e⟩ | ⟨B, hB, -, s⟩
    · exact e
    · exact absurd ⟨(inHalo_iff (S.readyY r hr) hh hn idx).2 ⟨_, s.inn⟩,
        (s.component hx hsq hh hn hr (S.readyY r hr) hB hat).1⟩ hno

theorem vector_step_only (hx : 0 < l.x) (hsq : l.y = l.x) (hh : 0 < h) (hn : h ≤ n) (hxy : x ≠ y)
    (S : VectorField l m x y ky kx n h) (hu : UpdateStep l (.vector x y h) m m') :
    OnlyVectorHaloChanged l x y ky kx n h m m' :=
  vector_wait_only hx hsq hh hn hxy S (fun _ _ _ => SameMeta.refl _) fun r hr => (hu r hr).2

/-- **C19**: after all ranks have called `vector_halo_update(x, y, h)`, whatever the schedule and
whether or not MPI buffers messages, every halo point (not across a corner of the cube) of either
component holds the component, along the receiving tile's axis folded over the cube edge, of the
vector which the owner of the point had before; and nothing else has changed. -/
theorem C19_vector_halo_update (hx : 0 < l.x) (hsq : l.y = l.x) (hh : 0 < h) (hn : h ≤ n)
    (hxy : x ≠ y) (S : VectorField l m x y ky kx n h) (buf : Buffering) :
    ∃ m' : Int → Mem α,
      ((callNet l [.vectorHaloUpdate x y h] m).Completes buf fun r =>
        (.ok (), ⟨m' r, if r ∈ allRanks l then 2 else 0, []⟩)) ∧
      VectorHaloFilled l x y ky kx n h m m' ∧ OnlyVectorHaloChanged l x y ky kx n h m m' := by
  obtain ⟨m', ⟨m1, h1, h2⟩, -, h3⟩ := calls_bulk (l := l) (Good := MetaIs m)
    (calls := [.vectorHaloUpdate x y h]) (mem := m) buf (fun r _ q => SameMeta.refl _)
    (fun c hc op ho => by
      rw [List.mem_singleton] at hc
      subst hc
      simp only [Call.start, Option.some.injEq] at ho
      subst ho
      exact vector_sound hx hsq hh hn S)
    (fun f hf => by simp at hf)
  have e1 := vector_step_filled hx hsq hh hn hxy S h1
  have e2 := vector_step_only hx hsq hh hn hxy S h1
  refine ⟨m', h3, ⟨?_, ?_⟩, ?_⟩
  · intro r idx t a b hat hi hsc
    rw [h2 r hat.rank]
    exact e1.1 r idx t a b hat hi hsc
  · intro r idx t a b hat hi hsc
    rw [h2 r hat.rank]
    exact e1.2 r idx t a b hat hi hsc
  · intro r hr
    rw [h2 r hr]
    exact e2 r hr

/-- **C19** for a vector field on the surface of the cube sampled on the ranks (with
components along the tile axes): the halos hold its components along the folded axes. -/
theorem C19_vector_halo_update_field (hx : 0 < l.x) (hsq : l.y = l.x) (hh : 0 < h) (hn : h ≤ n)
    (hxy : x ≠ y) (S : VectorField l m x y ky kx n h) (buf : Buffering)
    (V : Vec3 → (Nat → Int) → Vec3 → α) (hV : ∀ P o e, V P o e.neg = -V P o e)
    (hF : VectorSampleOf l m x y ky kx n V) :
    ∃ m' : Int → Mem α,
      ((callNet l [.vectorHaloUpdate x y h] m).Completes buf fun r =>
        (.ok (), ⟨m' r, if r ∈ allRanks l then 2 else 0, []⟩)) ∧
      (∀ r idx t a b, AtTile l m x ky kx n r idx t a b → InHalo (m r x) ky kx h idx →
        SingleCross (l.x * n) a b → (m' r x).data.get idx =
          V (foldPos (l.x * n) t a b) ((m r x).otherPos ky kx idx) (foldEx (l.x * n) t a)) ∧
      (∀ r idx t a b, AtTile l m y ky kx n r idx t a b → InHalo (m r y) ky kx h idx →
        SingleCross (l.x * n) a b → (m' r y).data.get idx =
          V (foldPos (l.x * n) t a b) ((m r y).otherPos ky kx idx) (foldEy (l.x * n) t b)) := by
  obtain ⟨m', h1, ⟨f1, f2⟩, -⟩ := C19_vector_halo_update hx hsq hh hn hxy S buf
  have key : ∀ P o E v, IsComponentAt l m x y ky kx n P o E v → v = V P o E := by
    rintro P o E v ⟨r, src, t, ht, ⟨ho, c⟩ | ⟨ho, c⟩⟩
    · have := (hF r src P o t ht).1 ho
      rcases c with ⟨rfl, rfl⟩ | ⟨rfl, rfl⟩
      · exact this
      · rw [hV, this]
    · have := (hF r src P o t ht).2 ho
      rcases c with ⟨rfl, rfl⟩ | ⟨rfl, rfl⟩
      · exact this
      · rw [hV, this]
  exact ⟨m', h1, fun r idx t a b h1 h2 h3 => key _ _ _ _ (f1 r idx t a b h1 h2 h3),
    fun r idx t a b h1 h2 h3 => key _ _ _ _ (f2 r idx t a b h1 h2 h3)⟩

end

/-! ### A concrete case: D-grid winds on a `2 × 2` layout with `3 × 3` cells per rank -/

def exWindQ (l : Layout) (V : Vec3 → (Nat → Int) → Vec3 → α) (c : Nat) (r : Int) : Quantity α :=
  let t := match tileIndex l r with | .ok t => t | .error _ => 0
  let dims : List Dim := if c = 0 then [.z, .yI, .x] else [.z, .y, .xI]
  let shape := if c = 0 then [2, 8, 7] else [2, 7, 8]
  let q0 : Quantity α :=
    { data := ⟨shape, fun _ => V ⟨0, 0, 0⟩ (fun _ => 0) ⟨0, 0, 0⟩⟩
      dims := dims, units := "m/s", origin := [0, 2, 2],
      extent := if c = 0 then [2, 4, 3] else [2, 3, 4] }
  { q0 with data := ⟨shape, fun idx =>
      V (pos (l.x * 3) t (q0.tilePos 3 (subtileIndex l r).2 idx 2)
        (q0.tilePos 3 (subtileIndex l r).1 idx 1)) (q0.otherPos 1 2 idx)
        (if c = 0 then (face t).ex else (face t).ey)⟩ }

def exWindMem (l : Layout) (V : Vec3 → (Nat → Int) → Vec3 → α) : Int → Mem α :=
  fun r c => exWindQ l V c r

theorem exWind_axes (c : Nat) : HAxes (if c = 0 then [Dim.z, .yI, .x] else [.z, .y, .xI]) 1 2 := by
  split <;> refine ⟨?_, ?_, by decide, by decide⟩ <;>
  · intro k d h
    match k, h with
    | 0, h => simp at h; subst h; simp [IsX, IsY]
    | 1, h => simp at h; subst h; simp [IsX, IsY]
    | 2, h => simp at h; subst h; simp [IsX, IsY]
    | k + 3, h => simp at h

theorem exWind_ready (l : Layout) (V : Vec3 → (Nat → Int) → Vec3 → α) (r : Int) (c : Nat)
    (hc : c = 0 ∨ c = 1) : HaloReady (exWindMem l V r c) 1 2 3 2 := by
  rcases hc with rfl | rfl
  · refine ⟨⟨⟨rfl, rfl, rfl⟩, ?_⟩, exWind_axes 0, rfl, rfl, ?_, ?_⟩
    · show ∀ k, k < 3 → 0 ≤ ([0, 2, 2] : List Int).getD k 0 ∧ 0 ≤ ([2, 4, 3] : List Int).getD k 0 ∧
        ([0, 2, 2] : List Int).getD k 0 + ([2, 4, 3] : List Int).getD k 0 ≤
          (([2, 8, 7] : List Nat).getD k 0 : Nat)
      decide
    · show (2 : Int) ≤ 2 ∧ (2 : Int) + 4 + 2 ≤ 8
      decide
    · show (2 : Int) ≤ 2 ∧ (2 : Int) + 3 + 2 ≤ 7
      decide
  · refine ⟨⟨⟨rfl, rfl, rfl⟩, ?_⟩, exWind_axes 1, rfl, rfl, ?_, ?_⟩
    · show ∀ k, k < 3 → 0 ≤ ([0, 2, 2] : List Int).getD k 0 ∧ 0 ≤ ([2, 3, 4] : List Int).getD k 0 ∧
        ([0, 2, 2] : List Int).getD k 0 + ([2, 3, 4] : List Int).getD k 0 ≤
          (([2, 7, 8] : List Nat).getD k 0 : Nat)
      decide
    · show (2 : Int) ≤ 2 ∧ (2 : Int) + 3 + 2 ≤ 7
      decide
    · show (2 : Int) ≤ 2 ∧ (2 : Int) + 4 + 2 ≤ 8
      decide

theorem exWind_vector (l : Layout) (V : Vec3 → (Nat → Int) → Vec3 → α) :
    VectorField l (exWindMem l V) 0 1 1 2 3 2 := by
  refine ⟨fun r _ => exWind_ready l V r 0 (by simp), fun r _ => exWind_ready l V r 1 (by simp),
    fun _ _ _ _ => rfl, fun _ _ _ _ => rfl, fun _ _ => rfl, ?_, fun _ _ => rfl, fun _ _ => rfl⟩
  intro r _ r' _ k hk h1 h2
  have hk' : k < 3 := hk
  have : k = 0 := by omega
  subst this
  rfl

theorem exWind_sample (l : Layout) (V : Vec3 → (Nat → Int) → Vec3 → α) :
    VectorSampleOf l (exWindMem l V) 0 1 1 2 3 V := by
  intro r idx P others t ht
  constructor
  · rintro ⟨h1, h2, t', a, b, h3, h4⟩
    have : t' = t := by have := h3.tile; rw [ht] at this; exact (Except.ok.inj this).symm
    subst this
    rw [← h2, ← h4, h3.x, h3.y]
    show V (pos (l.x * 3) (match tileIndex l r with | .ok t => t | .error _ => 0) _ _) _
      (if (0 : Nat) = 0 then (face (match tileIndex l r with | .ok t => t | .error _ => 0)).ex
        else (face (match tileIndex l r with | .ok t => t | .error _ => 0)).ey) = _
    rw [h3.tile]
    rfl
  · rintro ⟨h1, h2, t', a, b, h3, h4⟩
    have : t' = t := by have := h3.tile; rw [ht] at this; exact (Except.ok.inj this).symm
    subst this
    rw [← h2, ← h4, h3.x, h3.y]
    show V (pos (l.x * 3) (match tileIndex l r with | .ok t => t | .error _ => 0) _ _) _
      (if (1 : Nat) = 0 then (face (match tileIndex l r with | .ok t => t | .error _ => 0)).ex
        else (face (match tileIndex l r with | .ok t => t | .error _ => 0)).ey) = _
    rw [h3.tile]
    rfl

end FV3
