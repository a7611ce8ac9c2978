import Verif.Proofs.CubeGeometry

/-!
# C06-C10, C49: boundaries of ranks
-/

namespace FV3

/-- A rank given by number is a rank at some tile, row and column. -/
theorem onTile_of_rank {l : Layout} (hy : 0 < l.y) (hx : 0 < l.x) (r : Int) :
    ∃ t j i, r = mkRank l t j i ∧ OnTile l j i ∧ tileIndex l r = .ok t ∧ subtileIndex l r = (j, i) ∧
      t = r / (l.y * l.x) := by
  obtain ⟨t, j, i, h, a, b, c, d, e⟩ := mkRank_exists hy hx r
  have ho : OnTile l j i := ⟨hy, hx, a, b, c, d⟩
  exact ⟨t, j, i, h, ho, by rw [h]; exact ho.tile, by rw [h]; exact ho.sub, e⟩

/-! ### C06 -/

/-- **C06**: tile boundaries step by one subtile with wrap-around, stay on the tile, do not
rotate, and the opposite boundary leads back. -/
theorem C06_tile_boundary_periodic (l : Layout) (hy : 0 < l.y) (hx : 0 < l.x) (b : BType) (r : Int)
    (h0 : 0 ≤ r) (h1 : r < l.tileRanks) :
    let B := Tile.boundary l b r
    B.boundaryType = b ∧ B.fromRank = r ∧ B.rotations = 0 ∧
    (0 ≤ B.toRank ∧ B.toRank < l.tileRanks) ∧
    subtileIndex l B.toRank =
      (((subtileIndex l r).1 + b.dy) % l.y, ((subtileIndex l r).2 + b.dx) % l.x) ∧
    (Tile.boundary l b.opposite B.toRank).toRank = r := by
  obtain ⟨t, j, i, rfl, ho, -, hs, he⟩ := onTile_of_rank hy hx r
  have ht : t = 0 := by
    rw [he]; exact Int.ediv_eq_zero_of_lt h0 (by simpa [Layout.tileRanks] using h1)
  subst ht
  simp only [tile_boundary b ho, hs]
  have ho' : OnTile l ((j + b.dy) % l.y) ((i + b.dx) % l.x) :=
    ⟨hy, hx, Int.emod_nonneg _ (by omega), Int.emod_lt_of_pos _ hy,
      Int.emod_nonneg _ (by omega), Int.emod_lt_of_pos _ hx⟩
  have hr := (mkRank_range (t := 0) hx ho'.hj0 ho'.hj ho'.hi0 ho'.hi 1).2 (by omega)
  refine ⟨trivial, trivial, trivial, ⟨hr.1, by simpa [Layout.tileRanks] using hr.2⟩, ho'.sub, ?_⟩
  rw [tile_boundary b.opposite ho']
  obtain ⟨e1, e2⟩ := BType.opposite_step b
  simp only [e1, e2, Int.emod_add_emod, Int.add_neg_cancel_right]
  rw [Int.emod_eq_of_lt ho.hj0 ho.hj, Int.emod_eq_of_lt ho.hi0 ho.hi]

example : (Tile.boundary ⟨2, 3⟩ .nw 3).toRank = 2 := by decide

/-! ### C07 -/

/-- **C07**: edges of a non-square layout are not supported. -/
theorem C07_nonsquare_raises (l : Layout) (b : BType) (hb : b.isCorner = false) (r : Int)
    (hsq : l.y ≠ l.x) : Cube.boundary l b r = .error .notImplemented := by
  have e : Cube.ensureSquare l = .error .notImplemented := by simp [Cube.ensureSquare, hsq]
  cases b <;> first | (simp [BType.isCorner] at hb; done) |
    simp [Cube.boundary, Cube.rawBoundary, Cube.leftEdge, Cube.rightEdge, Cube.topEdge,
      Cube.bottomEdge, e, bind, Except.bind, Functor.map, Except.map]

/-- The rank sits at the corner of its tile towards which `b` points. -/
def AtCorner (l : Layout) (b : BType) (j i : Int) : Prop :=
  match b with
  | .nw => j = l.y - 1 ∧ i = 0
  | .ne => j = l.y - 1 ∧ i = l.x - 1
  | .sw => j = 0 ∧ i = 0
  | .se => j = 0 ∧ i = l.x - 1
  | _ => False

theorem leavesBoth_iff {l : Layout} {j i : Int} (hsq : l.y = l.x) (ho : OnTile l j i) (b : BType) :
    leavesBoth l.x (j + b.dy) (i + b.dx) = true ↔ AtCorner l b j i := by
  obtain ⟨a1, a2, a3, a4, a5, a6⟩ := ho
  simp only [leavesBoth, Bool.and_eq_true, Bool.or_eq_true, decide_eq_true_eq]
  cases b <;> simp only [BType.dx, BType.dy, AtCorner] <;> constructor <;> intro h <;>
    first | exact h.elim | omega

/-- **C07**: on a square layout, boundaries are absent exactly at the tile's own corners
and otherwise lead to a rank of the cube. -/
theorem C07_cube_boundary_closed (l : Layout) (hx : 0 < l.x) (hsq : l.y = l.x) (b : BType) (r : Int)
    (j i : Int) (hs : subtileIndex l r = (j, i)) :
    (AtCorner l b j i → Cube.boundary l b r = .ok none) ∧
    (¬ AtCorner l b j i → ∃ B, Cube.boundary l b r = .ok (some B) ∧ B.boundaryType = b ∧
      B.fromRank = r ∧ 0 ≤ B.toRank ∧ B.toRank < l.cubeRanks) := by
  obtain ⟨t, j', i', rfl, ho, -, hs', -⟩ := onTile_of_rank (by omega) hx r
  rw [hs'] at hs
  injection hs with e1 e2
  subst e1 e2
  rw [cube_boundary hsq ho b]
  constructor
  · intro h
    rw [if_pos ((leavesBoth_iff hsq ho b).2 h)]
  · intro h
    have hb : leavesBoth l.x (j' + b.dy) (i' + b.dx) = false := by
      cases hc : leavesBoth l.x (j' + b.dy) (i' + b.dx)
      · rfl
      · exact absurd ((leavesBoth_iff hsq ho b).1 hc) h
    rw [if_neg (by simp [hb])]
    refine ⟨_, rfl, rfl, rfl, ?_⟩
    obtain ⟨a1, a2, a3, a4, a5, a6⟩ := ho
    have hd : -1 ≤ b.dx ∧ b.dx ≤ 1 ∧ -1 ≤ b.dy ∧ b.dy ≤ 1 := by cases b <;> decide
    have ho' := cubeStep_onTile (t := t) hsq hx hb (by omega) (by omega) (by omega) (by omega)
    exact (mkRank_range hx ho'.hj0 ho'.hj ho'.hi0 ho'.hi 6).2 (by omega)

example : Cube.boundary ⟨2, 2⟩ .nw 2 = .ok none ∧
    Cube.boundary ⟨2, 2⟩ .west 2 = .ok (some ⟨.west, 2, 18, 1⟩) := by decide +kernel

/-! ### C08 - C10 -/

/-- What a returned boundary is, in coordinates. -/
theorem boundary_some {l : Layout} (hx : 0 < l.x) (hsq : l.y = l.x) {b : BType} {r : Int}
    (h0 : 0 ≤ r) (h6 : r < l.cubeRanks) {B : Boundary} (hB : Cube.boundary l b r = .ok (some B)) :
    ∃ t j i, (0 ≤ t ∧ t < 6) ∧ OnTile l j i ∧ r = mkRank l t j i ∧
      leavesBoth l.x (j + b.dy) (i + b.dx) = false ∧
      OnTile l (cubeStep l.x t (j + b.dy) (i + b.dx)).2.1
        (cubeStep l.x t (j + b.dy) (i + b.dx)).2.2.1 ∧
      B = { boundaryType := b, fromRank := r
            toRank := mkRank l ((cubeStep l.x t (j + b.dy) (i + b.dx)).1 % 6)
              (cubeStep l.x t (j + b.dy) (i + b.dx)).2.1
              (cubeStep l.x t (j + b.dy) (i + b.dx)).2.2.1
            rotations := (cubeStep l.x t (j + b.dy) (i + b.dx)).2.2.2 } := by
  obtain ⟨t, j, i, rfl, ho, -, -, -⟩ := onTile_of_rank (by omega : 0 < l.y) hx r
  rw [cube_boundary hsq ho b] at hB
  injection hB with hB
  have ht := (mkRank_range hx ho.hj0 ho.hj ho.hi0 ho.hi 6).1 ⟨h0, h6⟩
  cases hb : leavesBoth l.x (j + b.dy) (i + b.dx) with
  | true => rw [hb] at hB; simp at hB
  | false =>
    rw [hb] at hB
    simp only [Bool.false_eq_true, if_false, Option.some.injEq] at hB
    have hd : -1 ≤ b.dx ∧ b.dx ≤ 1 ∧ -1 ≤ b.dy ∧ b.dy ≤ 1 := by cases b <;> decide
    obtain ⟨a1, a2, a3, a4, a5, a6⟩ := ho
    exact ⟨t, j, i, ht, ⟨a1, a2, a3, a4, a5, a6⟩, rfl, hb,
      cubeStep_onTile hsq hx hb (by omega) (by omega) (by omega) (by omega), hB.symm⟩

/-- **C09**: different boundary types of a rank lead to different ranks, none to itself. -/
theorem C09_distinct_neighbours (l : Layout) (hx : 0 < l.x) (hsq : l.y = l.x) (r : Int)
    (h0 : 0 ≤ r) (h6 : r < l.cubeRanks) (b b' : BType) (B B' : Boundary)
    (hB : Cube.boundary l b r = .ok (some B)) (hB' : Cube.boundary l b' r = .ok (some B')) :
    B.toRank ≠ r ∧ (B.toRank = B'.toRank → b = b') := by
  obtain ⟨t, j, i, ht, ho, rfl, hb, ho1, rfl⟩ := boundary_some hx hsq h0 h6 hB
  obtain ⟨t', j', i', ht', ho', hr, hb', ho1', rfl⟩ := boundary_some hx hsq h0 h6 hB'
  obtain ⟨rfl, rfl, rfl⟩ := mkRank_inj ho.hy hx ho.hj0 ho.hj ho.hi0 ho.hi ho'.hj0 ho'.hj ho'.hi0
    ho'.hi hr
  have hd : ∀ b : BType, (-1 ≤ b.dx ∧ b.dx ≤ 1 ∧ -1 ≤ b.dy ∧ b.dy ≤ 1) ∧ (b.dx ≠ 0 ∨ b.dy ≠ 0) := by
    intro b; cases b <;> decide
  obtain ⟨hd1, hd2⟩ := hd b
  obtain ⟨hd1', hd2'⟩ := hd b'
  have ⟨a1, a2, a3, a4, a5, a6⟩ := ho
  constructor
  · intro h
    obtain ⟨e1, e2, e3⟩ := mkRank_inj ho.hy hx ho1.hj0 ho1.hj ho1.hi0 ho1.hi ho.hj0 ho.hj ho.hi0
      ho.hi h
    have hin : cubeStep l.x t j i = (t, j, i, 0) := cs_in a5 a6 a3 (by omega)
    have hbin : leavesBoth l.x j i = false := by simp [leavesBoth]; omega
    have := cubeStep_inj (n := l.x) (t := t) (j := j + b.dy) (i := i + b.dx) (j' := j) (i' := i)
      (by omega) (by omega) (by omega) (by omega) hb hbin
      ⟨by rw [hin]; omega, by rw [hin]; exact e2, by rw [hin]; exact e3⟩
    omega
  · intro h
    obtain ⟨e1, e2, e3⟩ := mkRank_inj ho.hy hx ho1.hj0 ho1.hj ho1.hi0 ho1.hi ho1'.hj0 ho1'.hj
      ho1'.hi0 ho1'.hi h
    have := cubeStep_inj (n := l.x) (t := t) (j := j + b.dy) (i := i + b.dx) (j' := j + b'.dy)
      (i' := i + b'.dx)
      (by omega) (by omega) (by omega) (by omega) hb hb' ⟨e1, e2, e3⟩
    exact BType.eq_of_step (by omega) (by omega)

/-- The rotated, reversed step in coordinates. -/
theorem back_step (b : BType) (k : Nat) (hk : k = 0 ∨ k = 1 ∨ k = 3) :
    (k = 0 → (b.opposite.ccwN k).dx = -b.dx ∧ (b.opposite.ccwN k).dy = -b.dy) ∧
    (k = 1 → (b.opposite.ccwN k).dx = b.dy ∧ (b.opposite.ccwN k).dy = -b.dx) ∧
    (k = 3 → (b.opposite.ccwN k).dx = -b.dy ∧ (b.opposite.ccwN k).dy = b.dx) := by
  refine ⟨?_, ?_, ?_⟩ <;> (intro h; subst h; cases b <;> decide)

/-- **C08**: if boundary `b` of `r` leads to `r'` with `k` clockwise rotations then exactly
one boundary of `r'` leads back to `r`: the opposite of `b` turned counterclockwise `k`
times, with `-k` rotations modulo 4. -/
theorem C08_boundary_reciprocal (l : Layout) (hx : 0 < l.x) (hsq : l.y = l.x) (r : Int)
    (h0 : 0 ≤ r) (h6 : r < l.cubeRanks) (b : BType) (B : Boundary)
    (hB : Cube.boundary l b r = .ok (some B)) :
    (∃ B', Cube.boundary l (b.opposite.ccwN B.rotations.toNat) B.toRank = .ok (some B') ∧
      B'.toRank = r ∧ (B'.rotations + B.rotations) % 4 = 0) ∧
    (∀ b' B', Cube.boundary l b' B.toRank = .ok (some B') → B'.toRank = r →
      b' = b.opposite.ccwN B.rotations.toNat) := by
  obtain ⟨t, j, i, ht, ho, hr, hb, ho1, hBe⟩ := boundary_some hx hsq h0 h6 hB
  have hd : -1 ≤ b.dx ∧ b.dx ≤ 1 ∧ -1 ≤ b.dy ∧ b.dy ≤ 1 := by cases b <;> decide
  have ⟨a1, a2, a3, a4, a5, a6⟩ := ho
  have hback := cubeStep_back (n := l.x) (t := t) (j := j) (i := i) (dx := b.dx) (dy := b.dy) hx
    ⟨a5, a6⟩ ⟨a3, by omega⟩ ⟨hd.1, hd.2.1⟩ ⟨hd.2.2.1, hd.2.2.2⟩ hb _ rfl
  have ⟨b1, b2, b3, b4, b5, b6⟩ := ho1
  have hpar : ∀ u v w : Int, SameSubtile (cubeStep l.x (u % 6) v w) (cubeStep l.x u v w) ∧
      (cubeStep l.x (u % 6) v w).2.2.2 = (cubeStep l.x u v w).2.2.2 := by
    intro u v w
    unfold SameSubtile cubeStep
    by_cases hu : u % 2 = 0
    · have : u % 6 % 2 = 0 := by omega
      rw [if_pos hu, if_pos this, if_pos hu, if_pos this, if_pos hu, if_pos this, if_pos hu,
        if_pos this]
      split_ifs <;> dsimp only <;> omega
    · have : ¬ u % 6 % 2 = 0 := by omega
      rw [if_neg hu, if_neg this, if_neg hu, if_neg this, if_neg hu, if_neg this, if_neg hu,
        if_neg this]
      split_ifs <;> dsimp only <;> omega
  have hto := (mkRank_range (t := (cubeStep l.x t (j + b.dy) (i + b.dx)).1 % 6) hx ho1.hj0 ho1.hj
    ho1.hi0 ho1.hi 6).2 (by omega)
  have hbt : B.toRank = mkRank l ((cubeStep l.x t (j + b.dy) (i + b.dx)).1 % 6)
      (cubeStep l.x t (j + b.dy) (i + b.dx)).2.1
      (cubeStep l.x t (j + b.dy) (i + b.dx)).2.2.1 := by rw [hBe]
  have hbr : B.rotations = (cubeStep l.x t (j + b.dy) (i + b.dx)).2.2.2 := by rw [hBe]
  have hex : ∃ B', Cube.boundary l (b.opposite.ccwN B.rotations.toNat) B.toRank = .ok (some B') ∧
      B'.toRank = r ∧ (B'.rotations + B.rotations) % 4 = 0 := by
    rw [hbt, hbr, hr]
    generalize cubeStep l.x t (j + b.dy) (i + b.dx) = s at *
    rw [cube_boundary hsq ho1]
    have fin : ∀ (v w k' : Int), SameSubtile (cubeStep l.x s.1 v w) (t, j, i, 0) →
        (cubeStep l.x s.1 v w).2.2.2 = k' → (k' + s.2.2.2) % 4 = 0 →
        mkRank l ((cubeStep l.x (s.1 % 6) v w).1 % 6) (cubeStep l.x (s.1 % 6) v w).2.1
          (cubeStep l.x (s.1 % 6) v w).2.2.1 = mkRank l t j i ∧
        ((cubeStep l.x (s.1 % 6) v w).2.2.2 + s.2.2.2) % 4 = 0 := by
      intro v w k' hs hk hk4
      obtain ⟨⟨p1, p2, p3⟩, p4⟩ := hpar s.1 v w
      obtain ⟨q1, q2, q3⟩ := hs
      dsimp only at q1 q2 q3
      rw [p4, hk, p1, p2, p3, q1, q2, q3, Int.emod_eq_of_lt ht.1 ht.2]
      exact ⟨rfl, hk4⟩
    rcases hback with ⟨hk, hlv, hs, hk'⟩ | ⟨hk, hlv, hs, hk'⟩ | ⟨hk, hlv, hs, hk'⟩
    · have hn : s.2.2.2.toNat = 0 := by omega
      obtain ⟨e1, e2⟩ := (back_step b s.2.2.2.toNat (by omega)).1 hn
      rw [e1, e2, show s.2.1 + -b.dy = s.2.1 - b.dy by omega,
        show s.2.2.1 + -b.dx = s.2.2.1 - b.dx by omega, if_neg (by simp [hlv])]
      exact ⟨_, rfl, fin _ _ _ hs hk' (by omega)⟩
    · have hn : s.2.2.2.toNat = 1 := by omega
      obtain ⟨e1, e2⟩ := (back_step b s.2.2.2.toNat (by omega)).2.1 hn
      rw [e1, e2, show s.2.1 + -b.dx = s.2.1 - b.dx by omega, if_neg (by simp [hlv])]
      exact ⟨_, rfl, fin _ _ _ hs hk' (by omega)⟩
    · have hn : s.2.2.2.toNat = 3 := by omega
      obtain ⟨e1, e2⟩ := (back_step b s.2.2.2.toNat (by omega)).2.2 hn
      rw [e1, e2, show s.2.2.1 + -b.dy = s.2.2.1 - b.dy by omega, if_neg (by simp [hlv])]
      exact ⟨_, rfl, fin _ _ _ hs hk' (by omega)⟩
  refine ⟨hex, ?_⟩
  intro b' B' hb' hr'
  obtain ⟨B'', hB'', hr'', -⟩ := hex
  rw [hbt] at hb' hB''
  exact (C09_distinct_neighbours l hx hsq _ hto.1 hto.2 _ _ B' B'' hb' hB'').2 (by rw [hr', hr''])

/-- **C10**: boundaries agree with the geometry of a cube.  The centre of the subtile
reached is the point of the cube's surface obtained by continuing the tile's grid of
subtiles one step in the direction of the boundary and folding it over the edge; no other
rank is there; and the rotation count is the rotation between the folded axes and the axes
of the tile reached.  (`n` subtiles per side; subtile `(j, i)` has centre
`(2i+1, 2j+1)`.) -/
theorem C10_cube_geometry (l : Layout) (hx : 0 < l.x) (hsq : l.y = l.x) (r : Int)
    (h0 : 0 ≤ r) (h6 : r < l.cubeRanks) (b : BType) (B : Boundary)
    (hB : Cube.boundary l b r = .ok (some B)) (t j i t' j' i' : Int)
    (ht : tileIndex l r = .ok t) (hs : subtileIndex l r = (j, i))
    (ht' : tileIndex l B.toRank = .ok t') (hs' : subtileIndex l B.toRank = (j', i')) :
    let a := 2 * (i + b.dx) + 1
    let c := 2 * (j + b.dy) + 1
    pos l.x t' (2 * i' + 1) (2 * j' + 1) = foldPos l.x t a c ∧
    TurnedCW B.rotations (foldEx l.x t a) (foldEy l.x t c) (face t').ex (face t').ey ∧
    (∀ r'' t'' j'' i'', 0 ≤ r'' → r'' < l.cubeRanks → tileIndex l r'' = .ok t'' →
      subtileIndex l r'' = (j'', i'') →
      pos l.x t'' (2 * i'' + 1) (2 * j'' + 1) = foldPos l.x t a c → r'' = B.toRank) := by
  obtain ⟨t0, j0, i0, htr, ho, rfl, hb, ho1, hBe⟩ := boundary_some hx hsq h0 h6 hB
  rw [ho.tile] at ht
  rw [ho.sub] at hs
  injection ht with ht
  injection hs with hs1 hs2
  subst ht hs1 hs2
  have hbt : B.toRank = mkRank l ((cubeStep l.x t0 (j0 + b.dy) (i0 + b.dx)).1 % 6)
      (cubeStep l.x t0 (j0 + b.dy) (i0 + b.dx)).2.1
      (cubeStep l.x t0 (j0 + b.dy) (i0 + b.dx)).2.2.1 := by rw [hBe]
  have hbr : B.rotations = (cubeStep l.x t0 (j0 + b.dy) (i0 + b.dx)).2.2.2 := by rw [hBe]
  have ⟨a1, a2, a3, a4, a5, a6⟩ := ho
  have hd : -1 ≤ b.dx ∧ b.dx ≤ 1 ∧ -1 ≤ b.dy ∧ b.dy ≤ 1 := by cases b <;> decide
  have hfold := cubeStep_foldPt l.x t0 (j0 + b.dy) (i0 + b.dx) hx (by omega) (by omega) (by omega)
    (by omega) hb
  have hsc : SingleCross l.x (2 * (i0 + b.dx) + 1) (2 * (j0 + b.dy) + 1) := by
    simp only [leavesBoth, Bool.and_eq_false_iff, Bool.or_eq_false_iff,
      decide_eq_false_iff_not] at hb
    unfold SingleCross; omega
  have hpos := foldPt_pos l.x t0 _ _ (by omega) hsc
  have hturn := foldPt_turn l.x t0 _ _ (by omega) hsc
  rw [hfold] at hpos hturn
  rw [hbt] at ht' hs'
  rw [ho1.tile] at ht'
  rw [ho1.sub] at hs'
  injection ht' with ht'
  injection hs' with hs1' hs2'
  have hface : ∀ u : Int, face (u % 6) = face u := by
    intro u; unfold face; rw [Int.emod_emod_of_dvd u (by decide : (6 : Int) ∣ 6)]
  have hposm : ∀ N u a b : Int, pos N (u % 6) a b = pos N u a b := by
    intro N u a b; unfold pos; rw [hface]
  dsimp only at hpos hturn ⊢
  rw [hs1', hs2'] at hpos
  have hpos' : pos l.x t' (2 * i' + 1) (2 * j' + 1) =
      foldPos l.x t0 (2 * (i0 + b.dx) + 1) (2 * (j0 + b.dy) + 1) := by
    rw [← hpos, ← ht', hposm]
  refine ⟨hpos', ?_, ?_⟩
  · rw [hbr, ← ht', hface]; exact hturn
  · intro r'' t'' j'' i'' hr0 hr6 hrt hrs hp
    obtain ⟨t2, j2, i2, rfl, ho2, e1, e2, -⟩ := onTile_of_rank (by omega : 0 < l.y) hx r''
    rw [e1] at hrt
    rw [e2] at hrs
    injection hrt with hrt
    injection hrs with hrs1 hrs2
    subst hrt hrs1 hrs2
    have ht2 := (mkRank_range hx ho2.hj0 ho2.hj ho2.hi0 ho2.hi 6).1 ⟨hr0, hr6⟩
    have ⟨c1, c2, c3, c4, c5, c6⟩ := ho2
    have ⟨d1, d2, d3, d4, d5, d6⟩ := ho1
    rw [hs1'] at d3 d4
    rw [hs2'] at d5 d6
    have := pos_inj ht2 (by omega : 0 ≤ t' ∧ t' < 6) (by omega) (by omega) (by omega) (by omega)
      (hp.trans hpos'.symm)
    rw [hbt, hs1', hs2', ht', this.1]
    congr 1 <;> omega

example : Cube.boundary ⟨3, 3⟩ .north 8 = .ok (some ⟨.north, 8, 18, 3⟩) ∧
    Cube.boundary ⟨3, 3⟩ .west 18 = .ok (some ⟨.west, 18, 8, 1⟩) := by decide +kernel

/-! ### C49 -/

/-- **C49**: positions of ranks after flipping, transposing or rotating a tile. -/
theorem C49_transforms_positions (l : Layout) (j i : Int) (hj0 : 0 ≤ j) (hj : j < l.y)
    (hi0 : 0 ≤ i) (hi : i < l.x) :
    fliplrSubtileRank (j * l.x + i) l = .ok (j * l.x + (l.x - 1 - i)) ∧
    flipudSubtileRank (j * l.x + i) l = .ok ((l.y - 1 - j) * l.x + i) ∧
    rotateSubtileRank (j * l.x + i) l 0 = .ok (j * l.x + i) ∧
    (l.y = l.x →
      transposeSubtileRank (j * l.x + i) l = .ok (i * l.x + j) ∧
      rotateSubtileRank (j * l.x + i) l 1 = .ok ((l.x - 1 - i) * l.x + j)) :=
  ⟨fliplr_int hj0 hj hi0 hi, flipud_int hj0 hj hi0 hi, by simp [rotateSubtileRank],
    fun h => ⟨transpose_int h hj0 hj hi0 hi, rotate_int h hj0 hj hi0 hi⟩⟩

theorem rank_split {l : Layout} (r : Int) (h0 : 0 ≤ r) (h1 : r < l.y * l.x) (hx : 0 < l.x) :
    ∃ j i, r = j * l.x + i ∧ 0 ≤ j ∧ j < l.y ∧ 0 ≤ i ∧ i < l.x := by
  refine ⟨r / l.x, r % l.x, ?_, Int.ediv_nonneg h0 (by omega), Int.ediv_lt_of_lt_mul hx h1,
    Int.emod_nonneg _ (by omega), Int.emod_lt_of_pos _ hx⟩
  have := Int.emod_add_mul_ediv r l.x
  have e : r / l.x * l.x = l.x * (r / l.x) := by ring
  omega

/-- **C49**: the flips and the transpose are involutions of the ranks of a tile, and four
rotations are the identity; so all of them are permutations. -/
theorem C49_transforms_permute (l : Layout) (hx : 0 < l.x) (r : Int)
    (h0 : 0 ≤ r) (h1 : r < l.tileRanks) :
    (∃ r', (0 ≤ r' ∧ r' < l.tileRanks) ∧ fliplrSubtileRank r l = .ok r' ∧
      fliplrSubtileRank r' l = .ok r) ∧
    (∃ r', (0 ≤ r' ∧ r' < l.tileRanks) ∧ flipudSubtileRank r l = .ok r' ∧
      flipudSubtileRank r' l = .ok r) ∧
    (l.y = l.x → ∃ r', (0 ≤ r' ∧ r' < l.tileRanks) ∧ transposeSubtileRank r l = .ok r' ∧
      transposeSubtileRank r' l = .ok r) ∧
    (l.y = l.x → ∃ r1 r2 r3, (0 ≤ r1 ∧ r1 < l.tileRanks) ∧ rotateSubtileRank r l 1 = .ok r1 ∧
      rotateSubtileRank r1 l 1 = .ok r2 ∧ rotateSubtileRank r2 l 1 = .ok r3 ∧
      rotateSubtileRank r3 l 1 = .ok r) := by
  obtain ⟨j, i, rfl, a, b, c, d⟩ := rank_split r h0 h1 hx
  unfold Layout.tileRanks
  refine ⟨⟨_, mkRank_lt_tile hx a b (by omega) (by omega), fliplr_int a b c d, ?_⟩,
    ⟨_, mkRank_lt_tile hx (by omega) (by omega) c d, flipud_int a b c d, ?_⟩,
    fun h => ⟨_, mkRank_lt_tile hx c (by omega) a (by omega), transpose_int h a b c d, ?_⟩,
    fun h => ⟨_, _, _, mkRank_lt_tile hx (by omega) (by omega) a (by omega),
      rotate_int h a b c d, rotate_int h (by omega) (by omega) (by omega) (by omega),
      rotate_int h (by omega) (by omega) (by omega) (by omega), ?_⟩⟩
  · rw [fliplr_int a b (by omega) (by omega)]; congr 2; omega
  · rw [flipud_int (by omega) (by omega) c d]; congr 3; omega
  · rw [transpose_int h c (by omega) a (by omega)]
  · rw [rotate_int h (by omega) (by omega) (by omega) (by omega),
      show l.x - 1 - (l.x - 1 - j) = j by omega, show l.x - 1 - (l.x - 1 - i) = i by omega]

/-- **C49**: ranks outside the tile raise IndexError; other rotation counts are not
implemented. -/
theorem C49_errors (l : Layout) (r : Int) (h : r < 0 ∨ l.y.toNat * l.x.toNat ≤ r) (k : Int)
    (hk : k ≠ 0 ∧ k ≠ 1) :
    fliplrSubtileRank r l = .error .indexError ∧ rotateSubtileRank r l k = .error .notImplemented := by
  constructor
  · unfold fliplrSubtileRank transformSubtileRank
    apply firstWhere_none
    intro e he
    obtain ⟨a, b, rfl, ha, hb⟩ := inB_pair he
    simp only [NDArray.flip, NDArray.arange2, List.getD_cons_succ, List.getD_cons_zero,
      List.set_cons_succ, List.set_cons_zero]
    intro hc
    rcases h with h | h
    · have : 0 ≤ (a : Int) * l.x.toNat := Int.mul_nonneg (by omega) (by omega)
      omega
    · have h3 : ((a : Int) + 1) * l.x.toNat ≤ l.y.toNat * l.x.toNat :=
        Int.mul_le_mul_of_nonneg_right (by omega) (by omega)
      have h4 : ((a : Int) + 1) * l.x.toNat = a * l.x.toNat + l.x.toNat := by ring
      omega
  · simp [rotateSubtileRank, hk.1, hk.2]

example : fliplrSubtileRank 1 ⟨3, 2⟩ = .ok 0 ∧ rotateSubtileRank 5 ⟨3, 3⟩ 1 = .ok 1 := by
  decide +kernel

end FV3
