import Verif.Proofs.CubeBoundary

namespace FV3

/-- The fold in tile coordinates: tile, doubled coordinates and clockwise rotation of the
tile on which the point `(a, b)` of `t`'s continued grid lies. -/
def foldPt (N t a b : Int) : Int × Int × Int × Int :=
  if a < 0 then if t % 2 = 0 then (t - 2, 2 * N - b, 2 * N + a, 1) else (t - 1, 2 * N + a, b, 0)
  else if a > 2 * N then
    if t % 2 = 0 then (t + 1, a - 2 * N, b, 0) else (t + 2, 2 * N - b, a - 2 * N, 1)
  else if b < 0 then
    if t % 2 = 0 then (t - 1, a, 2 * N + b, 0) else (t - 2, 2 * N + b, 2 * N - a, 3)
  else if b > 2 * N then
    if t % 2 = 0 then (t + 2, b - 2 * N, 2 * N - a, 3) else (t + 1, a, b - 2 * N, 0)
  else (t, a, b, 0)

theorem face_of (t c : Int) (h : t % 6 = c) : face t = face c := by
  unfold face
  have : c % 6 = c := by omega
  simp only [h, this]

theorem face0 : face 0 = ⟨⟨1, 0, 0⟩, ⟨0, 1, 0⟩, ⟨0, 0, 1⟩⟩ := by decide
theorem face1 : face 1 = ⟨⟨0, 1, 0⟩, ⟨-1, 0, 0⟩, ⟨0, 0, 1⟩⟩ := by decide
theorem face2 : face 2 = ⟨⟨0, 0, 1⟩, ⟨-1, 0, 0⟩, ⟨0, -1, 0⟩⟩ := by decide
theorem face3 : face 3 = ⟨⟨-1, 0, 0⟩, ⟨0, 0, -1⟩, ⟨0, -1, 0⟩⟩ := by decide
theorem face4 : face 4 = ⟨⟨0, -1, 0⟩, ⟨0, 0, -1⟩, ⟨1, 0, 0⟩⟩ := by decide
theorem face5 : face 5 = ⟨⟨0, 0, -1⟩, ⟨0, 1, 0⟩, ⟨1, 0, 0⟩⟩ := by decide

/-- Relations between neighbouring faces. -/
theorem face_west_even {t : Int} (h : t % 2 = 0) :
    (face (t - 2)).n = (face t).ex.neg ∧ (face (t - 2)).ex = (face t).ey.neg ∧
    (face (t - 2)).ey = (face t).n := by
  have : t % 6 = 0 ∨ t % 6 = 2 ∨ t % 6 = 4 := by omega
  rcases this with h | h | h
  · rw [face_of t 0 h, face_of (t - 2) 4 (by omega)]; decide
  · rw [face_of t 2 h, face_of (t - 2) 0 (by omega)]; decide
  · rw [face_of t 4 h, face_of (t - 2) 2 (by omega)]; decide

theorem face_west_odd {t : Int} (h : ¬ t % 2 = 0) :
    (face (t - 1)).n = (face t).ex.neg ∧ (face (t - 1)).ex = (face t).n ∧
    (face (t - 1)).ey = (face t).ey := by
  have : t % 6 = 1 ∨ t % 6 = 3 ∨ t % 6 = 5 := by omega
  rcases this with h | h | h
  · rw [face_of t 1 h, face_of (t - 1) 0 (by omega)]; decide
  · rw [face_of t 3 h, face_of (t - 1) 2 (by omega)]; decide
  · rw [face_of t 5 h, face_of (t - 1) 4 (by omega)]; decide

theorem face_east_even {t : Int} (h : t % 2 = 0) :
    (face (t + 1)).n = (face t).ex ∧ (face (t + 1)).ex = (face t).n.neg ∧
    (face (t + 1)).ey = (face t).ey := by
  have : t % 6 = 0 ∨ t % 6 = 2 ∨ t % 6 = 4 := by omega
  rcases this with h | h | h
  · rw [face_of t 0 h, face_of (t + 1) 1 (by omega)]; decide
  · rw [face_of t 2 h, face_of (t + 1) 3 (by omega)]; decide
  · rw [face_of t 4 h, face_of (t + 1) 5 (by omega)]; decide

theorem face_east_odd {t : Int} (h : ¬ t % 2 = 0) :
    (face (t + 2)).n = (face t).ex ∧ (face (t + 2)).ex = (face t).ey.neg ∧
    (face (t + 2)).ey = (face t).n.neg := by
  have : t % 6 = 1 ∨ t % 6 = 3 ∨ t % 6 = 5 := by omega
  rcases this with h | h | h
  · rw [face_of t 1 h, face_of (t + 2) 3 (by omega)]; decide
  · rw [face_of t 3 h, face_of (t + 2) 5 (by omega)]; decide
  · rw [face_of t 5 h, face_of (t + 2) 1 (by omega)]; decide

theorem face_south_even {t : Int} (h : t % 2 = 0) :
    (face (t - 1)).n = (face t).ey.neg ∧ (face (t - 1)).ex = (face t).ex ∧
    (face (t - 1)).ey = (face t).n := by
  have : t % 6 = 0 ∨ t % 6 = 2 ∨ t % 6 = 4 := by omega
  rcases this with h | h | h
  · rw [face_of t 0 h, face_of (t - 1) 5 (by omega)]; decide
  · rw [face_of t 2 h, face_of (t - 1) 1 (by omega)]; decide
  · rw [face_of t 4 h, face_of (t - 1) 3 (by omega)]; decide

theorem face_south_odd {t : Int} (h : ¬ t % 2 = 0) :
    (face (t - 2)).n = (face t).ey.neg ∧ (face (t - 2)).ex = (face t).n ∧
    (face (t - 2)).ey = (face t).ex.neg := by
  have : t % 6 = 1 ∨ t % 6 = 3 ∨ t % 6 = 5 := by omega
  rcases this with h | h | h
  · rw [face_of t 1 h, face_of (t - 2) 5 (by omega)]; decide
  · rw [face_of t 3 h, face_of (t - 2) 1 (by omega)]; decide
  · rw [face_of t 5 h, face_of (t - 2) 3 (by omega)]; decide

theorem face_north_even {t : Int} (h : t % 2 = 0) :
    (face (t + 2)).n = (face t).ey ∧ (face (t + 2)).ex = (face t).n.neg ∧
    (face (t + 2)).ey = (face t).ex.neg := by
  have : t % 6 = 0 ∨ t % 6 = 2 ∨ t % 6 = 4 := by omega
  rcases this with h | h | h
  · rw [face_of t 0 h, face_of (t + 2) 2 (by omega)]; decide
  · rw [face_of t 2 h, face_of (t + 2) 4 (by omega)]; decide
  · rw [face_of t 4 h, face_of (t + 2) 0 (by omega)]; decide

theorem face_north_odd {t : Int} (h : ¬ t % 2 = 0) :
    (face (t + 1)).n = (face t).ey ∧ (face (t + 1)).ex = (face t).ex ∧
    (face (t + 1)).ey = (face t).n.neg := by
  have : t % 6 = 1 ∨ t % 6 = 3 ∨ t % 6 = 5 := by omega
  rcases this with h | h | h
  · rw [face_of t 1 h, face_of (t + 1) 2 (by omega)]; decide
  · rw [face_of t 3 h, face_of (t + 1) 4 (by omega)]; decide
  · rw [face_of t 5 h, face_of (t + 1) 0 (by omega)]; decide

/-- The fold in tile coordinates is the fold in space. -/
theorem foldPt_pos (N t a b : Int) (hN : 0 ≤ N) (h : SingleCross N a b) :
    pos N (foldPt N t a b).1 (foldPt N t a b).2.1 (foldPt N t a b).2.2.1 = foldPos N t a b := by
  unfold foldPt foldPos
  by_cases h1 : a < 0
  · rw [if_pos h1, if_pos h1]
    by_cases ht : t % 2 = 0
    · obtain ⟨e1, e2, e3⟩ := face_west_even ht
      rw [if_pos ht]
      simp only [pos, e1, e2, e3, Vec3.add, Vec3.smul, Vec3.neg, Vec3.mk.injEq]
      refine ⟨?_, ?_, ?_⟩ <;> ring
    · obtain ⟨e1, e2, e3⟩ := face_west_odd ht
      rw [if_neg ht]
      simp only [pos, e1, e2, e3, Vec3.add, Vec3.smul, Vec3.neg, Vec3.mk.injEq]
      refine ⟨?_, ?_, ?_⟩ <;> ring
  rw [if_neg h1, if_neg h1]
  by_cases h2 : a > 2 * N
  · rw [if_pos h2, if_pos h2]
    by_cases ht : t % 2 = 0
    · obtain ⟨e1, e2, e3⟩ := face_east_even ht
      rw [if_pos ht]
      simp only [pos, e1, e2, e3, Vec3.add, Vec3.smul, Vec3.neg, Vec3.mk.injEq]
      refine ⟨?_, ?_, ?_⟩ <;> ring
    · obtain ⟨e1, e2, e3⟩ := face_east_odd ht
      rw [if_neg ht]
      simp only [pos, e1, e2, e3, Vec3.add, Vec3.smul, Vec3.neg, Vec3.mk.injEq]
      refine ⟨?_, ?_, ?_⟩ <;> ring
  rw [if_neg h2, if_neg h2]
  by_cases h3 : b < 0
  · rw [if_pos h3, if_pos h3]
    by_cases ht : t % 2 = 0
    · obtain ⟨e1, e2, e3⟩ := face_south_even ht
      rw [if_pos ht]
      simp only [pos, e1, e2, e3, Vec3.add, Vec3.smul, Vec3.neg, Vec3.mk.injEq]
      refine ⟨?_, ?_, ?_⟩ <;> ring
    · obtain ⟨e1, e2, e3⟩ := face_south_odd ht
      rw [if_neg ht]
      simp only [pos, e1, e2, e3, Vec3.add, Vec3.smul, Vec3.neg, Vec3.mk.injEq]
      refine ⟨?_, ?_, ?_⟩ <;> ring
  rw [if_neg h3, if_neg h3]
  by_cases h4 : b > 2 * N
  · rw [if_pos h4, if_pos h4]
    by_cases ht : t % 2 = 0
    · obtain ⟨e1, e2, e3⟩ := face_north_even ht
      rw [if_pos ht]
      simp only [pos, e1, e2, e3, Vec3.add, Vec3.smul, Vec3.neg, Vec3.mk.injEq]
      refine ⟨?_, ?_, ?_⟩ <;> ring
    · obtain ⟨e1, e2, e3⟩ := face_north_odd ht
      rw [if_neg ht]
      simp only [pos, e1, e2, e3, Vec3.add, Vec3.smul, Vec3.neg, Vec3.mk.injEq]
      refine ⟨?_, ?_, ?_⟩ <;> ring
  rw [if_neg h4, if_neg h4]

theorem Vec3.neg_neg (v : Vec3) : v.neg.neg = v := by
  simp [Vec3.neg]

/-- The rotation count is the rotation between the folded axes and those of the tile
reached. -/
theorem foldPt_turn (N t a b : Int) (hN : 0 ≤ N) (h : SingleCross N a b) :
    TurnedCW (foldPt N t a b).2.2.2 (foldEx N t a) (foldEy N t b)
      (face (foldPt N t a b).1).ex (face (foldPt N t a b).1).ey := by
  unfold foldPt foldEx foldEy
  unfold SingleCross at h
  by_cases h1 : a < 0
  · rw [if_pos h1, if_pos h1, if_neg (show ¬ b < 0 by omega),
      if_neg (show ¬ b > 2 * N by omega)]
    by_cases ht : t % 2 = 0
    · obtain ⟨e1, e2, e3⟩ := face_west_even ht
      rw [if_pos ht]; simp [TurnedCW, e2, e3]
    · obtain ⟨e1, e2, e3⟩ := face_west_odd ht
      rw [if_neg ht]; simp [TurnedCW, e2, e3]
  rw [if_neg h1, if_neg h1]
  by_cases h2 : a > 2 * N
  · rw [if_pos h2, if_pos h2, if_neg (show ¬ b < 0 by omega),
      if_neg (show ¬ b > 2 * N by omega)]
    by_cases ht : t % 2 = 0
    · obtain ⟨e1, e2, e3⟩ := face_east_even ht
      rw [if_pos ht]; simp [TurnedCW, e2, e3]
    · obtain ⟨e1, e2, e3⟩ := face_east_odd ht
      rw [if_neg ht]; simp [TurnedCW, e2, e3]
  rw [if_neg h2, if_neg h2]
  by_cases h3 : b < 0
  · rw [if_pos h3, if_pos h3]
    by_cases ht : t % 2 = 0
    · obtain ⟨e1, e2, e3⟩ := face_south_even ht
      rw [if_pos ht]; simp [TurnedCW, e2, e3]
    · obtain ⟨e1, e2, e3⟩ := face_south_odd ht
      rw [if_neg ht]; simp [TurnedCW, e2, e3]
  rw [if_neg h3, if_neg h3]
  by_cases h4 : b > 2 * N
  · rw [if_pos h4, if_pos h4]
    by_cases ht : t % 2 = 0
    · obtain ⟨e1, e2, e3⟩ := face_north_even ht
      rw [if_pos ht]; simp [TurnedCW, e2, e3]
    · obtain ⟨e1, e2, e3⟩ := face_north_odd ht
      rw [if_neg ht]; simp [TurnedCW, e2, e3]
  rw [if_neg h4, if_neg h4]
  simp [TurnedCW]

theorem tup4 {x y : Int × Int × Int × Int} (h1 : x.1 = y.1) (h2 : x.2.1 = y.2.1)
    (h3 : x.2.2.1 = y.2.2.1) (h4 : x.2.2.2 = y.2.2.2) : x = y :=
  Prod.ext h1 (Prod.ext h2 (Prod.ext h3 h4))

/-- One subtile step is the fold of subtile centres. -/
theorem cubeStep_foldPt (n t j i : Int) (hn : 0 < n) (h1 : -1 ≤ i) (h2 : i ≤ n) (h3 : -1 ≤ j)
    (h4 : j ≤ n) (hb : leavesBoth n j i = false) :
    foldPt n t (2 * i + 1) (2 * j + 1) =
      ((cubeStep n t j i).1, 2 * (cubeStep n t j i).2.2.1 + 1, 2 * (cubeStep n t j i).2.1 + 1,
       (cubeStep n t j i).2.2.2) := by
  simp only [leavesBoth, Bool.and_eq_false_iff, Bool.or_eq_false_iff, decide_eq_false_iff_not] at hb
  unfold foldPt
  by_cases c1 : i < 0
  · rw [if_pos (by omega)]
    by_cases ht : t % 2 = 0
    · rw [if_pos ht, cs_w0 c1 ht]; exact tup4 (by dsimp only) (by dsimp only <;> omega) (by dsimp only <;> omega) (by dsimp only)
    · rw [if_neg ht, cs_w1 c1 ht]; exact tup4 (by dsimp only) (by dsimp only <;> omega) (by dsimp only <;> omega) (by dsimp only)
  rw [if_neg (by omega)]
  by_cases c2 : i ≥ n
  · rw [if_pos (by omega)]
    by_cases ht : t % 2 = 0
    · rw [if_pos ht, cs_e0 (by omega) c2 ht]; exact tup4 (by dsimp only) (by dsimp only <;> omega) (by dsimp only <;> omega) (by dsimp only)
    · rw [if_neg ht, cs_e1 (by omega) c2 ht]; exact tup4 (by dsimp only) (by dsimp only <;> omega) (by dsimp only <;> omega) (by dsimp only)
  rw [if_neg (by omega)]
  by_cases c3 : j < 0
  · rw [if_pos (by omega)]
    by_cases ht : t % 2 = 0
    · rw [if_pos ht, cs_s0 (by omega) (by omega) c3 ht]; exact tup4 (by dsimp only) (by dsimp only <;> omega) (by dsimp only <;> omega) (by dsimp only)
    · rw [if_neg ht, cs_s1 (by omega) (by omega) c3 ht]; exact tup4 (by dsimp only) (by dsimp only <;> omega) (by dsimp only <;> omega) (by dsimp only)
  rw [if_neg (by omega)]
  by_cases c4 : j ≥ n
  · rw [if_pos (by omega)]
    by_cases ht : t % 2 = 0
    · rw [if_pos ht, cs_n0 (by omega) (by omega) c4 ht]; exact tup4 (by dsimp only) (by dsimp only <;> omega) (by dsimp only <;> omega) (by dsimp only)
    · rw [if_neg ht, cs_n1 (by omega) (by omega) c4 ht]; exact tup4 (by dsimp only) (by dsimp only <;> omega) (by dsimp only <;> omega) (by dsimp only)
  rw [if_neg (by omega), cs_in (by omega) (by omega) (by omega) (by omega)]

end FV3

namespace FV3

/-- A face-interior position determines tile and coordinates. -/
theorem pos_inj {N t a b t' a' b' : Int} (ht : 0 ≤ t ∧ t < 6) (ht' : 0 ≤ t' ∧ t' < 6)
    (ha : 0 < a ∧ a < 2 * N) (hb : 0 < b ∧ b < 2 * N)
    (ha' : 0 < a' ∧ a' < 2 * N) (hb' : 0 < b' ∧ b' < 2 * N)
    (h : pos N t a b = pos N t' a' b') : t = t' ∧ a = a' ∧ b = b' := by
  have c : t = 0 ∨ t = 1 ∨ t = 2 ∨ t = 3 ∨ t = 4 ∨ t = 5 := by omega
  have c' : t' = 0 ∨ t' = 1 ∨ t' = 2 ∨ t' = 3 ∨ t' = 4 ∨ t' = 5 := by omega
  rcases c with rfl | rfl | rfl | rfl | rfl | rfl <;>
  rcases c' with rfl | rfl | rfl | rfl | rfl | rfl <;>
  · simp only [pos, face0, face1, face2, face3, face4, face5, Vec3.add, Vec3.smul,
      Vec3.mk.injEq] at h
    omega

/-- Same subtile, with tile numbers compared modulo 6. -/
def SameSubtile (s s' : Int × Int × Int × Int) : Prop :=
  s.1 % 6 = s'.1 % 6 ∧ s.2.1 = s'.2.1 ∧ s.2.2.1 = s'.2.2.1

/-- Steps in different directions lead to different subtiles. -/
theorem cubeStep_inj {n t j i j' i' : Int}
    (h1 : -1 ≤ i ∧ i ≤ n) (h2 : -1 ≤ j ∧ j ≤ n) (h1' : -1 ≤ i' ∧ i' ≤ n) (h2' : -1 ≤ j' ∧ j' ≤ n)
    (hb : leavesBoth n j i = false) (hb' : leavesBoth n j' i' = false)
    (h : SameSubtile (cubeStep n t j i) (cubeStep n t j' i')) : j = j' ∧ i = i' := by
  simp only [leavesBoth, Bool.and_eq_false_iff, Bool.or_eq_false_iff,
    decide_eq_false_iff_not] at hb hb'
  unfold SameSubtile cubeStep at h
  split_ifs at h <;> dsimp only at h <;> omega

/-- Going back. -/
theorem cubeStep_back {n t j i dx dy : Int} (hn : 0 < n)
    (hi : 0 ≤ i ∧ i < n) (hj : 0 ≤ j ∧ j < n) (hdx : -1 ≤ dx ∧ dx ≤ 1) (hdy : -1 ≤ dy ∧ dy ≤ 1)
    (hb : leavesBoth n (j + dy) (i + dx) = false)
    (s : Int × Int × Int × Int) (hs : s = cubeStep n t (j + dy) (i + dx)) :
    (s.2.2.2 = 0 ∧ leavesBoth n (s.2.1 - dy) (s.2.2.1 - dx) = false ∧
      SameSubtile (cubeStep n s.1 (s.2.1 - dy) (s.2.2.1 - dx)) (t, j, i, 0) ∧
      (cubeStep n s.1 (s.2.1 - dy) (s.2.2.1 - dx)).2.2.2 = 0) ∨
    (s.2.2.2 = 1 ∧ leavesBoth n (s.2.1 - dx) (s.2.2.1 + dy) = false ∧
      SameSubtile (cubeStep n s.1 (s.2.1 - dx) (s.2.2.1 + dy)) (t, j, i, 0) ∧
      (cubeStep n s.1 (s.2.1 - dx) (s.2.2.1 + dy)).2.2.2 = 3) ∨
    (s.2.2.2 = 3 ∧ leavesBoth n (s.2.1 + dx) (s.2.2.1 - dy) = false ∧
      SameSubtile (cubeStep n s.1 (s.2.1 + dx) (s.2.2.1 - dy)) (t, j, i, 0) ∧
      (cubeStep n s.1 (s.2.1 + dx) (s.2.2.1 - dy)).2.2.2 = 1) := by
  simp only [leavesBoth, Bool.and_eq_false_iff, Bool.or_eq_false_iff,
    decide_eq_false_iff_not] at hb ⊢
  by_cases c1 : i + dx < 0
  · by_cases ht : t % 2 = 0
    · rw [cs_w0 c1 ht] at hs; subst hs
      right; left; dsimp only
      rw [cs_n0 (by omega) (by omega) (by omega) (by omega)]
      refine ⟨rfl, ?_, ⟨?_, ?_, ?_⟩, rfl⟩ <;> (try dsimp only) <;> omega
    · rw [cs_w1 c1 ht] at hs; subst hs
      left; dsimp only
      rw [cs_e0 (by omega) (by omega) (by omega)]
      refine ⟨rfl, ?_, ⟨?_, ?_, ?_⟩, rfl⟩ <;> (try dsimp only) <;> omega
  by_cases c2 : i + dx ≥ n
  · by_cases ht : t % 2 = 0
    · rw [cs_e0 (by omega) c2 ht] at hs; subst hs
      left; dsimp only
      rw [cs_w1 (by omega) (by omega)]
      refine ⟨rfl, ?_, ⟨?_, ?_, ?_⟩, rfl⟩ <;> (try dsimp only) <;> omega
    · rw [cs_e1 (by omega) c2 ht] at hs; subst hs
      right; left; dsimp only
      rw [cs_s1 (by omega) (by omega) (by omega) (by omega)]
      refine ⟨rfl, ?_, ⟨?_, ?_, ?_⟩, rfl⟩ <;> (try dsimp only) <;> omega
  by_cases c3 : j + dy < 0
  · by_cases ht : t % 2 = 0
    · rw [cs_s0 (by omega) (by omega) c3 ht] at hs; subst hs
      left; dsimp only
      rw [cs_n1 (by omega) (by omega) (by omega) (by omega)]
      refine ⟨rfl, ?_, ⟨?_, ?_, ?_⟩, rfl⟩ <;> (try dsimp only) <;> omega
    · rw [cs_s1 (by omega) (by omega) c3 ht] at hs; subst hs
      right; right; dsimp only
      rw [cs_e1 (by omega) (by omega) (by omega)]
      refine ⟨rfl, ?_, ⟨?_, ?_, ?_⟩, rfl⟩ <;> (try dsimp only) <;> omega
  by_cases c4 : j + dy ≥ n
  · by_cases ht : t % 2 = 0
    · rw [cs_n0 (by omega) (by omega) c4 ht] at hs; subst hs
      right; right; dsimp only
      rw [cs_w0 (by omega) (by omega)]
      refine ⟨rfl, ?_, ⟨?_, ?_, ?_⟩, rfl⟩ <;> (try dsimp only) <;> omega
    · rw [cs_n1 (by omega) (by omega) c4 ht] at hs; subst hs
      left; dsimp only
      rw [cs_s0 (by omega) (by omega) (by omega) (by omega)]
      refine ⟨rfl, ?_, ⟨?_, ?_, ?_⟩, rfl⟩ <;> (try dsimp only) <;> omega
  rw [cs_in (by omega) (by omega) (by omega) (by omega)] at hs; subst hs
  left; dsimp only
  rw [cs_in (by omega) (by omega) (by omega) (by omega)]
  refine ⟨rfl, ?_, ⟨?_, ?_, ?_⟩, rfl⟩ <;> (try dsimp only) <;> omega

end FV3
