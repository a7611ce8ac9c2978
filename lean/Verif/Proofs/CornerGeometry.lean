import Verif.Spec.Corners
import Verif.Proofs.CubeGeometry

namespace FV3

theorem six {t : Int} (h : 0 ≤ t ∧ t < 6) : t = 0 ∨ t = 1 ∨ t = 2 ∨ t = 3 ∨ t = 4 ∨ t = 5 := by omega

macro "cube_cases" : tactic => `(tactic| (
  simp only [foldOn, foldPos, pos, face0, face1, face2, face3, face4, face5, Vec3.add, Vec3.smul, Vec3.dot]
  repeat' split
  all_goals first
    | (exfalso; omega)
    | (simp only [Vec3.mk.injEq]; exact ⟨by omega, by omega, by omega⟩)))

/-- As long as no corner is crossed, the continued line is in the halo: `ContinuedX` agrees with
`foldPos`. -/
theorem continuedX_halo {N t a b : Int} (ht : 0 ≤ t ∧ t < 6) (ha : 0 ≤ a ∧ a ≤ 2 * N)
    (hb : -2 * N ≤ b ∧ b ≤ 4 * N) {P : Vec3} (h : ContinuedX N t a b P) :
    P = foldPos N t a b := by
  obtain ⟨t', h1, h2, h⟩ := h
  have c2 := six ⟨h1, h2⟩
  rcases h with ⟨hb2, hf, rfl⟩ | ⟨hb2, hf, rfl⟩ <;>
  rcases six ht with rfl | rfl | rfl | rfl | rfl | rfl <;>
  rcases c2 with rfl | rfl | rfl | rfl | rfl | rfl <;>
  first
  | (exfalso; revert hf; decide)
  | cube_cases

theorem continuedY_halo {N t a b : Int} (ht : 0 ≤ t ∧ t < 6) (hb : 0 ≤ b ∧ b ≤ 2 * N)
    (ha : -2 * N ≤ a ∧ a ≤ 4 * N) {P : Vec3} (h : ContinuedY N t a b P) :
    P = foldPos N t a b := by
  obtain ⟨t', h1, h2, h⟩ := h
  have c2 := six ⟨h1, h2⟩
  rcases h with ⟨hb2, hf, rfl⟩ | ⟨hb2, hf, rfl⟩ <;>
  rcases six ht with rfl | rfl | rfl | rfl | rfl | rfl <;>
  rcases c2 with rfl | rfl | rfl | rfl | rfl | rfl <;>
  first
  | (exfalso; revert hf; decide)
  | cube_cases

/-- The face beyond an edge. -/
theorem exists_face_south {t : Int} (ht : 0 ≤ t ∧ t < 6) :
    ∃ t', 0 ≤ t' ∧ t' < 6 ∧ (face t').n = (face t).ey.neg := by
  rcases six ht with rfl | rfl | rfl | rfl | rfl | rfl
  exacts [⟨5, by decide⟩, ⟨5, by decide⟩, ⟨1, by decide⟩, ⟨1, by decide⟩, ⟨3, by decide⟩, ⟨3, by decide⟩]

theorem exists_face_north {t : Int} (ht : 0 ≤ t ∧ t < 6) :
    ∃ t', 0 ≤ t' ∧ t' < 6 ∧ (face t').n = (face t).ey := by
  rcases six ht with rfl | rfl | rfl | rfl | rfl | rfl
  exacts [⟨2, by decide⟩, ⟨2, by decide⟩, ⟨4, by decide⟩, ⟨4, by decide⟩, ⟨0, by decide⟩, ⟨0, by decide⟩]

theorem exists_face_west {t : Int} (ht : 0 ≤ t ∧ t < 6) :
    ∃ t', 0 ≤ t' ∧ t' < 6 ∧ (face t').n = (face t).ex.neg := by
  rcases six ht with rfl | rfl | rfl | rfl | rfl | rfl
  exacts [⟨4, by decide⟩, ⟨0, by decide⟩, ⟨0, by decide⟩, ⟨2, by decide⟩, ⟨2, by decide⟩, ⟨4, by decide⟩]

theorem exists_face_east {t : Int} (ht : 0 ≤ t ∧ t < 6) :
    ∃ t', 0 ≤ t' ∧ t' < 6 ∧ (face t').n = (face t).ex := by
  rcases six ht with rfl | rfl | rfl | rfl | rfl | rfl
  exacts [⟨1, by decide⟩, ⟨3, by decide⟩, ⟨3, by decide⟩, ⟨5, by decide⟩, ⟨5, by decide⟩, ⟨1, by decide⟩]

/-- Mirror of a doubled coordinate: `c` beyond an edge is moved to the same distance inside it. -/
def inside (N c : Int) : Int := if c < 0 then -c else 4 * N - c

/-- The coordinate as far beyond the edge on the side of `c` as `c'` is beyond its edge. -/
def beyondAs (N c c' : Int) : Int :=
  if c < 0 then (if c' < 0 then c' else 2 * N - c')
  else (if c' < 0 then 2 * N - c' else c')

/-- The coordinate as far inside the edge on the side of `c` as `c'` is beyond its edge. -/
def insideAs (N c c' : Int) : Int :=
  if c < 0 then (if c' < 0 then -c' else c' - 2 * N)
  else (if c' < 0 then 2 * N + c' else 4 * N - c')

set_option maxHeartbeats 2000000 in
theorem continuedX_src {N t a b : Int} (ht : 0 ≤ t ∧ t < 6) (ha : a < 0 ∨ a > 2 * N)
    (hb : b < 0 ∨ b > 2 * N) (ha' : -2 * N ≤ a ∧ a ≤ 4 * N) (hb' : -2 * N ≤ b ∧ b ≤ 4 * N) :
    ContinuedX N t a b (foldPos N t (beyondAs N a b) (insideAs N b a)) := by
  rcases hb with hb | hb
  · obtain ⟨t', h1, h2, h3⟩ := exists_face_south ht
    refine ⟨t', h1, h2, Or.inl ⟨hb, h3, ?_⟩⟩
    unfold beyondAs insideAs
    have c2 := six ⟨h1, h2⟩
    rcases six ht with rfl | rfl | rfl | rfl | rfl | rfl <;>
    rcases c2 with rfl | rfl | rfl | rfl | rfl | rfl <;>
    first
    | (exfalso; revert h3; decide)
    | (rcases ha with ha | ha
       · rw [if_pos ha, if_pos hb, if_pos hb, if_pos ha]; cube_cases
       · rw [if_neg (by omega), if_pos hb, if_pos hb, if_neg (by omega)]; cube_cases)
  · obtain ⟨t', h1, h2, h3⟩ := exists_face_north ht
    refine ⟨t', h1, h2, Or.inr ⟨hb, h3, ?_⟩⟩
    unfold beyondAs insideAs
    have c2 := six ⟨h1, h2⟩
    rcases six ht with rfl | rfl | rfl | rfl | rfl | rfl <;>
    rcases c2 with rfl | rfl | rfl | rfl | rfl | rfl <;>
    first
    | (exfalso; revert h3; decide)
    | (rcases ha with ha | ha
       · rw [if_pos ha, if_neg (by omega), if_neg (by omega), if_pos ha]; cube_cases
       · rw [if_neg (by omega), if_neg (by omega), if_neg (by omega), if_neg (by omega)]; cube_cases)

set_option maxHeartbeats 2000000 in
theorem continuedY_src {N t a b : Int} (ht : 0 ≤ t ∧ t < 6) (ha : a < 0 ∨ a > 2 * N)
    (hb : b < 0 ∨ b > 2 * N) (ha' : -2 * N ≤ a ∧ a ≤ 4 * N) (hb' : -2 * N ≤ b ∧ b ≤ 4 * N) :
    ContinuedY N t a b (foldPos N t (insideAs N a b) (beyondAs N b a)) := by
  rcases ha with ha | ha
  · obtain ⟨t', h1, h2, h3⟩ := exists_face_west ht
    refine ⟨t', h1, h2, Or.inl ⟨ha, h3, ?_⟩⟩
    unfold beyondAs insideAs
    have c2 := six ⟨h1, h2⟩
    rcases six ht with rfl | rfl | rfl | rfl | rfl | rfl <;>
    rcases c2 with rfl | rfl | rfl | rfl | rfl | rfl <;>
    first
    | (exfalso; revert h3; decide)
    | (rcases hb with hb | hb
       · rw [if_pos ha, if_pos hb, if_pos hb, if_pos ha]; cube_cases
       · rw [if_pos ha, if_neg (by omega), if_neg (by omega), if_pos ha]; cube_cases)
  · obtain ⟨t', h1, h2, h3⟩ := exists_face_east ht
    refine ⟨t', h1, h2, Or.inr ⟨ha, h3, ?_⟩⟩
    unfold beyondAs insideAs
    have c2 := six ⟨h1, h2⟩
    rcases six ht with rfl | rfl | rfl | rfl | rfl | rfl <;>
    rcases c2 with rfl | rfl | rfl | rfl | rfl | rfl <;>
    first
    | (exfalso; revert h3; decide)
    | (rcases hb with hb | hb
       · rw [if_neg (by omega), if_pos hb, if_pos hb, if_neg (by omega)]; cube_cases
       · rw [if_neg (by omega), if_neg (by omega), if_neg (by omega), if_neg (by omega)]; cube_cases)

end FV3
