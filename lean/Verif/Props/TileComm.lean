import Verif.Spec.TileComm
import Verif.Proofs.CollWithin

/-!
# C51: the tile communicators
-/

namespace FV3
variable {α A : Type}

/-- **C51**: the tile communicator of rank `r` of the cube consists of the ranks of its tile, in order;
its rank there is its rank counted from the root rank of the tile, its place in the layout is the same. -/
theorem C51_tile_communicator (l : Layout) (hy : 0 < l.y) (hx : 0 < l.x) (r : Int) (h0 : 0 ≤ r) (h6 : r < l.cubeRanks) :
    tileCommSize l r = l.tileRanks ∧
    (0 ≤ tileCommRank l r ∧ tileCommRank l r < l.tileRanks) ∧
    tileRootRank l r + tileCommRank l r = r ∧
    subtileIndex l (tileCommRank l r) = subtileIndex l r ∧
    (tileCommRank l r = ROOT_RANK ↔ tileRootRank l r = r) ∧
    (∀ i, 0 ≤ i → i < l.tileRanks → tileMember l r i = tileRootRank l r + i ∧
      tileIndex l (tileMember l r i) = tileIndex l r ∧ tileCommRank l (tileMember l r i) = i) := by
  have hn := tileRanks_pos hy hx
  have hc : l.cubeRanks = 6 * l.tileRanks := rfl
  have hm := Int.emod_add_mul_ediv r l.tileRanks
  have hm0 := Int.emod_nonneg r (show l.tileRanks ≠ 0 by omega)
  have hm1 := Int.emod_lt_of_pos r hn
  have hroot : tileRootRank l r = l.tileRanks * (r / l.tileRanks) := by
    unfold tileRootRank; rw [pydiv_pos _ hn]
  rw [tileCommSize_eq hy hx h0 h6, tileCommRank_eq hy hx h0 h6, hroot]
  refine ⟨rfl, ⟨hm0, hm1⟩, by omega, ?_, ?_, ?_⟩
  · unfold subtileIndex
    rw [pymod_pos _ hn, pymod_pos _ hn, Int.emod_emod_of_dvd _ (Int.dvd_refl _)]
  · unfold ROOT_RANK
    omega
  · intro i hi0 hi1
    obtain ⟨t0, t6⟩ := div_range hn h0 (by omega : r < 6 * l.tileRanks)
    rw [tileMember_eq hy hx h0 h6 hi0 hi1]
    obtain ⟨a1, a2⟩ := group_div (g := r / l.tileRanks) hn hi0 hi1
    refine ⟨by rw [Int.mul_comm], ?_, ?_⟩
    · rw [tileIndex_eq hy hx, tileIndex_eq hy hx]
      congr 1
    · have hr0 : 0 ≤ r / l.tileRanks * l.tileRanks + i := by
        have : 0 ≤ r / l.tileRanks * l.tileRanks := Int.mul_nonneg (by omega) (by omega)
        omega
      have hr6 : r / l.tileRanks * l.tileRanks + i < l.cubeRanks := by
        have h5 : r / l.tileRanks ≤ 5 := by omega
        have := Int.mul_le_mul_of_nonneg_right h5 (show 0 ≤ l.tileRanks by omega)
        omega
      rw [tileCommRank_eq hy hx hr0 hr6, a2]

/-- **C51**: programs on the tile communicators do not influence each other: if on each tile, taken
alone, all ranks return, whatever the schedule, then so do all ranks of the cube together. -/
theorem C51_tiles_independent (buf : Buffering) (l : Layout) (hy : 0 < l.y) (hx : 0 < l.x)
    (prog : Int → Int → CollM α A) (hw : ∀ r i, (prog r i).Within l.tileRanks) (out : Int → Py A)
    (h : ∀ t, 0 ≤ t → t < 6 → (Comm.tile l).Returns
      (fun s d tag i => buf (t * l.tileRanks + s) (t * l.tileRanks + d) tag i)
      (fun i => prog (t * l.tileRanks + i) i) (fun i => out (t * l.tileRanks + i))) :
    TilesReturn buf l prog out := by
  have hn := tileRanks_pos hy hx
  have hc : l.cubeRanks = 6 * l.tileRanks := rfl
  have hmem : ∀ i, i ∈ (Comm.tile l).ranks ↔ 0 ≤ i ∧ i < l.tileRanks := fun i => mem_ranks (Comm.tile l) i
  let G : Int → Net (Msg α) (Option (Py A)) := fun g =>
    if 0 ≤ g ∧ g < 6 then (Comm.tile l).net fun i => prog (g * l.tileRanks + i) i
    else Net.start fun _ => .ret none
  let res : Int → Int → Option (Py A) := fun g i =>
    if (0 ≤ g ∧ g < 6) ∧ 0 ≤ i ∧ i < l.tileRanks then some (out (g * l.tileRanks + i)) else none
  have key := groups_complete hn buf [0, 1, 2, 3, 4, 5] (by decide) G res
    (by
      intro g hg i
      simp only [G]
      split
      · unfold Comm.net Net.start
        dsimp only
        split
        · exact Proc.Within.bind (hw _ _ 0) fun _ => trivial
        · trivial
      · trivial)
    (by
      intro g hg i hi
      simp only [G]
      split
      · unfold Comm.net Net.start
        dsimp only
        rw [if_neg fun hh => hi ((hmem i).1 hh)]
        exact ⟨_, rfl⟩
      · exact ⟨_, rfl⟩)
    (by
      intro g hg
      have hg6 : 0 ≤ g ∧ g < 6 := by
        simp only [List.mem_cons, List.not_mem_nil, or_false] at hg
        omega
      have := h g hg6.1 hg6.2
      unfold Comm.Returns at this
      simp only [G, if_pos hg6]
      have e : res g = fun i => if i ∈ (Comm.tile l).ranks then some (out (g * l.tileRanks + i)) else none := by
        funext i
        simp only [res]
        by_cases hi : 0 ≤ i ∧ i < l.tileRanks
        · rw [if_pos ((hmem i).2 hi), if_pos ⟨hg6, hi⟩]
        · rw [if_neg fun hh => hi ((hmem i).1 hh), if_neg fun hh => hi hh.2]
      rw [e]
      exact this)
    (by
      intro g hg i
      have hg6 : ¬ (0 ≤ g ∧ g < 6) := by
        intro hh
        apply hg
        simp only [List.mem_cons, List.not_mem_nil, or_false]
        omega
      simp only [G, res, if_neg hg6]
      rw [if_neg fun hh => hg6 hh.1]
      rfl)
  have hdom : ∀ r, (0 ≤ r ∧ r < l.cubeRanks) ↔ (0 ≤ r / l.tileRanks ∧ r / l.tileRanks < 6) := by
    intro r
    constructor
    · rintro ⟨a, b⟩; exact div_range hn a (by omega)
    · rintro ⟨a, b⟩
      have hm := Int.emod_add_mul_ediv r l.tileRanks
      have hm0 := Int.emod_nonneg r (show l.tileRanks ≠ 0 by omega)
      have hm1 := Int.emod_lt_of_pos r hn
      have h5 : r / l.tileRanks ≤ 5 := by omega
      have h1 := Int.mul_le_mul_of_nonneg_left h5 (show 0 ≤ l.tileRanks by omega)
      have h2 := Int.mul_nonneg (show 0 ≤ l.tileRanks by omega) a
      omega
  have eback : ∀ r, r / l.tileRanks * l.tileRanks + r % l.tileRanks = r := by
    intro r
    have hm := Int.emod_add_mul_ediv r l.tileRanks
    rw [Int.mul_comm]; omega
  have hrg : ∀ r, 0 ≤ r % l.tileRanks ∧ r % l.tileRanks < l.tileRanks :=
    fun r => ⟨Int.emod_nonneg r (by omega), Int.emod_lt_of_pos r hn⟩
  have eres : (fun r => res (r / l.tileRanks) (r % l.tileRanks))
      = fun r => if 0 ≤ r ∧ r < l.cubeRanks then some (out r) else none := by
    funext r
    simp only [res]
    rw [eback]
    by_cases hr : 0 ≤ r ∧ r < l.cubeRanks
    · rw [if_pos hr, if_pos ⟨(hdom r).1 hr, hrg r⟩]
    · rw [if_neg hr, if_neg fun hh => hr ((hdom r).2 hh.1)]
  have enet : groups l.tileRanks G = tilesNet l prog := by
    unfold groups tilesNet Net.start
    congr 1
    · funext r
      by_cases hr : 0 ≤ r ∧ r < l.cubeRanks
      · rw [if_pos hr]
        simp only [G]
        rw [if_pos ((hdom r).1 hr)]
        unfold Comm.net Net.start
        dsimp only
        rw [if_pos ((hmem _).2 (hrg r)), Proc.renumber_bind]
        unfold onTile
        rw [tileCommRank_eq hy hx hr.1 hr.2, eback]
        rw [Proc.renumber_congr (g := fun i => r / l.tileRanks * l.tileRanks + i) (h := tileMember l r)
          (P := fun d => 0 ≤ d ∧ d < l.tileRanks)
          (fun i hi => (tileMember_eq hy hx hr.1 hr.2 hi.1 hi.2).symm) _ (hw _ _ 0)]
        rfl
      · rw [if_neg hr]
        simp only [G]
        rw [if_neg fun hh => hr ((hdom r).2 hh)]
        rfl
    · funext s d t
      simp only [G]
      split <;> (try split) <;> rfl
    · funext s d t
      simp only [G]
      split <;> (try split) <;> rfl
  unfold TilesReturn
  rw [← enet, ← eres]
  exact key

/-- A concrete case: rank 9 of a cube with tiles of 1 x 2 ranks is rank 1 of tile 4. -/
example : tileCommRank ⟨1, 2⟩ 9 = 1 ∧ tileCommSize ⟨1, 2⟩ 9 = 2 ∧ tileMember ⟨1, 2⟩ 9 0 = 8 := by decide +kernel

end FV3
