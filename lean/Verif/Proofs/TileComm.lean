import Verif.Model.TileComm
import Verif.Proofs.Partition
import Verif.Proofs.Coll

/-!
# The tile communicators, and networks made of groups that do not talk to each other
-/

namespace FV3
variable {α A B : Type} {M R : Type}

/-! ### Split -/

theorem filter_range_between (m a b : Nat) (hab : a ≤ b) (hb : b ≤ m) :
    (List.range m).filter (fun i => decide (a ≤ i ∧ i < b)) = (List.range (b - a)).map (a + ·) := by
  obtain ⟨c, rfl⟩ := Nat.exists_eq_add_of_le hab
  obtain ⟨d, rfl⟩ := Nat.exists_eq_add_of_le hb
  rw [List.range_add, List.range_add, List.filter_append, List.filter_append]
  have e1 : (List.range a).filter (fun i => decide (a ≤ i ∧ i < a + c)) = [] := by
    rw [List.filter_eq_nil_iff]
    intro i hi
    rw [List.mem_range] at hi
    simp; omega
  have e2 : ((List.range c).map (a + ·)).filter (fun i => decide (a ≤ i ∧ i < a + c)) = (List.range c).map (a + ·) := by
    rw [List.filter_eq_self]
    intro i hi
    obtain ⟨j, hj, rfl⟩ := List.mem_map.1 hi
    rw [List.mem_range] at hj
    simp; omega
  have e3 : ((List.range d).map (a + c + ·)).filter (fun i => decide (a ≤ i ∧ i < a + c)) = [] := by
    rw [List.filter_eq_nil_iff]
    intro i hi
    obtain ⟨j, hj, rfl⟩ := List.mem_map.1 hi
    simp
  rw [e1, e2, e3, Nat.add_sub_cancel_left]
  simp

theorem tileColor_eq {l : Layout} (hy : 0 < l.y) (hx : 0 < l.x) (r : Int) : tileColor l r = r / l.tileRanks := by
  unfold tileColor
  rw [tileIndex_eq hy hx]; rfl

theorem tileRanks_pos {l : Layout} (hy : 0 < l.y) (hx : 0 < l.x) : 0 < l.tileRanks := Int.mul_pos hy hx

theorem div_range {n r : Int} (hn : 0 < n) (h0 : 0 ≤ r) (h6 : r < 6 * n) : 0 ≤ r / n ∧ r / n < 6 := by
  constructor
  · exact Int.ediv_nonneg h0 (by omega)
  · exact Int.ediv_lt_of_lt_mul hn h6

theorem splitMembers_tile {l : Layout} (hy : 0 < l.y) (hx : 0 < l.x) {r : Int} (h0 : 0 ≤ r) (h6 : r < l.cubeRanks) :
    splitMembers l.cubeRanks (tileColor l) r =
      (List.range l.tileRanks.toNat).map fun i : Nat => r / l.tileRanks * l.tileRanks + (i : Int) := by
  have hn := tileRanks_pos hy hx
  generalize hnn : l.tileRanks = n at *
  unfold Layout.cubeRanks at *
  rw [hnn] at h6 ⊢
  obtain ⟨t0, t6⟩ := div_range hn h0 h6
  obtain ⟨t, ht⟩ := Int.eq_ofNat_of_zero_le t0
  obtain ⟨k, hk⟩ := Int.eq_ofNat_of_zero_le (Int.le_of_lt hn)
  unfold splitMembers
  rw [List.filter_map]
  have e1 : ((fun r' => decide (tileColor l r' = tileColor l r)) ∘ Int.ofNat)
      = fun i : Nat => decide (t * k ≤ i ∧ i < t * k + k) := by
    funext i
    simp only [Function.comp]
    rw [tileColor_eq hy hx, tileColor_eq hy hx, hnn, ht]
    congr 1
    apply propext
    have : (Int.ofNat i) / n = ((i / k : Nat) : Int) := by rw [hk]; rfl
    rw [this]
    have hkp : 0 < k := by omega
    constructor
    · intro h
      have h : i / k = t := by exact_mod_cast h
      subst h
      have h1 := Nat.div_mul_le_self i k
      have h2 := Nat.lt_div_mul_add (a := i) hkp
      exact ⟨h1, h2⟩
    · rintro ⟨h1, h2⟩
      have : i / k = t := by
        rw [Nat.div_eq_iff hkp]
        constructor <;> omega
      rw [this]
  have hle : t * k + k ≤ 6 * k := by
    have : t + 1 ≤ 6 := by omega
    have := Nat.mul_le_mul_right k this
    rw [Nat.add_mul] at this
    omega
  have e6 : (6 * n).toNat = 6 * k := by omega
  have en : n.toNat = k := by omega
  rw [e1, e6, filter_range_between _ _ _ (by omega) hle, en, Nat.add_sub_cancel_left, List.map_map]
  apply List.map_congr_left
  intro i _
  simp only [Function.comp]
  rw [ht, hk]
  show ((t * k + i : Nat) : Int) = _
  push_cast; ring

theorem mem_splitMembers {l : Layout} (hy : 0 < l.y) (hx : 0 < l.x) {r : Int} (h0 : 0 ≤ r) (h6 : r < l.cubeRanks)
    (r' : Int) : r' ∈ splitMembers l.cubeRanks (tileColor l) r ↔ r' / l.tileRanks = r / l.tileRanks := by
  have hn := tileRanks_pos hy hx
  rw [splitMembers_tile hy hx h0 h6]
  generalize l.tileRanks = n at *
  simp only [List.mem_map, List.mem_range]
  have hm := Int.emod_add_mul_ediv r' n
  have hm0 := Int.emod_nonneg r' (show n ≠ 0 by omega)
  have hm1 := Int.emod_lt_of_pos r' hn
  constructor
  · rintro ⟨i, hi, rfl⟩
    rw [Int.add_comm, Int.add_mul_ediv_right _ _ (by omega), Int.ediv_eq_zero_of_lt (by omega) (by omega)]
    omega
  · intro h
    refine ⟨(r' % n).toNat, by omega, ?_⟩
    rw [← h, Int.mul_comm]
    omega

theorem tileCommSize_eq {l : Layout} (hy : 0 < l.y) (hx : 0 < l.x) {r : Int} (h0 : 0 ≤ r) (h6 : r < l.cubeRanks) :
    tileCommSize l r = l.tileRanks := by
  have hn := tileRanks_pos hy hx
  unfold tileCommSize
  rw [splitMembers_tile hy hx h0 h6, List.length_map, List.length_range]
  omega

theorem tileCommRank_eq {l : Layout} (hy : 0 < l.y) (hx : 0 < l.x) {r : Int} (h0 : 0 ≤ r) (h6 : r < l.cubeRanks) :
    tileCommRank l r = r % l.tileRanks := by
  have hn := tileRanks_pos hy hx
  unfold tileCommRank splitRank
  rw [splitMembers_tile hy hx h0 h6, List.filter_map, List.length_map]
  generalize l.tileRanks = n at *
  have hm := Int.emod_add_mul_ediv r n
  have hm0 := Int.emod_nonneg r (show n ≠ 0 by omega)
  have hm1 := Int.emod_lt_of_pos r hn
  rw [Int.mul_comm n] at hm
  have e : (List.range n.toNat).filter ((fun r' => decide (r' < r ∨ r' = r ∧ r' < r)) ∘ fun i : Nat => r / n * n + (i : Int))
      = (List.range n.toNat).filter (fun i => decide (0 ≤ i ∧ i < (r % n).toNat)) := by
    apply List.filter_congr
    intro i _
    simp only [Function.comp]
    congr 1
    apply propext
    constructor
    · intro h; omega
    · intro h; omega
  rw [e, filter_range_between _ _ _ (by omega) (by omega), List.length_map, List.length_range]
  omega

theorem tileMember_eq {l : Layout} (hy : 0 < l.y) (hx : 0 < l.x) {r : Int} (h0 : 0 ≤ r) (h6 : r < l.cubeRanks)
    {i : Int} (hi0 : 0 ≤ i) (hi : i < l.tileRanks) : tileMember l r i = r / l.tileRanks * l.tileRanks + i := by
  have hn := tileRanks_pos hy hx
  have hc : l.cubeRanks = 6 * l.tileRanks := rfl
  unfold tileMember
  have key : ∀ r', r' ∈ splitMembers l.cubeRanks (tileColor l) r →
      (tileCommRank l r' = i ↔ r' = r / l.tileRanks * l.tileRanks + i) := by
    intro r' hr'
    have hd := (mem_splitMembers hy hx h0 h6 r').1 hr'
    obtain ⟨t0, t6⟩ := div_range hn h0 (by omega : r < 6 * l.tileRanks)
    have hm := Int.emod_add_mul_ediv r' l.tileRanks
    have hm0 := Int.emod_nonneg r' (show l.tileRanks ≠ 0 by omega)
    have hm1 := Int.emod_lt_of_pos r' hn
    have hr0 : 0 ≤ r' := by
      have : 0 ≤ l.tileRanks * (r' / l.tileRanks) := Int.mul_nonneg (by omega) (by omega)
      omega
    have hr6 : r' < l.cubeRanks := by
      have h5 : r' / l.tileRanks ≤ 5 := by omega
      have := Int.mul_le_mul_of_nonneg_left h5 (show 0 ≤ l.tileRanks by omega)
      omega
    rw [tileCommRank_eq hy hx hr0 hr6, ← hd, Int.mul_comm]
    omega
  have hmem : r / l.tileRanks * l.tileRanks + i ∈ splitMembers l.cubeRanks (tileColor l) r := by
    rw [splitMembers_tile hy hx h0 h6]
    exact List.mem_map.2 ⟨i.toNat, List.mem_range.2 (by omega), by omega⟩
  cases hf : (splitMembers l.cubeRanks (tileColor l) r).find? fun r' => decide (tileCommRank l r' = i) with
  | none =>
    rw [List.find?_eq_none] at hf
    exact absurd (decide_eq_true ((key _ hmem).2 rfl)) (hf _ hmem)
  | some x =>
    have h1 := List.mem_of_find?_eq_some hf
    have h2 := List.find?_some hf
    exact (key x h1).1 (of_decide_eq_true h2)

/-! ### Programs that only talk to certain ranks -/

/-- All ranks the program sends to, receives from or waits for satisfy `P`. -/
def Proc.Within (P : Int → Prop) : Proc M R → Prop
  | .ret _ => True
  | .isend d _ _ k => P d ∧ ∀ i, (k i).Within P
  | .recv s _ k => P s ∧ ∀ m, (k m).Within P
  | .await d _ _ k => P d ∧ ∀ u, (k u).Within P

theorem Proc.Within.bind {S : Type} {P : Int → Prop} {p : Proc M R} {f : R → Proc M S} (hp : p.Within P)
    (hf : ∀ x, (f x).Within P) : (p.bind f).Within P := by
  induction p with
  | ret x => exact hf x
  | isend d t m k ih => exact ⟨hp.1, fun i => ih i (hp.2 i)⟩
  | recv s t k ih => exact ⟨hp.1, fun i => ih i (hp.2 i)⟩
  | await d t i k ih => exact ⟨hp.1, fun i => ih i (hp.2 i)⟩

theorem Proc.renumber_bind {S : Type} (g : Int → Int) (p : Proc M R) (f : R → Proc M S) :
    (p.bind f).renumber g = (p.renumber g).bind fun x => (f x).renumber g := by
  induction p with
  | ret x => rfl
  | isend d t m k ih => simp only [Proc.bind, Proc.renumber, ih]
  | recv s t k ih => simp only [Proc.bind, Proc.renumber, ih]
  | await d t i k ih => simp only [Proc.bind, Proc.renumber, ih]

theorem Proc.renumber_congr {g h : Int → Int} {P : Int → Prop} (e : ∀ i, P i → g i = h i) (p : Proc M R)
    (hp : p.Within P) : p.renumber g = p.renumber h := by
  induction p with
  | ret x => rfl
  | isend d t m k ih => simp only [Proc.renumber]; rw [e d hp.1]; congr 1; funext i; exact ih i (hp.2 i)
  | recv s t k ih => simp only [Proc.renumber]; rw [e s hp.1]; congr 1; funext i; exact ih i (hp.2 i)
  | await d t i k ih => simp only [Proc.renumber]; rw [e d hp.1]; congr 1; funext i; exact ih i (hp.2 i)

/-! ### Groups -/

/-- The network made of groups of `n` ranks: group `g` has the ranks `g * n`, ..., `g * n + n - 1`. -/
def groups (n : Int) (G : Int → Net M R) : Net M R where
  procs r := ((G (r / n)).procs (r % n)).renumber fun i => r / n * n + i
  sent s d t := if s / n = d / n then (G (s / n)).sent (s % n) (d % n) t else []
  rcvd s d t := if s / n = d / n then (G (s / n)).rcvd (s % n) (d % n) t else 0

/-- Which sends complete on their own, within group `g`. -/
def groupBuf (n : Int) (buf : Buffering) (g : Int) : Buffering := fun s d t i => buf (g * n + s) (g * n + d) t i

/-- The ranks of a group only talk to each other. -/
def Closed (n : Int) (N : Net M R) : Prop := ∀ i, (N.procs i).Within fun d => 0 ≤ d ∧ d < n

theorem group_div {n g i : Int} (hn : 0 < n) (h0 : 0 ≤ i) (h1 : i < n) : (g * n + i) / n = g ∧ (g * n + i) % n = i := by
  constructor
  · rw [Int.add_comm, Int.add_mul_ediv_right _ _ (by omega), Int.ediv_eq_zero_of_lt h0 h1]; omega
  · rw [Int.add_comm, Int.add_mul_emod_self_right, Int.emod_eq_of_lt h0 h1]

theorem group_eq {n r g i : Int} (hn : 0 < n) (h0 : 0 ≤ i) (h1 : i < n) : r = g * n + i ↔ r / n = g ∧ r % n = i := by
  constructor
  · rintro rfl; exact group_div hn h0 h1
  · rintro ⟨rfl, rfl⟩
    have := Int.emod_add_mul_ediv r n
    rw [Int.mul_comm] at this; omega

theorem Closed.step {n : Int} {buf : Buffering} {i : Int} {N N' : Net M R} (h : Closed n N)
    (hs : N.step buf i = some N') : Closed n N' := by
  intro j
  unfold Net.step at hs
  have hi := h i
  cases hp : N.procs i with
  | ret x => rw [hp] at hs; cases hs
  | isend d t m k =>
    rw [hp] at hs hi
    cases hs
    by_cases hj : j = i
    · subst hj; dsimp only; rw [updRank_same]; exact hi.2 _
    · dsimp only; rw [updRank_ne _ _ hj]; exact h j
  | recv s t k =>
    rw [hp] at hs hi
    dsimp only at hs
    split at hs
    · cases hs
    · cases hs
      by_cases hj : j = i
      · subst hj; dsimp only; rw [updRank_same]; exact hi.2 _
      · dsimp only; rw [updRank_ne _ _ hj]; exact h j
  | await d t k' k =>
    rw [hp] at hs hi
    dsimp only at hs
    split at hs
    · cases hs
      by_cases hj : j = i
      · subst hj; dsimp only; rw [updRank_same]; exact hi.2 _
      · dsimp only; rw [updRank_ne _ _ hj]; exact h j
    · cases hs

/-- The parts of a group network when one rank of group `g` moves. -/
theorem groups_procs {n : Int} (hn : 0 < n) (G : Int → Net M R) (g i : Int) (h0 : 0 ≤ i) (h1 : i < n)
    (N' : Net M R) (p : Proc M R) (hp : N'.procs = updRank (G g).procs i p) :
    (groups n (updRank G g N')).procs
      = updRank (groups n G).procs (g * n + i) (p.renumber fun j => g * n + j) := by
  funext r
  unfold groups
  dsimp only
  by_cases hr : r = g * n + i
  · obtain ⟨e1, e2⟩ := (group_eq hn h0 h1).1 hr
    rw [e1, e2, updRank_same, hp, updRank_same, hr, updRank_same]
  · rw [updRank_ne _ _ hr]
    by_cases hg : r / n = g
    · have hi : r % n ≠ i := fun e => hr ((group_eq hn h0 h1).2 ⟨hg, e⟩)
      rw [hg, updRank_same, hp, updRank_ne _ _ hi]
    · rw [updRank_ne _ _ hg]

theorem groups_chan {C : Type} {n : Int} (hn : 0 < n) (F : Int → Int → Int → Tag → C) (z : C) (g s d : Int) (t : Tag)
    (hs0 : 0 ≤ s) (hs1 : s < n) (hd0 : 0 ≤ d) (hd1 : d < n) (v : C) (F' : Int → Int → Int → Tag → C)
    (h1 : F' g = updCh (F g) s d t v) (h2 : ∀ g', g' ≠ g → F' g' = F g') :
    (fun s' d' t' => if s' / n = d' / n then F' (s' / n) (s' % n) (d' % n) t' else z)
      = updCh (fun s' d' t' => if s' / n = d' / n then F (s' / n) (s' % n) (d' % n) t' else z) (g * n + s) (g * n + d) t v := by
  funext s' d' t'
  obtain ⟨a1, a2⟩ := group_div (g := g) hn hs0 hs1
  obtain ⟨b1, b2⟩ := group_div (g := g) hn hd0 hd1
  by_cases h : s' = g * n + s ∧ d' = g * n + d ∧ t' = t
  · obtain ⟨rfl, rfl, rfl⟩ := h
    rw [updCh_same, a1, b1, a2, b2, if_pos rfl, h1, updCh_same]
  · rw [updCh_ne _ _ h]
    by_cases he : s' / n = d' / n
    · rw [if_pos he, if_pos he]
      by_cases hg : s' / n = g
      · rw [hg, h1, updCh_ne]
        rintro ⟨c1, c2, c3⟩
        exact h ⟨(group_eq hn hs0 hs1).2 ⟨hg, c1⟩, (group_eq hn hd0 hd1).2 ⟨he ▸ hg, c2⟩, c3⟩
      · rw [h2 _ hg]
    · rw [if_neg he, if_neg he]

theorem groups_step {n : Int} (hn : 0 < n) (buf : Buffering) (G : Int → Net M R) (g i : Int) (h0 : 0 ≤ i) (h1 : i < n)
    (hc : Closed n (G g)) (N' : Net M R) (hs : (G g).step (groupBuf n buf g) i = some N') :
    (groups n G).step buf (g * n + i) = some (groups n (updRank G g N')) := by
  obtain ⟨a1, a2⟩ := group_div (g := g) hn h0 h1
  have hw := hc i
  have hsame : (groups n G).procs (g * n + i) = ((G g).procs i).renumber fun j => g * n + j := by
    unfold groups; dsimp only; rw [a1, a2]
  unfold Net.step at hs ⊢
  rw [hsame]
  cases hp : (G g).procs i with
  | ret x => rw [hp] at hs; cases hs
  | isend d t m k =>
    rw [hp] at hs hw
    obtain ⟨⟨d0, d1⟩, -⟩ := hw
    cases hs
    obtain ⟨b1, b2⟩ := group_div (g := g) hn d0 d1
    have hch : (groups n G).sent (g * n + i) (g * n + d) t = (G g).sent i d t := by
      unfold groups; dsimp only; rw [a1, b1, a2, b2, if_pos rfl]
    simp only [Proc.renumber]
    rw [hch]
    congr 1
    have e1 := groups_procs hn G g i h0 h1 ⟨updRank (G g).procs i (k ((G g).sent i d t).length),
      updCh (G g).sent i d t ((G g).sent i d t ++ [m]), (G g).rcvd⟩ _ rfl
    have e2 := groups_chan hn (fun g => (G g).sent) [] g i d t h0 h1 d0 d1 ((G g).sent i d t ++ [m])
      (fun g' => (updRank G g ⟨updRank (G g).procs i (k ((G g).sent i d t).length),
        updCh (G g).sent i d t ((G g).sent i d t ++ [m]), (G g).rcvd⟩ g').sent)
      (by rw [updRank_same]) (by intro g' hg'; rw [updRank_ne _ _ hg'])
    have e3 : (groups n (updRank G g ⟨updRank (G g).procs i (k ((G g).sent i d t).length),
        updCh (G g).sent i d t ((G g).sent i d t ++ [m]), (G g).rcvd⟩)).rcvd = (groups n G).rcvd := by
      funext s' d' t'
      unfold groups
      dsimp only
      by_cases hg : s' / n = g
      · rw [hg, updRank_same]
      · rw [updRank_ne _ _ hg]
    rw [← e1]
    unfold groups at e2 e3 ⊢
    dsimp only at e2 e3 ⊢
    rw [e2, e3]
  | recv s t k =>
    rw [hp] at hs hw
    obtain ⟨⟨d0, d1⟩, -⟩ := hw
    dsimp only at hs
    obtain ⟨b1, b2⟩ := group_div (g := g) hn d0 d1
    have hch : (groups n G).sent (g * n + s) (g * n + i) t = (G g).sent s i t := by
      unfold groups; dsimp only; rw [a1, b1, a2, b2, if_pos rfl]
    have hcr : (groups n G).rcvd (g * n + s) (g * n + i) t = (G g).rcvd s i t := by
      unfold groups; dsimp only; rw [a1, b1, a2, b2, if_pos rfl]
    simp only [Proc.renumber]
    rw [hch, hcr]
    cases hm : ((G g).sent s i t)[(G g).rcvd s i t]? with
    | none => rw [hm] at hs; cases hs
    | some m =>
      rw [hm] at hs
      cases hs
      dsimp only
      congr 1
      have e1 := groups_procs hn G g i h0 h1 ⟨updRank (G g).procs i (k m), (G g).sent,
        updCh (G g).rcvd s i t ((G g).rcvd s i t + 1)⟩ _ rfl
      have e2 := groups_chan hn (fun g => (G g).rcvd) 0 g s i t d0 d1 h0 h1 ((G g).rcvd s i t + 1)
        (fun g' => (updRank G g ⟨updRank (G g).procs i (k m), (G g).sent,
          updCh (G g).rcvd s i t ((G g).rcvd s i t + 1)⟩ g').rcvd)
        (by rw [updRank_same]) (by intro g' hg'; rw [updRank_ne _ _ hg'])
      have e3 : (groups n (updRank G g ⟨updRank (G g).procs i (k m), (G g).sent,
          updCh (G g).rcvd s i t ((G g).rcvd s i t + 1)⟩)).sent = (groups n G).sent := by
        funext s' d' t'
        unfold groups
        dsimp only
        by_cases hg : s' / n = g
        · rw [hg, updRank_same]
        · rw [updRank_ne _ _ hg]
      rw [← e1]
      unfold groups at e2 e3 ⊢
      dsimp only at e2 e3 ⊢
      rw [e2, e3]
  | await d t j k =>
    rw [hp] at hs hw
    obtain ⟨⟨d0, d1⟩, -⟩ := hw
    dsimp only at hs
    obtain ⟨b1, b2⟩ := group_div (g := g) hn d0 d1
    have hcr : (groups n G).rcvd (g * n + i) (g * n + d) t = (G g).rcvd i d t := by
      unfold groups; dsimp only; rw [a1, b1, a2, b2, if_pos rfl]
    simp only [Proc.renumber]
    rw [hcr]
    unfold groupBuf at hs
    split at hs
    · rename_i hc
      cases hs
      rw [if_pos hc]
      congr 1
      have e1 := groups_procs hn G g i h0 h1 ⟨updRank (G g).procs i (k ()), (G g).sent, (G g).rcvd⟩ _ rfl
      rw [← e1]
      have e2 : (groups n (updRank G g ⟨updRank (G g).procs i (k ()), (G g).sent, (G g).rcvd⟩)).sent = (groups n G).sent := by
        funext s' d' t'
        unfold groups
        dsimp only
        by_cases hg : s' / n = g
        · rw [hg, updRank_same]
        · rw [updRank_ne _ _ hg]
      have e3 : (groups n (updRank G g ⟨updRank (G g).procs i (k ()), (G g).sent, (G g).rcvd⟩)).rcvd = (groups n G).rcvd := by
        funext s' d' t'
        unfold groups
        dsimp only
        by_cases hg : s' / n = g
        · rw [hg, updRank_same]
        · rw [updRank_ne _ _ hg]
      rw [← e2, ← e3]
    · cases hs

theorem updRank_self {C : Type} (f : Int → C) (g : Int) : updRank f g (f g) = f := by
  funext x
  by_cases h : x = g
  · subst h; rw [updRank_same]
  · rw [updRank_ne _ _ h]

theorem updRank_twice {C : Type} (f : Int → C) (g : Int) (a b : C) : updRank (updRank f g a) g b = updRank f g b := by
  funext x
  by_cases h : x = g
  · subst h; rw [updRank_same, updRank_same]
  · rw [updRank_ne _ _ h, updRank_ne _ _ h, updRank_ne _ _ h]

/-- A rank that has finished stays so, and cannot move. -/
theorem Net.step_isRet {buf : Buffering} {N N' : Net M R} {i j : Int} {x : R} (h : N.procs j = .ret x)
    (hs : N.step buf i = some N') : i ≠ j ∧ N'.procs j = .ret x := by
  have hne : i ≠ j := by
    rintro rfl
    unfold Net.step at hs
    rw [h] at hs; cases hs
  refine ⟨hne, ?_⟩
  unfold Net.step at hs
  split at hs
  · cases hs
  · cases hs; dsimp only; rw [updRank_ne _ _ (Ne.symm hne)]; exact h
  · split at hs
    · cases hs
    · cases hs; dsimp only; rw [updRank_ne _ _ (Ne.symm hne)]; exact h
  · split at hs
    · cases hs; dsimp only; rw [updRank_ne _ _ (Ne.symm hne)]; exact h
    · cases hs

theorem groups_run {n : Int} (hn : 0 < n) (buf : Buffering) (g : Int) (sched : List Int) : ∀ (G : Int → Net M R) (N' : Net M R),
    Closed n (G g) → (∀ i, ¬ (0 ≤ i ∧ i < n) → ∃ x, (G g).procs i = .ret x) →
    (G g).run (groupBuf n buf g) sched = some N' →
    (groups n G).run buf (sched.map fun i => g * n + i) = some (groups n (updRank G g N')) := by
  induction sched with
  | nil =>
    intro G N' _ _ h
    simp only [Net.run, Option.some.injEq] at h
    subst h
    rw [updRank_self]; rfl
  | cons i sched ih =>
    intro G N' hc ho h
    simp only [Net.run, Option.bind_eq_some_iff] at h
    obtain ⟨N1, h1, h2⟩ := h
    have hi : 0 ≤ i ∧ i < n := by
      by_contra hh
      obtain ⟨x, hx⟩ := ho i hh
      exact (Net.step_isRet hx h1).1 rfl
    have hs := groups_step hn buf G g i hi.1 hi.2 hc N1 h1
    simp only [List.map_cons, Net.run, hs, Option.bind_some]
    rw [ih (updRank G g N1) N' (by rw [updRank_same]; exact hc.step h1)
      (by
        intro j hj
        obtain ⟨x, hx⟩ := ho j hj
        rw [updRank_same]
        exact ⟨x, (Net.step_isRet hx h1).2⟩) (by rw [updRank_same]; exact h2), updRank_twice]

theorem groups_runs {n : Int} (hn : 0 < n) (buf : Buffering) (T : Int → Net M R) (gs : List Int) : ∀ (G : Int → Net M R),
    gs.Nodup → (∀ g ∈ gs, Closed n (G g)) → (∀ g ∈ gs, ∀ i, ¬ (0 ≤ i ∧ i < n) → ∃ x, (G g).procs i = .ret x) →
    (∀ g ∈ gs, ∃ sched, (G g).run (groupBuf n buf g) sched = some (T g)) →
    ∃ sched, (groups n G).run buf sched = some (groups n fun g => if g ∈ gs then T g else G g) := by
  induction gs with
  | nil =>
    intro G _ _ _ _
    refine ⟨[], ?_⟩
    simp [Net.run]
  | cons g gs ih =>
    intro G hnd hc ho hr
    rw [List.nodup_cons] at hnd
    obtain ⟨s1, h1⟩ := hr g (by simp)
    have r1 := groups_run hn buf g s1 G (T g) (hc g (by simp)) (ho g (by simp)) h1
    have hne : ∀ g' ∈ gs, g' ≠ g := fun g' h e => hnd.1 (e ▸ h)
    obtain ⟨s2, r2⟩ := ih (updRank G g (T g)) hnd.2
      (fun g' h => by rw [updRank_ne _ _ (hne g' h)]; exact hc g' (by simp [h]))
      (fun g' h => by rw [updRank_ne _ _ (hne g' h)]; exact ho g' (by simp [h]))
      (fun g' h => by rw [updRank_ne _ _ (hne g' h)]; exact hr g' (by simp [h]))
    refine ⟨(s1.map fun i => g * n + i) ++ s2, ?_⟩
    rw [Net.run_append, r1]
    show (groups n (updRank G g (T g))).run buf s2 = _
    rw [r2]
    congr 1
    congr 1
    funext g'
    by_cases h : g' = g
    · subst h
      simp [hnd.1, updRank_same]
    · by_cases h' : g' ∈ gs
      · simp [h']
      · simp [h, h', updRank_ne _ _ h]

/-- If each of the groups completes, so do all together, whatever the schedule. -/
theorem groups_complete {n : Int} (hn : 0 < n) (buf : Buffering) (gs : List Int) (hnd : gs.Nodup)
    (G : Int → Net M R) (res : Int → Int → R)
    (hc : ∀ g ∈ gs, Closed n (G g)) (ho : ∀ g ∈ gs, ∀ i, ¬ (0 ≤ i ∧ i < n) → ∃ x, (G g).procs i = .ret x)
    (hcomp : ∀ g ∈ gs, (G g).Completes (groupBuf n buf g) (res g))
    (hrest : ∀ g, g ∉ gs → ∀ i, (G g).procs i = .ret (res g i)) :
    (groups n G).Completes buf fun r => res (r / n) (r % n) := by
  have : ∀ g, ∃ T : Net M R, g ∈ gs → (∀ i, T.procs i = .ret (res g i)) ∧ ∃ sched, (G g).run (groupBuf n buf g) sched = some T := by
    intro g
    by_cases h : g ∈ gs
    · obtain ⟨T, k, hT, hall⟩ := hcomp g h
      obtain ⟨s, h1, -⟩ := hall [] (G g) rfl
      exact ⟨T, fun _ => ⟨hT, s, h1⟩⟩
    · exact ⟨G g, fun h' => absurd h' h⟩
  choose T hT using this
  obtain ⟨sched, hrun⟩ := groups_runs hn buf T gs G hnd hc ho fun g h => (hT g h).2
  refine Net.completes_of_run hrun ?_
  intro r
  unfold groups
  dsimp only
  by_cases h : r / n ∈ gs
  · rw [if_pos h, (hT _ h).1]; rfl
  · rw [if_neg h, hrest _ h]; rfl

end FV3
