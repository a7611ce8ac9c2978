import Verif.Props.FieldModel

/-!
# C65: a concrete case

24 ranks with `3 × 3` cells each; a scalar, and winds on the interfaces.  The program: update the halo of the scalar; take the
scalar of the next cell, and the opposite winds (except on the edges which the synchronisation fills, where the code leaves
something else); synchronise and update the winds; set the scalar to the x-wind on the north side of the next cell.
-/

namespace FV3
variable {α : Type}

/-- The quantities of a rank, with any values. -/
def exFMem (D : Int → Nat → List Nat → α) : Int → Mem α := fun r q =>
  if q = 1 then ⟨⟨[6, 5], D r q⟩, [.yI, .x], "m/s", [1, 1], [4, 3]⟩
  else if q = 2 then ⟨⟨[5, 6], D r q⟩, [.y, .xI], "m/s", [1, 1], [3, 4]⟩
  else ⟨⟨[5, 5], D r q⟩, [.y, .x], "K", [1, 1], [3, 3]⟩

def exFSlots : List Slot := [⟨0, none, 0, 1, 1⟩, ⟨1, some 2, 0, 1, 1⟩]

theorem exF_axes1 : HAxes [Dim.yI, .x] 0 1 := by
  refine ⟨?_, ?_, by decide, by decide⟩ <;>
  · intro k d h
    match k, h with
    | 0, h => simp at h; subst h; simp [IsX, IsY]
    | 1, h => simp at h; subst h; simp [IsX, IsY]
    | k + 2, h => simp at h

theorem exF_axes2 : HAxes [Dim.y, .xI] 0 1 := by
  refine ⟨?_, ?_, by decide, by decide⟩ <;>
  · intro k d h
    match k, h with
    | 0, h => simp at h; subst h; simp [IsX, IsY]
    | 1, h => simp at h; subst h; simp [IsX, IsY]
    | k + 2, h => simp at h

theorem exF_wf (D : Int → Nat → List Nat → α) (r : Int) (q : Nat) : (exFMem D r q).WF := by
  unfold exFMem
  split
  · exact ⟨⟨rfl, rfl, rfl⟩, by
      show ∀ k, k < 2 → 0 ≤ ([1, 1] : List Int).getD k 0 ∧ 0 ≤ ([4, 3] : List Int).getD k 0 ∧
        ([1, 1] : List Int).getD k 0 + ([4, 3] : List Int).getD k 0 ≤ (([6, 5] : List Nat).getD k 0 : Nat)
      decide⟩
  split
  · exact ⟨⟨rfl, rfl, rfl⟩, by
      show ∀ k, k < 2 → 0 ≤ ([1, 1] : List Int).getD k 0 ∧ 0 ≤ ([3, 4] : List Int).getD k 0 ∧
        ([1, 1] : List Int).getD k 0 + ([3, 4] : List Int).getD k 0 ≤ (([5, 6] : List Nat).getD k 0 : Nat)
      decide⟩
  · exact ⟨⟨rfl, rfl, rfl⟩, by
      show ∀ k, k < 2 → 0 ≤ ([1, 1] : List Int).getD k 0 ∧ 0 ≤ ([3, 3] : List Int).getD k 0 ∧
        ([1, 1] : List Int).getD k 0 + ([3, 3] : List Int).getD k 0 ≤ (([5, 5] : List Nat).getD k 0 : Nat)
      decide⟩

theorem exF_fields (D : Int → Nat → List Nat → α) : FieldsOf ⟨2, 2⟩ 3 exFSlots (exFMem D) := by
  have r0 : ∀ r, HaloReady (exFMem D r 0) 0 1 3 1 := fun r =>
    ⟨exF_wf D r 0, HAxes_yx, rfl, rfl, by show (1 : Int) ≤ 1 ∧ (1 : Int) + 3 + 1 ≤ 5; decide,
      by show (1 : Int) ≤ 1 ∧ (1 : Int) + 3 + 1 ≤ 5; decide⟩
  have r1 : ∀ r, HaloReady (exFMem D r 1) 0 1 3 1 := fun r =>
    ⟨exF_wf D r 1, exF_axes1, rfl, rfl, by show (1 : Int) ≤ 1 ∧ (1 : Int) + 4 + 1 ≤ 6; decide,
      by show (1 : Int) ≤ 1 ∧ (1 : Int) + 3 + 1 ≤ 5; decide⟩
  have r2 : ∀ r, HaloReady (exFMem D r 2) 0 1 3 1 := fun r =>
    ⟨exF_wf D r 2, exF_axes2, rfl, rfl, by show (1 : Int) ≤ 1 ∧ (1 : Int) + 3 + 1 ≤ 5; decide,
      by show (1 : Int) ≤ 1 ∧ (1 : Int) + 4 + 1 ≤ 6; decide⟩
  refine ⟨by decide, ?_, ?_⟩
  · intro s hs
    simp only [exFSlots, List.mem_cons, List.not_mem_nil, or_false] at hs
    rcases hs with rfl | rfl <;> decide
  · intro s hs
    simp only [exFSlots, List.mem_cons, List.not_mem_nil, or_false] at hs
    rcases hs with rfl | rfl
    · exact ⟨fun r _ => r0 r, fun _ _ _ _ => rfl, fun _ _ _ _ _ _ _ _ => rfl, fun _ _ => rfl⟩
    · refine ⟨fun r _ => r1 r, fun r _ => r2 r, fun _ _ _ _ => rfl, fun _ _ _ _ => rfl, fun _ _ => rfl, ?_,
        fun _ _ => rfl, fun _ _ => rfl⟩
      intro r _ r' _ k hk h1 h2
      have hk : k < 2 := hk
      have h1 : k ≠ 0 := h1
      have h2 : k ≠ 1 := h2
      omega

theorem exF_sync (D : Int → Nat → List Nat → α) : SyncField ⟨2, 2⟩ (exFMem D) 1 2 0 1 3 := by
  refine ⟨by decide, rfl, fun r _ => exF_wf D r 1, fun r _ => exF_wf D r 2, fun _ _ => exF_axes1, fun _ _ => exF_axes2,
    fun _ _ => ⟨rfl, rfl⟩, fun _ _ => ⟨rfl, rfl⟩, fun _ _ => ⟨rfl, rfl⟩, fun _ _ => ⟨rfl, rfl⟩, fun _ _ _ _ => rfl, ?_⟩
  intro r _ r' _ k hk h1 h2
  have hk : k < 2 := hk
  omega

/-! ### The computations -/

variable [Neg α]

/-- The scalar of the next cell; opposite winds, with `z` on the north and east edges. -/
def exFA (z : α) (_ : Int) (mem : Mem α) : Mem α := fun q =>
  if q = 0 then
    { mem 0 with data := ⟨(mem 0).data.shape, fun idx => (mem 0).data.get [idx.getD 0 0, idx.getD 1 0 + 1]⟩ }
  else if q = 1 then
    { mem 1 with data := ⟨(mem 1).data.shape, fun idx => if idx.getD 0 0 = 4 then z else -(mem 1).data.get idx⟩ }
  else if q = 2 then
    { mem 2 with data := ⟨(mem 2).data.shape, fun idx => if idx.getD 1 0 = 4 then z else -(mem 2).data.get idx⟩ }
  else mem q

/-- The scalar becomes the x-wind on the north side of the next cell. -/
def exFB (_ : Int) (mem : Mem α) : Mem α := fun q =>
  if q = 0 then
    { mem 0 with data := ⟨(mem 0).data.shape, fun idx => (mem 1).data.get [idx.getD 0 0 + 1, idx.getD 1 0 + 1]⟩ }
  else mem q

noncomputable def exΦA (W : Fields α) : Fields α := fun i =>
  if i = 0 then fun P o _ => nextField 6 (fun P o => W 0 P o ⟨0, 0, 0⟩) P o
  else if i = 1 then fun P o e => -W 1 P o e
  else W i

open Classical in
/-- The component along the x axis, of the winds on the north side of the cell which is next to the cell at `P`. -/
noncomputable def nextWind (N : Int) (V : Fld α) (P : Vec3) (o : Nat → Int) : α :=
  if h : ∃ x, IsCell N P x then
    V (foldPos N h.choose.1 (h.choose.2.1 + 2) (h.choose.2.2 + 1)) o (foldEx N h.choose.1 (h.choose.2.1 + 2))
  else V P o ⟨0, 0, 0⟩

omit [Neg α] in
theorem nextWind_pos {N t a b : Int} (ht : 0 ≤ t ∧ t < 6) (ha : 0 < a ∧ a < 2 * N) (hb : 0 < b ∧ b < 2 * N)
    (V : Fld α) (o : Nat → Int) :
    nextWind N V (pos N t a b) o = V (foldPos N t (a + 2) (b + 1)) o (foldEx N t (a + 2)) := by
  have h : ∃ x, IsCell N (pos N t a b) x := ⟨(t, a, b), ht, ha, hb, rfl⟩
  unfold nextWind
  rw [dif_pos h]
  obtain ⟨c1, c2, c3, c4⟩ := h.choose_spec
  obtain ⟨e1, e2, e3⟩ := pos_inj c1 ht c2 c3 ha hb c4
  rw [e1, e2, e3]

noncomputable def exΦB (W : Fields α) : Fields α := fun i =>
  if i = 0 then fun P o _ => nextWind 6 (W 1) P o else W i

def exLv (a b : Level) : Nat → Level := fun i => if i = 0 then a else if i = 1 then b else .nothing

noncomputable def exFSteps (z : α) : List (MStep α) :=
  [.update ⟨0, none, 0, 1, 1⟩, .compute (exFA z) exΦA (exLv .halo .compute) (exLv .compute .own),
    .sync ⟨1, some 2, 0, 1, 1⟩, .update ⟨1, some 2, 0, 1, 1⟩,
    .compute exFB exΦB (exLv .nothing .halo) (exLv .compute .halo)]

theorem exF_levels (z : α) : Levels (exLv .compute .halo) (exLv .compute .compute) (exFSteps z) := by
  refine ⟨rfl, ?_, rfl, rfl, ?_, rfl⟩
  · intro i
    show (raiseTo (exLv .compute .compute) 0 .halo i).AtLeast (exLv .halo .compute i) = true
    unfold raiseTo exLv
    by_cases h0 : i = 0
    · subst h0; rfl
    · by_cases h1 : i = 1
      · subst h1; rfl
      · simp only [if_neg h0, if_neg h1]; rfl
  · intro i
    by_cases h0 : i = 0
    · subst h0; rfl
    · by_cases h1 : i = 1
      · subst h1; rfl
      · have : exLv .nothing .halo i = .nothing := by unfold exLv; rw [if_neg h0, if_neg h1]
        rw [this]
        generalize MStep.after _ (_ : MStep α) i = lv
        cases lv <;> rfl

theorem exF_vectors {W : Fields α} (hW : ∀ P o e, W 1 P o e.neg = -W 1 P o e) : VectorsIn exFSlots W := by
  intro s hs hy
  simp only [exFSlots, List.mem_cons, List.not_mem_nil, or_false] at hs
  rcases hs with rfl | rfl
  · exact absurd rfl hy
  · exact hW

theorem exF_wind {W : Fields α} (hW : VectorsIn exFSlots W) : ∀ P o e, W 1 P o e.neg = -W 1 P o e :=
  hW ⟨1, some 2, 0, 1, 1⟩ (by simp [exFSlots]) (by simp)

/-- The fields of the example, one after the other. -/
theorem exF_holdsAll {r : Int} {mem : Mem α} {K : Nat → Level} {W : Fields α}
    (h0 : Holds ⟨2, 2⟩ 3 r (mem 0) .scalar 0 1 1 (K 0) (W 0)) (h1 : Holds ⟨2, 2⟩ 3 r (mem 1) .x 0 1 1 (K 1) (W 1))
    (h2 : Holds ⟨2, 2⟩ 3 r (mem 2) .y 0 1 1 (K 1) (W 1)) : HoldsAll ⟨2, 2⟩ 3 exFSlots r mem K W := by
  intro s hs c hc
  simp only [exFSlots, List.mem_cons, List.not_mem_nil, or_false] at hs
  rcases hs with rfl | rfl
  · simp only [Slot.comps, List.mem_cons, List.not_mem_nil, or_false] at hc
    subst hc
    exact h0
  · simp only [Slot.comps, List.mem_cons, List.not_mem_nil, or_false] at hc
    rcases hc with rfl | rfl
    · exact h1
    · exact h2

theorem exF_holds {r : Int} {mem : Mem α} {K : Nat → Level} {W : Fields α} (h : HoldsAll ⟨2, 2⟩ 3 exFSlots r mem K W) :
    Holds ⟨2, 2⟩ 3 r (mem 0) .scalar 0 1 1 (K 0) (W 0) ∧ Holds ⟨2, 2⟩ 3 r (mem 1) .x 0 1 1 (K 1) (W 1) ∧
      Holds ⟨2, 2⟩ 3 r (mem 2) .y 0 1 1 (K 1) (W 1) :=
  ⟨h ⟨0, none, 0, 1, 1⟩ (by simp [exFSlots]) (0, .scalar) (by simp [Slot.comps]),
    h ⟨1, some 2, 0, 1, 1⟩ (by simp [exFSlots]) (1, .x) (by simp [Slot.comps]),
    h ⟨1, some 2, 0, 1, 1⟩ (by simp [exFSlots]) (2, .y) (by simp [Slot.comps])⟩

theorem exF_safe : FloatSafe ⟨2, 2⟩ := C05_safe_up_to_48 _ (by decide) (by decide) (by decide) (by decide)

theorem exF_A (D : Int → Nat → List Nat → α) (z : α) :
    Computes ⟨2, 2⟩ 3 exFSlots (exFMem D) (exFA z) exΦA (exLv .halo .compute) (exLv .compute .own) := by
  refine ⟨?_, ?_, ?_⟩
  · intro r mem hm q
    unfold exFA
    split
    · next e => subst e; exact ⟨(hm 0).shape, (hm 0).dims, (hm 0).units, (hm 0).origin, (hm 0).extent⟩
    split
    · next e => subst e; exact ⟨(hm 1).shape, (hm 1).dims, (hm 1).units, (hm 1).origin, (hm 1).extent⟩
    split
    · next e => subst e; exact ⟨(hm 2).shape, (hm 2).dims, (hm 2).units, (hm 2).origin, (hm 2).extent⟩
    · exact hm q
  · intro W hW
    refine exF_vectors fun P o e => ?_
    show -W 1 P o e.neg = -(-W 1 P o e)
    rw [exF_wind hW]
  · intro r hr mem W hm hW hH
    obtain ⟨h0, h1, h2⟩ := exF_holds hH
    refine exF_holdsAll ?_ ?_ ?_
    · have st := (exRun_stencil (α := α) exF_safe rfl (n := 3) (N := 6) (by decide) (by decide) z 0).value r hr
        (fun _ => mem 0) (fun P o => W 0 P o ⟨0, 0, 0⟩)
        (fun q => ⟨(hm 0).shape, (hm 0).dims, (hm 0).units, (hm 0).origin, (hm 0).extent⟩) h0
      intro idx t a b hat hc _
      have H : HaloReady (exFA z r mem 0) 0 1 3 1 :=
        SameMeta.haloReady (q' := exFA z r mem 0) ⟨(hm 0).shape, (hm 0).dims, (hm 0).units, (hm 0).origin, (hm 0).extent⟩
          ((exF_fields D).ready (s := ⟨0, none, 0, 1, 1⟩) (q := 0) (c := .scalar) (by simp [exFSlots]) (by simp [Slot.comps]) hr)
      have i := inside_of_ready (m := fun _ _ => exFA z r mem 0) (l := ⟨2, 2⟩) (by decide) rfl (by decide) H hat hc
      rw [(fold_inside i .scalar).1, (fold_inside i .scalar).2]
      exact st idx t a b hat hc
    · intro idx t a b hat hp hs
      have g : SameMeta (mem 1) (exFA z r mem 1) := ⟨rfl, rfl, rfl, rfl, rfl⟩
      have hne : idx.getD 0 0 ≠ 4 := by
        intro e
        refine hp.2.1 rfl ⟨hp.1, ?_⟩
        rw [g.rel, g.e, (hm 1).rel, (hm 1).e]
        show (at' idx 0 : Int) - 1 = 4 - 1
        unfold at'
        rw [e]
        rfl
      show (if idx.getD 0 0 = 4 then z else -(mem 1).data.get idx) = -W 1 _ _ _
      rw [if_neg hne, h1 idx t a b ⟨hat.rank, hat.tile, hat.x, hat.y⟩ hp.1 hs]
      rfl
    · intro idx t a b hat hp hs
      have g : SameMeta (mem 2) (exFA z r mem 2) := ⟨rfl, rfl, rfl, rfl, rfl⟩
      have hne : idx.getD 1 0 ≠ 4 := by
        intro e
        refine hp.2.2 rfl ⟨hp.1, ?_⟩
        rw [g.rel, g.e, (hm 2).rel, (hm 2).e]
        show (at' idx 1 : Int) - 1 = 4 - 1
        unfold at'
        rw [e]
        rfl
      show (if idx.getD 1 0 = 4 then z else -(mem 2).data.get idx) = -W 1 _ _ _
      rw [if_neg hne, h2 idx t a b ⟨hat.rank, hat.tile, hat.x, hat.y⟩ hp.1 hs]
      rfl

theorem exF_B (D : Int → Nat → List Nat → α) :
    Computes ⟨2, 2⟩ 3 exFSlots (exFMem D) exFB exΦB (exLv .nothing .halo) (exLv .compute .halo) := by
  refine ⟨?_, ?_, ?_⟩
  · intro r mem hm q
    unfold exFB
    split
    · next e => subst e; exact ⟨(hm 0).shape, (hm 0).dims, (hm 0).units, (hm 0).origin, (hm 0).extent⟩
    · exact hm q
  · intro W hW
    exact exF_vectors (W := exΦB W) (exF_wind (W := W) hW)
  · intro r hr mem W hm hW hH
    obtain ⟨-, h1, h2⟩ := exF_holds hH
    refine exF_holdsAll ?_ h1 h2
    have g : SameMeta (exFMem D r 0) (exFB r mem 0) :=
      ⟨(hm 0).shape, (hm 0).dims, (hm 0).units, (hm 0).origin, (hm 0).extent⟩
    have g1 := hm 1
    refine holds_after g .scalar .compute fun idx t a b hat hc _ => ?_
    have hlen : idx.length = 2 := hc.1
    have c0 : (1 : Int) ≤ at' idx 0 ∧ at' idx 0 < 1 + 3 := hc.2 0 (show 0 < 2 by decide)
    have c1 : (1 : Int) ≤ at' idx 1 ∧ at' idx 1 < 1 + 3 := hc.2 1 (show 1 < 2 by decide)
    obtain ⟨i, j, rfl⟩ : ∃ i j, idx = [i, j] := by
      match idx, hlen with
      | [i, j], _ => exact ⟨i, j, rfl⟩
    have c0 : (1 : Int) ≤ i ∧ (i : Int) < 1 + 3 := c0
    have c1 : (1 : Int) ≤ j ∧ (j : Int) < 1 + 3 := c1
    have hx : a = 2 * ((subtileIndex ⟨2, 2⟩ r).2 * 3 + ((j : Int) - 1)) + 1 - 0 := hat.x
    have hy : b = 2 * ((subtileIndex ⟨2, 2⟩ r).1 * 3 + ((i : Int) - 1)) + 1 - 0 := hat.y
    have hsub := subtileIndex_range (l := ⟨2, 2⟩) (by decide) (by decide) r
    have hs1 : 0 ≤ (subtileIndex ⟨2, 2⟩ r).1 ∧ (subtileIndex ⟨2, 2⟩ r).1 < 2 := ⟨hsub.1, hsub.2.1⟩
    have hs2 : 0 ≤ (subtileIndex ⟨2, 2⟩ r).2 ∧ (subtileIndex ⟨2, 2⟩ r).2 < 2 := ⟨hsub.2.2.1, hsub.2.2.2⟩
    have ht : 0 ≤ t ∧ t < 6 := by
      have h1 := hat.tile
      rw [tileIndex_eq (l := ⟨2, 2⟩) (by decide) (by decide)] at h1
      simp only [Except.ok.injEq] at h1
      have h2 := mem_allRanks.1 hr
      have h3 : 0 ≤ r ∧ r < 24 := h2
      have h4 : r / 4 = t := h1
      omega
    have hN : (2 : Int) * 3 = 6 := by decide
    have i1 : (0 ≤ a ∧ a ≤ 2 * (2 * 3)) ∧ (0 ≤ b ∧ b ≤ 2 * (2 * 3)) := by omega
    rw [(fold_inside i1 .scalar).1]
    have val := h1 [i + 1, j + 1] t (a + 2) (b + 1) ⟨hr, hat.tile, ?_, ?_⟩ ?_ ?_
    · show (mem 1).data.get [i + 1, j + 1] = nextWind 6 (W 1) _ _
      rw [val]
      show W 1 (foldPos (2 * 3) t (a + 2) (b + 1)) _ (foldEx (2 * 3) t (a + 2)) = _
      rw [hN, nextWind_pos ht (by omega) (by omega)]
      congr 1
      funext k
      unfold Quantity.otherPos
      have hnd : (mem 1).ndim = 2 := g1.ndim
      have hnd' : (exFMem D r 0).ndim = 2 := rfl
      rw [hnd, hnd', if_neg (by omega), if_neg (by omega)]
    · rw [g1.tilePos]
      show a + 2 = 2 * ((subtileIndex ⟨2, 2⟩ r).2 * 3 + (((j + 1 : Nat) : Int) - 1)) + 1 - 0
      omega
    · rw [g1.tilePos]
      show b + 1 = 2 * ((subtileIndex ⟨2, 2⟩ r).1 * 3 + (((i + 1 : Nat) : Int) - 1)) + 1 - 1
      omega
    · show HasValue (mem 1) 0 1 1 [i + 1, j + 1]
      rw [g1.hasValue]
      by_cases hj : (j : Int) < 3
      · left
        refine ⟨rfl, fun k hk => ?_⟩
        have hk : k < 2 := hk
        have : k = 0 ∨ k = 1 := by omega
        rcases this with rfl | rfl
        · show (1 : Int) ≤ ((i + 1 : Nat) : Int) ∧ ((i + 1 : Nat) : Int) < 1 + 4
          omega
        · show (1 : Int) ≤ ((j + 1 : Nat) : Int) ∧ ((j + 1 : Nat) : Int) < 1 + 3
          omega
      · right
        refine ⟨rfl, ?_, ?_, ?_, ?_⟩
        · show -(1 : Int) ≤ ((i + 1 : Nat) : Int) - 1 ∧ ((i + 1 : Nat) : Int) - 1 < 4 + 1
          omega
        · show -(1 : Int) ≤ ((j + 1 : Nat) : Int) - 1 ∧ ((j + 1 : Nat) : Int) - 1 < 3 + 1
          omega
        · intro k hk k1 k2
          have hk : k < 2 := hk
          omega
        · rintro ⟨-, o2⟩
          have : (1 : Int) ≤ ((j + 1 : Nat) : Int) ∧ ((j + 1 : Nat) : Int) < 1 + 3 := o2
          omega
    · exact .inr (show (0 : Int) ≤ b + 1 ∧ b + 1 ≤ 2 * (2 * 3) by omega)

theorem exF_good (D : Int → Nat → List Nat → α) (z : α) :
    ∀ a ∈ exFSteps z, a.Good ⟨2, 2⟩ 3 exFSlots (exFMem D) := by
  intro a ha
  simp only [exFSteps, List.mem_cons, List.not_mem_nil, or_false] at ha
  rcases ha with rfl | rfl | rfl | rfl | rfl
  · show _ ∈ exFSlots
    simp [exFSlots]
  · exact exF_A D z
  · refine ⟨by simp [exFSlots], fun y hy => ?_⟩
    cases hy
    exact exF_sync D
  · show _ ∈ exFSlots
    simp [exFSlots]
  · exact exF_B D

/-! ### The global state -/

def exFParts (g : Nat) : Parts :=
  if g % 10 = 1 then ⟨[.yI, .x], [3, 3]⟩ else if g % 10 = 2 then ⟨[.y, .xI], [3, 3]⟩ else ⟨[.y, .x], [3, 3]⟩

/-- A global quantity with the values of a field. -/
def exFG (d0 d1 : Dim) (s0 s1 : Nat) (dir : Int → Vec3) (F : Fld α) : Quantity α :=
  { data := ⟨[6, s0, s1], fun p => F (pos 6 (at' p 0) (2 * at' p 2 + 1 - overlapOf d1) (2 * at' p 1 + 1 - overlapOf d0))
      (fun _ => 0) (dir (at' p 0))⟩
    dims := [.tile, d0, d1], units := "", origin := [0, 0, 0], extent := [6, s0, s1] }

def exFGlob (W : Fields α) (r : Int) (g : Nat) : Option (Quantity α) :=
  if r ≠ 0 then none
  else if g = 10 then some (exFG .y .x 6 6 (fun _ => ⟨0, 0, 0⟩) (W 0))
  else if g = 11 then some (exFG .yI .x 7 6 (fun t => (face t).ex) (W 1))
  else if g = 12 then some (exFG .y .xI 6 7 (fun t => (face t).ey) (W 1))
  else none

def exFIn : List StateVar := [⟨"t", 0, 10⟩, ⟨"u", 1, 11⟩, ⟨"v", 2, 12⟩]
def exFOut : List StateVar := [⟨"t", 0, 20⟩, ⟨"u", 1, 21⟩, ⟨"v", 2, 22⟩]

omit [Neg α] in
theorem exF_sample (d0 d1 : Dim) (s0 s1 : Nat) (dir : Int → Vec3) (F : Fld α) (q : List Nat) (P : Vec3)
    (others : Nat → Int) (h : GlobalAt (exFG d0 d1 s0 s1 dir F) [d0, d1] 0 1 6 q P others) :
    (exFG d0 d1 s0 s1 dir F).computeArr.get q = F P others (dir (at' q 0)) := by
  obtain ⟨hp, ho, hP⟩ := h
  have hlen : q.length = 3 := ((inB_iff _ _).1 hp).1
  obtain ⟨a, b, c, rfl⟩ : ∃ a b c, q = [a, b, c] := by
    match q, hlen with
    | [a, b, c], _ => exact ⟨a, b, c, rfl⟩
  have : others = fun _ => 0 := by
    funext k
    rw [ho k]
    split
    · next h =>
      have : k < 2 := h.1
      omega
    · rfl
  rw [← hP, this]
  have e : absIdx [0, 0, 0] [a, b, c] = [a, b, c] := by
    simp [absIdx, tab, List.range_succ]
  show F (pos 6 (at' (absIdx [0, 0, 0] [a, b, c]) 0) (2 * at' (absIdx [0, 0, 0] [a, b, c]) 2 + 1 - overlapOf d1)
    (2 * at' (absIdx [0, 0, 0] [a, b, c]) 1 + 1 - overlapOf d0)) _ (dir (at' (absIdx [0, 0, 0] [a, b, c]) 0)) = _
  rw [e]
  rfl

omit [Neg α] in
theorem exF_shaped (d0 d1 : Dim) (s0 s1 : Nat) (dir : Int → Vec3) (F : Fld α)
    (h0 : ranksAlong ⟨2, 2⟩ d0 = 2 ∧ (s0 : Int) = pointsOf d0 6) (h1 : ranksAlong ⟨2, 2⟩ d1 = 2 ∧ (s1 : Int) = pointsOf d1 6) :
    (exFG d0 d1 s0 s1 dir F).GlobalShaped (.cube ⟨2, 2⟩) [d0, d1] [3, 3] := by
  refine ⟨⟨⟨rfl, rfl, rfl⟩, ?_⟩, rfl, [(s0 : Int), s1], rfl, rfl, rfl, ?_⟩
  · intro k hk
    have hk : k < 3 := hk
    show 0 ≤ ([0, 0, 0] : List Int).getD k 0 ∧ 0 ≤ ([6, (s0 : Int), s1] : List Int).getD k 0 ∧
      ([0, 0, 0] : List Int).getD k 0 + ([6, (s0 : Int), s1] : List Int).getD k 0 ≤ (([6, s0, s1] : List Nat).getD k 0 : Nat)
    have : k = 0 ∨ k = 1 ∨ k = 2 := by omega
    rcases this with rfl | rfl | rfl <;> simp
  · intro k d c t e1 e2 e3
    have hk : k < 2 := (List.getElem?_eq_some_iff.1 e1).1
    have : k = 0 ∨ k = 1 := by omega
    rcases this with rfl | rfl <;> simp at e1 e2 e3 <;> subst e1 e2 e3
    · rw [h0.1, h0.2]; exact ⟨by decide, by decide, rfl⟩
    · rw [h1.1, h1.2]; exact ⟨by decide, by decide, rfl⟩

omit [Neg α] in
theorem exF_glob (W : Fields α) : ∀ g v, exFGlob W 0 g = some v →
    v.GlobalShaped (.cube ⟨2, 2⟩) (exFParts g).dims (exFParts g).cells := by
  intro g v h
  unfold exFGlob at h
  rw [if_neg (by simp)] at h
  split at h
  · next e => subst e; cases h; exact exF_shaped _ _ _ _ _ _ (by decide) (by decide)
  split at h
  · next e => subst e; cases h; exact exF_shaped _ _ _ _ _ _ (by decide) (by decide)
  split at h
  · next e => subst e; cases h; exact exF_shaped _ _ _ _ _ _ (by decide) (by decide)
  · cases h

omit [Neg α] in
theorem exF_parts (D : Int → Nat → List Nat → α) {q g : Nat} (hg : g % 10 = q) : HasParts ⟨2, 2⟩ (exFMem D) q (exFParts g) := by
  subst hg
  unfold exFParts
  split
  · next e =>
    rw [e]
    refine ⟨⟨0, 1, exF_axes1⟩, by decide, fun _ _ => rfl, fun r _ => ⟨exF_wf D r 1, rfl, rfl, ?_⟩⟩
    intro k d c t e1 e2 e3
    have hk : k < 2 := (List.getElem?_eq_some_iff.1 e1).1
    have : k = 0 ∨ k = 1 := by omega
    rcases this with rfl | rfl <;> simp [exFMem] at e1 e2 e3 <;> subst e1 e2 e3 <;> decide
  split
  · next e =>
    rw [e]
    refine ⟨⟨0, 1, exF_axes2⟩, by decide, fun _ _ => rfl, fun r _ => ⟨exF_wf D r 2, rfl, rfl, ?_⟩⟩
    intro k d c t e1 e2 e3
    have hk : k < 2 := (List.getElem?_eq_some_iff.1 e1).1
    have : k = 0 ∨ k = 1 := by omega
    rcases this with rfl | rfl <;> simp [exFMem] at e1 e2 e3 <;> subst e1 e2 e3 <;> decide
  · next n1 n2 =>
    have hd : ∀ r, exFMem D r (g % 10) = ⟨⟨[5, 5], D r (g % 10)⟩, [.y, .x], "K", [1, 1], [3, 3]⟩ := fun r => by
      unfold exFMem
      rw [if_neg n1, if_neg n2]
    refine ⟨⟨0, 1, HAxes_yx⟩, by decide, fun r _ => by rw [hd], fun r _ => ⟨exF_wf D r _, rfl, by rw [hd]; rfl, ?_⟩⟩
    intro k d c t e1 e2 e3
    rw [hd] at e3
    have hk : k < 2 := (List.getElem?_eq_some_iff.1 e1).1
    have : k = 0 ∨ k = 1 := by omega
    rcases this with rfl | rfl <;> simp at e1 e2 e3 <;> subst e1 e2 e3 <;> decide

omit [Neg α] in
theorem exF_state (D : Int → Nat → List Nat → α) (vars : List StateVar) (hn : GoodNames vars)
    (h1 : (vars.map StateVar.q).Nodup) (h2 : (vars.map StateVar.g).Nodup) (h3 : ∀ v ∈ vars, v.g % 10 = v.q) :
    StateOf ⟨2, 2⟩ 3 (exFMem D) exFParts exFSlots vars := by
  refine ⟨hn, h1, h2, fun v hv => exF_parts D (h3 v hv), fun v _ s hs _ _ => ?_⟩
  have hc : (exFParts v.g).cells = [3, 3] := by
    unfold exFParts
    split
    · rfl
    split <;> rfl
  rw [hc]
  simp only [exFSlots, List.mem_cons, List.not_mem_nil, or_false] at hs
  rcases hs with rfl | rfl <;> exact ⟨rfl, rfl⟩

omit [Neg α] in
theorem exF_start (W : Fields α) : StateHolds ⟨2, 2⟩ 3 exFParts exFSlots exFIn (exFGlob W 0) W := by
  intro v hv
  simp only [exFIn, List.mem_cons, List.not_mem_nil, or_false] at hv
  rcases hv with rfl | rfl | rfl
  · refine ⟨_, rfl, exF_glob W 10 _ rfl, fun s hs c hc => ?_⟩
    simp only [exFSlots, List.mem_cons, List.not_mem_nil, or_false] at hs
    rcases hs with rfl | rfl <;> simp [Slot.comps] at hc
    subst hc
    exact fun q P o h => exF_sample _ _ _ _ _ _ q P o h
  · refine ⟨_, rfl, exF_glob W 11 _ rfl, fun s hs c hc => ?_⟩
    simp only [exFSlots, List.mem_cons, List.not_mem_nil, or_false] at hs
    rcases hs with rfl | rfl <;> simp [Slot.comps] at hc
    subst hc
    exact fun q P o h => exF_sample _ _ _ _ _ _ q P o h
  · refine ⟨_, rfl, exF_glob W 12 _ rfl, fun s hs c hc => ?_⟩
    simp only [exFSlots, List.mem_cons, List.not_mem_nil, or_false] at hs
    rcases hs with rfl | rfl <;> simp [Slot.comps] at hc
    subst hc
    exact fun q P o h => exF_sample _ _ _ _ _ _ q P o h

/-- The scalar gathered at the end is, in each cell, the opposite of the wind (at the start) on the north side of the next
cell, along the x axis there, which may be on another tile. -/
example (buf : Buffering) (z : α) (D : Int → Nat → List Nat → α) (W : Fields α)
    (hW : ∀ P o e, W 1 P o e.neg = -W 1 P o e) (now : Int) :
    ∃ fin : Int → SessState α,
      (statesNet ⟨2, 2⟩ (fun _ _ => z) (modelRun 0 1 2 exFIn exFOut (exFSteps z)) (exFMem D) (exFGlob W) (fun _ _ => none)
        (fun _ j => if j = 1 then some now else none)).Completes buf
        (fun r => if r ∈ allRanks ⟨2, 2⟩ then some (.ok (fin r)) else none) ∧
      (fin 0).gtime 2 = some now ∧
      ∃ w, (fin 0).s.glob 20 = some w ∧ ∀ t j i : Nat, t < 6 → j < 6 → i < 6 →
        w.computeArr.get [t, j, i] = -W 1 (foldPos 6 t (2 * i + 1 + 2) (2 * j + 1 + 1)) (fun _ => 0)
          (foldEx 6 t (2 * i + 1 + 2)) := by
  obtain ⟨fin, h1, h2, h3⟩ := C65_model_run exF_safe rfl buf (fun _ _ => z) (exF_fields D) (exFGlob W) (fun _ _ => none)
    (fun _ j => if j = 1 then some now else none) (exF_glob W) 0 1 2
    (exF_state D exFIn ⟨by decide, by decide⟩ (by decide) (by decide) (by decide))
    (exF_state D exFOut ⟨by decide, by decide⟩ (by decide) (by decide) (by decide)) (exF_vectors hW) (exF_start W)
    (K := exLv .compute .compute) (K' := exLv .compute .halo)
    (by
      intro s hs
      simp only [exFSlots, List.mem_cons, List.not_mem_nil, or_false] at hs
      rcases hs with rfl | rfl
      · exact .inr ⟨rfl, by decide⟩
      · exact .inr ⟨rfl, by decide⟩)
    (by
      intro v _ s hs c _
      simp only [exFSlots, List.mem_cons, List.not_mem_nil, or_false] at hs
      rcases hs with rfl | rfl <;> rfl)
    (exFSteps z) (exF_good D z) (exF_levels z)
  refine ⟨fin, h1, h3, ?_⟩
  obtain ⟨w, hw, hsh, hv⟩ := h2 ⟨"t", 0, 20⟩ (by simp [exFOut])
  refine ⟨w, hw, fun t j i ht hj hi => ?_⟩
  have hsh : w.GlobalShaped (.cube ⟨2, 2⟩) [.y, .x] [3, 3] := hsh
  have key := hv ⟨0, none, 0, 1, 1⟩ (by simp [exFSlots]) .scalar (by simp [Slot.comps]) [t, j, i]
    (pos 6 t (2 * i + 1 - 0) (2 * j + 1 - 0)) (fun _ => 0) ⟨?_, ?_, ?_⟩
  · rw [key]
    show nextWind 6 (fun P o e => -W 1 P o e) (pos 6 t (2 * i + 1 - 0) (2 * j + 1 - 0)) (fun _ => 0) = _
    rw [Int.sub_zero, Int.sub_zero, nextWind_pos (by omega) (by omega) (by omega)]
  · obtain ⟨es, a1, a2, a3, a4⟩ := hsh.extent
    have hshape : w.computeArr.shape = [6, 6, 6] := by
      show w.extent.map Int.toNat = _
      rw [a1]
      match es, a3 with
      | [x, y], _ =>
        have b0 := a4 0 .y 3 x rfl rfl rfl
        have b1 := a4 1 .x 3 y rfl rfl rfl
        rw [b0.2.2, b1.2.2]
        decide
    rw [hshape, inB_iff]
    refine ⟨rfl, fun k hk => ?_⟩
    have hk : k < 3 := hk
    have : k = 0 ∨ k = 1 ∨ k = 2 := by omega
    rcases this with rfl | rfl | rfl <;> assumption
  · intro k
    rw [if_neg]
    rintro ⟨k1, k2, k3⟩
    have k1 : k < 2 := k1
    have k2 : k ≠ 0 := k2
    have k3 : k ≠ 1 := k3
    omega
  · rfl

end FV3
