import Verif.Proofs.ZarrRecord
import Verif.Spec.ZarrCrash

/-!
# States in the middle of a recording
-/

namespace FV3
namespace Zarr
variable {α R : Type}

/-! ### Barriers -/

/-- Who has returned from a barrier knows that all have called it. -/
def World.Gated (ranks : List Int) (W : World α R) : Prop :=
  ∀ r b, b < W.left r → (W.log r)[b]? = some .barrier → ∀ r' ∈ ranks, (W.log r')[b]? = some .barrier

theorem World.Gated.step {ranks : List Int} {buf : Nat → Bool} {W W' : World α R} {r : Int} (h : W.Gated ranks)
    (hin : ∀ r, W.inside r = true → 0 < (W.log r).length) (hs : W.step buf ranks r = some W') :
    W'.Gated ranks ∧ ∀ r, W'.inside r = true → 0 < (W'.log r).length := by
  have triv : ∀ procs store, World.Gated ranks (⟨procs, store, W.log, W.inside⟩ : World α R) := fun _ _ => h
  unfold World.step at hs
  split at hs
  · cases hs
  · cases hs; exact ⟨triv _ _, hin⟩
  · cases hs; exact ⟨triv _ _, hin⟩
  · cases hs; exact ⟨triv _ _, hin⟩
  · cases hs; exact ⟨triv _ _, hin⟩
  · rename_i c0 k0 hp0
    split_ifs at hs with hi
    · cases hl : W.leave buf ranks r with
      | none => rw [hl] at hs; cases hs
      | some p =>
        rw [hl] at hs
        cases hs
        refine ⟨?_, ?_⟩
        · intro r1 b hb hlog
          by_cases he : r1 = r
          · subst he
            have hpos := hin r1 hi
            simp only [World.left, updRank_self, Bool.toNat_false, Nat.sub_zero] at hb hlog
            by_cases hb' : b < W.left r1
            · exact h r1 b hb' hlog
            · have hbn : b = (W.log r1).length - 1 := by
                simp only [World.left, hi, Bool.toNat_true] at hb'
                omega
              unfold World.leave at hl
              rw [hbn] at hlog
              simp only [hlog] at hl
              split_ifs at hl with hall
              rw [List.all_eq_true] at hall
              intro r' hr'
              rw [hbn]
              exact eq_of_beq (hall r' hr')
          · have : b < W.left r1 := by
              simpa only [World.left, updRank_ne _ _ he] using hb
            exact h r1 b this hlog
        · intro r1 h1
          by_cases he : r1 = r
          · subst he; simp only [updRank_self] at h1; cases h1
          · exact hin r1 (by simpa only [updRank_ne _ _ he] using h1)
    · cases hs
      have hkeep : ∀ (r1 : Int) (b : Nat) (c : Coll), (W.log r1)[b]? = some c → (updRank W.log r (W.log r ++ [c0]) r1)[b]? = some c := by
        intro r1 b c hc
        by_cases he : r1 = r
        · subst he
          rw [updRank_self, List.getElem?_append_left (List.getElem?_eq_some_iff.1 hc).1]
          exact hc
        · rw [updRank_ne _ _ he]; exact hc
      refine ⟨?_, ?_⟩
      · intro r1 b hb hlog r' hr'
        refine hkeep r' b _ ?_
        by_cases he : r1 = r
        · subst he
          simp only [World.left, updRank_self, Bool.toNat_true, List.length_append, List.length_singleton] at hb hlog
          rw [List.getElem?_append_left (by omega)] at hlog
          refine h r1 b ?_ hlog r' hr'
          simp only [World.left, Bool.eq_false_iff.2 hi, Bool.toNat_false]
          omega
        · simp only [World.left, updRank_ne _ _ he] at hb hlog
          exact h r1 b hb hlog r' hr'
      · intro r1 h1
        by_cases he : r1 = r
        · subst he; simp [updRank_self]
        · simp only [updRank_ne _ _ he] at h1 ⊢
          exact hin r1 h1

theorem World.Gated.run {ranks : List Int} {buf : Nat → Bool} : ∀ (sched : List Int) (W W' : World α R), W.Gated ranks →
    (∀ r, W.inside r = true → 0 < (W.log r).length) → W.run buf ranks sched = some W' → W'.Gated ranks
  | [], W, W', h, _, hr => by cases hr; exact h
  | r :: rs, W, W', h, hin, hr => by
    rw [World.run] at hr
    cases hs : W.step buf ranks r with
    | none => rw [hs] at hr; cases hr
    | some W1 =>
      rw [hs] at hr
      obtain ⟨h1, hin1⟩ := h.step hin hs
      exact World.Gated.run rs W1 W' h1 hin1 hr

theorem World.Gated.start (ranks : List Int) (procs : Int → Prog α R) (S : Store α) : (World.start procs S).Gated ranks := by
  intro r b hb
  simp [World.left, World.start] at hb

/-! ### What a rank has done so far -/

section
variable (l : Layout) (enc : Int → α) (junk : List Nat → α) (spec : String → VarSpec)
  (q : String → Nat → Int → Quantity α) (tm : Nat → ZTime)

/-- What may be changed while step `t` of `name` is stored. -/
def stageOwn (name : String) (t : Nat) (nm : String) (ci : List Nat) : Int :=
  if nm = name ∧ (nm = "time" ∨ ci.head? = some t) then slotOwner l spec nm ci else -1

/-- The shape of an array without its first axis. -/
def slotRest (nm : String) : List Nat := if nm = "time" then [] else 6 :: (spec nm).tile.map Int.toNat
def slotChunks (nm : String) : List Nat := if nm = "time" then [1024] else varChunks (spec nm).cells

/-- The values of a slot that rank `r` has to store. -/
def HeldVals (r : Int) (s : Slot) (L : Store α) : Prop :=
  if s.2 = "time" then r = 0 → Holds L "time" [1024] [s.1] (enc ((tm s.1).seconds - (tm 0).seconds))
  else ∀ rel, Stored l (spec s.2).dims (spec s.2).cells r rel →
    Holds L s.2 (varChunks (spec s.2).cells) (s.1 :: Comm.place (.cube l) (spec s.2).dims (spec s.2).cells r rel)
      ((q s.2 s.1 r).computeArr.get rel)

/-- Rank `r` has done its part of a slot. -/
def Held (r : Int) (s : Slot) (L : Store α) : Prop :=
  HeldVals l enc spec q tm r s L ∧
    (r = 0 → ∃ m a, s.1 < m ∧ L.infos s.2 = some ⟨m :: slotRest spec s.2, slotChunks spec s.2, a⟩)

/-- Rank `r` has done its part of the slots `pre` and perhaps begun `c`. -/
def DoneSo (r : Int) (pre : List Slot) (c : Option Slot) (L : Store α) : Prop :=
  (∀ s ∈ pre, Held l enc spec q tm r s L) ∧ (r = 0 → ∀ j < L.steps "time", (j, "time") ∈ pre ++ c.toList)

/-- A state while step `t` of `name` is stored. -/
def During (r : Int) (name : String) (t : Nat) (L L1 : Store α) : Prop :=
  ∃ L', (∃ w, Inv l enc spec q tm r name t w L) ∧ (∃ w, Inv l enc spec q tm r name (t + 1) w L') ∧ Only name L L' ∧
    Between (stageOwn l spec name t) r L L1 L' ∧ (name = "time" → r = 0 → TimeData enc tm t L1)

variable {l enc junk spec q tm}

theorem partCis_head {dims : List Dim} {cells : List Int} {r : Int} {t : Nat} {ci : List Nat}
    (h : ci ∈ partCis l dims cells r t) : ci.head? = some t := by
  unfold partCis partBox varChunks chunkBox at h
  rw [List.zipWith_cons_cons, boxIdx, List.mem_flatMap] at h
  obtain ⟨i, hi, hci⟩ := h
  obtain ⟨c, -, rfl⟩ := List.mem_map.1 hci
  obtain ⟨j, hj, rfl⟩ := List.mem_map.1 hi
  rw [List.mem_range] at hj
  simp only [Nat.div_one] at hj ⊢
  rw [List.head?_cons]
  congr 1
  omega

theorem stageOwn_slot {r : Int} (hr : 0 ≤ r) {name : String} {t : Nat} (nm : String) (ci : List Nat)
    (h : stageOwn l spec name t nm ci = r) : slotOwner l spec nm ci = r := by
  unfold stageOwn at h
  split_ifs at h
  · exact h
  · omega

variable {k : Nat} {vars : List String} {st : Nat → Int → State α}

theorem append_during (hrec : Recording l k vars spec q tm st) {r : Int} (hr : r ∈ (Comm.cube l).ranks) {t : Nat} (ht : t < k)
    {name : String} (hn : name ∈ "time" :: vars) :
    AppendOkI (slotOwner l spec) r l enc junk (Inv l enc spec q tm r) (slotSigs spec) (During l enc spec q tm r) (st t r) name t := by
  have hr0 := ((mem_ranks _ _).1 hr).1
  rcases List.mem_cons.1 hn with rfl | hn
  · refine (append_timeI (own := stageOwn l spec "time" t) ?_ (hrec.time t r ht hr) (hrec.calendar t ht)).weaken
      (stageOwn_slot hr0) ?_
    · intro ci
      unfold stageOwn
      rw [if_pos ⟨rfl, .inl rfl⟩]
      rfl
    · intro L L1 L' h1 h2 h3 h4 h5
      exact ⟨L', h1, h2, h3, h4, fun _ => h5⟩
  · have hnt : name ≠ "time" := fun h => hrec.notime (h ▸ hn)
    obtain ⟨hget, hshape, hdims⟩ := hrec.qty t r ht hr name hn
    refine (append_own (own := stageOwn l spec name t) hrec.safe hr ?_ (hrec.good name hn) hnt hget hshape hdims ?_).I.weaken
      (stageOwn_slot hr0) ?_
    · intro ci hci
      unfold stageOwn
      rw [if_pos ⟨rfl, .inr (partCis_head hci)⟩]
      exact slotOwner_part hrec.safe hr (hrec.good name hn) hnt ci hci
    · rintro rfl
      have := (hrec.qty 0 0 (by omega) hr name hn).2.2
      unfold attrsOf
      rw [hrec.units t ht name hn, hdims, this]
    · intro L L1 L' h1 h2 h3 h4 _
      exact ⟨L', h1, h2, h3, h4, fun h => absurd h hnt⟩

theorem Holds.same {L L' : Store α} {name : String} {chunks idx : List Nat} {v : α} (h : Holds L name chunks idx v)
    (he : L'.chunks name (chunkOf chunks idx) = L.chunks name (chunkOf chunks idx)) : Holds L' name chunks idx v := by
  unfold Holds at *
  rw [he]
  exact h

theorem steps_le {L L' : Store α} {name : String}
    (h : ∀ i, L.infos name = some i → ∃ i', L'.infos name = some i' ∧ i.le i') : L.steps name ≤ L'.steps name := by
  unfold Store.steps
  cases hi : L.infos name with
  | none => exact Nat.zero_le _
  | some i =>
    obtain ⟨i', h1, h2⟩ := h i hi
    rw [h1]
    exact h2.time

theorem rootT_steps {t : Nat} {w : Writer} {L : Store α} {t0 : ZTime} (h : RootT "time" t0 t w L) : L.steps "time" = t := by
  unfold Store.steps
  by_cases ht : t = 0
  · rw [(h.first ht).2, ht]
  · rw [(h.later ht).2.1]; rfl

theorem Held.keep {r : Int} (hr : 0 ≤ r) {name : String} {t : Nat} {L L1 : Store α} {s : Slot}
    (hs : s.2 = name → s.1 < t) (hd : During l enc spec q tm r name t L L1) (h : Held l enc spec q tm r s L) :
    Held l enc spec q tm r s L1 := by
  obtain ⟨L', -, -, -, hb, htd⟩ := hd
  obtain ⟨t', nm⟩ := s
  refine ⟨?_, ?_⟩
  · have hv := h.1
    unfold HeldVals at hv ⊢
    simp only at hv hs ⊢
    split_ifs at hv ⊢ with hnm
    · subst hnm
      intro h0
      by_cases he : name = "time"
      · exact htd he h0 t' (hs he.symm)
      · refine (hv h0).same (hb.same _ _ ?_)
        unfold stageOwn
        rw [if_neg fun h => he h.1.symm]
        omega
    · intro rel hrel
      refine (hv rel hrel).same (hb.same _ _ ?_)
      unfold stageOwn
      rw [if_neg]
      · omega
      · rintro ⟨he, hh | hh⟩
        · exact hnm hh
        · have := hs he
          simp only [chunkOf, varChunks, List.zipWith_cons_cons, List.head?_cons, Nat.div_one, Option.some.injEq] at hh
          omega
  · intro h0
    obtain ⟨m, a, hm, hi⟩ := h.2 h0
    obtain ⟨i', hi', hle⟩ := hb.up _ _ hi
    obtain ⟨sh, ch, at'⟩ := i'
    have h1 := hle.chunks
    have h2 := hle.length
    have h3 := hle.time
    have h4 := hle.rest
    simp only at h1 h2 h3 h4
    cases sh with
    | nil => simp at h2
    | cons m' sh =>
      simp only [List.tail_cons, List.getD_cons_zero] at h3 h4
      subst h1 h4
      exact ⟨m', at', Nat.lt_of_lt_of_le hm h3, hi'⟩

theorem During.steps {name : String} {t : Nat} {L L1 : Store α}
    (hd : During l enc spec q tm 0 name t L L1) : ∀ j < L1.steps "time", j < L.steps "time" ∨ (name = "time" ∧ j = t) := by
  obtain ⟨L', ⟨w, h1⟩, ⟨w', h2⟩, ho, hb, -⟩ := hd
  have hle := steps_le (hb.down "time")
  intro j hj
  by_cases he : name = "time"
  · subst he
    unfold Inv at h1 h2
    simp only [if_true] at h1 h2
    rw [rootT_steps h2.1] at hle
    rw [rootT_steps h1.1]
    by_cases h : j = t
    · exact .inr ⟨rfl, h⟩
    · left; omega
  · left
    have : L'.steps "time" = L.steps "time" := by
      unfold Store.steps
      rw [(ho "time" (Ne.symm he)).1]
    omega

theorem Held.new {r : Int} {name : String} {t : Nat} {w : Writer} {L : Store α} (h : Inv l enc spec q tm r name (t + 1) w L) :
    Held l enc spec q tm r (t, name) L := by
  unfold Inv at h
  unfold Held HeldVals slotRest slotChunks
  by_cases hn : name = "time"
  · subst hn
    simp only [if_true] at h ⊢
    refine ⟨?_, ?_⟩
    · intro h0
      rw [if_pos h0] at h
      exact h.2.2 t (Nat.lt_succ_self t)
    · intro h0
      rw [if_pos h0] at h
      exact ⟨t + 1, _, Nat.lt_succ_self t, (h.1.later (by omega)).2.1⟩
  · simp only [if_neg hn] at h ⊢
    refine ⟨fun rel hrel => h.2 t (Nat.lt_succ_self t) rel hrel, ?_⟩
    intro h0
    rw [if_pos h0] at h
    exact ⟨t + 1, _, Nat.lt_succ_self t, (h.1.1.later (by omega)).2⟩

theorem done_tracks {r : Int} (hr : 0 ≤ r) : Tracks (Inv l enc spec q tm r) (During l enc spec q tm r) (DoneSo l enc spec q tm r) := by
  refine ⟨?_, ?_, ?_⟩
  · intro pre c L h
    refine ⟨h.1, fun h0 j hj => ?_⟩
    have := h.2 h0 j hj
    simp only [Option.toList_none, List.append_nil] at this
    exact List.mem_append_left _ this
  · intro pre name t L L1 h hp hd
    refine ⟨fun s hs => (h.1 s hs).keep hr (hp s hs) hd, ?_⟩
    rintro rfl j hj
    rcases hd.steps j hj with hj | ⟨rfl, rfl⟩
    · have := h.2 rfl j hj
      simp only [Option.toList_none, List.append_nil] at this
      exact List.mem_append_left _ this
    · exact List.mem_append_right _ (by simp)
  · rintro pre name t L L' h hp hd - ⟨w, hw⟩ -
    refine ⟨?_, ?_⟩
    · intro s hs
      rcases List.mem_append.1 hs with hs | hs
      · exact (h.1 s hs).keep hr (hp s hs) hd
      · rw [List.mem_singleton] at hs
        subst hs
        exact Held.new hw
    · rintro rfl j hj
      rw [Option.toList_none, List.append_nil]
      rcases hd.steps j hj with hj | ⟨rfl, rfl⟩
      · have := h.2 rfl j hj
        simp only [Option.toList_none, List.append_nil] at this
        exact List.mem_append_left _ this
      · exact List.mem_append_right _ (by simp)

/-- All slots of a recording, in the order in which they are stored. -/
def allSlots (k : Nat) (vars : List String) : List Slot :=
  (List.range' 0 k).flatMap fun i => (("time" :: vars).mergeSort fun a b => decide (a ≤ b)).map fun name => (i, name)

theorem inv_start (r : Int) (name : String) : Inv l enc spec q tm r name 0 { name := name } Store.empty := by
  unfold Inv
  split_ifs with h1 h2
  · subst h1
    exact ⟨⟨rfl, rfl, fun _ => ⟨rfl, rfl⟩, by simp⟩, fun _ => rfl, fun t' ht => absurd ht (by omega)⟩
  · subst h1
    exact ⟨rfl, rfl, by simp⟩
  · exact ⟨⟨⟨rfl, rfl, fun _ => ⟨rfl, rfl⟩, by simp⟩, rfl⟩, fun t' ht => absurd ht (by omega)⟩
  · exact ⟨⟨rfl, rfl, by simp⟩, fun t' ht => absurd ht (by omega)⟩

/-- The whole run, and what is stored on the way. -/
theorem record_runsI (hrec : Recording l k vars spec q tm st) (hv : vars.Nodup) :
    ∃ (G : List GItem) (n : Int → Nat) (fin : Int → Store α),
      G.map sig = (allSlots k vars).flatMap (fun s => slotSigs spec s.2 s.1) ∧
      ∀ r ∈ (Comm.cube l).ranks,
        RunsI (slotOwner l spec) (Amid (slotSigs spec) (DoneSo l enc spec q tm r) [] (allSlots k vars)) r (· = .ok ()) (fin r)
          (recordAll l enc junk k st r) (n r) Store.empty [] G := by
  have h0 : (0 : Int) ∈ (Comm.cube l).ranks := (mem_ranks (.cube l) 0).2 ⟨by omega, comm_size_pos (c := .cube l) hrec.safe⟩
  have hall : ("time" :: vars).Nodup := List.nodup_cons.2 ⟨hrec.notime, hv⟩
  have hrun : ∀ r ∈ (Comm.cube l).ranks, _ := fun r hr =>
    storeAll_runsI (own := slotOwner l spec) (r := r) (l := l) (enc := enc) (junk := junk) (sigs := slotSigs spec)
      (inv_local l enc spec q tm r) (done_tracks ((mem_ranks _ _).1 hr).1) hall (List.mem_cons_self ..) (fun t => st t r) k 0
      (by
        intro i _ hi
        rw [Nat.zero_add] at hi
        refine ⟨fun name hn => append_during hrec hr hi hn, hrec.dict i r hi hr, ?_⟩
        intro name
        rw [hrec.names i r hi hr, List.mem_cons])
      Store.empty (by
        intro name hn
        rw [if_pos hn]
        exact ⟨_, inv_start r name⟩)
      [] ⟨fun _ h => absurd h List.not_mem_nil, fun _ j hj => absurd hj (by simp [Store.steps, Store.empty])⟩
      (fun _ h => absurd h List.not_mem_nil)
  have hready : ∀ r, Ready (Inv l enc spec q tm r) ("time" :: vars) 0 Store.empty none :=
    fun r => .inr ⟨rfl, rfl, fun name _ => inv_start r name⟩
  have hroot := hrun 0 h0
  unfold Follows at hroot
  rw [if_pos rfl] at hroot
  obtain ⟨G, hG, hroot⟩ := hroot
  have hex : ∀ r, ∃ n L', r ∈ (Comm.cube l).ranks →
      RunsI (slotOwner l spec) (Amid (slotSigs spec) (DoneSo l enc spec q tm r) [] (allSlots k vars)) r (· = .ok ()) L'
        (recordAll l enc junk k st r) n Store.empty [] G := by
    intro r
    by_cases hr : r ∈ (Comm.cube l).ranks
    · have h1 : ∃ n L', Arrays (Inv l enc spec q tm r) ("time" :: vars) ("time" :: vars) (0 + k) L' ∧
          ∀ m, Ready (Inv l enc spec q tm r) ("time" :: vars) 0 Store.empty m →
          RunsI (slotOwner l spec) (Amid (slotSigs spec) (DoneSo l enc spec q tm r) [] (allSlots k vars)) r (· = .ok ()) L'
            (storeAll l enc junk r m ((List.range' 0 k).map fun t => st t r)) n Store.empty [] G := by
        by_cases hz : r = 0
        · subst hz; exact hroot
        · have := hrun r hr
          unfold Follows at this
          rw [if_neg hz] at this
          exact this G hG
      obtain ⟨n, L', -, hR⟩ := h1
      refine ⟨n, L', fun _ => ?_⟩
      unfold recordAll
      rw [if_pos hr, List.range_eq_range']
      exact hR none (hready r)
    · exact ⟨0, Store.empty, fun h => absurd h hr⟩
  choose n fin hfin using hex
  refine ⟨G, n, fin, ?_, hfin⟩
  rw [hG]
  unfold allSlots
  rw [List.flatMap_assoc]
  simp only [List.flatMap_map]

/-! ### Counting -/

/-- The slots around the time of step `m`. -/
theorem allSlots_split (hnt : "time" ∉ vars) {m : Nat} (hm : m < k) :
    ∃ S1 S2, allSlots k vars = S1 ++ (m, "time") :: S2 ∧ (∀ s ∈ S1, s.1 ≤ m) ∧
      (∀ name ∈ vars, ∀ t, t < m ∨ (t = m ∧ name < "time") → (t, name) ∈ S1) ∧ ∀ t, t < m → (t, "time") ∈ S1 := by
  have hsort : List.Pairwise (fun a b => decide (a ≤ b) = true) (("time" :: vars).mergeSort fun a b => decide (a ≤ b)) := by
    refine List.pairwise_mergeSort ?_ ?_ _
    · intro a b c h1 h2
      simp only [decide_eq_true_eq] at *
      exact String.le_trans h1 h2
    · intro a b
      simp only [Bool.or_eq_true, decide_eq_true_eq]
      exact String.le_total a b
  have hmem : ∀ name, name ∈ ("time" :: vars).mergeSort (fun a b => decide (a ≤ b)) ↔ name = "time" ∨ name ∈ vars := by
    intro name; rw [List.mem_mergeSort, List.mem_cons]
  unfold allSlots
  generalize ("time" :: vars).mergeSort (fun a b => decide (a ≤ b)) = names at hsort hmem
  obtain ⟨A, B, rfl⟩ := List.append_of_mem ((hmem "time").2 (.inl rfl))
  have hk : List.range' 0 k = List.range' 0 m ++ m :: List.range' (m + 1) (k - m - 1) := by
    have : k = m + ((k - m - 1) + 1) := by omega
    conv => lhs; rw [this]
    rw [← List.range'_append_1, List.range'_succ, Nat.zero_add]
  refine ⟨(List.range' 0 m).flatMap (fun i => (A ++ "time" :: B).map fun name => (i, name)) ++ A.map (fun name => (m, name)),
    B.map (fun name => (m, name)) ++ (List.range' (m + 1) (k - m - 1)).flatMap fun i => (A ++ "time" :: B).map fun name => (i, name),
    ?_, ?_, ?_, ?_⟩
  · rw [hk, List.flatMap_append, List.flatMap_cons, List.map_append, List.map_cons]
    simp only [List.append_assoc, List.cons_append]
  · intro s hs
    rcases List.mem_append.1 hs with hs | hs
    · obtain ⟨i, hi, hs⟩ := List.mem_flatMap.1 hs
      obtain ⟨nm, -, rfl⟩ := List.mem_map.1 hs
      have := List.mem_range'_1.1 hi
      simp only
      omega
    · obtain ⟨nm, -, rfl⟩ := List.mem_map.1 hs
      exact Nat.le_refl _
  · rintro name hn t (ht | ⟨rfl, hlt⟩)
    · refine List.mem_append_left _ (List.mem_flatMap.2 ⟨t, List.mem_range'_1.2 ⟨by omega, by omega⟩, ?_⟩)
      exact List.mem_map.2 ⟨name, (hmem name).2 (.inr hn), rfl⟩
    · refine List.mem_append_right _ (List.mem_map.2 ⟨name, ?_, rfl⟩)
      rcases List.mem_append.1 ((hmem name).2 (.inr hn)) with h | h
      · exact h
      · exfalso
        rcases List.mem_cons.1 h with rfl | h
        · exact hnt hn
        · have := (List.pairwise_cons.1 (List.pairwise_append.1 hsort).2.1).1 name h
          simp only [decide_eq_true_eq] at this
          exact absurd hlt (String.not_lt.2 this)
  · intro t ht
    refine List.mem_append_left _ (List.mem_flatMap.2 ⟨t, List.mem_range'_1.2 ⟨by omega, by omega⟩, ?_⟩)
    exact List.mem_map.2 ⟨"time", (hmem "time").2 (.inl rfl), rfl⟩

theorem append_split {A : Type} {S1 S2 pre post : List A} {x : A} (h : S1 ++ x :: S2 = pre ++ post) :
    (∃ pre2, pre = S1 ++ x :: pre2) ∨ (pre = S1 ∧ post = x :: S2) ∨ ∃ y c', S1 = pre ++ y :: c' ∧ post = y :: (c' ++ x :: S2) := by
  rcases List.append_eq_append_iff.1 h with ⟨a', h1, h2⟩ | ⟨c', h1, h2⟩
  · cases a' with
    | nil =>
      right; left
      exact ⟨by simpa using h1, by simpa using h2.symm⟩
    | cons a a' =>
      left
      rw [List.cons_append] at h2
      injection h2 with h2 h3
      subst h2
      exact ⟨a', h1⟩
  · cases c' with
    | nil =>
      right; left
      exact ⟨by simpa using h1.symm, by simpa using h2⟩
    | cons y c' => exact .inr (.inr ⟨y, c', h1, h2⟩)

theorem timeSigs_split (t : Nat) : ∃ c, timeSigs "time" t = c ++ [(.barrier, none)] ∧ 0 < c.length := by
  unfold timeSigs
  exact ⟨(if t = 0 then [arraySig "time" [1] [1024]] else []) ++ [arraySig "time" [t + 1] [1024]], by simp, by simp⟩

/-- How many collectives the slots take. -/
def cost (spec : String → VarSpec) (S : List Slot) : Nat := (S.flatMap fun s => slotSigs spec s.2 s.1).length

theorem cost_append (S S' : List Slot) : cost spec (S ++ S') = cost spec S + cost spec S' := by
  unfold cost; rw [List.flatMap_append, List.length_append]

theorem cost_cons (s : Slot) (S : List Slot) : cost spec (s :: S) = (slotSigs spec s.2 s.1).length + cost spec S := by
  unfold cost; rw [List.flatMap_cons, List.length_append]

/-- What is stored, on all ranks, when the array of times has `n` entries. -/
theorem crash_held {buf : Nat → Bool} (hrec : Recording l k vars spec q tm st) (hv : vars.Nodup) {sched : List Int}
    {A : World α (Py Unit)}
    (hA : (World.start (recordAll l enc junk k st) Store.empty).run buf (Comm.cube l).ranks sched = some A) {m : Nat}
    (hm : m + 2 = A.store.steps "time") :
    ∃ L : Int → Store α, A.store.infos = (L 0).infos ∧
      (∀ r ∈ (Comm.cube l).ranks, ∀ name ci, slotOwner l spec name ci = r → A.store.chunks name ci = (L r).chunks name ci) ∧
      (∀ r ∈ (Comm.cube l).ranks, ∀ name ∈ vars, ∀ t, t < m ∨ (t = m ∧ name < "time") → Held l enc spec q tm r (t, name) (L r)) ∧
      ∀ t, t ≤ m → Held l enc spec q tm 0 (t, "time") (L 0) := by
  have h0 : (0 : Int) ∈ (Comm.cube l).ranks := (mem_ranks (.cube l) 0).2 ⟨by omega, comm_size_pos (c := .cube l) hrec.safe⟩
  obtain ⟨G, n, fin, hG, hrun⟩ := record_runsI (enc := enc) (junk := junk) hrec hv
  have hmid0 := Mid.start (S0 := Store.empty) (procs := recordAll l enc junk k st) (res := fun _ => (.ok () : Py Unit)) hrun (by
    intro r hr
    unfold recordAll
    rw [if_neg hr]) (fun _ _ _ => rfl)
  obtain ⟨m', L, kn', hmid, -⟩ := Mid.run h0 (ranks_nodup _) sched _ _ _ _ A hmid0 hA
  have hgate := World.Gated.run sched _ A (World.Gated.start (Comm.cube l).ranks (recordAll l enc junk k st) Store.empty)
    (fun _ h => by cases h) hA
  have hamid : ∀ r ∈ (Comm.cube l).ranks, Amid (slotSigs spec) (DoneSo l enc spec q tm r) [] (allSlots k vars) (L r) (G.drop (A.left r)) :=
    fun r hr => (hmid.runs r hr).here
  have hlenG : G.length = cost spec (allSlots k vars) := by unfold cost; rw [← hG, List.length_map]
  refine ⟨L, hmid.infos, hmid.mine, ?_⟩
  have hsteps : (L 0).steps "time" = m + 2 := by
    unfold Store.steps at hm ⊢
    rw [← hmid.infos, ← hm]
  -- rank 0
  obtain ⟨pre, post, hS, hl, hu, hgood⟩ := hamid 0 h0
  change _ ≤ cost spec post at hu
  rw [List.nil_append] at hgood
  have hlast := hgood.2 rfl (m + 1) (by omega)
  have hk : m + 1 < k := by
    have hin : ((m + 1, "time") : Slot) ∈ allSlots k vars := by
      rw [hS]
      rcases List.mem_append.1 hlast with h | h
      · exact List.mem_append_left _ h
      · cases post with
        | nil => simp at h
        | cons a post =>
          simp only [List.head?_cons, Option.toList_some, List.mem_singleton] at h
          rw [← h]
          exact List.mem_append_right _ (List.mem_cons_self ..)
    unfold allSlots at hin
    obtain ⟨i, hi, hin⟩ := List.mem_flatMap.1 hin
    obtain ⟨nm, -, he⟩ := List.mem_map.1 hin
    have := List.mem_range'_1.1 hi
    injection he with he
    omega
  obtain ⟨S1, S2, hsplit, hle, hvars, htimes⟩ := allSlots_split (vars := vars) hrec.notime (show m < k by omega)
  have hpre : ∃ pre2, pre = S1 ++ (m, "time") :: pre2 := by
    rcases append_split (hsplit.symm.trans hS) with h | ⟨rfl, rfl⟩ | ⟨y, c', rfl, rfl⟩
    · exact h
    · exfalso
      rcases List.mem_append.1 hlast with h | h
      · have := hle _ h; simp only at this; omega
      · simp only [List.head?_cons, Option.toList_some, List.mem_singleton, Prod.mk.injEq] at h; omega
    · exfalso
      rcases List.mem_append.1 hlast with h | h
      · have := hle _ (List.mem_append_left _ h); simp only at this; omega
      · simp only [List.head?_cons, Option.toList_some, List.mem_singleton] at h
        have := hle _ (List.mem_append_right _ (List.mem_cons_self (a := y))); rw [← h] at this; simp only at this; omega
  obtain ⟨pre2, hpre⟩ := hpre
  obtain ⟨c, hc, hcpos⟩ := timeSigs_split m
  have hslot : slotSigs spec "time" m = c ++ [(.barrier, none)] := hc
  have hslen : (slotSigs spec "time" m).length = c.length + 1 := by rw [hslot]; simp
  have hlenS : G.length = cost spec S1 + (c.length + 1) + cost spec S2 := by
    rw [hlenG, hsplit, cost_append, cost_cons, hslen]
    omega
  obtain ⟨b, hb⟩ : ∃ b, b = cost spec S1 + c.length := ⟨_, rfl⟩
  have hleft : b + 1 ≤ A.left 0 := by
    have e : G.length = cost spec pre + cost spec post := by rw [hlenG, hS, cost_append]
    have e2 : b + 1 ≤ cost spec pre := by
      rw [hpre, cost_append, cost_cons, hslen]
      omega
    rw [List.length_drop] at hu
    have := hmid.lens 0 h0
    have : A.left 0 ≤ (A.log 0).length := Nat.sub_le _ _
    omega
  have hbG : b < G.length := by omega
  have hGb : G[b].coll = .barrier := by
    have h1 : (G.map sig)[b]? = some (.barrier, none) := by
      rw [hG, hsplit, List.flatMap_append, List.flatMap_cons, hslot, List.append_assoc, ← List.append_assoc,
        List.getElem?_append_right (by rw [List.length_append]; exact Nat.le_of_eq hb.symm)]
      have : b - ((S1.flatMap fun s => slotSigs spec s.2 s.1) ++ c).length = 0 := by
        rw [List.length_append, hb]; exact Nat.sub_self _
      rw [this]
      rfl
    rw [List.getElem?_map, List.getElem?_eq_getElem hbG, Option.map_some, Option.some.injEq] at h1
    exact congrArg Prod.fst h1
  have hlog0 : b < (A.log 0).length := by
    have : A.left 0 ≤ (A.log 0).length := Nat.sub_le _ _
    omega
  have hbar0 : (A.log 0)[b]? = some .barrier := by
    rw [List.getElem?_eq_getElem hlog0]
    have := (hmid.logs 0 h0 b _ _ (List.getElem?_eq_getElem hlog0) (List.getElem?_eq_getElem hbG)).2 rfl
    rw [this, hGb]
  have hbar := hgate 0 b (by omega) hbar0
  refine ⟨?_, ?_⟩
  · intro r hr name hn t ht
    have hlen := (List.getElem?_eq_some_iff.1 (hbar r hr)).1
    have hleft' : b ≤ A.left r := by
      unfold World.left
      have : (A.inside r).toNat ≤ 1 := Bool.toNat_le _
      omega
    obtain ⟨pre', post', hS', hl', hu', hgood'⟩ := hamid r hr
    rw [List.nil_append] at hgood'
    change cost spec post'.tail ≤ _ at hl'
    rw [List.length_drop] at hl'
    refine hgood'.1 _ ?_
    rcases append_split (hsplit.symm.trans hS') with ⟨p, rfl⟩ | ⟨rfl, rfl⟩ | ⟨y, c', rfl, rfl⟩
    · exact List.mem_append_left _ (hvars name hn t ht)
    · exact hvars name hn t ht
    · exfalso
      rw [List.tail_cons, cost_append, cost_cons, hslen] at hl'
      omega
  · intro t ht
    refine hgood.1 _ ?_
    rw [hpre]
    by_cases h : t = m
    · subst h
      exact List.mem_append_right _ (List.mem_cons_self ..)
    · exact List.mem_append_left _ (htimes t (by omega))

end

end Zarr
end FV3
