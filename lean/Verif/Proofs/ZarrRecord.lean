import Verif.Proofs.ZarrStore

/-!
# A recording of a run
-/

namespace FV3
namespace Zarr
variable {α : Type}

theorem Holds.congr {L L' : Store α} {name : String} {chunks idx : List Nat} {v : α} (h : Holds L name chunks idx v)
    (he : L'.chunks name = L.chunks name) : Holds L' name chunks idx v := by
  unfold Holds at *
  rw [he]
  exact h

theorem RootW.congr {L L' : Store α} {name : String} {shape chunks : List Nat} {attrs : Attrs} {t : Nat} {w : Writer}
    (h : RootW name shape chunks attrs t w L) (he : L'.infos name = L.infos name) : RootW name shape chunks attrs t w L' :=
  ⟨h.named, h.time, fun h0 => he ▸ h.first h0, fun h0 => he ▸ h.later h0⟩

theorem RootT.congr {L L' : Store α} {name : String} {t0 : ZTime} {t : Nat} {w : Writer}
    (h : RootT name t0 t w L) (he : L'.infos name = L.infos name) : RootT name t0 t w L' :=
  ⟨h.named, h.time, fun h0 => he ▸ h.first h0, fun h0 => he ▸ h.later h0⟩

section
variable (l : Layout) (enc : Int → α) (junk : List Nat → α) (spec : String → VarSpec)
  (q : String → Nat → Int → Quantity α) (tm : Nat → ZTime)

/-- The values rank `r` has stored of a variable. -/
def VarData (name : String) (r : Int) (t : Nat) (L : Store α) : Prop :=
  ∀ t', t' < t → ∀ rel, Stored l (spec name).dims (spec name).cells r rel →
    Holds L name (varChunks (spec name).cells) (t' :: Comm.place (.cube l) (spec name).dims (spec name).cells r rel)
      ((q name t' r).computeArr.get rel)

/-- The times rank 0 has stored. -/
def TimeData (t : Nat) (L : Store α) : Prop :=
  ∀ t', t' < t → Holds L "time" [1024] [t'] (enc ((tm t').seconds - (tm 0).seconds))

/-- Writer and array after `t` steps. -/
def Inv (r : Int) (name : String) (t : Nat) (w : Writer) (L : Store α) : Prop :=
  if name = "time" then
    if r = 0 then RootT "time" (tm 0) t w L ∧ (t = 0 → w.encoding = none) ∧ TimeData enc tm t L
    else OtherW "time" t w
  else
    (if r = 0 then RootW name (6 :: (spec name).tile.map Int.toNat) (varChunks (spec name).cells) (attrsOf (q name 0 0)) t w L ∧
      w.encoding = none else OtherW name t w) ∧ VarData l spec q name r t L

/-- The collectives of a step. -/
def slotSigs (name : String) (t : Nat) : List Sig :=
  if name = "time" then timeSigs "time" t else varSigs name (spec name).tile (spec name).cells t

/-- Who owns which chunk. -/
def slotOwner (name : String) (ci : List Nat) : Int :=
  if name = "time" then 0 else varOwner l (spec name).ky (spec name).kx ci

theorem inv_local (r : Int) : Local (Inv l enc spec q tm r) := by
  intro name t w L L' h hi hc
  unfold Inv at *
  split_ifs at * with h1 h2
  · subst h1
    exact ⟨h.1.congr hi, h.2.1, fun t' ht => (h.2.2 t' ht).congr hc⟩
  · exact h
  · exact ⟨⟨h.1.1.congr hi, h.1.2⟩, fun t' ht rel hrel => (h.2 t' ht rel hrel).congr hc⟩
  · exact ⟨h.1, fun t' ht rel hrel => (h.2 t' ht rel hrel).congr hc⟩

variable {l enc junk spec q tm}

theorem stepped_only {dims : List Dim} {cells : List Int} (name : String) (r : Int) (t : Nat) (v : NDArray α) (L : Store α) :
    Only name L (Stepped junk l dims cells name r t v L) := by
  intro nm hnm
  refine ⟨by unfold Stepped; rw [putChunks_infos], ?_⟩
  funext ci
  exact putChunks_other _ _ _ _ _ _ _ _ _ (.inl hnm)

theorem timeStepped_only (name : String) (t : Nat) (v : α) (L : Store α) : Only name L (TimeStepped junk name t v L) := by
  intro nm hnm
  refine ⟨by unfold TimeStepped; rw [putChunks_infos], ?_⟩
  funext ci
  exact putChunks_other _ _ _ _ _ _ _ _ _ (.inl hnm)

theorem Only.putInfo (name : String) (i : Info) (L : Store α) : Only name L (L.putInfo name i) :=
  fun _ hnm => ⟨Store.putInfo_ne L i hnm, rfl⟩

theorem Only.trans {name : String} {L L' L'' : Store α} (h : Only name L L') (h' : Only name L' L'') : Only name L L'' :=
  fun nm hnm => ⟨(h' nm hnm).1.trans (h nm hnm).1, (h' nm hnm).2.trans (h nm hnm).2⟩

theorem VarSpec.Good.tileVar {v : VarSpec} (h : v.Good l) (hs : FloatSafe l) : TileVar l v.dims v.cells v.tile v.ky v.kx :=
  ⟨hs, h.axes, h.tile, h.cells⟩

theorem VarData.step {name : String} {r : Int} {t : Nat} {L : Store α} (hs : FloatSafe l) (hg : (spec name).Good l)
    (h : VarData l spec q name r t L) {v : NDArray α}
    (hv : ∀ rel, Stored l (spec name).dims (spec name).cells r rel → v.get rel = (q name t r).computeArr.get rel) :
    VarData l spec q name r (t + 1) (Stepped junk l (spec name).dims (spec name).cells name r t v L) := by
  have hT := hg.tileVar hs
  have hlen : (partBox l (spec name).dims (spec name).cells r t).length = (varChunks (spec name).cells).length := by
    rw [partBox_length, varChunks_length hT.tile.1]
  intro t' ht' rel hrel
  by_cases he : t' = t
  · subst he
    have := holds_new junk ⟨name, [], varChunks (spec name).cells⟩ (partBox l (spec name).dims (spec name).cells r t') 2 v L
      hlen (stored_in_box hT hrel t')
    rw [stored_rel hT hrel, hv rel hrel] at this
    exact this
  · have hl : (t' :: Comm.place (.cube l) (spec name).dims (spec name).cells r rel).length = (varChunks (spec name).cells).length := by
      rw [varChunks_length hT.tile.1, place_cube]; simp
    refine holds_keep junk ⟨name, [], varChunks (spec name).cells⟩ _ 2 v hl ?_ (h t' (by omega) rel hrel)
    rw [Bool.eq_false_iff]
    intro hb
    rw [inBox_iff _ _ (hl.trans hlen.symm)] at hb
    have h0 := hb 0 (by rw [partBox_length]; omega)
    simp only [partBox, List.getD_cons_zero] at h0
    omega

theorem TimeData.step {t : Nat} {L : Store α} (h : TimeData enc tm t L) :
    TimeData enc tm (t + 1) (TimeStepped junk "time" t (enc ((tm t).seconds - (tm 0).seconds)) L) := by
  intro t' ht'
  by_cases he : t' = t
  · subst he
    exact holds_new junk ⟨"time", [], [1024]⟩ [(t', t' + 1)] 1 ⟨[], fun _ => enc ((tm t').seconds - (tm 0).seconds)⟩ L
      rfl (idx := [t']) (by simp [boxIdx])
  · refine holds_keep junk ⟨"time", [], [1024]⟩ _ 1 _ (idx := [t']) rfl ?_ (h t' (by omega))
    rw [Bool.eq_false_iff]
    intro hb
    rw [inBox_iff _ _ rfl] at hb
    have h0 := hb 0 (by simp)
    simp at h0
    omega

variable {k : Nat} {vars : List String} {st : Nat → Int → State α}

theorem append_own {own : String → List Nat → Int} (hsafe : FloatSafe l) {r : Int} (hr : r ∈ (Comm.cube l).ranks)
    {t : Nat} {s : State α} {name : String}
    (hown : ∀ ci ∈ partCis l (spec name).dims (spec name).cells r t, own name ci = r) (hgood : (spec name).Good l) (hnt : name ≠ "time") (hget : s.get? name = some (.qty (q name t r)))
    (hshape : (q name t r).RankShaped (spec name).dims (spec name).cells) (hdims : (q name t r).dims = (spec name).dims)
    (hat : r = 0 → attrsOf (q name t 0) = attrsOf (q name 0 0)) :
    AppendOk own r l enc junk (Inv l enc spec q tm r) (slotSigs spec) s name t := by
  have hT := hgood.tileVar hsafe
  have hinv : ∀ t w L, Inv l enc spec q tm r name t w L ↔
    ((if r = 0 then RootW name (6 :: (spec name).tile.map Int.toNat) (varChunks (spec name).cells) (attrsOf (q name 0 0)) t w L ∧
      w.encoding = none else OtherW name t w) ∧ VarData l spec q name r t L) := by
    intro t w L; unfold Inv; rw [if_neg hnt]
  refine ⟨_, hget, ?_⟩
  rintro L ⟨w, hw⟩
  rw [hinv] at hw
  have e1 : slotSigs spec name t = varSigs name (spec name).tile (spec name).cells t := by
    unfold slotSigs; rw [if_neg hnt]
  rw [e1]
  simp only [hinv]
  have e2 : appendEntry l enc junk r name (.qty (q name t r)) = append l junk r (q name t r) := by
    unfold appendEntry; rw [if_neg hnt]
  rw [e2]
  by_cases h0 : r = 0
  · subst h0
    simp only [if_true] at hw ⊢
    have hat := hat rfl
    obtain ⟨⟨hw1, hw2⟩, hdata⟩ := hw
    have hw1' := hw1
    rw [← hat] at hw1'
    obtain ⟨v, hv, n, gs, hgs, hrun⟩ := append_root junk hT hown ⟨hshape, hdims⟩ hw1'
    unfold Follows
    rw [if_pos rfl]
    rw [hat] at hrun
    have hdata' := VarData.step (junk := junk) hsafe hgood (L := L.putInfo name ⟨(t + 1) :: 6 :: (spec name).tile.map Int.toNat, varChunks (spec name).cells, attrsOf (q name 0 0)⟩)
      (h := fun t' ht rel hrel => (hdata t' ht rel hrel).congr rfl) hv
    have hnext : ∀ w' : Writer, w' = { w with
            iTime := t + 1, array := some ⟨name, (t + 1) :: 6 :: (spec name).tile.map Int.toNat, varChunks (spec name).cells⟩ } →
        (RootW name (6 :: (spec name).tile.map Int.toNat) (varChunks (spec name).cells) (attrsOf (q name 0 0)) (t + 1) w'
          (Stepped junk l (spec name).dims (spec name).cells name 0 t v
            (L.putInfo name ⟨(t + 1) :: 6 :: (spec name).tile.map Int.toNat, varChunks (spec name).cells, attrsOf (q name 0 0)⟩)) ∧
      w'.encoding = none) := by
      rintro w' rfl
      refine ⟨⟨hw1.named, rfl, by simp, fun _ => ⟨rfl, ?_⟩⟩, hw2⟩
      unfold Stepped
      rw [putChunks_infos, Store.putInfo_get]
    refine ⟨gs, hgs, n, _, Only.trans (Only.putInfo _ _ _) (stepped_only _ _ _ _ _), ⟨_, hnext _ rfl, hdata'⟩, ?_⟩
    rintro w' ⟨⟨hw1', hw2'⟩, -⟩
    have : w' = w := by
      have ha : w'.array = w.array := by
        by_cases ht : t = 0
        · rw [(hw1.first ht).1, (hw1'.first ht).1]
        · rw [(hw1.later ht).1, (hw1'.later ht).1]
      have h1 := hw1.named.trans hw1'.named.symm
      have h2 := hw1.time.trans hw1'.time.symm
      have h3 := hw2.trans hw2'.symm
      cases w
      cases w'
      simp only at h1 h2 h3 ha ⊢
      rw [h1, h2, h3, ha]
    subst this
    refine hrun.mono ?_
    rintro x ⟨a, ha, hx⟩
    exact ⟨a, ha, hnext _ hx, hdata'⟩
  · simp only [if_neg h0] at hw ⊢
    obtain ⟨v, hv, hrun⟩ := append_other (own := own) junk hT hr h0 hown (t := t) (q := q name t r) ⟨hshape, hdims⟩
    unfold Follows
    rw [if_neg h0]
    intro gs hgs
    obtain ⟨n, hrun⟩ := hrun gs hgs
    have hdata' := VarData.step (junk := junk) hsafe hgood (h := hw.2) hv
    refine ⟨n, _, stepped_only _ _ _ _ _, ⟨⟨name, t + 1, some ⟨name, [], []⟩, none⟩, ⟨rfl, rfl, by simp⟩, hdata'⟩, ?_⟩
    rintro w' ⟨hw', -⟩
    refine (hrun w' L hw').mono ?_
    rintro x ⟨a, ha, hx⟩
    exact ⟨a, ha, hx, hdata'⟩

theorem slotOwner_part (hsafe : FloatSafe l) {r : Int} (hr : r ∈ (Comm.cube l).ranks) {t : Nat}
    {name : String} (hgood : (spec name).Good l) (hnt : name ≠ "time") :
    ∀ ci ∈ partCis l (spec name).dims (spec name).cells r t, slotOwner l spec name ci = r := by
  intro ci hci
  unfold slotOwner
  rw [if_neg hnt]
  exact (hgood.tileVar hsafe).owned ((mem_ranks _ _).1 hr).1 hci

theorem append_var' (hsafe : FloatSafe l) {r : Int} (hr : r ∈ (Comm.cube l).ranks) {t : Nat} {s : State α}
    {name : String} (hgood : (spec name).Good l) (hnt : name ≠ "time") (hget : s.get? name = some (.qty (q name t r)))
    (hshape : (q name t r).RankShaped (spec name).dims (spec name).cells) (hdims : (q name t r).dims = (spec name).dims)
    (hat : r = 0 → attrsOf (q name t 0) = attrsOf (q name 0 0)) :
    AppendOk (slotOwner l spec) r l enc junk (Inv l enc spec q tm r) (slotSigs spec) s name t :=
  append_own hsafe hr (slotOwner_part hsafe hr hgood hnt) hgood hnt hget hshape hdims hat

theorem append_var (hrec : Recording l k vars spec q tm st) {r : Int} (hr : r ∈ (Comm.cube l).ranks) {t : Nat} (ht : t < k)
    {name : String} (hn : name ∈ vars) :
    AppendOk (slotOwner l spec) r l enc junk (Inv l enc spec q tm r) (slotSigs spec) (st t r) name t := by
  obtain ⟨hget, hshape, hdims⟩ := hrec.qty t r ht hr name hn
  refine append_var' hrec.safe hr (hrec.good name hn) (fun h => hrec.notime (h ▸ hn)) hget hshape hdims ?_
  rintro rfl
  have := (hrec.qty 0 0 (by omega) hr name hn).2.2
  unfold attrsOf
  rw [hrec.units t ht name hn, hdims, this]

theorem append_timeI {own : String → List Nat → Int} (hown : ∀ ci, own "time" ci = 0) {r : Int} {t : Nat} {s : State α} (hget : s.get? "time" = some (.time (tm t)))
    (hcal : (tm t).calendar = (tm 0).calendar) :
    AppendOkI own r l enc junk (Inv l enc spec q tm r) (slotSigs spec)
      (fun _ t _ L1 => r = 0 → TimeData enc tm t L1) s "time" t := by
  have hinv : ∀ t w L, Inv l enc spec q tm r "time" t w L ↔
      (if r = 0 then RootT "time" (tm 0) t w L ∧ (t = 0 → w.encoding = none) ∧ TimeData enc tm t L else OtherW "time" t w) := by
    intro t w L; rfl
  refine ⟨_, hget, ?_⟩
  rintro L ⟨w, hw⟩
  rw [hinv] at hw
  show Follows r (timeSigs "time" t) _
  simp only [hinv]
  have e2 : appendEntry l enc junk r "time" (.time (tm t)) = appendTime enc junk r (tm t) := rfl
  rw [e2]
  by_cases h0 : r = 0
  · subst h0
    simp only [if_true] at hw ⊢
    obtain ⟨hw1, hw2, hdata⟩ := hw
    have hdata' := TimeData.step (junk := junk) (L := L.putInfo "time" ⟨[t + 1], [1024], timeAttrs (tm 0)⟩)
      (h := fun t' ht => (hdata t' ht).congr rfl)
    obtain ⟨n, gs, hgs, hrun⟩ := appendTime_root (own := own) (J := fun L1 => True → TimeData enc tm t L1) enc junk hown
      hcal (by rintro rfl; rfl) hw1 (by
        rintro L1 (h | h) -
        · exact fun t' ht => (hdata t' ht).congr (by rw [h])
        · exact fun t' ht => (hdata' t' (by omega)).congr (by rw [h]))
    unfold Follows
    rw [if_pos rfl]
    have hnext : ∀ w' : Writer, w' = { w with
          iTime := t + 1, array := some ⟨"time", [t + 1], [1024]⟩, encoding := some (tm 0) } →
        RootT "time" (tm 0) (t + 1) w'
          (TimeStepped junk "time" t (enc ((tm t).seconds - (tm 0).seconds)) (L.putInfo "time" ⟨[t + 1], [1024], timeAttrs (tm 0)⟩)) ∧
        (t + 1 = 0 → w'.encoding = none) := by
      rintro w' rfl
      refine ⟨⟨hw1.named, rfl, by simp, fun _ => ⟨rfl, ?_, rfl⟩⟩, by simp⟩
      unfold TimeStepped
      rw [putChunks_infos, Store.putInfo_get]
    refine ⟨gs, hgs, n, _, Only.trans (Only.putInfo _ _ _) (timeStepped_only _ _ _ _), ⟨_, (hnext _ rfl).1, (hnext _ rfl).2, hdata'⟩, ?_⟩
    rintro w' ⟨hw1', hw2', -⟩
    have : w' = w := by
      have ha : w'.array = w.array := by
        by_cases ht : t = 0
        · rw [(hw1.first ht).1, (hw1'.first ht).1]
        · rw [(hw1.later ht).1, (hw1'.later ht).1]
      have h1 := hw1.named.trans hw1'.named.symm
      have h2 := hw1.time.trans hw1'.time.symm
      have h3 : w.encoding = w'.encoding := by
        by_cases ht : t = 0
        · rw [hw2 ht, hw2' ht]
        · rw [(hw1.later ht).2.2, (hw1'.later ht).2.2]
      cases w
      cases w'
      simp only at h1 h2 h3 ha ⊢
      rw [h1, h2, h3, ha]
    subst this
    refine hrun.mono ?_
    rintro x ⟨a, ha, hx⟩
    exact ⟨a, ha, (hnext _ hx).1, (hnext _ hx).2, hdata'⟩
  · simp only [if_neg h0] at hw ⊢
    unfold Follows
    rw [if_neg h0]
    intro gs hgs
    obtain ⟨n, hrun⟩ := appendTime_other (own := own) enc junk h0 (tm t) hgs
    refine ⟨n, L, fun _ _ => ⟨rfl, rfl⟩, ⟨⟨"time", t + 1, some ⟨"time", [], []⟩, none⟩, ⟨rfl, rfl, by simp⟩⟩, ?_⟩
    intro w' hw'
    exact (hrun w' L hw').weaken (fun _ _ h => h) (fun _ _ _ h => absurd h h0) fun _ h => h

theorem append_time' {r : Int} {t : Nat} {s : State α} (hget : s.get? "time" = some (.time (tm t)))
    (hcal : (tm t).calendar = (tm 0).calendar) :
    AppendOk (slotOwner l spec) r l enc junk (Inv l enc spec q tm r) (slotSigs spec) s "time" t :=
  (append_timeI (own := slotOwner l spec) (fun _ => rfl) hget hcal).free

theorem append_time (hrec : Recording l k vars spec q tm st) {r : Int} (hr : r ∈ (Comm.cube l).ranks) {t : Nat} (ht : t < k) :
    AppendOk (slotOwner l spec) r l enc junk (Inv l enc spec q tm r) (slotSigs spec) (st t r) "time" t :=
  append_time' (hrec.time t r ht hr) (hrec.calendar t ht)

theorem ranks_nodup (c : Comm) : c.ranks.Nodup := by
  unfold Comm.ranks
  exact List.Nodup.map (fun a b h => Int.ofNat.inj h) List.nodup_range

/-- The whole run. -/
theorem record_runs (hrec : Recording l k vars spec q tm st) (hv : vars.Nodup) :
    ∃ (G : List GItem) (n : Int → Nat) (fin : Int → Store α),
      (∀ r ∈ (Comm.cube l).ranks,
        Runs (slotOwner l spec) r (· = .ok ()) (fin r) (recordAll l enc junk k st r) (n r) Store.empty [] G) ∧
      ∀ r ∈ (Comm.cube l).ranks, ∀ name, name = "time" ∨ name ∈ vars → ∃ w, Inv l enc spec q tm r name k w (fin r) := by
  have h0 : (0 : Int) ∈ (Comm.cube l).ranks := (mem_ranks (.cube l) 0).2 ⟨by omega, comm_size_pos (c := .cube l) hrec.safe⟩
  have hall : ("time" :: vars).Nodup := List.nodup_cons.2 ⟨hrec.notime, hv⟩
  have hstart : ∀ r name, Inv l enc spec q tm r name 0 { name := name } Store.empty := by
    intro r name
    unfold Inv
    split_ifs with h1 h2
    · subst h1
      exact ⟨⟨rfl, rfl, fun _ => ⟨rfl, rfl⟩, by simp⟩, fun _ => rfl, fun t' ht => absurd ht (by omega)⟩
    · subst h1
      exact ⟨rfl, rfl, by simp⟩
    · exact ⟨⟨⟨rfl, rfl, fun _ => ⟨rfl, rfl⟩, by simp⟩, rfl⟩, fun t' ht => absurd ht (by omega)⟩
    · exact ⟨⟨rfl, rfl, by simp⟩, fun t' ht => absurd ht (by omega)⟩
  have hrun : ∀ r ∈ (Comm.cube l).ranks, _ := fun r hr =>
    storeAll_runs (own := slotOwner l spec) (r := r) (l := l) (enc := enc) (junk := junk) (sigs := slotSigs spec)
      (inv_local l enc spec q tm r) hall (List.mem_cons_self ..) (fun t => st t r) k 0
      (by
        intro i _ hi
        rw [Nat.zero_add] at hi
        refine ⟨?_, hrec.dict i r hi hr, ?_⟩
        · intro name hn
          rcases List.mem_cons.1 hn with rfl | hn
          · exact append_time hrec hr hi
          · exact append_var hrec hr hi hn
        · intro name
          rw [hrec.names i r hi hr, List.mem_cons])
      Store.empty (by
        intro name hn
        rw [if_pos hn]
        exact ⟨_, hstart r name⟩)
  have hready : ∀ r, Ready (Inv l enc spec q tm r) ("time" :: vars) 0 Store.empty none :=
    fun r => .inr ⟨rfl, rfl, fun name _ => hstart r name⟩
  have hroot := hrun 0 h0
  unfold Follows at hroot
  rw [if_pos rfl] at hroot
  obtain ⟨G, hG, hroot⟩ := hroot
  have hex : ∀ r, ∃ n L', r ∈ (Comm.cube l).ranks → Arrays (Inv l enc spec q tm r) ("time" :: vars) ("time" :: vars) (0 + k) L' ∧
      Runs (slotOwner l spec) r (· = .ok ()) L' (recordAll l enc junk k st r) n Store.empty [] G := by
    intro r
    by_cases hr : r ∈ (Comm.cube l).ranks
    · have h1 : ∃ n L', Arrays (Inv l enc spec q tm r) ("time" :: vars) ("time" :: vars) (0 + k) L' ∧
          ∀ m, Ready (Inv l enc spec q tm r) ("time" :: vars) 0 Store.empty m →
          Runs (slotOwner l spec) r (· = .ok ()) L' (storeAll l enc junk r m ((List.range' 0 k).map fun t => st t r)) n Store.empty [] G := by
        by_cases hz : r = 0
        · subst hz; exact hroot
        · have := hrun r hr
          unfold Follows at this
          rw [if_neg hz] at this
          exact this G hG
      obtain ⟨n, L', hA, hR⟩ := h1
      refine ⟨n, L', fun _ => ⟨hA, ?_⟩⟩
      unfold recordAll
      rw [if_pos hr, List.range_eq_range']
      exact hR none (hready r)
    · exact ⟨0, Store.empty, fun h => absurd h hr⟩
  choose n fin hfin using hex
  refine ⟨G, n, fin, fun r hr => (hfin r hr).2, ?_⟩
  intro r hr name hn
  have hm : name ∈ "time" :: vars := List.mem_cons.2 hn
  have := (hfin r hr).1 name hm
  rw [if_pos hm, Nat.zero_add] at this
  exact this

/-- It ends. -/
theorem record_completes (buf : Nat → Bool) (hrec : Recording l k vars spec q tm st) (hv : vars.Nodup) :
    ∃ fin : Int → Store α,
      (World.start (recordAll l enc junk k st) Store.empty).Completes buf (Comm.cube l).ranks (fun _ => .ok ())
        (joint (slotOwner l spec) (Comm.cube l).ranks fin) ∧
      ∀ r ∈ (Comm.cube l).ranks, ∀ name, name = "time" ∨ name ∈ vars → ∃ w, Inv l enc spec q tm r name k w (fin r) := by
  have h0 : (0 : Int) ∈ (Comm.cube l).ranks := (mem_ranks (.cube l) 0).2 ⟨by omega, comm_size_pos (c := .cube l) hrec.safe⟩
  obtain ⟨G, n, fin, hrun, hinv⟩ := record_runs (enc := enc) (junk := junk) hrec hv
  refine ⟨fin, completes_of_runs (G := G) buf _ Store.empty n h0 (ranks_nodup _) hrun ?_ ?_, hinv⟩
  · intro r hr
    unfold recordAll
    rw [if_neg hr]
  · intro _ _ _; rfl

/-- Nobody touches what belongs to somebody else. -/
theorem record_owner {buf : Nat → Bool} (hrec : Recording l k vars spec q tm st) (hv : vars.Nodup) {sched : List Int}
    {A : World α (Py Unit)}
    (hA : (World.start (recordAll l enc junk k st) Store.empty).run buf (Comm.cube l).ranks sched = some A) {r : Int}
    {name : String} {ci : List Nat} (h : A.Accesses r name ci) : slotOwner l spec name ci = r := by
  have h0 : (0 : Int) ∈ (Comm.cube l).ranks := (mem_ranks (.cube l) 0).2 ⟨by omega, comm_size_pos (c := .cube l) hrec.safe⟩
  obtain ⟨G, n, fin, hrun, hinv⟩ := record_runs (enc := enc) (junk := junk) hrec hv
  refine owner_of_access (G := G) (res := fun _ => .ok ()) h0 (ranks_nodup _) hrun ?_ ?_ hA h
  · intro r hr
    unfold recordAll
    rw [if_neg hr]
  · intro _ _ _; rfl
end

end Zarr
end FV3
