import Verif.Proofs.ZarrBlock
import Verif.Proofs.ZarrRecord

/-!
# A state that is rejected
-/

namespace FV3
namespace Zarr
variable {α A R R' : Type}

/-- Rank 0 returns a `bad` result, another rank waits in a collective. -/
def Fails (own : String → List Nat → Int) (r : Int) (bad : R → Prop) (L' : Store α) (p : Prog α R) (n : Nat) (L : Store α)
    (gs : List GItem) : Prop :=
  if r = 0 then Runs own r bad L' p n L [] gs else Blocks own r L' p n L [] gs

/-- A `ValueError`. -/
def Raised : Py Unit × A → Prop := fun x => x.1 = .error .valueError

section
variable {own : String → List Nat → Int} {r : Int} {L L' L1 L2 : Store α} {n n' : Nat} {gs gs' : List GItem}

theorem Fails.after {Q : R → Prop} {bad : R' → Prop} {p : Prog α R} {f : R → Prog α R'} (h : Runs own r Q L1 p n L [] gs)
    (h' : ∀ x, Q x → Fails own r bad L2 (f x) n' L1 gs') : Fails own r bad L2 (p.bind f) (n + n') L (gs ++ gs') := by
  unfold Fails at *
  by_cases hr : r = 0
  · simp only [if_pos hr] at *
    exact h.bind h'
  · simp only [if_neg hr] at *
    exact h.blocks hr h'

theorem Fails.through {bad : R → Prop} {bad' : R' → Prop} {p : Prog α R} {f : R → Prog α R'} (h : Fails own r bad L1 p n L gs)
    (h' : ∀ x, bad x → ∃ y, f x = .ret y ∧ bad' y) : Fails own r bad' L1 (p.bind f) n L gs := by
  unfold Fails at *
  by_cases hr : r = 0
  · simp only [if_pos hr] at *
    have := h.bind (f := f) (gs' := []) (n' := 0) (L'' := L1) (Q' := bad') (by
      intro x hx
      obtain ⟨y, hy, hb⟩ := h' x hx
      rw [hy]
      exact .ret hb)
    rw [List.append_nil] at this
    exact this
  · simp only [if_neg hr] at *
    exact h.bind f

theorem Runs.wraise {m : WM α A} {f : A → WM α R} {w : Writer} {kn : Known}
    (h : Runs own r (fun x => x.1 = .error .valueError) L1 (m w) n L kn gs) :
    Runs own r (fun x => x.1 = .error .valueError) L1 ((m >>= f) w) n L kn gs := by
  have := h.bind (f := fun x : Py A × Writer => match x.1 with
    | .ok a => f a x.2
    | .error e => (.ret (.error e, x.2) : Prog α (Py R × Writer))) (gs' := []) (n' := 0) (L'' := L1)
    (Q' := fun x => x.1 = .error .valueError) (by
      rintro ⟨x, w'⟩ hx
      simp only at hx
      subst hx
      exact .ret rfl)
  rw [List.append_nil] at this
  exact this
end

section
variable (own : String → List Nat → Int) (r : Int) (l : Layout) (enc : Int → α) (junk : List Nat → α)
  (inv : String → Nat → Writer → Store α → Prop)

/-- Appending the entry of step `t` fails. -/
def AppendBad (s : State α) (name : String) (t : Nat) (sg : List Sig) (kept : Store α → Prop) : Prop :=
  ∃ e, s.get? name = some e ∧ ∀ L, (∃ w, inv name t w L) → Follows r sg fun gs =>
    ∃ n L', Only name L L' ∧ kept L' ∧ ∀ w, inv name t w L → Fails own r Raised L' (appendEntry l enc junk r name e w) n L gs

variable {own r l enc junk inv} {sigs : String → Nat → List Sig}

theorem storeLoop_fails (hloc : Local inv) {s : State α} {t : Nat} {all : List String} {bad : String} {sg : List Sig}
    {kept : Store α → Prop} (hbad : AppendBad own r l enc junk inv s bad t sg kept) (hbin : bad ∈ all) (post : List String) :
    ∀ (pre : List String), (∀ name ∈ pre, AppendOk own r l enc junk inv sigs s name t) →
      (∀ name ∈ pre, name ∈ all) → (pre ++ bad :: post).Nodup → ∀ (L : Store α),
      Arrays inv all (pre ++ bad :: post) t L → Follows r ((pre.flatMap fun name => sigs name t) ++ sg) fun gs =>
        ∃ n L', kept L' ∧ (∀ name ∈ all, name ≠ bad → ∃ w, inv name (if name ∈ post then t else t + 1) w L') ∧
          ∀ ws, Writers inv all (pre ++ bad :: post) t ws L →
          Fails own r Raised L' (storeLoop l enc junk r s (pre ++ bad :: post) ws) n L gs
  | [], _, _, hnd, L, hL => by
    obtain ⟨e, he, hstep⟩ := hbad
    have hi := hL bad hbin
    rw [if_pos (by simp)] at hi
    rw [List.flatMap_nil, List.nil_append]
    refine (hstep L hi).mono ?_
    rintro gs ⟨n, L', honly, hk, hrun⟩
    refine ⟨n, L', hk, ?_, ?_⟩
    · intro nm hnm hne
      obtain ⟨w, hw⟩ := hL nm hnm
      refine ⟨w, hloc _ _ _ _ _ ?_ (honly nm hne).1 (honly nm hne).2⟩
      rw [List.nil_append] at hw
      simpa [hne] using hw
    · intro ws hws
      obtain ⟨w, hw, hiw⟩ := hws.inv bad hbin
      rw [if_pos (by simp)] at hiw
      rw [List.nil_append, storeLoop, he, hw]
      refine (hrun w hiw).through ?_
      rintro ⟨x, w'⟩ hx
      unfold Raised at hx
      simp only at hx
      subst hx
      exact ⟨_, rfl, rfl⟩
  | name :: pre, happ, hall, hnd, L, hL => by
    have hin := hall name (List.mem_cons_self ..)
    obtain ⟨e, he, hstep⟩ := happ name (List.mem_cons_self ..)
    have hi := hL name hin
    rw [if_pos (by simp)] at hi
    rw [List.flatMap_cons, List.append_assoc]
    rw [List.cons_append] at hnd
    obtain ⟨hnin, hnd'⟩ := List.nodup_cons.1 hnd
    have hif : ∀ nm, nm ≠ name → (if nm ∈ name :: pre ++ bad :: post then t else t + 1) =
        if nm ∈ pre ++ bad :: post then t else t + 1 := by
      intro nm h; simp [h]
    refine (hstep L hi).seq ?_
    rintro gs1 ⟨n1, L1, honly, hex, hrun1⟩
    have hL1 : Arrays inv all (pre ++ bad :: post) t L1 := by
      intro nm hnm
      by_cases h : nm = name
      · subst h
        rw [if_neg hnin]
        exact hex
      · obtain ⟨w0, hi0⟩ := hL nm hnm
        rw [hif nm h] at hi0
        exact ⟨w0, hloc _ _ _ _ _ hi0 (honly nm h).1 (honly nm h).2⟩
    refine (storeLoop_fails hloc hbad hbin post pre (fun nm h => happ nm (List.mem_cons_of_mem _ h))
      (fun nm h => hall nm (List.mem_cons_of_mem _ h)) hnd' L1 hL1).mono ?_
    rintro gs2 ⟨n2, L2, hk, hL2, hrun2⟩
    refine ⟨n1 + n2, L2, hk, hL2, ?_⟩
    intro ws hws
    have hmem : name ∈ ws.keys := (hws.keys name).2 hin
    obtain ⟨w, hw, hiw⟩ := hws.inv name hin
    rw [if_pos (by simp)] at hiw
    rw [List.cons_append, storeLoop, he, hw]
    refine Fails.after (hrun1 w hiw) ?_
    rintro ⟨x, w'⟩ ⟨a, hx, hw'⟩
    simp only at hx hw'
    subst hx
    refine hrun2 _ ⟨?_, ?_⟩
    · intro nm
      rw [Dict.keys_set, if_pos hmem]
      exact hws.keys nm
    · intro nm hnm
      by_cases h : nm = name
      · subst h
        exact ⟨w', Dict.get?_set_self _ _ _, by rw [if_neg hnin]; exact hw'⟩
      · obtain ⟨w0, hw0, hi0⟩ := hws.inv nm hnm
        refine ⟨w0, by rw [Dict.get?_set_ne _ _ h]; exact hw0, ?_⟩
        rw [hif nm h] at hi0
        exact hloc _ _ _ _ _ hi0 (honly nm h).1 (honly nm h).2

/-- A name among sorted names. -/
theorem sorted_split {all : List String} (hall : all.Nodup) {bad : String} (hb : bad ∈ all) :
    ∃ pre post, all.mergeSort (fun a b => decide (a ≤ b)) = pre ++ bad :: post ∧ (pre ++ bad :: post).Nodup ∧
      (∀ name ∈ pre, name ≤ bad ∧ name ≠ bad) ∧ ∀ name ∈ post, ¬ name ≤ bad := by
  have tr : ∀ a b c : String, decide (a ≤ b) = true → decide (b ≤ c) = true → decide (a ≤ c) = true := by
    intro a b c h1 h2
    simp only [decide_eq_true_eq] at *
    exact String.le_trans h1 h2
  have tot : ∀ a b : String, (decide (a ≤ b) || decide (b ≤ a)) = true := by
    intro a b
    simp only [Bool.or_eq_true, decide_eq_true_eq]
    exact String.le_total a b
  have hp := List.pairwise_mergeSort tr tot all
  have hnd := (List.mergeSort_perm all (fun a b => decide (a ≤ b))).nodup_iff.2 hall
  have hm : bad ∈ all.mergeSort (fun a b => decide (a ≤ b)) := List.mem_mergeSort.2 hb
  obtain ⟨pre, post, he⟩ := List.append_of_mem hm
  rw [he] at hp hnd
  refine ⟨pre, post, he, hnd, ?_, ?_⟩
  · intro name hn
    have h1 := (List.pairwise_append.1 hp).2.2 name hn bad (List.mem_cons_self ..)
    simp only [decide_eq_true_eq] at h1
    refine ⟨h1, ?_⟩
    rintro rfl
    exact (List.nodup_append.1 hnd).2.2 name hn name (List.mem_cons_self ..) rfl
  · intro name hn hle
    have h1 := (List.pairwise_cons.1 (List.pairwise_append.1 hp).2.1).1 name hn
    simp only [decide_eq_true_eq] at h1
    have := String.le_antisymm hle h1
    subst this
    exact (List.nodup_cons.1 (List.nodup_append.1 hnd).2.1).1 hn

/-- Names that come before `bad`. -/
def before (all : List String) (bad : String) : List String :=
  (all.mergeSort fun a b => decide (a ≤ b)).takeWhile (· ≠ bad)

theorem before_eq {pre post : List String} {bad : String} (h : ∀ name ∈ pre, name ≠ bad) :
    (pre ++ bad :: post).takeWhile (· ≠ bad) = pre := by
  rw [List.takeWhile_append_of_pos (by simpa using h)]
  simp

theorem store_fails (hloc : Local inv) {s : State α} {t : Nat} {all : List String} (hall : all.Nodup) (htime : "time" ∈ all)
    {bad : String} (hbin : bad ∈ all) {sg : List Sig} {kept : Store α → Prop}
    (hbad : AppendBad own r l enc junk inv s bad t sg kept)
    (happ : ∀ name ∈ all, name ≤ bad → name ≠ bad → AppendOk own r l enc junk inv sigs s name t)
    (hk : s.keys.Nodup) (hs : ∀ name, name ∈ s.keys ↔ name ∈ all) {L : Store α} (hL : Arrays inv all all t L) :
    Follows r (((before all bad).flatMap fun name => sigs name t) ++ sg) fun gs =>
      ∃ n L', kept L' ∧ (∀ name ∈ all, name ≠ bad → ∃ w, inv name (if name ≤ bad then t + 1 else t) w L') ∧
        ∀ m, Ready inv all t L m → Fails own r Raised L' (store l enc junk r m s) n L gs := by
  have hmem : ∀ name, name ∈ all.mergeSort (fun a b => decide (a ≤ b)) ↔ name ∈ all := fun name => List.mem_mergeSort
  have hiff : ∀ name, (if name ∈ all.mergeSort (fun a b => decide (a ≤ b)) then t else t + 1) = if name ∈ all then t else t + 1 := by
    intro name; simp only [hmem]
  have hL' : Arrays inv all (all.mergeSort fun a b => decide (a ≤ b)) t L := by
    intro name hn; rw [hiff]; exact hL name hn
  obtain ⟨pre, post, he, hnd, hpre, hpost⟩ := sorted_split hall hbin
  have hb : before all bad = pre := by
    unfold before
    rw [he, before_eq fun name h => (hpre name h).2]
  have hinn : ∀ name ∈ pre, name ∈ all := by
    intro name h
    rw [← hmem, he]
    exact List.mem_append_left _ h
  rw [hb]
  refine (storeLoop_fails hloc hbad hbin post pre (fun name h => happ name (hinn name h) (hpre name h).1 (hpre name h).2) hinn hnd L
    (he ▸ hL')).mono ?_
  rintro gs ⟨n, L', hkept, hA, hrun⟩
  refine ⟨n, L', hkept, ?_, ?_⟩
  · intro name hn hne
    obtain ⟨w, hw⟩ := hA name hn hne
    refine ⟨w, ?_⟩
    have hm := (hmem name).2 hn
    rw [he, List.mem_append, List.mem_cons] at hm
    rcases hm with h | h | h
    · have hnp : name ∉ post := fun hp => hpost name hp (hpre name h).1
      rw [if_neg hnp] at hw
      rw [if_pos (hpre name h).1]
      exact hw
    · exact absurd h hne
    · rw [if_pos h] at hw
      rw [if_neg (hpost name h)]
      exact hw
  · intro m hm
    obtain ⟨ws, hws, hW⟩ := hm.ensure htime hs
    unfold store
    rw [hws, sorted_names hall hk hs]
    have hW' : Writers inv all (pre ++ bad :: post) t ws L := by
      rw [← he]
      exact ⟨hW.keys, fun name hn => by rw [hiff]; exact hW.inv name hn⟩
    have := hrun ws hW'
    rw [← he] at this
    refine this.through ?_
    rintro ⟨x, ws'⟩ hx
    exact ⟨_, rfl, hx⟩

theorem storeAll_fails (hloc : Local inv) {all : List String} (hall : all.Nodup) (htime : "time" ∈ all)
    (st : Nat → State α) {bad : String} (hbin : bad ∈ all) {sg : List Sig} {kept : Store α → Prop} :
    ∀ (k t : Nat), (∀ i, t ≤ i → i < t + k → (∀ name ∈ all, AppendOk own r l enc junk inv sigs (st i) name i) ∧
        (st i).keys.Nodup ∧ ∀ name, name ∈ (st i).keys ↔ name ∈ all) →
      AppendBad own r l enc junk inv (st (t + k)) bad (t + k) sg kept →
      (∀ name ∈ all, name ≤ bad → name ≠ bad → AppendOk own r l enc junk inv sigs (st (t + k)) name (t + k)) →
      (st (t + k)).keys.Nodup → (∀ name, name ∈ (st (t + k)).keys ↔ name ∈ all) →
      ∀ (L : Store α), Arrays inv all all t L →
      Follows r (((List.range' t k).flatMap fun i =>
          (all.mergeSort fun a b => decide (a ≤ b)).flatMap fun name => sigs name i) ++
            (((before all bad).flatMap fun name => sigs name (t + k)) ++ sg)) fun gs =>
        ∃ n L', kept L' ∧ (∀ name ∈ all, name ≠ bad → ∃ w, inv name (if name ≤ bad then t + k + 1 else t + k) w L') ∧
          ∀ m, Ready inv all t L m →
          Fails own r (fun x => x = .error .valueError) L'
            (storeAll l enc junk r m ((List.range' t (k + 1)).map st)) n L gs
  | 0, t, _, hbad, happ, hk, hs, L, hL => by
    rw [List.range'_zero, List.flatMap_nil, List.nil_append]
    refine (store_fails hloc hall htime hbin hbad happ hk hs hL).mono ?_
    rintro gs ⟨n, L', hkept, hA, hrun⟩
    refine ⟨n, L', hkept, hA, ?_⟩
    intro m hm
    rw [List.range'_succ, List.map_cons, storeAll]
    refine (hrun m hm).through ?_
    rintro ⟨x, ws'⟩ hx
    unfold Raised at hx
    simp only at hx
    subst hx
    exact ⟨_, rfl, rfl⟩
  | k + 1, t, hst, hbad, happ, hk, hs, L, hL => by
    rw [List.range'_succ, List.flatMap_cons, List.append_assoc]
    obtain ⟨h1, h2, h3⟩ := hst t (Nat.le_refl _) (by omega)
    have e : t + (k + 1) = t + 1 + k := by omega
    rw [e] at hbad happ hk hs ⊢
    refine (store_runs hloc hall htime h1 h2 h3 hL).seq ?_
    rintro gs1 ⟨n1, L1, hL1, hrun1⟩
    refine (storeAll_fails hloc hall htime st hbin k (t + 1) (fun i hi hi' => hst i (by omega) (by omega)) hbad happ hk hs L1 hL1).mono ?_
    rintro gs2 ⟨n2, L2, hkept, hL2, hrun2⟩
    refine ⟨n1 + n2, L2, hkept, hL2, ?_⟩
    intro m hm
    rw [List.range'_succ, List.map_cons, storeAll]
    refine Fails.after (hrun1 m hm) ?_
    rintro ⟨x, m'⟩ ⟨hx, hm'⟩
    simp only at hx hm'
    subst hx
    exact hrun2 m' hm'
end

/-! ### The entries that are rejected -/

section
variable {own : String → List Nat → Int} {l : Layout}

theorem tileExtent_of {dims : List Dim} {cells ext tile : List Int} (hR : RankOf dims cells ext) (hT : TileOf l dims cells tile) :
    tileExtentFromRankMetadata dims ext l = tile := by
  apply ext_getD 0
  · rw [tileExtent_length _ _ _ hR.2.1, hT.2.1]
  · intro k hk
    rw [tileExtent_length _ _ _ hR.2.1] at hk
    have h1 := rankOf_getD hR hk
    have h2 := tileExtent_get dims ext l k _ _ (get?_of_lt dims .x hk)
      (get?_of_lt ext 0 (by rw [hR.2.1]; exact hk))
    rw [List.getD_eq_getElem?_getD, h2, Option.getD_some, h1.2, (tileOf_getD hT hk).2.2]
    congr 2
    omega

theorem append_root_bad (junk : List Nat → α) {name : String} {tile : List Int} {chunks : List Nat} {attrs : Attrs} {t : Nat}
    (ht : t ≠ 0) {p : Quantity α} (hp : tileExtentFromRankMetadata p.dims p.extent l = tile) (hne : attrs ≠ attrsOf p)
    {w : Writer} {L : Store α} (hw : RootW name (6 :: tile.map Int.toNat) chunks attrs t w L) :
    Runs own 0 Raised (L.putInfo name ⟨(t + 1) :: 6 :: tile.map Int.toNat, chunks, attrs⟩) (append l junk 0 p w) 3 L [] [] := by
  obtain ⟨ha, hL⟩ := hw.later ht
  unfold append
  rw [WM.self_bind]
  unfold when
  rw [if_neg (by rw [ha]; simp), WM.pure_bind, if_pos (show (0 : Int) = ROOT_RANK from rfl)]
  refine Runs.wraise ?_
  unfold extend
  rw [WM.self_bind, ha]
  simp only [need]
  rw [WM.lift_bind]
  unfold when
  rw [if_pos (by simp [hw.time])]
  unfold growChecked
  rw [WM.self_bind, hp, hw.time]
  refine (resize_runs (kn := []) (h := ⟨name, t :: 6 :: tile.map Int.toNat, chunks⟩)
    (shape := (t + 1) :: 6 :: tile.map Int.toNat)
    (i := ⟨t :: 6 :: tile.map Int.toNat, chunks, attrs⟩) (w := w) hL rfl ?_ ?_).wbind
    (n := 2) (n' := 1) (gs := []) (gs' := []) ?_
  · simp [zip_le_self]
  · exact ⟨rfl, rfl, by simp, rfl⟩
  · rintro hd w' ⟨rfl, rfl⟩
    rw [WM.update_bind]
    unfold ensureCompatibleAttrs
    refine (getAttrs_runs (i := ⟨(t + 1) :: 6 :: tile.map Int.toNat, chunks, attrs⟩)
      (h := { name := name, shape := (t + 1) :: 6 :: tile.map Int.toNat, chunks := chunks })
      (Store.putInfo_get _ _ _)).wbind (n := 1) (n' := 0) (gs := []) (gs' := []) ?_
    rintro a w' ⟨rfl, rfl⟩
    unfold raiseIf
    rw [if_pos hne]
    exact .ret rfl

theorem append_other_bad (junk : List Nat → α) {r : Int} (hr : r ≠ 0) {name : String} {t : Nat}
    (ht : t ≠ 0) (p : Quantity α) {w : Writer} (L : Store α) (hw : OtherW name t w) :
    Blocks own r L (append l junk r p w) 0 L [] [] := by
  unfold append
  rw [WM.self_bind]
  unfold when
  rw [if_neg (fun h => ht (hw.array.1 h)), WM.pure_bind, if_neg (show ¬ r = ROOT_RANK from hr), WM.pure_bind]
  exact .wait

theorem appendTime_root_bad (enc : Int → α) (junk : List Nat → α) {name : String} {t : Nat}
    (ht : t ≠ 0) {t0 tm : ZTime} (hne : tm.calendar ≠ t0.calendar)
    {w : Writer} {L : Store α} (hw : RootT name t0 t w L) :
    ∃ n, Runs own 0 Raised (L.putInfo name ⟨[t + 1], [1024], timeAttrs t0⟩) (appendTime enc junk 0 tm w) n L []
      [⟨.bcast (some name), some ⟨[t + 1], [1024], timeAttrs t0⟩⟩] := by
  obtain ⟨ha, hL, he⟩ := hw.later ht
  unfold appendTime
  rw [WM.self_bind]
  unfold when
  rw [if_neg (by rw [ha]; simp), WM.pure_bind, if_pos (show (0 : Int) = ROOT_RANK from rfl)]
  refine ⟨2 + (2 + 0), (growTime_runs ha hw.time hL []).wbind (gs := []) ?_⟩
  rintro _ w1 rfl
  refine (sync_root (h := ⟨name, [t + 1], [1024]⟩) rfl (Store.putInfo_get _ _ _)).wbind (gs' := []) ?_
  rintro _ w2 rfl
  rw [if_pos (show (0 : Int) = ROOT_RANK from rfl)]
  refine Runs.wraise ?_
  unfold writeTime
  rw [WM.self_bind]
  simp only [need]
  rw [WM.lift_bind]
  refine Runs.wraise ?_
  refine .ret ?_
  show encodeTime _ tm = _
  unfold encodeTime
  simp only [he]
  rw [if_pos hne]

theorem appendTime_other_bad (enc : Int → α) (junk : List Nat → α) {r : Int} (hr : r ≠ 0) {name : String} {t : Nat}
    (ht : t ≠ 0) (tm : ZTime) {w : Writer} (L : Store α) (hw : OtherW name t w) {g : GItem}
    (hg : sig g = arraySig name [t + 1] [1024]) :
    Blocks own r L (appendTime enc junk r tm w) (3 + 0) L [] [g] := by
  obtain ⟨hgc, i0, hgi, hsh, hch⟩ := sig_array hg
  unfold appendTime
  rw [WM.self_bind]
  unfold when
  rw [if_neg (fun h => ht (hw.array.1 h)), WM.pure_bind, if_neg (show ¬ r = ROOT_RANK from hr), WM.pure_bind]
  refine Runs.blocks (gs' := []) hr (sync_other hr hgc hgi) ?_
  rintro ⟨x, w'⟩ ⟨a, hx, -⟩
  simp only at hx
  subst hx
  show Blocks own r L (((if r = ROOT_RANK then writeTime enc junk tm else WM.pure ()) >>= _) w') _ _ _ _
  rw [if_neg (show ¬ r = ROOT_RANK from hr), WM.pure_bind, WM.update_bind]
  exact .wait
end

section
variable {l : Layout} {enc : Int → α} {junk : List Nat → α} {spec : String → VarSpec}
  {q : String → Nat → Int → Quantity α} {tm : Nat → ZTime} {k : Nat} {vars : List String} {st : Nat → Int → State α}

/-- What is left of a variable: it has been extended, no value has changed. -/
def KeptVar (l : Layout) (spec : String → VarSpec) (q : String → Nat → Int → Quantity α) (k : Nat) (name : String) (r : Int)
    (L : Store α) : Prop :=
  (r = 0 → L.infos name = some ⟨(k + 1) :: 6 :: (spec name).tile.map Int.toNat, varChunks (spec name).cells,
    attrsOf (q name 0 0)⟩) ∧ VarData l spec q name r k L

/-- The same for times. -/
def KeptTime (enc : Int → α) (tm : Nat → ZTime) (k : Nat) (r : Int) (L : Store α) : Prop :=
  r = 0 → L.infos "time" = some ⟨[k + 1], [1024], timeAttrs (tm 0)⟩ ∧ TimeData enc tm k L

theorem bad_var (hk : k ≠ 0) {r : Int} {s : State α} {name : String} (hnt : name ≠ "time") {p : Quantity α}
    (hget : s.get? name = some (.qty p))
    (hbad : r = 0 → attrsOf (q name 0 0) ≠ attrsOf p ∧ tileExtentFromRankMetadata p.dims p.extent l = (spec name).tile) :
    AppendBad (slotOwner l spec) r l enc junk (Inv l enc spec q tm r) s name k [] (KeptVar l spec q k name r) := by
  refine ⟨_, hget, ?_⟩
  rintro L ⟨w, hw⟩
  refine Follows.nil ?_
  have e2 : appendEntry l enc junk r name (.qty p) = append l junk r p := by
    unfold appendEntry; rw [if_neg hnt]
  rw [e2]
  unfold Inv at *
  simp only [if_neg hnt] at *
  by_cases h0 : r = 0
  · subst h0
    simp only [if_true] at *
    obtain ⟨hne, htile⟩ := hbad trivial
    refine ⟨3, L.putInfo name ⟨(k + 1) :: 6 :: (spec name).tile.map Int.toNat, varChunks (spec name).cells, attrsOf (q name 0 0)⟩,
      Only.putInfo _ _ _, ⟨fun _ => Store.putInfo_get _ _ _, fun t' ht rel hrel => (hw.2 t' ht rel hrel).congr rfl⟩, ?_⟩
    rintro w' ⟨⟨hw', -⟩, -⟩
    unfold Fails
    rw [if_pos rfl]
    exact append_root_bad junk hk htile hne hw'
  · simp only [if_neg h0] at *
    refine ⟨0, L, fun _ _ => ⟨rfl, rfl⟩, ⟨fun h => absurd h h0, hw.2⟩, ?_⟩
    rintro w' ⟨hw', -⟩
    unfold Fails
    rw [if_neg h0]
    exact append_other_bad junk h0 hk p L hw'

theorem bad_time (hk : k ≠ 0) {r : Int} {s : State α} {t : ZTime}
    (hget : s.get? "time" = some (.time t)) (hbad : r = 0 → t.calendar ≠ (tm 0).calendar) :
    AppendBad (slotOwner l spec) r l enc junk (Inv l enc spec q tm r) s "time" k [arraySig "time" [k + 1] [1024]]
      (KeptTime enc tm k r) := by
  refine ⟨_, hget, ?_⟩
  rintro L ⟨w, hw⟩
  have e2 : appendEntry l enc junk r "time" (.time t) = appendTime enc junk r t := rfl
  rw [e2]
  unfold Inv at *
  simp only [if_true] at *
  unfold Follows Fails
  by_cases h0 : r = 0
  · subst h0
    simp only [if_true] at *
    obtain ⟨n, hrun⟩ := appendTime_root_bad (own := slotOwner l spec) enc junk hk (hbad trivial) hw.1
    refine ⟨[⟨.bcast (some "time"), some ⟨[k + 1], [1024], timeAttrs (tm 0)⟩⟩], rfl, n, L.putInfo "time" ⟨[k + 1], [1024], timeAttrs (tm 0)⟩, Only.putInfo _ _ _,
      fun _ => ⟨Store.putInfo_get _ _ _, fun t' ht => (hw.2.2 t' ht).congr rfl⟩, ?_⟩
    · rintro w' ⟨hw1', hw2', -⟩
      have : w' = w := by
        have h1 := hw.1.named.trans hw1'.named.symm
        have h2 := hw.1.time.trans hw1'.time.symm
        have h3 := (hw.1.later hk).2.2.trans (hw1'.later hk).2.2.symm
        have h4 := (hw.1.later hk).1.trans (hw1'.later hk).1.symm
        cases w
        cases w'
        simp only at h1 h2 h3 h4 ⊢
        rw [h1, h2, h3, h4]
      subst this
      exact hrun
  · simp only [if_neg h0] at *
    intro gs hgs
    rw [List.map_eq_cons_iff] at hgs
    obtain ⟨g, gs1, rfl, hg, hgs⟩ := hgs
    rw [List.map_eq_nil_iff] at hgs
    subst hgs
    refine ⟨3 + 0, L, fun _ _ => ⟨rfl, rfl⟩, fun h => absurd h h0, ?_⟩
    intro w' hw'
    exact appendTime_other_bad enc junk h0 hk t L hw' hg

theorem lt_of_le_ne {a b : String} (h : a ≤ b) (hne : a ≠ b) : a < b := by
  rcases Decidable.em (a < b) with h1 | h1
  · exact h1
  · exact absurd (String.le_antisymm h h1) hne
end

end Zarr
end FV3
