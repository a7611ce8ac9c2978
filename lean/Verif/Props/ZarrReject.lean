import Verif.Proofs.ZarrReject
import Verif.Props.Zarr

/-!
# What happens when a state is rejected after some steps (C41)
-/

namespace FV3
namespace Zarr
variable {α : Type}

section
variable {l : Layout} {enc : Int → α} {junk : List Nat → α} {spec : String → VarSpec}
  {q : String → Nat → Int → Quantity α} {tm : Nat → ZTime} {k : Nat} {vars : List String} {st : Nat → Int → State α}

/-- Reading what the ranks have stored. -/
theorem read_var (hsafe : FloatSafe l) {name : String} (hgood : (spec name).Good l) (hnt : name ≠ "time") {fin : Int → Store α}
    {K : Nat} (hK : k ≤ K) {attrs : Attrs}
    (hinfo : (fin 0).infos name = some ⟨K :: 6 :: (spec name).tile.map Int.toNat, varChunks (spec name).cells, attrs⟩)
    (hdata : ∀ r ∈ (Comm.cube l).ranks, VarData l spec q name r k (fin r)) :
    ∀ t, t < k → ∀ T, T < 6 → ∀ p, InB ((spec name).tile.map Int.toNat) p →
      ∃ r rel, HighestAt (.cube l) (spec name).dims (spec name).cells (rankShape (spec name).dims (spec name).cells) r rel ∧
        (Comm.cube l).place (spec name).dims (spec name).cells r rel = T :: p ∧
        (joint (slotOwner l spec) (Comm.cube l).ranks fin).read name (t :: T :: p) = some ((q name t r).computeArr.get rel) := by
  have hT := hgood.tileVar hsafe
  intro t ht T hT6 p hp
  obtain ⟨r, rel, hh, hplace, hst⟩ := responsible hT hT6 hp
  refine ⟨r, rel, hh, hplace, ?_⟩
  obtain ⟨c, hc, hval⟩ := hdata r hh.1 t ht rel hst
  have hown : slotOwner l spec name (chunkOf (varChunks (spec name).cells)
      (t :: Comm.place (.cube l) (spec name).dims (spec name).cells r rel)) = r := by
    unfold slotOwner
    rw [if_neg hnt]
    refine hT.owned ((mem_ranks _ _).1 hh.1).1 (chunkOf_mem _ _ _ ?_ (stored_in_box hT hst t))
    rw [partBox_length, varChunks_length hT.tile.1]
  rw [hplace] at hc hval hown
  have hin : InB (K :: 6 :: (spec name).tile.map Int.toNat) (t :: T :: p) := ⟨by omega, hT6, hp⟩
  unfold Store.read
  simp only [joint]
  rw [hinfo]
  simp only [Option.bind_some]
  rw [if_pos hin]
  show (if slotOwner l spec name (chunkOf (varChunks (spec name).cells) (t :: T :: p)) ∈ (Comm.cube l).ranks then
    (fin (slotOwner l spec name (chunkOf (varChunks (spec name).cells) (t :: T :: p)))).chunks name
      (chunkOf (varChunks (spec name).cells) (t :: T :: p)) else none).map _ = _
  rw [hown, if_pos hh.1, hc, Option.map_some]
  exact congrArg some hval

theorem read_time (h0 : (0 : Int) ∈ (Comm.cube l).ranks) {fin : Int → Store α} {K : Nat} (hK : k ≤ K) {attrs : Attrs}
    (hinfo : (fin 0).infos "time" = some ⟨[K], [1024], attrs⟩) (hdata : TimeData enc tm k (fin 0)) :
    ∀ t, t < k → (joint (slotOwner l spec) (Comm.cube l).ranks fin).read "time" [t] =
      some (enc ((tm t).seconds - (tm 0).seconds)) := by
  intro t ht
  obtain ⟨c, hc, hval⟩ := hdata t ht
  unfold Store.read
  simp only [joint]
  rw [hinfo]
  simp only [Option.bind_some]
  rw [if_pos ⟨by omega, trivial⟩]
  show (if (0 : Int) ∈ (Comm.cube l).ranks then (fin 0).chunks "time" (chunkOf [1024] [t]) else none).map _ = _
  rw [if_pos h0, hc, Option.map_some]
  exact congrArg some hval

/-- The whole run. -/
theorem reject_runs (hk : k ≠ 0) (hrec : Recording l k vars spec q tm st) (hv : vars.Nodup) {name : String}
    (hbad : Unacceptable l k vars spec q tm st name) :
    ∃ (G : List GItem) (n : Int → Nat) (fin : Int → Store α),
      Runs (slotOwner l spec) 0 (· = .error .valueError) (fin 0) (recordAll l enc junk (k + 1) st 0) (n 0) Store.empty [] G ∧
      (∀ r ∈ (Comm.cube l).ranks, r ≠ 0 →
        Blocks (slotOwner l spec) r (fin r) (recordAll l enc junk (k + 1) st r) (n r) Store.empty [] G) ∧
      ∀ r ∈ (Comm.cube l).ranks, (if name = "time" then KeptTime enc tm k r (fin r) else KeptVar l spec q k name r (fin r)) ∧
        ∀ nm, nm = "time" ∨ nm ∈ vars → nm ≠ name →
          ∃ w, Inv l enc spec q tm r nm (if nm ≤ name then k + 1 else k) w (fin r) := by
  have h0 : (0 : Int) ∈ (Comm.cube l).ranks := (mem_ranks (.cube l) 0).2 ⟨by omega, comm_size_pos (c := .cube l) hrec.safe⟩
  have hall : ("time" :: vars).Nodup := List.nodup_cons.2 ⟨hrec.notime, hv⟩
  have hstart : ∀ r name, Inv l enc spec q tm r name 0 { name := name } Store.empty := by
    intro r name
    unfold Inv
    split_ifs with h1 h2
    · subst h1
      exact ⟨⟨rfl, rfl, fun _ => ⟨rfl, rfl⟩, by simp⟩, fun _ => rfl, fun t' ht => absurd ht (by omega)⟩
    · subst h1
      exact ⟨rfl, rfl, by simp⟩
    · exact ⟨⟨⟨rfl, rfl, fun _ => ⟨rfl, rfl⟩, by simp⟩, rfl⟩, fun t' ht => absurd ht (by omega)⟩
    · exact ⟨⟨rfl, rfl, by simp⟩, fun t' ht => absurd ht (by omega)⟩
  have hbin : name ∈ "time" :: vars := by
    rcases hbad.bad with ⟨h, -⟩ | ⟨h, -⟩
    · exact List.mem_cons_of_mem _ h
    · rw [h]; exact List.mem_cons_self ..
  have happ : ∀ r ∈ (Comm.cube l).ranks, AppendBad (slotOwner l spec) r l enc junk (Inv l enc spec q tm r) (st k r) name k
      (if name = "time" then [arraySig "time" [k + 1] [1024]] else [])
      (fun L => if name = "time" then KeptTime enc tm k r L else KeptVar l spec q k name r L) := by
    intro r hr
    rcases hbad.bad with ⟨hn, h⟩ | ⟨rfl, h⟩
    · have hnt : name ≠ "time" := fun h => hrec.notime (h ▸ hn)
      simp only [if_neg hnt]
      obtain ⟨p, hget, hp⟩ := h r hr
      refine bad_var hk hnt hget ?_
      intro hr0
      obtain ⟨hne, cells, hR, hT⟩ := hp hr0
      refine ⟨?_, tileExtent_of hR hT⟩
      intro he
      unfold attrsOf at he
      have hd := (hrec.qty 0 0 (by omega) h0 name hn).2.2
      rw [Attrs.mk.injEq] at he
      obtain ⟨h1, h2, -⟩ := he
      injection h1 with h1
      injection h2 with h2
      injection h2 with h2
      rcases hne with hne | hne
      · exact hne h2.symm
      · exact hne (h1.symm.trans hd)
    · simp only [if_true]
      obtain ⟨t, hget, ht⟩ := h r hr
      exact bad_time hk hget ht
  have hrun : ∀ r ∈ (Comm.cube l).ranks, _ := fun r hr =>
    storeAll_fails (own := slotOwner l spec) (r := r) (l := l) (enc := enc) (junk := junk) (sigs := slotSigs spec)
      (inv_local l enc spec q tm r) hall (List.mem_cons_self ..) (fun t => st t r) hbin
      (sg := if name = "time" then [arraySig "time" [k + 1] [1024]] else [])
      (kept := fun L => if name = "time" then KeptTime enc tm k r L else KeptVar l spec q k name r L) k 0
      (by
        intro i _ hi
        rw [Nat.zero_add] at hi
        refine ⟨?_, hrec.dict i r hi hr, ?_⟩
        · intro name hn
          rcases List.mem_cons.1 hn with rfl | hn
          · exact append_time hrec hr hi
          · exact append_var hrec hr hi hn
        · intro name
          rw [hrec.names i r hi hr, List.mem_cons])
      (by rw [Nat.zero_add]; exact happ r hr)
      (by
        rw [Nat.zero_add]
        intro nm hn hle hne
        have hlt := lt_of_le_ne hle hne
        rcases List.mem_cons.1 hn with rfl | hn
        · obtain ⟨h1, h2⟩ := hbad.time hlt
          exact append_time' (h1 r hr) h2
        · obtain ⟨h1, h2, h3, h4⟩ := hbad.qty r hr nm hn hlt
          refine append_var' hrec.safe hr (hrec.good nm hn) (fun h => hrec.notime (h ▸ hn)) h1 h2 h3 ?_
          rintro rfl
          unfold attrsOf
          rw [h4, h3, (hrec.qty 0 0 (by omega) hr nm hn).2.2])
      (by rw [Nat.zero_add]; exact hbad.dict r hr)
      (by
        rw [Nat.zero_add]
        intro nm
        rw [hbad.names r hr, List.mem_cons])
      Store.empty (by
        intro name hn
        rw [if_pos hn]
        exact ⟨_, hstart r name⟩)
  have hready : ∀ r, Ready (Inv l enc spec q tm r) ("time" :: vars) 0 Store.empty none :=
    fun r => .inr ⟨rfl, rfl, fun name _ => hstart r name⟩
  have hroot := hrun 0 h0
  unfold Follows at hroot
  rw [if_pos rfl] at hroot
  obtain ⟨G, hG, hroot⟩ := hroot
  have hex : ∀ r, ∃ n L', r ∈ (Comm.cube l).ranks →
      ((if name = "time" then KeptTime enc tm k r L' else KeptVar l spec q k name r L') ∧
        ∀ nm, nm = "time" ∨ nm ∈ vars → nm ≠ name → ∃ w, Inv l enc spec q tm r nm (if nm ≤ name then k + 1 else k) w L') ∧
      Fails (slotOwner l spec) r (· = .error .valueError) L' (recordAll l enc junk (k + 1) st r) n Store.empty G := by
    intro r
    by_cases hr : r ∈ (Comm.cube l).ranks
    · have h1 : ∃ n L', (if name = "time" then KeptTime enc tm k r L' else KeptVar l spec q k name r L') ∧
          (∀ nm ∈ "time" :: vars, nm ≠ name → ∃ w, Inv l enc spec q tm r nm (if nm ≤ name then 0 + k + 1 else 0 + k) w L') ∧
          ∀ m, Ready (Inv l enc spec q tm r) ("time" :: vars) 0 Store.empty m →
          Fails (slotOwner l spec) r (fun x => x = .error .valueError) L'
            (storeAll l enc junk r m ((List.range' 0 (k + 1)).map fun t => st t r)) n Store.empty G := by
        by_cases hz : r = 0
        · subst hz; exact hroot
        · have := hrun r hr
          unfold Follows at this
          rw [if_neg hz] at this
          exact this G hG
      obtain ⟨n, L', hA, hB, hR⟩ := h1
      refine ⟨n, L', fun _ => ⟨⟨hA, ?_⟩, ?_⟩⟩
      · intro nm hn hne
        have := hB nm (List.mem_cons.2 hn) hne
        rw [Nat.zero_add] at this
        exact this
      · unfold recordAll
        rw [if_pos hr, List.range_eq_range']
        exact hR none (hready r)
    · exact ⟨0, Store.empty, fun h => absurd h hr⟩
  choose n fin hfin using hex
  refine ⟨G, n, fin, ?_, ?_, fun r hr => (hfin r hr).1⟩
  · have := (hfin 0 h0).2
    unfold Fails at this
    rw [if_pos rfl] at this
    exact this
  · intro r hr hne
    have := (hfin r hr).2
    unfold Fails at this
    rw [if_neg hne] at this
    exact this

/-- **C41**, after `k` steps.  A state whose entry `name` has other units or dimensions than before, or another
calendar, is rejected: rank 0 raises a ValueError.  No value that was stored in the steps before has changed.
But the exception is rank 0's alone: whatever the schedule, all other ranks end up waiting in a collective that
rank 0 does not call.  And step `k` is stored in part: the arrays up to `name` (in alphabetical order) have one
step more than the others, which holds the new values for those before `name` and nothing for `name` itself. -/
theorem C41_rejected (buf : Nat → Bool) (hk : 0 < k) (hrec : Recording l k vars spec q tm st) (hv : vars.Nodup) {name : String}
    (hbad : Unacceptable l k vars spec q tm st name) :
    ∃ S : Store α,
      (World.start (recordAll l enc junk (k + 1) st) Store.empty).Hangs buf (Comm.cube l).ranks (.error .valueError) S ∧
      (∀ nm ∈ vars,
        (∃ chunks, S.infos nm = some ⟨(if nm ≤ name then k + 1 else k) :: 6 :: (spec nm).tile.map Int.toNat, chunks,
          { dims := some (spec nm).dims, units := some (.str (q nm 0 0).units) }⟩) ∧
        ∀ t, t < (if nm < name then k + 1 else k) → ∀ T, T < 6 → ∀ p, InB ((spec nm).tile.map Int.toNat) p →
          ∃ r rel, HighestAt (.cube l) (spec nm).dims (spec nm).cells (rankShape (spec nm).dims (spec nm).cells) r rel ∧
            (Comm.cube l).place (spec nm).dims (spec nm).cells r rel = T :: p ∧
            S.read nm (t :: T :: p) = some ((q nm t r).computeArr.get rel)) ∧
      (∃ chunks, S.infos "time" = some ⟨[if "time" ≤ name then k + 1 else k], chunks,
        { dims := some [], units := some (.secondsSince (tm 0)), calendar := some (tm 0).calendar }⟩) ∧
      ∀ t, t < (if "time" < name then k + 1 else k) → S.read "time" [t] = some (enc ((tm t).seconds - (tm 0).seconds)) := by
  have h0 : (0 : Int) ∈ (Comm.cube l).ranks := (mem_ranks (.cube l) 0).2 ⟨by omega, comm_size_pos (c := .cube l) hrec.safe⟩
  obtain ⟨G, n, fin, hroot, hother, hinv⟩ := reject_runs (enc := enc) (junk := junk) (by omega) hrec hv hbad
  refine ⟨_, hangs_of_blocks (G := G) buf _ Store.empty n _ h0 (ranks_nodup _) hroot hother ?_ (fun _ _ _ => rfl), ?_, ?_⟩
  · intro r hr
    unfold recordAll
    rw [if_neg hr]
    exact ⟨_, rfl⟩
  · intro nm hn
    have hnt : nm ≠ "time" := fun h => hrec.notime (h ▸ hn)
    have hat : attrsOf (q nm 0 0) = { dims := some (spec nm).dims, units := some (.str (q nm 0 0).units) } := by
      unfold attrsOf
      rw [(hrec.qty 0 0 hk h0 nm hn).2.2]
    by_cases he : nm = name
    · subst he
      have hdata : ∀ r ∈ (Comm.cube l).ranks, KeptVar l spec q k nm r (fin r) := by
        intro r hr
        have := (hinv r hr).1
        rw [if_neg hnt] at this
        exact this
      have hinfo := (hdata 0 h0).1 rfl
      rw [hat] at hinfo
      rw [if_pos (String.le_refl nm), if_neg (String.lt_irrefl nm)]
      exact ⟨⟨_, hinfo⟩, read_var hrec.safe (hrec.good nm hn) hnt (by omega) hinfo fun r hr => (hdata r hr).2⟩
    · have hdata : ∀ r ∈ (Comm.cube l).ranks, ∃ w, Inv l enc spec q tm r nm (if nm ≤ name then k + 1 else k) w (fin r) :=
        fun r hr => (hinv r hr).2 nm (.inr hn) he
      unfold Inv at hdata
      simp only [if_neg hnt] at hdata
      have hlt : (if nm < name then k + 1 else k) = if nm ≤ name then k + 1 else k := by
        by_cases h : nm ≤ name
        · rw [if_pos h, if_pos (lt_of_le_ne h he)]
        · rw [if_neg h, if_neg (fun h' => h (fun h'' => String.lt_asymm h' h''))]
      rw [hlt]
      obtain ⟨w, ⟨hw, -⟩, -⟩ := hdata 0 h0
      have hinfo := (hw.later (by split_ifs <;> omega)).2
      rw [hat] at hinfo
      exact ⟨⟨_, hinfo⟩, read_var hrec.safe (hrec.good nm hn) hnt (Nat.le_refl _) hinfo fun r hr => (hdata r hr).elim fun _ h => h.2⟩
  · by_cases he : "time" = name
    · subst he
      have hdata := (hinv 0 h0).1
      rw [if_pos rfl] at hdata
      obtain ⟨hinfo, hd⟩ := hdata rfl
      rw [if_pos (String.le_refl _), if_neg (String.lt_irrefl _)]
      exact ⟨⟨_, hinfo⟩, read_time h0 (by omega) hinfo hd⟩
    · obtain ⟨w, hw⟩ := (hinv 0 h0).2 "time" (.inl rfl) he
      unfold Inv at hw
      rw [if_pos rfl, if_pos rfl] at hw
      have hlt : (if "time" < name then k + 1 else k) = if "time" ≤ name then k + 1 else k := by
        by_cases h : "time" ≤ name
        · rw [if_pos h, if_pos (lt_of_le_ne h he)]
        · rw [if_neg h, if_neg (fun h' => h (fun h'' => String.lt_asymm h' h''))]
      rw [hlt]
      have hinfo := (hw.1.later (by split_ifs <;> omega)).2.1
      exact ⟨⟨_, hinfo⟩, read_time h0 (Nat.le_refl _) hinfo hw.2.2⟩

theorem Recording.congr {st' : Nat → Int → State α} (h : Recording l k vars spec q tm st) (he : ∀ t, t < k → st' t = st t) :
    Recording l k vars spec q tm st' :=
  ⟨h.safe, h.good, h.notime, fun t r ht hr => by rw [he t ht]; exact h.dict t r ht hr,
    fun t r ht hr => by rw [he t ht]; exact h.names t r ht hr, fun t r ht hr => by rw [he t ht]; exact h.qty t r ht hr,
    fun t r ht hr => by rw [he t ht]; exact h.time t r ht hr, h.units, h.calendar⟩

end

/-! ### Three good steps, then another calendar, or other units -/

/-- The fourth time is of another calendar. -/
def exJulian (t : Nat) (r : Int) : State Nat :=
  if t = 3 then [("u", .qty (exVar "u" t r)), ("time", .time ⟨"julian", 1180⟩), ("ps", .qty (exVar "ps" t r))] else exState t r

theorem exJulian_bad : Unacceptable ⟨1, 2⟩ 3 ["u", "ps"] exSpec exVar exTime exJulian "time" := by
  refine ⟨?_, ?_, ?_, fun h => absurd h (by decide), .inr ⟨rfl, fun r _ => ⟨_, rfl, fun _ => by decide⟩⟩⟩
  · intro r _
    show ["u", "time", "ps"].Nodup
    decide
  · intro r _ nm
    show nm ∈ ["u", "time", "ps"] ↔ _
    simp
    tauto
  · intro r _ nm hn hlt
    simp only [List.mem_cons, List.not_mem_nil, or_false] at hn
    rcases hn with rfl | rfl
    · exact absurd hlt (by decide)
    · exact ⟨rfl, exVar_shaped "ps" (by decide) 3 r, rfl, rfl⟩

/-- Rank 0 raises, the other eleven ranks wait; the surface pressure has four steps, the winds three. -/
example (buf : Nat → Bool) : ∃ S : Store Nat,
    (World.start (recordAll ⟨1, 2⟩ Int.toNat (fun _ => 0) 4 exJulian) Store.empty).Hangs buf (Comm.cube ⟨1, 2⟩).ranks
      (.error .valueError) S ∧ (S.infos "ps").map (·.shape) = some [4, 6, 2, 6] ∧ (S.infos "u").map (·.shape) = some [3, 6, 2, 7] ∧
      S.read "time" [2] = some 120 := by
  obtain ⟨S, h1, h2, h3, h4⟩ := C41_rejected (enc := Int.toNat) (junk := fun _ => 0) buf (by decide)
    ((exRecording 3).congr (st' := exJulian) fun t ht => by
      funext r
      unfold exJulian
      rw [if_neg (by omega)]) (by decide) exJulian_bad
  refine ⟨S, h1, ?_, ?_, h4 2 (by decide)⟩
  · obtain ⟨⟨c, hc⟩, -⟩ := h2 "ps" (by decide)
    rw [hc]
    show some ((if "ps" ≤ "time" then 3 + 1 else 3) :: 6 :: (exSpec "ps").tile.map Int.toNat) = some [4, 6, 2, 6]
    decide
  · obtain ⟨⟨c, hc⟩, -⟩ := h2 "u" (by decide)
    rw [hc]
    show some ((if "u" ≤ "time" then 3 + 1 else 3) :: 6 :: (exSpec "u").tile.map Int.toNat) = some [3, 6, 2, 7]
    decide

/-- The winds of rank 0 are given in other units. -/
def exUnits (t : Nat) (r : Int) : State Nat :=
  if t = 3 then [("u", .qty { exVar "u" t r with units := if r = 0 then "km" else "m" }), ("time", .time (exTime t)),
    ("ps", .qty (exVar "ps" t r))] else exState t r

theorem exUnits_bad : Unacceptable ⟨1, 2⟩ 3 ["u", "ps"] exSpec exVar exTime exUnits "u" := by
  refine ⟨?_, ?_, ?_, fun _ => ⟨fun r _ => rfl, rfl⟩, .inl ⟨by decide, fun r _ => ⟨_, rfl, ?_⟩⟩⟩
  · intro r _
    show ["u", "time", "ps"].Nodup
    decide
  · intro r _ nm
    show nm ∈ ["u", "time", "ps"] ↔ _
    simp
    tauto
  · intro r _ nm hn hlt
    simp only [List.mem_cons, List.not_mem_nil, or_false] at hn
    rcases hn with rfl | rfl
    · exact absurd hlt (by decide)
    · exact ⟨rfl, exVar_shaped "ps" (by decide) 3 r, rfl, rfl⟩
  · rintro rfl
    exact ⟨.inl (by decide), _, (exVar_shaped "u" (by decide) 3 0).extent, (exSpec_good "u" (by decide)).tile⟩

/-- The fourth surface pressure and the fourth time are stored, the winds are not. -/
example (buf : Nat → Bool) : ∃ S : Store Nat,
    (World.start (recordAll ⟨1, 2⟩ Int.toNat (fun _ => 0) 4 exUnits) Store.empty).Hangs buf (Comm.cube ⟨1, 2⟩).ranks
      (.error .valueError) S ∧ S.read "time" [3] = some 180 := by
  obtain ⟨S, h1, h2, h3, h4⟩ := C41_rejected (enc := Int.toNat) (junk := fun _ => 0) buf (by decide)
    ((exRecording 3).congr (st' := exUnits) fun t ht => by
      funext r
      unfold exUnits
      rw [if_neg (by omega)]) (by decide) exUnits_bad
  exact ⟨S, h1, h4 3 (by decide)⟩

end Zarr
end FV3
