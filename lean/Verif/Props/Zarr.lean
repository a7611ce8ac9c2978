import Verif.Proofs.ZarrRecord
import Verif.Props.Partition

/-!
# A Zarr store holds the global state of every step (C39); ranks never write to the same chunk (C40)
-/

namespace FV3
namespace Zarr
variable {α : Type}

section
variable {l : Layout} {enc : Int → α} {junk : List Nat → α} {spec : String → VarSpec}
  {q : String → Nat → Int → Quantity α} {tm : Nat → ZTime} {k : Nat} {vars : List String} {st : Nat → Int → State α}

/-- **C39.**  When all ranks have stored `k` states (for any schedule; there is no deadlock) every variable
has an array of `k` time steps, with its dimensions and units; at step `t`, tile `T`, point `p` there is the
value that the responsible rank had in step `t` (of the ranks that have the point, the highest one).
The array of times has `k` entries: seconds since the first. -/
theorem C39_recording (buf : Nat → Bool) (hrec : Recording l k vars spec q tm st) (hv : vars.Nodup) (hk : 0 < k) :
    ∃ S : Store α,
      (World.start (recordAll l enc junk k st) Store.empty).Completes buf (Comm.cube l).ranks (fun _ => .ok ()) S ∧
      (∀ name ∈ vars,
        (∃ chunks, S.infos name = some ⟨k :: 6 :: (spec name).tile.map Int.toNat, chunks,
          { dims := some (spec name).dims, units := some (.str (q name 0 0).units) }⟩) ∧
        ∀ t, t < k → ∀ T, T < 6 → ∀ p, InB ((spec name).tile.map Int.toNat) p →
          ∃ r rel, HighestAt (.cube l) (spec name).dims (spec name).cells (rankShape (spec name).dims (spec name).cells) r rel ∧
            (Comm.cube l).place (spec name).dims (spec name).cells r rel = T :: p ∧
            S.read name (t :: T :: p) = some ((q name t r).computeArr.get rel)) ∧
      (∃ chunks, S.infos "time" = some ⟨[k], chunks,
        { dims := some [], units := some (.secondsSince (tm 0)), calendar := some (tm 0).calendar }⟩) ∧
      ∀ t, t < k → S.read "time" [t] = some (enc ((tm t).seconds - (tm 0).seconds)) := by
  obtain ⟨fin, hcomp, hinv⟩ := record_completes (enc := enc) (junk := junk) buf hrec hv
  have h0 : (0 : Int) ∈ (Comm.cube l).ranks := (mem_ranks (.cube l) 0).2 ⟨by omega, comm_size_pos (c := .cube l) hrec.safe⟩
  refine ⟨_, hcomp, ?_, ?_⟩
  · intro name hn
    have hnt : name ≠ "time" := fun h => hrec.notime (h ▸ hn)
    have hT := (hrec.good name hn).tileVar hrec.safe
    have hinfo : (fin 0).infos name = some ⟨k :: 6 :: (spec name).tile.map Int.toNat, varChunks (spec name).cells,
        { dims := some (spec name).dims, units := some (.str (q name 0 0).units) }⟩ := by
      obtain ⟨w, hw⟩ := hinv 0 h0 name (.inr hn)
      unfold Inv at hw
      rw [if_neg hnt, if_pos rfl] at hw
      rw [(hw.1.1.later (by omega)).2]
      unfold attrsOf
      rw [(hrec.qty 0 0 hk h0 name hn).2.2]
    refine ⟨⟨_, hinfo⟩, ?_⟩
    intro t ht T hT6 p hp
    obtain ⟨r, rel, hh, hplace, hst⟩ := responsible hT hT6 hp
    refine ⟨r, rel, hh, hplace, ?_⟩
    obtain ⟨w, hw⟩ := hinv r hh.1 name (.inr hn)
    unfold Inv at hw
    rw [if_neg hnt] at hw
    obtain ⟨c, hc, hval⟩ := hw.2 t ht rel hst
    have hown : slotOwner l spec name (chunkOf (varChunks (spec name).cells)
        (t :: Comm.place (.cube l) (spec name).dims (spec name).cells r rel)) = r := by
      unfold slotOwner
      rw [if_neg hnt]
      refine hT.owned ((mem_ranks _ _).1 hh.1).1 (chunkOf_mem _ _ _ ?_ (stored_in_box hT hst t))
      rw [partBox_length, varChunks_length hT.tile.1]
    rw [hplace] at hc hval hown
    have hin : InB (k :: 6 :: (spec name).tile.map Int.toNat) (t :: T :: p) := ⟨ht, hT6, hp⟩
    unfold Store.read
    simp only [joint]
    rw [hinfo]
    simp only [Option.bind_some]
    rw [if_pos hin]
    show (if slotOwner l spec name (chunkOf (varChunks (spec name).cells) (t :: T :: p)) ∈ (Comm.cube l).ranks then
      (fin (slotOwner l spec name (chunkOf (varChunks (spec name).cells) (t :: T :: p)))).chunks name
        (chunkOf (varChunks (spec name).cells) (t :: T :: p)) else none).map _ = _
    rw [hown, if_pos hh.1, hc, Option.map_some]
    exact congrArg some hval
  · obtain ⟨w, hw⟩ := hinv 0 h0 "time" (.inl rfl)
    unfold Inv at hw
    rw [if_pos rfl, if_pos rfl] at hw
    have hinfo := (hw.1.later (by omega)).2.1
    refine ⟨⟨_, hinfo⟩, ?_⟩
    intro t ht
    obtain ⟨c, hc, hval⟩ := hw.2.2 t ht
    unfold Store.read
    simp only [joint]
    rw [hinfo]
    simp only [Option.bind_some]
    rw [if_pos ⟨ht, trivial⟩]
    show (if (0 : Int) ∈ (Comm.cube l).ranks then (fin 0).chunks "time" (chunkOf [1024] [t]) else none).map _ = _
    rw [if_pos h0, hc, Option.map_some]
    exact congrArg some hval

/-- **C39**, when neighbours agree about the interfaces they share: every value of every rank in every step
is found at its place in the tile. -/
theorem C39_every_rank (buf : Nat → Bool) (hrec : Recording l k vars spec q tm st) (hv : vars.Nodup) (hk : 0 < k)
    (hagree : ∀ name ∈ vars, ∀ t, t < k → ∀ r ∈ (Comm.cube l).ranks, ∀ r' ∈ (Comm.cube l).ranks, ∀ rel rel',
      InB (rankShape (spec name).dims (spec name).cells) rel → InB (rankShape (spec name).dims (spec name).cells) rel' →
      (Comm.cube l).place (spec name).dims (spec name).cells r rel = (Comm.cube l).place (spec name).dims (spec name).cells r' rel' →
      (q name t r).computeArr.get rel = (q name t r').computeArr.get rel') :
    ∃ S : Store α,
      (World.start (recordAll l enc junk k st) Store.empty).Completes buf (Comm.cube l).ranks (fun _ => .ok ()) S ∧
      ∀ name ∈ vars, ∀ t, t < k → ∀ r ∈ (Comm.cube l).ranks, ∀ rel, InB (rankShape (spec name).dims (spec name).cells) rel →
        S.read name (t :: (Comm.cube l).place (spec name).dims (spec name).cells r rel) =
          some ((q name t r).computeArr.get rel) := by
  obtain ⟨S, hS, hvars, -⟩ := C39_recording (enc := enc) (junk := junk) buf hrec hv hk
  refine ⟨S, hS, ?_⟩
  intro name hn t ht r hr rel hrel
  have hT := (hrec.good name hn).tileVar hrec.safe
  have hr' := (mem_ranks _ _).1 hr
  have hp0 : 0 < l.y * l.x := Int.mul_pos hrec.safe.ypos hrec.safe.xpos
  rw [place_cube]
  have hT6 : (r / (l.y * l.x)).toNat < 6 := by
    have h1 : r < 6 * (l.y * l.x) := hr'.2
    have h2 : r / (l.y * l.x) < 6 := Int.ediv_lt_of_lt_mul hp0 (by rw [Int.mul_comm] at h1; rw [Int.mul_comm]; exact h1)
    have := Int.ediv_nonneg hr'.1 (by omega : 0 ≤ l.y * l.x)
    omega
  have hpin : InB ((spec name).tile.map Int.toNat)
      (tab (spec name).dims.length fun k => (startAt l (spec name).dims (spec name).cells r k + (rel.getD k 0 : Nat)).toNat) := by
    rw [inB_map_toNat, hT.tile.2.1]
    refine ⟨by simp, ?_⟩
    intro j hj
    rw [getD_tab _ _ hj]
    unfold rankShape at hrel
    rw [inB_tab] at hrel
    have h1 := hrel.2 j hj
    have h2 := startAt_range hT.safe hT.tile r hj
    obtain ⟨h3, h4, h5⟩ := tileOf_getD hT.tile hj
    have := nShared_range ((spec name).dims.getD j .x)
    omega
  obtain ⟨r', rel', hh, hplace, hread⟩ := (hvars name hn).2 t ht _ hT6 _ hpin
  rw [hread, hagree name hn t ht r' hh.1 r hr rel' rel hh.2.1 hrel (by rw [hplace, place_cube])]

/-- **C40.**  At no moment of any execution do two different ranks use the same chunk of an array: what one
rank ever reads or writes, no other rank ever reads or writes. -/
theorem C40_chunks_disjoint (hrec : Recording l k vars spec q tm st) (hv : vars.Nodup) {buf buf' : Nat → Bool}
    {sched sched' : List Int} {A A' : World α (Py Unit)}
    (hA : (World.start (recordAll l enc junk k st) Store.empty).run buf (Comm.cube l).ranks sched = some A)
    (hA' : (World.start (recordAll l enc junk k st) Store.empty).run buf' (Comm.cube l).ranks sched' = some A')
    {r r' : Int} {name : String} {ci : List Nat} (h : A.Accesses r name ci) (h' : A'.Accesses r' name ci) : r = r' := by
  rw [← record_owner hrec hv hA h, ← record_owner hrec hv hA' h']

end

/-! ### Two variables, twelve ranks, three steps -/

/-- The value at `idx` (halo included) of rank `r` in step `t`. -/
def exQ (dims : List Dim) (ext : List Int) (t : Nat) (r : Int) : Quantity Nat :=
  { data := ⟨[4, 6], fun idx => 10000 * t + 100 * r.toNat + 10 * idx.getD 0 0 + idx.getD 1 0⟩, dims := dims, units := "m",
    origin := [1, 1], extent := ext }

def exSpec (name : String) : VarSpec :=
  if name = "u" then ⟨[.y, .xI], [2, 3], [2, 7], 0, 1⟩ else ⟨[.y, .x], [2, 3], [2, 6], 0, 1⟩

def exVar (name : String) (t : Nat) (r : Int) : Quantity Nat :=
  if name = "u" then exQ [.y, .xI] [2, 4] t r else exQ [.y, .x] [2, 3] t r

def exTime (t : Nat) : ZTime := ⟨"noleap", 1000 + 60 * t⟩

/-- Ranks have their variables in different orders. -/
def exState (t : Nat) (r : Int) : State Nat :=
  if r < 6 then [("u", .qty (exVar "u" t r)), ("time", .time (exTime t)), ("ps", .qty (exVar "ps" t r))]
  else [("ps", .qty (exVar "ps" t r)), ("u", .qty (exVar "u" t r)), ("time", .time (exTime t))]

theorem exAxes2 (d : Dim) (hd : d = .x ∨ d = .xI) : HAxes [.y, d] 0 1 := by
  refine ⟨?_, ?_, by simp, by simp⟩ <;>
  · intro k e he
    match k with
    | 0 => simp at he; subst he; decide
    | 1 => simp at he; subst he; rcases hd with rfl | rfl <;> decide
    | k + 2 => simp at he

theorem exSpec_good (name : String) (h : name ∈ ["u", "ps"]) : (exSpec name).Good ⟨1, 2⟩ := by
  simp only [List.mem_cons, List.not_mem_nil, or_false] at h
  rcases h with rfl | rfl
  · refine ⟨exAxes2 _ (.inr rfl), ⟨rfl, rfl, ?_⟩, by decide⟩
    intro k d c t hd hc ht
    match k with
    | 0 => simp [exSpec] at hd hc ht; subst hd hc ht; decide
    | 1 => simp [exSpec] at hd hc ht; subst hd hc ht; decide
    | k + 2 => simp [exSpec] at hd
  · refine ⟨exAxes2 _ (.inl rfl), ⟨rfl, rfl, ?_⟩, by decide⟩
    intro k d c t hd hc ht
    match k with
    | 0 => simp [exSpec] at hd hc ht; subst hd hc ht; decide
    | 1 => simp [exSpec] at hd hc ht; subst hd hc ht; decide
    | k + 2 => simp [exSpec] at hd

theorem exVar_shaped (name : String) (h : name ∈ ["u", "ps"]) (t : Nat) (r : Int) :
    (exVar name t r).RankShaped (exSpec name).dims (exSpec name).cells := by
  simp only [List.mem_cons, List.not_mem_nil, or_false] at h
  rcases h with rfl | rfl
  · refine ⟨⟨⟨rfl, rfl, rfl⟩, by
      show ∀ k < 2, 0 ≤ [(1 : Int), 1].getD k 0 ∧ 0 ≤ [(2 : Int), 4].getD k 0 ∧
        [(1 : Int), 1].getD k 0 + [(2 : Int), 4].getD k 0 ≤ ([4, 6].getD k 0 : Nat)
      decide⟩, rfl, rfl, ?_⟩
    intro k d c t hd hc ht
    match k with
    | 0 => simp [exSpec, exVar, exQ] at hd hc ht; subst hd hc ht; decide
    | 1 => simp [exSpec, exVar, exQ] at hd hc ht; subst hd hc ht; decide
    | k + 2 => simp [exSpec] at hd
  · refine ⟨⟨⟨rfl, rfl, rfl⟩, by
      show ∀ k < 2, 0 ≤ [(1 : Int), 1].getD k 0 ∧ 0 ≤ [(2 : Int), 3].getD k 0 ∧
        [(1 : Int), 1].getD k 0 + [(2 : Int), 3].getD k 0 ≤ ([4, 6].getD k 0 : Nat)
      decide⟩, rfl, rfl, ?_⟩
    intro k d c t hd hc ht
    match k with
    | 0 => simp [exSpec, exVar, exQ] at hd hc ht; subst hd hc ht; decide
    | 1 => simp [exSpec, exVar, exQ] at hd hc ht; subst hd hc ht; decide
    | k + 2 => simp [exSpec] at hd

theorem exRecording (k : Nat) : Recording ⟨1, 2⟩ k ["u", "ps"] exSpec exVar exTime exState := by
  refine ⟨C05_safe_up_to_48 _ (by decide) (by decide) (by decide) (by decide), exSpec_good, by decide, ?_, ?_, ?_, ?_, ?_, ?_⟩
  · intro t r _ _
    unfold exState Dict.keys
    split_ifs <;> simp
  · intro t r _ _ name
    unfold exState Dict.keys
    split_ifs <;> simp <;> tauto
  · intro t r _ _ name hn
    refine ⟨?_, exVar_shaped name hn t r, ?_⟩
    · simp only [List.mem_cons, List.not_mem_nil, or_false] at hn
      unfold exState
      rcases hn with rfl | rfl <;> split_ifs <;> rfl
    · simp only [List.mem_cons, List.not_mem_nil, or_false] at hn
      rcases hn with rfl | rfl <;> rfl
  · intro t r _ _
    unfold exState
    split_ifs <;> rfl
  · intro t _ name hn
    simp only [List.mem_cons, List.not_mem_nil, or_false] at hn
    rcases hn with rfl | rfl <;> rfl
  · intro t _; rfl

/-- The hypotheses of C39 and C40 are met.  Interface column 3 of tile 5 belongs to ranks 10 and 11: at step 2
of its second row there is the value of rank 11 (data index `[2, 1]`). -/
example (buf : Nat → Bool) : ∃ S : Store Nat,
    (World.start (recordAll ⟨1, 2⟩ Int.toNat (fun _ => 0) 3 exState) Store.empty).Completes buf (Comm.cube ⟨1, 2⟩).ranks
      (fun _ => .ok ()) S ∧ S.read "u" [2, 5, 1, 3] = some 21121 ∧ S.read "time" [2] = some 120 := by
  obtain ⟨S, h1, h2, h3, h4⟩ := C39_recording (enc := Int.toNat) (junk := fun _ => 0) buf (exRecording 3) (by decide) (by decide)
  refine ⟨S, h1, ?_, h4 2 (by decide)⟩
  obtain ⟨r, rel, hh, hp, hread⟩ := (h2 "u" (by decide)).2 2 (by decide) 5 (by decide) [1, 3] (by decide)
  have h11 := hh.2.2 11 (by decide) [1, 0] (by decide) (by rw [hp]; decide)
  have hr := (mem_ranks _ _).1 hh.1
  have hs : (Comm.cube ⟨1, 2⟩).size = 12 := rfl
  have hr11 : r = 11 := by omega
  subst hr11
  have hrel : rel = [1, 0] := by
    have hin := hh.2.1
    have hsh : rankShape (exSpec "u").dims (exSpec "u").cells = [2, 4] := by decide
    rw [hsh] at hin
    match rel, hin with
    | [a, b], hin =>
      obtain ⟨ha, hb, -⟩ := hin
      rw [place_cube] at hp
      have e1 : startAt ⟨1, 2⟩ (exSpec "u").dims (exSpec "u").cells 11 0 = 0 := by decide
      have e2 : startAt ⟨1, 2⟩ (exSpec "u").dims (exSpec "u").cells 11 1 = 3 := by decide
      injection hp with _ hp
      have hl : (exSpec "u").dims.length = 2 := rfl
      have p0 := congrArg (fun x => x.getD 0 0) hp
      have p1 := congrArg (fun x => x.getD 1 0) hp
      simp only [getD_tab _ _ (show 0 < (exSpec "u").dims.length by decide), getD_tab _ _ (show 1 < (exSpec "u").dims.length by decide), e1, e2] at p0 p1
      simp at p0 p1
      have : a = 1 := by omega
      have : b = 0 := by omega
      subst_vars
      rfl
  subst hrel
  rw [hread]
  decide

/-- Values given by the place in the tile: neighbours agree about shared interfaces. -/
def exG (t : Nat) (r : Int) : Quantity Nat :=
  { data := ⟨[2, 4], fun idx => ((Comm.cube ⟨1, 2⟩).place [.y, .xI] [2, 3] r idx).foldl (fun a b => 10 * a + b) t⟩,
    dims := [.y, .xI], units := "m", origin := [0, 0], extent := [2, 4] }

theorem exG_get (t : Nat) (r : Int) (rel : List Nat) (h : InB [2, 4] rel) : (exG t r).computeArr.get rel =
    ((Comm.cube ⟨1, 2⟩).place [.y, .xI] [2, 3] r rel).foldl (fun a b => 10 * a + b) t := by
  match rel, h with
  | [a, b], _ =>
    have e : absIdx [0, 0] [a, b] = [a, b] := by
      show [((0 : Int) + (a : Int)).toNat, ((0 : Int) + (b : Int)).toNat] = [a, b]
      simp
    show (exG t r).data.get (absIdx [0, 0] [a, b]) = _
    rw [e]
    rfl

theorem exG_recording (k : Nat) : Recording ⟨1, 2⟩ k ["u"] exSpec (fun _ => exG) exTime
    (fun t r => [("u", .qty (exG t r)), ("time", .time (exTime t))]) := by
  have hshape : ∀ t r, (exG t r).RankShaped (exSpec "u").dims (exSpec "u").cells := by
    intro t r
    refine ⟨⟨⟨rfl, rfl, rfl⟩, by
      show ∀ k < 2, 0 ≤ [(0 : Int), 0].getD k 0 ∧ 0 ≤ [(2 : Int), 4].getD k 0 ∧
        [(0 : Int), 0].getD k 0 + [(2 : Int), 4].getD k 0 ≤ ([2, 4].getD k 0 : Nat)
      decide⟩, rfl, rfl, ?_⟩
    intro k d c t hd hc ht
    match k with
    | 0 => simp [exSpec, exG] at hd hc ht; subst hd hc ht; decide
    | 1 => simp [exSpec, exG] at hd hc ht; subst hd hc ht; decide
    | k + 2 => simp [exSpec] at hd
  refine ⟨C05_safe_up_to_48 _ (by decide) (by decide) (by decide) (by decide),
    fun name hn => exSpec_good name (by simp at hn; subst hn; simp), by decide, ?_, ?_, ?_, ?_, ?_, ?_⟩
  · intro t r _ _; simp [Dict.keys]
  · intro t r _ _ name; simp [Dict.keys]; tauto
  · intro t r _ _ name hn
    simp only [List.mem_cons, List.not_mem_nil, or_false] at hn
    subst hn
    exact ⟨rfl, hshape t r, rfl⟩
  · intro t r _ _; rfl
  · intro t _ name _; rfl
  · intro t _; rfl

/-- The hypotheses of `C39_every_rank` are met. -/
example (buf : Nat → Bool) : ∃ S : Store Nat,
    (World.start (recordAll ⟨1, 2⟩ Int.toNat (fun _ => 0) 2
      fun t r => [("u", .qty (exG t r)), ("time", .time (exTime t))]) Store.empty).Completes buf (Comm.cube ⟨1, 2⟩).ranks
      (fun _ => .ok ()) S ∧ S.read "u" (1 :: (Comm.cube ⟨1, 2⟩).place [.y, .xI] [2, 3] 10 [1, 3]) = some 1513 := by
  have hs : rankShape (exSpec "u").dims (exSpec "u").cells = [2, 4] := by decide
  obtain ⟨S, h1, h2⟩ := C39_every_rank (enc := Int.toNat) (junk := fun _ => 0) buf (exG_recording 2) (by decide) (by decide) (by
    intro name hn t ht r _ r' _ rel rel' h h' he
    simp only [List.mem_cons, List.not_mem_nil, or_false] at hn
    subst hn
    rw [hs] at h h'
    show (exG t r).computeArr.get rel = (exG t r').computeArr.get rel'
    rw [exG_get t r rel h, exG_get t r' rel' h']
    exact congrArg _ he)
  refine ⟨S, h1, ?_⟩
  exact (h2 "u" (by decide) 1 (by decide) 10 (by decide) [1, 3] (by rw [hs]; decide)).trans (by decide)

end Zarr
end FV3
