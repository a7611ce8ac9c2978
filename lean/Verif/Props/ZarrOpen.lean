import Verif.Model.ZarrOpen
import Verif.Props.ZarrErrors
import Verif.Props.ZarrReject

/-!
# The default communicator and stores that are not empty (C39, C41)
-/

namespace FV3
namespace Zarr
variable {α R R' : Type}

theorem Runs.alone {own : String → List Nat → Int} {Q : R → Prop} {L L' : Store α} {p : Prog α R} {n : Nat} {kn : Known}
    {gs : List GItem} (h : Runs own 0 Q L' p n L kn gs) : Q (p.alone L).1 ∧ (p.alone L).2 = L' := by
  induction h with
  | ret h => exact ⟨h, rfl⟩
  | getInfoRoot _ _ ih => exact ih
  | getInfoOther h => exact absurd rfl h
  | putInfo _ _ _ ih => exact ih
  | getChunk _ _ ih => exact ih
  | putChunk _ _ ih => exact ih
  | @collRoot c k n L kn gs g _ _ _ _ _ ih => cases c <;> exact ih
  | collOther h => exact absurd rfl h

/-- A rank does not write to what it does not own. -/
theorem Runs.others {own : String → List Nat → Int} {r : Int} {Q : R → Prop} {L L' : Store α} {p : Prog α R} {n : Nat}
    {kn : Known} {gs : List GItem} (h : Runs own r Q L' p n L kn gs) {name : String} {ci : List Nat}
    (ho : own name ci ≠ r) : L'.chunks name ci = L.chunks name ci := by
  induction h with
  | ret h => rfl
  | getInfoRoot _ _ ih => exact ih
  | @getInfoOther _ i0 _ _ _ _ _ _ _ _ _ ih => exact ih i0 (Info.le.refl i0)
  | putInfo _ _ _ ih => exact ih
  | getChunk _ _ ih => exact ih
  | putChunk hown _ ih =>
    rw [ih]
    show (if _ then _ else _) = _
    rw [if_neg]
    rintro ⟨rfl, rfl⟩
    exact ho hown
  | collRoot _ _ _ _ ih => exact ih
  | collOther _ _ _ ih => exact ih

section
variable {l : Layout} {enc : Int → α} {junk : List Nat → α} {spec : String → VarSpec} {tm : Nat → ZTime} {k : Nat}
  {vars : List String}

/-- **C39**, default communicator.  A single process that stores `k` states gets arrays for whole tiles, all six of
them, with dimensions, units and times.  But it acts as rank 0: the points for which rank 0 is responsible have its
values in all steps, at all others nothing is stored. -/
theorem C39_default_comm {q : String → Nat → Quantity α} {st : Nat → State α}
    (hrec : Recording l k vars spec (fun name t _ => q name t) tm (fun t _ => st t)) (hv : vars.Nodup) (hk : 0 < k) :
    ∃ S : Store α, (storeAll l enc junk 0 none ((List.range k).map st)).alone Store.empty = (.ok (), S) ∧
      (∀ name ∈ vars,
        (∃ chunks, S.infos name = some ⟨k :: 6 :: (spec name).tile.map Int.toNat, chunks,
          { dims := some (spec name).dims, units := some (.str (q name 0).units) }⟩) ∧
        ∀ t, t < k → ∀ T, T < 6 → ∀ p, InB ((spec name).tile.map Int.toNat) p →
          ∃ r rel, HighestAt (.cube l) (spec name).dims (spec name).cells (rankShape (spec name).dims (spec name).cells) r rel ∧
            (Comm.cube l).place (spec name).dims (spec name).cells r rel = T :: p ∧
            S.read name (t :: T :: p) = if r = 0 then some ((q name t).computeArr.get rel) else none) ∧
      (∃ chunks, S.infos "time" = some ⟨[k], chunks,
        { dims := some [], units := some (.secondsSince (tm 0)), calendar := some (tm 0).calendar }⟩) ∧
      ∀ t, t < k → S.read "time" [t] = some (enc ((tm t).seconds - (tm 0).seconds)) := by
  have h0 : (0 : Int) ∈ (Comm.cube l).ranks := (mem_ranks (.cube l) 0).2 ⟨by omega, comm_size_pos (c := .cube l) hrec.safe⟩
  obtain ⟨G, n, fin, hrun, hinv⟩ := record_runs (enc := enc) (junk := junk) hrec hv
  have hrun0 := hrun 0 h0
  unfold recordAll at hrun0
  rw [if_pos h0] at hrun0
  have hal := hrun0.alone
  refine ⟨fin 0, Prod.ext hal.1 hal.2, ?_, ?_⟩
  · intro name hn
    have hnt : name ≠ "time" := fun h => hrec.notime (h ▸ hn)
    have hT := (hrec.good name hn).tileVar hrec.safe
    obtain ⟨w, hw⟩ := hinv 0 h0 name (.inr hn)
    unfold Inv at hw
    rw [if_neg hnt, if_pos rfl] at hw
    have hinfo : (fin 0).infos name = some ⟨k :: 6 :: (spec name).tile.map Int.toNat, varChunks (spec name).cells,
        { dims := some (spec name).dims, units := some (.str (q name 0).units) }⟩ := by
      rw [(hw.1.1.later (by omega)).2]
      unfold attrsOf
      rw [(hrec.qty 0 0 hk h0 name hn).2.2]
    refine ⟨⟨_, hinfo⟩, ?_⟩
    intro t ht T hT6 p hp
    obtain ⟨r, rel, hh, hplace, hst⟩ := responsible hT hT6 hp
    refine ⟨r, rel, hh, hplace, ?_⟩
    have hown : slotOwner l spec name (chunkOf (varChunks (spec name).cells)
        (t :: Comm.place (.cube l) (spec name).dims (spec name).cells r rel)) = r := by
      unfold slotOwner
      rw [if_neg hnt]
      refine hT.owned ((mem_ranks _ _).1 hh.1).1 (chunkOf_mem _ _ _ ?_ (stored_in_box hT hst t))
      rw [partBox_length, varChunks_length hT.tile.1]
    rw [hplace] at hown
    have hin : InB (k :: 6 :: (spec name).tile.map Int.toNat) (t :: T :: p) := ⟨ht, hT6, hp⟩
    unfold Store.read
    rw [hinfo]
    simp only [Option.bind_some]
    rw [if_pos hin]
    by_cases hr : r = 0
    · subst hr
      rw [if_pos rfl]
      obtain ⟨c, hc, hval⟩ := hw.2 t ht rel hst
      rw [hplace] at hc hval
      show ((fin 0).chunks name (chunkOf (varChunks (spec name).cells) (t :: T :: p))).map _ = _
      rw [hc, Option.map_some]
      exact congrArg some hval
    · rw [if_neg hr]
      show ((fin 0).chunks name (chunkOf (varChunks (spec name).cells) (t :: T :: p))).map _ = _
      rw [hrun0.others (by rw [hown]; exact hr)]
      rfl
  · obtain ⟨w, hw⟩ := hinv 0 h0 "time" (.inl rfl)
    unfold Inv at hw
    rw [if_pos rfl, if_pos rfl] at hw
    have hinfo := (hw.1.later (by omega)).2.1
    refine ⟨⟨_, hinfo⟩, ?_⟩
    intro t ht
    obtain ⟨c, hc, hval⟩ := hw.2.2 t ht
    unfold Store.read
    rw [hinfo]
    simp only [Option.bind_some]
    rw [if_pos ⟨ht, trivial⟩]
    show ((fin 0).chunks "time" (chunkOf [1024] [t])).map _ = _
    rw [hc, Option.map_some]
    exact congrArg some hval

/-- What a rank other than 0 does first. -/
theorem append_waits {own : String → List Nat → Int} {r : Int} (hr : r ≠ 0) (l : Layout) (junk : List Nat → α)
    (q : Quantity α) (w : Writer) (hw : w.array = none) (L : Store α) (kn : Known) :
    Blocks own r L (append l junk r q w) 0 L kn [] := by
  unfold append
  rw [WM.self_bind]
  unfold when
  rw [if_pos hw]
  unfold initZarr when
  rw [if_neg (show ¬ r = ROOT_RANK from hr)]
  exact .wait

theorem appendTime_waits {own : String → List Nat → Int} {r : Int} (hr : r ≠ 0) (enc : Int → α) (junk : List Nat → α)
    (t : ZTime) (w : Writer) (hw : w.array = none) (L : Store α) (kn : Known) :
    Blocks own r L (appendTime enc junk r t w) 0 L kn [] := by
  unfold appendTime
  rw [WM.self_bind]
  unfold when
  rw [if_pos hw]
  unfold initTime initZarr when
  rw [if_neg (show ¬ r = ROOT_RANK from hr)]
  exact .wait

theorem createDataset_exists {own : String → List Nat → Int} (name : String) (shape chunks : List Nat) (w : Writer)
    (S : Store α) (hS : S.infos name ≠ none) (kn : Known) :
    Runs own 0 (· = (.error .valueError, w)) S (createDataset (α := α) name shape chunks w) 1 S kn [] := by
  refine .getInfoRoot rfl ?_
  cases h : S.infos name with
  | none => exact absurd h hS
  | some i => exact .ret rfl

theorem append_exists {own : String → List Nat → Int} (l : Layout) (junk : List Nat → α) (q : Quantity α) (name : String)
    (S : Store α) (hS : S.infos name ≠ none) (kn : Known) :
    Runs own 0 (· = (.error .valueError, { name := name })) S (append l junk 0 q { name := name }) 1 S kn [] := by
  refine .getInfoRoot rfl ?_
  cases h : S.infos name with
  | none => exact absurd h hS
  | some i => exact .ret rfl

theorem appendTime_exists {own : String → List Nat → Int} (enc : Int → α) (junk : List Nat → α) (t : ZTime)
    (S : Store α) (hS : S.infos "time" ≠ none) (kn : Known) :
    Runs own 0 (· = (.error .valueError, { name := "time" })) S (appendTime enc junk 0 t { name := "time" }) 1 S kn [] := by
  refine .getInfoRoot rfl ?_
  cases h : S.infos "time" with
  | none => exact absurd h hS
  | some i => exact .ret rfl

theorem Prog.bind_bind' {R'' : Type} : ∀ (p : Prog α R) (f : R → Prog α R') (g : R' → Prog α R''),
    (p.bind f).bind g = p.bind fun x => (f x).bind g
  | .ret _, _, _ => rfl
  | .getInfo _ k, f, g => congrArg (Prog.getInfo _) (funext fun x => Prog.bind_bind' (k x) f g)
  | .putInfo _ _ k, f, g => congrArg (Prog.putInfo _ _) (Prog.bind_bind' k f g)
  | .getChunk _ _ k, f, g => congrArg (Prog.getChunk _ _) (funext fun x => Prog.bind_bind' (k x) f g)
  | .putChunk _ _ _ k, f, g => congrArg (Prog.putChunk _ _ _) (Prog.bind_bind' k f g)
  | .coll _ k, f, g => congrArg (Prog.coll _) (funext fun x => Prog.bind_bind' (k x) f g)

/-- The first entry that is stored. -/
theorem storeAll_first (l : Layout) (enc : Int → α) (junk : List Nat → α) (r : Int) (s : State α) (ss : List (State α))
    {vars : List String} (hnames : ∀ name, name ∈ s.keys ↔ name = "time" ∨ name ∈ vars) :
    ∃ name e f, (name = "time" ∨ name ∈ vars) ∧ s.get? name = some e ∧
      storeAll l enc junk r none (s :: ss) = (appendEntry l enc junk r name e { name := name }).bind f ∧
      ∀ err w, f (.error err, w) = .ret (.error err) := by
  have hne : s.keys.mergeSort (fun a b => decide (a ≤ b)) ≠ [] := by
    intro h
    have := (hnames "time").2 (.inl rfl)
    rw [← List.mem_mergeSort (le := fun a b => decide (a ≤ b)), h] at this
    cases this
  cases hs : s.keys.mergeSort (fun a b => decide (a ≤ b)) with
  | nil => exact absurd hs hne
  | cons name rest =>
    have hmem : name ∈ s.keys := by
      rw [← List.mem_mergeSort (le := fun a b => decide (a ≤ b)), hs]
      exact List.mem_cons_self ..
    obtain ⟨e, he⟩ := (Dict.mem_keys_iff s name).1 hmem
    refine ⟨name, e, fun x => ((match x.1 with
        | .ok _ => storeLoop l enc junk r s rest ((initWriters s).set name x.2)
        | .error err => .ret (.error err, (initWriters s).set name x.2)).bind fun x => .ret (x.1, some x.2)).bind fun x =>
          match x.1 with
          | .ok _ => storeAll l enc junk r x.2 ss
          | .error e => .ret (.error e), (hnames name).1 hmem, he, ?_, fun _ _ => rfl⟩
    rw [storeAll, store]
    simp only [ensureWriters]
    rw [hs, storeLoop, he, initWriters_get s name (.inr hmem)]
    simp only
    rw [Prog.bind_bind', Prog.bind_bind']
    congr 1
    funext x
    rw [Prog.bind_bind']
    obtain ⟨x | x, w⟩ := x <;> rfl

/-- **C41**, stores with earlier contents: a store in which the arrays exist already (it was opened with mode "a" or
"r+", or somebody else has recorded in it) cannot be continued.  Rank 0 raises ValueError when the first state
is stored, all others wait forever; the store stays as it was. -/
theorem C41_existing (buf : Nat → Bool) {q : String → Nat → Int → Quantity α} {st : Nat → Int → State α}
    (hrec : Recording l k vars spec q tm st) (hk : 0 < k) (S : Store α)
    (hS : ∀ name, name = "time" ∨ name ∈ vars → S.infos name ≠ none) :
    (World.start (recordAll l enc junk k st) S).Hangs buf (Comm.cube l).ranks (.error .valueError) S ∧
      (recordAll l enc junk k st 0).alone S = (.error .valueError, S) := by
  have h0 : (0 : Int) ∈ (Comm.cube l).ranks := (mem_ranks (.cube l) 0).2 ⟨by omega, comm_size_pos (c := .cube l) hrec.safe⟩
  obtain ⟨k, rfl⟩ : ∃ k', k = k' + 1 := ⟨k - 1, by omega⟩
  have hroot : Runs (fun _ _ => 0) 0 (· = .error .valueError) S (recordAll l enc junk (k + 1) st 0) 1 S [] [] := by
    unfold recordAll
    rw [if_pos h0, List.range_succ_eq_map, List.map_cons]
    obtain ⟨name, e, f, hn, he, heq, hf⟩ := storeAll_first l enc junk 0 (st 0 0) (((List.range k).map Nat.succ).map fun t => st t 0)
      (hrec.names 0 0 hk h0)
    rw [heq]
    refine Runs.bind (n := 1) (n' := 0) (gs := []) (gs' := []) (L' := S)
      (Q := fun x => x = ((.error .valueError : Py Unit), ({ name := name } : Writer))) ?_ ?_
    · unfold appendEntry
      by_cases hnt : name = "time"
      · subst hnt
        rw [hrec.time 0 0 hk h0] at he
        cases he
        rw [if_pos rfl]
        exact appendTime_exists enc junk _ S (hS _ hn) _
      · rcases hn with hn | hn
        · exact absurd hn hnt
        · rw [(hrec.qty 0 0 hk h0 name hn).1] at he
          cases he
          rw [if_neg hnt]
          exact append_exists l junk _ name S (hS _ (.inr hn)) _
    · rintro x rfl
      rw [hf]
      exact .ret rfl
  have hal := hroot.alone
  refine ⟨?_, Prod.ext hal.1 hal.2⟩
  have hjoint : joint (fun _ _ => 0) (Comm.cube l).ranks (fun _ => S) = S := by
    unfold joint
    simp only [if_pos h0]
  have := hangs_of_blocks (own := fun _ _ => 0) (fin := fun _ => S) (G := []) buf (recordAll l enc junk (k + 1) st) S
    (fun r => if r = 0 then 1 else 0) (.error .valueError) h0 (ranks_nodup _) hroot ?_ ?_ ?_
  · rw [hjoint] at this
    exact this
  · intro r hr hne
    simp only [if_neg hne]
    unfold recordAll
    rw [if_pos hr, List.range_succ_eq_map, List.map_cons]
    obtain ⟨name, e, f, hn, he, heq, hf⟩ := storeAll_first l enc junk r (st 0 r) (((List.range k).map Nat.succ).map fun t => st t r)
      (hrec.names 0 r hk hr)
    rw [heq]
    refine Blocks.bind ?_ f
    unfold appendEntry
    by_cases hnt : name = "time"
    · subst hnt
      rw [hrec.time 0 r hk hr] at he
      cases he
      rw [if_pos rfl]
      exact appendTime_waits hne enc junk _ _ rfl S _
    · rcases hn with hn | hn
      · exact absurd hn hnt
      · rw [(hrec.qty 0 r hk hr name hn).1] at he
        cases he
        rw [if_neg hnt]
        exact append_waits hne l junk _ _ rfl S _
  · intro r hr
    unfold recordAll
    rw [if_neg hr]
    exact ⟨_, rfl⟩
  · intro name ci h
    exact absurd h0 h

/-- **C41**, resuming: after a run of `k` steps has been recorded, a new monitor for the same variables cannot append to
the store, in whatever mode it is opened.  Mode "w-" raises ValueError.  Modes "a" and "r+" open it as it is, but
then the first `store` raises ValueError on rank 0, no other rank returns, and nothing is added.  Mode "w" deletes the
record. -/
theorem C41_resume (buf buf' : Nat → Bool) {q : String → Nat → Int → Quantity α} {st : Nat → Int → State α}
    (hrec : Recording l k vars spec q tm st) (hv : vars.Nodup) (hk : 0 < k) {l' : Layout} {spec' : String → VarSpec}
    {q' : String → Nat → Int → Quantity α} {tm' : Nat → ZTime} {st' : Nat → Int → State α} {k' : Nat}
    (hrec' : Recording l' k' vars spec' q' tm' st') (hk' : 0 < k') (mode : OpenMode) :
    ∃ S : Store α,
      (World.start (recordAll l enc junk k st) Store.empty).Completes buf (Comm.cube l).ranks (fun _ => .ok ()) S ∧
      match openGroup mode (some S) with
      | .error e => mode = .wMinus ∧ e = .valueError
      | .ok S1 => if mode = .w then ∀ name idx, S1.read name idx = none else
          (World.start (recordAll l' enc junk k' st') S1).Hangs buf' (Comm.cube l').ranks (.error .valueError) S := by
  obtain ⟨S, h1, h2, ⟨c, h3⟩, -⟩ := C39_recording (enc := enc) (junk := junk) buf hrec hv hk
  refine ⟨S, h1, ?_⟩
  have hS : ∀ name, name = "time" ∨ name ∈ vars → S.infos name ≠ none := by
    rintro name (rfl | hn)
    · rw [h3]; simp
    · obtain ⟨⟨c, hc⟩, -⟩ := h2 name hn
      rw [hc]; simp
  have hh := (C41_existing (enc := enc) (junk := junk) buf' hrec' hk' S hS).1
  cases mode with
  | rPlus => simp only [openGroup]; rw [if_neg (by decide)]; exact hh
  | a => simp only [openGroup]; rw [if_neg (by decide)]; exact hh
  | w => simp only [openGroup]; rw [if_pos trivial]; intro _ _; rfl
  | wMinus => exact ⟨rfl, rfl⟩

theorem Recording.rootOnly {q : String → Nat → Int → Quantity α} {st : Nat → Int → State α}
    (h : Recording l k vars spec q tm st) : Recording l k vars spec (fun name t _ => q name t 0) tm (fun t _ => st t 0) := by
  have h0 : (0 : Int) ∈ (Comm.cube l).ranks := (mem_ranks (.cube l) 0).2 ⟨by omega, comm_size_pos (c := .cube l) h.safe⟩
  exact ⟨h.safe, h.good, h.notime, fun t _ ht _ => h.dict t 0 ht h0, fun t _ ht _ => h.names t 0 ht h0,
    fun t _ ht _ => h.qty t 0 ht h0, fun t _ ht _ => h.time t 0 ht h0, h.units, h.calendar⟩
end

/-- Three steps recorded by a single process: the times are there, and the array of the winds. -/
example : ∃ S : Store Nat, (storeAll ⟨1, 2⟩ Int.toNat (fun _ => 0) 0 none ((List.range 3).map fun t => exState t 0)).alone
    Store.empty = (.ok (), S) ∧ (S.infos "u").map (·.shape) = some [3, 6, 2, 7] ∧ S.read "time" [2] = some 120 := by
  obtain ⟨S, h1, h2, h3, h4⟩ := C39_default_comm (enc := Int.toNat) (junk := fun _ => 0) (exRecording 3).rootOnly (by decide) (by decide)
  refine ⟨S, h1, ?_, h4 2 (by decide)⟩
  obtain ⟨⟨c, hc⟩, -⟩ := h2 "u" (by decide)
  rw [hc]
  rfl

/-- Five steps after three: not with mode "a". -/
example (buf : Nat → Bool) : ∃ S : Store Nat, S.read "time" [2] = some 120 ∧
    (World.start (recordAll ⟨1, 2⟩ Int.toNat (fun _ => 0) 5 exState) S).Hangs buf (Comm.cube ⟨1, 2⟩).ranks (.error .valueError) S := by
  obtain ⟨S, h1, h2, ⟨c, h3⟩, h4⟩ := C39_recording (enc := Int.toNat) (junk := fun _ => 0) buf (exRecording 3) (by decide) (by decide)
  refine ⟨S, h4 2 (by decide), (C41_existing buf (exRecording 5) (by decide) S ?_).1⟩
  rintro name (rfl | hn)
  · rw [h3]; simp
  · obtain ⟨⟨c, hc⟩, -⟩ := h2 name hn
    rw [hc]; simp

/-! ### Going on after a state with other variables -/

/-- `p'` does what `p` does as long as `p` succeeds, and then has result `b`. -/
inductive Matches (b : R) : Prog α (Py Unit) → Prog α R → Prop where
  | ret {a p'} : (a = .ok () → p' = .ret b) → Matches b (.ret a) p'
  | getInfo {name k k'} : (∀ x, Matches b (k x) (k' x)) → Matches b (.getInfo name k) (.getInfo name k')
  | putInfo {name i k k'} : Matches b k k' → Matches b (.putInfo name i k) (.putInfo name i k')
  | getChunk {name ci k k'} : (∀ x, Matches b (k x) (k' x)) → Matches b (.getChunk name ci k) (.getChunk name ci k')
  | putChunk {name ci c k k'} : Matches b k k' → Matches b (.putChunk name ci c k) (.putChunk name ci c k')
  | coll {c k k'} : (∀ x, Matches b (k x) (k' x)) → Matches b (.coll c k) (.coll c k')

theorem Matches.map {b : R} {p : Prog α (Py Unit)} {p' : Prog α R} (h : Matches b p p') (f : R → R') :
    Matches (f b) p (p'.bind fun x => .ret (f x)) := by
  induction h with
  | ret h => exact .ret fun ha => by rw [h ha]; rfl
  | getInfo _ ih => exact .getInfo ih
  | putInfo _ ih => exact .putInfo ih
  | getChunk _ ih => exact .getChunk ih
  | putChunk _ ih => exact .putChunk ih
  | coll _ ih => exact .coll ih

theorem Matches.bind {b : R'} : ∀ (p : Prog α R) {f : R → Prog α (Py Unit)} {g : R → Prog α R'},
    (∀ x, p.Ends x → Matches b (f x) (g x)) → Matches b (p.bind f) (p.bind g)
  | .ret _, _, _, h => h _ rfl
  | .getInfo _ k, _, _, h => .getInfo fun a => Matches.bind (k a) fun x hx => h x ⟨a, hx⟩
  | .putInfo _ _ k, _, _, h => .putInfo (Matches.bind k h)
  | .getChunk _ _ k, _, _, h => .getChunk fun a => Matches.bind (k a) fun x hx => h x ⟨a, hx⟩
  | .putChunk _ _ _ k, _, _, h => .putChunk (Matches.bind k h)
  | .coll _ k, _, _, h => .coll fun a => Matches.bind (k a) fun x hx => h x ⟨a, hx⟩

theorem Matches.runs {own : String → List Nat → Int} {r : Int} {L L' : Store α} {p : Prog α (Py Unit)} {n : Nat}
    {kn : Known} {gs : List GItem} {b : R} {p' : Prog α R} (h : Runs own r (· = .ok ()) L' p n L kn gs)
    (hm : Matches b p p') : Runs own r (· = b) L' p' n L kn gs := by
  induction h generalizing p' with
  | ret ha => cases hm with | ret h => rw [h ha]; exact .ret rfl
  | getInfoRoot h _ ih => cases hm with | getInfo hk => exact .getInfoRoot h (ih (hk _))
  | getInfoOther h h2 _ ih => cases hm with | getInfo hk => exact .getInfoOther h h2 fun i hi => ih i hi (hk _)
  | putInfo h h2 _ ih => cases hm with | putInfo hk => exact .putInfo h h2 (ih hk)
  | getChunk h _ ih => cases hm with | getChunk hk => exact .getChunk h (ih (hk _))
  | putChunk h _ ih => cases hm with | putChunk hk => exact .putChunk h (ih hk)
  | collRoot h h2 h3 _ ih => cases hm with | coll hk => exact .collRoot h h2 h3 (ih (hk _))
  | collOther h h2 _ ih => cases hm with | coll hk => exact .collOther h h2 (ih (hk _))

/-- A state with the variables `vars` and a time. -/
def SameNames (vars : List String) (s : State α) : Prop := ∀ name, name ∈ s.keys ↔ name = "time" ∨ name ∈ vars

open Classical in
theorem storeEach_matches {l : Layout} {enc : Int → α} {junk : List Nat → α} {r : Int} {vars names : List String}
    (hn : ∀ name, (name = "time" ∨ name ∈ names) ↔ name = "time" ∨ name ∈ vars) :
    ∀ (ss : List (State α)) (m : Monitor), MonitorAfter l enc junk r names m →
      Matches (ss.map fun s => if SameNames vars s then .ok () else .error .valueError)
        (storeAll l enc junk r m (ss.filter fun s => decide (SameNames vars s))) (storeEach l enc junk r m ss)
  | [], m, _ => .ret fun _ => rfl
  | s :: ss, m, hm => by
    rw [storeEach, List.map_cons]
    by_cases hs : SameNames vars s
    · rw [if_pos hs, List.filter_cons_of_pos (by simpa using hs), storeAll]
      refine Matches.bind _ ?_
      rintro ⟨x, m'⟩ hx
      cases x with
      | ok x => exact (storeEach_matches hn ss m' (hm.next hx)).map _
      | error e => exact .ret fun h => by cases h
    · rw [if_neg hs, List.filter_cons_of_neg (by simpa using hs), C41_names l enc junk r names m hm s]
      · exact (storeEach_matches hn ss m hm).map _
      · intro h
        apply hs
        intro name
        rw [h, hn]

section
variable {l : Layout} {enc : Int → α} {junk : List Nat → α} {spec : String → VarSpec}
  {q : String → Nat → Int → Quantity α} {tm : Nat → ZTime} {k : Nat} {vars : List String} {st : Nat → Int → State α}

open Classical in
/-- **C41**, states with other variables do no harm.  Suppose the ranks are offered, after the first state and between
the states of a run, any other states with missing or additional variables, possibly different ones and
different numbers of them on different ranks; and every caller catches exceptions and goes on.  Then all ranks
finish, under every schedule.  Exactly those states are rejected, with ValueError.  The store is the one that
the run leaves without them (`C39_recording`). -/
theorem C41_skipped (buf : Nat → Bool) (hrec : Recording l k vars spec q tm st) (hv : vars.Nodup) (hk : 0 < k)
    (offer : Int → List (State α)) (hfirst : ∀ r ∈ (Comm.cube l).ranks, (offer r).head? = some (st 0 r))
    (hoffer : ∀ r ∈ (Comm.cube l).ranks,
      (offer r).filter (fun s => decide (SameNames vars s)) = (List.range k).map fun t => st t r)
    (hidle : ∀ r, r ∉ (Comm.cube l).ranks → offer r = []) :
    ∃ S : Store α,
      (World.start (recordAll l enc junk k st) Store.empty).Completes buf (Comm.cube l).ranks (fun _ => .ok ()) S ∧
      (World.start (fun r => storeEach l enc junk r none (offer r)) Store.empty).Completes buf (Comm.cube l).ranks
        (fun r => (offer r).map fun s => if SameNames vars s then .ok () else .error .valueError) S := by
  have h0 : (0 : Int) ∈ (Comm.cube l).ranks := (mem_ranks (.cube l) 0).2 ⟨by omega, comm_size_pos (c := .cube l) hrec.safe⟩
  obtain ⟨G, n, fin, hrun, hinv⟩ := record_runs (enc := enc) (junk := junk) hrec hv
  refine ⟨_, completes_of_runs (G := G) buf _ Store.empty n h0 (ranks_nodup _) hrun ?_ ?_,
    completes_of_runs (G := G) (I := fun _ => Free) buf _ Store.empty n h0 (ranks_nodup _) ?_ ?_ ?_⟩
  · intro r hr
    unfold recordAll
    rw [if_neg hr]
  · intro _ _ _; rfl
  · intro r hr
    have hr1 := hrun r hr
    unfold recordAll at hr1
    rw [if_pos hr, ← hoffer r hr] at hr1
    refine Matches.runs hr1 ?_
    have hf := hfirst r hr
    cases ho : offer r with
    | nil => rw [ho] at hf; cases hf
    | cons s ss =>
      rw [ho, List.head?_cons] at hf
      injection hf with hf
      have hnames : SameNames vars s := hf ▸ hrec.names 0 r hk hr
      rw [storeEach, List.map_cons, if_pos hnames, List.filter_cons_of_pos (by simpa using hnames), storeAll]
      refine Matches.bind _ ?_
      rintro ⟨x, m'⟩ hx
      cases x with
      | ok x =>
        refine (storeEach_matches (names := s.keys) ?_ ss m' (.first rfl hx)).map _
        intro name
        rw [hnames name]
        tauto
      | error e => exact .ret fun h => by cases h
  · intro r hr
    rw [hidle r hr]
    rfl
  · intro _ _ _; rfl
end

/-- Rank 3 is offered a state without winds, twice. -/
noncomputable def exOffer (r : Int) : List (State Nat) :=
  if r ∈ (Comm.cube ⟨1, 2⟩).ranks then
    exState 0 r :: (if r = 3 then [[("time", .time (exTime 1))], [("time", .time (exTime 1))]] else []) ++
      (exState 1 r :: if r = 3 then [] else [[]]) ++ [exState 2 r]
  else []

example (buf : Nat → Bool) : ∃ S : Store Nat,
    (World.start (fun r => storeEach ⟨1, 2⟩ Int.toNat (fun _ => 0) r none (exOffer r)) Store.empty).Completes buf
      (Comm.cube ⟨1, 2⟩).ranks (fun r => if r ∈ (Comm.cube ⟨1, 2⟩).ranks then
        if r = 3 then [.ok (), .error .valueError, .error .valueError, .ok (), .ok ()]
        else [.ok (), .ok (), .error .valueError, .ok ()] else []) S := by
  have hg : ∀ t r, SameNames ["u", "ps"] (exState t r) := by
    intro t r name
    unfold exState
    split_ifs <;> simp [Dict.keys] <;> tauto
  have hb : ¬ SameNames ["u", "ps"] ([("time", .time (exTime 1))] : State Nat) := fun h => by
    have := (h "u").2 (.inr (by decide))
    revert this
    decide
  have he : ¬ SameNames ["u", "ps"] ([] : State Nat) := fun h => by
    have := (h "u").2 (.inr (by decide))
    cases this
  have h1 : ∀ r ∈ (Comm.cube ⟨1, 2⟩).ranks, (exOffer r).head? = some (exState 0 r) := by
    intro r hr
    unfold exOffer
    rw [if_pos hr]
    rfl
  have h2 : ∀ r, r ∉ (Comm.cube ⟨1, 2⟩).ranks → exOffer r = [] := by
    intro r hr
    unfold exOffer
    rw [if_neg hr]
  obtain ⟨S, -, h⟩ := C41_skipped (enc := Int.toNat) (junk := fun _ => 0) buf (exRecording 3) (by decide) (by decide) exOffer h1
    (by
      intro r hr
      unfold exOffer
      rw [if_pos hr]
      split_ifs <;> simp [hg, hb, he, List.range_succ]) h2
  refine ⟨S, ?_⟩
  convert h using 2 with r
  unfold exOffer
  split_ifs <;> simp [hg, hb, he]

end Zarr
end FV3
