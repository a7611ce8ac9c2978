import Verif.Props.Zarr

/-!
# ZarrMonitor rejects inconsistent states (C41)
-/

namespace FV3
namespace Zarr
variable {α R S : Type}

theorem ends_bind (p : Prog α R) (f : R → Prog α S) (x : S) : (p.bind f).Ends x ↔ ∃ y, p.Ends y ∧ (f y).Ends x := by
  induction p with
  | ret r => simp [Prog.bind, Prog.Ends]
  | getInfo n k ih =>
    simp only [Prog.bind, Prog.Ends, ih]
    constructor
    · rintro ⟨a, y, h1, h2⟩; exact ⟨y, ⟨a, h1⟩, h2⟩
    · rintro ⟨y, ⟨a, h1⟩, h2⟩; exact ⟨a, y, h1, h2⟩
  | putInfo n i k ih => simp only [Prog.bind, Prog.Ends, ih]
  | getChunk n j k ih =>
    simp only [Prog.bind, Prog.Ends, ih]
    constructor
    · rintro ⟨a, y, h1, h2⟩; exact ⟨y, ⟨a, h1⟩, h2⟩
    · rintro ⟨y, ⟨a, h1⟩, h2⟩; exact ⟨a, y, h1, h2⟩
  | putChunk n j c k ih => simp only [Prog.bind, Prog.Ends, ih]
  | coll c k ih =>
    simp only [Prog.bind, Prog.Ends, ih]
    constructor
    · rintro ⟨a, y, h1, h2⟩; exact ⟨y, ⟨a, h1⟩, h2⟩
    · rintro ⟨y, ⟨a, h1⟩, h2⟩; exact ⟨a, y, h1, h2⟩

theorem storeLoop_keys (l : Layout) (enc : Int → α) (junk : List Nat → α) (r : Int) (s : State α) :
    ∀ (names : List String) (ws ws' : Dict String Writer) (x : Py Unit),
    (storeLoop l enc junk r s names ws).Ends (x, ws') → ws'.keys = ws.keys
  | [], ws, ws', x, h => by
    simp only [storeLoop, Prog.Ends] at h
    injection h with _ h
    rw [h]
  | name :: names, ws, ws', x, h => by
    rw [storeLoop] at h
    cases he : s.get? name with
    | none => rw [he] at h; simp only [Prog.Ends] at h; injection h with _ h; rw [h]
    | some e =>
      cases hw : ws.get? name with
      | none => rw [he, hw] at h; simp only [Prog.Ends] at h; injection h with _ h; rw [h]
      | some w =>
        rw [he, hw] at h
        have hk : ∀ w', (ws.set name w').keys = ws.keys := by
          intro w'
          rw [Dict.keys_set, if_pos ((Dict.mem_keys_iff ws name).2 ⟨w, hw⟩)]
        simp only [ends_bind] at h
        obtain ⟨⟨y, w'⟩, -, h⟩ := h
        cases y with
        | ok u => exact (storeLoop_keys l enc junk r s names _ _ _ h).trans (hk w')
        | error err =>
          simp only [Prog.Ends] at h
          injection h with _ h
          rw [← h, hk]

/-- The writers are those of the first state. -/
theorem monitorAfter_keys {l : Layout} {enc : Int → α} {junk : List Nat → α} {r : Int} {names : List String} {m : Monitor}
    (h : MonitorAfter l enc junk r names m) :
    ∃ ws, m = some ws ∧ ∀ name, name ∈ ws.keys ↔ name = "time" ∨ name ∈ names := by
  induction h with
  | @first s x m hs h =>
    unfold store at h
    simp only [ensureWriters, ends_bind] at h
    obtain ⟨⟨y, ws⟩, h1, h2⟩ := h
    injection h2 with h2 h3
    refine ⟨ws, h3.symm, ?_⟩
    intro name
    rw [storeLoop_keys _ _ _ _ _ _ _ _ _ h1, initWriters_keys, hs]
  | @next s x m m' _ h ih =>
    obtain ⟨ws, rfl, hws⟩ := ih
    unfold store at h
    cases he : ensureWriters (some ws) s with
    | error e =>
      rw [he] at h
      simp only [Prog.Ends] at h
      injection h with _ h
      exact ⟨ws, h.symm, hws⟩
    | ok ws1 =>
      rw [he] at h
      have : ws1 = ws := by
        unfold ensureWriters at he
        simp only at he
        split_ifs at he
        injection he with he
        exact he.symm
      subst this
      simp only [ends_bind] at h
      obtain ⟨⟨y, ws2⟩, h1, h2⟩ := h
      injection h2 with h2 h3
      refine ⟨ws2, h3.symm, ?_⟩
      intro name
      rw [storeLoop_keys _ _ _ _ _ _ _ _ _ h1, hws]

/-- **C41**, names: whatever has happened since the first state was stored, a state with other variables than
it had (not counting "time", which from now on there must be) makes `store` raise ValueError; nothing is
read, written or communicated, and the monitor stays as it is. -/
theorem C41_names (l : Layout) (enc : Int → α) (junk : List Nat → α) (r : Int) (names : List String) (m : Monitor)
    (hm : MonitorAfter l enc junk r names m) (s : State α)
    (hs : ¬ ∀ name, name ∈ s.keys ↔ name = "time" ∨ name ∈ names) :
    store l enc junk r m s = .ret (.error .valueError, m) := by
  obtain ⟨ws, rfl, hws⟩ := monitorAfter_keys hm
  have : ensureWriters (some ws) s = .error .valueError := by
    unfold ensureWriters
    simp only
    split_ifs with h1 h2
    · rfl
    · rfl
    · exfalso
      apply hs
      intro name
      rw [← hws]
      simp only [Bool.not_eq_false, List.all_eq_true] at h1 h2
      constructor
      · intro hn
        have := h1 name hn
        rw [Dict.has, Option.isSome_iff_exists] at this
        exact (Dict.mem_keys_iff ws name).2 this
      · intro hn
        have := h2 name hn
        rw [Dict.has, Option.isSome_iff_exists] at this
        exact (Dict.mem_keys_iff s name).2 this
  unfold store
  rw [this]

theorem updRank_updRank {A : Type} (f : Int → A) (r : Int) (a b : A) : updRank (updRank f r a) r b = updRank f r b := by
  funext r'
  unfold updRank
  split_ifs <;> rfl

/-- A program on its own is a schedule of its rank. -/
theorem solo_run (buf : Nat → Bool) (ranks : List Int) (r : Int) : ∀ (p : Prog α R) (W : World α R) (x : R) (S' : Store α),
    W.procs r = p → p.solo W.store = some (x, S') →
    ∃ n, W.run buf ranks (List.replicate n r) = some { W with procs := updRank W.procs r (.ret x), store := S' }
  | .ret y, W, x, S', hp, hs => by
    simp only [Prog.solo, Option.some.injEq, Prod.mk.injEq] at hs
    obtain ⟨rfl, rfl⟩ := hs
    refine ⟨0, ?_⟩
    have : updRank W.procs r (.ret y) = W.procs := by
      funext r'
      unfold updRank
      split_ifs with h
      · rw [h, hp]
      · rfl
    rw [this]
    rfl
  | .getInfo nm k, W, x, S', hp, hs => by
    obtain ⟨n, hn⟩ := solo_run buf ranks r (k (W.store.infos nm)) { W with procs := updRank W.procs r (k (W.store.infos nm)) } x S'
      (by simp [updRank]) hs
    refine ⟨n + 1, ?_⟩
    rw [List.replicate_succ, World.run, World.step, hp]
    simp only [Option.bind_some]
    rw [hn]
    simp only [updRank_updRank]
  | .putInfo nm i k, W, x, S', hp, hs => by
    obtain ⟨n, hn⟩ := solo_run buf ranks r k { W with procs := updRank W.procs r k, store := W.store.putInfo nm i } x S'
      (by simp [updRank]) hs
    refine ⟨n + 1, ?_⟩
    rw [List.replicate_succ, World.run, World.step, hp]
    simp only [Option.bind_some]
    rw [hn]
    simp only [updRank_updRank]
  | .getChunk nm j k, W, x, S', hp, hs => by
    obtain ⟨n, hn⟩ := solo_run buf ranks r (k (W.store.chunks nm j)) { W with procs := updRank W.procs r (k (W.store.chunks nm j)) } x S'
      (by simp [updRank]) hs
    refine ⟨n + 1, ?_⟩
    rw [List.replicate_succ, World.run, World.step, hp]
    simp only [Option.bind_some]
    rw [hn]
    simp only [updRank_updRank]
  | .putChunk nm j c k, W, x, S', hp, hs => by
    obtain ⟨n, hn⟩ := solo_run buf ranks r k { W with procs := updRank W.procs r k, store := W.store.putChunk nm j c } x S'
      (by simp [updRank]) hs
    refine ⟨n + 1, ?_⟩
    rw [List.replicate_succ, World.run, World.step, hp]
    simp only [Option.bind_some]
    rw [hn]
    simp only [updRank_updRank]
  | .coll c k, W, x, S', hp, hs => by simp [Prog.solo] at hs

theorem solo_bind (p : Prog α R) (f : R → Prog α S) (T : Store α) :
    (p.bind f).solo T = (p.solo T).bind fun y => (f y.1).solo y.2 := by
  induction p generalizing T with
  | ret r => rfl
  | getInfo n k ih => exact ih _ _
  | putInfo n i k ih => exact ih _
  | getChunk n j k ih => exact ih _ _
  | putChunk n j c k ih => exact ih _
  | coll c k ih => rfl

theorem solo_error {A B : Type} {m : WM α A} {f : A → WM α B} {w w' : Writer} {T T' : Store α} {e : PyErr}
    (h : (m w).solo T = some ((.error e, w'), T')) : ((m >>= f) w).solo T = some ((.error e, w'), T') := by
  show ((m w).bind _).solo T = _
  rw [solo_bind, h]
  rfl

theorem solo_ok {A B : Type} {m : WM α A} {f : A → WM α B} {w w' : Writer} {T T' : Store α} {a : A}
    (h : (m w).solo T = some ((.ok a, w'), T')) : ((m >>= f) w).solo T = (f a w').solo T' := by
  show ((m w).bind _).solo T = _
  rw [solo_bind, h]
  rfl

/-- **C41**, dimensions and units: when the array is to be extended for the new step but its dimensions or
units are not those of the quantity, rank 0 raises an exception (a ValueError, provided that the extents agree)
without having written any chunk and without having communicated. -/
theorem C41_attrs (l : Layout) (junk : List Nat → α) (q : Quantity α) (w : Writer) (h : Handle) (S : Store α) (i : Info)
    (hw : w.array = some h) (ht : h.shape.getD 0 0 ≤ w.iTime) (hi : S.infos h.name = some i)
    (hne : ¬ (i.attrs.dims = some q.dims ∧ i.attrs.units = some (.str q.units) ∧ i.attrs.calendar = none)) :
    ∃ e w' S', (append l junk 0 q w).solo S = some ((.error e, w'), S') ∧ S'.chunks = S.chunks ∧
      (h.shape.drop 1 = 6 :: (tileExtentFromRankMetadata q.dims q.extent l).map Int.toNat → e = .valueError) := by
  have hattrs : i.attrs ≠ attrsOf q := by
    intro he
    rw [he] at hne
    exact hne ⟨rfl, rfl, rfl⟩
  have hgrow : ∃ e w' S', (growChecked l h q w).solo S = some ((.error e, w'), S') ∧ S'.chunks = S.chunks ∧
      (h.shape.drop 1 = 6 :: (tileExtentFromRankMetadata q.dims q.extent l).map Int.toNat → e = .valueError) := by
    unfold growChecked
    rw [WM.self_bind]
    generalize hsh : (w.iTime + 1) :: 6 :: (tileExtentFromRankMetadata q.dims q.extent l).map Int.toNat = sh
    by_cases h1 : sh.length = h.shape.length
    · by_cases h2 : (List.zipWith (fun (a b : Nat) => decide (a ≤ b)) h.shape sh).all id = true
      · have hr : (resize h sh w).solo S = some ((.ok { h with shape := sh }, w), S.putInfo h.name { i with shape := sh }) := by
          unfold resize
          rw [raiseIf_no (by simpa using h1), WM.lift_bind, raiseIf_no (by simpa using h2), WM.lift_bind, WM.getInfo_bind]
          show ((_ : WM α Handle) w).solo S = _
          rw [hi]
          rfl
        refine ⟨.valueError, { w with array := some { h with shape := sh } },
          S.putInfo h.name { i with shape := sh }, (solo_ok hr).trans ?_, rfl, fun _ => rfl⟩
        rw [WM.update_bind]
        unfold ensureCompatibleAttrs
        have ha : (getAttrs { h with shape := sh } { w with array := some { h with shape := sh } }).solo
            (S.putInfo h.name { i with shape := sh }) =
            some ((.ok i.attrs, { w with array := some { h with shape := sh } }), S.putInfo h.name { i with shape := sh }) := by
          unfold getAttrs
          rw [WM.getInfo_bind]
          show ((_ : WM α Attrs) _).solo _ = _
          rw [Store.putInfo_get]
          rfl
        rw [solo_ok ha]
        unfold raiseIf
        rw [if_pos hattrs]
        rfl
      · refine ⟨.notImplemented, w, S, solo_error ?_, rfl, ?_⟩
        · unfold resize
          rw [raiseIf_no (by simpa using h1), WM.lift_bind]
          unfold raiseIf
          rw [if_pos h2]
          rfl
        · intro hd
          exfalso
          apply h2
          have : ∃ a, h.shape = a :: 6 :: (tileExtentFromRankMetadata q.dims q.extent l).map Int.toNat := by
            rw [← hsh] at h1
            cases hs : h.shape with
            | nil => rw [hs] at h1; simp at h1
            | cons a rest => rw [hs] at hd; exact ⟨a, by rw [← hd]; rfl⟩
          obtain ⟨a, ha⟩ := this
          rw [ha] at ht ⊢
          rw [← hsh]
          simp only [List.getD_cons_zero] at ht
          simp [zip_le_self]
          omega
    · refine ⟨.valueError, w, S, solo_error ?_, rfl, fun _ => rfl⟩
      unfold resize
      unfold raiseIf
      rw [if_pos h1]
      rfl
  obtain ⟨e, w', S', hrun, hc, he⟩ := hgrow
  refine ⟨e, w', S', ?_, hc, he⟩
  unfold append
  rw [WM.self_bind]
  unfold when
  rw [if_neg (by rw [hw]; simp), WM.pure_bind, if_pos (show (0 : Int) = ROOT_RANK from rfl)]
  apply solo_error
  unfold extend
  rw [WM.self_bind, hw]
  simp only [need]
  rw [WM.lift_bind]
  unfold when
  rw [if_pos ht]
  exact hrun

/-- **C41**, limit: a rank which waits in a collective that rank 0 has not called waits forever once rank 0 has
finished (so when rank 0 raises the exception of `C41_attrs`, the others do not return). -/
theorem C41_limit_others_wait (buf : Nat → Bool) (ranks : List Int) (h0 : (0 : Int) ∈ ranks) (r : Int) (hr : r ≠ 0)
    (x : R) (c : Coll) (k : Option String → Prog α R) : ∀ (sched : List Int) (W A : World α R),
    W.procs 0 = .ret x → W.procs r = .coll c k → W.inside r = true → (W.log r).getLast? = some c →
    (W.log 0).length < (W.log r).length → W.run buf ranks sched = some A →
    A.procs 0 = .ret x ∧ A.procs r = .coll c k
  | [], W, A, hx, hp, _, _, _, hA => by cases hA; exact ⟨hx, hp⟩
  | s :: sched, W, A, hx, hp, hin, hlast, hlt, hA => by
    rw [World.run] at hA
    cases hs : W.step buf ranks s with
    | none => rw [hs] at hA; cases hA
    | some W1 =>
      rw [hs] at hA
      have hs0 : s ≠ 0 := by
        rintro rfl
        rw [World.step, hx] at hs
        cases hs
      have hlog : (W.log r)[(W.log r).length - 1]? = some c := by
        rw [List.getLast?_eq_getElem?] at hlast
        exact hlast
      have hnone : (W.log 0)[(W.log r).length - 1]? = none := by
        rw [List.getElem?_eq_none_iff]; omega
      have hsr : s ≠ r := by
        rintro rfl
        rw [World.step, hp] at hs
        simp only [hin, if_true] at hs
        have : W.leave buf ranks s = none := by
          unfold World.leave
          simp only [hlog]
          cases c with
          | bcast own => simp only [if_neg hr, hnone]
          | barrier =>
            simp only
            rw [if_neg]
            intro hall
            rw [List.all_eq_true] at hall
            have := hall 0 h0
            rw [hnone] at this
            simp at this
        rw [this] at hs
        cases hs
      have hproc : ∀ r', r' ≠ s → W1.procs r' = W.procs r' ∧ W1.log r' = W.log r' ∧ W1.inside r' = W.inside r' := by
        intro r' hr'
        rw [World.step] at hs
        cases hq : W.procs s with
        | ret y => rw [hq] at hs; cases hs
        | getInfo n k => rw [hq] at hs; cases hs; simp [updRank, hr']
        | putInfo n i k => rw [hq] at hs; cases hs; simp [updRank, hr']
        | getChunk n j k => rw [hq] at hs; cases hs; simp [updRank, hr']
        | putChunk n j c k => rw [hq] at hs; cases hs; simp [updRank, hr']
        | coll c k =>
          rw [hq] at hs
          simp only at hs
          split at hs
          · split at hs
            · cases hs
            · cases hs; simp [updRank, hr']
          · cases hs; simp [updRank, hr']
      obtain ⟨a1, a2, a3⟩ := hproc 0 (Ne.symm hs0)
      obtain ⟨b1, b2, b3⟩ := hproc r (Ne.symm hsr)
      exact C41_limit_others_wait buf ranks h0 r hr x c k sched W1 A (by rw [a1, hx]) (by rw [b1, hp]) (by rw [b3, hin])
        (by rw [b2, hlast]) (by rw [a2, b2]; exact hlt) hA

/-! ### Concrete executions -/

/-- The first rank which can do a step does it, again and again. -/
def World.greedy (buf : Nat → Bool) (ranks : List Int) : Nat → World α R → World α R
  | 0, W => W
  | n + 1, W =>
    match ranks.findSome? fun r => W.step buf ranks r with
    | none => W
    | some W' => World.greedy buf ranks n W'

theorem greedy_run (buf : Nat → Bool) (ranks : List Int) : ∀ (n : Nat) (W : World α R),
    ∃ sched, W.run buf ranks sched = some (W.greedy buf ranks n)
  | 0, W => ⟨[], rfl⟩
  | n + 1, W => by
    rw [World.greedy]
    cases h : ranks.findSome? fun r => W.step buf ranks r with
    | none => exact ⟨[], rfl⟩
    | some W' =>
      obtain ⟨r, -, hr⟩ := List.exists_of_findSome?_eq_some h
      obtain ⟨sched, hs⟩ := greedy_run buf ranks n W'
      exact ⟨r :: sched, by rw [World.run, hr]; exact hs⟩

def Prog.result? : Prog α R → Option R
  | .ret x => some x
  | _ => none

theorem Prog.result?_eq {p : Prog α R} {x : R} (h : p.result? = some x) : p = .ret x := by
  cases p <;> simp [Prog.result?] at h
  rw [h]

/-- `store` of a state whose names are in order. -/
def storeSorted (l : Layout) (enc : Int → α) (junk : List Nat → α) (rank : Int) (m : Monitor) (s : State α) :
    Prog α (Py Unit × Monitor) :=
  match ensureWriters m s with
  | .error e => .ret (.error e, m)
  | .ok ws => (storeLoop l enc junk rank s s.keys ws).bind fun x => .ret (x.1, some x.2)

theorem store_sorted (l : Layout) (enc : Int → α) (junk : List Nat → α) (rank : Int) (m : Monitor) (s : State α)
    (h : s.keys.Pairwise fun a b => decide (a ≤ b) = true) :
    store l enc junk rank m s = storeSorted l enc junk rank m s := by
  unfold store storeSorted
  rw [List.mergeSort_of_pairwise h]
  rfl

/-- One cell per tile, six ranks. -/
def exCell (units : String) (v : Nat) : Quantity Nat :=
  { data := ⟨[1, 1], fun _ => v⟩, dims := [.y, .x], units := units, origin := [0, 0], extent := [1, 1] }

def exCells (units : String) (v t : Nat) : State Nat := [("a", .qty (exCell units v)), ("time", .time (exTime t))]

theorem exCells_sorted (units : String) (v t : Nat) : (exCells units v t).keys.Pairwise fun a b => decide (a ≤ b) = true := by
  show ["a", "time"].Pairwise _
  decide

/-- Rank 0 stores a state, then one with other units; after the exception it tries again.  The others store the
two states. -/
def exRetry (r : Int) : Prog Nat (List (Py Unit)) :=
  (store ⟨1, 1⟩ Int.toNat (fun _ => 0) r none (exCells "m" 5 0)).bind fun x =>
  (store ⟨1, 1⟩ Int.toNat (fun _ => 0) r x.2 (exCells "km" 7 1)).bind fun y =>
    if r = 0 then
      (store ⟨1, 1⟩ Int.toNat (fun _ => 0) r y.2 (exCells "km" 7 1)).bind fun z => .ret [x.1, y.1, z.1]
    else .ret [x.1, y.1]

def exRetry' (r : Int) : Prog Nat (List (Py Unit)) :=
  (storeSorted ⟨1, 1⟩ Int.toNat (fun _ => 0) r none (exCells "m" 5 0)).bind fun x =>
  (storeSorted ⟨1, 1⟩ Int.toNat (fun _ => 0) r x.2 (exCells "km" 7 1)).bind fun y =>
    if r = 0 then
      (storeSorted ⟨1, 1⟩ Int.toNat (fun _ => 0) r y.2 (exCells "km" 7 1)).bind fun z => .ret [x.1, y.1, z.1]
    else .ret [x.1, y.1]

theorem exRetry_eq : exRetry = exRetry' := by
  funext r
  unfold exRetry exRetry'
  simp only [store_sorted _ _ _ _ _ _ (exCells_sorted _ _ _)]

def exRetryEnd : World Nat (List (Py Unit)) :=
  (World.start exRetry' Store.empty).greedy (fun _ => true) (Comm.cube ⟨1, 1⟩).ranks 200

/-- **C41**, limit: the check is not made on every call.  The failed call has already extended the array, so when
rank 0 catches the ValueError and calls `store` again, the values are stored although the units differ; all
ranks return and the array still has the old units. -/
theorem C41_limit_retry : ∃ sched A,
    (World.start exRetry Store.empty).run (fun _ => true) (Comm.cube ⟨1, 1⟩).ranks sched = some A ∧
    A.procs 0 = .ret [.ok (), .error .valueError, .ok ()] ∧ A.procs 1 = .ret [.ok (), .ok ()] ∧
    A.store.read "a" [1, 0, 0, 0] = some 7 ∧
    (A.store.infos "a").map (·.attrs.units) = some (some (.str "m")) := by
  rw [exRetry_eq]
  obtain ⟨sched, hs⟩ := greedy_run (fun _ => true) (Comm.cube ⟨1, 1⟩).ranks 200 (World.start exRetry' Store.empty)
  refine ⟨sched, exRetryEnd, hs, Prog.result?_eq ?_, Prog.result?_eq ?_, ?_, ?_⟩
  · decide +kernel
  · decide +kernel
  · decide +kernel
  · decide +kernel

/-- A first state without "time", then one with it. -/
def exShift (r : Int) : Prog Nat (Py Unit) :=
  storeAll ⟨1, 1⟩ Int.toNat (fun _ => 0) r none [[("a", .qty (exCell "m" 5))], exCells "m" 7 1]

def exShift' (r : Int) : Prog Nat (Py Unit) :=
  (storeSorted ⟨1, 1⟩ Int.toNat (fun _ => 0) r none [("a", .qty (exCell "m" 5))]).bind fun x =>
    match x.1 with
    | .ok _ => (storeSorted ⟨1, 1⟩ Int.toNat (fun _ => 0) r x.2 (exCells "m" 7 1)).bind fun y =>
      match y.1 with
      | .ok _ => .ret (.ok ())
      | .error e => .ret (.error e)
    | .error e => .ret (.error e)

theorem exShift_eq : exShift = exShift' := by
  funext r
  unfold exShift exShift'
  simp only [storeAll]
  rw [store_sorted _ _ _ _ _ _ (show (Dict.keys [("a", Entry.qty (exCell "m" 5))]).Pairwise (fun a b => decide (a ≤ b) = true) by decide)]
  simp only [store_sorted _ _ _ _ _ _ (exCells_sorted _ _ _)]
  rfl

def exShiftEnd : World Nat (Py Unit) :=
  (World.start exShift' Store.empty).greedy (fun _ => true) (Comm.cube ⟨1, 1⟩).ranks 200

/-- **C41**, limit: a first state without "time" is accepted, and after it a state with "time".  Then there are two
steps of the variable and one time, that of the second. -/
theorem C41_limit_first_without_time : ∃ sched A,
    (World.start exShift Store.empty).run (fun _ => true) (Comm.cube ⟨1, 1⟩).ranks sched = some A ∧
    (∀ r ∈ (Comm.cube ⟨1, 1⟩).ranks, A.procs r = .ret (.ok ())) ∧
    (A.store.infos "a").map (·.shape) = some [2, 6, 1, 1] ∧ (A.store.infos "time").map (·.shape) = some [1] ∧
    (A.store.infos "time").map (·.attrs.units) = some (some (.secondsSince (exTime 1))) := by
  rw [exShift_eq]
  obtain ⟨sched, hs⟩ := greedy_run (fun _ => true) (Comm.cube ⟨1, 1⟩).ranks 200 (World.start exShift' Store.empty)
  refine ⟨sched, exShiftEnd, hs, ?_, ?_, ?_, ?_⟩
  · have : ∀ r ∈ (Comm.cube ⟨1, 1⟩).ranks, (exShiftEnd.procs r).result? = some (.ok ()) := by decide +kernel
    exact fun r hr => Prog.result?_eq (this r hr)
  · decide +kernel
  · decide +kernel
  · decide +kernel

theorem exists_ends (p : Prog α R) : ∃ x, p.Ends x := by
  induction p with
  | ret r => exact ⟨r, rfl⟩
  | getInfo n k ih => obtain ⟨x, hx⟩ := ih none; exact ⟨x, none, hx⟩
  | putInfo n i k ih => exact ih
  | getChunk n j k ih => obtain ⟨x, hx⟩ := ih none; exact ⟨x, none, hx⟩
  | putChunk n j c k ih => exact ih
  | coll c k ih => obtain ⟨x, hx⟩ := ih none; exact ⟨x, none, hx⟩

/-- The hypotheses of `C41_names` are met: "b" has not been there before; and "a" is missing. -/
example : ∃ m, MonitorAfter ⟨1, 1⟩ Int.toNat (fun _ => 0) 3 ["a", "time"] m ∧
    store ⟨1, 1⟩ Int.toNat (fun _ => 0) 3 m (exCells "m" 7 1 ++ [("b", .qty (exCell "m" 7))]) = .ret (.error .valueError, m) ∧
    store ⟨1, 1⟩ Int.toNat (fun _ => 0) 3 m [("time", .time (exTime 1))] = .ret (.error .valueError, m) := by
  obtain ⟨⟨x, m⟩, hx⟩ := exists_ends (store ⟨1, 1⟩ Int.toNat (fun _ => 0) 3 none (exCells "m" 5 0))
  have hm := MonitorAfter.first (names := ["a", "time"]) rfl hx
  refine ⟨m, hm, C41_names _ _ _ _ _ m hm _ ?_, C41_names _ _ _ _ _ m hm _ ?_⟩
  · intro h
    exact absurd ((h "b").1 (by decide)) (by decide)
  · intro h
    exact absurd ((h "a").2 (by decide)) (by decide)

/-- The hypotheses of `C41_attrs` are met, with other units. -/
example : ∃ w' S', (append ⟨1, 1⟩ (fun _ => 0) 0 (exCell "km" 7) ⟨"a", 1, some ⟨"a", [1, 6, 1, 1], [1, 1, 1, 1]⟩, none⟩).solo
      (Store.empty.putInfo "a" ⟨[1, 6, 1, 1], [1, 1, 1, 1], attrsOf (exCell "m" 5)⟩) = some ((.error .valueError, w'), S') ∧
    S'.chunks = fun _ _ => none := by
  obtain ⟨e, w', S', h1, h2, h3⟩ := C41_attrs ⟨1, 1⟩ (fun _ => 0) (exCell "km" 7) ⟨"a", 1, some ⟨"a", [1, 6, 1, 1], [1, 1, 1, 1]⟩, none⟩
    ⟨"a", [1, 6, 1, 1], [1, 1, 1, 1]⟩ (Store.empty.putInfo "a" ⟨[1, 6, 1, 1], [1, 1, 1, 1], attrsOf (exCell "m" 5)⟩)
    ⟨[1, 6, 1, 1], [1, 1, 1, 1], attrsOf (exCell "m" 5)⟩ rfl (by decide) (Store.putInfo_get _ _ _) (by decide)
  rw [h3 (by decide)] at h1
  exact ⟨w', S', h1, h2⟩

/-- The hypotheses of `C41_limit_others_wait` are met: when rank 0 does not try again, rank 1 waits for it. -/
def exHang (r : Int) : Prog Nat (Py Unit) :=
  (storeSorted ⟨1, 1⟩ Int.toNat (fun _ => 0) r none (exCells "m" 5 0)).bind fun x =>
  (storeSorted ⟨1, 1⟩ Int.toNat (fun _ => 0) r x.2 (exCells "km" 7 1)).bind fun y => .ret y.1

def exHangEnd : World Nat (Py Unit) :=
  (World.start exHang Store.empty).greedy (fun _ => true) (Comm.cube ⟨1, 1⟩).ranks 200

example (sched : List Int) (A : World Nat (Py Unit))
    (h : exHangEnd.run (fun _ => true) (Comm.cube ⟨1, 1⟩).ranks sched = some A) : A.procs 0 = .ret (.error .valueError) ∧
    ∀ x, A.procs 1 ≠ .ret x := by
  have h0 : exHangEnd.procs 0 = .ret (.error .valueError) := Prog.result?_eq (by decide +kernel)
  have h1 : (match exHangEnd.procs 1 with | .coll c _ => some c | _ => none) = some (.bcast (some "a")) := by decide +kernel
  have hin : exHangEnd.inside 1 = true := by decide +kernel
  have hlast : (exHangEnd.log 1).getLast? = some (.bcast (some "a")) := by decide +kernel
  have hlen : (exHangEnd.log 0).length < (exHangEnd.log 1).length := by decide +kernel
  cases hp : exHangEnd.procs 1 with
  | coll c k =>
    rw [hp] at h1
    simp only [Option.some.injEq] at h1
    subst h1
    obtain ⟨a, b⟩ := C41_limit_others_wait _ _ (by decide) 1 (by decide) _ _ k sched _ A h0 hp hin hlast hlen h
    exact ⟨a, fun x hx => by rw [b] at hx; cases hx⟩
  | ret x => rw [hp] at h1; cases h1
  | getInfo n k => rw [hp] at h1; cases h1
  | putInfo n i k => rw [hp] at h1; cases h1
  | getChunk n j k => rw [hp] at h1; cases h1
  | putChunk n j c k => rw [hp] at h1; cases h1

end Zarr
end FV3
