import Verif.Proofs.ZarrCrash
import Verif.Props.Zarr
import Mathlib.Data.List.Sort

/-!
# What is found in a store whose writers were killed (C62)

The world stops in any state that some schedule reaches: ranks may stop at any point, each at another one.  A
chunk is replaced as a whole (zarr's `DirectoryStore` writes a temporary file and renames it).
-/

namespace FV3
namespace Zarr
variable {α : Type}

section
variable {l : Layout} {enc : Int → α} {junk : List Nat → α} {spec : String → VarSpec}
  {q : String → Nat → Int → Quantity α} {tm : Nat → ZTime} {k : Nat} {vars : List String} {st : Nat → Int → State α}

theorem held_read {A : World α (Py Unit)} (hsafe : FloatSafe l) {L : Int → Store α} (hinfos : A.store.infos = (L 0).infos)
    (hmine : ∀ r ∈ (Comm.cube l).ranks, ∀ name ci, slotOwner l spec name ci = r → A.store.chunks name ci = (L r).chunks name ci)
    {name : String} (hgood : (spec name).Good l) (hnt : name ≠ "time") {t : Nat}
    (hheld : ∀ r ∈ (Comm.cube l).ranks, Held l enc spec q tm r (t, name) (L r)) :
    A.store.HasStep l (spec name) (q name) name t := by
  have h0 : (0 : Int) ∈ (Comm.cube l).ranks := (mem_ranks (.cube l) 0).2 ⟨by omega, comm_size_pos (c := .cube l) hsafe⟩
  have hT := hgood.tileVar hsafe
  intro T hT6 p hp
  obtain ⟨r, rel, hh, hplace, hst⟩ := responsible hT hT6 hp
  refine ⟨r, rel, hh, hplace, ?_⟩
  obtain ⟨m, a, hm, hinfo⟩ := (hheld 0 h0).2 rfl
  have hvals := (hheld r hh.1).1
  unfold HeldVals at hvals
  simp only [if_neg hnt] at hvals
  obtain ⟨c, hc, hval⟩ := hvals rel hst
  have hown : slotOwner l spec name (chunkOf (varChunks (spec name).cells)
      (t :: Comm.place (.cube l) (spec name).dims (spec name).cells r rel)) = r := by
    unfold slotOwner
    rw [if_neg hnt]
    refine hT.owned ((mem_ranks _ _).1 hh.1).1 (chunkOf_mem _ _ _ ?_ (stored_in_box hT hst t))
    rw [partBox_length, varChunks_length hT.tile.1]
  rw [hplace] at hc hval hown
  simp only [slotRest, slotChunks, if_neg hnt] at hinfo
  have hin : InB (m :: 6 :: (spec name).tile.map Int.toNat) (t :: T :: p) := ⟨hm, hT6, hp⟩
  unfold Store.read
  rw [hinfos, hinfo]
  simp only [Option.bind_some]
  rw [if_pos hin]
  show (A.store.chunks name (chunkOf (varChunks (spec name).cells) (t :: T :: p))).map _ = _
  rw [hmine r hh.1 name _ hown, hc, Option.map_some]
  exact congrArg some hval

/-- **C62.**  All ranks record `k` states; they are stopped at any point, each at another one.  If the array of times
then has `n` entries, all of the steps `t` with `t + 2 < n` is in the store, of every variable: at every point there is the
value that the responsible rank had.  Of variables that come before `time` in alphabetical order so is step `n - 2`.  And
all times but the last are there. -/
theorem C62_crash {buf : Nat → Bool} (hrec : Recording l k vars spec q tm st) (hv : vars.Nodup) {sched : List Int}
    {A : World α (Py Unit)}
    (hA : (World.start (recordAll l enc junk k st) Store.empty).run buf (Comm.cube l).ranks sched = some A) :
    (∀ name ∈ vars, ∀ t, t + 2 < A.store.steps "time" → A.store.HasStep l (spec name) (q name) name t) ∧
    (∀ name ∈ vars, name < "time" → ∀ t, t + 1 < A.store.steps "time" → A.store.HasStep l (spec name) (q name) name t) ∧
    ∀ t, t + 1 < A.store.steps "time" → A.store.read "time" [t] = some (enc ((tm t).seconds - (tm 0).seconds)) := by
  have h0 : (0 : Int) ∈ (Comm.cube l).ranks := (mem_ranks (.cube l) 0).2 ⟨by omega, comm_size_pos (c := .cube l) hrec.safe⟩
  by_cases hn : A.store.steps "time" < 2
  · exact ⟨fun _ _ t ht => absurd ht (by omega), fun _ _ _ t ht => absurd ht (by omega), fun t ht => absurd ht (by omega)⟩
  obtain ⟨m, hm⟩ : ∃ m, m + 2 = A.store.steps "time" := ⟨A.store.steps "time" - 2, by omega⟩
  obtain ⟨L, hinfos, hmine, hvars, htimes⟩ := crash_held (enc := enc) (junk := junk) hrec hv hA hm
  refine ⟨?_, ?_, ?_⟩
  · intro name hname t ht
    exact held_read hrec.safe hinfos hmine (hrec.good name hname) (fun h => hrec.notime (h ▸ hname))
      fun r hr => hvars r hr name hname t (.inl (by omega))
  · intro name hname hlt t ht
    exact held_read hrec.safe hinfos hmine (hrec.good name hname) (fun h => hrec.notime (h ▸ hname))
      fun r hr => hvars r hr name hname t (by by_cases h : t = m; exacts [.inr ⟨h, hlt⟩, .inl (by omega)])
  · intro t ht
    have hheld := htimes t (by omega)
    obtain ⟨m', a, hm', hinfo⟩ := hheld.2 rfl
    have hvals := hheld.1
    unfold HeldVals at hvals
    simp only [if_true] at hvals
    obtain ⟨c, hc, hval⟩ := hvals trivial
    simp only [slotRest, slotChunks, if_true] at hinfo
    unfold Store.read
    rw [hinfos, hinfo]
    simp only [Option.bind_some]
    rw [if_pos ⟨hm', trivial⟩]
    show (A.store.chunks "time" (chunkOf [1024] [t])).map _ = _
    rw [hmine 0 h0 "time" _ rfl, hc, Option.map_some]
    exact congrArg some hval
end

/-! ### A case, and why the last two steps are not promised -/

/-- `store` and `storeAll` with a sort that can be evaluated. -/
def storeIns (l : Layout) (enc : Int → α) (junk : List Nat → α) (rank : Int) (m : Monitor) (s : State α) :
    Prog α (Py Unit × Monitor) :=
  match ensureWriters m s with
  | .error e => .ret (.error e, m)
  | .ok ws =>
    (storeLoop l enc junk rank s (s.keys.insertionSort (fun a b => decide (a ≤ b) = true)) ws).bind fun x => .ret (x.1, some x.2)

def storeAllIns (l : Layout) (enc : Int → α) (junk : List Nat → α) (rank : Int) : Monitor → List (State α) → Prog α (Py Unit)
  | _, [] => .ret (.ok ())
  | m, s :: ss =>
    (storeIns l enc junk rank m s).bind fun x =>
      match x.1 with
      | .ok _ => storeAllIns l enc junk rank x.2 ss
      | .error e => .ret (.error e)

theorem storeIns_eq (l : Layout) (enc : Int → α) (junk : List Nat → α) (rank : Int) (m : Monitor) (s : State α) :
    store l enc junk rank m s = storeIns l enc junk rank m s := by
  unfold store storeIns
  have : s.keys.mergeSort (fun a b => decide (a ≤ b)) = s.keys.insertionSort (fun a b => decide (a ≤ b) = true) := by
    have tr : ∀ a b c : String, decide (a ≤ b) = true → decide (b ≤ c) = true → decide (a ≤ c) = true := by
      intro a b c h1 h2
      simp only [decide_eq_true_eq] at *
      exact String.le_trans h1 h2
    have tot : ∀ a b : String, (decide (a ≤ b) || decide (b ≤ a)) = true := by
      intro a b
      simp only [Bool.or_eq_true, decide_eq_true_eq]
      exact String.le_total a b
    have : Std.Total fun a b : String => decide (a ≤ b) = true := ⟨fun a b => by simpa using tot a b⟩
    have : IsTrans String fun a b : String => decide (a ≤ b) = true := ⟨tr⟩
    refine List.Perm.eq_of_pairwise (le := fun a b => decide (a ≤ b) = true) ?_ (List.pairwise_mergeSort tr tot _)
      (List.pairwise_insertionSort _ _) ((List.mergeSort_perm _ _).trans (List.perm_insertionSort _ _).symm)
    intro a b _ _ h1 h2
    simp only [decide_eq_true_eq] at h1 h2
    exact String.le_antisymm h1 h2
  rw [this]
  rfl

theorem storeAllIns_eq (l : Layout) (enc : Int → α) (junk : List Nat → α) (rank : Int) : ∀ (m : Monitor) (ss : List (State α)),
    storeAll l enc junk rank m ss = storeAllIns l enc junk rank m ss
  | _, [] => rfl
  | m, s :: ss => by
    rw [storeAll, storeAllIns, storeIns_eq]
    congr 1
    funext x
    cases x.1 with
    | ok _ => exact storeAllIns_eq l enc junk rank x.2 ss
    | error e => rfl

def recordIns (l : Layout) (enc : Int → α) (junk : List Nat → α) (k : Nat) (st : Nat → Int → State α) (r : Int) :
    Prog α (Py Unit) :=
  if r ∈ (Comm.cube l).ranks then storeAllIns l enc junk r none ((List.range k).map fun t => st t r) else .ret (.ok ())

theorem recordIns_eq (l : Layout) (enc : Int → α) (junk : List Nat → α) (k : Nat) (st : Nat → Int → State α) :
    recordAll l enc junk k st = recordIns l enc junk k st := by
  funext r
  unfold recordAll recordIns
  rw [storeAllIns_eq]

/-- Rank 0 waits in the first barrier, then the others come to it, then rank 0 goes on. -/
def crashSchedule : List Int :=
  List.replicate 25 0 ++ (List.range 11).flatMap (fun r => List.replicate 15 ((r : Int) + 1)) ++ List.replicate 20 0

/-- What a reader finds after `crashSchedule`. -/
def crashFinds (W : World Nat (Py Unit)) : Nat × Option Nat × Option Nat × Option Nat × Option Nat :=
  (W.store.steps "time", W.store.read "u" [0, 0, 0, 0], W.store.read "u" [0, 1, 0, 0], W.store.read "ps" [0, 1, 0, 0],
    W.store.read "time" [1])

theorem crash_run : ((World.start (recordIns ⟨1, 2⟩ Int.toNat (fun _ => 0) 3 exState) Store.empty).run (fun _ => true)
    (Comm.cube ⟨1, 2⟩).ranks crashSchedule).map crashFinds = some (2, some 11, none, some 211, some 0) := by
  decide +kernel

/-- **C62, the limit.**  The last two steps are not promised: the array of times can have two entries although of
step 0 of `u` (which comes after `time`) only the values of rank 0 are there, and although the second time is
not there yet (instead of 60 a reader finds the fill value). -/
theorem C62_limit : Recording ⟨1, 2⟩ 3 ["u", "ps"] exSpec exVar exTime exState ∧ ∃ (sched : List Int) (A : World Nat (Py Unit)),
    (World.start (recordAll ⟨1, 2⟩ Int.toNat (fun _ => 0) 3 exState) Store.empty).run (fun _ => true) (Comm.cube ⟨1, 2⟩).ranks sched = some A ∧
      A.store.steps "time" = 2 ∧ A.store.read "u" [0, 1, 0, 0] = none ∧ ¬ A.store.HasStep ⟨1, 2⟩ (exSpec "u") (exVar "u") "u" 0 ∧
      A.store.read "time" [1] ≠ some ((exTime 1).seconds - (exTime 0).seconds).toNat := by
  refine ⟨exRecording 3, crashSchedule, ?_⟩
  rw [recordIns_eq]
  have h := crash_run
  cases hA : (World.start (recordIns ⟨1, 2⟩ Int.toNat (fun _ => 0) 3 exState) Store.empty).run (fun _ => true)
    (Comm.cube ⟨1, 2⟩).ranks crashSchedule with
  | none => rw [hA] at h; cases h
  | some A =>
    rw [hA, Option.map_some, Option.some.injEq] at h
    simp only [crashFinds, Prod.mk.injEq] at h
    obtain ⟨h1, -, h2, -, h3⟩ := h
    refine ⟨A, rfl, h1, h2, ?_, by rw [h3]; decide⟩
    intro hs
    obtain ⟨r, rel, -, -, hr⟩ := hs 1 (by decide) [0, 0] (by decide)
    rw [h2] at hr
    cases hr

/-- The hypotheses of C62 are met by states with three entries in the array of times: then step 0 of `u` is there, and
step 1 of `ps`. -/
example (buf : Nat → Bool) : ∃ (sched : List Int) (A : World Nat (Py Unit)),
    (World.start (recordAll ⟨1, 2⟩ Int.toNat (fun _ => 0) 3 exState) Store.empty).run buf (Comm.cube ⟨1, 2⟩).ranks sched = some A ∧
      A.store.steps "time" = 3 ∧ A.store.HasStep ⟨1, 2⟩ (exSpec "u") (exVar "u") "u" 0 ∧
      A.store.HasStep ⟨1, 2⟩ (exSpec "ps") (exVar "ps") "ps" 1 ∧ A.store.read "time" [1] = some 60 := by
  obtain ⟨S, ⟨n, h1⟩, -, ⟨c, h3⟩, -⟩ := C39_recording (enc := Int.toNat) (junk := fun _ => 0) buf (exRecording 3) (by decide) (by decide)
  obtain ⟨sched, T, hT, -, hS, -⟩ := h1 [] _ rfl
  have h := C62_crash (exRecording 3) (by decide) hT
  have hsteps : T.store.steps "time" = 3 := by
    unfold Store.steps
    rw [hS, h3]
    rfl
  rw [hsteps] at h
  exact ⟨sched, T, hT, hsteps, h.1 "u" (by decide) 0 (by decide), h.2.1 "ps" (by decide) (by decide) 1 (by decide), h.2.2 1 (by decide)⟩

end Zarr
end FV3
