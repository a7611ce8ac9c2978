import Verif.Proofs.LateRun
import Verif.Props.LateSend

/-!
# C54, limit: a race between two updates of the same quantities

`synchronize_vector_interfaces` writes the north and east edges of the compute domain, which a vector halo
update of the same quantities sends.  While both are outstanding, what is sent depends on when MPI
reads it.
-/

namespace FV3.Late
open FV3
variable {α R : Type}

/-- The first rank that can make a step makes it. -/
def firstRank [Inhabited α] (rs : List Int) (N : LNet (Mem α) α R) : Option (Move × LNet (Mem α) α R) :=
  rs.findSome? fun r => (move (.rank r) N).map fun N' => (.rank r, N')

/-- The first message that a rank is waiting for is read. -/
def firstRead [Inhabited α] (rs : List Int) (N : LNet (Mem α) α R) : Option (Move × LNet (Mem α) α R) :=
  rs.findSome? fun r =>
    match N.procs r with
    | .recv s t _ _ _ => (move (.read s r t (N.rcvd s r t)) N).map fun N' => (.read s r t (N.rcvd s r t), N')
    | _ => none

/-- Messages are read when the receiver is waiting for them. -/
def runLate [Inhabited α] (rs : List Int) : Nat → LNet (Mem α) α R → List Move
  | 0, _ => []
  | n + 1, N =>
    match (firstRank rs N).orElse fun _ => firstRead rs N with
    | none => []
    | some (a, N') => a :: runLate rs n N'

/-- The message that rank `r` is about to send. -/
def sending (N : LNet (Mem α) α R) (r : Int) : Option Move :=
  match N.procs r with
  | .isend d t _ _ => some (.read r d t (N.sent r d t).length)
  | _ => none

/-- Messages are read at once. -/
def runEarly [Inhabited α] (rs : List Int) : Nat → LNet (Mem α) α R → List Move
  | 0, _ => []
  | n + 1, N =>
    match rs.findSome? fun r => (move (.rank r) N).map fun N' => (r, N') with
    | none => []
    | some (r, N') =>
      match sending N r with
      | none => .rank r :: runEarly rs n N'
      | some a =>
        match move a N' with
        | none => []
        | some N'' => .rank r :: a :: runEarly rs n N''

/-- Winds on the C-grid, one cell and one halo point, different values on each rank and component. -/
def exRaceMem : Int → Mem Int := fun r c =>
  { data := ⟨if c = 0 then [4, 3] else [3, 4], fun idx => 1000 * r + 100 * c + 10 * idx.getD 0 0 + idx.getD 1 0⟩
    dims := if c = 0 then [.yI, .x] else [.y, .xI]
    units := "m/s", origin := [1, 1], extent := if c = 0 then [2, 1] else [1, 2] }

def exRace : List (Op Int) := [.sync 0 1, .vector 0 1 1, .wait 0, .wait 1]

/-- The value of a point after the moves, if all ranks are finished without an exception. -/
def after (as : List Move) (N : LNet (Mem Int) Int (Py Unit × Own)) (rs : List Int) (r : Int) (q : Nat) (idx : List Nat) :
    Option Int :=
  match moves as N with
  | none => none
  | some A =>
    if rs.all fun r => match A.procs r with
      | .ret (.ok _, _) => true
      | _ => false then some ((A.mem r q).data.get idx) else none

/-- After the moves, every rank is finished without an exception, and a point has the value `v`. -/
theorem after_some {as : List Move} {N : LNet (Mem Int) Int (Py Unit × Own)} {rs : List Int} {r : Int} {q : Nat}
    {idx : List Nat} {v : Int} (h : after as N rs r q idx = some v) (buf : Buffering) :
    ∃ A, Relation.ReflTransGen (Step buf) N A ∧ (∀ r ∈ rs, ∃ o, A.procs r = .ret (.ok (), o)) ∧
      (A.mem r q).data.get idx = v := by
  unfold after at h
  cases hm : moves as N with
  | none => rw [hm] at h; cases h
  | some A =>
    rw [hm] at h
    dsimp only at h
    split at h
    · rename_i hall
      refine ⟨A, moves_sound buf as N A hm, ?_, by simpa using h⟩
      intro r hr
      have := List.all_eq_true.1 hall r hr
      cases hp : A.procs r with
      | ret x =>
        obtain ⟨x, o⟩ := x
        cases x with
        | ok u => exact ⟨o, rfl⟩
        | error e => rw [hp] at this; cases this
      | get k => rw [hp] at this; cases this
      | put f k => rw [hp] at this; cases this
      | isend d t rd k => rw [hp] at this; cases this
      | recv s t q ix k => rw [hp] at this; cases this
      | await d t i k => rw [hp] at this; cases this
    · cases h

theorem exRace_axes (c : Nat) : HAxes (if c = 0 then [Dim.yI, .x] else [.y, .xI]) 0 1 := by
  split <;> refine ⟨?_, ?_, by decide, by decide⟩ <;>
  · intro k d h
    match k, h with
    | 0, h => simp at h; subst h; simp [IsX, IsY]
    | 1, h => simp at h; subst h; simp [IsX, IsY]
    | k + 2, h => simp at h

theorem exRace_wf (r : Int) (c : Nat) (hc : c = 0 ∨ c = 1) : (exRaceMem r c).WF := by
  rcases hc with rfl | rfl
  · refine ⟨⟨rfl, rfl, rfl⟩, ?_⟩
    show ∀ k, k < 2 → 0 ≤ ([1, 1] : List Int).getD k 0 ∧ 0 ≤ ([2, 1] : List Int).getD k 0 ∧
      ([1, 1] : List Int).getD k 0 + ([2, 1] : List Int).getD k 0 ≤ (([4, 3] : List Nat).getD k 0 : Nat)
    decide
  · refine ⟨⟨rfl, rfl, rfl⟩, ?_⟩
    show ∀ k, k < 2 → 0 ≤ ([1, 1] : List Int).getD k 0 ∧ 0 ≤ ([1, 2] : List Int).getD k 0 ∧
      ([1, 1] : List Int).getD k 0 + ([1, 2] : List Int).getD k 0 ≤ (([3, 4] : List Nat).getD k 0 : Nat)
    decide

/-- Each of the updates is ready to be performed. -/
theorem exRace_ready : ∀ op ∈ exRace, UpdateReady ⟨1, 1⟩ exRaceMem op := by
  intro op ho
  simp only [exRace, List.mem_cons, List.not_mem_nil, or_false] at ho
  have h2 : ∀ r ∈ allRanks ⟨1, 1⟩, ∀ r' ∈ allRanks ⟨1, 1⟩, ∀ k, k < (exRaceMem r 0).ndim → k ≠ 0 → k ≠ 1 →
    (exRaceMem r' 1).e k = (exRaceMem r 0).e k := by
    intro r _ r' _ k hk h0 h1
    have : k < 2 := hk
    omega
  rcases ho with rfl | rfl | rfl | rfl
  · exact ⟨0, 1, 1, by decide, rfl, fun r _ => exRace_wf r 0 (.inl rfl), fun r _ => exRace_wf r 1 (.inr rfl),
      fun _ _ => exRace_axes 0, fun _ _ => exRace_axes 1, fun _ _ => ⟨rfl, rfl⟩, fun _ _ => ⟨rfl, rfl⟩,
      fun _ _ => ⟨rfl, rfl⟩, fun _ _ => ⟨rfl, rfl⟩, fun _ _ _ _ => rfl, h2⟩
  · exact ⟨0, 1, 1, by decide, by decide, fun r _ => ⟨exRace_wf r 0 (.inl rfl), exRace_axes 0, rfl, rfl, by
        show (1 : Int) ≤ 1 ∧ (1 : Int) + 2 + 1 ≤ 4; decide, by show (1 : Int) ≤ 1 ∧ (1 : Int) + 1 + 1 ≤ 3; decide⟩,
      fun r _ => ⟨exRace_wf r 1 (.inr rfl), exRace_axes 1, rfl, rfl, by
        show (1 : Int) ≤ 1 ∧ (1 : Int) + 1 + 1 ≤ 3; decide, by show (1 : Int) ≤ 1 ∧ (1 : Int) + 2 + 1 ≤ 4; decide⟩,
      fun _ _ _ _ => rfl, fun _ _ _ _ => rfl, fun _ _ => rfl, h2, fun _ _ => rfl, fun _ _ => rfl⟩
  · trivial
  · trivial

theorem exRace_early : after (runEarly (allRanks ⟨1, 1⟩) 1000 (cubeNet ⟨1, 1⟩ (fun _ => exRace) exRaceMem))
    (cubeNet ⟨1, 1⟩ (fun _ => exRace) exRaceMem) (allRanks ⟨1, 1⟩) 0 0 [2, 2] = some 1021 := by decide +kernel

theorem exRace_late : after (runLate (allRanks ⟨1, 1⟩) 1000 (cubeNet ⟨1, 1⟩ (fun _ => exRace) exRaceMem))
    (cubeNet ⟨1, 1⟩ (fun _ => exRace) exRaceMem) (allRanks ⟨1, 1⟩) 0 0 [2, 2] = some 2011 := by decide +kernel

/-- **C54** (limit): while an interface synchronisation and a vector halo update of the same winds are
outstanding, the result depends on when MPI reads the arrays that are sent, although all ranks do the same
and no rank touches the winds itself.  Two executions of the same programs finish on all ranks and leave
different values at a halo point of rank 0: the wind of rank 1 at its north edge before or after the
synchronisation.  (Model/Communicator, in which a message is fixed when it is sent, gives the first.) -/
theorem C54_limit_race :
    (∀ op ∈ exRace, UpdateReady ⟨1, 1⟩ exRaceMem op) ∧ WaitsStarted exRace ∧ WaitsOnce exRace ∧
    ∀ buf : Buffering, ∃ A B,
      Relation.ReflTransGen (Step buf) (cubeNet ⟨1, 1⟩ (fun _ => exRace) exRaceMem) A ∧
      Relation.ReflTransGen (Step buf) (cubeNet ⟨1, 1⟩ (fun _ => exRace) exRaceMem) B ∧
      (∀ r ∈ allRanks ⟨1, 1⟩, ∃ o, A.procs r = .ret (.ok (), o)) ∧
      (∀ r ∈ allRanks ⟨1, 1⟩, ∃ o, B.procs r = .ret (.ok (), o)) ∧
      (A.mem 0 0).data.get [2, 2] = (exRaceMem 1 0).data.get [2, 1] ∧
      (B.mem 0 0).data.get [2, 2] ≠ (exRaceMem 1 0).data.get [2, 1] := by
  refine ⟨exRace_ready, ?_, by unfold WaitsOnce; decide, fun buf => ?_⟩
  · intro d i hd
    match d with
    | 0 => simp [exRace] at hd
    | 1 => simp [exRace] at hd
    | 2 => simp [exRace] at hd; subst hd; decide
    | 3 => simp [exRace] at hd; subst hd; decide
    | d + 4 => simp [exRace] at hd
  · obtain ⟨A, a1, a2, a3⟩ := after_some exRace_early buf
    obtain ⟨B, b1, b2, b3⟩ := after_some exRace_late buf
    refine ⟨A, B, a1, b1, a2, b2, ?_, ?_⟩
    · rw [a3]; decide
    · rw [b3]; decide

end FV3.Late
