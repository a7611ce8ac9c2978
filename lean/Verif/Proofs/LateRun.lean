import Verif.Spec.LateSend
import Verif.Proofs.RankTransform
import Verif.Props.Net
import Mathlib.Data.List.Nodup

/-!
# Executing the network of Model/LateSend on concrete programs
-/

namespace FV3.Late
open FV3
variable {α R : Type}

/-- A step of a rank, or all elements of a message being read one after the other. -/
inductive Move where
  | rank (r : Int)
  | read (s d : Int) (t : Tag) (i : Nat)

/-- The message after reading it. -/
def Entry.readNow (e : Entry (Mem α) α) (m : Mem α) : Entry (Mem α) α :=
  { e with got := fun j => if j ∈ allIdx e.shape then some ((e.read m).get j) else e.got j }

/-- The content of a message, if it has been read. -/
def Entry.content [Inhabited α] (e : Entry (Mem α) α) : Option (NDArray α) :=
  if (allIdx e.shape).all fun i => (e.got i).isSome then some ⟨e.shape, fun i => (e.got i).getD default⟩ else none

/-- Nothing of the message has been read. -/
def Entry.unread (e : Entry (Mem α) α) : Bool := (allIdx e.shape).all fun i => (e.got i).isNone

def move [Inhabited α] : Move → LNet (Mem α) α R → Option (LNet (Mem α) α R)
  | .read s d t i, N =>
    match (N.sent s d t)[i]? with
    | none => none
    | some e =>
      if e.unread then some { N with sent := updCh N.sent s d t ((N.sent s d t).set i (e.readNow (N.mem s))) }
      else none
  | .rank r, N =>
    match N.procs r with
    | .ret _ => none
    | .get k => some { N with procs := updRank N.procs r (k (N.mem r)) }
    | .put f k => some { N with procs := updRank N.procs r (k ()), mem := updRank N.mem r (f (N.mem r)) }
    | .isend d t rd k =>
      some { N with
        procs := updRank N.procs r (k (N.sent r d t).length)
        sent := updCh N.sent r d t (N.sent r d t ++ [⟨rd, (rd (N.mem r)).shape, fun _ => none⟩]) }
    | .recv s t q ix k =>
      match (N.sent s r t)[N.rcvd s r t]? with
      | none => none
      | some e =>
        match e.content with
        | none => none
        | some a =>
          some (match Memory.store (N.mem r) q ix a with
          | .ok m =>
            { N with procs := updRank N.procs r (k (.ok ())), mem := updRank N.mem r m
                     rcvd := updCh N.rcvd s r t (N.rcvd s r t + 1) }
          | .error x =>
            { N with procs := updRank N.procs r (k (.error x))
                     rcvd := updCh N.rcvd s r t (N.rcvd s r t + 1) })
    | .await d t i k =>
      if i < N.rcvd r d t then some { N with procs := updRank N.procs r (k ()) } else none

def moves [Inhabited α] : List Move → LNet (Mem α) α R → Option (LNet (Mem α) α R)
  | [], N => some N
  | a :: as, N => (move a N).bind (moves as)

theorem nodup_allIdx (s : List Nat) : (allIdx s).Nodup := by
  induction s with
  | nil => simp [allIdx]
  | cons n s ih =>
    unfold allIdx
    rw [List.nodup_flatMap]
    refine ⟨fun i _ => ih.map (fun a b h => by simpa using h), ?_⟩
    refine List.nodup_range.imp ?_
    intro i j hij x hx hy
    rw [List.mem_map] at hx hy
    obtain ⟨a, -, rfl⟩ := hx
    obtain ⟨b, -, h⟩ := hy
    simp only [List.cons.injEq] at h
    exact hij h.1.symm

/-- Reading some of the elements of a message. -/
theorem reads {buf : Buffering} {s d : Int} {t : Tag} {i : Nat} (l : List (List Nat)) (hnd : l.Nodup)
    (N : LNet (Mem α) α R) {e : Entry (Mem α) α} (h : (N.sent s d t)[i]? = some e) (hin : ∀ x ∈ l, InB e.shape x)
    (hno : ∀ x ∈ l, e.got x = none) :
    Relation.ReflTransGen (Step buf) N { N with sent := updCh N.sent s d t ((N.sent s d t).set i
      { e with got := fun j => if j ∈ l then some ((e.read (N.mem s)).get j) else e.got j }) } := by
  induction l generalizing N e with
  | nil =>
    have : (N.sent s d t).set i e = N.sent s d t := by
      obtain ⟨hlt, rfl⟩ := List.getElem?_eq_some_iff.1 h
      exact List.set_getElem_self hlt
    have e2 : updCh N.sent s d t ((N.sent s d t).set i
      { e with got := fun j => if j ∈ ([] : List (List Nat)) then some ((e.read (N.mem s)).get j) else e.got j }) = N.sent := by
      simp only [List.not_mem_nil, if_false]
      rw [this]
      funext a b c
      unfold updCh
      split
      · rename_i hc
        obtain ⟨rfl, rfl, rfl⟩ := hc
        rfl
      · rfl
    rw [e2]
  | cons x l ih =>
    rw [List.nodup_cons] at hnd
    have hlt : i < (N.sent s d t).length := (List.getElem?_eq_some_iff.1 h).1
    refine Relation.ReflTransGen.head (Step.read h (hin x List.mem_cons_self) (hno x List.mem_cons_self)) ?_
    have key := ih hnd.2
      { N with sent := updCh N.sent s d t ((N.sent s d t).set i
        { e with got := fun j => if j = x then some ((e.read (N.mem s)).get x) else e.got j }) }
      (e := { e with got := fun j => if j = x then some ((e.read (N.mem s)).get x) else e.got j })
      (by
        dsimp only
        rw [updCh_same, List.getElem?_set_self hlt])
      (fun y hy => hin y (List.mem_cons_of_mem _ hy))
      (fun y hy => by
        have hne : y ≠ x := fun h => hnd.1 (h ▸ hy)
        show (if y = x then _ else e.got y) = none
        rw [if_neg hne]
        exact hno y (List.mem_cons_of_mem _ hy))
    refine cast (congrArg _ ?_) key
    congr 1
    funext a b c
    unfold updCh
    dsimp only
    by_cases hc : a = s ∧ b = d ∧ c = t
    · simp only [if_pos hc, and_self, if_true, List.set_set]
      congr 2
      funext j
      by_cases hj : j = x
      · subst hj; simp
      · simp [hj]
    · simp only [if_neg hc]

theorem move_sound [Inhabited α] (buf : Buffering) (a : Move) (N N' : LNet (Mem α) α R) (h : move a N = some N') :
    Relation.ReflTransGen (Step buf) N N' := by
  cases a with
  | read s d t i =>
    unfold move at h
    cases he : (N.sent s d t)[i]? with
    | none => simp only [he] at h; cases h
    | some e =>
      simp only [he] at h
      split at h
      · rename_i hu
        cases h
        have hu' : ∀ x ∈ allIdx e.shape, e.got x = none := by
          intro x hx
          have := List.all_eq_true.1 hu x hx
          rwa [Option.isNone_iff_eq_none] at this
        have key := reads (buf := buf) (allIdx e.shape) (nodup_allIdx _) N he (fun x hx => (mem_allIdx _ _).1 hx) hu'
        exact key
      · cases h
  | rank r =>
    unfold move at h
    cases hp : N.procs r with
    | ret x => simp only [hp] at h; cases h
    | get k => simp only [hp] at h; cases h; exact .single (.get hp)
    | put f k => simp only [hp] at h; cases h; exact .single (.put hp)
    | isend d t rd k => simp only [hp] at h; cases h; exact .single (.isend hp)
    | recv s t q ix k =>
      simp only [hp] at h
      cases he : (N.sent s r t)[N.rcvd s r t]? with
      | none => simp only [he] at h; cases h
      | some e =>
        simp only [he] at h
        cases hc : e.content with
        | none => simp only [hc] at h; cases h
        | some a =>
          simp only [hc, Option.some.injEq] at h
          subst h
          unfold Entry.content at hc
          split at hc
          · rename_i hall
            cases hc
            refine .single ?_
            have st := Step.recv (buf := buf) (a := ⟨e.shape, fun i => (e.got i).getD default⟩) hp he rfl ?_
            · revert st
              generalize (Memory.store (N.mem r) q ix (⟨e.shape, fun i => (e.got i).getD default⟩ : NDArray α) : Py (Mem α)) = z
              cases z <;> exact id
            intro idx hi
            have := List.all_eq_true.1 hall idx ((mem_allIdx _ _).2 hi)
            dsimp only
            cases hg : e.got idx with
            | none => rw [hg] at this; cases this
            | some v => rfl
          · cases hc
    | await d t i k =>
      simp only [hp] at h
      split at h
      · rename_i hi
        cases h
        exact .single (.await hp (.inl hi))
      · cases h

theorem moves_sound [Inhabited α] (buf : Buffering) (as : List Move) (N N' : LNet (Mem α) α R) (h : moves as N = some N') :
    Relation.ReflTransGen (Step buf) N N' := by
  induction as generalizing N with
  | nil => cases h; exact .refl
  | cons a as ih =>
    unfold moves at h
    cases hm : move a N with
    | none => rw [hm] at h; cases h
    | some B =>
      rw [hm] at h
      exact (move_sound buf a N B hm).trans (ih B h)

end FV3.Late
