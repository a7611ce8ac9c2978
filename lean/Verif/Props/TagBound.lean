import Verif.Proofs.TagBound
import Verif.Props.ManyComm

/-!
# C74: halo updates and the largest tag of MPI
-/

namespace FV3
variable {α : Type} [Neg α]

/-- **C74**: with an MPI whose largest tag is `ub`, a session (as in C57, with updates outstanding or not) whose halo
updates and synchronisations are at most `ub`, vector halo updates counted twice, ends on all ranks and does what it
does with any other MPI. -/
theorem C74_enough {l : Layout} (hl : FloatSafe l) (hsq : l.y = l.x) (ub : Nat) (buf : Buffering)
    (junk : Nat → List Nat → α) (mem : Int → Mem α) (glob : Int → Nat → Option (Quantity α)) (parts : Nat → Parts)
    (filled : List Nat) (hglob : ∀ g v, glob 0 g = some v → v.GlobalShaped (.cube l) (parts g).dims (parts g).cells)
    (hfilled : ∀ g ∈ filled, ∃ v, glob 0 g = some v) (ops : List (AOp α)) (hops : AsyncValid l mem parts filled ops)
    (hub : tagCount ops ≤ ub) :
    ∃ (fin : Int → AState α) (started : Pending α),
      (boundedNet ub l junk ops mem glob).Completes buf (fun r =>
        if r ∈ allRanks l then some (.ok (fin r)) else none) ∧
      AsyncRun l parts ops ⟨mem, glob 0, []⟩ ⟨fun r => (fin r).comm.mem, (fin 0).glob, started⟩ ∧
      ∀ r ∈ allRanks l, MetaIs mem r (fin r).comm.mem := by
  have e : boundedNet ub l junk ops mem glob = asyncNet l junk ops mem glob := by
    unfold boundedNet asyncNet
    congr 1
    funext r
    rw [Proc.bounded_eq (execAsync_fits (ub := ub) l junk r ops ⟨⟨mem r, 0, []⟩, glob r, 0⟩
      (by show 0 + _ ≤ ub; omega) fun _ h => by cases h)]
  rw [e]
  exact C57_async hl hsq buf junk mem glob parts filled hglob hfilled ops hops

/-- **C74** (limit): with more of them, an exception is raised on every rank, whatever the schedule and the buffering of
MPI (and no rank hangs): the tags of a communicator are used up, although all messages of the earlier updates have been
received. -/
theorem C74_exhausted {l : Layout} (hl : FloatSafe l) (hsq : l.y = l.x) (ub : Nat) (buf : Buffering)
    (junk : Nat → List Nat → α) (mem : Int → Mem α) (glob : Int → Nat → Option (Quantity α)) (parts : Nat → Parts)
    (filled : List Nat) (hglob : ∀ g v, glob 0 g = some v → v.GlobalShaped (.cube l) (parts g).dims (parts g).cells)
    (hfilled : ∀ g ∈ filled, ∃ v, glob 0 g = some v) (ops : List (AOp α)) (hops : AsyncValid l mem parts filled ops)
    (hub : ub < tagCount ops) :
    (boundedNet ub l junk ops mem glob).Completes buf (fun r =>
      if r ∈ allRanks l then some (.error .runtimeError) else none) := by
  obtain ⟨pre, o, rest, rfl, ho, h1, h2⟩ := tagCount_split (n := 0) (ops := ops) (Nat.zero_le ub) (by omega)
  rw [Nat.zero_add] at h1 h2
  obtain ⟨v1, filled', v2, -⟩ := hops.calls.split
  have hpre : AsyncValid l mem parts filled pre :=
    ⟨v1, by have := hops.started; rw [List.filterMap_append] at this; exact this.prefix,
      by have := hops.once; rw [List.filterMap_append] at this; exact this.prefix⟩
  obtain ⟨fin, started, c1, -, c3⟩ := C57_async hl hsq buf junk mem glob parts filled hglob hfilled pre hpre
  have hfits := fun r => execAsync_fits (ub := ub) l junk r pre ⟨⟨mem r, 0, []⟩, glob r, 0⟩
      (by show 0 + _ ≤ ub; omega) fun _ h => by cases h
  have htag : ∀ r ∈ allRanks l, (fin r).comm.lastTag = tagCount pre := by
    intro r hr
    have := c1.spec (A := Fine ub) (Q := fun r x => ∀ s', x = some (.ok s') → s'.comm.lastTag = tagCount pre) (fun r => by
      unfold asyncNet Net.start
      dsimp only
      split
      · refine Proc.Spec.bind (hfits r) fun x hx s' h => ?_
        cases h
        have := (hx s' rfl).1
        rw [this]
        exact Nat.zero_add _
      · intro s' h
        cases h) r (fin r) (by rw [if_pos hr])
    exact this
  obtain ⟨sched, T, t1, t2⟩ := c1.run
  let K : Int → Option (Py (AState α)) → Proc (Msg α) (Option (Py (AState α))) := fun r x =>
    match x with
    | none => .ret none
    | some (.error e) => .ret (some (.error e))
    | some (.ok s') => ((execAsync l junk r (.op o :: rest) s').bounded ub (.error .runtimeError)).bind fun x => .ret (some x)
  have hK := Net.Completes.andThen (K := K) t1 t2 (out := fun r =>
    if r ∈ allRanks l then some (.error .runtimeError) else none) (by
      refine Net.completes_of_onlySends' (allRanks l) (fun r hr => ?_) fun r hr => ?_
      · simp only [if_pos hr]
        refine Proc.OnlySends.bind (Q := (· = .error .runtimeError)) (Proc.Trips.sends ?_) fun x hx => by
          rw [hx]
          exact .ret rfl
        have hready : UpdateReady l mem o := by
          cases o with
          | compute f => simp [Op.isStart] at ho
          | _ => exact v2
        obtain ⟨out, inn, g1, -⟩ := (ready_sound hl.xpos hsq ho hready).start r hr (fin r).comm.mem (c3 r hr)
        refine Proc.Trips.bind ?_ _
        exact Proc.Trips.bind (start_trips hl.xpos hsq hr ho g1 (by rw [htag r hr]; exact h2)) _
      · simp only [if_neg hr]
        rfl)
  refine cast ?_ hK
  congr 1
  unfold Net.andThen boundedNet asyncNet Net.start
  congr 1
  funext r
  dsimp only
  by_cases hr : r ∈ allRanks l
  · simp only [if_pos hr]
    rw [execAsync_append, Proc.bounded_bind (hfits r), Proc.bind_bind, Proc.bind_bind]
    congr 1
    funext y
    cases y <;> rfl
  · simp only [if_neg hr]
    rfl

/-- **C74**: with several communicator objects on one MPI communicator (C61), whose blocking calls are in any order, the
number of tags is for each object: each can make `ub` updates. -/
theorem C74_several {l : Layout} (hl : FloatSafe l) (hsq : l.y = l.x) (ub : Nat) (buf : Buffering)
    (junk : Nat → List Nat → α) (mem : Int → Mem α) (glob : Int → Nat → Option (Quantity α)) (parts : Nat → Parts)
    (filled : List Nat) (hglob : ∀ g v, glob 0 g = some v → v.GlobalShaped (.cube l) (parts g).dims (parts g).cells)
    (hfilled : ∀ g ∈ filled, ∃ v, glob 0 g = some v)
    (ops : List (Nat × SOp α)) (hops : SessionValid l mem parts filled (ops.map (·.2)))
    (hub : ∀ c, tagCountOf c ops ≤ ub) :
    ∃ fin : Int → MState α,
      (boundedMany ub l junk ops mem glob).Completes buf (fun r =>
        if r ∈ allRanks l then some (.ok (fin r)) else none) ∧
      SessionRun l parts (ops.map (·.2)) mem (glob 0) (fun r => (fin r).mem) (fin 0).glob ∧
      ∀ r ∈ allRanks l, MetaIs mem r (fin r).mem := by
  have e : boundedMany ub l junk ops mem glob = manyNet l junk ops mem glob := by
    unfold boundedMany manyNet
    congr 1
    funext r
    rw [Proc.bounded_eq (execMany_fits (ub := ub) l junk r ops ⟨mem r, glob r, fun _ => 0, 0⟩
      (fun c => by show 0 + _ ≤ ub; have := hub c; omega))]
  rw [e]
  exact C61_several hl hsq buf junk mem glob parts filled hglob hfilled ops hops

/-- Calls in groups of `k`, each group with a new communicator object. -/
def renewed (k : Nat) (ops : List (SOp α)) : List (Nat × SOp α) := ops.zipIdx.map fun x => (x.2 / k, x.1)

omit [Neg α] in
theorem renewed_calls (k : Nat) (ops : List (SOp α)) : (renewed k ops).map (·.2) = ops := by
  unfold renewed
  rw [List.map_map]
  exact List.zipIdx_map_fst ..

omit [Neg α] in
/-- A group takes at most two tags for each of its calls. -/
theorem renewed_tags {k : Nat} (hk : 0 < k) (c : Nat) (ops : List (SOp α)) : tagCountOf c (renewed k ops) ≤ 2 * k := by
  have h2 : ∀ (L : List (Nat × SOp α)), (L.map fun x => x.2.tagCount).sum ≤ 2 * L.length := by
    intro L
    induction L with
    | nil => simp
    | cons x L ih =>
      have : x.2.tagCount ≤ 2 := by
        rcases x with ⟨_, (c | _ | _)⟩
        · cases c <;> simp [SOp.tagCount]
        · simp [SOp.tagCount]
        · simp [SOp.tagCount]
      simp only [List.map_cons, List.sum_cons, List.length_cons]
      omega
  have h3 : ∀ (ops : List (SOp α)) (i : Nat),
      (((ops.zipIdx i).map fun x => (x.2 / k, x.1)).filter fun x => x.1 = c).length ≤ c * k + k - max i (c * k) := by
    intro ops
    induction ops with
    | nil => intro i; simp
    | cons op ops ih =>
      intro i
      have := ih (i + 1)
      rw [List.zipIdx_cons, List.map_cons, List.filter_cons]
      split
      · next h =>
        have h : i / k = c := by simpa using h
        have g1 : c * k ≤ i := by rw [← h]; exact Nat.div_mul_le_self i k
        have g2 : i < c * k + k := by
          have := Nat.lt_div_mul_add hk (a := i)
          rw [h] at this
          exact this
        rw [List.length_cons]
        omega
      · omega
  refine (h2 _).trans ?_
  have := h3 ops 0
  have h0 : max 0 (c * k) = c * k := by omega
  rw [h0] at this
  have : ((renewed k ops).filter fun x => x.1 = c).length ≤ k := by
    unfold renewed
    omega
  omega

/-- **C74** (remedy): a program that makes any number of blocking calls works with every MPI, if it makes a new
communicator object after every `k` calls (say, every 1000; MPI has at least 32767 tags). -/
theorem C74_renewed {l : Layout} (hl : FloatSafe l) (hsq : l.y = l.x) (ub : Nat) (buf : Buffering)
    (junk : Nat → List Nat → α) (mem : Int → Mem α) (glob : Int → Nat → Option (Quantity α)) (parts : Nat → Parts)
    (filled : List Nat) (hglob : ∀ g v, glob 0 g = some v → v.GlobalShaped (.cube l) (parts g).dims (parts g).cells)
    (hfilled : ∀ g ∈ filled, ∃ v, glob 0 g = some v)
    (ops : List (SOp α)) (hops : SessionValid l mem parts filled ops) (k : Nat) (hk : 0 < k) (hub : 2 * k ≤ ub) :
    ∃ fin : Int → MState α,
      (boundedMany ub l junk (renewed k ops) mem glob).Completes buf (fun r =>
        if r ∈ allRanks l then some (.ok (fin r)) else none) ∧
      SessionRun l parts ops mem (glob 0) (fun r => (fin r).mem) (fin 0).glob ∧
      ∀ r ∈ allRanks l, MetaIs mem r (fin r).mem := by
  have := C74_several hl hsq ub buf junk mem glob parts filled hglob hfilled (renewed k ops)
    (by rw [renewed_calls]; exact hops) fun c => (renewed_tags hk c ops).trans hub
  rw [renewed_calls] at this
  exact this

/-- The calls of C57's example of outstanding updates: a scatter, a vector halo update and a halo update that are
outstanding together with others, a gather. -/
def exTags : List (AOp α) := exBefore ++ .op (.halo 0 1) :: exBetween ++ [.op (.wait 1)]

/-- The example with enough tags. -/
example (buf : Buffering) (z : α) (F : Vec3 → (Nat → Int) → α) :
    ∃ (fin : Int → AState α) (started : Pending α),
      (boundedNet 4 ⟨2, 2⟩ (fun _ _ => z) exTags (exRunMem 3 z)
        (fun r g => if r = 0 ∧ g = 0 then some (exRunG 6 F) else none)).Completes buf (fun r =>
        if r ∈ allRanks ⟨2, 2⟩ then some (.ok (fin r)) else none) ∧
      AsyncRun ⟨2, 2⟩ exParts exTags ⟨exRunMem 3 z, fun g => if (0 : Int) = 0 ∧ g = 0 then some (exRunG 6 F) else none, []⟩
        ⟨fun r => (fin r).comm.mem, (fin 0).glob, started⟩ := by
  have s2 : FloatSafe ⟨2, 2⟩ := C05_safe_up_to_48 _ (by decide) (by decide) (by decide) (by decide)
  obtain ⟨fin, st, h1, h2, -⟩ := C74_enough s2 rfl 4 buf (fun _ _ => z) (exRunMem 3 z)
    (fun r g => if r = 0 ∧ g = 0 then some (exRunG 6 F) else none) exParts [0] (exSession_glob F z)
    (fun g hg => ⟨exRunG 6 F, by rw [if_pos ⟨rfl, List.mem_singleton.1 hg⟩]⟩) exTags (exAsync_valid z) (Nat.le_refl 4)
  exact ⟨fin, st, h1, h2⟩

/-- The example with one tag less than it takes. -/
example (buf : Buffering) (z : α) (F : Vec3 → (Nat → Int) → α) :
    (boundedNet 3 ⟨2, 2⟩ (fun _ _ => z) exTags (exRunMem 3 z)
      (fun r g => if r = 0 ∧ g = 0 then some (exRunG 6 F) else none)).Completes buf (fun r =>
      if r ∈ allRanks ⟨2, 2⟩ then some (.error .runtimeError) else none) := by
  have s2 : FloatSafe ⟨2, 2⟩ := C05_safe_up_to_48 _ (by decide) (by decide) (by decide) (by decide)
  exact C74_exhausted s2 rfl 3 buf (fun _ _ => z) (exRunMem 3 z)
    (fun r g => if r = 0 ∧ g = 0 then some (exRunG 6 F) else none) exParts [0] (exSession_glob F z)
    (fun g hg => ⟨exRunG 6 F, by rw [if_pos ⟨rfl, List.mem_singleton.1 hg⟩]⟩) exTags (exAsync_valid z)
    (Nat.lt_succ_self 3)

/-- The calls of C57's example, each with a new communicator object, and two tags. -/
example (buf : Buffering) (z : α) (F : Vec3 → (Nat → Int) → α) :
    ∃ fin : Int → MState α,
      (boundedMany 2 ⟨2, 2⟩ (fun _ _ => z) (renewed 1 exSession) (exRunMem 3 z)
        (fun r g => if r = 0 ∧ g = 0 then some (exRunG 6 F) else none)).Completes buf (fun r =>
        if r ∈ allRanks ⟨2, 2⟩ then some (.ok (fin r)) else none) ∧
      SessionRun ⟨2, 2⟩ exParts exSession (exRunMem 3 z)
        (fun g => if (0 : Int) = 0 ∧ g = 0 then some (exRunG 6 F) else none) (fun r => (fin r).mem) (fin 0).glob := by
  have s2 : FloatSafe ⟨2, 2⟩ := C05_safe_up_to_48 _ (by decide) (by decide) (by decide) (by decide)
  obtain ⟨fin, h1, h2, -⟩ := C74_renewed s2 rfl 2 buf (fun _ _ => z) (exRunMem 3 z)
    (fun r g => if r = 0 ∧ g = 0 then some (exRunG 6 F) else none) exParts [0] (exSession_glob F z)
    (fun g hg => ⟨exRunG 6 F, by rw [if_pos ⟨rfl, List.mem_singleton.1 hg⟩]⟩) exSession (exSession_valid z) 1 (by decide)
    (by decide)
  exact ⟨fin, h1, h2⟩

end FV3
