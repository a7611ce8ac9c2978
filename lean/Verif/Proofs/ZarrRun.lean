import Verif.Spec.ZarrWorld
import Mathlib.Tactic.SplitIfs
import Mathlib.Data.List.Basic

/-!
# Ranks that own their chunks do not disturb each other

If metadata is written by rank 0 only, and each chunk is read and written by its owner only, then any
interleaving of the ranks has the same result as running each rank alone.
-/

namespace FV3
namespace Zarr
variable {α R R' : Type}

/-- Metadata only grows along the time axis. -/
structure Info.le (i j : Info) : Prop where
  chunks : j.chunks = i.chunks
  length : j.shape.length = i.shape.length
  time : i.shape.getD 0 0 ≤ j.shape.getD 0 0
  rest : j.shape.tail = i.shape.tail

theorem Info.le.refl (i : Info) : i.le i := ⟨rfl, rfl, Nat.le_refl _, rfl⟩

theorem Info.le.trans {i j k : Info} (h : i.le j) (h' : j.le k) : i.le k :=
  ⟨h'.chunks.trans h.chunks, h'.length.trans h.length, Nat.le_trans h.time h'.time, h'.rest.trans h.rest⟩

/-- A collective as called by rank 0, and the metadata of the array at that time. -/
structure GItem where
  coll : Coll
  info : Option Info

def Coll.payload : Coll → Option String
  | .bcast p => p
  | .barrier => none

/-- What a rank knows about the metadata of arrays. -/
abbrev Known := List (String × Info)

def GItem.learn (g : GItem) (kn : Known) : Known :=
  match g.coll, g.info with
  | .bcast (some name), some i => (name, i) :: kn
  | _, _ => kn

/-- What is asked of the local store `L` and of the collectives `gs` still to come in every state of a run. -/
class Sat (I : Store α → List GItem → Prop) (L : Store α) (gs : List GItem) : Prop where
  out : I L gs

/-- Nothing is asked. -/
def Free : Store α → List GItem → Prop := fun _ _ => True

instance (L : Store α) (gs : List GItem) : Sat Free L gs := ⟨trivial⟩

/-- Rank `r`, running alone from the local store `L`, takes `n` steps, takes part in the collectives
`gs`, uses only what it owns, and ends with a result in `Q` and the local store `L'`. In every state on
the way `I` holds. -/
inductive RunsI (own : String → List Nat → Int) (I : Store α → List GItem → Prop) (r : Int) (Q : R → Prop) (L' : Store α) :
    Prog α R → Nat → Store α → Known → List GItem → Prop where
  | ret {a kn} : Q a → [Sat I L' []] → RunsI own I r Q L' (.ret a) 0 L' kn []
  | getInfoRoot {name k n L kn gs} : r = 0 → RunsI own I r Q L' (k (L.infos name)) n L kn gs →
      [Sat I L gs] → RunsI own I r Q L' (.getInfo name k) (n + 1) L kn gs
  | getInfoOther {name i0 k n L kn gs} : r ≠ 0 → (name, i0) ∈ kn →
      (∀ i : Info, i0.le i → RunsI own I r Q L' (k (some i)) n L kn gs) →
      [Sat I L gs] → RunsI own I r Q L' (.getInfo name k) (n + 1) L kn gs
  | putInfo {name i k n L kn gs} : r = 0 → (∀ i0, L.infos name = some i0 → i0.le i) →
      RunsI own I r Q L' k n (L.putInfo name i) kn gs → [Sat I L gs] →
      RunsI own I r Q L' (.putInfo name i k) (n + 1) L kn gs
  | getChunk {name ci k n L kn gs} : own name ci = r → RunsI own I r Q L' (k (L.chunks name ci)) n L kn gs →
      [Sat I L gs] → RunsI own I r Q L' (.getChunk name ci k) (n + 1) L kn gs
  | putChunk {name ci c k n L kn gs} : own name ci = r → RunsI own I r Q L' k n (L.putChunk name ci c) kn gs →
      [Sat I L gs] → RunsI own I r Q L' (.putChunk name ci c k) (n + 1) L kn gs
  | collRoot {c k n L kn gs} {g : GItem} : r = 0 → g.coll = c →
      (∀ name, c = .bcast (some name) → g.info = L.infos name ∧ (L.infos name).isSome) →
      RunsI own I r Q L' (k c.payload) n L kn gs → [Sat I L (g :: gs)] →
      RunsI own I r Q L' (.coll c k) (n + 2) L kn (g :: gs)
  | collOther {c k n L kn gs} {g : GItem} : r ≠ 0 → c.isBcast = g.coll.isBcast →
      RunsI own I r Q L' (k g.coll.payload) n L (g.learn kn) gs → [Sat I L (g :: gs)] →
      RunsI own I r Q L' (.coll c k) (n + 2) L kn (g :: gs)

/-- The same, with nothing asked of the states on the way. -/
abbrev Runs (own : String → List Nat → Int) (r : Int) (Q : R → Prop) (L' : Store α) (p : Prog α R) (n : Nat)
    (L : Store α) (kn : Known) (gs : List GItem) : Prop := RunsI own Free r Q L' p n L kn gs

theorem learn_mono {g : GItem} {kn kn' : Known} (hs : ∀ x ∈ kn, x ∈ kn') : ∀ x ∈ g.learn kn, x ∈ g.learn kn' := by
  intro x hx
  unfold GItem.learn at hx ⊢
  split at hx
  · rcases List.mem_cons.1 hx with rfl | hx
    · exact List.mem_cons_self
    · exact List.mem_cons_of_mem _ (hs _ hx)
  · exact hs _ hx

theorem RunsI.here {own : String → List Nat → Int} {I : Store α → List GItem → Prop} {r : Int} {p : Prog α R} {n : Nat}
    {L L' : Store α} {kn : Known} {gs : List GItem} {Q : R → Prop} (h : RunsI own I r Q L' p n L kn gs) : I L gs := by
  cases h <;> exact Sat.out

theorem RunsI.knows {own : String → List Nat → Int} {I : Store α → List GItem → Prop} {r : Int} {p : Prog α R} {n : Nat}
    {L L' : Store α} {kn : Known} {gs : List GItem} {Q : R → Prop} (h : RunsI own I r Q L' p n L kn gs) :
    ∀ kn', (∀ x ∈ kn, x ∈ kn') → RunsI own I r Q L' p n L kn' gs := by
  induction h with
  | ret h => intro _ _; exact .ret h
  | getInfoRoot h _ ih => intro kn' hs; exact .getInfoRoot h (ih kn' hs)
  | getInfoOther h hm _ ih => intro kn' hs; exact .getInfoOther h (hs _ hm) fun i hi => ih i hi kn' hs
  | putInfo h h2 _ ih => intro kn' hs; exact .putInfo h h2 (ih kn' hs)
  | getChunk h _ ih => intro kn' hs; exact .getChunk h (ih kn' hs)
  | putChunk h _ ih => intro kn' hs; exact .putChunk h (ih kn' hs)
  | collRoot h1 h2 h3 _ ih => intro kn' hs; exact .collRoot h1 h2 h3 (ih kn' hs)
  | collOther h1 h2 _ ih => intro kn' hs; exact .collOther h1 h2 (ih _ (learn_mono hs))

/-- Less asked, more owned, a weaker result. -/
theorem RunsI.weaken {own own' : String → List Nat → Int} {I I' : Store α → List GItem → Prop} {r : Int} {p : Prog α R}
    {n : Nat} {L L' : Store α} {kn : Known} {gs : List GItem} {Q Q' : R → Prop} (h : RunsI own I r Q L' p n L kn gs)
    (ho : ∀ name ci, own name ci = r → own' name ci = r) (hI : ∀ L gs, I L gs → I' L gs) (hQ : ∀ x, Q x → Q' x) :
    RunsI own' I' r Q' L' p n L kn gs := by
  have hS : ∀ {L gs}, Sat I L gs → Sat I' L gs := fun h => ⟨hI _ _ h.out⟩
  induction h with
  | ret h => have := hS ‹_›; exact .ret (hQ _ h)
  | getInfoRoot h _ ih => have := hS ‹_›; exact .getInfoRoot h ih
  | getInfoOther h hm _ ih => have := hS ‹_›; exact .getInfoOther h hm ih
  | putInfo h h2 _ ih => have := hS ‹_›; exact .putInfo h h2 ih
  | getChunk h _ ih => have := hS ‹_›; exact .getChunk (ho _ _ h) ih
  | putChunk h _ ih => have := hS ‹_›; exact .putChunk (ho _ _ h) ih
  | collRoot h1 h2 h3 _ ih => have := hS ‹_›; exact .collRoot h1 h2 h3 ih
  | collOther h1 h2 _ ih => have := hS ‹_›; exact .collOther h1 h2 ih

theorem RunsI.mono {own : String → List Nat → Int} {I : Store α → List GItem → Prop} {r : Int} {p : Prog α R} {n : Nat}
    {L L' : Store α} {kn : Known} {gs : List GItem} {Q Q' : R → Prop} (h : RunsI own I r Q L' p n L kn gs)
    (hQ : ∀ x, Q x → Q' x) : RunsI own I r Q' L' p n L kn gs :=
  h.weaken (fun _ _ h => h) (fun _ _ h => h) hQ

theorem RunsI.free {own : String → List Nat → Int} {I : Store α → List GItem → Prop} {r : Int} {p : Prog α R} {n : Nat}
    {L L' : Store α} {kn : Known} {gs : List GItem} {Q : R → Prop} (h : RunsI own I r Q L' p n L kn gs) :
    Runs own r Q L' p n L kn gs :=
  h.weaken (fun _ _ h => h) (fun _ _ _ => trivial) fun _ h => h

theorem RunsI.bindI {own : String → List Nat → Int} {I1 I : Store α → List GItem → Prop} {r : Int} {p : Prog α R} {n : Nat}
    {L L' : Store α} {kn : Known} {gs : List GItem} {Q : R → Prop} (h : RunsI own I1 r Q L' p n L kn gs) {f : R → Prog α R'}
    {n' : Nat} {L'' : Store α} {gs' : List GItem} {Q' : R' → Prop} (hI : ∀ L g, I1 L g → I L (g ++ gs'))
    (h' : ∀ x, Q x → RunsI own I r Q' L'' (f x) n' L' [] gs') :
    RunsI own I r Q' L'' (p.bind f) (n + n') L kn (gs ++ gs') := by
  have hS : ∀ {L g}, Sat I1 L g → Sat I L (g ++ gs') := fun h => ⟨hI _ _ h.out⟩
  induction h with
  | ret h => rw [Nat.zero_add]; exact (h' _ h).knows _ (by simp)
  | @getInfoRoot _ _ n _ _ _ h _ _ ih =>
    have := hS ‹_›; rw [show n + 1 + n' = (n + n') + 1 by omega]; exact .getInfoRoot h ih
  | @getInfoOther _ _ _ n _ _ _ h hm _ _ ih =>
    have := hS ‹_›; rw [show n + 1 + n' = (n + n') + 1 by omega]; exact .getInfoOther h hm ih
  | @putInfo _ _ _ n _ _ _ h h2 _ _ ih =>
    have := hS ‹_›; rw [show n + 1 + n' = (n + n') + 1 by omega]; exact .putInfo h h2 ih
  | @getChunk _ _ _ n _ _ _ h _ _ ih =>
    have := hS ‹_›; rw [show n + 1 + n' = (n + n') + 1 by omega]; exact .getChunk h ih
  | @putChunk _ _ _ _ n _ _ _ h _ _ ih =>
    have := hS ‹_›; rw [show n + 1 + n' = (n + n') + 1 by omega]; exact .putChunk h ih
  | @collRoot _ _ n _ _ _ g h1 h2 h3 _ _ ih =>
    have := hS ‹_›; rw [List.cons_append] at this ⊢
    rw [show n + 2 + n' = (n + n') + 2 by omega]; exact .collRoot h1 h2 h3 ih
  | @collOther _ _ n _ _ _ g h1 h2 _ _ ih =>
    have := hS ‹_›; rw [List.cons_append] at this ⊢
    rw [show n + 2 + n' = (n + n') + 2 by omega]; exact .collOther h1 h2 ih

theorem Runs.bind {own : String → List Nat → Int} {r : Int} {p : Prog α R} {n : Nat} {L L' : Store α} {kn : Known}
    {gs : List GItem} {Q : R → Prop} (h : Runs own r Q L' p n L kn gs) {f : R → Prog α R'} {n' : Nat} {L'' : Store α}
    {gs' : List GItem} {Q' : R' → Prop} (h' : ∀ x, Q x → Runs own r Q' L'' (f x) n' L' [] gs') :
    Runs own r Q' L'' (p.bind f) (n + n') L kn (gs ++ gs') :=
  RunsI.bindI h (fun _ _ _ => trivial) h'

/-- Between the first and the last state metadata grow and chunks of others stay as they are. -/
structure Between (own : String → List Nat → Int) (r : Int) (L L1 L' : Store α) : Prop where
  same : ∀ name ci, own name ci ≠ r → L1.chunks name ci = L.chunks name ci
  up : ∀ name i, L.infos name = some i → ∃ i', L1.infos name = some i' ∧ i.le i'
  down : ∀ name i, L1.infos name = some i → ∃ i', L'.infos name = some i' ∧ i.le i'
  others : r ≠ 0 → L1.infos = L.infos

theorem Between.after {own : String → List Nat → Int} {r : Int} {L L0 L1 L' : Store α}
    (h : Between own r L0 L1 L') (h1 : ∀ name ci, own name ci ≠ r → L0.chunks name ci = L.chunks name ci)
    (h2 : ∀ name i, L.infos name = some i → ∃ i', L0.infos name = some i' ∧ i.le i')
    (h3 : r ≠ 0 → L0.infos = L.infos) : Between own r L L1 L' := by
  refine ⟨fun name ci ho => (h.same name ci ho).trans (h1 name ci ho), ?_, h.down, fun h0 => (h.others h0).trans (h3 h0)⟩
  intro name i hi
  obtain ⟨i', hi', hle⟩ := h2 name i hi
  obtain ⟨i2, hi2, hle2⟩ := h.up name i' hi'
  exact ⟨i2, hi2, hle.trans hle2⟩

theorem Between.first {own : String → List Nat → Int} {r : Int} {L L' : Store α}
    (h : ∀ name i, L.infos name = some i → ∃ i', L'.infos name = some i' ∧ i.le i') : Between own r L L L' :=
  ⟨fun _ _ _ => rfl, fun _ i hi => ⟨i, hi, .refl i⟩, h, fun _ => rfl⟩

/-- Metadata grow, over a whole run. -/
theorem RunsI.grows {own : String → List Nat → Int} {I : Store α → List GItem → Prop} {r : Int} {p : Prog α R} {n : Nat}
    {L L' : Store α} {kn : Known} {gs : List GItem} {Q : R → Prop} (h : RunsI own I r Q L' p n L kn gs) :
    ∀ name i, L.infos name = some i → ∃ i', L'.infos name = some i' ∧ i.le i' := by
  induction h with
  | ret h => intro name i hi; exact ⟨i, hi, .refl i⟩
  | getInfoRoot h _ ih => exact ih
  | @getInfoOther _ i0 _ _ _ _ _ h hm _ _ ih => exact ih i0 (.refl _)
  | @putInfo nm j _ _ L _ _ h h2 _ _ ih =>
    intro name i hi
    by_cases he : name = nm
    · subst he
      obtain ⟨i', h1, hle⟩ := ih name j (by simp [Store.putInfo])
      exact ⟨i', h1, (h2 i hi).trans hle⟩
    · exact ih name i (by simp only [Store.putInfo]; rw [if_neg he]; exact hi)
  | getChunk h _ ih => exact ih
  | putChunk h _ ih => exact ih
  | collRoot h1 h2 h3 _ ih => exact ih
  | collOther h1 h2 _ ih => exact ih

/-- What is known of the states on the way of any run. -/
theorem RunsI.between {own : String → List Nat → Int} {I : Store α → List GItem → Prop} {r : Int} {p : Prog α R} {n : Nat}
    {L L' : Store α} {kn : Known} {gs : List GItem} {Q : R → Prop} (h : RunsI own I r Q L' p n L kn gs) :
    RunsI own (fun L1 g => I L1 g ∧ Between own r L L1 L') r Q L' p n L kn gs := by
  have aux : ∀ {L0 : Store α} {p n L kn gs}, RunsI own I r Q L' p n L kn gs →
      (∀ name ci, own name ci ≠ r → L.chunks name ci = L0.chunks name ci) →
      (∀ name i, L0.infos name = some i → ∃ i', L.infos name = some i' ∧ i.le i') →
      (r ≠ 0 → L.infos = L0.infos) →
      RunsI own (fun L1 g => I L1 g ∧ Between own r L0 L1 L') r Q L' p n L kn gs := by
    intro L0 p n L kn gs h
    have hS : ∀ {p n L kn gs}, RunsI own I r Q L' p n L kn gs →
        (∀ name ci, own name ci ≠ r → L.chunks name ci = L0.chunks name ci) →
        (∀ name i, L0.infos name = some i → ∃ i', L.infos name = some i' ∧ i.le i') →
        (r ≠ 0 → L.infos = L0.infos) → ∀ gs', Sat I L gs' → Sat (fun L1 g => I L1 g ∧ Between own r L0 L1 L') L gs' :=
      fun h h1 h2 h3 _ hs => ⟨hs.out, (Between.first h.grows).after h1 h2 h3⟩
    induction h with
    | ret h =>
      intro h1 h2 h3
      have : Sat (fun L1 g => I L1 g ∧ Between own r L0 L1 L') L' [] :=
        ⟨Sat.out, (Between.first fun _ i hi => ⟨i, hi, .refl i⟩).after h1 h2 h3⟩
      exact .ret h
    | getInfoRoot h hr ih => intro h1 h2 h3; have := hS hr h1 h2 h3 _ ‹_›; exact .getInfoRoot h (ih h1 h2 h3)
    | @getInfoOther _ i0 _ _ _ _ _ h hm hr _ ih =>
      intro h1 h2 h3; have := hS (hr i0 (.refl _)) h1 h2 h3 _ ‹_›; exact .getInfoOther h hm fun i hi => ih i hi h1 h2 h3
    | @putInfo nm j _ _ L _ _ h hle hr hI ih =>
      intro h1 h2 h3
      have h2' : ∀ name i, L0.infos name = some i → ∃ i', (L.putInfo nm j).infos name = some i' ∧ i.le i' := by
        intro name i hi
        obtain ⟨i', hi', hl⟩ := h2 name i hi
        simp only [Store.putInfo]
        by_cases he : name = nm
        · subst he; rw [if_pos rfl]; exact ⟨j, rfl, hl.trans (hle i' hi')⟩
        · rw [if_neg he]; exact ⟨i', hi', hl⟩
      have : ∀ gs', Sat I L gs' → Sat (fun L1 g => I L1 g ∧ Between own r L0 L1 L') L gs' := fun _ hs =>
        ⟨hs.out, (Between.first (RunsI.putInfo h hle hr : RunsI own I r Q L' _ _ L _ _).grows).after h1 h2 h3⟩
      have := this _ hI; exact .putInfo h hle (ih h1 h2' fun h0 => absurd h h0)
    | getChunk h hr ih => intro h1 h2 h3; have := hS hr h1 h2 h3 _ ‹_›; exact .getChunk h (ih h1 h2 h3)
    | @putChunk nm ci c _ _ L _ _ h hr _ ih =>
      intro h1 h2 h3
      have h1' : ∀ name cj, own name cj ≠ r → (L.putChunk nm ci c).chunks name cj = L0.chunks name cj := by
        intro name cj ho
        simp only [Store.putChunk]
        rw [if_neg]
        · exact h1 name cj ho
        · rintro ⟨rfl, rfl⟩; exact ho h
      have : ∀ gs', Sat I L gs' → Sat (fun L1 g => I L1 g ∧ Between own r L0 L1 L') L gs' := fun _ hs =>
        ⟨hs.out, (Between.first (L := L) fun name i hi => hr.grows name i hi).after h1 h2 h3⟩
      have := this _ ‹_›; exact .putChunk h (ih h1' h2 h3)
    | collRoot h1' h2' h3' hr ih =>
      intro h1 h2 h3; have := hS hr h1 h2 h3 _ ‹_›; exact .collRoot h1' h2' h3' (ih h1 h2 h3)
    | collOther h1' h2' hr ih =>
      intro h1 h2 h3; have := hS hr h1 h2 h3 _ ‹_›; exact .collOther h1' h2' (ih h1 h2 h3)
  exact aux h (fun _ _ _ => rfl) (fun _ i hi => ⟨i, hi, .refl i⟩) fun _ => rfl

/-- The collectives to come get fewer. -/
theorem RunsI.shorter {own : String → List Nat → Int} {I : Store α → List GItem → Prop} {r : Int} {p : Prog α R} {n : Nat}
    {L L' : Store α} {kn : Known} {gs : List GItem} {Q : R → Prop} (h : RunsI own I r Q L' p n L kn gs) :
    RunsI own (fun L1 g => I L1 g ∧ g.length ≤ gs.length) r Q L' p n L kn gs := by
  have hS : ∀ {L g}, Sat I L g → Sat (fun L1 g' => I L1 g' ∧ g'.length ≤ g.length) L g := fun h => ⟨h.out, Nat.le_refl _⟩
  have up : ∀ {p n L kn g} {x : GItem}, RunsI own (fun L1 g' => I L1 g' ∧ g'.length ≤ g.length) r Q L' p n L kn g →
      RunsI own (fun L1 g' => I L1 g' ∧ g'.length ≤ (x :: g).length) r Q L' p n L kn g := fun h =>
    h.weaken (fun _ _ h => h) (fun _ _ h => ⟨h.1, Nat.le_succ_of_le h.2⟩) fun _ h => h
  induction h with
  | ret h => have := hS ‹_›; exact .ret h
  | getInfoRoot h _ ih => have := hS ‹_›; exact .getInfoRoot h ih
  | getInfoOther h hm _ ih => have := hS ‹_›; exact .getInfoOther h hm ih
  | putInfo h h2 _ ih => have := hS ‹_›; exact .putInfo h h2 ih
  | getChunk h _ ih => have := hS ‹_›; exact .getChunk h ih
  | putChunk h _ ih => have := hS ‹_›; exact .putChunk h ih
  | collRoot h1 h2 h3 _ ih => have := hS ‹_›; exact .collRoot h1 h2 h3 (up ih)
  | collOther h1 h2 _ ih => have := hS ‹_›; exact .collOther h1 h2 (up ih)

theorem RunsI.last {own : String → List Nat → Int} {I : Store α → List GItem → Prop} {r : Int} {p : Prog α R} {n : Nat}
    {L L' : Store α} {kn : Known} {gs : List GItem} {Q : R → Prop} (h : RunsI own I r Q L' p n L kn gs) : I L' [] := by
  induction h with
  | ret h => exact Sat.out
  | getInfoRoot h _ ih => exact ih
  | @getInfoOther _ i0 _ _ _ _ _ h hm _ _ ih => exact ih i0 (.refl _)
  | putInfo h h2 _ ih => exact ih
  | getChunk h _ ih => exact ih
  | putChunk h _ ih => exact ih
  | collRoot h1 h2 h3 _ ih => exact ih
  | collOther h1 h2 _ ih => exact ih

/-- A run that uses no chunks leaves them as they are. -/
theorem Runs.still {own : String → List Nat → Int} {J : Store α → Prop} {r : Int} (hr : r ≠ -1) {p : Prog α R}
    {n : Nat} {L L' : Store α} {kn : Known} {gs : List GItem} {Q : R → Prop} (h : Runs (fun _ _ => -1) r Q L' p n L kn gs)
    (hJ : ∀ L1, L1.chunks = L.chunks → J L1) : RunsI own (fun L _ => J L) r Q L' p n L kn gs := by
  refine h.between.weaken (fun _ _ h => absurd h.symm hr) ?_ fun _ h => h
  rintro L1 g ⟨-, hb⟩
  refine hJ L1 ?_
  funext name ci
  exact hb.same name ci hr.symm

/-! ### All ranks together -/

/-- How many collectives rank `r` has returned from. -/
def World.left (W : World α R) (r : Int) : Nat := (W.log r).length - (W.inside r).toNat

/-- A state of the world in which rank `r` still has to do what its run `Runs` says. -/
structure Mid (own : String → List Nat → Int) (I : Int → Store α → List GItem → Prop) (ranks : List Int) (G : List GItem) (res : Int → R) (fin : Int → Store α)
    (W : World α R) (m : Int → Nat) (L : Int → Store α) (kn : Int → Known) : Prop where
  runs : ∀ r ∈ ranks, RunsI own (I r) r (· = res r) (fin r) (W.procs r) (m r) (L r) (kn r) (G.drop (W.left r))
  mine : ∀ r ∈ ranks, ∀ name ci, own name ci = r → W.store.chunks name ci = (L r).chunks name ci
  infos : W.store.infos = (L 0).infos
  known : ∀ r ∈ ranks, ∀ name i0, (name, i0) ∈ kn r → ∃ i, W.store.infos name = some i ∧ i0.le i
  lens : ∀ r ∈ ranks, (W.log r).length ≤ G.length
  pos : ∀ r ∈ ranks, W.inside r = true → 0 < (W.log r).length
  logs : ∀ r ∈ ranks, ∀ (k : Nat) (c : Coll) (g : GItem), (W.log r)[k]? = some c → G[k]? = some g →
    c.isBcast = g.coll.isBcast ∧ (r = 0 → c = g.coll)
  sent : ∀ (k : Nat) (g : GItem), k < (W.log 0).length → G[k]? = some g → ∀ name, g.coll = .bcast (some name) →
    ∃ i0 i, g.info = some i0 ∧ W.store.infos name = some i ∧ i0.le i
  inColl : ∀ r ∈ ranks, W.inside r = true → ∃ c k, W.procs r = .coll c k
  free : ∀ name ci, own name ci ∉ ranks → W.store.chunks name ci = none
  idle : ∀ r, r ∉ ranks → W.procs r = .ret (res r)

/-- Steps rank `r` still has to do. -/
def World.todo (W : World α R) (m : Int → Nat) (r : Int) : Nat := m r - (W.inside r).toNat

theorem sum_upd {ranks : List Int} (hn : ranks.Nodup) {r : Int} (hr : r ∈ ranks) (f g : Int → Nat)
    (hne : ∀ r' ∈ ranks, r' ≠ r → f r' = g r') (heq : f r + 1 = g r) : (ranks.map f).sum + 1 = (ranks.map g).sum := by
  induction ranks with
  | nil => cases hr
  | cons a l ih =>
    rw [List.nodup_cons] at hn
    rw [List.map_cons, List.map_cons, List.sum_cons, List.sum_cons]
    rcases List.mem_cons.1 hr with rfl | hr'
    · have : l.map f = l.map g := List.map_congr_left fun x hx =>
        hne x (List.mem_cons_of_mem _ hx) (fun h => hn.1 (h ▸ hx))
      rw [this]; omega
    · have := ih hn.2 hr' fun r' h => hne r' (List.mem_cons_of_mem _ h)
      have := hne a List.mem_cons_self (fun h => hn.1 (h ▸ hr'))
      omega

theorem sum_zero (l : List Int) (f : Int → Nat) (h : ∀ r ∈ l, f r = 0) : (l.map f).sum = 0 := by
  induction l with
  | nil => rfl
  | cons a l ih =>
    rw [List.map_cons, List.sum_cons, h a List.mem_cons_self, ih fun r hr => h r (List.mem_cons_of_mem _ hr)]

theorem updRank_self {A : Type} (f : Int → A) (r : Int) (v : A) : updRank f r v r = v := by simp [updRank]
theorem updRank_ne {A : Type} (f : Int → A) {r r' : Int} (v : A) (h : r' ≠ r) : updRank f r v r' = f r' := by
  simp [updRank, h]


section
variable {own : String → List Nat → Int} {I : Int → Store α → List GItem → Prop} {ranks : List Int} {G : List GItem} {res : Int → R} {fin : Int → Store α}
  {W : World α R} {m : Int → Nat} {L : Int → Store α} {kn : Int → Known}

/-- A step that is not a collective. -/
theorem Mid.own_step (h : Mid own I ranks G res fin W m L kn) {r : Int} (hr : r ∈ ranks) (hin : W.inside r = false)
    (p' : Prog α R) (m' : Nat) (L' S' : Store α)
    (hrun : RunsI own (I r) r (· = res r) (fin r) p' m' L' (kn r) (G.drop (W.left r)))
    (hmine : ∀ name ci, own name ci = r → S'.chunks name ci = L'.chunks name ci)
    (hother : ∀ name ci, own name ci ≠ r → S'.chunks name ci = W.store.chunks name ci)
    (hinf : if r = 0 then S'.infos = L'.infos else S'.infos = W.store.infos)
    (hmono : ∀ name i0, W.store.infos name = some i0 → ∃ i, S'.infos name = some i ∧ i0.le i) :
    Mid own I ranks G res fin { W with procs := updRank W.procs r p', store := S' } (updRank m r m') (updRank L r L') kn := by
  have key : ∀ r' ∈ ranks, r' ≠ r → updRank W.procs r p' r' = W.procs r' := fun r' _ h => updRank_ne _ _ h
  refine ⟨?_, ?_, ?_, ?_, h.lens, h.pos, h.logs, ?_, ?_, ?_, ?_⟩
  · intro r' hr'
    by_cases he : r' = r
    · subst he
      show RunsI own (I r') r' _ _ (updRank W.procs r' p' r') _ _ _ (G.drop (W.left r'))
      rw [updRank_self, updRank_self, updRank_self]
      exact hrun
    · show RunsI own (I r') r' _ _ (updRank W.procs r p' r') _ _ _ (G.drop (W.left r'))
      rw [updRank_ne _ _ he, updRank_ne _ _ he, updRank_ne _ _ he]
      exact h.runs r' hr'
  · intro r' hr' name ci ho
    by_cases he : r' = r
    · subst he
      rw [updRank_self]
      exact hmine name ci ho
    · rw [updRank_ne _ _ he]
      exact (hother name ci (by rw [ho]; exact he)).trans (h.mine r' hr' name ci ho)
  · show S'.infos = _
    by_cases he : r = 0
    · subst he
      rw [if_pos rfl] at hinf
      rw [updRank_self, hinf]
    · rw [if_neg he] at hinf
      rw [updRank_ne _ _ (Ne.symm he), hinf, h.infos]
  · intro r' hr' name i0 hk
    obtain ⟨i, hi, hle⟩ := h.known r' hr' name i0 hk
    obtain ⟨j, hj, hle'⟩ := hmono name i hi
    exact ⟨j, hj, hle.trans hle'⟩
  · intro k g hk hg name hn
    obtain ⟨i0, i, h1, h2, hle⟩ := h.sent k g hk hg name hn
    obtain ⟨j, hj, hle'⟩ := hmono name i h2
    exact ⟨i0, j, h1, hj, hle.trans hle'⟩
  · intro r' hr' hi
    have hne : r' ≠ r := by rintro rfl; rw [hin] at hi; cases hi
    obtain ⟨c, k, hp⟩ := h.inColl r' hr' hi
    exact ⟨c, k, by show updRank W.procs r p' r' = _; rw [updRank_ne _ _ hne, hp]⟩
  · intro name ci ho
    exact (hother name ci (fun he => ho (he ▸ hr))).trans (h.free name ci ho)
  · intro r' hr'
    show updRank W.procs r p' r' = _
    have he : r' ≠ r := by rintro rfl; exact hr' hr
    rw [updRank_ne _ _ he]
    exact h.idle r' hr'

theorem Mid.rest (h : Mid own I ranks G res fin W m L kn) {r : Int} (hr : r ∈ ranks) (hp : ∀ c k, W.procs r ≠ .coll c k) :
    W.inside r = false := by
  cases hi : W.inside r with
  | false => rfl
  | true => obtain ⟨c, k, hc⟩ := h.inColl r hr hi; exact absurd hc (hp c k)

/-- Calling a collective. -/
theorem Mid.enter (h : Mid own I ranks G res fin W m L kn) {r : Int} (hr : r ∈ ranks) (hin : W.inside r = false)
    {c : Coll} {k : Option String → Prog α R} (hp : W.procs r = .coll c k) :
    Mid own I ranks G res fin { W with log := updRank W.log r (W.log r ++ [c]), inside := updRank W.inside r true } m L kn := by
  have hrun := h.runs r hr
  have hleft : W.left r = (W.log r).length := by simp [World.left, hin]
  rw [hp, hleft] at hrun
  have hg : ∃ g gs, G.drop (W.log r).length = g :: gs ∧ c.isBcast = g.coll.isBcast ∧
      (r = 0 → c = g.coll ∧ ∀ name, c = .bcast (some name) → g.info = (L r).infos name ∧ ((L r).infos name).isSome) := by
    generalize G.drop (W.log r).length = gs0 at hrun
    generalize m r = mr at hrun
    cases hrun with
    | @collRoot _ _ n _ _ gs g h1 h2 h3 h4 => exact ⟨g, gs, rfl, by rw [h2], fun _ => ⟨h2.symm, h3⟩⟩
    | @collOther _ _ n _ _ gs g h1 h2 h3 => exact ⟨g, gs, rfl, h2, fun h0 => absurd h0 h1⟩
  obtain ⟨g, gs, hdrop, hkind, hroot⟩ := hg
  have hlt : (W.log r).length < G.length := by
    by_contra hc
    rw [List.drop_eq_nil_of_le (by omega)] at hdrop
    cases hdrop
  have hGk : G[(W.log r).length]? = some g := by
    have := List.getElem?_drop (xs := G) (i := (W.log r).length) (j := 0)
    rw [hdrop] at this
    simpa using this.symm
  refine ⟨?_, h.mine, h.infos, h.known, ?_, ?_, ?_, ?_, ?_, h.free, h.idle⟩
  · intro r' hr'
    have : World.left { W with log := updRank W.log r (W.log r ++ [c]), inside := updRank W.inside r true } r' = W.left r' := by
      by_cases he : r' = r
      · subst he; simp [World.left, updRank_self, hin]
      · simp [World.left, updRank_ne _ _ he]
    rw [this]
    exact h.runs r' hr'
  · intro r' hr'
    by_cases he : r' = r
    · subst he; show (updRank W.log r' _ r').length ≤ _; rw [updRank_self]; simp; omega
    · show (updRank W.log r _ r').length ≤ _; rw [updRank_ne _ _ he]; exact h.lens r' hr'
  · intro r' hr' hi
    by_cases he : r' = r
    · subst he; show 0 < (updRank W.log r' _ r').length; rw [updRank_self]; simp
    · show 0 < (updRank W.log r _ r').length
      rw [updRank_ne _ _ he]
      refine h.pos r' hr' ?_
      have : updRank W.inside r true r' = true := hi
      rwa [updRank_ne _ _ he] at this
  · intro r' hr' j c' g' hc hG
    by_cases he : r' = r
    · subst he
      have hc : (updRank W.log r' (W.log r' ++ [c]) r')[j]? = some c' := hc
      rw [updRank_self] at hc
      by_cases hj : j < (W.log r').length
      · rw [List.getElem?_append_left hj] at hc
        exact h.logs r' hr' j c' g' hc hG
      · rw [List.getElem?_append_right (by omega)] at hc
        have hj' : j = (W.log r').length := by
          by_contra hne
          rw [List.getElem?_eq_none (by simp; omega)] at hc
          cases hc
        subst hj'
        simp only [Nat.sub_self, List.getElem?_cons_zero, Option.some.injEq] at hc
        subst hc
        rw [hGk] at hG
        cases hG
        exact ⟨hkind, fun h0 => (hroot h0).1⟩
    · have hc : (updRank W.log r (W.log r ++ [c]) r')[j]? = some c' := hc
      rw [updRank_ne _ _ he] at hc
      exact h.logs r' hr' j c' g' hc hG
  · intro j g' hj hG name hn
    by_cases he : r = 0
    · subst he
      have hj : j < (updRank W.log 0 (W.log 0 ++ [c]) 0).length := hj
      rw [updRank_self, List.length_append, List.length_singleton] at hj
      by_cases hj' : j < (W.log 0).length
      · exact h.sent j g' hj' hG name hn
      · have : j = (W.log 0).length := by omega
        subst this
        rw [hGk] at hG
        cases hG
        obtain ⟨hc, hrest⟩ := hroot rfl
        obtain ⟨h1, h2⟩ := hrest name (hc.trans hn)
        obtain ⟨i, hi⟩ := Option.isSome_iff_exists.1 h2
        exact ⟨i, i, h1.trans hi, by show W.store.infos name = _; rw [h.infos, hi], .refl i⟩
    · have hj : j < (updRank W.log r (W.log r ++ [c]) 0).length := hj
      rw [updRank_ne _ _ (Ne.symm he)] at hj
      exact h.sent j g' hj hG name hn
  · intro r' hr' hi
    by_cases he : r' = r
    · subst he; exact ⟨c, k, hp⟩
    · have : updRank W.inside r true r' = true := hi
      rw [updRank_ne _ _ he] at this
      exact h.inColl r' hr' this

/-- Returning from a collective. -/
theorem Mid.exit (h : Mid own I ranks G res fin W m L kn) (h0 : (0 : Int) ∈ ranks) {r : Int} (hr : r ∈ ranks)
    (hin : W.inside r = true) {c : Coll} {k : Option String → Prog α R} (hp : W.procs r = .coll c k)
    {buf : Nat → Bool} {x : Option String} (hx : W.leave buf ranks r = some x) :
    ∃ kn', Mid own I ranks G res fin { W with procs := updRank W.procs r (k x), inside := updRank W.inside r false }
      (updRank m r (m r - 2)) L kn' ∧ 2 ≤ m r := by
  have hrun := h.runs r hr
  have hpos := h.pos r hr hin
  have hleft : W.left r = (W.log r).length - 1 := by simp [World.left, hin]
  rw [hp, hleft] at hrun
  have hle := h.lens r hr
  have hG : ∃ g, G[(W.log r).length - 1]? = some g ∧ G.drop ((W.log r).length - 1) = g :: G.drop (W.log r).length := by
    have hlt : (W.log r).length - 1 < G.length := by omega
    refine ⟨G[(W.log r).length - 1], List.getElem?_eq_getElem hlt, ?_⟩
    rw [List.drop_eq_getElem_cons hlt, show (W.log r).length - 1 + 1 = (W.log r).length by omega]
  obtain ⟨g, hGk, hdrop⟩ := hG
  rw [hdrop] at hrun
  obtain ⟨cl, hcl⟩ : ∃ cl, (W.log r)[(W.log r).length - 1]? = some cl :=
    ⟨_, List.getElem?_eq_getElem (by omega)⟩
  have hk := h.logs r hr _ cl g hcl hGk
  -- the value received is what rank 0 sent
  have hxg : x = g.coll.payload := by
    unfold World.leave at hx
    simp only [hcl] at hx
    cases cl with
    | barrier =>
      simp only at hx
      split_ifs at hx
      cases hx
      have : g.coll = .barrier := by
        cases hgc : g.coll with
        | barrier => rfl
        | bcast p => rw [hgc] at hk; exact absurd hk.1 (by simp [Coll.isBcast])
      rw [this]; rfl
    | bcast p =>
      simp only at hx
      by_cases hr0 : r = 0
      · rw [if_pos hr0] at hx
        split_ifs at hx
        cases hx
        rw [← hk.2 hr0]; rfl
      · rw [if_neg hr0] at hx
        cases h1 : (W.log 0)[(W.log r).length - 1]? with
        | none => rw [h1] at hx; cases hx
        | some c0 =>
          rw [h1] at hx
          have h2 := (h.logs 0 h0 _ c0 g h1 hGk).2 rfl
          cases c0 with
          | barrier => cases hx
          | bcast q => cases hx; rw [← h2]; rfl
  -- what rank 0 has sent is in the store
  have hsent : r ≠ 0 → ∀ name, g.coll = .bcast (some name) →
      ∃ i0 i, g.info = some i0 ∧ W.store.infos name = some i ∧ i0.le i := by
    intro hr0 name hn
    refine h.sent _ g ?_ hGk name hn
    unfold World.leave at hx
    simp only [hcl] at hx
    cases cl with
    | barrier => rw [hn] at hk; exact absurd hk.1 (by simp [Coll.isBcast])
    | bcast p =>
      simp only at hx
      rw [if_neg hr0] at hx
      by_contra hc
      rw [List.getElem?_eq_none (by omega)] at hx
      cases hx
  have hcont : ∃ kn1, RunsI own (I r) r (· = res r) (fin r) (k x) (m r - 2) (L r) kn1 (G.drop (W.log r).length) ∧ 2 ≤ m r ∧
      ∀ name i0, (name, i0) ∈ kn1 → ∃ i, W.store.infos name = some i ∧ i0.le i := by
    rw [hxg]
    generalize G.drop (W.log r).length = gs0 at hrun ⊢
    generalize hm : m r = mr at hrun ⊢
    cases hrun with
    | @collRoot _ _ n _ _ gs g h1 h2 h3 h4 =>
      refine ⟨kn r, ?_, by omega, h.known r hr⟩
      rw [h2, Nat.add_sub_cancel]; exact h4
    | @collOther _ _ n _ _ gs g h1 h2 h3 =>
      refine ⟨g.learn (kn r), ?_, by omega, ?_⟩
      · rw [Nat.add_sub_cancel]; exact h3
      · intro name i0 hmem
        unfold GItem.learn at hmem
        split at hmem
        · rename_i nm i hc hi
          rcases List.mem_cons.1 hmem with he | hmem
          · cases he
            obtain ⟨j0, j, e1, e2, hle⟩ := hsent h1 name hc
            rw [hi] at e1
            cases e1
            exact ⟨j, e2, hle⟩
          · exact h.known r hr name i0 hmem
        · exact h.known r hr name i0 hmem
  obtain ⟨kn1, hrun1, hm2, hkn1⟩ := hcont
  refine ⟨updRank kn r kn1, ⟨?_, h.mine, h.infos, ?_, h.lens, ?_, h.logs, h.sent, ?_, h.free, ?_⟩, hm2⟩
  · intro r' hr'
    by_cases he : r' = r
    · subst he
      have : World.left { W with procs := updRank W.procs r' (k x), inside := updRank W.inside r' false } r' =
          (W.log r').length := by simp [World.left, updRank_self]
      rw [this]
      show RunsI own (I r') r' _ _ (updRank W.procs r' (k x) r') _ _ _ _
      rw [updRank_self, updRank_self, updRank_self]
      exact hrun1
    · have : World.left { W with procs := updRank W.procs r (k x), inside := updRank W.inside r false } r' =
          W.left r' := by simp [World.left, updRank_ne _ _ he]
      rw [this]
      show RunsI own (I r') r' _ _ (updRank W.procs r (k x) r') _ _ _ _
      rw [updRank_ne _ _ he, updRank_ne _ _ he, updRank_ne _ _ he]
      exact h.runs r' hr'
  · intro r' hr' name i0 hmem
    by_cases he : r' = r
    · subst he; rw [updRank_self] at hmem; exact hkn1 name i0 hmem
    · rw [updRank_ne _ _ he] at hmem; exact h.known r' hr' name i0 hmem
  · intro r' hr' hi
    have hi : updRank W.inside r false r' = true := hi
    have he : r' ≠ r := by rintro rfl; rw [updRank_self] at hi; cases hi
    rw [updRank_ne _ _ he] at hi
    exact h.pos r' hr' hi
  · intro r' hr' hi
    have hi : updRank W.inside r false r' = true := hi
    have he : r' ≠ r := by rintro rfl; rw [updRank_self] at hi; cases hi
    rw [updRank_ne _ _ he] at hi
    obtain ⟨c, k', hp'⟩ := h.inColl r' hr' hi
    exact ⟨c, k', by show updRank W.procs r (k x) r' = _; rw [updRank_ne _ _ he, hp']⟩
  · intro r' hr'
    show updRank W.procs r (k x) r' = _
    have he : r' ≠ r := by rintro rfl; exact hr' hr
    rw [updRank_ne _ _ he]
    exact h.idle r' hr'

/-- Every step of the world is a step of the runs. -/
theorem Mid.step (h : Mid own I ranks G res fin W m L kn) (h0 : (0 : Int) ∈ ranks) (hn : ranks.Nodup) {buf : Nat → Bool}
    {r : Int} {W' : World α R} (hs : W.step buf ranks r = some W') :
    ∃ m' L' kn', Mid own I ranks G res fin W' m' L' kn' ∧
      (ranks.map (W'.todo m')).sum + 1 = (ranks.map (W.todo m)).sum := by
  by_cases hr : r ∈ ranks
  swap
  · rw [World.step, h.idle r hr] at hs; cases hs
  have hrun := h.runs r hr
  have hsum : ∀ (p' : Prog α R) (S' : Store α) (n : Nat), W.inside r = false → m r = n + 1 →
      (ranks.map (World.todo { W with procs := updRank W.procs r p', store := S' } (updRank m r n))).sum + 1 =
        (ranks.map (W.todo m)).sum := by
    intro p' S' n hin hm
    refine sum_upd hn hr _ _ ?_ ?_
    · intro r' _ he; simp only [World.todo]; rw [updRank_ne _ _ he]
    · simp only [World.todo]; rw [updRank_self, hin, hm]; rfl
  cases hp : W.procs r with
  | ret a => rw [World.step, hp] at hs; cases hs
  | getInfo name k =>
    have hin : W.inside r = false := h.rest hr (by rw [hp]; intro _ _ hc; cases hc)
    rw [World.step, hp] at hs
    cases hs
    rw [hp] at hrun
    generalize hg : G.drop (W.left r) = gs0 at hrun
    generalize hm : m r = mr at hrun
    generalize hL : L r = Lr at hrun
    cases hrun with
    | @getInfoRoot _ _ n _ _ _ h1 h2 =>
      subst hL
      have he : W.store.infos name = (L r).infos name := by rw [h.infos, h1]
      refine ⟨_, _, _, h.own_step hr hin _ n (L r) W.store ?_ ?_ ?_ ?_ ?_, hsum _ _ n hin hm⟩
      · rw [he, hg]; exact h2
      · exact h.mine r hr
      · intro _ _ _; rfl
      · rw [if_pos h1, h.infos, h1]
      · intro nm i0 hi; exact ⟨i0, hi, .refl _⟩
    | @getInfoOther _ i0 _ n _ _ _ h1 hmem h2 =>
      subst hL
      obtain ⟨i, hi, hle⟩ := h.known r hr name i0 hmem
      refine ⟨_, _, _, h.own_step hr hin _ n (L r) W.store ?_ ?_ ?_ ?_ ?_, hsum _ _ n hin hm⟩
      · rw [hi, hg]; exact h2 i hle
      · exact h.mine r hr
      · intro _ _ _; rfl
      · rw [if_neg h1]
      · intro nm i0 hi; exact ⟨i0, hi, .refl _⟩
  | putInfo name i k =>
    have hin : W.inside r = false := h.rest hr (by rw [hp]; intro _ _ hc; cases hc)
    rw [World.step, hp] at hs
    cases hs
    rw [hp] at hrun
    generalize hg : G.drop (W.left r) = gs0 at hrun
    generalize hm : m r = mr at hrun
    generalize hL : L r = Lr at hrun
    cases hrun with
    | @putInfo _ _ _ n _ _ _ h1 hle h2 =>
      subst hL
      have he : W.store.infos = (L r).infos := by rw [h.infos, h1]
      refine ⟨_, _, _, h.own_step hr hin _ n ((L r).putInfo name i) (W.store.putInfo name i) ?_ ?_ ?_ ?_ ?_, hsum _ _ n hin hm⟩
      · rw [hg]; exact h2
      · exact h.mine r hr
      · intro _ _ _; rfl
      · rw [if_pos h1]; simp only [Store.putInfo]; rw [he]
      · intro nm i0 hi
        simp only [Store.putInfo]
        by_cases hnm : nm = name
        · subst hnm; rw [if_pos rfl]; exact ⟨i, rfl, hle i0 (by rw [← he]; exact hi)⟩
        · rw [if_neg hnm]; exact ⟨i0, hi, .refl _⟩
  | getChunk name ci k =>
    have hin : W.inside r = false := h.rest hr (by rw [hp]; intro _ _ hc; cases hc)
    rw [World.step, hp] at hs
    cases hs
    rw [hp] at hrun
    generalize hg : G.drop (W.left r) = gs0 at hrun
    generalize hm : m r = mr at hrun
    generalize hL : L r = Lr at hrun
    cases hrun with
    | @getChunk _ _ _ n _ _ _ h1 h2 =>
      subst hL
      refine ⟨_, _, _, h.own_step hr hin _ n (L r) W.store ?_ ?_ ?_ ?_ ?_, hsum _ _ n hin hm⟩
      · rw [h.mine r hr name ci h1, hg]; exact h2
      · exact h.mine r hr
      · intro _ _ _; rfl
      · split_ifs with h0
        · rw [h.infos, h0]
        · rfl
      · intro nm i0 hi; exact ⟨i0, hi, .refl _⟩
  | putChunk name ci c k =>
    have hin : W.inside r = false := h.rest hr (by rw [hp]; intro _ _ hc; cases hc)
    rw [World.step, hp] at hs
    cases hs
    rw [hp] at hrun
    generalize hg : G.drop (W.left r) = gs0 at hrun
    generalize hm : m r = mr at hrun
    generalize hL : L r = Lr at hrun
    cases hrun with
    | @putChunk _ _ _ _ n _ _ _ h1 h2 =>
      subst hL
      refine ⟨_, _, _, h.own_step hr hin _ n ((L r).putChunk name ci c) (W.store.putChunk name ci c) ?_ ?_ ?_ ?_ ?_,
        hsum _ _ n hin hm⟩
      · rw [hg]; exact h2
      · intro nm j ho; simp only [Store.putChunk]; rw [h.mine r hr nm j ho]
      · intro nm j ho
        simp only [Store.putChunk]
        rw [if_neg]
        rintro ⟨rfl, rfl⟩; exact ho h1
      · split_ifs with h0
        · simp only [Store.putChunk]; rw [h.infos, h0]
        · rfl
      · intro nm i0 hi; exact ⟨i0, hi, .refl _⟩
  | coll c k =>
    rw [World.step, hp] at hs
    simp only at hs
    by_cases hin : W.inside r = true
    · rw [if_pos hin] at hs
      cases hx : W.leave buf ranks r with
      | none => rw [hx] at hs; cases hs
      | some x =>
        rw [hx] at hs
        cases hs
        obtain ⟨kn', hmid, hm2⟩ := h.exit h0 hr hin hp hx
        refine ⟨_, _, kn', hmid, sum_upd hn hr _ _ ?_ ?_⟩
        · intro r' _ he; simp only [World.todo]; rw [updRank_ne _ _ he, updRank_ne _ _ he]
        · simp only [World.todo]; rw [updRank_self, updRank_self, hin]; simp; omega
    · rw [if_neg hin] at hs
      cases hs
      have hin : W.inside r = false := by simpa using hin
      have hm2 : 2 ≤ m r := by
        rw [hp] at hrun
        generalize G.drop (W.left r) = gs0 at hrun
        generalize m r = mr at hrun ⊢
        cases hrun <;> omega
      refine ⟨_, _, _, h.enter hr hin hp, sum_upd hn hr _ _ ?_ ?_⟩
      · intro r' _ he; simp only [World.todo]; rw [updRank_ne _ _ he]
      · simp only [World.todo]; rw [updRank_self, hin]; simp; omega

theorem exists_least (l : List Int) (P : Int → Prop) [DecidablePred P] (f : Int → Nat) (h : ∃ r ∈ l, P r) :
    ∃ r ∈ l, P r ∧ ∀ r' ∈ l, P r' → f r ≤ f r' := by
  induction l with
  | nil => obtain ⟨r, hr, _⟩ := h; cases hr
  | cons a l ih =>
    by_cases hl : ∃ r ∈ l, P r
    · obtain ⟨r, hr, hP, hmin⟩ := ih hl
      by_cases ha : P a ∧ f a ≤ f r
      · refine ⟨a, List.mem_cons_self, ha.1, ?_⟩
        intro r' hr' hP'
        rcases List.mem_cons.1 hr' with rfl | hr'
        · exact Nat.le_refl _
        · exact Nat.le_trans ha.2 (hmin r' hr' hP')
      · refine ⟨r, List.mem_cons_of_mem _ hr, hP, ?_⟩
        intro r' hr' hP'
        rcases List.mem_cons.1 hr' with rfl | hr'
        · by_contra hc; exact ha ⟨hP', by omega⟩
        · exact hmin r' hr' hP'
    · obtain ⟨r, hr, hP⟩ := h
      rcases List.mem_cons.1 hr with rfl | hr
      · refine ⟨r, List.mem_cons_self, hP, ?_⟩
        intro r' hr' hP'
        rcases List.mem_cons.1 hr' with rfl | hr'
        · exact Nat.le_refl _
        · exact absurd ⟨r', hr', hP'⟩ hl
      · exact absurd ⟨r, hr, hP⟩ hl

/-- Either all ranks are finished or one can go on. -/
theorem Mid.progress (h : Mid own I ranks G res fin W m L kn) (h0 : (0 : Int) ∈ ranks) (buf : Nat → Bool) :
    (∀ r ∈ ranks, W.procs r = .ret (res r) ∧ fin r = L r) ∨ ∃ r W', W.step buf ranks r = some W' := by
  by_cases hA : ∃ r, (∃ W', W.step buf ranks r = some W')
  · obtain ⟨r, W', hs⟩ := hA; exact .inr ⟨r, W', hs⟩
  refine .inl ?_
  have hstuck : ∀ r, W.step buf ranks r = none := by
    intro r
    cases hs : W.step buf ranks r with
    | none => rfl
    | some W' => exact absurd ⟨r, W', hs⟩ hA
  -- nobody is in a collective
  have hnot : ¬ ∃ r ∈ ranks, W.inside r = true := by
    intro hex
    obtain ⟨r, hr, hin, hmin⟩ := exists_least ranks (fun r => W.inside r = true) (fun r => (W.log r).length) hex
    have hpos := h.pos r hr hin
    have hlen : ∀ r' ∈ ranks, (W.log r).length ≤ (W.log r').length := by
      intro r' hr'
      by_cases hin' : W.inside r' = true
      · exact hmin r' hr' hin'
      · have hin'' : W.inside r' = false := by simpa using hin'
        have hs := hstuck r'
        have hrun := h.runs r' hr'
        rw [World.step] at hs
        cases hp : W.procs r' with
        | ret a =>
          rw [hp] at hrun
          have hleft : W.left r' = (W.log r').length := by simp [World.left, hin'']
          rw [hleft] at hrun
          generalize hg : G.drop (W.log r').length = gs0 at hrun
          generalize m r' = mr at hrun
          generalize L r' = Lr at hrun
          cases hrun
          have := List.drop_eq_nil_iff.1 hg
          have := h.lens r hr
          omega
        | getInfo name k => rw [hp] at hs; cases hs
        | putInfo name i k => rw [hp] at hs; cases hs
        | getChunk name ci k => rw [hp] at hs; cases hs
        | putChunk name ci c k => rw [hp] at hs; cases hs
        | coll c k => rw [hp] at hs; simp only [hin''] at hs; cases hs
    have hlt : (W.log r).length - 1 < G.length := by have := h.lens r hr; omega
    have hGk : G[(W.log r).length - 1]? = some G[(W.log r).length - 1] := List.getElem?_eq_getElem hlt
    have hlog : ∀ r' ∈ ranks, ∃ c, (W.log r')[(W.log r).length - 1]? = some c ∧
        c.isBcast = (G[(W.log r).length - 1]).coll.isBcast ∧ (r' = 0 → c = (G[(W.log r).length - 1]).coll) := by
      intro r' hr'
      have := hlen r' hr'
      have hc : (W.log r')[(W.log r).length - 1]? = some ((W.log r')[(W.log r).length - 1]'(by omega)) :=
        List.getElem?_eq_getElem _
      exact ⟨_, hc, h.logs r' hr' _ _ _ hc hGk⟩
    obtain ⟨c, k, hp⟩ := h.inColl r hr hin
    have hs := hstuck r
    rw [World.step, hp] at hs
    simp only [hin, if_true] at hs
    have hleave : W.leave buf ranks r ≠ none := by
      obtain ⟨cr, hcr, hkind, _⟩ := hlog r hr
      unfold World.leave
      simp only [hcr]
      cases cr with
      | barrier =>
        simp only
        rw [if_pos]
        · simp
        · rw [List.all_eq_true]
          intro r' hr'
          obtain ⟨c', hc', hk', _⟩ := hlog r' hr'
          rw [hc']
          rw [← hkind] at hk'
          cases c' with
          | barrier => rfl
          | bcast p => cases hk'
      | bcast p =>
        simp only
        by_cases hr0 : r = 0
        · rw [if_pos hr0, if_pos]
          · simp
          · right
            rw [List.all_eq_true]
            intro r' hr'
            obtain ⟨c', hc', hk', _⟩ := hlog r' hr'
            rw [hc']
            rw [← hkind] at hk'
            cases c' with
            | barrier => cases hk'
            | bcast p => rfl
        · rw [if_neg hr0]
          obtain ⟨c', hc', hk', _⟩ := hlog 0 h0
          rw [hc']
          rw [← hkind] at hk'
          cases c' with
          | barrier => cases hk'
          | bcast p => simp
    cases hx : W.leave buf ranks r with
    | none => exact hleave hx
    | some x => rw [hx] at hs; cases hs
  intro r hr
  have hin : W.inside r = false := by
    cases hi : W.inside r with
    | false => rfl
    | true => exact absurd ⟨r, hr, hi⟩ hnot
  have hs := hstuck r
  have hrun := h.runs r hr
  rw [World.step] at hs
  cases hp : W.procs r with
  | ret a =>
    rw [hp] at hrun
    generalize G.drop (W.left r) = gs0 at hrun
    generalize m r = mr at hrun
    generalize hL : L r = Lr at hrun
    cases hrun with
    | ret hq => exact ⟨by rw [hq], rfl⟩
  | getInfo name k => rw [hp] at hs; cases hs
  | putInfo name i k => rw [hp] at hs; cases hs
  | getChunk name ci k => rw [hp] at hs; cases hs
  | putChunk name ci c k => rw [hp] at hs; cases hs
  | coll c k => rw [hp] at hs; simp only [hin] at hs; cases hs

/-- The store when each rank has left its own chunks as in `fin r`, and rank 0 the metadata. -/
def joint (own : String → List Nat → Int) (ranks : List Int) (fin : Int → Store α) : Store α :=
  ⟨(fin 0).infos, fun name ci => if own name ci ∈ ranks then (fin (own name ci)).chunks name ci else none⟩

theorem Mid.run (h0 : (0 : Int) ∈ ranks) (hn : ranks.Nodup) {buf : Nat → Bool} :
    ∀ (sched : List Int) (W : World α R) (m : Int → Nat) (L : Int → Store α) (kn : Int → Known) (W' : World α R),
    Mid own I ranks G res fin W m L kn → W.run buf ranks sched = some W' →
    ∃ m' L' kn', Mid own I ranks G res fin W' m' L' kn' ∧
      (ranks.map (W'.todo m')).sum + sched.length = (ranks.map (W.todo m)).sum
  | [], W, m, L, kn, W', h, hr => by cases hr; exact ⟨m, L, kn, h, rfl⟩
  | r :: rs, W, m, L, kn, W', h, hr => by
    rw [World.run] at hr
    cases hs : W.step buf ranks r with
    | none => rw [hs] at hr; cases hr
    | some W1 =>
      rw [hs] at hr
      obtain ⟨m1, L1, kn1, hmid, hsum⟩ := h.step h0 hn hs
      obtain ⟨m2, L2, kn2, hmid2, hsum2⟩ := Mid.run h0 hn rs W1 m1 L1 kn1 W' hmid hr
      exact ⟨m2, L2, kn2, hmid2, by rw [List.length_cons]; omega⟩

theorem Mid.finish (h0 : (0 : Int) ∈ ranks) (hn : ranks.Nodup) (buf : Nat → Bool) :
    ∀ (n : Nat) (W : World α R) (m : Int → Nat) (L : Int → Store α) (kn : Int → Known),
    (ranks.map (W.todo m)).sum = n → Mid own I ranks G res fin W m L kn →
    ∃ sched W', W.run buf ranks sched = some W' ∧ (∀ r, W'.procs r = .ret (res r)) ∧
      W'.store = joint own ranks fin ∧ sched.length = n := by
  intro n
  induction n with
  | zero =>
    intro W m L kn hsum h
    rcases h.progress h0 buf with hdone | ⟨r, W1, hs⟩
    · refine ⟨[], W, rfl, ?_, ?_, rfl⟩
      · intro r
        by_cases hr : r ∈ ranks
        · exact (hdone r hr).1
        · exact h.idle r hr
      · have h1 : W.store.infos = (fin 0).infos := by rw [h.infos, (hdone 0 h0).2]
        have h2 : W.store.chunks = (joint own ranks fin).chunks := by
          funext name ci
          simp only [joint]
          split_ifs with ho
          · rw [h.mine _ ho name ci rfl, (hdone _ ho).2]
          · exact h.free name ci ho
        cases hS : W.store with
        | mk a b => rw [hS] at h1 h2; simp only at h1 h2; rw [h1, h2]; rfl
    · obtain ⟨_, _, _, _, hs'⟩ := h.step h0 hn hs
      omega
  | succ n ih =>
    intro W m L kn hsum h
    rcases h.progress h0 buf with hdone | ⟨r, W1, hs⟩
    · exfalso
      have : ∀ r ∈ ranks, W.todo m r = 0 := by
        intro r hr
        have hrun := h.runs r hr
        rw [(hdone r hr).1] at hrun
        generalize G.drop (W.left r) = gs0 at hrun
        generalize hm : m r = mr at hrun
        generalize L r = Lr at hrun
        cases hrun
        simp [World.todo, hm]
      have hz := sum_zero ranks _ this
      omega
    · obtain ⟨m1, L1, kn1, hmid, hs'⟩ := h.step h0 hn hs
      obtain ⟨sched, W', hrun, hp, hst, hlen⟩ := ih W1 m1 L1 kn1 (by omega) hmid
      exact ⟨r :: sched, W', by rw [World.run, hs]; exact hrun, hp, hst, by rw [List.length_cons, hlen]⟩

theorem Mid.start {procs : Int → Prog α R} {S0 : Store α} {n : Int → Nat}
    (hruns : ∀ r ∈ ranks, RunsI own (I r) r (· = res r) (fin r) (procs r) (n r) S0 [] G)
    (hidle : ∀ r, r ∉ ranks → procs r = .ret (res r))
    (hfree : ∀ name ci, own name ci ∉ ranks → S0.chunks name ci = none) :
    Mid own I ranks G res fin (World.start procs S0) n (fun _ => S0) (fun _ => []) := by
  refine ⟨?_, ?_, rfl, ?_, ?_, ?_, ?_, ?_, ?_, hfree, hidle⟩
  · intro r hr; exact hruns r hr
  · intro _ _ _ _ _; rfl
  · intro _ _ _ _ hc; cases hc
  · intro _ _; exact Nat.zero_le _
  · intro _ _ hc; cases hc
  · intro _ _ k c g hc; simp [World.start] at hc
  · intro k g hk; simp [World.start] at hk
  · intro _ _ hc; cases hc

/-- Ranks which own what they use: every schedule ends in the same store. -/
theorem completes_of_runs (buf : Nat → Bool) (procs : Int → Prog α R) (S0 : Store α) (n : Int → Nat)
    (h0 : (0 : Int) ∈ ranks) (hn : ranks.Nodup)
    (hruns : ∀ r ∈ ranks, RunsI own (I r) r (· = res r) (fin r) (procs r) (n r) S0 [] G)
    (hidle : ∀ r, r ∉ ranks → procs r = .ret (res r))
    (hfree : ∀ name ci, own name ci ∉ ranks → S0.chunks name ci = none) :
    (World.start procs S0).Completes buf ranks res (joint own ranks fin) := by
  have hmid := Mid.start (S0 := S0) hruns hidle hfree
  refine ⟨(ranks.map ((World.start procs S0).todo n)).sum, ?_⟩
  intro sched A hA
  obtain ⟨m', L', kn', hmid', hsum⟩ := Mid.run h0 hn sched _ _ _ _ A hmid hA
  obtain ⟨sched', T, hT, hp, hst, hlen⟩ := Mid.finish h0 hn buf _ A m' L' kn' rfl hmid'
  exact ⟨sched', T, hT, hp, hst, by omega⟩

/-- Ranks which own what they use: nobody touches what belongs to somebody else. -/
theorem owner_of_access {buf : Nat → Bool} {procs : Int → Prog α R} {S0 : Store α} {n : Int → Nat}
    (h0 : (0 : Int) ∈ ranks) (hn : ranks.Nodup)
    (hruns : ∀ r ∈ ranks, RunsI own (I r) r (· = res r) (fin r) (procs r) (n r) S0 [] G)
    (hidle : ∀ r, r ∉ ranks → procs r = .ret (res r))
    (hfree : ∀ name ci, own name ci ∉ ranks → S0.chunks name ci = none) {sched : List Int} {A : World α R}
    (hA : (World.start procs S0).run buf ranks sched = some A) {r : Int} {name : String} {ci : List Nat}
    (h : A.Accesses r name ci) : own name ci = r := by
  obtain ⟨m', L', kn', hmid, -⟩ := Mid.run h0 hn sched _ _ _ _ A (Mid.start (S0 := S0) hruns hidle hfree) hA
  by_cases hr : r ∈ ranks
  · have hrun := hmid.runs r hr
    generalize G.drop (A.left r) = gs0 at hrun
    generalize m' r = mr at hrun
    generalize L' r = Lr at hrun
    rcases h with ⟨k, hk⟩ | ⟨c, k, hk⟩
    · rw [hk] at hrun; cases hrun; assumption
    · rw [hk] at hrun; cases hrun; assumption
  · have := hmid.idle r hr
    rcases h with ⟨k, hk⟩ | ⟨c, k, hk⟩ <;> rw [hk] at this <;> cases this

end

end Zarr
end FV3
