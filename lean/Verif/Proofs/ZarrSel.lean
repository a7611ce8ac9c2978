import Verif.Proofs.ZarrRun
import Verif.Proofs.Place

/-!
# Storing a selection: which chunks change, and how
-/

namespace FV3
namespace Zarr
variable {α R : Type}

theorem mem_boxIdx : ∀ (box : List (Nat × Nat)) (idx : List Nat),
    idx ∈ boxIdx box ↔ idx.length = box.length ∧
      ∀ k, k < box.length → (box.getD k (0, 0)).1 ≤ idx.getD k 0 ∧ idx.getD k 0 < (box.getD k (0, 0)).2
  | [], idx => by
    cases idx with
    | nil => simp [boxIdx]
    | cons a l => simp [boxIdx]
  | (a, b) :: box, [] => by simp [boxIdx]
  | (a, b) :: box, i :: idx => by
    have ih := mem_boxIdx box idx
    simp only [boxIdx, List.mem_flatMap, List.mem_map, List.mem_range, List.cons.injEq, List.length_cons]
    constructor
    · rintro ⟨j, ⟨m, hm, rfl⟩, idx', hmem, rfl, rfl⟩
      obtain ⟨h1, h2⟩ := ih.1 hmem
      refine ⟨by omega, ?_⟩
      intro k hk
      cases k with
      | zero => simp; omega
      | succ k => simpa using h2 k (by omega)
    · rintro ⟨h1, h2⟩
      have h0 := h2 0 (by omega)
      simp only [List.getD_cons_zero] at h0
      refine ⟨i, ⟨i - a, by omega, by omega⟩, idx, ih.2 ⟨by omega, ?_⟩, rfl, rfl⟩
      intro k hk
      simpa using h2 (k + 1) (by omega)

theorem inBox_iff : ∀ (box : List (Nat × Nat)) (idx : List Nat), idx.length = box.length →
    (inBox box idx = true ↔ ∀ k, k < box.length →
      (box.getD k (0, 0)).1 ≤ idx.getD k 0 ∧ idx.getD k 0 < (box.getD k (0, 0)).2)
  | [], idx, h => by simp [inBox]
  | (a, b) :: box, [], h => by simp at h
  | (a, b) :: box, i :: idx, h => by
    have ih := inBox_iff box idx (by simpa using h)
    have : inBox ((a, b) :: box) (i :: idx) = true ↔ (a ≤ i ∧ i < b) ∧ inBox box idx = true := by
      simp [inBox]
    rw [this, ih, List.length_cons]
    constructor
    · rintro ⟨h1, h2⟩ k hk
      cases k with
      | zero => simpa using h1
      | succ k => simpa using h2 k (by omega)
    · intro h
      refine ⟨by simpa using h 0 (by omega), ?_⟩
      intro k hk
      simpa using h (k + 1) (by omega)

theorem mem_boxIdx_iff (box : List (Nat × Nat)) (idx : List Nat) :
    idx ∈ boxIdx box ↔ idx.length = box.length ∧ inBox box idx = true := by
  rw [mem_boxIdx]
  constructor
  · rintro ⟨h1, h2⟩; exact ⟨h1, (inBox_iff box idx h1).2 h2⟩
  · rintro ⟨h1, h2⟩; exact ⟨h1, (inBox_iff box idx h1).1 h2⟩

/-- The chunk of an index. -/
def chunkOf (chunks idx : List Nat) : List Nat := List.zipWith (· / ·) idx chunks
/-- The place of an index in its chunk. -/
def within (chunks idx : List Nat) : List Nat := List.zipWith (· % ·) idx chunks

theorem chunkOf_within (chunks idx : List Nat) (h : idx.length = chunks.length) :
    List.zipWith (· + ·) (List.zipWith (· * ·) (chunkOf chunks idx) chunks) (within chunks idx) = idx := by
  unfold chunkOf within
  induction idx generalizing chunks with
  | nil => simp
  | cons i idx ih =>
    cases chunks with
    | nil => simp at h
    | cons c chunks =>
      simp only [List.zipWith_cons_cons]
      rw [ih chunks (by simpa using h)]
      congr 1
      rw [Nat.mul_comm]; exact Nat.div_add_mod i c

theorem chunkOf_mem (box : List (Nat × Nat)) (chunks idx : List Nat) (hl : box.length = chunks.length)
    (h : idx ∈ boxIdx box) : chunkOf chunks idx ∈ boxIdx (chunkBox box chunks) := by
  induction box generalizing chunks idx with
  | nil =>
    rw [mem_boxIdx] at h
    have : idx = [] := List.eq_nil_of_length_eq_zero (by simpa using h.1)
    subst this
    simp [chunkOf, chunkBox, boxIdx]
  | cons b box ih =>
    obtain ⟨a, b⟩ := b
    cases chunks with
    | nil => simp at hl
    | cons c chunks =>
      simp only [boxIdx, List.mem_flatMap, List.mem_map, List.mem_range] at h
      obtain ⟨j, ⟨m, hm, rfl⟩, idx', hmem, rfl⟩ := h
      have := ih chunks idx' (by simpa using hl) hmem
      simp only [chunkOf, chunkBox, List.zipWith_cons_cons, boxIdx, List.mem_flatMap, List.mem_map, List.mem_range]
      have h1 : a / c ≤ (a + m) / c := Nat.div_le_div_right (by omega)
      have h2 : (a + m) / c ≤ (b - 1) / c := Nat.div_le_div_right (by omega)
      exact ⟨_, ⟨(a + m) / c - a / c, by omega, by omega⟩, _, this, rfl⟩

/-- The array has value `v` at `idx`. -/
def Holds (L : Store α) (name : String) (chunks idx : List Nat) (v : α) : Prop :=
  ∃ c, L.chunks name (chunkOf chunks idx) = some c ∧ c (within chunks idx) = v

/-- What `storeChunks` does to the store. -/
def putChunks (junk : List Nat → α) (h : Handle) (box : List (Nat × Nat)) (nInts : Nat) (value : NDArray α) :
    List (List Nat) → Store α → Store α
  | [], L => L
  | ci :: cis, L => putChunks junk h box nInts value cis
      (L.putChunk h.name ci (mergeChunk h.chunks box nInts value ci ((L.chunks h.name ci).getD junk)))

theorem WM.getChunk_bind {A : Type} (name : String) (ci : List Nat) (f : Option (List Nat → α) → WM α A) (w : Writer) :
    (WM.getChunk name ci >>= f) w = .getChunk name ci fun x => f x w := rfl
theorem WM.putChunk_bind {A : Type} (name : String) (ci : List Nat) (c : List Nat → α) (f : Unit → WM α A) (w : Writer) :
    (WM.putChunk name ci c >>= f) w = .putChunk name ci c (f () w) := rfl

theorem storeChunks_runs {own : String → List Nat → Int} {r : Int} (junk : List Nat → α) (h : Handle)
    (box : List (Nat × Nat)) (nInts : Nat) (value : NDArray α) (w : Writer) (kn : Known) :
    ∀ (cis : List (List Nat)) (L : Store α), (∀ ci ∈ cis, own h.name ci = r) →
    Runs own r (· = (.ok (), w)) (putChunks junk h box nInts value cis L)
      (storeChunks junk h box nInts value cis w) (2 * cis.length) L kn []
  | [], L, _ => .ret rfl
  | ci :: cis, L, ho => by
    rw [storeChunks, WM.getChunk_bind, List.length_cons, show 2 * (cis.length + 1) = (2 * cis.length + 1) + 1 by omega]
    refine .getChunk (ho ci List.mem_cons_self) ?_
    rw [WM.putChunk_bind]
    refine .putChunk (ho ci List.mem_cons_self) ?_
    exact storeChunks_runs junk h box nInts value w kn cis _ fun x hx => ho x (List.mem_cons_of_mem _ hx)

/-- Storing into one chunk is one step. -/
theorem storeChunk_runs {own : String → List Nat → Int} {J : Store α → Prop} {r : Int} (junk : List Nat → α)
    (h : Handle) (box : List (Nat × Nat)) (nInts : Nat) (value : NDArray α) (w : Writer) (kn : Known) (ci : List Nat)
    (L : Store α) (ho : own h.name ci = r) (h0 : J L) (h1 : J (putChunks junk h box nInts value [ci] L)) :
    RunsI own (fun L _ => J L) r (· = (.ok (), w)) (putChunks junk h box nInts value [ci] L)
      (storeChunks junk h box nInts value [ci] w) 2 L kn [] := by
  have : ∀ g, Sat (fun L _ => J L) L g := fun _ => ⟨h0⟩
  have : ∀ g, Sat (fun L _ => J L) (putChunks junk h box nInts value [ci] L) g := fun _ => ⟨h1⟩
  rw [storeChunks, WM.getChunk_bind]
  refine .getChunk ho ?_
  rw [WM.putChunk_bind]
  exact .putChunk ho (.ret rfl)

section
variable (junk : List Nat → α) (h : Handle) (box : List (Nat × Nat)) (nInts : Nat) (value : NDArray α)

theorem putChunks_infos : ∀ (cis : List (List Nat)) (L : Store α),
    (putChunks junk h box nInts value cis L).infos = L.infos
  | [], _ => rfl
  | ci :: cis, L => by rw [putChunks, putChunks_infos cis]; rfl

theorem putChunks_other : ∀ (cis : List (List Nat)) (L : Store α) (name : String) (ci : List Nat),
    name ≠ h.name ∨ ci ∉ cis → (putChunks junk h box nInts value cis L).chunks name ci = L.chunks name ci
  | [], _, _, _, _ => rfl
  | cj :: cis, L, name, ci, hne => by
    rw [putChunks, putChunks_other cis _ name ci (hne.imp_right fun h => fun hm => h (List.mem_cons_of_mem _ hm))]
    simp only [Store.putChunk]
    rw [if_neg]
    rintro ⟨rfl, rfl⟩
    rcases hne with hne | hne
    · exact hne rfl
    · exact hne List.mem_cons_self

theorem putChunks_keep (ci : List Nat) (loc : List Nat)
    (hout : inBox box (List.zipWith (· + ·) (List.zipWith (· * ·) ci h.chunks) loc) = false) :
    ∀ (cis : List (List Nat)) (L : Store α) (v : α), (∃ c, L.chunks h.name ci = some c ∧ c loc = v) →
    ∃ c, (putChunks junk h box nInts value cis L).chunks h.name ci = some c ∧ c loc = v
  | [], _, _, hc => hc
  | cj :: cis, L, v, hc => by
    rw [putChunks]
    refine putChunks_keep ci loc hout cis _ v ?_
    obtain ⟨c, h1, h2⟩ := hc
    simp only [Store.putChunk]
    by_cases he : ci = cj
    · subst he
      rw [if_pos ⟨trivial, rfl⟩, h1]
      refine ⟨_, rfl, ?_⟩
      simp only [mergeChunk, hout]
      simpa using h2
    · rw [if_neg (fun hh => he hh.2)]
      exact ⟨c, h1, h2⟩

theorem putChunks_new (ci : List Nat) (loc : List Nat)
    (hin : inBox box (List.zipWith (· + ·) (List.zipWith (· * ·) ci h.chunks) loc) = true) :
    ∀ (cis : List (List Nat)) (L : Store α),
    (ci ∈ cis ∨ ∃ c, L.chunks h.name ci = some c ∧ c loc = value.get ((List.zipWith (· - ·)
      (List.zipWith (· + ·) (List.zipWith (· * ·) ci h.chunks) loc) (box.map (·.1))).drop nInts)) →
    ∃ c, (putChunks junk h box nInts value cis L).chunks h.name ci = some c ∧ c loc =
      value.get ((List.zipWith (· - ·) (List.zipWith (· + ·) (List.zipWith (· * ·) ci h.chunks) loc)
        (box.map (·.1))).drop nInts)
  | [], _, hc => by
    rcases hc with hc | hc
    · cases hc
    · exact hc
  | cj :: cis, L, hc => by
    rw [putChunks]
    refine putChunks_new ci loc hin cis _ ?_
    by_cases he : ci = cj
    · subst he
      right
      simp only [Store.putChunk]
      rw [if_pos ⟨trivial, trivial⟩]
      refine ⟨_, rfl, ?_⟩
      simp only [mergeChunk, hin, if_true]
    · rcases hc with hc | hc
      · rcases List.mem_cons.1 hc with hc | hc
        · exact absurd hc he
        · exact .inl hc
      · right
        simp only [Store.putChunk]
        rw [if_neg (fun hh => he hh.2)]
        exact hc

/-- The selected elements have the new values. -/
theorem holds_new (L : Store α) (hl : box.length = h.chunks.length) {idx : List Nat} (hi : idx ∈ boxIdx box) :
    Holds (putChunks junk h box nInts value (boxIdx (chunkBox box h.chunks)) L) h.name h.chunks idx
      (value.get ((List.zipWith (· - ·) idx (box.map (·.1))).drop nInts)) := by
  have hlen : idx.length = h.chunks.length := by rw [((mem_boxIdx box idx).1 hi).1, hl]
  have hcw := chunkOf_within h.chunks idx hlen
  have := putChunks_new junk h box nInts value (chunkOf h.chunks idx) (within h.chunks idx)
    (by rw [hcw]; exact ((mem_boxIdx_iff box idx).1 hi).2) (boxIdx (chunkBox box h.chunks)) L
    (.inl (chunkOf_mem box h.chunks idx hl hi))
  rw [hcw] at this
  exact this

/-- The others keep theirs. -/
theorem holds_keep {L : Store α} {cis : List (List Nat)} {idx : List Nat} (hlen : idx.length = h.chunks.length)
    (hi : inBox box idx = false) {v : α} (hv : Holds L h.name h.chunks idx v) :
    Holds (putChunks junk h box nInts value cis L) h.name h.chunks idx v :=
  putChunks_keep junk h box nInts value (chunkOf h.chunks idx) (within h.chunks idx)
    (by rw [chunkOf_within h.chunks idx hlen]; exact hi) cis L v hv

end

end Zarr
end FV3
