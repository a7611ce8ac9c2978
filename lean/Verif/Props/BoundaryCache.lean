import Verif.Proofs.BoundaryCache
import Verif.Props.Boundary

/-!
# C11: memoised boundaries are immune to mutation
-/

namespace FV3

theorem binv_held {l : Layout} {s : BSt} (h : BInv l s) {a : Nat} {B : Boundary}
    (hb : s.heap[a]? = some B) (hn : ¬ s.Cached a) : BInv l { s with held := a :: s.held } := by
  refine ⟨h.tile, h.cubeN, h.cubeS, ?_⟩
  intro k hk
  rcases List.mem_cons.1 hk with rfl | hk
  · exact ⟨hn, (List.getElem?_eq_some_iff.1 hb).1⟩
  · exact h.held k hk

/-- What a freshly created partitioner returns for the same call. -/
def freshAnswer (l : Layout) : BEvent → Option (Py (Option Boundary))
  | .tile b r => some (.ok (some (Tile.boundary l b r)))
  | .cube b r => some (Cube.boundary l b r)
  | .mutate _ _ => none
  | .cacheClear => none

theorem bstep_spec {l : Layout} {s : BSt} (h : BInv l s) (e : BEvent) :
    (bstep l s e).1 = freshAnswer l e ∧ BInv l (bstep l s e).2 ∧
    (∀ a ∈ s.held, (∀ v, e ≠ .mutate a v) → (bstep l s e).2.heap[a]? = s.heap[a]?) ∧
    ((bstep l s e).2.held = s.held ∨ ∃ a, a ∉ s.held ∧ (bstep l s e).2.held = a :: s.held) := by
  cases e with
  | tile b r =>
    obtain ⟨s', hi, he, a, hm, h1, h2, h3⟩ := obtains_tile (l := l) b r s h
    simp only [bstep, hm, h1, freshAnswer]
    refine ⟨trivial, binv_held hi h1 h3, fun k hk _ => he.same k (h.held k hk).2, Or.inr ⟨a, ?_, ?_⟩⟩
    · intro hk; have := (h.held a hk).2; omega
    · rw [he.held]
  | cube b r =>
    obtain ⟨s', hi, he, hm⟩ := obtains_cube (l := l) b r s h
    simp only [bstep, freshAnswer]
    cases hp : Cube.boundary l b r with
    | error x =>
      rw [hp] at hm
      simp only [hm]
      exact ⟨trivial, hi, fun k hk _ => he.same k (h.held k hk).2, Or.inl he.held⟩
    | ok o =>
      rw [hp] at hm
      cases o with
      | none =>
        dsimp only at hm
        simp only [hm]
        exact ⟨trivial, hi, fun k hk _ => he.same k (h.held k hk).2, Or.inl he.held⟩
      | some B =>
        obtain ⟨a, hm, h1, h2, h3⟩ := hm
        simp only [hm, h1]
        refine ⟨trivial, binv_held hi h1 h3, fun k hk _ => he.same k (h.held k hk).2,
          Or.inr ⟨a, ?_, ?_⟩⟩
        · intro hk; have := (h.held a hk).2; omega
        · rw [he.held]
  | mutate a v =>
    simp only [bstep, freshAnswer]
    refine ⟨trivial, ?_, ?_, ?_⟩
    · split
      · next ha => exact inv_set h a v (h.held a ha).1
      · exact h
    · intro k hk hne
      split
      · show (s.heap.set a v)[k]? = _
        rw [List.getElem?_set_ne]
        rintro rfl; exact hne v rfl
      · rfl
    · split <;> exact Or.inl rfl
  | cacheClear =>
    refine ⟨rfl, ⟨?_, ?_, ?_, ?_⟩, fun _ _ _ => rfl, Or.inl rfl⟩
    · intro b r a hm; simp [bstep] at hm
    · intro b r hm; simp [bstep] at hm
    · intro b r a hm; simp [bstep] at hm
    · intro k hk
      refine ⟨?_, (h.held k hk).2⟩
      rintro (⟨_, hkk⟩ | ⟨_, hkk⟩) <;> simp [bstep] at hkk

theorem binit_inv (l : Layout) : BInv l BSt.init := by
  refine ⟨?_, ?_, ?_, ?_⟩ <;> simp [BSt.init]

theorem bafter_inv {l : Layout} (es : List BEvent) {s : BSt} (h : BInv l s) :
    BInv l (bafter l s es) := by
  induction es generalizing s with
  | nil => exact h
  | cons e es ih => exact ih (bstep_spec h e).2.1

/-- **C11**: whatever calls were made before and however callers overwrote the objects they
were given, every call returns what a fresh partitioner would return. -/
theorem C11_memo_transparent (l : Layout) (es : List BEvent) :
    brun l BSt.init es = es.map (freshAnswer l) := by
  suffices ∀ s, BInv l s → brun l s es = es.map (freshAnswer l) from this _ (binit_inv l)
  induction es with
  | nil => intro s _; rfl
  | cons e es ih =>
    intro s h
    simp only [brun, List.map_cons, (bstep_spec h e).1, ih _ (bstep_spec h e).2.1]

/-- **C11**: an object a caller holds never changes unless the caller overwrites it, and
every call hands out a new object. -/
theorem C11_objects_private (l : Layout) (es : List BEvent) (e : BEvent) :
    let s := bafter l BSt.init es
    let s' := (bstep l s e).2
    (∀ a ∈ s.held, (∀ v, e ≠ .mutate a v) → s'.heap[a]? = s.heap[a]?) ∧
    (s'.held = s.held ∨ ∃ a, a ∉ s.held ∧ s'.held = a :: s.held) :=
  (bstep_spec (bafter_inv es (binit_inv l)) e).2.2

/-- A history in which the first answer is overwritten before the call is repeated. -/
example : brun ⟨1, 1⟩ BSt.init
    [.cube .west 0, .mutate 1 ⟨.east, 7, 7, 7⟩, .cube .west 0, .tile .west 0] =
    [some (.ok (some ⟨.west, 0, 4, 1⟩)), none, some (.ok (some ⟨.west, 0, 4, 1⟩)),
      some (.ok (some ⟨.west, 0, 0, 0⟩))] := by decide +kernel

example : (bafter ⟨1, 1⟩ BSt.init [.cube .east 0]).held = [2] := by decide +kernel

end FV3
