import Verif.Spec.Updates
import Verif.Proofs.ExecReal
import Verif.Props.Boundary

/-!
# The list of boundaries of a rank
-/

namespace FV3

section pyMap
variable {A B C : Type}

theorem pyMap_exists {f : A → Py B} {l : List A} (h : ∀ a ∈ l, ∃ b, f a = .ok b) :
    ∃ xs, pyMap f l = .ok xs := by
  induction l with
  | nil => exact ⟨[], rfl⟩
  | cons a l ih =>
    obtain ⟨b, hb⟩ := h a List.mem_cons_self
    obtain ⟨xs, hxs⟩ := ih fun a ha => h a (List.mem_cons_of_mem _ ha)
    exact ⟨b :: xs, by simp [pyMap, hb, hxs, Bind.bind, Except.bind, Pure.pure, Except.pure]⟩

theorem pyMap_cons {f : A → Py B} {a : A} {l : List A} {xs : List B} (h : pyMap f (a :: l) = .ok xs) :
    ∃ b bs, f a = .ok b ∧ pyMap f l = .ok bs ∧ xs = b :: bs := by
  obtain ⟨b, hb, h⟩ := bind_ok h
  obtain ⟨bs, hbs, h⟩ := bind_ok h
  exact ⟨b, bs, hb, hbs, (pure_ok h).symm⟩

theorem pyMap_mem {f : A → Py B} {l : List A} {xs : List B} (h : pyMap f l = .ok xs) {x : B} :
    x ∈ xs ↔ ∃ a ∈ l, f a = .ok x := by
  induction l generalizing xs with
  | nil => simp only [pyMap, Except.ok.injEq] at h; subst h; simp
  | cons a l ih =>
    obtain ⟨b, bs, hb, hbs, rfl⟩ := pyMap_cons h
    rw [List.mem_cons, ih hbs]
    constructor
    · rintro (rfl | ⟨a', h1, h2⟩)
      · exact ⟨a, List.mem_cons_self, hb⟩
      · exact ⟨a', List.mem_cons_of_mem _ h1, h2⟩
    · rintro ⟨a', h1, h2⟩
      rcases List.mem_cons.1 h1 with rfl | h1
      · left; rw [hb] at h2; exact (Except.ok.inj h2).symm
      · exact Or.inr ⟨a', h1, h2⟩

theorem pyMap_map {f : A → Py B} {l : List A} {xs : List B} (h : pyMap f l = .ok xs) {g : B → C}
    {g' : A → C} (hg : ∀ a ∈ l, ∀ b, f a = .ok b → g b = g' a) : xs.map g = l.map g' := by
  induction l generalizing xs with
  | nil => simp only [pyMap, Except.ok.injEq] at h; subst h; rfl
  | cons a l ih =>
    obtain ⟨b, bs, hb, hbs, rfl⟩ := pyMap_cons h
    rw [List.map_cons, List.map_cons, hg a List.mem_cons_self b hb,
      ih hbs fun a ha => hg a (List.mem_cons_of_mem _ ha)]

end pyMap

theorem mem_allRanks {l : Layout} {r : Int} : r ∈ allRanks l ↔ 0 ≤ r ∧ r < l.cubeRanks := by
  unfold allRanks
  rw [List.mem_map]
  constructor
  · rintro ⟨n, hn, rfl⟩
    rw [List.mem_range] at hn
    constructor
    · exact Int.natCast_nonneg n
    · show ((n : Nat) : Int) < _
      omega
  · rintro ⟨h1, h2⟩
    exact ⟨r.toNat, by rw [List.mem_range]; omega, by show ((r.toNat : Nat) : Int) = r; omega⟩

theorem boundary_type {l : Layout} (hx : 0 < l.x) (hsq : l.y = l.x) {b : BType} {r : Int}
    {B : Boundary} (hB : Cube.boundary l b r = .ok (some B)) : B.boundaryType = b := by
  obtain ⟨h1, h2⟩ := C07_cube_boundary_closed l hx hsq b r _ _ rfl
  by_cases h : AtCorner l b (subtileIndex l r).1 (subtileIndex l r).2
  · rw [h1 h] at hB; simp at hB
  · obtain ⟨B', hB', e, -⟩ := h2 h
    rw [hB'] at hB
    simp only [Except.ok.injEq, Option.some.injEq] at hB
    rw [← hB]; exact e

theorem boundary_ok {l : Layout} (hx : 0 < l.x) (hsq : l.y = l.x) (b : BType) (r : Int) :
    ∃ o, Cube.boundary l b r = .ok o := by
  obtain ⟨h1, h2⟩ := C07_cube_boundary_closed l hx hsq b r _ _ rfl
  by_cases h : AtCorner l b (subtileIndex l r).1 (subtileIndex l r).2
  · exact ⟨_, h1 h⟩
  · obtain ⟨B', hB', -⟩ := h2 h
    exact ⟨_, hB'⟩

theorem boundary_toRank {l : Layout} (hx : 0 < l.x) (hsq : l.y = l.x) {b : BType} {r : Int}
    {B : Boundary} (hB : Cube.boundary l b r = .ok (some B)) : B.toRank ∈ allRanks l := by
  obtain ⟨h1, h2⟩ := C07_cube_boundary_closed l hx hsq b r _ _ rfl
  by_cases h : AtCorner l b (subtileIndex l r).1 (subtileIndex l r).2
  · rw [h1 h] at hB; simp at hB
  · obtain ⟨B', hB', -, -, e⟩ := h2 h
    rw [hB'] at hB
    simp only [Except.ok.injEq, Option.some.injEq] at hB
    rw [← hB]; exact mem_allRanks.2 e

theorem boundariesFrom_ok {l : Layout} (hx : 0 < l.x) (hsq : l.y = l.x) (r : Int) (ts : List BType)
    (hn : ts.Nodup) :
    ∃ bs, boundariesFrom l r ts = .ok bs ∧
      (∀ B, B ∈ bs ↔ B.boundaryType ∈ ts ∧ Cube.boundary l B.boundaryType r = .ok (some B)) ∧
      (bs.map (·.boundaryType)).Nodup := by
  induction ts with
  | nil => exact ⟨[], rfl, by simp, by simp⟩
  | cons b ts ih =>
    rw [List.nodup_cons] at hn
    obtain ⟨bs, h1, h2, h3⟩ := ih hn.2
    obtain ⟨o, ho⟩ := boundary_ok hx hsq b r
    unfold boundariesFrom
    rw [ho, h1]
    cases o with
    | none =>
      refine ⟨bs, rfl, fun B => ?_, h3⟩
      rw [h2]
      constructor
      · rintro ⟨a, c⟩; exact ⟨List.mem_cons_of_mem _ a, c⟩
      · rintro ⟨a, c⟩
        rcases List.mem_cons.1 a with e | e
        · rw [e, ho] at c; simp at c
        · exact ⟨e, c⟩
    | some B0 =>
      have hb0 := boundary_type hx hsq ho
      refine ⟨B0 :: bs, rfl, fun B => ?_, ?_⟩
      · rw [List.mem_cons, h2]
        constructor
        · rintro (rfl | ⟨a, c⟩)
          · rw [hb0]; exact ⟨List.mem_cons_self, ho⟩
          · exact ⟨List.mem_cons_of_mem _ a, c⟩
        · rintro ⟨a, c⟩
          rcases List.mem_cons.1 a with e | e
          · left
            rw [e, ho] at c
            simpa using c.symm
          · exact Or.inr ⟨e, c⟩
      · rw [List.map_cons, List.nodup_cons]
        refine ⟨?_, h3⟩
        rw [hb0]
        intro hmem
        obtain ⟨B, hB, e⟩ := List.mem_map.1 hmem
        exact hn.1 (e ▸ ((h2 B).1 hB).1)

/-- The boundaries of a rank: one for every boundary type that exists, to different ranks. -/
theorem boundaries_ok {l : Layout} (hx : 0 < l.x) (hsq : l.y = l.x) {r : Int}
    (hr : r ∈ allRanks l) :
    ∃ bs, Cube.boundaries l r = .ok bs ∧
      (∀ B, B ∈ bs ↔ Cube.boundary l B.boundaryType r = .ok (some B)) ∧
      (bs.map (·.toRank)).Nodup := by
  obtain ⟨bs, h1, h2, h3⟩ := boundariesFrom_ok hx hsq r BOUNDARY_TYPES (by decide)
  have h2' : ∀ B, B ∈ bs ↔ Cube.boundary l B.boundaryType r = .ok (some B) := by
    intro B
    rw [h2]
    constructor
    · exact fun h => h.2
    · intro h
      refine ⟨?_, h⟩
      generalize B.boundaryType = b
      cases b <;> decide
  refine ⟨bs, h1, h2', ?_⟩
  have hr' := mem_allRanks.1 hr
  have key : ∀ B ∈ bs, ∀ B' ∈ bs, B.toRank = B'.toRank → B.boundaryType = B'.boundaryType :=
    fun B hB B' hB' e => (C09_distinct_neighbours l hx hsq r hr'.1 hr'.2 _ _ B B'
      ((h2' B).1 hB) ((h2' B').1 hB')).2 e
  clear h1 h2 h2'
  induction bs with
  | nil => simp
  | cons B bs ih =>
    rw [List.map_cons, List.nodup_cons] at h3 ⊢
    refine ⟨fun hm => ?_, ih h3.2 fun C hC C' hC' =>
      key C (List.mem_cons_of_mem _ hC) C' (List.mem_cons_of_mem _ hC')⟩
    obtain ⟨C, hC, e⟩ := List.mem_map.1 hm
    exact h3.1 (List.mem_map.2 ⟨C, hC, key C (List.mem_cons_of_mem _ hC) B List.mem_cons_self e⟩)

/-- Boundaries come in pairs. -/
theorem boundary_pair {l : Layout} (hx : 0 < l.x) (hsq : l.y = l.x) {r : Int}
    (hr : r ∈ allRanks l) {B : Boundary} (hB : Cube.boundary l B.boundaryType r = .ok (some B)) :
    ∃ B', Cube.boundary l B'.boundaryType B.toRank = .ok (some B') ∧ B'.toRank = r ∧
      (B'.rotations + B.rotations) % 4 = 0 ∧
      B'.boundaryType = B.boundaryType.opposite.ccwN B.rotations.toNat := by
  have hr' := mem_allRanks.1 hr
  obtain ⟨B', h1, h2, h3⟩ := (C08_boundary_reciprocal l hx hsq r hr'.1 hr'.2 _ B hB).1
  have e := boundary_type hx hsq h1
  exact ⟨B', by rw [e]; exact h1, h2, h3, e⟩

end FV3
