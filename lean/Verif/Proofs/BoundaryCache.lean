import Verif.Model.BoundaryCache

namespace FV3
open CM

/-- Addresses stored in the memo tables. -/
def BSt.Cached (s : BSt) (a : Nat) : Prop :=
  (∃ k, (k, a) ∈ s.tileCache) ∨ (∃ k, (k, some a) ∈ s.cubeCache)

/-- The tables are correct and nobody holds an object stored in them. -/
structure BInv (l : Layout) (s : BSt) : Prop where
  tile : ∀ b r a, ((b, r), a) ∈ s.tileCache → s.heap[a]? = some (Tile.boundary l b r)
  cubeN : ∀ b r, ((b, r), none) ∈ s.cubeCache → Cube.boundary l b r = .ok none
  cubeS : ∀ b r a, ((b, r), some a) ∈ s.cubeCache →
    ∃ B, s.heap[a]? = some B ∧ Cube.boundary l b r = .ok (some B)
  held : ∀ a ∈ s.held, ¬ s.Cached a ∧ a < s.heap.length

/-- Objects that existed before are unchanged, and nothing is handed out. -/
structure BExt (s s' : BSt) : Prop where
  held : s'.held = s.held
  len : s.heap.length ≤ s'.heap.length
  same : ∀ a, a < s.heap.length → s'.heap[a]? = s.heap[a]?

theorem BExt.refl (s : BSt) : BExt s s := ⟨rfl, Nat.le_refl _, fun _ _ => rfl⟩

theorem BExt.trans {a b c : BSt} (h1 : BExt a b) (h2 : BExt b c) : BExt a c :=
  ⟨h2.held.trans h1.held, Nat.le_trans h1.len h2.len, fun x hx => by
    rw [h2.same x (Nat.lt_of_lt_of_le hx h1.len), h1.same x hx]⟩

/-- `m` produces a new private object with the value `p`, or raises what `p` raises. -/
def Obtains (l : Layout) (m : CM Nat) (p : Py Boundary) : Prop :=
  ∀ s, BInv l s → ∃ s', BInv l s' ∧ BExt s s' ∧
    match p with
    | .error e => m s = (.error e, s')
    | .ok b => ∃ a, m s = (.ok a, s') ∧ s'.heap[a]? = some b ∧ s.heap.length ≤ a ∧ ¬ s'.Cached a

/-- The same for optional objects. -/
def ObtainsO (l : Layout) (m : CM (Option Nat)) (p : Py (Option Boundary)) : Prop :=
  ∀ s, BInv l s → ∃ s', BInv l s' ∧ BExt s s' ∧
    match p with
    | .error e => m s = (.error e, s')
    | .ok none => m s = (.ok none, s')
    | .ok (some b) => ∃ a, m s = (.ok (some a), s') ∧ s'.heap[a]? = some b ∧ s.heap.length ≤ a ∧
        ¬ s'.Cached a

variable {l : Layout}

theorem cm_bind {α β : Type} (m : CM α) (f : α → CM β) : (m >>= f) = CM.bnd m f := rfl
theorem cm_pure {α : Type} (a : α) : (pure a : CM α) = CM.ret a := rfl

theorem BInv.cached_lt {s : BSt} (h : BInv l s) {a : Nat} (ha : s.Cached a) :
    a < s.heap.length := by
  rcases ha with ⟨⟨b, r⟩, hk⟩ | ⟨⟨b, r⟩, hk⟩
  · have := h.tile b r a hk
    exact (List.getElem?_eq_some_iff.1 this).1
  · obtain ⟨B, hB, -⟩ := h.cubeS b r a hk
    exact (List.getElem?_eq_some_iff.1 hB).1

theorem inv_append {s : BSt} (h : BInv l s) (b : Boundary) :
    BInv l { s with heap := s.heap ++ [b] } := by
  have keep : ∀ (a : Nat) (v : Boundary), s.heap[a]? = some v → (s.heap ++ [b])[a]? = some v := by
    intro a v hv
    rw [List.getElem?_append_left (List.getElem?_eq_some_iff.1 hv).1]; exact hv
  refine ⟨fun b r a hm => keep _ _ (h.tile b r a hm), h.cubeN, ?_, ?_⟩
  · intro b r a hm
    obtain ⟨B, hB, hc⟩ := h.cubeS b r a hm
    exact ⟨B, keep _ _ hB, hc⟩
  · intro a ha
    obtain ⟨h1, h2⟩ := h.held a ha
    exact ⟨h1, by simp; omega⟩

theorem inv_set {s : BSt} (h : BInv l s) (a : Nat) (b : Boundary) (hc : ¬ s.Cached a) :
    BInv l { s with heap := s.heap.set a b } := by
  have keep : ∀ k v, s.Cached k → s.heap[k]? = some v → (s.heap.set a b)[k]? = some v := by
    intro k v hk hv
    rw [List.getElem?_set_ne]
    · exact hv
    · rintro rfl; exact hc hk
  refine ⟨fun b r k hm => keep _ _ (Or.inl ⟨_, hm⟩) (h.tile b r k hm), h.cubeN, ?_, ?_⟩
  · intro b r k hm
    obtain ⟨B, hB, hcc⟩ := h.cubeS b r k hm
    exact ⟨B, keep _ _ (Or.inr ⟨_, hm⟩) hB, hcc⟩
  · intro k hk
    obtain ⟨h1, h2⟩ := h.held k hk
    exact ⟨h1, by simpa using h2⟩

theorem obtains_alloc (b : Boundary) : Obtains l (alloc b) (.ok b) := by
  intro s h
  refine ⟨_, inv_append h b, ⟨rfl, by simp, ?_⟩, s.heap.length, rfl, by simp, Nat.le_refl _, ?_⟩
  · intro a ha
    exact List.getElem?_append_left ha
  · intro hc
    have : s.Cached s.heap.length := hc
    exact absurd (h.cached_lt this) (by omega)

theorem obtains_lift {α : Type} (p : Py α) (f : α → CM Nat) (g : α → Py Boundary)
    (h : ∀ x, Obtains l (f x) (g x)) : Obtains l (lift p >>= f) (p >>= g) := by
  intro s hs
  cases p with
  | error e => exact ⟨s, hs, BExt.refl s, rfl⟩
  | ok x => exact h x s hs

theorem obtainsO_lift {α : Type} (p : Py α) (f : α → CM (Option Nat))
    (g : α → Py (Option Boundary)) (h : ∀ x, ObtainsO l (f x) (g x)) :
    ObtainsO l (lift p >>= f) (p >>= g) := by
  intro s hs
  cases p with
  | error e => exact ⟨s, hs, BExt.refl s, rfl⟩
  | ok x => exact h x s hs

theorem obtains_ite (c : Prop) [Decidable c] {m1 m2 : CM Nat} {p1 p2 : Py Boundary}
    (h1 : Obtains l m1 p1) (h2 : Obtains l m2 p2) :
    Obtains l (if c then m1 else m2) (if c then p1 else p2) := by
  split <;> assumption

theorem obtainsO_ite (c : Prop) [Decidable c] {m1 m2 : CM (Option Nat)}
    {p1 p2 : Py (Option Boundary)} (h1 : ObtainsO l m1 p1) (h2 : ObtainsO l m2 p2) :
    ObtainsO l (if c then m1 else m2) (if c then p1 else p2) := by
  split <;> assumption

/-- Modify a private object right after obtaining it. -/
theorem obtains_modify {m : CM Nat} {p : Py Boundary} (h : Obtains l m p) (f : Boundary → Boundary) :
    Obtains l (m >>= fun a => read a >>= fun b => write a (f b) >>= fun _ => pure a)
      (p >>= fun b => .ok (f b)) := by
  intro s hs
  obtain ⟨s', hi, he, hm⟩ := h s hs
  cases p with
  | error e =>
    refine ⟨s', hi, he, ?_⟩
    simp only [cm_bind, CM.bnd, hm]
    rfl
  | ok b =>
    obtain ⟨a, hma, hb, hge, hnc⟩ := hm
    have hlt := (List.getElem?_eq_some_iff.1 hb).1
    refine ⟨{ s' with heap := s'.heap.set a (f b) }, inv_set hi a _ hnc,
      ⟨he.held, by simpa using he.len, ?_⟩, a, ?_, ?_, hge, hnc⟩
    · intro k hk
      show (s'.heap.set a (f b))[k]? = _
      rw [List.getElem?_set_ne (by omega), he.same k hk]
    · simp only [cm_bind, CM.bnd, hma, CM.read, hb, CM.write]; rfl
    · simp [hlt]

theorem lookup_mem {α β : Type} [BEq α] [LawfulBEq α] {k : α} {v : β} {m : List (α × β)}
    (h : m.lookup k = some v) : (k, v) ∈ m := by
  induction m with
  | nil => simp at h
  | cons x xs ih =>
    obtain ⟨a, b⟩ := x
    rw [List.lookup_cons] at h
    by_cases hc : k == a
    · simp only [hc] at h
      injection h with h
      rw [eq_of_beq hc, h]; simp
    · simp only [hc] at h
      exact List.mem_cons_of_mem _ (ih h)

/-- Copying an existing object gives a private one. -/
theorem copy_obtains {s : BSt} (h : BInv l s) {a : Nat} {b : Boundary}
    (hb : s.heap[a]? = some b) :
    ∃ s', BInv l s' ∧ BExt s s' ∧
      ∃ a', copyObj a s = (.ok a', s') ∧ s'.heap[a']? = some b ∧ s.heap.length ≤ a' ∧
        ¬ s'.Cached a' := by
  obtain ⟨s', hi, he, a', hm, h1, h2, h3⟩ := obtains_alloc (l := l) b s h
  refine ⟨s', hi, he, a', ?_, h1, h2, h3⟩
  simp only [copyObj, cm_bind, CM.bnd, CM.read, hb]
  exact hm

theorem obtains_tile (b : BType) (r : Int) :
    Obtains l (Tile.boundaryC l b r) (.ok (Tile.boundary l b r)) := by
  intro s h
  have key : ∃ s1 a, Tile.cachedBoundary l b r s = (.ok a, s1) ∧ BInv l s1 ∧ BExt s s1 ∧
      s1.heap[a]? = some (Tile.boundary l b r) := by
    unfold Tile.cachedBoundary
    cases hl : s.tileCache.lookup (b, r) with
    | some a => exact ⟨s, a, rfl, h, BExt.refl s, h.tile b r a (lookup_mem hl)⟩
    | none =>
      obtain ⟨s', hi, he, a, hm, h1, h2, h3⟩ := obtains_alloc (l := l) (Tile.boundary l b r) s h
      refine ⟨{ s' with tileCache := ((b, r), a) :: s'.tileCache }, a, ?_, ?_,
        ⟨he.held, he.len, he.same⟩, h1⟩
      · simp only [hm]
      · refine ⟨?_, hi.cubeN, hi.cubeS, ?_⟩
        · intro b' r' a' hm'
          rcases List.mem_cons.1 hm' with hx | hx
          · injection hx with hx1 hx2
            injection hx1 with hx3 hx4
            rw [hx2, hx3, hx4]; exact h1
          · exact hi.tile b' r' a' hx
        · intro k hk
          obtain ⟨q1, q2⟩ := hi.held k hk
          refine ⟨?_, q2⟩
          rintro (⟨kk, hkk⟩ | hkk)
          · rcases List.mem_cons.1 hkk with hx | hx
            · injection hx with hx1 hx2
              have hks : k ∈ s.held := he.held ▸ hk
              have := (h.held k hks).2
              omega
            · exact q1 (Or.inl ⟨kk, hx⟩)
          · exact q1 (Or.inr hkk)
  obtain ⟨s1, a, hc, hi, he, hv⟩ := key
  obtain ⟨s2, hi2, he2, a', hm, q1, q2, q3⟩ := copy_obtains hi hv
  refine ⟨s2, hi2, he.trans he2, a', ?_, q1, Nat.le_trans he.len q2, q3⟩
  simp only [Tile.boundaryC, cm_bind, CM.bnd, hc]
  exact hm

theorem obtains_add {m : CM Nat} {p : Py Boundary} (h : Obtains l m p) (d : Int) :
    Obtains l (m >>= fun a => addToRank a d)
      (p >>= fun b => .ok { b with toRank := b.toRank + d }) :=
  obtains_modify h fun b => { b with toRank := b.toRank + d }

theorem obtains_left (r : Int) : Obtains l (Cube.leftEdgeC l r) (Cube.leftEdge l r) := by
  refine obtains_lift _ _ _ fun _ => obtains_ite _ (obtains_lift _ _ _ fun t =>
    obtains_ite _ (obtains_lift _ _ _ fun tt => obtains_alloc _) ?_) (obtains_tile _ _)
  exact obtains_add (obtains_tile .west r) _

theorem obtains_right (r : Int) : Obtains l (Cube.rightEdgeC l r) (Cube.rightEdge l r) := by
  refine obtains_lift _ _ _ fun _ => obtains_ite _ (obtains_lift _ _ _ fun t =>
    obtains_ite _ (obtains_lift _ _ _ fun tt => obtains_alloc _) ?_) (obtains_tile _ _)
  exact obtains_add (obtains_tile .east r) _

theorem obtains_top (r : Int) : Obtains l (Cube.topEdgeC l r) (Cube.topEdge l r) := by
  refine obtains_lift _ _ _ fun _ => obtains_ite _ (obtains_lift _ _ _ fun t =>
    obtains_ite _ (obtains_lift _ _ _ fun tt => obtains_alloc _) ?_) (obtains_tile _ _)
  exact obtains_add (obtains_tile .north r) _

theorem cm_bind_pure (m : CM Nat) : (m >>= fun b => pure b) = m := by
  funext s
  simp only [cm_bind, CM.bnd, cm_pure, CM.ret]
  rcases m s with ⟨_ | _, _⟩ <;> rfl

theorem obtains_bottom (r : Int) : Obtains l (Cube.bottomEdgeC l r) (Cube.bottomEdge l r) := by
  refine obtains_lift _ _ _ fun _ => obtains_lift _ _ _ fun t => obtains_ite _
    (obtains_lift _ _ _ fun tt => obtains_alloc _) ?_
  by_cases hb : onTileBottom l r = true
  · simp only [hb, if_true]
    exact obtains_add (obtains_tile .south r) _
  · simp only [hb]
    exact (cm_bind_pure (Tile.boundaryC l .south r)).symm ▸ obtains_tile .south r

theorem obtains_some {m : CM Nat} {p : Py Boundary} (h : Obtains l m p) :
    ObtainsO l (Cube.someC m) (some <$> p) := by
  intro s hs
  obtain ⟨s', hi, he, hm⟩ := h s hs
  refine ⟨s', hi, he, ?_⟩
  cases p with
  | error e =>
    show Cube.someC m s = _
    simp only [Cube.someC, cm_bind, CM.bnd, hm]
  | ok b =>
    obtain ⟨a, hm, h1, h2, h3⟩ := hm
    refine ⟨a, ?_, h1, h2, h3⟩
    simp only [Cube.someC, cm_bind, CM.bnd, hm]
    rfl

theorem obtains_corner {e1 e2 : Int → CM Nat} {p1 p2 : Int → Py Boundary}
    (h1 : ∀ r, Obtains l (e1 r) (p1 r)) (h2 : ∀ r, Obtains l (e2 r) (p2 r)) (b : BType) (r : Int) :
    ObtainsO l (Cube.getCornerC b r e1 e2) (Cube.getCorner b r p1 p2) := by
  intro s hs
  obtain ⟨s1, hi1, he1, hm1⟩ := h1 r s hs
  cases hp1 : p1 r with
  | error e =>
    rw [hp1] at hm1
    refine ⟨s1, hi1, he1, ?_⟩
    simp only [Cube.getCorner, hp1, bind, Except.bind]
    simp only [Cube.getCornerC, cm_bind, CM.bnd, hm1]
  | ok b1 =>
    rw [hp1] at hm1
    obtain ⟨a1, hm1, hv1, hge1, hnc1⟩ := hm1
    obtain ⟨s2, hi2, he2, hm2⟩ := h2 b1.toRank s1 hi1
    have hlt := (List.getElem?_eq_some_iff.1 hv1).1
    cases hp2 : p2 b1.toRank with
    | error e =>
      rw [hp2] at hm2
      refine ⟨s2, hi2, he1.trans he2, ?_⟩
      simp only [Cube.getCorner, hp1, hp2, bind, Except.bind]
      simp only [Cube.getCornerC, cm_bind, CM.bnd, hm1, hm2, CM.read, hv1]
    | ok b2 =>
      rw [hp2] at hm2
      obtain ⟨a2, hm2, hv2, hge2, hnc2⟩ := hm2
      have hv1' : s2.heap[a1]? = some b1 := by rw [he2.same a1 hlt, hv1]
      obtain ⟨s3, hi3, he3, a3, hm3, hv3, hge3, hnc3⟩ := obtains_alloc (l := l)
        { boundaryType := b, fromRank := r, toRank := b2.toRank
          rotations := b1.rotations + b2.rotations } s2 hi2
      refine ⟨s3, hi3, (he1.trans he2).trans he3, ?_⟩
      simp only [Cube.getCorner, hp1, hp2, bind, Except.bind, pure, Except.pure]
      refine ⟨a3, ?_, hv3, Nat.le_trans (he1.trans he2).len hge3, hnc3⟩
      simp only [Cube.getCornerC, cm_bind, CM.bnd, hm1, hm2, CM.read, hv1, hv1', hv2, hm3]
      rfl

theorem obtainsO_none : ObtainsO l (pure none) (.ok none) := fun s hs =>
  ⟨s, hs, BExt.refl s, rfl⟩

theorem obtains_raw (b : BType) (r : Int) :
    ObtainsO l (Cube.rawBoundaryC l b r) (Cube.rawBoundary l b r) := by
  cases b
  · exact obtains_some (obtains_left r)
  · exact obtains_some (obtains_right r)
  · exact obtains_some (obtains_top r)
  · exact obtains_some (obtains_bottom r)
  · exact obtainsO_ite _ obtainsO_none (obtainsO_lift _ _ _ fun t => obtainsO_ite _
      (obtains_corner obtains_left obtains_left _ _) (obtains_corner obtains_left obtains_top _ _))
  · exact obtainsO_ite _ obtainsO_none (obtainsO_lift _ _ _ fun t => obtainsO_ite _
      (obtains_corner obtains_top obtains_bottom _ _) (obtains_corner obtains_top obtains_right _ _))
  · exact obtainsO_ite _ obtainsO_none (obtainsO_lift _ _ _ fun t => obtainsO_ite _
      (obtains_corner obtains_bottom obtains_top _ _)
      (obtains_corner obtains_bottom obtains_left _ _))
  · exact obtainsO_ite _ obtainsO_none (obtainsO_lift _ _ _ fun t => obtainsO_ite _
      (obtains_corner obtains_bottom obtains_bottom _ _)
      (obtains_corner obtains_bottom obtains_right _ _))

theorem obtains_miss (b : BType) (r : Int) :
    ObtainsO l (Cube.missBoundary l b r) (Cube.boundary l b r) := by
  intro s hs
  obtain ⟨s', hi, he, hm⟩ := obtains_raw (l := l) b r s hs
  unfold Cube.boundary
  cases hp : Cube.rawBoundary l b r with
  | error e =>
    rw [hp] at hm
    refine ⟨s', hi, he, ?_⟩
    simp only [bind, Except.bind]
    simp only [Cube.missBoundary, cm_bind, CM.bnd, hm]
  | ok o =>
    rw [hp] at hm
    cases o with
    | none =>
      refine ⟨s', hi, he, ?_⟩
      simp only [bind, Except.bind]
      show Cube.missBoundary l b r s = _
      simp only [Cube.missBoundary, cm_bind, CM.bnd, hm]
      rfl
    | some B =>
      obtain ⟨a, hma, hb, hge, hnc⟩ := hm
      have hlt := (List.getElem?_eq_some_iff.1 hb).1
      refine ⟨{ s' with heap := s'.heap.set a { B with toRank := pymod B.toRank l.cubeRanks } },
        inv_set hi a _ hnc, ⟨he.held, by simpa using he.len, ?_⟩, ?_⟩
      · intro k hk
        show (s'.heap.set a _)[k]? = _
        rw [List.getElem?_set_ne (by omega), he.same k hk]
      · simp only [bind, Except.bind]
        refine ⟨a, ?_, by simp [hlt], hge, hnc⟩
        simp only [Cube.missBoundary, cm_bind, CM.bnd, hma, CM.read, hb, CM.write]
        rfl

theorem obtains_cube (b : BType) (r : Int) :
    ObtainsO l (Cube.boundaryC l b r) (Cube.boundary l b r) := by
  intro s h
  have fin : ∀ s1 o, Cube.cachedBoundary l b r s = (.ok o, s1) → BInv l s1 → BExt s s1 →
      (match o with
        | none => Cube.boundary l b r = .ok none
        | some a => ∃ B, s1.heap[a]? = some B ∧ Cube.boundary l b r = .ok (some B)) →
      ∃ s', BInv l s' ∧ BExt s s' ∧
        match Cube.boundary l b r with
        | .error e => Cube.boundaryC l b r s = (.error e, s')
        | .ok none => Cube.boundaryC l b r s = (.ok none, s')
        | .ok (some b_1) => ∃ a, Cube.boundaryC l b r s = (.ok (some a), s') ∧
            s'.heap[a]? = some b_1 ∧ s.heap.length ≤ a ∧ ¬ s'.Cached a := by
    intro s1 o hc hi he ho
    cases o with
    | none =>
      dsimp only at ho
      refine ⟨s1, hi, he, ?_⟩
      rw [ho]
      show Cube.boundaryC l b r s = _
      simp only [Cube.boundaryC, cm_bind, CM.bnd, hc]
      rfl
    | some a =>
      obtain ⟨B, hB, hp⟩ := ho
      obtain ⟨s2, hi2, he2, a', hm, q1, q2, q3⟩ := copy_obtains hi hB
      refine ⟨s2, hi2, he.trans he2, ?_⟩
      rw [hp]
      refine ⟨a', ?_, q1, Nat.le_trans he.len q2, q3⟩
      simp only [Cube.boundaryC, Cube.someC, cm_bind, CM.bnd, hc, hm]
      rfl
  cases hl : s.cubeCache.lookup (b, r) with
  | some o =>
    refine fin s o (by simp only [Cube.cachedBoundary, hl]) h (BExt.refl s) ?_
    have hmem := lookup_mem hl
    cases o with
    | none => exact h.cubeN b r hmem
    | some a => exact h.cubeS b r a hmem
  | none =>
    obtain ⟨s', hi, he, hm⟩ := obtains_miss (l := l) b r s h
    cases hp : Cube.boundary l b r with
    | error e =>
      rw [hp] at hm
      refine ⟨s', hi, he, ?_⟩
      simp only [Cube.boundaryC, Cube.cachedBoundary, cm_bind, CM.bnd, hl, hm]
    | ok o =>
      rw [hp] at hm
      rw [hp] at fin
      cases o with
      | none =>
        dsimp only at hm
        refine fin { s' with cubeCache := ((b, r), none) :: s'.cubeCache } none ?_ ?_
          ⟨he.held, he.len, he.same⟩ rfl
        · simp only [Cube.cachedBoundary, hl, hm]
        · refine ⟨hi.tile, ?_, ?_, ?_⟩
          · intro b' r' hx
            rcases List.mem_cons.1 hx with hx | hx
            · injection hx with hx1 _
              injection hx1 with hx3 hx4
              rw [hx3, hx4]; exact hp
            · exact hi.cubeN b' r' hx
          · intro b' r' a hx
            rcases List.mem_cons.1 hx with hx | hx
            · injection hx with _ hx; simp at hx
            · exact hi.cubeS b' r' a hx
          · intro k hk
            obtain ⟨q1, q2⟩ := hi.held k hk
            refine ⟨?_, q2⟩
            rintro (hkk | ⟨kk, hkk⟩)
            · exact q1 (Or.inl hkk)
            · rcases List.mem_cons.1 hkk with hx | hx
              · injection hx with _ hx; simp at hx
              · exact q1 (Or.inr ⟨kk, hx⟩)
      | some B =>
        obtain ⟨a, hma, hb, hge, hnc⟩ := hm
        refine fin { s' with cubeCache := ((b, r), some a) :: s'.cubeCache } (some a) ?_ ?_
          ⟨he.held, he.len, he.same⟩ ⟨B, hb, rfl⟩
        · simp only [Cube.cachedBoundary, hl, hma]
        · refine ⟨hi.tile, ?_, ?_, ?_⟩
          · intro b' r' hx
            rcases List.mem_cons.1 hx with hx | hx
            · injection hx with _ hx; simp at hx
            · exact hi.cubeN b' r' hx
          · intro b' r' a' hx
            rcases List.mem_cons.1 hx with hx | hx
            · injection hx with hx1 hx2
              injection hx1 with hx3 hx4
              injection hx2 with hx2
              rw [hx3, hx4, hx2]; exact ⟨B, hb, hp⟩
            · exact hi.cubeS b' r' a' hx
          · intro k hk
            obtain ⟨q1, q2⟩ := hi.held k hk
            refine ⟨?_, q2⟩
            rintro (hkk | ⟨kk, hkk⟩)
            · exact q1 (Or.inl hkk)
            · rcases List.mem_cons.1 hkk with hx | hx
              · injection hx with _ hx
                injection hx with hx
                have := (h.held k (he.held ▸ hk)).2
                omega
              · exact q1 (Or.inr ⟨kk, hx⟩)

end FV3
