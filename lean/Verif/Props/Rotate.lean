import Verif.Proofs.Rotate
import Batteries.Lean.Except

/-!
# C13, C14, C34: rotation of data
-/

namespace FV3
variable {α : Type}

theorem NDArray.IsTurn.trans {a r s : NDArray α} {ky kx : Nat} (hne : ky ≠ kx)
    (hy : ky < a.shape.length) (hx : kx < a.shape.length) {m n : Int}
    (h1 : a.IsTurn ky kx m r) (h2 : r.IsTurn ky kx n s) : a.IsTurn ky kx (m + n) s := by
  obtain ⟨e1, g1⟩ := h1
  obtain ⟨e2, g2⟩ := h2
  have e3 : s.shape = turnShape ky kx (m + n) a.shape := by
    rw [e2, e1, turnShape_add hne hy hx]
  refine ⟨e3, fun idx hi => ?_⟩
  rw [g2 idx hi, g1, e1, turnSrc_add hne hy hx]
  · rwa [← e3]
  · rw [e2] at hi
    exact inB_turnSrc hne (by rw [e1]; simpa using hy) (by rw [e1]; simpa using hx) n hi

theorem NDArray.IsTurn.unique {a r s : NDArray α} {ky kx : Nat} {m n : Int} (hmn : m % 4 = n % 4)
    (h1 : a.IsTurn ky kx m r) (h2 : a.IsTurn ky kx n s) : r.Eqv s := by
  have e : turnShape ky kx m a.shape = turnShape ky kx n a.shape := by
    unfold turnShape; rw [show m % 2 = n % 2 by omega]
  have e' : ∀ idx, turnSrc ky kx m a.shape idx = turnSrc ky kx n a.shape idx := by
    intro idx; unfold turnSrc; rw [hmn]
  refine ⟨by rw [h1.1, h2.1, e], fun idx hi => ?_⟩
  rw [h1.2 idx hi, h2.2 idx (by rw [h2.1, ← e, ← h1.1]; exact hi), e']

theorem NDArray.IsTurn.map {β : Type} (f : α → β) {a r : NDArray α} {ky kx : Nat} {m : Int}
    (h : a.IsTurn ky kx m r) : (a.map f).IsTurn ky kx m (r.map f) :=
  ⟨h.1, fun idx hi => congrArg f (h.2 idx hi)⟩

theorem NDArray.Eqv.symm {a b : NDArray α} (h : a.Eqv b) : b.Eqv a :=
  ⟨h.1.symm, fun i hi => (h.2 i (h.1 ▸ hi)).symm⟩
theorem NDArray.Eqv.trans {a b c : NDArray α} (h : a.Eqv b) (h' : b.Eqv c) : a.Eqv c :=
  ⟨h.1.trans h'.1, fun i hi => (h.2 i hi).trans (h'.2 i (h.1 ▸ hi))⟩

/-- **C13**: `rotate_scalar_data` by `n` never fails and turns the horizontal plane `n` times
clockwise: one turn moves the point `(y, x) = (x₀, nx - 1 - y₀)` to `(y₀, x₀)`, the other axes
are left alone. -/
theorem C13_rotate_turns (a : NDArray α) (dims : List Dim) (ky kx : Nat)
    (hA : HAxes dims ky kx) (hs : a.shape.length = dims.length) (n : Int) :
    ∃ r, rotateScalar a dims n = .ok r ∧
      r.shape = turnShape ky kx n a.shape ∧
      ∀ idx, InB r.shape idx → InB a.shape (turnSrc ky kx n a.shape idx) ∧
        r.get idx = a.get (turnSrc ky kx n a.shape idx) := by
  obtain ⟨r, h1, h2⟩ := rotateScalar_eq a dims hA hs n
  refine ⟨r, h1, h2.1, fun idx hi => ⟨?_, h2.2 idx hi⟩⟩
  rw [h2.1] at hi
  exact inB_turnSrc hA.dne (hs ▸ hA.ylt) (hs ▸ hA.xlt) n hi

/-- **C13**: rotating by `m` then by `n` is rotating by `m + n`; only the count modulo 4
matters. -/
theorem C13_rotation_action (a : NDArray α) (dims : List Dim) (ky kx : Nat)
    (hA : HAxes dims ky kx) (hs : a.shape.length = dims.length) (m n k : Int)
    (hk : (m + n) % 4 = k % 4) :
    ∃ r s t, rotateScalar a dims m = .ok r ∧ rotateScalar r dims n = .ok s ∧
      rotateScalar a dims k = .ok t ∧ s.Eqv t := by
  obtain ⟨r, h1, h2⟩ := rotateScalar_eq a dims hA hs m
  obtain ⟨s, h3, h4⟩ := rotateScalar_eq r dims hA (by rw [h2.1]; simpa using hs) n
  obtain ⟨t, h5, h6⟩ := rotateScalar_eq a dims hA hs k
  exact ⟨r, s, t, h1, h3, h5,
    (h2.trans hA.dne (hs ▸ hA.ylt) (hs ▸ hA.xlt) h4).unique hk h6⟩

/-- **C13**: four rotations (or none) return the array. -/
theorem C13_rotation_identity (a : NDArray α) (dims : List Dim) (n : Int) (hn : n % 4 = 0) :
    rotateScalar a dims n = .ok a := by
  unfold rotateScalar; simp [pymod4, hn]

/-- A 2 x 3 array turned clockwise. -/
def exA : NDArray Int := ⟨[2, 3], fun i => 10 * (i.getD 0 0 : Nat) + (i.getD 1 0 : Nat)⟩

example : (match rotateScalar exA [.y, .x] 1 with
    | .ok r => (r.shape, [[0,0],[0,1],[1,0],[1,1],[2,0],[2,1]].map r.get)
    | .error _ => ([], [])) = ([3, 2], [2, 12, 1, 11, 0, 10]) := by decide +kernel

theorem HAxes_yx : HAxes [.y, .x] 0 1 := by
  refine ⟨?_, ?_, by decide, by decide⟩ <;>
  · intro k d h
    match k, h with
    | 0, h => simp at h; subst h; simp [IsX, IsY]
    | 1, h => simp at h; subst h; simp [IsX, IsY]
    | k + 2, h => simp at h

example := C13_rotation_action exA [.y, .x] 0 1 HAxes_yx rfl 1 3 0 (by decide)

/-! ### vectors -/

/-- Components in the turned axes: one clockwise turn takes `(u, v)` to `(v, -u)`. -/
def turnVec [Neg α] (k : Int) (u v : NDArray α) : NDArray α × NDArray α :=
  if k % 4 = 0 then (u, v)
  else if k % 4 = 1 then (v, u.map Neg.neg)
  else if k % 4 = 2 then (u.map Neg.neg, v.map Neg.neg)
  else (v.map Neg.neg, u)

/-- **C14**: `rotate_vector_data` turns the positions of both components and exchanges the
components: `(u, v)` becomes `(v, -u)` under one clockwise rotation. -/
theorem C14_vector_turns [Neg α] (x y : NDArray α) (dims : List Dim) (ky kx : Nat)
    (hA : HAxes dims ky kx) (hx : x.shape.length = dims.length)
    (hy : y.shape.length = dims.length) (n : Int) :
    ∃ u v, x.IsTurn ky kx n u ∧ y.IsTurn ky kx n v ∧
      rotateVector x y n dims = .ok (turnVec n u v) := by
  obtain ⟨u, h1, h2⟩ := rotateScalar_eq x dims hA hx n
  obtain ⟨v, h3, h4⟩ := rotateScalar_eq y dims hA hy n
  refine ⟨u, v, h2, h4, ?_⟩
  unfold rotateVector turnVec
  rw [h1, h3]
  simp only [bind, Except.bind, pure, Except.pure, pymod4]
  split <;> [rfl; split <;> [rfl; split <;> rfl]]

theorem NDArray.map_neg_neg [Neg α] (hneg : ∀ a : α, - -a = a) (a : NDArray α) :
    (a.map Neg.neg).map Neg.neg = a := by
  simp [NDArray.map, hneg]

theorem NDArray.Eqv.refl (a : NDArray α) : a.Eqv a := ⟨rfl, fun _ _ => rfl⟩

theorem NDArray.Eqv.neg [Neg α] {a b : NDArray α} (h : a.Eqv b) :
    (a.map Neg.neg).Eqv (b.map Neg.neg) :=
  ⟨h.1, fun i hi => congrArg Neg.neg (h.2 i hi)⟩

/-- **C14**: rotating vectors by `m` then `n` is rotating them by `m + n` modulo 4, so four
turns are the identity (for negation that is its own inverse). -/
theorem C14_vector_action [Neg α] (hneg : ∀ a : α, - -a = a) (x y : NDArray α)
    (dims : List Dim) (ky kx : Nat) (hA : HAxes dims ky kx) (hx : x.shape.length = dims.length)
    (hy : y.shape.length = dims.length) (m n k : Int) (hk : (m + n) % 4 = k % 4) :
    ∃ r s t, rotateVector x y m dims = .ok r ∧ rotateVector r.1 r.2 n dims = .ok s ∧
      rotateVector x y k dims = .ok t ∧ s.1.Eqv t.1 ∧ s.2.Eqv t.2 := by
  obtain ⟨u, v, h1, h2, h3⟩ := C14_vector_turns x y dims ky kx hA hx hy m
  obtain ⟨u', v', g1, g2, g3⟩ := C14_vector_turns x y dims ky kx hA hx hy k
  have hl : u.shape.length = dims.length ∧ v.shape.length = dims.length := by
    rw [h1.1, h2.1]; simp [hx, hy]
  have tr : ∀ {a r s t : NDArray α}, a.shape.length = dims.length → a.IsTurn ky kx m r →
      r.IsTurn ky kx n s → a.IsTurn ky kx k t → s.Eqv t := fun hs a1 a2 a3 =>
    (a1.trans hA.dne (hs ▸ hA.ylt) (hs ▸ hA.xlt) a2).unique hk a3
  have hl2 : (turnVec m u v).1.shape.length = dims.length ∧
      (turnVec m u v).2.shape.length = dims.length := by
    unfold turnVec
    split <;> [exact hl; split <;> [exact ⟨hl.2, hl.1⟩; split <;> [exact hl; exact ⟨hl.2, hl.1⟩]]]
  obtain ⟨p, q, f1, f2, f3⟩ := C14_vector_turns (turnVec m u v).1 (turnVec m u v).2 dims ky kx hA
    hl2.1 hl2.2 n
  refine ⟨_, _, _, h3, f3, g3, ?_⟩
  have ha : m % 4 = 0 ∨ m % 4 = 1 ∨ m % 4 = 2 ∨ m % 4 = 3 := by omega
  have hb : n % 4 = 0 ∨ n % 4 = 1 ∨ n % 4 = 2 ∨ n % 4 = 3 := by omega
  have nn : ∀ {a b : NDArray α}, (a.map Neg.neg).Eqv b → a.Eqv (b.map Neg.neg) := by
    intro a b h
    have := h.neg
    rwa [NDArray.map_neg_neg hneg] at this
  -- the turned arrays, possibly negated
  have negturn : ∀ {a b : NDArray α}, (a.map Neg.neg).IsTurn ky kx n b →
      a.IsTurn ky kx n (b.map Neg.neg) := by
    intro a b h
    have := h.map Neg.neg
    rwa [NDArray.map_neg_neg hneg] at this
  rcases ha with e1 | e1 | e1 | e1
  · simp only [turnVec, e1, if_true] at f1 f2
    have E1 := tr hx h1 f1 g1
    have E2 := tr hy h2 f2 g2
    have ek : k % 4 = n % 4 := by omega
    unfold turnVec; rw [ek]
    split <;> [exact ⟨E1, E2⟩; split <;> [exact ⟨E2, E1.neg⟩; split <;>
      [exact ⟨E1.neg, E2.neg⟩; exact ⟨E2.neg, E1⟩]]]
  · simp only [turnVec, e1] at f1 f2
    rw [if_neg (by decide), if_pos trivial] at f1 f2
    have Qn := tr hx h1 (negturn f2) g1
    have Q := nn Qn
    have P := tr hy h2 f1 g2
    rcases hb with e2 | e2 | e2 | e2
    · have ek : k % 4 = 1 := by omega
      simpa [turnVec, e2, ek] using And.intro P Q
    · have ek : k % 4 = 2 := by omega
      simpa [turnVec, e2, ek] using And.intro Q P.neg
    · have ek : k % 4 = 3 := by omega
      simpa [turnVec, e2, ek] using And.intro P.neg Qn
    · have ek : k % 4 = 0 := by omega
      simpa [turnVec, e2, ek] using And.intro Qn P
  · simp only [turnVec, e1] at f1 f2
    rw [if_neg (by decide), if_neg (by decide), if_pos trivial] at f1 f2
    have Pn := tr hx h1 (negturn f1) g1
    have P := nn Pn
    have Qn := tr hy h2 (negturn f2) g2
    have Q := nn Qn
    rcases hb with e2 | e2 | e2 | e2
    · have ek : k % 4 = 2 := by omega
      simpa [turnVec, e2, ek] using And.intro P Q
    · have ek : k % 4 = 3 := by omega
      simpa [turnVec, e2, ek] using And.intro Q Pn
    · have ek : k % 4 = 0 := by omega
      simpa [turnVec, e2, ek] using And.intro Pn Qn
    · have ek : k % 4 = 1 := by omega
      simpa [turnVec, e2, ek] using And.intro Qn P
  · simp only [turnVec, e1] at f1 f2
    rw [if_neg (by decide), if_neg (by decide), if_neg (by decide)] at f1 f2
    have Pn := tr hy h2 (negturn f1) g2
    have P := nn Pn
    have Q := tr hx h1 f2 g1
    rcases hb with e2 | e2 | e2 | e2
    · have ek : k % 4 = 3 := by omega
      simpa [turnVec, e2, ek] using And.intro P Q
    · have ek : k % 4 = 0 := by omega
      simpa [turnVec, e2, ek] using And.intro Q Pn
    · have ek : k % 4 = 1 := by omega
      simpa [turnVec, e2, ek] using And.intro Pn Q.neg
    · have ek : k % 4 = 2 := by omega
      simpa [turnVec, e2, ek] using And.intro Q.neg P

example := C14_vector_action (α := Int) (fun a => by omega) exA exA [.y, .x] 0 1 HAxes_yx rfl rfl
  3 3 2 (by decide)

/-! ### Boundary.rotate -/

/-- What `Boundary.rotate(y, x)` should leave in its arguments (docstring: "Rotate data in
place"): the components in the turned axes. -/
def RotatesInPlace [Neg α] (n : Int) : Prop :=
  ∀ y x : NDArray α, Boundary.rotateInPlace n y x = ((turnVec n x y).2, (turnVec n x y).1)

/-- **C34** refuted: with one rotation the x array receives `-x` instead of `y`, with three
rotations nothing is changed. -/
theorem C34_rotate_refuted :
    ¬ RotatesInPlace (α := Int) 1 ∧ ¬ RotatesInPlace (α := Int) 3 := by
  constructor
  · intro h
    have := h ⟨[], fun _ => 2⟩ ⟨[], fun _ => 3⟩
    have := congrArg (fun p => p.2.get []) this
    revert this
    decide
  · intro h
    have := h ⟨[], fun _ => 2⟩ ⟨[], fun _ => 3⟩
    have := congrArg (fun p => p.2.get []) this
    revert this
    decide

/-- **C34**, what does hold: an even number of rotations is done correctly, for every data.
Missing: odd numbers of rotations, for which the property is false. -/
theorem C34_rotate_partial [Neg α] (n : Int) (hn : n % 2 = 0) : RotatesInPlace (α := α) n := by
  intro y x
  have : n % 4 = 0 ∨ n % 4 = 2 := by omega
  rcases this with e | e <;> simp [Boundary.rotateInPlace, turnVec, pymod4, e]

/-- **C34**, the exact effect for odd counts: one turn leaves `-x` in both arrays, three turns
change nothing. -/
theorem C34_rotate_odd [Neg α] (n : Int) (y x : NDArray α) :
    (n % 4 = 1 → Boundary.rotateInPlace n y x = (x.map Neg.neg, x.map Neg.neg)) ∧
    (n % 4 = 3 → Boundary.rotateInPlace n y x = (y, x)) := by
  constructor <;> intro e <;> simp [Boundary.rotateInPlace, pymod4, e]

end FV3
