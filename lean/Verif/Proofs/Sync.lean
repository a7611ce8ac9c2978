import Verif.Proofs.Edge
import Verif.Proofs.UpdatesSound
import Verif.Proofs.HaloValue
import Verif.Spec.Bulk

/-!
# Synchronising shared edges

The x and y components are treated together: `true` stands for the x component (south and north
edges), `false` for the y component (west and east edges).
-/

namespace FV3
variable {α : Type}

/-- Component, axis across the edge, axis along the edge, and their dimensions. -/
def comp (x y : Nat) : Bool → Nat | true => x | false => y
def pax (ky kx : Nat) : Bool → Nat | true => ky | false => kx
def dimI : Bool → Dim | true => .yI | false => .xI
def dimC : Bool → Dim | true => .x | false => .y
def sendT : Bool → BType | true => .south | false => .west
def recvT : Bool → BType | true => .north | false => .east
def hiC : Bool → Corner | true => .nw | false => .se
def dirOf (t : Int) : Bool → Vec3 | true => (face t).ex | false => (face t).ey

/-- A point of the south or west (`hi = 0`), north or east (`hi = 1`) edge of subtile `(j, i)`. -/
def edgePos (L n t j i hi c : Int) : Bool → Vec3
  | true => pos (L * n) t (2 * (i * n) + c) (2 * ((j + hi) * n))
  | false => pos (L * n) t (2 * ((i + hi) * n)) (2 * (j * n) + c)

/-! ### Boundaries -/

section
variable {l : Layout} {r : Int}

theorem edge_exists (hx : 0 < l.x) (hsq : l.y = l.x) (hr : r ∈ allRanks l) (b : BType)
    (hb : b.dx = 0 ∨ b.dy = 0) : ∃ B, Cube.boundary l b r = .ok (some B) := by
  have hr' := mem_allRanks.1 hr
  obtain ⟨t, j, i, rfl, ho, -⟩ := onTile_of_rank (by omega : 0 < l.y) hx r
  rw [cube_boundary hsq ho b]
  have ⟨a1, a2, a3, a4, a5, a6⟩ := ho
  have : leavesBoth l.x (j + b.dy) (i + b.dx) = false := by
    simp only [leavesBoth, Bool.and_eq_false_iff, Bool.or_eq_false_iff, decide_eq_false_iff_not]
    rcases hb with e | e
    · left; rw [e]; omega
    · right; rw [e]; omega
  rw [this]
  exact ⟨_, rfl⟩

theorem boundaryAt_ok (hx : 0 < l.x) (hsq : l.y = l.x) (hr : r ∈ allRanks l) {b : BType} {B : Boundary}
    (hB : Cube.boundary l b r = .ok (some B)) : Cube.boundaryAt l r b = .ok B := by
  obtain ⟨bs, h1, h2, -⟩ := boundaries_ok hx hsq hr
  have hb := boundary_type hx hsq hB
  unfold Cube.boundaryAt
  rw [h1]
  simp only [Bind.bind, Except.bind]
  cases hf : bs.find? (fun x => decide (x.boundaryType = b)) with
  | none =>
    have := List.find?_eq_none.1 hf B ((h2 B).2 (by rw [hb]; exact hB))
    simp [hb] at this
  | some B' =>
    have e := List.find?_some hf
    simp only [decide_eq_true_eq] at e
    have := (h2 B').1 (List.mem_of_find?_eq_some hf)
    rw [e, hB] at this
    simp only [Except.ok.injEq, Option.some.injEq] at this
    rw [this]

/-- What the rank across the north (east) boundary has there. -/
structure EdgeLink (l : Layout) (r : Int) (n : Int) (d s : Bool) (B C : Boundary) : Prop where
  recv : Cube.boundary l (recvT d) r = .ok (some B)
  send : Cube.boundary l (sendT s) B.toRank = .ok (some C)
  back : C.toRank = r
  rot : C.rotations = if s = d then 0 else if s then 3 else 1
  geo : ∀ t j i, tileIndex l r = .ok t → subtileIndex l r = (j, i) → ∃ t' j' i',
    tileIndex l B.toRank = .ok t' ∧ subtileIndex l B.toRank = (j', i') ∧
    (s = d → (∀ c, edgePos l.x n t j i 1 c d = edgePos l.x n t' j' i' 0 c s) ∧ dirOf t d = dirOf t' s) ∧
    (s ≠ d → (∀ c, edgePos l.x n t j i 1 c d = edgePos l.x n t' j' i' 0 (2 * n - c) s) ∧
      dirOf t d = (dirOf t' s).neg)

theorem face_mod (t : Int) : face (t % 6) = face t := (face_of t (t % 6) rfl).symm

theorem edge_link (hx : 0 < l.x) (hsq : l.y = l.x) (hr : r ∈ allRanks l) (n : Int) (d : Bool) :
    ∃ s B C, EdgeLink l r n d s B C := by
  have hr' := mem_allRanks.1 hr
  obtain ⟨B, hB⟩ := edge_exists hx hsq hr (recvT d) (by cases d <;> decide)
  have hbt := boundary_type hx hsq hB
  obtain ⟨C, hC, c1, c2, c3⟩ := boundary_pair hx hsq hr (by rw [hbt]; exact hB)
  obtain ⟨t0, j0, i0, ht0, ho, er, hb, ho1, hBe⟩ := boundary_some hx hsq hr'.1 hr'.2 hB
  obtain ⟨_, _, _, _, _, _, _, _, hCe⟩ := boundary_some hx hsq
    (mem_allRanks.1 (boundary_toRank hx hsq hB)).1 (mem_allRanks.1 (boundary_toRank hx hsq hB)).2 hC
  have hCrot : C.rotations = 0 ∨ C.rotations = 1 ∨ C.rotations = 3 := by
    rw [hCe]; exact cubeStep_rot _ _ _ _
  subst er
  have ⟨a1, a2, a3, a4, a5, a6⟩ := ho
  have hto : B.toRank = mkRank l ((cubeStep l.x t0 (j0 + (recvT d).dy) (i0 + (recvT d).dx)).1 % 6)
      (cubeStep l.x t0 (j0 + (recvT d).dy) (i0 + (recvT d).dx)).2.1
      (cubeStep l.x t0 (j0 + (recvT d).dy) (i0 + (recvT d).dx)).2.2.1 := by rw [hBe]
  have hrot : B.rotations = (cubeStep l.x t0 (j0 + (recvT d).dy) (i0 + (recvT d).dx)).2.2.2 := by rw [hBe]
  -- finish from the result of the step
  have fin : ∀ (s : Bool) (t' j' i' k : Int),
      cubeStep l.x t0 (j0 + (recvT d).dy) (i0 + (recvT d).dx) = (t', j', i', k) →
      (recvT d).opposite.ccwN k.toNat = sendT s →
      ((4 - k) % 4 = if s = d then 0 else if s then 3 else 1) →
      (s = d → (∀ c, edgePos l.x n t0 j0 i0 1 c d = edgePos l.x n t' j' i' 0 c s) ∧
        dirOf t0 d = dirOf t' s) →
      (s ≠ d → (∀ c, edgePos l.x n t0 j0 i0 1 c d = edgePos l.x n t' j' i' 0 (2 * n - c) s) ∧
        dirOf t0 d = (dirOf t' s).neg) →
      ∃ s B C, EdgeLink l (mkRank l t0 j0 i0) n d s B C := by
    intro s t' j' i' k hst h1 h2 h3 h4
    rw [hst] at hto hrot ho1
    simp only at hto hrot ho1
    refine ⟨s, B, C, hB, ?_, c1, ?_, ?_⟩
    · rw [hbt, hrot, h1] at c3
      rw [c3] at hC
      exact hC
    · rw [hrot] at c2
      rw [← h2]
      omega
    · intro t j i ht hji
      rw [ho.tile] at ht
      rw [ho.sub] at hji
      simp only [Except.ok.injEq] at ht
      simp only [Prod.mk.injEq] at hji
      obtain ⟨rfl, rfl⟩ := hji
      subst ht
      refine ⟨t' % 6, j', i', by rw [hto]; exact ho1.tile, by rw [hto]; exact ho1.sub, ?_, ?_⟩
      · intro e
        have := h3 e
        have e1 : ∀ c, edgePos l.x n (t' % 6) j' i' 0 c s = edgePos l.x n t' j' i' 0 c s := fun c => by
          cases s <;> simp only [edgePos, pos_mod]
        have e2 : dirOf (t' % 6) s = dirOf t' s := by cases s <;> simp only [dirOf, face_mod]
        rw [e2]
        simp only [e1]
        exact this
      · intro e
        have := h4 e
        have e1 : ∀ c, edgePos l.x n (t' % 6) j' i' 0 c s = edgePos l.x n t' j' i' 0 c s := fun c => by
          cases s <;> simp only [edgePos, pos_mod]
        have e2 : dirOf (t' % 6) s = dirOf t' s := by cases s <;> simp only [dirOf, face_mod]
        rw [e2]
        simp only [e1]
        exact this
  cases d with
  | true =>
    have e1 : j0 + (recvT true).dy = j0 + 1 := rfl
    have e2 : i0 + (recvT true).dx = i0 := by show i0 + 0 = i0; omega
    rw [e1, e2] at fin
    by_cases hj : j0 + 1 < l.x
    · refine fin true _ _ _ _ (cs_in a5 a6 (by omega) hj) rfl rfl (fun _ => ⟨fun c => ?_, rfl⟩)
        (fun h => absurd rfl h)
      simp only [edgePos]
      congr 1
      ring
    · have hjx : l.x = j0 + 1 := by omega
      by_cases ht : t0 % 2 = 0
      · obtain ⟨f1, f2, f3⟩ := face_north_even ht
        refine fin false _ _ _ _ (cs_n0 a5 a6 (by omega) ht) rfl rfl (fun h => by simp at h)
          (fun _ => ⟨fun c => ?_, ?_⟩)
        · simp only [edgePos, pos, f1, f2, f3]
          ext <;> simp only [Vec3.add, Vec3.smul, Vec3.neg] <;> rw [hjx] <;> ring
        · simp only [dirOf, f3, Vec3.neg_neg]
      · obtain ⟨f1, f2, f3⟩ := face_north_odd ht
        refine fin true _ _ _ _ (cs_n1 a5 a6 (by omega) ht) rfl rfl (fun _ => ⟨fun c => ?_, ?_⟩)
          (fun h => absurd rfl h)
        · simp only [edgePos, pos, f1, f2, f3]
          ext <;> simp only [Vec3.add, Vec3.smul, Vec3.neg] <;> rw [hjx] <;> ring
        · simp only [dirOf, f2]
  | false =>
    have e1 : j0 + (recvT false).dy = j0 := by show j0 + 0 = j0; omega
    have e2 : i0 + (recvT false).dx = i0 + 1 := rfl
    rw [e1, e2] at fin
    by_cases hj : i0 + 1 < l.x
    · refine fin false _ _ _ _ (cs_in (by omega) hj a3 (by omega)) rfl rfl (fun _ => ⟨fun c => ?_, rfl⟩)
        (fun h => absurd rfl h)
      simp only [edgePos]
      congr 1
      ring
    · have hjx : l.x = i0 + 1 := by omega
      by_cases ht : t0 % 2 = 0
      · obtain ⟨f1, f2, f3⟩ := face_east_even ht
        refine fin false _ _ _ _ (cs_e0 (by omega) (by omega) ht) rfl rfl (fun _ => ⟨fun c => ?_, ?_⟩)
          (fun h => absurd rfl h)
        · simp only [edgePos, pos, f1, f2, f3]
          ext <;> simp only [Vec3.add, Vec3.smul, Vec3.neg] <;> rw [hjx] <;> ring
        · simp only [dirOf, f3]
      · obtain ⟨f1, f2, f3⟩ := face_east_odd ht
        refine fin true _ _ _ _ (cs_e1 (by omega) (by omega) ht) rfl rfl (fun h => by simp at h)
          (fun _ => ⟨fun c => ?_, ?_⟩)
        · simp only [edgePos, pos, f1, f2, f3]
          ext <;> simp only [Vec3.add, Vec3.smul, Vec3.neg] <;> rw [hjx] <;> ring
        · simp only [dirOf, f2, Vec3.neg_neg]

/-- What the south or west edge is sent for. -/
theorem edge_back (hx : 0 < l.x) (hsq : l.y = l.x) (hr : r ∈ allRanks l) (s : Bool) {C : Boundary}
    (hC : Cube.boundary l (sendT s) r = .ok (some C)) :
    (C.rotations = 0 ∨ C.rotations = if s then 3 else 1) ∧
    ∃ d B, Cube.boundary l (recvT d) C.toRank = .ok (some B) ∧ B.toRank = r := by
  have hr' := mem_allRanks.1 hr
  have hbt := boundary_type hx hsq hC
  obtain ⟨B, hB, c1, c2, c3⟩ := boundary_pair hx hsq hr (by rw [hbt]; exact hC)
  obtain ⟨t0, j0, i0, ht0, ho, er, hb, ho1, hCe⟩ := boundary_some hx hsq hr'.1 hr'.2 hC
  have ⟨a1, a2, a3, a4, a5, a6⟩ := ho
  have hrot : C.rotations = (cubeStep l.x t0 (j0 + (sendT s).dy) (i0 + (sendT s).dx)).2.2.2 := by rw [hCe]
  have : C.rotations = 0 ∨ C.rotations = if s then 3 else 1 := by
    rw [hrot]
    cases s with
    | true =>
      show (cubeStep l.x t0 (j0 + -1) (i0 + 0)).2.2.2 = 0 ∨ (cubeStep l.x t0 (j0 + -1) (i0 + 0)).2.2.2 = 3
      unfold cubeStep
      split_ifs <;> simp <;> omega
    | false =>
      show (cubeStep l.x t0 (j0 + 0) (i0 + -1)).2.2.2 = 0 ∨ (cubeStep l.x t0 (j0 + 0) (i0 + -1)).2.2.2 = 1
      unfold cubeStep
      split_ifs <;> simp <;> omega
  refine ⟨this, ?_⟩
  rw [hbt] at c3
  have hT : ∃ d, B.boundaryType = recvT d := by
    rw [c3]
    rcases this with e | e <;> rw [e]
    · exact ⟨s, by cases s <;> rfl⟩
    · exact ⟨!s, by cases s <;> rfl⟩
  obtain ⟨d, hd⟩ := hT
  exact ⟨d, B, by rw [← hd]; exact hB, c1⟩

theorem edge_distinct (hx : 0 < l.x) (hsq : l.y = l.x) (hr : r ∈ allRanks l) {b b' : BType}
    (hbb : b ≠ b') {B B' : Boundary} (h : Cube.boundary l b r = .ok (some B))
    (h' : Cube.boundary l b' r = .ok (some B')) : B.toRank ≠ B'.toRank := fun e =>
  hbb (by
    have hr' := mem_allRanks.1 hr
    have h1 := boundary_type hx hsq h
    have h2 := boundary_type hx hsq h'
    exact (C09_distinct_neighbours l hx hsq r hr'.1 hr'.2 _ _ B B' h h').2 e)

end

/-! ### Edges of one component -/

/-- One component of a field that can be synchronised. -/
structure CompOK (q : Quantity α) (d : Bool) (ky kx : Nat) (n : Int) : Prop where
  wf : q.WF
  cells : 0 < n
  lead : ky + kx = 1
  axes : EdgeAxes q (pax ky kx d) (pax kx ky d) (dimI d) (dimC d)
  ext : q.e (pax ky kx d) = n + 1
  ext' : q.e (pax kx ky d) = n

section
variable {q : Quantity α} {d : Bool} {ky kx : Nat} {n : Int}

theorem CompOK.lead' (H : CompOK q d ky kx n) : pax ky kx d + pax kx ky d = 1 := by
  have := H.lead; cases d <;> simp only [pax] <;> omega

theorem CompOK.nd (H : CompOK q d ky kx n) : 2 ≤ q.ndim := by
  have := H.lead'; have := H.axes.plt; have := H.axes.plt'; omega

theorem CompOK.inside (H : CompOK q d ky kx n) :
    0 ≤ q.o (pax ky kx d) ∧ q.o (pax ky kx d) + n + 1 ≤ q.n (pax ky kx d) ∧ 0 < n := by
  have := H.wf.inside _ H.axes.plt
  have := H.ext
  exact ⟨by omega, by omega, H.cells⟩

/-- First and last position on the axis across the edge. -/
def loPos (q : Quantity α) (ky kx : Nat) (d : Bool) : Nat := (q.o (pax ky kx d)).toNat
def hiPos (q : Quantity α) (ky kx : Nat) (d : Bool) : Nat := (q.o (pax ky kx d) + q.e (pax ky kx d) - 1).toNat

def loEdge (q : Quantity α) (ky kx : Nat) (d : Bool) : NDArray α :=
  q.data.view (edgeRs q (pax ky kx d) (loPos q ky kx d))

theorem CompOK.lo (H : CompOK q d ky kx n) :
    edgeView q .sw (dimI d) 0 (dimC d) = .ok (loEdge q ky kx d) := by
  obtain ⟨h1, h2, h3⟩ := H.inside
  refine (H.axes.edge H.wf .sw 0 (cc := loPos q ky kx d) ?_ ?_ ?_).1
  · have e := H.axes.dp_eq
    simp only [viewBase, cornerBase]
    rw [e]
    cases d <;> simp [dirAlong, dimI, IsX, IsY, BType.dx, BType.dy, loPos] <;> omega
  · unfold loPos; omega
  · have e := H.axes.dp_eq'
    simp only [viewBase, cornerBase]
    rw [e]
    cases d <;> simp [dirAlong, dimC, IsX, IsY, BType.dx, BType.dy]

theorem CompOK.hi (H : CompOK q d ky kx n) :
    ∃ ix, edgeIndex q (hiC d) (dimI d) (-1) (dimC d) = .ok ix ∧
      resolveAll ix q.data.shape = .ok (edgeRs q (pax ky kx d) (hiPos q ky kx d)) := by
  obtain ⟨h1, h2, h3⟩ := H.inside
  have he := H.ext
  refine (H.axes.edge H.wf (hiC d) (-1) (cc := hiPos q ky kx d) ?_ ?_ ?_).2
  · have e := H.axes.dp_eq
    have : (viewBase q (pax ky kx d) (hiC d)).1 = q.o (pax ky kx d) + q.e (pax ky kx d) := by
      cases d <;> simp only [hiC, viewBase, cornerBase] <;> rw [e] <;>
        simp [dirAlong, dimI, IsX, IsY, BType.dx, BType.dy]
    rw [this]
    unfold hiPos; omega
  · unfold hiPos; omega
  · have e := H.axes.dp_eq'
    cases d <;> simp only [hiC, viewBase, cornerBase] <;> rw [e] <;>
      simp [dirAlong, dimC, IsX, IsY, BType.dx, BType.dy]

theorem CompOK.shape (H : CompOK q d ky kx n) (c : Nat) :
    viewShape (edgeRs q (pax ky kx d) c) = n.toNat :: tab (q.ndim - 2) fun k => (q.e (k + 2)).toNat := by
  rw [edge_shape q H.lead' H.nd, H.ext']

/-- The array sent over the edge. -/
def edgeArr [Neg α] (a : NDArray α) (k : Int) : NDArray α :=
  if k = 0 then a else (a.flip 0).map Neg.neg

theorem edgeArr_shape [Neg α] (a : NDArray α) (k : Int) : (edgeArr a k).shape = a.shape := by
  unfold edgeArr; split <;> rfl

theorem CompOK.south [Neg α] (H : CompOK q true ky kx n) {C : Boundary}
    (hC : C.rotations = 0 ∨ C.rotations = 3) :
    southEdgeData q C = .ok (edgeArr (loEdge q ky kx true) C.rotations) := by
  unfold southEdgeData
  have := H.lo
  simp only [dimI, dimC] at this
  rw [this]
  have hs : 0 < (loEdge q ky kx true).shape.length := by
    unfold loEdge NDArray.view; simp only [H.shape]; simp
  simp only [Bind.bind, Except.bind]
  unfold rotateScalar
  rcases hC with e | e <;> rw [e]
  · simp [pymod, edgeArr, Pure.pure, Except.pure]
  · have : pymod (-3) 4 = 1 := by decide
    simp only [this]
    simp [findAxes, edgeArr, hs, Pure.pure, Except.pure, X_DIMS, Y_DIMS]

theorem CompOK.west [Neg α] (H : CompOK q false ky kx n) {C : Boundary}
    (hC : C.rotations = 0 ∨ C.rotations = 1) :
    westEdgeData q C = .ok (edgeArr (loEdge q ky kx false) C.rotations) := by
  unfold westEdgeData
  have := H.lo
  simp only [dimI, dimC] at this
  rw [this]
  have hs : 0 < (loEdge q ky kx false).shape.length := by
    unfold loEdge NDArray.view; simp only [H.shape]; simp
  simp only [Bind.bind, Except.bind]
  unfold rotateScalar
  rcases hC with e | e <;> rw [e]
  · simp [pymod, edgeArr, Pure.pure, Except.pure]
  · have : pymod (-1) 4 = 3 := by decide
    simp only [this]
    simp [findAxes, edgeArr, hs, Pure.pure, Except.pure, X_DIMS, Y_DIMS]

end

end FV3
