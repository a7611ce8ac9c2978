import Verif.Proofs.HaloValue

/-!
# What a vector halo update stores
-/

namespace FV3
variable {α : Type}

section
variable {l : Layout} {m m' : Int → Mem α} {x y : Nat} {ky kx : Nat} {n h : Int}

/-- Value of a halo point after an update, from component `c` of the neighbour. -/
structure StoredFrom (m m' : Int → Mem α) (ky kx : Nat) (n h : Int) (r : Int) (q : Nat)
    (B : Boundary) (c : Nat) (f : α → α) (idx : List Nat) : Prop where
  inn : InRecv (m r q) B.boundaryType h idx
  mat : Match (m r q) (m B.toRank c) ky kx B.rotations
  src : ∃ src, (m B.toRank c).InCompute src ∧
    (m' r q).data.get idx = f ((m B.toRank c).data.get src) ∧
    (∀ k, k < (m r q).ndim → k ≠ ky → k ≠ kx → (m B.toRank c).rel src k = (m r q).rel idx k) ∧
    ((m B.toRank c).rel src kx, (m B.toRank c).rel src ky) =
      turnPt B.rotations n (overlapOf ((m r q).d kx)) (overlapOf ((m r q).d ky))
        ((m r q).rel idx kx - B.boundaryType.dx * n) ((m r q).rel idx ky - B.boundaryType.dy * n)

variable [Neg α]

/-- What waiting for an update stores, element by element: the update was started with quantities `m`, and the
quantities are `p` when its messages are stored. -/
theorem vector_wait_value (hx : 0 < l.x) (hsq : l.y = l.x) (hh : 0 < h) (hn : h ≤ n) (hxy : x ≠ y)
    (S : VectorField l m x y ky kx n h) {p p' : Int → Mem α} {r : Int}
    (hp : ∀ q', SameMeta (m r q') (p r q')) (hu : WaitStep l (.vector x y h) m p p') (hr : r ∈ allRanks l) :
    (∀ q', SameMeta (p r q') (p' r q')) ∧
    (∀ q', q' ≠ x → q' ≠ y → ∀ idx, (p' r q').data.get idx = (p r q').data.get idx) ∧
    (∀ idx, idx.length = (m r x).ndim →
      ((∀ B, Cube.boundary l B.boundaryType r = .ok (some B) →
          ¬ InRecv (m r x) B.boundaryType h idx) ∧
        (p' r x).data.get idx = (p r x).data.get idx) ∨
      ∃ B, Cube.boundary l B.boundaryType r = .ok (some B) ∧
        (B.rotations = 0 ∨ B.rotations = 1 ∨ B.rotations = 3) ∧
        StoredFrom m p' ky kx n h r x B (if B.rotations = 0 then x else y)
          (if B.rotations = 3 then Neg.neg else id) idx) ∧
    (∀ idx, idx.length = (m r y).ndim →
      ((∀ B, Cube.boundary l B.boundaryType r = .ok (some B) →
          ¬ InRecv (m r y) B.boundaryType h idx) ∧
        (p' r y).data.get idx = (p r y).data.get idx) ∨
      ∃ B, Cube.boundary l B.boundaryType r = .ok (some B) ∧
        (B.rotations = 0 ∨ B.rotations = 1 ∨ B.rotations = 3) ∧
        StoredFrom m p' ky kx n h r y B (if B.rotations = 0 then y else x)
          (if B.rotations = 1 then Neg.neg else id) idx) := by
  obtain ⟨i, hi, hd⟩ := hu r hr
  have Hx := S.readyX r hr
  have Hy := S.readyY r hr
  obtain ⟨i', hi', p1, -⟩ := vector_in (mem := m r) hx hsq hr hh Hx Hy
  have : i' = i := by
    have e : (Op.vector x y h : Op α).inn l r (m r) = vectorIn l x y h r (m r) := rfl
    rw [e, hi'] at hi
    exact Except.ok.inj hi
  subst this
  obtain ⟨g1, g2⟩ := deliver_get hd
  rw [cover_same hp] at g2
  -- what arrives
  have arr : ∀ B, Cube.boundary l B.boundaryType r = .ok (some B) → ∀ off a,
      packedFor l (.vector x y h) m r B.toRank off = some a →
      (B.rotations = 0 ∨ B.rotations = 1 ∨ B.rotations = 3) ∧ ∃ k' u v,
        k' % 4 = B.rotations ∧
        (sendArr (m B.toRank x) (B.boundaryType.opposite.ccwN B.rotations.toNat) h).IsTurn ky kx k' u ∧
        (sendArr (m B.toRank y) (B.boundaryType.opposite.ccwN B.rotations.toNat) h).IsTurn ky kx k' v ∧
        (off = 0 ∧ a = (if B.rotations = 0 then u else v).map (if B.rotations = 3 then Neg.neg else id) ∨
         off = 1 ∧ a = (if B.rotations = 0 then v else u).map (if B.rotations = 1 then Neg.neg else id)) := by
    intro B hB off a ha
    have hr' := boundary_toRank hx hsq hB
    obtain ⟨o, ho, o1, -⟩ := vector_out (mem := m B.toRank) hx hsq hr' hh hn (S.readyX _ hr')
      (S.readyY _ hr') (S.ndim _ hr')
    simp only [packedFor, if_pos hr'] at ha
    rw [show (Op.vector x y h : Op α).out l B.toRank (m B.toRank) = .ok o by
      simp only [Op.out]; rw [if_neg (by omega)]; exact ho] at ha
    simp only at ha
    obtain ⟨z, hz, z1, z2, rfl⟩ := arrayFor_some ha
    obtain ⟨C, u, v, hC, hu, hv, hzz⟩ := o1 z hz
    have c1 : C.toRank = r := by rcases hzz with e | e <;> rw [e] at z1 <;> exact z1
    obtain ⟨e1, e2, e3⟩ := pair_unique hx hsq hr hB hC c1
    rw [e1] at hu hv
    refine ⟨e3, _, u, v, e2, hu, hv, ?_⟩
    rw [turnVec_eq e3 e2] at hzz
    rcases hzz with e | e
    · exact Or.inl ⟨by rw [← z2, e], by rw [e]⟩
    · exact Or.inr ⟨by rw [← z2, e], by rw [e]⟩
  have R : ∀ (r' : Int) (c : Prop) [Decidable c] a b, r' ∈ allRanks l → (a = x ∨ a = y) → (b = x ∨ b = y) →
      HaloReady (m r' (if c then a else b)) ky kx n h := by
    intro r' c _ a b hr' ha hb
    split
    · rcases ha with rfl | rfl <;> [exact S.readyX _ hr'; exact S.readyY _ hr']
    · rcases hb with rfl | rfl <;> [exact S.readyX _ hr'; exact S.readyY _ hr']
  refine ⟨g1, ?_, ?_, ?_⟩
  · intro q' hqx hqy idx
    rcases g2 q' idx with ⟨-, e⟩ | ⟨z, hz, e, -⟩
    · exact e
    · obtain ⟨B, -, rfl | rfl⟩ := (p1 z).1 hz
      · exact absurd e.symm hqx
      · exact absurd e.symm hqy
  · intro idx hl
    rcases g2 x idx with ⟨hc, e⟩ | ⟨z, hz, hzq, rel, a, hc, ha, e⟩
    · refine Or.inl ⟨fun B hB hin => ?_, e⟩
      have := hc _ ((p1 _).2 ⟨B, hB, Or.inl rfl⟩) rfl
      rw [(cover_halo Hx hh _ _ _ _ hl).1 hin] at this
      simp at this
    · obtain ⟨B, hB, rfl | rfl⟩ := (p1 z).1 hz
      · have hr' := boundary_toRank hx hsq hB
        have hin : InRecv (m r x) B.boundaryType h idx := by
          by_contra hin
          rw [(cover_halo Hx hh _ _ _ _ hl).2 hin] at hc
          simp at hc
        rw [(cover_halo Hx hh _ _ _ _ hl).1 hin] at hc
        simp only [Option.some.injEq] at hc
        subst hc
        obtain ⟨e3, k', u, v, e2, hu, hv, ⟨-, rfl⟩ | ⟨h0, -⟩⟩ := arr B hB _ _ ha
        · obtain ⟨M1, -⟩ := S.matchX hr hr' (mem := m r) (mem' := m B.toRank)
            (fun _ => SameMeta.refl _) (fun _ => SameMeta.refl _) e3
          obtain ⟨src, s1, s2, s3, s4⟩ := exchange_value hh hn Hx (R _ _ x y hr' (by simp) (by simp))
            M1 e3 e2 (a := if B.rotations = 0 then u else v) (by
              rw [apply_ite (m B.toRank), sendArr_if]; exact IsTurn_if hu hv) hin
          refine Or.inr ⟨B, hB, e3, hin, M1, src, s1, ?_, s3, s4⟩
          rw [e]
          show (if B.rotations = 3 then Neg.neg else id) _ = _
          rw [s2]
        · simp at h0
      · exact absurd hzq.symm hxy
  · intro idx hl
    rcases g2 y idx with ⟨hc, e⟩ | ⟨z, hz, hzq, rel, a, hc, ha, e⟩
    · refine Or.inl ⟨fun B hB hin => ?_, e⟩
      have := hc _ ((p1 _).2 ⟨B, hB, Or.inr rfl⟩) rfl
      rw [(cover_halo Hy hh _ _ _ _ hl).1 hin] at this
      simp at this
    · obtain ⟨B, hB, rfl | rfl⟩ := (p1 z).1 hz
      · exact absurd hzq hxy
      · have hr' := boundary_toRank hx hsq hB
        have hin : InRecv (m r y) B.boundaryType h idx := by
          by_contra hin
          rw [(cover_halo Hy hh _ _ _ _ hl).2 hin] at hc
          simp at hc
        rw [(cover_halo Hy hh _ _ _ _ hl).1 hin] at hc
        simp only [Option.some.injEq] at hc
        subst hc
        obtain ⟨e3, k', u, v, e2, hu, hv, ⟨h0, -⟩ | ⟨-, rfl⟩⟩ := arr B hB _ _ ha
        · simp at h0
        · obtain ⟨-, M1⟩ := S.matchX hr hr' (mem := m r) (mem' := m B.toRank)
            (fun _ => SameMeta.refl _) (fun _ => SameMeta.refl _) e3
          obtain ⟨src, s1, s2, s3, s4⟩ := exchange_value hh hn Hy (R _ _ y x hr' (by simp) (by simp))
            M1 e3 e2 (a := if B.rotations = 0 then v else u) (by
              rw [apply_ite (m B.toRank), sendArr_if]; exact IsTurn_if hv hu) hin
          refine Or.inr ⟨B, hB, e3, hin, M1, src, s1, ?_, s3, s4⟩
          rw [e]
          show (if B.rotations = 1 then Neg.neg else id) _ = _
          rw [s2]

theorem vector_step_value (hx : 0 < l.x) (hsq : l.y = l.x) (hh : 0 < h) (hn : h ≤ n) (hxy : x ≠ y)
    (S : VectorField l m x y ky kx n h) (hu : UpdateStep l (.vector x y h) m m') {r : Int}
    (hr : r ∈ allRanks l) :
    (∀ q', SameMeta (m r q') (m' r q')) ∧
    (∀ q', q' ≠ x → q' ≠ y → ∀ idx, (m' r q').data.get idx = (m r q').data.get idx) ∧
    (∀ idx, idx.length = (m r x).ndim →
      ((∀ B, Cube.boundary l B.boundaryType r = .ok (some B) →
          ¬ InRecv (m r x) B.boundaryType h idx) ∧
        (m' r x).data.get idx = (m r x).data.get idx) ∨
      ∃ B, Cube.boundary l B.boundaryType r = .ok (some B) ∧
        (B.rotations = 0 ∨ B.rotations = 1 ∨ B.rotations = 3) ∧
        StoredFrom m m' ky kx n h r x B (if B.rotations = 0 then x else y)
          (if B.rotations = 3 then Neg.neg else id) idx) ∧
    (∀ idx, idx.length = (m r y).ndim →
      ((∀ B, Cube.boundary l B.boundaryType r = .ok (some B) →
          ¬ InRecv (m r y) B.boundaryType h idx) ∧
        (m' r y).data.get idx = (m r y).data.get idx) ∨
      ∃ B, Cube.boundary l B.boundaryType r = .ok (some B) ∧
        (B.rotations = 0 ∨ B.rotations = 1 ∨ B.rotations = 3) ∧
        StoredFrom m m' ky kx n h r y B (if B.rotations = 0 then y else x)
          (if B.rotations = 1 then Neg.neg else id) idx) :=
  vector_wait_value hx hsq hh hn hxy S (fun _ => SameMeta.refl _) (fun r hr => (hu r hr).2) hr

end

end FV3
