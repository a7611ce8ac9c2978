import Verif.Spec.Errors
import Verif.Proofs.Boundaries
import Verif.Proofs.Sync
import Verif.Props.Rotate
import Verif.Props.BoundarySlice

/-!
# Halo updates with too many halo points
-/

namespace FV3
variable {α : Type}

section
variable {M R S : Type}

theorem Proc.OnlySends.bind {P : S → Prop} {Q : R → Prop} {p : Proc M R} {f : R → Proc M S}
    (h : p.OnlySends Q) (hf : ∀ x, Q x → (f x).OnlySends P) : (p.bind f).OnlySends P := by
  induction h with
  | ret h => exact hf _ h
  | isend h ih => exact .isend fun i => ih i

theorem Proc.OnlySends.mono {P Q : R → Prop} {p : Proc M R} (h : p.OnlySends Q)
    (hf : ∀ x, Q x → P x) : p.OnlySends P := by
  induction h with
  | ret h => exact .ret (hf _ h)
  | isend h ih => exact .isend fun i => ih i

/-- In a network, whatever the other ranks do, such a rank is never blocked and ends with a
result satisfying `P`. -/
theorem Proc.OnlySends.run {P : R → Prop} {buf : Buffering} {r : Int} (sched : List Int) :
    ∀ {N T : Net M R}, (N.procs r).OnlySends P → N.run buf sched = some T →
      (T.procs r).OnlySends P := by
  induction sched with
  | nil => intro N T h e; simp only [Net.run, Option.some.injEq] at e; subst e; exact h
  | cons a as ih =>
    intro N T h e
    simp only [Net.run] at e
    cases hs : N.step buf a with
    | none => rw [hs] at e; simp at e
    | some N1 =>
      rw [hs] at e
      refine ih (N := N1) ?_ e
      unfold Net.step at hs
      by_cases har : r = a
      · subst har
        generalize N.procs r = p at h hs
        cases h with
        | ret h => simp at hs
        | isend h =>
          simp only [Option.some.injEq] at hs
          subst hs
          simp only [updRank, if_true]
          exact h _
      · have : N1.procs r = N.procs r := by
          split at hs
          · simp at hs
          · simp only [Option.some.injEq] at hs; subst hs; simp [updRank, har]
          · split at hs
            · simp at hs
            · simp only [Option.some.injEq] at hs; subst hs; simp [updRank, har]
          · split at hs
            · simp only [Option.some.injEq] at hs; subst hs; simp [updRank, har]
            · simp at hs
        rw [this]; exact h

theorem Proc.OnlySends.not_stuck {P : R → Prop} {buf : Buffering} {r : Int} {N : Net M R}
    (h : (N.procs r).OnlySends P) (hs : N.step buf r = none) : ∃ x, N.procs r = .ret x ∧ P x := by
  unfold Net.step at hs
  generalize N.procs r = p at h hs
  cases h with
  | ret h => exact ⟨_, rfl, h⟩
  | isend h => simp at hs

end

/-- No effect but sends; the only exception is OutOfBoundsError. -/
def CalmAt {A : Type} (s : RankState α) (c : CommM α A) : Prop :=
  (c s).OnlySends fun x => x.2 = s ∧ ∀ e, x.1 = .error e → e = .outOfBounds

/-- No effect but sends, then OutOfBoundsError. -/
def FailsAt {A : Type} (s : RankState α) (c : CommM α A) : Prop :=
  (c s).OnlySends fun x => x.2 = s ∧ x.1 = .error .outOfBounds

section
variable {A B : Type} {s : RankState α}

theorem FailsAt.calm {c : CommM α A} (h : FailsAt s c) : CalmAt s c :=
  Proc.OnlySends.mono h fun x hx => ⟨hx.1, fun e he => by rw [hx.2] at he; simpa using he.symm⟩

theorem CalmAt.bind {c : CommM α A} {f : A → CommM α B} (h : CalmAt s c) (hf : ∀ a, CalmAt s (f a)) :
    CalmAt s (c >>= f) := by
  refine Proc.OnlySends.bind h fun x hx => ?_
  obtain ⟨x1, x2⟩ := x
  obtain ⟨rfl, h2⟩ := hx
  cases x1 with
  | ok a => exact hf a
  | error e => exact .ret ⟨rfl, fun e' he => by rw [← h2 e rfl]; simpa using he.symm⟩

theorem FailsAt.bind_left {c : CommM α A} {f : A → CommM α B} (h : FailsAt s c) :
    FailsAt s (c >>= f) := by
  refine Proc.OnlySends.bind h fun x hx => ?_
  obtain ⟨x1, x2⟩ := x
  obtain ⟨rfl, h2⟩ := hx
  simp only at h2
  subst h2
  exact .ret ⟨rfl, rfl⟩

theorem FailsAt.bind_right {c : CommM α A} {f : A → CommM α B} (h : CalmAt s c)
    (hf : ∀ a, FailsAt s (f a)) : FailsAt s (c >>= f) := by
  refine Proc.OnlySends.bind h fun x hx => ?_
  obtain ⟨x1, x2⟩ := x
  obtain ⟨rfl, h2⟩ := hx
  cases x1 with
  | ok a => exact hf a
  | error e => exact .ret ⟨rfl, by rw [h2 e rfl]⟩

theorem calm_pure (a : A) : CalmAt s (Pure.pure a) := .ret ⟨rfl, fun _ h => by simp at h⟩

theorem calm_lift {x : Py A} (h : ∀ e, x = .error e → e = .outOfBounds) : CalmAt s (CommM.lift x) :=
  .ret ⟨rfl, h⟩

theorem calm_quantity {q : Nat} {f : Quantity α → CommM α B} (h : CalmAt s (f (s.mem q))) :
    CalmAt s (CommM.quantity q >>= f) := h

theorem fails_quantity {q : Nat} {f : Quantity α → CommM α B} (h : FailsAt s (f (s.mem q))) :
    FailsAt s (CommM.quantity q >>= f) := h

theorem calm_lift_bind {x : Py A} {f : A → CommM α B} (he : ∀ e, x = .error e → e = .outOfBounds)
    (h : ∀ a, x = .ok a → CalmAt s (f a)) : CalmAt s (CommM.lift x >>= f) := by
  cases x with
  | ok a => exact h a rfl
  | error e =>
    have := he e rfl
    subst this
    exact .ret ⟨rfl, fun e' he => by simpa using he.symm⟩

theorem fails_lift_bind {x : Py A} {f : A → CommM α B} (he : x = .error .outOfBounds) :
    FailsAt s (CommM.lift x >>= f) := by
  subst he
  exact .ret ⟨rfl, rfl⟩

theorem calm_isend (dst : Int) (tag : Nat) (a : NDArray α) : CalmAt s (isend dst tag a) :=
  .isend fun _ => .ret ⟨rfl, fun _ h => by simp at h⟩

theorem calm_forEach {f : A → CommM α B} {l : List A} (h : ∀ a ∈ l, CalmAt s (f a)) :
    CalmAt s (CommM.forEach f l) := by
  induction l with
  | nil => exact calm_pure _
  | cons a l ih =>
    exact (h a List.mem_cons_self).bind fun b =>
      (ih fun a' h' => h a' (List.mem_cons_of_mem _ h')).bind fun _ => calm_pure _

theorem fails_forEach {f : A → CommM α B} {l : List A} (h : ∀ a ∈ l, CalmAt s (f a))
    (hx : ∃ a ∈ l, FailsAt s (f a)) : FailsAt s (CommM.forEach f l) := by
  induction l with
  | nil => obtain ⟨a, ha, -⟩ := hx; simp at ha
  | cons a l ih =>
    obtain ⟨a', ha', hf⟩ := hx
    rcases List.mem_cons.1 ha' with rfl | ha'
    · exact hf.bind_left
    · exact .bind_right (h a List.mem_cons_self) fun b =>
        (ih (fun a' h' => h a' (List.mem_cons_of_mem _ h')) ⟨a', ha', hf⟩).bind_left

end

section
variable {l : Layout} {r : Int} {s : RankState α} {q : Nat} {ky kx : Nat} {h : Int}

theorem sendView_calm (q : Quantity α) (hw : q.WF) (hh : 0 < h) (b : BType) :
    (sendView q b h = .ok (sendArr q b h)) ∨ sendView q b h = .error .outOfBounds := by
  by_cases hf : SendFits q b h
  · exact .inl (sendView_eq q hw b (by omega) hf)
  · exact .inr (sendView_error q hw.toLens b hf)

theorem isendHalos_calm (hx : 0 < l.x) (hsq : l.y = l.x) (hr : r ∈ allRanks l)
    (hw : (s.mem q).WF) (hA : HAxes (s.mem q).dims ky kx) (hh : 0 < h) (tag : Nat) :
    CalmAt s (isendHalos l r q h tag) := by
  obtain ⟨bs, hb, -⟩ := boundaries_ok hx hsq hr
  unfold isendHalos
  rw [hb]
  refine calm_lift_bind (by simp) fun bs' _ => calm_forEach fun B _ => calm_quantity ?_
  refine calm_lift_bind (fun e he => ?_) fun a ha => ?_
  · rcases sendView_calm (s.mem q) hw hh B.boundaryType with h1 | h1 <;> rw [h1] at he
    · simp at he
    · simpa using he.symm
  · rcases sendView_calm (s.mem q) hw hh B.boundaryType with h1 | h1 <;> rw [h1] at ha
    · simp only [Except.ok.injEq] at ha
      subst ha
      obtain ⟨a, h2, -⟩ := rotateScalar_eq (sendArr (s.mem q) B.boundaryType h) (s.mem q).dims hA
        (by simp [sendArr, Quantity.ndim]) (-B.rotations)
      rw [h2]
      exact calm_lift_bind (by simp) fun a _ => calm_isend _ _ _
    · simp at ha

theorem irecvHalos_calm (hx : 0 < l.x) (hsq : l.y = l.x) (hr : r ∈ allRanks l)
    (hw : (s.mem q).Lens) (tag : Nat) :
    CalmAt s (irecvHalos l r q h tag) := by
  obtain ⟨bs, hb, -⟩ := boundaries_ok hx hsq hr
  unfold irecvHalos
  rw [hb]
  refine calm_lift_bind (by simp) fun bs' _ => calm_forEach fun B _ => calm_quantity ?_
  refine calm_lift_bind (fun e he => ?_) fun a ha => calm_pure _
  rw [recvIndex_eq _ hw] at he
  split at he
  · simp at he
  · simpa using he.symm

/-- If the halo does not fit, it does not fit across one of the four edges. -/
theorem not_fits (qq : Quantity α) (hA : HAxes qq.dims ky kx)
    (hf : ¬ HaloFits qq ky kx h) :
    ∃ b : BType, (b.dx = 0 ∨ b.dy = 0) ∧ ¬ RecvFits qq b h := by
  have key : ∀ b : BType, RecvFits qq b h →
      (b.dx = -1 → h ≤ qq.o kx) ∧ (b.dx = 1 → qq.o kx + qq.e kx + h ≤ qq.n kx) ∧
      (b.dy = -1 → h ≤ qq.o ky) ∧ (b.dy = 1 → qq.o ky + qq.e ky + h ≤ qq.n ky) := by
    intro b hb
    have h1 := hb kx hA.xlt
    have h2 := hb ky hA.ylt
    unfold recvRange at h1 h2
    rw [dirAlong_x hA] at h1
    rw [dirAlong_y hA] at h2
    refine ⟨fun e => ?_, fun e => ?_, fun e => ?_, fun e => ?_⟩
    · simp only [e, if_true] at h1; omega
    · simp [e] at h1; omega
    · simp only [e, if_true] at h2; omega
    · simp [e] at h2; omega
  by_contra hn
  have hall : ∀ b : BType, (b.dx = 0 ∨ b.dy = 0) → RecvFits qq b h := fun b hb => by
    by_contra h'; exact hn ⟨b, hb, h'⟩
  apply hf
  exact ⟨⟨(key .south (hall .south (.inl rfl))).2.2.1 rfl, (key .north (hall .north (.inl rfl))).2.2.2 rfl⟩,
    (key .west (hall .west (.inr rfl))).1 rfl, (key .east (hall .east (.inr rfl))).2.1 rfl⟩

theorem irecvHalos_fails (hx : 0 < l.x) (hsq : l.y = l.x) (hr : r ∈ allRanks l)
    (hw : (s.mem q).Lens) (hA : HAxes (s.mem q).dims ky kx) (hf : ¬ HaloFits (s.mem q) ky kx h)
    (tag : Nat) : FailsAt s (irecvHalos l r q h tag) := by
  obtain ⟨bs, hb, hm, -⟩ := boundaries_ok hx hsq hr
  obtain ⟨b, hbd, hnf⟩ := not_fits (s.mem q) hA hf
  obtain ⟨B, hB⟩ := edge_exists hx hsq hr b hbd
  have hBt : B.boundaryType = b := boundary_type hx hsq hB
  unfold irecvHalos
  rw [hb]
  show FailsAt s (CommM.forEach _ bs)
  refine fails_forEach (fun B _ => calm_quantity ?_) ⟨B, (hm B).2 (by rw [hBt]; exact hB), fails_quantity ?_⟩
  · refine calm_lift_bind (fun e he => ?_) fun a ha => calm_pure _
    rw [recvIndex_eq _ hw] at he
    split at he
    · simp at he
    · simpa using he.symm
  · refine fails_lift_bind ?_
    rw [recvIndex_eq _ hw, hBt, if_neg hnf]

theorem startHalo_fails (hx : 0 < l.x) (hsq : l.y = l.x) (hr : r ∈ allRanks l)
    (hw : (s.mem q).WF) (hA : HAxes (s.mem q).dims ky kx) (hh : 0 < h)
    (hf : ¬ HaloFits (s.mem q) ky kx h) :
    (startHaloUpdate l r q h s).OnlySends fun x =>
      x.1 = .error .outOfBounds ∧ x.2 = { s with lastTag := s.lastTag + 1 } := by
  unfold startHaloUpdate
  rw [if_neg (by omega)]
  have := FailsAt.bind_right (s := { s with lastTag := s.lastTag + 1 }) (B := Request)
    (f := fun sends => do
      let recvs ← irecvHalos l r q h (s.lastTag + 1)
      return ⟨sends, recvs⟩)
    (isendHalos_calm (s := { s with lastTag := s.lastTag + 1 }) hx hsq hr hw hA hh (s.lastTag + 1))
    fun _ => (irecvHalos_fails (s := { s with lastTag := s.lastTag + 1 }) hx hsq hr hw.toLens hA hf (s.lastTag + 1)).bind_left
  refine Proc.OnlySends.mono this fun x hx => ?_
  exact ⟨hx.2, hx.1⟩

variable [Neg α] {x y : Nat}

theorem isendVector_calm (hx : 0 < l.x) (hsq : l.y = l.x) (hr : r ∈ allRanks l)
    (hwx : (s.mem x).WF) (hwy : (s.mem y).WF) (hn : (s.mem y).ndim = (s.mem x).ndim)
    (hA : HAxes (s.mem x).dims ky kx) (hh : 0 < h) (t1 t2 : Nat) :
    CalmAt s (isendVectorHalos l r x y h t1 t2) := by
  obtain ⟨bs, hb, -⟩ := boundaries_ok hx hsq hr
  unfold isendVectorHalos
  rw [hb]
  have hv : ∀ (qq : Quantity α) (hw : qq.WF) (b : BType) (e : PyErr), sendView qq b h = .error e →
      e = .outOfBounds := fun qq hw b e he => by
    rcases sendView_calm qq hw hh b with h1 | h1 <;> rw [h1] at he
    · simp at he
    · simpa using he.symm
  have hv' : ∀ (qq : Quantity α) (hw : qq.WF) (b : BType) a, sendView qq b h = .ok a →
      a = sendArr qq b h := fun qq hw b e he => by
    rcases sendView_calm qq hw hh b with h1 | h1 <;> rw [h1] at he
    · simpa using he.symm
    · simp at he
  refine calm_lift_bind (by simp) fun bs' _ => CalmAt.bind (calm_forEach fun B _ => ?_) fun _ => calm_pure _
  refine calm_quantity (calm_quantity ?_)
  refine calm_lift_bind (hv _ hwx _) fun a ha => calm_lift_bind (hv _ hwy _) fun b hb => ?_
  rw [hv' _ hwx _ _ ha, hv' _ hwy _ _ hb]
  obtain ⟨u, v, -, -, e⟩ := C14_vector_turns (sendArr (s.mem x) B.boundaryType h)
    (sendArr (s.mem y) B.boundaryType h) (s.mem x).dims ky kx hA (by simp [sendArr, Quantity.ndim])
    (by simp only [sendArr, length_tab]; exact hn) (-B.rotations)
  rw [e]
  exact calm_lift_bind (by simp) fun xy _ => (calm_isend _ _ _).bind fun _ => (calm_isend _ _ _).bind
    fun _ => calm_pure _

theorem startVector_fails (hx : 0 < l.x) (hsq : l.y = l.x) (hr : r ∈ allRanks l)
    (hwx : (s.mem x).WF) (hwy : (s.mem y).WF)
    (hAx : HAxes (s.mem x).dims ky kx) (hAy : HAxes (s.mem y).dims ky kx)
    (hn : (s.mem y).ndim = (s.mem x).ndim) (hh : 0 < h)
    (hf : ¬ (HaloFits (s.mem x) ky kx h ∧ HaloFits (s.mem y) ky kx h)) :
    (startVectorHaloUpdate l r x y h s).OnlySends fun x =>
      x.1 = .error .outOfBounds ∧ x.2 = { s with lastTag := s.lastTag + 2 } := by
  unfold startVectorHaloUpdate
  rw [if_neg (by omega)]
  have := FailsAt.bind_right (s := { s with lastTag := s.lastTag + 1 + 1 }) (B := Request)
    (f := fun sends => do
      let r1 ← irecvHalos l r x h (s.lastTag + 1)
      let r2 ← irecvHalos l r y h (s.lastTag + 1 + 1)
      return ⟨sends, r1 ++ r2⟩)
    (isendVector_calm (s := { s with lastTag := s.lastTag + 1 + 1 }) hx hsq hr hwx hwy hn hAx hh (s.lastTag + 1) (s.lastTag + 1 + 1))
    fun _ => by
      by_cases hfx : HaloFits (s.mem x) ky kx h
      · exact .bind_right (irecvHalos_calm (s := { s with lastTag := s.lastTag + 1 + 1 }) hx hsq hr hwx.toLens _) fun _ =>
          (irecvHalos_fails (s := { s with lastTag := s.lastTag + 1 + 1 }) hx hsq hr hwy.toLens hAy (fun hfy => hf ⟨hfx, hfy⟩) _).bind_left
      · exact (irecvHalos_fails (s := { s with lastTag := s.lastTag + 1 + 1 }) hx hsq hr hwx.toLens hAx hfx (s.lastTag + 1)).bind_left
  refine Proc.OnlySends.mono this fun x hx => ?_
  exact ⟨hx.2, hx.1⟩

end

end FV3
