import Verif.Proofs.Errors
import Verif.Props.Halo

/-!
# C18: argument errors of halo updates
-/

namespace FV3
variable {α : Type} [Neg α]

/-- **C18**: `n_points = 0` raises ValueError at once: nothing is sent or changed. -/
theorem C18_zero_points (l : Layout) (r : Int) (q x y : Nat) (s : RankState α) :
    startHaloUpdate l r q 0 s = .ret (.error .valueError, s) ∧
    haloUpdate l r q 0 s = .ret (.error .valueError, s) ∧
    startVectorHaloUpdate l r x y 0 s = .ret (.error .valueError, s) ∧
    vectorHaloUpdate l r x y 0 s = .ret (.error .valueError, s) := ⟨rfl, rfl, rfl, rfl⟩

/-- **C18**: asking for more halo points than the array holds raises OutOfBoundsError; the rank
may have sent something, but it receives nothing and its quantities are unchanged.  Both for
`start_halo_update` and for `halo_update`. -/
theorem C18_out_of_bounds {l : Layout} {r : Int} {s : RankState α} {q ky kx : Nat} {h : Int}
    (hx : 0 < l.x) (hsq : l.y = l.x) (hr : r ∈ allRanks l) (hw : (s.mem q).WF)
    (hA : HAxes (s.mem q).dims ky kx) (hh : 0 < h) (hf : ¬ HaloFits (s.mem q) ky kx h) :
    ((startHaloUpdate l r q h s).OnlySends fun x =>
      x.1 = .error .outOfBounds ∧ x.2.mem = s.mem ∧ x.2.reqs = s.reqs) ∧
    ((haloUpdate l r q h s).OnlySends fun x =>
      x.1 = .error .outOfBounds ∧ x.2.mem = s.mem ∧ x.2.reqs = s.reqs) := by
  have h1 := startHalo_fails hx hsq hr hw hA hh hf
  refine ⟨h1.mono fun x hx => ⟨hx.1, by rw [hx.2], by rw [hx.2]⟩, Proc.OnlySends.bind h1 fun x hx => ?_⟩
  obtain ⟨x1, x2⟩ := x
  obtain ⟨e, h2⟩ := hx
  simp only at e h2
  subst e h2
  exact .ret ⟨rfl, rfl, rfl⟩

/-- **C18** for vectors: it is enough that one component has too few halo points. -/
theorem C18_out_of_bounds_vector {l : Layout} {r : Int} {s : RankState α} {x y ky kx : Nat} {h : Int}
    (hx : 0 < l.x) (hsq : l.y = l.x) (hr : r ∈ allRanks l) (hwx : (s.mem x).WF)
    (hwy : (s.mem y).WF) (hAx : HAxes (s.mem x).dims ky kx) (hAy : HAxes (s.mem y).dims ky kx)
    (hn : (s.mem y).ndim = (s.mem x).ndim) (hh : 0 < h)
    (hf : ¬ (HaloFits (s.mem x) ky kx h ∧ HaloFits (s.mem y) ky kx h)) :
    ((startVectorHaloUpdate l r x y h s).OnlySends fun x =>
      x.1 = .error .outOfBounds ∧ x.2.mem = s.mem ∧ x.2.reqs = s.reqs) ∧
    ((vectorHaloUpdate l r x y h s).OnlySends fun x =>
      x.1 = .error .outOfBounds ∧ x.2.mem = s.mem ∧ x.2.reqs = s.reqs) := by
  have h1 := startVector_fails hx hsq hr hwx hwy hAx hAy hn hh hf
  refine ⟨h1.mono fun x hx => ⟨hx.1, by rw [hx.2], by rw [hx.2]⟩, Proc.OnlySends.bind h1 fun x hx => ?_⟩
  obtain ⟨x1, x2⟩ := x
  obtain ⟨e, h2⟩ := hx
  simp only at e h2
  subst e h2
  exact .ret ⟨rfl, rfl, rfl⟩

/-- **C18** in a network: whatever the other ranks do, the rank is never blocked in such a call,
and when it has ended it has raised OutOfBoundsError with its quantities unchanged. -/
theorem C18_out_of_bounds_net {l : Layout} {r : Int} {s : RankState α} {q ky kx : Nat} {h : Int}
    (hx : 0 < l.x) (hsq : l.y = l.x) (hr : r ∈ allRanks l) (hw : (s.mem q).WF)
    (hA : HAxes (s.mem q).dims ky kx) (hh : 0 < h) (hf : ¬ HaloFits (s.mem q) ky kx h)
    (N T : Net (Msg α) (Py Unit × RankState α)) (hN : N.procs r = haloUpdate l r q h s)
    (buf : Buffering) (sched : List Int) (hT : N.run buf sched = some T)
    (hend : T.step buf r = none) :
    ∃ s', T.procs r = .ret (.error .outOfBounds, s') ∧ s'.mem = s.mem := by
  have h1 := (C18_out_of_bounds hx hsq hr hw hA hh hf).2
  rw [← hN] at h1
  obtain ⟨x, h2, h3, h4, -⟩ := (h1.run sched hT).not_stuck hend
  obtain ⟨x1, x2⟩ := x
  simp only at h3
  subst h3
  exact ⟨x2, h2, h4⟩

/-! ### The hypotheses can be met -/

/-- Three halo points do not fit in `exFieldMem`, which has two. -/
example (F : Vec3 → (Nat → Int) → Int) :
    (haloUpdate ⟨2, 2⟩ 5 0 3 ⟨exFieldMem ⟨2, 2⟩ F 5, 7, []⟩).OnlySends fun x =>
      x.1 = .error .outOfBounds ∧ x.2.mem = exFieldMem ⟨2, 2⟩ F 5 ∧ x.2.reqs = [] :=
  (C18_out_of_bounds (s := ⟨exFieldMem ⟨2, 2⟩ F 5, 7, []⟩) (ky := 0) (kx := 1) (by decide) rfl (by decide)
    ((exField_scalar ⟨2, 2⟩ F 0).ready 5 (by decide)).wf exField_axes (by decide) (by
      rintro ⟨⟨h1, -⟩, -⟩
      have : (3 : Int) ≤ 2 := h1
      omega)).2

end FV3
