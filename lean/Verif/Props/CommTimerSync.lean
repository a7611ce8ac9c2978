import Verif.Props.CommTimer
import Verif.Props.Sync

/-!
# C53 for synchronize_vector_interfaces
-/

namespace FV3
open TimerSpec
variable {T : Type} [Add T] [Sub T] {α : Type} [Neg α] {l : Layout} {r : Int}

omit [Add T] [Sub T] in
theorem synchronizeT_eq (t : T) {m : Int → Mem α} {x y ky kx : Nat} {n : Int} (hx : 0 < l.x) (hsq : l.y = l.x)
    (hr : r ∈ allRanks l) (S : SyncField l m x y ky kx n) (contig : Bool → Bool) :
    synchronizeT t l r (m r x) (m r y) contig = .seq .skip (.seq (isendClocks t) (.seq (isendClocks t)
      (.seq .skip (.seq (recvClocks t (contig true)) (recvClocks t (contig false)))))) := by
  have g : MetaIs m r (m r) := fun q => SameMeta.refl _
  obtain ⟨Cs, hs⟩ := edge_exists hx hsq hr (sendT true) (by decide)
  obtain ⟨Cw, hw⟩ := edge_exists hx hsq hr (sendT false) (by decide)
  obtain ⟨Bn, hn⟩ := edge_exists hx hsq hr (recvT true) (by decide)
  obtain ⟨Be, he⟩ := edge_exists hx hsq hr (recvT false) (by decide)
  obtain ⟨i1, p1, -⟩ := (S.compOK hr g true).hi
  obtain ⟨i2, q1, -⟩ := (S.compOK hr g false).hi
  have h1 := (edge_back hx hsq hr true hs).1
  have h2 := (edge_back hx hsq hr false hw).1
  have e1 := boundaryAt_ok hx hsq hr hs
  have e2 := boundaryAt_ok hx hsq hr hw
  have e3 := (S.compOK hr g true).south (C := Cs) (by simpa using h1)
  have e4 := (S.compOK hr g false).west (C := Cw) (by simpa using h2)
  have e5 := boundaryAt_ok hx hsq hr hn
  have e6 := boundaryAt_ok hx hsq hr he
  simp only [sendT] at e1 e2
  simp only [recvT] at e5 e6
  simp only [FV3.comp] at e3 e4
  simp only [FV3.comp, hiC, dimI, dimC] at p1 q1
  unfold synchronizeT
  rw [S.cgrid hr g, if_neg (by decide), e1, e2, e5, e6]
  simp only [Bind.bind, Except.bind, e3, e4, p1, q1, pure, Except.pure, TProg.ofPy]

/-- **C53** for `synchronize_vector_interfaces`: two hits of `pack`, `Isend` and `Recv`, and two of `unpack` for each of
the two views that is not contiguous. -/
theorem C53_synchronize (t : T) (before : TProg T) {m : Int → Mem α} {x y ky kx : Nat} {n : Int}
    (hidle : ReadyClocks (before.exec ([], Timer.init)).2.1) (hx : 0 < l.x) (hsq : l.y = l.x) (hr : r ∈ allRanks l)
    (S : SyncField l m x y ky kx n) (contig : Bool → Bool) :
    let s := (before.exec ([], Timer.init)).2
    let z := (synchronizeT t l r (m r x) (m r y) contig).exec s
    z.1 = .ok () ∧ (∀ m, since m z.2.1 = since m s.1) ∧
    z.2.2.hitsOf "pack" = s.2.hitsOf "pack" + 2 ∧
    z.2.2.hitsOf "Isend" = s.2.hitsOf "Isend" + 2 ∧
    z.2.2.hitsOf "unpack" = s.2.hitsOf "unpack" +
      ((if contig true then 0 else 2) + if contig false then 0 else 2) ∧
    z.2.2.hitsOf "Recv" = s.2.hitsOf "Recv" + 2 ∧
    ∀ m, m ∉ commClocks → z.2.2.hitsOf m = s.2.hitsOf m := by
  intro s z
  have A : s.2.Agrees s.1 := TProg.exec_agrees before Timer.agrees_init
  have H := Adds.seq Adds.skip (Adds.seq (isendClocks_adds t) (Adds.seq (isendClocks_adds t) (Adds.seq Adds.skip
    (Adds.seq (recvClocks_adds t (contig true)) (recvClocks_adds t (contig false))))))
  rw [← synchronizeT_eq t hx hsq hr S] at H
  obtain ⟨h1, -, h3, h4⟩ := H s A hidle
  refine ⟨h1, h3, ?_, ?_, ?_, ?_, fun m hm => ?_⟩
  · rw [h4]; simp [one]
  · rw [h4]; simp [one]
  · rw [h4]; simp [one]
  · rw [h4]; simp [one]
  · rw [h4]
    simp only [commClocks, List.mem_cons, List.not_mem_nil, or_false, not_or] at hm
    simp [one, hm.1, hm.2.1, hm.2.2.1, hm.2.2.2]

/-- The program raises ValueError if the clock `n` is running. -/
def TProg.Needs (n : String) (p : TProg T) : Prop :=
  ∀ st : TState T, st.2.Agrees st.1 → on st.1 = true → (since n st.1).isSome → (p.exec st).1 = .error .valueError

theorem Needs.clock (n : String) (t t' : T) (body : TProg T) : (TProg.clock n t body t').Needs n := fun st A ho hn => by
  rw [clock_running A ho hn]

theorem Needs.seq_left {n : String} {p q : TProg T} (hp : p.Needs n) : (TProg.seq p q).Needs n := fun st A ho hn => by
  have h := hp st A ho hn
  rcases e : p.exec st with ⟨o, st'⟩
  rw [e] at h
  cases h
  rw [seq_error e]

theorem Needs.seq_right {n : String} {p q : TProg T} (hp : p.Tame (PyErr.valueError = ·)) (hq : q.Needs n) :
    (TProg.seq p q).Needs n := fun st A ho hn => by
  obtain ⟨h1, h2, h3⟩ := hp st A ho
  have A' := TProg.exec_agrees p A
  rcases e : p.exec st with ⟨o, st'⟩
  rw [e] at h1 h2 h3 A'
  cases o with
  | error e' =>
    have := h3 e' rfl
    subst this
    rw [seq_error e]
  | ok u =>
    have e' : (TProg.seq p q).exec st = q.exec st' := by simp only [TProg.exec, e]
    rw [e']
    exact hq st' A' h1 (h2 n hn)

theorem Needs.start (n : String) (t : T) : (TProg.call (.start n t)).Needs n := fun st A ho hn => by
  rcases exec_start_cases A ho n t with ⟨h1, e1⟩ | ⟨h1, -⟩
  · simp only [TProg.exec]; rw [e1]
  · rw [h1] at hn; simp at hn

/-- **C53, limit** for `synchronize_vector_interfaces`: on a communicator of which a halo update has raised
OutOfBoundsError, a synchronisation raises ValueError as well, whatever was called in between, unless both edges are
contiguous in memory and it was a receiving view that was out of bounds (so that only the clock for unpacking was left
running). -/
theorem C53_synchronize_after_failure (t : T) (before : TProg T) {q : Quantity α} {ky' kx' : Nat} {h : Int}
    (hidle : ReadyClocks (before.exec ([], Timer.init)).2.1)
    (hx : 0 < l.x) (hsq : l.y = l.x) (hr : r ∈ allRanks l) (hw : q.WF)
    (hA : HAxes q.dims ky' kx') (hh : 0 < h) (hf : ¬ HaloFits q ky' kx' h) (contig' : Boundary → Bool)
    (later : List (UpdateCall α)) {m : Int → Mem α} {x y ky kx : Nat} {n : Int}
    (S : SyncField l m x y ky kx n) (contig : Bool → Bool) :
    let s := afterCalls t l r later ((haloUpdateT t l r q h contig').exec (before.exec ([], Timer.init)).2).2
    ((synchronizeT t l r (m r x) (m r y) contig).exec s).1 = .error .valueError ∨
      since "pack" s.1 = none ∧ contig true = true ∧ contig false = true := by
  intro s
  have A : (before.exec ([], Timer.init)).2.2.Agrees (before.exec ([], Timer.init)).2.1 :=
    TProg.exec_agrees before Timer.agrees_init
  obtain ⟨-, h2⟩ := haloUpdateT_breaks t hx hsq hr hw hA hh hf contig' _ A hidle
  obtain ⟨A2, h3⟩ := afterCalls_stuck hx hsq hr t later (TProg.exec_agrees _ A) h2
  change s.2.Agrees s.1 at A2
  change StuckClock s.1 at h3
  have hi : (isendClocks t).Tame (PyErr.valueError = ·) := Tame.isend rfl t
  rw [synchronizeT_eq t hx hsq hr S]
  by_cases hp : (since "pack" s.1).isSome
  · refine .inl (Needs.seq_right (n := "pack") Tame.skip (Needs.seq_left ?_) s A2 h3.1 hp)
    exact Needs.seq_left (Needs.clock "pack" t t .skip)
  · have hu := h3.2.resolve_left hp
    have hrecv : (recvClocks t false).Needs "unpack" := Needs.seq_left (Needs.start _ _)
    by_cases h1 : contig true = true
    · by_cases h2 : contig false = true
      · exact .inr ⟨by simpa using hp, h1, h2⟩
      · rw [Bool.not_eq_true] at h2
        rw [h2]
        exact .inl (Needs.seq_right Tame.skip (Needs.seq_right hi (Needs.seq_right hi (Needs.seq_right Tame.skip
          (Needs.seq_right (Tame.recv rfl t _) hrecv)))) s A2 h3.1 hu)
    · rw [Bool.not_eq_true] at h1
      rw [h1]
      exact .inl (Needs.seq_right Tame.skip (Needs.seq_right hi (Needs.seq_right hi (Needs.seq_right Tame.skip
        (Needs.seq_left hrecv)))) s A2 h3.1 hu)

/-- Winds on a 2×2 layout, both edges of which are copied through a buffer: two hits of `pack`, four of `unpack`. -/
example (f : Int → Nat → List Nat → Int) :
    ((synchronizeT (0 : Int) ⟨2, 2⟩ 5 (exEdgeMem f 5 0) (exEdgeMem f 5 1) fun _ => false).exec ([], Timer.init)).2.2.hitsOf
      "unpack" = 4 :=
  (C53_synchronize (0 : Int) .skip (l := ⟨2, 2⟩) (r := 5) readyClocks_nil (by decide) rfl (by decide)
    (exEdge_field ⟨2, 2⟩ f) fun _ => false).2.2.2.2.1

/-- After a halo update of three points where there are two, the synchronisation of the winds raises ValueError. -/
example (F : Vec3 → (Nat → Int) → Int) (f : Int → Nat → List Nat → Int) :
    ((synchronizeT (0 : Int) ⟨2, 2⟩ 5 (exEdgeMem f 5 0) (exEdgeMem f 5 1) fun _ => false).exec
      ((haloUpdateT (0 : Int) ⟨2, 2⟩ 5 (exFieldMem ⟨2, 2⟩ F 5 0) 3 fun _ => true).exec ([], Timer.init)).2).1
      = .error .valueError :=
  (C53_synchronize_after_failure (0 : Int) .skip (l := ⟨2, 2⟩) (r := 5) (q := exFieldMem ⟨2, 2⟩ F 5 0)
    (h := 3) readyClocks_nil (by decide) rfl (by decide)
    ((exField_scalar ⟨2, 2⟩ F 0).ready 5 (by decide)).wf exField_axes (by decide) (by
      rintro ⟨⟨h1, -⟩, -⟩
      have : (3 : Int) ≤ 2 := h1
      omega) (fun _ => true) [] (exEdge_field ⟨2, 2⟩ f) fun _ => false).resolve_right fun h => by cases h.2.1

end FV3
