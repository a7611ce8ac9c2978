import Verif.Spec.CommTimer
import Verif.Props.Timer
import Verif.Props.Errors

/-!
# C53: the timer of a communicator
-/

namespace FV3
open TimerSpec
variable {α T : Type} [Add T] [Sub T]

/-- A state in which timer and record agree. -/
abbrev TState (T : Type) := Record T × Timer T

/-- From a state where the communicator's clocks are idle, `p` ends normally, leaves the same
clocks running and adds `c n` hits to the clock `n`. -/
def TProg.Adds (p : TProg T) (c : String → Nat) : Prop :=
  ∀ st : TState T, st.2.Agrees st.1 → ReadyClocks st.1 →
    (p.exec st).1 = .ok () ∧ ReadyClocks (p.exec st).2.1 ∧
    (∀ n, since n (p.exec st).2.1 = since n st.1) ∧
    ∀ n, (p.exec st).2.2.hitsOf n = st.2.hitsOf n + c n

/-- One hit of the clock `n`. -/
def one (n : String) : String → Nat := fun m => if m = n then 1 else 0

omit [Add T] [Sub T] in
theorem readyClocks_of {r r' : Record T} (h : ReadyClocks r) (hon : on r' = on r)
    (hs : ∀ n, since n r' = since n r) : ReadyClocks r' :=
  ⟨by rw [hon]; exact h.1, fun n hn => by rw [hs]; exact h.2 n hn⟩

theorem Adds.skip : TProg.Adds (T := T) .skip fun _ => 0 :=
  fun _ _ h => ⟨rfl, h, fun _ => rfl, fun _ => rfl⟩

theorem Adds.seq {p q : TProg T} {c d : String → Nat} (hp : p.Adds c) (hq : q.Adds d) :
    (TProg.seq p q).Adds fun n => c n + d n := by
  intro st A R
  obtain ⟨a1, a2, a3, a4⟩ := hp st A R
  have A' := TProg.exec_agrees p A
  rcases e : p.exec st with ⟨o, st'⟩
  rw [e] at a1 a2 a3 a4 A'
  simp only at a1
  subst a1
  obtain ⟨b1, b2, b3, b4⟩ := hq st' A' a2
  have e' : (TProg.seq p q).exec st = q.exec st' := by simp only [TProg.exec, e]
  rw [e']
  exact ⟨b1, b2, fun n => by rw [b3, a3], fun n => by
    show _ = _ + (c n + d n)
    rw [b4, a4]; omega⟩

theorem Adds.forEach {A : Type} {f : A → TProg T} {c : A → String → Nat} {l : List A}
    (h : ∀ a ∈ l, (f a).Adds (c a)) :
    (TProg.forEach f l).Adds fun n => (l.map fun a => c a n).sum := by
  induction l with
  | nil => exact Adds.skip
  | cons a l ih =>
    have := Adds.seq (h a List.mem_cons_self) (ih fun a' h' => h a' (List.mem_cons_of_mem _ h'))
    simpa only [TProg.forEach, List.map_cons, List.sum_cons] using this

/-- Starting a clock of the communicator which is idle. -/
theorem exec_start {st : TState T} (A : st.2.Agrees st.1) (R : ReadyClocks st.1) {n : String}
    (hn : n ∈ commClocks) (t : T) :
    Timer.callRec (.start n t) st = (.ok (), ((.start n t, .ok ()) :: st.1, (st.2.call (.start n t)).2)) := by
  have h1 : st.2.enabled = true := by rw [A.enabled]; exact R.1
  have h2 : st.2.clockStarts.get? n = none := by rw [A.running]; exact R.2 n hn
  simp [Timer.callRec, Timer.call, Timer.start, h1, Dict.has, h2]

/-- Starting a clock and stopping it. -/
theorem Adds.pair {n : String} (hn : n ∈ commClocks) (t t' : T) :
    (TProg.seq (.call (.start n t)) (.call (.stop n t'))).Adds (one n) := by
  intro st A R
  have e1 := exec_start A R hn t
  have A1 : ((st.2.call (.start n t)).2).Agrees ((TCall.start n t, Except.ok ()) :: st.1) := by
    have := Timer.agrees_call A (.start n t)
    have e : (st.2.call (.start n t)).1 = .ok () := congrArg Prod.fst e1
    rwa [e] at this
  generalize hs1 : (st.2.call (.start n t)).2 = s1 at e1 A1
  have hon : on ((TCall.start n t, Except.ok ()) :: st.1) = true := R.1
  have hsn : since n ((TCall.start n t, Except.ok ()) :: st.1) = some t := by
    simp [since, R.1]
  have e2 : (s1.call (.stop n t')).1 = .ok () := by
    have h1 : s1.enabled = true := by rw [A1.enabled]; exact hon
    have h2 : s1.clockStarts.get? n = some t := by rw [A1.running]; exact hsn
    simp [Timer.call, Timer.stop, h1, h2]
  have A2 := Timer.agrees_call A1 (.stop n t')
  rw [e2] at A2
  generalize hs2 : (s1.call (.stop n t')).2 = s2 at A2
  have e : (TProg.seq (.call (.start n t)) (.call (.stop n t'))).exec st =
      (.ok (), ((TCall.stop n t', Except.ok ()) :: (TCall.start n t, Except.ok ()) :: st.1, s2)) := by
    have e2' : Timer.callRec (.stop n t') ((TCall.start n t, Except.ok ()) :: st.1, s1) =
        (.ok (), ((TCall.stop n t', Except.ok ()) :: (TCall.start n t, Except.ok ()) :: st.1, s2)) := by
      simp only [Timer.callRec, e2, hs2]
    simp only [TProg.exec]
    rw [e1]
    exact e2'
  rw [e]
  have hsince : ∀ m, since m ((TCall.stop n t', Except.ok ()) :: (TCall.start n t, Except.ok ()) :: st.1)
      = since m st.1 := by
    intro m
    by_cases hm : n = m
    · subst hm
      simp [since, on, R.1, R.2 n hn]
    · simp [since, hm]
  refine ⟨rfl, readyClocks_of R rfl hsince, hsince, fun m => ?_⟩
  show (s2.hits.get? m).getD 0 = (st.2.hits.get? m).getD 0 + _
  rw [A2.hits m, A.hits m]
  have hd : durations m ((TCall.stop n t', Except.ok ()) :: (TCall.start n t, Except.ok ()) :: st.1)
      = if m = n then durations n st.1 ++ [t' - t] else durations m st.1 := by
    by_cases hm : m = n
    · subst hm
      simp [durations, on, R.1, since]
    · have hm' : ¬ n = m := fun h => hm h.symm
      simp [durations, hm, hm']
  rw [hd]
  unfold one
  by_cases hm : m = n
  · subst hm
    simp only [if_true]
    rw [count_snoc]
    cases count (durations m st.1) <;> simp
  · simp [hm]

theorem clock_exec_skip (n : String) (t t' : T) (st : TState T) {A : Type} (a : A) :
    (TProg.clock n t (.ofPy (.ok a)) t').exec st =
      (TProg.seq (.call (.start n t)) (.call (.stop n t'))).exec st := by
  simp only [TProg.exec, TProg.ofPy]
  rcases Timer.callRec (.start n t) st with ⟨o, st'⟩
  cases o <;> rfl

theorem Adds.clock {n : String} (hn : n ∈ commClocks) (t t' : T) {A : Type} (x : Py A)
    (hx : ∃ a, x = .ok a) : (TProg.clock n t (.ofPy x) t').Adds (one n) := by
  obtain ⟨a, rfl⟩ := hx
  intro st A R
  rw [clock_exec_skip]
  exact Adds.pair hn t t' st A R

theorem Adds.clock_skip {n : String} (hn : n ∈ commClocks) (t t' : T) :
    (TProg.clock n t .skip t').Adds (one n) :=
  Adds.clock hn t t' (.ok ()) ⟨(), rfl⟩

theorem Adds.congr {p : TProg T} {c d : String → Nat} (h : p.Adds c) (e : ∀ n, c n = d n) :
    p.Adds d := by
  have : c = d := funext e
  rwa [← this]

theorem isendClocks_adds (t : T) : (isendClocks t).Adds fun n => one "pack" n + one "Isend" n :=
  Adds.seq (Adds.clock_skip (by decide) t t) (Adds.clock_skip (by decide) t t)

theorem exec_seq_assoc (p q r : TProg T) (st : TState T) :
    (TProg.seq p (.seq q r)).exec st = (TProg.seq (.seq p q) r).exec st := by
  simp only [TProg.exec]
  rcases p.exec st with ⟨o, st'⟩
  cases o <;> rfl

theorem recvClocks_adds (t : T) (contig : Bool) :
    (recvClocks t contig).Adds fun n => one "Recv" n + if contig then 0 else 2 * one "unpack" n := by
  unfold recvClocks
  cases contig with
  | true => simpa using Adds.clock_skip (n := "Recv") (by decide) t t
  | false =>
    simp only [Bool.false_eq_true, if_false]
    intro st A R
    rw [exec_seq_assoc]
    exact (Adds.congr (Adds.seq (Adds.pair (n := "unpack") (by decide) t t)
      (Adds.seq (Adds.clock_skip (n := "Recv") (by decide) t t)
        (Adds.clock_skip (n := "unpack") (by decide) t t))) fun n => by omega) st A R

theorem sum_const_map {A : Type} (l : List A) (k : Nat) : (l.map fun _ => k).sum = l.length * k := by
  induction l with
  | nil => simp
  | cons a l ih => simp [ih, Nat.succ_mul]; omega

theorem recvs_adds (t : T) (contig : Boundary → Bool) (bs : List Boundary) :
    (TProg.forEach (fun b => recvClocks t (contig b)) bs).Adds fun n =>
      bs.length * one "Recv" n + 2 * buffered contig bs * one "unpack" n := by
  refine Adds.congr (Adds.forEach (c := fun b n => one "Recv" n + if contig b then 0 else 2 * one "unpack" n)
    fun b _ => recvClocks_adds t (contig b)) fun n => ?_
  unfold buffered
  induction bs with
  | nil => simp
  | cons b bs ih =>
    simp only [List.map_cons, List.sum_cons, ih, List.length_cons, List.filter_cons]
    cases contig b <;> simp <;> ring

section
variable {l : Layout} {r : Int}

theorem isendHalosT_adds (t : T) {bs : List Boundary} {q : Quantity α} {ky kx : Nat} {n h : Int}
    (H : HaloReady q ky kx n h) (hh : 0 < h) (hn : h ≤ n) :
    (isendHalosT t bs q h).Adds fun m => bs.length * (2 * one "pack" m + one "Isend" m) := by
  refine Adds.congr (Adds.forEach (c := fun _ m => one "pack" m + (one "pack" m + one "Isend" m))
    fun b _ => Adds.seq (Adds.clock (by decide) t t _ ?_) (isendClocks_adds t)) fun m => ?_
  · obtain ⟨a, h1, -⟩ := rotateScalar_eq (sendArr q b.boundaryType h) q.dims H.axes
      (by simp [sendArr, Quantity.ndim]) (-b.rotations)
    refine ⟨a, ?_⟩
    rw [sendView_eq _ H.wf _ (by omega) (H.sendFits hh hn _)]
    exact h1
  · rw [sum_const_map]; ring

theorem irecvHalosT_adds (t : T) {bs : List Boundary} {q : Quantity α} {ky kx : Nat} {n h : Int}
    (H : HaloReady q ky kx n h) (hh : 0 < h) :
    (irecvHalosT t bs q h).Adds fun m => bs.length * one "unpack" m := by
  refine Adds.congr (Adds.forEach (c := fun _ m => one "unpack" m)
    fun b _ => Adds.clock (by decide) t t _ ⟨recvIx q b.boundaryType h, ?_⟩) fun m => ?_
  · rw [recvIndex_eq _ H.wf.toLens, if_pos (H.recvFits hh _)]
  · rw [sum_const_map]


theorem haloUpdateT_adds (t : T) {bs : List Boundary} {q : Quantity α} {ky kx : Nat} {n h : Int}
    (hb : Cube.boundaries l r = .ok bs) (H : HaloReady q ky kx n h) (hh : 0 < h) (hn : h ≤ n)
    (contig : Boundary → Bool) :
    (haloUpdateT t l r q h contig).Adds fun m =>
      bs.length * (2 * one "pack" m + one "Isend" m + one "unpack" m + one "Recv" m) +
        2 * buffered contig bs * one "unpack" m := by
  unfold haloUpdateT
  rw [if_neg (by omega), hb]
  exact Adds.congr (Adds.seq (isendHalosT_adds t H hh hn) (Adds.seq (irecvHalosT_adds t H hh)
    (recvs_adds t contig bs))) fun m => by ring

theorem isendVectorHalosT_adds [Neg α] (t : T) {bs : List Boundary} {x y : Quantity α} {ky kx : Nat}
    {n h : Int} (Hx : HaloReady x ky kx n h) (Hy : HaloReady y ky kx n h) (hd : y.ndim = x.ndim)
    (hh : 0 < h) (hn : h ≤ n) :
    (isendVectorHalosT t bs x y h).Adds fun m => bs.length * (3 * one "pack" m + 2 * one "Isend" m) := by
  refine Adds.congr (Adds.forEach (c := fun _ m => one "pack" m +
      ((one "pack" m + one "Isend" m) + (one "pack" m + one "Isend" m)))
    fun b _ => Adds.seq (Adds.clock (by decide) t t _ ?_)
      (Adds.seq (isendClocks_adds t) (isendClocks_adds t))) fun m => ?_
  · obtain ⟨u, v, -, -, e⟩ := C14_vector_turns (sendArr x b.boundaryType h)
      (sendArr y b.boundaryType h) x.dims ky kx Hx.axes (by simp [sendArr, Quantity.ndim])
      (by simp only [sendArr, length_tab]; exact hd) (-b.rotations)
    refine ⟨turnVec (-b.rotations) u v, ?_⟩
    · rw [sendView_eq _ Hx.wf _ (by omega) (Hx.sendFits hh hn _),
        sendView_eq _ Hy.wf _ (by omega) (Hy.sendFits hh hn _)]
      exact e
  · rw [sum_const_map]; ring

theorem vectorHaloUpdateT_adds [Neg α] (t : T) {bs : List Boundary} {x y : Quantity α} {ky kx : Nat}
    {n h : Int} (hb : Cube.boundaries l r = .ok bs) (Hx : HaloReady x ky kx n h)
    (Hy : HaloReady y ky kx n h) (hd : y.ndim = x.ndim) (hh : 0 < h) (hn : h ≤ n)
    (contig : Bool → Boundary → Bool) :
    (vectorHaloUpdateT t l r x y h contig).Adds fun m =>
      bs.length * (3 * one "pack" m + 2 * one "Isend" m + 2 * one "unpack" m + 2 * one "Recv" m) +
        2 * (buffered (contig true) bs + buffered (contig false) bs) * one "unpack" m := by
  unfold vectorHaloUpdateT
  rw [if_neg (by omega), hb]
  exact Adds.congr (Adds.seq (isendVectorHalosT_adds t Hx Hy hd hh hn) (Adds.seq (irecvHalosT_adds t Hx hh)
    (Adds.seq (irecvHalosT_adds t Hy hh) (Adds.seq (recvs_adds t (contig true) bs)
      (recvs_adds t (contig false) bs))))) fun m => by ring

end

/-! ### What is left running -/

/-- Whatever happens, running clocks keep running; exceptions satisfy `E`. -/
def TProg.Tame (E : PyErr → Prop) (p : TProg T) : Prop :=
  ∀ st : TState T, st.2.Agrees st.1 → on st.1 = true →
    on (p.exec st).2.1 = true ∧ (∀ m, (since m st.1).isSome → (since m (p.exec st).2.1).isSome) ∧
    ∀ e, (p.exec st).1 = .error e → E e

theorem Tame.skip {E : PyErr → Prop} : TProg.Tame E (.skip : TProg T) :=
  fun _ _ h => ⟨h, fun _ h => h, fun _ h => by simp [TProg.exec] at h⟩

theorem Tame.seq {E : PyErr → Prop} {p q : TProg T} (hp : p.Tame E) (hq : q.Tame E) :
    (TProg.seq p q).Tame E := by
  intro st A ho
  obtain ⟨a1, a2, a3⟩ := hp st A ho
  have A' := TProg.exec_agrees p A
  rcases e : p.exec st with ⟨o, st'⟩
  rw [e] at a1 a2 a3 A'
  cases o with
  | ok u =>
    obtain ⟨b1, b2, b3⟩ := hq st' A' a1
    have e' : (TProg.seq p q).exec st = q.exec st' := by simp only [TProg.exec, e]
    rw [e']
    exact ⟨b1, fun m hm => b2 m (a2 m hm), b3⟩
  | error er =>
    have e' : (TProg.seq p q).exec st = (.error er, st') := by simp only [TProg.exec, e]
    rw [e']
    exact ⟨a1, a2, a3⟩

theorem Tame.forEach {E : PyErr → Prop} {A : Type} {f : A → TProg T} {l : List A}
    (h : ∀ a ∈ l, (f a).Tame E) : (TProg.forEach f l).Tame E := by
  induction l with
  | nil => exact Tame.skip
  | cons a l ih =>
    exact Tame.seq (h a List.mem_cons_self) (ih fun a' h' => h a' (List.mem_cons_of_mem _ h'))

/-- The outcome of starting a clock on an enabled timer. -/
theorem exec_start_cases {st : TState T} (A : st.2.Agrees st.1) (ho : on st.1 = true) (n : String) (t : T) :
    ((since n st.1).isSome ∧
      Timer.callRec (.start n t) st = (.error .valueError, ((.start n t, .error .valueError) :: st.1, st.2))) ∨
    (since n st.1 = none ∧ ∃ s, s.Agrees ((TCall.start n t, Except.ok ()) :: st.1) ∧
      Timer.callRec (.start n t) st = (.ok (), ((.start n t, .ok ()) :: st.1, s))) := by
  have h1 : st.2.enabled = true := by rw [A.enabled]; exact ho
  have h2 : st.2.clockStarts.get? n = since n st.1 := A.running n
  cases h : since n st.1 with
  | some v =>
    left
    rw [h] at h2
    refine ⟨rfl, ?_⟩
    simp [Timer.callRec, Timer.call, Timer.start, h1, Dict.has, h2]
  | none =>
    right
    rw [h] at h2
    have e : (st.2.call (.start n t)).1 = .ok () := by
      simp [Timer.call, Timer.start, h1, Dict.has, h2]
    have A1 := Timer.agrees_call A (.start n t)
    rw [e] at A1
    exact ⟨rfl, _, A1, by simp only [Timer.callRec, e]⟩

theorem exec_stop_running {st : TState T} (A : st.2.Agrees st.1) (ho : on st.1 = true) {n : String} (t : T)
    (hn : (since n st.1).isSome) :
    ∃ s, Timer.callRec (.stop n t) st = (.ok (), ((.stop n t, .ok ()) :: st.1, s)) := by
  have h1 : st.2.enabled = true := by rw [A.enabled]; exact ho
  have h2 : st.2.clockStarts.get? n = since n st.1 := A.running n
  obtain ⟨v, hv⟩ := Option.isSome_iff_exists.1 hn
  rw [hv] at h2
  have e : (st.2.call (.stop n t)).1 = .ok () := by
    simp [Timer.call, Timer.stop, h1, h2]
  exact ⟨(st.2.call (.stop n t)).2, by simp only [Timer.callRec, e]⟩

omit [Add T] [Sub T] in
theorem since_start_ok (r : Record T) (n m : String) (t : T) (ho : on r = true) :
    since m ((TCall.start n t, Except.ok ()) :: r) = if n = m then some t else since m r := by
  simp [since, ho]

omit [Add T] [Sub T] in
theorem since_stop_ok (r : Record T) (n m : String) (t : T) (ho : on r = true) :
    since m ((TCall.stop n t, Except.ok ()) :: r) = if n = m then none else since m r := by
  simp [since, ho]

theorem Tame.pair {E : PyErr → Prop} (hE : E .valueError) (n : String) (t t' : T) :
    (TProg.seq (.call (.start n t)) (.call (.stop n t'))).Tame E := by
  intro st A ho
  rcases exec_start_cases A ho n t with ⟨h1, e1⟩ | ⟨h1, s, A1, e1⟩
  · have e : (TProg.seq (.call (.start n t)) (.call (.stop n t'))).exec st =
        (.error .valueError, ((.start n t, .error .valueError) :: st.1, st.2)) := by
      simp only [TProg.exec]; rw [e1]
    rw [e]
    refine ⟨ho, fun m hm => hm, fun e he => ?_⟩
    simp only [Except.error.injEq] at he
    subst he
    exact hE
  · have ho1 : on ((TCall.start n t, (Except.ok () : Py Unit)) :: st.1) = true := ho
    obtain ⟨s2, e2⟩ := exec_stop_running (st := ((TCall.start n t, Except.ok ()) :: st.1, s)) A1 ho1 t'
      (n := n) (by rw [since_start_ok _ _ _ _ ho]; simp)
    have e : (TProg.seq (.call (.start n t)) (.call (.stop n t'))).exec st =
        (.ok (), ((.stop n t', .ok ()) :: (.start n t, .ok ()) :: st.1, s2)) := by
      simp only [TProg.exec]; rw [e1]; exact e2
    rw [e]
    refine ⟨ho, fun m hm => ?_, fun e he => by simp at he⟩
    rw [since_stop_ok _ _ _ _ ho1, since_start_ok _ _ _ _ ho]
    by_cases hnm : n = m
    · subst hnm; rw [h1] at hm; simp at hm
    · simp [hnm]; simpa using hm

theorem Tame.clock {E : PyErr → Prop} (hE : E .valueError) (n : String) (t t' : T) {A : Type} (x : Py A)
    (hx : ∀ e, x = .error e → E e) : (TProg.clock n t (.ofPy x) t').Tame E := by
  cases x with
  | ok a =>
    intro st A ho
    rw [clock_exec_skip]
    exact Tame.pair hE n t t' st A ho
  | error er =>
    intro st Ag ho
    rcases exec_start_cases Ag ho n t with ⟨h1, e1⟩ | ⟨h1, s, A1, e1⟩
    · have e : (TProg.clock n t (.ofPy (.error er : Py A)) t').exec st =
          (.error .valueError, ((.start n t, .error .valueError) :: st.1, st.2)) := by
        simp only [TProg.exec]; rw [e1]
      rw [e]
      refine ⟨ho, fun m hm => hm, fun e he => ?_⟩
      simp only [Except.error.injEq] at he
      subst he
      exact hE
    · have e : (TProg.clock n t (.ofPy (.error er : Py A)) t').exec st =
          (.error er, ((.start n t, .ok ()) :: st.1, s)) := by
        simp only [TProg.exec]; rw [e1]; rfl
      rw [e]
      refine ⟨ho, fun m hm => ?_, fun e he => ?_⟩
      · rw [since_start_ok _ _ _ _ ho]
        by_cases hnm : n = m
        · simp [hnm]
        · simp [hnm]; simpa using hm
      · simp only [Except.error.injEq] at he
        subst he
        exact hx _ rfl

theorem Tame.clock_skip {E : PyErr → Prop} (hE : E .valueError) (n : String) (t t' : T) :
    (TProg.clock n t .skip t').Tame E :=
  Tame.clock hE n t t' (.ok ()) fun _ h => by simp at h

theorem Tame.isend {E : PyErr → Prop} (hE : E .valueError) (t : T) : (isendClocks t).Tame E :=
  Tame.seq (Tame.clock_skip hE _ t t) (Tame.clock_skip hE _ t t)

theorem Tame.recv {E : PyErr → Prop} (hE : E .valueError) (t : T) (contig : Bool) :
    (recvClocks t contig).Tame E := by
  unfold recvClocks
  cases contig with
  | true => exact Tame.clock_skip hE _ t t
  | false =>
    simp only [Bool.false_eq_true, if_false]
    intro st A ho
    rw [exec_seq_assoc]
    exact Tame.seq (Tame.pair hE _ t t) (Tame.seq (Tame.clock_skip hE _ t t) (Tame.clock_skip hE _ t t)) st A ho

/-- A block of a clock which is already running is not entered. -/
theorem clock_running {st : TState T} (A : st.2.Agrees st.1) (ho : on st.1 = true) {n : String}
    (hn : (since n st.1).isSome) (t t' : T) (body : TProg T) :
    (TProg.clock n t body t').exec st =
      (.error .valueError, ((.start n t, .error .valueError) :: st.1, st.2)) := by
  rcases exec_start_cases A ho n t with ⟨h1, e1⟩ | ⟨h1, -⟩
  · simp only [TProg.exec]; rw [e1]
  · rw [h1] at hn; simp at hn

/-- A loop whose first pass raises. -/
theorem forEach_first {A : Type} {f : A → TProg T} {l : List A} (hl : l ≠ []) {st st' : TState T}
    {e : PyErr} (h : ∀ a ∈ l, (f a).exec st = (.error e, st')) :
    (TProg.forEach f l).exec st = (.error e, st') := by
  cases l with
  | nil => exact absurd rfl hl
  | cons a l => simp only [TProg.forEach, TProg.exec, h a List.mem_cons_self]

theorem seq_error {p q : TProg T} {st st' : TState T} {e : PyErr} (h : p.exec st = (.error e, st')) :
    (TProg.seq p q).exec st = (.error e, st') := by simp only [TProg.exec, h]

/-- From a stuck timer, the program `p`, whose blocks are `pack` first and `unpack` later,
raises; the timer stays stuck. -/
def TProg.Stuck (E : PyErr → Prop) (p : TProg T) : Prop :=
  ∀ st : TState T, st.2.Agrees st.1 → StuckClock st.1 →
    (∃ e, (p.exec st).1 = .error e ∧ E e) ∧ StuckClock (p.exec st).2.1

theorem StuckClock.of_tame {E : PyErr → Prop} {p : TProg T} (hp : p.Tame E) {st : TState T}
    (A : st.2.Agrees st.1) (h : StuckClock st.1) : StuckClock (p.exec st).2.1 := by
  obtain ⟨h1, h2, -⟩ := hp st A h.1
  exact ⟨h1, h.2.imp (h2 _) (h2 _)⟩

theorem Stuck.of_two {E : PyErr → Prop} {p q rest : TProg T} (hp : p.Tame E) (hq : q.Tame E)
    (hrest : rest.Tame E) (hE : E .valueError)
    (h1 : ∀ st : TState T, st.2.Agrees st.1 → on st.1 = true → (since "pack" st.1).isSome →
      ∃ st', p.exec st = (.error .valueError, st'))
    (h2 : ∀ st : TState T, st.2.Agrees st.1 → on st.1 = true → (since "unpack" st.1).isSome →
      ∃ st', q.exec st = (.error .valueError, st')) :
    (TProg.seq p (.seq q rest)).Stuck E := by
  intro st A hs
  refine ⟨?_, StuckClock.of_tame (Tame.seq hp (Tame.seq hq hrest)) A hs⟩
  obtain ⟨ho, hs | hs⟩ := hs
  · obtain ⟨st', e⟩ := h1 st A ho hs
    exact ⟨.valueError, by rw [seq_error e], hE⟩
  · obtain ⟨a1, a2, a3⟩ := hp st A ho
    have A' := TProg.exec_agrees p A
    rcases e : p.exec st with ⟨o, st'⟩
    rw [e] at a1 a2 a3 A'
    cases o with
    | error er => exact ⟨er, by rw [seq_error e], a3 er rfl⟩
    | ok u =>
      obtain ⟨st2, e2⟩ := h2 st' A' a1 (a2 _ hs)
      refine ⟨.valueError, ?_, hE⟩
      have : (TProg.seq p (.seq q rest)).exec st = (.error .valueError, st2) := by
        simp only [TProg.exec, e, e2]
      rw [this]

section
variable {l : Layout} {r : Int}

theorem Stuck.halo {E : PyErr → Prop} (hE : E .valueError) (t : T) (q : Quantity α) (n : Int)
    (contig : Boundary → Bool) {bs : List Boundary} (hb : Cube.boundaries l r = .ok bs) (hne : bs ≠ [])
    (hs : ∀ b ∈ bs, ∀ e, (do
        let data ← sendView q b.boundaryType n
        rotateScalar data q.dims (-b.rotations)) = .error e → E e)
    (hr : ∀ b ∈ bs, ∀ e, recvIndex q b.boundaryType n = .error e → E e) (hn : n ≠ 0) :
    (haloUpdateT t l r q n contig).Stuck E := by
  unfold haloUpdateT
  rw [if_neg hn, hb]
  refine Stuck.of_two ?_ ?_ ?_ hE ?_ ?_
  · exact Tame.forEach fun b h => Tame.seq (Tame.clock hE _ t t _ (hs b h)) (Tame.isend hE t)
  · exact Tame.forEach fun b h => Tame.clock hE _ t t _ (hr b h)
  · exact Tame.forEach fun b _ => Tame.recv hE t _
  · intro st A ho h
    exact ⟨_, forEach_first hne fun b _ => seq_error (clock_running A ho h t t _)⟩
  · intro st A ho h
    exact ⟨_, forEach_first hne fun b _ => clock_running A ho h t t _⟩

theorem Stuck.vector [Neg α] {E : PyErr → Prop} (hE : E .valueError) (t : T) (x y : Quantity α) (n : Int)
    (contig : Bool → Boundary → Bool) {bs : List Boundary} (hb : Cube.boundaries l r = .ok bs) (hne : bs ≠ [])
    (hs : ∀ b ∈ bs, ∀ e, (do
        let xData ← sendView x b.boundaryType n
        let yData ← sendView y b.boundaryType n
        rotateVector xData yData (-b.rotations) x.dims) = .error e → E e)
    (hr : ∀ b ∈ bs, ∀ e, recvIndex x b.boundaryType n = .error e → E e)
    (hr' : ∀ b ∈ bs, ∀ e, recvIndex y b.boundaryType n = .error e → E e) (hn : n ≠ 0) :
    (vectorHaloUpdateT t l r x y n contig).Stuck E := by
  unfold vectorHaloUpdateT
  rw [if_neg hn, hb]
  refine Stuck.of_two ?_ ?_ (Tame.seq ?_ (Tame.seq ?_ ?_)) hE ?_ ?_
  · exact Tame.forEach fun b h => Tame.seq (Tame.clock hE _ t t _ (hs b h))
      (Tame.seq (Tame.isend hE t) (Tame.isend hE t))
  · exact Tame.forEach fun b h => Tame.clock hE _ t t _ (hr b h)
  · exact Tame.forEach fun b h => Tame.clock hE _ t t _ (hr' b h)
  · exact Tame.forEach fun b _ => Tame.recv hE t _
  · exact Tame.forEach fun b _ => Tame.recv hE t _
  · intro st A ho h
    exact ⟨_, forEach_first hne fun b _ => seq_error (clock_running A ho h t t _)⟩
  · intro st A ho h
    exact ⟨_, forEach_first hne fun b _ => clock_running A ho h t t _⟩

theorem Stuck.raise {E : PyErr → Prop} {e : PyErr} (h : E e) : (TProg.raise e : TProg T).Stuck E :=
  fun _ _ hs => ⟨⟨e, rfl, h⟩, hs⟩

theorem boundaries_ne (hx : 0 < l.x) (hsq : l.y = l.x) (hr : r ∈ allRanks l) {bs : List Boundary}
    (hb : Cube.boundaries l r = .ok bs) : bs ≠ [] := by
  obtain ⟨bs', hb', hm, -⟩ := boundaries_ok hx hsq hr
  rw [hb] at hb'
  simp only [Except.ok.injEq] at hb'
  subst hb'
  obtain ⟨B, hB⟩ := edge_exists hx hsq hr .north (.inl rfl)
  have := (hm B).2 (by rw [boundary_type hx hsq hB]; exact hB)
  intro h
  rw [h] at this
  simp at this

/-- From a stuck timer, every update raises and leaves the timer stuck. -/
theorem UpdateCall.stuck [Neg α] (hx : 0 < l.x) (hsq : l.y = l.x) (hr : r ∈ allRanks l) (t : T)
    (c : UpdateCall α) : (c.prog t l r).Stuck fun _ => True := by
  obtain ⟨bs, hb, -⟩ := boundaries_ok hx hsq hr
  have hne := boundaries_ne hx hsq hr hb
  cases c with
  | halo q n contig =>
    by_cases hn : n = 0
    · subst hn; exact Stuck.raise trivial
    · exact Stuck.halo trivial t q n contig hb hne (fun _ _ _ _ => trivial) (fun _ _ _ _ => trivial) hn
  | vector x y n contig =>
    by_cases hn : n = 0
    · subst hn; exact Stuck.raise trivial
    · exact Stuck.vector trivial t x y n contig hb hne (fun _ _ _ _ => trivial)
        (fun _ _ _ _ => trivial) (fun _ _ _ _ => trivial) hn

/-- If its arguments are fine, the exception is ValueError. -/
theorem UpdateCall.stuck_fine [Neg α] (hx : 0 < l.x) (hsq : l.y = l.x) (hr : r ∈ allRanks l) (t : T)
    (c : UpdateCall α) (hc : c.Fine) : (c.prog t l r).Stuck (· = .valueError) := by
  obtain ⟨bs, hb, -⟩ := boundaries_ok hx hsq hr
  have hne := boundaries_ne hx hsq hr hb
  cases c with
  | halo q h contig =>
    obtain ⟨ky, kx, n, H, hh, hn⟩ := hc
    refine Stuck.halo (E := (· = .valueError)) rfl t q h contig hb hne (fun b _ e he => ?_) (fun b _ e he => ?_) (by omega)
    · obtain ⟨a, h1, -⟩ := rotateScalar_eq (sendArr q b.boundaryType h) q.dims H.axes
        (by simp [sendArr, Quantity.ndim]) (-b.rotations)
      rw [sendView_eq _ H.wf _ (by omega) (H.sendFits hh hn _)] at he
      simp only [Bind.bind, Except.bind, h1] at he
      simp at he
    · rw [recvIndex_eq _ H.wf.toLens, if_pos (H.recvFits hh _)] at he
      simp at he
  | vector x y h contig =>
    obtain ⟨ky, kx, n, Hx, Hy, hd, hh, hn⟩ := hc
    refine Stuck.vector (E := (· = .valueError)) rfl t x y h contig hb hne (fun b _ e he => ?_) (fun b _ e he => ?_)
      (fun b _ e he => ?_) (by omega)
    · obtain ⟨u, v, -, -, e'⟩ := C14_vector_turns (sendArr x b.boundaryType h)
        (sendArr y b.boundaryType h) x.dims ky kx Hx.axes (by simp [sendArr, Quantity.ndim])
        (by simp only [sendArr, length_tab]; exact hd) (-b.rotations)
      rw [sendView_eq _ Hx.wf _ (by omega) (Hx.sendFits hh hn _),
        sendView_eq _ Hy.wf _ (by omega) (Hy.sendFits hh hn _)] at he
      simp only [Bind.bind, Except.bind, e'] at he
      simp at he
    · rw [recvIndex_eq _ Hx.wf.toLens, if_pos (Hx.recvFits hh _)] at he
      simp at he
    · rw [recvIndex_eq _ Hy.wf.toLens, if_pos (Hy.recvFits hh _)] at he
      simp at he

/-! ### The failing call -/

/-- From idle clocks: ends normally with idle clocks, or raises OutOfBoundsError leaving one running. -/
def TProg.Risky (p : TProg T) : Prop :=
  ∀ st : TState T, st.2.Agrees st.1 → ReadyClocks st.1 →
    ((p.exec st).1 = .ok () ∧ ReadyClocks (p.exec st).2.1) ∨
    ((p.exec st).1 = .error .outOfBounds ∧ StuckClock (p.exec st).2.1)

/-- From idle clocks: raises OutOfBoundsError leaving one running. -/
def TProg.Breaks (p : TProg T) : Prop :=
  ∀ st : TState T, st.2.Agrees st.1 → ReadyClocks st.1 →
    (p.exec st).1 = .error .outOfBounds ∧ StuckClock (p.exec st).2.1

theorem Adds.risky {p : TProg T} {c : String → Nat} (h : p.Adds c) : p.Risky := fun st A R =>
  .inl ⟨(h st A R).1, (h st A R).2.1⟩

theorem Risky.seq {p q : TProg T} (hp : p.Risky) (hq : q.Risky) : (TProg.seq p q).Risky := by
  intro st A R
  have A' := TProg.exec_agrees p A
  have h := hp st A R
  rcases e : p.exec st with ⟨o, st'⟩
  rw [e] at h A'
  rcases h with ⟨h1, h2⟩ | ⟨h1, h2⟩ <;> simp only at h1 <;> subst h1
  · have e' : (TProg.seq p q).exec st = q.exec st' := by simp only [TProg.exec, e]
    rw [e']
    exact hq st' A' h2
  · rw [seq_error e]
    exact .inr ⟨rfl, h2⟩

theorem Breaks.risky {p : TProg T} (h : p.Breaks) : p.Risky := fun st A R => .inr (h st A R)

theorem Breaks.seq_left {p q : TProg T} (hp : p.Breaks) : (TProg.seq p q).Breaks := by
  intro st A R
  obtain ⟨h1, h2⟩ := hp st A R
  rcases e : p.exec st with ⟨o, st'⟩
  rw [e] at h1 h2
  simp only at h1
  subst h1
  rw [seq_error e]
  exact ⟨rfl, h2⟩

theorem Breaks.seq_right {p q : TProg T} (hp : p.Risky) (hq : q.Breaks) : (TProg.seq p q).Breaks := by
  intro st A R
  have A' := TProg.exec_agrees p A
  have h := hp st A R
  rcases e : p.exec st with ⟨o, st'⟩
  rw [e] at h A'
  rcases h with ⟨h1, h2⟩ | ⟨h1, h2⟩ <;> simp only at h1 <;> subst h1
  · have e' : (TProg.seq p q).exec st = q.exec st' := by simp only [TProg.exec, e]
    rw [e']
    exact hq st' A' h2
  · rw [seq_error e]
    exact ⟨rfl, h2⟩

theorem Risky.forEach {A : Type} {f : A → TProg T} {l : List A}
    (h : ∀ a ∈ l, (f a).Risky) : (TProg.forEach f l).Risky := by
  induction l with
  | nil => exact Adds.risky Adds.skip
  | cons a l ih =>
    exact Risky.seq (h a List.mem_cons_self) (ih fun a' h' => h a' (List.mem_cons_of_mem _ h'))

theorem Breaks.forEach {A : Type} {f : A → TProg T} {l : List A}
    (h : ∀ a ∈ l, (f a).Risky) (hx : ∃ a ∈ l, (f a).Breaks) : (TProg.forEach f l).Breaks := by
  induction l with
  | nil => obtain ⟨a, ha, -⟩ := hx; simp at ha
  | cons a l ih =>
    obtain ⟨a', ha', hf⟩ := hx
    rcases List.mem_cons.1 ha' with rfl | ha'
    · exact Breaks.seq_left hf
    · exact Breaks.seq_right (h a List.mem_cons_self)
        (ih (fun a' h' => h a' (List.mem_cons_of_mem _ h')) ⟨a', ha', hf⟩)

theorem Breaks.clock {n : String} (hn : n = "pack" ∨ n = "unpack") (t t' : T) {A : Type} :
    (TProg.clock n t (.ofPy (.error .outOfBounds : Py A)) t').Breaks := by
  intro st Ag R
  have hn' : n ∈ commClocks := by rcases hn with rfl | rfl <;> decide
  have e1 := exec_start Ag R hn' t
  have e : (TProg.clock n t (.ofPy (.error .outOfBounds : Py A)) t').exec st =
      (.error .outOfBounds, ((.start n t, .ok ()) :: st.1, (st.2.call (.start n t)).2)) := by
    simp only [TProg.exec]; rw [e1]; rfl
  rw [e]
  refine ⟨rfl, R.1, ?_⟩
  rcases hn with rfl | rfl
  · left; rw [since_start_ok _ _ _ _ R.1]; simp
  · right; rw [since_start_ok _ _ _ _ R.1]; simp

theorem Risky.clock {n : String} (hn : n = "pack" ∨ n = "unpack") (t t' : T) {A : Type} (x : Py A)
    (hx : ∀ e, x = .error e → e = .outOfBounds) : (TProg.clock n t (.ofPy x) t').Risky := by
  cases x with
  | ok a => exact Adds.risky (Adds.clock (n := n) (by rcases hn with rfl | rfl <;> decide) t t' (.ok a) ⟨a, rfl⟩)
  | error e =>
    have := hx e rfl
    subst this
    exact Breaks.risky (Breaks.clock hn t t')

theorem haloUpdateT_breaks (t : T) {q : Quantity α} {ky kx : Nat} {h : Int}
    (hx : 0 < l.x) (hsq : l.y = l.x) (hr : r ∈ allRanks l) (hw : q.WF)
    (hA : HAxes q.dims ky kx) (hh : 0 < h) (hf : ¬ HaloFits q ky kx h) (contig : Boundary → Bool) :
    (haloUpdateT t l r q h contig).Breaks := by
  obtain ⟨bs, hb, hm, -⟩ := boundaries_ok hx hsq hr
  obtain ⟨b, hbd, hnf⟩ := not_fits q hA hf
  obtain ⟨B, hB⟩ := edge_exists hx hsq hr b hbd
  have hBt : B.boundaryType = b := boundary_type hx hsq hB
  unfold haloUpdateT
  rw [if_neg (by omega), hb]
  refine Breaks.seq_right ?_ (Breaks.seq_left ?_)
  · refine Risky.forEach fun b _ => Risky.seq (Risky.clock (.inl rfl) t t _ fun e he => ?_)
      (Adds.risky (isendClocks_adds t))
    rcases sendView_calm q hw hh b.boundaryType with h1 | h1 <;> rw [h1] at he
    · obtain ⟨a, h2, -⟩ := rotateScalar_eq (sendArr q b.boundaryType h) q.dims hA
        (by simp [sendArr, Quantity.ndim]) (-b.rotations)
      simp only [Bind.bind, Except.bind, h2] at he
      simp at he
    · simp only [Bind.bind, Except.bind] at he
      simpa using he.symm
  · refine Breaks.forEach (fun b _ => Risky.clock (.inr rfl) t t _ fun e he => ?_)
      ⟨B, (hm B).2 (by rw [hBt]; exact hB), ?_⟩
    · rw [recvIndex_eq _ hw.toLens] at he
      split at he
      · simp at he
      · simpa using he.symm
    · rw [recvIndex_eq _ hw.toLens, hBt, if_neg hnf]
      exact Breaks.clock (.inr rfl) t t

end

/-! ### The property -/

section
variable {l : Layout} {r : Int}

/-- **C53.**  A successful `halo_update` of any quantity, on a communicator whose timer is enabled and
has none of the communicator's clocks running, ends without exception, leaves exactly the clocks
running that were running before, and adds to the hits, for each boundary of the rank, two of
`pack`, one of `Isend`, one of `unpack`, one of `Recv`, and two more of `unpack` for each
non-contiguous view received into; other clocks are not hit. -/
theorem C53_halo_update (t : T) (before : TProg T) {bs : List Boundary} {q : Quantity α} {ky kx : Nat}
    {n h : Int} (hidle : ReadyClocks (before.exec ([], Timer.init)).2.1)
    (hb : Cube.boundaries l r = .ok bs) (H : HaloReady q ky kx n h) (hh : 0 < h) (hn : h ≤ n)
    (contig : Boundary → Bool) :
    let s := (before.exec ([], Timer.init)).2
    let x := (haloUpdateT t l r q h contig).exec s
    x.1 = .ok () ∧ (∀ m, since m x.2.1 = since m s.1) ∧
    x.2.2.hitsOf "pack" = s.2.hitsOf "pack" + 2 * bs.length ∧
    x.2.2.hitsOf "Isend" = s.2.hitsOf "Isend" + bs.length ∧
    x.2.2.hitsOf "unpack" = s.2.hitsOf "unpack" + bs.length + 2 * buffered contig bs ∧
    x.2.2.hitsOf "Recv" = s.2.hitsOf "Recv" + bs.length ∧
    ∀ m, m ∉ commClocks → x.2.2.hitsOf m = s.2.hitsOf m := by
  intro s x
  have A : s.2.Agrees s.1 := TProg.exec_agrees before Timer.agrees_init
  obtain ⟨h1, -, h3, h4⟩ := haloUpdateT_adds t hb H hh hn contig s A hidle
  refine ⟨h1, h3, ?_, ?_, ?_, ?_, fun m hm => ?_⟩
  · rw [h4]; simp [one]; ring
  · rw [h4]; simp [one]
  · rw [h4]; simp [one]; ring
  · rw [h4]; simp [one]
  · rw [h4]
    simp only [commClocks, List.mem_cons, List.not_mem_nil, or_false, not_or] at hm
    simp [one, hm.1, hm.2.1, hm.2.2.1, hm.2.2.2]

/-- **C53** for `vector_halo_update`: for each boundary of the rank three hits of `pack`, two of
`Isend`, `unpack` and `Recv`, and two more of `unpack` for each non-contiguous view. -/
theorem C53_vector_halo_update [Neg α] (t : T) (before : TProg T) {bs : List Boundary} {u v : Quantity α}
    {ky kx : Nat} {n h : Int} (hidle : ReadyClocks (before.exec ([], Timer.init)).2.1)
    (hb : Cube.boundaries l r = .ok bs) (Hu : HaloReady u ky kx n h) (Hv : HaloReady v ky kx n h)
    (hd : v.ndim = u.ndim) (hh : 0 < h) (hn : h ≤ n) (contig : Bool → Boundary → Bool) :
    let s := (before.exec ([], Timer.init)).2
    let x := (vectorHaloUpdateT t l r u v h contig).exec s
    x.1 = .ok () ∧ (∀ m, since m x.2.1 = since m s.1) ∧
    x.2.2.hitsOf "pack" = s.2.hitsOf "pack" + 3 * bs.length ∧
    x.2.2.hitsOf "Isend" = s.2.hitsOf "Isend" + 2 * bs.length ∧
    x.2.2.hitsOf "unpack" = s.2.hitsOf "unpack" + 2 * bs.length +
      2 * (buffered (contig true) bs + buffered (contig false) bs) ∧
    x.2.2.hitsOf "Recv" = s.2.hitsOf "Recv" + 2 * bs.length ∧
    ∀ m, m ∉ commClocks → x.2.2.hitsOf m = s.2.hitsOf m := by
  intro s x
  have A : s.2.Agrees s.1 := TProg.exec_agrees before Timer.agrees_init
  obtain ⟨h1, -, h3, h4⟩ := vectorHaloUpdateT_adds t hb Hu Hv hd hh hn contig s A hidle
  refine ⟨h1, h3, ?_, ?_, ?_, ?_, fun m hm => ?_⟩
  · rw [h4]; simp [one]; ring
  · rw [h4]; simp [one]; ring
  · rw [h4]; simp [one]; ring
  · rw [h4]; simp [one]; ring
  · rw [h4]
    simp only [commClocks, List.mem_cons, List.not_mem_nil, or_false, not_or] at hm
    simp [one, hm.1, hm.2.1, hm.2.2.1, hm.2.2.2]

theorem afterCalls_stuck [Neg α] (hx : 0 < l.x) (hsq : l.y = l.x) (hr : r ∈ allRanks l) (t : T)
    (calls : List (UpdateCall α)) {st : TState T} (A : st.2.Agrees st.1) (hs : StuckClock st.1) :
    (afterCalls t l r calls st).2.Agrees (afterCalls t l r calls st).1 ∧
    StuckClock (afterCalls t l r calls st).1 := by
  induction calls generalizing st with
  | nil => exact ⟨A, hs⟩
  | cons c cs ih => exact ih (TProg.exec_agrees _ A) (UpdateCall.stuck hx hsq hr t c st A hs).2

/-- **C53, limit.**  After a `halo_update` which raised OutOfBoundsError (too few halo points in the
array, C18) a clock of the communicator is left running, and then every later `halo_update` or
`vector_halo_update` of that communicator raises too, whatever was called in between and whatever
the quantities are - with ValueError if its own arguments are fine. -/
theorem C53_failure_is_final [Neg α] (t : T) (before : TProg T) {q : Quantity α} {ky kx : Nat} {h : Int}
    (hidle : ReadyClocks (before.exec ([], Timer.init)).2.1)
    (hx : 0 < l.x) (hsq : l.y = l.x) (hr : r ∈ allRanks l) (hw : q.WF)
    (hA : HAxes q.dims ky kx) (hh : 0 < h) (hf : ¬ HaloFits q ky kx h) (contig : Boundary → Bool) :
    let x := (haloUpdateT t l r q h contig).exec (before.exec ([], Timer.init)).2
    x.1 = .error .outOfBounds ∧
    ∀ (later : List (UpdateCall α)) (c : UpdateCall α),
      let y := (c.prog t l r).exec (afterCalls t l r later x.2)
      (∃ e, y.1 = .error e) ∧ (c.Fine → y.1 = .error .valueError) := by
  intro x
  have A : (before.exec ([], Timer.init)).2.2.Agrees (before.exec ([], Timer.init)).2.1 :=
    TProg.exec_agrees before Timer.agrees_init
  obtain ⟨h1, h2⟩ := haloUpdateT_breaks t hx hsq hr hw hA hh hf contig _ A hidle
  refine ⟨h1, fun later c => ?_⟩
  obtain ⟨A2, h3⟩ := afterCalls_stuck hx hsq hr t later (TProg.exec_agrees _ A) h2
  obtain ⟨⟨e, he, -⟩, -⟩ := UpdateCall.stuck hx hsq hr t c _ A2 h3
  refine ⟨⟨e, he⟩, fun hc => ?_⟩
  obtain ⟨⟨e', he', rfl⟩, -⟩ := UpdateCall.stuck_fine hx hsq hr t c hc _ A2 h3
  exact he'

/-- **C53.**  A request for zero halo points raises ValueError and does not touch the timer, whatever its state. -/
theorem C53_zero [Neg α] (t : T) (q u v : Quantity α) (contig : Boundary → Bool) (contig' : Bool → Boundary → Bool)
    (st : List (TCall T × Py Unit) × Timer T) :
    (haloUpdateT t l r q 0 contig).exec st = (.error .valueError, st) ∧
      (vectorHaloUpdateT t l r u v 0 contig').exec st = (.error .valueError, st) := ⟨rfl, rfl⟩

end

/-! ### The hypotheses can be met -/

/-- A new timer is ready. -/
theorem readyClocks_nil : ReadyClocks (T := T) [] := ⟨rfl, fun _ _ => rfl⟩

/-- On a 2×2 layout every rank has 7 boundaries; a halo update of two points with contiguous views
hits `pack` 14 times. -/
example (F : Vec3 → (Nat → Int) → Int) :
    ((haloUpdateT (0 : Int) ⟨2, 2⟩ 5 (exFieldMem ⟨2, 2⟩ F 5 0) 2 fun _ => true).exec ([], Timer.init)).2.2.hitsOf
      "pack" = 14 := by
  obtain ⟨bs, hb, hl⟩ : ∃ bs, Cube.boundaries ⟨2, 2⟩ 5 = .ok bs ∧ bs.length = 7 :=
    ⟨_, rfl, by decide +kernel⟩
  have := (C53_halo_update (0 : Int) .skip readyClocks_nil hb
    ((exField_scalar ⟨2, 2⟩ F 0).ready 5 (by decide)) (h := 2) (by decide) (by decide) fun _ => true).2.2.1
  rw [hl] at this
  exact this

/-- Three halo points do not fit in `exFieldMem`, which has two; afterwards the update of two
points raises ValueError. -/
example (F : Vec3 → (Nat → Int) → Int) :
    ((haloUpdateT (0 : Int) ⟨2, 2⟩ 5 (exFieldMem ⟨2, 2⟩ F 5 0) 2 fun _ => true).exec
      ((haloUpdateT (0 : Int) ⟨2, 2⟩ 5 (exFieldMem ⟨2, 2⟩ F 5 0) 3 fun _ => true).exec ([], Timer.init)).2).1
      = .error .valueError :=
  ((C53_failure_is_final (0 : Int) .skip (l := ⟨2, 2⟩) (r := 5) (q := exFieldMem ⟨2, 2⟩ F 5 0)
    (h := 3) readyClocks_nil (by decide) rfl (by decide)
    ((exField_scalar ⟨2, 2⟩ F 0).ready 5 (by decide)).wf exField_axes (by decide) (by
      rintro ⟨⟨h1, -⟩, -⟩
      have : (3 : Int) ≤ 2 := h1
      omega) fun _ => true).2 [] (.halo (exFieldMem ⟨2, 2⟩ F 5 0) 2 fun _ => true)).2
    ⟨_, _, _, (exField_scalar ⟨2, 2⟩ F 0).ready 5 (by decide), by decide, by decide⟩

end FV3
