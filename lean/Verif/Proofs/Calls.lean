import Verif.Spec.Bulk
import Verif.Proofs.ProtocolPlan

/-!
# Blocking calls as pairs of a start and a wait
-/

namespace FV3
variable {α : Type} [Neg α]

/-- The operations of a call, when `k` updates were started before. -/
def Call.ops (k : Nat) : Call α → List (Op α)
  | .haloUpdate q n => [.halo q n, .wait k]
  | .vectorHaloUpdate x y n => [.vector x y n, .wait k]
  | .synchronize x y => [.sync x y, .wait k]
  | .compute f => [.compute f]

/-- The operations of a sequence of calls. -/
def callOps : Nat → List (Call α) → List (Op α)
  | _, [] => []
  | k, c :: cs => c.ops k ++ callOps (if c.start.isSome then k + 1 else k) cs

omit [Neg α] in
theorem Call.start_isStart {c : Call α} {op : Op α} (h : c.start = some op) :
    op.isStart = true := by
  cases c <;> simp [Call.start] at h <;> subst h <;> rfl

omit [Neg α] in
theorem Call.ops_start {c : Call α} {op : Op α} (h : c.start = some op) (k : Nat) :
    c.ops k = [op, .wait k] := by
  cases c <;> simp [Call.start] at h <;> subst h <;> rfl

theorem Call.exec_start {c : Call α} {op : Op α} (h : c.start = some op) (l : Layout) (r : Int) :
    c.exec l r = (do let req ← op.begin l r; waitRequest req) := by
  cases c <;> simp [Call.start] at h <;> subst h <;> rfl

theorem calls_real {l : Layout} {r : Int} {arr : Nat → Int → Nat → Option (NDArray α)}
    (T : Nat → Nat → Nat → Nat) {calls : List (Call α)} {s fin : Local α}
    (h : localRun l r arr (callOps s.ups.length calls) s = .ok fin) (p : Nat) :
    Does (execCalls l r calls) ⟨s.mem, s.lastTag, []⟩
      ((planFrom T fin.ups arr s.ups.length p (callOps s.ups.length calls)).map (·.2)) ()
      ⟨fin.mem, fin.lastTag, []⟩ := by
  induction calls generalizing s p with
  | nil =>
    simp only [callOps, localRun, Except.ok.injEq] at h
    subst h
    exact Does.pure _ _
  | cons c cs ih =>
    unfold execCalls
    simp only [callOps] at h ⊢
    cases hc : c.start with
    | some op =>
      have hs := Call.start_isStart hc
      rw [Call.ops_start hc] at h ⊢
      rw [hc] at h
      simp only [Option.isSome_some, if_true] at h ⊢
      obtain ⟨s1, h1, h⟩ := bind_ok (show localRun l r arr (op :: (.wait s.ups.length ::
        callOps (s.ups.length + 1) cs)) s = .ok fin from h)
      rw [localStep_start hs] at h1
      obtain ⟨o, ho, h1⟩ := bind_ok h1
      obtain ⟨i, hi, h1⟩ := bind_ok h1
      have := pure_ok h1
      subst this
      have hpre := localRun_prefix h
      obtain ⟨s2, h2, h⟩ := bind_ok h
      have hk : fin.ups[s.ups.length]? = some ⟨s.lastTag, o, i⟩ := by
        rw [prefix_getElem? hpre (by simp)]
        simp
      simp only [Op.localStep] at h2
      rw [show (s.ups ++ [(⟨s.lastTag, o, i⟩ : Started α)])[s.ups.length]? = some ⟨s.lastTag, o, i⟩ by
        simp] at h2
      obtain ⟨m, hm, h2⟩ := bind_ok h2
      have := pure_ok h2
      subst this
      have hlen : (s.ups ++ [(⟨s.lastTag, o, i⟩ : Started α)]).length = s.ups.length + 1 := by simp
      have ih := ih (s := ⟨m, s.lastTag + op.nTags, s.ups ++ [⟨s.lastTag, o, i⟩]⟩)
        (by rw [hlen]; exact h) (p + 1 + 1)
      rw [hlen] at ih
      simp only [List.cons_append, List.nil_append, planFrom, List.map_append]
      rw [opPlan_start hs, hk, if_pos hs]
      simp only [opPlan, hk, erase_const, List.map_append]
      rw [if_neg (by simp [Op.isStart]), ← List.append_assoc]
      refine Does.bind (x := ()) ?_ ih
      rw [Call.exec_start hc]
      exact Does.bind (Does.begin (s := ⟨s.mem, s.lastTag, []⟩) hs ho hi)
        (Does.wait (s := ⟨s.mem, s.lastTag + op.nTags, []⟩) s.lastTag hm)
    | none =>
      cases c with
      | compute f =>
        simp only [Call.start, Option.isSome_none, Bool.false_eq_true, if_false, Call.ops] at h ⊢
        obtain ⟨s1, h1, h⟩ := bind_ok (show localRun l r arr (.compute f ::
          callOps s.ups.length cs) s = .ok fin from h)
        simp only [Op.localStep, Except.ok.injEq] at h1
        subst h1
        have ih := ih (s := { s with mem := f r s.mem }) h (p + 1)
        simp only [List.cons_append, List.nil_append, planFrom, opPlan]
        rw [if_neg (by simp [Op.isStart])]
        exact Does.bind (a1 := []) (x := ()) (Real.ret _) ih
      | _ => simp [Call.start] at hc

omit [Neg α] in
theorem startsOf_callOps (k : Nat) (cs : List (Call α)) :
    startsOf (callOps k cs) = cs.filterMap Call.start := by
  induction cs generalizing k with
  | nil => rfl
  | cons c cs ih =>
    unfold startsOf at ih ⊢
    rw [callOps, List.filter_append, ih]
    cases c <;> rfl

omit [Neg α] in
/-- Position of the operations of blocking calls. -/
theorem callOps_get (k d : Nat) (cs : List (Call α)) :
    (∀ i, (callOps k cs)[d]? = some (.wait i) →
      i + 1 = k + ((callOps k cs).take d).countP Op.isStart) ∧
    (∀ op, (callOps k cs)[d]? = some op → op.isStart = true →
      (callOps k cs)[d + 1]? = some (.wait (k + ((callOps k cs).take d).countP Op.isStart))) := by
  induction cs generalizing k d with
  | nil => simp [callOps]
  | cons c cs ih =>
    rw [callOps]
    cases hc : c.start with
    | some op0 =>
      have hs := Call.start_isStart hc
      rw [Call.ops_start hc]
      simp only [Option.isSome_some, if_true, List.cons_append, List.nil_append]
      match d with
      | 0 =>
        refine ⟨fun i h => ?_, fun op h1 h2 => by simp⟩
        simp at h
        subst h
        simp [Op.isStart] at hs
      | 1 =>
        refine ⟨fun i h => ?_, fun op h1 h2 => ?_⟩
        · simp at h
          subst h
          simp [List.countP_cons, hs]
        · simp at h1
          subst h1
          simp [Op.isStart] at h2
      | d + 2 =>
        have ih := ih (k + 1) d
        have hcnt : ((op0 :: Op.wait k :: callOps (k + 1) cs).take (d + 2)).countP Op.isStart =
            1 + ((callOps (k + 1) cs).take d).countP Op.isStart := by
          simp [List.countP_cons, hs]; simp [Op.isStart]; omega
        rw [hcnt]
        refine ⟨fun i h => ?_, fun op h1 h2 => ?_⟩
        · have := ih.1 i (by simpa using h); omega
        · have := ih.2 op (by simpa using h1) h2
          rw [show k + (1 + ((callOps (k + 1) cs).take d).countP Op.isStart) =
            k + 1 + ((callOps (k + 1) cs).take d).countP Op.isStart by omega]
          simpa using this
    | none =>
      cases c with
      | compute f =>
        simp only [Call.start, Option.isSome_none, Bool.false_eq_true, if_false, Call.ops,
          List.cons_append, List.nil_append]
        match d with
        | 0 =>
          refine ⟨fun i h => ?_, fun op h1 h2 => ?_⟩
          · simp at h
          · simp at h1; subst h1; simp [Op.isStart] at h2
        | d + 1 =>
          have ih := ih k d
          have hcnt : ((Op.compute f :: callOps k cs).take (d + 1)).countP Op.isStart =
              ((callOps k cs).take d).countP Op.isStart := by
            simp [List.countP_cons, Op.isStart]
          rw [hcnt]
          exact ⟨fun i h => ih.1 i (by simpa using h),
            fun op h1 h2 => by simpa using ih.2 op (by simpa using h1) h2⟩
      | _ => simp [Call.start] at hc

omit [Neg α] in
theorem callOps_waits (k : Nat) (cs : List (Call α)) :
    ((callOps k cs).filterMap Op.waitIdx).Nodup ∧
      ∀ i ∈ (callOps k cs).filterMap Op.waitIdx, k ≤ i := by
  induction cs generalizing k with
  | nil => simp [callOps]
  | cons c cs ih =>
    rw [callOps, List.filterMap_append]
    cases hc : c.start with
    | some op0 =>
      rw [Call.ops_start hc]
      have hw : op0.waitIdx = none := by
        have := Call.start_isStart hc
        cases op0 <;> first | rfl | simp [Op.isStart] at this
      have e : [op0, Op.wait k].filterMap Op.waitIdx = [k] := by
        rw [List.filterMap_cons, hw]
        rfl
      rw [e]
      simp only [Option.isSome_some, if_true]
      obtain ⟨h1, h2⟩ := ih (k + 1)
      refine ⟨?_, ?_⟩
      · rw [List.cons_append, List.nil_append, List.nodup_cons]
        exact ⟨fun h => absurd (h2 k h) (by omega), h1⟩
      · intro i hi
        rcases List.mem_append.1 hi with h | h
        · simp at h; omega
        · have := h2 i h; omega
    | none =>
      cases c with
      | compute f =>
        simp only [Call.start, Option.isSome_none, Bool.false_eq_true, if_false, Call.ops]
        exact ih k
      | _ => simp [Call.start] at hc

/-- Blocking calls, the same on all ranks, complete for every kind of sends. -/
theorem calls_complete {l : Layout} {Good : Int → Mem α → Prop}
    {calls : List (Call α)} {mem : Int → Mem α} (buf : Buffering)
    (hg : ∀ r ∈ allRanks l, Good r (mem r))
    (hs : ∀ c ∈ calls, ∀ op, c.start = some op → StartSound l Good op)
    (hc : ∀ f, Call.compute f ∈ calls → ∀ r ∈ allRanks l, ∀ m, Good r m → Good r (f r m)) :
    ∃ fin, Consistent l (fun _ => callOps 0 calls) mem fin ∧
      (∀ r ∈ allRanks l, Good r (fin r).mem) ∧
      (callNet l calls mem).Completes buf fun r => (.ok (), ⟨(fin r).mem, (fin r).lastTag, []⟩) := by
  refine protocol_completes_of (R := Py Unit × RankState α) (Good := Good)
    (starts := calls.filterMap Call.start) (prog := fun _ => callOps 0 calls) (mem := mem)
    (buf := buf) (T := fun ph _ p => 3 * p + ph) (B := fun _ p => 3 * p) hg ?_ ?_ ?_ ?_ ?_ ?_ ?_
    (fun r => if r ∈ allRanks l then execCalls l r calls ⟨mem r, 0, []⟩
      else .ret (.ok (), ⟨mem r, 0, []⟩))
    (fun s => (.ok (), ⟨s.mem, s.lastTag, []⟩)) ?_ ?_
  · intro op h
    obtain ⟨c, h1, h2⟩ := List.mem_filterMap.1 h
    exact hs c h1 op h2
  · intro r _
    exact startsOf_callOps 0 calls
  · intro r _ d i h
    have := (callOps_get 0 d calls).1 i h
    omega
  · intro r _
    exact (callOps_waits 0 calls).1
  · intro r _ f hf
    have key : ∀ k, Op.compute f ∈ callOps k calls → Call.compute f ∈ calls := by
      clear hs hc hf
      induction calls with
      | nil => intro k h; simp [callOps] at h
      | cons c cs ih =>
        intro k h
        rw [callOps, List.mem_append] at h
        rcases h with h | h
        · cases c <;> simp [Call.ops] at h ⊢
          exact Or.inl h
        · exact List.mem_cons_of_mem _ (ih _ h)
    exact hc f (key 0 hf)
  · constructor <;> intros <;> omega
  · constructor
    · intro r _ r' _ d d' i op hd hd' hop hcnt
      have h1 := (callOps_get 0 d calls).1 i hd
      by_contra hlt
      have : ((callOps 0 calls).take d).countP Op.isStart ≤
          ((callOps 0 calls).take d').countP Op.isStart :=
        ((List.take_prefix_take_left (by omega)).sublist).countP_le
      omega
    · intro r _ dst _ d i hd
      exact Or.inr ⟨d, hd, by omega⟩
  · intro r hr arr fin h
    simp only [if_pos hr]
    exact calls_real _ (s := ⟨mem r, 0, []⟩) h 0
  · intro r hr
    simp only [if_neg hr]

end FV3
