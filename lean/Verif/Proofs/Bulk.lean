import Verif.Proofs.Calls

/-!
# Blocking calls act as one step on all ranks
-/

namespace FV3
variable {α : Type} [Neg α]

theorem deliver_congr {arr arr' : Int → Nat → Option (NDArray α)} (h : ∀ s o, arr s o = arr' s o)
    (xs : List Incoming) (mem : Mem α) : deliver arr xs mem = deliver arr' xs mem := by
  have : arr = arr' := by funext s o; exact h s o
  rw [this]

theorem callStep_start {l : Layout} {c : Call α} {op : Op α} (hc : c.start = some op)
    {m m' : Int → Mem α} : CallStep l c m m' ↔ UpdateStep l op m m' := by
  cases c <;> simp [Call.start] at hc <;> subst hc <;> rfl

theorem callTags_start {c : Call α} {op : Op α} (hc : c.start = some op) : c.nTags = op.nTags := by
  cases c <;> simp [Call.start] at hc <;> subst hc <;> rfl

/-- A start and its wait, in a local run. -/
theorem localRun_start_wait {l : Layout} {r : Int} {arr : Nat → Int → Nat → Option (NDArray α)}
    {op : Op α} (hs : op.isStart = true) {rest : List (Op α)} {s fin : Local α}
    (h : localRun l r arr (op :: .wait s.ups.length :: rest) s = .ok fin) :
    ∃ o i m, op.out l r s.mem = .ok o ∧ op.inn l r s.mem = .ok i ∧
      deliver (arr s.ups.length) i s.mem = .ok m ∧
      fin.ups[s.ups.length]? = some ⟨s.lastTag, o, i⟩ ∧
      localRun l r arr rest ⟨m, s.lastTag + op.nTags, s.ups ++ [⟨s.lastTag, o, i⟩]⟩ = .ok fin := by
  obtain ⟨s1, h1, h⟩ := bind_ok h
  rw [localStep_start hs] at h1
  obtain ⟨o, ho, h1⟩ := bind_ok h1
  obtain ⟨i, hi, h1⟩ := bind_ok h1
  have := pure_ok h1
  subst this
  have hpre := localRun_prefix h
  obtain ⟨s2, h2, h⟩ := bind_ok h
  have hk : fin.ups[s.ups.length]? = some ⟨s.lastTag, o, i⟩ := by
    rw [prefix_getElem? hpre (by simp)]
    simp
  simp only [Op.localStep] at h2
  rw [show (s.ups ++ [(⟨s.lastTag, o, i⟩ : Started α)])[s.ups.length]? = some ⟨s.lastTag, o, i⟩ by
    simp] at h2
  obtain ⟨m, hm, h2⟩ := bind_ok h2
  have := pure_ok h2
  subst this
  exact ⟨o, i, m, ho, hi, hm, hk, h⟩

theorem bulk_run {l : Layout} {fin : Int → Local α}
    (hout : ∀ r, r ∉ allRanks l → (fin r).ups = []) (calls : List (Call α)) (k : Nat)
    (s : Int → Local α) (hlen : ∀ r ∈ allRanks l, (s r).ups.length = k)
    (hrun : ∀ r ∈ allRanks l, localRun l r (received fin r) (callOps k calls) (s r) = .ok (fin r)) :
    CallsRun l calls (fun r => (s r).mem) (fun r => (fin r).mem) ∧
      ∀ r ∈ allRanks l, (fin r).lastTag = (s r).lastTag + (calls.map Call.nTags).sum := by
  induction calls generalizing k s with
  | nil =>
    constructor
    · intro r hr
      have := hrun r hr
      simp only [callOps, localRun, Except.ok.injEq] at this
      show (fin r).mem = (s r).mem
      rw [this]
    · intro r hr
      have := hrun r hr
      simp only [callOps, localRun, Except.ok.injEq] at this
      rw [this]; simp
  | cons c cs ih =>
    cases hc : c.start with
    | some op =>
      have hs := Call.start_isStart hc
      have key : ∀ r, ∃ x : List (Outgoing α) × List Incoming × Mem α, r ∈ allRanks l →
          op.out l r (s r).mem = .ok x.1 ∧ op.inn l r (s r).mem = .ok x.2.1 ∧
          deliver (received fin r k) x.2.1 (s r).mem = .ok x.2.2 ∧
          (fin r).ups[k]? = some ⟨(s r).lastTag, x.1, x.2.1⟩ ∧
          localRun l r (received fin r) (callOps (k + 1) cs)
            ⟨x.2.2, (s r).lastTag + op.nTags, (s r).ups ++ [⟨(s r).lastTag, x.1, x.2.1⟩]⟩ =
              .ok (fin r) := by
        intro r
        by_cases hr : r ∈ allRanks l
        · have h := hrun r hr
          rw [callOps, Call.ops_start hc, hc] at h
          simp only [Option.isSome_some, if_true, List.cons_append, List.nil_append] at h
          have hk := hlen r hr
          subst hk
          obtain ⟨o, i, m, a1, a2, a3, a4, a5⟩ := localRun_start_wait hs h
          exact ⟨(o, i, m), fun _ => ⟨a1, a2, a3, a4, a5⟩⟩
        · exact ⟨([], [], (s r).mem), fun h => absurd h hr⟩
      choose x hx using key
      have hrec : ∀ r src off, received fin r k src off =
          packedFor l op (fun r => (s r).mem) r src off := by
        intro r src off
        unfold received packedFor
        by_cases hsrc : src ∈ allRanks l
        · obtain ⟨a1, -, -, a4, -⟩ := hx src hsrc
          rw [if_pos hsrc, a4, a1]
        · rw [if_neg hsrc, hout src hsrc]
          rfl
      have ih := ih (k + 1) (fun r => ⟨(x r).2.2, (s r).lastTag + op.nTags,
        (s r).ups ++ [⟨(s r).lastTag, (x r).1, (x r).2.1⟩]⟩)
        (fun r hr => by simp [hlen r hr]) (fun r hr => (hx r hr).2.2.2.2)
      refine ⟨⟨_, ?_, ih.1⟩, ?_⟩
      · rw [callStep_start hc]
        intro r hr
        obtain ⟨a1, a2, a3, -, -⟩ := hx r hr
        refine ⟨⟨_, a1⟩, _, a2, ?_⟩
        rw [← deliver_congr (hrec r)]
        exact a3
      · intro r hr
        rw [ih.2 r hr, List.map_cons, List.sum_cons, callTags_start hc]
        simp only
        omega
    | none =>
      cases c with
      | compute f =>
        have ih := ih k (fun r => { s r with mem := f r (s r).mem }) hlen (fun r hr => by
          have h := hrun r hr
          rw [callOps] at h
          simp only [Call.start, Option.isSome_none, Bool.false_eq_true, if_false, Call.ops] at h
          obtain ⟨s1, h1, h⟩ := bind_ok (show localRun l r (received fin r) (.compute f ::
            callOps k cs) (s r) = .ok (fin r) from h)
          simp only [Op.localStep, Except.ok.injEq] at h1
          subst h1
          exact h)
        refine ⟨⟨_, fun r hr => rfl, ih.1⟩, ?_⟩
        intro r hr
        rw [ih.2 r hr]
        simp [Call.nTags]
      | _ => simp [Call.start] at hc

/-- Blocking calls, the same on all ranks, complete for every kind of sends, with the outcome
of performing them one after the other on all ranks. -/
theorem calls_bulk {l : Layout} {Good : Int → Mem α → Prop}
    {calls : List (Call α)} {mem : Int → Mem α} (buf : Buffering)
    (hg : ∀ r ∈ allRanks l, Good r (mem r))
    (hs : ∀ c ∈ calls, ∀ op, c.start = some op → StartSound l Good op)
    (hc : ∀ f, Call.compute f ∈ calls → ∀ r ∈ allRanks l, ∀ m, Good r m → Good r (f r m)) :
    ∃ mem' : Int → Mem α, CallsRun l calls mem mem' ∧ (∀ r ∈ allRanks l, Good r (mem' r)) ∧
      (callNet l calls mem).Completes buf fun r =>
        (.ok (), ⟨mem' r, if r ∈ allRanks l then (calls.map Call.nTags).sum else 0, []⟩) := by
  obtain ⟨fin, h1, h2, h3⟩ := calls_complete buf hg hs hc
  have hb := bulk_run (l := l) (fin := fin) (fun r hr => by rw [(h1 r).2 hr]) calls 0
    (fun r => ⟨mem r, 0, []⟩) (fun _ _ => rfl) (fun r hr => (h1 r).1 hr)
  refine ⟨fun r => (fin r).mem, hb.1, h2, ?_⟩
  have e : (fun r => ((Except.ok () : Py Unit), (⟨(fin r).mem, (fin r).lastTag, []⟩ : RankState α))) =
      fun r => (.ok (), ⟨(fin r).mem, if r ∈ allRanks l then (calls.map Call.nTags).sum else 0, []⟩) := by
    funext r
    by_cases hr : r ∈ allRanks l
    · rw [if_pos hr, hb.2 r hr]; simp
    · rw [if_neg hr, (h1 r).2 hr]
  rw [← e]
  exact h3

end FV3
