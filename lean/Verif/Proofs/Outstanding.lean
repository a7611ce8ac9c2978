import Verif.Spec.Outstanding
import Verif.Proofs.Deliver
import Verif.Proofs.Boundaries
import Verif.Proofs.ProtocolPlan

/-!
# Updates about different quantities do not interfere
-/

namespace FV3
variable {α : Type}

/-- Storing depends on, and changes, the named quantity only. -/
theorem storeInto_local {mem mem2 mem' : Mem α} {q : Nat} {ix : List Ix} {a : NDArray α}
    (h : storeInto mem q ix a = .ok mem') (e : mem2 q = mem q) :
    ∃ mem2', storeInto mem2 q ix a = .ok mem2' ∧ mem2' q = mem' q ∧
      ∀ q', q' ≠ q → mem2' q' = mem2 q' ∧ mem' q' = mem q' := by
  obtain ⟨rs, h1, h2, rfl⟩ := storeInto_ok h
  refine ⟨_, storeInto_eq (rs := rs) (by rw [e]; exact h1) h2, ?_, fun q' hq => ?_⟩
  · simp only [if_true, e]
  · simp only [if_neg hq, and_self]

theorem deliver_local {arr : Int → Nat → Option (NDArray α)} {Q : List Nat} {xs : List Incoming}
    {mem mem2 mem' : Mem α} (hq : ∀ x ∈ xs, x.q ∈ Q) (h : deliver arr xs mem = .ok mem')
    (e : ∀ q ∈ Q, mem2 q = mem q) :
    ∃ mem2', deliver arr xs mem2 = .ok mem2' ∧ (∀ q ∈ Q, mem2' q = mem' q) ∧
      ∀ q, q ∉ Q → mem2' q = mem2 q ∧ mem' q = mem q := by
  induction xs generalizing mem mem2 with
  | nil =>
    simp only [deliver, Except.ok.injEq] at h
    subst h
    exact ⟨mem2, rfl, e, fun _ _ => ⟨rfl, rfl⟩⟩
  | cons x xs ih =>
    unfold deliver at h ⊢
    split at h
    · simp at h
    next a ha =>
    obtain ⟨m1, h1, h2⟩ := bind_ok h
    have hx := hq x List.mem_cons_self
    obtain ⟨m2, s1, s2, s3⟩ := storeInto_local h1 (e x.q hx)
    have e' : ∀ q ∈ Q, m2 q = m1 q := by
      intro q hqQ
      by_cases hxq : q = x.q
      · rw [hxq]; exact s2
      · rw [(s3 q hxq).1, (s3 q hxq).2]; exact e q hqQ
    obtain ⟨m3, t1, t2, t3⟩ := ih (fun y hy => hq y (List.mem_cons_of_mem _ hy)) h2 e'
    refine ⟨m3, ?_, t2, fun q hqn => ?_⟩
    · simp only [ha, Bind.bind, Except.bind, s1]
      exact t1
    · have hne : q ≠ x.q := fun h => hqn (h ▸ hx)
      rw [(t3 q hqn).1, (t3 q hqn).2, (s3 q hne).1, (s3 q hne).2]
      exact ⟨rfl, rfl⟩

variable [Neg α]

theorem out_congr {l : Layout} {r : Int} {op : Op α} {mem mem' : Mem α}
    (h : ∀ q ∈ op.qs, mem' q = mem q) : op.out l r mem' = op.out l r mem := by
  cases op with
  | halo q n =>
    have e := h q (by simp [Op.qs])
    simp only [Op.out, haloOut, e]
  | vector x y n =>
    have e1 := h x (by simp [Op.qs])
    have e2 := h y (by simp [Op.qs])
    simp only [Op.out, vectorOut, e1, e2]
  | sync x y =>
    have e1 := h x (by simp [Op.qs])
    have e2 := h y (by simp [Op.qs])
    simp only [Op.out, syncOut, e1, e2]
  | wait i => rfl
  | compute f => rfl

omit [Neg α] in
theorem inn_congr {l : Layout} {r : Int} {op : Op α} {mem mem' : Mem α}
    (h : ∀ q ∈ op.qs, mem' q = mem q) : op.inn l r mem' = op.inn l r mem := by
  cases op with
  | halo q n =>
    have e := h q (by simp [Op.qs])
    simp only [Op.inn, haloIn, e]
  | vector x y n =>
    have e1 := h x (by simp [Op.qs])
    have e2 := h y (by simp [Op.qs])
    simp only [Op.inn, vectorIn, haloIn, e1, e2]
  | sync x y =>
    have e1 := h x (by simp [Op.qs])
    have e2 := h y (by simp [Op.qs])
    simp only [Op.inn, syncIn, e1, e2]
  | wait i => rfl
  | compute f => rfl

omit [Neg α] in
theorem haloIn_qs {l : Layout} {r : Int} {q : Nat} {n : Int} {off : Nat} {mem : Mem α}
    {i : List Incoming} (h : haloIn l q n off r mem = .ok i) : ∀ x ∈ i, x.q = q := by
  unfold haloIn at h
  obtain ⟨bs, -, h⟩ := bind_ok h
  intro x hx
  obtain ⟨B, -, e⟩ := (pyMap_mem h).1 hx
  obtain ⟨ix, -, e⟩ := bind_ok e
  rw [← pure_ok e]

omit [Neg α] in
theorem inn_qs {l : Layout} {r : Int} {op : Op α} {mem : Mem α} {i : List Incoming}
    (h : op.inn l r mem = .ok i) : ∀ x ∈ i, x.q ∈ op.qs := by
  cases op with
  | halo q n =>
    intro x hx
    rw [haloIn_qs h x hx]
    simp [Op.qs]
  | vector a b n =>
    simp only [Op.inn, vectorIn] at h
    obtain ⟨i1, h1, h⟩ := bind_ok h
    obtain ⟨i2, h2, h⟩ := bind_ok h
    have := pure_ok h
    subst this
    intro x hx
    rcases List.mem_append.1 hx with hx | hx
    · rw [haloIn_qs h1 x hx]; simp [Op.qs]
    · rw [haloIn_qs h2 x hx]; simp [Op.qs]
  | sync a b =>
    simp only [Op.inn, syncIn] at h
    obtain ⟨_, -, h⟩ := bind_ok h
    obtain ⟨_, -, h⟩ := bind_ok h
    obtain ⟨_, -, h⟩ := bind_ok h
    obtain ⟨_, -, h⟩ := bind_ok h
    have := pure_ok h
    subst this
    intro x hx
    simp only [List.mem_cons, List.not_mem_nil, or_false] at hx
    rcases hx with rfl | rfl <;> simp [Op.qs]
  | wait i =>
    simp only [Op.inn, Except.ok.injEq] at h
    subst h; simp
  | compute f =>
    simp only [Op.inn, Except.ok.injEq] at h
    subst h; simp

/-- What is known of a rank after some of its operations: `W` are the updates waited for. -/
structure Progress (l : Layout) (r : Int) (arr : Nat → Int → Nat → Option (NDArray α))
    (starts : List (Op α)) (m0 : Mem α) (W : List Nat) (s : Local α) : Prop where
  le : s.ups.length ≤ starts.length
  started : ∀ (k : Nat) op u, starts[k]? = some op → s.ups[k]? = some u →
    op.out l r m0 = .ok u.out ∧ op.inn l r m0 = .ok u.inc
  waited : ∀ k ∈ W, k < s.ups.length
  fresh : ∀ (k : Nat) op, starts[k]? = some op → k ∉ W → ∀ q ∈ op.qs, s.mem q = m0 q
  stored : ∀ (k : Nat) op, starts[k]? = some op → k ∈ W → ∃ i mk, op.inn l r m0 = .ok i ∧
    deliver (arr k) i m0 = .ok mk ∧ ∀ q ∈ op.qs, s.mem q = mk q

theorem progress_run {l : Layout} {r : Int} (hr : r ∈ allRanks l)
    {arr : Nat → Int → Nat → Option (NDArray α)} {starts : List (Op α)} {m0 : Mem α}
    (hdis : DisjointUpdates starts) :
    ∀ (ops : List (Op α)) (W : List Nat) (s fin : Local α), Progress l r arr starts m0 W s →
      starts.drop s.ups.length = startsOf ops → ComputesElsewhere l starts ops →
      (W ++ ops.filterMap Op.waitIdx).Nodup → localRun l r arr ops s = .ok fin →
      Progress l r arr starts m0 (W ++ ops.filterMap Op.waitIdx) fin ∧
        fin.ups.length = starts.length := by
  intro ops
  induction ops with
  | nil =>
    intro W s fin P hs hc hn h
    simp only [localRun, Except.ok.injEq] at h
    subst h
    have : starts.length ≤ s.ups.length := by
      have := congrArg List.length hs
      simp [startsOf] at this
      omega
    exact ⟨by simpa using P, by have := P.le; omega⟩
  | cons op ops ih =>
    intro W s fin P hs hc hn h
    have hc' : ComputesElsewhere l starts ops := fun f hf => hc f (List.mem_cons_of_mem _ hf)
    unfold localRun at h
    obtain ⟨s1, h1, h⟩ := bind_ok h
    have hstart : op.isStart = true → Progress l r arr starts m0 (W ++ (op :: ops).filterMap Op.waitIdx) fin ∧
        fin.ups.length = starts.length := by
      intro hst
      have hsf : startsOf (op :: ops) = op :: startsOf ops := by
        unfold startsOf; rw [List.filter_cons_of_pos hst]
      rw [hsf] at hs
      have hlt : s.ups.length < starts.length := by
        have := congrArg List.length hs
        simp at this
        omega
      have hk : starts[s.ups.length]? = some op := by
        have := congrArg (·[0]?) hs
        simpa [List.getElem?_drop] using this
      have hdrop : starts.drop (s.ups.length + 1) = startsOf ops := by
        rw [← List.tail_drop, hs]; rfl
      have hnw : s.ups.length ∉ W := fun hW => by have := P.waited _ hW; omega
      have hfr := P.fresh _ _ hk hnw
      have h1' : (do
          let o ← op.out l r s.mem
          let i ← op.inn l r s.mem
          return ({ s with lastTag := s.lastTag + op.nTags, ups := s.ups ++ [(⟨s.lastTag, o, i⟩ : Started α)] } : Local α)) =
          .ok s1 := by
        cases op <;> simp [Op.isStart] at hst <;> exact h1
      rw [out_congr hfr, inn_congr hfr] at h1'
      obtain ⟨o, ho, h1'⟩ := bind_ok h1'
      obtain ⟨i, hi, h1'⟩ := bind_ok h1'
      have := pure_ok h1'
      subst this
      have hwi : (op :: ops).filterMap Op.waitIdx = ops.filterMap Op.waitIdx := by
        cases op <;> simp [Op.isStart] at hst <;> rfl
      rw [hwi] at hn ⊢
      refine (fun P' hs' => ih W _ fin P' hs' hc' hn h) (Progress.mk ?_ ?_ ?_ P.fresh P.stored) ?_
      · simp; omega
      · intro k op' u hk' hu
        simp only [List.getElem?_append] at hu
        by_cases e : k < s.ups.length
        · rw [if_pos e] at hu
          exact P.started k op' u hk' hu
        · rw [if_neg e] at hu
          have : k - s.ups.length = 0 := by
            by_contra hne
            rw [List.getElem?_eq_none (by simp; omega)] at hu
            simp at hu
          have ek : k = s.ups.length := by omega
          subst ek
          simp at hu
          subst hu
          rw [hk] at hk'
          simp only [Option.some.injEq] at hk'
          subst hk'
          exact ⟨ho, hi⟩
      · intro k hk'
        have := P.waited k hk'
        simp; omega
      · simpa using hdrop
    cases op with
    | halo q n => exact hstart rfl
    | vector x y n => exact hstart rfl
    | sync x y => exact hstart rfl
    | compute f =>
      simp only [Op.localStep, Except.ok.injEq] at h1
      subst h1
      have hf := hc f List.mem_cons_self r hr s.mem
      refine (fun P' hs' => ih W _ fin P' hs' hc' hn h) (Progress.mk P.le P.started P.waited ?_ ?_) ?_
      · intro k op hk hW q hq
        simp only
        rw [hf op (List.mem_of_getElem? hk) q hq]
        exact P.fresh k op hk hW q hq
      · intro k op hk hW
        obtain ⟨i, mk, a, b, c⟩ := P.stored k op hk hW
        refine ⟨i, mk, a, b, fun q hq => ?_⟩
        simp only
        rw [hf op (List.mem_of_getElem? hk) q hq]
        exact c q hq
      · exact hs
    | wait i =>
      have hwi : (Op.wait i :: ops : List (Op α)).filterMap Op.waitIdx = i :: ops.filterMap Op.waitIdx := rfl
      rw [hwi] at hn ⊢
      simp only [Op.localStep] at h1
      split at h1
      · simp at h1
      next u hu =>
      obtain ⟨mem1, hd, h1⟩ := bind_ok h1
      have := pure_ok h1
      subst this
      have hi : i < s.ups.length := (List.getElem?_eq_some_iff.1 hu).1
      obtain ⟨op, hop⟩ : ∃ op, starts[i]? = some op :=
        ⟨_, List.getElem?_eq_getElem (by have := P.le; omega)⟩
      have hiW : i ∉ W := by
        intro hW
        rw [List.nodup_append] at hn
        exact hn.2.2 i hW i List.mem_cons_self rfl
      obtain ⟨-, hinn⟩ := P.started i op u hop hu
      obtain ⟨mk, k1, k2, k3⟩ := deliver_local (inn_qs hinn) hd
        (fun q hq => (P.fresh i op hop hiW q hq).symm)
      have hW' : (W ++ [i]) ++ ops.filterMap Op.waitIdx = W ++ i :: ops.filterMap Op.waitIdx := by simp
      rw [← hW'] at hn ⊢
      refine (fun P' hs' => ih (W ++ [i]) _ fin P' hs' hc' hn h) (Progress.mk P.le P.started ?_ ?_ ?_) ?_
      · intro k hk
        simp only [List.mem_append, List.mem_singleton] at hk
        rcases hk with hk | rfl
        · exact P.waited k hk
        · exact hi
      · intro k op' hk hW q hq
        simp only [List.mem_append, List.mem_singleton, not_or] at hW
        have := (k3 q (hdis k i op' op hk hop hW.2 q hq)).2
        simp only
        rw [this]
        exact P.fresh k op' hk hW.1 q hq
      · intro k op' hk hW
        simp only [List.mem_append, List.mem_singleton] at hW
        by_cases e : k = i
        · subst e
          rw [hop] at hk
          simp only [Option.some.injEq] at hk
          subst hk
          exact ⟨_, mk, hinn, k1, fun q hq => (k2 q hq).symm⟩
        · obtain ⟨i', mk', a, b, c⟩ := P.stored k op' hk (by tauto)
          refine ⟨i', mk', a, b, fun q hq => ?_⟩
          simp only
          rw [(k3 q (hdis k i op' op hk hop e q hq)).2]
          exact c q hq
      · exact hs

/-- Every update that all ranks waited for had, on its own quantities, the effect it has when it
is performed alone. -/
theorem updates_alone {l : Layout} {prog : Int → List (Op α)} {mem : Int → Mem α}
    {fin : Int → Local α} {starts : List (Op α)} (hfin : Consistent l prog mem fin)
    (hst : ∀ r ∈ allRanks l, startsOf (prog r) = starts)
    (hwo : ∀ r ∈ allRanks l, WaitsOnce (prog r)) (hdis : DisjointUpdates starts)
    (hc : ∀ r ∈ allRanks l, ComputesElsewhere l starts (prog r)) (k : Nat) (op : Op α)
    (hk : starts[k]? = some op) (hw : ∀ r ∈ allRanks l, Op.wait k ∈ prog r) :
    ∃ m', UpdateStep l op mem m' ∧ ∀ r ∈ allRanks l, ∀ q ∈ op.qs, (fin r).mem q = m' r q := by
  have hP : ∀ r ∈ allRanks l, Progress l r (received fin r) starts (mem r)
      ((prog r).filterMap Op.waitIdx) (fin r) ∧ (fin r).ups.length = starts.length := by
    intro r hr
    have := progress_run hr (arr := received fin r) (m0 := mem r) hdis (prog r) [] ⟨mem r, 0, []⟩ (fin r)
      ⟨by simp, by simp, by simp, fun _ _ _ _ _ _ => rfl, by simp⟩ (by simpa using (hst r hr).symm)
      (hc r hr) (by rw [List.nil_append]; exact hwo r hr) ((hfin r).1 hr)
    simpa using this
  have hup : ∀ r ∈ allRanks l, ∃ u, (fin r).ups[k]? = some u ∧ op.out l r (mem r) = .ok u.out := by
    intro r hr
    obtain ⟨P, hl⟩ := hP r hr
    have hlt := (List.getElem?_eq_some_iff.1 hk).1
    have e := List.getElem?_eq_getElem (l := (fin r).ups) (i := k) (by omega)
    exact ⟨_, e, (P.started k op _ hk e).1⟩
  have harr : ∀ r, received fin r k = packedFor l op mem r := by
    intro r
    funext src off
    unfold received packedFor
    by_cases hs : src ∈ allRanks l
    · obtain ⟨u, h1, h2⟩ := hup src hs
      rw [if_pos hs, h1, h2]
    · rw [if_neg hs, (hfin src).2 hs]
      rfl
  have hkW : ∀ r ∈ allRanks l, k ∈ (prog r).filterMap Op.waitIdx := fun r hr =>
    List.mem_filterMap.2 ⟨_, hw r hr, rfl⟩
  have key : ∀ r, ∃ mk : Mem α, r ∈ allRanks l → ∃ i, op.inn l r (mem r) = .ok i ∧
      deliver (packedFor l op mem r) i (mem r) = .ok mk ∧ ∀ q ∈ op.qs, (fin r).mem q = mk q := by
    intro r
    by_cases hr : r ∈ allRanks l
    · obtain ⟨i, mk, a, b, c⟩ := (hP r hr).1.stored k op hk (hkW r hr)
      rw [harr] at b
      exact ⟨mk, fun _ => ⟨i, a, b, c⟩⟩
    · exact ⟨mem r, fun h => absurd h hr⟩
  choose m' hm' using key
  refine ⟨m', fun r hr => ?_, fun r hr q hq => ?_⟩
  · obtain ⟨u, -, h2⟩ := hup r hr
    obtain ⟨i, a, b, -⟩ := hm' r hr
    exact ⟨⟨_, h2⟩, i, a, b⟩
  · obtain ⟨i, a, b, c⟩ := hm' r hr
    exact c q hq

end FV3
