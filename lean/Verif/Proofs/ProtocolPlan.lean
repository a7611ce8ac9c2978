import Verif.Proofs.Protocol
import Mathlib.Tactic.Linarith

/-!
# Time stamps for the actions of all ranks
-/

namespace FV3
variable {α : Type} [Neg α]

/-- Actions of one operation, with times `T phase k p` depending on the number `k` of updates
started before and the position `p`. -/
def opPlan (T : Nat → Nat → Nat → Nat) (ups : List (Started α))
    (arr : Nat → Int → Nat → Option (NDArray α)) (k p : Nat) : Op α → List (Nat × Act (Msg α))
  | .wait i =>
    match ups[i]? with
    | none => []
    | some u => (recvActs u.tag (arr i) u.inc).map (fun a => (T 1 k p, a)) ++
        (awaitActs u.tag u.out).map (fun a => (T 2 k p, a))
  | .compute _ => []
  | _ =>
    match ups[k]? with
    | none => []
    | some u => (sendActs u.tag u.out).map (fun a => (T 0 k p, a))

def planFrom (T : Nat → Nat → Nat → Nat) (ups : List (Started α))
    (arr : Nat → Int → Nat → Option (NDArray α)) : Nat → Nat → List (Op α) → List (Nat × Act (Msg α))
  | _, _, [] => []
  | k, p, op :: ops =>
    opPlan T ups arr k p op ++ planFrom T ups arr (if op.isStart = true then k + 1 else k) (p + 1) ops

omit [Neg α] in
theorem opPlan_start {T : Nat → Nat → Nat → Nat} {ups : List (Started α)}
    {arr : Nat → Int → Nat → Option (NDArray α)} {k p : Nat} {op : Op α} (h : op.isStart = true) :
    opPlan T ups arr k p op = match ups[k]? with
    | none => []
    | some u => (sendActs u.tag u.out).map (fun a => (T 0 k p, a)) := by
  cases op <;> first | rfl | simp [Op.isStart] at h

omit [Neg α] in
theorem erase_const {A B : Type} (c : A) (l : List B) : (l.map fun a => (c, a)).map (·.2) = l := by
  simp [Function.comp_def]

/-- The program of a rank performs the planned actions. -/
theorem exec_real {l : Layout} {r : Int} {arr : Nat → Int → Nat → Option (NDArray α)}
    (T : Nat → Nat → Nat → Nat) {ops : List (Op α)} {s fin : Local α}
    (h : localRun l r arr ops s = .ok fin) (p : Nat) :
    Does (execOps l r ops) s.toRank ((planFrom T fin.ups arr s.ups.length p ops).map (·.2)) ()
      fin.toRank := by
  induction ops generalizing s p with
  | nil =>
    simp only [localRun, Except.ok.injEq] at h
    subst h
    exact Does.pure _ _
  | cons op ops ih =>
    obtain ⟨s1, h1, h2⟩ := bind_ok h
    have hpre := localRun_prefix h2
    have ih := ih h2 (p + 1)
    simp only [planFrom, List.map_append]
    unfold execOps
    by_cases hs : op.isStart = true
    · rw [localStep_start hs] at h1
      obtain ⟨o, ho, h1⟩ := bind_ok h1
      obtain ⟨i, hi, h1⟩ := bind_ok h1
      have := pure_ok h1
      subst this
      have hk : fin.ups[s.ups.length]? = some ⟨s.lastTag, o, i⟩ := by
        rw [prefix_getElem? hpre (by simp)]
        simp
      rw [opPlan_start hs, hk]
      simp only [erase_const, if_pos hs]
      have hst := Does.start (s := s.toRank) hs ho hi
      rw [List.length_append] at ih
      refine Does.bind hst ?_
      refine Eq.subst (motive := fun z => Does (execOps l r ops) z _ () fin.toRank) ?_ ih
      simp [Local.toRank, RankState.started, sendReqs, recvReqs]
    · cases op with
      | wait i =>
        simp only [Op.localStep] at h1
        cases hi : s.ups[i]? with
        | none => rw [hi] at h1; exact absurd h1 (by simp)
        | some u =>
          rw [hi] at h1
          obtain ⟨m, hm, h1⟩ := bind_ok h1
          have := pure_ok h1
          subst this
          have hf : fin.ups[i]? = some u := by
            rw [prefix_getElem? hpre (List.getElem?_eq_some_iff.1 hi).1]; exact hi
          simp only [opPlan, hf, List.map_append, erase_const, if_neg hs]
          refine Does.bind (x := ()) ?_ ih
          simp only [Op.exec]
          refine Does.bind0 (Does.get _) ?_
          have hreq : s.toRank.reqs[i]? = some ⟨sendReqs u.tag u.out, recvReqs u.tag u.inc⟩ := by
            simp [Local.toRank, hi, sendReqs, recvReqs]
          rw [hreq]
          exact Does.wait (s := s.toRank) u.tag hm
      | compute f =>
        simp only [Op.localStep, Except.ok.injEq] at h1
        subst h1
        simp only [opPlan, if_neg hs, List.map_nil]
        exact Does.bind (Real.ret _) ih
      | _ => simp [Op.isStart] at hs

omit [Neg α] in
theorem mem_planFrom {T : Nat → Nat → Nat → Nat} {ups : List (Started α)}
    {arr : Nat → Int → Nat → Option (NDArray α)} {k p : Nat} {ops : List (Op α)}
    {x : Nat × Act (Msg α)} :
    x ∈ planFrom T ups arr k p ops ↔ ∃ d op, ops[d]? = some op ∧
      x ∈ opPlan T ups arr (k + (ops.take d).countP Op.isStart) (p + d) op := by
  induction ops generalizing k p with
  | nil => simp [planFrom]
  | cons op ops ih =>
    rw [planFrom, List.mem_append, ih]
    have hk : ∀ d, (if op.isStart = true then k + 1 else k) + (ops.take d).countP Op.isStart =
        k + ((op :: ops).take (d + 1)).countP Op.isStart := by
      intro d
      rw [List.take_succ_cons, List.countP_cons]
      split <;> omega
    constructor
    · rintro (h | ⟨d, op', h1, h2⟩)
      · exact ⟨0, op, rfl, by simpa using h⟩
      · rw [hk, show p + 1 + d = p + (d + 1) by omega] at h2
        exact ⟨d + 1, op', by simpa using h1, h2⟩
    · rintro ⟨d, op', h1, h2⟩
      cases d with
      | zero =>
        simp at h1 h2
        subst h1
        exact Or.inl h2
      | succ d =>
        rw [← hk, show p + (d + 1) = p + 1 + d by omega] at h2
        exact Or.inr ⟨d, op', by simpa using h1, h2⟩

/-- Time stamps that increase along every rank's program. -/
structure Clock (T : Nat → Nat → Nat → Nat) (B : Nat → Nat → Nat) : Prop where
  lo0 : ∀ k p, B k p ≤ T 0 k p
  lo1 : ∀ k p, B k p ≤ T 1 k p
  le12 : ∀ k p, T 1 k p ≤ T 2 k p
  hi0 : ∀ k p, T 0 k p ≤ B (k + 1) (p + 1)
  hi2 : ∀ k p, T 2 k p ≤ B k (p + 1)

omit [Neg α] in
theorem opPlan_bounds {T : Nat → Nat → Nat → Nat} {B : Nat → Nat → Nat} (hT : Clock T B)
    {ups : List (Started α)} {arr : Nat → Int → Nat → Option (NDArray α)} {k p : Nat} {op : Op α}
    {x : Nat × Act (Msg α)} (h : x ∈ opPlan T ups arr k p op) :
    B k p ≤ x.1 ∧ x.1 ≤ B (if op.isStart = true then k + 1 else k) (p + 1) := by
  by_cases hs : op.isStart = true
  · rw [opPlan_start hs] at h
    rw [if_pos hs]
    cases hu : ups[k]? with
    | none => rw [hu] at h; simp at h
    | some u =>
      rw [hu] at h
      obtain ⟨a, -, rfl⟩ := List.mem_map.1 h
      exact ⟨hT.lo0 k p, hT.hi0 k p⟩
  · rw [if_neg hs]
    cases op with
    | wait i =>
      simp only [opPlan] at h
      cases hu : ups[i]? with
      | none => rw [hu] at h; simp at h
      | some u =>
        rw [hu] at h
        have h1 := hT.lo1 k p
        have h2 := hT.le12 k p
        have h3 := hT.hi2 k p
        rcases List.mem_append.1 h with h | h <;> obtain ⟨a, -, rfl⟩ := List.mem_map.1 h
        · exact ⟨h1, h2.trans h3⟩
        · exact ⟨h1.trans h2, h3⟩
    | compute f => simp [opPlan] at h
    | _ => simp [Op.isStart] at hs

omit [Neg α] in
theorem Clock.mono {T : Nat → Nat → Nat → Nat} {B : Nat → Nat → Nat} (hT : Clock T B) (b : Bool)
    (k p : Nat) : B k p ≤ B (if b = true then k + 1 else k) (p + 1) := by
  cases b with
  | true => exact (hT.lo0 k p).trans (hT.hi0 k p)
  | false => exact (hT.lo1 k p).trans ((hT.le12 k p).trans (hT.hi2 k p))

omit [Neg α] in
theorem planFrom_lo {T : Nat → Nat → Nat → Nat} {B : Nat → Nat → Nat} (hT : Clock T B)
    {ups : List (Started α)} {arr : Nat → Int → Nat → Option (NDArray α)} {k p : Nat}
    {ops : List (Op α)} {x : Nat × Act (Msg α)} (h : x ∈ planFrom T ups arr k p ops) :
    B k p ≤ x.1 := by
  induction ops generalizing k p with
  | nil => simp [planFrom] at h
  | cons op ops ih =>
    rw [planFrom, List.mem_append] at h
    rcases h with h | h
    · exact (opPlan_bounds hT h).1
    · exact (hT.mono _ k p).trans (ih h)

omit [Neg α] in
theorem pairwise_const (c : Nat) (l : List (Act (Msg α))) :
    (l.map fun a => (c, a)).Pairwise (fun a b => a.1 ≤ b.1) := by
  rw [List.pairwise_map]
  exact List.pairwise_of_forall (fun _ _ => le_refl _)

omit [Neg α] in
theorem planFrom_ordered {T : Nat → Nat → Nat → Nat} {B : Nat → Nat → Nat} (hT : Clock T B)
    (ups : List (Started α)) (arr : Nat → Int → Nat → Option (NDArray α)) (k p : Nat)
    (ops : List (Op α)) : (planFrom T ups arr k p ops).Pairwise (fun a b => a.1 ≤ b.1) := by
  induction ops generalizing k p with
  | nil => simp [planFrom]
  | cons op ops ih =>
    rw [planFrom, List.pairwise_append]
    refine ⟨?_, ih _ _, fun a ha b hb => (opPlan_bounds hT ha).2.trans (planFrom_lo hT hb)⟩
    by_cases hs : op.isStart = true
    · rw [opPlan_start hs]
      cases ups[k]? with
      | none => exact List.Pairwise.nil
      | some u => exact pairwise_const _ _
    · cases op with
      | wait i =>
        simp only [opPlan]
        cases ups[i]? with
        | none => exact List.Pairwise.nil
        | some u =>
          simp only
          rw [List.pairwise_append]
          refine ⟨pairwise_const _ _, pairwise_const _ _, ?_⟩
          intro a ha b hb
          obtain ⟨_, -, rfl⟩ := List.mem_map.1 ha
          obtain ⟨_, -, rfl⟩ := List.mem_map.1 hb
          exact hT.le12 k p
      | compute f => simp [opPlan]
      | _ => simp [Op.isStart] at hs

/-- The updates of a rank use the tags `tb k + 1, ..., tb (k + 1)`. -/
structure UpsTagged (tb : Nat → Nat) (ups : List (Started α)) : Prop where
  mono : ∀ k, tb k ≤ tb (k + 1)
  tag : ∀ (k : Nat) u, ups[k]? = some u → u.tag = tb k
  outN : ∀ (k : Nat) u, ups[k]? = some u → (u.out.map fun x => (x.dst, x.off)).Nodup
  outLt : ∀ (k : Nat) u, ups[k]? = some u → ∀ x ∈ u.out, tb k + x.off < tb (k + 1)
  inN : ∀ (k : Nat) u, ups[k]? = some u → (u.inc.map fun x => (x.src, x.off)).Nodup
  inLt : ∀ (k : Nat) u, ups[k]? = some u → ∀ x ∈ u.inc, tb k + x.off < tb (k + 1)

omit [Neg α] in
theorem UpsTagged.le {tb : Nat → Nat} {ups : List (Started α)} (h : UpsTagged tb ups) {a b : Nat}
    (hab : a ≤ b) : tb a ≤ tb b := by
  induction b with
  | zero => rw [Nat.le_zero.1 hab]
  | succ b ih =>
    rcases Nat.lt_or_ge a (b + 1) with h1 | h1
    · exact (ih (by omega)).trans (h.mono b)
    · rw [show a = b + 1 by omega]

omit [Neg α] in
theorem sendKeys_send (c tag : Nat) (o : List (Outgoing α)) :
    ((sendActs tag o).map fun a => (c, a)).filterMap sendKey =
      o.map fun x => (x.dst, Tag.halo (tag + 1 + x.off)) := by
  induction o with
  | nil => rfl
  | cons x o ih =>
    simp only [sendActs, List.map_cons, List.map_map] at ih ⊢
    rw [List.filterMap_cons_some (f := sendKey) (b := (x.dst, Tag.halo (tag + 1 + x.off))) rfl, ih]

omit [Neg α] in
theorem sendKeys_recv (c tag : Nat) (arr : Int → Nat → Option (NDArray α)) (i : List Incoming) :
    ((recvActs tag arr i).map fun a => (c, a)).filterMap sendKey = [] := by
  rw [List.filterMap_eq_nil_iff]
  intro x hx
  obtain ⟨a, ha, rfl⟩ := List.mem_map.1 hx
  unfold recvActs at ha
  obtain ⟨y, -, hy⟩ := List.mem_filterMap.1 ha
  obtain ⟨z, -, rfl⟩ := Option.map_eq_some_iff.1 hy
  rfl

omit [Neg α] in
theorem sendKeys_await (c tag : Nat) (o : List (Outgoing α)) :
    ((awaitActs tag o).map fun a => (c, a)).filterMap sendKey = [] := by
  rw [List.filterMap_eq_nil_iff]
  intro x hx
  obtain ⟨a, ha, rfl⟩ := List.mem_map.1 hx
  obtain ⟨y, -, rfl⟩ := List.mem_map.1 ha
  rfl

omit [Neg α] in
theorem recvKeys_send (c tag : Nat) (o : List (Outgoing α)) :
    ((sendActs tag o).map fun a => (c, a)).filterMap recvKey = [] := by
  rw [List.filterMap_eq_nil_iff]
  intro x hx
  obtain ⟨a, ha, rfl⟩ := List.mem_map.1 hx
  obtain ⟨y, -, rfl⟩ := List.mem_map.1 ha
  rfl

omit [Neg α] in
theorem recvKeys_await (c tag : Nat) (o : List (Outgoing α)) :
    ((awaitActs tag o).map fun a => (c, a)).filterMap recvKey = [] := by
  rw [List.filterMap_eq_nil_iff]
  intro x hx
  obtain ⟨a, ha, rfl⟩ := List.mem_map.1 hx
  obtain ⟨y, -, rfl⟩ := List.mem_map.1 ha
  rfl

omit [Neg α] in
theorem recvKeys_recv (c tag : Nat) (arr : Int → Nat → Option (NDArray α)) (i : List Incoming) :
    (((recvActs tag arr i).map fun a => (c, a)).filterMap recvKey).Sublist
      (i.map fun x => (x.src, Tag.halo (tag + 1 + x.off))) := by
  induction i with
  | nil => exact List.Sublist.slnil
  | cons x i ih =>
    unfold recvActs at ih ⊢
    cases ha : arr x.src x.off with
    | none =>
      rw [List.filterMap_cons_none (by rw [ha]; rfl)]
      exact ih.cons _
    | some a =>
      rw [List.filterMap_cons_some (b := .recv x.src (.halo (tag + 1 + x.off)) (.data a))
        (by rw [ha]; rfl), List.map_cons,
        List.filterMap_cons_some (f := recvKey) (b := (x.src, Tag.halo (tag + 1 + x.off))) rfl]
      exact ih.cons₂ _

omit [Neg α] in
theorem nodup_keys {A : Type} {l : List A} {f : A → Int} {g : A → Nat} (tag : Nat)
    (h : (l.map fun x => (f x, g x)).Nodup) :
    (l.map fun x => (f x, Tag.halo (tag + 1 + g x))).Nodup := by
  have : (l.map fun x => (f x, Tag.halo (tag + 1 + g x))) =
      (l.map fun x => (f x, g x)).map fun p => (p.1, Tag.halo (tag + 1 + p.2)) := by
    simp [List.map_map, Function.comp_def]
  rw [this]
  refine h.map ?_
  intro a b hab
  simp only [Prod.mk.injEq, Tag.halo.injEq] at hab
  exact Prod.ext hab.1 (by omega)

omit [Neg α] in
theorem sendKeys_plan {T : Nat → Nat → Nat → Nat} {tb : Nat → Nat} {ups : List (Started α)}
    (hu : UpsTagged tb ups) (arr : Nat → Int → Nat → Option (NDArray α)) (k p : Nat)
    (ops : List (Op α)) :
    ((planFrom T ups arr k p ops).filterMap sendKey).Nodup ∧
    ∀ key ∈ (planFrom T ups arr k p ops).filterMap sendKey, ∃ n, key.2 = Tag.halo n ∧ tb k < n := by
  induction ops generalizing k p with
  | nil => simp [planFrom]
  | cons op ops ih =>
    rw [planFrom, List.filterMap_append]
    by_cases hs : op.isStart = true
    · rw [opPlan_start hs, if_pos hs]
      obtain ⟨i1, i2⟩ := ih (k + 1) (p + 1)
      cases hk : ups[k]? with
      | none =>
        simp only [List.filterMap_nil, List.nil_append]
        refine ⟨i1, fun key hkey => ?_⟩
        obtain ⟨n, h1, h2⟩ := i2 key hkey
        exact ⟨n, h1, Nat.lt_of_le_of_lt (hu.mono k) h2⟩
      | some u =>
        simp only [sendKeys_send]
        constructor
        · rw [List.nodup_append]
          refine ⟨nodup_keys _ (hu.outN k u hk), i1, ?_⟩
          intro a ha b hb hab
          obtain ⟨x, hx, rfl⟩ := List.mem_map.1 ha
          obtain ⟨n, h1, h2⟩ := i2 b hb
          rw [← hab] at h1
          simp only [Tag.halo.injEq] at h1
          have := hu.outLt k u hk x hx
          rw [hu.tag k u hk] at h1
          omega
        · intro key hkey
          rcases List.mem_append.1 hkey with h | h
          · obtain ⟨x, hx, rfl⟩ := List.mem_map.1 h
            exact ⟨_, rfl, by rw [hu.tag k u hk]; omega⟩
          · obtain ⟨n, h1, h2⟩ := i2 key h
            exact ⟨n, h1, Nat.lt_of_le_of_lt (hu.mono k) h2⟩
    · rw [if_neg hs]
      have : (opPlan T ups arr k p op).filterMap sendKey = [] := by
        cases op with
        | wait i =>
          simp only [opPlan]
          cases ups[i]? with
          | none => rfl
          | some u => simp only [List.filterMap_append, sendKeys_recv, sendKeys_await, List.append_nil]
        | compute f => rfl
        | _ => simp [Op.isStart] at hs
      rw [this, List.nil_append]
      exact ih k (p + 1)

omit [Neg α] in
theorem recvKeys_plan {T : Nat → Nat → Nat → Nat} {tb : Nat → Nat} {ups : List (Started α)}
    (hu : UpsTagged tb ups) (arr : Nat → Int → Nat → Option (NDArray α)) (k p : Nat)
    (ops : List (Op α)) (hw : WaitsOnce ops) :
    ((planFrom T ups arr k p ops).filterMap recvKey).Nodup ∧
    ∀ key ∈ (planFrom T ups arr k p ops).filterMap recvKey,
      ∃ i ∈ ops.filterMap Op.waitIdx, ∃ n, key.2 = Tag.halo n ∧ tb i < n ∧ n ≤ tb (i + 1) := by
  induction ops generalizing k p with
  | nil => simp [planFrom]
  | cons op ops ih =>
    rw [planFrom, List.filterMap_append]
    have hw' : WaitsOnce ops := by
      unfold WaitsOnce at hw ⊢
      cases h : op.waitIdx with
      | none => rwa [List.filterMap_cons_none h] at hw
      | some i => rw [List.filterMap_cons_some h] at hw; exact hw.of_cons
    obtain ⟨i1, i2⟩ := ih (if op.isStart = true then k + 1 else k) (p + 1) hw'
    have i2' : ∀ key ∈ (planFrom T ups arr (if op.isStart = true then k + 1 else k) (p + 1)
        ops).filterMap recvKey,
        ∃ i ∈ (op :: ops).filterMap Op.waitIdx, ∃ n, key.2 = Tag.halo n ∧ tb i < n ∧
          n ≤ tb (i + 1) := by
      intro key hkey
      obtain ⟨i, hi, h⟩ := i2 key hkey
      obtain ⟨o, ho, ho'⟩ := List.mem_filterMap.1 hi
      exact ⟨i, List.mem_filterMap.2 ⟨o, List.mem_cons_of_mem _ ho, ho'⟩, h⟩
    by_cases hs : op.isStart = true
    · have : (opPlan T ups arr k p op).filterMap recvKey = [] := by
        rw [opPlan_start hs]
        cases ups[k]? with
        | none => rfl
        | some u => exact recvKeys_send _ _ _
      rw [this, List.nil_append]
      exact ⟨i1, i2'⟩
    · cases op with
      | wait i =>
        simp only [opPlan]
        cases hk : ups[i]? with
        | none => exact ⟨i1, i2'⟩
        | some u =>
          simp only [List.filterMap_append, recvKeys_await, List.append_nil]
          have hsub := recvKeys_recv (T 1 k p) u.tag (arr i) u.inc
          have hkey : ∀ key ∈ ((recvActs u.tag (arr i) u.inc).map fun a => (T 1 k p, a)).filterMap
              recvKey, ∃ n, key.2 = Tag.halo n ∧ tb i < n ∧ n ≤ tb (i + 1) := by
            intro key hkey
            obtain ⟨x, hx, rfl⟩ := List.mem_map.1 (hsub.subset hkey)
            have := hu.inLt i u hk x hx
            exact ⟨_, rfl, by rw [hu.tag i u hk]; omega, by rw [hu.tag i u hk]; omega⟩
          constructor
          · rw [List.nodup_append]
            refine ⟨(nodup_keys u.tag (hu.inN i u hk)).sublist hsub, i1, ?_⟩
            intro a ha b hb hab
            obtain ⟨n, n1, n2, n3⟩ := hkey a ha
            obtain ⟨j, hj, m, m1, m2, m3⟩ := i2 b hb
            rw [← hab, n1, Tag.halo.injEq] at m1
            unfold WaitsOnce at hw
            rw [List.filterMap_cons_some (f := Op.waitIdx) (b := i) rfl, List.nodup_cons] at hw
            have hne : i ≠ j := fun h => hw.1 (h ▸ hj)
            rcases Nat.lt_or_gt_of_ne hne with h | h
            · have := hu.le (a := i + 1) (b := j) (by omega); omega
            · have := hu.le (a := j + 1) (b := i) (by omega); omega
          · intro key hk'
            rcases List.mem_append.1 hk' with h | h
            · exact ⟨i, List.mem_filterMap.2 ⟨_, List.mem_cons_self, rfl⟩, hkey key h⟩
            · exact i2' key h
      | compute f => exact ⟨i1, i2'⟩
      | _ => simp [Op.isStart] at hs

/-- Compatible time stamps of different ranks. -/
structure Timed (l : Layout) (buf : Buffering) (T : Nat → Nat → Nat → Nat)
    (prog : Int → List (Op α)) : Prop where
  recv : ∀ r ∈ allRanks l, ∀ src ∈ allRanks l, ∀ (d d' i : Nat) op, (prog r)[d]? = some (.wait i) →
    (prog src)[d']? = some op → op.isStart = true → ((prog src).take d').countP Op.isStart = i →
    T 0 i d' < T 1 (((prog r).take d).countP Op.isStart) d
  await : ∀ r ∈ allRanks l, ∀ dst ∈ allRanks l, ∀ (d i : Nat), (prog r)[d]? = some (.wait i) →
    (∀ t, buf r dst t 0 = true) ∨ ∃ d' : Nat, (prog dst)[d']? = some (.wait i) ∧
      T 1 (((prog dst).take d').countP Op.isStart) d' <
        T 2 (((prog r).take d).countP Op.isStart) d

omit [Neg α] in
/-- Position of the `i`-th start. -/
theorem start_position {ops : List (Op α)} {i : Nat} (h : i < (startsOf ops).length) :
    ∃ (d : Nat) (op : Op α), ops[d]? = some op ∧ op.isStart = true ∧
      (ops.take d).countP Op.isStart = i := by
  induction ops generalizing i with
  | nil => simp [startsOf] at h
  | cons op ops ih =>
    by_cases hs : op.isStart = true
    · cases i with
      | zero => exact ⟨0, op, rfl, hs, rfl⟩
      | succ i =>
        obtain ⟨d, op', h1, h2, h3⟩ := ih (i := i) (by
          unfold startsOf at h ⊢
          rw [List.filter_cons_of_pos hs, List.length_cons] at h; omega)
        refine ⟨d + 1, op', by simpa using h1, h2, ?_⟩
        rw [List.take_succ_cons, List.countP_cons_of_pos hs, h3]
    · obtain ⟨d, op', h1, h2, h3⟩ := ih (i := i) (by
        unfold startsOf at h ⊢
        rwa [List.filter_cons_of_neg hs] at h)
      refine ⟨d + 1, op', by simpa using h1, h2, ?_⟩
      rw [List.take_succ_cons, List.countP_cons_of_neg hs, h3]

theorem Inv.tagged {l : Layout} {Good : Int → Mem α → Prop} {hist : List (Op α)}
    {S : Int → Local α} (h : Inv l Good hist S) (hs : ∀ op ∈ hist, StartSound l Good op)
    {r : Int} (hr : r ∈ allRanks l) : UpsTagged (fun k => tagsOf (hist.take k)) (S r).ups := by
  have mono : ∀ k, tagsOf (hist.take k) ≤ tagsOf (hist.take (k + 1)) := by
    intro k
    rw [List.take_add, tagsOf_append]; omega
  have get : ∀ (k : Nat) u, (S r).ups[k]? = some u → u.tag = tagsOf (hist.take k) ∧
      ∃ op ∈ hist, tagsOf (hist.take (k + 1)) = tagsOf (hist.take k) + op.nTags ∧
        ∃ m, Good r m ∧ op.out l r m = .ok u.out ∧ op.inn l r m = .ok u.inc := by
    intro k u hu
    have hk : k < hist.length := by
      rw [← h.len r hr]; exact (List.getElem?_eq_some_iff.1 hu).1
    obtain ⟨h1, h2⟩ := h.ups r hr k _ u (List.getElem?_eq_getElem hk) hu
    refine ⟨h1, hist[k], List.getElem_mem hk, ?_, h2⟩
    rw [List.take_add_one, List.getElem?_eq_getElem hk, tagsOf_append]
    simp [tagsOf]
  constructor
  · exact mono
  · intro k u hu; exact (get k u hu).1
  · intro k u hu
    obtain ⟨-, op, hop, -, m, hg, ho, -⟩ := get k u hu
    exact ((hs op hop).outKeys r hr m _ hg ho).1
  · intro k u hu x hx
    obtain ⟨-, op, hop, ht, m, hg, ho, -⟩ := get k u hu
    have := ((hs op hop).outKeys r hr m _ hg ho).2 x hx
    simp only [ht]; omega
  · intro k u hu
    obtain ⟨-, op, hop, -, m, hg, -, hi⟩ := get k u hu
    exact ((hs op hop).inKeys r hr m _ hg hi).1
  · intro k u hu x hx
    obtain ⟨-, op, hop, ht, m, hg, -, hi⟩ := get k u hu
    have := ((hs op hop).inKeys r hr m _ hg hi).2 x hx
    simp only [ht]; omega

/-- The actions of all ranks. -/
def planOf (l : Layout) (T : Nat → Nat → Nat → Nat) (prog : Int → List (Op α))
    (fin : Int → Local α) (r : Int) : List (Nat × Act (Msg α)) :=
  if r ∈ allRanks l then planFrom T (fin r).ups (received fin r) 0 0 (prog r) else []

theorem plan_valid {l : Layout} {Good : Int → Mem α → Prop} {starts : List (Op α)}
    {fin : Int → Local α} {prog : Int → List (Op α)} {buf : Buffering}
    {T : Nat → Nat → Nat → Nat} {B : Nat → Nat → Nat} (hinv : Inv l Good starts fin)
    (hs : ∀ op ∈ starts, StartSound l Good op) (hst : ∀ r ∈ allRanks l, startsOf (prog r) = starts)
    (hwo : ∀ r ∈ allRanks l, WaitsOnce (prog r))
    (hT : Clock T B) (ht : Timed l buf T prog) : Plan buf (allRanks l) (planOf l T prog fin) := by
  constructor
  · intro r hr; unfold planOf; rw [if_neg hr]
  · intro r
    unfold planOf
    split
    · exact planFrom_ordered hT _ _ _ _ _
    · exact List.Pairwise.nil
  · intro r
    unfold planOf
    split
    · rename_i hr; exact (sendKeys_plan (hinv.tagged hs hr) _ _ _ _).1
    · exact List.nodup_nil
  · intro r
    unfold planOf
    split
    · rename_i hr; exact (recvKeys_plan (hinv.tagged hs hr) _ _ _ _ (hwo r hr)).1
    · exact List.nodup_nil
  · intro r n s t m hmem
    unfold planOf at hmem
    by_cases hr : r ∈ allRanks l
    · rw [if_pos hr, mem_planFrom] at hmem
      obtain ⟨d, op, hd, hx⟩ := hmem
      rw [Nat.zero_add, Nat.zero_add] at hx
      by_cases hop : op.isStart = true
      · rw [opPlan_start hop] at hx
        cases hu : (fin r).ups[((prog r).take d).countP Op.isStart]? with
        | none => rw [hu] at hx; simp at hx
        | some u =>
          rw [hu] at hx
          obtain ⟨a, ha, hax⟩ := List.mem_map.1 hx
          obtain ⟨y, -, rfl⟩ := List.mem_map.1 ha
          simp at hax
      · cases op with
        | wait i =>
          simp only [opPlan] at hx
          cases hu : (fin r).ups[i]? with
          | none => rw [hu] at hx; simp at hx
          | some u =>
            rw [hu] at hx
            rcases List.mem_append.1 hx with hx | hx
            · obtain ⟨a, ha, hax⟩ := List.mem_map.1 hx
              unfold recvActs at ha
              obtain ⟨x, hxi, hxa⟩ := List.mem_filterMap.1 ha
              obtain ⟨arr, harr, rfl⟩ := Option.map_eq_some_iff.1 hxa
              simp only [Prod.mk.injEq, Act.recv.injEq] at hax
              obtain ⟨rfl, rfl, rfl, rfl⟩ := hax
              have hi : i < starts.length := by
                rw [← hinv.len r hr]; exact (List.getElem?_eq_some_iff.1 hu).1
              obtain ⟨op, u0, m0, hop0, hu0, htag, hg0, -, hin0⟩ := hinv.get hr hi
              have : u0 = u := by rw [hu] at hu0; exact (Option.some.inj hu0).symm
              subst this
              have hsrc := ((hs op (List.mem_of_getElem? hop0)).inMatch r hr m0 _ hg0 hin0 x hxi).1
              have hi' : i < (startsOf (prog x.src)).length := by rw [hst _ hsrc]; exact hi
              obtain ⟨d', op', hd', hop', hcnt⟩ := start_position hi'
              have hlt := ht.recv r hr x.src hsrc d d' i op' hd hd' hop' hcnt
              refine ⟨_, hlt, ?_⟩
              unfold planOf
              rw [if_pos hsrc, mem_planFrom]
              refine ⟨d', op', hd', ?_⟩
              rw [Nat.zero_add, Nat.zero_add, opPlan_start hop', hcnt]
              unfold received at harr
              obtain ⟨op1, u1, m1, hop1, hu1, htag1, -⟩ := hinv.get hsrc hi
              rw [hu1] at harr ⊢
              obtain ⟨y, hy, hyd, hyo, hya⟩ := arrayFor_some harr
              refine List.mem_map.2 ⟨_, List.mem_map.2 ⟨y, hy, rfl⟩, ?_⟩
              rw [hyd, hyo, hya, htag, htag1]
            · obtain ⟨a, ha, hax⟩ := List.mem_map.1 hx
              obtain ⟨y, -, rfl⟩ := List.mem_map.1 ha
              simp at hax
        | compute f => simp [opPlan] at hx
        | _ => simp [Op.isStart] at hop
    · rw [if_neg hr] at hmem; simp at hmem
  · intro r n dst t hmem
    unfold planOf at hmem
    by_cases hr : r ∈ allRanks l
    · rw [if_pos hr, mem_planFrom] at hmem
      obtain ⟨d, op, hd, hx⟩ := hmem
      rw [Nat.zero_add, Nat.zero_add] at hx
      by_cases hop : op.isStart = true
      · rw [opPlan_start hop] at hx
        cases hu : (fin r).ups[((prog r).take d).countP Op.isStart]? with
        | none => rw [hu] at hx; simp at hx
        | some u =>
          rw [hu] at hx
          obtain ⟨a, ha, hax⟩ := List.mem_map.1 hx
          obtain ⟨y, -, rfl⟩ := List.mem_map.1 ha
          simp at hax
      · cases op with
        | wait i =>
          simp only [opPlan] at hx
          cases hu : (fin r).ups[i]? with
          | none => rw [hu] at hx; simp at hx
          | some u =>
            rw [hu] at hx
            rcases List.mem_append.1 hx with hx | hx
            · obtain ⟨a, ha, hax⟩ := List.mem_map.1 hx
              unfold recvActs at ha
              obtain ⟨x, hxi, hxa⟩ := List.mem_filterMap.1 ha
              obtain ⟨arr, harr, rfl⟩ := Option.map_eq_some_iff.1 hxa
              simp at hax
            · obtain ⟨a, ha, hax⟩ := List.mem_map.1 hx
              obtain ⟨y, hyo, rfl⟩ := List.mem_map.1 ha
              simp only [Prod.mk.injEq, Act.await.injEq] at hax
              obtain ⟨rfl, rfl, rfl⟩ := hax
              have hi : i < starts.length := by
                rw [← hinv.len r hr]; exact (List.getElem?_eq_some_iff.1 hu).1
              obtain ⟨op, u0, m0, hop0, hu0, htag, hg0, hout0, -⟩ := hinv.get hr hi
              have : u0 = u := by rw [hu] at hu0; exact (Option.some.inj hu0).symm
              subst this
              obtain ⟨hdst, hmatch⟩ := (hs op (List.mem_of_getElem? hop0)).outMatch r hr m0 _ hg0
                hout0 y hyo
              rcases ht.await r hr y.dst hdst d i hd with hb | ⟨d', hd', hlt⟩
              · exact Or.inl (hb _)
              · right
                refine ⟨_, hlt, ?_⟩
                obtain ⟨op1, u1, m1, hop1, hu1, htag1, hg1, -, hin1⟩ := hinv.get hdst hi
                have : op1 = op := by rw [hop0] at hop1; exact (Option.some.inj hop1).symm
                subst this
                obtain ⟨x, hx, hxs, hxo⟩ := hmatch m1 _ hg1 hin1
                refine ⟨.data y.a, ?_⟩
                unfold planOf
                rw [if_pos hdst, mem_planFrom]
                refine ⟨d', .wait i, hd', ?_⟩
                rw [Nat.zero_add, Nat.zero_add]
                simp only [opPlan, hu1]
                refine List.mem_append_left _ (List.mem_map.2 ⟨_, ?_, rfl⟩)
                unfold recvActs
                refine List.mem_filterMap.2 ⟨x, hx, ?_⟩
                have harr : received fin y.dst i x.src x.off = some y.a := by
                  unfold received
                  rw [hxs, hu]
                  exact arrayFor_eq hyo rfl hxo.symm
                    ((hs op1 (List.mem_of_getElem? hop0)).outKeys r hr m0 _ hg0 hout0).1
                rw [harr, htag, htag1, hxs, hxo]
                rfl
        | compute f => simp [opPlan] at hx
        | _ => simp [Op.isStart] at hop
    · rw [if_neg hr] at hmem; simp at hmem

/-- All ranks finish, with the outcome of the local runs; for any programs performing the
planned actions. -/
theorem protocol_completes_of {R : Type} {l : Layout} {Good : Int → Mem α → Prop}
    {starts : List (Op α)}
    {prog : Int → List (Op α)} {mem : Int → Mem α} {buf : Buffering}
    {T : Nat → Nat → Nat → Nat} {B : Nat → Nat → Nat}
    (hg : ∀ r ∈ allRanks l, Good r (mem r))
    (hs : ∀ op ∈ starts, StartSound l Good op) (hst : ∀ r ∈ allRanks l, startsOf (prog r) = starts)
    (hws : ∀ r ∈ allRanks l, WaitsStarted (prog r)) (hwo : ∀ r ∈ allRanks l, WaitsOnce (prog r))
    (hc : ∀ r ∈ allRanks l, ComputesKeep l Good (prog r))
    (hT : Clock T B) (ht : Timed l buf T prog)
    (P : Int → Proc (Msg α) R) (res : Local α → R)
    (hP : ∀ r ∈ allRanks l, ∀ arr fin, localRun l r arr (prog r) ⟨mem r, 0, []⟩ = .ok fin →
      Real (P r) ((planFrom T fin.ups arr 0 0 (prog r)).map (·.2)) (res fin))
    (hP' : ∀ r, r ∉ allRanks l → P r = .ret (res ⟨mem r, 0, []⟩)) :
    ∃ fin, Consistent l prog mem fin ∧ (∀ r ∈ allRanks l, Good r (fin r).mem) ∧
      (Net.start P).Completes buf fun r => res (fin r) := by
  obtain ⟨fin, h1, h2, h3⟩ := exists_fin (l := l) (Good := Good) starts []
    (fun r => ⟨mem r, 0, []⟩) prog
    ⟨hg, fun _ _ => rfl, fun _ _ => rfl, fun r hr k op u hk _ => by simp at hk⟩
    (fun op h => hs op (by simpa using h)) hst
    (fun r hr => ⟨fun d i hd => by have := hws r hr d i hd; simpa using this, hc r hr⟩)
  rw [List.nil_append] at h3
  refine ⟨fin, fun r => ⟨fun hr => h1 r hr, fun hr => (h2 r).2 hr⟩, h3.good, ?_⟩
  refine Plan.completes (plan_valid h3 hs hst hwo hT ht) ?_ ?_ ?_
  · intro r
    unfold Net.start planOf
    simp only
    by_cases hr : r ∈ allRanks l
    · simp only [if_pos hr]
      exact hP r hr _ _ (h1 r hr)
    · simp only [if_neg hr]
      rw [hP' r hr, (h2 r).2 hr]
      exact Real.ret _
  · intros; rfl
  · intros; rfl

/-- All ranks finish, with the outcome of the local runs. -/
theorem protocol_completes {l : Layout} {Good : Int → Mem α → Prop} {starts : List (Op α)}
    {prog : Int → List (Op α)} {mem : Int → Mem α} {buf : Buffering}
    {T : Nat → Nat → Nat → Nat} {B : Nat → Nat → Nat}
    (hg : ∀ r ∈ allRanks l, Good r (mem r))
    (hs : ∀ op ∈ starts, StartSound l Good op) (hst : ∀ r ∈ allRanks l, startsOf (prog r) = starts)
    (hws : ∀ r ∈ allRanks l, WaitsStarted (prog r)) (hwo : ∀ r ∈ allRanks l, WaitsOnce (prog r))
    (hc : ∀ r ∈ allRanks l, ComputesKeep l Good (prog r))
    (hT : Clock T B) (ht : Timed l buf T prog) :
    ∃ fin, Consistent l prog mem fin ∧ (∀ r ∈ allRanks l, Good r (fin r).mem) ∧
      (cubeNet l prog mem).Completes buf fun r => (.ok (), (fin r).toRank) := by
  refine protocol_completes_of (R := Py Unit × RankState α) hg hs hst hws hwo hc hT ht
    (fun r => if r ∈ allRanks l then execOps l r (prog r) ⟨mem r, 0, []⟩
      else .ret (.ok (), ⟨mem r, 0, []⟩)) (fun s => (.ok (), s.toRank)) ?_ ?_
  · intro r hr arr fin h
    simp only [if_pos hr]
    exact exec_real T h 0
  · intro r hr
    simp only [if_neg hr]
    rfl

end FV3
