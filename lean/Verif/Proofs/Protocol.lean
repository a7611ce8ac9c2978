import Verif.Spec.Protocol
import Verif.Proofs.ExecReal

/-!
# Existence of a consistent outcome
-/

namespace FV3
variable {α : Type} [Neg α]

theorem localStep_start {l : Layout} {r : Int} {arr : Nat → Int → Nat → Option (NDArray α)}
    {op : Op α} (h : op.isStart = true) (s : Local α) :
    op.localStep l r arr s = (do
      let o ← op.out l r s.mem
      let i ← op.inn l r s.mem
      return { s with lastTag := s.lastTag + op.nTags, ups := s.ups ++ [⟨s.lastTag, o, i⟩] }) := by
  cases op <;> first | rfl | simp [Op.isStart] at h

theorem localRun_append {l : Layout} {r : Int} {arr : Nat → Int → Nat → Option (NDArray α)}
    (a b : List (Op α)) (s : Local α) :
    localRun l r arr (a ++ b) s = localRun l r arr a s >>= localRun l r arr b := by
  induction a generalizing s with
  | nil => rfl
  | cons op a ih =>
    simp only [List.cons_append, localRun]
    cases op.localStep l r arr s with
    | error e => rfl
    | ok s' => exact ih s'

theorem localStep_prefix {l : Layout} {r : Int} {arr : Nat → Int → Nat → Option (NDArray α)}
    {op : Op α} {s s' : Local α} (h : op.localStep l r arr s = .ok s') : s.ups <+: s'.ups := by
  by_cases hs : op.isStart = true
  · rw [localStep_start hs] at h
    obtain ⟨o, _, h⟩ := bind_ok h
    obtain ⟨i, _, h⟩ := bind_ok h
    have := pure_ok h
    subst this
    exact ⟨_, rfl⟩
  · cases op with
    | wait i =>
      simp only [Op.localStep] at h
      cases hi : s.ups[i]? with
      | none => rw [hi] at h; exact absurd h (by simp)
      | some u =>
        rw [hi] at h
        obtain ⟨m, _, h⟩ := bind_ok h
        have := pure_ok h
        subst this
        exact List.prefix_refl _
    | compute f =>
      simp only [Op.localStep, Except.ok.injEq] at h
      subst h
      exact List.prefix_refl _
    | _ => simp [Op.isStart] at hs

theorem localRun_prefix {l : Layout} {r : Int} {arr : Nat → Int → Nat → Option (NDArray α)}
    {ops : List (Op α)} {s s' : Local α} (h : localRun l r arr ops s = .ok s') :
    s.ups <+: s'.ups := by
  induction ops generalizing s with
  | nil => simp only [localRun, Except.ok.injEq] at h; subst h; exact List.prefix_refl _
  | cons op ops ih =>
    obtain ⟨s1, h1, h2⟩ := bind_ok h
    exact (localStep_prefix h1).trans (ih h2)

theorem prefix_getElem? {A : Type} {l l' : List A} (h : l <+: l') {k : Nat} (hk : k < l.length) :
    l'[k]? = l[k]? := by
  obtain ⟨t, rfl⟩ := h
  rw [List.getElem?_append_left hk]

/-- Number of tags used by a list of updates. -/
def tagsOf (h : List (Op α)) : Nat := (h.map Op.nTags).sum

/-- All ranks have started the updates `hist`. -/
structure Inv (l : Layout) (Good : Int → Mem α → Prop) (hist : List (Op α)) (S : Int → Local α) :
    Prop where
  good : ∀ r ∈ allRanks l, Good r (S r).mem
  tag : ∀ r ∈ allRanks l, (S r).lastTag = tagsOf hist
  len : ∀ r ∈ allRanks l, (S r).ups.length = hist.length
  ups : ∀ r ∈ allRanks l, ∀ (k : Nat) op u, hist[k]? = some op → (S r).ups[k]? = some u →
    u.tag = tagsOf (hist.take k) ∧
      ∃ m, Good r m ∧ op.out l r m = .ok u.out ∧ op.inn l r m = .ok u.inc

/-- `fin` continues `S`. -/
def Ext (l : Layout) (S fin : Int → Local α) : Prop :=
  ∀ r, (r ∈ allRanks l → (S r).ups <+: (fin r).ups) ∧ (r ∉ allRanks l → fin r = S r)

omit [Neg α] in
theorem Ext.trans {l : Layout} {S S' fin : Int → Local α} (h : Ext l S S') (h' : Ext l S' fin) :
    Ext l S fin :=
  fun r => ⟨fun hr => ((h r).1 hr).trans ((h' r).1 hr), fun hr => ((h' r).2 hr).trans ((h r).2 hr)⟩

omit [Neg α] in
theorem Ext.received {l : Layout} {S fin : Int → Local α} (h : Ext l S fin) {n : Nat}
    (hl : ∀ r ∈ allRanks l, (S r).ups.length = n) (r : Int) {k : Nat} (hk : k < n) :
    received fin r k = received S r k := by
  funext src off
  unfold FV3.received
  by_cases hs : src ∈ allRanks l
  · rw [prefix_getElem? ((h src).1 hs) (by rw [hl src hs]; exact hk)]
  · rw [(h src).2 hs]

omit [Neg α] in
theorem arrayFor_eq {r : Int} {off : Nat} {o : List (Outgoing α)} {y : Outgoing α} (hy : y ∈ o)
    (hd : y.dst = r) (ho : y.off = off) (hn : (o.map fun x => (x.dst, x.off)).Nodup) :
    arrayFor r off o = some y.a := by
  induction o with
  | nil => simp at hy
  | cons x o ih =>
    unfold arrayFor
    rw [List.map_cons, List.nodup_cons] at hn
    rcases List.mem_cons.1 hy with h | h
    · subst h
      rw [List.find?_cons_of_pos (by simp [hd, ho])]; rfl
    · by_cases hx : x.dst = r ∧ x.off = off
      · exfalso
        apply hn.1
        rw [List.mem_map]
        exact ⟨y, h, by rw [hd, ho, hx.1, hx.2]⟩
      · rw [List.find?_cons_of_neg (by simpa using hx)]
        exact ih h hn.2

omit [Neg α] in
theorem arrayFor_some {r : Int} {off : Nat} {o : List (Outgoing α)} {a : NDArray α}
    (h : arrayFor r off o = some a) : ∃ y ∈ o, y.dst = r ∧ y.off = off ∧ y.a = a := by
  unfold arrayFor at h
  rw [Option.map_eq_some_iff] at h
  obtain ⟨y, h1, h2⟩ := h
  have := List.find?_some h1
  simp only [decide_eq_true_eq] at this
  exact ⟨y, List.mem_of_find?_eq_some h1, this.1, this.2, h2⟩

theorem Inv.get {l : Layout} {Good : Int → Mem α → Prop} {hist : List (Op α)} {S : Int → Local α}
    (h : Inv l Good hist S) {r : Int} (hr : r ∈ allRanks l) {k : Nat} (hk : k < hist.length) :
    ∃ op u m, hist[k]? = some op ∧ (S r).ups[k]? = some u ∧ u.tag = tagsOf (hist.take k) ∧
      Good r m ∧ op.out l r m = .ok u.out ∧ op.inn l r m = .ok u.inc := by
  have h1 : k < (S r).ups.length := by rw [h.len r hr]; exact hk
  obtain ⟨a, m, b⟩ := h.ups r hr k _ _ (List.getElem?_eq_getElem hk) (List.getElem?_eq_getElem h1)
  exact ⟨_, _, m, List.getElem?_eq_getElem hk, List.getElem?_eq_getElem h1, a, b⟩

/-- Deliveries of an update all ranks have started succeed. -/
theorem Inv.deliver {l : Layout} {Good : Int → Mem α → Prop} {hist : List (Op α)}
    {S : Int → Local α} (h : Inv l Good hist S) (hs : ∀ op ∈ hist, StartSound l Good op)
    {r : Int} (hr : r ∈ allRanks l) {k : Nat} {u : Started α} (hu : (S r).ups[k]? = some u)
    {mem : Mem α} (hm : Good r mem) :
    ∃ mem', deliver (received S r k) u.inc mem = .ok mem' ∧ Good r mem' := by
  have hk : k < hist.length := by
    rw [← h.len r hr]
    exact (List.getElem?_eq_some_iff.1 hu).1
  obtain ⟨op, u', m, hop, hu', -, hg, -, hi⟩ := h.get hr hk
  have hu'' : u' = u := by rw [hu] at hu'; exact (Option.some.inj hu').symm
  rw [hu''] at hi
  clear hu' hu'' u'
  have hsd := hs op (List.mem_of_getElem? hop)
  have key := hsd.inMatch r hr m u.inc hg hi
  generalize u.inc = inc at key
  clear hi hu
  induction inc generalizing mem with
  | nil => exact ⟨mem, rfl, hm⟩
  | cons x inc ih =>
    obtain ⟨hx, hx2⟩ := key x List.mem_cons_self
    obtain ⟨op', u', m', hop', hu', -, hg', ho', -⟩ := h.get hx hk
    have : op' = op := by rw [hop] at hop'; exact (Option.some.inj hop').symm
    subst this
    obtain ⟨y, hy, hyd, hyo, hst⟩ := hx2 m' u'.out hg' ho'
    obtain ⟨m1, hm1, hg1⟩ := hst mem hm
    have harr : received S r k x.src x.off = some y.a := by
      unfold received
      rw [hu']
      exact arrayFor_eq hy hyd hyo (hsd.outKeys _ hx _ _ hg' ho').1
    obtain ⟨m2, hm2, hg2⟩ := ih hg1 (fun z hz => key z (List.mem_cons_of_mem _ hz))
    refine ⟨m2, ?_, hg2⟩
    simp only [FV3.deliver, harr, hm1]
    exact hm2

/-- A stretch of operations without starts. -/
theorem noStart_run {l : Layout} {Good : Int → Mem α → Prop} {hist : List (Op α)}
    {S : Int → Local α} (h : Inv l Good hist S) (hs : ∀ op ∈ hist, StartSound l Good op)
    {r : Int} (hr : r ∈ allRanks l) (ops : List (Op α)) (hn : ∀ op ∈ ops, op.isStart = false)
    (hw : ∀ i, Op.wait i ∈ ops → i < hist.length) (hc : ComputesKeep l Good ops) (s : Local α)
    (hsu : s.ups = (S r).ups) (hg : Good r s.mem) :
    ∃ s', (∀ arr, (∀ k, k < hist.length → arr k = received S r k) →
        localRun l r arr ops s = .ok s') ∧
      s'.ups = s.ups ∧ s'.lastTag = s.lastTag ∧ Good r s'.mem := by
  induction ops generalizing s with
  | nil => exact ⟨s, fun _ _ => rfl, rfl, rfl, hg⟩
  | cons op ops ih =>
    have ih' := fun s => ih (fun o ho => hn o (List.mem_cons_of_mem _ ho))
      (fun i hi => hw i (List.mem_cons_of_mem _ hi))
      (fun f hf => hc f (List.mem_cons_of_mem _ hf)) s
    have hop := hn op List.mem_cons_self
    cases op with
    | wait i =>
      have hi := hw i List.mem_cons_self
      have hlt : i < (S r).ups.length := by rw [h.len r hr]; exact hi
      have hu := List.getElem?_eq_getElem hlt
      obtain ⟨m, hm, hgm⟩ := h.deliver hs hr hu hg
      obtain ⟨s', h1, h2, h3, h4⟩ := ih' { s with mem := m } hsu hgm
      refine ⟨s', fun arr harr => ?_, h2, h3, h4⟩
      simp only [localRun, Op.localStep, hsu, hu, harr i hi, hm]
      have := h1 arr harr
      simp only [hsu] at this
      exact this
    | compute f =>
      obtain ⟨s', h1, h2, h3, h4⟩ := ih' { s with mem := f r s.mem } hsu
        (hc f List.mem_cons_self r hr _ hg)
      exact ⟨s', fun arr harr => h1 arr harr, h2, h3, h4⟩
    | _ => simp [Op.isStart] at hop

omit [Neg α] in
theorem tagsOf_append (a b : List (Op α)) : tagsOf (a ++ b) = tagsOf a + tagsOf b := by
  simp [tagsOf]

/-- Conditions on the operations of one rank when `k` updates have been started. -/
structure OpsFrom (l : Layout) (Good : Int → Mem α → Prop) (k : Nat) (ops : List (Op α)) : Prop where
  waits : ∀ (d i : Nat), ops[d]? = some (.wait i) → i < k + (ops.take d).countP Op.isStart
  computes : ComputesKeep l Good ops

theorem exists_fin {l : Layout} {Good : Int → Mem α → Prop} (starts : List (Op α)) :
    ∀ (hist : List (Op α)) (S : Int → Local α) (prog : Int → List (Op α)),
      Inv l Good hist S → (∀ op ∈ hist ++ starts, StartSound l Good op) →
      (∀ r ∈ allRanks l, startsOf (prog r) = starts) →
      (∀ r ∈ allRanks l, OpsFrom l Good hist.length (prog r)) →
      ∃ fin, (∀ r ∈ allRanks l, localRun l r (received fin r) (prog r) (S r) = .ok (fin r)) ∧
        Ext l S fin ∧ Inv l Good (hist ++ starts) fin := by
  classical
  induction starts with
  | nil =>
    intro hist S prog hinv hs hst hops
    have : ∀ r, ∃ s', (r ∈ allRanks l → (∀ arr, (∀ k, k < hist.length → arr k = received S r k) →
        localRun l r arr (prog r) (S r) = .ok s') ∧
      s'.ups = (S r).ups ∧ s'.lastTag = (S r).lastTag ∧ Good r s'.mem) ∧
      (r ∉ allRanks l → s' = S r) := by
      intro r
      by_cases hr : r ∈ allRanks l
      · have hn : ∀ op ∈ prog r, op.isStart = false := by
          have := hst r hr
          unfold startsOf at this
          rw [List.filter_eq_nil_iff] at this
          intro op hop
          simpa using this op hop
        obtain ⟨s', h'⟩ := noStart_run hinv (fun op h => hs op (by simpa using h)) hr (prog r) hn
          (by
            intro i hi
            obtain ⟨d, hd⟩ := List.mem_iff_getElem?.1 hi
            have := (hops r hr).waits d i hd
            have h0 : ((prog r).take d).countP Op.isStart = 0 := by
              rw [List.countP_eq_zero]
              intro a ha
              simp [hn a (List.mem_of_mem_take ha)]
            omega) (hops r hr).computes (S r) rfl (hinv.good r hr)
        exact ⟨s', fun _ => h', fun h => absurd hr h⟩
      · exact ⟨S r, fun h => absurd h hr, fun _ => rfl⟩
    choose fin hfin using this
    have hext : Ext l S fin := fun r =>
      ⟨fun hr => by rw [((hfin r).1 hr).2.1]; exact List.prefix_refl _, (hfin r).2⟩
    refine ⟨fin, fun r hr => ?_, hext, ?_⟩
    · exact ((hfin r).1 hr).1 _ fun k hk => hext.received hinv.len r hk
    · rw [List.append_nil]
      constructor
      · intro r hr; exact ((hfin r).1 hr).2.2.2
      · intro r hr; rw [((hfin r).1 hr).2.2.1]; exact hinv.tag r hr
      · intro r hr; rw [((hfin r).1 hr).2.1]; exact hinv.len r hr
      · intro r hr; rw [((hfin r).1 hr).2.1]; exact hinv.ups r hr
  | cons st starts ih =>
    intro hist S prog hinv hs hst hops
    have hsst : StartSound l Good st := hs st (by simp)
    have : ∀ r, ∃ s' rest, (r ∈ allRanks l → ∃ seg, prog r = seg ++ st :: rest ∧
        (∀ op ∈ seg, op.isStart = false) ∧ startsOf rest = starts ∧
        ∃ m o i, Good r m ∧ st.out l r m = .ok o ∧ st.inn l r m = .ok i ∧
        (∀ arr, (∀ k, k < hist.length → arr k = received S r k) →
        localRun l r arr (seg ++ [st]) (S r) = .ok s') ∧
        s' = ⟨m, (S r).lastTag + st.nTags, (S r).ups ++ [⟨(S r).lastTag, o, i⟩]⟩) ∧
      (r ∉ allRanks l → s' = S r) := by
      intro r
      by_cases hr : r ∈ allRanks l
      · have := hst r hr
        unfold startsOf at this
        rw [List.filter_eq_cons_iff] at this
        obtain ⟨seg, rest, hp, hseg, -, hrest⟩ := this
        have hseg : ∀ op ∈ seg, op.isStart = false := fun op h => by simpa using hseg op h
        obtain ⟨s1, h1, h2, h3, h4⟩ := noStart_run hinv (fun op h => hs op (by simp [h])) hr seg hseg
          (by
            intro i hi
            obtain ⟨d, hd⟩ := List.mem_iff_getElem?.1 hi
            have hlt := (List.getElem?_eq_some_iff.1 hd).1
            have := (hops r hr).waits d i (by
              rw [hp, List.getElem?_append_left hlt]; exact hd)
            have h0 : ((prog r).take d).countP Op.isStart = 0 := by
              rw [List.countP_eq_zero, hp, List.take_append_of_le_length (by omega)]
              intro a ha
              simp [hseg a (List.mem_of_mem_take ha)]
            omega)
          (fun f hf => (hops r hr).computes f (by rw [hp]; exact List.mem_append_left _ hf))
          (S r) rfl (hinv.good r hr)
        obtain ⟨o, i, ho, hi⟩ := hsst.start r hr s1.mem h4
        refine ⟨⟨s1.mem, (S r).lastTag + st.nTags, (S r).ups ++ [⟨(S r).lastTag, o, i⟩]⟩, rest,
          fun _ => ⟨seg, hp, hseg, hrest, s1.mem, o, i, h4, ho, hi, fun arr harr => ?_, rfl⟩,
          fun h => absurd hr h⟩
        rw [localRun_append, h1 arr harr]
        simp only [Bind.bind, Except.bind, localRun]
        rw [localStep_start hsst.isStart]
        simp only [ho, hi, Bind.bind, Except.bind, Pure.pure, Except.pure, h2, h3]
      · exact ⟨S r, [], fun h => absurd h hr, fun _ => rfl⟩
    choose S' prog' hS' using this
    have hext : Ext l S S' := fun r =>
      ⟨fun hr => by
        obtain ⟨seg, -, -, -, m, o, i, -, -, -, -, h⟩ := (hS' r).1 hr
        rw [h]; exact ⟨_, rfl⟩, (hS' r).2⟩
    have hinv' : Inv l Good (hist ++ [st]) S' := by
      constructor
      · intro r hr
        obtain ⟨seg, -, -, -, m, o, i, hg, -, -, -, h⟩ := (hS' r).1 hr
        rw [h]; exact hg
      · intro r hr
        obtain ⟨seg, -, -, -, m, o, i, hg, -, -, -, h⟩ := (hS' r).1 hr
        rw [h, tagsOf_append]
        show (S r).lastTag + st.nTags = _
        rw [hinv.tag r hr]
        simp [tagsOf]
      · intro r hr
        obtain ⟨seg, -, -, -, m, o, i, hg, -, -, -, h⟩ := (hS' r).1 hr
        rw [h]
        simp [hinv.len r hr]
      · intro r hr k op u hk hu
        obtain ⟨seg, -, -, -, m, o, i, hg, ho, hi, -, h⟩ := (hS' r).1 hr
        rw [h] at hu
        have hkl := (List.getElem?_eq_some_iff.1 hk).1
        rw [List.length_append] at hkl
        by_cases hlt : k < hist.length
        · rw [List.getElem?_append_left (by rw [hinv.len r hr]; exact hlt)] at hu
          rw [List.getElem?_append_left hlt] at hk
          rw [List.take_append_of_le_length (by omega)]
          exact hinv.ups r hr k op u hk hu
        · have hke : k = hist.length := by simp at hkl; omega
          subst hke
          rw [List.getElem?_append_right (by omega)] at hk
          rw [List.getElem?_append_right (by rw [hinv.len r hr])] at hu
          simp [hinv.len r hr] at hk hu
          subst hk hu
          refine ⟨?_, m, hg, ho, hi⟩
          simp [hinv.tag r hr]
    obtain ⟨fin, hf1, hf2, hf3⟩ := ih (hist ++ [st]) S' prog' hinv'
      (fun op h => hs op (by simpa using h))
      (fun r hr => by
        obtain ⟨seg, -, -, h, -⟩ := (hS' r).1 hr
        exact h)
      (fun r hr => by
        obtain ⟨seg, hp, hseg, -⟩ := (hS' r).1 hr
        have ho := hops r hr
        constructor
        · intro d i hd
          have := ho.waits (seg.length + (d + 1)) i (by
            rw [hp, List.getElem?_append_right (by omega)]
            rw [show seg.length + (d + 1) - seg.length = d + 1 by omega]
            simpa using hd)
          rw [hp, List.take_append, List.countP_append] at this
          have h0 : (seg.take (seg.length + (d + 1))).countP Op.isStart = 0 := by
            rw [List.countP_eq_zero]
            intro a ha
            simp [hseg a (List.mem_of_mem_take ha)]
          rw [h0, show seg.length + (d + 1) - seg.length = d + 1 by omega, List.take_succ_cons,
            List.countP_cons_of_pos (by exact hsst.isStart)] at this
          simp only [List.length_append, List.length_cons, List.length_nil]
          omega
        · intro f hf
          exact ho.computes f (by rw [hp]; simp [hf]))
    refine ⟨fin, fun r hr => ?_, hext.trans hf2, by simpa using hf3⟩
    obtain ⟨seg, hp, -, -, m, o, i, -, -, -, hrun, -⟩ := (hS' r).1 hr
    have h1 := hrun (received fin r) (fun k hk => (hext.trans hf2).received hinv.len r hk)
    rw [hp, show seg ++ st :: prog' r = (seg ++ [st]) ++ prog' r by simp, localRun_append, h1]
    exact hf1 r hr

end FV3
