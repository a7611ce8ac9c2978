import Verif.Proofs.CollWithin
import Verif.Proofs.StateSession

/-!
# The tile communicators make their calls at the same time
-/

namespace FV3
variable {α : Type} {M R : Type}

/-- An action with other ranks and tags. -/
def Act.move (g : Int → Int) (f : Tag → Tag) : Act M → Act M
  | .send d t m => .send (g d) (f t) m
  | .recv s t m => .recv (g s) (f t) m
  | .await d t => .await (g d) (f t)

theorem Real.move {p : Proc M R} {as : List (Act M)} {x : R} (h : Real p as x) (g : Int → Int) (f : Tag → Tag) :
    Real ((p.retag f).renumber g) (as.map (Act.move g f)) x := by
  induction h with
  | ret r => exact .ret r
  | send _ ih => exact .send ih
  | recv _ ih => exact .recv ih
  | await _ ih => exact .await ih

/-- The rank at the other end. -/
def Act.peer : Act M → Int
  | .send d _ _ => d
  | .recv s _ _ => s
  | .await d _ => d

theorem Real.within {P : Int → Prop} {p : Proc M R} {as : List (Act M)} {x : R} (h : Real p as x) (hp : p.Within P) :
    ∀ a ∈ as, P a.peer := by
  induction h with
  | ret r => simp
  | send _ ih => exact List.forall_mem_cons.2 ⟨hp.1, ih (hp.2 _)⟩
  | recv _ ih => exact List.forall_mem_cons.2 ⟨hp.1, ih (hp.2 _)⟩
  | await _ ih => exact List.forall_mem_cons.2 ⟨hp.1, ih (hp.2 _)⟩

theorem Proc.retag_within {P : Int → Prop} {p : Proc M R} (h : p.Within P) (f : Tag → Tag) : (p.retag f).Within P := by
  induction p with
  | ret x => trivial
  | isend d t m k ih => exact ⟨h.1, fun i => ih i (h.2 i)⟩
  | recv s t k ih => exact ⟨h.1, fun i => ih i (h.2 i)⟩
  | await d t i k ih => exact ⟨h.1, fun i => ih i (h.2 i)⟩

theorem COp.exec_within {c : Comm} (h : 0 < c.size) (junk : Nat → List Nat → α) (r : Int) (op : COp) (s : SessState α) :
    (op.exec c junk r s).Within fun d => 0 ≤ d ∧ d < c.size := by
  cases op with
  | scatter q g =>
    refine Proc.Within.bind (scatter_within h _ _ _ _ _) ?_
    rintro ⟨a | a, m⟩ <;> trivial
  | gather q g =>
    refine Proc.Within.bind (gather_within h _ _ _ _ _) ?_
    rintro ⟨a | a, m⟩ <;> trivial
  | scatterState i j vars =>
    refine Proc.Within.bind (scatterState_within h _ _ _ _ _) ?_
    rintro ⟨a | a, m⟩ <;> trivial
  | gatherState i j vars =>
    refine Proc.Within.bind (gatherState_within h _ _ _ _ _) ?_
    rintro ⟨a | (_ | a), m⟩ <;> trivial

/-! ### Plans of groups -/

/-- The actions of rank `r`, in group `r / n`. -/
def groupPlan (n : Int) (ranks : List Int) (plans : Int → Int → List (Nat × Act M)) (r : Int) : List (Nat × Act M) :=
  if r ∈ ranks then (plans (r / n) (r % n)).map fun a => (a.1, a.2.move (fun i => r / n * n + i) (.inTile (r / n)))
  else []

/-- Which sends complete on their own, within group `g`. -/
def tileBuf (n : Int) (buf : Buffering) (g : Int) : Buffering := fun s d t k => buf (g * n + s) (g * n + d) (t.inTile g) k

theorem inTile_inj {g : Int} {t t' : Tag} {k k' : Nat} (h : t = .coll k) (h' : t' = .coll k')
    (e : t.inTile g = t'.inTile g) : t = t' := by
  subst h h'
  cases e
  rfl

theorem nodup_filterMap_of {A K L : Type} {f : A → Option K} {f' : A → Option L} (as : List A)
    (hs : ∀ a ∈ as, (f a = none → f' a = none))
    (hi : ∀ a ∈ as, ∀ b ∈ as, ∀ k, f' a = some k → f' b = some k → f a = f b)
    (h : (as.filterMap f).Nodup) : (as.filterMap f').Nodup := by
  induction as with
  | nil => simp
  | cons a as ih =>
    have ih' := ih (fun b hb => hs b (List.mem_cons_of_mem _ hb))
      (fun b hb c hc => hi b (List.mem_cons_of_mem _ hb) c (List.mem_cons_of_mem _ hc))
    cases hk : f' a with
    | none =>
      rw [List.filterMap_cons_none hk]
      cases hk' : f a with
      | none => rw [List.filterMap_cons_none hk'] at h; exact ih' h
      | some k => rw [List.filterMap_cons_some hk', List.nodup_cons] at h; exact ih' h.2
    | some k =>
      cases hk' : f a with
      | none => rw [hs a (List.mem_cons_self ..) hk'] at hk; cases hk
      | some k' =>
        rw [List.filterMap_cons_some hk', List.nodup_cons] at h
        rw [List.filterMap_cons_some hk, List.nodup_cons]
        refine ⟨fun hm => h.1 ?_, ih' h.2⟩
        obtain ⟨b, hb, e⟩ := List.mem_filterMap.1 hm
        exact List.mem_filterMap.2 ⟨b, hb, by
          rw [← hi a (List.mem_cons_self ..) b (List.mem_cons_of_mem _ hb) k hk e, hk']⟩

theorem groupPlan_ok {n : Int} (hn : 0 < n) {ranks tr : List Int} (hr : ∀ r, r ∈ ranks ↔ 0 ≤ r ∧ r < 6 * n)
    (ht : ∀ i, i ∈ tr ↔ 0 ≤ i ∧ i < n) {buf : Buffering} {plans : Int → Int → List (Nat × Act M)}
    (hp : ∀ g, 0 ≤ g → g < 6 → Plan (tileBuf n buf g) tr (plans g))
    (hw : ∀ g, 0 ≤ g → g < 6 → ∀ i k a, (k, a) ∈ plans g i → 0 ≤ a.peer ∧ a.peer < n)
    (htag : ∀ g, 0 ≤ g → g < 6 → ∀ i k a, (k, a) ∈ plans g i → ∃ m, a.tag = .coll m) :
    Plan buf ranks (groupPlan n ranks plans) := by
  have hdiv : ∀ r ∈ ranks, (0 ≤ r / n ∧ r / n < 6) ∧ r / n * n + r % n = r ∧ 0 ≤ r % n ∧ r % n < n := by
    intro r h
    have h := (hr r).1 h
    refine ⟨div_range hn h.1 h.2, ?_, Int.emod_nonneg _ (by omega), Int.emod_lt_of_pos _ hn⟩
    have := Int.emod_add_mul_ediv r n
    rw [Int.mul_comm] at this
    omega
  have hin : ∀ g, 0 ≤ g → g < 6 → ∀ i, 0 ≤ i → i < n → g * n + i ∈ ranks := by
    intro g h0 h6 i i0 i1
    refine (hr _).2 ⟨?_, ?_⟩
    · have := Int.mul_nonneg h0 (Int.le_of_lt hn)
      omega
    · have := Int.mul_le_mul_of_nonneg_right (show g ≤ 5 by omega) (Int.le_of_lt hn)
      omega
  have hat : ∀ g, 0 ≤ g → g < 6 → ∀ i, 0 ≤ i → i < n → groupPlan n ranks plans (g * n + i) =
      (plans g i).map fun a => (a.1, a.2.move (fun i => g * n + i) (.inTile g)) := by
    intro g h0 h6 i i0 i1
    unfold groupPlan
    obtain ⟨e1, e2⟩ := group_div (g := g) hn i0 i1
    rw [if_pos (hin g h0 h6 i i0 i1), e1, e2]
  -- it is enough to look at ranks of groups
  have all : ∀ P : Int → Prop, (∀ r, r ∉ ranks → P r) →
      (∀ g, 0 ≤ g → g < 6 → ∀ i, 0 ≤ i → i < n → P (g * n + i)) → ∀ r, P r := by
    intro P h1 h2 r
    by_cases h : r ∈ ranks
    · obtain ⟨⟨a, b⟩, c, d, e⟩ := hdiv r h
      have := h2 _ a b _ d e
      rwa [c] at this
    · exact h1 r h
  have hidle : ∀ r, r ∉ ranks → groupPlan n ranks plans r = [] := fun r h => by unfold groupPlan; rw [if_neg h]
  refine ⟨hidle, all _ (fun r h => ?_) fun g g0 g6 i i0 i1 => ?_, all _ (fun r h => ?_) fun g g0 g6 i i0 i1 => ?_,
    all _ (fun r h => ?_) fun g g0 g6 i i0 i1 => ?_, all _ (fun r h => ?_) fun g g0 g6 i i0 i1 => ?_,
    all _ (fun r h => ?_) fun g g0 g6 i i0 i1 => ?_⟩
  · rw [hidle r h]; exact .nil
  · rw [hat g g0 g6 i i0 i1, List.pairwise_map]
    exact (hp g g0 g6).ordered i
  · rw [hidle r h]; exact .nil
  · rw [hat g g0 g6 i i0 i1, List.filterMap_map]
    refine nodup_filterMap_of (f := sendKey) _ (fun a ha e => ?_) (fun a ha b hb k ea eb => ?_) ((hp g g0 g6).sendOnce i)
    · obtain ⟨_, _ | _ | _⟩ := a
      · cases e
      · rfl
      · rfl
    · obtain ⟨ka, d | d | d⟩ := a
      · obtain ⟨kb, d' | d' | d'⟩ := b
        · rename_i t m t' m'
          have e := ea.trans eb.symm
          simp only [Function.comp, Act.move, sendKey, Option.some.injEq, Prod.mk.injEq] at e ⊢
          obtain ⟨k1, h1⟩ := htag g g0 g6 i _ _ ha
          obtain ⟨k2, h2⟩ := htag g g0 g6 i _ _ hb
          exact ⟨by omega, inTile_inj h1 h2 e.2⟩
        · cases eb
        · cases eb
      · cases ea
      · cases ea
  · rw [hidle r h]; exact .nil
  · rw [hat g g0 g6 i i0 i1, List.filterMap_map]
    refine nodup_filterMap_of (f := recvKey) _ (fun a ha e => ?_) (fun a ha b hb k ea eb => ?_) ((hp g g0 g6).recvOnce i)
    · obtain ⟨_, _ | _ | _⟩ := a
      · rfl
      · cases e
      · rfl
    · obtain ⟨ka, d | d | d⟩ := a
      · cases ea
      · obtain ⟨kb, d' | d' | d'⟩ := b
        · cases eb
        · rename_i t m t' m'
          have e := ea.trans eb.symm
          simp only [Function.comp, Act.move, recvKey, Option.some.injEq, Prod.mk.injEq] at e ⊢
          obtain ⟨k1, h1⟩ := htag g g0 g6 i _ _ ha
          obtain ⟨k2, h2⟩ := htag g g0 g6 i _ _ hb
          exact ⟨by omega, inTile_inj h1 h2 e.2⟩
        · cases eb
      · cases ea
  · rw [hidle r h]; simp
  · intro k s t m hm
    rw [hat g g0 g6 i i0 i1] at hm
    obtain ⟨⟨k', a⟩, ha, e⟩ := List.mem_map.1 hm
    cases a with
    | recv s' t' m' =>
      simp only [Act.move, Prod.mk.injEq, Act.recv.injEq] at e
      obtain ⟨rfl, rfl, rfl, rfl⟩ := e
      obtain ⟨k2, hk, h2⟩ := (hp g g0 g6).recvSent i _ _ _ _ ha
      have hs := hw g g0 g6 i _ _ ha
      refine ⟨k2, hk, ?_⟩
      rw [hat g g0 g6 s' hs.1 hs.2]
      exact List.mem_map.2 ⟨_, h2, rfl⟩
    | send _ _ _ => cases e
    | await _ _ => cases e
  · rw [hidle r h]; simp
  · intro k d t hm
    rw [hat g g0 g6 i i0 i1] at hm
    obtain ⟨⟨k', a⟩, ha, e⟩ := List.mem_map.1 hm
    cases a with
    | await d' t' =>
      simp only [Act.move, Prod.mk.injEq, Act.await.injEq] at e
      obtain ⟨rfl, rfl, rfl⟩ := e
      rcases (hp g g0 g6).awaitRecv i _ _ _ ha with h | ⟨k2, hk, m, h2⟩
      · exact .inl h
      · have hs := hw g g0 g6 i _ _ ha
        refine .inr ⟨k2, hk, m, ?_⟩
        rw [hat g g0 g6 d' hs.1 hs.2]
        exact List.mem_map.2 ⟨_, h2, rfl⟩
    | send _ _ _ => cases e
    | recv _ _ _ => cases e

end FV3
