import Verif.Spec.TileSession
import Verif.Proofs.SessionRun
import Verif.Proofs.PlanPhase
import Verif.Proofs.DictFold
import Verif.Props.CollState

/-!
# Collective calls of any communicator
-/

namespace FV3
variable {α : Type}

/-! ### The dictionaries -/

/-- The dictionary with the quantities `F v`, as far as there are any, and the time. -/
def dictOf (vars : List StateVar) (F : StateVar → Option (Quantity α)) (t : Option Int) : CState α :=
  (vars.filterMap fun v => (F v).map fun w => (v.name, SVal.qty w)) ++ timeEntry t

theorem rankDict_eq (i : Nat) (vars : List StateVar) (s : SessState α) :
    s.rankDict i vars = dictOf vars (fun v => some (s.s.mem v.q)) (s.time i) := by
  unfold SessState.rankDict dictOf
  congr 1
  rw [← List.filterMap_eq_map]
  rfl

theorem globDict_eq (j : Nat) (vars : List StateVar) (s : SessState α) :
    s.globDict j vars = dictOf vars (fun v => s.s.glob v.g) (s.gtime j) := rfl

theorem keys_timeEntry (t : Option Int) : Dict.keys (timeEntry t : CState α) = if t.isSome then ["time"] else [] := by
  cases t <;> rfl

theorem keys_dictOf (vars : List StateVar) (F : StateVar → Option (Quantity α)) (t : Option Int) :
    Dict.keys (dictOf vars F t) =
      (vars.filter fun v => (F v).isSome).map StateVar.name ++ if t.isSome then ["time"] else [] := by
  unfold dictOf
  rw [Dict.keys, List.map_append]
  congr 1
  · induction vars with
    | nil => rfl
    | cons v vars ih =>
      rw [List.filterMap_cons, List.filter_cons]
      cases F v with
      | none => simpa using ih
      | some w => simpa using ih
  · exact keys_timeEntry t

theorem nodup_dictOf {vars : List StateVar} (hn : GoodNames vars) (F : StateVar → Option (Quantity α)) (t : Option Int) :
    (Dict.keys (dictOf vars F t)).Nodup := by
  rw [keys_dictOf, List.nodup_append]
  refine ⟨hn.distinct.sublist (List.filter_sublist.map _), by split <;> simp, ?_⟩
  intro a ha b hb
  obtain ⟨v, hv, rfl⟩ := List.mem_map.1 ha
  split at hb
  · rw [List.mem_singleton] at hb
    rw [hb]
    exact hn.notTime v (List.mem_filter.1 hv).1
  · cases hb

theorem var_unique {vars : List StateVar} (hn : GoodNames vars) {v w : StateVar} (hv : v ∈ vars) (hw : w ∈ vars)
    (h : v.name = w.name) : v = w := List.inj_on_of_nodup_map hn.distinct hv hw h

theorem get?_dictOf {vars : List StateVar} (hn : GoodNames vars) (F : StateVar → Option (Quantity α)) (t : Option Int)
    {v : StateVar} (hv : v ∈ vars) : Dict.get? (dictOf vars F t) v.name = (F v).map SVal.qty := by
  cases hF : F v with
  | none =>
    rw [Option.map_none, Dict.get?_eq_none_iff, keys_dictOf, List.mem_append, not_or]
    constructor
    · intro h
      obtain ⟨w, hw, e⟩ := List.mem_map.1 h
      obtain ⟨h1, h2⟩ := List.mem_filter.1 hw
      rw [var_unique hn h1 hv e, hF] at h2
      cases h2
    · split
      · rw [List.mem_singleton]
        exact hn.notTime v hv
      · exact List.not_mem_nil
  | some w =>
    refine Dict.get?_of_mem (nodup_dictOf hn F t) ?_
    refine List.mem_append_left _ (List.mem_filterMap.2 ⟨v, hv, ?_⟩)
    rw [hF]
    rfl

theorem get?_dictOf_time {vars : List StateVar} (hn : GoodNames vars) (F : StateVar → Option (Quantity α))
    (t : Option Int) : Dict.get? (dictOf vars F t) "time" = t.map SVal.time := by
  cases t with
  | none =>
    rw [Option.map_none, Dict.get?_eq_none_iff, keys_dictOf]
    simp only [Option.isSome_none, Bool.false_eq_true, if_false, List.append_nil]
    intro h
    obtain ⟨w, hw, e⟩ := List.mem_map.1 h
    exact hn.notTime w (List.mem_filter.1 hw).1 e
  | some t => exact Dict.get?_of_mem (nodup_dictOf hn F _) (List.mem_append_right _ (List.mem_singleton.2 rfl))

theorem mem_dictOf {vars : List StateVar} {F : StateVar → Option (Quantity α)} {t : Option Int} {n : String}
    (h : n ∈ Dict.keys (dictOf vars F t)) (hne : n ≠ "time") : ∃ v ∈ vars, v.name = n ∧ (F v).isSome := by
  rw [keys_dictOf, List.mem_append] at h
  rcases h with h | h
  · obtain ⟨w, hw, e⟩ := List.mem_map.1 h
    exact ⟨w, (List.mem_filter.1 hw).1, e, (List.mem_filter.1 hw).2⟩
  · split at h
    · exact absurd (List.mem_singleton.1 h) hne
    · cases h

theorem qtyOf_some {d : CState α} {n : String} {p : Quantity α} (h : d.get? n = some (.qty p)) : qtyOf d n = some p := by
  unfold qtyOf
  rw [h]

theorem timeIn_of {d : CState α} {t : Option Int} (h : d.get? "time" = t.map SVal.time) : timeIn d = t := by
  unfold timeIn
  rw [h]
  cases t <;> rfl

theorem putVars_other (d : CState α) (vars : List StateVar) (m : Mem α) (q : Nat) (h : ∀ v ∈ vars, v.q ≠ q) :
    putVars d vars m q = m q := by
  induction vars generalizing m with
  | nil => rfl
  | cons v vars ih =>
    unfold putVars
    rw [ih _ fun w hw => h w (List.mem_cons_of_mem _ hw)]
    cases qtyOf d v.name with
    | none => rfl
    | some p =>
      dsimp only
      unfold Mem.put
      rw [if_neg (Ne.symm (h v (List.mem_cons_self ..)))]

theorem putVars_var (d : CState α) {vars : List StateVar} (hq : (vars.map StateVar.q).Nodup) (m : Mem α) {v : StateVar}
    (hv : v ∈ vars) {p : Quantity α} (hp : qtyOf d v.name = some p) : putVars d vars m v.q = p := by
  induction vars generalizing m with
  | nil => cases hv
  | cons w vars ih =>
    rw [List.map_cons, List.nodup_cons] at hq
    unfold putVars
    rcases List.mem_cons.1 hv with rfl | hv
    · rw [putVars_other _ _ _ _ fun u hu e => hq.1 (List.mem_map.2 ⟨u, hu, e⟩), hp]
      dsimp only
      unfold Mem.put
      rw [if_pos rfl]
    · exact ih hq.2 _ hv

theorem putGlobs_other (d : CState α) (vars : List StateVar) (G : Nat → Option (Quantity α)) (g : Nat)
    (h : ∀ v ∈ vars, v.g ≠ g) : putGlobs d vars G g = G g := by
  induction vars generalizing G with
  | nil => rfl
  | cons v vars ih =>
    unfold putGlobs
    rw [ih _ fun w hw => h w (List.mem_cons_of_mem _ hw)]
    cases qtyOf d v.name with
    | none => rfl
    | some p =>
      dsimp only
      rw [if_neg (Ne.symm (h v (List.mem_cons_self ..)))]

theorem putGlobs_var (d : CState α) {vars : List StateVar} (hg : (vars.map StateVar.g).Nodup)
    (G : Nat → Option (Quantity α)) {v : StateVar} (hv : v ∈ vars) {p : Quantity α} (hp : qtyOf d v.name = some p) :
    putGlobs d vars G v.g = some p := by
  induction vars generalizing G with
  | nil => cases hv
  | cons w vars ih =>
    rw [List.map_cons, List.nodup_cons] at hg
    unfold putGlobs
    rcases List.mem_cons.1 hv with rfl | hv
    · rw [putGlobs_other _ _ _ _ fun u hu e => hg.1 (List.mem_map.2 ⟨u, hu, e⟩), hp]
      dsimp only
      rw [if_pos rfl]
    · exact ih hg.2 _ hv

/-- The variable of that name. -/
def varOf (vars : List StateVar) (n : String) : StateVar := (vars.find? fun v => v.name = n).getD ⟨n, 0, 0⟩

theorem varOf_name {vars : List StateVar} (hn : GoodNames vars) {v : StateVar} (hv : v ∈ vars) :
    varOf vars v.name = v := by
  unfold varOf
  cases h : vars.find? fun w => w.name = v.name with
  | none =>
    have := List.find?_eq_none.1 h v hv
    simp at this
  | some w =>
    have h1 := List.mem_of_find?_eq_some h
    have h2 := List.find?_some h
    exact var_unique hn h1 hv (by simpa using h2)

/-! ### Calls -/

/-- The data of all ranks. -/
def snapOf (s : Int → SessState α) : Snap α := ⟨fun r => (s r).s.mem, (s 0).s.glob, fun r => (s r).time, (s 0).gtime⟩

/-- The state of all ranks of a communicator between two calls. -/
structure CBetween (c : Comm) (mem : Int → Mem α) (parts : Nat → Parts) (filled : List Nat) (n : Nat)
    (s : Int → SessState α) : Prop where
  same : ∀ r ∈ c.ranks, MetaIs mem r (s r).s.mem
  coll : ∀ r ∈ c.ranks, (s r).s.coll = n
  shaped : ∀ g v, (s 0).s.glob g = some v → v.GlobalShaped c (parts g).dims (parts g).cells
  filled : ∀ g ∈ filled, ∃ v, (s 0).s.glob g = some v

/-- What a collective call does. -/
def COpDoes (buf : Buffering) (c : Comm) (junk : Nat → List Nat → α) (mem : Int → Mem α) (parts : Nat → Parts)
    (filled : List Nat) (n : Nat) (op : COp) (s : Int → SessState α) : Prop :=
  ∃ (s' : Int → SessState α) (n' : Nat) (plan : Int → List (Nat × Act (Msg α))), Seg buf c.ranks n n' plan ∧
    (∀ r ∈ c.ranks, Real (op.exec c junk r (s r)) ((plan r).map (·.2)) (.ok (s' r))) ∧
    op.Step c parts (snapOf s) (snapOf s') ∧ CBetween c mem parts (op.filledAfter filled) n' s' ∧
    ∀ r, (s' r).s.tag = (s r).s.tag

theorem RealC.post {A B : Type} {p : CollM α A} {n n' : Nat} {acts : List (Nat × Act (Msg α))} {a : A}
    (h : RealC p n acts (.ok a) n') (f : A × Nat → B) :
    Real ((p n).bind fun x => match x.1 with
      | .error e => (.ret (.error e) : Proc (Msg α) (Py B))
      | .ok a => .ret (Except.ok (f (a, x.2)))) (acts.map (·.2)) (.ok (f (a, n'))) := by
  have := Real.bind (f := fun x : Py A × Nat => match x.1 with
      | .error e => (.ret (.error e) : Proc (Msg α) (Py B))
      | .ok a => .ret (Except.ok (f (a, x.2)))) h (Real.ret (M := Msg α) (Except.ok (ε := PyErr) (f (a, n'))))
  rwa [List.append_nil] at this

theorem rankShaped_of {mem : Int → Mem α} {r : Int} {m : Mem α} {q : Nat} {dims : List Dim} {cells : List Int}
    (h1 : MetaIs mem r m) (h2 : (mem r q).RankShaped dims cells) : (m q).RankShaped dims cells :=
  ⟨(h1 q).wf h2.wf, by rw [(h1 q).extent]; exact h2.extent⟩

theorem scatter_cop {c : Comm} (hl : FloatSafe c.layout) (buf : Buffering) (junk : Nat → List Nat → α)
    {mem : Int → Mem α} {parts : Nat → Parts} {filled : List Nat} {n : Nat} {s : Int → SessState α}
    (B : CBetween c mem parts filled n s) {q g : Nat} (hv : (COp.scatter q g).Valid c mem parts filled) :
    COpDoes buf c junk mem parts filled n (.scatter q g) s := by
  obtain ⟨hf, hp⟩ := hv
  obtain ⟨v, hv⟩ := B.filled g hf
  obtain ⟨ky, kx, ha⟩ := hp.axes
  have hpos : 0 < (parts g).dims.length := by have := ha.ylt; omega
  obtain ⟨part, ⟨plan, s0, s1⟩, s2⟩ := scatter_does buf (c := c) hl (junk n) hpos (B.shaped g v hv)
    (fun r => (s r).s.glob g) (fun r => some ((s r).s.mem q)) hv
    (fun r hr q' hq' => by
      cases hq'
      exact rankShaped_of (B.same r hr) (hp.shaped r hr)) n
  have hpart : ∀ r ∈ c.ranks, ((s r).s.mem q).Refilled (part r) := fun r hr => (s2 r hr).given _ rfl
  have hput : ∀ r, (s r).s.mem.put q (part r) q = part r := fun r => by unfold Mem.put; rw [if_pos rfl]
  refine ⟨fun r => { s r with s := { (s r).s with mem := (s r).s.mem.put q (part r), coll := n + 2 } }, n + 2, plan, s0,
    fun r hr => ?_, ⟨rfl, rfl, v, hv, fun r hr => ⟨rfl, ?_, ?_, ?_⟩⟩,
    ⟨fun r hr => (B.same r hr).trans fun q' => ?_, fun _ _ => rfl, B.shaped, B.filled⟩, fun _ => rfl⟩
  · have := (s1 r hr).post fun x => { s r with s := { (s r).s with mem := (s r).s.mem.put q x.1, coll := x.2 } }
    unfold COp.exec
    dsimp only
    rw [B.coll r hr]
    refine cast ?_ this
    congr 1
    congr 1
    funext x
    obtain ⟨x | x, m⟩ := x <;> rfl
  · dsimp only [snapOf]
    rw [hput]
    exact (s2 r hr).part
  · dsimp only [snapOf]
    rw [hput]
    exact hpart r hr
  · intro q' hq'
    dsimp only [snapOf]
    unfold Mem.put
    rw [if_neg hq']
  · dsimp only
    unfold Mem.put
    split
    · next e =>
      subst e
      exact (hpart r hr).sameMeta
    · exact SameMeta.refl _

theorem gather_cop {c : Comm} (hl : FloatSafe c.layout) (buf : Buffering) (junk : Nat → List Nat → α)
    {mem : Int → Mem α} {parts : Nat → Parts} {filled : List Nat} {n : Nat} {s : Int → SessState α}
    (B : CBetween c mem parts filled n s) {q g : Nat} (hp : PartsOn c mem q (parts g)) :
    COpDoes buf c junk mem parts filled n (.gather q g) s := by
  obtain ⟨ky, kx, ha⟩ := hp.axes
  have hpos : 0 < (parts g).dims.length := by have := ha.ylt; omega
  have h0 : (0 : Int) ∈ c.ranks := (mem_ranks _ 0).2 ⟨by omega, comm_size_pos hl⟩
  have hsh : ∀ r ∈ c.ranks, ((s r).s.mem q).RankShaped (parts g).dims (parts g).cells :=
    fun r hr => rankShaped_of (B.same r hr) (hp.shaped r hr)
  obtain ⟨root, ⟨plan, g0, g1⟩, g2⟩ := gather_does buf (c := c) hl (junk n) hpos hp.small (fun r => (s r).s.mem q)
    (fun r => (s r).s.glob g) hsh (fun v hv => B.shaped g v hv)
    (fun _ => (B.same 0 h0 q).dims.trans (hp.names 0 h0)) n
  let G : Int → Nat → Option (Quantity α) := fun r g' =>
    if g' = g then (if r = 0 then some root else none) else (s r).s.glob g'
  refine ⟨fun r => { s r with s := { (s r).s with glob := G r, coll := n + 1 } }, n + 1, plan, g0, fun r hr => ?_,
    ⟨fun _ _ => ⟨rfl, rfl⟩, rfl, fun g' hg' => ?_, root, ?_, g2.shaped,
      GatherOut.gathered (c := c) hl ha g2 (hsh 0 h0), g2.given, fun h => (g2.fresh h).1⟩,
      ⟨B.same, fun _ _ => rfl, ?_, ?_⟩, fun _ => rfl⟩
  · have := (g1 r hr).post fun x => { s r with s := { (s r).s with
      glob := fun g' => if g' = g then x.1 else (s r).s.glob g', coll := x.2 } }
    unfold COp.exec
    dsimp only
    rw [B.coll r hr]
    refine cast ?_ this
    congr 1
    congr 1
    funext x
    obtain ⟨x | x, m⟩ := x <;> rfl
  · simp [G, snapOf, if_neg hg']
  · simp [G, snapOf]
  · intro g' v hv
    dsimp only [G] at hv
    by_cases e : g' = g
    · subst e
      simp only [if_pos, Option.some.injEq] at hv
      subst hv
      exact g2.shaped
    · simp only [if_neg e] at hv
      exact B.shaped g' v hv
  · intro g' hg'
    by_cases e : g' = g
    · exact ⟨root, by simp [G, e]⟩
    · simp only [G, if_neg e]
      exact B.filled g' ((List.mem_cons.1 hg').resolve_left e)

theorem scatterState_cop {c : Comm} (hl : FloatSafe c.layout) (buf : Buffering) (junk : Nat → List Nat → α)
    {mem : Int → Mem α} {parts : Nat → Parts} {filled : List Nat} {n : Nat} {s : Int → SessState α}
    (B : CBetween c mem parts filled n s) {i j : Nat} {vars : List StateVar}
    (hv : (COp.scatterState i j vars).Valid c mem parts filled) :
    COpDoes buf c junk mem parts filled n (.scatterState i j vars) s := by
  obtain ⟨hn, hqs, hvars⟩ := hv
  have hex : ∀ v ∈ vars, ∃ w, (s 0).s.glob v.g = some w := fun v hv => B.filled _ (hvars v hv).1
  have hval : ∀ v ∈ vars, ∀ w, (s 0).s.glob v.g = some w →
      Dict.get? ((s 0).globDict j vars) v.name = some (.qty w) := by
    intro v hv w hw
    rw [globDict_eq, get?_dictOf hn _ _ hv, hw]
    rfl
  have hrk : ∀ r, ∀ v ∈ vars, Dict.get? ((s r).rankDict i vars) v.name = some (.qty ((s r).s.mem v.q)) := by
    intro r v hv
    rw [rankDict_eq, get?_dictOf hn _ _ hv]
    rfl
  have hkeys : ∀ x ∈ Dict.keys ((s 0).globDict j vars), x ≠ "time" → ∃ v ∈ vars, v.name = x := by
    intro x hx hne
    rw [globDict_eq] at hx
    obtain ⟨v, h1, h2, -⟩ := mem_dictOf hx hne
    exact ⟨v, h1, h2⟩
  obtain ⟨out, n', ⟨plan, s0, s1⟩, -, s2⟩ := scatterState_does buf hl (junk n)
    (fun x => (parts (varOf vars x).g).dims) (fun x => (parts (varOf vars x).g).cells)
    (fun x => ((s 0).s.glob (varOf vars x).g).getD ((s 0).s.mem 0)) ((s 0).globDict j vars)
    (by rw [globDict_eq]; exact nodup_dictOf hn _ _) ((s 0).gtime j) (by rw [globDict_eq]; exact get?_dictOf_time hn _ _)
    (by
      intro x hx hne
      obtain ⟨v, hv, rfl⟩ := hkeys x hx hne
      obtain ⟨w, hw⟩ := hex v hv
      obtain ⟨ky, kx, ha⟩ := (hvars v hv).2.axes
      rw [varOf_name hn hv, hw]
      exact ⟨hval v hv w hw, by have := ha.ylt; omega, B.shaped _ _ hw⟩)
    (fun r => some ((s r).globDict j vars)) (fun r => some ((s r).rankDict i vars)) rfl
    (by
      intro r hr st hst
      cases hst
      refine ⟨by rw [rankDict_eq]; exact nodup_dictOf hn _ _, ?_⟩
      intro x hx hne y hy
      obtain ⟨v, hv, rfl⟩ := hkeys x hx hne
      rw [hrk r v hv, Option.some.injEq] at hy
      subst hy
      rw [varOf_name hn hv]
      exact ⟨_, rfl, rankShaped_of (B.same r hr) ((hvars v hv).2.shaped r hr)⟩) n
  -- what each rank has received
  have hout : ∀ r ∈ c.ranks, ∀ v ∈ vars, ∃ p w, qtyOf (out r) v.name = some p ∧ (s 0).s.glob v.g = some w ∧
      IsPart (c) (parts v.g).dims (parts v.g).cells w p r ∧ ((s r).s.mem v.q).Refilled p := by
    intro r hr v hv
    obtain ⟨w, hw⟩ := hex v hv
    have hk : v.name ∈ Dict.keys ((s 0).globDict j vars) := (Dict.mem_keys_iff _ _).2 ⟨_, hval v hv w hw⟩
    obtain ⟨p, e, -, e1, e2, -⟩ := (s2 r hr).2.2.2 v.name hk (hn.notTime v hv)
    rw [varOf_name hn hv, hw] at e1
    exact ⟨p, w, qtyOf_some e, hw, e1, e2 _ (hrk r v hv)⟩
  have htime : ∀ r ∈ c.ranks, timeIn (out r) = (s 0).gtime j := fun r hr => timeIn_of (by
    rw [(s2 r hr).2.1, globDict_eq]
    exact get?_dictOf_time hn _ _)
  refine ⟨fun r => { s r with
      s := { (s r).s with mem := putVars (out r) vars (s r).s.mem, coll := n' }, time := putTime (s r).time i (timeIn (out r)) },
    n', plan, s0, fun r hr => ?_,
    ⟨rfl, rfl, fun r hr => ⟨?_, fun i' hi => if_neg hi, fun v hv => ?_, fun q hq => ?_⟩⟩,
    ⟨fun r hr q => ?_, fun _ _ => rfl, B.shaped, B.filled⟩, fun _ => rfl⟩
  · have := (s1 r hr).post fun x => { s r with
      s := { (s r).s with mem := putVars x.1 vars (s r).s.mem, coll := x.2 }, time := putTime (s r).time i (timeIn x.1) }
    unfold COp.exec
    dsimp only
    rw [B.coll r hr]
    refine cast ?_ this
    congr 1
    congr 1
    funext x
    obtain ⟨x | x, m⟩ := x <;> rfl
  · exact (if_pos rfl).trans (htime r hr)
  · obtain ⟨p, w, e1, e2, e3, e4⟩ := hout r hr v hv
    dsimp only [snapOf]
    rw [putVars_var _ hqs _ hv e1]
    exact ⟨w, e2, e3, e4⟩
  · exact putVars_other _ _ _ _ hq
  · refine ((B.same r hr) q).trans ?_
    dsimp only
    by_cases h : ∃ v ∈ vars, v.q = q
    · obtain ⟨v, hv, rfl⟩ := h
      obtain ⟨p, w, e1, e2, e3, e4⟩ := hout r hr v hv
      rw [putVars_var _ hqs _ hv e1]
      exact e4.sameMeta
    · rw [putVars_other _ _ _ _ fun v hv e => h ⟨v, hv, e⟩]
      exact SameMeta.refl _

/-- On a rank other than root, `gather_state` does not look at the time. -/
theorem gatherLoop_time {c : Comm} {junk : List Nat → α} {r : Int} (hr : r ≠ 0) (t t' : Option Int)
    {vars : List StateVar} {F : StateVar → Option (Quantity α)} {st : Option (CState α)} :
    gatherLoop c junk r (dictOf vars F t) st = gatherLoop c junk r (dictOf vars F t') st := by
  have key : ∀ (d : CState α) (t : Option Int) (st : Option (CState α)),
      gatherLoop c junk r (d ++ timeEntry t) st = gatherLoop c junk r d st := by
    intro d t
    induction d with
    | nil =>
      intro st
      cases t with
      | none => rfl
      | some t =>
        show gatherLoop c junk r [("time", .time t)] st = _
        unfold gatherLoop
        rw [if_pos rfl, if_neg (show ¬ r = ROOT_RANK from hr)]
        unfold gatherLoop
        rfl
    | cons x d ih =>
      intro st
      obtain ⟨name, v⟩ := x
      rw [List.cons_append]
      unfold gatherLoop
      simp only [ih]
  unfold dictOf
  rw [key, key]

theorem gatherState_cop {c : Comm} (hl : FloatSafe c.layout) (buf : Buffering) (junk : Nat → List Nat → α)
    {mem : Int → Mem α} {parts : Nat → Parts} {filled : List Nat} {n : Nat} {s : Int → SessState α}
    (B : CBetween c mem parts filled n s) {i j : Nat} {vars : List StateVar}
    (hv : (COp.gatherState i j vars).Valid c mem parts filled) :
    COpDoes buf c junk mem parts filled n (.gatherState i j vars) s := by
  obtain ⟨hn, hgs, hvars⟩ := hv
  have h0 : (0 : Int) ∈ c.ranks := (mem_ranks _ 0).2 ⟨by omega, comm_size_pos hl⟩
  have hrk : ∀ r, ∀ v ∈ vars, Dict.get? ((s r).rankDict i vars) v.name = some (.qty ((s r).s.mem v.q)) := by
    intro r v hv
    rw [rankDict_eq, get?_dictOf hn _ _ hv]
    rfl
  have hrt : ∀ r, Dict.get? ((s r).rankDict i vars) "time" = ((s r).time i).map SVal.time := fun r => by
    rw [rankDict_eq, get?_dictOf_time hn]
  have hgl : ∀ v ∈ vars, Dict.get? ((s 0).globDict j vars) v.name = ((s 0).s.glob v.g).map SVal.qty := by
    intro v hv
    rw [globDict_eq, get?_dictOf hn _ _ hv]
  have hkv : ∀ x ∈ Dict.keys ((s 0).rankDict i vars), x ≠ "time" → ∃ v ∈ vars, v.name = x := by
    intro x hx hne
    rw [rankDict_eq] at hx
    obtain ⟨v, h1, h2, -⟩ := mem_dictOf hx hne
    exact ⟨v, h1, h2⟩
  have hmk : ∀ v ∈ vars, v.name ∈ Dict.keys ((s 0).rankDict i vars) := fun v hv =>
    (Dict.mem_keys_iff _ _).2 ⟨_, hrk 0 v hv⟩
  have hax : ∀ x, ∃ ky kx, x ∈ Dict.keys ((s 0).rankDict i vars) → x ≠ "time" →
      HAxes (parts (varOf vars x).g).dims ky kx := by
    intro x
    by_cases h : x ∈ Dict.keys ((s 0).rankDict i vars) ∧ x ≠ "time"
    · obtain ⟨v, hv, rfl⟩ := hkv x h.1 h.2
      obtain ⟨ky, kx, ha⟩ := (hvars v hv).axes
      exact ⟨ky, kx, fun _ _ => by rw [varOf_name hn hv]; exact ha⟩
    · exact ⟨0, 0, fun a b => absurd ⟨a, b⟩ h⟩
  choose ky kx hax using hax
  have hsh : ∀ r ∈ c.ranks, ∀ v ∈ vars, ((s r).s.mem v.q).RankShaped (parts v.g).dims (parts v.g).cells :=
    fun r hr v hv => rankShaped_of (B.same r hr) ((hvars v hv).shaped r hr)
  obtain ⟨out, n', ⟨plan, g1, g2⟩, g3, g4, g5⟩ := gatherLoop_does buf hl (junk n)
    (fun x => (parts (varOf vars x).g).dims) (fun x => (parts (varOf vars x).g).cells) ky kx
    (fun r x => (s r).s.mem (varOf vars x).q) (fun r x => (Dict.get? (dictOf vars (fun v => some ((s r).s.mem v.q)) ((s 0).time i)) x).getD (.time 0))
    (Dict.keys ((s 0).rankDict i vars)) (by rw [rankDict_eq]; exact nodup_dictOf hn _ _)
    (by
      intro x hx hne
      refine ⟨hax x hx hne, ?_⟩
      obtain ⟨v, hv, rfl⟩ := hkv x hx hne
      rw [varOf_name hn hv]
      refine ⟨(hvars v hv).small, fun r hr => ⟨?_, hsh r hr v hv⟩⟩
      rw [get?_dictOf hn _ _ hv]
      rfl)
    ((s 0).globDict j vars)
    (by
      intro x hx hne
      obtain ⟨v, hv, rfl⟩ := hkv x hx hne
      rw [varOf_name hn hv, hgl v hv]
      refine ⟨fun y hy => ?_, fun _ => (B.same 0 h0 v.q).dims.trans ((hvars v hv).names 0 h0)⟩
      obtain ⟨w, hw, rfl⟩ := Option.map_eq_some_iff.1 hy
      exact ⟨w, rfl, B.shaped _ _ hw⟩)
    (fun r => some ((s r).globDict j vars)) n
  have s1 : ∀ r ∈ c.ranks, RealC (gatherState c (junk n) r ((s r).rankDict i vars)
      (some ((s r).globDict j vars))) n (plan r) (.ok (if r = 0 then some out else some ((s r).globDict j vars))) n' := by
    intro r hr
    have := g2 r hr
    unfold gatherState
    have e : dictOf vars (fun v => some ((s r).s.mem v.q)) ((s 0).time i) =
        (Dict.keys ((s 0).rankDict i vars)).map fun v =>
          (v, (Dict.get? (dictOf vars (fun v => some ((s r).s.mem v.q)) ((s 0).time i)) v).getD (.time 0)) := by
      have e1 : Dict.keys ((s 0).rankDict i vars) = Dict.keys (dictOf vars (fun v => some ((s r).s.mem v.q)) ((s 0).time i)) := by
        rw [rankDict_eq, keys_dictOf, keys_dictOf]
        rfl
      rw [e1]
      exact dict_eq_map _ (nodup_dictOf hn _ _)
    beta_reduce at this ⊢
    rw [← e] at this
    by_cases hr0 : r = 0
    · subst hr0
      rw [← rankDict_eq] at this
      exact this
    · rw [if_neg hr0] at this
      rw [if_neg (show ¬ r = ROOT_RANK from hr0), rankDict_eq, gatherLoop_time hr0 _ ((s 0).time i)]
      exact this
  have hout : ∀ v ∈ vars, ∃ w, qtyOf out v.name = some w ∧
      w.GlobalShaped (c) (parts v.g).dims (parts v.g).cells ∧
      GatheredFrom (c) (parts v.g).dims (parts v.g).cells (fun r => (s r).s.mem v.q) w ∧
      (∀ w0, (s 0).s.glob v.g = some w0 → w0.Refilled w) ∧
      ((s 0).s.glob v.g = none → FreshGlobal (c) w (parts v.g).dims (parts v.g).cells ((s 0).s.mem v.q).units) := by
    intro v hv
    obtain ⟨w, e, e1, e2, e3, e4⟩ := g5 v.name (hmk v hv) (hn.notTime v hv)
    rw [varOf_name hn hv] at e1 e2 e4
    rw [hgl v hv] at e3 e4
    exact ⟨w, qtyOf_some e, e1, e2, fun w0 h => e3 w0 (by rw [h]; rfl), fun h => e4 (by rw [h]; rfl)⟩
  have htime : timeIn out = ((s 0).time i).or ((s 0).gtime j) := by
    refine timeIn_of ?_
    cases ht : (s 0).time i with
    | none =>
      rw [g3 "time" (by rw [← Dict.get?_eq_none_iff, hrt, ht]; rfl), globDict_eq, get?_dictOf_time hn]
      rfl
    | some t =>
      have h := hrt 0
      rw [ht] at h
      rw [g4 ((Dict.mem_keys_iff _ _).2 ⟨_, h⟩), ← rankDict_eq, h]
      rfl
  let S' : Int → SessState α := fun r =>
    { s r with
      s := { (s r).s with
        glob := putGlobs (if r = 0 then out else (s r).globDict j vars) vars (s r).s.glob
        coll := n' }
      gtime := putTime (s r).gtime j (timeIn (if r = 0 then out else (s r).globDict j vars)) }
  have hG : ∀ v ∈ vars, ∀ w, qtyOf out v.name = some w → (S' 0).s.glob v.g = some w := by
    intro v hv w hw
    show putGlobs (if (0 : Int) = 0 then out else _) vars _ _ = _
    rw [if_pos rfl]
    exact putGlobs_var _ hgs _ hv hw
  have hG' : ∀ g, (∀ v ∈ vars, v.g ≠ g) → (S' 0).s.glob g = (s 0).s.glob g := fun g hg => putGlobs_other _ _ _ _ hg
  refine ⟨S', n', plan, g1, fun r hr => ?_, ⟨fun _ _ => ⟨rfl, rfl⟩, ?_, fun j' hj => if_neg hj, hG', fun v hv => ?_⟩,
    ⟨B.same, fun _ _ => rfl, fun g v hv => ?_, fun g hg => ?_⟩, fun _ => rfl⟩
  · have := (s1 r hr).post fun x => match x.1 with
      | none => { s r with s := { (s r).s with coll := x.2 } }
      | some d =>
        { s r with
          s := { (s r).s with glob := putGlobs d vars (s r).s.glob, coll := x.2 }
          gtime := putTime (s r).gtime j (timeIn d) }
    unfold COp.exec
    dsimp only
    rw [B.coll r hr]
    refine cast ?_ this
    congr 1
    · congr 1
      funext x
      obtain ⟨x | (x | x), m⟩ := x <;> rfl
    · by_cases h : r = 0 <;> simp [S', h]
  · refine (if_pos rfl).trans ?_
    show timeIn (if (0 : Int) = 0 then out else _) = _
    rw [if_pos rfl]
    exact htime
  · obtain ⟨w, e1, e2⟩ := hout v hv
    exact ⟨w, hG v hv w e1, e2⟩
  · by_cases h : ∃ v ∈ vars, v.g = g
    · obtain ⟨u, hu, rfl⟩ := h
      obtain ⟨w, e1, e2, -⟩ := hout u hu
      rw [hG u hu w e1, Option.some.injEq] at hv
      rw [← hv]
      exact e2
    · rw [hG' g fun v hv e => h ⟨v, hv, e⟩] at hv
      exact B.shaped g v hv
  · by_cases h : ∃ v ∈ vars, v.g = g
    · obtain ⟨u, hu, rfl⟩ := h
      obtain ⟨w, e1, -⟩ := hout u hu
      exact ⟨w, hG u hu w e1⟩
    · rw [hG' g fun v hv e => h ⟨v, hv, e⟩]
      refine B.filled g ((List.mem_append.1 hg).resolve_left fun h' => ?_)
      obtain ⟨v, hv, e⟩ := List.mem_map.1 h'
      exact h ⟨v, hv, e⟩


/-- A valid collective call. -/
theorem cop_does {c : Comm} (hl : FloatSafe c.layout) (buf : Buffering) (junk : Nat → List Nat → α)
    {mem : Int → Mem α} {parts : Nat → Parts} {filled : List Nat} {n : Nat} {s : Int → SessState α}
    (B : CBetween c mem parts filled n s) {op : COp} (hv : op.Valid c mem parts filled) :
    COpDoes buf c junk mem parts filled n op s := by
  cases op with
  | scatter q g => exact scatter_cop hl buf junk B hv
  | gather q g => exact gather_cop hl buf junk B hv
  | scatterState i j vars => exact scatterState_cop hl buf junk B hv
  | gatherState i j vars => exact gatherState_cop hl buf junk B hv

end FV3
