import Verif.Proofs.StateSession
import Verif.Props.Session

/-!
# C64: sessions with states
-/

namespace FV3
variable {α : Type} [Neg α]

/-- **C64**: any sequence of calls of one cubed-sphere communicator, the same on all ranks, now with `scatter_state` and
`gather_state` among them, ends on all ranks, whatever the schedule and the buffering of MPI, and has the effect of
performing the calls one after the other on all ranks. -/
theorem C64_states {l : Layout} (hl : FloatSafe l) (hsq : l.y = l.x) (buf : Buffering) (junk : Nat → List Nat → α)
    (mem : Int → Mem α) (glob : Int → Nat → Option (Quantity α)) (time gtime : Int → Nat → Option Int)
    (parts : Nat → Parts) (filled : List Nat)
    (hglob : ∀ g v, glob 0 g = some v → v.GlobalShaped (.cube l) (parts g).dims (parts g).cells)
    (hfilled : ∀ g ∈ filled, ∃ v, glob 0 g = some v)
    (ops : List (TOp α)) (hops : StatesValid l mem parts filled ops) :
    ∃ fin : Int → SessState α,
      (statesNet l junk ops mem glob time gtime).Completes buf (fun r =>
        if r ∈ allRanks l then some (.ok (fin r)) else none) ∧
      StatesRun l parts ops ⟨mem, glob 0, time, gtime 0⟩
        ⟨fun r => (fin r).s.mem, (fin 0).s.glob, fun r => (fin r).time, (fin 0).gtime⟩ ∧
      ∀ r ∈ allRanks l, MetaIs mem r (fin r).s.mem :=
  states_from (k := 0) (n := 0) (s := fun r => ⟨⟨mem r, glob r, 0, 0⟩, time r, gtime r⟩) hl hsq buf junk
    ⟨fun _ _ _ => SameMeta.refl _, fun _ _ => rfl, fun _ _ => rfl, hglob, hfilled⟩ hops
    ⟨fun _ _ _ _ => rfl, fun _ _ _ _ => rfl⟩

theorem statesRun_append {l : Layout} {parts : Nat → Parts} {a b : List (TOp α)} {S S' : Snap α}
    (h : StatesRun l parts (a ++ b) S S') : ∃ S1, StatesRun l parts a S S1 ∧ StatesRun l parts b S1 S' := by
  induction a generalizing S with
  | nil => exact ⟨S, ⟨fun _ _ => ⟨rfl, rfl⟩, rfl, rfl⟩, h⟩
  | cons op a ih =>
    obtain ⟨S1, h1, h2⟩ := h
    obtain ⟨S2, h3, h4⟩ := ih h2
    exact ⟨S2, ⟨S1, h1, h3⟩, h4⟩

/-- Global quantity `g` is not changed by calls that do not gather into it. -/
theorem statesRun_glob {l : Layout} {parts : Nat → Parts} {ops : List (TOp α)} {S S' : Snap α}
    (h : StatesRun l parts ops S S') {g : Nat} (hno : ∀ q, TOp.op (.gather q g) ∉ ops)
    (hno' : ∀ i j vars, TOp.gatherState i j vars ∈ ops → ∀ v ∈ vars, v.g ≠ g) : S'.glob g = S.glob g := by
  induction ops generalizing S with
  | nil => rw [h.2.1]
  | cons op ops ih =>
    obtain ⟨S1, h1, h2⟩ := h
    rw [ih h2 (fun q hq => hno q (List.mem_cons_of_mem _ hq)) fun i j vars hq => hno' i j vars (List.mem_cons_of_mem _ hq)]
    cases op with
    | op o =>
      have h1 := h1.1
      cases o with
      | call c => rw [h1.2]
      | scatter q' g' => rw [h1.1]
      | gather q' g' =>
        refine h1.2.1 g ?_
        rintro rfl
        exact hno q' (List.mem_cons_self ..)
    | scatterState i j vars => rw [h1.1]
    | gatherState i j vars => exact h1.2.2.2.1 g (hno' i j vars (List.mem_cons_self ..))

/-- The time of global state `j` is not changed by calls that do not gather into that state. -/
theorem statesRun_gtime {l : Layout} {parts : Nat → Parts} {ops : List (TOp α)} {S S' : Snap α}
    (h : StatesRun l parts ops S S') {j : Nat} (hno : ∀ i vars, TOp.gatherState i j vars ∉ ops) :
    S'.gtime j = S.gtime j := by
  induction ops generalizing S with
  | nil => rw [h.2.2]
  | cons op ops ih =>
    obtain ⟨S1, h1, h2⟩ := h
    rw [ih h2 fun i vars hq => hno i vars (List.mem_cons_of_mem _ hq)]
    cases op with
    | op o => rw [h1.2.2]
    | scatterState i' j' vars => rw [h1.2.1]
    | gatherState i' j' vars =>
      refine h1.2.2.1 j ?_
      rintro rfl
      exact hno i' vars (List.mem_cons_self ..)

/-- A part of what was gathered is what the rank had. -/
theorem part_of_gathered {c : Comm} (hl : FloatSafe c.layout) {p : Parts} {send : Int → Quantity α} {w part : Quantity α}
    (hsh : ∀ r ∈ c.ranks, (send r).RankShaped p.dims p.cells)
    (hw : w.GlobalShaped c p.dims p.cells) (hg : GatheredFrom c p.dims p.cells send w)
    {r : Int} (hr : r ∈ c.ranks) (hp : IsPart c p.dims p.cells w part r) (he : part.extent = (send r).extent)
    (hagree : ∀ r ∈ c.ranks, ∀ r' ∈ c.ranks, ∀ rel rel', InB (send r).computeArr.shape rel →
      InB (send r').computeArr.shape rel' →
      c.place p.dims p.cells r rel = c.place p.dims p.cells r' rel' →
      (send r).computeArr.get rel = (send r').computeArr.get rel') :
    part.computeArr.Eqv (send r).computeArr := by
  have hshape : ∀ r ∈ c.ranks, (send r).computeArr.shape = rankShape p.dims p.cells :=
    fun r hr => rankOf_shape (hsh r hr).extent
  have h0 : (0 : Int) ∈ c.ranks := (mem_ranks _ 0).2 ⟨by omega, comm_size_pos hl⟩
  have hsf : part.computeArr.shape = (send r).computeArr.shape := by
    show part.extent.map _ = (send r).extent.map _
    rw [he]
  refine ⟨hsf, fun rel hrel => ?_⟩
  have hrel' : InB (send r).computeArr.shape rel := by rw [← hsf]; exact hrel
  have hr' := (mem_ranks _ r).1 hr
  rw [hp rel hrel]
  obtain ⟨r2, rel2, hH, hpl, hval⟩ := hg _ (place_inB hl hw.extent hr'.1 hr'.2
    (by rw [← hshape r hr]; exact hrel'))
  rw [hval]
  have hrel2 : InB (send r2).computeArr.shape rel2 := by
    rw [hshape r2 hH.1, ← hshape 0 h0]
    exact hH.2.1
  exact hagree r2 hH.1 r hr rel2 rel hrel2 hrel' hpl

/-- **C64**: a checkpoint of a state: gathering a state and scattering it later, after any other calls (that do not
gather into the same global quantities or the same global state), gives every rank the values of the compute domains of
all variables back, and root's time. -/
theorem C64_checkpoint {l : Layout} (hl : FloatSafe l) (hsq : l.y = l.x) (buf : Buffering) (junk : Nat → List Nat → α)
    (mem : Int → Mem α) (glob : Int → Nat → Option (Quantity α)) (time gtime : Int → Nat → Option Int)
    (parts : Nat → Parts) (filled : List Nat)
    (hglob : ∀ g v, glob 0 g = some v → v.GlobalShaped (.cube l) (parts g).dims (parts g).cells)
    (hfilled : ∀ g ∈ filled, ∃ v, glob 0 g = some v)
    (i j : Nat) (vars : List StateVar) (ops : List (TOp α))
    (hops : StatesValid l mem parts filled (.gatherState i j vars :: ops ++ [.scatterState i j vars]))
    (hno : ∀ v ∈ vars, ∀ q, TOp.op (.gather q v.g) ∉ ops)
    (hno' : ∀ i' j' vars', TOp.gatherState i' j' vars' ∈ ops → j' ≠ j ∧ ∀ v ∈ vars, ∀ v' ∈ vars', v'.g ≠ v.g)
    (hagree : ∀ v ∈ vars, SharedAgree l (parts v.g) mem v.q) :
    ∃ fin : Int → SessState α,
      (statesNet l junk (.gatherState i j vars :: ops ++ [.scatterState i j vars]) mem glob time gtime).Completes buf
        (fun r => if r ∈ allRanks l then some (.ok (fin r)) else none) ∧
      ∀ r ∈ allRanks l, (fin r).time i = (time 0 i).or (gtime 0 j) ∧
        ∀ v ∈ vars, ((fin r).s.mem v.q).computeArr.Eqv (mem r v.q).computeArr := by
  obtain ⟨fin, h1, h2, h3⟩ := C64_states hl hsq buf junk mem glob time gtime parts filled hglob hfilled _ hops
  refine ⟨fin, h1, fun r hr => ?_⟩
  have hp : ∀ v ∈ vars, HasParts l mem v.q (parts v.g) := hops.1.2.2
  obtain ⟨S1, ⟨-, g1, -, -, g2⟩, h4⟩ := h2
  obtain ⟨S2, h5, S3, ⟨s1, s2, s3⟩, s4, -⟩ := statesRun_append h4
  have hG := fun v (hv : v ∈ vars) => statesRun_glob h5 (hno v hv) fun i' j' vars' h => (hno' i' j' vars' h).2 v hv
  have hT := statesRun_gtime (j := j) h5 fun i' vars' h => (hno' i' j vars' h).1 rfl
  obtain ⟨t1, -, t2, -⟩ := s3 r hr
  obtain ⟨u1, u2⟩ := s4 r hr
  refine ⟨?_, fun v hv => ?_⟩
  · have : (fin r).time i = S3.time r i := congrFun u2 i
    rw [this, t1, hT, g1]
  · obtain ⟨w, w1, w2, w3, -⟩ := g2 v hv
    obtain ⟨w', x1, x2, -⟩ := t2 v hv
    have e : w = w' := by
      have := hG v hv
      rw [x1, w1] at this
      exact (Option.some.inj this).symm
    subst e
    have hfin : (fin r).s.mem v.q = S3.mem r v.q := congrFun u1 v.q
    rw [hfin]
    exact part_of_gathered (c := .cube l) hl (send := fun r => mem r v.q)
      (fun r hr => (hp v hv).shaped r ((cube_ranks l r).1 hr)) w2 w3 ((cube_ranks l r).2 hr) x2
      (by rw [← hfin]; exact (h3 r hr v.q).extent)
      (fun r hr r' hr' => hagree v hv r ((cube_ranks l r).1 hr) r' ((cube_ranks l r').1 hr'))

/-- **C64**: `C64_checkpoint` for states without interface dimensions: any values of the ranks. -/
theorem C64_checkpoint_cells {l : Layout} (hl : FloatSafe l) (hsq : l.y = l.x) (buf : Buffering)
    (junk : Nat → List Nat → α)
    (mem : Int → Mem α) (glob : Int → Nat → Option (Quantity α)) (time gtime : Int → Nat → Option Int)
    (parts : Nat → Parts) (filled : List Nat)
    (hglob : ∀ g v, glob 0 g = some v → v.GlobalShaped (.cube l) (parts g).dims (parts g).cells)
    (hfilled : ∀ g ∈ filled, ∃ v, glob 0 g = some v)
    (i j : Nat) (vars : List StateVar) (ops : List (TOp α))
    (hops : StatesValid l mem parts filled (.gatherState i j vars :: ops ++ [.scatterState i j vars]))
    (hno : ∀ v ∈ vars, ∀ q, TOp.op (.gather q v.g) ∉ ops)
    (hno' : ∀ i' j' vars', TOp.gatherState i' j' vars' ∈ ops → j' ≠ j ∧ ∀ v ∈ vars, ∀ v' ∈ vars', v'.g ≠ v.g)
    (hcells : ∀ v ∈ vars, ∀ d ∈ (parts v.g).dims, d ≠ .xI ∧ d ≠ .yI ∧ d ≠ .zI) :
    ∃ fin : Int → SessState α,
      (statesNet l junk (.gatherState i j vars :: ops ++ [.scatterState i j vars]) mem glob time gtime).Completes buf
        (fun r => if r ∈ allRanks l then some (.ok (fin r)) else none) ∧
      ∀ r ∈ allRanks l, (fin r).time i = (time 0 i).or (gtime 0 j) ∧
        ∀ v ∈ vars, ((fin r).s.mem v.q).computeArr.Eqv (mem r v.q).computeArr := by
  refine C64_checkpoint hl hsq buf junk mem glob time gtime parts filled hglob hfilled i j vars ops hops hno hno' ?_
  intro v hv
  have hp : HasParts l mem v.q (parts v.g) := hops.1.2.2 v hv
  obtain ⟨ky, kx, ha⟩ := hp.axes
  intro r hr r' hr' rel rel' h h' he
  obtain ⟨rfl, rfl⟩ := place_injective hl ha (hcells v hv) hr hr'
    (by rw [← rankOf_shape (hp.shaped r hr).extent]; exact h)
    (by rw [← rankOf_shape (hp.shaped r' hr').extent]; exact h') he
  rfl

/-! ### A concrete case -/

/-- Two variables. -/
def exVars : List StateVar := [⟨"pressure", 0, 3⟩, ⟨"height", 2, 4⟩]

theorem exVars_good : GoodNames exVars := ⟨by decide, by decide⟩

/-- A checkpoint on 24 ranks, with any values, times and global quantities to receive in: gather the state, change the
quantities, update the halos of one, gather another state (with the same names, other global quantities) and a quantity,
and scatter the first state.  All ranks have the variables and root's time again. -/
example (buf : Buffering) (z : α) (F : Int → Nat → List Nat → α) (t : Int → Int) :
    ∃ fin : Int → SessState α,
      (statesNet ⟨2, 2⟩ (fun _ _ => z)
        [.gatherState 0 0 exVars, .op (.call (.compute exNext)), .op (.call (.haloUpdate 0 1)),
          .gatherState 1 1 [⟨"pressure", 0, 5⟩, ⟨"height", 0, 6⟩], .op (.gather 1 7), .scatterState 0 0 exVars]
        (exAnyMem z F) (fun _ _ => none) (fun r i => if i = 0 then some (t r) else none) (fun _ _ => some 9)).Completes buf
        (fun r => if r ∈ allRanks ⟨2, 2⟩ then some (.ok (fin r)) else none) ∧
      ∀ r ∈ allRanks ⟨2, 2⟩, (fin r).time 0 = some (t 0) ∧
        ((fin r).s.mem 0).computeArr.Eqv (exAnyMem z F r 0).computeArr ∧
        ((fin r).s.mem 2).computeArr.Eqv (exAnyMem z F r 2).computeArr := by
  have s2 : FloatSafe ⟨2, 2⟩ := C05_safe_up_to_48 _ (by decide) (by decide) (by decide) (by decide)
  have hp := exAny_parts z F
  have hv : StatesValid ⟨2, 2⟩ (exAnyMem z F) exParts [] [.gatherState 0 0 exVars, .op (.call (.compute exNext)),
      .op (.call (.haloUpdate 0 1)), .gatherState 1 1 [⟨"pressure", 0, 5⟩, ⟨"height", 0, 6⟩], .op (.gather 1 7),
      .scatterState 0 0 exVars] := by
    refine ⟨⟨exVars_good, by decide, fun v _ => hp _ _⟩, ?_, ?_, ⟨⟨by decide, by decide⟩, by decide, fun v _ => hp _ _⟩,
      hp _ _, ⟨exVars_good, by decide, fun v hv => ⟨?_, hp _ _⟩⟩, trivial⟩
    · exact fun r _ mem hm q' => ⟨(hm q').shape, (hm q').dims, (hm q').units, (hm q').origin, (hm q').extent⟩
    · intro op ho
      cases ho
      have R := (exSession_run z (fun _ _ => z) 0).field
      refine ⟨0, 1, 3, by decide, by decide, fun r hr => ?_, R.2, R.3, R.4⟩
      have h := R.1 r hr
      exact ⟨⟨⟨rfl, rfl, rfl⟩, h.wf.2⟩, h.2, h.3, h.4, h.5, h.6⟩
    · simp only [exVars, List.mem_cons, List.not_mem_nil, or_false] at hv
      rcases hv with rfl | rfl <;> simp [exVars]
  obtain ⟨fin, h1, h2⟩ := C64_checkpoint_cells s2 rfl buf (fun _ _ => z) (exAnyMem z F) (fun _ _ => none)
    (fun r i => if i = 0 then some (t r) else none) (fun _ _ => some 9) exParts [] (fun _ _ h => by cases h)
    (fun g hg => by cases hg) 0 0 exVars
    [.op (.call (.compute exNext)), .op (.call (.haloUpdate 0 1)),
      .gatherState 1 1 [⟨"pressure", 0, 5⟩, ⟨"height", 0, 6⟩], .op (.gather 1 7)] hv
    (by
      intro v hv q h
      simp only [exVars, List.mem_cons, List.not_mem_nil, or_false] at hv
      rcases hv with rfl | rfl <;> simp at h)
    (by
      intro i' j' vars' h
      simp only [List.mem_cons, reduceCtorEq, TOp.gatherState.injEq, List.not_mem_nil, or_false, false_or] at h
      obtain ⟨rfl, rfl, rfl⟩ := h
      exact ⟨by decide, by decide⟩) (by decide)
  refine ⟨fin, h1, fun r hr => ?_⟩
  obtain ⟨h3, h4⟩ := h2 r hr
  exact ⟨h3, h4 ⟨"pressure", 0, 3⟩ (by simp [exVars]), h4 ⟨"height", 2, 4⟩ (by simp [exVars])⟩

end FV3
