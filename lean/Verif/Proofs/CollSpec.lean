import Verif.Proofs.TileSplit
import Verif.Proofs.DriverRun

/-!
# Collective calls use no halo tags
-/

namespace FV3
variable {α A B : Type}

/-- The program only uses the tags of collectives. -/
def CollM.OnlyColl (c : CollM α A) : Prop := ∀ n, (c n).Spec (fun t => ∃ i, t = .coll i) fun _ => True

theorem CollM.Calls.only {k : Nat} {c : CollM α A} (h : c.Calls k) : c.OnlyColl :=
  fun n => (h n).mono (fun _ ⟨i, e, _⟩ => ⟨i, e⟩) fun _ _ => trivial

theorem CollM.OnlyColl.bind {c : CollM α A} {f : A → CollM α B} (hc : c.OnlyColl) (hf : ∀ a, (f a).OnlyColl) :
    (c >>= f).OnlyColl := by
  intro n
  refine Proc.Spec.bind (hc n) ?_
  rintro ⟨a | a, m⟩ -
  · trivial
  · exact hf a m

theorem CollM.only_pure (a : A) : (Pure.pure a : CollM α A).OnlyColl := fun _ => trivial
theorem CollM.only_lift (a : Py A) : (CollM.lift a : CollM α A).OnlyColl := fun _ => trivial
theorem CollM.only_raise (e : PyErr) : (CollM.raise e : CollM α A).OnlyColl := fun _ => trivial

theorem scatterRootLoop_only (c : Comm) (junk : List Nat → α) (send : CState α) (names : List String) :
    ∀ st, (scatterRootLoop c junk send names st).OnlyColl := by
  induction names with
  | nil => intro st; exact CollM.only_pure _
  | cons name names ih =>
    intro st
    exact (CollM.only_lift _).bind fun sq => (CollM.only_lift _).bind fun rq =>
      (calls_scatter c junk _ _ _).only.bind fun q => ih _

theorem scatterClientLoop_only (c : Comm) (junk : List Nat → α) (rank : Int) (names : List String) :
    ∀ st, (scatterClientLoop c junk rank names st).OnlyColl := by
  induction names with
  | nil => intro st; exact CollM.only_pure _
  | cons name names ih =>
    intro st
    exact (CollM.only_lift _).bind fun rq => (calls_scatter c junk _ _ _).only.bind fun q => ih _

theorem scatterState_only (c : Comm) (junk : List Nat → α) (rank : Int) (send recv : Option (CState α)) :
    (scatterState c junk rank send recv).OnlyColl := by
  unfold scatterState
  dsimp only
  split
  · cases send with
    | none => exact CollM.only_raise _
    | some s =>
      exact (calls_bcast _ _ _).only.bind fun m => (CollM.only_lift _).bind fun names =>
        (scatterRootLoop_only c junk _ _ _).bind fun st => (CollM.only_lift _).bind fun t =>
        (calls_bcast _ _ _).only.bind fun m => (CollM.only_lift _).bind fun t => CollM.only_pure _
  · exact (calls_bcast _ _ _).only.bind fun m => (CollM.only_lift _).bind fun names =>
      (scatterClientLoop_only c junk _ _ _).bind fun st =>
      (calls_bcast _ _ _).only.bind fun m => (CollM.only_lift _).bind fun t => CollM.only_pure _

theorem gatherLoop_only (c : Comm) (junk : List Nat → α) (rank : Int)
    (send : List (String × SVal α)) : ∀ st, (gatherLoop c junk rank send st).OnlyColl := by
  induction send with
  | nil => intro st; exact CollM.only_pure _
  | cons e rest ih =>
    intro st
    unfold gatherLoop
    split
    · exact ih _
    · refine (CollM.only_lift _).bind fun q => (CollM.only_lift _).bind fun rq =>
        (calls_gather c junk _ _ _).only.bind fun g => ?_
      cases g with
      | none => exact ih _
      | some q' => exact ih _

theorem gatherState_only (c : Comm) (junk : List Nat → α) (rank : Int) (send : CState α)
    (recv : Option (CState α)) : (gatherState c junk rank send recv).OnlyColl :=
  gatherLoop_only c junk rank send _

theorem COp.exec_only (c : Comm) (junk : Nat → List Nat → α) (r : Int) (op : COp) (s : SessState α) :
    (op.exec c junk r s).Spec (fun t => ∃ i, t = .coll i) fun _ => True := by
  cases op with
  | scatter q g =>
    refine Proc.Spec.bind ((calls_scatter _ _ _ _ _).only _) ?_
    rintro ⟨a | a, m⟩ - <;> trivial
  | gather q g =>
    refine Proc.Spec.bind ((calls_gather _ _ _ _ _).only _) ?_
    rintro ⟨a | a, m⟩ - <;> trivial
  | scatterState i j vars =>
    refine Proc.Spec.bind (scatterState_only _ _ _ _ _ _) ?_
    rintro ⟨a | a, m⟩ - <;> trivial
  | gatherState i j vars =>
    refine Proc.Spec.bind (gatherState_only _ _ _ _ _ _) ?_
    rintro ⟨a | (_ | a), m⟩ - <;> trivial

theorem splitCall_only (size rank color key : Int) : (splitCall size rank color key : CollM α _).OnlyColl := by
  unfold splitCall
  split
  · exact (calls_rootRecvs _).only.bind fun ms => (CollM.only_lift _).bind fun ks =>
      (calls_rootSends _ _).only.bind fun _ => CollM.only_pure _
  · exact (calls_clientSends _).only.bind fun _ => calls_clientRecvs.only.bind fun m => CollM.only_lift _

theorem Proc.Spec.retag {M R : Type} {A A' : Tag → Prop} {Q : R → Prop} {p : Proc M R} (h : p.Spec A Q) {f : Tag → Tag}
    (hf : ∀ t, A t → A' (f t)) : (p.retag f).Spec A' Q := by
  induction p with
  | ret x => exact h
  | isend d t m k ih => exact ⟨hf _ h.1, fun i => ih i (h.2 i)⟩
  | recv s t k ih => exact ⟨hf _ h.1, fun i => ih i (h.2 i)⟩
  | await d t i k ih => exact ⟨hf _ h.1, fun i => ih i (h.2 i)⟩

theorem Proc.Spec.renumber {M R : Type} {A : Tag → Prop} {Q : R → Prop} {p : Proc M R} (h : p.Spec A Q) (f : Int → Int) :
    (p.renumber f).Spec A Q := by
  induction p with
  | ret x => exact h
  | isend d t m k ih => exact ⟨h.1, fun i => ih i (h.2 i)⟩
  | recv s t k ih => exact ⟨h.1, fun i => ih i (h.2 i)⟩
  | await d t i k ih => exact ⟨h.1, fun i => ih i (h.2 i)⟩

/-- The tag of a collective of the cubed sphere or of a tile. -/
def NotHalo (t : Tag) : Prop := ¬ IsHaloTag t

theorem notHalo_coll {t : Tag} (h : ∃ i, t = .coll i) : NotHalo t := by
  obtain ⟨i, rfl⟩ := h
  rintro ⟨j, e⟩
  cases e

/-- A call of the tile communicators uses no halo tags. -/
theorem tiles_notHalo [Neg α] (l : Layout) (junk tjunk : Nat → List Nat → α) (r : Int) (o : Int → Option COp)
    (s : LazyState α) : ((UOp.tiles o).execLazy l junk tjunk r s).Spec NotHalo fun _ => True := by
  simp only [UOp.execLazy]
  cases o (tileColor l r) with
  | none => trivial
  | some a =>
    refine Proc.Spec.bind (Q := fun _ => True) ?_ fun y _ => ?_
    · unfold LazyState.getTile
      cases s.tile with
      | some ks => trivial
      | none =>
        refine Proc.Spec.bind (((splitCall_only _ _ _ _) _).mono (fun t => notHalo_coll) fun _ h => h) ?_
        rintro ⟨a | a, m⟩ - <;> trivial
    · cases y with
      | error e => trivial
      | ok y =>
        refine Proc.Spec.bind (((COp.exec_only ..).retag (A' := NotHalo) ?_).renumber _) ?_
        · rintro t ⟨i, rfl⟩ ⟨j, e⟩
          cases e
        · rintro (x | x) - <;> trivial

/-- The call of the cubed-sphere communicator as a call of a session. -/
def COp.toU : COp → UOp α
  | .scatter q g => .op (.op (.scatter q g))
  | .gather q g => .op (.op (.gather q g))
  | .scatterState i j vars => .op (.scatterState i j vars)
  | .gatherState i j vars => .op (.gatherState i j vars)

/-- The effect of a collective call on the rank. -/
def LazyState.setBase (s : LazyState α) (b : SessState α) : LazyState α := { s with s := { s.s with base := b } }

theorem COp.toU_exec [Neg α] (l : Layout) (junk tjunk : Nat → List Nat → α) (r : Int) (o : COp) (s : LazyState α) :
    (o.toU : UOp α).execLazy l junk tjunk r s = (o.exec (.cube l) junk r s.s.base).bind fun x => .ret (x.map s.setBase) := by
  cases o with
  | scatter q g =>
    simp only [COp.toU, UOp.execLazy, TOp.exec, SOp.exec, COp.exec]
    rw [Proc.bind_bind, Proc.bind_bind, Proc.bind_bind]
    congr 1
    funext y
    obtain ⟨a | a, y⟩ := y <;> rfl
  | gather q g =>
    simp only [COp.toU, UOp.execLazy, TOp.exec, SOp.exec, COp.exec]
    rw [Proc.bind_bind, Proc.bind_bind, Proc.bind_bind]
    congr 1
    funext y
    obtain ⟨a | a, y⟩ := y <;> rfl
  | scatterState i j vars =>
    simp only [COp.toU, UOp.execLazy, TOp.exec, COp.exec]
    rw [Proc.bind_bind, Proc.bind_bind]
    congr 1
    funext y
    obtain ⟨a | a, y⟩ := y <;> rfl
  | gatherState i j vars =>
    simp only [COp.toU, UOp.execLazy, TOp.exec, COp.exec]
    rw [Proc.bind_bind, Proc.bind_bind]
    congr 1
    funext y
    obtain ⟨a | (_ | a), y⟩ := y <;> rfl

end FV3
