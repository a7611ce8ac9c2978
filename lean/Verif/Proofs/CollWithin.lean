import Verif.Proofs.TileComm

/-!
# Collectives only talk to ranks of the communicator
-/

namespace FV3
variable {α A B : Type}

/-- The program only talks to the ranks `0`, ..., `size - 1`. -/
def CollM.Within (size : Int) (c : CollM α A) : Prop := ∀ n, (c n).Within fun d => 0 ≤ d ∧ d < size

theorem CollM.Within.bind {size : Int} {c : CollM α A} {f : A → CollM α B} (hc : c.Within size)
    (hf : ∀ a, (f a).Within size) : (c >>= f).Within size := by
  intro n
  refine Proc.Within.bind (hc n) ?_
  rintro ⟨a | a, m⟩
  · trivial
  · exact hf a m

theorem CollM.within_pure {size : Int} (a : A) : (Pure.pure a : CollM α A).Within size := fun _ => trivial
theorem CollM.within_lift {size : Int} (a : Py A) : (CollM.lift a : CollM α A).Within size := fun _ => trivial
theorem CollM.within_raise {size : Int} (e : PyErr) : (CollM.raise e : CollM α A).Within size := fun _ => trivial

theorem rootSends_within (size : Int) (msg : Int → Msg α) : (rootSends size msg).Within size := by
  intro n
  unfold rootSends
  have hc : ∀ d ∈ clients size, 0 ≤ d ∧ d < size := by
    intro d hd
    have := (mem_clients size d).1 hd
    omega
  generalize clients size = cl at hc
  have h2 : ∀ cl : List Int, (∀ d ∈ cl, 0 ≤ d ∧ d < size) →
      (awaitAll (α := α) (.coll n) cl (Proc.ret ((Except.ok () : Py Unit), n + 1))).Within fun d => 0 ≤ d ∧ d < size := by
    intro cl
    induction cl with
    | nil => intro _; trivial
    | cons d cl ih =>
      intro h
      exact ⟨h d (by simp), fun _ => ih fun d' hd' => h d' (by simp [hd'])⟩
  generalize hp : (awaitAll (α := α) (.coll n) cl (Proc.ret ((Except.ok () : Py Unit), n + 1))) = p
  have hp' : p.Within fun d => 0 ≤ d ∧ d < size := hp ▸ h2 cl hc
  clear hp h2
  induction cl with
  | nil => exact hp'
  | cons d cl ih => exact ⟨hc d (by simp), fun _ => ih fun d' hd' => hc d' (by simp [hd'])⟩

theorem clientRecvs_within {size : Int} (h : 0 < size) : (clientRecvs : CollM α (Msg α)).Within size :=
  fun _ => ⟨⟨by decide, h⟩, fun _ => trivial⟩

theorem bcast_within {size : Int} (h : 0 < size) (rank : Int) (m : Msg α) : (bcast size rank m).Within size := by
  unfold bcast
  split
  · exact (rootSends_within size _).bind fun _ => CollM.within_pure _
  · exact clientRecvs_within h

theorem scatter_within {c : Comm} (h : 0 < c.size) (junk : List Nat → α) (rank : Int) (send recv : Option (Quantity α)) :
    (scatter c junk rank send recv).Within c.size := by
  unfold scatter
  split
  · cases send with
    | none => exact CollM.within_raise _
    | some sq =>
      refine (bcast_within h _ _).bind fun m => (CollM.within_lift _).bind fun md => (CollM.within_lift _).bind fun sh =>
        (CollM.within_lift _).bind fun rq => (CollM.within_lift _).bind fun blocks => ?_
      cases blocks with
      | nil => exact CollM.within_raise _
      | cons own others => exact (rootSends_within _ _).bind fun _ => CollM.within_lift _
  · exact (bcast_within h _ _).bind fun m => (CollM.within_lift _).bind fun md => (CollM.within_lift _).bind fun sh =>
      (CollM.within_lift _).bind fun rq => (clientRecvs_within h).bind fun d => (CollM.within_lift _).bind fun a =>
      CollM.within_lift _

theorem scatterRootLoop_within {c : Comm} (h : 0 < c.size) (junk : List Nat → α) (send : CState α) (names : List String) :
    ∀ st, (scatterRootLoop c junk send names st).Within c.size := by
  induction names with
  | nil => intro st; exact CollM.within_pure _
  | cons name names ih =>
    intro st
    exact (CollM.within_lift _).bind fun sq => (CollM.within_lift _).bind fun rq =>
      (scatter_within h junk _ _ _).bind fun q => ih _

theorem scatterClientLoop_within {c : Comm} (h : 0 < c.size) (junk : List Nat → α) (rank : Int) (names : List String) :
    ∀ st, (scatterClientLoop c junk rank names st).Within c.size := by
  induction names with
  | nil => intro st; exact CollM.within_pure _
  | cons name names ih =>
    intro st
    exact (CollM.within_lift _).bind fun rq => (scatter_within h junk _ _ _).bind fun q => ih _

theorem scatterState_within {c : Comm} (h : 0 < c.size) (junk : List Nat → α) (rank : Int) (send recv : Option (CState α)) :
    (scatterState c junk rank send recv).Within c.size := by
  unfold scatterState
  dsimp only
  split
  · cases send with
    | none => exact CollM.within_raise _
    | some s =>
      exact (bcast_within h _ _).bind fun m => (CollM.within_lift _).bind fun names =>
        (scatterRootLoop_within h junk _ _ _).bind fun st => (CollM.within_lift _).bind fun t =>
        (bcast_within h _ _).bind fun m => (CollM.within_lift _).bind fun t => CollM.within_pure _
  · exact (bcast_within h _ _).bind fun m => (CollM.within_lift _).bind fun names =>
      (scatterClientLoop_within h junk _ _ _).bind fun st =>
      (bcast_within h _ _).bind fun m => (CollM.within_lift _).bind fun t => CollM.within_pure _

theorem recvAll_within {R : Type} {P : Int → Prop} (tag : Tag) (cl : List Int) (hc : ∀ d ∈ cl, P d) :
    ∀ k : List (Msg α) → Proc (Msg α) R, (∀ ms, (k ms).Within P) → (recvAll tag cl k).Within P := by
  induction cl with
  | nil => exact fun k hk => hk _
  | cons d cl ih =>
    exact fun k hk => ⟨hc d (by simp), fun m => ih (fun d' hd' => hc d' (by simp [hd'])) _ fun ms => hk _⟩

theorem rootRecvs_within (size : Int) : (rootRecvs (α := α) size).Within size := by
  intro n
  refine recvAll_within _ _ (fun d hd => ?_) _ fun _ => trivial
  have := (mem_clients size d).1 hd
  omega

theorem clientSends_within {size : Int} (h : 0 < size) (m : Msg α) : (clientSends m).Within size :=
  fun _ => ⟨⟨by decide, h⟩, fun _ => ⟨⟨by decide, h⟩, fun _ => trivial⟩⟩

theorem gather_within {c : Comm} (h : 0 < c.size) (junk : List Nat → α) (rank : Int) (send : Quantity α)
    (recv : Option (Quantity α)) : (gather c junk rank send recv).Within c.size := by
  unfold gather
  split
  · exact (CollM.within_lift _).bind fun own => (rootRecvs_within _).bind fun ms => (CollM.within_lift _).bind fun bl =>
      (CollM.within_lift _).bind fun rq => (CollM.within_lift _).bind fun q => CollM.within_pure _
  · exact (CollM.within_lift _).bind fun own => (clientSends_within h _).bind fun _ => CollM.within_pure _

theorem gatherLoop_within {c : Comm} (h : 0 < c.size) (junk : List Nat → α) (rank : Int)
    (send : List (String × SVal α)) : ∀ st, (gatherLoop c junk rank send st).Within c.size := by
  induction send with
  | nil => intro st; exact CollM.within_pure _
  | cons e rest ih =>
    intro st
    unfold gatherLoop
    split
    · exact ih _
    · refine (CollM.within_lift _).bind fun q => (CollM.within_lift _).bind fun rq =>
        (gather_within h junk _ _ _).bind fun g => ?_
      cases g with
      | none => exact ih _
      | some q' => exact ih _

theorem gatherState_within {c : Comm} (h : 0 < c.size) (junk : List Nat → α) (rank : Int) (send : CState α)
    (recv : Option (CState α)) : (gatherState c junk rank send recv).Within c.size :=
  gatherLoop_within h junk rank send _

end FV3
