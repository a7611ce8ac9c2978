import Verif.Model.HeapState
import Verif.Props.HeapColl
import Verif.Proofs.CollState

/-!
# States of quantities in memory
-/

namespace FV3
namespace Heap
open Mem (World Gt4py Reachable)
variable {α A B : Type} {g : Gt4py} {c : Comm}

/-! ### Programs of one rank -/

/-- The program performs the actions and returns `a`. -/
def RealH (p : HC α A) (W : World α) (n : Nat) (acts : List (Nat × Act (Msg α))) (a : A) (W' : World α) (n' : Nat) : Prop :=
  Real (p (W, n)) (acts.map (·.2)) (.ok a, (W', n'))

theorem RealH.bind {p : HC α A} {f : A → HC α B} {W W1 W2 : World α} {n n1 n2 : Nat} {as bs : List (Nat × Act (Msg α))} {a : A} {b : B}
    (h : RealH p W n as a W1 n1) (h' : RealH (f a) W1 n1 bs b W2 n2) : RealH (p >>= f) W n (as ++ bs) b W2 n2 := by
  unfold RealH at *
  rw [List.map_append]
  exact Real.bind h h'

theorem RealH.bind_end {p : HC α A} {f : A → HC α B} {W W1 W2 : World α} {n n1 n2 : Nat} {as : List (Nat × Act (Msg α))} {a : A} {b : B}
    (h : RealH p W n as a W1 n1) (h' : RealH (f a) W1 n1 [] b W2 n2) : RealH (p >>= f) W n as b W2 n2 := by
  have := RealH.bind h h'
  rwa [List.append_nil] at this

theorem RealH.pure (a : A) (W : World α) (n : Nat) : RealH (Pure.pure a : HC α A) W n [] a W n := Real.ret _

theorem RealH.lift_bind {x : Py A} {a : A} {f : A → HC α B} {W W' : World α} {n n' : Nat} {as : List (Nat × Act (Msg α))} {b : B}
    (hx : x = .ok a) (h : RealH (f a) W n as b W' n') : RealH (HC.lift x >>= f) W n as b W' n' := by
  subst hx
  exact h

theorem RealH.coll {p : CollM α A} {n n' : Nat} {as : List (Nat × Act (Msg α))} {a : A} (h : RealC p n as (.ok a) n') (W : World α) :
    RealH (HC.coll p) W n as a W n' := by
  have := Real.bind (f := fun x : Py A × Nat => Proc.ret (M := Msg α) (x.1, (W, x.2))) h (Real.ret _)
  rw [List.append_nil] at this
  exact this

/-! ### The loops are sequences of calls -/

theorem lift_ok {x : Py A} {a : A} (hx : x = .ok a) (f : A → HC α B) : (HC.lift x >>= f) = f a := by
  subst hx
  rfl

theorem bind_assoc' {C : Type} (p : HC α A) (f : A → HC α B) (k : B → HC α C) : (p >>= f) >>= k = p >>= fun a => f a >>= k := by
  funext s
  show ((p s).bind _).bind _ = (p s).bind _
  rw [Proc.bind_bind]
  congr 1
  funext x
  obtain ⟨x | x, y⟩ := x <;> rfl

section
variable [Inhabited α]

theorem rootLoop_eq {s d : HDict} {sv : String → Nat} {rv : Int → String → Nat} {names : List String}
    (hs : ∀ v ∈ names, s.get? v = some (.qty (sv v))) (hd : ∀ v ∈ names, d.get? v = some (.qty (rv 0 v))) :
    (scatterRootLoop c s d names : HC α Unit) = execColls g c 0 (names.map fun v => .scatter (sv v) fun r => rv r v) := by
  induction names with
  | nil => rfl
  | cons v names ih =>
    have h1 : qtyOf s v = .ok (sv v) := by unfold qtyOf; rw [hs v List.mem_cons_self]; rfl
    have h2 : qtyOf d v = .ok (rv 0 v) := by unfold qtyOf; rw [hd v List.mem_cons_self]; rfl
    unfold scatterRootLoop
    rw [lift_ok h1, lift_ok h2, ih (fun v hv => hs v (List.mem_cons_of_mem _ hv)) fun v hv => hd v (List.mem_cons_of_mem _ hv)]
    rfl

theorem clientLoop_eq {d : HDict} {sv : String → Nat} {rv : Int → String → Nat} {names : List String} {r : Int} (hr : r ≠ 0)
    (hd : ∀ v ∈ names, d.get? v = some (.qty (rv r v))) :
    (scatterClientLoop c r d names : HC α Unit) = execColls g c r (names.map fun v => .scatter (sv v) fun r => rv r v) := by
  induction names with
  | nil => rfl
  | cons v names ih =>
    have h2 : qtyOf d v = .ok (rv r v) := by unfold qtyOf; rw [hd v List.mem_cons_self]; rfl
    have h3 : (scatter c r none (rv r v) : HC α Unit) = scatter c r (some (sv v)) (rv r v) := by
      unfold scatter
      rw [if_neg (show ¬ r = ROOT_RANK from hr), if_neg (show ¬ r = ROOT_RANK from hr)]
    unfold scatterClientLoop
    rw [lift_ok h2, h3, ih fun v hv => hd v (List.mem_cons_of_mem _ hv)]
    rfl

/-- The state of the root after `gather_state`: only the time is new. -/
def gatheredDict (val : String → HVal) (gv : String → Nat) : List String → HDict → HDict
  | [], st => st
  | v :: names, st => gatheredDict val gv names (st.set v (if v = "time" then val v else .qty (gv v)))

theorem gatherLoop_root {val : String → HVal} {pv : Int → String → Nat} {gv : String → Nat} {names : List String} {st : HDict}
    (hs : ∀ v ∈ names, v ≠ "time" → val v = .qty (pv 0 v)) (hd : ∀ v ∈ names, v ≠ "time" → st.get? v = some (.qty (gv v))) :
    (gatherLoop c 0 (names.map fun v => (v, val v)) (some st) : HC α (Option HDict)) =
      execColls g c 0 ((names.filter (· ≠ "time")).map fun v => .gather (fun r => pv r v) (gv v)) >>= fun _ =>
        Pure.pure (some (gatheredDict val gv names st)) := by
  induction names generalizing st with
  | nil => rfl
  | cons v names ih =>
    have hs' := fun w (hw : w ∈ names) => hs w (List.mem_cons_of_mem _ hw)
    simp only [List.map_cons]
    unfold gatherLoop gatheredDict
    by_cases ht : v = "time"
    · rw [if_pos ht, if_pos (show (0 : Int) = ROOT_RANK from rfl), Option.map_some, List.filter_cons_of_neg (by simp [ht]), if_pos ht, ih hs']
      · rw [ht]
      · intro w hw hne
        rw [Dict.get?_set_ne _ _ hne]
        exact hd w (List.mem_cons_of_mem _ hw) hne
    · have h1 : (val v).asQty = .ok (pv 0 v) := by rw [hs v List.mem_cons_self ht]; rfl
      have h2 : (if (0 : Int) = ROOT_RANK then qtyOf ((some st).getD []) v else .ok 0) = .ok (gv v) := by
        rw [if_pos (show (0 : Int) = ROOT_RANK from rfl)]
        unfold qtyOf
        rw [Option.getD_some, hd v List.mem_cons_self ht]
        rfl
      rw [if_neg ht, lift_ok h1, lift_ok h2, List.filter_cons_of_pos (by simpa using ht), if_pos (show (0 : Int) = ROOT_RANK from rfl),
        Option.map_some, if_neg ht, ih hs']
      · show _ = (HC.bind _ _ >>= _)
        exact (bind_assoc' _ _ _).symm
      · intro w hw hne
        rw [Dict.get?_set]
        split
        · next e => rw [e]
        · exact hd w (List.mem_cons_of_mem _ hw) hne

theorem gatherLoop_client {val : String → HVal} {pv : Int → String → Nat} {gv : String → Nat} {names : List String} {st : Option HDict}
    {r : Int} (hr : r ≠ 0) (hs : ∀ v ∈ names, v ≠ "time" → val v = .qty (pv r v)) :
    (gatherLoop c r (names.map fun v => (v, val v)) st : HC α (Option HDict)) =
      execColls g c r ((names.filter (· ≠ "time")).map fun v => .gather (fun r => pv r v) (gv v)) >>= fun _ => Pure.pure st := by
  have hr' : ¬ r = ROOT_RANK := hr
  induction names with
  | nil => rfl
  | cons v names ih =>
    have hs' := fun w (hw : w ∈ names) => hs w (List.mem_cons_of_mem _ hw)
    simp only [List.map_cons]
    unfold gatherLoop
    by_cases ht : v = "time"
    · rw [if_pos ht, if_neg hr', List.filter_cons_of_neg (by simp [ht]), ih hs']
    · have h1 : (val v).asQty = .ok (pv r v) := by rw [hs v List.mem_cons_self ht]; rfl
      have h2 : (if r = ROOT_RANK then qtyOf (st.getD []) v else .ok 0) = .ok 0 := if_neg hr'
      have h3 : (gather c r (pv r v) 0 : HC α Unit) = gather c r (pv r v) (gv v) := by
        unfold gather
        rw [if_neg hr', if_neg hr']
      rw [if_neg ht, lift_ok h1, lift_ok h2, List.filter_cons_of_pos (by simpa using ht), if_neg hr', h3, ih hs']
      show _ = (HC.bind _ _ >>= _)
      exact (bind_assoc' _ _ _).symm

end

theorem get?_gathered (val : String → HVal) (gv : String → Nat) (names : List String) (st : HDict)
    (hd : ∀ v ∈ names, v ≠ "time" → st.get? v = some (.qty (gv v))) (v : String) :
    (gatheredDict val gv names st).get? v = if v = "time" ∧ v ∈ names then some (val v) else st.get? v := by
  induction names generalizing st with
  | nil => simp [gatheredDict]
  | cons w names ih =>
    unfold gatheredDict
    rw [ih]
    · by_cases hv : v = "time" ∧ v ∈ names
      · rw [if_pos hv, if_pos ⟨hv.1, List.mem_cons_of_mem _ hv.2⟩]
      · rw [if_neg hv, Dict.get?_set]
        by_cases hw : v = w
        · subst hw
          rw [if_pos rfl]
          by_cases ht : v = "time"
          · rw [if_pos ht, if_pos ⟨ht, List.mem_cons_self⟩]
          · rw [if_neg ht, if_neg (fun h => ht h.1), hd v List.mem_cons_self ht]
        · rw [if_neg hw, if_neg fun h => hv ⟨h.1, (List.mem_cons.1 h.2).resolve_left hw⟩]
    · intro u hu hne
      rw [Dict.get?_set]
      split
      · next e => rw [e, if_neg (e ▸ hne)]
      · exact hd u (List.mem_cons_of_mem _ hu) hne

theorem get?_hSetTime (st : HDict) (hk : st.keys.Nodup) (t : Option Int) (v : String) :
    (hSetTime st t).get? v = if v = "time" then t.map HVal.time else st.get? v := by
  unfold hSetTime
  cases t with
  | none =>
    rw [Dict.get?_del _ (Dict.nodup_set _ _ _ hk)]
    by_cases h : v = "time"
    · simp [h]
    · simp only [h, if_false]
      rw [Dict.get?_set_ne _ _ h]
  | some t =>
    simp only [Option.map_some]
    rw [Dict.get?_set]

end Heap
end FV3
