import Verif.Cases.HeapAsync
import Verif.Props.HeapLateAsync

/-!
# Cases of C83
-/

namespace FV3
namespace Heap
open Mem (World)

/-- A transpose (variable 4) of the quantity, and an assignment to a point of the array which is in the halo of both. -/
def caseLProg (r : Int) : List (Mem.Op Int) := [.transpose 1 caseXY, .setItem 0 .self [.int 0, .int 1] ⟨[], fun _ => r⟩]

/-- Two updates are outstanding at the same time; their quantities share all of their memory. -/
def caseLOps : List (HOp Int) := [.halo 1 1, .compute caseLProg, .halo 4 1, .wait 1, .wait 0]

theorem caseL_after (r : Int) (mem : Int → Int) : ∃ mem', (caseU r mem).after Mem.demo (caseLProg r) = caseT r mem' := ⟨_, rfl⟩

theorem caseLOps_fit (pre : List (HOp Int)) (o : HOp Int) (post : List (HOp Int)) (e : caseLOps = pre ++ o :: post) (op : Op Int)
    (ho : o.start = some op) (V : HWhole Int) (h : HOpsRun Mem.demo ⟨1, 1⟩ pre ⟨caseV, []⟩ V) :
    (∀ r ∈ allRanks ⟨1, 1⟩, Usable (V.world r) op.qs) ∧ UpdateReady ⟨1, 1⟩ (fun r => quantities (V.world r)) op := by
  rcases pre with _ | ⟨d0, _ | ⟨d1, _ | ⟨d2, _ | ⟨d3, _ | ⟨d4, pre⟩⟩⟩⟩⟩
  · cases e
    cases ho
    exact case_first V.world fun r hr => ⟨_, h.2 r hr⟩
  · cases e
    cases ho
  · cases e
    cases ho
    obtain ⟨V1, a1, V2, a2, a3⟩ := h
    refine (case_later V.world fun r hr => ?_).1
    obtain ⟨mem', e'⟩ := caseL_after r (caseV r).mem
    refine ⟨mem', ?_⟩
    rw [a3.2 r hr, a2.2 r hr, a1.2 r hr]
    exact e'
  · cases e
    cases ho
  · cases e
    cases ho
  · cases pre <;> cases e

theorem caseLOps_started : HWaitsStarted caseLOps := by
  intro pre i post e
  rcases pre with _ | ⟨d0, _ | ⟨d1, _ | ⟨d2, _ | ⟨d3, _ | ⟨d4, pre⟩⟩⟩⟩⟩
  · cases e
  · cases e
  · cases e
  · cases e
    decide
  · cases e
    decide
  · cases pre <;> cases e

theorem caseLOps_once : HWaitsOnce caseLOps := by
  intro pre i mid post e
  rcases pre with _ | ⟨d0, _ | ⟨d1, _ | ⟨d2, _ | ⟨d3, _ | ⟨d4, pre⟩⟩⟩⟩⟩
  · cases e
  · cases e
  · cases e
  · rcases mid with _ | ⟨_, mid⟩
    · cases e
    · cases mid <;> cases e
  · cases mid <;> cases e
  · cases pre <;> cases e

theorem caseQ_compute {q : Quantity Int} (ho : q.origin = [1, 1]) (he : q.extent = [2, 2]) (hd : q.dims.length = 2) (idx : List Nat) :
    q.InCompute idx ↔ ∃ u v, idx = [u, v] ∧ 1 ≤ u ∧ u < 3 ∧ 1 ≤ v ∧ v < 3 := by
  unfold Quantity.InCompute Quantity.InDom Quantity.ndim Quantity.o Quantity.e
  rw [ho, he, hd]
  constructor
  · rintro ⟨h1, h2⟩
    obtain _ | ⟨u, _ | ⟨v, _ | ⟨_, _⟩⟩⟩ := idx
    · cases h1
    · cases h1
    · have a := h2 0 (by decide)
      have b := h2 1 (by decide)
      simp [at'] at a b
      exact ⟨u, v, rfl, by omega, by omega, by omega, by omega⟩
    · simp at h1
  · rintro ⟨u, v, rfl, h1, h2, h3, h4⟩
    refine ⟨rfl, fun k hk => ?_⟩
    obtain _ | _ | k := k
    · simp [at']; omega
    · simp [at']; omega
    · omega

/-- The quantity and its transpose have the same compute domain in memory. -/
theorem caseL_free (r : Int) (mem : Int → Int) : DomainsFree (caseT r mem) (.halo 1 1) (.halo 4 1) := by
  intro q hq h hh idx idx' ad c1 c2 hin
  rw [List.mem_singleton.1 hq] at c1 hin
  rw [List.mem_singleton.1 hh] at c2 ⊢
  obtain ⟨x, hx, i1, e1⟩ := c1
  obtain ⟨y, hy, i2, e2⟩ := c2
  rw [caseT_data1] at hx
  rw [caseT_data] at hy
  cases hx
  cases hy
  rw [quantities_eq (caseT_data1 r mem)] at hin
  rw [quantities_eq (caseT_data r mem)]
  obtain ⟨u, v, rfl, h1, h2, h3, h4⟩ := (caseQ_compute rfl rfl rfl _).1 hin
  refine (caseQ_compute rfl rfl rfl _).2 ?_
  obtain _ | ⟨s, _ | ⟨t, _ | ⟨_, _⟩⟩⟩ := idx'
  · cases i2
  · cases i2.2
  · have j1 : s < 5 := i2.1
    have j2 : t < 4 := i2.2.1
    change (0 : Int) + (5 * (u : Int) + (1 * (v : Int) + 0)) = ad at e1
    change (0 : Int) + (1 * (s : Int) + (5 * (t : Int) + 0)) = ad at e2
    exact ⟨s, t, rfl, by omega, by omega, by omega, by omega⟩
  · cases i2.2.2

/-- The assignment leaves the compute domain alone. -/
theorem caseL_compute (r : Int) (mem : Int → Int) (idx : List Nat) (hc : (quantities (caseU r mem) 1).InCompute idx) :
    (quantities ((caseU r mem).after Mem.demo (caseLProg r)) 1).data.get idx = (quantities (caseU r mem) 1).data.get idx := by
  rw [quantities_eq (caseU_data r mem)] at hc
  obtain ⟨u, v, rfl, h1, h2, h3, h4⟩ := (caseQ_compute rfl rfl rfl _).1 hc
  have e : ((caseU r mem).after Mem.demo (caseLProg r)) = caseT r (Strided.View.assign mem ⟨1, [], []⟩ ⟨[], fun _ => r⟩) := rfl
  have hb : InB [4, 5] [u, v] := ⟨by omega, by omega, trivial⟩
  rw [e, cell_value ⟨_, caseT_data1 r _, hb, rfl⟩, cell_value ⟨_, caseU_data r mem, hb, rfl⟩]
  refine Strided.assign_other _ _ ?_
  rintro ⟨rel, i1, i2⟩
  obtain _ | ⟨_, _⟩ := rel
  · change (1 : Int) + 0 = (0 : Int) + (5 * (u : Int) + (1 * (v : Int) + 0)) at i2
    omega
  · cases i1

theorem caseLOps_leaves : LeavesDomains Mem.demo ⟨1, 1⟩ caseV caseLOps := by
  refine ⟨fun op hop => ?_, fun pre i post e k a b hki ho hb V hV r hr => ?_, fun pre os post e k a ho V hV r hr W1 hs q hq idx hc => ?_⟩
  · have : caseLOps.filterMap HOp.start = [.halo 1 1, .halo 4 1] := rfl
    rw [this] at hop
    simp only [List.mem_cons, List.not_mem_nil, or_false] at hop
    rcases hop with rfl | rfl <;> rfl
  · rcases pre with _ | ⟨d0, _ | ⟨d1, _ | ⟨d2, _ | ⟨d3, _ | ⟨d4, pre⟩⟩⟩⟩⟩
    · cases e
    · cases e
    · cases e
    · cases e
      cases hb
      obtain _ | _ | k := k
      · cases ho.1
        obtain ⟨V1, a1, V2, a2, V3, a3, a4⟩ := hV
        obtain ⟨mem', e'⟩ := caseL_after r (caseV r).mem
        have : V.world r = caseT r mem' := by
          rw [a4.2 r hr, a3.2 r hr, a2.2 r hr, a1.2 r hr]
          exact e'
        rw [this]
        exact caseL_free r mem'
      · exact absurd rfl hki
      · cases ho.1
    · cases e
      obtain _ | _ | k := k
      · exact absurd rfl hki
      · exact absurd (by simp) ho.2
      · cases ho.1
    · cases pre <;> cases e
  · rcases pre with _ | ⟨d0, _ | ⟨d1, _ | ⟨d2, _ | ⟨d3, _ | ⟨d4, pre⟩⟩⟩⟩⟩
    · cases e
    · cases e
      obtain _ | k := k
      · cases ho.1
        rw [List.mem_singleton.1 hq] at hc ⊢
        obtain ⟨V1, a1, a2⟩ := hV
        have hV : V.world r = caseV r := (a2.2 r hr).trans (a1.2 r hr)
        have : W1 = caseU r W1.mem := by
          obtain ⟨h1, h2, h3⟩ := hs
          rw [hV] at h1 h2 h3
          cases W1
          simp only at h1 h2 h3
          subst h1 h2 h3
          rfl
        rw [this] at hc ⊢
        exact caseL_compute r W1.mem idx hc
      · cases ho.1
    · cases e
    · cases e
    · cases e
    · cases pre <;> cases e

/-- Whenever the elements are read, the session ends as if one operation had been performed after the other. -/
example (buf : Buffering) : ∃ (fin : Int → HState Int) (started : List (Op Int × (Int → World Int))),
    HOpsRun Mem.demo ⟨1, 1⟩ caseLOps ⟨caseV, []⟩ ⟨fun r => (fin r).world, started⟩ ∧
    (Lazy.opNet Mem.demo ⟨1, 1⟩ caseLOps caseV).Ends buf (fun r => (.ok (), ⟨(fin r).lastTag, (fin r).reqs⟩)) fun r => (fin r).world :=
  C83_session (by decide) rfl (fun r _ => caseV_reach r) caseLOps_started caseLOps_once caseLOps_fit
    (C83_domains (by decide) rfl (fun r _ => caseV_reach r) caseLOps_fit caseLOps_leaves) buf

/-- The halo of the quantity at the end. -/
example (buf : Buffering) : ∃ (fin : Int → HState Int) (atStart beforeWait : HWhole Int),
    ((Lazy.opNet Mem.demo ⟨1, 1⟩ caseLOps caseV).Ends buf (fun r => (.ok (), ⟨(fin r).lastTag, (fin r).reqs⟩)) fun r => (fin r).world) ∧
    HOpsRun Mem.demo ⟨1, 1⟩ [] ⟨caseV, []⟩ atStart ∧
    HaloFilled ⟨1, 1⟩ 1 0 1 2 1 (fun r => quantities (atStart.world r)) (fun r => quantities (fin r).world) ∧
    ∀ r ∈ allRanks ⟨1, 1⟩, OnlyCells (HaloCells ⟨1, 1⟩ beforeWait.world 1 0 1 2 1 r) (beforeWait.world r) (fin r).world := by
  obtain ⟨fin, w0, w1, h1, h2, -, h3⟩ := C83_halo (g := Mem.demo) (l := ⟨1, 1⟩) (W := caseV) (by decide) rfl
    (fun r _ => caseV_reach r) [] [.compute caseLProg, .halo 4 1, .wait 1] (h := 1) (ky := 0) (kx := 1) (n := 2) (w := 1)
    (by decide) (by decide) (fun V hV => (caseU_field fun r => (caseV r).mem).same fun r hr q => by
      rw [hV.2 r hr]
      exact SameMeta.refl _)
    caseLOps_started caseLOps_once caseLOps_fit (C83_domains (by decide) rfl (fun r _ => caseV_reach r) caseLOps_fit caseLOps_leaves) buf
  exact ⟨fin, w0, w1, h1, h2, h3⟩

end Heap
end FV3
