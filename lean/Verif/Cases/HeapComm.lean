import Verif.Props.HeapComm

/-!
# Cases of C80
-/

namespace FV3
namespace Heap
open Mem (World Gt4py Reachable)

/-- One rank per tile with 2 x 2 cells and one halo point. 0: an array; 1: a quantity of it; 2: a row of the array; 3: another
array. -/
def caseOps (r : Int) : List (Mem.Op Int) :=
  [.array ⟨[4, 5], fun i => 100 * r + 10 * i.getD 0 0 + i.getD 1 0⟩ false,
   .quantity 0 [.y, .x] "K" (some [1, 1]) (some [2, 2]) none,
   .getItem 0 .self [.int 0],
   .array ⟨[3], fun _ => 7⟩ false]

def caseV (r : Int) : World Int := (World.init fun _ => 0).after Mem.demo (caseOps r)

/-- The same with other contents of memory. -/
def caseU (r : Int) (mem : Int → Int) : World Int := { caseV r with mem := mem }

/-- The quantity, with any contents. -/
def caseQ (x : NDArray Int) : Quantity Int := ⟨x, [.y, .x], "K", [1, 1], [2, 2]⟩

/-- A transpose of it. -/
def caseQt (x : NDArray Int) : Quantity Int := ⟨x, [.x, .y], "K", [1, 1], [2, 2]⟩

theorem caseU_data (r : Int) (mem : Int → Int) :
    dataOf (caseU r mem) 1 = .ok (0, ⟨⟨0, [4, 5], [5, 1]⟩, false, true⟩, ⟨[.y, .x], "K", [1, 1], [2, 2], none⟩) := rfl

theorem caseV_reach (r : Int) : Reachable Mem.demo (caseV r) := ⟨_, _, rfl⟩

theorem case_ready (q : Quantity Int) (hs : q.data.shape = [4, 5]) (hd : q.dims = [.y, .x]) (ho : q.origin = [1, 1]) (he : q.extent = [2, 2]) :
    HaloReady q 0 1 2 1 := by
  obtain ⟨⟨s, f⟩, d, u, o, e⟩ := q
  simp only at hs hd ho he
  subst hs hd ho he
  refine ⟨⟨⟨rfl, rfl, rfl⟩, ?_⟩, ⟨?_, ?_, Nat.lt_of_sub_eq_succ rfl, Nat.lt_of_sub_eq_succ rfl⟩, rfl, rfl, ?_, ?_⟩
  · show ∀ k, k < 2 → 0 ≤ ([1, 1] : List Int).getD k 0 ∧ 0 ≤ ([2, 2] : List Int).getD k 0 ∧
      ([1, 1] : List Int).getD k 0 + ([2, 2] : List Int).getD k 0 ≤ (([4, 5] : List Nat).getD k 0 : Nat)
    decide
  · rintro (_ | _ | k) d h <;> simp at h <;> subst h <;> decide
  · rintro (_ | _ | k) d h <;> simp at h <;> subst h <;> decide
  · show (1 : Int) ≤ 1 ∧ (1 : Int) + 2 + 1 ≤ 4
    decide
  · show (1 : Int) ≤ 1 ∧ (1 : Int) + 2 + 1 ≤ 5
    decide

theorem case_readyT (q : Quantity Int) (hs : q.data.shape = [5, 4]) (hd : q.dims = [.x, .y]) (ho : q.origin = [1, 1]) (he : q.extent = [2, 2]) :
    HaloReady q 1 0 2 1 := by
  obtain ⟨⟨s, f⟩, d, u, o, e⟩ := q
  simp only at hs hd ho he
  subst hs hd ho he
  refine ⟨⟨⟨rfl, rfl, rfl⟩, ?_⟩, ⟨?_, ?_, Nat.lt_of_sub_eq_succ rfl, Nat.lt_of_sub_eq_succ rfl⟩, rfl, rfl, ?_, ?_⟩
  · show ∀ k, k < 2 → 0 ≤ ([1, 1] : List Int).getD k 0 ∧ 0 ≤ ([2, 2] : List Int).getD k 0 ∧
      ([1, 1] : List Int).getD k 0 + ([2, 2] : List Int).getD k 0 ≤ (([5, 4] : List Nat).getD k 0 : Nat)
    decide
  · rintro (_ | _ | k) d h <;> simp at h <;> subst h <;> decide
  · rintro (_ | _ | k) d h <;> simp at h <;> subst h <;> decide
  · show (1 : Int) ≤ 1 ∧ (1 : Int) + 2 + 1 ≤ 4
    decide
  · show (1 : Int) ≤ 1 ∧ (1 : Int) + 2 + 1 ≤ 5
    decide

theorem caseU_field (mem : Int → Int → Int) : ScalarField ⟨1, 1⟩ (fun r => quantities (caseU r (mem r))) 1 0 1 2 1 := by
  refine ⟨fun r _ => ?_, fun r _ r' _ => rfl, fun r _ r' _ k _ _ _ => rfl, fun r _ => rfl⟩
  exact case_ready _ rfl rfl rfl rfl

theorem caseU_usable (r : Int) (mem : Int → Int) : Usable (caseU r mem) [1] := by
  refine ⟨fun h hh => ?_, fun h hh => ?_, fun h hh h' hh' hne => absurd ((List.mem_singleton.1 hh).trans (List.mem_singleton.1 hh').symm) hne⟩
  · rw [List.mem_singleton.1 hh]
    exact ⟨⟨[.y, .x], "K", [1, 1], [2, 2], none⟩, rfl, by decide⟩
  · rw [List.mem_singleton.1 hh]
    rfl

/-- A halo update. The row of the array sees it, the other array does not. -/
example (buf : Buffering) : ∃ W' : Int → World Int,
    ((callNet Mem.demo ⟨1, 1⟩ [.haloUpdate 1 1] caseV).Completes buf fun r =>
      (.ok (), ⟨W' r, if r ∈ allRanks ⟨1, 1⟩ then 1 else 0, []⟩)) ∧
    HaloFilled ⟨1, 1⟩ 1 0 1 2 1 (fun r => quantities (caseV r)) (fun r => quantities (W' r)) ∧
    ∀ r ∈ allRanks ⟨1, 1⟩, (∀ ix, Mem.SameRead ((W' r).get 3 .self ix) ((caseV r).get 3 .self ix)) ∧
      ∃ d : NDArray Int, (W' r).get 2 .self [] = .ok d ∧ d.get [2] = (quantities (W' r) 1).data.get [0, 2] := by
  obtain ⟨W', h1, h2, h3⟩ := C80_halo (g := Mem.demo) (l := ⟨1, 1⟩) (W := caseV) (h := 1) (ky := 0) (kx := 1) (n := 2) (w := 1)
    (by decide) rfl (by decide) (by decide) (fun r _ => caseV_reach r) (fun r _ => caseU_usable r (caseV r).mem)
    (caseU_field fun r => (caseV r).mem) buf
  refine ⟨W', h1, h2, fun r hr => ⟨fun ix => ?_, ?_⟩⟩
  · refine C80_others (caseV_reach r) (h3 r hr) ?_ ix
    rintro idx a ⟨o, i, arr, e1, e2, e3, e4, rfl⟩ k idx' ⟨rfl, -⟩ ⟨x, hx, hb, e⟩
    have hd := caseU_data r (caseV r).mem
    change dataOf (caseV r) 1 = _ at hd
    rw [hd] at hx
    cases hx
    have e1' : (caseV r).objs[3]? = some (.array 2) := rfl
    rw [e1'] at e1
    cases e1
    cases e2
    have e3' : (caseV r).arrs[2]? = some ⟨⟨20, [3], [1]⟩, false, true⟩ := rfl
    rw [e3'] at e3
    cases e3
    obtain _ | ⟨u, _ | ⟨v, idx'⟩⟩ := idx'
    · cases hb
    · cases hb.2
    · obtain _ | ⟨t, idx⟩ := idx
      · cases e4
      have h1 : u < 4 := hb.1
      have h2 : v < 5 := hb.2.1
      change (0 : Int) + (5 * (u : Int) + (1 * (v : Int) + _)) = 20 + (1 * (t : Int) + _) at e
      obtain _ | ⟨_, _⟩ := idx'
      · obtain _ | ⟨_, _⟩ := idx
        · simp only [Strided.dot] at e
          omega
        · cases e4.2
      · cases hb.2.2
  · exact C80_shared (via := .self) (a := 2) (caseV_reach r) (h3 r hr) ⟨_, _, ⟨⟨0, [5], [1]⟩, false, true⟩, rfl, rfl, rfl, by decide, by decide⟩
      ⟨_, caseU_data r (caseV r).mem, by decide, by decide⟩

/-- The order `x, y`. -/
def caseXY : List Quantity.TDim := [.name .x, .name .y]

/-- With the transpose as variable 4. -/
def caseT (r : Int) (mem : Int → Int) : World Int := ((caseU r mem).step Mem.demo (.transpose 1 caseXY)).2

theorem caseT_data (r : Int) (mem : Int → Int) :
    dataOf (caseT r mem) 4 = .ok (3, ⟨⟨0, [5, 4], [1, 5]⟩, false, true⟩, ⟨[.x, .y], "K", [1, 1], [2, 2], none⟩) := rfl

theorem caseT_data1 (r : Int) (mem : Int → Int) :
    dataOf (caseT r mem) 1 = .ok (0, ⟨⟨0, [4, 5], [5, 1]⟩, false, true⟩, ⟨[.y, .x], "K", [1, 1], [2, 2], none⟩) := rfl

theorem caseT_q1 (r : Int) (mem : Int → Int) : ∃ x : NDArray Int, x.shape = [4, 5] ∧ quantities (caseT r mem) 1 = caseQ x :=
  ⟨_, rfl, quantities_eq (caseT_data1 r mem)⟩

theorem caseT_q4 (r : Int) (mem : Int → Int) : ∃ x : NDArray Int, x.shape = [5, 4] ∧ quantities (caseT r mem) 4 = caseQt x :=
  ⟨_, rfl, quantities_eq (caseT_data r mem)⟩

theorem case_field (m : Int → FV3.Mem Int) (q : Nat) (h : ∀ r, ∃ x : NDArray Int, x.shape = [4, 5] ∧ m r q = caseQ x) :
    ScalarField ⟨1, 1⟩ m q 0 1 2 1 := by
  choose x h1 h2 using h
  refine ⟨fun r _ => ?_, fun r _ r' _ => ?_, fun r _ r' _ k _ _ _ => ?_, fun r _ => ?_⟩
  · rw [h2]
    exact case_ready _ (h1 r) rfl rfl rfl
  · rw [h2, h2]
    rfl
  · rw [h2, h2]
    rfl
  · rw [h2]
    rfl

theorem case_fieldT (m : Int → FV3.Mem Int) (q : Nat) (h : ∀ r, ∃ x : NDArray Int, x.shape = [5, 4] ∧ m r q = caseQt x) :
    ScalarField ⟨1, 1⟩ m q 1 0 2 1 := by
  choose x h1 h2 using h
  refine ⟨fun r _ => ?_, fun r _ r' _ => ?_, fun r _ r' _ k _ _ _ => ?_, fun r _ => ?_⟩
  · rw [h2]
    exact case_readyT _ (h1 r) rfl rfl rfl
  · rw [h2, h2]
    rfl
  · rw [h2, h2]
    rfl
  · rw [h2]
    rfl

theorem caseT_field (mem : Int → Int → Int) : ScalarField ⟨1, 1⟩ (fun r => quantities (caseT r (mem r))) 1 0 1 2 1 :=
  case_field _ _ fun r => caseT_q1 r (mem r)

theorem caseT_fieldT (mem : Int → Int → Int) : ScalarField ⟨1, 1⟩ (fun r => quantities (caseT r (mem r))) 4 1 0 2 1 :=
  case_fieldT _ _ fun r => caseT_q4 r (mem r)

theorem caseT_usable (r : Int) (mem : Int → Int) : Usable (caseT r mem) [4] := by
  refine ⟨fun h hh => ?_, fun h hh => ?_, fun h hh h' hh' hne => absurd ((List.mem_singleton.1 hh).trans (List.mem_singleton.1 hh').symm) hne⟩
  · rw [List.mem_singleton.1 hh]
    exact ⟨⟨[.x, .y], "K", [1, 1], [2, 2], none⟩, rfl, by decide⟩
  · rw [List.mem_singleton.1 hh]
    rfl

/-- The halo update of a transpose fills the halo of the quantity. -/
example (buf : Buffering) : ∃ W' : Int → World Int,
    ((callNet Mem.demo ⟨1, 1⟩ [.compute fun _ => [.transpose 1 caseXY], .haloUpdate 4 1] caseV).Completes buf fun r =>
      (.ok (), ⟨W' r, if r ∈ allRanks ⟨1, 1⟩ then 1 else 0, []⟩)) ∧
    HaloFilled ⟨1, 1⟩ 1 0 1 2 1 (fun r => quantities (caseT r (caseV r).mem)) (fun r => quantities (W' r)) := by
  obtain ⟨W', h1, h2, -⟩ := C80_transpose (g := Mem.demo) (l := ⟨1, 1⟩) (V := caseV) (W := fun r => caseT r (caseV r).mem)
    (h := 1) (h' := 4) (ky := 0) (kx := 1) (n := 2) (w := 1) (target := caseXY)
    (by decide) rfl (by decide) (by decide) (fun r _ => caseV_reach r) (fun r _ => rfl)
    (fun r _ => ⟨⟨[.y, .x], "K", [1, 1], [2, 2], none⟩, rfl, rfl⟩) (fun r _ => rfl) (fun r _ => rfl)
    (caseT_field fun r => (caseV r).mem) buf
  exact ⟨W', h1, h2⟩

/-- A halo update; then the program makes a transpose and assigns to the array; then a halo update of the transpose, and one of
the quantity again: the quantities of the calls share memory. -/
def caseCalls : List (HCall Int) :=
  [.haloUpdate 1 1, .compute fun r => [.transpose 1 caseXY, .setItem 0 .self [.int 1, .int 1] ⟨[], fun _ => r⟩],
   .haloUpdate 4 1, .haloUpdate 1 1]

theorem onlyCells_eq {P : Nat → List Nat → Prop} {W W1 : World Int} (h : OnlyCells P W W1) : W1 = { W with mem := W1.mem } := by
  obtain ⟨k1, k2, k3, -⟩ := h
  obtain ⟨a, b, c, d⟩ := W1
  simp only at k1 k2 k3
  rw [k1, k2, k3]

/-- After the program, with any contents of memory. -/
theorem case_after (r : Int) (mem : Int → Int) :
    ∃ mem', (caseU r mem).after Mem.demo [.transpose 1 caseXY, .setItem 0 .self [.int 1, .int 1] ⟨[], fun _ => r⟩] = caseT r mem' :=
  ⟨_, rfl⟩

theorem case_first (V : Int → World Int) (hV : ∀ r ∈ allRanks ⟨1, 1⟩, ∃ mem, V r = caseU r mem) :
    (∀ r ∈ allRanks ⟨1, 1⟩, Usable (V r) [1]) ∧ UpdateReady ⟨1, 1⟩ (fun r => quantities (V r)) (.halo 1 1) := by
  refine ⟨fun r hr => ?_, updateReady_same (m := fun r => quantities (caseU r fun _ => 0))
    ⟨0, 1, 2, by decide, by decide, caseU_field fun _ _ => 0⟩ fun r hr q hq => ?_⟩
  · obtain ⟨mem, e⟩ := hV r hr
    rw [e]
    exact caseU_usable r mem
  · obtain ⟨mem, e⟩ := hV r hr
    rw [e, List.mem_singleton.1 hq]
    exact ⟨rfl, rfl, rfl, rfl, rfl⟩

theorem case_later (V : Int → World Int) (hV : ∀ r ∈ allRanks ⟨1, 1⟩, ∃ mem, V r = caseT r mem) :
    ((∀ r ∈ allRanks ⟨1, 1⟩, Usable (V r) [4]) ∧ UpdateReady ⟨1, 1⟩ (fun r => quantities (V r)) (.halo 4 1)) ∧
    ((∀ r ∈ allRanks ⟨1, 1⟩, Usable (V r) [1]) ∧ UpdateReady ⟨1, 1⟩ (fun r => quantities (V r)) (.halo 1 1)) := by
  refine ⟨⟨fun r hr => ?_, updateReady_same (m := fun r => quantities (caseT r fun _ => 0))
    ⟨1, 0, 2, by decide, by decide, caseT_fieldT fun _ _ => 0⟩ fun r hr q hq => ?_⟩,
    ⟨fun r hr => ?_, updateReady_same (m := fun r => quantities (caseT r fun _ => 0))
    ⟨0, 1, 2, by decide, by decide, caseT_field fun _ _ => 0⟩ fun r hr q hq => ?_⟩⟩
  · obtain ⟨mem, e⟩ := hV r hr
    rw [e]
    exact caseT_usable r mem
  · obtain ⟨mem, e⟩ := hV r hr
    rw [e, List.mem_singleton.1 hq, quantities_eq (caseT_data r mem), quantities_eq (caseT_data r _)]
    exact ⟨rfl, rfl, rfl, rfl, rfl⟩
  · obtain ⟨mem, e⟩ := hV r hr
    rw [e]
    refine ⟨fun h hh => ?_, fun h hh => ?_, fun h hh h' hh' hne => absurd ((List.mem_singleton.1 hh).trans (List.mem_singleton.1 hh').symm) hne⟩
    · rw [List.mem_singleton.1 hh]
      exact ⟨⟨[.y, .x], "K", [1, 1], [2, 2], none⟩, rfl, by decide⟩
    · rw [List.mem_singleton.1 hh]
      rfl
  · obtain ⟨mem, e⟩ := hV r hr
    rw [e, List.mem_singleton.1 hq, quantities_eq (caseT_data1 r mem), quantities_eq (caseT_data1 r _)]
    exact ⟨rfl, rfl, rfl, rfl, rfl⟩

theorem case_fit (pre : List (HCall Int)) (c : HCall Int) (post : List (HCall Int)) (e : caseCalls = pre ++ c :: post) (op : Op Int)
    (ho : c.start = some op) (W1 : Int → World Int) (h1 : HRun Mem.demo ⟨1, 1⟩ pre caseV W1) :
    (∀ r ∈ allRanks ⟨1, 1⟩, Usable (W1 r) op.qs) ∧ UpdateReady ⟨1, 1⟩ (fun r => quantities (W1 r)) op := by
  have step1 : ∀ {q : Nat} {V V1 : Int → World Int}, CommStep ⟨1, 1⟩ (.halo q 1) V V1 → ∀ r ∈ allRanks ⟨1, 1⟩, V1 r = { V r with mem := (V1 r).mem } := by
    rintro q V V1 ⟨m', -, h⟩ r hr
    exact onlyCells_eq (h r hr).2
  have mid : ∀ {V V1 V2 : Int → World Int}, (∀ r ∈ allRanks ⟨1, 1⟩, ∃ mem, V r = caseU r mem) → CommStep ⟨1, 1⟩ (.halo 1 1) V V1 →
      HStep Mem.demo ⟨1, 1⟩ (.compute fun r => [.transpose 1 caseXY, .setItem 0 .self [.int 1, .int 1] ⟨[], fun _ => r⟩]) V1 V2 →
      ∀ r ∈ allRanks ⟨1, 1⟩, ∃ mem, V2 r = caseT r mem := by
    intro V V1 V2 hV h1 h2 r hr
    obtain ⟨mem, e⟩ := hV r hr
    have e1 := step1 h1 r hr
    rw [e] at e1
    obtain ⟨mem', e'⟩ := case_after r (V1 r).mem
    refine ⟨mem', (h2 r hr).trans ?_⟩
    rw [e1]
    exact e'
  have v0 : ∀ r ∈ allRanks ⟨1, 1⟩, ∃ mem, caseV r = caseU r mem := fun r _ => ⟨_, rfl⟩
  rcases pre with _ | ⟨d0, _ | ⟨d1, _ | ⟨d2, _ | ⟨d3, pre⟩⟩⟩⟩
  · cases e
    cases ho
    exact case_first W1 fun r hr => ⟨_, h1 r hr⟩
  · cases e
    cases ho
  · cases e
    cases ho
    obtain ⟨V1, a1, V2, a2, a3⟩ := h1
    exact (case_later W1 fun r hr => by rw [a3 r hr]; exact mid v0 a1 a2 r hr).1
  · cases e
    cases ho
    obtain ⟨V1, a1, V2, a2, V3, a3, a4⟩ := h1
    refine (case_later W1 fun r hr => ?_).2
    obtain ⟨mem, e⟩ := mid v0 a1 a2 r hr
    have e1 := step1 a3 r hr
    rw [e] at e1
    exact ⟨(V3 r).mem, by rw [a4 r hr, e1]; rfl⟩
  · cases pre <;> cases e

theorem case_session (buf : Buffering) : ∃ W' : Int → World Int, HRun Mem.demo ⟨1, 1⟩ caseCalls caseV W' ∧
    (callNet Mem.demo ⟨1, 1⟩ caseCalls caseV).Completes buf fun r =>
      (.ok (), ⟨W' r, if r ∈ allRanks ⟨1, 1⟩ then 3 else 0, []⟩) := by
  refine C80_session (g := Mem.demo) (l := ⟨1, 1⟩) (W := caseV) (calls := caseCalls) (by decide) rfl (fun r _ => caseV_reach r) case_fit buf

/-- Calls on quantities which exist from the beginning. -/
example (buf : Buffering) : ∃ W' : Int → World Int,
    HRun Mem.demo ⟨1, 1⟩ [.haloUpdate 1 1, .compute fun r => [.setItem 2 .self [.int 2] ⟨[], fun _ => r⟩], .haloUpdate 1 1] caseV W' ∧
    (callNet Mem.demo ⟨1, 1⟩ [.haloUpdate 1 1, .compute fun r => [.setItem 2 .self [.int 2] ⟨[], fun _ => r⟩], .haloUpdate 1 1] caseV).Completes
      buf fun r => (.ok (), ⟨W' r, if r ∈ allRanks ⟨1, 1⟩ then 2 else 0, []⟩) := by
  have key : (∀ r ∈ allRanks ⟨1, 1⟩, Usable (caseV r) [1]) ∧ UpdateReady ⟨1, 1⟩ (fun r => quantities (caseV r)) (.halo 1 1) :=
    ⟨fun r _ => caseU_usable r (caseV r).mem, 0, 1, 2, by decide, by decide, caseU_field fun r => (caseV r).mem⟩
  refine C80_calls (g := Mem.demo) (by decide) rfl (fun r _ => caseV_reach r) (fun c hc op ho => ?_) buf
  simp only [List.mem_cons, List.not_mem_nil, or_false] at hc
  rcases hc with rfl | rfl | rfl
  · cases ho
    exact key
  · cases ho
  · cases ho
    exact key

/-- An update of the transpose, seen from the quantity whose memory it shares. -/
example (buf : Buffering) : ∃ W' : Int → World Int,
    ((callNet Mem.demo ⟨1, 1⟩ [.haloUpdate 4 1] fun r => caseT r (caseV r).mem).Completes buf fun r =>
      (.ok (), ⟨W' r, if r ∈ allRanks ⟨1, 1⟩ then 1 else 0, []⟩)) ∧
    HaloFilled ⟨1, 1⟩ 1 0 1 2 1 (fun r => quantities (caseT r (caseV r).mem)) (fun r => quantities (W' r)) := by
  have reach : ∀ r, Reachable Mem.demo (caseT r (caseV r).mem) := fun r => (caseV_reach r).step (.transpose 1 caseXY)
  obtain ⟨W', ⟨W1, h1, h2⟩, h3⟩ := C80_calls (g := Mem.demo) (l := ⟨1, 1⟩) (W := fun r => caseT r (caseV r).mem) (calls := [.haloUpdate 4 1])
    (by decide) rfl (fun r _ => reach r) (fun c hc op ho => by
      rw [List.mem_singleton.1 hc] at ho
      cases ho
      exact ⟨fun r _ => caseT_usable r (caseV r).mem, 1, 0, 2, by decide, by decide, caseT_fieldT fun r => (caseV r).mem⟩) buf
  refine ⟨W', h3, ?_⟩
  have e : ∀ r ∈ allRanks ⟨1, 1⟩, W' r = W1 r := h2
  have := (C80_alias (l := ⟨1, 1⟩) (h := 1) (h' := 4) (by decide) rfl (by decide) (by decide) (caseT_field fun r => (caseV r).mem)
    (fun r _ => (transposed (caseV_reach r).spec (i := ⟨[.y, .x], "K", [1, 1], [2, 2], none⟩) rfl rfl rfl).1)
    (fun r _ r' _ => by rw [quantities_eq (caseT_data r _), quantities_eq (caseT_data r' _)]) h1).1
  intro r idx t a b hat hin hs
  obtain ⟨r', src, k1, k2⟩ := this r idx t a b hat hin hs
  refine ⟨r', src, k1, ?_⟩
  dsimp only
  rw [e r hat.1]
  exact k2

end Heap
end FV3
