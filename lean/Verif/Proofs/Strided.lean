import Verif.Spec.Strided
import Verif.Proofs.NDLemmas
import Verif.Proofs.RankTransform
import Mathlib.Data.List.Nodup
import Mathlib.Data.List.Range

/-!
# Memory order of contiguous arrays
-/

namespace FV3
namespace Strided
variable {α : Type}

/-- The addresses of the elements, in row-major order, are consecutive. -/
def InOrder (s : List Nat) (ss : List Int) : Prop :=
  (allIdx s).map (dot ss) = (List.range (size s)).map fun k : Nat => (k : Int)

theorem allIdx_cons_map (n : Nat) (s : List Nat) (st : Int) (ss : List Int) :
    (allIdx (n :: s)).map (dot (st :: ss)) =
      (List.range n).flatMap fun i : Nat => ((allIdx s).map (dot ss)).map fun a => st * i + a := by
  show ((List.range n).flatMap fun i => (allIdx s).map (i :: ·)).map _ = _
  rw [List.map_flatMap]
  congr 1
  funext i
  rw [List.map_map, List.map_map]
  rfl

theorem range_mul (n m : Nat) : (List.range (n * m)).map (fun k : Nat => (k : Int)) =
    (List.range n).flatMap fun i : Nat => ((List.range m).map fun k : Nat => (k : Int)).map fun a => (m : Int) * i + a := by
  induction n with
  | zero => simp
  | succ n ih =>
    rw [Nat.succ_mul, List.range_add, List.map_append, ih, List.range_succ, List.flatMap_append]
    congr 1
    simp only [List.flatMap_cons, List.flatMap_nil, List.append_nil, List.map_map]
    congr 1
    funext k
    simp only [Function.comp]
    push_cast
    rw [Int.mul_comm]

theorem length_allIdx (s : List Nat) : (allIdx s).length = size s := by
  induction s with
  | nil => rfl
  | cons n s ih =>
    unfold allIdx size
    rw [List.length_flatMap]
    simp [ih]

theorem size_pos {s : List Nat} (h : s.any (· == 0) = false) : 0 < size s := by
  induction s with
  | nil => decide
  | cons n s ih =>
    simp only [List.any_cons, Bool.or_eq_false_iff, beq_eq_false_iff_ne] at h
    exact Nat.mul_pos (by omega) (ih h.2)

theorem size_zero {s : List Nat} (h : s.any (· == 0) = true) : size s = 0 := by
  induction s with
  | nil => cases h
  | cons n s ih =>
    simp only [List.any_cons, Bool.or_eq_true, beq_iff_eq] at h
    rcases h with rfl | h
    · exact Nat.zero_mul _
    · unfold size; rw [ih h, Nat.mul_zero]

theorem cCheck_size (s : List Nat) (ss : List Int) (hl : ss.length = s.length) : (cCheck s ss).2 = size s := by
  induction s generalizing ss with
  | nil => rfl
  | cons n s ih =>
    match ss, hl with
    | st :: ss, hl =>
      have := ih ss (by simpa using hl)
      unfold cCheck size
      split
      · next h => rw [this, h, Nat.one_mul]
      · show n * (cCheck s ss).2 = _
        rw [this]

theorem inOrder_cons {n : Nat} {s : List Nat} {st : Int} {ss : List Int} (hn : 2 ≤ n) (hs : 0 < size s) :
    InOrder (n :: s) (st :: ss) ↔ InOrder s ss ∧ st = size s := by
  unfold InOrder
  rw [allIdx_cons_map, show size (n :: s) = n * size s from rfl, range_mul]
  constructor
  · intro h
    obtain ⟨k, rfl⟩ : ∃ k, n = k + 1 + 1 := ⟨n - 2, by omega⟩
    rw [List.range_succ_eq_map, List.flatMap_cons, List.flatMap_cons] at h
    have hlen : ((allIdx s).map (dot ss)).length = (List.range (size s)).length := by
      rw [List.length_map, length_allIdx, List.length_range]
    obtain ⟨h1, h2⟩ := List.append_inj h (by simpa using hlen)
    have e1 : (allIdx s).map (dot ss) = (List.range (size s)).map fun k : Nat => (k : Int) := by
      simpa [Function.comp_def] using h1
    refine ⟨e1, ?_⟩
    rw [List.range_succ_eq_map, List.map_cons, List.flatMap_cons, List.flatMap_cons] at h2
    obtain ⟨h3, -⟩ := List.append_inj h2 (by simpa using hlen)
    rw [e1] at h3
    have h4 := congrArg List.head? h3
    obtain ⟨m, hm⟩ : ∃ m, size s = m + 1 := ⟨size s - 1, by omega⟩
    rw [hm, List.range_succ_eq_map] at h4
    simp at h4
    rw [h4, hm]
    push_cast
    rfl
  · rintro ⟨h1, h2⟩
    rw [h1, h2]

theorem inOrder_one {s : List Nat} {st : Int} {ss : List Int} : InOrder (1 :: s) (st :: ss) ↔ InOrder s ss := by
  unfold InOrder
  rw [allIdx_cons_map, show size (1 :: s) = size s from Nat.one_mul _]
  simp [Function.comp_def]

theorem cCheck_iff (s : List Nat) (ss : List Int) (hl : ss.length = s.length) (h : s.any (· == 0) = false) :
    (cCheck s ss).1 = true ↔ InOrder s ss := by
  induction s generalizing ss with
  | nil =>
    refine ⟨fun _ => ?_, fun _ => rfl⟩
    match ss, hl with
    | [], _ => rfl
  | cons n s ih =>
    match ss, hl with
    | st :: ss, hl =>
      have hl' : ss.length = s.length := by simpa using hl
      simp only [List.any_cons, Bool.or_eq_false_iff, beq_eq_false_iff_ne] at h
      have := ih ss hl' h.2
      unfold cCheck
      by_cases hn : n = 1
      · subst hn
        rw [if_pos rfl, this, inOrder_one]
      · rw [if_neg hn, inOrder_cons (by omega) (size_pos h.2), ← this]
        simp only [Bool.and_eq_true, decide_eq_true_eq]
        rw [cCheck_size s ss hl']

/-- numpy's flag says exactly that the elements are in row-major order in memory. -/
theorem isC_iff (v : View) (hl : v.strides.length = v.shape.length) :
    v.isCContiguous = true ↔ InOrder v.shape v.strides := by
  unfold View.isCContiguous
  cases h : v.shape.any (· == 0) with
  | true =>
    have hz := size_zero h
    refine ⟨fun _ => ?_, fun _ => rfl⟩
    unfold InOrder
    have : allIdx v.shape = [] := List.eq_nil_of_length_eq_zero (by rw [length_allIdx, hz])
    rw [this, hz]
    rfl
  | false => rw [Bool.false_or]; exact cCheck_iff _ _ hl h

theorem inOrder_cStrides (s : List Nat) : InOrder s (cStrides s) := by
  induction s with
  | nil => rfl
  | cons n s ih =>
    show (allIdx (n :: s)).map (dot ((size s : Int) :: cStrides s)) = _
    rw [allIdx_cons_map, show size (n :: s) = n * size s from rfl, range_mul, ih]

theorem length_cStrides (s : List Nat) : (cStrides s).length = s.length := by
  induction s with
  | nil => rfl
  | cons n s ih => simp [cStrides, ih]

theorem fresh_isC (base : Int) (s : List Nat) : (fresh base s).isCContiguous = true :=
  (isC_iff _ (length_cStrides s)).2 (inOrder_cStrides s)

theorem InOrder.get {s : List Nat} {ss : List Int} (h : InOrder s ss) {k : Nat} {idx : List Nat}
    (hk : (allIdx s)[k]? = some idx) : dot ss idx = k := by
  have := congrArg (fun l => l[k]?) h
  have hlt : k < size s := by
    rw [← length_allIdx]
    exact (List.getElem?_eq_some_iff.1 hk).1
  simpa [hk, hlt] using this

theorem InOrder.lt {s : List Nat} {ss : List Int} (h : InOrder s ss) {idx : List Nat} (hi : InB s idx) :
    0 ≤ dot ss idx ∧ dot ss idx < size s := by
  obtain ⟨k, hk⟩ := List.mem_iff_getElem?.1 ((mem_allIdx s idx).2 hi)
  rw [h.get hk]
  have : k < size s := by
    rw [← length_allIdx]
    exact (List.getElem?_eq_some_iff.1 hk).1
  omega

theorem InOrder.inj {s : List Nat} {ss : List Int} (h : InOrder s ss) {idx idx' : List Nat} (hi : InB s idx)
    (hi' : InB s idx') (he : dot ss idx = dot ss idx') : idx = idx' := by
  obtain ⟨k, hk⟩ := List.mem_iff_getElem?.1 ((mem_allIdx s idx).2 hi)
  obtain ⟨k', hk'⟩ := List.mem_iff_getElem?.1 ((mem_allIdx s idx').2 hi')
  rw [h.get hk, h.get hk'] at he
  have : k = k' := by omega
  subst this
  rw [hk] at hk'
  exact Option.some.inj hk'

/-! ### Reading and writing -/

theorem read_inOrder {v : View} (h : InOrder v.shape v.strides) (m : Int → α) :
    (List.range (size v.shape)).map (fun k : Nat => m (v.offset + (k : Nat))) = elements (v.read m) := by
  unfold elements
  have : (List.range (size v.shape)).map (fun k : Nat => m (v.offset + (k : Nat))) =
      ((List.range (size v.shape)).map fun k : Nat => (k : Int)).map fun a => m (v.offset + a) := by
    rw [List.map_map]; rfl
  rw [this, ← h, List.map_map]
  rfl

theorem foldl_poke_other (l : List (List Nat)) (ad : List Nat → Int) (x : List Nat → α) (m : Int → α) (b : Int)
    (h : ∀ idx ∈ l, ad idx ≠ b) : l.foldl (fun m idx => poke m (ad idx) (x idx)) m b = m b := by
  induction l generalizing m with
  | nil => rfl
  | cons i l ih =>
    rw [List.foldl_cons, ih _ fun idx hi => h idx (List.mem_cons_of_mem _ hi)]
    unfold poke
    rw [if_neg fun e => h i List.mem_cons_self e.symm]

theorem foldl_poke_mem (l : List (List Nat)) (ad : List Nat → Int) (x : List Nat → α) (m : Int → α)
    (hinj : ∀ i ∈ l, ∀ j ∈ l, ad i = ad j → i = j) (i : List Nat) (hi : i ∈ l) :
    l.foldl (fun m idx => poke m (ad idx) (x idx)) m (ad i) = x i := by
  induction l generalizing m with
  | nil => cases hi
  | cons j l ih =>
    rw [List.foldl_cons]
    by_cases hm : i ∈ l
    · exact ih _ (fun a ha b hb => hinj a (List.mem_cons_of_mem _ ha) b (List.mem_cons_of_mem _ hb)) hm
    · have : i = j := by
        rcases List.mem_cons.1 hi with h | h
        · exact h
        · exact absurd h hm
      subst this
      rw [foldl_poke_other]
      · unfold poke; rw [if_pos rfl]
      · intro k hk e
        exact hm (hinj k (List.mem_cons_of_mem _ hk) i List.mem_cons_self e ▸ hk)

theorem assign_get {v : View} (hv : v.Injective) (m : Int → α) (x : NDArray α) {idx : List Nat} (hi : InB v.shape idx) :
    (v.assign m x) (v.addr idx) = x.get idx :=
  foldl_poke_mem _ v.addr x.get m
    (fun i hi j hj e => hv i j ((mem_allIdx _ _).1 hi) ((mem_allIdx _ _).1 hj) e) idx ((mem_allIdx _ _).2 hi)

theorem assign_other {v : View} (m : Int → α) (x : NDArray α) {a : Int} (ha : ¬ v.Has a) : (v.assign m x) a = m a :=
  foldl_poke_other _ v.addr x.get m a fun idx hi e => ha ⟨idx, (mem_allIdx _ _).1 hi, e⟩

theorem injective_of_inOrder {v : View} (h : InOrder v.shape v.strides) : v.Injective := by
  intro i j hi hj e
  unfold View.addr at e
  exact h.inj hi hj (by omega)

theorem pokes_eq (m : Int → α) (a : Int) (xs : List α) (b : Int) :
    pokes m a xs b = if a ≤ b then (xs[(b - a).toNat]?).getD (m b) else m b := by
  induction xs generalizing m a with
  | nil => simp [pokes]
  | cons x xs ih =>
    unfold pokes
    rw [ih]
    by_cases h1 : a + 1 ≤ b
    · rw [if_pos h1, if_pos (by omega)]
      have : (b - a).toNat = (b - (a + 1)).toNat + 1 := by omega
      rw [this, List.getElem?_cons_succ]
      unfold poke
      rw [if_neg (by omega)]
    · rw [if_neg h1]
      by_cases h2 : b = a
      · subst h2
        rw [if_pos (Int.le_refl _)]
        simp [poke]
      · rw [if_neg (by omega)]
        unfold poke
        rw [if_neg h2]

theorem pokes_get (m : Int → α) (a : Int) (xs : List α) {k : Nat} (hk : k < xs.length) :
    pokes m a xs (a + k) = xs[k] := by
  rw [pokes_eq, if_pos (by omega), show (a + (k : Int) - a).toNat = k by omega, List.getElem?_eq_getElem hk]
  rfl

theorem pokes_other (m : Int → α) (a : Int) (xs : List α) {b : Int} (hb : b < a ∨ a + xs.length ≤ b) :
    pokes m a xs b = m b := by
  rw [pokes_eq]
  split
  · rw [List.getElem?_eq_none (by omega)]; rfl
  · rfl

/-- Consecutive cells written into an array in order are its elements. -/
theorem elements_pokes {v : View} (h : InOrder v.shape v.strides) (m : Int → α) (msg : List α)
    (hlen : msg.length = size v.shape) : elements (v.read (pokes m v.offset msg)) = msg := by
  rw [← read_inOrder h]
  apply List.ext_getElem
  · simp [hlen]
  · intro k h1 h2
    simp only [List.getElem_map, List.getElem_range]
    exact pokes_get _ _ _ h2

theorem eqv_of_elements {a b : NDArray α} (hs : a.shape = b.shape) (he : elements a = elements b) : a.Eqv b := by
  refine ⟨hs, fun idx hi => ?_⟩
  unfold elements at he
  rw [← hs] at he
  exact List.map_inj_left.1 he idx ((mem_allIdx _ _).2 hi)

theorem elements_of_eqv {a b : NDArray α} (h : a.Eqv b) : elements a = elements b := by
  unfold elements
  rw [← h.1]
  exact List.map_inj_left.2 fun idx hi => h.2 idx ((mem_allIdx _ _).1 hi)

theorem isContiguous_of_isC {v : View} (h : v.isCContiguous = true) : v.isContiguous = true := by
  unfold View.isContiguous; rw [h]; rfl

end Strided
end FV3
