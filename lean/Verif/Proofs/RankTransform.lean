import Verif.Proofs.Partition

namespace FV3

theorem mem_allIdx (s idx : List Nat) : idx ∈ allIdx s ↔ InB s idx := by
  induction s generalizing idx with
  | nil => cases idx <;> simp [allIdx, InB]
  | cons n s ih =>
    cases idx with
    | nil => simp [allIdx, InB]
    | cons i is =>
      simp only [allIdx, List.mem_flatMap, List.mem_range, List.mem_map, List.cons.injEq, InB]
      constructor
      · rintro ⟨a, ha, b, hb, rfl, rfl⟩
        exact ⟨ha, (ih _).1 hb⟩
      · rintro ⟨h1, h2⟩
        exact ⟨i, h1, is, (ih _).2 h2, rfl, rfl⟩

/-- `firstWhere` at a value that occurs exactly once. -/
theorem firstWhere_eq {α : Type} (a : NDArray α) (t : NDArray Int) (v : Int) (e : List Nat)
    (he : InB t.shape e) (hv : t.get e = v) (hu : ∀ i, InB t.shape i → t.get i = v → i = e)
    (ha : InB a.shape e) : a.firstWhere t v = .ok (a.get e) := by
  unfold NDArray.firstWhere
  have hmem : ∀ i ∈ (allIdx t.shape).filter (fun i => t.get i = v), i = e := by
    intro i hi
    rw [List.mem_filter] at hi
    exact hu i ((mem_allIdx _ _).1 hi.1) (by simpa using hi.2)
  have hin : e ∈ (allIdx t.shape).filter (fun i => t.get i = v) :=
    List.mem_filter.2 ⟨(mem_allIdx _ _).2 he, by simpa using hv⟩
  have hall : ((allIdx t.shape).filter (fun i => t.get i = v)).all
      (fun i => decide (InB a.shape i)) = true := by
    rw [List.all_eq_true]
    intro i hi
    rw [hmem i hi]; simpa using ha
  simp only [hall, if_true]
  generalize (allIdx t.shape).filter (fun i => t.get i = v) = l at *
  cases l with
  | nil => simp at hin
  | cons x xs =>
    have := hmem x (by simp)
    simp [this]

/-- `firstWhere` at a value that does not occur. -/
theorem firstWhere_none {α : Type} (a : NDArray α) (t : NDArray Int) (v : Int)
    (hu : ∀ i, InB t.shape i → t.get i ≠ v) : a.firstWhere t v = .error .indexError := by
  unfold NDArray.firstWhere
  have : (allIdx t.shape).filter (fun i => t.get i = v) = [] := by
    rw [List.filter_eq_nil_iff]
    intro i hi
    simpa using hu i ((mem_allIdx _ _).1 hi)
  simp [this]

theorem inB_pair {a b : Nat} {e : List Nat} (h : InB [a, b] e) :
    ∃ j i, e = [j, i] ∧ j < a ∧ i < b := by
  match e, h with
  | [j, i], h => exact ⟨j, i, rfl, h.1, h.2.1⟩

/-- Uniqueness of row-major coordinates. -/
theorem rowMajor_inj {n : Nat} {j i j' i' : Nat} (hi : i < n) (hi' : i' < n)
    (h : (j : Int) * n + i = (j' : Int) * n + i') : j = j' ∧ i = i' := by
  have h' : j * n + i = j' * n + i' := by exact_mod_cast h
  have h1 : (j * n + i) / n = j := by
    rw [Nat.mul_comm, Nat.mul_add_div (by omega), Nat.div_eq_of_lt hi]; omega
  have h2 : (j' * n + i') / n = j' := by
    rw [Nat.mul_comm, Nat.mul_add_div (by omega), Nat.div_eq_of_lt hi']; omega
  have : j = j' := by rw [← h1, ← h2, h']
  subst this
  exact ⟨rfl, by omega⟩

variable {l : Layout}

/-- Common form: the transformed array is `arange` read at `g`. -/
theorem transform_of_index (ny nx : Nat) (hy : l.y = ny) (hx : l.x = nx)
    (t : NDArray Int) (j i j' i' : Nat) (hj : j < ny) (hi : i < nx)
    (hshape : t.shape = [ny, nx])
    (g : Nat → Nat → Nat × Nat)
    (hget : ∀ a b, a < ny → b < nx → t.get [a, b] = ((g a b).1 : Int) * nx + (g a b).2)
    (hg : ∀ a b, a < ny → b < nx → (g a b).2 < nx)
    (hinv : ∀ a b, a < ny → b < nx → g a b = (j, i) → a = j' ∧ b = i')
    (hj' : j' < ny) (hi' : i' < nx) (hgji : g j' i' = (j, i)) :
    (NDArray.arange2 l.y.toNat l.x.toNat).firstWhere t ((j : Int) * nx + i) =
      .ok ((j' : Int) * nx + i') := by
  rw [hy, hx]
  simp only [Int.toNat_natCast]
  rw [firstWhere_eq _ t _ [j', i']]
  · rfl
  · rw [hshape]; exact ⟨hj', hi', trivial⟩
  · rw [hget _ _ hj' hi', hgji]
  · intro e he hv
    rw [hshape] at he
    obtain ⟨a, b, rfl, ha, hb⟩ := inB_pair he
    rw [hget _ _ ha hb] at hv
    obtain ⟨e1, e2⟩ := rowMajor_inj (hg a b ha hb) hi hv
    obtain ⟨rfl, rfl⟩ := hinv a b ha hb (Prod.ext e1 e2)
    rfl
  · exact ⟨hj', hi', trivial⟩

theorem fliplr_nat (ny nx j i : Nat) (hy : l.y = ny) (hx : l.x = nx) (hj : j < ny) (hi : i < nx) :
    fliplrSubtileRank ((j : Int) * nx + i) l = .ok ((j : Int) * nx + ((nx - 1 - i : Nat) : Int)) := by
  unfold fliplrSubtileRank transformSubtileRank
  apply transform_of_index ny nx hy hx _ j i j (nx - 1 - i) hj hi
    (g := fun a b => (a, nx - 1 - b))
  · simp [NDArray.flip, NDArray.arange2, hy, hx]
  · intro a b ha hb
    simp [NDArray.flip, NDArray.arange2, hx]
  · intro a b ha hb; show nx - 1 - b < nx; omega
  · intro a b ha hb h
    injection h with h1 h2
    exact ⟨h1, by omega⟩
  · exact hj
  · omega
  · simp; omega

theorem flipud_nat (ny nx j i : Nat) (hy : l.y = ny) (hx : l.x = nx) (hj : j < ny) (hi : i < nx) :
    flipudSubtileRank ((j : Int) * nx + i) l = .ok (((ny - 1 - j : Nat) : Int) * nx + (i : Int)) := by
  unfold flipudSubtileRank transformSubtileRank
  apply transform_of_index ny nx hy hx _ j i (ny - 1 - j) i hj hi
    (g := fun a b => (ny - 1 - a, b))
  · simp [NDArray.flip, NDArray.arange2, hy, hx]
  · intro a b ha hb
    simp [NDArray.flip, NDArray.arange2, hy, hx]
  · intro a b ha hb; exact hb
  · intro a b ha hb h
    injection h with h1 h2
    exact ⟨by omega, h2⟩
  · omega
  · exact hi
  · simp; omega

theorem transpose_nat (n j i : Nat) (hy : l.y = n) (hx : l.x = n) (hj : j < n) (hi : i < n) :
    transposeSubtileRank ((j : Int) * n + i) l = .ok ((i : Int) * n + (j : Int)) := by
  unfold transposeSubtileRank transformSubtileRank
  apply transform_of_index n n hy hx _ j i i j hj hi (g := fun a b => (b, a))
  · simp [NDArray.transpose, NDArray.arange2, hy, hx]
  · intro a b ha hb
    have h0 : List.idxOf 0 [1, 0] = 1 := by decide
    simp [NDArray.transpose, NDArray.arange2, hx, List.range, List.range.loop, h0]
  · intro a b ha hb; exact ha
  · intro a b ha hb h
    injection h with h1 h2
    exact ⟨h2, h1⟩
  · exact hi
  · exact hj
  · rfl

theorem rotate_nat (n j i : Nat) (hy : l.y = n) (hx : l.x = n) (hj : j < n) (hi : i < n) :
    rotateSubtileRank ((j : Int) * n + i) l 1 = .ok (((n - 1 - i : Nat) : Int) * n + (j : Int)) := by
  unfold rotateSubtileRank
  rw [if_neg (by decide), if_pos rfl]
  have hm : pymod 1 4 = 1 := by decide
  apply transform_of_index n n hy hx _ j i (n - 1 - i) j hj hi (g := fun a b => (b, n - 1 - a))
  · simp [NDArray.rot90, hm, NDArray.flip, NDArray.swapAxes, NDArray.arange2, hy, hx]
  · intro a b ha hb
    simp [NDArray.rot90, hm, NDArray.flip, NDArray.swapAxes, NDArray.arange2, hx]
  · intro a b ha hb; show n - 1 - a < n; omega
  · intro a b ha hb h
    injection h with h1 h2
    exact ⟨by omega, h1⟩
  · omega
  · exact hj
  · simp; omega

/-! Integer versions. -/

theorem fliplr_int {j i : Int} (hj0 : 0 ≤ j) (hj : j < l.y) (hi0 : 0 ≤ i) (hi : i < l.x) :
    fliplrSubtileRank (j * l.x + i) l = .ok (j * l.x + (l.x - 1 - i)) := by
  have h := fliplr_nat (l := l) l.y.toNat l.x.toNat j.toNat i.toNat (by omega) (by omega)
    (by omega) (by omega)
  rw [Int.toNat_of_nonneg hj0, Int.toNat_of_nonneg hi0, Int.toNat_of_nonneg (by omega : 0 ≤ l.x)] at h
  rw [h]; congr 2; omega

theorem flipud_int {j i : Int} (hj0 : 0 ≤ j) (hj : j < l.y) (hi0 : 0 ≤ i) (hi : i < l.x) :
    flipudSubtileRank (j * l.x + i) l = .ok ((l.y - 1 - j) * l.x + i) := by
  have h := flipud_nat (l := l) l.y.toNat l.x.toNat j.toNat i.toNat (by omega) (by omega)
    (by omega) (by omega)
  rw [Int.toNat_of_nonneg hj0, Int.toNat_of_nonneg hi0, Int.toNat_of_nonneg (by omega : 0 ≤ l.x)] at h
  rw [h, show ((l.y.toNat - 1 - j.toNat : Nat) : Int) = l.y - 1 - j by omega]

theorem transpose_int {j i : Int} (hsq : l.y = l.x) (hj0 : 0 ≤ j) (hj : j < l.y) (hi0 : 0 ≤ i)
    (hi : i < l.x) : transposeSubtileRank (j * l.x + i) l = .ok (i * l.x + j) := by
  have h := transpose_nat (l := l) l.x.toNat j.toNat i.toNat (by omega) (by omega)
    (by omega) (by omega)
  rwa [Int.toNat_of_nonneg hj0, Int.toNat_of_nonneg hi0, Int.toNat_of_nonneg (by omega : 0 ≤ l.x)] at h

theorem rotate_int {j i : Int} (hsq : l.y = l.x) (hj0 : 0 ≤ j) (hj : j < l.y) (hi0 : 0 ≤ i)
    (hi : i < l.x) : rotateSubtileRank (j * l.x + i) l 1 = .ok ((l.x - 1 - i) * l.x + j) := by
  have h := rotate_nat (l := l) l.x.toNat j.toNat i.toNat (by omega) (by omega)
    (by omega) (by omega)
  rw [Int.toNat_of_nonneg hj0, Int.toNat_of_nonneg hi0, Int.toNat_of_nonneg (by omega : 0 ≤ l.x)] at h
  rw [h, show ((l.x.toNat - 1 - i.toNat : Nat) : Int) = l.x - 1 - i by omega]

end FV3
