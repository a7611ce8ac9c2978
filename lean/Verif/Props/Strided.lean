import Verif.Proofs.StridedViews

/-!
# C56: what goes through MPI is the elements in row-major order

numpy arrays are views of memory; MPI sees consecutive cells.
-/

namespace FV3
namespace Strided
variable {α : Type}

theorem inOrder_iff (v : View) : InOrder v.shape v.strides ↔
    ∀ (k : Nat) idx, (allIdx v.shape)[k]? = some idx → v.addr idx = v.offset + k := by
  constructor
  · intro h k idx hk
    unfold View.addr
    rw [h.get hk]
  · intro h
    unfold InOrder
    apply List.ext_getElem
    · rw [List.length_map, List.length_map, length_allIdx, List.length_range]
    · intro k h1 h2
      have hk : k < (allIdx v.shape).length := by simpa using h1
      have := h k _ (List.getElem?_eq_getElem hk)
      unfold View.addr at this
      simp only [List.getElem_map, List.getElem_range]
      omega

/-- **C56**: `is_c_contiguous` is true exactly if the elements of the array, in row-major order, are in consecutive
cells of memory. -/
theorem C56_contiguous_iff (v : View) (hl : v.strides.length = v.shape.length) :
    v.isCContiguous = true ↔ ∀ (k : Nat) idx, (allIdx v.shape)[k]? = some idx → v.addr idx = v.offset + k :=
  (isC_iff v hl).trans (inOrder_iff v)

theorem mpiRead_of_isC {v : View} (hl : v.strides.length = v.shape.length) (h : v.isCContiguous = true) (m : Int → α) :
    v.mpiRead m = .ok (elements (v.read m)) := by
  unfold View.mpiRead
  rw [if_pos (isContiguous_of_isC h), read_inOrder ((isC_iff v hl).1 h)]

theorem fresh_has {base : Int} {s : List Nat} {a : Int} (h : (fresh base s).Has a) : base ≤ a ∧ a < base + size s := by
  obtain ⟨idx, hi, rfl⟩ := h
  have := (inOrder_cStrides s).lt hi
  unfold View.addr fresh
  simp only
  omega

theorem copy_mpiRead (m : Int → α) (base : Int) (x : NDArray α) :
    (fresh base x.shape).mpiRead ((fresh base x.shape).assign m x) = .ok (elements x) := by
  rw [mpiRead_of_isC (v := fresh base x.shape) (length_cStrides _) (fresh_isC _ _)]
  congr 1
  refine elements_of_eqv ⟨rfl, fun idx hi => ?_⟩
  exact assign_get (injective_of_inOrder (inOrder_cStrides _)) m x hi

/-- **C56**: a send (blocking or not) of any array never raises for its layout in memory, the message is the elements
of the array in row-major order, and no memory is written except that of the copy. -/
theorem C56_send (m : Int → α) (base : Int) (v : View) (hl : v.strides.length = v.shape.length) :
    (send m base v).2 = .ok (elements (v.read m)) ∧ (isend m base v).2 = .ok (elements (v.read m)) ∧
    ∀ a, a < base ∨ base + size v.shape ≤ a → (send m base v).1 a = m a ∧ (isend m base v).1 a = m a := by
  have hout : ∀ a, a < base ∨ base + size v.shape ≤ a → ((fresh base v.shape).assign m (v.read m)) a = m a := by
    intro a ha
    refine assign_other m _ fun h => ?_
    have := fresh_has h
    omega
  unfold send isend ascontiguous
  by_cases h : v.isCContiguous = true
  · rw [if_pos h, if_pos h]
    exact ⟨mpiRead_of_isC hl h m, mpiRead_of_isC hl h m, fun _ _ => ⟨rfl, rfl⟩⟩
  · rw [if_neg h, if_neg h]
    exact ⟨copy_mpiRead m base (v.read m), copy_mpiRead m base (v.read m), fun a ha => ⟨hout a ha, hout a ha⟩⟩

/-- **C56**: a receive of a message of the right length into any array (whose elements are at different
places) succeeds; then the elements of the array in row-major order are the message, and no memory is
written except that of the array and the buffer. -/
theorem C56_recv (m : Int → α) (base : Int) (v : View) (hl : v.strides.length = v.shape.length) (hv : v.Injective)
    (msg : List α) (hlen : msg.length = size v.shape) :
    ∃ m', recv m base v msg = .ok m' ∧ elements (v.read m') = msg ∧
      ∀ a, ¬ v.Has a → a < base ∨ base + size v.shape ≤ a → m' a = m a := by
  unfold recv
  by_cases h : v.isCContiguous = true
  · rw [if_pos h]
    have hin := (isC_iff v hl).1 h
    refine ⟨pokes m v.offset msg, ?_, elements_pokes hin m msg hlen, ?_⟩
    · unfold View.mpiWrite
      rw [if_neg (by rw [isContiguous_of_isC h]; simp), if_neg (by omega)]
    · intro a ha _
      refine pokes_other _ _ _ ?_
      apply Classical.byContradiction
      intro hc
      apply ha
      have hk : (a - v.offset).toNat < (allIdx v.shape).length := by rw [length_allIdx]; omega
      refine ⟨_, (mem_allIdx _ _).1 (List.getElem_mem hk), ?_⟩
      rw [(inOrder_iff v).1 hin _ _ (List.getElem?_eq_getElem hk)]
      omega
  · rw [if_neg h]
    have hw : (fresh base v.shape).mpiWrite m msg = .ok (pokes m base msg) := by
      unfold View.mpiWrite
      rw [if_neg (by rw [isContiguous_of_isC (fresh_isC base v.shape)]; simp),
        if_neg (show ¬ size (fresh base v.shape).shape < msg.length by show ¬ size v.shape < _; omega)]
      rfl
    rw [hw]
    refine ⟨_, rfl, ?_, ?_⟩
    · have : (v.read (v.assign (pokes m base msg) ((fresh base v.shape).read (pokes m base msg)))).Eqv
          ((fresh base v.shape).read (pokes m base msg)) :=
        ⟨rfl, fun idx hi => assign_get hv _ _ hi⟩
      rw [elements_of_eqv this]
      exact elements_pokes (v := fresh base v.shape) (inOrder_cStrides _) m msg hlen
    · intro a ha hb
      show (v.assign _ _) a = _
      rw [assign_other _ _ ha]
      exact pokes_other _ _ _ (by omega)

/-- **C56**: a message that is too long raises, and nothing is written. -/
theorem C56_recv_too_long (m : Int → α) (base : Int) (v : View) (msg : List α) (hlen : size v.shape < msg.length) :
    recv m base v msg = .error .runtimeError := by
  unfold recv
  by_cases h : v.isCContiguous = true
  · rw [if_pos h]
    unfold View.mpiWrite
    rw [if_neg (by rw [isContiguous_of_isC h]; simp), if_pos hlen]
  · rw [if_neg h]
    have hw : (fresh base v.shape).mpiWrite m msg = .error .runtimeError := by
      unfold View.mpiWrite
      rw [if_neg (by rw [isContiguous_of_isC (fresh_isC base v.shape)]; simp), if_pos (show size (fresh base v.shape).shape < msg.length from hlen)]
    rw [hw]

theorem length_elements (a : NDArray α) : (elements a).length = size a.shape := by
  unfold elements
  rw [List.length_map, length_allIdx]

/-- **C56**: an array sent by one rank and received by another into an array of the same shape arrives element by
element, however the two arrays are laid out in memory. -/
theorem C56_transfer (m m' : Int → α) (base base' : Int) (v w : View) (hl : v.strides.length = v.shape.length)
    (hl' : w.strides.length = w.shape.length) (hw : w.Injective)
    (hs : v.shape = w.shape) :
    ∃ msg m'', (isend m base v).2 = .ok msg ∧ recv m' base' w msg = .ok m'' ∧ (w.read m'').Eqv (v.read m) := by
  obtain ⟨m'', h1, h2, -⟩ := C56_recv m' base' w hl' hw (elements (v.read m))
    (by rw [length_elements, ← hs]; rfl)
  exact ⟨_, m'', (C56_send m base v hl).2.1, h1, eqv_of_elements hs.symm h2⟩

/-- What a view of a C-ordered array is like. -/
structure Sound (base : Int) (n : Nat) (v : View) : Prop where
  strides : v.strides.length = v.shape.length
  injective : v.Injective
  within : ∀ a, v.Has a → base ≤ a ∧ a < base + n

theorem Sound.via {base : Int} {n : Nat} {v w : View} (h : Sound base n v) (hl : w.strides.length = w.shape.length)
    (f : List Nat → List Nat) (hf : ∀ idx, InB w.shape idx → InB v.shape (f idx) ∧ w.addr idx = v.addr (f idx))
    (hi : ∀ idx idx', InB w.shape idx → InB w.shape idx' → f idx = f idx' → idx = idx') : Sound base n w := by
  refine ⟨hl, fun i j hi' hj e => ?_, ?_⟩
  · rw [(hf i hi').2, (hf j hj).2] at e
    exact hi i j hi' hj (h.injective _ _ (hf i hi').1 (hf j hj).1 e)
  · rintro a ⟨idx, hidx, rfl⟩
    rw [(hf idx hidx).2]
    exact h.within _ ⟨_, (hf idx hidx).1, rfl⟩

/-- **C56**: the arrays the code makes by slicing, flipping and rotating an array allocated in C order have their
elements at different places within that array. -/
theorem C56_views {base : Int} {shape : List Nat} {v : View} (h : ViewOf base shape v) : Sound base (size shape) v := by
  induction h with
  | whole =>
    exact ⟨length_cStrides _, injective_of_inOrder (inOrder_cStrides _), fun a ha => fresh_has ha⟩
  | slice v ix rs _ hr ih =>
    have hok := resolveAll_ok hr
    refine ih.via (length_sliceStrides hok ih.strides) (viewIdx rs) (fun idx hi => ⟨viewIdx_inB hok hi, ?_⟩)
      fun idx idx' hi hi' e => viewIdx_inj hok hi hi' e
    show v.offset + sliceStart rs v.strides + dot (sliceStrides rs v.strides) idx = v.offset + dot v.strides (viewIdx rs idx)
    rw [dot_view hok ih.strides hi]
    omega
  | flip v ax _ hax ih =>
    refine ih.via ?_ (flipIdx v.shape ax) (fun idx hi => ⟨flipIdx_inB hi hax, flip_addr ih.strides hax hi⟩) ?_
    · show (v.strides.set _ _).length = v.shape.length
      rw [List.length_set]; exact ih.strides
    · intro i j hi hj e
      have := congrArg (flipIdx v.shape ax) e
      rwa [flipIdx_flipIdx (s := v.shape) hi hax, flipIdx_flipIdx (s := v.shape) hj hax] at this
  | swap v p q _ hp hq ih =>
    have hlen : ∀ idx, InB (v.swapAxes p q).shape idx → idx.length = v.shape.length := by
      intro idx hi
      have := ((inB_iff _ _).1 hi).1
      simpa [View.swapAxes] using this
    refine ih.via ?_ (swapIdx p q) (fun idx hi => ⟨swapIdx_inB hp hq hi, swap_addr ih.strides hp hq (hlen idx hi)⟩) ?_
    · simp [View.swapAxes, ih.strides]
    · intro i j hi hj e
      have := congrArg (swapIdx p q) e
      rwa [swapIdx_swapIdx (by rw [hlen i hi]; exact hp) (by rw [hlen i hi]; exact hq),
        swapIdx_swapIdx (by rw [hlen j hj]; exact hp) (by rw [hlen j hj]; exact hq)] at this

/-- **C56**: reading these views gives the arrays of the other modules of the model: basic indexing, flips, exchange of
axes, and so `rot90`. -/
theorem C56_view_values (m : Int → α) (v : View) (hl : v.strides.length = v.shape.length) :
    (∀ ix rs, resolveAll ix v.shape = .ok rs → ((v.slice rs).read m).Eqv ((v.read m).view rs)) ∧
    (∀ ax, ax < v.shape.length → ((v.flip ax).read m).Eqv ((v.read m).flip ax)) ∧
    (∀ p q, p < v.shape.length → q < v.shape.length → ((v.swapAxes p q).read m).Eqv ((v.read m).swapAxes p q)) ∧
    (∀ k p q, p < v.shape.length → q < v.shape.length → ((v.rot90 k p q).read m).Eqv ((v.read m).rot90 k p q)) := by
  have hflip : ∀ (v : View), v.strides.length = v.shape.length → ∀ ax, ax < v.shape.length →
      ((v.flip ax).read m).Eqv ((v.read m).flip ax) := by
    intro v hl ax hax
    refine ⟨rfl, fun idx hi => ?_⟩
    show m ((v.flip ax).addr idx) = m (v.addr (flipIdx v.shape ax idx))
    rw [flip_addr hl hax hi]
  have hswap : ∀ (v : View), v.strides.length = v.shape.length → ∀ p q, p < v.shape.length → q < v.shape.length →
      ((v.swapAxes p q).read m).Eqv ((v.read m).swapAxes p q) := by
    intro v hl p q hp hq
    refine ⟨rfl, fun idx hi => ?_⟩
    show m ((v.swapAxes p q).addr idx) = m (v.addr (swapIdx p q idx))
    rw [swap_addr hl hp hq]
    have := ((inB_iff _ _).1 hi).1
    simpa [View.read, View.swapAxes] using this
  have fl : ∀ (v : View) ax, v.strides.length = v.shape.length → (v.flip ax).strides.length = (v.flip ax).shape.length := by
    intro v ax h
    simp [View.flip, h]
  have sl : ∀ (v : View) p q, v.strides.length = v.shape.length →
      (v.swapAxes p q).strides.length = (v.swapAxes p q).shape.length := by
    intro v p q h
    simp [View.swapAxes, h]
  have cflip : ∀ (a b : NDArray α) ax, a.Eqv b → ax < a.shape.length → (a.flip ax).Eqv (b.flip ax) := by
    intro a b ax h hax
    refine ⟨h.1, fun idx hi => ?_⟩
    show a.get (flipIdx a.shape ax idx) = b.get (flipIdx b.shape ax idx)
    rw [← h.1]
    exact h.2 _ (flipIdx_inB hi hax)
  have cswap : ∀ (a b : NDArray α) p q, a.Eqv b → p < a.shape.length → q < a.shape.length →
      (a.swapAxes p q).Eqv (b.swapAxes p q) := by
    intro a b p q h hp hq
    refine ⟨by show List.set _ _ _ = List.set _ _ _; rw [h.1], fun idx hi => ?_⟩
    exact h.2 _ (swapIdx_inB hp hq hi)
  have tr : ∀ {a b c : NDArray α}, a.Eqv b → b.Eqv c → a.Eqv c := fun h1 h2 =>
    ⟨h1.1.trans h2.1, fun idx hi => (h1.2 idx hi).trans (h2.2 idx (h1.1 ▸ hi))⟩
  refine ⟨?_, hflip v hl, hswap v hl, ?_⟩
  · intro ix rs hr
    refine ⟨rfl, fun idx hi => ?_⟩
    show m (v.offset + sliceStart rs v.strides + dot (sliceStrides rs v.strides) idx) = m (v.addr (viewIdx rs idx))
    unfold View.addr
    rw [dot_view (resolveAll_ok hr) hl hi]
    congr 1
    omega
  · intro k p q hp hq
    unfold View.rot90 NDArray.rot90
    by_cases h0 : pymod k 4 = 0
    · rw [if_pos h0, if_pos h0]
      exact ⟨rfl, fun _ _ => rfl⟩
    · rw [if_neg h0, if_neg h0]
      by_cases h2 : pymod k 4 = 2
      · rw [if_pos h2, if_pos h2]
        exact tr (hflip _ (fl v p hl) q hq) (cflip _ _ q (hflip v hl p hp) hq)
      · rw [if_neg h2, if_neg h2]
        by_cases h1 : pymod k 4 = 1
        · rw [if_pos h1, if_pos h1]
          exact tr (hswap _ (fl v q hl) p q hp hq) (cswap _ _ p q (hflip v hl q hq) hp hq)
        · rw [if_neg h1, if_neg h1]
          exact tr (hflip _ (sl v p q hl) q (by simpa [View.swapAxes] using hq))
            (cflip _ _ q (hswap v hl p q hp hq) (by simpa [View.read, View.swapAxes] using hq))

theorem elements_cons {a : NDArray α} {R : Nat} {s : List Nat} (hs : a.shape = R :: s) :
    elements a = (List.range R).flatMap fun r => elements ⟨s, fun idx => a.get (r :: idx)⟩ := by
  unfold elements
  rw [hs]
  show ((List.range R).flatMap fun i => (allIdx s).map (i :: ·)).map a.get = _
  rw [List.map_flatMap]
  congr 1
  funext r
  rw [List.map_map]
  rfl

/-- **C56**: of the buffer of `scatter`, an array with one more axis for the ranks, MPI gives rank `r` the elements of
part `r`; and the parts one after the other are the buffer of `gather`. -/
theorem C56_scatter_pieces {a : NDArray α} {R : Nat} {s : List Nat} (hs : a.shape = R :: s) :
    (∀ r, r < R → piece (elements a) (size s) r = elements ⟨s, fun idx => a.get (r :: idx)⟩) ∧
    elements a = (List.range R).flatMap fun r => elements ⟨s, fun idx => a.get (r :: idx)⟩ := by
  refine ⟨?_, elements_cons hs⟩
  rw [elements_cons hs]
  have key : ∀ (R : Nat) (f : Nat → List α), (∀ r, (f r).length = size s) → ∀ r, r < R →
      piece ((List.range R).flatMap f) (size s) r = f r := by
    intro R f hf
    induction R with
    | zero => intro r hr; omega
    | succ R ih =>
      intro r hr
      have hlen : ((List.range R).flatMap f).length = R * size s := by
        rw [List.length_flatMap]
        simp [hf]
      unfold piece at ih ⊢
      rw [List.range_succ, List.flatMap_append]
      by_cases h : r < R
      · have h1 : (r + 1) * size s ≤ R * size s := Nat.mul_le_mul_right _ (by omega)
        rw [Nat.succ_mul] at h1
        rw [List.drop_append_of_le_length (by omega), List.take_append_of_le_length (by
          rw [List.length_drop]; omega)]
        exact ih r h
      · have : r = R := by omega
        subst this
        rw [List.drop_append, hlen, Nat.sub_self, List.drop_of_length_le (by omega)]
        simp only [List.flatMap_cons, List.flatMap_nil, List.append_nil, List.drop_zero, List.nil_append]
        rw [List.take_of_length_le (by rw [hf])]
  exact key R _ fun r => length_elements _

/-! ### A concrete case -/

/-- The west halo of a `4 × 5` array: not contiguous, so it is copied; the message is its elements. -/
example : (fresh 100 [4, 5]).slice [.slice 1 1 2, .slice 0 1 2] = ⟨105, [2, 2], [5, 1]⟩ ∧
    View.isCContiguous ⟨105, [2, 2], [5, 1]⟩ = false ∧
    (send (fun a => a) 0 ⟨105, [2, 2], [5, 1]⟩).2 = .ok [105, 106, 110, 111] := by
  refine ⟨by decide, by decide, ?_⟩
  rw [(C56_send _ _ _ rfl).1]
  decide

/-- `rot90` of a `2 × 3` array. -/
example : ((fresh 0 [2, 3]).rot90 1 0 1) = ⟨2, [3, 2], [-1, 3]⟩ ∧
    (isend (fun a => a) 100 ⟨2, [3, 2], [-1, 3]⟩).2 = .ok [2, 5, 1, 4, 0, 3] := by
  refine ⟨by decide, ?_⟩
  rw [(C56_send _ _ _ rfl).2.1]
  decide

/-- Why C order is needed: an array in Fortran order is contiguous, and MPI would take it without a copy, but its cells
are not its elements in row-major order. -/
theorem C56_limit_fortran : View.isContiguous ⟨0, [2, 3], [1, 2]⟩ = true ∧
    View.mpiRead (fun a => a) ⟨0, [2, 3], [1, 2]⟩ = .ok [0, 1, 2, 3, 4, 5] ∧
    elements (View.read (fun a : Int => a) ⟨0, [2, 3], [1, 2]⟩) = [0, 2, 4, 1, 3, 5] ∧
    (send (fun a => a) 100 ⟨0, [2, 3], [1, 2]⟩).2 = .ok [0, 2, 4, 1, 3, 5] := by
  refine ⟨by decide, by decide, by decide, ?_⟩
  rw [(C56_send _ _ _ rfl).1]
  decide

/-- Two ranks, the message of a rotated view received into a view that is not contiguous. -/
example : ∃ msg m'', (isend (fun a => a) 1000 ((fresh 0 [2, 3]).rot90 1 0 1)).2 = .ok msg ∧
    recv (fun _ => 7) 1000 ⟨105, [3, 2], [5, 1]⟩ msg = .ok m'' ∧ m'' 110 = 1 ∧ m'' 107 = 7 := by
  have h : ViewOf 100 [4, 5] ⟨105, [3, 2], [5, 1]⟩ :=
    ViewOf.slice (fresh 100 [4, 5]) [.slice (PySlice.of 1 4), .slice (PySlice.of 0 2)] [.slice 1 1 3, .slice 0 1 2] .whole (by decide)
  have hs := C56_views h
  obtain ⟨m'', h1, h2, h3⟩ := C56_recv (fun _ => (7 : Int)) 1000 ⟨105, [3, 2], [5, 1]⟩ rfl hs.injective
    [2, 5, 1, 4, 0, 3] rfl
  refine ⟨_, m'', (C56_send _ _ _ (by decide)).2.1, by
    rw [show elements (((fresh 0 [2, 3]).rot90 1 0 1).read fun a => a) = [2, 5, 1, 4, 0, 3] by decide]
    exact h1, ?_, ?_⟩
  · have := congrArg (fun l => l[2]?) h2
    have e : elements (View.read m'' ⟨105, [3, 2], [5, 1]⟩) = [m'' 105, m'' 106, m'' 110, m'' 111, m'' 115, m'' 116] := rfl
    rw [e] at this
    simpa using this
  · refine h3 107 ?_ (by omega)
    rintro ⟨idx, hi, e⟩
    have hm := (mem_allIdx _ _).2 hi
    have : ∀ idx ∈ allIdx [3, 2], View.addr ⟨105, [3, 2], [5, 1]⟩ idx ≠ 107 := by decide
    exact this idx hm e

end Strided
end FV3
