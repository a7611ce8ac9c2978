import Verif.Model.BoundarySlice
import Verif.Spec.Rotate
import Verif.Spec.Partition
import Verif.Proofs.NDLemmas

namespace FV3
variable {α : Type}

theorem pymod4 (k : Int) : pymod k 4 = k % 4 := by
  simp [pymod, Int.fmod_eq_emod_of_nonneg]

theorem getD_putYX {ky kx : Nat} (hne : ky ≠ kx) {l : List Nat} (hy : ky < l.length)
    (hx : kx < l.length) (y x : Nat) (k : Nat) (d : Nat) :
    (putYX ky kx l y x).getD k d = if k = ky then y else if k = kx then x else l.getD k d := by
  unfold putYX
  rw [getD_set, getD_set, List.length_set]
  by_cases h1 : k = kx
  · subst h1
    rw [if_pos ⟨rfl, hx⟩, if_neg (Ne.symm hne), if_pos rfl]
  · rw [if_neg (fun h => h1 h.1)]
    by_cases h2 : k = ky
    · subst h2; rw [if_pos ⟨rfl, hy⟩, if_pos rfl]
    · rw [if_neg (fun h => h2 h.1), if_neg h2, if_neg h1]

@[simp] theorem length_putYX (ky kx : Nat) (l : List Nat) (y x : Nat) :
    (putYX ky kx l y x).length = l.length := by simp [putYX]

@[simp] theorem length_turnShape (ky kx : Nat) (k : Int) (s : List Nat) :
    (turnShape ky kx k s).length = s.length := by unfold turnShape; split <;> simp

@[simp] theorem length_turnSrc (ky kx : Nat) (k : Int) (s idx : List Nat) :
    (turnSrc ky kx k s idx).length = idx.length := by
  unfold turnSrc; dsimp only; split <;> [skip; split <;> [skip; split]] <;> simp

theorem getD_turnShape {ky kx : Nat} (hne : ky ≠ kx) {s : List Nat} (hy : ky < s.length)
    (hx : kx < s.length) (n : Int) (k : Nat) :
    (turnShape ky kx n s).getD k 0 =
      if n % 2 = 0 then s.getD k 0
      else if k = ky then s.getD kx 0 else if k = kx then s.getD ky 0 else s.getD k 0 := by
  unfold turnShape
  split
  · rfl
  · rw [getD_putYX hne hy hx]

theorem getD_turnSrc {ky kx : Nat} (hne : ky ≠ kx) (s : List Nat) {idx : List Nat}
    (hy : ky < idx.length) (hx : kx < idx.length) (n : Int) (k : Nat) :
    (turnSrc ky kx n s idx).getD k 0 =
      if k = ky then
        (if n % 4 = 0 then idx.getD ky 0
         else if n % 4 = 1 then idx.getD kx 0
         else if n % 4 = 2 then s.getD ky 0 - 1 - idx.getD ky 0
         else s.getD ky 0 - 1 - idx.getD kx 0)
      else if k = kx then
        (if n % 4 = 0 then idx.getD kx 0
         else if n % 4 = 1 then s.getD kx 0 - 1 - idx.getD ky 0
         else if n % 4 = 2 then s.getD kx 0 - 1 - idx.getD kx 0
         else idx.getD ky 0)
      else idx.getD k 0 := by
  unfold turnSrc
  dsimp only
  by_cases h0 : n % 4 = 0
  · simp only [h0, if_true]
    by_cases h1 : k = ky
    · subst h1; simp
    · by_cases h2 : k = kx
      · subst h2; simp [h1]
      · simp [h1, h2]
  · by_cases h1 : n % 4 = 1
    · rw [if_neg h0, if_pos h1, getD_putYX hne hy hx]; simp [h1]
    · by_cases h2 : n % 4 = 2
      · rw [if_neg h0, if_neg h1, if_pos h2, getD_putYX hne hy hx]; simp [h2]
      · simp only [h0, h1, h2, if_false, getD_putYX hne hy hx]

/-- Turning is well defined. -/
theorem inB_turnSrc {ky kx : Nat} (hne : ky ≠ kx) {s idx : List Nat} (hy : ky < s.length)
    (hx : kx < s.length) (n : Int) (h : InB (turnShape ky kx n s) idx) :
    InB s (turnSrc ky kx n s idx) := by
  rw [inB_iff] at h ⊢
  rw [length_turnShape] at h
  obtain ⟨hl, hb⟩ := h
  refine ⟨by rw [length_turnSrc, hl], fun k hk => ?_⟩
  rw [getD_turnSrc hne s (by omega) (by omega)]
  have b1 := hb ky hy
  have b2 := hb kx hx
  have b3 := hb k hk
  simp only [getD_turnShape hne hy hx, if_true] at b1 b2 b3
  rw [if_neg (Ne.symm hne)] at b2
  by_cases h1 : k = ky
  · subst h1
    simp only [if_true]
    split_ifs at * <;> omega
  · by_cases h2 : k = kx
    · subst h2
      simp only [h1, if_false, if_true]
      split_ifs at * <;> omega
    · simp only [h1, h2, if_false] at *
      split_ifs at * <;> omega

theorem turnShape_add {ky kx : Nat} (hne : ky ≠ kx) {s : List Nat} (hy : ky < s.length)
    (hx : kx < s.length) (a b : Int) :
    turnShape ky kx b (turnShape ky kx a s) = turnShape ky kx (a + b) s := by
  apply ext_getD 0 (by simp)
  intro k hk
  simp only [length_turnShape] at hk
  rw [getD_turnShape hne (by simpa using hy) (by simpa using hx)]
  simp only [getD_turnShape hne hy hx]
  by_cases h1 : k = ky
  · subst h1; simp only [if_true, if_neg (Ne.symm hne)]; split_ifs <;> omega
  · by_cases h2 : k = kx
    · subst h2; simp only [if_true, if_neg h1]; split_ifs <;> omega
    · simp only [if_neg h1, if_neg h2]; split_ifs <;> rfl

theorem turnSrc_add {ky kx : Nat} (hne : ky ≠ kx) {s idx : List Nat} (hy : ky < s.length)
    (hx : kx < s.length) (a b : Int) (h : InB (turnShape ky kx (a + b) s) idx) :
    turnSrc ky kx a s (turnSrc ky kx b (turnShape ky kx a s) idx) = turnSrc ky kx (a + b) s idx := by
  rw [inB_iff, length_turnShape] at h
  obtain ⟨hl, hb⟩ := h
  apply ext_getD 0 (by simp)
  intro k hk
  simp only [length_turnSrc] at hk
  have b1 := hb ky hy
  have b2 := hb kx hx
  rw [getD_turnSrc hne s (by simp; omega) (by simp; omega), getD_turnSrc hne s (by omega) (by omega)]
  simp only [getD_turnSrc hne (turnShape ky kx a s) (show ky < idx.length by omega)
    (show kx < idx.length by omega)]
  simp only [getD_turnShape hne hy hx, if_true, if_neg (Ne.symm hne)] at b1 b2 ⊢
  have ha : a % 4 = 0 ∨ a % 4 = 1 ∨ a % 4 = 2 ∨ a % 4 = 3 := by omega
  have hbb : b % 4 = 0 ∨ b % 4 = 1 ∨ b % 4 = 2 ∨ b % 4 = 3 := by omega
  by_cases h1 : k = ky
  · subst h1
    simp only [if_true]
    rcases ha with e1 | e1 | e1 | e1 <;> rcases hbb with e2 | e2 | e2 | e2 <;>
      (have e3 : a % 2 = (a % 4) % 2 := by omega
       have e4 : (a + b) % 2 = (a % 4 + b % 4) % 2 := by omega
       have e5 : (a + b) % 4 = (a % 4 + b % 4) % 4 := by omega
       rw [e1, e2] at e5 e4; rw [e1] at e3
       simp [e1, e2, e3, e4, e5] at b1 b2 ⊢ <;> omega)
  · by_cases h2 : k = kx
    · subst h2
      simp only [if_true, if_neg h1]
      rcases ha with e1 | e1 | e1 | e1 <;> rcases hbb with e2 | e2 | e2 | e2 <;>
        (have e3 : a % 2 = (a % 4) % 2 := by omega
         have e4 : (a + b) % 2 = (a % 4 + b % 4) % 2 := by omega
         have e5 : (a + b) % 4 = (a % 4 + b % 4) % 4 := by omega
         rw [e1, e2] at e5 e4; rw [e1] at e3
         simp [e1, e2, e3, e4, e5] at b1 b2 ⊢ <;> omega)
    · simp only [if_neg h1, if_neg h2]

/-! ### the code -/

theorem findAxes_aux (ky kx : Nat) (l : List Dim) (i : Nat) (x y : Option Nat)
    (hy : ∀ (k : Nat) (d : Dim), l[k]? = some d → (IsY d ↔ k + i = ky))
    (hx : ∀ (k : Nat) (d : Dim), l[k]? = some d → (IsX d ↔ k + i = kx)) :
    findAxes l i x y = (if i ≤ kx ∧ kx < i + l.length then some kx else x,
      if i ≤ ky ∧ ky < i + l.length then some ky else y) := by
  induction l generalizing i x y with
  | nil =>
    simp only [findAxes, List.length_nil]
    rw [if_neg (by omega), if_neg (by omega)]
  | cons d ds ih =>
    have h1 := hy 0 d rfl
    have h2 := hx 0 d rfl
    have hy' : ∀ (k : Nat) (d : Dim), ds[k]? = some d → (IsY d ↔ k + (i + 1) = ky) := by
      intro k e he
      have := hy (k + 1) e (by simpa using he)
      rw [this]; omega
    have hx' : ∀ (k : Nat) (d : Dim), ds[k]? = some d → (IsX d ↔ k + (i + 1) = kx) := by
      intro k e he
      have := hx (k + 1) e (by simpa using he)
      rw [this]; omega
    have e1 : d ∈ X_DIMS ↔ IsX d := by simp [X_DIMS, IsX]
    have e2 : d ∈ Y_DIMS ↔ IsY d := by simp [Y_DIMS, IsY]
    simp only [findAxes, e1, e2, h1, h2, List.length_cons]
    by_cases c1 : 0 + i = kx
    · rw [if_pos c1, ih _ _ _ hy' hx']
      have c3 : ¬ (0 + i = ky) := by
        intro c; have a := h1.2 c; have b := h2.2 c1
        revert a b; unfold IsX IsY; rintro (rfl|rfl) <;> simp
      congr 1
      · rw [if_neg (by omega), if_pos (by omega)]; congr 1; omega
      · by_cases hh : i + 1 ≤ ky ∧ ky < i + 1 + ds.length
        · rw [if_pos hh, if_pos (by omega)]
        · rw [if_neg hh, if_neg (by omega)]
    · rw [if_neg c1]
      by_cases c2 : 0 + i = ky
      · rw [if_pos c2, ih _ _ _ hy' hx']
        congr 1
        · by_cases hh : i + 1 ≤ kx ∧ kx < i + 1 + ds.length
          · rw [if_pos hh, if_pos (by omega)]
          · rw [if_neg hh, if_neg (by omega)]
        · rw [if_neg (by omega), if_pos (by omega)]; congr 1; omega
      · rw [if_neg c2, ih _ _ _ hy' hx']
        congr 1
        · by_cases hh : i + 1 ≤ kx ∧ kx < i + 1 + ds.length
          · rw [if_pos hh, if_pos (by omega)]
          · rw [if_neg hh, if_neg (by omega)]
        · by_cases hh : i + 1 ≤ ky ∧ ky < i + 1 + ds.length
          · rw [if_pos hh, if_pos (by omega)]
          · rw [if_neg hh, if_neg (by omega)]

theorem findAxes_eq {dims : List Dim} {ky kx : Nat} (h : HAxes dims ky kx) :
    findAxes dims 0 none none = (some kx, some ky) := by
  rw [findAxes_aux ky kx dims 0 none none (fun k d hd => by simpa using h.y k d hd)
    (fun k d hd => by simpa using h.x k d hd)]
  rw [if_pos ⟨by omega, by simpa using h.xlt⟩, if_pos ⟨by omega, by simpa using h.ylt⟩]

theorem HAxes.dne {dims : List Dim} {ky kx : Nat} (h : HAxes dims ky kx) : ky ≠ kx := by
  intro e
  have hg : dims[ky]? = some (dims[ky]'h.ylt) := List.getElem?_eq_getElem h.ylt
  have h1 := (h.y ky _ hg).2 rfl
  have h2 := (h.x ky _ hg).2 e
  revert h1 h2
  unfold IsX IsY
  rintro (h | h) <;> rw [h] <;> simp

/-- Resolution of an index tuple given axis by axis. -/
theorem resolveAll_tab (m : Nat) (f : Nat → Ix) (g : Nat → RIx) (shape : List Nat)
    (hm : shape.length = m) (h : ∀ k, k < m → (f k).resolve (shape.getD k 0) = .ok (g k)) :
    resolveAll (tab m f) shape = .ok (tab m g) := by
  induction m generalizing f g shape with
  | zero =>
    have : shape = [] := List.length_eq_zero_iff.1 hm
    subst this; rfl
  | succ m ih =>
    match shape, hm with
    | n :: s, hm =>
      have h0 := h 0 (by omega)
      simp only [tab_succ, resolveAll]
      rw [ih (fun k => f (k + 1)) (fun k => g (k + 1)) s (by simpa using hm)
          (fun k hk => by simpa using h (k + 1) (by omega))]
      simp only [List.getD_cons_zero] at h0
      rw [h0]
      rfl

theorem viewShape_slices (m : Nat) (a st : Nat → Int) (c : Nat → Nat) :
    viewShape (tab m fun k => .slice (a k) (st k) (c k)) = tab m c := by
  induction m generalizing a st c with
  | zero => rfl
  | succ m ih =>
    rw [tab_succ, tab_succ]
    simp only [viewShape]
    rw [← ih (fun k => a (k + 1)) (fun k => st (k + 1)) (fun k => c (k + 1))]

theorem viewIdx_slices (m : Nat) (a st : Nat → Int) (c : Nat → Nat) (rel : List Nat) :
    viewIdx (tab m fun k => .slice (a k) (st k) (c k)) rel =
      tab m fun k => (a k + st k * (rel.getD k 0 : Nat)).toNat := by
  induction m generalizing a st c rel with
  | zero => rfl
  | succ m ih =>
    rw [tab_succ, tab_succ]
    cases rel with
    | nil =>
      simp only [viewIdx]
      rw [ih (fun k => a (k + 1)) (fun k => st (k + 1)) (fun k => c (k + 1)) []]
      simp
    | cons j rel =>
      simp only [viewIdx]
      rw [ih (fun k => a (k + 1)) (fun k => st (k + 1)) (fun k => c (k + 1)) rel]
      simp

theorem resolve_full (n : Nat) : PySlice.full.resolve n = .ok (.slice 0 1 n) := by
  have : (if (0 : Int) < n then (((n : Int) - 0 - 1) / 1 + 1).toNat else 0) = n := by
    rw [Int.ediv_one]; split <;> omega
  show Except.ok (RIx.slice 0 1 (if (0 : Int) < n then (((n : Int) - 0 - 1) / 1 + 1).toNat else 0)) = _
  rw [this]

theorem resolve_rev (n : Nat) :
    (PySlice.mk none none (some (-1))).resolve n = .ok (.slice ((n : Int) - 1) (-1) n) := by
  have : (if (-1 : Int) < (n : Int) - 1 then (((n : Int) - 1 - -1 - 1) / 1 + 1).toNat else 0) = n := by
    rw [Int.ediv_one]; split <;> omega
  show Except.ok (RIx.slice ((n : Int) - 1) (-1) (if (-1 : Int) < (n : Int) - 1 then
    (((n : Int) - 1 - -1 - 1) / 1 + 1).toNat else 0)) = _
  rw [this]

theorem mem_horizontal (d : Dim) : d ∈ HORIZONTAL_DIMS ↔ IsX d ∨ IsY d := by
  cases d <;> simp [HORIZONTAL_DIMS, X_DIMS, Y_DIMS, IsX, IsY]

theorem reverseHorizontal_eq (a : NDArray α) (dims : List Dim) {ky kx : Nat}
    (hA : HAxes dims ky kx) (hs : a.shape.length = dims.length) :
    ∃ r, reverseHorizontal a dims = .ok r ∧ a.IsTurn ky kx 2 r := by
  unfold reverseHorizontal NDArray.getItem
  have hne := hA.dne
  have e1 : (dims.map fun d => if d ∈ HORIZONTAL_DIMS then Ix.slice ⟨none, none, some (-1)⟩
      else Ix.slice .full) = tab dims.length fun k =>
        if k = ky ∨ k = kx then Ix.slice ⟨none, none, some (-1)⟩ else Ix.slice .full := by
    apply ext_getD (Ix.int 0) (by simp)
    intro k hk
    simp only [List.length_map] at hk
    rw [getD_tab _ _ hk, getD_lt _ (by simpa using hk)]
    simp only [List.getElem_map, mem_horizontal]
    have hg : dims[k]? = some dims[k] := List.getElem?_eq_getElem hk
    simp only [hA.x k _ hg, hA.y k _ hg, or_comm]
  have e2 := resolveAll_tab dims.length (fun k => if k = ky ∨ k = kx then
      Ix.slice ⟨none, none, some (-1)⟩ else Ix.slice .full)
      (fun k => .slice (if k = ky ∨ k = kx then (a.shape.getD k 0 : Int) - 1 else 0)
        (if k = ky ∨ k = kx then -1 else 1) (a.shape.getD k 0)) a.shape hs (by
      intro k hk
      by_cases hc : k = ky ∨ k = kx <;> simp only [hc, if_true, if_false]
      · exact resolve_rev _
      · exact resolve_full _)
  rw [e1, e2]
  refine ⟨_, rfl, ?_, ?_⟩
  · simp only [NDArray.view, viewShape_slices]
    rw [← hs]
    exact (eq_tab 0 a.shape).symm
  · intro idx hi
    simp only [NDArray.view, viewShape_slices, viewIdx_slices] at hi ⊢
    rw [inB_tab] at hi
    congr 1
    apply ext_getD 0 (by simp [hi.1])
    intro k hk
    simp only [length_tab] at hk
    have hxl := hA.xlt
    have hyl := hA.ylt
    rw [getD_tab _ _ hk, getD_turnSrc hne _ (by omega) (by omega)]
    have := hi.2 k hk
    by_cases h1 : k = ky
    · subst h1; simp; omega
    · by_cases h2 : k = kx
      · subst h2; simp [h1]; omega
      · simp [h1, h2]

theorem swap_putYX (ky kx : Nat) (hne : ky ≠ kx) (l : List Nat) (a b : Nat) :
    (l.set kx a).set ky b = putYX ky kx l b a := by
  unfold putYX; exact List.set_comm _ _ (Ne.symm hne)

/-- `rotate_scalar_data` turns the horizontal plane. -/
theorem rotateScalar_eq (a : NDArray α) (dims : List Dim) {ky kx : Nat}
    (hA : HAxes dims ky kx) (hs : a.shape.length = dims.length) (n : Int) :
    ∃ r, rotateScalar a dims n = .ok r ∧ a.IsTurn ky kx n r := by
  have hne := hA.dne
  have hxl := hA.xlt
  have hyl := hA.ylt
  have hn : n % 4 = 0 ∨ n % 4 = 1 ∨ n % 4 = 2 ∨ n % 4 = 3 := by omega
  unfold rotateScalar
  simp only [pymod4, findAxes_eq hA]
  rcases hn with e | e | e | e
  · simp only [e, if_true]
    refine ⟨a, rfl, ?_, ?_⟩
    · unfold turnShape; rw [if_pos (by omega)]
    · intro idx _; unfold turnSrc; simp only [e, if_true]
  · simp only [e]
    rw [if_neg (by decide), if_pos (by decide), if_pos ⟨by omega, by omega⟩, if_pos trivial]
    refine ⟨_, rfl, ?_, ?_⟩
    · unfold turnShape; rw [if_neg (by omega)]
      rfl
    · intro idx hi
      have hl : idx.length = dims.length := by
        rw [inB_iff] at hi; rw [hi.1]; simpa [NDArray.rot90, pymod4, NDArray.swapAxes, NDArray.flip] using hs
      unfold turnSrc; simp only [e]
      simp only [NDArray.rot90, pymod4, NDArray.swapAxes, NDArray.flip]
      rw [if_neg (by decide), if_neg (by decide), if_pos (by decide)]
      simp only
      rw [if_neg (by decide), if_pos trivial]
      congr 1
      unfold putYX
      rw [List.set_set]
      congr 2
      rw [getD_set, if_pos ⟨rfl, by simp; omega⟩]
  · simp only [e]
    rw [if_neg (by decide), if_neg (by decide)]
    obtain ⟨r, h1, h2, h3⟩ := reverseHorizontal_eq a dims hA hs
    refine ⟨r, h1, ?_, ?_⟩
    · rw [h2]; unfold turnShape; rw [if_pos (by omega), if_pos (by omega)]
    · intro idx hi; rw [h3 idx hi]; unfold turnSrc; simp only [e]; rfl
  · simp only [e]
    rw [if_neg (by decide), if_pos (by decide), if_pos ⟨by omega, by omega⟩, if_neg (by decide)]
    refine ⟨_, rfl, ?_, ?_⟩
    · unfold turnShape; rw [if_neg (by omega)]
      simp only [NDArray.rot90, pymod4, NDArray.swapAxes, NDArray.flip]
      rw [if_neg (by decide), if_neg (by decide), if_pos (by decide)]
      dsimp only
      rw [swap_putYX _ _ hne]
    · intro idx hi
      have hl : idx.length = dims.length := by
        rw [inB_iff] at hi; rw [hi.1]; simpa [NDArray.rot90, pymod4, NDArray.swapAxes, NDArray.flip] using hs
      unfold turnSrc; simp only [e]
      simp only [NDArray.rot90, pymod4, NDArray.swapAxes, NDArray.flip]
      rw [if_neg (by decide), if_neg (by decide), if_pos (by decide)]
      simp only
      rw [if_neg (by decide), if_neg (by decide), if_neg (by decide)]
      congr 1
      apply ext_getD 0 (by simp)
      intro k hk
      rw [getD_putYX hne (by omega) (by omega)]
      simp only [getD_set, List.length_set]
      by_cases h1 : k = ky
      · subst h1; simp [hne, show k < idx.length by omega]
      · by_cases h2 : k = kx
        · subst h2; simp [h1, show k < idx.length by omega]
        · simp [h1, h2]

end FV3
