import Verif.Props.Views
import Batteries.Data.List.Perm
import Mathlib.Data.List.Nodup

/-!
# C31: transpose
-/

namespace FV3
variable {α : Type}

open Quantity (TDim)

/-- A target entry stands for the name `d`: it is that name, or an iterable of names of which `d`
is the only one the quantity has. -/
def Means (dims : List Dim) : TDim → Dim → Prop
  | .name n, d => n = d ∧ d ∈ dims
  | .anyOf ns, d => ns.filter (· ∈ dims) = [d]

/-- The datum at the coordinates `f` given by dimension name. -/
def Quantity.byName (q : Quantity α) (f : Dim → Nat) : α := q.data.get (q.dims.map f)

/-- The entry of a per-axis list that belongs to dimension `d`. -/
def ofName {β : Type} (dflt : β) (dims : List Dim) (l : List β) (d : Dim) : β :=
  l.getD (dims.idxOf d) dflt

theorem collapse_ok {dims : List Dim} {target : List TDim} {t : List Dim} :
    Quantity.collapseDims dims target = .ok t ↔ List.Forall₂ (Means dims) target t := by
  induction target generalizing t with
  | nil =>
    simp only [Quantity.collapseDims]
    constructor
    · intro h; cases h; exact .nil
    · intro h; cases h; rfl
  | cons x xs ih =>
    cases x with
    | name d =>
      simp only [Quantity.collapseDims]
      by_cases h : d ∈ dims
      · simp only [h, if_true]
        cases hr : Quantity.collapseDims dims xs with
        | error e =>
          constructor
          · intro h'; cases h'
          · intro h'
            cases h' with
            | cons h1 h2 => rw [ih.2 h2] at hr; cases hr
        | ok rest =>
          constructor
          · intro h'; cases h'; exact .cons ⟨rfl, h⟩ (ih.1 hr)
          · intro h'
            cases h' with
            | cons h1 h2 =>
              rw [ih.2 h2] at hr
              cases hr
              rw [← h1.1]; rfl
      · simp only [h, if_false]
        constructor
        · intro h'; cases h'
        · intro h'
          cases h' with
          | cons h1 h2 => exact absurd (h1.1 ▸ h1.2) h
    | anyOf ds =>
      simp only [Quantity.collapseDims]
      cases hf : ds.filter (· ∈ dims) with
      | nil =>
        constructor
        · intro h'; cases h'
        · intro h'
          cases h' with
          | cons h1 h2 => have h3 := hf.symm.trans h1; cases h3
      | cons d tl =>
        cases tl with
        | nil =>
          cases hr : Quantity.collapseDims dims xs with
          | error e =>
            constructor
            · intro h'; cases h'
            · intro h'
              cases h' with
              | cons h1 h2 => rw [ih.2 h2] at hr; cases hr
          | ok rest =>
            constructor
            · intro h'; cases h'; exact .cons hf (ih.1 hr)
            · intro h'
              cases h' with
              | cons h1 h2 =>
                rw [ih.2 h2] at hr
                cases hr
                have h3 := hf.symm.trans h1; cases h3
                rfl
        | cons d' tl =>
          constructor
          · intro h'; cases h'
          · intro h'
            cases h' with
            | cons h1 h2 => have h3 := hf.symm.trans h1; cases h3

theorem collapse_err {dims : List Dim} {target : List TDim} {e : PyErr}
    (h : Quantity.collapseDims dims target = .error e) : e = .valueError := by
  induction target generalizing e with
  | nil => cases h
  | cons x xs ih =>
    cases x with
    | name d =>
      simp only [Quantity.collapseDims] at h
      split at h
      · cases hr : Quantity.collapseDims dims xs with
        | error e' => rw [hr] at h; cases h; exact ih hr
        | ok r => rw [hr] at h; cases h
      · cases h; rfl
    | anyOf ds =>
      simp only [Quantity.collapseDims] at h
      split at h
      · cases h; rfl
      · cases hr : Quantity.collapseDims dims xs with
        | error e' => rw [hr] at h; cases h; exact ih hr
        | ok r => rw [hr] at h; cases h
      · cases h; rfl

theorem means_mem {dims : List Dim} {target : List TDim} {t : List Dim}
    (h : List.Forall₂ (Means dims) target t) : ∀ d ∈ t, d ∈ dims := by
  induction h with
  | nil => simp
  | @cons x d xs t h1 _ ih =>
    intro e he
    rcases List.mem_cons.1 he with rfl | he
    · cases x with
      | name n => exact h1.2
      | anyOf ns =>
        have : e ∈ ns.filter (· ∈ dims) := by unfold Means at h1; rw [h1]; simp
        simpa using (List.mem_filter.1 this).2
    · exact ih e he

theorem getD_idxOf {dims : List Dim} {d : Dim} (h : d ∈ dims) : dims.getD (dims.idxOf d) .x = d := by
  rw [getD_lt _ (List.idxOf_lt_length_of_mem h)]
  exact List.getElem_idxOf _

theorem idxOf_inj' {dims : List Dim} {d e : Dim} (hd : d ∈ dims) (he : e ∈ dims)
    (h : dims.idxOf d = dims.idxOf e) : d = e := by
  rw [← getD_idxOf hd, h, getD_idxOf he]

theorem transposeSeq_dims {dims t : List Dim} (h : ∀ d ∈ t, d ∈ dims) :
    Quantity.transposeSeq .x dims (t.map fun d => dims.idxOf d) = t := by
  unfold Quantity.transposeSeq
  rw [List.map_map]
  conv_rhs => rw [← List.map_id t]
  apply List.map_congr_left
  intro d hd
  exact getD_idxOf (h d hd)

/-- The success condition and the result. -/
theorem transpose_eq (q : Quantity α) (hq : q.Lens) (hnd : q.dims.Nodup) (target : List TDim) :
    (∀ t, List.Forall₂ (Means q.dims) target t → t.Perm q.dims →
      q.transpose target = .ok
        { data := q.data.transpose (t.map fun d => q.dims.idxOf d), dims := t, units := q.units
          origin := t.map (ofName 0 q.dims q.origin), extent := t.map (ofName 0 q.dims q.extent) }) ∧
    ((∀ t, List.Forall₂ (Means q.dims) target t → ¬ t.Perm q.dims) →
      q.transpose target = .error .valueError) := by
  have hmk : ∀ t : List Dim, (∀ d ∈ t, d ∈ q.dims) → 
      Quantity.mk? (q.data.transpose (t.map fun d => q.dims.idxOf d))
        (Quantity.transposeSeq .x q.dims (t.map fun d => q.dims.idxOf d)) q.units
        (some (Quantity.transposeSeq 0 q.origin (t.map fun d => q.dims.idxOf d)))
        (some (Quantity.transposeSeq 0 q.extent (t.map fun d => q.dims.idxOf d))) = .ok
        { data := q.data.transpose (t.map fun d => q.dims.idxOf d), dims := t, units := q.units
          origin := t.map (ofName 0 q.dims q.origin), extent := t.map (ofName 0 q.dims q.extent) } := by
    intro t ht
    rw [transposeSeq_dims ht]
    unfold Quantity.mk? validateLengths Quantity.transposeSeq
    simp only [Option.getD_some, NDArray.transpose, List.length_map]
    simp only [ne_eq, not_true, if_false, List.map_map]
    rfl
  constructor
  · intro t h1 h2
    unfold Quantity.transpose
    rw [collapse_ok.2 h1]
    have hcond : (t.map fun d => q.dims.idxOf d).length = q.data.shape.length ∧
        (t.map fun d => q.dims.idxOf d).Nodup ∧
        ∀ k ∈ (t.map fun d => q.dims.idxOf d), k < q.data.shape.length := by
      refine ⟨by rw [List.length_map, h2.length_eq, hq.shape]; rfl, ?_, ?_⟩
      · rw [List.nodup_map_iff_inj_on (h2.nodup_iff.2 hnd)]
        intro a ha b hb hab
        exact idxOf_inj' (h2.subset ha) (h2.subset hb) hab
      · intro k hk
        obtain ⟨d, hd, rfl⟩ := List.mem_map.1 hk
        rw [hq.shape]
        exact List.idxOf_lt_length_of_mem (h2.subset hd)
    simp only [bind, Except.bind, Quantity.npTranspose]
    rw [if_pos hcond]
    exact hmk t (fun d hd => h2.subset hd)
  · intro h
    unfold Quantity.transpose
    cases hc : Quantity.collapseDims q.dims target with
    | error e => rw [collapse_err hc]; rfl
    | ok t =>
      have h1 := collapse_ok.1 hc
      have hm := means_mem h1
      simp only [bind, Except.bind, Quantity.npTranspose]
      rw [if_neg]
      rintro ⟨c1, c2, c3⟩
      apply h t h1
      have : t.Nodup := List.Nodup.of_map _ c2
      exact (List.subperm_of_subset this hm).perm_of_length_le (by
        rw [List.length_map, hq.shape] at c1; rw [c1]; exact Nat.le_refl _)

/-- Moving data by an order of names keeps every datum under its name. -/
theorem transpose_byName (q : Quantity α) (hnd : q.dims.Nodup) (t : List Dim)
    (hp : t.Perm q.dims) (f : Dim → Nat) :
    (q.data.transpose (t.map fun d => q.dims.idxOf d)).get (t.map f) = q.data.get (q.dims.map f) := by
  unfold NDArray.transpose
  dsimp only
  congr 1
  rw [List.length_map, hp.length_eq]
  apply ext_getD 0 (by simp)
  intro k hk
  have hk' : k < q.dims.length := by simpa using hk
  rw [getD_lt _ hk, getD_lt _ (by simpa using hk')]
  simp only [List.getElem_map, List.getElem_range]
  have hin : q.dims[k] ∈ t := hp.symm.subset (List.getElem_mem hk')
  have hidx : q.dims.idxOf q.dims[k] = k := hnd.idxOf_getElem k hk'
  have hmem : k ∈ (t.map fun d => q.dims.idxOf d) := List.mem_map.2 ⟨_, hin, hidx⟩
  have hlt := List.idxOf_lt_length_of_mem hmem
  have hlt' : (t.map fun d => q.dims.idxOf d).idxOf k < t.length := by simpa using hlt
  rw [getD_lt _ (by simpa using hlt')]
  simp only [List.getElem_map]
  have h1 := List.getElem_idxOf hlt
  simp only [List.getElem_map] at h1
  congr 1
  have h2 := idxOf_inj' (hp.subset (List.getElem_mem hlt')) (List.getElem_mem hk') (h1.trans hidx.symm)
  exact h2

theorem ofName_map {β : Type} (dflt : β) (dims t : List Dim) (l : List β) {d : Dim} (hd : d ∈ t) :
    ofName dflt t (t.map (ofName dflt dims l)) d = ofName dflt dims l d := by
  conv_lhs => unfold ofName
  rw [getD_lt _ (by simpa using List.idxOf_lt_length_of_mem hd)]
  simp only [List.getElem_map]
  rw [List.getElem_idxOf]
  rfl

/-- **C31**: `q.transpose(target)` succeeds exactly when the target entries stand for a
rearrangement of the quantity's names; every failure is a ValueError. -/
theorem C31_transpose_defined (q : Quantity α) (hq : q.Lens) (hnd : q.dims.Nodup)
    (target : List TDim) :
    ((∃ r, q.transpose target = .ok r) ↔
      ∃ t, List.Forall₂ (Means q.dims) target t ∧ t.Perm q.dims) ∧
    (∀ e, q.transpose target = .error e → e = .valueError) := by
  have h := transpose_eq q hq hnd target
  by_cases hex : ∃ t, List.Forall₂ (Means q.dims) target t ∧ t.Perm q.dims
  · obtain ⟨t, h1, h2⟩ := hex
    rw [h.1 t h1 h2]
    exact ⟨⟨fun _ => ⟨t, h1, h2⟩, fun _ => ⟨_, rfl⟩⟩, fun e he => by cases he⟩
  · rw [h.2 (fun t h1 h2 => hex ⟨t, h1, h2⟩)]
    refine ⟨⟨?_, fun h => absurd h hex⟩, fun e he => by cases he; rfl⟩
    rintro ⟨r, hr⟩; cases hr

/-- **C31**: transposing keeps, name by name, origin, extent, axis length and every datum, and the
units; the names come in the target order. -/
theorem C31_transpose_by_name (q : Quantity α) (hq : q.Lens) (hnd : q.dims.Nodup)
    (target : List TDim) (r : Quantity α) (h : q.transpose target = .ok r) :
    List.Forall₂ (Means q.dims) target r.dims ∧ r.dims.Perm q.dims ∧ r.Lens ∧ r.units = q.units ∧
    (∀ d ∈ q.dims, ofName 0 r.dims r.origin d = ofName 0 q.dims q.origin d ∧
      ofName 0 r.dims r.extent d = ofName 0 q.dims q.extent d ∧
      ofName 0 r.dims r.data.shape d = ofName 0 q.dims q.data.shape d) ∧
    ∀ f, r.byName f = q.byName f := by
  obtain ⟨t, h1, h2⟩ := (C31_transpose_defined q hq hnd target).1.1 ⟨r, h⟩
  rw [(transpose_eq q hq hnd target).1 t h1 h2] at h
  cases h
  refine ⟨h1, h2, ⟨?_, ?_, ?_⟩, rfl, ?_, ?_⟩
  · simp [NDArray.transpose, Quantity.ndim]
  · simp [Quantity.ndim]
  · simp [Quantity.ndim]
  · intro d hd
    have hd' : d ∈ t := h2.symm.subset hd
    refine ⟨ofName_map 0 q.dims t q.origin hd', ofName_map 0 q.dims t q.extent hd', ?_⟩
    have : (q.data.transpose (t.map fun d => q.dims.idxOf d)).shape =
        t.map (ofName 0 q.dims q.data.shape) := by
      simp [NDArray.transpose, List.map_map, Function.comp_def, ofName]
    rw [show (Quantity.mk (q.data.transpose (t.map fun d => q.dims.idxOf d)) t q.units
      (t.map (ofName 0 q.dims q.origin)) (t.map (ofName 0 q.dims q.extent))).data.shape = _ from this]
    exact ofName_map 0 q.dims t q.data.shape hd'
  · intro f
    exact transpose_byName q hnd t h2 f

theorem means_names {dims : List Dim} (l t : List Dim)
    (h : List.Forall₂ (Means dims) (l.map TDim.name) t) : t = l := by
  induction l generalizing t with
  | nil => cases h; rfl
  | cons d l ih =>
    cases h with
    | cons h1 h2 => rw [← h1.1, ih _ h2]

theorem means_self {dims : List Dim} (l : List Dim) (h : ∀ d ∈ l, d ∈ dims) :
    List.Forall₂ (Means dims) (l.map TDim.name) l := by
  induction l with
  | nil => exact .nil
  | cons d l ih =>
    exact .cons ⟨rfl, h d (by simp)⟩ (ih fun e he => h e (by simp [he]))

/-- **C31**: transposing back to the original order gives the original quantity. -/
theorem C31_transpose_back (q : Quantity α) (hq : q.Lens) (hnd : q.dims.Nodup)
    (target : List TDim) (r : Quantity α) (h : q.transpose target = .ok r) :
    ∃ q', r.transpose (q.dims.map TDim.name) = .ok q' ∧ q'.dims = q.dims ∧ q'.units = q.units ∧
      q'.origin = q.origin ∧ q'.extent = q.extent ∧ q'.data.Eqv q.data := by
  obtain ⟨_, p1, l1, u1, n1, b1⟩ := C31_transpose_by_name q hq hnd target r h
  have hnd' : r.dims.Nodup := p1.nodup_iff.2 hnd
  obtain ⟨q', hq'⟩ := (C31_transpose_defined r l1 hnd' (q.dims.map TDim.name)).1.2
    ⟨q.dims, means_self _ (fun d hd => p1.symm.subset hd), p1.symm⟩
  obtain ⟨m2, p2, l2, u2, n2, b2⟩ := C31_transpose_by_name r l1 hnd' _ q' hq'
  have hd : q'.dims = q.dims := means_names _ _ m2
  have hname : ∀ k (hk : k < q.dims.length), q.dims.idxOf q.dims[k] = k :=
    fun k hk => hnd.idxOf_getElem k hk
  have key : ∀ {β : Type} (dflt : β) (l l' : List β), l.length = q.dims.length →
      l'.length = q.dims.length →
      (∀ d ∈ q.dims, ofName dflt q.dims l d = ofName dflt q.dims l' d) → l = l' := by
    intro β dflt l l' h1 h2 h3
    apply ext_getD dflt (by omega)
    intro k hk
    have := h3 _ (List.getElem_mem (h1 ▸ hk))
    unfold ofName at this
    rwa [hname k (h1 ▸ hk)] at this
  have lens2 := l2
  refine ⟨q', hq', hd, by rw [u2, u1], ?_, ?_, ?_, ?_⟩
  · refine key 0 _ _ (by rw [l2.origin, Quantity.ndim, hd]) hq.origin fun d hdm => ?_
    have a := n2 d (p1.symm.subset hdm)
    rw [hd] at a
    exact a.1.trans (n1 d hdm).1
  · refine key 0 _ _ (by rw [l2.extent, Quantity.ndim, hd]) hq.extent fun d hdm => ?_
    have a := n2 d (p1.symm.subset hdm)
    rw [hd] at a
    exact a.2.1.trans (n1 d hdm).2.1
  · refine key 0 _ _ (by rw [l2.shape, Quantity.ndim, hd]) hq.shape fun d hdm => ?_
    have a := n2 d (p1.symm.subset hdm)
    rw [hd] at a
    exact a.2.2.trans (n1 d hdm).2.2
  · intro idx hi
    have hlen : idx.length = q.dims.length := by
      rw [inB_iff] at hi; rw [hi.1, l2.shape, Quantity.ndim, hd]
    have e : idx = q.dims.map (fun d => idx.getD (q.dims.idxOf d) 0) := by
      apply ext_getD 0 (by simpa using hlen)
      intro k hk
      rw [getD_lt (l := q.dims.map _) _ (by simpa [← hlen] using hk)]
      simp only [List.getElem_map]
      rw [hname k (by omega)]
    have b := (b2 (fun d => idx.getD (q.dims.idxOf d) 0)).trans (b1 _)
    unfold Quantity.byName at b
    rw [hd, ← e] at b
    exact b

example : exQ.dims.Nodup := by decide
example : (exQ.transpose [.anyOf [.z, .zI], .name .x, .anyOf [.y, .yI]]).map
    (fun r => (r.dims, r.origin, r.extent, r.data.get [1, 3, 2])) =
    .ok ([.z, .x, .y], [0, 2, 2], [2, 4, 3], 231) := by decide +kernel
example : (exQ.transpose [.anyOf [.z, .zI], .name .xI, .anyOf [.y, .yI]]).map (fun r => r.dims) =
    .error .valueError := by decide +kernel

end FV3
