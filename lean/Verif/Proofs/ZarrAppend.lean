import Verif.Proofs.ZarrPart

/-!
# One step of a writer
-/

namespace FV3
namespace Zarr
variable {α A B R : Type}

theorem WM.self_bind (f : Writer → WM α A) (w : Writer) : (WM.self >>= f) w = f w w := rfl
theorem WM.lift_bind (x : A) (f : A → WM α B) (w : Writer) : (WM.lift (.ok x) >>= f) w = f x w := rfl
theorem WM.update_bind (g : Writer → Writer) (f : Unit → WM α A) (w : Writer) : (WM.update g >>= f) w = f () (g w) := rfl
theorem WM.getInfo_bind (name : String) (f : Option Info → WM α A) (w : Writer) :
    (WM.getInfo name >>= f) w = .getInfo name fun x => f x w := rfl
theorem WM.putInfo_bind (name : String) (i : Info) (f : Unit → WM α A) (w : Writer) :
    (WM.putInfo name i >>= f) w = .putInfo name i (f () w) := rfl
theorem WM.coll_bind (c : Coll) (f : Option String → WM α A) (w : Writer) :
    (WM.coll c >>= f) w = .coll c fun x => f x w := rfl
theorem WM.pure_bind (x : A) (f : A → WM α B) (w : Writer) : (WM.pure x >>= f) w = f x w := rfl

/-- Success, with the value and the writer as given. -/
def OkPost (P : A → Writer → Prop) : Py A × Writer → Prop := fun x => ∃ a, x.1 = .ok a ∧ P a x.2

section
variable {own : String → List Nat → Int} {r : Int} {L L' L1 L2 : Store α} {n n' : Nat} {kn : Known} {gs gs' : List GItem}

theorem Runs.wbind {m : WM α A} {f : A → WM α B} {w : Writer} {P : A → Writer → Prop} {Q' : Py B × Writer → Prop}
    (h : Runs own r (OkPost P) L1 (m w) n L kn gs)
    (h' : ∀ a w', P a w' → Runs own r Q' L2 (f a w') n' L1 [] gs') :
    Runs own r Q' L2 ((m >>= f) w) (n + n') L kn (gs ++ gs') := by
  show Runs own r Q' L2 ((m w).bind _) _ _ _ _
  refine h.bind ?_
  rintro ⟨x, w'⟩ ⟨a, hx, hP⟩
  simp only at hx hP
  subst hx
  exact h' a w' hP

theorem RunsI.wbindI {I1 I : Store α → List GItem → Prop} {m : WM α A} {f : A → WM α B} {w : Writer}
    {P : A → Writer → Prop} {Q' : Py B × Writer → Prop}
    (h : RunsI own I1 r (OkPost P) L1 (m w) n L kn gs) (hI : ∀ L g, I1 L g → I L (g ++ gs'))
    (h' : ∀ a w', P a w' → RunsI own I r Q' L2 (f a w') n' L1 [] gs') :
    RunsI own I r Q' L2 ((m >>= f) w) (n + n') L kn (gs ++ gs') := by
  show RunsI own I r Q' L2 ((m w).bind _) _ _ _ _
  refine h.bindI hI ?_
  rintro ⟨x, w'⟩ ⟨a, hx, hP⟩
  simp only at hx hP
  subst hx
  exact h' a w' hP

/-- The same for an invariant about the store only. -/
theorem RunsI.wbindS {J : Store α → Prop} {m : WM α A} {f : A → WM α B} {w : Writer}
    {P : A → Writer → Prop} {Q' : Py B × Writer → Prop}
    (h : RunsI own (fun L _ => J L) r (OkPost P) L1 (m w) n L kn gs)
    (h' : ∀ a w', P a w' → RunsI own (fun L _ => J L) r Q' L2 (f a w') n' L1 [] gs') :
    RunsI own (fun L _ => J L) r Q' L2 ((m >>= f) w) (n + n') L kn (gs ++ gs') :=
  h.wbindI (fun _ _ h => h) h'

theorem raiseIf_no {b : Prop} [Decidable b] {e : PyErr} (h : ¬ b) : raiseIf b e = .ok () := if_neg h

theorem Store.putInfo_get (L : Store α) (name : String) (i : Info) : (L.putInfo name i).infos name = some i := by
  simp [Store.putInfo]

theorem Store.putInfo_ne (L : Store α) {name nm : String} (i : Info) (h : nm ≠ name) :
    (L.putInfo name i).infos nm = L.infos nm := by simp [Store.putInfo, h]

theorem Store.putInfo_putInfo (L : Store α) (name : String) (i j : Info) :
    (L.putInfo name i).putInfo name j = L.putInfo name j := by
  simp only [Store.putInfo]
  congr 1
  funext n
  split_ifs <;> rfl

theorem Info.le_attrs (i : Info) (a : Attrs) : i.le { i with attrs := a } := ⟨rfl, rfl, Nat.le_refl _, rfl⟩

theorem createDataset_runs {name : String} {shape chunks : List Nat} {w : Writer} (hL : L.infos name = none)
    (h0 : 0 ∉ chunks) :
    Runs own 0 (OkPost fun h w' => h = ⟨name, shape, chunks⟩ ∧ w' = w) (L.putInfo name ⟨shape, chunks, {}⟩)
      (createDataset name shape chunks w) 2 L kn [] := by
  unfold createDataset
  rw [WM.getInfo_bind]
  refine .getInfoRoot rfl ?_
  rw [raiseIf_no (by rw [hL]; decide), WM.lift_bind, raiseIf_no h0, WM.lift_bind, WM.putInfo_bind]
  refine .putInfo rfl (by intro i0 hi; rw [hL] at hi; cases hi) ?_
  exact .ret ⟨_, rfl, rfl, rfl⟩

theorem updateAttrs_runs {h : Handle} {f : Attrs → Attrs} {i : Info} {w : Writer} (hL : L.infos h.name = some i) :
    Runs own 0 (OkPost fun _ w' => w' = w) (L.putInfo h.name { i with attrs := f i.attrs })
      (updateAttrs h f w) 2 L kn [] := by
  unfold updateAttrs
  rw [WM.getInfo_bind]
  refine .getInfoRoot rfl ?_
  rw [hL]
  simp only [need]
  rw [WM.lift_bind]
  refine .putInfo rfl ?_ (.ret ⟨_, rfl, rfl⟩)
  intro i0 hi
  rw [hL] at hi
  cases hi
  exact Info.le_attrs _ _

theorem sync_root {w : Writer} {h : Handle} {i : Info} (hw : w.array = some h) (hL : L.infos h.name = some i) :
    Runs own 0 (OkPost fun _ w' => w' = w) L (syncArray 0 w) 2 L kn [⟨.bcast (some h.name), some i⟩] := by
  unfold syncArray
  rw [WM.self_bind, WM.coll_bind, hw]
  refine .collRoot rfl rfl ?_ ?_
  · intro name hn
    injection hn with hn
    injection hn with hn
    have hn : h.name = name := hn
    rw [← hn, hL]
    exact ⟨rfl, rfl⟩
  · unfold when
    rw [if_neg (by simp [ROOT_RANK])]
    exact .ret ⟨_, rfl, rfl⟩

theorem sync_other {w : Writer} (hr : r ≠ 0) {g : GItem} {name : String} {i0 : Info} (hg : g.coll = .bcast (some name))
    (hi : g.info = some i0) :
    Runs own r (OkPost fun _ w' => ∃ i : Info, i0.le i ∧ w' = { w with array := some ⟨name, i.shape, i.chunks⟩ }) L
      (syncArray r w) 3 L kn [g] := by
  unfold syncArray
  rw [WM.self_bind, WM.coll_bind]
  refine .collOther (n := 1) hr (by rw [hg]; rfl) ?_
  rw [hg]
  unfold when
  rw [if_pos (show r ≠ ROOT_RANK from hr)]
  simp only [Coll.payload, receiveArray]
  rw [WM.getInfo_bind]
  refine .getInfoOther (i0 := i0) hr ?_ ?_
  · unfold GItem.learn; rw [hg, hi]; exact List.mem_cons_self
  · intro i hle
    simp only [need]
    rw [WM.lift_bind]
    exact .ret ⟨_, rfl, i, hle, rfl⟩

theorem resize_runs {h : Handle} {shape : List Nat} {i : Info} {w : Writer} (hL : L.infos h.name = some i)
    (hlen : shape.length = h.shape.length)
    (hgrow : (List.zipWith (fun (a b : Nat) => decide (a ≤ b)) h.shape shape).all id = true)
    (hle : i.le { i with shape := shape }) :
    Runs own 0 (OkPost fun h' w' => h' = { h with shape := shape } ∧ w' = w) (L.putInfo h.name { i with shape := shape })
      (resize h shape w) 2 L kn [] := by
  unfold resize
  rw [raiseIf_no (by simp [hlen]), WM.lift_bind, raiseIf_no (by simp [hgrow]), WM.lift_bind, WM.getInfo_bind]
  refine .getInfoRoot rfl ?_
  rw [hL]
  simp only [need]
  rw [WM.lift_bind, WM.putInfo_bind]
  refine .putInfo rfl ?_ (.ret ⟨_, rfl, rfl, rfl⟩)
  intro i0 hi
  rw [hL] at hi
  cases hi
  exact hle

theorem getAttrs_runs {h : Handle} {i : Info} {w : Writer} (hL : L.infos h.name = some i) :
    Runs own 0 (OkPost fun a w' => a = i.attrs ∧ w' = w) L (getAttrs h w) 1 L kn [] := by
  unfold getAttrs
  rw [WM.getInfo_bind]
  refine .getInfoRoot rfl ?_
  rw [hL]
  simp only [need]
  rw [WM.lift_bind]
  exact .ret ⟨_, rfl, rfl, rfl⟩

theorem makeArray_runs {make : WM α Handle} {attrs : Attrs} {w : Writer} {name : String} {shape chunks : List Nat}
    (hmake : Runs own 0 (OkPost fun h w' => h = ⟨name, shape, chunks⟩ ∧ w' = w) (L.putInfo name ⟨shape, chunks, {}⟩)
      (make w) 2 L kn []) :
    Runs own 0 (OkPost fun _ w' => w' = { w with array := some ⟨name, shape, chunks⟩ })
      (L.putInfo name ⟨shape, chunks, attrs⟩) (makeArray make attrs w) 4 L kn [] := by
  unfold makeArray
  have := hmake.wbind (f := fun h => (do
      WM.update fun w => { w with array := some h }
      updateAttrs h fun a => { attrs with units := attrs.units.or a.units, calendar := attrs.calendar.or a.calendar } : WM α Unit))
    (Q' := OkPost fun _ w' => w' = { w with array := some ⟨name, shape, chunks⟩ })
    (L2 := L.putInfo name ⟨shape, chunks, attrs⟩) (n' := 2) (gs' := []) (by
      rintro h w' ⟨rfl, rfl⟩
      rw [WM.update_bind]
      have := updateAttrs_runs (own := own) (kn := []) (L := L.putInfo name ⟨shape, chunks, {}⟩) (h := ⟨name, shape, chunks⟩)
        (f := fun a => { attrs with units := attrs.units.or a.units, calendar := attrs.calendar.or a.calendar })
        (i := ⟨shape, chunks, {}⟩) (w := { w' with array := some ⟨name, shape, chunks⟩ }) (Store.putInfo_get _ _ _)
      rw [Store.putInfo_putInfo] at this
      simpa using this)
  exact this

theorem initZarr_root {make : WM α Handle} {attrs : Attrs} {w : Writer} {name : String} {shape chunks : List Nat}
    (hmake : ∀ kn, Runs own 0 (OkPost fun h w' => h = ⟨name, shape, chunks⟩ ∧ w' = w) (L.putInfo name ⟨shape, chunks, {}⟩)
      (make w) 2 L kn []) :
    Runs own 0 (OkPost fun _ w' => w' = { w with array := some ⟨name, shape, chunks⟩ })
      (L.putInfo name ⟨shape, chunks, attrs⟩) (initZarr 0 make attrs w) 6 L kn
      [⟨.bcast (some name), some ⟨shape, chunks, attrs⟩⟩] := by
  unfold initZarr when
  rw [if_pos (show (0 : Int) = ROOT_RANK from rfl)]
  refine (makeArray_runs (hmake kn)).wbind (n := 4) (n' := 2) (gs := []) ?_
  rintro _ w' rfl
  exact sync_root (h := ⟨name, shape, chunks⟩) rfl (Store.putInfo_get _ _ _)

theorem initZarr_other {make : WM α Handle} {attrs : Attrs} {w : Writer} (hr : r ≠ 0) {g : GItem} {name : String}
    {i0 : Info} (hg : g.coll = .bcast (some name)) (hi : g.info = some i0) :
    Runs own r (OkPost fun _ w' => ∃ i : Info, i0.le i ∧ w' = { w with array := some ⟨name, i.shape, i.chunks⟩ }) L
      (initZarr r make attrs w) 3 L kn [g] := by
  unfold initZarr when
  rw [if_neg (show ¬ r = ROOT_RANK from hr), WM.pure_bind]
  exact sync_other hr hg hi

end

/-! ### Variables -/

section
variable {l : Layout} {dims : List Dim} {cells tile : List Int} {ky kx : Nat}

/-- The quantity of a rank. -/
structure PartQ (q : Quantity α) (dims : List Dim) (cells : List Int) : Prop where
  shaped : q.RankShaped dims cells
  names : q.dims = dims

theorem PartQ.tileExtent {q : Quantity α} (hq : PartQ q dims cells) (h : TileVar l dims cells tile ky kx) :
    tileExtentFromRankMetadata q.dims q.extent l = tile := by
  rw [hq.names]
  have hR := hq.shaped.extent
  apply ext_getD 0
  · rw [tileExtent_length _ _ _ hR.2.1, h.tile.2.1]
  · intro k hk
    rw [tileExtent_length _ _ _ hR.2.1] at hk
    have h1 := rankOf_getD hR hk
    have h2 := tileExtent_get dims q.extent l k _ _ (get?_of_lt dims .x hk)
      (get?_of_lt q.extent 0 (by rw [hR.2.1]; exact hk))
    rw [List.getD_eq_getElem?_getD, h2, Option.getD_some, h1.2, (tileOf_getD h.tile hk).2.2]
    congr 2
    omega

/-- The value that is stored. -/
theorem part_value {q : Quantity α} (hq : PartQ q dims cells) (h : TileVar l dims cells tile ky kx) (r : Int) :
    ∃ v0 v, q.viewGet (.one (.slice .full)) = .ok v0 ∧
      v0.getItem ((FV3.subtileSlice dims tile l (subtileIndex l r) false).map fun s => .slice (.of 0 (s.2 - s.1))) = .ok v ∧
      v.shape = (FV3.subtileSlice dims tile l (subtileIndex l r) false).map (fun s => (s.2 - s.1).toNat) ∧
      ∀ rel, Stored l dims cells r rel → v.get rel = q.computeArr.get rel := by
  have hR := hq.shaped.extent
  have hnd : q.ndim = dims.length := by
    rw [← hR.2.1]; exact (hq.shaped.wf.extent).symm
  obtain ⟨v0, hv0, hsh, hget⟩ := C29_view_all q hq.shaped.wf (by rw [hnd]; have := h.axes.ylt; omega)
  have e1 : ((FV3.subtileSlice dims tile l (subtileIndex l r) false).map fun s => Ix.slice (.of 0 (s.2 - s.1))) =
      tab dims.length fun k => .slice (.of 0 (lenAt l dims cells r k)) := by
    rw [h.slices r]
    unfold tab
    rw [List.map_map]
    apply List.map_congr_left
    intro k _
    simp only [Function.comp]
    congr 2
    omega
  have e2 : ((FV3.subtileSlice dims tile l (subtileIndex l r) false).map fun s => (s.2 - s.1).toNat) =
      tab dims.length fun k => (lenAt l dims cells r k).toNat := by
    rw [h.slices r]
    unfold tab
    rw [List.map_map]
    apply List.map_congr_left
    intro k _
    simp only [Function.comp]
    congr 1
    omega
  have hlen0 : v0.shape.length = dims.length := by rw [hsh, List.length_map, hR.2.1]
  have hsk : ∀ k, k < dims.length → ((v0.shape.getD k 0 : Nat) : Int) = cells.getD k 0 + nShared (dims.getD k .x) := by
    intro k hk
    have h1 := rankOf_getD hR hk
    have := nShared_range (dims.getD k .x)
    rw [hsh, toNat_of_getD (by rw [hR.2.1]; exact hk) (by omega), h1.2]
  have hres := resolveAll_box dims.length (fun _ => 0) (lenAt l dims cells r) v0.shape hlen0 (by
    intro k hk
    have h1 := lenAt_le (l := l) (dims := dims) (cells := cells) r k
    have h2 := h.cells k hk
    rw [hsk k hk]
    omega)
  refine ⟨v0, _, hv0, by rw [e1]; unfold NDArray.getItem; rw [hres]; rfl, ?_, ?_⟩
  · rw [e2]
    show viewShape _ = _
    rw [viewShape_box]
    simp
  · intro rel hrel
    show v0.get (viewIdx _ rel) = _
    have e3 : viewIdx (boxRs dims.length (fun _ => (0 : Int)) fun k => (lenAt l dims cells r k - 0).toNat) rel = rel := by
      rw [viewIdx_box]
      apply ext_getD 0 (by simp [hrel.1])
      intro k hk
      have hk' : k < dims.length := by simpa using hk
      rw [getD_tab _ _ hk']
      omega
    rw [e3, hget rel ?_]
    · rfl
    · rw [inB_iff]
      refine ⟨by rw [hrel.1, hlen0], ?_⟩
      intro k hk
      rw [hlen0] at hk
      have h1 := hrel.2 k hk
      have h2 := (lenAt_le (l := l) (dims := dims) (cells := cells) r k).2
      have h3 := hsk k hk
      omega

theorem putChunks_congr (junk : List Nat → α) {h h' : Handle} (hn : h.name = h'.name) (hc : h.chunks = h'.chunks)
    (box : List (Nat × Nat)) (nInts : Nat) (value : NDArray α) : ∀ (cis : List (List Nat)) (L : Store α),
    putChunks junk h box nInts value cis L = putChunks junk h' box nInts value cis L
  | [], _ => rfl
  | ci :: cis, L => by rw [putChunks, putChunks, hn, hc, putChunks_congr junk hn hc]

theorem tile_toNat (h : TileVar l dims cells tile ky kx) : (tile.map Int.toNat).map Int.ofNat = tile := by
  apply ext_getD 0 (by simp)
  intro k hk
  have hk' : k < dims.length := by simp [h.tile.2.1] at hk; exact hk
  obtain ⟨h1, h2, h3⟩ := tileOf_getD h.tile hk'
  have hn := ranksAlong_pos h.safe (dims.getD k .x)
  have hs := nShared_range (dims.getD k .x)
  have h4 : 0 ≤ cells.getD k 0 * ranksAlong l (dims.getD k .x) := Int.mul_nonneg h1 (by omega)
  have h5 := toNat_of_getD (tile := tile) (k := k) (by rw [h.tile.2.1]; exact hk') (by omega)
  rw [← h5, List.getD_eq_getElem?_getD, List.getElem?_map, get?_of_lt (tile.map Int.toNat) 0 (by simpa [h.tile.2.1] using hk')]
  rfl

/-- The chunks of rank `r` at step `t`. -/
def partCis (l : Layout) (dims : List Dim) (cells : List Int) (r : Int) (t : Nat) : List (List Nat) :=
  boxIdx (chunkBox (partBox l dims cells r t) (varChunks cells))

theorem setSelection_runs {own : String → List Nat → Int} (junk : List Nat → α) (h : TileVar l dims cells tile ky kx)
    {r : Int} (hr : r ∈ (Comm.cube l).ranks) {name : String}
    {t T : Nat} (hown : ∀ ci ∈ partCis l dims cells r t, own name ci = r) (hT : t < T) {v : NDArray α}
    (hv : v.shape = (FV3.subtileSlice dims tile l (subtileIndex l r) false).map fun s => (s.2 - s.1).toNat)
    (w : Writer) (L : Store α) (kn : Known) :
    Runs own r (OkPost fun _ w' => w' = w)
      (putChunks junk ⟨name, [], varChunks cells⟩ (partBox l dims cells r t) 2 v (partCis l dims cells r t) L)
      (setSelection junk ⟨name, T :: 6 :: tile.map Int.toNat, varChunks cells⟩ [(t : Int), r / (l.y * l.x)]
        (FV3.subtileSlice dims tile l (subtileIndex l r) false) v w)
      (2 * (partCis l dims cells r t).length) L kn [] := by
  have hp0 : 0 < l.y * l.x := Int.mul_pos h.safe.ypos h.safe.xpos
  have hrr := (mem_ranks (.cube l) r).1 hr
  have hti0 : 0 ≤ r / (l.y * l.x) := Int.ediv_nonneg hrr.1 (by omega)
  have hti1 : r / (l.y * l.x) < 6 := Int.ediv_lt_of_lt_mul hp0 hrr.2
  have hsl := h.slices r
  unfold setSelection
  rw [raiseIf_no, WM.lift_bind, raiseIf_no, WM.lift_bind, raiseIf_no, WM.lift_bind, raiseIf_no, WM.lift_bind]
  · unfold when
    rw [if_pos]
    · have ebox : ([(t : Int), r / (l.y * l.x)].map fun i => (i.toNat, i.toNat + 1)) ++
          (FV3.subtileSlice dims tile l (subtileIndex l r) false).map (fun s => (s.1.toNat, s.2.toNat)) =
          partBox l dims cells r t := by
        rw [hsl]
        unfold partBox tab
        rw [List.map_map]
        simp only [List.map_cons, List.map_nil, Int.toNat_natCast, List.cons_append, List.nil_append]
        rfl
      rw [ebox]
      have hrun := storeChunks_runs (own := own) (r := r) junk ⟨name, T :: 6 :: tile.map Int.toNat, varChunks cells⟩
        (partBox l dims cells r t) 2 v w kn (partCis l dims cells r t) L hown
      rw [putChunks_congr junk (h := ⟨name, T :: 6 :: tile.map Int.toNat, varChunks cells⟩)
        (h' := ⟨name, [], varChunks cells⟩) rfl rfl] at hrun
      exact hrun.mono (by rintro x rfl; exact ⟨(), rfl, rfl⟩)
    · rw [hsl, List.all_eq_true]
      intro s hs
      unfold tab at hs
      obtain ⟨k, hk, rfl⟩ := List.mem_map.1 hs
      have hk' : k < dims.length := List.mem_range.1 hk
      have h1 := (lenAt_le (l := l) (dims := dims) (cells := cells) r k).1
      have h2 := h.cells k hk'
      simp only [decide_eq_true_eq]
      omega
  · simpa using hv
  · simp only [Decidable.not_not]
    rw [hsl, List.all_eq_true]
    intro b hb
    obtain ⟨k, hk⟩ := List.getElem?_of_mem hb
    rw [List.getElem?_zipWith] at hk
    have hk' : k < dims.length := by
      by_contra hc
      rw [List.getElem?_eq_none (by simpa using hc)] at hk
      simp at hk
    have e : List.drop [(t : Int), r / (l.y * l.x)].length (T :: 6 :: tile.map Int.toNat) = tile.map Int.toNat := rfl
    simp only [e] at hk
    rw [get?_of_lt (tab dims.length _) ((0 : Int), (0 : Int)) (by simpa using hk'), getD_tab _ _ hk',
      get?_of_lt (tile.map Int.toNat) 0 (by simpa [h.tile.2.1] using hk')] at hk
    simp only [Option.some.injEq] at hk
    rw [← hk]
    obtain ⟨h1, h2⟩ := startAt_range h.safe h.tile r hk'
    have h3 := lenAt_le (l := l) (dims := dims) (cells := cells) r k
    have h4 := h.cells k hk'
    have h5 := nShared_range (dims.getD k .x)
    simp only [id, decide_eq_true_eq]
    rw [toNat_of_getD (by rw [h.tile.2.1]; exact hk') (by omega)]
    omega
  · simp only [Decidable.not_not]
    simp only [List.zipWith_cons_cons, List.zipWith_nil_left, List.all_cons, List.all_nil, id, Bool.and_true, Bool.and_eq_true,
      decide_eq_true_eq]
    omega
  · rw [hsl]; simp [h.tile.2.1]; omega

theorem writePart_runs {own : String → List Nat → Int} (junk : List Nat → α) (h : TileVar l dims cells tile ky kx)
    {r : Int} (hr : r ∈ (Comm.cube l).ranks) {name : String}
    {t : Nat} (hown : ∀ ci ∈ partCis l dims cells r t, own name ci = r) {q : Quantity α} (hq : PartQ q dims cells) :
    ∃ v : NDArray α, (∀ rel, Stored l dims cells r rel → v.get rel = q.computeArr.get rel) ∧
      ∀ (w : Writer) (T : Nat) (L : Store α) (kn : Known),
        w.array = some ⟨name, T :: 6 :: tile.map Int.toNat, varChunks cells⟩ → w.iTime = t → t < T →
        Runs own r (OkPost fun _ w' => w' = w)
          (putChunks junk ⟨name, [], varChunks cells⟩ (partBox l dims cells r t) 2 v (partCis l dims cells r t) L)
          (writePart l junk r q w) (2 * (partCis l dims cells r t).length) L kn [] := by
  obtain ⟨v0, v, h1, h2, h3, h4⟩ := part_value hq h r
  refine ⟨v, h4, ?_⟩
  intro w T L kn hw ht hT
  have hs := setSelection_runs junk h hr hown hT h3 w L kn
  have hti : tileIndex l r = .ok (r / (l.y * l.x)) := tileIndex_eq h.safe.ypos h.safe.xpos r
  unfold writePart
  rw [WM.self_bind, hw]
  simp only [need]
  rw [WM.lift_bind, hti, WM.lift_bind]
  simp only [List.drop_succ_cons, List.drop_zero]
  rw [tile_toNat h, hq.names, h1, WM.lift_bind, h2, WM.lift_bind, ht]
  exact hs

/-- What the other ranks learn from a collective: kind and, for an array, shape and chunk shape. -/
def sig (g : GItem) : Coll × Option (List Nat × List Nat) := (g.coll, g.info.map fun i => (i.shape, i.chunks))

abbrev Sig := Coll × Option (List Nat × List Nat)

/-- `bcast` of an array. -/
def arraySig (name : String) (shape chunks : List Nat) : Sig := (.bcast (some name), some (shape, chunks))

/-- The collectives of step `t` of a variable. -/
def varSigs (name : String) (tile cells : List Int) (t : Nat) : List Sig :=
  (if t = 0 then [arraySig name (1 :: 6 :: tile.map Int.toNat) (varChunks cells)] else []) ++
    [arraySig name ((t + 1) :: 6 :: tile.map Int.toNat) (varChunks cells)]

theorem sig_array {g : GItem} {name : String} {shape chunks : List Nat} (h : sig g = arraySig name shape chunks) :
    g.coll = .bcast (some name) ∧ ∃ i, g.info = some i ∧ i.shape = shape ∧ i.chunks = chunks := by
  unfold sig arraySig at h
  injection h with h1 h2
  refine ⟨h1, ?_⟩
  cases hi : g.info with
  | none => rw [hi] at h2; cases h2
  | some i =>
    rw [hi] at h2
    injection h2 with h2
    injection h2 with h3 h4
    exact ⟨i, rfl, h3, h4⟩

/-- The writer and the metadata on rank 0 after `t` steps. -/
structure RootW (name : String) (shape chunks : List Nat) (attrs : Attrs) (t : Nat) (w : Writer) (L : Store α) : Prop where
  named : w.name = name
  time : w.iTime = t
  first : t = 0 → w.array = none ∧ L.infos name = none
  later : t ≠ 0 → w.array = some ⟨name, t :: shape, chunks⟩ ∧ L.infos name = some ⟨t :: shape, chunks, attrs⟩

theorem varChunks_pos (h : TileVar l dims cells tile ky kx) : 0 ∉ varChunks cells := by
  unfold varChunks
  intro hc
  simp only [List.mem_cons, List.mem_map] at hc
  rcases hc with hc | hc | ⟨c, hc, h0⟩
  · cases hc
  · cases hc
  · obtain ⟨k, hk⟩ := List.getElem?_of_mem hc
    have hk' : k < cells.length := (List.getElem?_eq_some_iff.1 hk).1
    have := h.cells k (by rw [← h.tile.1]; exact hk')
    rw [List.getD_eq_getElem?_getD, hk] at this
    simp at this
    omega

theorem initVar_runs {own : String → List Nat → Int} (h : TileVar l dims cells tile ky kx) {q : Quantity α}
    (hq : PartQ q dims cells) {w : Writer} {L : Store α} (hL : L.infos w.name = none) (kn : Known) :
    Runs own 0 (OkPost fun h w' => h = ⟨w.name, 1 :: 6 :: tile.map Int.toNat, varChunks cells⟩ ∧ w' = w)
      (L.putInfo w.name ⟨1 :: 6 :: tile.map Int.toNat, varChunks cells, {}⟩) (initZarrRoot l q w) 2 L kn [] := by
  unfold initZarrRoot
  rw [WM.self_bind]
  show Runs own 0 _ _ (createDataset w.name (1 :: 6 :: (tileExtentFromRankMetadata q.dims q.extent l).map Int.toNat)
    (1 :: 1 :: (arrayChunks l (tileExtentFromRankMetadata q.dims q.extent l) q.dims).map Int.toNat) w) 2 L kn []
  rw [hq.tileExtent h, hq.names, h.chunks]
  exact createDataset_runs hL (varChunks_pos h)

theorem extend_keep {own : String → List Nat → Int} {r : Int} {q : Quantity α} {w : Writer} {hd : Handle}
    (hw : w.array = some hd) (hlt : w.iTime < hd.shape.getD 0 0) (L : Store α) (kn : Known) :
    Runs own r (OkPost fun _ w' => w' = w) L (extend l q w) 0 L kn [] := by
  unfold extend
  rw [WM.self_bind, hw]
  simp only [need]
  rw [WM.lift_bind]
  unfold when
  rw [if_neg (by omega)]
  exact .ret ⟨_, rfl, rfl⟩

theorem zip_le_self : ∀ (a : List Nat), (List.zipWith (fun (a b : Nat) => decide (a ≤ b)) a a).all id = true
  | [] => rfl
  | a :: l => by simp [zip_le_self l]

theorem extend_grow {own : String → List Nat → Int} (h : TileVar l dims cells tile ky kx) {q : Quantity α}
    (hq : PartQ q dims cells) {w : Writer} {name : String} {t : Nat} {L : Store α}
    (hw : w.array = some ⟨name, t :: 6 :: tile.map Int.toNat, varChunks cells⟩) (ht : w.iTime = t)
    (hL : L.infos name = some ⟨t :: 6 :: tile.map Int.toNat, varChunks cells, attrsOf q⟩) (kn : Known) :
    Runs own 0 (OkPost fun _ w' => w' = { w with array := some ⟨name, (t + 1) :: 6 :: tile.map Int.toNat, varChunks cells⟩ })
      (L.putInfo name ⟨(t + 1) :: 6 :: tile.map Int.toNat, varChunks cells, attrsOf q⟩) (extend l q w) 3 L kn [] := by
  unfold extend
  rw [WM.self_bind, hw]
  simp only [need]
  rw [WM.lift_bind]
  unfold when
  rw [if_pos (by simp [ht])]
  unfold growChecked
  rw [WM.self_bind, hq.tileExtent h, ht]
  refine (resize_runs (kn := kn) (h := ⟨name, t :: 6 :: tile.map Int.toNat, varChunks cells⟩)
    (shape := (t + 1) :: 6 :: tile.map Int.toNat)
    (i := ⟨t :: 6 :: tile.map Int.toNat, varChunks cells, attrsOf q⟩) (w := w) hL rfl ?_ ?_).wbind
    (n := 2) (n' := 1) (gs := []) (gs' := []) ?_
  · simp [zip_le_self]
  · exact ⟨rfl, rfl, by simp, rfl⟩
  · rintro hd w' ⟨rfl, rfl⟩
    rw [WM.update_bind]
    unfold ensureCompatibleAttrs
    refine (getAttrs_runs (i := ⟨(t + 1) :: 6 :: tile.map Int.toNat, varChunks cells, attrsOf q⟩)
      (h := { name := name, shape := (t + 1) :: 6 :: tile.map Int.toNat, chunks := varChunks cells })
      (Store.putInfo_get _ _ _)).wbind (n := 1) (n' := 0) (gs := []) (gs' := []) ?_
    rintro a w' ⟨rfl, rfl⟩
    rw [raiseIf_no (by simp)]
    exact .ret ⟨_, rfl, by simp [ht]⟩

/-- What one step does to a store: the data of rank `r`, nothing else. -/
def Stepped (junk : List Nat → α) (l : Layout) (dims : List Dim) (cells : List Int) (name : String) (r : Int) (t : Nat)
    (v : NDArray α) (L : Store α) : Store α :=
  putChunks junk ⟨name, [], varChunks cells⟩ (partBox l dims cells r t) 2 v (partCis l dims cells r t) L

theorem append_root {own : String → List Nat → Int} (junk : List Nat → α) (h : TileVar l dims cells tile ky kx)
    {name : String} {t : Nat} (hown : ∀ ci ∈ partCis l dims cells 0 t, own name ci = 0) {q : Quantity α} (hq : PartQ q dims cells)
    {w : Writer} {L : Store α} (hw : RootW name (6 :: tile.map Int.toNat) (varChunks cells) (attrsOf q) t w L) :
    ∃ v : NDArray α, (∀ rel, Stored l dims cells 0 rel → v.get rel = q.computeArr.get rel) ∧
      ∃ n gs, gs.map sig = varSigs name tile cells t ∧
        Runs own 0 (OkPost fun _ w' => w' = { w with
            iTime := t + 1, array := some ⟨name, (t + 1) :: 6 :: tile.map Int.toNat, varChunks cells⟩ })
          (Stepped junk l dims cells name 0 t v
            (L.putInfo name ⟨(t + 1) :: 6 :: tile.map Int.toNat, varChunks cells, attrsOf q⟩))
          (append l junk 0 q w) n L [] gs := by
  have hnm := hw.named
  subst hnm
  have hr : (0 : Int) ∈ (Comm.cube l).ranks := (mem_ranks (.cube l) 0).2 ⟨by omega, comm_size_pos (c := .cube l) h.safe⟩
  obtain ⟨v, hv, hwrite⟩ := writePart_runs (own := own) junk h hr hown (t := t) hq
  refine ⟨v, hv, ?_⟩
  -- the end is the same in both cases
  have hend : ∀ (w1 : Writer), w1.array = some ⟨w.name, (t + 1) :: 6 :: tile.map Int.toNat, varChunks cells⟩ → w1.iTime = t →
      w1.name = w.name → w1.encoding = w.encoding → ∀ L1 : Store α,
      L1.infos w.name = some ⟨(t + 1) :: 6 :: tile.map Int.toNat, varChunks cells, attrsOf q⟩ →
      Runs own 0 (OkPost fun _ w' => w' = { w with
          iTime := t + 1, array := some ⟨w.name, (t + 1) :: 6 :: tile.map Int.toNat, varChunks cells⟩ })
        (Stepped junk l dims cells w.name 0 t v L1)
        ((do
          syncArray 0
          writePart l junk 0 q
          WM.update fun w => { w with iTime := w.iTime + 1 } : WM α Unit) w1)
        (2 + (2 * (partCis l dims cells 0 t).length + 0)) L1 []
        [⟨.bcast (some w.name), some ⟨(t + 1) :: 6 :: tile.map Int.toNat, varChunks cells, attrsOf q⟩⟩] := by
    intro w1 h1 h2 h3 h4 L1 hL1
    refine (sync_root (h := ⟨w.name, (t + 1) :: 6 :: tile.map Int.toNat, varChunks cells⟩) h1 hL1).wbind (gs' := []) ?_
    rintro _ w' rfl
    refine (hwrite w' (t + 1) L1 [] h1 h2 (by omega)).wbind (gs := []) (gs' := []) ?_
    rintro _ w'' rfl
    refine .ret ⟨_, rfl, ?_⟩
    cases w''
    cases w
    simp only at h1 h2 h3 h4 ⊢
    rw [h1, h2, h3, h4]
  unfold append
  rw [WM.self_bind]
  by_cases ht : t = 0
  · obtain ⟨ha, hL⟩ := hw.first ht
    have hinit := initZarr_root (own := own) (attrs := attrsOf q) (kn := []) (fun kn => initVar_runs (own := own) h hq hL kn)
    refine ⟨_, _, ?_, Runs.wbind (P := fun _ w' => w' = { w with
        array := some ⟨w.name, 1 :: 6 :: tile.map Int.toNat, varChunks cells⟩ })
      (n' := 0 + (2 + (2 * (partCis l dims cells 0 t).length + 0)))
      (gs' := [⟨.bcast (some w.name), some ⟨(t + 1) :: 6 :: tile.map Int.toNat, varChunks cells, attrsOf q⟩⟩])
      (m := when (w.array = none) (initZarr 0 (initZarrRoot l q) (attrsOf q)))
      (by unfold when; rw [if_pos ha]; exact hinit) ?_⟩
    · subst ht
      rfl
    · rintro _ w1 rfl
      refine Runs.wbind (P := fun _ w' => w' = { w with
          array := some ⟨w.name, 1 :: 6 :: tile.map Int.toNat, varChunks cells⟩ }) (gs := [])
        (m := when ((0 : Int) = ROOT_RANK) (extend l q))
        (by
          unfold when
          rw [if_pos (show (0 : Int) = ROOT_RANK from rfl)]
          exact extend_keep (hd := ⟨w.name, 1 :: 6 :: tile.map Int.toNat, varChunks cells⟩) rfl
            (by show w.iTime < 1; rw [hw.time, ht]; omega) _ _) ?_
      rintro _ w1 rfl
      subst ht
      exact hend { w with array := some ⟨w.name, (0 + 1) :: 6 :: tile.map Int.toNat, varChunks cells⟩ } rfl hw.time rfl rfl _ (Store.putInfo_get _ _ _)
  · obtain ⟨ha, hL⟩ := hw.later ht
    refine ⟨_, _, ?_, Runs.wbind (P := fun _ w' => w' = w) (L1 := L) (n := 0) (gs := [])
      (n' := 3 + (2 + (2 * (partCis l dims cells 0 t).length + 0)))
      (gs' := [⟨.bcast (some w.name), some ⟨(t + 1) :: 6 :: tile.map Int.toNat, varChunks cells, attrsOf q⟩⟩])
      (m := when (w.array = none) (initZarr 0 (initZarrRoot l q) (attrsOf q)))
      (by unfold when; rw [if_neg (by rw [ha]; simp)]; exact .ret ⟨_, rfl, rfl⟩) ?_⟩
    · unfold varSigs
      rw [if_neg ht]
      rfl
    · rintro _ w1 rfl
      refine Runs.wbind (P := fun _ w' => w' = { w1 with
          array := some ⟨w1.name, (t + 1) :: 6 :: tile.map Int.toNat, varChunks cells⟩ }) (gs := [])
        (m := when ((0 : Int) = ROOT_RANK) (extend l q))
        (by
          unfold when
          rw [if_pos (show (0 : Int) = ROOT_RANK from rfl)]
          exact extend_grow h hq ha hw.time hL _) ?_
      rintro _ w2 rfl
      exact hend { w1 with array := some ⟨w1.name, (t + 1) :: 6 :: tile.map Int.toNat, varChunks cells⟩ } rfl hw.time rfl rfl _ (Store.putInfo_get _ _ _)

/-- The writer on another rank after `t` steps. -/
structure OtherW (name : String) (t : Nat) (w : Writer) : Prop where
  named : w.name = name
  time : w.iTime = t
  array : w.array = none ↔ t = 0

theorem le_varShape {i0 i : Info} {t : Nat} {shape : List Nat} (h0 : i0.shape = t :: shape) (hle : i0.le i) :
    ∃ T, t ≤ T ∧ i.shape = T :: shape := by
  have h1 := hle.length
  have h2 := hle.rest
  have h3 := hle.time
  rw [h0] at h1 h2 h3
  cases hs : i.shape with
  | nil => rw [hs] at h1; simp at h1
  | cons T rest =>
    rw [hs] at h2 h3
    simp only [List.tail_cons] at h2
    exact ⟨T, by simpa using h3, by rw [h2]⟩

theorem append_other {own : String → List Nat → Int} (junk : List Nat → α) (h : TileVar l dims cells tile ky kx)
    {r : Int} (hr : r ∈ (Comm.cube l).ranks) (h0 : r ≠ 0)
    {name : String} {t : Nat} (hown : ∀ ci ∈ partCis l dims cells r t, own name ci = r) {q : Quantity α} (hq : PartQ q dims cells) :
    ∃ v : NDArray α, (∀ rel, Stored l dims cells r rel → v.get rel = q.computeArr.get rel) ∧
      ∀ gs, gs.map sig = varSigs name tile cells t → ∃ n, ∀ (w : Writer) (L : Store α), OtherW name t w →
        Runs own r (OkPost fun _ w' => OtherW name (t + 1) w')
          (Stepped junk l dims cells name r t v L) (append l junk r q w) n L [] gs := by
  obtain ⟨v, hv, hwrite⟩ := writePart_runs (own := own) junk h hr hown (t := t) hq
  refine ⟨v, hv, ?_⟩
  intro gs hgs
  have hend : ∀ g, sig g = arraySig name ((t + 1) :: 6 :: tile.map Int.toNat) (varChunks cells) →
      ∀ (w1 : Writer) (L : Store α), w1.name = name → w1.iTime = t →
      Runs own r (OkPost fun _ w' => OtherW name (t + 1) w') (Stepped junk l dims cells name r t v L)
        ((do
          when (r = ROOT_RANK) (extend l q)
          syncArray r
          writePart l junk r q
          WM.update fun w => { w with iTime := w.iTime + 1 } : WM α Unit) w1)
        (3 + (2 * (partCis l dims cells r t).length + 0)) L [] [g] := by
    intro g hg w1 L h3 h2
    obtain ⟨hgc, i0, hgi, hsh, hch⟩ := sig_array hg
    unfold when
    rw [if_neg (show ¬ r = ROOT_RANK from h0), WM.pure_bind]
    refine (sync_other h0 hgc hgi).wbind (gs' := []) ?_
    rintro _ w' ⟨i, hle, rfl⟩
    obtain ⟨T, hT, hsT⟩ := le_varShape hsh hle
    have hc : i.chunks = varChunks cells := hle.chunks.trans hch
    refine (hwrite { w1 with array := some ⟨name, i.shape, i.chunks⟩ } T L [] (by rw [hsT, hc]) h2 (by omega)).wbind (gs := []) (gs' := []) ?_
    rintro _ w'' rfl
    exact .ret ⟨_, rfl, h3, by simp [h2], by simp⟩
  by_cases ht : t = 0
  · unfold varSigs at hgs
    rw [if_pos ht] at hgs
    · rw [List.cons_append, List.nil_append, List.map_eq_cons_iff] at hgs
      obtain ⟨g1, gs1, rfl, hg1, hgs⟩ := hgs
      rw [List.map_eq_cons_iff] at hgs
      obtain ⟨g2, gs2, rfl, hg2, hgs⟩ := hgs
      rw [List.map_eq_nil_iff] at hgs
      subst hgs
      refine ⟨3 + (3 + (2 * (partCis l dims cells r t).length + 0)), ?_⟩
      intro w L hw
      unfold append
      rw [WM.self_bind]
      obtain ⟨hgc, i0, hgi, hsh, hch⟩ := sig_array hg1
      refine Runs.wbind (P := fun _ w' => w'.name = name ∧ w'.iTime = t) (gs := [g1]) (gs' := [g2]) (L1 := L) (n := 3)
        (m := when (w.array = none) (initZarr r (initZarrRoot l q) (attrsOf q))) ?_ ?_
      · unfold when
        rw [if_pos (hw.array.2 ht)]
        have hi := initZarr_other (own := own) (L := L) (kn := []) (make := initZarrRoot l q) (attrs := attrsOf q) (w := w)
          h0 hgc hgi
        refine hi.mono ?_
        rintro x ⟨a, ha, i, hle, hx⟩
        exact ⟨a, ha, by rw [hx]; exact ⟨hw.named, hw.time⟩⟩
      · rintro _ w1 ⟨h1, h2⟩
        exact hend g2 hg2 w1 L h1 h2
  · unfold varSigs at hgs
    rw [if_neg ht] at hgs
    · rw [List.nil_append, List.map_eq_cons_iff] at hgs
      obtain ⟨g2, gs2, rfl, hg2, hgs⟩ := hgs
      rw [List.map_eq_nil_iff] at hgs
      subst hgs
      refine ⟨3 + (2 * (partCis l dims cells r t).length + 0), ?_⟩
      intro w L hw
      unfold append
      rw [WM.self_bind]
      unfold when
      rw [if_neg (fun hn => ht (hw.array.1 hn)), WM.pure_bind]
      exact hend g2 hg2 w L hw.named hw.time

end

end Zarr
end FV3
