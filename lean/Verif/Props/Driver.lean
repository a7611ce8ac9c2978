import Verif.Spec.Driver
import Verif.Proofs.DriverRun
import Verif.Props.Scatter
import Verif.Props.Halo
import Verif.Props.Nudging

/-!
# C55: a model run from a global field to a global field
-/

namespace FV3
variable {α : Type}

section
variable {l : Layout} {dims : List Dim} {cells : List Int} {ky kx : Nat} {n : Int} {g : Quantity α}

theorem coordAlong_y {p : Int × Int} {d : Dim} (h : IsY d) : coordAlong p d = p.1 := by
  unfold coordAlong; rw [if_pos h]

theorem coordAlong_x {p : Int × Int} {d : Dim} (h : IsX d) (h' : ¬ IsY d) : coordAlong p d = p.2 := by
  unfold coordAlong; rw [if_neg h', if_pos h]

theorem cube_place (l : Layout) (dims : List Dim) (cells : List Int) (r : Int) (rel : List Nat) :
    (Comm.cube l).place dims cells r rel = (r / (l.y * l.x)).toNat ::
      tab dims.length fun k => (startAt l dims cells r k + (rel.getD k 0 : Nat)).toNat := rfl

/-- A point of the compute domain of a rank, in a global quantity. -/
theorem global_at (hl : FloatSafe l) (ha : HAxes dims ky kx) (hy : cells.getD ky 0 = n) (hx : cells.getD kx 0 = n)
    (hg : g.GlobalShaped (.cube l) dims cells) {m : Int → Mem α} {q : Nat} {r : Int} {src : List Nat} {t a b : Int}
    (hc : (m r q).InCompute src) (hat : AtTile l m q ky kx n r src t a b) (hd : (m r q).dims = dims)
    (hs : (m r q).RankShaped dims cells) :
    GlobalAt g dims ky kx (l.x * n) ((Comm.cube l).place dims cells r (relIdx (m r q).origin src))
      (pos (l.x * n) t a b) ((m r q).otherPos ky kx src) := by
  have hrank := mem_allRanks.1 hat.rank
  have hndim : (m r q).ndim = dims.length := by unfold Quantity.ndim; rw [hd]
  have hin := Nudge.relIn (m r q) hs.wf src hc
  have hin' : InB (rankShape dims cells) (relIdx (m r q).origin src) := by
    rw [← rankOf_shape hs.extent]; exact hin
  obtain ⟨te, hte, htile⟩ := hg.extent
  have hrel : ∀ k, k < dims.length →
      ((relIdx (m r q).origin src).getD k 0 : Int) = (m r q).rel src k ∧ 0 ≤ (m r q).rel src k := by
    intro k hk
    unfold relIdx Quantity.rel
    rw [getD_tab _ _ (by rw [hs.wf.origin, hndim]; exact hk)]
    have := hc.2 k (by rw [hndim]; exact hk)
    unfold Quantity.InDom Quantity.o at this
    unfold Quantity.o
    unfold at' at this ⊢
    omega
  have hat' : ∀ k, k < dims.length → at' ((Comm.cube l).place dims cells r (relIdx (m r q).origin src)) (k + 1) =
      coordAlong (subtileIndex l r) (dims.getD k .x) * cells.getD k 0 + (m r q).rel src k := by
    intro k hk
    have h1 := (startAt_range hl htile r hk).1
    have h2 := hrel k hk
    rw [cube_place]
    unfold at'
    rw [List.getD_cons_succ, getD_tab _ _ hk]
    unfold startAt at h1 ⊢
    omega
  have hylt : ky < dims.length := ha.ylt
  have hxlt : kx < dims.length := ha.xlt
  have hyd : IsY (dims.getD ky .x) := (ha.y ky _ (get?_of_lt dims .x hylt)).2 rfl
  have hxd : IsX (dims.getD kx .x) := (ha.x kx _ (get?_of_lt dims .x hxlt)).2 rfl
  have hne : kx ≠ ky := by
    intro e
    rw [e] at hxd
    revert hyd hxd
    cases dims.getD ky .x <;> simp [IsX, IsY]
  have hxd' : ¬ IsY (dims.getD kx .x) := fun h => hne ((ha.y kx _ (get?_of_lt dims .x hxlt)).1 h)
  refine ⟨?_, ?_, ?_⟩
  · show InB (g.extent.map Int.toNat) _
    exact place_inB (c := .cube l) hl hg.extent hrank.1 hrank.2 hin'
  · intro k
    unfold Quantity.otherPos
    rw [hndim]
    by_cases hk : k < dims.length ∧ k ≠ ky ∧ k ≠ kx
    · rw [if_pos hk, if_pos hk, hat' k hk.1]
      have : coordAlong (subtileIndex l r) (dims.getD k .x) = 0 := by
        unfold coordAlong
        rw [if_neg (fun h => hk.2.1 ((ha.y k _ (get?_of_lt dims .x hk.1)).1 h)),
          if_neg (fun h => hk.2.2 ((ha.x k _ (get?_of_lt dims .x hk.1)).1 h))]
      rw [this]
      omega
    · rw [if_neg hk, if_neg hk]
  · rw [hat' kx hxlt, hat' ky hylt, coordAlong_y hyd, coordAlong_x hxd hxd', hy, hx]
    have ht : at' ((Comm.cube l).place dims cells r (relIdx (m r q).origin src)) 0 = t := by
      have := hat.tile
      rw [tileIndex_eq hl.ypos hl.xpos] at this
      simp only [Except.ok.injEq] at this
      rw [cube_place]
      unfold at'
      rw [List.getD_cons_zero, ← this]
      have := Int.ediv_nonneg hrank.1 (Int.le_of_lt (Int.mul_pos hl.ypos hl.xpos))
      omega
    rw [ht, hat.x, hat.y]
    unfold Quantity.tilePos Quantity.d
    rw [hd]

/-- A point owned by a rank that has its part of a global quantity, in the global quantity. -/
theorem global_of_owns (hl : FloatSafe l) (ha : HAxes dims ky kx) (hy : cells.getD ky 0 = n) (hx : cells.getD kx 0 = n)
    (hg : g.GlobalShaped (.cube l) dims cells) {m : Int → Mem α} {q : Nat} {r : Int} {src : List Nat} {P : Vec3}
    {others : Nat → Int} (ho : Owns l m q ky kx n r src P others) (hd : (m r q).dims = dims)
    (hs : (m r q).RankShaped dims cells) (hp : IsPart (.cube l) dims cells g (m r q) r) :
    ∃ p, GlobalAt g dims ky kx (l.x * n) p P others ∧ (m r q).data.get src = g.computeArr.get p := by
  obtain ⟨hc, rfl, t, a, b, hat, rfl⟩ := ho
  refine ⟨_, global_at hl ha hy hx hg hc hat hd hs, ?_⟩
  rw [← hp _ (Nudge.relIn (m r q) hs.wf src hc)]
  show _ = (m r q).data.get (absIdx (m r q).origin (relIdx (m r q).origin src))
  rw [Nudge.absRel (m r q) hs.wf src hc]

end

variable [Neg α]

/-- **C55**: whatever the schedule and the buffering of MPI, a model run (scatter; any sequence of halo updates and
computations; gather) ends on all ranks.  The calls start from the parts of the global quantity, they have the
outcome of being performed one after the other on all ranks, and root gets back a global quantity gathered from the
final parts. -/
theorem C55_model_run (buf : Buffering) {l : Layout} (junk junk' : List Nat → α)
    {dims : List Dim} {cells : List Int} {ky kx : Nat} {n h : Int} {g : Quantity α} {mem : Int → Mem α} {q : Nat}
    (R : RunSetup l dims cells ky kx n h g mem q)
    (send back : Int → Option (Quantity α)) (hsend : send 0 = some g)
    (hback : ∀ q, back 0 = some q → q.GlobalShaped (.cube l) dims cells)
    (calls : List (Call α)) (hcalls : ∀ c ∈ calls, UpdateOrCompute mem q h c) :
    ∃ (part : Int → Quantity α) (fin : Int → Mem α) (root : Quantity α),
      (driverNet l junk junk' send (fun r => some (mem r q)) mem q calls back).Completes buf (fun r =>
        if r ∈ allRanks l then some (.ok (fin r, if r = 0 then some root else none)) else none) ∧
      (∀ r ∈ allRanks l, IsPart (.cube l) dims cells g (part r) r ∧ (mem r q).Refilled (part r)) ∧
      CallsRun l calls (fun r => (mem r).put q (part r)) fin ∧
      (∀ r ∈ allRanks l, MetaIs mem r (fin r)) ∧
      root.GlobalShaped (.cube l) dims cells ∧
      (∀ q, back 0 = some q → q.Refilled root) ∧
      GatheredFrom (.cube l) dims cells (fun r => fin r q) root := by
  obtain ⟨hl, hsq, hh, hn, ha, hy, hx', hg, S, hdims, hshape⟩ := id R
  have hx := hl.xpos
  have hpos : 0 < dims.length := by have := ha.ylt; omega
  have hsize := comm_size_pos (c := .cube l) hl
  have h0mem : (0 : Int) ∈ (Comm.cube l).ranks := (mem_ranks _ 0).2 ⟨by omega, hsize⟩
  have hb : ∀ k, k < dims.length → cells.getD k 0 * ranksAlong l (dims.getD k .x) < 2 ^ 51 := by
    intro k hk
    obtain ⟨t, -, ht⟩ := hg.extent
    exact (tileOf_getD ht hk).2.1
  obtain ⟨part, s1, s2⟩ := scatter_does buf (c := .cube l) hl junk hpos hg send (fun r => some (mem r q)) hsend
    (fun r hr q' hq' => by cases hq'; exact hshape r ((cube_ranks l r).1 hr)) 0
  have hpart : ∀ r ∈ allRanks l, (mem r q).Refilled (part r) := fun r hr =>
    (s2 r ((cube_ranks l r).2 hr)).given _ rfl
  have hsame : ∀ r ∈ allRanks l, MetaIs mem r ((mem r).put q (part r)) := by
    intro r hr q'
    unfold Mem.put
    split
    · next e =>
      subst e
      have := hpart r hr
      exact ⟨this.shape, this.dims, this.units, this.origin, this.extent⟩
    · exact SameMeta.refl _
  obtain ⟨fin, c1, c2, c3⟩ := calls_bulk (l := l) (Good := MetaIs mem) (calls := calls)
    (mem := fun r => (mem r).put q (part r)) buf hsame
    (fun c hc op ho => by
      have := hcalls c hc
      cases c with
      | haloUpdate q' d =>
        obtain ⟨rfl, d1, d2⟩ := this
        simp only [Call.start, Option.some.injEq] at ho
        subst ho
        have S' : ScalarField l mem q' ky kx n d := by
          refine ⟨fun r hr => ?_, S.dims, S.other, S.stagger⟩
          have H := S.ready r hr
          exact ⟨H.wf, H.axes, H.ey, H.ex, ⟨by have := H.haloY.1; omega, by have := H.haloY.2; omega⟩,
            ⟨by have := H.haloX.1; omega, by have := H.haloX.2; omega⟩⟩
        exact halo_sound hx hsq d1 (by omega) S'
      | compute f => simp [Call.start] at ho
      | vectorHaloUpdate x y d => exact this.elim
      | synchronize x y => exact this.elim)
    (fun f hf r hr m hm => hcalls _ hf r m hm)
  have hfinshape : ∀ r ∈ allRanks l, (fin r q).RankShaped dims cells := by
    intro r hr
    have h1 := c2 r hr q
    have h2 := hshape r hr
    exact ⟨h1.wf h2.wf, by rw [h1.extent]; exact h2.extent⟩
  obtain ⟨root, g1, g2⟩ := gather_does buf (c := .cube l) hl junk' hpos hb (fun r => fin r q) back
    (fun r hr => hfinshape r ((cube_ranks l r).1 hr)) hback (by
      intro _
      have h0 := (cube_ranks l 0).1 h0mem
      exact (c2 0 h0 q).dims.trans (hdims 0 h0)) 2
  refine ⟨part, fin, root, ?_, fun r hr => ⟨(s2 r ((cube_ranks l r).2 hr)).part, hpart r hr⟩, c1, c2, g2.shaped, g2.given,
    GatherOut.gathered (c := .cube l) hl ha g2 (hfinshape 0 ((cube_ranks l 0).1 h0mem))⟩
  exact driver_completes buf (fin := fun r => ⟨fin r, if r ∈ allRanks l then (calls.map Call.nTags).sum else 0, []⟩)
    s1 c3 g1

/-- **C55**: a global field, scattered and then updated with `halo_update(q, h)`: every point of the compute domain
or halo of every rank (not across a corner of the cube) holds the value of the global field at that point of the
cube; the gathered field is the global field again. -/
theorem C55_halo_of_global (buf : Buffering) {l : Layout} (junk junk' : List Nat → α)
    {dims : List Dim} {cells : List Int} {ky kx : Nat} {n h : Int} {g : Quantity α} {mem : Int → Mem α} {q : Nat}
    (R : RunSetup l dims cells ky kx n h g mem q)
    (send back : Int → Option (Quantity α)) (hsend : send 0 = some g)
    (hback : ∀ q, back 0 = some q → q.GlobalShaped (.cube l) dims cells) :
    ∃ (fin : Int → Mem α) (root : Quantity α),
      (driverNet l junk junk' send (fun r => some (mem r q)) mem q [.haloUpdate q h] back).Completes buf (fun r =>
        if r ∈ allRanks l then some (.ok (fin r, if r = 0 then some root else none)) else none) ∧
      (∀ r idx t a b, AtTile l mem q ky kx n r idx t a b → HasValue (mem r q) ky kx h idx →
        SingleCross (l.x * n) a b →
        ∃ p, GlobalAt g dims ky kx (l.x * n) p (foldPos (l.x * n) t a b) ((mem r q).otherPos ky kx idx) ∧
          (fin r q).data.get idx = g.computeArr.get p) ∧
      root.dims = g.dims ∧ root.extent = g.extent ∧ root.computeArr.Eqv g.computeArr := by
  obtain ⟨hl, hsq, hh, hn, ha, hy, hx', hg, S, hdims, hshape⟩ := id R
  obtain ⟨part, fin, root, h1, h2, h3, h4, h5, h6, h7⟩ := C55_model_run buf junk junk' R send back hsend hback [.haloUpdate q h] (by
      intro c hc
      rw [List.mem_singleton] at hc
      subst hc
      exact ⟨rfl, hh, Int.le_refl _⟩)
  obtain ⟨m1, u1, u2⟩ := h3
  have hu : UpdateStep l (.halo q h) (fun r => (mem r).put q (part r)) m1 := u1
  have hput : ∀ r, (mem r).put q (part r) q = part r := fun r => by unfold Mem.put; rw [if_pos rfl]
  have hsame : ∀ r ∈ allRanks l, ∀ q', SameMeta (mem r q') ((mem r).put q (part r) q') := by
    intro r hr q'
    unfold Mem.put
    split
    · next e =>
      subst e
      have := (h2 r hr).2
      exact ⟨this.shape, this.dims, this.units, this.origin, this.extent⟩
    · exact SameMeta.refl _
  have S' : ScalarField l (fun r => (mem r).put q (part r)) q ky kx n h := S.same hsame
  have hpdims : ∀ r ∈ allRanks l, (part r).dims = dims := fun r hr => (h2 r hr).2.dims.trans (hdims r hr)
  have hpshape : ∀ r ∈ allRanks l, (part r).RankShaped dims cells := by
    intro r hr
    have e := hsame r hr q
    rw [hput] at e
    exact ⟨e.wf (hshape r hr).wf, by rw [e.extent]; exact (hshape r hr).extent⟩
  have hval : ∀ r idx t a b, AtTile l mem q ky kx n r idx t a b → HasValue (mem r q) ky kx h idx →
        SingleCross (l.x * n) a b →
        ∃ p, GlobalAt g dims ky kx (l.x * n) p (foldPos (l.x * n) t a b) ((mem r q).otherPos ky kx idx) ∧
          (fin r q).data.get idx = g.computeArr.get p := by
    intro r idx t a b hat hv hsc
    have e := hsame r hat.rank q
    have hat' : AtTile l (fun r => (mem r).put q (part r)) q ky kx n r idx t a b := by
      refine ⟨hat.rank, hat.tile, ?_, ?_⟩
      · rw [hat.x]; unfold Quantity.tilePos Quantity.rel; rw [e.o, e.d]
      · rw [hat.y]; unfold Quantity.tilePos Quantity.rel; rw [e.o, e.d]
    have hv' : HasValue ((mem r).put q (part r) q) ky kx h idx := by
      rcases hv with hv | hv
      · exact .inl ((e.inCompute idx).2 hv)
      · refine .inr ⟨by rw [e.ndim]; exact hv.len, ?_, ?_, ?_, ?_⟩
        · unfold Quantity.rel; rw [e.o, e.e]; exact hv.y
        · unfold Quantity.rel; rw [e.o, e.e]; exact hv.x
        · intro k hk k1 k2
          unfold Quantity.InDom
          rw [e.o, e.e]
          exact hv.other k (by rw [e.ndim] at hk; exact hk) k1 k2
        · unfold Quantity.InDom
          rw [e.o, e.e, e.o, e.e]
          exact hv.out
    obtain ⟨r', src, ho, hval⟩ := step_valid hl.xpos hsq hh hn S' hu hat' hv' hsc
    have hr' : r' ∈ allRanks l := by
      obtain ⟨t', a', b', h', -⟩ := ho.point
      exact h'.rank
    obtain ⟨p, hp1, hp2⟩ := global_of_owns hl ha hy hx' hg ho (by rw [hput]; exact hpdims r' hr')
      (by rw [hput]; exact hpshape r' hr') (by rw [hput]; exact (h2 r' hr').1)
    refine ⟨p, ?_, ?_⟩
    · have : ((mem r).put q (part r) q).otherPos ky kx idx = (mem r q).otherPos ky kx idx := by
        refine Quantity.otherPos_eq e.ndim fun k _ _ _ => ?_
        unfold Quantity.rel
        rw [e.o]
      rw [← this]
      exact hp1
    · rw [u2 r hat.rank, hval]
      exact hp2
  have hext : root.extent = g.extent := globalExtent_unique h5.extent hg.extent
  refine ⟨fin, root, h1, hval, h5.names.trans hg.names.symm, hext, ⟨?_, ?_⟩⟩
  · show root.extent.map _ = g.extent.map _
    rw [hext]
  · intro p hp
    obtain ⟨r, rel, hH, hpl, hv⟩ := h7 p hp
    have hr : r ∈ allRanks l := (cube_ranks l r).1 hH.1
    have h0 : (0 : Int) ∈ allRanks l := by
      rw [mem_allRanks] at hr ⊢
      omega
    have e := hsame r hr q
    rw [hput] at e
    have ef := h4 r hr q
    have ef0 := h4 0 h0 q
    have hshf : ∀ r ∈ allRanks l, (fin r q).computeArr.shape = rankShape dims cells := by
      intro r hr
      show (fin r q).extent.map _ = _
      rw [(h4 r hr q).extent]
      exact rankOf_shape (hshape r hr).extent
    have hrel : InB (rankShape dims cells) rel := by
      have := hH.2.1
      rw [hshf 0 h0] at this
      exact this
    have hrelp : InB (part r).computeArr.shape rel := by
      show InB ((part r).extent.map _) rel
      rw [rankOf_shape (hpshape r hr).extent]
      exact hrel
    rw [hv, ← hpl, ← (h2 r hr).1 rel hrelp]
    show (fin r q).data.get (absIdx (fin r q).origin rel) = (part r).data.get (absIdx (part r).origin rel)
    rw [ef.origin, ← e.origin]
    have hin := absIdx_ok (part r) (hpshape r hr).wf rel hrelp
    obtain ⟨t, hat⟩ : ∃ t, tileIndex l r = .ok t := ⟨_, tileIndex_eq hl.ypos hl.xpos r⟩
    have hstep := (step_only hl.xpos hsq hh hn S' hu r hr).2.2 (absIdx (part r).origin rel) t _ _ ⟨hr, hat, rfl, rfl⟩
    rw [u2 r hr]
    have := hstep (hin.2.1.1.trans (by unfold Quantity.ndim; rw [hput])) (by
      rintro ⟨hH, -⟩
      have hc := hin.2.1
      have h1 := hH.out
      rw [hput] at h1
      exact h1 ⟨hc.2 ky (by unfold Quantity.ndim; rw [hpdims r hr]; exact ha.ylt),
        hc.2 kx (by unfold Quantity.ndim; rw [hpdims r hr]; exact ha.xlt)⟩)
    rw [this, hput]

end FV3
