import Verif.Proofs.HeapMixed
import Verif.Props.FieldModel

/-!
# C85: updates, scatters and gathers of one communicator, on memory
-/

namespace FV3
namespace Heap
open Mem (World Gt4py Reachable)
open Strided
variable {α : Type} [Inhabited α] [Neg α] {g : Gt4py} {l : Layout}

/-- **C85**: any sequence of halo updates, vector updates, synchronisations, scatters and gathers of one communicator, with
programs between them which work on quantities, arrays and storages, on memory which these share: whatever the schedule and the
buffering of MPI, all ranks return, and memory is as after the calls one after the other (`XRun`).  The arguments of a call need
to fit when it is made. -/
theorem C85_session (hl : FloatSafe l) (hsq : l.y = l.x) {W : Int → World α} {calls : List (XCall α)}
    (hW : ∀ r ∈ allRanks l, Reachable g (W r))
    (hr : ∀ (pre : List (XCall α)) x post, calls = pre ++ x :: post → ∀ W1, XRun g l pre W W1 → XReady l W1 x) (buf : Buffering) :
    ∃ W' : Int → World α, XRun g l calls W W' ∧ (mixedNet g l calls W).Completes buf fun r => (.ok (), W' r) :=
  mixed_from hl hsq (fun r h => (hW r h).spec) hr 0 0 buf ⟨fun _ _ _ _ => rfl, fun _ _ _ _ => rfl⟩

/-! ### When everything exists from the beginning -/

theorem XRun.keeps {calls : List (XCall α)} {W W1 : Int → World α} (h : XRun g l calls W W1) {r : Int} (hr : r ∈ allRanks l)
    (hw : WF g (W r)) : Keeps (W r) (W1 r) ∧ WF g (W1 r) := by
  induction calls generalizing W with
  | nil => rw [h r hr]; exact ⟨fun _ _ h _ => h, hw⟩
  | cons x xs ih =>
    obtain ⟨W2, h1, h2⟩ := h
    obtain ⟨k1, k2⟩ := h1.keeps hr hw
    obtain ⟨i1, i2⟩ := ih h2 k2
    exact ⟨fun k y hy hs => i1 k y (k1 k y hy hs) hs, i2⟩

omit [Inhabited α] [Neg α] in
theorem data_info {W : World α} {h : Nat} {y : Nat × Mem.Arr × Mem.Info} (hy : dataOf W h = .ok y) :
    W.infoOf h = some y.2.2 ∧ W.writeable h .data = y.2.1.writeable := by
  unfold dataOf at hy
  unfold Mem.World.infoOf Mem.World.writeable
  cases ho : W.objs[h]? with
  | none => rw [ho] at hy; cases hy
  | some o =>
    rw [ho] at hy
    cases o with
    | array _ => cases hy
    | storage _ _ _ => cases hy
    | quantity q =>
      dsimp only at hy
      simp only [Mem.Obj.target]
      cases ha : W.arrs[q.data]? with
      | none => rw [ha] at hy; cases hy
      | some a =>
        rw [ha] at hy
        cases hy
        exact ⟨rfl, rfl⟩

omit [Neg α] in
theorem Usable.keeps {W W1 : World α} {hs : List Nat} (U : Usable W hs) (hw : WF g W) (hk : Keeps W W1) : Usable W1 hs := by
  obtain ⟨H, A⟩ := usable_held hw U
  have key : ∀ h ∈ hs, ∃ y, dataOf W h = .ok y ∧ dataOf W1 h = .ok y := fun h hh => by
    obtain ⟨y, hy, -⟩ := H.data h hh
    exact ⟨y, hy, hk h y hy (A h hh y hy)⟩
  have cell : ∀ h ∈ hs, ∀ idx a, Cell W1 h idx a → Cell W h idx a := by
    rintro h hh idx a ⟨x, hx, hc⟩
    obtain ⟨y, hy, hy1⟩ := key h hh
    rw [hy1] at hx
    cases hx
    exact ⟨_, hy, hc⟩
  refine ⟨fun h hh => ?_, fun h hh => ?_, fun h hh h' hh' hne idx idx' a hc hc' => ?_⟩
  · obtain ⟨y, hy, hy1⟩ := key h hh
    obtain ⟨i, hi, hd⟩ := U.quantity h hh
    rw [(data_info hy).1] at hi
    exact ⟨i, (data_info hy1).1.trans hi, hd⟩
  · obtain ⟨y, hy, hy1⟩ := key h hh
    rw [(data_info hy1).2, ← (data_info hy).2]
    exact U.writeable h hh
  · exact U.apart h hh h' hh' hne idx idx' a (cell h hh idx a hc) (cell h' hh' idx' a hc')

theorem XReady.kept {W W1 : Int → World α} {x : XCall α} (hl : FloatSafe l) (hw : ∀ r ∈ allRanks l, WF g (W r)) (h : XReady l W x)
    (hk : ∀ r ∈ allRanks l, Keeps (W r) (W1 r)) : XReady l W1 x := by
  cases x with
  | collective x =>
    obtain ⟨dims, cells, hf⟩ := h
    have h0mem : (0 : Int) ∈ (Comm.cube l).ranks := (mem_ranks _ 0).2 ⟨by omega, comm_size_pos (c := .cube l) hl⟩
    exact ⟨dims, cells, hf.kept h0mem fun r hr => hk r ((cube_ranks l r).1 hr)⟩
  | update c =>
    intro op ho
    obtain ⟨u1, u2⟩ := h op ho
    refine ⟨fun r hr => (u1 r hr).keeps (hw r hr) (hk r hr), updateReady_same u2 fun r hr q hq => ?_⟩
    obtain ⟨H, A⟩ := usable_held (hw r hr) (u1 r hr)
    obtain ⟨y, hy, -⟩ := H.data q hq
    rw [quantities_eq hy, quantities_eq (hk r hr q y hy (A q hq y hy))]
    exact ⟨rfl, rfl, rfl, rfl, rfl⟩

/-- **C85**: the same, when the quantities of all calls exist from the beginning. -/
theorem C85_calls (hl : FloatSafe l) (hsq : l.y = l.x) {W : Int → World α} {calls : List (XCall α)}
    (hW : ∀ r ∈ allRanks l, Reachable g (W r)) (hr : ∀ x ∈ calls, XReady l W x) (buf : Buffering) :
    ∃ W' : Int → World α, XRun g l calls W W' ∧ (mixedNet g l calls W).Completes buf fun r => (.ok (), W' r) := by
  refine C85_session hl hsq hW (fun pre x post e W1 hrun => ?_) buf
  exact (hr x (by rw [e]; exact List.mem_append_right _ List.mem_cons_self)).kept hl (fun r h => (hW r h).spec)
    fun r h => (hrun.keeps h (hW r h).spec).1

/-! ### A field from the root -/

/-- After a scatter and a halo update the quantities hold the field. -/
theorem scattered_updated (hl : FloatSafe l) (hsq : l.y = l.x) {W W1 W2 : Int → World α} {send q : Nat}
    {p : Parts} {ky kx : Nat} {n h : Int} {F : Fld α} (hh : 0 < h) (hn : h ≤ n)
    (hs : CFits (.cube l) p.dims p.cells W (.scatter send fun _ => q))
    (S : ScalarField l (fun r => quantities (W r)) q ky kx n h) (hd : ∀ r ∈ allRanks l, (quantities (W r) q).dims = p.dims)
    (hy : p.cells.getD ky 0 = n) (hx : p.cells.getD kx 0 = n) (hF : GlobalHolds (quantities (W 0) send) p .scalar ky kx (l.x * n) F)
    (s1 : XStep g l (.collective (.scatter send fun _ => q)) W W1) (s2 : XStep g l (.update (.haloUpdate q h)) W1 W2) :
    ∀ r ∈ allRanks l, Holds l n r (quantities (W2 r) q) .scalar ky kx h .halo F := by
  have h0mem : (0 : Int) ∈ (Comm.cube l).ranks := (mem_ranks _ 0).2 ⟨by omega, comm_size_pos (c := .cube l) hl⟩
  intro r hr
  obtain ⟨hpos, hg, hrs⟩ := hs
  obtain ⟨dims1, cells1, f1, p1⟩ := s1
  have e1 : dims1 = p.dims := globalDims_inj (f1.2.1.names.symm.trans hg.names)
  subst e1
  have e2 : cells1 = p.cells := rankOf_unique (f1.2.2 0 h0mem).1.extent (hrs 0 h0mem).1.extent
  subst e2
  have me : ∀ r ∈ allRanks l, SameMeta (quantities (W r) q) (quantities (W1 r) q) := fun r hr =>
    (p1 r ((cube_ranks l r).2 hr)).2.1.sameMeta
  have S0 : ScalarField l (fun r _ => quantities (W1 r) q) q ky kx n h :=
    ScalarField.same (m := fun r _ => quantities (W r) q) ⟨S.ready, S.dims, S.other, S.stagger⟩ fun r hr _ => me r hr
  have S1 : ScalarField l (fun r => quantities (W1 r)) q ky kx n h := ⟨S0.ready, S0.dims, S0.other, S0.stagger⟩
  obtain ⟨m', u1, u2⟩ := s2
  rw [(u2 r hr).1 q (by simp [Op.qs])]
  refine update_scalar hl.xpos hsq hh hn S1 u1 (fun r hr => ?_) hr
  have hsh := (hrs r ((cube_ranks l r).2 hr)).1
  exact part_holds (m := fun r => quantities (W1 r)) hl hsq (by omega) hy hx hg (S1.ready r hr) ((me r hr).dims.trans (hd r hr))
    ⟨(me r hr).wf hsh.wf, by rw [(me r hr).extent]; exact hsh.extent⟩ (p1 r ((cube_ranks l r).2 hr)).1 hF

/-- **C85**: if a global quantity of the root holds a field on the cube, then after a scatter and a halo update the quantities of
all ranks hold the field, also in their halos (but not across the corners of the cube) - even if they share memory with the
global quantity. -/
theorem C85_field (hl : FloatSafe l) (hsq : l.y = l.x) {W : Int → World α} (hW : ∀ r ∈ allRanks l, Reachable g (W r)) {send q : Nat}
    {p : Parts} {ky kx : Nat} {n h : Int} {F : Fld α} (hh : 0 < h) (hn : h ≤ n)
    (hs : CFits (.cube l) p.dims p.cells W (.scatter send fun _ => q)) (hu : ∀ r ∈ allRanks l, Usable (W r) [q])
    (S : ScalarField l (fun r => quantities (W r)) q ky kx n h) (hd : ∀ r ∈ allRanks l, (quantities (W r) q).dims = p.dims)
    (hy : p.cells.getD ky 0 = n) (hx : p.cells.getD kx 0 = n) (hF : GlobalHolds (quantities (W 0) send) p .scalar ky kx (l.x * n) F)
    (buf : Buffering) :
    ∃ W' : Int → World α,
      ((mixedNet g l [.collective (.scatter send fun _ => q), .update (.haloUpdate q h)] W).Completes buf fun r => (.ok (), W' r)) ∧
      ∀ r ∈ allRanks l, Holds l n r (quantities (W' r) q) .scalar ky kx h .halo F := by
  obtain ⟨W', ⟨W1, s1, W2, s2, s3⟩, h2⟩ := C85_calls (g := g) (W := W)
    (calls := [.collective (.scatter send fun _ => q), .update (.haloUpdate q h)]) hl hsq hW (fun x hx => by
      rcases List.mem_cons.1 hx with rfl | hx
      · exact ⟨p.dims, p.cells, hs⟩
      · rw [List.mem_singleton.1 hx]
        intro op ho
        cases ho
        exact ⟨hu, ky, kx, n, hh, hn, S⟩) buf
  refine ⟨W', h2, fun r hr => ?_⟩
  rw [s3 r hr]
  exact scattered_updated hl hsq hh hn hs S hd hy hx hF s1 s2 r hr

theorem usable_meta {W W1 : World α} {hs : List Nat} (U : Usable W hs) (hw : WF g W) (hk : Keeps W W1) {q : Nat} (hq : q ∈ hs) :
    SameMeta (quantities W q) (quantities W1 q) := by
  obtain ⟨H, A⟩ := usable_held hw U
  obtain ⟨y, hy, -⟩ := H.data q hq
  rw [quantities_eq hy, quantities_eq (hk q y hy (A q hq y hy))]
  exact ⟨rfl, rfl, rfl, rfl, rfl⟩

/-- **C85**: and a gather of the updated quantities into a global quantity of the root, which may be the one that was scattered,
leaves it as a sample of the field - even if it shares memory with the parts, so that the scatter and the update have overwritten
some of it. -/
theorem C85_field_back (hl : FloatSafe l) (hsq : l.y = l.x) {W : Int → World α} (hW : ∀ r ∈ allRanks l, Reachable g (W r))
    {send q back : Nat} {p : Parts} {ky kx : Nat} {n h : Int} {F : Fld α} (hh : 0 < h) (hn : h ≤ n)
    (hs : CFits (.cube l) p.dims p.cells W (.scatter send fun _ => q)) (hu : ∀ r ∈ allRanks l, Usable (W r) [q])
    (S : ScalarField l (fun r => quantities (W r)) q ky kx n h) (hd : ∀ r ∈ allRanks l, (quantities (W r) q).dims = p.dims)
    (hy : p.cells.getD ky 0 = n) (hx : p.cells.getD kx 0 = n) (hF : GlobalHolds (quantities (W 0) send) p .scalar ky kx (l.x * n) F)
    (hb : (quantities (W 0) back).GlobalShaped (.cube l) p.dims p.cells) (hwr : (W 0).writeable back .data = true)
    (buf : Buffering) :
    ∃ W' : Int → World α,
      ((mixedNet g l [.collective (.scatter send fun _ => q), .update (.haloUpdate q h), .collective (.gather (fun _ => q) back)]
        W).Completes buf fun r => (.ok (), W' r)) ∧
      GlobalHolds (quantities (W' 0) back) p .scalar ky kx (l.x * n) F := by
  have h0mem : (0 : Int) ∈ (Comm.cube l).ranks := (mem_ranks _ 0).2 ⟨by omega, comm_size_pos (c := .cube l) hl⟩
  have h0 : (0 : Int) ∈ allRanks l := (cube_ranks l 0).1 h0mem
  have ha : HAxes p.dims ky kx := by rw [← hd 0 h0]; exact (S.ready 0 h0).axes
  have hsc := hs
  obtain ⟨hpos, hg, hrs⟩ := hs
  obtain ⟨W', ⟨W1, s1, W2, s2, W3, s3, s4⟩, h2⟩ := C85_calls (g := g) (W := W)
    (calls := [.collective (.scatter send fun _ => q), .update (.haloUpdate q h), .collective (.gather (fun _ => q) back)])
    hl hsq hW (fun x hx => by
      simp only [List.mem_cons, List.not_mem_nil, or_false] at hx
      rcases hx with rfl | rfl | rfl
      · exact ⟨p.dims, p.cells, hsc⟩
      · intro op ho
        cases ho
        exact ⟨hu, ky, kx, n, hh, hn, S⟩
      · exact ⟨p.dims, p.cells, ⟨ky, kx, ha⟩, hb, hwr, fun r hr => (hrs r hr).1⟩) buf
  refine ⟨W', h2, ?_⟩
  rw [s4 0 h0]
  have hk2 : ∀ r ∈ allRanks l, Keeps (W r) (W2 r) := fun r hr =>
    (XRun.keeps (calls := [.collective (.scatter send fun _ => q), .update (.haloUpdate q h)]) ⟨W1, s1, W2, s2, fun _ _ => rfl⟩ hr
      (hW r hr).spec).1
  have hF2 := scattered_updated hl hsq hh hn hsc S hd hy hx hF s1 s2
  have me : ∀ r ∈ allRanks l, SameMeta (quantities (W r) q) (quantities (W2 r) q) := fun r hr =>
    usable_meta (hu r hr) (hW r hr).spec (hk2 r hr) (List.mem_singleton.2 rfl)
  have S0 : ScalarField l (fun r _ => quantities (W2 r) q) q ky kx n h :=
    ScalarField.same (m := fun r _ => quantities (W r) q) ⟨S.ready, S.dims, S.other, S.stagger⟩ fun r hr _ => me r hr
  have r2 := fun r (hr : r ∈ allRanks l) => ((hk2 r hr).rankShaped hpos (hrs r ((cube_ranks l r).2 hr)).1).1
  have g2 := ((hk2 0 h0).globalShaped hpos hb).1
  obtain ⟨⟨dims2, cells2, f2, p2⟩, rf, -, -⟩ := s3
  have e3 : dims2 = p.dims := globalDims_inj (f2.2.1.names.symm.trans g2.names)
  subst e3
  have e4 : cells2 = p.cells := rankOf_unique (f2.2.2.2 0 h0mem).extent (r2 0 h0).extent
  subst e4
  exact gathered_holds (m := fun r _ => quantities (W2 r) q) (q := q) (h := h) (lv := .halo) hl hsq (by omega) hy hx (rf.globalShaped g2)
    S0.ready (fun r hr => (me r hr).dims.trans (hd r hr)) r2 p2 rfl hF2

/-! ### Winds from the root -/

omit [Neg α] in
/-- A quantity none of whose elements is in memory that has changed is the same. -/
theorem OnlyCells.untouched {P : Nat → List Nat → Prop} {W W1 : World α} (h : OnlyCells P W W1) {k : Nat}
    (hk : ∀ idx a, Cell W k idx a → ∀ h' idx', P h' idx' → ¬ Cell W h' idx' a) : quantities W1 k = quantities W k := by
  have e : dataOf W1 k = dataOf W k := by
    unfold dataOf
    rw [h.objs, h.arrs]
  cases hy : dataOf W k with
  | error er =>
    unfold quantities value
    rw [e, hy]
    rfl
  | ok y =>
    rw [quantities_eq hy, quantities_eq (e.trans hy)]
    congr 1
    unfold clip
    congr 1
    funext idx
    by_cases hin : InB y.2.1.view.shape idx
    · refine (if_pos hin).trans (Eq.trans ?_ (if_pos hin).symm)
      rcases h.mem (y.2.1.view.addr idx) with hm | ⟨h', idx', hp, hc⟩
      · exact hm
      · exact absurd hc (hk idx _ ⟨y, hy, hin, rfl⟩ h' idx' hp)
    · exact (if_neg hin).trans (if_neg hin).symm

/-- After a scatter the quantities hold the field in their compute domains. -/
theorem scattered_holds (hl : FloatSafe l) (hsq : l.y = l.x) {W W1 : Int → World α} {send q : Nat} {p : Parts} {ky kx : Nat} {n h : Int}
    {c : Comp} {F : Fld α} (hn : 0 ≤ n) (hs : CFits (.cube l) p.dims p.cells W (.scatter send fun _ => q))
    (S : ∀ r ∈ allRanks l, HaloReady (quantities (W r) q) ky kx n h) (hd : ∀ r ∈ allRanks l, (quantities (W r) q).dims = p.dims)
    (hy : p.cells.getD ky 0 = n) (hx : p.cells.getD kx 0 = n) (hF : GlobalHolds (quantities (W 0) send) p c ky kx (l.x * n) F)
    (s1 : XStep g l (.collective (.scatter send fun _ => q)) W W1) :
    ∀ r ∈ allRanks l, SameMeta (quantities (W r) q) (quantities (W1 r) q) ∧ OnlyCompute q (W r) (W1 r) ∧
      Holds l n r (quantities (W1 r) q) c ky kx h .compute F := by
  have h0mem : (0 : Int) ∈ (Comm.cube l).ranks := (mem_ranks _ 0).2 ⟨by omega, comm_size_pos (c := .cube l) hl⟩
  intro r hr
  obtain ⟨hpos, hg, hrs⟩ := hs
  obtain ⟨dims1, cells1, f1, p1⟩ := s1
  have e1 : dims1 = p.dims := globalDims_inj (f1.2.1.names.symm.trans hg.names)
  subst e1
  have e2 : cells1 = p.cells := rankOf_unique (f1.2.2 0 h0mem).1.extent (hrs 0 h0mem).1.extent
  subst e2
  obtain ⟨q1, q2, q3⟩ := p1 r ((cube_ranks l r).2 hr)
  have me := q2.sameMeta
  have hsh := (hrs r ((cube_ranks l r).2 hr)).1
  exact ⟨me, q3, part_holds (m := fun r => quantities (W1 r)) hl hsq hn hy hx hg (me.haloReady (S r hr)) (me.dims.trans (hd r hr))
    ⟨me.wf hsh.wf, by rw [me.extent]; exact hsh.extent⟩ q1 hF⟩

/-- **C85**: if two global quantities of the root are the components of a wind along the axes of the tiles, then after a scatter
of each and a vector halo update the quantities of all ranks hold the components of the wind, also in their halos, along the
axes of their own tile.  The quantities may share memory with the global ones, but the first scatter must not overwrite the
second global quantity. -/
theorem C85_wind (hl : FloatSafe l) (hsq : l.y = l.x) {W : Int → World α} (hW : ∀ r ∈ allRanks l, Reachable g (W r))
    {sx sy x y : Nat} {px py : Parts} {ky kx : Nat} {n h : Int} {F : Fld α} (hh : 0 < h) (hn : h ≤ n) (hxy : x ≠ y)
    (hsx : CFits (.cube l) px.dims px.cells W (.scatter sx fun _ => x))
    (hsy : CFits (.cube l) py.dims py.cells W (.scatter sy fun _ => y)) (hu : ∀ r ∈ allRanks l, Usable (W r) [x, y])
    (hap : ∀ idx idx' a, Cell (W 0) sy idx a → (quantities (W 0) x).InCompute idx' → ¬ Cell (W 0) x idx' a)
    (S : VectorField l (fun r => quantities (W r)) x y ky kx n h)
    (hdx : ∀ r ∈ allRanks l, (quantities (W r) x).dims = px.dims) (hdy : ∀ r ∈ allRanks l, (quantities (W r) y).dims = py.dims)
    (hxy' : px.cells.getD ky 0 = n) (hxx : px.cells.getD kx 0 = n) (hyy : py.cells.getD ky 0 = n) (hyx : py.cells.getD kx 0 = n)
    (hV : ∀ P o e, F P o e.neg = -F P o e)
    (hFx : GlobalHolds (quantities (W 0) sx) px .x ky kx (l.x * n) F)
    (hFy : GlobalHolds (quantities (W 0) sy) py .y ky kx (l.x * n) F) (buf : Buffering) :
    ∃ W' : Int → World α,
      ((mixedNet g l [.collective (.scatter sx fun _ => x), .collective (.scatter sy fun _ => y), .update (.vectorHaloUpdate x y h)]
        W).Completes buf fun r => (.ok (), W' r)) ∧
      ∀ r ∈ allRanks l, Holds l n r (quantities (W' r) x) .x ky kx h .halo F ∧ Holds l n r (quantities (W' r) y) .y ky kx h .halo F := by
  have h0mem : (0 : Int) ∈ (Comm.cube l).ranks := (mem_ranks _ 0).2 ⟨by omega, comm_size_pos (c := .cube l) hl⟩
  have h0 : (0 : Int) ∈ allRanks l := (cube_ranks l 0).1 h0mem
  obtain ⟨W', ⟨W1, s1, W2, s2, W3, s3, s4⟩, h2⟩ := C85_calls (g := g) (W := W)
    (calls := [.collective (.scatter sx fun _ => x), .collective (.scatter sy fun _ => y), .update (.vectorHaloUpdate x y h)])
    hl hsq hW (fun z hz => by
      simp only [List.mem_cons, List.not_mem_nil, or_false] at hz
      rcases hz with rfl | rfl | rfl
      · exact ⟨px.dims, px.cells, hsx⟩
      · exact ⟨py.dims, py.cells, hsy⟩
      · intro op ho
        cases ho
        exact ⟨hu, ky, kx, n, hh, hn, S⟩) buf
  refine ⟨W', h2, fun r hr => ?_⟩
  have hk1 : ∀ r ∈ allRanks l, Keeps (W r) (W1 r) := fun r hr => (s1.keeps hr (hW r hr).spec).1
  have hx1 := scattered_holds hl hsq (by omega) hsx S.readyX hdx hxy' hxx hFx s1
  have hsy1 : CFits (.cube l) py.dims py.cells W1 (.scatter sy fun _ => y) :=
    CFits.kept h0mem hsy fun r hr => hk1 r ((cube_ranks l r).1 hr)
  have hu1 : ∀ r ∈ allRanks l, Usable (W1 r) [x, y] := fun r hr => (hu r hr).keeps (hW r hr).spec (hk1 r hr)
  have meY : ∀ r ∈ allRanks l, SameMeta (quantities (W r) y) (quantities (W1 r) y) := fun r hr =>
    usable_meta (hu r hr) (hW r hr).spec (hk1 r hr) (List.mem_cons_of_mem _ (List.mem_singleton.2 rfl))
  have hsv : quantities (W1 0) sy = quantities (W 0) sy := (hx1 0 h0).2.1.untouched fun idx a hc h' idx' hp => by
    rw [hp.1]
    exact hap idx idx' a hc hp.2
  have hy2 := scattered_holds (W := W1) (h := h) hl hsq (by omega) hsy1 (fun r hr => (meY r hr).haloReady (S.readyY r hr))
    (fun r hr => (meY r hr).dims.trans (hdy r hr)) hyy hyx (by rw [hsv]; exact hFy) s2
  have hx2 : ∀ r ∈ allRanks l, quantities (W2 r) x = quantities (W1 r) x := fun r hr =>
    (hy2 r hr).2.1.untouched fun idx a hc h' idx' hp => by
      rw [hp.1]
      exact (hu1 r hr).apart x List.mem_cons_self y (List.mem_cons_of_mem _ (List.mem_singleton.2 rfl)) hxy idx idx' a hc
  have S2 : VectorField l (fun r => quantities (W2 r)) x y ky kx n h := by
    have S' : VectorField l (fun r k => if k = 0 then quantities (W2 r) x else quantities (W2 r) y) 0 1 ky kx n h :=
      VectorField.same (m := fun r k => if k = 0 then quantities (W r) x else quantities (W r) y)
        ⟨S.readyX, S.readyY, S.dimsX, S.dimsY, S.ndim, S.other, S.staggerY, S.staggerX⟩ fun r hr k => by
          split
          · rw [hx2 r hr]; exact (hx1 r hr).1
          · exact (meY r hr).trans (hy2 r hr).1
    exact ⟨S'.readyX, S'.readyY, S'.dimsX, S'.dimsY, S'.ndim, S'.other, S'.staggerY, S'.staggerX⟩
  obtain ⟨m', u1, u2⟩ := s3
  rw [s4 r hr, (u2 r hr).1 x (by simp [Op.qs]), (u2 r hr).1 y (by simp [Op.qs])]
  exact update_wind hl.xpos hsq hh hn hxy S2 u1 hV (fun r hr => by rw [hx2 r hr]; exact (hx1 r hr).2.2) (fun r hr => (hy2 r hr).2.2) hr

end Heap
end FV3
