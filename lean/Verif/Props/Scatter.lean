import Verif.Proofs.ScatterProg
import Verif.Props.Partition

/-!
# C25, C26: scatter and gather
-/

namespace FV3
variable {α : Type}

/-- **C25**: whatever the schedule and the buffering of MPI, every rank returns from `scatter` with
its part of root's compute domain, in the given receive quantity (of any origin and halo, which stays
as it is outside the compute domain) or in a new quantity. -/
theorem C25_scatter (buf : Buffering) (c : Comm) (hl : FloatSafe c.layout) (junk : List Nat → α)
    (dims : List Dim) (cells : List Int) (hpos : 0 < dims.length)
    (g : Quantity α) (hg : g.GlobalShaped c dims cells)
    (send recv : Int → Option (Quantity α)) (hsend : send 0 = some g)
    (hrecv : ∀ r ∈ c.ranks, ∀ q, recv r = some q → q.RankShaped dims cells) :
    ∃ out : Int → Quantity α,
      c.Returns buf (fun r => scatter c junk r (send r) (recv r)) (fun r => .ok (out r)) ∧
      ∀ r ∈ c.ranks, IsPart c dims cells g (out r) r ∧
        (∀ q, recv r = some q → q.Refilled (out r)) ∧
        (recv r = none → FreshPart (out r) dims cells g.units) := by
  obtain ⟨out, h1, h2⟩ := scatter_does buf hl junk hpos hg send recv hsend hrecv 0
  exact ⟨out, h1.returns, fun r hr => ⟨(h2 r hr).part, (h2 r hr).given, (h2 r hr).fresh⟩⟩

/-- **C25**: root's `scatter` without a quantity to send raises TypeError, before any communication. -/
theorem C25_root_needs_quantity (c : Comm) (junk : List Nat → α) (recv : Option (Quantity α)) (n : Nat) :
    scatter c junk 0 none recv n = .ret (.error .typeError, n) := rfl

/-- **C25** (limit): then the other ranks, if there are any, wait for ever. -/
theorem C25_root_error_hangs (buf : Buffering) (c : Comm) (junk : List Nat → α)
    (send recv : Int → Option (Quantity α)) (hsend : send 0 = none) :
    (c.net fun r => scatter c junk r (send r) (recv r)).Stuck buf ∧
    ∀ r ∈ c.ranks, r ≠ 0 → ∀ x, (c.net fun r => scatter c junk r (send r) (recv r)).procs r ≠ .ret x := by
  have key : ∀ r, r ≠ 0 → ∃ k, scatter c junk r (send r) (recv r) 0 = .recv 0 (.coll 0) k := by
    intro r h0
    unfold scatter
    rw [if_neg (show ¬ r = ROOT_RANK from h0)]
    unfold bcast
    rw [if_neg (show ¬ r = ROOT_RANK from h0)]
    exact ⟨_, rfl⟩
  constructor
  · intro r
    unfold Net.step Comm.net Net.start
    dsimp only
    by_cases hr : r ∈ c.ranks
    · rw [if_pos hr]
      by_cases h0 : r = 0
      · subst h0
        rw [hsend]
        rfl
      · obtain ⟨k, hk⟩ := key r h0
        rw [hk]
        rfl
    · rw [if_neg hr]
  · intro r hr h0 x hx
    obtain ⟨k, hk⟩ := key r h0
    unfold Comm.net Net.start at hx
    dsimp only at hx
    rw [if_pos hr, hk] at hx
    cases hx

theorem GatherOut.gathered {c : Comm} (hl : FloatSafe c.layout) {dims : List Dim} {cells : List Int} {ky kx : Nat}
    (ha : HAxes dims ky kx) {send : Int → Quantity α} {recv : Option (Quantity α)} {root : Quantity α}
    (h2 : GatherOut c dims cells send recv root) (hsend : (send 0).RankShaped dims cells) :
    GatheredFrom c dims cells send root := by
  intro p hp
  obtain ⟨r, hr, ⟨rel, hrel, hpl⟩, hmax⟩ := exists_highest (place_cover hl ha h2.shaped.extent hp)
  have hH : HighestAt c dims cells (rankShape dims cells) r rel := by
    refine ⟨(mem_ranks c r).2 hr, hrel, ?_⟩
    intro r' hr' rel' hrel' he
    rw [mem_ranks] at hr'
    exact hmax r' hr'.1 hr'.2 ⟨rel', hrel', he.trans hpl⟩
  refine ⟨r, rel, ?_, hpl, ?_⟩
  · rw [show (send 0).computeArr.shape = rankShape dims cells from rankOf_shape hsend.extent]
    exact hH
  · rw [← hpl]; exact h2.value r rel hH

/-- **C26**: whatever the schedule and the buffering, all ranks return from `gather`: root with a
global quantity in which every point has the value of the highest rank that has it (`HighestAt`), the
others with `None`. -/
theorem C26_gather (buf : Buffering) (c : Comm) (hl : FloatSafe c.layout) (junk : List Nat → α)
    (dims : List Dim) (cells : List Int) (ky kx : Nat) (ha : HAxes dims ky kx)
    (hb : ∀ k, k < dims.length → cells.getD k 0 * ranksAlong c.layout (dims.getD k .x) < 2 ^ 51)
    (send : Int → Quantity α) (recv : Int → Option (Quantity α))
    (hsend : ∀ r ∈ c.ranks, (send r).RankShaped dims cells)
    (hrecv : ∀ q, recv 0 = some q → q.GlobalShaped c dims cells)
    (hdims : recv 0 = none → (send 0).dims = dims) :
    ∃ root : Quantity α,
      c.Returns buf (fun r => gather c junk r (send r) (recv r)) (fun r => .ok (if r = 0 then some root else none)) ∧
      root.GlobalShaped c dims cells ∧
      (∀ q, recv 0 = some q → q.Refilled root) ∧
      (recv 0 = none → FreshGlobal c root dims cells (send 0).units) ∧
      GatheredFrom c dims cells send root := by
  have hpos : 0 < dims.length := by have := ha.ylt; omega
  have hsize := comm_size_pos hl
  have h0mem : (0 : Int) ∈ c.ranks := (mem_ranks c 0).2 ⟨by omega, hsize⟩
  obtain ⟨root, h1, h2⟩ := gather_does buf hl junk hpos hb send recv hsend hrecv hdims 0
  exact ⟨root, h1.returns, h2.shaped, h2.given, fun h => (h2.fresh h).1, GatherOut.gathered hl ha h2 (hsend 0 h0mem)⟩

theorem globalExtent_unique {c : Comm} {dims : List Dim} {cells ext ext' : List Int}
    (h : c.GlobalExtent dims cells ext) (h' : c.GlobalExtent dims cells ext') : ext = ext' := by
  have key : ∀ (l : Layout) (e e' : List Int), TileOf l dims cells e → TileOf l dims cells e' → e = e' := by
    intro l e e' he he'
    apply ext_getD 0 (by rw [he.2.1, he'.2.1])
    intro k hk
    rw [he.2.1] at hk
    rw [(tileOf_getD he hk).2.2, (tileOf_getD he' hk).2.2]
  cases c with
  | tile l => exact key l _ _ h h'
  | cube l =>
    obtain ⟨t, rfl, ht⟩ := h
    obtain ⟨t', rfl, ht'⟩ := h'
    rw [key l _ _ ht ht']

/-- **C26**: `gather` after `scatter` gives root's compute domain back, into a new or a given
quantity. -/
theorem C26_round_trip (buf : Buffering) (c : Comm) (hl : FloatSafe c.layout) (junk junk' : List Nat → α)
    (dims : List Dim) (cells : List Int) (ky kx : Nat) (ha : HAxes dims ky kx)
    (g : Quantity α) (hg : g.GlobalShaped c dims cells)
    (send parts recv : Int → Option (Quantity α)) (hsend : send 0 = some g)
    (hparts : ∀ r ∈ c.ranks, ∀ q, parts r = some q → q.RankShaped dims cells)
    (hrecv : ∀ q, recv 0 = some q → q.GlobalShaped c dims cells)
    (hdims : recv 0 = none → ∀ q, parts 0 = some q → q.dims = dims) :
    ∃ root : Quantity α,
      c.Returns buf (fun r => do
          let q ← scatter c junk r (send r) (parts r)
          gather c junk' r q (recv r))
        (fun r => .ok (if r = 0 then some root else none)) ∧
      root.dims = g.dims ∧ root.extent = g.extent ∧ root.computeArr.Eqv g.computeArr ∧
      (∀ q, recv 0 = some q → q.Refilled root) := by
  have hpos : 0 < dims.length := by have := ha.ylt; omega
  have hsize := comm_size_pos hl
  have h0mem : (0 : Int) ∈ c.ranks := (mem_ranks c 0).2 ⟨by omega, hsize⟩
  have hb : ∀ k, k < dims.length → cells.getD k 0 * ranksAlong c.layout (dims.getD k .x) < 2 ^ 51 := by
    intro k hk
    have h := hg.extent
    cases c with
    | tile l => exact (tileOf_getD h hk).2.1
    | cube l =>
      obtain ⟨t, -, ht⟩ := h
      exact (tileOf_getD ht hk).2.1
  obtain ⟨out, s1, s2⟩ := scatter_does buf hl junk hpos hg send parts hsend hparts 0
  obtain ⟨root, g1, g2⟩ := gather_does buf hl junk' hpos hb out recv (fun r hr => (s2 r hr).shaped) hrecv (by
    intro h
    cases hp : parts 0 with
    | none => exact ((s2 0 h0mem).fresh hp).names
    | some q => rw [((s2 0 h0mem).given q hp).dims]; exact hdims h q hp) 2
  have hext : root.extent = g.extent := globalExtent_unique g2.shaped.extent hg.extent
  refine ⟨root, (AllDo.bind (f := fun r q => gather c junk' r q (recv r)) s1 g1).returns,
    g2.shaped.names.trans hg.names.symm, hext, ⟨?_, ?_⟩, g2.given⟩
  · show root.extent.map _ = g.extent.map _
    rw [hext]
  · intro p hp
    obtain ⟨r, hr, ⟨rel, hrel, hpl⟩, hmax⟩ := exists_highest (place_cover hl ha g2.shaped.extent hp)
    have hr' := (mem_ranks c r).2 hr
    have := g2.value r rel ⟨hr', hrel, by
      intro r' hr' rel' hrel' he
      rw [mem_ranks] at hr'
      exact hmax r' hr'.1 hr'.2 ⟨rel', hrel', he.trans hpl⟩⟩
    rw [hpl] at this
    rw [this]
    have h3 := (s2 r hr').part rel (by
      rw [show (out r).computeArr.shape = rankShape dims cells from rankOf_shape (s2 r hr').shaped.extent]
      exact hrel)
    rw [h3, hpl]

/-! ### A concrete case: six tiles of two ranks each; an x-interface field on two levels of halo -/

/-- A global field: 6 tiles, 2 rows, 7 interface columns, one halo point in the array. -/
def exGlobal : Quantity Nat :=
  { data := ⟨[6, 4, 9], fun i => i.foldl (fun a k => 10 * a + k) 0⟩, dims := [.tile, .y, .xI], units := "m"
    origin := [0, 1, 1], extent := [6, 2, 7] }

theorem exGlobal_shaped : exGlobal.GlobalShaped (.cube ⟨1, 2⟩) [.y, .xI] [2, 3] := by
  refine ⟨⟨⟨rfl, rfl, rfl⟩, by unfold Quantity.ndim Quantity.o Quantity.e Quantity.n; decide⟩, rfl, [2, 7], rfl, rfl, rfl, ?_⟩
  intro k d c t hd hc ht
  match k with
  | 0 => simp at hd hc ht; subst hd hc ht; decide
  | 1 => simp at hd hc ht; subst hd hc ht; decide
  | k + 2 => simp at hd

/-- A receive quantity with another halo. -/
def exPart : Quantity Nat :=
  { data := ⟨[4, 5], fun _ => 0⟩, dims := [.y, .xI], units := "m", origin := [2, 0], extent := [2, 4] }

theorem exPart_shaped : exPart.RankShaped [.y, .xI] [2, 3] := by
  refine ⟨⟨⟨rfl, rfl, rfl⟩, by unfold Quantity.ndim Quantity.o Quantity.e Quantity.n; decide⟩, rfl, rfl, ?_⟩
  intro k d c t hd hc ht
  match k with
  | 0 => simp [exPart] at hd hc ht; subst hd hc ht; decide
  | 1 => simp [exPart] at hd hc ht; subst hd hc ht; decide
  | k + 2 => simp at hd

theorem exAxes : HAxes [.y, .xI] 0 1 := by
  refine ⟨?_, ?_, by decide, by decide⟩ <;>
  · intro k d hd
    match k with
    | 0 => simp at hd; subst hd; decide
    | 1 => simp at hd; subst hd; decide
    | k + 2 => simp at hd

/-- The hypotheses of C25 and C26 are met, with twelve ranks; rank 11 gets the last three cells of
tile 5, that is interface columns 3 to 6. -/
example : (Comm.cube ⟨1, 2⟩).ranks.length = 12 ∧ FloatSafe (Comm.cube ⟨1, 2⟩).layout ∧
    (Comm.cube ⟨1, 2⟩).place [.y, .xI] [2, 3] 11 [1, 3] = [5, 1, 6] ∧
    exGlobal.computeArr.get [5, 1, 6] = 527 ∧
    (∀ buf, ∃ out : Int → Quantity Nat, (Comm.cube ⟨1, 2⟩).Returns buf
      (fun r => scatter (.cube ⟨1, 2⟩) (fun _ => 0) r (if r = 0 then some exGlobal else none)
        (if r = 11 then some exPart else none)) (fun r => .ok (out r)) ∧
      (out 11).computeArr.get [1, 3] = 527) := by
  have hl : FloatSafe (Comm.cube ⟨1, 2⟩).layout := C05_safe_up_to_48 _ (by decide) (by decide) (by decide) (by decide)
  refine ⟨by decide, hl, by decide, by decide, ?_⟩
  intro buf
  obtain ⟨out, h1, h2⟩ := C25_scatter buf (.cube ⟨1, 2⟩) hl (fun _ => 0) [.y, .xI] [2, 3] (by decide) exGlobal
    exGlobal_shaped (fun r => if r = 0 then some exGlobal else none) (fun r => if r = 11 then some exPart else none) rfl
    (by
      intro r _ q hq
      split at hq
      · cases hq; exact exPart_shaped
      · cases hq)
  refine ⟨out, h1, ?_⟩
  obtain ⟨p1, p2, -⟩ := h2 11 (by decide)
  have hre := p2 exPart rfl
  have hs : (out 11).computeArr.shape = [2, 4] := by
    show (out 11).extent.map _ = _
    rw [hre.extent]; rfl
  rw [p1 [1, 3] (by rw [hs]; decide)]
  decide

end FV3
