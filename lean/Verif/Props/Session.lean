import Verif.Proofs.SessionRun
import Verif.Proofs.ZarrPart
import Verif.Props.DriverSteps

/-!
# C57: any sequence of calls of one communicator
-/

namespace FV3
variable {α : Type} [Neg α]

/-- **C57**: any sequence of scatters, gathers, halo updates, vector halo updates, synchronisations and computations
on one cubed-sphere communicator, the same on all ranks, ends on all ranks, whatever the schedule and the buffering of
MPI, and has the effect of performing the calls one after the other on all ranks. -/
theorem C57_session {l : Layout} (hl : FloatSafe l) (hsq : l.y = l.x) (buf : Buffering) (junk : Nat → List Nat → α)
    (mem : Int → Mem α) (glob : Int → Nat → Option (Quantity α)) (parts : Nat → Parts) (filled : List Nat)
    (hglob : ∀ g v, glob 0 g = some v → v.GlobalShaped (.cube l) (parts g).dims (parts g).cells)
    (hfilled : ∀ g ∈ filled, ∃ v, glob 0 g = some v)
    (ops : List (SOp α)) (hops : SessionValid l mem parts filled ops) :
    ∃ fin : Int → SState α,
      (sessionNet l junk ops mem glob).Completes buf (fun r =>
        if r ∈ allRanks l then some (.ok (fin r)) else none) ∧
      SessionRun l parts ops mem (glob 0) (fun r => (fin r).mem) (fin 0).glob ∧
      ∀ r ∈ allRanks l, MetaIs mem r (fin r).mem :=
  session_from (k := 0) (n := 0) (s := fun r => ⟨mem r, glob r, 0, 0⟩) hl hsq buf junk
    ⟨fun _ _ _ => SameMeta.refl _, fun _ _ => rfl, fun _ _ => rfl, hglob, hfilled⟩ hops
    ⟨fun _ _ _ _ => rfl, fun _ _ _ _ => rfl⟩

theorem sessionRun_append {l : Layout} {parts : Nat → Parts} {a b : List (SOp α)} {m m' : Int → Mem α}
    {G G' : Nat → Option (Quantity α)} (h : SessionRun l parts (a ++ b) m G m' G') :
    ∃ m1 G1, SessionRun l parts a m G m1 G1 ∧ SessionRun l parts b m1 G1 m' G' := by
  induction a generalizing m G with
  | nil => exact ⟨m, G, ⟨fun _ _ => rfl, rfl⟩, h⟩
  | cons op a ih =>
    obtain ⟨m1, G1, h1, h2⟩ := h
    obtain ⟨m2, G2, h3, h4⟩ := ih h2
    exact ⟨m2, G2, ⟨m1, G1, h1, h3⟩, h4⟩

/-- Global quantity `g` is not changed by calls that do not gather into it. -/
theorem sessionRun_glob {l : Layout} {parts : Nat → Parts} {ops : List (SOp α)} {m m' : Int → Mem α}
    {G G' : Nat → Option (Quantity α)} (h : SessionRun l parts ops m G m' G') {g : Nat}
    (hno : ∀ q, SOp.gather q g ∉ ops) : G' g = G g := by
  induction ops generalizing m G with
  | nil => rw [h.2]
  | cons op ops ih =>
    obtain ⟨m1, G1, h1, h2⟩ := h
    rw [ih h2 fun q hq => hno q (List.mem_cons_of_mem _ hq)]
    cases op with
    | call c => rw [h1.2]
    | scatter q' g' => rw [h1.1]
    | gather q' g' =>
      refine h1.2.1 g ?_
      rintro rfl
      exact hno q' (List.mem_cons_self ..)

/-- The ranks agree about the points they share (there are none if the axes have no interface dimensions). -/
def SharedAgree (l : Layout) (p : Parts) (m : Int → Mem α) (q : Nat) : Prop :=
  ∀ r ∈ allRanks l, ∀ r' ∈ allRanks l, ∀ rel rel', InB (m r q).computeArr.shape rel →
    InB (m r' q).computeArr.shape rel' →
    (Comm.cube l).place p.dims p.cells r rel = (Comm.cube l).place p.dims p.cells r' rel' →
    (m r q).computeArr.get rel = (m r' q).computeArr.get rel'

/-- **C57**: gathering a quantity and scattering the global quantity later, after any other calls, gives every rank
the values of its compute domain back. -/
theorem C57_checkpoint {l : Layout} (hl : FloatSafe l) (hsq : l.y = l.x) (buf : Buffering) (junk : Nat → List Nat → α)
    (mem : Int → Mem α) (glob : Int → Nat → Option (Quantity α)) (parts : Nat → Parts) (filled : List Nat)
    (hglob : ∀ g v, glob 0 g = some v → v.GlobalShaped (.cube l) (parts g).dims (parts g).cells)
    (hfilled : ∀ g ∈ filled, ∃ v, glob 0 g = some v) (q g : Nat) (ops : List (SOp α))
    (hops : SessionValid l mem parts filled (.gather q g :: ops ++ [.scatter q g]))
    (hno : ∀ q', SOp.gather q' g ∉ ops) (hagree : SharedAgree l (parts g) mem q) :
    ∃ fin : Int → SState α,
      (sessionNet l junk (.gather q g :: ops ++ [.scatter q g]) mem glob).Completes buf (fun r =>
        if r ∈ allRanks l then some (.ok (fin r)) else none) ∧
      ∀ r ∈ allRanks l, ((fin r).mem q).computeArr.Eqv (mem r q).computeArr := by
  obtain ⟨fin, h1, h2, h3⟩ := C57_session hl hsq buf junk mem glob parts filled hglob hfilled _ hops
  refine ⟨fin, h1, fun r hr => ?_⟩
  have hp : HasParts l mem q (parts g) := hops.1
  obtain ⟨m1, G1, ⟨-, -, v, g1, g2, g3, -⟩, h4⟩ := h2
  obtain ⟨m2, G2, h5, m3, G3, ⟨rfl, w, s1, s2⟩, s3, -⟩ := sessionRun_append h4
  have hG := sessionRun_glob h5 hno
  rw [s1, g1, Option.some.injEq] at hG
  subst hG
  have em := h3 r hr q
  have hfin : (fin r).mem q = m3 r q := congrFun (s3 r hr) q
  have hshape : ∀ r ∈ allRanks l, (mem r q).computeArr.shape = rankShape (parts g).dims (parts g).cells :=
    fun r hr => rankOf_shape (hp.shaped r hr).extent
  have h0 : (0 : Int) ∈ allRanks l := (cube_ranks l 0).1 ((mem_ranks _ 0).2 ⟨by omega, comm_size_pos (c := .cube l) hl⟩)
  have hsf : ((fin r).mem q).computeArr.shape = (mem r q).computeArr.shape := by
    show ((fin r).mem q).extent.map _ = (mem r q).extent.map _
    rw [em.extent]
  refine ⟨hsf, fun rel hrel => ?_⟩
  have hrel' : InB (mem r q).computeArr.shape rel := by rw [← hsf]; exact hrel
  have hr' := mem_allRanks.1 hr
  have hpart := (s2 r hr).1 rel (by rw [← hfin]; exact hrel)
  rw [hfin, hpart]
  obtain ⟨r2, rel2, hH, hpl, hval⟩ := g3 _ (place_inB (c := .cube l) hl g2.extent hr'.1 hr'.2
    (by rw [← hshape r hr]; exact hrel'))
  rw [hval]
  have hr2 : r2 ∈ allRanks l := (cube_ranks l r2).1 hH.1
  have hrel2 : InB (mem r2 q).computeArr.shape rel2 := by
    rw [hshape r2 hr2, ← hshape 0 h0]
    exact hH.2.1
  exact hagree r2 hr2 r hr rel2 rel hrel2 hrel' hpl

/-- Ranks share no points of quantities without interface dimensions. -/
theorem place_injective {l : Layout} (hl : FloatSafe l) {dims : List Dim} {cells : List Int} {ky kx : Nat}
    (ha : HAxes dims ky kx) (hc : ∀ d ∈ dims, d ≠ .xI ∧ d ≠ .yI ∧ d ≠ .zI) {r r' : Int} (hr : r ∈ allRanks l)
    (hr' : r' ∈ allRanks l) {rel rel' : List Nat} (h : InB (rankShape dims cells) rel)
    (h' : InB (rankShape dims cells) rel')
    (he : (Comm.cube l).place dims cells r rel = (Comm.cube l).place dims cells r' rel') : r = r' ∧ rel = rel' := by
  have hlen : (rankShape dims cells).length = dims.length := by simp [rankShape, tab]
  obtain ⟨n1, b1⟩ := (inB_iff _ _).1 h
  obtain ⟨n2, b2⟩ := (inB_iff _ _).1 h'
  have he : (r / (l.y * l.x)).toNat :: tab dims.length (fun k =>
        (coordAlong (subtileIndex l r) (dims.getD k .x) * cells.getD k 0 + (rel.getD k 0 : Nat)).toNat) =
      (r' / (l.y * l.x)).toNat :: tab dims.length (fun k =>
        (coordAlong (subtileIndex l r') (dims.getD k .x) * cells.getD k 0 + (rel'.getD k 0 : Nat)).toNat) := he
  injection he with ht hk
  have hp : 0 < l.y * l.x := Int.mul_pos hl.ypos hl.xpos
  have g := mem_allRanks.1 hr
  have g' := mem_allRanks.1 hr'
  have ht' : r / (l.y * l.x) = r' / (l.y * l.x) := by
    have := Int.ediv_nonneg g.1 hp.le
    have := Int.ediv_nonneg g'.1 hp.le
    omega
  have coord0 : ∀ (r : Int) d, 0 ≤ coordAlong (subtileIndex l r) d := by
    intro r d
    have := subtileIndex_range hl.ypos hl.xpos r
    unfold coordAlong
    split
    · omega
    · split <;> omega
  have key : ∀ k, k < dims.length →
      coordAlong (subtileIndex l r) (dims.getD k .x) = coordAlong (subtileIndex l r') (dims.getD k .x) ∧
      rel.getD k 0 = rel'.getD k 0 := by
    intro k hkl
    have e := congrArg (fun v => v.getD k 0) hk
    simp only [getD_tab _ _ hkl] at e
    have c1 := b1 k (by omega)
    have c2 := b2 k (by omega)
    have hs : nShared (dims.getD k .x) = 0 := by
      have hd := hc (dims.getD k .x) (by rw [getD_lt _ hkl]; exact List.getElem_mem _)
      have := pointsOf_eq (dims.getD k .x) 0
      unfold pointsOf at this
      rw [if_neg (by rintro (h | h | h); exacts [hd.1 h, hd.2.1 h, hd.2.2 h])] at this
      omega
    unfold rankShape at c1 c2
    rw [getD_tab _ _ hkl, hs] at c1 c2
    generalize cells.getD k 0 = n at *
    have hn : 0 < n := by omega
    have p1 := Int.mul_nonneg (coord0 r (dims.getD k .x)) hn.le
    have p2 := Int.mul_nonneg (coord0 r' (dims.getD k .x)) hn.le
    have e' : coordAlong (subtileIndex l r) (dims.getD k .x) * n + (rel.getD k 0 : Nat) =
        coordAlong (subtileIndex l r') (dims.getD k .x) * n + (rel'.getD k 0 : Nat) := by omega
    have hdiv : ∀ (c : Int) (i : Nat), (i : Int) < n → (c * n + i) / n = c := by
      intro c i hi
      rw [Int.add_comm, Int.add_mul_ediv_right _ _ (by omega), Int.ediv_eq_zero_of_lt (by omega) hi]
      omega
    have d1 := congrArg (fun v : Int => v / n) e'
    rw [hdiv _ _ (by omega), hdiv _ _ (by omega)] at d1
    rw [d1] at e'
    exact ⟨d1, by omega⟩
  have hy := (key ky ha.ylt).1
  have hx := (key kx ha.xlt).1
  rw [Zarr.HAxes.coordY ha, Zarr.HAxes.coordY ha] at hy
  rw [Zarr.HAxes.coordX ha, Zarr.HAxes.coordX ha] at hx
  refine ⟨?_, ext_getD 0 (by omega) fun k hk => (key k (by omega)).2⟩
  rw [← mkRank_eta hl.ypos hl.xpos r, ← mkRank_eta hl.ypos hl.xpos r', hy, hx, ht']

/-- **C57**: `C57_checkpoint` for quantities without interface dimensions: any values of the ranks. -/
theorem C57_checkpoint_cells {l : Layout} (hl : FloatSafe l) (hsq : l.y = l.x) (buf : Buffering)
    (junk : Nat → List Nat → α)
    (mem : Int → Mem α) (glob : Int → Nat → Option (Quantity α)) (parts : Nat → Parts) (filled : List Nat)
    (hglob : ∀ g v, glob 0 g = some v → v.GlobalShaped (.cube l) (parts g).dims (parts g).cells)
    (hfilled : ∀ g ∈ filled, ∃ v, glob 0 g = some v) (q g : Nat) (ops : List (SOp α))
    (hops : SessionValid l mem parts filled (.gather q g :: ops ++ [.scatter q g]))
    (hno : ∀ q', SOp.gather q' g ∉ ops) (hcells : ∀ d ∈ (parts g).dims, d ≠ .xI ∧ d ≠ .yI ∧ d ≠ .zI) :
    ∃ fin : Int → SState α,
      (sessionNet l junk (.gather q g :: ops ++ [.scatter q g]) mem glob).Completes buf (fun r =>
        if r ∈ allRanks l then some (.ok (fin r)) else none) ∧
      ∀ r ∈ allRanks l, ((fin r).mem q).computeArr.Eqv (mem r q).computeArr := by
  refine C57_checkpoint hl hsq buf junk mem glob parts filled hglob hfilled q g ops hops hno ?_
  have hp : HasParts l mem q (parts g) := hops.1
  obtain ⟨ky, kx, ha⟩ := hp.axes
  intro r hr r' hr' rel rel' h h' he
  obtain ⟨rfl, rfl⟩ := place_injective hl ha hcells hr hr'
    (by rw [← rankOf_shape (hp.shaped r hr).extent]; exact h)
    (by rw [← rankOf_shape (hp.shaped r' hr').extent]; exact h') he
  rfl

/-! ### A concrete case -/

/-- Three scalar quantities on 24 ranks; global quantity 0 is given, 1 is not.  The calls of the example: scatter
global quantity 0 into quantity 0, halo update, vector halo update of quantities 1 and 2, gather quantity 0 into a new
global quantity 1, compute, scatter global quantity 1 into quantity 2, gather quantity 2 into global quantity 0. -/
def exSession : List (SOp α) :=
  [.scatter 0 0, .call (.haloUpdate 0 1), .call (.vectorHaloUpdate 1 2 1), .gather 0 1, .call (.compute exNext),
    .scatter 2 1, .gather 2 0]

/-- The parts of the global quantities. -/
def exParts : Nat → Parts := fun _ => ⟨[.y, .x], [3, 3]⟩

theorem exSession_run (z : α) (F : Vec3 → (Nat → Int) → α) (q : Nat) :
    RunSetup ⟨2, 2⟩ [.y, .x] [((3 : Nat) : Int), (3 : Nat)] 0 1 (3 : Nat) 1 (exRunG 6 F) (exRunMem 3 z) q :=
  exRun_setup (C05_safe_up_to_48 _ (by decide) (by decide) (by decide) (by decide)) rfl (n := 3) (N := 6) (by decide)
    (by decide) (by decide) z F q

theorem exSession_parts (z : α) (q g : Nat) : HasParts ⟨2, 2⟩ (exRunMem 3 z) q (exParts g) := by
  have R := exSession_run z (fun _ _ => z) q
  refine ⟨⟨0, 1, R.axes⟩, ?_, R.names, R.shaped⟩
  intro k hk
  have hk : k < 2 := hk
  have : k = 0 ∨ k = 1 := by omega
  rcases this with rfl | rfl
  · show (3 : Int) * 2 < 2 ^ 51
    decide
  · show (3 : Int) * 2 < 2 ^ 51
    decide

theorem exSession_valid (z : α) : SessionValid ⟨2, 2⟩ (exRunMem 3 z) exParts [0] exSession := by
  have s2 : FloatSafe ⟨2, 2⟩ := C05_safe_up_to_48 _ (by decide) (by decide) (by decide) (by decide)
  have R := exSession_run z fun _ _ => z
  have hp := exSession_parts z
  refine ⟨⟨by simp, hp _ _⟩, ?_, ?_, hp _ _, ?_, ⟨by simp, hp _ _⟩, hp _ _, trivial⟩
  · intro op ho
    cases ho
    exact ⟨0, 1, 3, by decide, by decide, (R 0).field⟩
  · intro op ho
    cases ho
    exact ⟨0, 1, 3, by decide, by decide, (R 1).field.ready, (R 2).field.ready, fun _ _ _ _ => rfl, fun _ _ _ _ => rfl,
      fun _ _ => rfl, fun _ _ _ _ _ _ _ _ => rfl, fun _ _ => rfl, fun _ _ => rfl⟩
  · exact fun r _ mem hm => (exRun_stencil s2 rfl (n := 3) (N := 6) (by decide) (by decide) z 0).same r mem hm

theorem exSession_glob (F : Vec3 → (Nat → Int) → α) (z : α) (g : Nat) (v : Quantity α)
    (h : (if (0 : Int) = 0 ∧ g = 0 then some (exRunG 6 F) else none) = some v) :
    v.GlobalShaped (.cube ⟨2, 2⟩) (exParts g).dims (exParts g).cells := by
  by_cases hg : g = 0
  · rw [if_pos ⟨rfl, hg⟩, Option.some.injEq] at h
    subst h
    exact (exSession_run z F 0).globl
  · rw [if_neg fun h => hg h.2] at h
    cases h

/-- In the example the calls end on all ranks, and the last two copy global quantity 1 to global quantity 0. -/
example (buf : Buffering) (z : α) (F : Vec3 → (Nat → Int) → α) :
    ∃ fin : Int → SState α,
      (sessionNet ⟨2, 2⟩ (fun _ _ => z) exSession (exRunMem 3 z)
        (fun r g => if r = 0 ∧ g = 0 then some (exRunG 6 F) else none)).Completes buf (fun r =>
        if r ∈ allRanks ⟨2, 2⟩ then some (.ok (fin r)) else none) ∧
      ∃ v w, (fin 0).glob 0 = some v ∧ (fin 0).glob 1 = some w ∧ v.computeArr.Eqv w.computeArr := by
  have s2 : FloatSafe ⟨2, 2⟩ := C05_safe_up_to_48 _ (by decide) (by decide) (by decide) (by decide)
  obtain ⟨fin, h1, h2, h3⟩ := C57_session s2 rfl buf (fun _ _ => z) (exRunMem 3 z)
    (fun r g => if r = 0 ∧ g = 0 then some (exRunG 6 F) else none) exParts [0] (exSession_glob F z)
    (fun g hg => ⟨exRunG 6 F, by rw [if_pos ⟨rfl, List.mem_singleton.1 hg⟩]⟩) exSession (exSession_valid z)
  refine ⟨fin, h1, ?_⟩
  obtain ⟨m1, G1, -, m2, G2, -, m3, G3, -, m4, G4, ⟨-, -, w, w1, w2, -⟩, m5, G5, ⟨-, rfl⟩, m6, G6, ⟨rfl, w', w3, w4⟩,
    m7, G7, ⟨v1, v2, v, v3, v4, v5, -⟩, e1, e2⟩ := h2
  have e : w = w' := by
    rw [w1] at w3
    exact Option.some.inj w3
  subst e
  have hshape : ∀ r ∈ allRanks ⟨2, 2⟩, (m6 r 2).computeArr.shape = rankShape [.y, .x] [3, 3] := by
    intro r hr
    have em := h3 r hr 2
    have hf : (fin r).mem 2 = m6 r 2 := by
      rw [← v1 r hr]
      exact congrFun (e1 r hr) 2
    rw [hf] at em
    refine Eq.trans ?_ (rankOf_shape ((exSession_parts z 2 0).shaped r hr).extent)
    show (m6 r 2).extent.map _ = _
    rw [em.extent]
  refine ⟨v, w, by rw [e2]; exact v3, by rw [e2, v2 1 (by decide)]; exact w1, ?_⟩
  have hs : v.computeArr.shape = w.computeArr.shape := by
    rw [show v.computeArr.shape = v.extent.map Int.toNat from rfl, show w.computeArr.shape = w.extent.map Int.toNat from rfl]
    rw [globalExtent_unique v4.extent w2.extent]
  refine ⟨hs, fun p hp => ?_⟩
  obtain ⟨r, rel, hH, hpl, hval⟩ := v5 p hp
  have hr : r ∈ allRanks ⟨2, 2⟩ := (cube_ranks _ r).1 hH.1
  have h0 : (0 : Int) ∈ allRanks ⟨2, 2⟩ := by decide
  rw [hval, ← hpl]
  exact (w4 r hr).1 rel (by rw [hshape r hr, ← hshape 0 h0]; exact hH.2.1)

/-- Quantities of the ranks with any values `F` (of rank, quantity and indices). -/
def exAnyMem (z : α) (F : Int → Nat → List Nat → α) : Int → Mem α := fun r q =>
  { exRunQ 3 z with data := ⟨[5, 5], F r q⟩ }

theorem exAny_parts (z : α) (F : Int → Nat → List Nat → α) (q g : Nat) :
    HasParts ⟨2, 2⟩ (exAnyMem z F) q (exParts g) := by
  have h := exSession_parts z q g
  exact ⟨h.axes, h.small, h.names, fun r hr => ⟨⟨⟨rfl, rfl, rfl⟩, (h.shaped r hr).wf.2⟩, (h.shaped r hr).extent⟩⟩

/-- A checkpoint in the concrete case, with any values on the ranks: gather, compute, halo update, scatter. -/
example (buf : Buffering) (z : α) (F : Int → Nat → List Nat → α) :
    ∃ fin : Int → SState α,
      (sessionNet ⟨2, 2⟩ (fun _ _ => z) [.gather 0 1, .call (.compute exNext), .call (.haloUpdate 0 1), .scatter 0 1]
        (exAnyMem z F) (fun _ _ => none)).Completes buf (fun r =>
        if r ∈ allRanks ⟨2, 2⟩ then some (.ok (fin r)) else none) ∧
      ∀ r ∈ allRanks ⟨2, 2⟩, ((fin r).mem 0).computeArr.Eqv (exAnyMem z F r 0).computeArr := by
  have s2 : FloatSafe ⟨2, 2⟩ := C05_safe_up_to_48 _ (by decide) (by decide) (by decide) (by decide)
  refine C57_checkpoint_cells s2 rfl buf (fun _ _ => z) (exAnyMem z F) _ exParts [] (fun _ _ h => by cases h)
    (fun g hg => by cases hg) 0 1 [.call (.compute exNext), .call (.haloUpdate 0 1)] ?_ ?_ (by decide)
  · refine ⟨exAny_parts z F 0 1, ?_, ?_, ⟨by simp, exAny_parts z F 0 1⟩, trivial⟩
    · exact fun r _ mem hm q' => ⟨(hm q').shape, (hm q').dims, (hm q').units, (hm q').origin, (hm q').extent⟩
    · intro op ho
      cases ho
      have R := (exSession_run z (fun _ _ => z) 0).field
      refine ⟨0, 1, 3, by decide, by decide, fun r hr => ?_, R.2, R.3, R.4⟩
      have h := R.1 r hr
      exact ⟨⟨⟨rfl, rfl, rfl⟩, h.wf.2⟩, h.2, h.3, h.4, h.5, h.6⟩
  · intro q' h
    simp at h

end FV3
