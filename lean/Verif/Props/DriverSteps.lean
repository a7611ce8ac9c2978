import Verif.Props.Driver

/-!
# C55: time stepping gives the same global field on every layout
-/

namespace FV3
variable {α : Type}

section
variable {l : Layout} {ky kx : Nat} {n h : Int}

theorem rankSample_iff {m : Int → Mem α} {q : Nat} {F : Vec3 → (Nat → Int) → α} {r : Int} :
    RankSample l r (m r q) ky kx n F ↔ ∀ idx P others, Owns l m q ky kx n r idx P others →
      (m r q).data.get idx = F P others := by
  constructor
  · rintro h idx P others ⟨hc, rfl, t, a, b, hat, rfl⟩
    exact h idx t a b ⟨hat.rank, hat.tile, hat.x, hat.y⟩ hc
  · intro h idx t a b hat hc
    exact h idx _ _ ⟨hc, rfl, t, a, b, ⟨hat.rank, hat.tile, hat.x, hat.y⟩, rfl⟩

theorem owns_rank {m : Int → Mem α} {q : Nat} {r : Int} {idx : List Nat} {P : Vec3} {others : Nat → Int}
    (ho : Owns l m q ky kx n r idx P others) : r ∈ allRanks l := by
  obtain ⟨t, a, b, hat, -⟩ := ho.point
  exact hat.rank

variable [Neg α]

/-- One halo update of a sample. -/
theorem holds_of_step (hx : 0 < l.x) (hsq : l.y = l.x) (hh : 0 < h) (hn : h ≤ n) {m m' : Int → Mem α} {q : Nat}
    (S : ScalarField l m q ky kx n h) (hu : UpdateStep l (.halo q h) m m') {F : Vec3 → (Nat → Int) → α}
    (hF : ∀ r ∈ allRanks l, RankSample l r (m r q) ky kx n F) {r : Int} (hr : r ∈ allRanks l) :
    RankHolds l r (m' r q) ky kx n h F := by
  intro idx t a b hat hv hsc
  have e := (step_only hx hsq hh hn S hu r hr).1 q
  have hat' : AtTile l m q ky kx n r idx t a b := by
    refine ⟨hat.rank, hat.tile, ?_, ?_⟩
    · rw [hat.x]; unfold Quantity.tilePos Quantity.rel; rw [e.o, e.d]
    · rw [hat.y]; unfold Quantity.tilePos Quantity.rel; rw [e.o, e.d]
  have hv' : HasValue (m r q) ky kx h idx := by
    rcases hv with hv | hv
    · exact .inl ((e.inCompute idx).1 hv)
    · refine .inr ⟨by rw [← e.ndim]; exact hv.len, ?_, ?_, ?_, ?_⟩
      · have := hv.y; unfold Quantity.rel at this ⊢; rw [e.o, e.e] at this; exact this
      · have := hv.x; unfold Quantity.rel at this ⊢; rw [e.o, e.e] at this; exact this
      · intro k hk k1 k2
        have := hv.other k (by rw [e.ndim]; exact hk) k1 k2
        unfold Quantity.InDom at this ⊢
        rw [e.o, e.e] at this
        exact this
      · have := hv.out
        unfold Quantity.InDom at this ⊢
        rw [e.o, e.e, e.o, e.e] at this
        exact this
  obtain ⟨r', src, ho, hval⟩ := step_valid hx hsq hh hn S hu hat' hv' hsc
  rw [hval, rankSample_iff.1 (hF r' (owns_rank ho)) src _ _ ho]
  congr 1
  symm
  refine Quantity.otherPos_eq e.ndim fun k _ _ _ => ?_
  unfold Quantity.rel
  rw [e.o]

/-- Any number of time steps. -/
theorem sample_of_steps (hx : 0 < l.x) (hsq : l.y = l.x) (hh : 0 < h) (hn : h ≤ n) {m0 : Int → Mem α} {q : Nat}
    (S : ScalarField l m0 q ky kx n h) {f : Int → Mem α → Mem α}
    {Φ : (Vec3 → (Nat → Int) → α) → Vec3 → (Nat → Int) → α} (hf : Stencil l m0 q ky kx n h f Φ) :
    ∀ (k : Nat) (m fin : Int → Mem α) (F : Vec3 → (Nat → Int) → α), (∀ r ∈ allRanks l, MetaIs m0 r (m r)) →
      (∀ r ∈ allRanks l, RankSample l r (m r q) ky kx n F) → CallsRun l (timeSteps q h f k) m fin →
      ∀ r ∈ allRanks l, RankSample l r (fin r q) ky kx n (timesField Φ k F) := by
  intro k
  induction k with
  | zero =>
    intro m fin F hm hF hrun r hr
    rw [hrun r hr]
    exact hF r hr
  | succ k ih =>
    rintro m fin F hm hF ⟨m1, u1, m2, u2, hrun⟩
    have hu : UpdateStep l (.halo q h) m m1 := u1
    have S' : ScalarField l m q ky kx n h := S.same fun r hr => hm r hr
    have hm1 : ∀ r ∈ allRanks l, MetaIs m0 r (m1 r) := fun r hr q' =>
      (hm r hr q').trans ((step_only hx hsq hh hn S' hu r hr).1 q')
    refine ih m2 fin (Φ F) ?_ ?_ hrun
    · intro r hr
      rw [u2 r hr]
      exact hf.same r _ (hm1 r hr)
    · intro r hr
      rw [u2 r hr]
      exact hf.value r hr _ F (hm1 r hr) (holds_of_step hx hsq hh hn S' hu hF hr)

end

variable [Neg α]

/-- **C55**: a global sample of a field `F`, scattered, stepped `k` times (halo update; a computation that is the
operation `Φ` on fields) and gathered, is a sample of the field `Φ (Φ … F)`.  Nothing in this result is about the
layout, the schedule or the buffering of MPI. -/
theorem C55_time_steps (buf : Buffering) {l : Layout} (junk junk' : List Nat → α)
    {dims : List Dim} {cells : List Int} {ky kx : Nat} {n h : Int} {g : Quantity α} {mem : Int → Mem α} {q : Nat}
    (R : RunSetup l dims cells ky kx n h g mem q)
    (send back : Int → Option (Quantity α)) (hsend : send 0 = some g)
    (hback : ∀ q, back 0 = some q → q.GlobalShaped (.cube l) dims cells)
    (f : Int → Mem α → Mem α) (Φ : (Vec3 → (Nat → Int) → α) → Vec3 → (Nat → Int) → α)
    (hf : Stencil l mem q ky kx n h f Φ)
    (F : Vec3 → (Nat → Int) → α) (hF : GlobalSample g dims ky kx (l.x * n) F) (k : Nat) :
    ∃ (fin : Int → Mem α) (root : Quantity α),
      (driverNet l junk junk' send (fun r => some (mem r q)) mem q (timeSteps q h f k) back).Completes buf (fun r =>
        if r ∈ allRanks l then some (.ok (fin r, if r = 0 then some root else none)) else none) ∧
      root.dims = g.dims ∧ root.extent = g.extent ∧
      GlobalSample root dims ky kx (l.x * n) (timesField Φ k F) := by
  obtain ⟨hl, hsq, hh, hn, ha, hy, hx', hg, S, hdims, hshape⟩ := id R
  have hcalls : ∀ k, ∀ c ∈ timeSteps q h f k, UpdateOrCompute mem q h c := by
    intro k
    induction k with
    | zero => intro c hc; cases hc
    | succ k ih =>
      intro c hc
      rcases List.mem_cons.1 hc with rfl | hc
      · exact ⟨rfl, hh, Int.le_refl _⟩
      · rcases List.mem_cons.1 hc with rfl | hc
        · exact hf.same
        · exact ih c hc
  obtain ⟨part, fin, root, h1, h2, h3, h4, h5, h6, h7⟩ := C55_model_run buf junk junk' R send back hsend
    hback (timeSteps q h f k) (hcalls k)
  have hput : ∀ r, (mem r).put q (part r) q = part r := fun r => by unfold Mem.put; rw [if_pos rfl]
  have hsame : ∀ r ∈ allRanks l, MetaIs mem r ((mem r).put q (part r)) := by
    intro r hr q'
    unfold Mem.put
    split
    · next e =>
      subst e
      have := (h2 r hr).2
      exact ⟨this.shape, this.dims, this.units, this.origin, this.extent⟩
    · exact SameMeta.refl _
  have hstart : ∀ r ∈ allRanks l, RankSample l r ((mem r).put q (part r) q) ky kx n F := by
    intro r hr
    have e := hsame r hr q
    refine rankSample_iff (m := fun r => (mem r).put q (part r)) |>.2 fun idx P others ho => ?_
    obtain ⟨p, hp1, hp2⟩ := global_of_owns hl ha hy hx' hg ho (e.dims.trans (hdims r hr))
      ⟨e.wf (hshape r hr).wf, by rw [e.extent]; exact (hshape r hr).extent⟩ (by rw [hput]; exact (h2 r hr).1)
    rw [hp2]
    exact hF p P others hp1
  have hend := sample_of_steps hl.xpos hsq hh hn S hf k _ fin F hsame hstart h3
  refine ⟨fin, root, h1, h5.names.trans hg.names.symm, globalExtent_unique h5.extent hg.extent, ?_⟩
  rintro p P others ⟨hp, hoth, hpos⟩
  obtain ⟨r, rel, hH, hpl, hv⟩ := h7 p hp
  have hr : r ∈ allRanks l := (cube_ranks l r).1 hH.1
  have h0 : (0 : Int) ∈ allRanks l := by
    rw [mem_allRanks] at hr ⊢
    omega
  have hshf : ∀ r ∈ allRanks l, (fin r q).RankShaped dims cells := fun r hr =>
    ⟨(h4 r hr q).wf (hshape r hr).wf, by rw [(h4 r hr q).extent]; exact (hshape r hr).extent⟩
  have hrel : InB (fin r q).computeArr.shape rel := by
    have := hH.2.1
    have e0 : (fin 0 q).computeArr.shape = rankShape dims cells := rankOf_shape (hshf 0 h0).extent
    have er : (fin r q).computeArr.shape = rankShape dims cells := rankOf_shape (hshf r hr).extent
    rw [er, ← e0]
    exact this
  have hin := absIdx_ok (fin r q) (hshf r hr).wf rel hrel
  have ho : Owns l fin q ky kx n r (absIdx (fin r q).origin rel) P others := by
    obtain ⟨t, ht⟩ : ∃ t, tileIndex l r = .ok t := ⟨_, tileIndex_eq hl.ypos hl.xpos r⟩
    have hat : AtTile l fin q ky kx n r (absIdx (fin r q).origin rel) t _ _ := ⟨hr, ht, rfl, rfl⟩
    have hG := global_at hl ha hy hx' h5 hin.2.1 hat ((h4 r hr q).dims.trans (hdims r hr)) (hshf r hr)
    rw [hin.2.2, hpl] at hG
    refine ⟨hin.2.1, ?_, t, _, _, hat, hG.point.symm.trans hpos⟩
    funext k
    rw [hG.other k, hoth k]
  rw [hv]
  exact rankSample_iff.1 (hend r hr) _ _ _ ho

/-- **C55**: the result of a model run does not depend on the layout: two runs from the same global quantity with the
same operation on fields, on two layouts of the same grid, under any schedules and bufferings, gather the same global
values. -/
theorem C55_same_on_every_layout (buf buf' : Buffering) {l l' : Layout} (j1 j2 j3 j4 : List Nat → α)
    {dims : List Dim} {cells cells' : List Int} {ky kx : Nat} {n n' h h' : Int} {g : Quantity α} {mem mem' : Int → Mem α}
    {q q' : Nat} (R : RunSetup l dims cells ky kx n h g mem q) (R' : RunSetup l' dims cells' ky kx n' h' g mem' q')
    (hN : l.x * n = l'.x * n') (send back send' back' : Int → Option (Quantity α))
    (hsend : send 0 = some g) (hsend' : send' 0 = some g)
    (hback : ∀ q, back 0 = some q → q.GlobalShaped (.cube l) dims cells)
    (hback' : ∀ q, back' 0 = some q → q.GlobalShaped (.cube l') dims cells')
    (f f' : Int → Mem α → Mem α) (Φ : (Vec3 → (Nat → Int) → α) → Vec3 → (Nat → Int) → α)
    (hf : Stencil l mem q ky kx n h f Φ) (hf' : Stencil l' mem' q' ky kx n' h' f' Φ)
    (F : Vec3 → (Nat → Int) → α) (hF : GlobalSample g dims ky kx (l.x * n) F) (k : Nat) :
    ∃ (fin fin' : Int → Mem α) (root root' : Quantity α),
      (driverNet l j1 j2 send (fun r => some (mem r q)) mem q (timeSteps q h f k) back).Completes buf (fun r =>
        if r ∈ allRanks l then some (.ok (fin r, if r = 0 then some root else none)) else none) ∧
      (driverNet l' j3 j4 send' (fun r => some (mem' r q')) mem' q' (timeSteps q' h' f' k) back').Completes buf' (fun r =>
        if r ∈ allRanks l' then some (.ok (fin' r, if r = 0 then some root' else none)) else none) ∧
      root.computeArr.Eqv root'.computeArr := by
  obtain ⟨fin, root, a1, a2, a3, a4⟩ := C55_time_steps buf j1 j2 R send back hsend hback f Φ hf F hF k
  obtain ⟨fin', root', b1, b2, b3, b4⟩ := C55_time_steps buf' j3 j4 R' send' back' hsend' hback' f' Φ hf' F
    (by rw [← hN]; exact hF) k
  refine ⟨fin, fin', root, root', a1, b1, ?_, ?_⟩
  · show root.extent.map _ = root'.extent.map _
    rw [a3, b3]
  · intro p hp
    rw [a4 p _ _ ⟨hp, fun _ => rfl, rfl⟩]
    symm
    refine b4 p _ _ ⟨?_, fun _ => rfl, by rw [← hN]⟩
    show InB (root'.extent.map _) p
    rw [b3, ← a3]
    exact hp

/-! ### A concrete case

`n × n` cells per rank with one halo point; the operation takes the value of the next cell in the x direction of the
tile, which is on another face of the cube for the last cells of the tile. -/

/-- `x = (t, a, b)` is the cell at the point `P`. -/
def IsCell (N : Int) (P : Vec3) (x : Int × Int × Int) : Prop :=
  (0 ≤ x.1 ∧ x.1 < 6) ∧ (0 < x.2.1 ∧ x.2.1 < 2 * N) ∧ (0 < x.2.2 ∧ x.2.2 < 2 * N) ∧ pos N x.1 x.2.1 x.2.2 = P

open Classical in
noncomputable def nextField (N : Int) (F : Vec3 → (Nat → Int) → α) (P : Vec3) (o : Nat → Int) : α :=
  if h : ∃ x, IsCell N P x then F (foldPos N h.choose.1 (h.choose.2.1 + 2) h.choose.2.2) o else F P o

omit [Neg α] in
theorem nextField_pos {N t a b : Int} (ht : 0 ≤ t ∧ t < 6) (ha : 0 < a ∧ a < 2 * N) (hb : 0 < b ∧ b < 2 * N)
    (F : Vec3 → (Nat → Int) → α) (o : Nat → Int) :
    nextField N F (pos N t a b) o = F (foldPos N t (a + 2) b) o := by
  have h : ∃ x, IsCell N (pos N t a b) x := ⟨(t, a, b), ht, ha, hb, rfl⟩
  unfold nextField
  rw [dif_pos h]
  obtain ⟨c1, c2, c3, c4⟩ := h.choose_spec
  obtain ⟨e1, e2, e3⟩ := pos_inj c1 ht c2 c3 ha hb c4
  rw [e1, e2, e3]

def exRunQ (n : Nat) (z : α) : Quantity α :=
  { data := ⟨[n + 2, n + 2], fun _ => z⟩, dims := [.y, .x], units := "K", origin := [1, 1], extent := [n, n] }

def exRunMem (n : Nat) (z : α) : Int → Mem α := fun _ _ => exRunQ n z

def exNext (_ : Int) (mem : Mem α) : Mem α := fun q =>
  { mem q with data := ⟨(mem q).data.shape, fun idx => (mem q).data.get [idx.getD 0 0, idx.getD 1 0 + 1]⟩ }

def exRunG (N : Nat) (F : Vec3 → (Nat → Int) → α) : Quantity α :=
  { data := ⟨[6, N, N], fun p => F (pos N (at' p 0) (2 * at' p 2 + 1) (2 * at' p 1 + 1)) fun _ => 0⟩
    dims := [.tile, .y, .x], units := "K", origin := [0, 0, 0], extent := [6, N, N] }

omit [Neg α] in
theorem exRun_sample (N : Nat) (F : Vec3 → (Nat → Int) → α) : GlobalSample (exRunG N F) [.y, .x] 0 1 N F := by
  rintro p P others ⟨hp, ho, hP⟩
  have hlen : p.length = 3 := by
    have := (inB_iff _ _).1 hp
    exact this.1
  obtain ⟨a, b, c, rfl⟩ : ∃ a b c, p = [a, b, c] := by
    match p, hlen with
    | [a, b, c], _ => exact ⟨a, b, c, rfl⟩
  have : others = fun _ => 0 := by
    funext k
    rw [ho k]
    split
    · next h =>
      have : k < 2 := h.1
      omega
    · rfl
  rw [← hP, this]
  have e : absIdx [0, 0, 0] [a, b, c] = [a, b, c] := by
    simp [absIdx, tab, List.range_succ]
  show F (pos N (at' (absIdx [0, 0, 0] [a, b, c]) 0) (2 * at' (absIdx [0, 0, 0] [a, b, c]) 2 + 1)
    (2 * at' (absIdx [0, 0, 0] [a, b, c]) 1 + 1)) _ = _
  rw [e]
  have o1 : overlapOf ([Dim.y, Dim.x].getD 1 .x) = 0 := by decide
  have o2 : overlapOf ([Dim.y, Dim.x].getD 0 .x) = 0 := by decide
  rw [o1, o2, Int.sub_zero, Int.sub_zero]

omit [Neg α] in
theorem exRun_setup {l : Layout} (hl : FloatSafe l) (hsq : l.y = l.x) {n N : Nat} (hn : 1 ≤ n) (hN : l.x * n = N)
    (hN' : N < 2 ^ 51) (z : α) (F : Vec3 → (Nat → Int) → α) (q : Nat) :
    RunSetup l [.y, .x] [(n : Int), n] 0 1 n 1 (exRunG N F) (exRunMem n z) q := by
  have hwf : (exRunQ n z).WF := by
    refine ⟨⟨rfl, rfl, rfl⟩, ?_⟩
    intro k hk
    have hk : k < 2 := hk
    show 0 ≤ ([1, 1] : List Int).getD k 0 ∧ 0 ≤ ([(n : Int), n] : List Int).getD k 0 ∧
      ([1, 1] : List Int).getD k 0 + ([(n : Int), n] : List Int).getD k 0 ≤ (([n + 2, n + 2] : List Nat).getD k 0 : Nat)
    have : k = 0 ∨ k = 1 := by omega
    rcases this with rfl | rfl <;> simp <;> omega
  refine ⟨hl, hsq, by decide, by omega, HAxes_yx, rfl, rfl, ⟨⟨⟨rfl, rfl, rfl⟩, ?_⟩, rfl, ?_⟩, ⟨?_, fun _ _ _ _ => rfl,
    fun _ _ _ _ _ _ _ _ => rfl, fun _ _ => rfl⟩, fun _ _ => rfl, fun _ _ => ⟨hwf, rfl, rfl, ?_⟩⟩
  · intro k hk
    have hk : k < 3 := hk
    show 0 ≤ ([0, 0, 0] : List Int).getD k 0 ∧ 0 ≤ ([6, (N : Int), N] : List Int).getD k 0 ∧
      ([0, 0, 0] : List Int).getD k 0 + ([6, (N : Int), N] : List Int).getD k 0 ≤ (([6, N, N] : List Nat).getD k 0 : Nat)
    have : k = 0 ∨ k = 1 ∨ k = 2 := by omega
    rcases this with rfl | rfl | rfl <;> simp
  · refine ⟨[(N : Int), N], rfl, rfl, rfl, ?_⟩
    intro k d c t h1 h2 h3
    have hk : k < 2 := (List.getElem?_eq_some_iff.1 h1).1
    have : k = 0 ∨ k = 1 := by omega
    have e1 : ranksAlong l .y = l.y := rfl
    have e2 : ranksAlong l .x = l.x := rfl
    have hc : (n : Int) * l.x = N := by rw [Int.mul_comm]; exact hN
    have p1 : pointsOf .y N = N := by unfold pointsOf; simp
    have p2 : pointsOf .x N = N := by unfold pointsOf; simp
    rcases this with rfl | rfl <;> simp at h1 h2 h3 <;> subst h1 h2 h3
    · rw [e1, hsq, hc, p1]; omega
    · rw [e2, hc, p2]; omega
  · intro r _
    refine ⟨hwf, HAxes_yx, rfl, rfl, ?_, ?_⟩
    · show (1 : Int) ≤ 1 ∧ (1 : Int) + n + 1 ≤ ((n + 2 : Nat) : Int)
      omega
    · show (1 : Int) ≤ 1 ∧ (1 : Int) + n + 1 ≤ ((n + 2 : Nat) : Int)
      omega
  · intro k d c t h1 h2 h3
    have hk : k < 2 := (List.getElem?_eq_some_iff.1 h1).1
    have : k = 0 ∨ k = 1 := by omega
    have p1 : pointsOf .y n = n := by unfold pointsOf; simp
    have p2 : pointsOf .x n = n := by unfold pointsOf; simp
    rcases this with rfl | rfl <;> simp [exRunMem, exRunQ] at h1 h2 h3 <;> subst h1 h2 h3
    · rw [p1]; omega
    · rw [p2]; omega

omit [Neg α] in
theorem exRun_stencil {l : Layout} (hl : FloatSafe l) (hsq : l.y = l.x) {n N : Nat} (hn : 1 ≤ n) (hN : l.x * n = N)
    (z : α) (q : Nat) : Stencil l (exRunMem n z) q 0 1 n 1 exNext (nextField (N : Int)) := by
  refine ⟨fun r mem hm q' => ?_, ?_⟩
  · have := hm q'
    exact ⟨this.shape, this.dims, this.units, this.origin, this.extent⟩
  · intro r hr mem F hm hF idx t a b hat hc
    have e := hm q
    have eo : ∀ k, (mem q).o k = ([1, 1] : List Int).getD k 0 := fun k => e.o k
    have ee : ∀ k, (mem q).e k = ([(n : Int), n] : List Int).getD k 0 := fun k => e.e k
    have ed : (mem q).dims = [.y, .x] := e.dims
    have hlen : idx.length = 2 := by
      have := hc.1
      rw [this]
      show (mem q).dims.length = 2
      rw [ed]; rfl
    have h0 := hc.2 0 (by show 0 < (mem q).dims.length; rw [ed]; decide)
    have h1 := hc.2 1 (by show 1 < (mem q).dims.length; rw [ed]; decide)
    obtain ⟨i, j, rfl⟩ : ∃ i j, idx = [i, j] := by
      match idx, hlen with
      | [i, j], _ => exact ⟨i, j, rfl⟩
    have g0 : (1 : Int) ≤ i ∧ (i : Int) < 1 + n := by
      have : (mem q).InDom [i, j] 0 := h0
      unfold Quantity.InDom at this
      rw [eo, ee] at this
      exact this
    have g1 : (1 : Int) ≤ j ∧ (j : Int) < 1 + n := by
      have : (mem q).InDom [i, j] 1 := h1
      unfold Quantity.InDom at this
      rw [eo, ee] at this
      exact this
    have hd0 : overlapOf ((mem q).d 0) = 0 := by unfold Quantity.d; rw [ed]; decide
    have hd1 : overlapOf ((mem q).d 1) = 0 := by unfold Quantity.d; rw [ed]; decide
    have htp : ∀ (c : Int) (u v k : Nat), k = 0 ∨ k = 1 → (mem q).tilePos n c [u, v] k =
        2 * (c * n + (at' [u, v] k - 1)) + 1 := by
      intro c u v k hk
      unfold Quantity.tilePos Quantity.rel
      rcases hk with rfl | rfl
      · rw [hd0, eo, Int.sub_zero]; rfl
      · rw [hd1, eo, Int.sub_zero]; rfl
    have hx : a = 2 * ((subtileIndex l r).2 * n + ((j : Int) - 1)) + 1 := by
      have := hat.x
      rw [show (exNext r mem q).tilePos n (subtileIndex l r).2 [i, j] 1 =
        (mem q).tilePos n (subtileIndex l r).2 [i, j] 1 from rfl, htp _ _ _ _ (.inr rfl)] at this
      exact this
    have hy : b = 2 * ((subtileIndex l r).1 * n + ((i : Int) - 1)) + 1 := by
      have := hat.y
      rw [show (exNext r mem q).tilePos n (subtileIndex l r).1 [i, j] 0 =
        (mem q).tilePos n (subtileIndex l r).1 [i, j] 0 from rfl, htp _ _ _ _ (.inl rfl)] at this
      exact this
    have hsub := subtileIndex_range hl.ypos hl.xpos r
    have hbound : ∀ c : Int, 0 ≤ c → c < l.x → 0 ≤ c * n ∧ c * n + n ≤ N := by
      intro c c0 c1
      refine ⟨Int.mul_nonneg c0 (by omega), ?_⟩
      rw [← hN]
      have := Int.mul_le_mul_of_nonneg_right (show c + 1 ≤ l.x by omega) (show (0 : Int) ≤ n by omega)
      rw [Int.add_mul] at this
      omega
    have b1 := hbound (subtileIndex l r).1 (by omega) (by omega)
    have b2 := hbound (subtileIndex l r).2 (by omega) (by omega)
    have ht : 0 ≤ t ∧ t < 6 := by
      have h1 := hat.tile
      rw [tileIndex_eq hl.ypos hl.xpos] at h1
      simp only [Except.ok.injEq] at h1
      rw [← h1]
      have hp := Int.mul_pos hl.ypos hl.xpos
      have h2 := mem_allRanks.1 hr
      unfold Layout.cubeRanks Layout.tileRanks at h2
      exact ⟨Int.ediv_nonneg h2.1 (by omega), Int.ediv_lt_of_lt_mul hp (by omega)⟩
    rw [hN, nextField_pos ht (by omega) (by omega)]
    have := hF [i, j + 1] t (a + 2) b ⟨hr, hat.tile, ?_, ?_⟩ ?_ ?_
    · rw [hN] at this
      refine Eq.trans this ?_
      congr 1
      funext k
      unfold Quantity.otherPos
      rw [if_neg, if_neg] <;>
      · rintro ⟨k1, k2, k3⟩
        have : k < (mem q).dims.length := k1
        rw [ed] at this
        have : k < 2 := this
        omega
    · show a + 2 = (mem q).tilePos n _ _ _
      rw [htp _ _ _ _ (.inr rfl), hx]
      show _ = 2 * ((subtileIndex l r).2 * ↑n + (((j + 1 : Nat) : Int) - 1)) + 1
      omega
    · show b = (mem q).tilePos n _ _ _
      rw [htp _ _ _ _ (.inl rfl), hy]
      rfl
    · have r0 : (mem q).rel [i, j + 1] 0 = (i : Int) - 1 := by unfold Quantity.rel; rw [eo]; rfl
      have r1 : (mem q).rel [i, j + 1] 1 = (j : Int) := by
        unfold Quantity.rel
        rw [eo]
        show ((j + 1 : Nat) : Int) - 1 = _
        omega
      have e0 : (mem q).e 0 = n := ee 0
      have e1 : (mem q).e 1 = n := ee 1
      have hnd : (mem q).ndim = 2 := by unfold Quantity.ndim; rw [ed]; rfl
      have oth : ∀ k, k < (mem q).ndim → k ≠ 0 → k ≠ 1 → (mem q).InDom [i, j + 1] k := by
        intro k hk k1 k2
        omega
      by_cases hj : (j : Int) < n
      · left
        refine ⟨by rw [hnd]; rfl, fun k hk => ?_⟩
        have : k = 0 ∨ k = 1 := by omega
        rcases this with rfl | rfl
        · unfold Quantity.InDom
          rw [eo, ee]
          exact g0
        · unfold Quantity.InDom
          rw [eo, ee]
          show (1 : Int) ≤ ((j + 1 : Nat) : Int) ∧ ((j + 1 : Nat) : Int) < 1 + n
          omega
      · right
        refine ⟨by rw [hnd]; rfl, by rw [r0, e0]; omega, by rw [r1, e1]; omega, oth, ?_⟩
        rintro ⟨-, h⟩
        unfold Quantity.InDom at h
        rw [eo, ee] at h
        have : ((j + 1 : Nat) : Int) < 1 + n := h.2
        omega
    · right
      rw [hN]
      omega

/-- In the concrete case, 24 ranks (`2 × 2` per tile, three cells each way) and 6 ranks (one per tile, six cells each
way) end with the same global values, after any number of time steps. -/
example (buf buf' : Buffering) (z : α) (F : Vec3 → (Nat → Int) → α) (k : Nat) :
    ∃ (fin fin' : Int → Mem α) (root root' : Quantity α),
      (driverNet ⟨2, 2⟩ (fun _ => z) (fun _ => z) (fun r => if r = 0 then some (exRunG 6 F) else none)
        (fun r => some (exRunMem 3 z r 0)) (exRunMem 3 z) 0 (timeSteps 0 1 exNext k) (fun _ => none)).Completes buf (fun r =>
        if r ∈ allRanks ⟨2, 2⟩ then some (.ok (fin r, if r = 0 then some root else none)) else none) ∧
      (driverNet ⟨1, 1⟩ (fun _ => z) (fun _ => z) (fun r => if r = 0 then some (exRunG 6 F) else none)
        (fun r => some (exRunMem 6 z r 0)) (exRunMem 6 z) 0 (timeSteps 0 1 exNext k) (fun _ => none)).Completes buf' (fun r =>
        if r ∈ allRanks ⟨1, 1⟩ then some (.ok (fin' r, if r = 0 then some root' else none)) else none) ∧
      root.computeArr.Eqv root'.computeArr := by
  have s2 : FloatSafe ⟨2, 2⟩ := C05_safe_up_to_48 _ (by decide) (by decide) (by decide) (by decide)
  have s1 : FloatSafe ⟨1, 1⟩ := C05_safe_up_to_48 _ (by decide) (by decide) (by decide) (by decide)
  exact C55_same_on_every_layout buf buf' _ _ _ _
    (exRun_setup s2 rfl (n := 3) (N := 6) (by decide) (by decide) (by decide) z F 0)
    (exRun_setup s1 rfl (n := 6) (N := 6) (by decide) (by decide) (by decide) z F 0) (by decide) _ _ _ _ rfl rfl
    (fun _ h => by cases h) (fun _ h => by cases h) exNext exNext (nextField ((6 : Nat) : Int))
    (exRun_stencil s2 rfl (by decide) (by decide) z 0) (exRun_stencil s1 rfl (by decide) (by decide) z 0) F
    (exRun_sample 6 F) k

end FV3
