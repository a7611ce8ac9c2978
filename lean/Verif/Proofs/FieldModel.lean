import Verif.Spec.FieldModel
import Verif.Props.DriverSteps
import Verif.Props.Sync
import Verif.Props.AsyncSession
import Verif.Props.StateSession

/-!
# Steps of a model code with several fields
-/

namespace FV3
variable {α : Type}

section
variable {l : Layout} {m m' : Int → Mem α} {ky kx : Nat} {n h : Int} {F : Fld α}

/-- Compute points are inside the tile. -/
theorem inside_of_ready (hx : 0 < l.x) (hsq : l.y = l.x) (hn : 0 ≤ n) {q : Nat} {r : Int} {idx : List Nat} {t a b : Int}
    (H : HaloReady (m r q) ky kx n h) (hat : AtTile l m q ky kx n r idx t a b) (hc : (m r q).InCompute idx) :
    (0 ≤ a ∧ a ≤ 2 * (l.x * n)) ∧ (0 ≤ b ∧ b ≤ 2 * (l.x * n)) := by
  obtain ⟨t0, j0, i0, er, ho, -, -, -⟩ := onTile_of_rank (by omega : 0 < l.y) hx r
  subst er
  have ⟨a1, a2, a3, a4, a5, a6⟩ := ho
  have ha := hat.x
  have hb := hat.y
  rw [ho.sub] at ha hb
  have cx := hc.2 kx H.axes.xlt
  have cy := hc.2 ky H.axes.ylt
  have ex := H.ex
  have ey := H.ey
  have sx := overlapOf_01 ((m (mkRank l t0 j0 i0) q).d kx)
  have sy := overlapOf_01 ((m (mkRank l t0 j0 i0) q).d ky)
  have m1 : (i0 + 1) * n ≤ l.x * n := Int.mul_le_mul_of_nonneg_right (by omega) hn
  have m2 : (j0 + 1) * n ≤ l.x * n := Int.mul_le_mul_of_nonneg_right (by omega) hn
  have m3 : 0 ≤ i0 * n := Int.mul_nonneg a5 hn
  have m4 : 0 ≤ j0 * n := Int.mul_nonneg a3 hn
  rw [Int.add_mul, Int.one_mul] at m1 m2
  unfold Quantity.tilePos Quantity.rel at ha hb
  unfold Quantity.InDom at cx cy
  simp only at ha hb
  omega

/-- The direction of a quantity on its own tile. -/
def Comp.axis (t : Int) : Comp → Vec3
  | .scalar => ⟨0, 0, 0⟩
  | .x => (face t).ex
  | .y => (face t).ey

theorem fold_inside {N t a b : Int} (h : (0 ≤ a ∧ a ≤ 2 * N) ∧ (0 ≤ b ∧ b ≤ 2 * N)) (c : Comp) :
    foldPos N t a b = pos N t a b ∧ c.dir N t a b = c.axis t := by
  constructor
  · unfold foldPos
    rw [if_neg (by omega), if_neg (by omega), if_neg (by omega), if_neg (by omega)]
  · cases c with
    | scalar => rfl
    | x => show foldEx N t a = _; unfold foldEx; rw [if_neg (by omega), if_neg (by omega)]; rfl
    | y => show foldEy N t b = _; unfold foldEy; rw [if_neg (by omega), if_neg (by omega)]; rfl

theorem SameMeta.otherPos {q q' : Quantity α} (g : SameMeta q q') (ky kx : Nat) (idx : List Nat) :
    q'.otherPos ky kx idx = q.otherPos ky kx idx :=
  Quantity.otherPos_eq g.ndim fun k _ _ _ => g.rel idx k

variable [Neg α]

theorem SameMeta.hasValue {q q' : Quantity α} (g : SameMeta q q') (ky kx : Nat) (h : Int) (idx : List Nat) :
    HasValue q' ky kx h idx ↔ HasValue q ky kx h idx := by
  unfold HasValue
  rw [g.inCompute, g.inHalo]

theorem SameMeta.northEdge {q q' : Quantity α} (g : SameMeta q q') (ky : Nat) (idx : List Nat) :
    OnNorthEdge q' ky idx ↔ OnNorthEdge q ky idx := by
  unfold OnNorthEdge
  rw [g.inCompute, g.rel, g.e]

theorem SameMeta.eastEdge {q q' : Quantity α} (g : SameMeta q q') (kx : Nat) (idx : List Nat) :
    OnEastEdge q' kx idx ↔ OnEastEdge q kx idx := by
  unfold OnEastEdge
  rw [g.inCompute, g.rel, g.e]

theorem SameMeta.has {q q' : Quantity α} (g : SameMeta q q') (c : Comp) (ky kx : Nat) (h : Int) (idx : List Nat)
    (lv : Level) : lv.Has q' c ky kx h idx ↔ lv.Has q c ky kx h idx := by
  cases lv <;> simp only [Level.Has]
  · rw [g.inCompute, g.northEdge, g.eastEdge]
  · rw [g.inCompute]
  · rw [g.hasValue]

/-- `Holds` by the quantities before a step: same points, other values. -/
theorem holds_after {r : Int} {q q' : Quantity α} (g : SameMeta q q') (c : Comp) (lv : Level)
    (hv : ∀ idx t a b, AtTile l (fun _ _ => q) 0 ky kx n r idx t a b → lv.Has q c ky kx h idx →
      SingleCross (l.x * n) a b →
      q'.data.get idx = F (foldPos (l.x * n) t a b) (q.otherPos ky kx idx) (c.dir (l.x * n) t a b)) :
    Holds l n r q' c ky kx h lv F := by
  intro idx t a b hat hh hs
  rw [g.otherPos]
  exact hv idx t a b ⟨hat.rank, hat.tile, by rw [hat.x, g.tilePos], by rw [hat.y, g.tilePos]⟩
    ((g.has c ky kx h idx lv).1 hh) hs

theorem Level.Has.mono {q : Quantity α} {c : Comp} {idx : List Nat} {lv lv' : Level} (hl : lv'.AtLeast lv = true)
    (hh : lv.Has q c ky kx h idx) : lv'.Has q c ky kx h idx := by
  cases lv <;> cases lv' <;> simp only [Level.AtLeast, reduceCtorEq] at hl <;> simp only [Level.Has] at hh ⊢
  all_goals first
    | exact hh
    | exact hh.1
    | exact Or.inl hh
    | exact Or.inl hh.1
    | exact hh.elim

theorem Holds.mono {r : Int} {q : Quantity α} {c : Comp} {lv lv' : Level} (hl : lv'.AtLeast lv = true)
    (hh : Holds l n r q c ky kx h lv' F) : Holds l n r q c ky kx h lv F :=
  fun idx t a b hat hp hs => hh idx t a b hat (hp.mono hl) hs

/-- At the points of the compute domain. -/
theorem Holds.at_compute (hx : 0 < l.x) (hsq : l.y = l.x) (hn : 0 ≤ n) {r : Int} {q : Nat} {c : Comp} {lv : Level}
    (H : HaloReady (m r q) ky kx n h) (hh : Holds l n r (m r q) c ky kx h lv F) {idx : List Nat} {t a b : Int}
    (hat : AtTile l m q ky kx n r idx t a b) (hc : (m r q).InCompute idx) (hp : lv.Has (m r q) c ky kx h idx) :
    (m r q).data.get idx = F (pos (l.x * n) t a b) ((m r q).otherPos ky kx idx) (c.axis t) := by
  have i := inside_of_ready hx hsq hn H hat hc
  rw [hh idx t a b ⟨hat.rank, hat.tile, hat.x, hat.y⟩ hp (.inl i.1), (fold_inside i c).1, (fold_inside i c).2]

/-- One halo update of a scalar. -/
theorem update_scalar (hx : 0 < l.x) (hsq : l.y = l.x) (hh : 0 < h) (hn : h ≤ n) {q : Nat}
    (S : ScalarField l m q ky kx n h) (hu : UpdateStep l (.halo q h) m m')
    (hF : ∀ r ∈ allRanks l, Holds l n r (m r q) .scalar ky kx h .compute F) {r : Int} (hr : r ∈ allRanks l) :
    Holds l n r (m' r q) .scalar ky kx h .halo F := by
  refine holds_of_step (F := fun P o => F P o ⟨0, 0, 0⟩) hx hsq hh hn S hu (fun r hr => ?_) hr
  intro idx t a b hat hc
  exact (hF r hr).at_compute hx hsq (by omega) (S.ready r hr) ⟨hat.rank, hat.tile, hat.x, hat.y⟩ hc hc

/-- A component of a sampled vector field. -/
theorem component_value {x y : Nat} (hV : ∀ P o e, F P o e.neg = -F P o e)
    (hx : ∀ r idx P o t, tileIndex l r = .ok t → Owns l m x ky kx n r idx P o → (m r x).data.get idx = F P o (face t).ex)
    (hy : ∀ r idx P o t, tileIndex l r = .ok t → Owns l m y ky kx n r idx P o → (m r y).data.get idx = F P o (face t).ey)
    {P : Vec3} {o : Nat → Int} {E : Vec3} {v : α} (hc : IsComponentAt l m x y ky kx n P o E v) : v = F P o E := by
  obtain ⟨r, src, t, ht, ⟨ho, c⟩ | ⟨ho, c⟩⟩ := hc
  · have := hx r src P o t ht ho
    rcases c with ⟨rfl, rfl⟩ | ⟨rfl, rfl⟩
    · exact this
    · rw [hV, this]
  · have := hy r src P o t ht ho
    rcases c with ⟨rfl, rfl⟩ | ⟨rfl, rfl⟩
    · exact this
    · rw [hV, this]

theorem AtTile.tile_eq {q : Nat} {r : Int} {idx : List Nat} {t t' a b : Int} (hat : AtTile l m q ky kx n r idx t a b)
    (ht : tileIndex l r = .ok t') : t = t' := by
  have := hat.tile
  rw [ht] at this
  exact (Except.ok.inj this).symm

/-- One update of winds. -/
theorem update_wind (hx : 0 < l.x) (hsq : l.y = l.x) (hh : 0 < h) (hn : h ≤ n) {x y : Nat} (hxy : x ≠ y)
    (S : VectorField l m x y ky kx n h) (hu : UpdateStep l (.vector x y h) m m')
    (hV : ∀ P o e, F P o e.neg = -F P o e)
    (hFx : ∀ r ∈ allRanks l, Holds l n r (m r x) .x ky kx h .compute F)
    (hFy : ∀ r ∈ allRanks l, Holds l n r (m r y) .y ky kx h .compute F) {r : Int} (hr : r ∈ allRanks l) :
    Holds l n r (m' r x) .x ky kx h .halo F ∧ Holds l n r (m' r y) .y ky kx h .halo F := by
  have key : ∀ {P o E v}, IsComponentAt l m x y ky kx n P o E v → v = F P o E := by
    refine component_value hV ?_ ?_
    · rintro r idx P o t ht ⟨hc, rfl, t', a, b, hat, rfl⟩
      rw [(hFx r hat.rank).at_compute hx hsq (by omega) (S.readyX r hat.rank) hat hc hc, hat.tile_eq ht]
      rfl
    · rintro r idx P o t ht ⟨hc, rfl, t', a, b, hat, rfl⟩
      rw [(hFy r hat.rank).at_compute hx hsq (by omega) (S.readyY r hat.rank) hat hc hc, hat.tile_eq ht]
      rfl
  have filled := vector_step_filled hx hsq hh hn hxy S hu
  obtain ⟨o1, -, o3⟩ := vector_step_only hx hsq hh hn hxy S hu r hr
  constructor
  · refine holds_after (o1 x) .x .halo fun idx t a b hat hv hs => ?_
    replace hat : AtTile l m x ky kx n r idx t a b := ⟨hat.rank, hat.tile, hat.x, hat.y⟩
    rcases hv with hc | hi
    · rw [o3 x (.inl rfl) idx t a b hat hc.1 ?_]
      · exact hFx r hr idx t a b ⟨hat.rank, hat.tile, hat.x, hat.y⟩ hc hs
      · rintro ⟨i1, -⟩
        exact i1.out ⟨hc.2 _ (S.readyX r hr).axes.ylt, hc.2 _ (S.readyX r hr).axes.xlt⟩
    · exact key (filled.1 r idx t a b hat hi hs)
  · refine holds_after (o1 y) .y .halo fun idx t a b hat hv hs => ?_
    replace hat : AtTile l m y ky kx n r idx t a b := ⟨hat.rank, hat.tile, hat.x, hat.y⟩
    rcases hv with hc | hi
    · rw [o3 y (.inr rfl) idx t a b hat hc.1 ?_]
      · exact hFy r hr idx t a b ⟨hat.rank, hat.tile, hat.x, hat.y⟩ hc hs
      · rintro ⟨i1, -⟩
        exact i1.out ⟨hc.2 _ (S.readyY r hr).axes.ylt, hc.2 _ (S.readyY r hr).axes.xlt⟩
    · exact key (filled.2 r idx t a b hat hi hs)

/-- One synchronisation of winds. -/
theorem sync_wind (hx : 0 < l.x) (hsq : l.y = l.x) {x y : Nat}
    (V : VectorField l m x y ky kx n h) (S : SyncField l m x y ky kx n) (hu : UpdateStep l (.sync x y) m m')
    (hV : ∀ P o e, F P o e.neg = -F P o e) {lv lv' : Level} (hlv : lv.AtLeast .own = true)
    (hlv' : lv' = if lv = .halo then .halo else .compute)
    (hFx : ∀ r ∈ allRanks l, Holds l n r (m r x) .x ky kx h lv F)
    (hFy : ∀ r ∈ allRanks l, Holds l n r (m r y) .y ky kx h lv F) {r : Int} (hr : r ∈ allRanks l) :
    Holds l n r (m' r x) .x ky kx h lv' F ∧ Holds l n r (m' r y) .y ky kx h lv' F := by
  have hn : 0 ≤ n := by have := S.cells; omega
  have hpos := S.cells
  have key : ∀ {P o E v}, IsEdgeComponentAt l m x y ky kx n P o E v → v = F P o E := by
    rintro P o E v ⟨r, src, t, ht, ⟨ho, hrel, c⟩ | ⟨ho, hrel, c⟩⟩
    · obtain ⟨hc, rfl, t', a, b, hat, rfl⟩ := ho
      have e := (hFx r hat.rank).mono (lv := .own) hlv |>.at_compute hx hsq hn (V.readyX r hat.rank) hat hc
        ⟨hc, fun _ he => by
          have h1 := he.2
          rw [hrel, (S.extX r hat.rank).1] at h1
          omega, fun h => by cases h⟩
      rw [hat.tile_eq ht] at e ⊢
      rcases c with ⟨rfl, rfl⟩ | ⟨rfl, rfl⟩
      · exact e
      · rw [hV, e]; rfl
    · obtain ⟨hc, rfl, t', a, b, hat, rfl⟩ := ho
      have e := (hFy r hat.rank).mono (lv := .own) hlv |>.at_compute hx hsq hn (V.readyY r hat.rank) hat hc
        ⟨hc, (fun h => by cases h), fun _ he => by
          have h1 := he.2
          rw [hrel, (S.extY r hat.rank).2] at h1
          omega⟩
      rw [hat.tile_eq ht] at e ⊢
      rcases c with ⟨rfl, rfl⟩ | ⟨rfl, rfl⟩
      · exact e
      · rw [hV, e]; rfl
  have filled := sync_wait_filled hx hsq S (fun _ _ _ => SameMeta.refl _) (fun r hr => (hu r hr).2)
  obtain ⟨o1, -, o3, o4⟩ := sync_step_only hx hsq S hu r hr
  have cases_x : ∀ idx, lv'.Has (m r x) .x ky kx h idx → OnNorthEdge (m r x) ky idx ∨
      (idx.length = (m r x).ndim ∧ ¬ OnNorthEdge (m r x) ky idx ∧ lv.Has (m r x) .x ky kx h idx) := by
    intro idx hv
    by_cases he : OnNorthEdge (m r x) ky idx
    · exact .inl he
    · right
      have hlen : idx.length = (m r x).ndim := by
        subst hlv'
        cases lv <;> simp [Level.Has, Level.AtLeast] at hv hlv
        · exact hv.1
        · exact hv.1
        · rcases hv with hv | hv
          · exact hv.1
          · exact hv.len
      refine ⟨hlen, he, ?_⟩
      subst hlv'
      cases lv <;> simp [Level.Has, Level.AtLeast] at hv hlv ⊢
      · exact ⟨hv, he⟩
      · exact hv
      · exact hv
  have cases_y : ∀ idx, lv'.Has (m r y) .y ky kx h idx → OnEastEdge (m r y) kx idx ∨
      (idx.length = (m r y).ndim ∧ ¬ OnEastEdge (m r y) kx idx ∧ lv.Has (m r y) .y ky kx h idx) := by
    intro idx hv
    by_cases he : OnEastEdge (m r y) kx idx
    · exact .inl he
    · right
      have hlen : idx.length = (m r y).ndim := by
        subst hlv'
        cases lv <;> simp [Level.Has, Level.AtLeast] at hv hlv
        · exact hv.1
        · exact hv.1
        · rcases hv with hv | hv
          · exact hv.1
          · exact hv.len
      refine ⟨hlen, he, ?_⟩
      subst hlv'
      cases lv <;> simp [Level.Has, Level.AtLeast] at hv hlv ⊢
      · exact ⟨hv, he⟩
      · exact hv
      · exact hv
  constructor
  · refine holds_after (o1 x) .x lv' fun idx t a b hat hv hs => ?_
    replace hat : AtTile l m x ky kx n r idx t a b := ⟨hat.rank, hat.tile, hat.x, hat.y⟩
    rcases cases_x idx hv with he | ⟨hlen, he, hv⟩
    · have i := inside_of_ready hx hsq hn (V.readyX r hr) hat he.1
      rw [(fold_inside i .x).1, (fold_inside i .x).2]
      exact key (filled.1 r idx t a b hat he)
    · rw [o3 idx hlen he]
      exact hFx r hr idx t a b ⟨hat.rank, hat.tile, hat.x, hat.y⟩ hv hs
  · refine holds_after (o1 y) .y lv' fun idx t a b hat hv hs => ?_
    replace hat : AtTile l m y ky kx n r idx t a b := ⟨hat.rank, hat.tile, hat.x, hat.y⟩
    rcases cases_y idx hv with he | ⟨hlen, he, hv⟩
    · have i := inside_of_ready hx hsq hn (V.readyY r hr) hat he.1
      rw [(fold_inside i .y).1, (fold_inside i .y).2]
      exact key (filled.2 r idx t a b hat he)
    · rw [o4 idx hlen he]
      exact hFy r hr idx t a b ⟨hat.rank, hat.tile, hat.x, hat.y⟩ hv hs

end

section
variable [Neg α] {l : Layout} {n : Int} {slots : List Slot}

omit [Neg α] in
theorem comps_disjoint : ∀ {slots : List Slot}, (slots.flatMap fun s => s.comps.map Prod.fst).Nodup → ∀ {s s' : Slot},
    s ∈ slots → s' ∈ slots → s ≠ s' → ∀ q, q ∈ s.comps.map Prod.fst → q ∉ s'.comps.map Prod.fst := by
  intro slots
  induction slots with
  | nil => intro _ s s' h; cases h
  | cons u slots ih =>
    intro hd s s' hs hs' hne q hq hq'
    rw [List.flatMap_cons, List.nodup_append] at hd
    rcases List.mem_cons.1 hs with e | h1
    · rcases List.mem_cons.1 hs' with e' | h2
      · exact hne (e.trans e'.symm)
      · subst e
        exact hd.2.2 q hq q (List.mem_flatMap.2 ⟨s', h2, hq'⟩) rfl
    · rcases List.mem_cons.1 hs' with e' | h2
      · subst e'
        exact hd.2.2 q hq' q (List.mem_flatMap.2 ⟨s, h1, hq⟩) rfl
      · exact ih hd.2.1 h1 h2 hne q hq hq'

/-- Fields whose quantities have not changed. -/
theorem slots_apart (hd : (slots.flatMap fun s => s.comps.map Prod.fst).Nodup) {s s' : Slot} (hs : s ∈ slots)
    (hs' : s' ∈ slots) (hne : s'.x ≠ s.x) {c c' : Nat × Comp} (hc : c ∈ s.comps) (hc' : c' ∈ s'.comps) : c'.1 ≠ c.1 := by
  have hss : s ≠ s' := fun e => hne (by rw [e])
  intro e
  exact comps_disjoint hd hs hs' hss c.1 (List.mem_map_of_mem hc) (by rw [← e]; exact List.mem_map_of_mem hc')

theorem slots_unique (hd : (slots.flatMap fun s => s.comps.map Prod.fst).Nodup) {s s' : Slot} (hs : s ∈ slots)
    (hs' : s' ∈ slots) (he : s'.x = s.x) : s' = s := by
  by_contra hne
  refine comps_disjoint hd hs' hs hne s.x ?_ ?_
  · rw [← he]
    unfold Slot.comps
    cases s'.y <;> simp
  · unfold Slot.comps
    cases s.y <;> simp

theorem wind_distinct (hd : (slots.flatMap fun s => s.comps.map Prod.fst).Nodup) {s : Slot} (hs : s ∈ slots) {y : Nat}
    (hy : s.y = some y) : s.x ≠ y := by
  have := (List.nodup_flatMap.1 hd).1 s hs
  unfold Slot.comps at this
  rw [hy] at this
  simp at this
  exact this

/-- One step of the model code. -/
theorem mstep_holds (hx : 0 < l.x) (hsq : l.y = l.x) {m0 m m' : Int → Mem α} (R : FieldsOf l n slots m0)
    (hm : ∀ r ∈ allRanks l, MetaIs m0 r (m r)) {K : Nat → Level} {W : Fields α} (hW : VectorsIn slots W)
    (hK : ∀ r ∈ allRanks l, HoldsAll l n slots r (m r) K W) {a : MStep α} (ha : a.Good l n slots m0) (hk : a.Allowed K)
    (hu : CallStep l a.call m m') :
    (∀ r ∈ allRanks l, MetaIs m0 r (m' r)) ∧ VectorsIn slots (fieldsAfter [a] W) ∧
      ∀ r ∈ allRanks l, HoldsAll l n slots r (m' r) (a.after K) (fieldsAfter [a] W) := by
  cases a with
  | update s =>
    have hs : s ∈ slots := ha
    obtain ⟨hh, hn⟩ := R.halo s hs
    have hf := R.field s hs
    cases hy : s.y with
    | none =>
      rw [hy] at hf
      have S : ScalarField l m s.x s.ky s.kx n s.h := hf.same fun r hr => hm r hr
      have hc : s.comps = [(s.x, .scalar)] := by unfold Slot.comps; rw [hy]
      have hu' : UpdateStep l (.halo s.x s.h) m m' := by
        have e : (MStep.update s : MStep α).call = .haloUpdate s.x s.h := by
          show s.update = _
          unfold Slot.update
          rw [hy]
        rw [e] at hu
        exact hu
      have only := step_only hx hsq hh hn S hu'
      refine ⟨fun r hr q => (hm r hr q).trans ((only r hr).1 q), hW, fun r hr s' hs' c hc' => ?_⟩
      show Holds l n r _ _ _ _ _ (if s'.x = s.x then .halo else K s'.x) _
      by_cases e : s'.x = s.x
      · have e' := slots_unique R.distinct hs hs' e
        subst e'
        rw [if_pos rfl]
        rw [hc, List.mem_singleton] at hc'
        subst hc'
        exact update_scalar hx hsq hh hn S hu' (fun r hr => (hK r hr s' hs (s'.x, .scalar) (by simp [hc])).mono hk) hr
      · rw [if_neg e, (only r hr).2.1 c.1 (slots_apart R.distinct hs hs' e (c := (s.x, .scalar)) (by simp [hc]) hc')]
        exact hK r hr s' hs' c hc'
    | some y =>
      rw [hy] at hf
      have S : VectorField l m s.x y s.ky s.kx n s.h := hf.same fun r hr => hm r hr
      have hc : s.comps = [(s.x, .x), (y, .y)] := by unfold Slot.comps; rw [hy]
      have hu' : UpdateStep l (.vector s.x y s.h) m m' := by
        have e : (MStep.update s : MStep α).call = .vectorHaloUpdate s.x y s.h := by
          show s.update = _
          unfold Slot.update
          rw [hy]
        rw [e] at hu
        exact hu
      have hxy := wind_distinct R.distinct hs hy
      have only := vector_step_only hx hsq hh hn hxy S hu'
      refine ⟨fun r hr q => (hm r hr q).trans ((only r hr).1 q), hW, fun r hr s' hs' c hc' => ?_⟩
      show Holds l n r _ _ _ _ _ (if s'.x = s.x then .halo else K s'.x) _
      by_cases e : s'.x = s.x
      · have e' := slots_unique R.distinct hs hs' e
        subst e'
        rw [if_pos rfl]
        have res := update_wind hx hsq hh hn hxy S hu' (hW s' hs (by rw [hy]; simp))
          (fun r hr => (hK r hr s' hs (s'.x, .x) (by simp [hc])).mono hk)
          (fun r hr => (hK r hr s' hs (y, .y) (by simp [hc])).mono hk) hr
        rw [hc] at hc'
        simp only [List.mem_cons, List.not_mem_nil, or_false] at hc'
        rcases hc' with rfl | rfl
        · exact res.1
        · exact res.2
      · rw [if_neg e, (only r hr).2.1 c.1 (slots_apart R.distinct hs hs' e (c := (s.x, .x)) (by simp [hc]) hc')
          (slots_apart R.distinct hs hs' e (c := (y, .y)) (by simp [hc]) hc')]
        exact hK r hr s' hs' c hc'
  | sync s =>
    obtain ⟨hs, hf⟩ := ha
    have hV := R.field s hs
    cases hy : s.y with
    | none =>
      have hc : s.comps = [(s.x, .scalar)] := by unfold Slot.comps; rw [hy]
      have hu' : ∀ r ∈ allRanks l, m' r = m r := by
        have e : (MStep.sync s : MStep α).call = .compute fun _ m => m := by
          show s.sync = _
          unfold Slot.sync
          rw [hy]
        rw [e] at hu
        exact hu
      refine ⟨fun r hr q => by rw [hu' r hr]; exact hm r hr q, hW, fun r hr s' hs' c hc' => ?_⟩
      show Holds l n r _ _ _ _ _ (if s'.x = s.x then _ else K s'.x) _
      rw [hu' r hr]
      have h1 := hK r hr s' hs' c hc'
      by_cases e : s'.x = s.x
      · have e' := slots_unique R.distinct hs hs' e
        subst e'
        rw [if_pos rfl]
        rw [hc, List.mem_singleton] at hc'
        subst hc'
        have hk : (K s'.x).AtLeast .own = true := hk
        intro idx t a b hat hp hsc
        refine h1 idx t a b hat ?_ hsc
        revert hp hk
        cases K s'.x <;> simp [Level.Has, Level.AtLeast]
      · rw [if_neg e]
        exact h1
    | some y =>
      rw [hy] at hV
      have V : VectorField l m s.x y s.ky s.kx n s.h := hV.same fun r hr => hm r hr
      have S : SyncField l m s.x y s.ky s.kx n := (hf y hy).same' fun r hr => hm r hr
      have hc : s.comps = [(s.x, .x), (y, .y)] := by unfold Slot.comps; rw [hy]
      have hu' : UpdateStep l (.sync s.x y) m m' := by
        have e : (MStep.sync s : MStep α).call = .synchronize s.x y := by
          show s.sync = _
          unfold Slot.sync
          rw [hy]
        rw [e] at hu
        exact hu
      have only := sync_step_only hx hsq S hu'
      refine ⟨fun r hr q => (hm r hr q).trans ((only r hr).1 q), hW, fun r hr s' hs' c hc' => ?_⟩
      show Holds l n r _ _ _ _ _ (if s'.x = s.x then _ else K s'.x) _
      by_cases e : s'.x = s.x
      · have e' := slots_unique R.distinct hs hs' e
        subst e'
        rw [if_pos rfl]
        have res := sync_wind hx hsq V S hu' (hW s' hs (by rw [hy]; simp)) hk rfl
          (fun r hr => hK r hr s' hs (s'.x, .x) (by simp [hc]))
          (fun r hr => hK r hr s' hs (y, .y) (by simp [hc])) hr
        rw [hc] at hc'
        simp only [List.mem_cons, List.not_mem_nil, or_false] at hc'
        rcases hc' with rfl | rfl
        · exact res.1
        · exact res.2
      · rw [if_neg e, (only r hr).2.1 c.1 (slots_apart R.distinct hs hs' e (c := (s.x, .x)) (by simp [hc]) hc')
          (slots_apart R.distinct hs hs' e (c := (y, .y)) (by simp [hc]) hc')]
        exact hK r hr s' hs' c hc'
  | compute f Φ needs gives =>
    have hC : Computes l n slots m0 f Φ needs gives := ha
    have hu' : ∀ r ∈ allRanks l, m' r = f r (m r) := hu
    refine ⟨fun r hr => by rw [hu' r hr]; exact hC.same r _ (hm r hr), hC.vectors W hW, fun r hr => ?_⟩
    rw [hu' r hr]
    exact hC.value r hr (m r) W (hm r hr) hW fun s hs c hc => (hK r hr s hs c hc).mono (hk s.x)

theorem fieldsAfter_cons (a : MStep α) (acts : List (MStep α)) (W : Fields α) :
    fieldsAfter (a :: acts) W = fieldsAfter acts (fieldsAfter [a] W) := by
  cases a <;> rfl

/-- All steps of the model code. -/
theorem msteps_hold (hx : 0 < l.x) (hsq : l.y = l.x) {m0 : Int → Mem α} (R : FieldsOf l n slots m0) {K' : Nat → Level} :
    ∀ (acts : List (MStep α)) (m m' : Int → Mem α) (K : Nat → Level) (W : Fields α),
      (∀ r ∈ allRanks l, MetaIs m0 r (m r)) → VectorsIn slots W →
      (∀ r ∈ allRanks l, HoldsAll l n slots r (m r) K W) → (∀ a ∈ acts, a.Good l n slots m0) → Levels K' K acts →
      CallsRun l (acts.map MStep.call) m m' →
      (∀ r ∈ allRanks l, MetaIs m0 r (m' r)) ∧
      ∀ r ∈ allRanks l, HoldsAll l n slots r (m' r) K' (fieldsAfter acts W) := by
  intro acts
  induction acts with
  | nil =>
    intro m m' K W hm hW hK _ hL hrun
    have hL : K' = K := hL
    subst hL
    refine ⟨fun r hr => ?_, fun r hr => ?_⟩
    · rw [hrun r hr]; exact hm r hr
    · rw [hrun r hr]; exact hK r hr
  | cons a acts ih =>
    rintro m m' K W hm hW hK hg ⟨hL1, hL2⟩ ⟨m1, h1, h2⟩
    obtain ⟨a1, a2, a3⟩ := mstep_holds hx hsq R hm hW hK (hg a (List.mem_cons_self ..)) hL1 h1
    rw [fieldsAfter_cons]
    exact ih m1 m' _ _ a1 a2 a3 (fun b hb => hg b (List.mem_cons_of_mem _ hb)) hL2 h2

/-- The calls of a session that only updates and computes. -/
theorem statesRun_calls {parts : Nat → Parts} : ∀ (calls : List (Call α)) {S S' : Snap α},
    StatesRun l parts (calls.map fun c => .op (.call c)) S S' →
    CallsRun l calls S.mem S'.mem ∧ S'.glob = S.glob ∧ S'.gtime = S.gtime ∧ ∀ r ∈ allRanks l, S'.time r = S.time r := by
  intro calls
  induction calls with
  | nil =>
    intro S S' h
    exact ⟨fun r hr => (h.1 r hr).1, h.2.1, h.2.2, fun r hr => (h.1 r hr).2⟩
  | cons c calls ih =>
    rintro S S' ⟨S1, ⟨⟨h1, h2⟩, h3, h4⟩, h5⟩
    obtain ⟨i1, i2, i3, i4⟩ := ih h5
    exact ⟨⟨S1.mem, h1, i1⟩, i2.trans h2, i3.trans h4, fun r hr => (i4 r hr).trans (h3 r hr)⟩

end

end FV3
