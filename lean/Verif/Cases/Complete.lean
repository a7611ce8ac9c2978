import Verif.Props.ManyComm
import Verif.Props.StateSession
import Verif.Props.Guarded
import Verif.Props.TileSession
import Verif.Props.LooseMpi
import Verif.Props.OneProcess
import Verif.Props.OneProcessColl
import Verif.Props.TagBound
import Verif.Props.FullSession

/-!
# Concrete cases of the theorems about complete sessions (C61, C64, C66, C67, C71 to C75)

Every `example` applies a theorem to concrete arguments, which shows that its hypotheses can be met.
-/

namespace FV3
open OneProcess

theorem case_s2 : FloatSafe ⟨2, 2⟩ := C05_safe_up_to_48 _ (by decide) (by decide) (by decide) (by decide)
theorem case_s12 : FloatSafe ⟨1, 2⟩ := C05_safe_up_to_48 _ (by decide) (by decide) (by decide) (by decide)

section
variable (buf : Buffering) (z : Int) (F : Vec3 → (Nat → Int) → Int) (D : Int → Nat → List Nat → Int)

/-! ### C61, C74 -/

def caseG (r : Int) (g : Nat) : Option (Quantity Int) := if r = 0 ∧ g = 0 then some (exRunG 6 F) else none

theorem caseG_filled : ∀ g ∈ [0], ∃ v, caseG F 0 g = some v :=
  fun g hg => ⟨exRunG 6 F, by unfold caseG; rw [if_pos ⟨rfl, List.mem_singleton.1 hg⟩]⟩

/-- After all ranks have returned, every message of every tag has been received. -/
example (sched : List Int) (N : Net (Msg Int) (Option (Py (MState Int)))) := C61_nothing_left case_s2 rfl buf (fun _ _ => z)
  (exRunMem 3 z) (caseG F) exParts [0] (exSession_glob F z) (caseG_filled F) exMany (exSession_valid z) sched N
/-- Such schedules exist. -/
example : ∃ sched N, (manyNet ⟨2, 2⟩ (fun _ _ => z) exMany (exRunMem 3 z) (caseG F)).run buf sched = some N ∧
    ∀ r ∈ allRanks ⟨2, 2⟩, ∃ x, N.procs r = .ret x := by
  obtain ⟨fin, ⟨T, n, h1, h2⟩, -⟩ := C61_several case_s2 rfl buf (fun _ _ => z) (exRunMem 3 z) (caseG F) exParts [0]
    (exSession_glob F z) (caseG_filled F) exMany (exSession_valid z)
  obtain ⟨s, hs, -⟩ := h2 [] _ rfl
  exact ⟨s, T, hs, fun r _ => ⟨_, h1 r⟩⟩
example := C74_several case_s2 rfl 2 buf (fun _ _ => z) (exRunMem 3 z) (caseG F) exParts [0] (exSession_glob F z)
  (caseG_filled F) exMany (exSession_valid z)

/-! ### C64 -/

def caseStates : List (TOp Int) :=
  [.op (.call (.compute exNext)), .op (.call (.haloUpdate 0 1)), .gatherState 1 1 [⟨"pressure", 0, 5⟩, ⟨"height", 0, 6⟩],
    .op (.gather 1 7)]

theorem case_ready (q : Nat) (r : Int) (hr : r ∈ allRanks ⟨2, 2⟩) : HaloReady (exAnyMem z D r q) 0 1 3 1 := by
  have h := (exSession_run z (fun _ _ => z) q).field.1 r hr
  exact ⟨⟨⟨rfl, rfl, rfl⟩, h.wf.2⟩, h.2, h.3, h.4, h.5, h.6⟩

theorem case_scalar (q : Nat) : ScalarField ⟨2, 2⟩ (exAnyMem z D) q 0 1 3 1 :=
  have R := (exSession_run z (fun _ _ => z) q).field
  ⟨case_ready z D q, R.2, R.3, R.4⟩

theorem case_update (q : Nat) (parts : Nat → Parts) (filled : List Nat) :
    (TOp.op (.call (.haloUpdate q 1))).Valid ⟨2, 2⟩ (exAnyMem z D) parts filled := by
  intro op ho
  cases ho
  exact ⟨0, 1, 3, by decide, by decide, case_scalar z D q⟩

theorem case_next (r : Int) (mem : Mem Int) (hm : MetaIs (exAnyMem z D) r mem) : MetaIs (exAnyMem z D) r (exNext r mem) :=
  fun q' => ⟨(hm q').shape, (hm q').dims, (hm q').units, (hm q').origin, (hm q').extent⟩

theorem case_states : StatesValid ⟨2, 2⟩ (exAnyMem z D) exParts []
    (.gatherState 0 0 exVars :: caseStates ++ [.scatterState 0 0 exVars]) := by
  have hp := exAny_parts z D
  refine ⟨⟨exVars_good, by decide, fun v _ => hp _ _⟩, fun r _ mem hm => case_next z D r mem hm, case_update z D 0 _ _,
    ⟨⟨by decide, by decide⟩, by decide, fun v _ => hp _ _⟩,
    hp _ _, ⟨exVars_good, by decide, fun v hv => ⟨?_, hp _ _⟩⟩, trivial⟩
  simp only [exVars, List.mem_cons, List.not_mem_nil, or_false] at hv
  rcases hv with rfl | rfl <;> simp [exVars]

example := C64_states case_s2 rfl buf (fun _ _ => z) (exAnyMem z D) (fun _ _ => none) (fun r _ => some r) (fun _ _ => some 9)
  exParts [] (fun _ _ h => nomatch h) (fun _ h => nomatch h) _ (case_states z D)

/-- Cells are not shared. -/
theorem case_agree (q : Nat) : SharedAgree ⟨2, 2⟩ (exParts 0) (exAnyMem z D) q := by
  obtain hp := exAny_parts z D q 0
  intro r hr r' hr' rel rel' h h' he
  obtain ⟨rfl, rfl⟩ := place_injective (dims := (exParts 0).dims) (cells := (exParts 0).cells) case_s2 HAxes_yx (by decide) hr hr'
    (by rw [← rankOf_shape (hp.shaped r hr).extent]; exact h)
    (by rw [← rankOf_shape (hp.shaped r' hr').extent]; exact h') he
  rfl

example := C64_checkpoint case_s2 rfl buf (fun _ _ => z) (exAnyMem z D) (fun _ _ => none) (fun r _ => some r) (fun _ _ => some 9)
  exParts [] (fun _ _ h => nomatch h) (fun _ h => nomatch h) 0 0 exVars caseStates (case_states z D)
  (by
    intro v hv q h
    simp only [exVars, List.mem_cons, List.not_mem_nil, or_false] at hv
    rcases hv with rfl | rfl <;> simp [caseStates] at h)
  (by
    intro i' j' vars' h
    simp only [caseStates, List.mem_cons, reduceCtorEq, TOp.gatherState.injEq, List.not_mem_nil, or_false, false_or] at h
    obtain ⟨rfl, rfl, rfl⟩ := h
    exact ⟨by decide, by decide⟩)
  (fun v _ => case_agree z D v.q)

/-! ### C66 -/

/-- A rejected update, a gather and an update. -/
example := C66_guarded case_s2 rfl buf (fun _ _ => z) (exAnyMem z D) (fun _ _ => none) (fun _ _ => none) (fun _ _ => none)
  exParts [] (fun _ _ h => nomatch h) (fun _ h => nomatch h)
  [.attempt (.haloUpdate 0 0), .plain (.op (.gather 0 1)), .attempt (.haloUpdate 0 1)] [some .valueError, none]
  ⟨.inl ⟨rfl, rfl⟩, exAny_parts z D 0 1, case_update z D 0 _ _, rfl⟩

/-! ### C67 -/

theorem case_tiles : TilesValid ⟨2, 2⟩ (exAnyMem z D) exParts (fun _ => exParts) [] (fun _ => [])
    (.tiles exTilesA :: exTilesOps ++ [.tiles exTilesC]) := by
  have ht : ∀ t, 0 ≤ t → t < 6 → ∀ q g, PartsOn (.tile ⟨2, 2⟩)
      (fun i => exAnyMem z D (t * (⟨2, 2⟩ : Layout).tileRanks + i)) q (exParts g) := fun t t0 t6 => exAny_onTile z D t0 t6
  refine ⟨fun t t0 t6 a ha => ?_, fun r _ mem hm => case_next z D r mem hm, case_update z D 0 exParts [], fun t t0 t6 a ha => ?_,
    exAny_parts z D _ _, fun t t0 t6 a ha => ?_, trivial⟩
  · unfold exTilesA at ha
    split at ha
    · cases ha
      exact ⟨exVars_good, by decide, fun v _ => ht t t0 t6 _ _⟩
    · split at ha
      · cases ha
        exact ht t t0 t6 _ _
      · cases ha
  · unfold exTilesB at ha
    split at ha
    · cases ha
      exact ht t t0 t6 _ _
    · split at ha
      · cases ha
        next h => subst h; exact ⟨(by decide : (0 : Nat) ∈ [0]), ht _ t0 t6 _ _⟩
      · split at ha
        · cases ha
          exact ⟨⟨by decide, by decide⟩, by decide, fun v _ => ht t t0 t6 _ _⟩
        · cases ha
  · unfold exTilesC at ha
    split at ha
    · cases ha
      next h =>
        subst h
        exact ⟨exVars_good, by decide, fun v hv => ⟨(by decide : ∀ v ∈ exVars, v.g ∈ [9, 3, 4]) v hv, ht _ t0 t6 _ _⟩⟩
    · cases ha

example := C67_tiles case_s2 rfl buf (fun _ _ => z) (fun _ _ => z) (exAnyMem z D) (fun _ _ => none) (fun r _ => some r)
  (fun _ _ => none) (fun _ _ => none) (fun _ _ => none) exParts (fun _ => exParts) [] (fun _ => []) (fun _ _ h => nomatch h)
  (fun _ h => nomatch h) (fun _ _ _ _ _ h => nomatch h) (fun _ _ _ _ h => nomatch h) _ (case_tiles z D)
/-- Tile 3 gathers a state, and scatters it after other calls. -/
example := C67_checkpoint case_s2 rfl buf (fun _ _ => z) (fun _ _ => z) (exAnyMem z D) (fun _ _ => none) (fun r _ => some r)
  (fun _ _ => none) (fun _ _ => none) (fun _ _ => none) exParts (fun _ => exParts) [] (fun _ => []) (fun _ _ h => nomatch h)
  (fun _ h => nomatch h) (fun _ _ _ _ _ h => nomatch h) (fun _ _ _ _ h => nomatch h) 3 (by decide) (by decide) 0 0 exVars
  exTilesA exTilesC rfl rfl exTilesOps (case_tiles z D)
  (by
    intro o ho a ha
    simp only [exTilesOps, List.mem_cons, reduceCtorEq, UOp.tiles.injEq, List.not_mem_nil, or_false, false_or] at ho
    subst ho
    cases ha
    exact ⟨fun h => h, (by decide : ∀ v ∈ exVars, ¬ 9 = v.g)⟩)
  (by
    intro v _ r hr r' hr' rel rel' h h' he
    have hp := exAny_onTile z D (t := 3) (by decide) (by decide) v.q 0
    obtain ⟨rfl, rfl⟩ := place_tile_injective (dims := (exParts 0).dims) (cells := (exParts 0).cells) case_s2
      HAxes_yx (by decide) hr hr'
      (by rw [← rankOf_shape (hp.shaped r hr).extent]; exact h)
      (by rw [← rankOf_shape (hp.shaped r' hr').extent]; exact h') he
    rfl)

/-! ### C75 -/

example := C75_full case_s2 rfl buf (fun _ _ => z) (fun _ _ => z) (exAnyMem z D) (fun _ _ => none) (fun r _ => some r)
  (fun _ _ => none) (fun _ _ => none) (fun _ _ => none) exParts (fun _ => exParts) [] (fun _ => []) (fun _ _ h => nomatch h)
  (fun _ h => nomatch h) (fun _ _ _ _ _ h => nomatch h) (fun _ _ _ _ h => nomatch h) _ (exFull_valid z D)
example := C75_outstanding case_s2 rfl buf (fun _ _ => z) (fun _ _ => z) (exAnyMem z D) (fun _ _ => none) (fun r _ => some r)
  (fun _ _ => none) (fun _ _ => none) (fun _ _ => none) exParts (fun _ => exParts) [] (fun _ => []) (fun _ _ h => nomatch h)
  (fun _ h => nomatch h) (fun _ _ _ _ _ h => nomatch h) (fun _ _ _ _ h => nomatch h) [] exFullBetween (.halo 0 1) rfl
  (exFull_valid z D)

theorem case_vectors : VectorField ⟨2, 2⟩ (exAnyMem z D) 1 2 0 1 3 1 :=
  ⟨case_ready z D 1, case_ready z D 2, fun _ _ _ _ => rfl, fun _ _ _ _ => rfl,
    fun _ _ => rfl, fun _ _ _ _ _ _ _ _ => rfl, fun _ _ => rfl, fun _ _ => rfl⟩

/-- All tiles gather quantity 1 while a vector halo update of it is outstanding. -/
example := C75_outstanding_vector case_s2 rfl buf (fun _ _ => z) (fun _ _ => z) (exAnyMem z D) (fun _ _ => none)
  (fun r _ => some r) (fun _ _ => none) (fun _ _ => none) (fun _ _ => none) exParts (fun _ => exParts) [] (fun _ => [])
  (fun _ _ h => nomatch h) (fun _ h => nomatch h) (fun _ _ _ _ _ h => nomatch h) (fun _ _ _ _ h => nomatch h) []
  [.tiles fun _ => some (.gather 1 0)] (x := 1) (y := 2) (by decide) (by decide) (by decide)
  (case_vectors z D) (by
    refine ⟨⟨⟨0, 1, 3, by decide, by decide, case_vectors z D⟩, fun t t0 t6 a ha => ?_, trivial, trivial⟩, ?_, ?_, ?_⟩
    · cases ha
      exact exAny_onTile z D t0 t6 _ _
    · show WaitsStarted [.vector 1 2 1, .wait 0]
      intro d i hd
      match d, hd with
      | 1, hd => simp at hd; subst hd; show 0 < 1; decide
      | d + 2, hd => simp at hd
    · show ([0] : List Nat).Nodup
      decide
    · exact .inl fun _ _ _ h => by cases h)

/-- A synchronisation with a computation between its start and its wait. -/
example (f : Int → Nat → List Nat → Int) := C75_outstanding_sync case_s2 rfl buf (fun _ _ => z) (fun _ _ => z) (exEdgeMem f)
  (fun _ _ => none) (fun r _ => some r) (fun _ _ => none) (fun _ _ => none) (fun _ _ => none) exParts (fun _ => exParts) []
  (fun _ => []) (fun _ _ h => nomatch h) (fun _ h => nomatch h) (fun _ _ _ _ _ h => nomatch h) (fun _ _ _ _ h => nomatch h) []
  [.op (.compute fun _ m => m)] (exEdge_field ⟨2, 2⟩ f) (by
    refine ⟨⟨⟨0, 1, 3, exEdge_field ⟨2, 2⟩ f⟩, fun r _ mem hm => hm, trivial, trivial⟩, ?_, ?_, trivial⟩
    · show WaitsStarted [.sync 0 1, .compute _, .wait 0]
      intro d i hd
      match d, hd with
      | 2, hd => simp at hd; subst hd; show 0 < 1; decide
      | d + 3, hd => simp at hd
    · show ([0] : List Nat).Nodup
      decide)

/-! ### C71 -/

example := C71_in_order (left := fun i => (100 + i.getD 1 0 : Int)) (shape := [2, 3])
  (v := ⟨[2, 2], fun i => 7 + 2 * i.getD 0 0 + i.getD 1 0⟩) rfl

end

/-! ### C72 -/

theorem case_dummy (F : Vec3 → (Nat → Int) → Int) (f : Int → Nat → List Nat → Int) :
    ∀ op ∈ exDummy, UpdateReady ⟨2, 2⟩ (exMixMem ⟨2, 2⟩ F f) op := by
  intro op ho
  have hs : ∀ q, 2 ≤ q → UpdateReady ⟨2, 2⟩ (exMixMem ⟨2, 2⟩ F f) (.halo q 2) := fun q hq =>
    ⟨0, 1, 3, by decide, by decide, exMix_scalar _ _ _ q hq⟩
  simp only [exDummy, List.mem_cons, List.not_mem_nil, or_false] at ho
  rcases ho with rfl | rfl | rfl | rfl | rfl | rfl
  · exact hs 2 (by decide)
  · exact ⟨0, 1, 3, exMix_sync _ F f⟩
  · trivial
  · exact hs 3 (by decide)
  · trivial
  · trivial

theorem case_waits : WaitsStarted (exDummy : List (Op Int)) := by
  intro d i hd
  match d with
  | 0 => simp [exDummy] at hd
  | 1 => simp [exDummy] at hd
  | 2 => simp [exDummy] at hd; subst hd; decide
  | 3 => simp [exDummy] at hd
  | 4 => simp [exDummy] at hd; subst hd; decide
  | 5 => simp [exDummy] at hd; subst hd; decide
  | d + 6 => simp [exDummy] at hd

example (F : Vec3 → (Nat → Int) → Int) (f : Int → Nat → List Nat → Int) := C72_dummy (l := ⟨2, 2⟩) (by decide) rfl (case_dummy F f)
  case_waits ⟨3, rfl⟩ (fun g hg => by simp [exDummy] at hg) (rounds_ok case_waits)
example (F : Vec3 → (Nat → Int) → Int) (f : Int → Nat → List Nat → Int) := C72_halo (l := ⟨2, 2⟩) (by decide) rfl (by decide)
  (by decide) (exMix_scalar ⟨2, 2⟩ F f 2 (by decide))
example (F : Vec3 → (Nat → Int) → Int) (f : Int → Nat → List Nat → Int) := C72_limit_blocking (l := ⟨2, 2⟩) (by decide) rfl
  (case_dummy F f _ List.mem_cons_self) (r := 5) (by decide) (s := ⟨exMixMem ⟨2, 2⟩ F f 5, 0, []⟩)
  (fun _ => SameMeta.refl _) (Q := fun _ _ => none) (fun _ _ => rfl)

/-! ### C73 -/

section
variable (b : Board Nat) (hb : b.Settled (.cube ⟨1, 2⟩))

example := C73_scatter_state (.cube ⟨1, 2⟩) case_s12 (fun _ => 0)
  (fun v => if v = "u" then [.y, .xI] else [.y, .x]) (fun _ => [2, 3])
  (fun v => if v = "u" then exGlobal else exGlobal2) exCState (by decide) (some 86400) rfl
  (by
    intro v hv hne
    have : v = "u" ∨ v = "time" ∨ v = "T" := by simpa [exCState, Dict.keys] using hv
    rcases this with rfl | rfl | rfl
    · exact ⟨rfl, by decide, exGlobal_shaped⟩
    · exact absurd rfl hne
    · exact ⟨rfl, by decide, exGlobal2_shaped⟩)
  (fun r => if r = 0 then some exCState else none)
  (fun r => if r = 7 then some [("own", .qty exGlobal), ("u", .qty exPart), ("time", .time 0)] else none) rfl
  (by
    intro r _ st hst
    split at hst
    · cases hst
      refine ⟨by decide, ?_⟩
      intro v hv hne x hx
      have : v = "u" ∨ v = "time" ∨ v = "T" := by simpa [exCState, Dict.keys] using hv
      rcases this with rfl | rfl | rfl
      · cases hx
        exact ⟨_, rfl, exPart_shaped⟩
      · exact absurd rfl hne
      · cases hx
    · cases hst)
  b hb (0 :: exOrder) ⟨_, rfl, by decide⟩

theorem case_last : RootLast (.cube ⟨1, 2⟩) (exOrder ++ [0]) := ⟨_, rfl, by decide⟩

example := C73_gather (.cube ⟨1, 2⟩) case_s12 (fun _ => 0) [.y, .xI] [2, 3] 0 1 exAxes (by decide) (fun _ => exPart)
  (fun r => if r = 0 then some exGlobal else none) (fun _ _ => exPart_shaped)
  (fun q hq => by cases hq; exact exGlobal_shaped) (fun _ => rfl) b hb (exOrder ++ [0]) case_last
example := C73_gather_state (.cube ⟨1, 2⟩) case_s12 (fun _ => 0) [.y, .xI] [2, 3] 0 1 exAxes (by decide) ["u", "v", "time"] ["u"]
  ["time"] "v" rfl (by decide) (by decide) (by simp) (fun r v => if v = "time" then .time (r + 5) else .qty exPart)
  (fun _ _ => exPart) (fun v _ h r _ => ⟨if_neg h, exPart_shaped⟩) (fun _ => none)
  (fun v _ _ => ⟨fun x hx => (by cases hx), fun _ => rfl⟩) b hb (exOrder ++ [0]) case_last
example := C73_gather_state_single (.cube ⟨1, 2⟩) case_s12 (fun _ => 0) [.y, .xI] [2, 3] 0 1 exAxes (by decide) ["u", "time"] "u"
  (by decide) (by decide) (by decide) (by simp) (fun r v => if v = "time" then .time (r + 5) else .qty exPart)
  (fun _ => exPart) (fun r _ => ⟨rfl, exPart_shaped⟩) (fun _ => none)
  ⟨fun x hx => (by cases hx), fun _ => rfl⟩ b hb (exOrder ++ [0]) case_last
example := C73_round_trip (.cube ⟨1, 2⟩) case_s12 (fun _ => 0) (fun _ => 1) [.y, .xI] [2, 3] 0 1 exAxes exGlobal exGlobal_shaped
  (fun r => if r = 0 then some exGlobal else none) rfl b hb (0 :: exOrder) (exOrder ++ [0]) ⟨_, rfl, by decide⟩ case_last
/-- A second gather whose root calls first uses the first gather's values of the other ranks. -/
example (new : Quantity Nat) (h : new.RankShaped [.y, .xI] [2, 3]) (hd : new.dims = [.y, .xI]) := C73_limit_gather_order
  (.cube ⟨1, 2⟩) case_s12 (fun _ => 0) [.y, .xI] [2, 3] 0 1 exAxes (by decide) (fun _ => exPart)
  (fun r => if r = 0 then some exGlobal else none) (fun _ _ => exPart_shaped)
  (fun q hq => by cases hq; exact exGlobal_shaped) (fun _ => rfl) new h hd b hb (exOrder ++ [0]) case_last
example := C73_limit_gather_first (.cube ⟨1, 2⟩) (fun _ => 0) (by decide) [.y, .xI] [2, 3] (by decide) exPart exPart_shaped none
example := C73_limit_scatter_order (.cube ⟨1, 2⟩) (fun _ => 0) b hb 7 (by decide) (by decide) none (some exPart)
example := C73_limit_tile ⟨1, 2⟩ case_s12 (fun _ => 0) [.y, .xI] [2, 3] 0 1 exAxes (by decide) exPart exPart_shaped rfl

/-- There are such boards. -/
example : (Board.new 12 : Board Nat).Settled (.cube ⟨1, 2⟩) := C73_new (.cube ⟨1, 2⟩)

end

end FV3
