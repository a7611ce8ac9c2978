import Verif.Props.HeapStatesOne
import Verif.Props.HeapStates
import Verif.Cases.HeapState

/-!
# Cases of C87
-/

namespace FV3
namespace Heap
open Mem (World Gt4py Reachable)

/-- Another field on the cube. -/
def cubeField' : Fld Int := fun P _ _ => 2 * P.x * P.x - P.y + 3 * P.z

/-- As `windOps`, with two fields. -/
def twoOps : List (Mem.Op Int) :=
  [.array ⟨[6, 4, 5], fun i => cubeField (pos 2 (i.getD 0 0) (2 * (i.getD 2 0) - 1) (2 * (i.getD 1 0) - 1)) (fun _ => 0) ⟨0, 0, 0⟩⟩ false,
   .quantity 0 [.tile, .y, .x] "m/s" (some [0, 1, 1]) (some [6, 2, 2]) none,
   .array ⟨[6, 4, 5], fun i => cubeField' (pos 2 (i.getD 0 0) (2 * (i.getD 2 0) - 1) (2 * (i.getD 1 0) - 1)) (fun _ => 0) ⟨0, 0, 0⟩⟩ false,
   .quantity 2 [.tile, .y, .x] "m/s" (some [0, 1, 1]) (some [6, 2, 2]) none,
   .getItem 0 .self [.int 3],
   .quantity 4 [.y, .x] "m/s" (some [1, 1]) (some [2, 2]) none,
   .getItem 2 .self [.int 2],
   .quantity 6 [.y, .x] "m/s" (some [1, 1]) (some [2, 2]) none]

def twoW (_ : Int) : World Int := (World.init fun _ => 0).after Mem.demo twoOps

theorem twoW_global (r : Int) : dataOf (twoW r) 1 =
    .ok (0, ⟨⟨0, [6, 4, 5], [20, 5, 1]⟩, false, true⟩, ⟨[.tile, .y, .x], "m/s", [0, 1, 1], [6, 2, 2], none⟩) := rfl

theorem twoW_global' (r : Int) : dataOf (twoW r) 3 =
    .ok (1, ⟨⟨120, [6, 4, 5], [20, 5, 1]⟩, false, true⟩, ⟨[.tile, .y, .x], "m/s", [0, 1, 1], [6, 2, 2], none⟩) := rfl

theorem twoW_part (r : Int) : dataOf (twoW r) 5 =
    .ok (2, ⟨⟨60, [4, 5], [5, 1]⟩, false, true⟩, ⟨[.y, .x], "m/s", [1, 1], [2, 2], none⟩) := rfl

theorem twoW_part' (r : Int) : dataOf (twoW r) 7 =
    .ok (3, ⟨⟨160, [4, 5], [5, 1]⟩, false, true⟩, ⟨[.y, .x], "m/s", [1, 1], [2, 2], none⟩) := rfl

theorem twoW_reach (r : Int) : Reachable Mem.demo (twoW r) := ⟨_, _, rfl⟩

/-- The same places as in `windW`. -/
theorem two_cell (r : Int) {k : Nat} (hk : k = 1 ∨ k = 3 ∨ k = 5 ∨ k = 7) {idx : List Nat} {a : Int} (h : Cell (twoW r) k idx a) :
    Cell (windW r) k idx a := by
  obtain ⟨x, hx, hc⟩ := h
  refine ⟨x, ?_, hc⟩
  rw [← hx]
  rcases hk with rfl | rfl | rfl | rfl
  · rw [twoW_global, windW_global]
  · rw [twoW_global', windW_global']
  · rw [twoW_part, windW_part]
  · rw [twoW_part', windW_part']

theorem two_clear {v w : String} (hv : v = "u" ∨ v = "v") (hw : w = "u" ∨ w = "v") (hne : v ≠ w) (r : Int) :
    Clear (twoW r) (windSv v) (windRv r w) ∧ Clear (twoW r) (windRv r v) (windSv w) ∧ Clear (twoW r) (windSv v) (windSv w) := by
  have c1 : ∀ {idx : List Nat} {a : Int}, Cell (twoW r) 1 idx a → a < 120 := fun h => windW_addr_first r (two_cell r (by decide) h)
  have c3 : ∀ {idx : List Nat} {a : Int}, Cell (twoW r) 3 idx a → 120 ≤ a := fun h => windW_addr_global r (two_cell r (by decide) h)
  have c5 : ∀ {idx : List Nat} {a : Int}, Cell (twoW r) 5 idx a → a < 120 := fun h => windW_addr r (two_cell r (by decide) h)
  have c7 : ∀ {idx : List Nat} {a : Int}, Cell (twoW r) 7 idx a → 120 ≤ a := fun h => windW_addr' r (two_cell r (by decide) h)
  rcases hv with rfl | rfl <;> rcases hw with rfl | rfl
  · exact absurd rfl hne
  · exact ⟨fun _ _ _ h1 _ h2 => by have := c1 h1; have := c7 h2; omega, fun _ _ _ h1 _ h2 => by have := c5 h1; have := c3 h2; omega,
      fun _ _ _ h1 _ h2 => by have := c1 h1; have := c3 h2; omega⟩
  · exact ⟨fun _ _ _ h1 _ h2 => by have := c3 h1; have := c5 h2; omega, fun _ _ _ h1 _ h2 => by have := c7 h1; have := c1 h2; omega,
      fun _ _ _ h1 _ h2 => by have := c3 h1; have := c1 h2; omega⟩
  · exact absurd rfl hne

theorem two_usable (r : Int) : Usable (twoW r) (["v", "u"].map (windRv 0)) := by
  have U := windW_usable r
  have mem : ∀ k ∈ ["v", "u"].map (windRv 0), k = 5 ∨ k = 7 := by decide
  refine ⟨fun k hk => ?_, fun k hk => ?_, fun k hk k' hk' hne idx idx' a h h' => ?_⟩
  · rcases mem k hk with rfl | rfl <;> exact ⟨⟨[.y, .x], "m/s", [1, 1], [2, 2], none⟩, rfl, by decide⟩
  · rcases mem k hk with rfl | rfl <;> rfl
  · refine U.apart k ?_ k' ?_ hne idx idx' a (two_cell r ?_ h) (two_cell r ?_ h')
    · rcases mem k hk with rfl | rfl <;> decide
    · rcases mem k' hk' with rfl | rfl <;> decide
    · exact .inr (.inr (mem k hk))
    · exact .inr (.inr (mem k' hk'))

/-- The dictionaries: 0 of the root is the global state, 1 of each rank the state of the rank. -/
def twoD (_ : Int) (k : Nat) : HDict := if k = 0 then windGlobal else [("v", .qty 7), ("u", .qty 5)]

def twoFields (v : String) : Fld Int := if v = "u" then cubeField else cubeField'

theorem two_states : FieldStates ⟨1, 1⟩ twoW twoD 0 1 ["v", "u"] windSv (windRv 0) (fun _ => ⟨[.y, .x], [2, 2]⟩) (fun _ => 0) (fun _ => 1) 2 1 where
  nodup := by decide
  names := fun v => ⟨fun h => by
      rcases wind_back h with rfl | rfl <;> decide,
    fun h => by rcases wind_names h.1 h.2 with rfl | rfl <;> decide⟩
  global := ⟨by decide, fun v hv => by rcases wind_back hv with rfl | rfl <;> rfl⟩
  time := ⟨some 7, rfl⟩
  parts := fun r _ => ⟨by show (Dict.keys ([("v", .qty 7), ("u", .qty 5)] : HDict)).Nodup; decide,
    fun v hv => by rcases wind_back hv with rfl | rfl <;> rfl⟩
  fits := fun v hv => by
    rcases wind_back hv with rfl | rfl
    · refine ⟨by decide, ?_, fun r _ => ⟨?_, rfl⟩⟩
      · show (quantities (twoW 0) 1).GlobalShaped _ _ _
        rw [quantities_eq (twoW_global 0)]
        exact cube_global _ rfl rfl rfl rfl
      · show (quantities (twoW r) 5).RankShaped _ _
        rw [quantities_eq (twoW_part r)]
        exact cube_shaped _ rfl rfl rfl rfl
    · refine ⟨by decide, ?_, fun r _ => ⟨?_, rfl⟩⟩
      · show (quantities (twoW 0) 3).GlobalShaped _ _ _
        rw [quantities_eq (twoW_global' 0)]
        exact cube_global _ rfl rfl rfl rfl
      · show (quantities (twoW r) 7).RankShaped _ _
        rw [quantities_eq (twoW_part' r)]
        exact cube_shaped _ rfl rfl rfl rfl
  distinct := fun v hv w hw hne => by
    rcases wind_back hv with rfl | rfl <;> rcases wind_back hw with rfl | rfl <;> first | exact absurd rfl hne | decide
  usable := fun r _ => two_usable r
  clear := fun v hv w hw hne => (two_clear (wind_back hv) (wind_back hw) hne 0).1
  field := fun v hv => by
    rcases wind_back hv with rfl | rfl
    · have e := fun r => quantities_eq (twoW_part r)
      show ScalarField _ (fun r => quantities (twoW r)) 5 0 1 2 1
      refine ⟨fun r _ => ?_, fun r _ r' _ => ?_, fun r _ r' _ k _ _ _ => ?_, fun r _ => ?_⟩
      · rw [e]; exact case_ready _ rfl rfl rfl rfl
      · rw [e, e]
      · rw [e, e]; rfl
      · rw [e]; rfl
    · have e := fun r => quantities_eq (twoW_part' r)
      show ScalarField _ (fun r => quantities (twoW r)) 7 0 1 2 1
      refine ⟨fun r _ => ?_, fun r _ r' _ => ?_, fun r _ r' _ k _ _ _ => ?_, fun r _ => ?_⟩
      · rw [e]; exact case_ready _ rfl rfl rfl rfl
      · rw [e, e]
      · rw [e, e]; rfl
      · rw [e]; rfl
  dims := fun v hv r _ => by
    rcases wind_back hv with rfl | rfl
    · show (quantities (twoW r) 5).dims = _
      rw [quantities_eq (twoW_part r)]
    · show (quantities (twoW r) 7).dims = _
      rw [quantities_eq (twoW_part' r)]
  cells := fun _ _ => ⟨rfl, rfl⟩

set_option maxRecDepth 4000 in
theorem two_holds {v : String} (hv : v ∈ ["v", "u"]) : GlobalHolds (quantities (twoW 0) (windSv v)) ⟨[.y, .x], [2, 2]⟩ .scalar 0 1
    ((⟨1, 1⟩ : Layout).x * 2) (twoFields v) := by
  rintro p P others ⟨hin, -, hp⟩
  subst hp
  rcases wind_back hv with rfl | rfl
  · have hin : InB [6, 2, 2] p := hin
    match p, hin with
    | [t, j, i], hin =>
      have h : ∀ t < 6, ∀ j < 2, ∀ i < 2, (quantities (twoW 0) 1).computeArr.get [t, j, i] =
          cubeField (pos (1 * 2) (t : Int) (2 * (i : Int) + 1 - overlapOf .x) (2 * (j : Int) + 1 - overlapOf .y)) (fun _ => 0) ⟨0, 0, 0⟩ := by
        rw [quantities_eq (twoW_global 0)]
        decide
      exact h t hin.1 j hin.2.1 i hin.2.2.1
  · have hin : InB [6, 2, 2] p := hin
    match p, hin with
    | [t, j, i], hin =>
      have h : ∀ t < 6, ∀ j < 2, ∀ i < 2, (quantities (twoW 0) 3).computeArr.get [t, j, i] =
          cubeField' (pos (1 * 2) (t : Int) (2 * (i : Int) + 1 - overlapOf .x) (2 * (j : Int) + 1 - overlapOf .y)) (fun _ => 0) ⟨0, 0, 0⟩ := by
        rw [quantities_eq (twoW_global' 0)]
        decide
      exact h t hin.1 j hin.2.1 i hin.2.2.1

/-- The state is scattered and the halos of its quantities are updated; the parts of the root overwrite parts of the global
quantities. -/
example (buf : Buffering) := C87_fields (g := Mem.demo) (l := ⟨1, 1⟩) (F := twoFields) ⟨by decide, by decide, by decide, by decide⟩ rfl
  (fun r _ => twoW_reach r) (by decide) (by decide) two_states (fun _ hv => two_holds hv) buf

/-- And gathered into the same dictionary again. -/
example (buf : Buffering) := C87_fields_back (g := Mem.demo) (l := ⟨1, 1⟩) (F := twoFields) ⟨by decide, by decide, by decide, by decide⟩ rfl
  (fun r _ => twoW_reach r) (by decide) (by decide) two_states (by decide) (fun _ _ => rfl)
  (fun v hv _ => by
    have : (twoD 0 1).keys = ["v", "u"] := rfl
    rwa [this] at hv)
  (fun v hv => by rcases wind_back hv with rfl | rfl <;> rfl)
  (fun v hv w hw hne => (two_clear (wind_back hv) (wind_back hw) hne 0).2) (fun _ hv => two_holds hv) buf

/-- A program which changes an array, an update and a scatter of the state. -/
def stateCalls : List (SCall Int) :=
  [.comm (.update (.compute fun r => [.setItem 2 .self [.int 1, .int 2, .int 3] ⟨[], fun _ => r⟩])),
    .comm (.update (.haloUpdate 5 1)), .scatterState 0 1]

theorem stateCalls_ready (pre : List (SCall Int)) (x : SCall Int) (post : List (SCall Int)) (e : stateCalls = pre ++ x :: post)
    (W1 : Int → World Int) (D1 : Int → Nat → HDict) (hrun : SRun Mem.demo ⟨1, 1⟩ pre twoW twoD W1 D1) : SReady ⟨1, 1⟩ W1 D1 x := by
  have hl : FloatSafe (⟨1, 1⟩ : Layout) := ⟨by decide, by decide, by decide, by decide⟩
  have hw : ∀ r ∈ allRanks (⟨1, 1⟩ : Layout), WF Mem.demo (twoW r) := fun r _ => (twoW_reach r).spec
  have h0 : (0 : Int) ∈ allRanks (⟨1, 1⟩ : Layout) := by decide
  match pre, e, hrun with
  | [], e, hrun =>
    obtain ⟨rfl, -⟩ := List.cons.inj e
    exact fun op ho => by cases ho
  | [y], e, hrun =>
    obtain ⟨e1, e2⟩ := List.cons.inj e
    obtain ⟨e3, -⟩ := List.cons.inj e2
    subst e1 e3
    obtain ⟨W2, D2, st, hr⟩ := hrun
    exact (two_states.ready (by decide) (by decide) "u" (by decide)).kept hl hw fun r hr' => by
      rw [(hr r hr').1]
      exact (st.keeps hr' (hw r hr')).1
  | [y, z], e, hrun =>
    obtain ⟨e1, e2⟩ := List.cons.inj e
    obtain ⟨e3, e4⟩ := List.cons.inj e2
    obtain ⟨e5, -⟩ := List.cons.inj e4
    subst e1 e3 e5
    obtain ⟨W2, D2, s1, W3, D3, s2, hr⟩ := hrun
    have kk : ∀ r ∈ allRanks (⟨1, 1⟩ : Layout), Keeps (twoW r) (W1 r) ∧ D1 r = twoD r := fun r hr' => by
      rw [(hr r hr').1, (hr r hr').2]
      have k1 := s1.keeps hr' (hw r hr')
      exact ⟨k1.1.trans' (s2.keeps hr' k1.2).1, (s2.2 r hr').trans (s1.2 r hr')⟩
    have F := two_states.scatterFits
    refine ⟨windSv, fun _ => windRv 0, ?_⟩
    rw [(kk 0 h0).2]
    refine ⟨F.time, fun r hr' => ?_, F.send, fun v hv hne r hr' => ?_, fun v hv hne => ?_⟩
    · rw [(kk r ((cube_ranks _ r).1 hr')).2]
      exact F.nodup r hr'
    · rw [(kk r ((cube_ranks _ r).1 hr')).2]
      exact F.recv v hv hne r hr'
    · obtain ⟨dims, cells, hf⟩ := F.fits v hv hne
      exact ⟨dims, cells, hf.kept ((cube_ranks _ 0).2 h0) fun r hr' => (kk r ((cube_ranks _ r).1 hr')).1⟩
  | y :: z :: w :: pre, e, _ => exact absurd (congrArg List.length e) (by simp [stateCalls])

example (buf : Buffering) : ∃ (W' : Int → World Int) (D' : Int → Nat → HDict), SRun Mem.demo ⟨1, 1⟩ stateCalls twoW twoD W' D' ∧
    (statesNet Mem.demo ⟨1, 1⟩ stateCalls twoW twoD).Completes buf fun r => (.ok (), W' r, D' r) :=
  C87_session ⟨by decide, by decide, by decide, by decide⟩ rfl (fun r _ => twoW_reach r) stateCalls_ready buf

/-- With one outcome. -/
example : ∃ W' D', SRun Mem.demo ⟨1, 1⟩ stateCalls twoW twoD W' D' ∧ ∀ V E, SRun Mem.demo ⟨1, 1⟩ stateCalls twoW twoD V E →
    ∀ buf, ∃ (fin : Int → World Int) (dicts : Int → Nat → HDict),
      ((statesNet Mem.demo ⟨1, 1⟩ stateCalls twoW twoD).Completes buf fun r => (.ok (), fin r, dicts r)) ∧
      ∀ r ∈ allRanks ⟨1, 1⟩, fin r = V r ∧ dicts r = E r :=
  C87_one_outcome ⟨by decide, by decide, by decide, by decide⟩ rfl (fun r _ => twoW_reach r) stateCalls_ready

end Heap
end FV3
