import Verif.Props.Zarr
import Verif.Props.ZarrOpen
import Verif.Props.Restart
import Verif.Props.OpenRestart
import Verif.Props.Coupler
import Verif.Props.Units
import Verif.Props.Nudging
import Verif.Props.NudgingRounded
import Verif.Props.NudgingShape
import Verif.Props.CaptureStream
import Verif.Props.DummyComm
import Verif.Props.StateFile

/-!
# Concrete cases of the theorems about files, units, nudging, streams and the dummy communicator (C40 to C50)

Every `example` applies a theorem to concrete arguments, which shows that its hypotheses can be met.
-/

namespace FV3

/-! ### C40, C41 -/

namespace Zarr

example (buf buf' : Nat → Bool) (sched sched' : List Int) (A A' : World Nat (Py Unit)) :=
  C40_chunks_disjoint (enc := Int.toNat) (junk := fun _ => 0) (exRecording 3) (by decide) (buf := buf) (buf' := buf')
    (sched := sched) (sched' := sched') (A := A) (A' := A')
example (buf buf' : Nat → Bool) := C41_resume (enc := Int.toNat) (junk := fun _ => 0) buf buf' (exRecording 3) (by decide)
  (by decide) (exRecording 2) (by decide) .rPlus

end Zarr

/-! ### C42, C43 -/

namespace Restart

example := C42_builtin_overrides [("own", ⟨[.z], "o", "kg"⟩), ("x_wind", ⟨[.z], "q", "m"⟩)] exTable (by decide) "x_wind"
theorem case_inj : ∀ v w, v ∈ Dict.keys exFile → w ∈ Dict.keys exFile →
    nameOf (standardNames exTable) v = nameOf (standardNames exTable) w → v = w := fun v w hv hw =>
  (by decide +kernel : ∀ v ∈ Dict.keys exFile, ∀ w ∈ Dict.keys exFile,
      nameOf (standardNames exTable) v = nameOf (standardNames exTable) w → v = w) v hv w hw
example (da : DataArray Nat) := C42_names exFile (by decide) (standardNames exTable) (by decide +kernel) case_inj "air_temperature" da
theorem case_dims : ∀ v da, Dict.get? exFile v = some da → da.dims.length = da.data.shape.length := fun v da h =>
  (by decide +kernel : ∀ x ∈ exFile, x.2.dims.length = x.2.data.shape.length) _ (Dict.mem_of_get? h)
theorem case_time : HasTime exFile := by
  refine ⟨by decide, ⟨"Time", _, rfl, _, List.mem_singleton_self _, rfl⟩, fun v da k hv hk => ?_⟩
  have all : ∀ x ∈ exFile, ∀ k < 3, x.2.dims[k]? = some (.other "Time") → 0 < x.2.data.shape.getD k 0 := by decide +kernel
  have len : ∀ x ∈ exFile, x.2.dims.length ≤ 3 := by decide +kernel
  have hm := Dict.mem_of_get? hv
  have := (List.getElem?_eq_some_iff.1 hk).1
  exact all _ hm k (by have := len _ hm; dsimp only at this; omega) hk
example := C42_standard_name exTable (by decide)
  (by intro a b p q ha hb e
      have key : ∀ x ∈ exTable, ∀ y ∈ exTable, x.2.restartName = y.2.restartName → x.1 = y.1 := by decide +kernel
      exact key _ (Dict.mem_of_get? ha) _ (Dict.mem_of_get? hb) e) "T"
example := C42_load exFile (by decide) exTable (some ["own", "air_temperature"]) case_dims case_time
  (fun v w hv hw _ _ => case_inj v w hv hw)
  (by intro v da p hv _ hp
      have key : ∀ x ∈ exFile, ∀ p ∈ exTable, nameOf (standardNames exTable) x.1 = p.1 →
        (renamed (x.2.isel0 (.other "Time")).dims p.2.dims).Nodup := by decide +kernel
      exact key _ (Dict.mem_of_get? hv) _ (Dict.mem_of_get? hp) rfl)
/-- The file without the axis Time. -/
example := C42_no_time [("own", (⟨⟨[3], fun i => i.getD 0 0⟩, [.other "k"], some "kg"⟩ : DataArray Nat))] (by decide) exTable none
  (by intro v da h
      have := Dict.mem_of_get? h
      simp only [List.mem_singleton, Prod.mk.injEq] at this
      rw [this.2]; rfl)
  (Or.inl (by
    rintro ⟨v, da, h, hd⟩
    have := Dict.mem_of_get? h
    simp only [List.mem_singleton, Prod.mk.injEq] at this
    rw [this.2] at hd
    revert hd
    decide))
example := C42_shipped_dims "air_temperature" _ (by rfl)
example := C42_shadowed_lost exFile (by decide) shippedTable (by decide +kernel) "clear_sky_downward_longwave_flux_at_surface"
  (by rw [C42_shipped_shadowed]; decide) (by decide)

example := C43_suffix_text 4 13 (by decide) (by decide)
example (s : List Char) := C43_suffix_injective 4 13 14 (by decide) (by decide) (by decide) (by decide) (by decide) s
example := (C43_suffix_defined 24 13 (by decide) (by decide)).1 (by decide)
example := (C43_suffix_defined 25 13 (by decide) (by decide)).2 (by decide)
example := C43_filenames_distinct "RESTART".toList (some "20160801.001500".toList) (by intro l h; cases h; decide) 0 5 (by decide)
  (by decide) "fv_core.res".toList "sfc_data".toList (by decide) (by decide)
example := C43_filename "RESTART".toList (by decide) (by decide) 4 "fv_core.res".toList (by decide) "20160801.001500".toList (by decide)
example := C43_coupler_filename "RESTART".toList (by decide) (by decide) "20160801.001500".toList (by decide)

end Restart

/-! ### C44, C45 -/

namespace Coupler

theorem case_cons (n : Nat) {is : List Int} {text rest : List Char} (h : Ints is text rest) (ht : Boundary text) :
    Ints ((n : Int) :: is) (' ' :: (Nat.toDigits 10 n ++ text)) rest :=
  Ints.cons n is [' '] _ text rest (by decide) ⟨0, n, Or.inl ⟨rfl, rfl⟩⟩ ht h

theorem case_blank (t : List Char) : Boundary (' ' :: t) := Or.inr ⟨' ', t, rfl, by decide⟩

theorem case_text : Ints [] " Current model time".toList " Current model time".toList := Ints.nil _ (case_blank _)

local instance (l : List Char) : Decidable (OneLine l) := inferInstanceAs (Decidable ('\n' ∉ l))

theorem case_date : Ints [2016, 8, 3, 6, 0, 0] " 2016 8 3 6 0 0 Current model time".toList " Current model time".toList :=
  case_cons 2016 (case_cons 8 (case_cons 3 (case_cons 6 (case_cons 0 (case_cons 0 case_text (case_blank _))
  (case_blank _)) (case_blank _)) (case_blank _)) (case_blank _)) (case_blank _)

variable {D : Type} (construct : Calendar → Int → Int → Int → Int → Int → Int → Py D)

example := C44_parse construct _ "anything".toList _ "\nmore".toList _ _ 2 2016 8 3 6 0 0 .julian (by decide +kernel) (by decide)
  (by decide +kernel) (Or.inr ⟨_, rfl⟩) (case_cons 2 case_text (case_blank _)) rfl case_date
/-- Calendar 0, which the Fortran model calls "no calendar". -/
example := C44_unknown_calendar construct _ "anything".toList _ [] _ _ 0 2016 8 3 6 0 0 (by decide +kernel) (by decide)
  (by decide +kernel) (Or.inl rfl) (case_cons 0 case_text (case_blank _)) (by decide) case_date
/-- Only three numbers. -/
example := C44_too_short construct _ "anything".toList _ [] _ _ 2 [2016, 8, 3] (by decide +kernel) (by decide) (by decide +kernel)
  (Or.inl rfl) (case_cons 2 case_text (case_blank _))
  (case_cons 2016 (case_cons 8 (case_cons 3 (Ints.nil " ".toList (case_blank _)) (case_blank _)) (case_blank _)) (case_blank _))
  (by decide) (by decide)
example := C44_not_integer construct _ "anything".toList _ [] _ " ".toList "3.5".toList " x".toList 2 [2016, 8] (by decide +kernel)
  (by decide) (by decide +kernel) (Or.inl rfl) (case_cons 2 case_text (case_blank _))
  (case_cons 2016 (case_cons 8 (Ints.nil _ (case_blank _)) (case_blank _)) (case_blank _)) (by decide) (by decide) (by decide)
  (case_blank _) (by decide +kernel) (by decide)
example := C44_no_calendar construct "  ".toList "\n x".toList (by decide) (by decide) (Or.inr ⟨_, rfl⟩)
example := C44_bad_calendar construct " ".toList "julian".toList " x".toList "\n x".toList (by decide) (by decide) (by decide)
  (by decide) (case_blank _) (by decide +kernel) (Or.inr ⟨_, rfl⟩)

end Coupler

namespace Units

example := C45_blanks "m s^-1".toList "m/s".toList " ".toList "\n".toList "\t ".toList [] (by decide) (by decide) (by decide) (by decide)
example := C45_distinct "m s^-1".toList "m/s".toList (by decide) (by decide) (by decide)

end Units

/-! ### C46 -/

namespace Nudge

example := C46_missing [("T", exQ), ("p", exR)] [("T", exR)] [("T", 4), ("p", 3)] 2 "p" (by decide) (Or.inr (by decide))
example := C46_missing_key [("T", exQ), ("p", exR)] [("T", exR)] "p" 4 2 (Or.inr (by decide))

theorem case_nudged (τ dt : ℚ) : ∃ q', Nudged exQ exR q' τ dt := by
  obtain ⟨s', ts, e, _, _, h⟩ := C46_nudge [("T", exQ)] [("T", exR)] [("T", τ)] dt
    (by simp [Dict.keys]) (by
      intro name τ hτ
      simp only [Dict.get?] at hτ
      split at hτ
      · rename_i hn; subst hn
        exact ⟨exQ, exR, rfl, rfl, ex_matches⟩
      · cases hτ)
  obtain ⟨q, r, q', h1, h2, h3, N⟩ := (h "T").2 τ rfl
  cases h1; cases h2
  exact ⟨q', N⟩

theorem case_in : exQ.InCompute [1] := by unfold Quantity.InCompute Quantity.InDom; decide

/-- With the timestep equal to the timescale the first point becomes 10. -/
example : ∃ q', Nudged exQ exR q' 4 4 ∧ q'.data.get [1] = 10 := by
  obtain ⟨q', N⟩ := case_nudged 4 4
  exact ⟨q', N, C46_reaches exQ exR q' 4 (by decide) N [1] (by decide) case_in⟩
example : ∃ q', Nudged exQ exR q' 4 2 ∧ 1 ≤ q'.data.get [1] ∧ q'.data.get [1] ≤ 10 := by
  obtain ⟨q', N⟩ := case_nudged 4 2
  have h := C46_between exQ exR q' 4 2 (by decide) (by decide) (by decide) N [1] (by decide) case_in
  have h1 : min (1 : ℚ) 10 ≤ q'.data.get [1] ∧ q'.data.get [1] ≤ max (1 : ℚ) 10 := h
  exact ⟨q', N, by simpa using h1⟩
example : ∃ q', Nudged exQ exR q' 4 2 ∧ 10 - q'.data.get [1] = (1 - 2 / 4) * (10 - 1) := by
  obtain ⟨q', N⟩ := case_nudged 4 2
  exact ⟨q', N, C46_contracts exQ exR q' 4 2 (by decide) N [1] (by decide) case_in⟩
/-- A scalar is assigned although the call fails. -/
example := C46_scalar_limit "c" "K" (1 : ℚ) 10 4 2 [("T", 4)] [("T", exQ), ("c", ⟨⟨[], fun _ => 1⟩, [], "K", [], []⟩)]
  [("c", ⟨⟨[], fun _ => 10⟩, [], "K", [], []⟩), ("T", exR)] rfl rfl ⟨_, rfl⟩

theorem case_rounded (fl : ℚ → ℚ) (τ dt : Rounded fl) (r : Quantity (Rounded fl)) (hr : Matches (exRoundedQ fl) r) :
    ∃ q', Nudged (exRoundedQ fl) r q' τ dt := by
  obtain ⟨s', ts, e, _, _, h⟩ := C46_nudge [("T", exRoundedQ fl)] [("T", r)] [("T", τ)] dt
    (by simp [Dict.keys]) (by
      intro name τ hτ
      simp only [Dict.get?] at hτ
      split at hτ
      · rename_i hn; subst hn
        exact ⟨exRoundedQ fl, r, rfl, rfl, hr⟩
      · cases hτ)
  obtain ⟨q, r, q', h1, h2, h3, N⟩ := (h "T").2 τ rfl
  cases h1; cases h2
  exact ⟨q', N⟩

theorem case_rounded_matches (fl : ℚ → ℚ) (v : ℚ) :
    Matches (exRoundedQ fl) ⟨⟨[2], fun _ => ⟨v⟩⟩, [.x], "K", [0], [2]⟩ :=
  ⟨⟨⟨rfl, rfl, rfl⟩, (ex_matches.wf).2⟩, ⟨⟨rfl, rfl, rfl⟩, (ex_matches.ref).2⟩, by show 0 < 1; decide, rfl⟩

theorem case_rounded_in (fl : ℚ → ℚ) : (exRoundedQ fl).InCompute [1] := case_in

/-- In double precision: no step, a step towards the reference, and a larger reference. -/
example : ∃ fl, Nearest Double fl ∧ ∃ q', Nudged (exRoundedQ fl) (exRoundedR fl) q' ⟨49⟩ ⟨0⟩ ∧ (q'.data.get [1]).val = 0 := by
  obtain ⟨fl, hfl, -⟩ := exists_nearest_double
  obtain ⟨q', N⟩ := case_rounded fl ⟨49⟩ ⟨0⟩ _ (case_rounded_matches fl 1)
  exact ⟨fl, hfl, q', N, C46_rounded_zero hfl _ _ q' _ _ N [1] (by show InB [4] [1]; decide) (case_rounded_in fl)
    ⟨0, 0, by norm_num, by show |(0 : ℚ)| = _; norm_num⟩ rfl⟩
example : ∃ fl, Nearest Double fl ∧ ∃ q', Nudged (exRoundedQ fl) (exRoundedR fl) q' ⟨49⟩ ⟨3⟩ ∧ 0 ≤ (q'.data.get [1]).val := by
  obtain ⟨fl, hfl, -⟩ := exists_nearest_double
  obtain ⟨q', N⟩ := case_rounded fl ⟨49⟩ ⟨3⟩ _ (case_rounded_matches fl 1)
  exact ⟨fl, hfl, q', N, (C46_rounded_towards hfl _ _ q' _ _ (by norm_num) (by norm_num) N [1] (by show InB [4] [1]; decide)
    (case_rounded_in fl) ⟨0, 0, by norm_num, by show |(0 : ℚ)| = _; norm_num⟩).1 (by show (0 : ℚ) ≤ 1; norm_num)⟩
example : ∃ fl, Nearest Double fl ∧ ∃ q' q2',
    Nudged (exRoundedQ fl) ⟨⟨[2], fun _ => ⟨1⟩⟩, [.x], "K", [0], [2]⟩ q' ⟨49⟩ ⟨3⟩ ∧
    Nudged (exRoundedQ fl) ⟨⟨[2], fun _ => ⟨2⟩⟩, [.x], "K", [0], [2]⟩ q2' ⟨49⟩ ⟨3⟩ ∧
    (q'.data.get [1]).val ≤ (q2'.data.get [1]).val := by
  obtain ⟨fl, hfl, -⟩ := exists_nearest_double
  obtain ⟨q', N⟩ := case_rounded fl ⟨49⟩ ⟨3⟩ _ (case_rounded_matches fl 1)
  obtain ⟨q2', N2⟩ := case_rounded fl ⟨49⟩ ⟨3⟩ _ (case_rounded_matches fl 2)
  exact ⟨fl, hfl, q', q2', N, N2, C46_rounded_monotone hfl _ _ q' _ q2' _ _ (by norm_num) (by norm_num) N N2 [1]
    (by show InB [4] [1]; decide) (case_rounded_in fl) (by show (1 : ℚ) ≤ 2; norm_num)⟩
/-- Exact arithmetic is a rounding with relative error 0. -/
example : ∃ q', Nudged (exRoundedQ id) (exRoundedR id) q' ⟨49⟩ ⟨3⟩ ∧ |(q'.data.get [1]).val - (0 + 3 / 49)| ≤ 0 := by
  obtain ⟨q', N⟩ := case_rounded id ⟨49⟩ ⟨3⟩ _ (case_rounded_matches id 1)
  refine ⟨q', N, ?_⟩
  have := C46_rounded_error (fl := id) (u := 0) le_rfl (by intro x; simp) _ _ q' _ _ N [1] (by show InB [4] [1]; decide)
    (case_rounded_in id) 0 1 (3 / 49) rfl rfl (by norm_num)
  simpa using this

example := C46_broadcast [("t", exShape [2, 3] [.y, .x] fun _ => 0)] [("t", exShape [2, 1] [.y, .x] fun i => 2 * i.getD 0 0)]
  [("t", 2)] 1 (by decide) (by
    intro name τ h
    simp only [Dict.get?] at h
    split at h
    · next e => subst e; exact ⟨_, _, rfl, rfl, exShape_wf.1, exShape_wf.2, by decide, by decide, (fits_iff _ _).1 (by decide)⟩
    · cases h)

end Nudge

/-! ### C47, C48, C50 -/

namespace Capture

example := C47_capture exProg (by simp [exProg, Prog.Calm]) exFS exFS_ok (by simp [exProg, Prog.Uses, exFS])
example := C47_exception exFS exFS_ok 1 0 rfl [7, 8]
example := C47_leak exFS exFS_ok 2 0 rfl

end Capture

namespace Dummy

/-- Array 1 of rank 1 receives the second of two messages, sent with the value the array of rank 0 had then. -/
example := C48_delivery (α := Int) [.create ⟨[1], fun _ => 3⟩, .create ⟨[1], fun _ => 0⟩, .send 0 1 0, .mutate 0 ⟨[1], fun _ => 4⟩,
  .send 0 1 0, .recv 1 0 1] 1 0 1 (by decide +kernel)

example := C48_gather 3 [(0, 1, "a"), (0, 2, "b"), (0, 1, "c")] 0 (by decide) "d"

end Dummy

namespace StateFile

example := C50_roundtrip .ok exState exState_writable (fun _ _ _ _ _ => rfl) 5 rfl "f" []
example := C50_no_time (T := Nat) .ok { exState with time := none } rfl "f" []
example := C50_error_files (T := Nat) .ok { exState with time := none } "f" [("g", .whole (exTimes ["time"]))]
  [("g", .whole (exTimes ["time"]))] .valueError
  (C50_no_time (T := Nat) .ok { exState with time := none } rfl "f" _)
example := C50_coordinate_lost (T := Nat) (⟨⟨[2], fun i => i.getD 0 0⟩, [.other "pfull"], "Pa", [0], [2]⟩ : Quantity Nat)
  ⟨⟨rfl, rfl, rfl⟩, by unfold Quantity.ndim Quantity.o Quantity.e Quantity.n; decide⟩ "pfull" rfl (by decide) 5 "f" []
example := C50_missing_file (α := Nat) (T := Nat) "f" [("g", .whole (exTimes ["time"]))] rfl

end StateFile
end FV3
