import Verif.Props.FieldModelExample

/-!
# A concrete case of C65: the same program on two layouts

A scalar field with 6 × 6 cells on each tile, on 24 ranks with 3 × 3 cells and on 6 ranks with 6 × 6 cells.  The program: update
the halo, take the value of the next cell (which may be on another tile), update the halo again.
-/

namespace FV3
variable {α : Type} [Neg α]

def caseSlot : Slot := ⟨0, none, 0, 1, 1⟩

noncomputable def caseΦ : Fields α → Fields α := fun W _ P o _ => nextField 6 (fun P o => W 0 P o ⟨0, 0, 0⟩) P o

/-- The levels of the scalar and of everything else. -/
def caseLv (a b : Level) (i : Nat) : Level := if i = 0 then a else b

noncomputable def caseSteps : List (MStep α) :=
  [.update caseSlot, .compute exNext caseΦ (caseLv .halo .nothing) (caseLv .compute .compute), .update caseSlot]

theorem case_computes {l : Layout} (hl : FloatSafe l) (hsq : l.y = l.x) {n : Nat} (hn : 1 ≤ n) (hN : l.x * n = (6 : Nat)) (z : α) :
    Computes l n [caseSlot] (exRunMem n z) exNext caseΦ (caseLv .halo .nothing) (caseLv .compute .compute) := by
  have S := exRun_stencil (α := α) hl hsq hn hN z 0
  refine ⟨S.same, ?_, ?_⟩
  · intro W _ s hs hy
    simp only [List.mem_cons, List.not_mem_nil, or_false] at hs
    subst hs
    exact absurd rfl hy
  · intro r hr mem W hm hW hH s hs c hc
    simp only [List.mem_cons, List.not_mem_nil, or_false] at hs
    subst hs
    simp only [caseSlot, Slot.comps, List.mem_cons, List.not_mem_nil, or_false] at hc
    subst hc
    have h0 := hH caseSlot (by simp) (0, .scalar) (by simp [caseSlot, Slot.comps])
    have st := S.value r hr mem (fun P o => W 0 P o ⟨0, 0, 0⟩) hm h0
    intro idx t a b hat hc _
    have H : HaloReady (exNext r mem 0) 0 1 n 1 :=
      SameMeta.haloReady (S.same r mem hm 0) ((exRun_setup hl hsq hn hN (by decide) z (fun _ _ => z) 0).field.ready r hr)
    have i := inside_of_ready (m := fun _ _ => exNext r mem 0) (l := l) hl.xpos hsq (by omega) H hat hc
    rw [(fold_inside i .scalar).1, (fold_inside i .scalar).2]
    exact st idx t a b hat hc

theorem case_good {l : Layout} (hl : FloatSafe l) (hsq : l.y = l.x) {n : Nat} (hn : 1 ≤ n) (hN : l.x * n = (6 : Nat)) (z : α) :
    ∀ a ∈ caseSteps, a.Good l n [caseSlot] (exRunMem n z) := by
  intro a ha
  simp only [caseSteps, List.mem_cons, List.not_mem_nil, or_false] at ha
  rcases ha with rfl | rfl | rfl
  · exact List.mem_singleton.2 rfl
  · exact case_computes hl hsq hn hN z
  · exact List.mem_singleton.2 rfl

omit [Neg α] in
theorem case_fields {l : Layout} (hl : FloatSafe l) (hsq : l.y = l.x) {n : Nat} (hn : 1 ≤ n) (hN : l.x * n = (6 : Nat)) (z : α) :
    FieldsOf l n [caseSlot] (exRunMem n z) := by
  refine ⟨by decide, fun s hs => ?_, fun s hs => ?_⟩
  · rw [List.mem_singleton.1 hs]
    exact ⟨by decide, by show (1 : Int) ≤ n; omega⟩
  · rw [List.mem_singleton.1 hs]
    exact (exRun_setup hl hsq hn hN (by decide) z (fun _ _ => z) 0).field

/-- All global quantities are fields on the cells. -/
def caseParts (n : Nat) : Nat → Parts := fun _ => ⟨[.y, .x], [n, n]⟩

/-- The field to start with is global quantity 10. -/
def caseGlob (F : Vec3 → (Nat → Int) → α) (r : Int) (g : Nat) : Option (Quantity α) :=
  if r = 0 ∧ g = 10 then some (exRunG 6 F) else none

omit [Neg α] in
theorem case_glob {l : Layout} (hl : FloatSafe l) (hsq : l.y = l.x) {n : Nat} (hn : 1 ≤ n) (hN : l.x * n = (6 : Nat)) (z : α)
    (F : Vec3 → (Nat → Int) → α) (g : Nat) (v : Quantity α) (h : caseGlob F 0 g = some v) :
    v.GlobalShaped (.cube l) (caseParts n g).dims (caseParts n g).cells := by
  unfold caseGlob at h
  split at h
  · cases h
    exact (exRun_setup hl hsq hn hN (by decide) z F 0).globl
  · cases h

omit [Neg α] in
theorem case_state {l : Layout} (hl : FloatSafe l) (hsq : l.y = l.x) {n : Nat} (hn : 1 ≤ n) (hN : l.x * n = (6 : Nat)) (z : α)
    (g : Nat) : StateOf l n (exRunMem n z) (caseParts n) [caseSlot] [⟨"t", 0, g⟩] := by
  have R := exRun_setup hl hsq hn hN (by decide) z (fun _ _ => z) 0
  refine ⟨⟨by simp, by simp⟩, by simp, by simp, ?_, ?_⟩
  · intro v hv
    rw [List.mem_singleton.1 hv]
    refine ⟨⟨0, 1, R.axes⟩, ?_, R.names, R.shaped⟩
    intro k hk
    have hk : k < 2 := hk
    have hN : l.x * (n : Int) < 2 ^ 51 := by rw [hN]; decide
    have : k = 0 ∨ k = 1 := by omega
    rcases this with rfl | rfl
    · show (n : Int) * l.y < 2 ^ 51
      rw [hsq, Int.mul_comm]; exact hN
    · show (n : Int) * l.x < 2 ^ 51
      rw [Int.mul_comm]; exact hN
  · intro v hv s hs _ _
    rw [List.mem_singleton.1 hs]
    exact ⟨rfl, rfl⟩

omit [Neg α] in
theorem case_start {l : Layout} (hl : FloatSafe l) (hsq : l.y = l.x) {n : Nat} (hn : 1 ≤ n) (hN : l.x * n = (6 : Nat)) (z : α)
    (F : Vec3 → (Nat → Int) → α) : StateHolds l n (caseParts n) [caseSlot] [⟨"t", 0, 10⟩] (caseGlob F 0) (fun _ P o _ => F P o) := by
  intro v hv
  rw [List.mem_singleton.1 hv]
  refine ⟨_, rfl, case_glob hl hsq hn hN z F 10 _ rfl, fun s hs c hc => ?_⟩
  rw [List.mem_singleton.1 hs] at hc ⊢
  simp only [caseSlot, Slot.comps, List.mem_cons, List.not_mem_nil, or_false, Prod.mk.injEq] at hc
  rw [hc.2]
  intro q P o h
  rw [hN] at h
  exact exRun_sample 6 F q P o h

omit [Neg α] in
theorem case_levels : Levels (α := α) (caseLv .halo .compute) (caseLv .compute .compute) caseSteps := by
  refine ⟨rfl, fun i => ?_, rfl, ?_⟩
  · show (raiseTo (caseLv .compute .compute) 0 .halo i).AtLeast (caseLv .halo .nothing i) = true
    unfold raiseTo caseLv
    split <;> rfl
  · funext i
    show _ = raiseTo (caseLv .compute .compute) 0 .halo i
    unfold raiseTo caseLv
    split <;> rfl

theorem case_same : SameGlobal ⟨2, 2⟩ ⟨1, 1⟩ (caseParts 3 20) (caseParts 6 20) := by
  have R2 := exRun_setup (C05_safe_up_to_48 ⟨2, 2⟩ (by decide) (by decide) (by decide) (by decide)) rfl (n := 3) (N := 6) (by decide)
    (by decide) (by decide) (0 : Int) (fun _ _ => 0) 0
  have R1 := exRun_setup (C05_safe_up_to_48 ⟨1, 1⟩ (by decide) (by decide) (by decide) (by decide)) rfl (n := 6) (N := 6) (by decide)
    (by decide) (by decide) (0 : Int) (fun _ _ => 0) 0
  exact ⟨rfl, _, R2.globl.extent, R1.globl.extent⟩

/-- The run on 24 ranks gathers the same field as the run on 6 ranks. -/
example (buf buf' : Buffering) (z : α) (F : Vec3 → (Nat → Int) → α) :
    ∃ fin fin' : Int → SessState α,
      (statesNet ⟨2, 2⟩ (fun _ _ => z) (modelRun 0 1 2 [⟨"t", 0, 10⟩] [⟨"t", 0, 20⟩] caseSteps) (exRunMem 3 z) (caseGlob F)
        (fun _ _ => none) (fun _ _ => none)).Completes buf (fun r =>
        if r ∈ allRanks ⟨2, 2⟩ then some (.ok (fin r)) else none) ∧
      (statesNet ⟨1, 1⟩ (fun _ _ => z) (modelRun 0 1 2 [⟨"t", 0, 10⟩] [⟨"t", 0, 20⟩] caseSteps) (exRunMem 6 z) (caseGlob F)
        (fun _ _ => none) (fun _ _ => none)).Completes buf' (fun r =>
        if r ∈ allRanks ⟨1, 1⟩ then some (.ok (fin' r)) else none) ∧
      ∃ w w', (fin 0).s.glob 20 = some w ∧ (fin' 0).s.glob 20 = some w' ∧ w.computeArr.Eqv w'.computeArr := by
  have s2 : FloatSafe ⟨2, 2⟩ := C05_safe_up_to_48 _ (by decide) (by decide) (by decide) (by decide)
  have s1 : FloatSafe ⟨1, 1⟩ := C05_safe_up_to_48 _ (by decide) (by decide) (by decide) (by decide)
  have hf : LevelsFrom [caseSlot] [⟨"t", 0, 10⟩] (caseLv .compute .compute) := by
    intro s hs
    rw [List.mem_singleton.1 hs]
    exact .inr ⟨rfl, by decide⟩
  have ht : LevelsFor [caseSlot] [⟨"t", 0, 20⟩] (caseLv .halo .compute) := by
    intro v _ s hs c _
    rw [List.mem_singleton.1 hs]
    rfl
  obtain ⟨fin, fin', h1, h2, h3⟩ := C65_same_on_every_layout s2 s1 rfl rfl buf buf' (fun _ _ => z) (fun _ _ => z)
    (n := (3 : Nat)) (n' := (6 : Nat)) (by decide) (case_fields s2 rfl (by decide) (by decide) z)
    (case_fields s1 rfl (by decide) (by decide) z) (caseGlob F) (caseGlob F) (fun _ _ => none) (fun _ _ => none)
    (fun _ _ => none) (fun _ _ => none) (case_glob s2 rfl (by decide) (by decide) z F)
    (case_glob s1 rfl (by decide) (by decide) z F) 0 1 2 (case_state s2 rfl (by decide) (by decide) z 10)
    (case_state s2 rfl (by decide) (by decide) z 20) (case_state s1 rfl (by decide) (by decide) z 10)
    (case_state s1 rfl (by decide) (by decide) z 20) (fun v hv => by rw [List.mem_singleton.1 hv]; exact case_same)
    (W := fun _ P o _ => F P o) (fun s hs hy => absurd (by rw [List.mem_singleton.1 hs]; rfl) hy)
    (case_start s2 rfl (by decide) (by decide) z F) (case_start s1 rfl (by decide) (by decide) z F) hf ht hf ht caseSteps caseSteps
    (case_good s2 rfl (by decide) (by decide) z) (case_good s1 rfl (by decide) (by decide) z) case_levels case_levels rfl
  exact ⟨fin, fin', h1, h2, h3 ⟨"t", 0, 20⟩ (by simp) ⟨caseSlot, by simp, .scalar, by simp [caseSlot, Slot.comps]⟩⟩

end FV3
