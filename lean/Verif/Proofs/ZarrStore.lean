import Verif.Proofs.ZarrTime
import Verif.Proofs.Dict
import Verif.Spec.Zarr

/-!
# Storing states, one after the other
-/

namespace FV3
namespace Zarr
variable {α : Type}

/-- Rank 0 chooses the collectives (with signatures `exp`), the others follow. -/
def Follows (r : Int) (exp : List Sig) (P : List GItem → Prop) : Prop :=
  if r = 0 then ∃ gs, gs.map sig = exp ∧ P gs else ∀ gs, gs.map sig = exp → P gs

theorem Follows.nil {r : Int} {P : List GItem → Prop} (h : P []) : Follows r [] P := by
  unfold Follows
  split_ifs
  · exact ⟨[], rfl, h⟩
  · intro gs hgs
    rw [List.map_eq_nil_iff] at hgs
    subst hgs
    exact h

theorem Follows.seq {r : Int} {e1 e2 : List Sig} {P1 P : List GItem → Prop} (h1 : Follows r e1 P1)
    (h2 : ∀ gs1, P1 gs1 → Follows r e2 fun gs2 => P (gs1 ++ gs2)) : Follows r (e1 ++ e2) P := by
  unfold Follows at *
  split_ifs at *
  · obtain ⟨gs1, hs1, hp1⟩ := h1
    obtain ⟨gs2, hs2, hp2⟩ := h2 gs1 hp1
    exact ⟨gs1 ++ gs2, by rw [List.map_append, hs1, hs2], hp2⟩
  · intro gs hgs
    rw [List.map_eq_append_iff] at hgs
    obtain ⟨gs1, gs2, rfl, hs1, hs2⟩ := hgs
    exact h2 gs1 (h1 gs1 hs1) gs2 hs2

theorem Follows.mono {r : Int} {e : List Sig} {P P' : List GItem → Prop} (h : Follows r e P) (hP : ∀ gs, P gs → P' gs) :
    Follows r e P' := by
  unfold Follows at *
  split_ifs at *
  · obtain ⟨gs, hs, hp⟩ := h
    exact ⟨gs, hs, hP gs hp⟩
  · intro gs hs
    exact hP gs (h gs hs)

theorem Follows.sigs {r : Int} {e : List Sig} {P : List GItem → Prop} (h : Follows r e P) :
    Follows r e fun gs => gs.map sig = e ∧ P gs := by
  unfold Follows at *
  split_ifs at *
  · obtain ⟨gs, hs, hp⟩ := h
    exact ⟨gs, hs, hs, hp⟩
  · intro gs hs
    exact ⟨hs, h gs hs⟩

/-- Only array `name` is different. -/
def Only (name : String) (L L' : Store α) : Prop :=
  ∀ nm, nm ≠ name → L'.infos nm = L.infos nm ∧ L'.chunks nm = L.chunks nm

/-- An invariant about the writer of `name` and about the array `name` only. -/
def Local (inv : String → Nat → Writer → Store α → Prop) : Prop :=
  ∀ name t w L L', inv name t w L → L'.infos name = L.infos name → L'.chunks name = L.chunks name → inv name t w L'

section
variable (own : String → List Nat → Int) (r : Int) (l : Layout) (enc : Int → α) (junk : List Nat → α)
  (inv : String → Nat → Writer → Store α → Prop) (sigs : String → Nat → List Sig)

/-- Appending the entry of step `t`; `J L` holds in the states on the way, if `L` is the first. -/
def AppendOkI (J : String → Nat → Store α → Store α → Prop) (s : State α) (name : String) (t : Nat) : Prop :=
  ∃ e, s.get? name = some e ∧ ∀ L, (∃ w, inv name t w L) → Follows r (sigs name t) fun gs =>
    ∃ n L', Only name L L' ∧ (∃ w, inv name (t + 1) w L') ∧ ∀ w, inv name t w L →
      RunsI own (fun L1 _ => J name t L L1) r (OkPost fun _ w' => inv name (t + 1) w' L') L'
        (appendEntry l enc junk r name e w) n L [] gs

/-- The same, with nothing said about the states on the way. -/
def AppendOk (s : State α) (name : String) (t : Nat) : Prop :=
  ∃ e, s.get? name = some e ∧ ∀ L, (∃ w, inv name t w L) → Follows r (sigs name t) fun gs =>
    ∃ n L', Only name L L' ∧ (∃ w, inv name (t + 1) w L') ∧ ∀ w, inv name t w L →
      Runs own r (OkPost fun _ w' => inv name (t + 1) w' L') L' (appendEntry l enc junk r name e w) n L [] gs

/-- A part of a recording: step and variable. -/
abbrev Slot := Nat × String

/-- `Good pre c` holds in a state in which the slots `pre` are complete and slot `c` has perhaps been begun. -/
structure Tracks (J : String → Nat → Store α → Store α → Prop) (Good : List Slot → Option Slot → Store α → Prop) : Prop where
  more : ∀ pre c L, Good pre none L → Good pre c L
  during : ∀ pre name t L L1, Good pre none L → (∀ s ∈ pre, s.2 = name → s.1 < t) → J name t L L1 →
    Good pre (some (t, name)) L1
  after : ∀ pre name t L L', Good pre none L → (∀ s ∈ pre, s.2 = name → s.1 < t) → J name t L L' →
    (∃ w, inv name t w L) → (∃ w, inv name (t + 1) w L') → Only name L L' → Good (pre ++ [(t, name)]) none L'

/-- In the middle of the slots `seg`, those of `pre0` being complete: the collectives still to come are those of the
slots not yet begun, and perhaps some of the slot begun. -/
def Amid (Good : List Slot → Option Slot → Store α → Prop) (pre0 seg : List Slot) (L : Store α) (gs : List GItem) : Prop :=
  ∃ pre post, seg = pre ++ post ∧ (post.tail.flatMap fun s => sigs s.2 s.1).length ≤ gs.length ∧
    gs.length ≤ (post.flatMap fun s => sigs s.2 s.1).length ∧ Good (pre0 ++ pre) post.head? L

/-- The arrays: at step `t` those in `todo`, one step further the other ones. -/
def Arrays (all : List String) (todo : List String) (t : Nat) (L : Store α) : Prop :=
  ∀ name ∈ all, ∃ w, inv name (if name ∈ todo then t else t + 1) w L

/-- The writers of these. -/
structure Writers (all : List String) (todo : List String) (t : Nat) (ws : Dict String Writer) (L : Store α) : Prop where
  keys : ∀ name, name ∈ ws.keys ↔ name ∈ all
  inv : ∀ name ∈ all, ∃ w, ws.get? name = some w ∧ inv name (if name ∈ todo then t else t + 1) w L

variable {own r l enc junk inv sigs} {J : String → Nat → Store α → Store α → Prop}
  {Good : List Slot → Option Slot → Store α → Prop}

theorem AppendOk.I {s : State α} {name : String} {t : Nat} (h : AppendOk own r l enc junk inv sigs s name t) :
    AppendOkI own r l enc junk inv sigs (fun _ _ _ _ => True) s name t := by
  obtain ⟨e, he, h⟩ := h
  refine ⟨e, he, fun L hL => (h L hL).mono ?_⟩
  rintro gs ⟨n, L', h1, h2, h3⟩
  exact ⟨n, L', h1, h2, fun w hw => h3 w hw⟩

theorem AppendOkI.weaken {own' : String → List Nat → Int} {J' : String → Nat → Store α → Store α → Prop} {s : State α}
    {name : String} {t : Nat} (h : AppendOkI own r l enc junk inv sigs J s name t)
    (ho : ∀ name ci, own name ci = r → own' name ci = r)
    (hJ : ∀ L L1 L', (∃ w, inv name t w L) → (∃ w, inv name (t + 1) w L') → Only name L L' → Between own r L L1 L' →
      J name t L L1 → J' name t L L1) : AppendOkI own' r l enc junk inv sigs J' s name t := by
  obtain ⟨e, he, h⟩ := h
  refine ⟨e, he, fun L hL => (h L hL).mono ?_⟩
  rintro gs ⟨n, L', h1, h2, h3⟩
  exact ⟨n, L', h1, h2, fun w hw => (h3 w hw).between.weaken ho
    (fun L1 g hh => hJ L L1 L' ⟨w, hw⟩ h2 h1 hh.2 hh.1) fun _ h => h⟩

theorem AppendOkI.free {s : State α} {name : String} {t : Nat} (h : AppendOkI own r l enc junk inv sigs J s name t) :
    AppendOk own r l enc junk inv sigs s name t := by
  obtain ⟨e, he, h⟩ := h
  refine ⟨e, he, fun L hL => (h L hL).mono ?_⟩
  rintro gs ⟨n, L', h1, h2, h3⟩
  exact ⟨n, L', h1, h2, fun w hw => (h3 w hw).free⟩

theorem Tracks.trivial : Tracks inv (fun _ _ _ _ => True) fun (_ : List Slot) _ (_ : Store α) => True :=
  ⟨fun _ _ _ _ => True.intro, fun _ _ _ _ _ _ _ _ => True.intro, fun _ _ _ _ _ _ _ _ _ _ _ => True.intro⟩

theorem Amid.left (ht : Tracks inv J Good) {pre0 seg1 seg2 : List Slot} {L : Store α} {g gs : List GItem}
    (h : Amid sigs Good pre0 seg1 L g) (hg : gs.map sig = seg2.flatMap fun s => sigs s.2 s.1) :
    Amid sigs Good pre0 (seg1 ++ seg2) L (g ++ gs) := by
  have hlen : (seg2.flatMap fun s => sigs s.2 s.1).length = gs.length := by rw [← hg, List.length_map]
  obtain ⟨pre, post, rfl, hl, hu, hgood⟩ := h
  refine ⟨pre, post ++ seg2, by rw [List.append_assoc], ?_, ?_, ?_⟩
  · rw [List.length_append]
    cases post with
    | nil =>
      rw [List.nil_append]
      cases seg2 with
      | nil => simp
      | cons a seg2 =>
        rw [List.flatMap_cons, List.length_append] at hlen
        rw [List.tail_cons]
        omega
    | cons a post =>
      rw [List.cons_append, List.tail_cons, List.flatMap_append, List.length_append]
      rw [List.tail_cons] at hl
      omega
  · rw [List.length_append, List.flatMap_append, List.length_append]
    omega
  · cases post with
    | nil => exact ht.more _ _ _ hgood
    | cons a post => exact hgood

theorem Amid.right {pre0 seg1 seg2 : List Slot} {L : Store α} {g : List GItem}
    (h : Amid sigs Good (pre0 ++ seg1) seg2 L g) : Amid sigs Good pre0 (seg1 ++ seg2) L g := by
  obtain ⟨pre, post, rfl, hl, hu, hgood⟩ := h
  exact ⟨seg1 ++ pre, post, by rw [List.append_assoc], hl, hu, by rw [← List.append_assoc]; exact hgood⟩

theorem Amid.one {pre0 : List Slot} {s : Slot} {L : Store α} {g : List GItem} (h : Good pre0 (some s) L)
    (hu : g.length ≤ (sigs s.2 s.1).length) : Amid sigs Good pre0 [s] L g :=
  ⟨[], [s], rfl, by simp, by simpa using hu, by rw [List.append_nil]; exact h⟩

theorem Amid.none {pre0 : List Slot} {L : Store α} (h : Good pre0 none L) :
    Amid sigs Good pre0 [] L [] :=
  ⟨[], [], rfl, by simp, by simp, by rw [List.append_nil]; exact h⟩

theorem storeLoop_runsI (hloc : Local inv) (htr : Tracks inv J Good) {s : State α} {t : Nat} {all : List String}
    (happ : ∀ name ∈ all, AppendOkI own r l enc junk inv sigs J s name t) :
    ∀ (todo : List String), (∀ name ∈ todo, name ∈ all) → todo.Nodup → ∀ (L : Store α),
      Arrays inv all todo t L → ∀ pre0, Good pre0 none L → (∀ s ∈ pre0, s.2 ∈ todo → s.1 < t) → Follows r (todo.flatMap fun name => sigs name t) fun gs =>
        ∃ n L', Arrays inv all [] t L' ∧ Good (pre0 ++ todo.map fun name => (t, name)) none L' ∧ ∀ ws, Writers inv all todo t ws L →
          RunsI own (Amid sigs Good pre0 (todo.map fun name => (t, name))) r (fun x => x.1 = .ok () ∧ Writers inv all [] t x.2 L') L'
            (storeLoop l enc junk r s todo ws) n L [] gs
  | [], _, _, L, hL, pre0, hg, hp => Follows.nil ⟨0, L, hL, by simpa using hg, fun ws hws =>
      have : Sat (Amid sigs Good pre0 (List.map (fun name => (t, name)) [])) L [] := ⟨Amid.none hg⟩
      .ret ⟨rfl, hws⟩⟩
  | name :: todo, hall, hnd, L, hL, pre0, hg, hp => by
    have hin := hall name (List.mem_cons_self ..)
    obtain ⟨e, he, hstep⟩ := happ name hin
    have hi := hL name hin
    rw [if_pos (List.mem_cons_self ..)] at hi
    rw [List.flatMap_cons]
    obtain ⟨hnin, hnd'⟩ := List.nodup_cons.1 hnd
    have hif : ∀ nm, nm ≠ name → (if nm ∈ name :: todo then t else t + 1) = if nm ∈ todo then t else t + 1 := by
      intro nm h; simp [h]
    have hp1 : ∀ s ∈ pre0, s.2 = name → s.1 < t := fun s hs he => hp s hs (by rw [he]; exact List.mem_cons_self ..)
    refine (hstep L hi).sigs.seq ?_
    rintro gs1 ⟨hsig1, n1, L1, honly, hex, hrun1⟩
    have hg1 : Good (pre0 ++ [(t, name)]) none L1 := by
      obtain ⟨w, hw⟩ := hi
      exact htr.after _ _ _ _ _ hg hp1 (hrun1 w hw).last ⟨w, hw⟩ hex honly
    have hL1 : Arrays inv all todo t L1 := by
      intro nm hnm
      by_cases h : nm = name
      · subst h
        rw [if_neg hnin]
        exact hex
      · obtain ⟨w0, hi0⟩ := hL nm hnm
        rw [hif nm h] at hi0
        exact ⟨w0, hloc _ _ _ _ _ hi0 (honly nm h).1 (honly nm h).2⟩
    refine (storeLoop_runsI hloc htr happ todo (fun nm h => hall nm (List.mem_cons_of_mem _ h)) hnd' L1 hL1
      (pre0 ++ [(t, name)]) hg1 ?_).sigs.mono ?_
    · intro s hs hm
      rcases List.mem_append.1 hs with hs | hs
      · exact hp s hs (List.mem_cons_of_mem _ hm)
      · rw [List.mem_singleton] at hs
        subst hs
        exact absurd hm hnin
    rintro gs2 ⟨hsig, n2, L2, hL2, hg2, hrun2⟩
    refine ⟨n1 + n2, L2, hL2, by rw [List.map_cons]; simpa using hg2, ?_⟩
    intro ws hws
    have hmem : name ∈ ws.keys := (hws.keys name).2 hin
    obtain ⟨w, hw, hiw⟩ := hws.inv name hin
    rw [if_pos (List.mem_cons_self ..)] at hiw
    rw [storeLoop, he, hw]
    refine (hrun1 w hiw).shorter.bindI (fun L g hJ => ?_) ?_
    · exact Amid.left htr (Amid.one (htr.during _ _ _ _ _ hg hp1 hJ.1)
        (by rw [← hsig1, List.length_map]; exact hJ.2)) (by rw [hsig, List.flatMap_map])
    rintro ⟨x, w'⟩ ⟨a, hx, hw'⟩
    simp only at hx hw'
    subst hx
    refine (hrun2 _ ⟨?_, ?_⟩).weaken (fun _ _ h => h) (fun _ _ h => Amid.right h) fun _ h => h
    · intro nm
      rw [Dict.keys_set, if_pos hmem]
      exact hws.keys nm
    · intro nm hnm
      by_cases h : nm = name
      · subst h
        exact ⟨w', Dict.get?_set_self _ _ _, by rw [if_neg hnin]; exact hw'⟩
      · obtain ⟨w0, hw0, hi0⟩ := hws.inv nm hnm
        refine ⟨w0, by rw [Dict.get?_set_ne _ _ h]; exact hw0, ?_⟩
        rw [hif nm h] at hi0
        exact hloc _ _ _ _ _ hi0 (honly nm h).1 (honly nm h).2

theorem storeLoop_runs (hloc : Local inv) {s : State α} {t : Nat} {all : List String}
    (happ : ∀ name ∈ all, AppendOk own r l enc junk inv sigs s name t) :
    ∀ (todo : List String), (∀ name ∈ todo, name ∈ all) → todo.Nodup → ∀ (L : Store α),
      Arrays inv all todo t L → Follows r (todo.flatMap fun name => sigs name t) fun gs =>
        ∃ n L', Arrays inv all [] t L' ∧ ∀ ws, Writers inv all todo t ws L →
          Runs own r (fun x => x.1 = .ok () ∧ Writers inv all [] t x.2 L') L'
            (storeLoop l enc junk r s todo ws) n L [] gs := by
  intro todo hall hnd L hL
  refine (storeLoop_runsI hloc Tracks.trivial (fun nm h => (happ nm h).I) (t := t + 0) todo hall hnd L hL [] trivial
    (fun _ h => absurd h List.not_mem_nil)).mono ?_
  rintro gs ⟨n, L', h1, -, h2⟩
  exact ⟨n, L', h1, fun ws hws => (h2 ws hws).free⟩

/-- All keys, sorted, in whatever order the state has them. -/
theorem sorted_names {s : State α} {names : List String} (hn : names.Nodup) (hk : s.keys.Nodup)
    (h : ∀ name, name ∈ s.keys ↔ name ∈ names) :
    s.keys.mergeSort (fun a b => decide (a ≤ b)) = names.mergeSort (fun a b => decide (a ≤ b)) := by
  have hp : s.keys.Perm names := (List.perm_ext_iff_of_nodup hk hn).2 h
  have tr : ∀ a b c : String, decide (a ≤ b) = true → decide (b ≤ c) = true → decide (a ≤ c) = true := by
    intro a b c h1 h2
    simp only [decide_eq_true_eq] at *
    exact String.le_trans h1 h2
  have tot : ∀ a b : String, (decide (a ≤ b) || decide (b ≤ a)) = true := by
    intro a b
    simp only [Bool.or_eq_true, decide_eq_true_eq]
    exact String.le_total a b
  refine List.Perm.eq_of_pairwise (le := fun a b => decide (a ≤ b) = true) ?_ (List.pairwise_mergeSort tr tot _) (List.pairwise_mergeSort tr tot _)
    ((List.mergeSort_perm _ _).trans (hp.trans (List.mergeSort_perm _ _).symm))
  intro a b _ _ h1 h2
  simp only [decide_eq_true_eq] at h1 h2
  exact String.le_antisymm h1 h2

theorem Writers.next {all : List String} {t : Nat} {ws : Dict String Writer} {L : Store α}
    (h : Writers inv all [] t ws L) : Writers inv all all (t + 1) ws L := by
  refine ⟨h.keys, ?_⟩
  intro name hn
  rw [if_pos hn]
  simpa using h.inv name hn

theorem Arrays.next {all : List String} {t : Nat} {L : Store α}
    (h : Arrays inv all [] t L) : Arrays inv all all (t + 1) L := by
  intro name hn
  rw [if_pos hn]
  simpa using h name hn

/-- The monitor is ready for step `t`. -/
def Ready (inv : String → Nat → Writer → Store α → Prop) (all : List String) (t : Nat) (L : Store α) (m : Monitor) : Prop :=
  (∃ ws, m = some ws ∧ Writers inv all all t ws L) ∨ (m = none ∧ t = 0 ∧ ∀ name ∈ all, inv name 0 { name := name } L)

theorem initWriters_get (s : State α) (name : String) (h : name = "time" ∨ name ∈ s.keys) :
    (initWriters s).get? name = some { name := name } := by
  unfold initWriters
  have gen : ∀ (ks : List String), Dict.get? ((ks.map fun n => (n, ({ name := n } : Writer))) ++ [("time", ({ name := "time" } : Writer))]) name =
      if name ∈ ks ∨ name = "time" then some { name := name } else none := by
    intro ks
    induction ks with
    | nil =>
      by_cases ht : name = "time"
      · subst ht; rfl
      · simp [Dict.get?, ht]
    | cons k ks ih =>
      rw [List.map_cons, List.cons_append, Dict.get?]
      by_cases hk : name = k
      · subst hk; simp
      · rw [if_neg hk, ih]; simp [hk]
  rw [gen, if_pos]
  by_cases ht : name = "time"
  · exact .inr ht
  · left
    rw [List.mem_filter]
    exact ⟨h.resolve_left ht, by simpa using ht⟩

theorem initWriters_keys (s : State α) (name : String) : name ∈ (initWriters s).keys ↔ name = "time" ∨ name ∈ s.keys := by
  have e : (initWriters s).keys = s.keys.filter (· ≠ "time") ++ ["time"] := by
    simp [initWriters, Dict.keys, List.map_map, Function.comp_def]
  rw [e, List.mem_append, List.mem_filter, List.mem_singleton]
  by_cases ht : name = "time" <;> simp [ht]

theorem Ready.arrays {all : List String} {t : Nat} {L : Store α} {m : Monitor} (h : Ready inv all t L m) :
    Arrays inv all all t L := by
  intro name hn
  rw [if_pos hn]
  rcases h with ⟨ws, -, hws⟩ | ⟨-, rfl, h⟩
  · obtain ⟨w, -, hw⟩ := hws.inv name hn
    rw [if_pos hn] at hw
    exact ⟨w, hw⟩
  · exact ⟨_, h name hn⟩

theorem Ready.ensure {all : List String} (htime : "time" ∈ all) {t : Nat} {L : Store α} {m : Monitor} (h : Ready inv all t L m)
    {s : State α} (hs : ∀ name, name ∈ s.keys ↔ name ∈ all) :
    ∃ ws, ensureWriters m s = .ok ws ∧ Writers inv all all t ws L := by
  rcases h with ⟨ws, rfl, hws⟩ | ⟨rfl, rfl, h⟩
  · refine ⟨ws, ?_, hws⟩
    unfold ensureWriters
    have h1 : (s.keys.all fun k => ws.has k) = true := by
      rw [List.all_eq_true]
      intro k hk
      obtain ⟨v, hv⟩ := (Dict.mem_keys_iff ws k).1 ((hws.keys k).2 ((hs k).1 hk))
      simp [Dict.has, hv]
    have h2 : (ws.keys.all fun k => s.has k) = true := by
      rw [List.all_eq_true]
      intro k hk
      obtain ⟨v, hv⟩ := (Dict.mem_keys_iff s k).1 ((hs k).2 ((hws.keys k).1 hk))
      simp [Dict.has, hv]
    simp only [h1, h2]
    rfl
  · refine ⟨initWriters s, rfl, ?_, ?_⟩
    · intro name
      rw [initWriters_keys, hs]
      constructor
      · rintro (rfl | h)
        · exact htime
        · exact h
      · exact .inr
    · intro name hn
      rw [if_pos hn]
      exact ⟨_, initWriters_get s name (.inr ((hs name).2 hn)), h name hn⟩

theorem store_runsI (hloc : Local inv) (htr : Tracks inv J Good) {s : State α} {t : Nat} {all : List String} (hall : all.Nodup) (htime : "time" ∈ all)
    (happ : ∀ name ∈ all, AppendOkI own r l enc junk inv sigs J s name t)
    (hk : s.keys.Nodup) (hs : ∀ name, name ∈ s.keys ↔ name ∈ all) {L : Store α} (hL : Arrays inv all all t L)
    {pre0 : List Slot} (hg : Good pre0 none L) (hp : ∀ s ∈ pre0, s.1 < t) :
    Follows r ((all.mergeSort fun a b => decide (a ≤ b)).flatMap fun name => sigs name t) fun gs =>
      ∃ n L', Arrays inv all all (t + 1) L' ∧
        Good (pre0 ++ (all.mergeSort fun a b => decide (a ≤ b)).map fun name => (t, name)) none L' ∧ ∀ m, Ready inv all t L m →
        RunsI own (Amid sigs Good pre0 ((all.mergeSort fun a b => decide (a ≤ b)).map fun name => (t, name))) r (fun x => x.1 = .ok () ∧ Ready inv all (t + 1) L' x.2) L' (store l enc junk r m s) n L [] gs := by
  have hmem : ∀ name, name ∈ all.mergeSort (fun a b => decide (a ≤ b)) ↔ name ∈ all := fun name => List.mem_mergeSort
  have hiff : ∀ name, (if name ∈ all.mergeSort (fun a b => decide (a ≤ b)) then t else t + 1) = if name ∈ all then t else t + 1 := by
    intro name; simp only [hmem]
  have hL' : Arrays inv all (all.mergeSort fun a b => decide (a ≤ b)) t L := by
    intro name hn; rw [hiff]; exact hL name hn
  refine (storeLoop_runsI hloc htr happ _ (fun name h => (hmem name).1 h)
    ((List.mergeSort_perm all _).nodup_iff.2 hall) L hL' pre0 hg fun s hs _ => hp s hs).mono ?_
  rintro gs ⟨n, L', hA, hg', hrun⟩
  refine ⟨n + 0, L', hA.next, hg', ?_⟩
  intro m hm
  obtain ⟨ws, hws, hW⟩ := hm.ensure htime hs
  unfold store
  rw [hws, sorted_names hall hk hs]
  have := (hrun ws ⟨hW.keys, fun name hn => by rw [hiff]; exact hW.inv name hn⟩).bindI (gs' := []) (n' := 0) (L'' := L')
    (I := Amid sigs Good pre0 ((all.mergeSort fun a b => decide (a ≤ b)).map fun name => (t, name)))
    (f := fun x : Py Unit × Dict String Writer => (Prog.ret (x.1, some x.2) : Prog α (Py Unit × Monitor)))
    (Q' := fun x => x.1 = .ok () ∧ Ready inv all (t + 1) L' x.2) (fun L g h => by rw [List.append_nil]; exact h) (by
      have hlast := (hrun ws ⟨hW.keys, fun name hn => by rw [hiff]; exact hW.inv name hn⟩).last
      have : Sat (Amid sigs Good pre0 ((all.mergeSort fun a b => decide (a ≤ b)).map fun name => (t, name))) L' [] := ⟨hlast⟩
      rintro ⟨x, ws'⟩ ⟨h1, h2⟩
      exact .ret ⟨h1, .inl ⟨ws', rfl, h2.next⟩⟩)
  rw [List.append_nil] at this
  exact this

theorem store_runs (hloc : Local inv) {s : State α} {t : Nat} {all : List String} (hall : all.Nodup) (htime : "time" ∈ all)
    (happ : ∀ name ∈ all, AppendOk own r l enc junk inv sigs s name t)
    (hk : s.keys.Nodup) (hs : ∀ name, name ∈ s.keys ↔ name ∈ all) {L : Store α} (hL : Arrays inv all all t L) :
    Follows r ((all.mergeSort fun a b => decide (a ≤ b)).flatMap fun name => sigs name t) fun gs =>
      ∃ n L', Arrays inv all all (t + 1) L' ∧ ∀ m, Ready inv all t L m →
        Runs own r (fun x => x.1 = .ok () ∧ Ready inv all (t + 1) L' x.2) L' (store l enc junk r m s) n L [] gs := by
  refine (store_runsI hloc Tracks.trivial hall htime (fun nm h => (happ nm h).I) hk hs hL (pre0 := []) trivial
    (fun _ h => absurd h List.not_mem_nil)).mono ?_
  rintro gs ⟨n, L', h1, -, h2⟩
  exact ⟨n, L', h1, fun m hm => (h2 m hm).free⟩

theorem storeAll_runsI (hloc : Local inv) (htr : Tracks inv J Good) {all : List String} (hall : all.Nodup) (htime : "time" ∈ all)
    (st : Nat → State α) :
    ∀ (k t : Nat), (∀ i, t ≤ i → i < t + k → (∀ name ∈ all, AppendOkI own r l enc junk inv sigs J (st i) name i) ∧
        (st i).keys.Nodup ∧ ∀ name, name ∈ (st i).keys ↔ name ∈ all) → ∀ (L : Store α), Arrays inv all all t L →
      ∀ pre0, Good pre0 none L → (∀ s ∈ pre0, s.1 < t) → Follows r ((List.range' t k).flatMap fun i =>
          (all.mergeSort fun a b => decide (a ≤ b)).flatMap fun name => sigs name i) fun gs =>
        ∃ n L', Arrays inv all all (t + k) L' ∧ ∀ m, Ready inv all t L m →
          RunsI own (Amid sigs Good pre0
            ((List.range' t k).flatMap fun i => (all.mergeSort fun a b => decide (a ≤ b)).map fun name => (i, name))) r (· = .ok ()) L' (storeAll l enc junk r m ((List.range' t k).map st)) n L [] gs
  | 0, t, _, L, hL, pre0, hg, _ => Follows.nil ⟨0, L, hL, fun m _ =>
      have : Sat (Amid sigs Good pre0 ((List.range' t 0).flatMap fun i =>
        (all.mergeSort fun a b => decide (a ≤ b)).map fun name => (i, name))) L [] := ⟨Amid.none hg⟩
      .ret rfl⟩
  | k + 1, t, hst, L, hL, pre0, hg, hp => by
    rw [List.range'_succ, List.flatMap_cons]
    obtain ⟨h1, h2, h3⟩ := hst t (Nat.le_refl _) (by omega)
    refine (store_runsI hloc htr hall htime h1 h2 h3 hL hg hp).seq ?_
    rintro gs1 ⟨n1, L1, hL1, hg1, hrun1⟩
    refine (storeAll_runsI hloc htr hall htime st k (t + 1) (fun i hi hi' => hst i (by omega) (by omega)) L1 hL1 _ hg1 ?_).sigs.mono ?_
    · intro s hs
      rcases List.mem_append.1 hs with hs | hs
      · have := hp s hs; omega
      · obtain ⟨nm, -, rfl⟩ := List.mem_map.1 hs
        exact Nat.lt_succ_self t
    rintro gs2 ⟨hsig, n2, L2, hL2, hrun2⟩
    refine ⟨n1 + n2, L2, by rw [show t + (k + 1) = t + 1 + k by omega]; exact hL2, ?_⟩
    intro m hm
    rw [List.map_cons, storeAll]
    rw [List.flatMap_cons]
    refine (hrun1 m hm).bindI (fun L g h => ?_) ?_
    · refine Amid.left htr h ?_
      rw [hsig, List.flatMap_assoc]
      simp only [List.flatMap_map]
    rintro ⟨x, m'⟩ ⟨hx, hm'⟩
    simp only at hx hm'
    subst hx
    exact (hrun2 m' hm').weaken (fun _ _ h => h) (fun _ _ h => Amid.right h) fun _ h => h

theorem storeAll_runs (hloc : Local inv) {all : List String} (hall : all.Nodup) (htime : "time" ∈ all)
    (st : Nat → State α) :
    ∀ (k t : Nat), (∀ i, t ≤ i → i < t + k → (∀ name ∈ all, AppendOk own r l enc junk inv sigs (st i) name i) ∧
        (st i).keys.Nodup ∧ ∀ name, name ∈ (st i).keys ↔ name ∈ all) → ∀ (L : Store α), Arrays inv all all t L →
      Follows r ((List.range' t k).flatMap fun i =>
          (all.mergeSort fun a b => decide (a ≤ b)).flatMap fun name => sigs name i) fun gs =>
        ∃ n L', Arrays inv all all (t + k) L' ∧ ∀ m, Ready inv all t L m →
          Runs own r (· = .ok ()) L' (storeAll l enc junk r m ((List.range' t k).map st)) n L [] gs := by
  intro k t hst L hL
  refine (storeAll_runsI hloc Tracks.trivial hall htime st k t (fun i h h' => ⟨fun nm hn => ((hst i h h').1 nm hn).I, (hst i h h').2⟩)
    L hL [] trivial (fun _ h => absurd h List.not_mem_nil)).mono ?_
  rintro gs ⟨n, L', h1, h2⟩
  exact ⟨n, L', h1, fun m hm => (h2 m hm).free⟩
end

end Zarr
end FV3
