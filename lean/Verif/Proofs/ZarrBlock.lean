import Verif.Proofs.ZarrRun

/-!
# Rank 0 raises, the others wait in a collective that it never calls
-/

namespace FV3
namespace Zarr
variable {α R R' : Type}

/-- Like `Runs`, but the rank ends up calling a collective which is not in `gs`. -/
inductive Blocks (own : String → List Nat → Int) (r : Int) (L' : Store α) :
    Prog α R → Nat → Store α → Known → List GItem → Prop where
  | wait {c k kn} : Blocks own r L' (.coll c k) 0 L' kn []
  | getInfoOther {name i0 k n L kn gs} : r ≠ 0 → (name, i0) ∈ kn →
      (∀ i : Info, i0.le i → Blocks own r L' (k (some i)) n L kn gs) →
      Blocks own r L' (.getInfo name k) (n + 1) L kn gs
  | getChunk {name ci k n L kn gs} : own name ci = r → Blocks own r L' (k (L.chunks name ci)) n L kn gs →
      Blocks own r L' (.getChunk name ci k) (n + 1) L kn gs
  | putChunk {name ci c k n L kn gs} : own name ci = r → Blocks own r L' k n (L.putChunk name ci c) kn gs →
      Blocks own r L' (.putChunk name ci c k) (n + 1) L kn gs
  | collOther {c k n L kn gs} {g : GItem} : r ≠ 0 → c.isBcast = g.coll.isBcast →
      Blocks own r L' (k g.coll.payload) n L (g.learn kn) gs →
      Blocks own r L' (.coll c k) (n + 2) L kn (g :: gs)

section
variable {own : String → List Nat → Int} {r : Int} {n : Nat} {L L' : Store α} {kn : Known} {gs : List GItem}

theorem Blocks.knows {p : Prog α R} (h : Blocks own r L' p n L kn gs) :
    ∀ kn', (∀ x ∈ kn, x ∈ kn') → Blocks own r L' p n L kn' gs := by
  induction h with
  | wait => intro _ _; exact .wait
  | getInfoOther h hm _ ih => intro kn' hs; exact .getInfoOther h (hs _ hm) fun i hi => ih i hi kn' hs
  | getChunk h _ ih => intro kn' hs; exact .getChunk h (ih kn' hs)
  | putChunk h _ ih => intro kn' hs; exact .putChunk h (ih kn' hs)
  | collOther h1 h2 _ ih => intro kn' hs; exact .collOther h1 h2 (ih _ (learn_mono hs))

theorem Blocks.bind {p : Prog α R} (h : Blocks own r L' p n L kn gs) (f : R → Prog α R') :
    Blocks own r L' (p.bind f) n L kn gs := by
  induction h with
  | wait => exact .wait
  | getInfoOther h hm _ ih => exact .getInfoOther h hm ih
  | getChunk h _ ih => exact .getChunk h ih
  | putChunk h _ ih => exact .putChunk h ih
  | collOther h1 h2 _ ih => exact .collOther h1 h2 ih

theorem Runs.blocks {p : Prog α R} {Q : R → Prop} (hr : r ≠ 0) (h : Runs own r Q L' p n L kn gs) {f : R → Prog α R'}
    {n' : Nat} {L'' : Store α} {gs' : List GItem} (h' : ∀ x, Q x → Blocks own r L'' (f x) n' L' [] gs') :
    Blocks own r L'' (p.bind f) (n + n') L kn (gs ++ gs') := by
  induction h with
  | ret h => rw [Nat.zero_add]; exact (h' _ h).knows _ (by simp)
  | getInfoRoot h _ ih => exact absurd h hr
  | @getInfoOther _ _ _ n _ _ _ h hm _ _ ih =>
    rw [show n + 1 + n' = (n + n') + 1 by omega]; exact .getInfoOther h hm ih
  | putInfo h h2 _ ih => exact absurd h hr
  | @getChunk _ _ _ n _ _ _ h _ _ ih => rw [show n + 1 + n' = (n + n') + 1 by omega]; exact .getChunk h ih
  | @putChunk _ _ _ _ n _ _ _ h _ _ ih => rw [show n + 1 + n' = (n + n') + 1 by omega]; exact .putChunk h ih
  | collRoot h1 h2 h3 _ ih => exact absurd h1 hr
  | @collOther _ _ n _ _ _ _ h1 h2 _ _ ih =>
    rw [show n + 2 + n' = (n + n') + 2 by omega]; exact .collOther h1 h2 ih

/-- `p`, with results marked. -/
def Prog.full (p : Prog α R) : Prog α (Option R) := p.bind fun x => .ret (some x)

/-- `p'` is `p`, stopped when some collectives are called. -/
inductive Cut : Prog α R → Prog α (Option R) → Prop where
  | ret {a} : Cut (.ret a) (.ret (some a))
  | getInfo {name k k'} : (∀ x, Cut (k x) (k' x)) → Cut (.getInfo name k) (.getInfo name k')
  | putInfo {name i k k'} : Cut k k' → Cut (.putInfo name i k) (.putInfo name i k')
  | getChunk {name ci k k'} : (∀ x, Cut (k x) (k' x)) → Cut (.getChunk name ci k) (.getChunk name ci k')
  | putChunk {name ci c k k'} : Cut k k' → Cut (.putChunk name ci c k) (.putChunk name ci c k')
  | coll {c k k'} : (∀ x, Cut (k x) (k' x)) → Cut (.coll c k) (.coll c k')
  | stop {c k} : Cut (.coll c k) (.ret none)

theorem Cut.full : ∀ p : Prog α R, Cut p p.full
  | .ret _ => .ret
  | .getInfo _ k => .getInfo fun x => Cut.full (k x)
  | .putInfo _ _ k => .putInfo (Cut.full k)
  | .getChunk _ _ k => .getChunk fun x => Cut.full (k x)
  | .putChunk _ _ _ k => .putChunk (Cut.full k)
  | .coll _ k => .coll fun x => Cut.full (k x)

open Classical in
theorem Blocks.cut {p : Prog α R} (h : Blocks own r L' p n L kn gs) :
    ∃ p', Cut p p' ∧ Runs own r (· = none) L' p' n L kn gs := by
  induction h with
  | wait => exact ⟨_, .stop, .ret rfl⟩
  | @getInfoOther name i0 k n L kn gs h hm _ ih =>
    choose k' hk using ih
    refine ⟨.getInfo name fun x => match x with
      | some i => if hi : i0.le i then k' i hi else (k (some i)).full
      | none => (k none).full, .getInfo ?_, .getInfoOther h hm ?_⟩
    · intro x
      cases x with
      | none => exact Cut.full _
      | some i =>
        simp only
        split_ifs with hi
        · exact (hk i hi).1
        · exact Cut.full _
    · intro i hi
      simp only
      rw [dif_pos hi]
      exact (hk i hi).2
  | @getChunk name ci k n L kn gs h _ ih =>
    obtain ⟨p', h1, h2⟩ := ih
    refine ⟨.getChunk name ci fun x => if x = L.chunks name ci then p' else (k x).full, .getChunk ?_, .getChunk h ?_⟩
    · intro x
      split_ifs with hx
      · rw [hx]; exact h1
      · exact Cut.full _
    · rw [if_pos rfl]
      exact h2
  | @putChunk name ci c k n L kn gs h _ ih =>
    obtain ⟨p', h1, h2⟩ := ih
    exact ⟨.putChunk name ci c p', .putChunk h1, .putChunk h h2⟩
  | @collOther c k n L kn gs g h1 h2 _ ih =>
    obtain ⟨p', h3, h4⟩ := ih
    refine ⟨.coll c fun x => if x = g.coll.payload then p' else (k x).full, .coll ?_, .collOther h1 h2 ?_⟩
    · intro x
      split_ifs with hx
      · rw [hx]; exact h3
      · exact Cut.full _
    · rw [if_pos rfl]
      exact h4
end

/-- Rank `r` in the world `W` and in the world `W'` with the stopped programs. -/
inductive SimAt (W : World α R) (W' : World α (Option R)) (r : Int) : Prop where
  | same : Cut (W.procs r) (W'.procs r) → (r = 0 → W'.procs r = (W.procs r).full) → W.log r = W'.log r → W.inside r = W'.inside r →
      SimAt W W' r
  | waits {c k} : r ≠ 0 → W.procs r = .coll c k → W'.procs r = .ret none → W.log r = W'.log r ++ [c] →
      W.inside r = true → SimAt W W' r

structure Sim (W : World α R) (W' : World α (Option R)) : Prop where
  store : W.store = W'.store
  at' : ∀ r, SimAt W W' r

section
variable {own : String → List Nat → Int} {ranks : List Int} {G : List GItem} {res : Int → Option R} {fin : Int → Store α}
  {W : World α R} {W' : World α (Option R)} {m : Int → Nat} {L : Int → Store α} {kn : Int → Known} {buf : Nat → Bool}

/-- A rank that is finished has taken part in all collectives. -/
theorem Mid.ret_log {W : World α R'} {res : Int → R'} (h : Mid own (fun _ => Free) ranks G res fin W m L kn) {r : Int} (hr : r ∈ ranks) {a : R'} (hp : W.procs r = .ret a) :
    (W.log r).length = G.length := by
  have hin := h.rest hr (by intro c k hc; rw [hp] at hc; cases hc)
  have hrun := h.runs r hr
  rw [hp] at hrun
  have hleft : W.left r = (W.log r).length := by simp [World.left, hin]
  rw [hleft] at hrun
  have hd : G.drop (W.log r).length = [] := by
    generalize hg : G.drop (W.log r).length = gs at hrun
    generalize m r = mr at hrun
    generalize L r = Lr at hrun
    generalize fin r = Fr at hrun
    cases hrun
    rfl
  rw [List.drop_eq_nil_iff] at hd
  exact Nat.le_antisymm (h.lens r hr) hd

/-- The logs up to the last collective of rank 0 are the same. -/
theorem Sim.log (hs : Sim W W') (h : Mid own (fun _ => Free) ranks G res fin W' m L kn) {r : Int} (hr : r ∈ ranks) {n : Nat}
    (hn : n < G.length) : (W.log r)[n]? = (W'.log r)[n]? := by
  rcases hs.at' r with ⟨_, _, h3, _⟩ | ⟨_, _, h3, h4, _⟩
  · rw [h3]
  · rw [h4, List.getElem?_append_left (by rw [h.ret_log hr h3]; exact hn)]

theorem Sim.leave (hs : Sim W W') (h0 : (0 : Int) ∈ ranks) (h : Mid own (fun _ => Free) ranks G res fin W' m L kn) {r : Int} (hr : r ∈ ranks)
    (hl : W.log r = W'.log r) (hin : W'.inside r = true) : W.leave buf ranks r = W'.leave buf ranks r := by
  have hpos := h.pos r hr hin
  have hlen := h.lens r hr
  have hn : (W'.log r).length - 1 < G.length := by omega
  have hall : ∀ f : Option Coll → Bool, (ranks.all fun r' => f (W.log r')[(W'.log r).length - 1]?) =
      (ranks.all fun r' => f (W'.log r')[(W'.log r).length - 1]?) := by
    intro f
    have : ∀ l : List Int, (∀ r' ∈ l, r' ∈ ranks) → (l.all fun r' => f (W.log r')[(W'.log r).length - 1]?) =
        (l.all fun r' => f (W'.log r')[(W'.log r).length - 1]?) := by
      intro l hl
      induction l with
      | nil => rfl
      | cons a l ih =>
        rw [List.all_cons, List.all_cons, hs.log h (hl a (List.mem_cons_self ..)) hn,
          ih fun r' h' => hl r' (List.mem_cons_of_mem _ h')]
    exact this ranks fun _ h => h
  unfold World.leave
  simp only [hl, hs.log h h0 hn]
  rw [hall (fun o => o.map Coll.isBcast == some true), hall (fun o => o == some .barrier)]

/-- A waiting rank cannot go on. -/
theorem Sim.stuck (hs : Sim W W') (h0 : (0 : Int) ∈ ranks) (h : Mid own (fun _ => Free) ranks G res fin W' m L kn) {r : Int} (hr : r ∈ ranks)
    {c : Coll} {k : Option String → Prog α R} (hz : r ≠ 0) (h2 : W.procs r = .coll c k)
    (h3 : W'.procs r = .ret none) (h4 : W.log r = W'.log r ++ [c]) (h5 : W.inside r = true) : W.step buf ranks r = none := by
  have hlen := h.ret_log hr h3
  have hlog0 : W.log 0 = W'.log 0 := by
    rcases hs.at' 0 with ⟨_, _, h3, _⟩ | ⟨h, _, _, _, _⟩
    · exact h3
    · exact absurd rfl h
  have hnone : (W.log 0)[(W.log r).length - 1]? = none := by
    rw [hlog0, List.getElem?_eq_none_iff, h4, List.length_append, List.length_singleton, Nat.add_sub_cancel, hlen]
    exact h.lens 0 h0
  have hsome : (W.log r)[(W.log r).length - 1]? = some c := by
    rw [h4]; simp
  rw [World.step, h2]
  simp only [h5, if_true]
  have : W.leave buf ranks r = none := by
    unfold World.leave
    simp only [hsome]
    cases c with
    | bcast own => simp only [if_neg hz, hnone]
    | barrier =>
      simp only
      rw [if_neg]
      intro hall
      rw [List.all_eq_true] at hall
      have := hall 0 h0
      rw [hnone] at this
      simp at this
  rw [this]

theorem SimAt.upd {W1 : World α R} {W1' : World α (Option R)} {r r' : Int} (h : SimAt W W' r') (hne : r' ≠ r)
    (a : W1.procs r' = W.procs r') (b : W1.log r' = W.log r') (c : W1.inside r' = W.inside r')
    (a' : W1'.procs r' = W'.procs r') (b' : W1'.log r' = W'.log r') (c' : W1'.inside r' = W'.inside r') :
    SimAt W1 W1' r' := by
  rcases h with ⟨h1, h2, h3, h4⟩ | ⟨h1, h2, h3, h4, h5⟩
  · exact .same (by rw [a, a']; exact h1) (by rw [a, a']; exact h2) (by rw [b, b']; exact h3) (by rw [c, c']; exact h4)
  · exact .waits h1 (by rw [a]; exact h2) (by rw [a']; exact h3) (by rw [b, b']; exact h4) (by rw [c]; exact h5)

/-- A step of both worlds. -/
theorem Sim.both (hs : Sim W W') (h0 : (0 : Int) ∈ ranks) (h : Mid own (fun _ => Free) ranks G res fin W' m L kn) {r : Int} (hr : r ∈ ranks)
    (hnr : ∀ a, W'.procs r ≠ .ret a) :
    (W.step buf ranks r = none ∧ W'.step buf ranks r = none) ∨
    ∃ W1 W1', W.step buf ranks r = some W1 ∧ W'.step buf ranks r = some W1' ∧ Sim W1 W1' ∧
      ∀ r', (W1.log r').length - (W1'.log r').length = (W.log r').length - (W'.log r').length := by
  rcases hs.at' r with ⟨h1, h2, h3, h4⟩ | ⟨h1, h2, h3, h4, h5⟩
  swap
  · exact absurd h3 (hnr _)
  have hst := hs.store
  have upd : ∀ (p : Prog α R) (p' : Prog α (Option R)) (S S' : Store α), S = S' → Cut p p' → (r = 0 → p' = p.full) →
      Sim { W with procs := updRank W.procs r p, store := S } { W' with procs := updRank W'.procs r p', store := S' } := by
    intro p p' S S' hS hc hz
    refine ⟨hS, fun r' => ?_⟩
    by_cases e : r' = r
    · subst e
      exact .same (by simp only [updRank_self]; exact hc) (by simp only [updRank_self]; exact hz) h3 h4
    · exact (hs.at' r').upd e (updRank_ne _ _ e) rfl rfl (updRank_ne _ _ e) rfl rfl
  generalize hp : W.procs r = p at h1 h2
  generalize hp' : W'.procs r = p' at h1 h2 hnr
  cases h1 with
  | ret => exact absurd rfl (hnr _)
  | stop => exact absurd rfl (hnr _)
  | @getInfo name k k' hk =>
    right
    refine ⟨{ W with procs := updRank W.procs r (k (W.store.infos name)) },
      { W' with procs := updRank W'.procs r (k' (W'.store.infos name)) }, by rw [World.step, hp], by rw [World.step, hp'],
      upd _ _ _ _ hst (by rw [hst]; exact hk _) ?_, fun _ => rfl⟩
    intro hz
    have : Prog.getInfo name k' = Prog.getInfo name fun x => (k x).full := h2 hz
    injection this with _ e
    rw [e, hst]
  | @putInfo name i k k' hk =>
    right
    refine ⟨{ W with procs := updRank W.procs r k, store := W.store.putInfo name i },
      { W' with procs := updRank W'.procs r k', store := W'.store.putInfo name i }, by rw [World.step, hp],
      by rw [World.step, hp'], upd _ _ _ _ (by rw [hst]) hk ?_, fun _ => rfl⟩
    intro hz
    have : Prog.putInfo name i k' = Prog.putInfo name i k.full := h2 hz
    injection this
  | @getChunk name ci k k' hk =>
    right
    refine ⟨{ W with procs := updRank W.procs r (k (W.store.chunks name ci)) },
      { W' with procs := updRank W'.procs r (k' (W'.store.chunks name ci)) }, by rw [World.step, hp],
      by rw [World.step, hp'], upd _ _ _ _ hst (by rw [hst]; exact hk _) ?_, fun _ => rfl⟩
    intro hz
    have : Prog.getChunk name ci k' = Prog.getChunk name ci fun x => (k x).full := h2 hz
    injection this with _ _ e
    rw [e, hst]
  | @putChunk name ci c k k' hk =>
    right
    refine ⟨{ W with procs := updRank W.procs r k, store := W.store.putChunk name ci c },
      { W' with procs := updRank W'.procs r k', store := W'.store.putChunk name ci c }, by rw [World.step, hp],
      by rw [World.step, hp'], upd _ _ _ _ (by rw [hst]) hk ?_, fun _ => rfl⟩
    intro hz
    have : Prog.putChunk name ci c k' = Prog.putChunk name ci c k.full := h2 hz
    injection this
  | @coll c k k' hk =>
    cases hin : W'.inside r with
    | false =>
      right
      refine ⟨{ W with log := updRank W.log r (W.log r ++ [c]), inside := updRank W.inside r true },
        { W' with log := updRank W'.log r (W'.log r ++ [c]), inside := updRank W'.inside r true },
        by rw [World.step, hp]; simp [h4, hin], by rw [World.step, hp']; simp [hin], ⟨hst, fun r' => ?_⟩, fun r' => ?_⟩
      · by_cases e : r' = r
        · subst e
          refine .same (by rw [hp, hp']; exact .coll hk) (by rw [hp, hp']; exact h2) ?_ ?_
          · simp only [updRank_self, h3]
          · simp only [updRank_self]
        · exact (hs.at' r').upd e rfl (updRank_ne _ _ e) (updRank_ne _ _ e) rfl (updRank_ne _ _ e) (updRank_ne _ _ e)
      · by_cases e : r' = r
        · subst e
          simp only [updRank_self, h3]
          simp
        · simp only [updRank_ne _ _ e]
    | true =>
      have hl := hs.leave (buf := buf) h0 h hr h3 hin
      cases hv : W'.leave buf ranks r with
      | none =>
        left
        refine ⟨?_, ?_⟩
        · rw [World.step, hp]; simp [h4, hin, hl, hv]
        · rw [World.step, hp']; simp [hin, hv]
      | some x =>
        right
        refine ⟨{ W with procs := updRank W.procs r (k x), inside := updRank W.inside r false },
          { W' with procs := updRank W'.procs r (k' x), inside := updRank W'.inside r false },
          by rw [World.step, hp]; simp [h4, hin, hl, hv], by rw [World.step, hp']; simp [hin, hv],
          ⟨hst, fun r' => ?_⟩, fun _ => rfl⟩
        by_cases e : r' = r
        · subst e
          refine .same ?_ ?_ h3 ?_
          · simp only [updRank_self]; exact hk x
          · simp only [updRank_self]
            intro hz
            have : Prog.coll c k' = Prog.coll c fun x => (k x).full := h2 hz
            injection this with _ e
            rw [e]
          · simp only [updRank_self]
        · exact (hs.at' r').upd e (updRank_ne _ _ e) rfl (updRank_ne _ _ e) (updRank_ne _ _ e) rfl (updRank_ne _ _ e)

/-- How many ranks have called the collective in which they wait. -/
def waiting (ranks : List Int) (W : World α R) (W' : World α (Option R)) : Nat := (ranks.map fun r => (W.log r).length - (W'.log r).length).sum

/-- Entering the collective in which the rank waits. -/
theorem Sim.enter (hs : Sim W W') (h : Mid own (fun _ => Free) ranks G res fin W' m L kn) (hn : ranks.Nodup) {r : Int} (hr : r ∈ ranks)
    {c : Coll} {k : Option String → Prog α R} (hz : r ≠ 0) (h2 : W.procs r = .coll c k)
    (h3 : W'.procs r = .ret none) (h4 : W.log r = W'.log r) (h5 : W.inside r = W'.inside r) :
    ∃ W1, W.step buf ranks r = some W1 ∧ Sim W1 W' ∧ waiting ranks W1 W' = waiting ranks W W' + 1 ∧
      W1.inside r = true := by
  have hin : W'.inside r = false := h.rest hr (by intro c k hc; rw [h3] at hc; cases hc)
  refine ⟨{ W with log := updRank W.log r (W.log r ++ [c]), inside := updRank W.inside r true }, ?_, ⟨hs.store, ?_⟩, ?_, ?_⟩
  · rw [World.step, h2]; simp [h5, hin]
  · intro r'
    by_cases e : r' = r
    · subst e
      refine .waits (c := c) (k := k) hz h2 h3 ?_ ?_
      · simp only [updRank_self, h4]
      · simp only [updRank_self]
    · exact (hs.at' r').upd e rfl (updRank_ne _ _ e) (updRank_ne _ _ e) rfl rfl rfl
  · unfold waiting
    refine (sum_upd hn hr _ _ (fun r' _ e => ?_) ?_).symm
    · simp only [updRank_ne _ _ e]
    · simp only [updRank_self, h4]
      simp
  · simp only [updRank_self]

/-- A step of the world is a step of the other one, or a rank calls the collective in which it waits. -/
theorem Sim.step (hs : Sim W W') (h0 : (0 : Int) ∈ ranks) (hn : ranks.Nodup) (h : Mid own (fun _ => Free) ranks G res fin W' m L kn)
    (hidle : ∀ r, r ∉ ranks → ∃ a, W.procs r = .ret a) {r : Int} {W1 : World α R} (hw : W.step buf ranks r = some W1) :
    (∃ W1', W'.step buf ranks r = some W1' ∧ Sim W1 W1' ∧ waiting ranks W1 W1' = waiting ranks W W') ∨
    (Sim W1 W' ∧ waiting ranks W1 W' = waiting ranks W W' + 1) := by
  by_cases hr : r ∈ ranks
  swap
  · obtain ⟨a, ha⟩ := hidle r hr
    rw [World.step, ha] at hw; cases hw
  by_cases hret : ∃ a, W'.procs r = .ret a
  · obtain ⟨a, ha⟩ := hret
    right
    rcases hs.at' r with ⟨h1, h2, h3, h4⟩ | ⟨h1, h2, h3, h4, h5⟩
    · rw [ha] at h1
      generalize hp : W.procs r = p at h1 h2
      cases h1 with
      | ret => rw [World.step, hp] at hw; cases hw
      | @stop c k =>
        have hz : r ≠ 0 := by
          intro hz
          have := h2 hz
          rw [ha] at this
          cases this
        obtain ⟨W1', e1, e2, e3, -⟩ := hs.enter (buf := buf) h hn hr hz hp ha h3 h4
        rw [hw, Option.some.injEq] at e1
        subst e1
        exact ⟨e2, e3⟩
    · rw [hs.stuck h0 h hr h1 h2 h3 h4 h5] at hw
      cases hw
  · left
    rcases hs.both (buf := buf) h0 h hr (fun a ha => hret ⟨a, ha⟩) with ⟨e, -⟩ | ⟨W2, W2', e1, e2, e3, e4⟩
    · rw [e] at hw; cases hw
    · rw [hw, Option.some.injEq] at e1
      subst e1
      refine ⟨W2', e2, e3, ?_⟩
      unfold waiting
      congr 1
      exact List.map_congr_left fun r' _ => e4 r'

theorem step_idle {W W1 : World α R} {r s : Int} (h : W.step buf ranks s = some W1) {a : R} (hr : W.procs r = .ret a) :
    W1.procs r = .ret a := by
  have hne : r ≠ s := by
    rintro rfl
    rw [World.step, hr] at h
    cases h
  rw [World.step] at h
  split at h
  · cases h
  · cases h; simp only [updRank_ne _ _ hne]; exact hr
  · cases h; simp only [updRank_ne _ _ hne]; exact hr
  · cases h; simp only [updRank_ne _ _ hne]; exact hr
  · cases h; simp only [updRank_ne _ _ hne]; exact hr
  · split at h
    · split at h
      · cases h
      · cases h; simp only [updRank_ne _ _ hne]; exact hr
    · cases h; exact hr

theorem Sim.run (h0 : (0 : Int) ∈ ranks) (hn : ranks.Nodup) :
    ∀ (sched : List Int) (W A : World α R) (W' : World α (Option R)) (m : Int → Nat) (L : Int → Store α) (kn : Int → Known),
    Sim W W' → Mid own (fun _ => Free) ranks G res fin W' m L kn → (∀ r, r ∉ ranks → ∃ a, W.procs r = .ret a) →
    W.run buf ranks sched = some A →
    ∃ A' m' L' kn', Sim A A' ∧ Mid own (fun _ => Free) ranks G res fin A' m' L' kn' ∧ (∀ r, r ∉ ranks → ∃ a, A.procs r = .ret a) ∧
      (ranks.map (A'.todo m')).sum + sched.length + waiting ranks W W' = (ranks.map (W'.todo m)).sum + waiting ranks A A'
  | [], W, A, W', m, L, kn, hs, h, hi, hr => by cases hr; exact ⟨W', m, L, kn, hs, h, hi, rfl⟩
  | r :: rs, W, A, W', m, L, kn, hs, h, hi, hr => by
    rw [World.run] at hr
    cases hst : W.step buf ranks r with
    | none => rw [hst] at hr; cases hr
    | some W1 =>
      rw [hst] at hr
      have hi1 : ∀ r, r ∉ ranks → ∃ a, W1.procs r = .ret a := by
        intro r' hr'
        obtain ⟨a, ha⟩ := hi r' hr'
        exact ⟨a, step_idle hst ha⟩
      rcases hs.step h0 hn h hi hst with ⟨W1', e1, e2, e3⟩ | ⟨e2, e3⟩
      · obtain ⟨m1, L1, kn1, hm1, hc1⟩ := h.step h0 hn e1
        obtain ⟨A', m', L', kn', a1, a2, a3, a4⟩ := Sim.run h0 hn rs W1 A W1' m1 L1 kn1 e2 hm1 hi1 hr
        refine ⟨A', m', L', kn', a1, a2, a3, ?_⟩
        rw [List.length_cons]
        omega
      · obtain ⟨A', m', L', kn', a1, a2, a3, a4⟩ := Sim.run h0 hn rs W1 A W' m L kn e2 h hi1 hr
        refine ⟨A', m', L', kn', a1, a2, a3, ?_⟩
        rw [List.length_cons]
        omega

theorem run_append {W W1 : World α R} {a b : List Int} (h : W.run buf ranks a = some W1) :
    W.run buf ranks (a ++ b) = W1.run buf ranks b := by
  induction a generalizing W with
  | nil => cases h; rfl
  | cons r a ih =>
    rw [World.run] at h
    rw [List.cons_append, World.run]
    cases hs : W.step buf ranks r with
    | none => rw [hs] at h; cases h
    | some W2 =>
      rw [hs] at h
      exact ih h

/-- The stopped programs run until all are finished. -/
theorem Sim.finish (h0 : (0 : Int) ∈ ranks) (hn : ranks.Nodup) :
    ∀ (n : Nat) (W : World α R) (W' : World α (Option R)) (m : Int → Nat) (L : Int → Store α) (kn : Int → Known),
    (ranks.map (W'.todo m)).sum = n → Sim W W' → Mid own (fun _ => Free) ranks G res fin W' m L kn →
    ∃ sched T T' m' L' kn', W.run buf ranks sched = some T ∧ Sim T T' ∧ Mid own (fun _ => Free) ranks G res fin T' m' L' kn' ∧
      (∀ r ∈ ranks, T'.procs r = .ret (res r) ∧ fin r = L' r) ∧ sched.length = n ∧
      waiting ranks T T' = waiting ranks W W' := by
  intro n
  induction n with
  | zero =>
    intro W W' m L kn hm hs h
    rcases h.progress h0 buf with hd | ⟨r, W1', hst⟩
    · exact ⟨[], W, W', m, L, kn, rfl, hs, h, hd, rfl, rfl⟩
    · obtain ⟨m', L', kn', -, hc⟩ := h.step h0 hn hst
      omega
  | succ n ih =>
    intro W W' m L kn hm hs h
    rcases h.progress h0 buf with hd | ⟨r, W1', hst⟩
    · exfalso
      have : (ranks.map (W'.todo m)).sum = 0 := by
        apply sum_zero
        intro r hr
        have hrun := h.runs r hr
        rw [(hd r hr).1] at hrun
        generalize G.drop (W'.left r) = gs at hrun
        generalize hmr : m r = mr at hrun
        generalize L r = Lr at hrun
        generalize fin r = Fr at hrun
        cases hrun
        unfold World.todo
        omega
      omega
    · obtain ⟨m1, L1, kn1, hm1, hc1⟩ := h.step h0 hn hst
      have hr : r ∈ ranks := by
        by_contra hr
        rw [World.step, h.idle r hr] at hst
        cases hst
      have hnr : ∀ a, W'.procs r ≠ .ret a := by
        intro a ha
        rw [World.step, ha] at hst
        cases hst
      rcases hs.both (buf := buf) h0 h hr hnr with ⟨-, e⟩ | ⟨W1, W2', e1, e2, e3, e4⟩
      · rw [e] at hst; cases hst
      · rw [hst, Option.some.injEq] at e2
        subst e2
        obtain ⟨sched, T, T', m', L', kn', a1, a2, a3, a4, a5, a6⟩ := ih W1 W1' m1 L1 kn1 (by omega) e3 hm1
        refine ⟨r :: sched, T, T', m', L', kn', ?_, a2, a3, a4, by rw [List.length_cons, a5], ?_⟩
        · rw [World.run, e1]; exact a1
        · rw [a6]
          unfold waiting
          congr 1
          exact List.map_congr_left fun r' _ => e4 r'

/-- Then the ranks call the collectives in which they wait. -/
theorem Sim.call (hn : ranks.Nodup) (hres : ∀ r ∈ ranks, r ≠ 0 → res r = none)
    (h : Mid own (fun _ => Free) ranks G res fin W' m L kn) (hd : ∀ r ∈ ranks, W'.procs r = .ret (res r)) :
    ∀ (todo : List Int), todo.Nodup → (∀ r ∈ todo, r ∈ ranks ∧ r ≠ 0) → ∀ (W : World α R), Sim W W' →
      (∀ r ∈ ranks, r ≠ 0 → r ∉ todo → W.inside r = true) →
    ∃ sched T, W.run buf ranks sched = some T ∧ Sim T W' ∧ (∀ r ∈ ranks, r ≠ 0 → T.inside r = true) ∧
      sched.length + waiting ranks W W' = waiting ranks T W'
  | [], _, _, W, hs, hin => ⟨[], W, rfl, hs, fun r hr hz => hin r hr hz (by simp), by simp⟩
  | r :: todo, hnd, htodo, W, hs, hin => by
    obtain ⟨hr, hz⟩ := htodo r (List.mem_cons_self ..)
    obtain ⟨hnin, hnd'⟩ := List.nodup_cons.1 hnd
    have hrest : ∀ r ∈ todo, r ∈ ranks ∧ r ≠ 0 := fun r' h' => htodo r' (List.mem_cons_of_mem _ h')
    rcases hs.at' r with ⟨h1, h2, h3, h4⟩ | ⟨h1, h2, h3, h4, h5⟩
    · rw [hd r hr, hres r hr hz] at h1
      generalize hp : W.procs r = p at h1
      cases h1 with
      | @stop c k =>
        obtain ⟨W1, e1, e2, e3, e4⟩ := hs.enter (buf := buf) h hn hr hz hp (by rw [hd r hr, hres r hr hz]) h3 h4
        obtain ⟨sched, T, a1, a2, a3, a4⟩ := Sim.call hn hres h hd todo hnd' hrest W1 e2 (by
          intro r' hr' hz' hn'
          by_cases e : r' = r
          · rw [e]; exact e4
          · rw [World.step, hp] at e1
            have hin : W.inside r = false := by
              rw [h4]
              exact h.rest hr (by intro c k hc; rw [hd r hr] at hc; cases hc)
            simp only [hin, Bool.false_eq_true, if_false, Option.some.injEq] at e1
            rw [← e1]
            simp only [updRank_ne _ _ e]
            exact ‹∀ r ∈ ranks, r ≠ 0 → r ∉ _ → W.inside r = true› r' hr' hz' (by simp [e, hn']))
        refine ⟨r :: sched, T, by rw [World.run, e1]; exact a1, a2, a3, ?_⟩
        rw [List.length_cons]
        omega
    · refine Sim.call hn hres h hd todo hnd' hrest W hs ?_
      intro r' hr' hz' hn'
      by_cases e : r' = r
      · rw [e]; exact h5
      · exact hin r' hr' hz' (by simp [e, hn'])

/-- Rank 0 ends, the others block: then the ranks hang. -/
theorem hangs_of_blocks (buf : Nat → Bool) (procs : Int → Prog α R) (S0 : Store α) (n : Int → Nat) (x : R)
    (h0 : (0 : Int) ∈ ranks) (hn : ranks.Nodup) (hroot : Runs own 0 (· = x) (fin 0) (procs 0) (n 0) S0 [] G)
    (hblocks : ∀ r ∈ ranks, r ≠ 0 → Blocks own r (fin r) (procs r) (n r) S0 [] G)
    (hidle : ∀ r, r ∉ ranks → ∃ a, procs r = .ret a)
    (hfree : ∀ name ci, own name ci ∉ ranks → S0.chunks name ci = none) :
    (World.start procs S0).Hangs buf ranks x (joint own ranks fin) := by
  have hcut : ∀ r, ∃ p' res, Cut (procs r) p' ∧ (r = 0 → p' = (procs r).full) ∧ (r ∈ ranks → r ≠ 0 → res = none) ∧
      (r = 0 → res = some x) ∧
      (r ∈ ranks → Runs own r (· = res) (fin r) p' (n r) S0 [] G) ∧ (r ∉ ranks → p' = .ret res) := by
    intro r
    by_cases hr : r ∈ ranks
    · by_cases hz : r = 0
      · subst hz
        refine ⟨_, some x, Cut.full _, fun _ => rfl, fun _ h => absurd rfl h, fun _ => rfl, fun _ => ?_, fun h => absurd hr h⟩
        have := hroot.bind (f := fun x => (.ret (some x) : Prog α (Option R))) (gs' := []) (n' := 0) (L'' := fin 0)
          (Q' := (· = some x)) (by rintro y rfl; exact .ret rfl)
        rw [List.append_nil] at this
        exact this
      · obtain ⟨p', h1, h2⟩ := (hblocks r hr hz).cut
        exact ⟨p', none, h1, fun h => absurd h hz, fun _ _ => rfl, fun h => absurd h hz, fun _ => h2, fun h => absurd hr h⟩
    · obtain ⟨a, ha⟩ := hidle r hr
      have hz : r ≠ 0 := fun e => hr (e ▸ h0)
      exact ⟨.ret (some a), some a, by rw [ha]; exact .ret, fun h => absurd h hz, fun h => absurd h hr, fun h => absurd h hz,
        fun h => absurd h hr, fun _ => rfl⟩
  choose procs' res c1 c2 c3 c4 c5 c6 using hcut
  have hmid : Mid own (fun _ => Free) ranks G res fin (World.start procs' S0) n (fun _ => S0) (fun _ => []) := Mid.start c5 c6 hfree
  have hsim : Sim (World.start procs S0) (World.start procs' S0) := ⟨rfl, fun r => .same (c1 r) (c2 r) rfl rfl⟩
  have hw0 : waiting ranks (World.start procs S0) (World.start procs' S0) = 0 := sum_zero _ _ fun _ _ => rfl
  refine ⟨(ranks.map ((World.start procs' S0).todo n)).sum + (ranks.length - 1), ?_⟩
  intro sched A hA
  obtain ⟨A', m1, L1, kn1, s1, md1, i1, n1⟩ := Sim.run h0 hn sched _ A _ _ _ _ hsim hmid hidle hA
  obtain ⟨sched2, B, B', m2, L2, kn2, r2, s2, md2, d2, n2, w2⟩ := Sim.finish (buf := buf) h0 hn _ A A' m1 L1 kn1 rfl s1 md1
  obtain ⟨sched3, T, r3, s3, d3, n3⟩ := Sim.call (buf := buf) hn c3 md2 (fun r hr => (d2 r hr).1) (ranks.filter (· ≠ 0))
    (hn.filter _) (by intro r hr; simpa using hr) B s2 (by
      intro r hr hz hn'
      exact absurd (by simp [hr, hz]) hn')
  have hproc0 : T.procs 0 = .ret x := by
    rcases s3.at' 0 with ⟨h1, h2, _, _⟩ | ⟨h, _, _, _, _⟩
    · rw [(d2 0 h0).1, c4 0 rfl] at h1
      generalize T.procs 0 = p at h1 ⊢
      cases h1
      rfl
    · exact absurd rfl h
  have hwait : ∀ r ∈ ranks, r ≠ 0 → ∃ c k, T.procs r = .coll c k ∧ B'.procs r = .ret none ∧ T.log r = B'.log r ++ [c] ∧
      T.inside r = true := by
    intro r hr hz
    rcases s3.at' r with ⟨h1, h2, h3, h4⟩ | @⟨c, k, h1, h2, h3, h4, h5⟩
    · exfalso
      rw [d3 r hr hz] at h4
      have := md2.rest hr (by intro c k hc; rw [(d2 r hr).1] at hc; cases hc)
      rw [this] at h4
      cases h4
    · exact ⟨c, k, h2, h3, h4, h5⟩
  refine ⟨sched2 ++ sched3, T, by rw [run_append r2]; exact r3, ?_, hproc0, ?_, ?_, ?_⟩
  · intro r
    by_cases hr : r ∈ ranks
    · by_cases hz : r = 0
      · subst hz
        rw [World.step, hproc0]
      · obtain ⟨c, k, e1, e2, e3, e4⟩ := hwait r hr hz
        exact s3.stuck h0 md2 hr hz e1 e2 e3 e4
    · obtain ⟨a, ha⟩ := i1 r hr
      have : ∀ (s : List Int) (W W1 : World α R), W.run buf ranks s = some W1 → W.procs r = .ret a → W1.procs r = .ret a := by
        intro s
        induction s with
        | nil => intro W W1 h hp; cases h; exact hp
        | cons b s ih =>
          intro W W1 h hp
          rw [World.run] at h
          cases hst : W.step buf ranks b with
          | none => rw [hst] at h; cases h
          | some W2 =>
            rw [hst] at h
            exact ih W2 W1 h (step_idle hst hp)
      rw [World.step, this _ _ _ r3 (this _ _ _ r2 ha)]
  · intro r hr hz
    obtain ⟨c, k, e, -⟩ := hwait r hr hz
    exact ⟨c, k, e⟩
  · rw [s3.store]
    have h1 : B'.store.infos = (fin 0).infos := by rw [md2.infos, (d2 0 h0).2]
    have h2 : B'.store.chunks = (joint own ranks fin).chunks := by
      funext name ci
      simp only [joint]
      split_ifs with ho
      · rw [md2.mine _ ho name ci rfl, (d2 _ ho).2]
      · exact md2.free name ci ho
    cases hS : B'.store with
    | mk a b => rw [hS] at h1 h2; simp only at h1 h2; rw [h1, h2]; rfl
  · have hT : waiting ranks T B' = ranks.length - 1 := by
      have key : ∀ l : List Int, l.Nodup → (∀ r ∈ l, r ∈ ranks) →
          (l.map fun r => (T.log r).length - (B'.log r).length).sum + (if (0 : Int) ∈ l then 1 else 0) = l.length := by
        intro l
        induction l with
        | nil => intro _ _; rfl
        | cons a l ih =>
          intro hnd hmem
          obtain ⟨hna, hnd'⟩ := List.nodup_cons.1 hnd
          have := ih hnd' fun r hr => hmem r (List.mem_cons_of_mem _ hr)
          rw [List.map_cons, List.sum_cons, List.length_cons]
          by_cases hz : a = 0
          · subst hz
            rw [if_neg hna] at this
            rw [if_pos (List.mem_cons_self ..)]
            have h3 : T.log 0 = B'.log 0 := by
              rcases s3.at' 0 with ⟨_, _, h3, _⟩ | ⟨h, _, _, _, _⟩
              · exact h3
              · exact absurd rfl h
            rw [h3]
            omega
          · obtain ⟨c, k, -, -, e3, -⟩ := hwait a (hmem a (List.mem_cons_self ..)) hz
            rw [e3, List.length_append, List.length_singleton]
            have : ((0 : Int) ∈ a :: l) ↔ (0 : Int) ∈ l := by
              rw [List.mem_cons]
              exact ⟨fun h => h.resolve_left fun e => hz e.symm, .inr⟩
            simp only [this]
            omega
      have := key ranks hn fun _ h => h
      rw [if_pos h0] at this
      unfold waiting
      omega
    rw [List.length_append]
    omega
end

end Zarr
end FV3
