import Verif.Props.ZeroCopy
import Verif.Props.VectorHalo
import Verif.Proofs.LateSafe

/-!
# C17: repeating any update changes nothing

Scalar and vector halo updates and interface synchronisation; any number of repetitions.
-/

namespace FV3
variable {α : Type}

theorem arrayFor_same {o o' : List (Outgoing α)} (h : SameMessages o o') (r : Int) (off : Nat) :
    (arrayFor r off o = none ∧ arrayFor r off o' = none) ∨
      ∃ a a', arrayFor r off o = some a ∧ arrayFor r off o' = some a' ∧ a'.Eqv a := by
  unfold SameMessages at h
  induction h with
  | nil => exact Or.inl ⟨rfl, rfl⟩
  | @cons x x' o o' hx _ ih =>
    obtain ⟨e1, e2, e3⟩ := hx
    unfold arrayFor at ih ⊢
    simp only [List.find?_cons, e1, e2]
    by_cases hc : x.dst = r ∧ x.off = off
    · simp only [hc, and_self, decide_true, Option.map_some]
      exact Or.inr ⟨_, _, rfl, rfl, e3⟩
    · simp only [hc, decide_false]
      exact ih

/-- Storing arrays which are equal element by element. -/
theorem deliver_eqv {arr arr' : Int → Nat → Option (NDArray α)}
    (h : ∀ s o, (arr s o = none ∧ arr' s o = none) ∨
      ∃ a a', arr s o = some a ∧ arr' s o = some a' ∧ a'.Eqv a) (xs : List Incoming) (mem : Mem α) :
    deliver arr' xs mem = deliver arr xs mem := by
  induction xs generalizing mem with
  | nil => rfl
  | cons x xs ih =>
    unfold deliver
    rcases h x.src x.off with ⟨e1, e2⟩ | ⟨a, a', e1, e2, e3⟩
    · rw [e1, e2]
    · rw [e1, e2]
      dsimp only
      rw [Late.storeInto_eqv e3]
      cases storeInto mem x.q x.ix a with
      | error e => rfl
      | ok m => exact ih m

/-- Storing the same arrays into two memories of the same layout: an element is either covered and
the same in both afterwards, or not covered and unchanged in both. -/
theorem deliver_both {arr : Int → Nat → Option (NDArray α)} {xs : List Incoming} {mem mem' p p' : Mem α}
    (g : ∀ q, SameMeta (mem q) (p q)) (h : deliver arr xs mem = .ok mem') (h' : deliver arr xs p = .ok p')
    (q : Nat) (idx : List Nat) :
    (mem' q).data.get idx = (p' q).data.get idx ∨
      (mem' q).data.get idx = (mem q).data.get idx ∧ (p' q).data.get idx = (p q).data.get idx := by
  induction xs generalizing mem p with
  | nil =>
    simp only [deliver, Except.ok.injEq] at h h'
    subst h; subst h'
    exact Or.inr ⟨rfl, rfl⟩
  | cons x xs ih =>
    unfold deliver at h h'
    cases ha : arr x.src x.off with
    | none => rw [ha] at h; simp at h
    | some a =>
      rw [ha] at h h'
      obtain ⟨m, hm, h⟩ := bind_ok h
      obtain ⟨m2, hm2, h'⟩ := bind_ok h'
      have g' : ∀ q, SameMeta (m q) (m2 q) := fun q =>
        ((storeInto_meta hm q).symm.trans (g q)).trans (storeInto_meta hm2 q)
      rcases ih g' h h' with e | ⟨e1, e2⟩
      · exact Or.inl e
      · obtain ⟨rs, hr, -, hmm⟩ := storeInto_ok hm
        obtain ⟨rs2, hr2, -, hmm2⟩ := storeInto_ok hm2
        rw [(g x.q).shape] at hr2
        rw [hr] at hr2
        simp only [Except.ok.injEq] at hr2
        subst hr2
        rw [e1, e2, hmm, hmm2]
        by_cases e : q = x.q
        · subst e
          simp only [if_true, NDArray.assign]
          cases unview rs idx with
          | some rel => exact Or.inl rfl
          | none => exact Or.inr ⟨rfl, rfl⟩
        · simp [if_neg e]

variable [Neg α] {l : Layout} {m : Int → Mem α} {op : Op α}

/-- The outcome of an update on the ranks. -/
theorem updateStep_unique {p p' q q' : Int → Mem α} (h : UpdateStep l op p q) (h' : UpdateStep l op p' q')
    (e : ∀ r ∈ allRanks l, p' r = p r) : ∀ r ∈ allRanks l, q' r = q r := by
  intro r hr
  obtain ⟨-, i, hi, hd⟩ := h r hr
  obtain ⟨-, i', hi', hd'⟩ := h' r hr
  rw [e r hr] at hi' hd'
  rw [hi] at hi'
  simp only [Except.ok.injEq] at hi'
  subst hi'
  have hp : packedFor l op p' r = packedFor l op p r := by
    funext src off
    unfold packedFor
    by_cases hs : src ∈ allRanks l
    · rw [if_pos hs, if_pos hs, e src hs]
    · rw [if_neg hs, if_neg hs]
  rw [hp, hd] at hd'
  exact (Except.ok.inj hd').symm

/-- An update repeated at once changes nothing. -/
theorem updateStep_again (hx : 0 < l.x) (hsq : l.y = l.x) (hst : op.isStart = true)
    (hready : UpdateReady l m op) {m1 m2 : Int → Mem α} (h1 : UpdateStep l op m m1)
    (h2 : UpdateStep l op m1 m2) : ∀ r ∈ allRanks l, m2 r = m1 r := by
  have gm : ∀ r ∈ allRanks l, ∀ q, SameMeta (m r q) (m1 r q) := by
    intro r hr
    obtain ⟨-, i, -, hd⟩ := h1 r hr
    exact (deliver_get hd).1
  have hsame : ∀ r s o, (packedFor l op m r s o = none ∧ packedFor l op m1 r s o = none) ∨
      ∃ a a', packedFor l op m r s o = some a ∧ packedFor l op m1 r s o = some a' ∧ a'.Eqv a := by
    intro r s off
    unfold packedFor
    by_cases hs : s ∈ allRanks l
    · rw [if_pos hs, if_pos hs]
      obtain ⟨-, i, hi, hd⟩ := h1 s hs
      obtain ⟨o, o', e1, e2, e3⟩ := C24_sends_unchanged hx hsq hst hready hs
        (fun q => SameMeta.refl _) hi (packedFor l op m s) i (fun _ h => h) hd
      rw [e1, e2]
      exact arrayFor_same e3 r off
    · rw [if_neg hs, if_neg hs]; exact Or.inl ⟨rfl, rfl⟩
  intro r hr
  obtain ⟨-, i, hi, hd⟩ := h1 r hr
  obtain ⟨-, i', hi', hd'⟩ := h2 r hr
  have ei : i' = i := Late.inn_meta (fun q _ => gm r hr q) hi hi'
  subst ei
  rw [deliver_eqv (hsame r)] at hd'
  funext q
  refine quantity_ext ((deliver_get hd').1 q) fun idx => ?_
  rcases deliver_both (gm r hr) hd hd' q idx with e | ⟨-, e⟩
  · exact e.symm
  · exact e

/-- Repeating an update any number of times. -/
theorem callsRun_repeat {c : Call α} (hc : c.start = some op) (hx : 0 < l.x) (hsq : l.y = l.x)
    (hready : UpdateReady l m op) {m1 : Int → Mem α} (h1 : UpdateStep l op m m1) (k : Nat)
    {p p' : Int → Mem α} (hp : ∀ r ∈ allRanks l, p r = m1 r) (hk : CallsRun l (List.replicate k c) p p') :
    ∀ r ∈ allRanks l, p' r = m1 r := by
  have hst : op.isStart = true := by cases c <;> simp [Call.start] at hc <;> subst hc <;> rfl
  induction k generalizing p with
  | zero => exact fun r hr => (hk r hr).trans (hp r hr)
  | succ k ih =>
    obtain ⟨p1, hs, hr⟩ := hk
    rw [callStep_start hc] at hs
    have hs' : UpdateStep l op m1 p1 := by
      intro r hr
      have e : packedFor l op m1 r = packedFor l op p r := by
        funext src off
        unfold packedFor
        by_cases hs : src ∈ allRanks l
        · rw [if_pos hs, if_pos hs, hp src hs]
        · rw [if_neg hs, if_neg hs]
      rw [← hp r hr, e]
      exact hs r hr
    exact ih (updateStep_again hx hsq hst hready h1 hs') hr

/-- **C17** for every kind of update: calling `halo_update`, `vector_halo_update` or
`synchronize_vector_interfaces` several times in a row leaves exactly the same quantities on every rank as
calling it once. -/
theorem C17_repeat {c : Call α} (hc : c.start = some op) (hx : 0 < l.x) (hsq : l.y = l.x)
    (hready : UpdateReady l m op) (k : Nat) (buf buf' : Buffering) :
    ∃ m1 m2 : Int → Mem α,
      ((callNet l [c] m).Completes buf fun r =>
        (.ok (), ⟨m1 r, if r ∈ allRanks l then c.nTags else 0, []⟩)) ∧
      ((callNet l (List.replicate (k + 1) c) m).Completes buf' fun r =>
        (.ok (), ⟨m2 r, if r ∈ allRanks l then (k + 1) * c.nTags else 0, []⟩)) ∧
      ∀ r ∈ allRanks l, m2 r = m1 r := by
  have hcomp : ∀ f, c ≠ .compute f := by
    rintro f rfl; simp [Call.start] at hc
  have hrdy : ∀ c', c' = c → ∀ op', c'.start = some op' → UpdateReady l m op' := by
    rintro _ rfl op' ho
    rw [hc] at ho
    cases ho
    exact hready
  obtain ⟨m1, ⟨a, a1, a2⟩, h1⟩ := C22_blocking_calls (calls := [c]) hx hsq
    (fun c' h => hrdy c' (List.mem_singleton.1 h))
    (fun f hf => absurd (List.mem_singleton.1 hf).symm (hcomp f)) buf
  obtain ⟨m2, ⟨b, b1, b2⟩, h2⟩ := C22_blocking_calls (calls := List.replicate (k + 1) c) hx hsq
    (fun c' h => hrdy c' (List.mem_replicate.1 h).2)
    (fun f hf => absurd (List.mem_replicate.1 hf).2.symm (hcomp f)) buf'
  rw [callStep_start hc] at a1 b1
  refine ⟨m1, m2, ?_, ?_, fun r hr => ?_⟩
  · simpa using h1
  · simpa [List.map_replicate, List.sum_replicate_nat] using h2
  · rw [a2 r hr]
    exact callsRun_repeat hc hx hsq hready a1 k (updateStep_unique a1 b1 fun _ _ => rfl) b2 r hr

/-- **C17** for vectors: two layouts with samples of the same vector field on the cube get the same halos:
the components at the same point of a tile are equal, inside the compute domain or in the halo. -/
theorem C17_vector_layout_independent {l' : Layout} {p : Int → Mem α} {x y ky kx : Nat} {n h n' h' : Int}
    (hx : 0 < l.x) (hsq : l.y = l.x) (hh : 0 < h) (hn : h ≤ n) (S : VectorField l m x y ky kx n h)
    (hx' : 0 < l'.x) (hsq' : l'.y = l'.x) (hh' : 0 < h') (hn' : h' ≤ n')
    (S' : VectorField l' p x y ky kx n' h') (hxy : x ≠ y) (hN : l.x * n = l'.x * n')
    (V : Vec3 → (Nat → Int) → Vec3 → α) (hV : ∀ P o e, V P o e.neg = -V P o e)
    (hF : VectorSampleOf l m x y ky kx n V) (hF' : VectorSampleOf l' p x y ky kx n' V)
    (buf buf' : Buffering) :
    ∃ m1 p1 : Int → Mem α,
      ((callNet l [.vectorHaloUpdate x y h] m).Completes buf fun r =>
        (.ok (), ⟨m1 r, if r ∈ allRanks l then 2 else 0, []⟩)) ∧
      ((callNet l' [.vectorHaloUpdate x y h'] p).Completes buf' fun r =>
        (.ok (), ⟨p1 r, if r ∈ allRanks l' then 2 else 0, []⟩)) ∧
      ∀ c, c = x ∨ c = y → ∀ r idx r' idx' t a b,
        AtTile l m c ky kx n r idx t a b → InHalo (m r c) ky kx h idx →
        AtTile l' p c ky kx n' r' idx' t a b → InHalo (p r' c) ky kx h' idx' →
        (m r c).otherPos ky kx idx = (p r' c).otherPos ky kx idx' →
        SingleCross (l.x * n) a b →
        (m1 r c).data.get idx = (p1 r' c).data.get idx' := by
  obtain ⟨m1, a1, a2, a3⟩ := C19_vector_halo_update_field hx hsq hh hn hxy S buf V hV hF
  obtain ⟨p1, b1, b2, b3⟩ := C19_vector_halo_update_field hx' hsq' hh' hn' hxy S' buf' V hV hF'
  refine ⟨m1, p1, a1, b1, ?_⟩
  rintro c (rfl | rfl) r idx r' idx' t a b c1 c2 c3 c4 ho hsc
  · rw [a2 r idx t a b c1 c2 hsc, b2 r' idx' t a b c3 c4 (by rw [← hN]; exact hsc), ho, hN]
  · rw [a3 r idx t a b c1 c2 hsc, b3 r' idx' t a b c3 c4 (by rw [← hN]; exact hsc), ho, hN]

/-! ### Concrete cases -/

/-- Scalars, vectors and synchronisation, repeated, on a `2 × 2` layout. -/
example (F : Vec3 → (Nat → Int) → Int) (f : Int → Nat → List Nat → Int) (buf buf' : Buffering) :
    ∃ m1 m2 : Int → Mem Int,
      ((callNet ⟨2, 2⟩ [.haloUpdate 2 2] (exMixMem ⟨2, 2⟩ F f)).Completes buf fun r =>
        (.ok (), ⟨m1 r, if r ∈ allRanks ⟨2, 2⟩ then 1 else 0, []⟩)) ∧
      ((callNet ⟨2, 2⟩ (List.replicate 4 (.haloUpdate 2 2)) (exMixMem ⟨2, 2⟩ F f)).Completes buf' fun r =>
        (.ok (), ⟨m2 r, if r ∈ allRanks ⟨2, 2⟩ then 4 else 0, []⟩)) ∧
      ∀ r ∈ allRanks ⟨2, 2⟩, m2 r = m1 r :=
  C17_repeat (l := ⟨2, 2⟩) (op := .halo 2 2) (c := .haloUpdate 2 2) rfl (by decide) rfl
    ⟨0, 1, 3, by decide, by decide, exMix_scalar _ _ _ 2 (by decide)⟩ 3 buf buf'

example (V : Vec3 → (Nat → Int) → Vec3 → Int) (buf buf' : Buffering) :
    ∃ m1 m2 : Int → Mem Int,
      ((callNet ⟨2, 2⟩ [.vectorHaloUpdate 0 1 2] (exWindMem ⟨2, 2⟩ V)).Completes buf fun r =>
        (.ok (), ⟨m1 r, if r ∈ allRanks ⟨2, 2⟩ then 2 else 0, []⟩)) ∧
      ((callNet ⟨2, 2⟩ (List.replicate 2 (.vectorHaloUpdate 0 1 2)) (exWindMem ⟨2, 2⟩ V)).Completes buf'
        fun r => (.ok (), ⟨m2 r, if r ∈ allRanks ⟨2, 2⟩ then 4 else 0, []⟩)) ∧
      ∀ r ∈ allRanks ⟨2, 2⟩, m2 r = m1 r :=
  C17_repeat (l := ⟨2, 2⟩) (op := .vector 0 1 2) (c := .vectorHaloUpdate 0 1 2) rfl (by decide) rfl
    ⟨1, 2, 3, by decide, by decide, exWind_vector _ _⟩ 1 buf buf'

example (f : Int → Nat → List Nat → Int) (buf buf' : Buffering) :
    ∃ m1 m2 : Int → Mem Int,
      ((callNet ⟨2, 2⟩ [.synchronize 0 1] (exEdgeMem f)).Completes buf fun r =>
        (.ok (), ⟨m1 r, if r ∈ allRanks ⟨2, 2⟩ then 1 else 0, []⟩)) ∧
      ((callNet ⟨2, 2⟩ (List.replicate 3 (.synchronize 0 1)) (exEdgeMem f)).Completes buf'
        fun r => (.ok (), ⟨m2 r, if r ∈ allRanks ⟨2, 2⟩ then 3 else 0, []⟩)) ∧
      ∀ r ∈ allRanks ⟨2, 2⟩, m2 r = m1 r :=
  C17_repeat (l := ⟨2, 2⟩) (op := .sync 0 1) (c := .synchronize 0 1) rfl (by decide) rfl
    ⟨0, 1, 3, exEdge_field _ _⟩ 2 buf buf'

/-- D-grid winds with `n × n` cells per rank and two halo points. -/
def wideWindQ (l : Layout) (n : Nat) (V : Vec3 → (Nat → Int) → Vec3 → Int) (c : Nat) (r : Int) :
    Quantity Int :=
  let t := match tileIndex l r with | .ok t => t | .error _ => 0
  let shape := if c = 0 then [2, n + 5, n + 4] else [2, n + 4, n + 5]
  let q0 : Quantity Int :=
    { data := ⟨shape, fun _ => 0⟩
      dims := if c = 0 then [.z, .yI, .x] else [.z, .y, .xI], units := "m/s", origin := [0, 2, 2],
      extent := if c = 0 then [2, n + 1, n] else [2, n, n + 1] }
  { q0 with data := ⟨shape, fun idx =>
      V (pos (l.x * n) t (q0.tilePos n (subtileIndex l r).2 idx 2)
        (q0.tilePos n (subtileIndex l r).1 idx 1)) (q0.otherPos 1 2 idx)
        (if c = 0 then (face t).ex else (face t).ey)⟩ }

def wideWindMem (l : Layout) (n : Nat) (V : Vec3 → (Nat → Int) → Vec3 → Int) : Int → Mem Int :=
  fun r c => wideWindQ l n V c r

theorem wideWind_ready (l : Layout) (n : Nat) (V : Vec3 → (Nat → Int) → Vec3 → Int) (r : Int) (c : Nat)
    (hc : c = 0 ∨ c = 1) : HaloReady (wideWindMem l n V r c) 1 2 n 2 := by
  rcases hc with rfl | rfl
  · refine ⟨⟨⟨rfl, rfl, rfl⟩, ?_⟩, exWind_axes 0, ?_, ?_, ?_, ?_⟩
    · intro k hk
      have hk' : k < 3 := hk
      match k, hk' with
      | 0, _ =>
        show (0 : Int) ≤ 0 ∧ (0 : Int) ≤ 2 ∧ (0 : Int) + 2 ≤ ((2 : Nat) : Int)
        decide
      | 1, _ =>
        show (0 : Int) ≤ 2 ∧ (0 : Int) ≤ n + 1 ∧ (2 : Int) + (n + 1) ≤ ((n + 5 : Nat) : Int)
        omega
      | 2, _ =>
        show (0 : Int) ≤ 2 ∧ (0 : Int) ≤ n ∧ (2 : Int) + n ≤ ((n + 4 : Nat) : Int)
        omega
    · show (n : Int) + 1 = n + 1; rfl
    · show (n : Int) = n + 0; omega
    · show (2 : Int) ≤ 2 ∧ (2 : Int) + (n + 1) + 2 ≤ ((n + 5 : Nat) : Int)
      omega
    · show (2 : Int) ≤ 2 ∧ (2 : Int) + n + 2 ≤ ((n + 4 : Nat) : Int)
      omega
  · refine ⟨⟨⟨rfl, rfl, rfl⟩, ?_⟩, exWind_axes 1, ?_, ?_, ?_, ?_⟩
    · intro k hk
      have hk' : k < 3 := hk
      match k, hk' with
      | 0, _ =>
        show (0 : Int) ≤ 0 ∧ (0 : Int) ≤ 2 ∧ (0 : Int) + 2 ≤ ((2 : Nat) : Int)
        decide
      | 1, _ =>
        show (0 : Int) ≤ 2 ∧ (0 : Int) ≤ n ∧ (2 : Int) + n ≤ ((n + 4 : Nat) : Int)
        omega
      | 2, _ =>
        show (0 : Int) ≤ 2 ∧ (0 : Int) ≤ n + 1 ∧ (2 : Int) + (n + 1) ≤ ((n + 5 : Nat) : Int)
        omega
    · show (n : Int) = n + 0; omega
    · show (n : Int) + 1 = n + 1; rfl
    · show (2 : Int) ≤ 2 ∧ (2 : Int) + n + 2 ≤ ((n + 4 : Nat) : Int)
      omega
    · show (2 : Int) ≤ 2 ∧ (2 : Int) + (n + 1) + 2 ≤ ((n + 5 : Nat) : Int)
      omega

theorem wideWind_vector (l : Layout) (n : Nat) (V : Vec3 → (Nat → Int) → Vec3 → Int) :
    VectorField l (wideWindMem l n V) 0 1 1 2 n 2 := by
  refine ⟨fun r _ => wideWind_ready l n V r 0 (by simp), fun r _ => wideWind_ready l n V r 1 (by simp),
    fun _ _ _ _ => rfl, fun _ _ _ _ => rfl, fun _ _ => rfl, ?_, fun _ _ => rfl, fun _ _ => rfl⟩
  intro r _ r' _ k hk h1 h2
  have hk' : k < 3 := hk
  have : k = 0 := by omega
  subst this
  rfl

theorem wideWind_sample (l : Layout) (n : Nat) (V : Vec3 → (Nat → Int) → Vec3 → Int) :
    VectorSampleOf l (wideWindMem l n V) 0 1 1 2 n V := by
  intro r idx P others t ht
  constructor
  · rintro ⟨h1, h2, t', a, b, h3, h4⟩
    have : t' = t := by have := h3.tile; rw [ht] at this; exact (Except.ok.inj this).symm
    subst this
    rw [← h2, ← h4, h3.x, h3.y]
    show V (pos (l.x * n) (match tileIndex l r with | .ok t => t | .error _ => 0) _ _) _
      (if (0 : Nat) = 0 then (face (match tileIndex l r with | .ok t => t | .error _ => 0)).ex
        else (face (match tileIndex l r with | .ok t => t | .error _ => 0)).ey) = _
    rw [h3.tile]
    rfl
  · rintro ⟨h1, h2, t', a, b, h3, h4⟩
    have : t' = t := by have := h3.tile; rw [ht] at this; exact (Except.ok.inj this).symm
    subst this
    rw [← h2, ← h4, h3.x, h3.y]
    show V (pos (l.x * n) (match tileIndex l r with | .ok t => t | .error _ => 0) _ _) _
      (if (1 : Nat) = 0 then (face (match tileIndex l r with | .ok t => t | .error _ => 0)).ex
        else (face (match tileIndex l r with | .ok t => t | .error _ => 0)).ey) = _
    rw [h3.tile]
    rfl

/-- A vector field on the cube, on `2 × 2` ranks of `3 × 3` cells and on one rank of `6 × 6` cells
per tile. -/
example (V : Vec3 → (Nat → Int) → Vec3 → Int) (hV : ∀ P o e, V P o e.neg = -V P o e)
    (buf buf' : Buffering) :=
  C17_vector_layout_independent (l := ⟨2, 2⟩) (l' := ⟨1, 1⟩) (n := 3) (n' := 6) (h := 2) (h' := 2)
    (by decide) rfl (by decide) (by decide) (wideWind_vector ⟨2, 2⟩ 3 V)
    (by decide) rfl (by decide) (by decide) (wideWind_vector ⟨1, 1⟩ 6 V) (by decide) (by decide) V hV
    (wideWind_sample ⟨2, 2⟩ 3 V) (wideWind_sample ⟨1, 1⟩ 6 V) buf buf'

end FV3
