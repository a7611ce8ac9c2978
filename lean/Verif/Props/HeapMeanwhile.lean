import Verif.Props.HeapTogether
import Verif.Props.HeapState

/-!
# C88: a scatter while a halo update is outstanding
-/

namespace FV3
namespace Heap
open Mem (World Gt4py Reachable)
variable {α : Type} [Inhabited α] [Neg α] {g : Gt4py} {l : Layout}

omit [Inhabited α] [Neg α] in
theorem one_wait_started {q : Nat} {w : Int} : HWaitsStarted ([.halo q w, .wait 0] : List (HOp α)) := by
  intro pre i post e
  rcases pre with _ | ⟨d0, _ | ⟨d1, pre⟩⟩
  · cases e
  · cases e
    simp [HOp.start]
  · cases pre <;> cases e

omit [Inhabited α] [Neg α] in
theorem one_wait_once {q : Nat} {w : Int} : HWaitsOnce ([.halo q w, .wait 0] : List (HOp α)) := by
  intro pre i mid post e
  rcases pre with _ | ⟨d0, _ | ⟨d1, pre⟩⟩
  · cases e
  · cases mid <;> cases e
  · cases pre <;> cases e

omit [Inhabited α] [Neg α] in
theorem inHalo_same {q q' : Quantity α} (m : SameMeta q q') {ky kx : Nat} {w : Int} {idx : List Nat} (h : InHalo q' ky kx w idx) :
    InHalo q ky kx w idx := by
  obtain ⟨h1, h2, h3, h4, h5⟩ := h
  have hn : q'.ndim = q.ndim := m.ndim
  have ho : ∀ k, q'.o k = q.o k := fun k => by simp only [Quantity.o, m.origin]
  have he : ∀ k, q'.e k = q.e k := fun k => by simp only [Quantity.e, m.extent]
  simp only [Quantity.rel, Quantity.InDom, hn, ho, he] at h1 h2 h3 h4 h5
  exact ⟨h1, h2, h3, h4, h5⟩

omit [Neg α] in
/-- Data of which no cell has changed. -/
theorem OnlyCells.get {P : Nat → List Nat → Prop} {W W1 : World α} (h : OnlyCells P W W1) {k : Nat} {idx : List Nat}
    (hk : ∀ a, Cell W k idx a → ∀ h' idx', P h' idx' → ¬ Cell W h' idx' a) :
    (quantities W1 k).data.get idx = (quantities W k).data.get idx := by
  have e := dataOf_congr h.arrs h.objs k
  cases hy : dataOf W k with
  | error er =>
    unfold quantities value
    rw [e, hy]
    rfl
  | ok y =>
    rw [quantities_eq hy, quantities_eq (e.trans hy)]
    show (clip _).get idx = (clip _).get idx
    unfold clip
    by_cases hin : InB y.2.1.view.shape idx
    · refine (if_pos hin).trans (Eq.trans ?_ (if_pos hin).symm)
      rcases h.mem (y.2.1.view.addr idx) with hm | ⟨h', idx', hp, hc⟩
      · exact hm
      · exact absurd hc (hk _ ⟨y, hy, hin, rfl⟩ h' idx' hp)
    · exact (if_neg hin).trans (if_neg hin).symm

omit [Neg α] in
theorem OnlyCells.meta {P : Nat → List Nat → Prop} {W W1 : World α} (h : OnlyCells P W W1) (k : Nat) :
    SameMeta (quantities W k) (quantities W1 k) := by
  have e := dataOf_congr h.arrs h.objs k
  cases hy : dataOf W k with
  | ok y => rw [quantities_eq hy, quantities_eq (e.trans hy)]; exact ⟨rfl, rfl, rfl, rfl, rfl⟩
  | error er =>
    have : quantities W1 k = quantities W k := by
      unfold quantities value
      rw [e, hy]
      rfl
    rw [this]
    exact SameMeta.refl _

/-- **C88**: a halo update is started, a global quantity of the root is scattered, and then the update is waited for.  If the
compute domains of the quantities scattered into share no memory with the halo that is updated, both have their effect: the halo
holds what the owners of the points had at the start, and every rank has its part of the global quantity.  The quantity scattered
into may be the one that is updated, or share memory with its compute domain. -/
theorem C88_meanwhile (hl : FloatSafe l) (hsq : l.y = l.x) {W : Int → World α} (hW : ∀ r ∈ allRanks l, Reachable g (W r))
    {h ky kx : Nat} {n w : Int} (hh : 0 < w) (hn : w ≤ n) (S : ScalarField l (fun r => quantities (W r)) h ky kx n w)
    (hu : TReady l W (.update (.halo h w))) {send : Nat} {recv : Int → Nat} {dims : List Dim} {cells : List Int}
    (hf : CFits (.cube l) dims cells W (.scatter send recv))
    (ha : ∀ r ∈ allRanks l, ∀ idx idx' a, (quantities (W r) (recv r)).InCompute idx → Cell (W r) (recv r) idx a →
      InHalo (quantities (W r) h) ky kx w idx' → ¬ Cell (W r) h idx' a)
    (buf : Buffering) :
    ∃ W' : Int → World α,
      ((togetherNet g l [.update (.halo h w), .collective (.scatter send recv), .update (.wait 0)] W).Completes buf
        fun r => (.ok (), W' r)) ∧
      HaloFilled l h ky kx n w (fun r => quantities (W r)) (fun r => quantities (W' r)) ∧
      ∀ r ∈ allRanks l, IsPart (.cube l) dims cells (quantities (W 0) send) (quantities (W' r) (recv r)) r := by
  have hx := hl.xpos
  have h0 := zero_rank hl
  obtain ⟨W', st, h1, h2⟩ := C88_calls (ops := [.update (.halo h w), .collective (.scatter send recv), .update (.wait 0)]) hl hsq hW
    one_wait_started one_wait_once (fun x hx => by
      simp only [List.mem_cons, List.not_mem_nil, or_false] at hx
      rcases hx with rfl | rfl | rfl
      · exact hu
      · exact ⟨_, _, hf⟩
      · exact fun op ho => by cases ho) buf
  refine ⟨W', h2, ?_⟩
  obtain ⟨w0, w1, k1, k2, k3⟩ := together_wait (before := []) (between := [.collective (.scatter send recv)]) (o := .halo h w) rfl h1
  have k3 := k3.last (V0 := W) (V := W') (fun r hr => (k1.2 r hr).symm) (fun _ _ => rfl)
  have hkeep : ∀ r ∈ allRanks l, Keeps (W r) (w1.world r) := fun r hr => by
    have := (k2.keeps hr (by rw [k1.2 r hr]; exact (hW r hr).spec)).1
    rwa [k1.2 r hr] at this
  have hm : ∀ r ∈ allRanks l, SameMeta (quantities (W r) h) (quantities (w1.world r) h) := fun r hr => by
    obtain ⟨x, hx, hs⟩ := (usable_fit (hW r hr).spec ((hu (.halo h w) rfl).1 r hr)).2 h (by simp [Op.qs])
    have hx : dataOf (W r) h = .ok x := hx
    rw [quantities_eq hx, quantities_eq (hkeep r hr h _ hx hs)]
    exact ⟨rfl, rfl, rfl, rfl, rfl⟩
  obtain ⟨f1, f2⟩ := hwait_halo hx hsq hh hn S hm k3
  refine ⟨f1, fun r hr => ?_⟩
  obtain ⟨v, b1, v2, ⟨-, dims', cells', b2, b3⟩, b4⟩ := k2
  have ev : ∀ r ∈ (Comm.cube l).ranks, v.world r = W r := fun r hr =>
    (b1.2 r ((cube_ranks l r).1 hr)).trans (k1.2 r ((cube_ranks l r).1 hr))
  have e0 := b2.2.1
  have e1 := (b2.2.2 0 h0).1
  rw [ev 0 h0] at e0 e1
  obtain rfl : dims' = dims := (List.cons.inj (e0.names.symm.trans hf.2.1.names)).2
  obtain rfl : cells' = cells := cells_one e1.extent (hf.2.2 0 h0).1.extent
  obtain ⟨p1, -, p2⟩ := b3 r ((cube_ranks l r).2 hr)
  rw [ev 0 h0] at p1
  rw [ev r ((cube_ranks l r).2 hr), ← b4.2 r hr] at p2
  rw [← b4.2 r hr] at p1
  have o := f2 r hr
  have wf := (hf.2.2 r ((cube_ranks l r).2 hr)).1.wf
  have m1 := p2.meta (recv r)
  have m2 := o.meta (recv r)
  intro rel hrel
  have s1 : (quantities (W' r) (recv r)).computeArr.shape = (quantities (w1.world r) (recv r)).computeArr.shape := by
    simp only [Quantity.computeArr, m2.extent]
  have s2 : (quantities (w1.world r) (recv r)).computeArr.shape = (quantities (W r) (recv r)).computeArr.shape := by
    simp only [Quantity.computeArr, m1.extent]
  rw [s1] at hrel
  rw [← p1 rel hrel]
  rw [s2] at hrel
  have hin := (absIdx_ok _ wf rel hrel).2.1
  simp only [Quantity.computeArr, m2.origin, m1.origin]
  refine o.get fun a hc k idx' hp hc' => ?_
  obtain ⟨rfl, hp, -⟩ := hp
  exact ha r hr _ idx' a hin ((p2.cell _ _ _).1 hc) (inHalo_same (hm r hr) hp) ((p2.cell _ _ _).1 hc')

end Heap
end FV3
