import Verif.Spec.Halo
import Verif.Proofs.HaloGeometry

namespace FV3
variable {α : Type}

/-- Quantities of two ranks whose points match after `k` turns. -/
structure Match (qd qs : Quantity α) (ky kx : Nat) (k : Int) : Prop where
  ndim : qs.ndim = qd.ndim
  other : ∀ m, m < qd.ndim → m ≠ ky → m ≠ kx → qs.e m = qd.e m
  even : k % 2 = 0 → overlapOf (qs.d ky) = overlapOf (qd.d ky) ∧
    overlapOf (qs.d kx) = overlapOf (qd.d kx)
  odd : k % 2 = 1 → overlapOf (qs.d ky) = overlapOf (qd.d kx) ∧
    overlapOf (qs.d kx) = overlapOf (qd.d ky)

theorem overlapOf_01 (d : Dim) : overlapOf d = 0 ∨ overlapOf d = 1 := by
  unfold overlapOf; split <;> simp

/-- Ranges along an axis for direction `d`. -/
theorem recvRange_dir {b : BType} {d : Dim} {c : Int} (hc : dirAlong b d = c)
    (hc' : c = -1 ∨ c = 0 ∨ c = 1) (h o e : Int) :
    (c = -1 → recvRange b h d o e = (o - h, o)) ∧
    (c = 0 → recvRange b h d o e = (o, o + e)) ∧
    (c = 1 → recvRange b h d o e = (o + e, o + e + h)) := by
  unfold recvRange
  rw [hc]
  refine ⟨?_, ?_, ?_⟩ <;> intro e' <;> subst e' <;> simp

theorem sendRange_dir {b : BType} {d : Dim} {c : Int} (hc : dirAlong b d = c)
    (hc' : c = -1 ∨ c = 0 ∨ c = 1) (h o e : Int) :
    (c = -1 → sendRange b h d o e = (o + overlapOf d, o + overlapOf d + h)) ∧
    (c = 0 → sendRange b h d o e = (o, o + e)) ∧
    (c = 1 → sendRange b h d o e = (o + e - overlapOf d - h, o + e - overlapOf d)) := by
  unfold sendRange
  rw [hc]
  refine ⟨?_, ?_, ?_⟩ <;> intro e' <;> subst e' <;> simp

theorem rLen_dir {q : Quantity α} {b : BType} {m : Nat} {c : Int} (hc : dirAlong b (q.d m) = c)
    (hc' : c = -1 ∨ c = 0 ∨ c = 1) (h : Int) :
    rLen q b h m = (if c = 0 then q.e m else h).toNat := by
  have R := recvRange_dir hc hc' h (q.o m) (q.e m)
  unfold rLen
  rcases hc' with e | e | e
  · rw [R.1 e, e]; simp
  · rw [R.2.1 e, e]; simp
  · rw [R.2.2 e, e]; simp

theorem sLen_dir {q : Quantity α} {b : BType} {m : Nat} {c : Int} (hc : dirAlong b (q.d m) = c)
    (hc' : c = -1 ∨ c = 0 ∨ c = 1) (h : Int) :
    sLen q b h m = (if c = 0 then q.e m else h).toNat := by
  have R := sendRange_dir hc hc' h (q.o m) (q.e m)
  unfold sLen
  rcases hc' with e | e | e
  · rw [R.1 e, e]; simp
  · rw [R.2.1 e, e]; simp
  · rw [R.2.2 e, e]; simp

theorem HaloReady.sendFits {q : Quantity α} {ky kx : Nat} {n h : Int} (H : HaloReady q ky kx n h)
    (hh : 0 < h) (hn : h ≤ n) (b : BType) : SendFits q b h := by
  intro k hk
  obtain ⟨d1, d2, d3⟩ := b.dir_range
  have w := H.wf.inside k hk
  by_cases h1 : k = ky
  · subst h1
    have hd := dirAlong_y H.axes b
    have R := sendRange_dir hd d2 h (q.o k) (q.e k)
    have e1 := H.ey
    have e2 := H.haloY
    have o1 := overlapOf_01 (q.d k)
    rcases d2 with c | c | c
    · rw [R.1 c]; dsimp only; omega
    · rw [R.2.1 c]; dsimp only; omega
    · rw [R.2.2 c]; dsimp only; omega
  by_cases h2 : k = kx
  · subst h2
    have hd := dirAlong_x H.axes b
    have R := sendRange_dir hd d1 h (q.o k) (q.e k)
    have e1 := H.ex
    have e2 := H.haloX
    have o1 := overlapOf_01 (q.d k)
    rcases d1 with c | c | c
    · rw [R.1 c]; dsimp only; omega
    · rw [R.2.1 c]; dsimp only; omega
    · rw [R.2.2 c]; dsimp only; omega
  · have hd := dirAlong_other H.axes b hk h1 h2
    rw [(sendRange_dir hd (by omega) h (q.o k) (q.e k)).2.1 rfl]; dsimp only; omega

theorem HaloReady.recvFits {q : Quantity α} {ky kx : Nat} {n h : Int} (H : HaloReady q ky kx n h)
    (hh : 0 < h) (b : BType) : RecvFits q b h := by
  intro k hk
  obtain ⟨d1, d2, d3⟩ := b.dir_range
  have w := H.wf.inside k hk
  by_cases h1 : k = ky
  · subst h1
    have hd := dirAlong_y H.axes b
    have R := recvRange_dir hd d2 h (q.o k) (q.e k)
    have e2 := H.haloY
    rcases d2 with c | c | c
    · rw [R.1 c]; dsimp only; omega
    · rw [R.2.1 c]; dsimp only; omega
    · rw [R.2.2 c]; dsimp only; omega
  by_cases h2 : k = kx
  · subst h2
    have hd := dirAlong_x H.axes b
    have R := recvRange_dir hd d1 h (q.o k) (q.e k)
    have e2 := H.haloX
    rcases d1 with c | c | c
    · rw [R.1 c]; dsimp only; omega
    · rw [R.2.1 c]; dsimp only; omega
    · rw [R.2.2 c]; dsimp only; omega
  · have hd := dirAlong_other H.axes b hk h1 h2
    rw [(recvRange_dir hd (by omega) h (q.o k) (q.e k)).2.1 rfl]; dsimp only; omega

/-- Position of `idx` in the receive view. -/
def recvRel (q : Quantity α) (b : BType) (h : Int) (idx : List Nat) : List Nat :=
  tab q.ndim fun m => (at' idx m - rStart q b h m).toNat

/-- Direction of the boundary leading back. -/
theorem back_dirs {b : BType} {k : Int} (hk : k = 0 ∨ k = 1 ∨ k = 3) :
    (b.opposite.ccwN k.toNat).dx = (if k = 0 then -b.dx else if k = 1 then b.dy else -b.dy) ∧
    (b.opposite.ccwN k.toNat).dy = (if k = 0 then -b.dy else if k = 1 then -b.dx else b.dx) := by
  obtain ⟨h0, h1, h3⟩ := back_step b k.toNat (by omega)
  rcases hk with rfl | rfl | rfl
  · simpa using h0 rfl
  · simpa using h1 rfl
  · simpa using h3 rfl

section
variable {qd qs : Quantity α} {ky kx : Nat} {n h k k' : Int} {b : BType} {a : NDArray α}

/-- The turned array has the shape of the receive view. -/
theorem exchange_shape (hh : 0 < h) (Hd : HaloReady qd ky kx n h)
    (Hs : HaloReady qs ky kx n h) (M : Match qd qs ky kx k) (hk : k = 0 ∨ k = 1 ∨ k = 3)
    (hk' : k' % 4 = k)
    (ha : (sendArr qs (b.opposite.ccwN k.toNat) h).IsTurn ky kx k' a) :
    a.shape = tab qd.ndim (rLen qd b h) := by
  have ky_lt : ky < qd.ndim := Hd.axes.ylt
  have kx_lt : kx < qd.ndim := Hd.axes.xlt
  have hne := Hd.axes.dne
  obtain ⟨d1, d2, d3⟩ := b.dir_range
  obtain ⟨c1, c2⟩ := back_dirs (b := b) hk
  have hsl : (sendArr qs (b.opposite.ccwN k.toNat) h).shape.length = qd.ndim := by
    simp [sendArr, M.ndim]
  rw [ha.1]
  apply ext_getD 0 (by simp [hsl])
  intro m hm
  rw [length_turnShape, hsl] at hm
  rw [getD_turnShape hne (by omega) (by omega), getD_tab _ _ hm]
  have sg : ∀ m, m < qd.ndim → (sendArr qs (b.opposite.ccwN k.toNat) h).shape.getD m 0 =
      sLen qs (b.opposite.ccwN k.toNat) h m := fun m hm => by
    show (tab qs.ndim _).getD m 0 = _
    rw [getD_tab _ _ (by rw [M.ndim]; exact hm)]
  rw [sg m hm, sg ky ky_lt, sg kx kx_lt]
  have ey := Hd.ey
  have ex := Hd.ex
  have ey' := Hs.ey
  have ex' := Hs.ex
  have Lx : rLen qd b h kx = (if b.dx = 0 then qd.e kx else h).toNat :=
    rLen_dir (dirAlong_x Hd.axes b) d1 h
  have Ly : rLen qd b h ky = (if b.dy = 0 then qd.e ky else h).toNat :=
    rLen_dir (dirAlong_y Hd.axes b) d2 h
  have LSx : sLen qs (b.opposite.ccwN k.toNat) h kx =
      (if (if k = 0 then b.dx else b.dy) = 0 then qs.e kx else h).toNat := by
    rw [sLen_dir (dirAlong_x Hs.axes _) (BType.dir_range _).1 h, c1]
    rcases hk with rfl | rfl | rfl <;> simp
  have LSy : sLen qs (b.opposite.ccwN k.toNat) h ky =
      (if (if k = 0 then b.dy else b.dx) = 0 then qs.e ky else h).toNat := by
    rw [sLen_dir (dirAlong_y Hs.axes _) (BType.dir_range _).2.1 h, c2]
    rcases hk with rfl | rfl | rfl <;> simp
  by_cases h1 : m = ky
  · subst h1
    rw [if_pos rfl, Ly, LSy, LSx]
    rcases hk with e | e | e
    · have := M.even (by omega)
      rw [if_pos (by omega), if_pos e, ey, ey', this.1]
    · have := M.odd (by omega)
      rw [if_neg (by omega), if_neg (show ¬ k = 0 by omega), ey, ex', this.2]
    · have := M.odd (by omega)
      rw [if_neg (by omega), if_neg (show ¬ k = 0 by omega), ey, ex', this.2]
  rw [if_neg h1]
  by_cases h2 : m = kx
  · subst h2
    rw [if_pos rfl, Lx, LSy, LSx]
    rcases hk with e | e | e
    · have := M.even (by omega)
      rw [if_pos (by omega), if_pos e, ex, ex', this.2]
    · have := M.odd (by omega)
      rw [if_neg (by omega), if_neg (show ¬ k = 0 by omega), ex, ey', this.1]
    · have := M.odd (by omega)
      rw [if_neg (by omega), if_neg (show ¬ k = 0 by omega), ex, ey', this.1]
  rw [if_neg h2, ite_self]
  unfold sLen rLen
  rw [(recvRange_dir (dirAlong_other Hd.axes b hm h1 h2) (by omega) h (qd.o m) (qd.e m)).2.1 rfl,
    (sendRange_dir (dirAlong_other Hs.axes _ (by rw [M.ndim]; exact hm) h1 h2) (by omega) h (qs.o m)
      (qs.e m)).2.1 rfl]
  dsimp only
  rw [M.other m hm h1 h2]
  congr 1; omega

/-- Every halo point receives the value of the point of the neighbour at the same place. -/
theorem exchange_value (hh : 0 < h) (hn : h ≤ n) (Hd : HaloReady qd ky kx n h)
    (Hs : HaloReady qs ky kx n h) (M : Match qd qs ky kx k) (hk : k = 0 ∨ k = 1 ∨ k = 3)
    (hk' : k' % 4 = k)
    (ha : (sendArr qs (b.opposite.ccwN k.toNat) h).IsTurn ky kx k' a)
    {idx : List Nat} (hi : InRecv qd b h idx) :
    ∃ src, qs.InCompute src ∧ a.get (recvRel qd b h idx) = qs.data.get src ∧
      (∀ m, m < qd.ndim → m ≠ ky → m ≠ kx → qs.rel src m = qd.rel idx m) ∧
      (qs.rel src kx, qs.rel src ky) = turnPt k n (overlapOf (qd.d kx)) (overlapOf (qd.d ky))
        (qd.rel idx kx - b.dx * n) (qd.rel idx ky - b.dy * n) := by
  have hshape := exchange_shape hh Hd Hs M hk hk' ha
  have ky_lt : ky < qd.ndim := Hd.axes.ylt
  have kx_lt : kx < qd.ndim := Hd.axes.xlt
  have hne := Hd.axes.dne
  obtain ⟨d1, d2, d3⟩ := b.dir_range
  obtain ⟨c1, c2⟩ := back_dirs (b := b) hk
  have hge : ∀ m, m < qd.ndim → 0 ≤ at' idx m - rStart qd b h m ∧
      at' idx m - rStart qd b h m < rLen qd b h m := by
    intro m hm
    have := hi.2 m hm
    unfold rStart rLen
    omega
  have hrl : (recvRel qd b h idx).length = qd.ndim := by simp [recvRel]
  have hrg : ∀ m, m < qd.ndim →
      (((recvRel qd b h idx).getD m 0 : Nat) : Int) = at' idx m - rStart qd b h m := by
    intro m hm
    unfold recvRel
    rw [getD_tab _ _ hm]
    have := hge m hm
    omega
  have hin : InB a.shape (recvRel qd b h idx) := by
    rw [hshape, inB_tab]
    refine ⟨hrl, fun m hm => ?_⟩
    have := hrg m hm
    have := hge m hm
    omega
  have hsl : (sendArr qs (b.opposite.ccwN k.toNat) h).shape.length = qd.ndim := by
    simp [sendArr, M.ndim]
  have hin' := hin
  rw [ha.1] at hin'
  have hsrc := inB_turnSrc hne (by omega) (by omega) k' hin'
  have sg : ∀ m, m < qd.ndim → (sendArr qs (b.opposite.ccwN k.toNat) h).shape.getD m 0 =
      sLen qs (b.opposite.ccwN k.toNat) h m := fun m hm => by
    show (tab qs.ndim _).getD m 0 = _
    rw [getD_tab _ _ (by rw [M.ndim]; exact hm)]
  have hT := fun m => getD_turnSrc hne (sendArr qs (b.opposite.ccwN k.toNat) h).shape
    (idx := recvRel qd b h idx) (by omega) (by omega) k' m
  rw [inB_iff] at hsrc
  have hsr := hsrc.2
  rw [hsl] at hsr
  generalize hTd : turnSrc ky kx k' (sendArr qs (b.opposite.ccwN k.toNat) h).shape
    (recvRel qd b h idx) = T at *
  have hfs := Hs.sendFits hh hn (b.opposite.ccwN k.toNat)
  refine ⟨tab qs.ndim fun m => (sStart qs (b.opposite.ccwN k.toNat) h m + at' T m).toNat,
    ?_, ?_, ?_, ?_⟩
  · apply C12_send_inside qs (b.opposite.ccwN k.toNat) h
    · intro m hm hdir
      by_cases h1 : m = ky
      · subst h1; have := Hs.ey; omega
      by_cases h2 : m = kx
      · subst h2; have := Hs.ex; omega
      · exact absurd (dirAlong_other Hs.axes _ hm h1 h2) hdir
    · refine ⟨by simp, fun m hm => ?_⟩
      unfold at'
      rw [getD_tab _ _ hm]
      have f1 := hfs m hm
      rw [M.ndim] at hm
      have f2 := hsr m hm
      rw [sg m hm] at f2
      unfold sLen at f2
      unfold sStart at *
      omega
  · rw [ha.2 _ hin, hTd]; rfl
  · intro m hm h1 h2
    have := hT m
    rw [if_neg h1, if_neg h2] at this
    have r := hrg m hm
    unfold Quantity.rel at'
    rw [getD_tab _ _ (by rw [M.ndim]; exact hm)]
    have f1 := hfs m (by rw [M.ndim]; exact hm)
    unfold rStart at r
    unfold sStart
    rw [this]
    rw [(recvRange_dir (dirAlong_other Hd.axes b hm h1 h2) (by omega) h (qd.o m) (qd.e m)).2.1 rfl]
      at r
    rw [(sendRange_dir (dirAlong_other Hs.axes _ (by rw [M.ndim]; exact hm) h1 h2) (by omega) h
      (qs.o m) (qs.e m)).2.1 rfl] at f1 ⊢
    unfold at' at r
    dsimp only at r f1 ⊢
    omega
  · have ey := Hd.ey
    have ex := Hd.ex
    have ey' := Hs.ey
    have ex' := Hs.ex
    have Rx := recvRange_dir (dirAlong_x Hd.axes b) d1 h (qd.o kx) (qd.e kx)
    have Ry := recvRange_dir (dirAlong_y Hd.axes b) d2 h (qd.o ky) (qd.e ky)
    have Sx := sendRange_dir (dirAlong_x Hs.axes (b.opposite.ccwN k.toNat))
      (BType.dir_range _).1 h (qs.o kx) (qs.e kx)
    have Sy := sendRange_dir (dirAlong_y Hs.axes (b.opposite.ccwN k.toNat))
      (BType.dir_range _).2.1 h (qs.o ky) (qs.e ky)
    rw [c1] at Sx
    rw [c2] at Sy
    have tx := hT kx
    have ty := hT ky
    rw [if_neg (Ne.symm hne), if_pos rfl, sg kx kx_lt] at tx
    rw [if_pos rfl, sg ky ky_lt] at ty
    have rx := hrg kx kx_lt
    have ry := hrg ky ky_lt
    have gx := hge kx kx_lt
    have gy := hge ky ky_lt
    have fx := hfs kx (by rw [M.ndim]; exact kx_lt)
    have fy := hfs ky (by rw [M.ndim]; exact ky_lt)
    have bx := hsr kx kx_lt
    have by' := hsr ky ky_lt
    rw [sg kx kx_lt] at bx
    rw [sg ky ky_lt] at by'
    unfold Quantity.rel at'
    rw [getD_tab _ _ (by rw [M.ndim]; exact kx_lt), getD_tab _ _ (by rw [M.ndim]; exact ky_lt)]
    unfold sStart
    unfold rStart rLen at *
    unfold sLen at *
    unfold at' at *
    generalize T.getD kx 0 = Tx at *
    generalize T.getD ky 0 = Ty at *
    generalize (recvRel qd b h idx).getD kx 0 = vx at *
    generalize (recvRel qd b h idx).getD ky 0 = vy at *
    generalize idx.getD kx 0 = ix at *
    generalize idx.getD ky 0 = iy at *
    have ov1 := overlapOf_01 (qd.d kx)
    have ov2 := overlapOf_01 (qd.d ky)
    have Me := M.even
    have Mo := M.odd
    clear hT hfs hsr hin hin' sg hge hrg hsrc ha hTd hshape hsl c1 c2
    generalize sendRange (b.opposite.ccwN k.toNat) h (qs.d kx) (qs.o kx) (qs.e kx) = SX at *
    generalize sendRange (b.opposite.ccwN k.toNat) h (qs.d ky) (qs.o ky) (qs.e ky) = SY at *
    rcases hk with rfl | rfl | rfl
    · have Me := Me (by omega)
      clear Mo
      rw [if_pos hk'] at tx ty
      simp only [turnPt]
      rw [if_neg (by decide), if_neg (by decide)]
      apply Prod.ext
      · dsimp only
        clear ry gy fy by' ty Ry Sy
        rcases d1 with c | c | c <;> rw [c] at Rx Sx ⊢ <;> simp at Rx Sx <;> rw [Rx] at rx gx <;>
          rw [Sx] at fx bx ⊢ <;> dsimp only at rx gx fx bx ⊢ <;> omega
      · dsimp only
        clear rx gx fx bx tx Rx Sx
        rcases d2 with c | c | c <;> rw [c] at Ry Sy ⊢ <;> simp at Ry Sy <;> rw [Ry] at ry gy <;>
          rw [Sy] at fy by' ⊢ <;> dsimp only at ry gy fy by' ⊢ <;> omega
    · have Mo := Mo (by omega)
      clear Me
      rw [if_neg (by omega), if_pos hk'] at tx ty
      simp only [turnPt]
      rw [if_pos trivial]
      apply Prod.ext
      · dsimp only
        clear rx gx fy by' ty Rx Sy
        rcases d2 with c | c | c <;> rw [c] at Ry Sx ⊢ <;> simp at Ry Sx <;> rw [Ry] at ry gy <;>
          rw [Sx] at fx bx tx ⊢ <;> dsimp only at ry gy fx bx tx ⊢ <;> omega
      · dsimp only
        clear ry gy fx bx tx Ry Sx
        rcases d1 with c | c | c <;> rw [c] at Rx Sy ⊢ <;> simp at Rx Sy <;> rw [Rx] at rx gx <;>
          rw [Sy] at fy by' ⊢ <;> dsimp only at rx gx fy by' ⊢ <;> omega
    · have Mo := Mo (by omega)
      clear Me
      rw [if_neg (by omega), if_neg (by omega), if_neg (by omega)] at tx ty
      simp only [turnPt]
      rw [if_neg (by decide), if_pos trivial]
      apply Prod.ext
      · dsimp only
        clear rx gx fy by' ty Rx Sy
        rcases d2 with c | c | c <;> rw [c] at Ry Sx ⊢ <;> simp at Ry Sx <;> rw [Ry] at ry gy <;>
          rw [Sx] at fx bx ⊢ <;> dsimp only at ry gy fx bx ⊢ <;> omega
      · dsimp only
        clear ry gy fx bx tx Ry Sx
        rcases d1 with c | c | c <;> rw [c] at Rx Sy ⊢ <;> simp at Rx Sy <;> rw [Rx] at rx gx <;>
          rw [Sy] at fy by' ty ⊢ <;> dsimp only at rx gx fy by' ty ⊢ <;> omega

end
end FV3
