import Verif.Model.NudgingRounded
import Verif.Spec.Rounding
import Verif.Props.Nudging
import Verif.Props.Float
import Mathlib.Algebra.Order.Archimedean.Basic

/-!
# C46 with rounded arithmetic
-/

namespace FV3

variable {F : ℚ → Prop} {fl : ℚ → ℚ}

theorem Nearest.id (h : Nearest F fl) {x : ℚ} (hx : F x) : fl x = x := by
  have := h.near x x hx
  rw [sub_self, abs_zero] at this
  have := abs_nonpos_iff.1 this
  linarith

theorem Nearest.mono (h : Nearest F fl) {x y : ℚ} (hxy : x ≤ y) : fl x ≤ fl y := by
  rcases eq_or_lt_of_le hxy with rfl | hlt
  · exact le_refl _
  by_contra hc
  push Not at hc
  have h1 := h.near x _ (h.mem y)
  have h2 := h.near y _ (h.mem x)
  rcases abs_cases (x - fl x) with ⟨a1, a2⟩ | ⟨a1, a2⟩ <;> rcases abs_cases (x - fl y) with ⟨b1, b2⟩ | ⟨b1, b2⟩ <;>
  rcases abs_cases (y - fl x) with ⟨c1, c2⟩ | ⟨c1, c2⟩ <;> rcases abs_cases (y - fl y) with ⟨d1, d2⟩ | ⟨d1, d2⟩ <;>
  rw [a1, b1] at h1 <;> rw [c1, d1] at h2 <;> linarith

theorem Nearest.nonneg (h : Nearest F fl) {x : ℚ} (hx : 0 ≤ x) : 0 ≤ fl x := by
  have := h.mono hx
  rwa [h.id h.zero] at this

theorem Nearest.nonpos (h : Nearest F fl) {x : ℚ} (hx : x ≤ 0) : fl x ≤ 0 := by
  have := h.mono hx
  rwa [h.id h.zero] at this

/-- Every number is rounded to some double. -/
theorem exists_roundsTo {q : ℚ} (hq : 0 ≤ q) : ∃ r, RoundsTo q r := by
  rcases eq_or_lt_of_le hq with rfl | hpos
  · have := round53_rounds 0
    exact ⟨_, by simpa using this⟩
  · obtain ⟨n, h1, h2⟩ := exists_mem_Ico_zpow hpos (by norm_num : (1 : ℚ) < 2)
    have hk : (0 : ℚ) < 2 ^ (52 - n) := by positivity
    have e : ∃ x d : Nat, 0 < d ∧ q * 2 ^ (52 - n) = (x : ℚ) / d := by
      have hp : 0 < q * 2 ^ (52 - n) := mul_pos hpos hk
      refine ⟨(q * 2 ^ (52 - n)).num.toNat, (q * 2 ^ (52 - n)).den, Rat.den_pos _, ?_⟩
      have h0 : 0 ≤ (q * 2 ^ (52 - n)).num := Rat.num_nonneg.2 hp.le
      have : (((q * 2 ^ (52 - n)).num.toNat : ℤ) : ℚ) = ((q * 2 ^ (52 - n)).num : ℚ) := by
        rw [Int.toNat_of_nonneg h0]
      rw [Int.cast_natCast] at this
      rw [this]
      exact (Rat.num_div_den _).symm
    obtain ⟨x, d, hd, e⟩ := e
    have hdq : (0 : ℚ) < d := by exact_mod_cast hd
    have b1 : (2 : ℚ) ^ 52 ≤ x / d := by
      rw [← e]
      calc (2 : ℚ) ^ 52 = 2 ^ n * 2 ^ (52 - n) := by rw [← zpow_add₀ (by norm_num)]; norm_num
        _ ≤ _ := mul_le_mul_of_nonneg_right h1 hk.le
    have b2 : (x : ℚ) / d ≤ 2 ^ 53 := by
      rw [← e]
      calc q * 2 ^ (52 - n) ≤ 2 ^ (n + 1) * 2 ^ (52 - n) := mul_le_mul_of_nonneg_right h2.le hk.le
        _ = 2 ^ 53 := by rw [← zpow_add₀ (by norm_num), show n + 1 + (52 - n) = 53 by ring]; norm_num
    rw [le_div_iff₀ hdq] at b1
    rw [div_le_iff₀ hdq] at b2
    have := (rneDiv_rounds x d hd (by exact_mod_cast b1) (by exact_mod_cast b2)).scale (-(52 - n))
    rw [← e, mul_assoc, ← zpow_add₀ (by norm_num), add_neg_cancel, zpow_zero, mul_one] at this
    exact ⟨_, this⟩

theorem RoundsTo.near {q r : ℚ} (h : RoundsTo q r) {s : ℚ} (hs : IsDouble s) : |q - r| ≤ |q - s| := by
  by_cases e : s = r
  · rw [e]
  · rcases h.2 s hs e with h | h
    · exact h.le
    · exact h.1.le

theorem IsDouble.nonneg {s : ℚ} (h : IsDouble s) : 0 ≤ s := by
  obtain ⟨m, e, -, rfl⟩ := h
  positivity

/-- There is a rounding to nearest for doubles: those of IEEE-754, on both sides of zero. -/
theorem exists_nearest_double : ∃ fl, Nearest Double fl ∧ ∀ q, 0 ≤ q → RoundsTo q (fl q) := by
  choose f hf using fun q : ℚ => exists_roundsTo (abs_nonneg q)
  have hf0 : ∀ q, 0 ≤ f q := fun q => (hf q).1.nonneg
  refine ⟨fun q => if 0 ≤ q then f q else -f q, ⟨⟨0, 0, by norm_num, by simp⟩, fun x => ?_, fun x s hs => ?_⟩,
    fun q hq => ?_⟩
  · unfold Double
    split
    · rw [abs_of_nonneg (hf0 x)]; exact (hf x).1
    · rw [abs_neg, abs_of_nonneg (hf0 x)]; exact (hf x).1
  · have h1 := (hf x).near hs
    have h2 : |(|x| - |s|)| ≤ |x - s| := abs_abs_sub_abs_le x s
    split
    · next hx =>
      rw [abs_of_nonneg hx] at h1 h2
      exact h1.trans h2
    · next hx =>
      rw [abs_of_neg (not_le.1 hx)] at h1 h2
      have : |x - -f x| = |-x - f x| := by rw [← abs_neg]; congr 1; ring
      rw [this]
      exact h1.trans h2
  · dsimp only
    rw [if_pos hq]
    have := hf q
    rwa [abs_of_nonneg hq] at this

/-- The relative rounding error of doubles. -/
theorem Nearest.double_error (h : Nearest Double fl) (x : ℚ) : |x - fl x| ≤ 1 / 2 ^ 53 * |x| := by
  have key : ∀ y : ℚ, 0 < y → ∃ s, IsDouble s ∧ |y - s| ≤ 1 / 2 ^ 53 * y := by
    intro y hy
    obtain ⟨n, h1, h2⟩ := exists_mem_Ico_zpow hy (by norm_num : (1 : ℚ) < 2)
    have hk : (0 : ℚ) < 2 ^ (n - 52) := by positivity
    obtain ⟨z, hz⟩ : ∃ z : ℚ, y = z * 2 ^ (n - 52) := ⟨y / 2 ^ (n - 52), by field_simp⟩
    have e1 : (2 : ℚ) ^ n = 2 ^ 52 * 2 ^ (n - 52) := by
      rw [← zpow_natCast, ← zpow_add₀ (by norm_num)]; congr 1; push_cast; ring
    have e2 : (2 : ℚ) ^ (n + 1) = 2 ^ 53 * 2 ^ (n - 52) := by
      rw [← zpow_natCast, ← zpow_add₀ (by norm_num)]; congr 1; push_cast; ring
    rw [hz, e1] at h1
    rw [hz, e2] at h2
    have h1 := le_of_mul_le_mul_right h1 hk
    have h2 := lt_of_mul_lt_mul_right h2 hk.le
    have hm := Nat.floor_le (a := z + 1 / 2) (by linarith [show (0 : ℚ) ≤ 2 ^ 52 by norm_num])
    have hm' := Nat.lt_floor_add_one (z + 1 / 2)
    refine ⟨(⌊z + 1 / 2⌋₊ : ℕ) * 2 ^ (n - 52), (isDouble_nat ?_).scale _, ?_⟩
    · have : ((⌊z + 1 / 2⌋₊ : ℕ) : ℚ) < ((2 ^ 53 + 1 : ℕ) : ℚ) := by push_cast; linarith
      have := Nat.cast_lt.1 this
      omega
    · rw [hz, ← sub_mul, abs_mul, abs_of_pos hk, ← mul_assoc]
      refine mul_le_mul_of_nonneg_right ?_ hk.le
      have : |z - (⌊z + 1 / 2⌋₊ : ℕ)| ≤ 1 / 2 := by
        rw [abs_le]
        constructor <;> linarith
      refine this.trans ?_
      have : (1 : ℚ) / 2 = 1 / 2 ^ 53 * 2 ^ 52 := by norm_num
      rw [this]
      exact mul_le_mul_of_nonneg_left h1 (by norm_num)
  rcases lt_trichotomy x 0 with hx | rfl | hx
  · obtain ⟨s, h1, h2⟩ := key (-x) (by linarith)
    have := h.near x (-s) (by unfold Double; rw [abs_neg, abs_of_nonneg h1.nonneg]; exact h1)
    rw [abs_of_neg hx]
    refine this.trans ?_
    rw [← abs_neg]
    rw [show -(x - -s) = -x - s by ring]
    exact h2
  · rw [h.id h.zero]; simp
  · obtain ⟨s, h1, h2⟩ := key x hx
    rw [abs_of_pos hx]
    exact (h.near x s (by unfold Double; rw [abs_of_nonneg h1.nonneg]; exact h1)).trans h2

/-- A number which is nearer to another double than to one is not rounded to one. -/
theorem Nearest.ne_of_nearer (h : Nearest F fl) {x y s : ℚ} (hs : F s) (hlt : |x - s| < |x - y|) : fl x ≠ y := by
  intro e
  have := h.near x s hs
  rw [e] at this
  exact absurd this (not_le.2 hlt)

namespace Nudge

/-- One point: what nudging computes. -/
theorem nudged_val {q r q' : Quantity (Rounded fl)} {τ dt : Rounded fl} (N : Nudged q r q' τ dt) {idx : List Nat}
    (hi : InB q.data.shape idx) (hin : q.InCompute idx) : (q'.data.get idx).val = fl ((q.data.get idx).val +
      fl (fl (fl ((r.data.get (refPoint q r idx)).val - (q.data.get idx).val) / τ.val) * dt.val)) :=
  congrArg Rounded.val (N.inside idx hi hin)

/-- **C46**, rounded arithmetic of any precision: where the state equals the reference it is not changed at all. -/
theorem C46_rounded_fixed (hfl : Nearest F fl) (q r q' : Quantity (Rounded fl)) (τ dt : Rounded fl)
    (N : Nudged q r q' τ dt) (idx : List Nat) (hi : InB q.data.shape idx) (hin : q.InCompute idx)
    (hF : F (q.data.get idx).val) (he : (r.data.get (refPoint q r idx)).val = (q.data.get idx).val) :
    (q'.data.get idx).val = (q.data.get idx).val := by
  rw [nudged_val N hi hin, he, sub_self, hfl.id hfl.zero, zero_div, hfl.id hfl.zero, zero_mul, hfl.id hfl.zero, add_zero,
    hfl.id hF]

/-- **C46**, rounded arithmetic of any precision: a timestep of zero changes nothing. -/
theorem C46_rounded_zero (hfl : Nearest F fl) (q r q' : Quantity (Rounded fl)) (τ dt : Rounded fl)
    (N : Nudged q r q' τ dt) (idx : List Nat) (hi : InB q.data.shape idx) (hin : q.InCompute idx)
    (hF : F (q.data.get idx).val) (h0 : dt.val = 0) : (q'.data.get idx).val = (q.data.get idx).val := by
  rw [nudged_val N hi hin, h0, mul_zero, hfl.id hfl.zero, add_zero, hfl.id hF]

/-- **C46**, rounded arithmetic of any precision: no value moves away from the reference's side. -/
theorem C46_rounded_towards (hfl : Nearest F fl) (q r q' : Quantity (Rounded fl)) (τ dt : Rounded fl) (hτ : 0 < τ.val)
    (hdt : 0 ≤ dt.val) (N : Nudged q r q' τ dt) (idx : List Nat) (hi : InB q.data.shape idx) (hin : q.InCompute idx)
    (hF : F (q.data.get idx).val) :
    ((q.data.get idx).val ≤ (r.data.get (refPoint q r idx)).val → (q.data.get idx).val ≤ (q'.data.get idx).val) ∧
    ((r.data.get (refPoint q r idx)).val ≤ (q.data.get idx).val → (q'.data.get idx).val ≤ (q.data.get idx).val) := by
  rw [nudged_val N hi hin]
  generalize (r.data.get (refPoint q r idx)).val = b
  revert hF
  generalize (q.data.get idx).val = a
  intro hF
  constructor
  · intro h
    have h1 := hfl.nonneg (sub_nonneg.2 h)
    have h2 := hfl.nonneg (div_nonneg h1 hτ.le)
    have h3 := hfl.nonneg (mul_nonneg h2 hdt)
    have := hfl.mono (x := a) (y := a + fl (fl (fl (b - a) / τ.val) * dt.val)) (by linarith)
    rwa [hfl.id hF] at this
  · intro h
    have h1 := hfl.nonpos (sub_nonpos.2 h)
    have h2 := hfl.nonpos (div_nonpos_of_nonpos_of_nonneg h1 hτ.le)
    have h3 := hfl.nonpos (mul_nonpos_of_nonpos_of_nonneg h2 hdt)
    have := hfl.mono (x := a + fl (fl (fl (b - a) / τ.val) * dt.val)) (y := a) (by linarith)
    rwa [hfl.id hF] at this

/-- **C46**, rounded arithmetic of any precision: a larger reference does not give a smaller result. -/
theorem C46_rounded_monotone (hfl : Nearest F fl) (q r q' r2 q2' : Quantity (Rounded fl)) (τ dt : Rounded fl)
    (hτ : 0 < τ.val) (hdt : 0 ≤ dt.val) (N : Nudged q r q' τ dt) (N2 : Nudged q r2 q2' τ dt) (idx : List Nat)
    (hi : InB q.data.shape idx) (hin : q.InCompute idx)
    (h : (r.data.get (refPoint q r idx)).val ≤ (r2.data.get (refPoint q r2 idx)).val) :
    (q'.data.get idx).val ≤ (q2'.data.get idx).val := by
  rw [nudged_val N hi hin, nudged_val N2 hi hin]
  have h1 := hfl.mono (sub_le_sub_right h (q.data.get idx).val)
  have h2 := hfl.mono (div_le_div_of_nonneg_right h1 hτ.le)
  have h3 := hfl.mono (mul_le_mul_of_nonneg_right h2 hdt)
  exact hfl.mono (by linarith)

theorem rel_err {u x y : ℚ} (h : |x - y| ≤ u * |x|) : |y| ≤ (1 + u) * |x| := by
  have := abs_sub_abs_le_abs_sub y x
  rw [abs_sub_comm] at this
  linarith

/-- **C46**, rounded arithmetic: with relative rounding error at most `u`, the result differs from the exact one by at most
`u` times the exact one and `u (1 + u) (3 + 3 u + u²)` times the exact increment. -/
theorem C46_rounded_error {u : ℚ} (hu : 0 ≤ u) (herr : ∀ x, |x - fl x| ≤ u * |x|) (q r q' : Quantity (Rounded fl))
    (τ dt : Rounded fl) (N : Nudged q r q' τ dt) (idx : List Nat)
    (hi : InB q.data.shape idx) (hin : q.InCompute idx) (a b inc : ℚ) (ha : a = (q.data.get idx).val)
    (hb : b = (r.data.get (refPoint q r idx)).val) (hinc : inc = (b - a) / τ.val * dt.val) :
    |(q'.data.get idx).val - (a + inc)| ≤ u * |a + inc| + u * (1 + u) * (3 + 3 * u + u ^ 2) * |inc| := by
  rw [nudged_val N hi hin, ← ha, ← hb]
  set d := fl (b - a)
  set t := fl (d / τ.val)
  set i := fl (t * dt.val)
  have e1 := herr (b - a)
  have e2 := herr (d / τ.val)
  have e3 := herr (t * dt.val)
  have e4 := herr (a + i)
  have key : |inc - i| ≤ u * (3 + 3 * u + u ^ 2) * |inc| := by
    -- from the inside out
    have s1 : |(b - a) / τ.val - d / τ.val| ≤ u * |(b - a) / τ.val| := by
      rw [← sub_div, abs_div, abs_div, ← mul_div_assoc]
      exact div_le_div_of_nonneg_right e1 (abs_nonneg _)
    have s2 : |(b - a) / τ.val - t| ≤ (2 * u + u ^ 2) * |(b - a) / τ.val| := by
      have h1 := rel_err s1
      have h2 := abs_sub_le ((b - a) / τ.val) (d / τ.val) t
      have h3 : u * |d / τ.val| ≤ u * ((1 + u) * |(b - a) / τ.val|) := mul_le_mul_of_nonneg_left h1 hu
      nlinarith
    have s3 : |inc - t * dt.val| ≤ (2 * u + u ^ 2) * |inc| := by
      rw [hinc, ← sub_mul, abs_mul, abs_mul, ← mul_assoc]
      exact mul_le_mul_of_nonneg_right s2 (abs_nonneg _)
    have h1 := rel_err s3
    have h2 := abs_sub_le inc (t * dt.val) i
    have h3 : u * |t * dt.val| ≤ u * ((1 + (2 * u + u ^ 2)) * |inc|) := mul_le_mul_of_nonneg_left h1 hu
    nlinarith
  have h1 : |(a + inc) - (a + i)| = |inc - i| := by congr 1; ring
  have h2 : |a + i| ≤ |a + inc| + |inc - i| := by
    have := abs_sub_abs_le_abs_sub (a + i) (a + inc)
    rw [abs_sub_comm, h1] at this
    linarith
  have h3 : |fl (a + i) - (a + inc)| ≤ |a + i - fl (a + i)| + |inc - i| := by
    rw [← h1, abs_sub_comm (a + i), abs_sub_comm (a + inc) (a + i)]
    exact abs_sub_le _ _ _
  have h4 : u * |a + i| ≤ u * (|a + inc| + |inc - i|) := mul_le_mul_of_nonneg_left h2 hu
  have h5 : (1 + u) * |inc - i| ≤ (1 + u) * (u * (3 + 3 * u + u ^ 2) * |inc|) :=
    mul_le_mul_of_nonneg_left key (by linarith)
  nlinarith

/-- The error in double precision. -/
theorem C46_double_error (hfl : Nearest Double fl) (q r q' : Quantity (Rounded fl))
    (τ dt : Rounded fl) (N : Nudged q r q' τ dt) (idx : List Nat)
    (hi : InB q.data.shape idx) (hin : q.InCompute idx) (a b inc : ℚ) (ha : a = (q.data.get idx).val)
    (hb : b = (r.data.get (refPoint q r idx)).val) (hinc : inc = (b - a) / τ.val * dt.val) :
    |(q'.data.get idx).val - (a + inc)| ≤ 1 / 2 ^ 53 * |a + inc| + 4 / 2 ^ 53 * |inc| := by
  refine (C46_rounded_error (u := 1 / 2 ^ 53) (by norm_num) hfl.double_error q r q' τ dt N idx hi hin a b inc ha hb
    hinc).trans ?_
  have : (1 : ℚ) / 2 ^ 53 * (1 + 1 / 2 ^ 53) * (3 + 3 * (1 / 2 ^ 53) + (1 / 2 ^ 53) ^ 2) ≤ 4 / 2 ^ 53 := by norm_num
  have := mul_le_mul_of_nonneg_right this (abs_nonneg inc)
  linarith

/-- **C46, limit**: in double precision the reference is not reached exactly when the timestep is the timescale: 0 nudged
to 1 with both 49 s is not 1. -/
theorem C46_rounded_limit (hfl : Nearest Double fl) (q r q' : Quantity (Rounded fl)) (idx : List Nat)
    (N : Nudged q r q' ⟨49⟩ ⟨49⟩) (hi : InB q.data.shape idx) (hin : q.InCompute idx)
    (ha : (q.data.get idx).val = 0) (hb : (r.data.get (refPoint q r idx)).val = 1) : (q'.data.get idx).val ≠ 1 := by
  have dbl : ∀ n : Nat, ∀ k : Int, n ≤ 2 ^ 53 → Double (n * 2 ^ k) := by
    intro n k hn
    unfold Double
    rw [abs_of_nonneg (by positivity)]
    exact (isDouble_nat hn).scale k
  rw [nudged_val N hi hin, ha, hb]
  dsimp only
  rw [sub_zero, zero_add]
  have h1 : fl 1 = 1 := hfl.id (by simpa using dbl 1 0 (by norm_num))
  rw [h1]
  -- the reciprocal
  have h2 : fl (1 / 49) = 5882252574524729 / 2 ^ 58 := by
    have hn := hfl.near (1 / 49) (5882252574524729 / 2 ^ 58) (by
      have := dbl 5882252574524729 (-58) (by norm_num)
      rwa [show ((5882252574524729 : ℕ) : ℚ) * 2 ^ (-58 : ℤ) = 5882252574524729 / 2 ^ 58 by norm_num] at this)
    have hm := hfl.mem (1 / 49)
    generalize fl (1 / 49) = v at hn hm
    rw [show |(1 : ℚ) / 49 - 5882252574524729 / 2 ^ 58| = 23 / 49 / 2 ^ 58 by norm_num [abs_of_pos], abs_le] at hn
    have hv : 0 < v := by linarith [hn.2, show (0 : ℚ) < 1 / 49 - 23 / 49 / 2 ^ 58 by norm_num]
    unfold Double at hm
    rw [abs_of_pos hv] at hm
    obtain ⟨n, e⟩ := (hm.scale 58).whole (by
      have : (1 : ℚ) / 49 - 23 / 49 / 2 ^ 58 ≤ v := by linarith [hn.2]
      have := mul_le_mul_of_nonneg_right this (show (0 : ℚ) ≤ 2 ^ (58 : ℤ) by norm_num)
      exact le_trans (by norm_num) this)
    have ev : v = n / 2 ^ 58 := by
      rw [← e]; norm_num
    have b1 : (n : ℚ) < 5882252574524730 := by
      have := mul_le_mul_of_nonneg_right hn.1 (show (0 : ℚ) ≤ 2 ^ 58 by norm_num)
      rw [ev] at this
      have h3 : ((1 : ℚ) / 49 - n / 2 ^ 58) * 2 ^ 58 = 2 ^ 58 / 49 - n := by field_simp
      rw [h3] at this
      norm_num at this
      linarith
    have b2 : (5882252574524728 : ℚ) < n := by
      have := mul_le_mul_of_nonneg_right hn.2 (show (0 : ℚ) ≤ 2 ^ 58 by norm_num)
      rw [ev] at this
      have h3 : ((1 : ℚ) / 49 - n / 2 ^ 58) * 2 ^ 58 = 2 ^ 58 / 49 - n := by field_simp
      rw [h3] at this
      norm_num at this
      linarith
    have c1 : n < 5882252574524730 := by exact_mod_cast b1
    have c2 : 5882252574524728 < n := by exact_mod_cast b2
    have : n = 5882252574524729 := by omega
    rw [ev, this]
    norm_num
  rw [h2, hfl.id (hfl.mem _)]
  refine hfl.ne_of_nearer (s := (9007199254740991 : ℕ) * 2 ^ (-53 : ℤ)) (dbl _ _ (by norm_num)) ?_
  norm_num [abs_lt, abs_of_pos, abs_of_neg]

/-! ### an example -/

/-- The values 0 and 1 at the points of the compute domain; the halo points are 7. -/
def exRoundedQ (fl : ℚ → ℚ) : Quantity (Rounded fl) :=
  ⟨⟨[4], fun i => ⟨[7, 0, 1, 7].getD (i.getD 0 0) 0⟩⟩, [.x], "K", [1], [2]⟩
/-- The reference is 1 everywhere. -/
def exRoundedR (fl : ℚ → ℚ) : Quantity (Rounded fl) := ⟨⟨[2], fun _ => ⟨1⟩⟩, [.x], "K", [0], [2]⟩

/-- Nudging in double precision with timestep and timescale 49 s: the first point does not become the reference, the second
is the reference and stays. -/
example : ∃ fl, Nearest Double fl ∧ ∃ s' ts q',
    applyNudging [("T", exRoundedQ fl)] [("T", exRoundedR fl)] [("T", ⟨49⟩)] ⟨49⟩ = (s', .ok ts) ∧
    Dict.get? s' "T" = some q' ∧ (q'.data.get [1]).val ≠ 1 ∧ (q'.data.get [2]).val = 1 ∧
    |(q'.data.get [1]).val - 1| ≤ 5 / 2 ^ 53 := by
  obtain ⟨fl, hfl, -⟩ := exists_nearest_double
  refine ⟨fl, hfl, ?_⟩
  obtain ⟨s', ts, e, _, _, h⟩ := C46_nudge [("T", exRoundedQ fl)] [("T", exRoundedR fl)] [("T", ⟨49⟩)] ⟨49⟩
    (by show (["T"] : List String).Nodup; decide) (by
      intro name τ hτ
      simp only [Dict.get?] at hτ
      split at hτ
      · rename_i hn; subst hn
        exact ⟨exRoundedQ fl, exRoundedR fl, rfl, rfl,
          ⟨⟨⟨rfl, rfl, rfl⟩, (ex_matches.wf).2⟩, ⟨⟨rfl, rfl, rfl⟩, (ex_matches.ref).2⟩, by
            show 0 < 1; decide, rfl⟩⟩
      · cases hτ)
  obtain ⟨q, r, q', h1, h2, h3, N⟩ := (h "T").2 ⟨49⟩ rfl
  cases h1; cases h2
  have i1 : (exRoundedQ fl).InCompute [1] := by
    have : exQ.InCompute [1] := by unfold Quantity.InCompute Quantity.InDom; decide
    exact this
  have i2 : (exRoundedQ fl).InCompute [2] := by
    have : exQ.InCompute [2] := by unfold Quantity.InCompute Quantity.InDom; decide
    exact this
  have b1 : InB (exRoundedQ fl).data.shape [1] := by show InB [4] [1]; decide
  have b2 : InB (exRoundedQ fl).data.shape [2] := by show InB [4] [2]; decide
  refine ⟨s', ts, q', e, h3, ?_, ?_, ?_⟩
  · exact C46_rounded_limit hfl _ _ q' [1] N b1 i1 rfl rfl
  · exact C46_rounded_fixed hfl _ _ q' _ _ N [2] b2 i2 ⟨1, 0, by norm_num, by
      show |(1 : ℚ)| = _; norm_num⟩ rfl
  · have := C46_double_error hfl _ _ q' _ _ N [1] b1 i1 0 1 1 rfl rfl (by norm_num)
    norm_num at this ⊢
    exact this

end Nudge
end FV3
