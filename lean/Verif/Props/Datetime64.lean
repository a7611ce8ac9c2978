import Verif.Spec.Datetime64
import Verif.Props.NudgingRounded

/-!
# C60: conversion of numpy times
-/

namespace FV3

variable {fl : ℚ → ℚ}

/-- The absolute rounding error of doubles up to a power of two. -/
theorem Nearest.double_ulp (h : Nearest Double fl) {x : ℚ} {k : Int} (hx : |x| ≤ 2 ^ k) : |x - fl x| ≤ 2 ^ (k - 54) := by
  have key : ∀ y : ℚ, 0 ≤ y → y ≤ 2 ^ k → ∃ s, IsDouble s ∧ |y - s| ≤ 2 ^ (k - 54) := by
    intro y hy hk
    have hu : (0 : ℚ) < 2 ^ (k - 53) := by positivity
    obtain ⟨z, hz⟩ : ∃ z : ℚ, y = z * 2 ^ (k - 53) := ⟨y / 2 ^ (k - 53), by field_simp⟩
    have e1 : (2 : ℚ) ^ k = 2 ^ 53 * 2 ^ (k - 53) := by
      rw [← zpow_natCast, ← zpow_add₀ (by norm_num)]; congr 1; push_cast; ring
    have e2 : (2 : ℚ) ^ (k - 54) = 1 / 2 * 2 ^ (k - 53) := by
      rw [show k - 53 = (k - 54) + 1 by ring, zpow_add₀ (by norm_num)]; ring
    have hz0 : 0 ≤ z := by
      by_contra hc
      have := mul_neg_of_neg_of_pos (not_le.1 hc) hu
      linarith
    have hz1 : z ≤ 2 ^ 53 := le_of_mul_le_mul_right (by rw [← hz, ← e1]; exact hk) hu
    have hm := Nat.floor_le (a := z + 1 / 2) (by linarith)
    have hm' := Nat.lt_floor_add_one (z + 1 / 2)
    refine ⟨(⌊z + 1 / 2⌋₊ : ℕ) * 2 ^ (k - 53), (isDouble_nat ?_).scale _, ?_⟩
    · have : ((⌊z + 1 / 2⌋₊ : ℕ) : ℚ) < ((2 ^ 53 + 1 : ℕ) : ℚ) := by push_cast; linarith
      have := Nat.cast_lt.1 this
      omega
    · rw [hz, ← sub_mul, abs_mul, abs_of_pos hu, e2]
      refine mul_le_mul_of_nonneg_right ?_ hu.le
      rw [abs_le]
      constructor <;> linarith
  rcases lt_or_ge x 0 with hx0 | hx0
  · rw [abs_of_neg hx0] at hx
    obtain ⟨s, h1, h2⟩ := key (-x) (by linarith) hx
    have := h.near x (-s) (by unfold Double; rw [abs_neg, abs_of_nonneg h1.nonneg]; exact h1)
    refine this.trans ?_
    rw [← abs_neg, show -(x - -s) = -x - s by ring]
    exact h2
  · rw [abs_of_nonneg hx0] at hx
    obtain ⟨s, h1, h2⟩ := key x hx0 hx
    exact (h.near x s (by unfold Double; rw [abs_of_nonneg h1.nonneg]; exact h1)).trans h2

theorem double_int {n : Int} (h : |n| ≤ 2 ^ 53) : Double n := by
  unfold Double
  have : |(n : ℚ)| = (n.natAbs : ℚ) := by rw [← Int.cast_abs, Int.abs_eq_natAbs]; rfl
  rw [this]
  exact isDouble_nat (by rw [Int.abs_eq_natAbs] at h; exact_mod_cast h)

/-- A positive number is rounded to the double with a full significand less than half a unit away. -/
theorem Nearest.eq_of_close (h : Nearest Double fl) {x : ℚ} {m : Nat} {k : Int} (h1 : 2 ^ 52 < m) (h2 : m < 2 ^ 53)
    (hx : |x - m * 2 ^ k| < 1 / 2 * 2 ^ k) : fl x = m * 2 ^ k := by
  have hu : (0 : ℚ) < 2 ^ k := by positivity
  have hD : Double ((m : ℚ) * 2 ^ k) := by
    unfold Double
    rw [abs_of_nonneg (by positivity)]
    exact ⟨m, k, h2, rfl⟩
  have hn := lt_of_le_of_lt (h.near x _ hD) hx
  have hm1 : (2 : ℚ) ^ 52 + 1 ≤ m := by exact_mod_cast h1
  have hd : |fl x - m * 2 ^ k| < 2 ^ k := by
    rw [abs_lt] at hn hx ⊢
    constructor <;> linarith
  have hpos : 2 ^ 52 * 2 ^ k < fl x := by
    rw [abs_lt] at hd
    have := mul_le_mul_of_nonneg_right hm1 hu.le
    linarith [hd.1]
  have hd0 : IsDouble (fl x) := by
    have := h.mem x
    unfold Double at this
    rwa [abs_of_nonneg] at this
    exact le_trans (by positivity) hpos.le
  have hsc := hd0.scale (-k)
  have hw : 2 ^ 52 ≤ fl x * 2 ^ (-k) := by
    have := mul_le_mul_of_nonneg_right hpos.le (show (0 : ℚ) ≤ 2 ^ (-k) by positivity)
    rwa [mul_assoc, ← zpow_add₀ (by norm_num), add_neg_cancel, zpow_zero, mul_one] at this
  obtain ⟨n, hn⟩ := hsc.whole hw
  have e : fl x = n * 2 ^ k := by
    rw [← hn, mul_assoc, ← zpow_add₀ (by norm_num), neg_add_cancel, zpow_zero, mul_one]
  rw [e, ← sub_mul, abs_mul, abs_of_pos hu] at hd
  have hd : |(n : ℚ) - m| < 1 := by
    by_contra hc
    have := mul_le_mul_of_nonneg_right (not_lt.1 hc) hu.le
    linarith
  have hnm : (n : Int) = m := by
    have h3 : |(n : Int) - m| < 1 := by exact_mod_cast hd
    have := Int.abs_lt_one_iff.1 h3
    omega
  rw [e, show (n : ℚ) = m by exact_mod_cast hnm]

namespace Time64

theorem roundHalfEven_near (x : ℚ) : |x - roundHalfEven x| ≤ 1 / 2 := by
  have h1 := Int.floor_le x
  have h2 := Int.lt_floor_add_one x
  unfold roundHalfEven
  split
  · rw [abs_le]; constructor <;> linarith
  · split
    · push_cast; rw [abs_le]; constructor <;> linarith
    · split
      · rw [abs_le]; constructor <;> linarith
      · push_cast; rw [abs_le]; constructor <;> linarith

theorem roundHalfEven_eq {x : ℚ} {n : Int} (h : |x - n| < 1 / 2) : roundHalfEven x = n := by
  have h1 := roundHalfEven_near x
  have : |((roundHalfEven x - n : Int) : ℚ)| < ((1 : Int) : ℚ) := by
    push_cast
    rw [abs_lt] at h ⊢
    rw [abs_le] at h1
    constructor <;> linarith [h.1, h.2, h1.1, h1.2]
  rw [← Int.cast_abs] at this
  have := Int.abs_lt_one_iff.1 (Int.cast_lt.1 this)
  omega

theorem roundHalfEven_int (n : Int) : roundHalfEven n = n := roundHalfEven_eq (by norm_num)

theorem roundHalfEven_mono {x y : ℚ} (h : x ≤ y) : roundHalfEven x ≤ roundHalfEven y := by
  by_contra hc
  have hc : roundHalfEven y + 1 ≤ roundHalfEven x := by omega
  have hc' : (roundHalfEven y : ℚ) + 1 ≤ roundHalfEven x := by exact_mod_cast hc
  have h1 := abs_le.1 (roundHalfEven_near x)
  have h2 := abs_le.1 (roundHalfEven_near y)
  have e : x = y := by linarith
  rw [e] at hc
  omega

theorem wholePart_close (x : ℚ) : |x - wholePart x| < 1 := by
  unfold wholePart
  have h1 := Int.floor_le x
  have h2 := Int.lt_floor_add_one x
  have h3 := Int.le_ceil x
  have h4 := Int.ceil_lt_add_one x
  split <;> rw [abs_lt] <;> constructor <;> linarith

/-- The microseconds since 1970 that `utcfromtimestamp` finds. -/
def total (fl : ℚ → ℚ) (t : ℚ) : Int := wholePart t * 1000000 + roundHalfEven (fl ((t - wholePart t) * 1000000))

theorem million (h : Nearest Double fl) : fl 1000000 = 1000000 ∧ fl (-1000000) = -1000000 := by
  have h1 := h.id (double_int (n := 1000000) (by norm_num))
  have h2 := h.id (double_int (n := -1000000) (by norm_num))
  push_cast at h1 h2
  exact ⟨h1, h2⟩

theorem frac_bounds (h : Nearest Double fl) (t : ℚ) :
    -1000000 ≤ roundHalfEven (fl ((t - wholePart t) * 1000000)) ∧
    roundHalfEven (fl ((t - wholePart t) * 1000000)) ≤ 1000000 := by
  have hc := abs_lt.1 (wholePart_close t)
  have a := roundHalfEven_mono (h.mono (show (-1000000 : ℚ) ≤ (t - wholePart t) * 1000000 by linarith))
  have b := roundHalfEven_mono (h.mono (show (t - wholePart t) * 1000000 ≤ 1000000 by linarith))
  rw [(million h).2] at a
  rw [(million h).1] at b
  have e1 := roundHalfEven_int (-1000000)
  have e2 := roundHalfEven_int 1000000
  push_cast at e1 e2
  rw [e1] at a
  rw [e2] at b
  exact ⟨a, b⟩

theorem utc_total (h : Nearest Double fl) (t : ℚ) :
    ∃ r : Datetime, r.IsInstant (total fl t) ∧ utcfromtimestamp fl t =
      if -62135596800 ≤ r.seconds ∧ r.seconds < 253402300800 then .ok r else .error .valueError := by
  obtain ⟨b1, b2⟩ := frac_bounds h t
  refine ⟨_, ?_, rfl⟩
  unfold Datetime.IsInstant total
  split
  · refine ⟨?_, ?_, ?_⟩ <;> dsimp only <;> omega
  · split
    · refine ⟨?_, ?_, ?_⟩ <;> dsimp only <;> omega
    · refine ⟨?_, ?_, ?_⟩ <;> dsimp only <;> omega

theorem utc_ok (h : Nearest Double fl) (t : ℚ) (hr : -62135596800000000 ≤ total fl t ∧ total fl t < 253402300800000000) :
    ∃ r : Datetime, utcfromtimestamp fl t = .ok r ∧ r.IsInstant (total fl t) := by
  obtain ⟨r, hi, e⟩ := utc_total h t
  refine ⟨r, ?_, hi⟩
  rw [e, if_pos]
  obtain ⟨e1, e2, e3⟩ := hi
  constructor <;> omega

theorem total_near (h : Nearest Double fl) (t : ℚ) : |(total fl t : ℚ) - t * 1000000| ≤ 1 / 2 + 2 ^ (-34 : Int) := by
  have hc := abs_lt.1 (wholePart_close t)
  have hf : |(t - wholePart t) * 1000000| ≤ 2 ^ (20 : Int) := by
    rw [abs_le]; constructor <;> norm_num <;> linarith
  have h1 := h.double_ulp hf
  have h2 := roundHalfEven_near (fl ((t - wholePart t) * 1000000))
  unfold total
  push_cast
  rw [abs_le] at *
  norm_num at h1 ⊢
  constructor <;> linarith [h1.1, h1.2, h2.1, h2.2]

/-- A timestamp close to a whole number of microseconds is converted to it. -/
theorem total_eq (h : Nearest Double fl) {t : ℚ} {us : Int} (hc : |t * 1000000 - us| ≤ 1 / 2 - 1 / 1000) :
    total fl t = us := by
  have hw := abs_lt.1 (wholePart_close t)
  have hf : |(t - wholePart t) * 1000000| ≤ 2 ^ (20 : Int) := by
    rw [abs_le]; constructor <;> norm_num <;> linarith
  have h1 := h.double_ulp hf
  have : roundHalfEven (fl ((t - wholePart t) * 1000000)) = us - wholePart t * 1000000 := by
    apply roundHalfEven_eq
    push_cast
    rw [abs_le] at hc h1
    norm_num at h1
    rw [abs_lt]
    constructor <;> linarith [h1.1, h1.2, hc.1, hc.2]
  unfold total
  omega

theorem total_mono (h : Nearest Double fl) {s t : ℚ} (hst : s ≤ t) : total fl s ≤ total fl t := by
  have hw : wholePart s ≤ wholePart t := by
    unfold wholePart
    split
    · next hs =>
      rw [if_pos (le_trans hs hst)]
      exact Int.floor_mono hst
    · next hs =>
      split
      · next ht =>
        have h1 : ⌈s⌉ ≤ 0 := Int.ceil_le.2 (by push_cast; linarith)
        have h2 : 0 ≤ ⌊t⌋ := Int.floor_nonneg.2 ht
        omega
      · exact Int.ceil_mono hst
  rcases eq_or_lt_of_le hw with e | hlt
  · have := roundHalfEven_mono (h.mono (show (s - wholePart s) * 1000000 ≤ (t - wholePart t) * 1000000 by
      rw [e]; linarith))
    unfold total
    rw [e] at *
    omega
  · -- the whole parts differ: one of the fractions has a sign
    have b1 := (frac_bounds h s).2
    have b2 := (frac_bounds h t).1
    have z0 := roundHalfEven_int 0
    push_cast at z0
    rcases le_or_gt 0 s with hs | hs
    · have ht : (wholePart t : ℚ) ≤ t := by
        unfold wholePart
        rw [if_pos (le_trans hs hst)]
        exact Int.floor_le t
      have c := roundHalfEven_mono (h.nonneg (show 0 ≤ (t - wholePart t) * 1000000 by linarith))
      rw [z0] at c
      unfold total
      omega
    · have hs' : s ≤ (wholePart s : ℚ) := by
        unfold wholePart
        rw [if_neg (not_le.2 hs)]
        exact Int.le_ceil s
      have c := roundHalfEven_mono (h.nonpos (show (s - wholePart s) * 1000000 ≤ 0 by linarith))
      rw [z0] at c
      unfold total
      omega

/-- How far the quotient computed for a time in nanoseconds is off: less than half a microsecond. -/
theorem nano_stamp (h : Nearest Double fl) {n : Int} (hn : |n| ≤ 2 ^ 32 * 1000000000) :
    |fl (fl n / fl (1000000000 : Nat)) * 1000000 - (n : ℚ) / 1000| ≤ 495 / 1000 := by
  have hp : fl (1000000000 : Nat) = 1000000000 := by
    have := h.id (double_int (n := 1000000000) (by norm_num))
    push_cast at this ⊢
    exact this
  have hn' : |(n : ℚ)| ≤ 2 ^ 32 * 1000000000 := by rw [← Int.cast_abs]; exact_mod_cast hn
  have h1 := h.double_ulp (x := n) (k := 62) (hn'.trans (by norm_num))
  have hb : Double (2 ^ 32 * 1000000000) := by
    unfold Double
    rw [abs_of_nonneg (by norm_num)]
    exact ⟨1000000000, 32, by norm_num, by norm_num⟩
  have hb' : Double (-(2 ^ 32 * 1000000000)) := by
    unfold Double at hb ⊢
    rwa [abs_neg]
  rw [abs_le] at hn'
  have m1 := h.mono hn'.1
  have m2 := h.mono hn'.2
  rw [h.id hb'] at m1
  rw [h.id hb] at m2
  have h2 := h.double_ulp (x := fl n / 1000000000) (k := 32) (by
    rw [abs_le]; constructor <;> norm_num <;> linarith)
  rw [hp]
  rw [abs_le] at h1 h2 ⊢
  norm_num at h1 h2
  constructor <;> linarith [h1.1, h1.2, h2.1, h2.2]

/-- The same for ticks of which a second has `p`, when their number is a double. -/
theorem tick_stamp (h : Nearest Double fl) {n : Int} {p : Nat} (hp : 0 < p) (hp' : p ≤ 1000000)
    (hn : |n| ≤ 2 ^ 33 * p) : |fl (fl n / fl p) - (n : ℚ) / p| ≤ 2 ^ (-21 : Int) := by
  have hpq : (0 : ℚ) < p := by exact_mod_cast hp
  have hpd : fl p = p := h.id (by
    have := double_int (n := p) (by rw [abs_of_nonneg (by omega)]; omega)
    push_cast at this
    exact this)
  have hnd : fl n = n := h.id (double_int (hn.trans (by
    have : (p : Int) ≤ 1000000 := by exact_mod_cast hp'
    linarith)))
  have hn' : |(n : ℚ)| ≤ 2 ^ 33 * p := by rw [← Int.cast_abs]; exact_mod_cast hn
  rw [hpd, hnd]
  have := h.double_ulp (x := (n : ℚ) / p) (k := 33) (by
    rw [abs_div, abs_of_pos hpq, div_le_iff₀ hpq]
    norm_num
    linarith)
  rw [abs_sub_comm]
  norm_num at this ⊢
  exact this

/-- **C60**: times which are whole microseconds are converted exactly: given in nanoseconds up to `2^32` seconds before or
after 1970 (from 1833 to 2106), in microseconds, milliseconds or seconds up to `2^33` seconds (from 1697 to 2242).  For every
rounding to nearest doubles. -/
theorem C60_exact (h : Nearest Double fl) (n us : Int) (p : Nat) (he : n * 1000000 = us * p)
    (hp : (p = 1000000000 ∧ |us| ≤ 2 ^ 32 * 1000000) ∨ ((p = 1000000 ∨ p = 1000 ∨ p = 1) ∧ |us| ≤ 2 ^ 33 * 1000000)) :
    ∃ d, datetime64ToDatetime fl ⟨some n, p⟩ = .ok d ∧ d.IsInstant us := by
  have heq : (n : ℚ) * 1000000 = us * p := by exact_mod_cast he
  have key : total fl (fl (fl n / fl p)) = us := by
    apply total_eq h
    rcases hp with ⟨rfl, hu⟩ | ⟨hp, hu⟩
    · have hn : |n| ≤ 2 ^ 32 * 1000000000 := by
        rw [abs_le] at hu ⊢
        constructor <;> omega
      have := nano_stamp h hn
      have e : (n : ℚ) / 1000 = us := by
        push_cast at heq
        linarith
      rw [e] at this
      exact this.trans (by norm_num)
    · have hp0 : 0 < p := by omega
      have hp1 : p ≤ 1000000 := by omega
      have hn : |n| ≤ 2 ^ 33 * p := by
        rw [abs_le] at hu ⊢
        rcases hp with rfl | rfl | rfl <;> constructor <;> push_cast at he ⊢ <;> omega
      have h1 := tick_stamp h hp0 hp1 hn
      have e : (n : ℚ) / p * 1000000 = us := by
        have : (p : ℚ) ≠ 0 := by exact_mod_cast hp0.ne'
        field_simp
        linarith
      rw [abs_le] at h1 ⊢
      norm_num at h1
      constructor <;> linarith [h1.1, h1.2]
  have hu' : |us| ≤ 2 ^ 33 * 1000000 := by
    rcases hp with ⟨-, hu⟩ | ⟨-, hu⟩
    · exact hu.trans (by norm_num)
    · exact hu
  rw [abs_le] at hu'
  obtain ⟨r, hr, hi⟩ := utc_ok h (fl (fl n / fl p)) (by rw [key]; constructor <;> omega)
  exact ⟨r, hr, by rwa [key] at hi⟩

/-- **C60**: other times in nanoseconds are converted to a datetime less than a microsecond away. -/
theorem C60_close (h : Nearest Double fl) (n : Int) (hn : |n| ≤ 2 ^ 32 * 1000000000) :
    ∃ d us, datetime64ToDatetime fl ⟨some n, 1000000000⟩ = .ok d ∧ d.IsInstant us ∧ |us * 1000 - n| < 1000 := by
  have h1 := nano_stamp h hn
  have h2 := total_near h (fl (fl n / fl (1000000000 : Nat)))
  have hq : |((total fl (fl (fl n / fl (1000000000 : Nat))) * 1000 - n : Int) : ℚ)| < ((1000 : Int) : ℚ) := by
    push_cast
    push_cast at h1 h2
    norm_num at h2
    rw [abs_le] at h1 h2
    rw [abs_lt]
    constructor <;> linarith [h1.1, h1.2, h2.1, h2.2]
  rw [← Int.cast_abs] at hq
  have hq := Int.cast_lt.1 hq
  obtain ⟨r, hr, hi⟩ := utc_ok h (fl (fl n / fl (1000000000 : Nat))) (by
    have hq := abs_lt.1 hq
    rw [abs_le] at hn
    constructor <;> omega)
  exact ⟨r, _, hr, hi, hq⟩

/-- **C60**: the order of times is kept, in every unit and however far from 1970. -/
theorem C60_monotone (h : Nearest Double fl) (n n' : Int) (p : Nat) (hnn : n ≤ n') (d d' : Datetime) (us us' : Int)
    (hd : datetime64ToDatetime fl ⟨some n, p⟩ = .ok d) (hd' : datetime64ToDatetime fl ⟨some n', p⟩ = .ok d')
    (hu : d.IsInstant us) (hu' : d'.IsInstant us') : us ≤ us' := by
  have hp : 0 ≤ fl p := h.nonneg (by positivity)
  have hm := total_mono h (h.mono (div_le_div_of_nonneg_right (h.mono (show (n : ℚ) ≤ n' by exact_mod_cast hnn)) hp))
  have val : ∀ t r u, utcfromtimestamp fl t = .ok r → r.IsInstant u → u = total fl t := by
    intro t r u hr hu
    obtain ⟨r', hi, e⟩ := utc_total h t
    rw [e] at hr
    split at hr
    · rw [Except.ok.inj hr] at hi
      obtain ⟨a, -, -⟩ := hu
      obtain ⟨b, -, -⟩ := hi
      omega
    · exact absurd hr (by simp)
  rw [val _ _ _ hd hu, val _ _ _ hd' hu']
  exact hm

/-- **C60**: times in whole seconds are converted exactly from year 1 to year 9999; outside ValueError is raised. -/
theorem C60_seconds (h : Nearest Double fl) (n : Int) (hn : |n| ≤ 2 ^ 53) :
    (-62135596800 ≤ n ∧ n < 253402300800 → datetime64ToDatetime fl ⟨some n, 1⟩ = .ok ⟨n, 0⟩) ∧
    (n < -62135596800 ∨ 253402300800 ≤ n → datetime64ToDatetime fl ⟨some n, 1⟩ = .error .valueError) := by
  have h1 : fl (1 : Nat) = 1 := by
    have := h.id (double_int (n := 1) (by norm_num))
    push_cast at this ⊢
    exact this
  have hnd := h.id (double_int hn)
  have e : fl (fl n / fl (1 : Nat)) = n := by rw [h1, hnd, div_one, hnd]
  have key : total fl (n : ℚ) = n * 1000000 := total_eq h (by push_cast; rw [sub_self]; norm_num)
  obtain ⟨⟨s, u⟩, ⟨i1, i2, i3⟩, hr⟩ := utc_total h (n : ℚ)
  rw [key] at i1
  dsimp only at i1 i2 i3 hr
  have e1 : s = n := by omega
  have e2 : u = 0 := by omega
  subst e1 e2
  have hd : datetime64ToDatetime fl ⟨some s, 1⟩ = utcfromtimestamp fl (s : ℚ) := by
    show utcfromtimestamp fl (fl (fl s / fl (1 : Nat))) = _
    rw [e]
  rw [hd, hr]
  constructor
  · intro hh
    rw [if_pos hh]
  · intro hh
    rw [if_neg (by omega)]

/-- **C60**: NaT raises ValueError. -/
theorem C60_nat (p : Nat) : datetime64ToDatetime fl ⟨none, p⟩ = .error .valueError := rfl

/-- **C60** (limit): the bounds of `C60_exact` can not be extended: seven microseconds later a time in nanoseconds becomes
one microsecond too late, and one microsecond later a time in microseconds. -/
theorem C60_limit (h : Nearest Double fl) :
    (∃ d, datetime64ToDatetime fl ⟨some ((2 ^ 32 * 1000000 + 7) * 1000), 1000000000⟩ = .ok d ∧
      d.IsInstant (2 ^ 32 * 1000000 + 8)) ∧
    (∃ d, datetime64ToDatetime fl ⟨some (2 ^ 33 * 1000000 + 1), 1000000⟩ = .ok d ∧
      d.IsInstant (2 ^ 33 * 1000000 + 2)) := by
  constructor
  · have hp : fl (1000000000 : Nat) = 1000000000 := by
      have := h.id (double_int (n := 1000000000) (by norm_num))
      push_cast at this ⊢
      exact this
    have h1 : fl (((2 ^ 32 * 1000000 + 7) * 1000 : Int) : ℚ) = (8388608000000014 : Nat) * 2 ^ (9 : Int) :=
      h.eq_of_close (by norm_num) (by norm_num) (by norm_num)
    have h2 : fl (((8388608000000014 : Nat) : ℚ) * 2 ^ (9 : Int) / 1000000000) = (4503599627370504 : Nat) * 2 ^ (-20 : Int) :=
      h.eq_of_close (by norm_num) (by norm_num) (by norm_num)
    have key : total fl (fl (fl (((2 ^ 32 * 1000000 + 7) * 1000 : Int) : ℚ) / fl (1000000000 : Nat))) =
        2 ^ 32 * 1000000 + 8 := by
      apply total_eq h
      rw [hp, h1, h2]
      norm_num
    obtain ⟨r, hr, hi⟩ := utc_ok h (fl (fl (((2 ^ 32 * 1000000 + 7) * 1000 : Int) : ℚ) / fl (1000000000 : Nat)))
      (by rw [key]; norm_num)
    exact ⟨r, hr, by rwa [key] at hi⟩
  · have hp : fl (1000000 : Nat) = 1000000 := by
      have := h.id (double_int (n := 1000000) (by norm_num))
      push_cast at this ⊢
      exact this
    have h1 : fl ((2 ^ 33 * 1000000 + 1 : Int) : ℚ) = (2 ^ 33 * 1000000 + 1 : Int) := h.id (double_int (by norm_num))
    have h2 : fl (((2 ^ 33 * 1000000 + 1 : Int) : ℚ) / 1000000) = (4503599627370497 : Nat) * 2 ^ (-19 : Int) :=
      h.eq_of_close (by norm_num) (by norm_num) (by norm_num)
    have key : total fl (fl (fl ((2 ^ 33 * 1000000 + 1 : Int) : ℚ) / fl (1000000 : Nat))) = 2 ^ 33 * 1000000 + 2 := by
      apply total_eq h
      rw [hp, h1, h2]
      norm_num
    obtain ⟨r, hr, hi⟩ := utc_ok h (fl (fl ((2 ^ 33 * 1000000 + 1 : Int) : ℚ) / fl (1000000 : Nat)))
      (by rw [key]; norm_num)
    exact ⟨r, hr, by rwa [key] at hi⟩

/-- There is such a rounding (`exists_nearest_double`), and half past noon on 2016-08-01, with 250 ms, is converted exactly. -/
example : ∃ fl, Nearest Double fl ∧
    datetime64ToDatetime fl ⟨some 1470054600250000000, 1000000000⟩ = .ok ⟨1470054600, 250000⟩ := by
  obtain ⟨fl, h, -⟩ := exists_nearest_double
  obtain ⟨⟨s, u⟩, h1, h2, h3, h4⟩ :=
    C60_exact h 1470054600250000000 1470054600250000 1000000000 (by norm_num) (.inl ⟨rfl, by norm_num⟩)
  dsimp only at h2 h3 h4
  have e1 : s = 1470054600 := by omega
  have e2 : u = 250000 := by omega
  subst e1 e2
  exact ⟨fl, h, h1⟩

end Time64

end FV3
