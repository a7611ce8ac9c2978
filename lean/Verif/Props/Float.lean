import Verif.Spec.Float
import Mathlib.Tactic.Linarith
import Mathlib.Tactic.Ring
import Mathlib.Tactic.FieldSimp
import Mathlib.Tactic.Positivity
import Mathlib.Tactic.NormNum

/-!
# C05: the arithmetic of `rank_extent_from_tile_metadata` in the model is that of IEEE-754 doubles
-/

namespace FV3

theorem IsDouble.scale {q : ℚ} (h : IsDouble q) (k : Int) : IsDouble (q * 2 ^ k) := by
  obtain ⟨m, e, hm, rfl⟩ := h
  exact ⟨m, e + k, hm, by rw [zpow_add₀ (by norm_num)]; ring⟩

theorem EvenDouble.scale {q : ℚ} (h : EvenDouble q) (k : Int) : EvenDouble (q * 2 ^ k) := by
  obtain ⟨m, e, h1, h2, h3, rfl⟩ := h
  exact ⟨m, e + k, h1, h2, h3, by rw [zpow_add₀ (by norm_num)]; ring⟩

theorem RoundsTo.scale {q r : ℚ} (h : RoundsTo q r) (k : Int) : RoundsTo (q * 2 ^ k) (r * 2 ^ k) := by
  have hp : (0 : ℚ) < 2 ^ k := by positivity
  refine ⟨h.1.scale k, fun s hs hne => ?_⟩
  have hs' : IsDouble (s * 2 ^ (-k)) := hs.scale (-k)
  have es : s = s * 2 ^ (-k) * 2 ^ k := by rw [zpow_neg]; field_simp
  have hne' : s * 2 ^ (-k) ≠ r := fun e => hne (by rw [es, e])
  have key : ∀ a b : ℚ, |a * 2 ^ k - b * 2 ^ k| = |a - b| * 2 ^ k := by
    intro a b
    rw [← sub_mul, abs_mul, abs_of_pos hp]
  rw [es, key, key]
  rcases h.2 _ hs' hne' with h1 | ⟨h1, h2⟩
  · exact .inl (by nlinarith)
  · exact .inr ⟨by rw [h1], h2.scale k⟩

/-- A double which is at least `2 ^ 52` is a whole number. -/
theorem IsDouble.whole {s : ℚ} (h : IsDouble s) (hs : 2 ^ 52 ≤ s) : ∃ n : Nat, s = n := by
  obtain ⟨m, e, hm, rfl⟩ := h
  by_cases he : 0 ≤ e
  · obtain ⟨k, rfl⟩ := Int.eq_ofNat_of_zero_le he
    exact ⟨m * 2 ^ k, by push_cast; rfl⟩
  · exfalso
    have h1 : (2 : ℚ) ^ e ≤ 2 ^ (-1 : Int) := zpow_le_zpow_right₀ (by norm_num) (by omega)
    have h2 : (m : ℚ) < 2 ^ 53 := by exact_mod_cast hm
    have h3 : (0 : ℚ) ≤ m := by positivity
    have h4 : (0 : ℚ) < 2 ^ e := by positivity
    have h5 : (m : ℚ) * 2 ^ e ≤ m * 2 ^ (-1 : Int) := mul_le_mul_of_nonneg_left h1 h3
    norm_num at hs h5
    have h6 : (2 : ℚ) ^ 53 = 9007199254740992 := by norm_num
    rw [h6] at h2
    linarith

theorem isDouble_nat {n : Nat} (h : n ≤ 2 ^ 53) : IsDouble n := by
  rcases Nat.lt_or_ge n (2 ^ 53) with h1 | h1
  · exact ⟨n, 0, h1, by simp⟩
  · have : n = 2 ^ 53 := by omega
    subst this
    exact ⟨2 ^ 52, 1, by norm_num, by norm_num⟩

theorem evenDouble_nat {n : Nat} (h1 : 2 ^ 52 ≤ n) (h2 : n ≤ 2 ^ 53) (h3 : n % 2 = 0) : EvenDouble n := by
  rcases Nat.lt_or_ge n (2 ^ 53) with h | h
  · exact ⟨n, 0, h1, h, h3, by simp⟩
  · have : n = 2 ^ 53 := by omega
    subst this
    exact ⟨2 ^ 52, 1, by norm_num, by norm_num, by norm_num, by norm_num⟩

/-- Rounding to an integer, by cases. -/
theorem rneDiv_cases (x d : Nat) (hd : 0 < d) :
    ∃ q r, x = d * q + r ∧ r < d ∧ ((rneDiv x d = q ∧ 2 * r < d) ∨ (rneDiv x d = q + 1 ∧ d < 2 * r) ∨
      (2 * r = d ∧ (rneDiv x d = q ∨ rneDiv x d = q + 1) ∧ rneDiv x d % 2 = 0)) := by
  refine ⟨x / d, x % d, (Nat.div_add_mod x d).symm, Nat.mod_lt _ hd, ?_⟩
  unfold rneDiv
  split
  · exact .inl ⟨rfl, by assumption⟩
  · split
    · exact .inr (.inl ⟨rfl, by omega⟩)
    · refine .inr (.inr ⟨by omega, ?_⟩)
      split
      · exact ⟨.inl rfl, by assumption⟩
      · exact ⟨.inr rfl, by omega⟩

/-- The nearest integer, compared with other integers. -/
theorem rneDiv_nearest (x d : Nat) (hd : 0 < d) (n : Nat) (hn : n ≠ rneDiv x d) :
    |(x : ℚ) / d - rneDiv x d| < |(x : ℚ) / d - n| ∨
    (|(x : ℚ) / d - rneDiv x d| = |(x : ℚ) / d - n| ∧ rneDiv x d % 2 = 0) := by
  obtain ⟨q, r, hx, hr, hc⟩ := rneDiv_cases x d hd
  have hdq : (0 : ℚ) < d := by exact_mod_cast hd
  have hval : (x : ℚ) / d = q + (r : ℚ) / d := by
    rw [hx]; push_cast; field_simp
  have hr0 : (0 : ℚ) ≤ (r : ℚ) / d := by positivity
  have hr1 : (r : ℚ) / d < 1 := by rw [div_lt_one hdq]; exact_mod_cast hr
  rw [hval]
  generalize hf : (r : ℚ) / d = f at hr0 hr1
  have far : ∀ (n : Nat) , n ≤ q → |(q : ℚ) + f - n| = (q - n : ℚ) + f := by
    intro n h
    have : (n : ℚ) ≤ q := by exact_mod_cast h
    rw [abs_of_nonneg (by linarith)]; ring
  have near : ∀ (n : Nat), q + 1 ≤ n → |(q : ℚ) + f - n| = (n - q : ℚ) - f := by
    intro n h
    have : (q : ℚ) + 1 ≤ n := by exact_mod_cast h
    rw [abs_of_nonpos (by linarith)]; ring
  have lo : ∀ {n : Nat}, n < q → (n : ℚ) + 1 ≤ q := fun h => by exact_mod_cast h
  have hi : ∀ {n : Nat}, q + 1 < n → (q : ℚ) + 2 ≤ n := fun {n} h => by
    have : q + 2 ≤ n := h
    exact_mod_cast this
  rcases hc with ⟨e, h⟩ | ⟨e, h⟩ | ⟨h, he, h2⟩
  · have hh : f < 1 / 2 := by
      rw [← hf, div_lt_div_iff₀ hdq (by norm_num)]
      have : (2 * r : ℚ) < d := by exact_mod_cast h
      linarith
    rw [e] at hn ⊢
    left
    rw [far q (Nat.le_refl _)]
    rcases Nat.lt_or_ge n q with h3 | h3
    · rw [far n (by omega)]
      have := lo h3
      linarith
    · rw [near n (by omega)]
      have : (q : ℚ) + 1 ≤ n := by exact_mod_cast (by omega : q + 1 ≤ n)
      linarith
  · have hh : 1 / 2 < f := by
      rw [← hf, div_lt_div_iff₀ (by norm_num) hdq]
      have : (d : ℚ) < 2 * r := by exact_mod_cast h
      linarith
    rw [e] at hn ⊢
    left
    rw [near (q + 1) (Nat.le_refl _)]
    push_cast
    rcases Nat.lt_or_ge n (q + 1) with h3 | h3
    · rw [far n (by omega)]
      have : (n : ℚ) ≤ q := by exact_mod_cast (by omega : n ≤ q)
      linarith
    · rw [near n (by omega)]
      have := hi (n := n) (by omega)
      linarith
  · have hh : f = 1 / 2 := by
      rw [← hf, div_eq_div_iff hdq.ne' (by norm_num)]
      have : (2 * r : ℚ) = d := by exact_mod_cast h
      linarith
    have hv : |(q : ℚ) + f - rneDiv x d| = 1 / 2 := by
      rcases he with e | e
      · rw [e, far q (Nat.le_refl _)]; linarith
      · rw [e, near (q + 1) (Nat.le_refl _)]; push_cast; linarith
    rw [hv]
    rcases Nat.lt_or_ge n q with h3 | h3
    · left; rw [far n (by omega)]; have := lo h3; linarith
    · rcases Nat.lt_or_ge (q + 1) n with h4 | h4
      · left; rw [near n (by omega)]; have := hi h4; linarith
      · right
        refine ⟨?_, h2⟩
        rcases (by omega : n = q ∨ n = q + 1) with e | e
        · rw [e, far q (Nat.le_refl _)]; linarith
        · rw [e, near (q + 1) (Nat.le_refl _)]; push_cast; linarith

/-- A quotient between `2 ^ 52` and `2 ^ 53` is rounded to an integer. -/
theorem rneDiv_rounds (x d : Nat) (hd : 0 < d) (h1 : 2 ^ 52 * d ≤ x) (h2 : x ≤ 2 ^ 53 * d) :
    RoundsTo ((x : ℚ) / d) (rneDiv x d) := by
  have hdq : (0 : ℚ) < d := by exact_mod_cast hd
  have g1 : (2 : ℚ) ^ 52 ≤ (x : ℚ) / d := by rw [le_div_iff₀ hdq]; exact_mod_cast h1
  obtain ⟨q, r, hx, hr, hc⟩ := rneDiv_cases x d hd
  have hq1 : 2 ^ 52 ≤ q := by
    by_contra hlt
    have : d * (q + 1) ≤ d * 2 ^ 52 := Nat.mul_le_mul_left _ (by omega)
    rw [Nat.mul_add] at this
    omega
  have hq2 : d * q ≤ d * 2 ^ 53 := by omega
  have hq2' : q ≤ 2 ^ 53 := Nat.le_of_mul_le_mul_left hq2 hd
  have hq3 : q = 2 ^ 53 → r = 0 := by
    intro e
    subst e
    omega
  have b1 : 2 ^ 52 ≤ rneDiv x d := by
    rcases hc with ⟨e, h⟩ | ⟨e, h⟩ | ⟨h, e | e, -⟩ <;> omega
  have b2 : rneDiv x d ≤ 2 ^ 53 := by
    rcases Nat.lt_or_ge q (2 ^ 53) with hlt | hge
    · rcases hc with ⟨e, h⟩ | ⟨e, h⟩ | ⟨h, e | e, -⟩ <;> omega
    · have := hq3 (by omega)
      rcases hc with ⟨e, h⟩ | ⟨e, h⟩ | ⟨h, e | e, -⟩ <;> omega
  refine ⟨isDouble_nat b2, fun s hs hne => ?_⟩
  rcases le_or_gt (2 ^ 52 : ℚ) s with hle | hlt
  · obtain ⟨n, rfl⟩ := hs.whole hle
    rcases rneDiv_nearest x d hd n (fun e => hne (by rw [e])) with h | ⟨h, he⟩
    · exact .inl h
    · exact .inr ⟨h, evenDouble_nat b1 b2 he⟩
  · left
    have hlt' : |(x : ℚ) / d - (2 ^ 52 : Nat)| < |(x : ℚ) / d - s| := by
      push_cast
      rw [abs_of_nonneg (by linarith), abs_of_nonneg (by linarith)]
      linarith
    by_cases e : 2 ^ 52 = rneDiv x d
    · rw [← e]; exact hlt'
    · rcases rneDiv_nearest x d hd (2 ^ 52) e with h | ⟨h, -⟩
      · exact h.trans hlt'
      · rw [h]; exact hlt'

theorem round53_rounds (x : Nat) : RoundsTo x (round53 x) := by
  unfold round53
  split
  next h =>
    have hx : x < 2 ^ 53 := by
      rcases Nat.eq_zero_or_pos x with rfl | hpos
      · norm_num
      · have := (Nat.log2_lt (by omega : x ≠ 0)).1 (by omega : x.log2 < 53)
        exact this
    refine ⟨isDouble_nat (by omega), fun s hs hne => .inl ?_⟩
    rw [sub_self, abs_zero, abs_pos, sub_ne_zero]
    exact fun e => hne e.symm
  next h =>
    have hx0 : x ≠ 0 := by
      rintro rfl
      simp at h
    have h1 : 2 ^ x.log2 ≤ x := Nat.log2_self_le hx0
    have h2 : x < 2 ^ (x.log2 + 1) := Nat.lt_log2_self
    have e1 : 2 ^ x.log2 = 2 ^ 52 * 2 ^ (x.log2 - 52) := by rw [← Nat.pow_add]; congr 1; omega
    have e2 : 2 ^ (x.log2 + 1) = 2 ^ 53 * 2 ^ (x.log2 - 52) := by rw [← Nat.pow_add]; congr 1; omega
    generalize x.log2 - 52 = k at *
    have := (rneDiv_rounds x (2 ^ k) (by positivity) (by omega) (by omega)).scale k
    have ex : (x : ℚ) / ((2 ^ k : Nat) : ℚ) * 2 ^ (k : Int) = x := by push_cast; field_simp; simp
    rw [ex] at this
    push_cast
    simpa using this

/-- A number whose numerator is rounded. -/
theorem rounds_val {q : ℚ} {m s : Nat} {x : Nat} (h : RoundsTo x m) (e : q = x / 2 ^ s) : RoundsTo q (F64.mk m s).val := by
  have := h.scale (-(s : Int))
  rw [e]
  unfold F64.val
  simpa [zpow_neg, div_eq_mul_inv] using this

/-- **C05** (the arithmetic): conversion, reciprocal, product and sum are correctly rounded in the sense of IEEE-754, to the
nearest double with ties to even, and `int()` drops the fraction. -/
theorem C05_arithmetic :
    (∀ n : Nat, RoundsTo n (F64.ofNat n).val) ∧
    (∀ n : Nat, 0 < n → RoundsTo (1 / (n : ℚ)) (F64.recip n).val) ∧
    (∀ a b : F64, RoundsTo (a.val * b.val) (a.mul b).val) ∧
    (∀ a b : F64, RoundsTo (a.val + b.val) (a.add b).val) ∧
    (∀ a : F64, a.trunc = ⌊a.val⌋) := by
  refine ⟨fun n => rounds_val (round53_rounds n) (by simp), fun n hn => ?_, fun a b => ?_, fun a b => ?_, fun a => ?_⟩
  · have h1 : 2 ^ n.log2 ≤ n := Nat.log2_self_le (by omega)
    have h2 : n < 2 ^ (n.log2 + 1) := Nat.lt_log2_self
    have hr := rneDiv_rounds (2 ^ (53 + n.log2)) n hn
      (by rw [show 53 + n.log2 = 52 + (n.log2 + 1) by omega, Nat.pow_add]; exact Nat.mul_le_mul_left _ h2.le)
      (by rw [Nat.pow_add]; exact Nat.mul_le_mul_left _ h1)
    have := hr.scale (-((53 + n.log2 : Nat) : Int))
    have e : ((2 ^ (53 + n.log2) : Nat) : ℚ) / n * 2 ^ (-((53 + n.log2 : Nat) : Int)) = 1 / n := by
      rw [zpow_neg, zpow_natCast]
      push_cast
      field_simp
    rw [e] at this
    unfold F64.val F64.recip
    rw [zpow_neg, zpow_natCast, ← div_eq_mul_inv] at this
    exact this
  · refine rounds_val (round53_rounds _) ?_
    unfold F64.val
    push_cast
    rw [pow_add]
    field_simp
  · refine rounds_val (round53_rounds _) ?_
    unfold F64.val
    push_cast
    rw [pow_add]
    field_simp
  · unfold F64.trunc F64.val
    have := Rat.floor_intCast_div_natCast (a.num : Int) (2 ^ a.scale)
    push_cast at this ⊢
    rw [this]

/-- A tie: `2 ^ 53 + 1` is halfway between two doubles and goes to the even one; the next odd number goes up. -/
example : round53 (2 ^ 53 + 1) = 2 ^ 53 ∧ round53 (2 ^ 53 + 3) = 2 ^ 53 + 4 := by decide +kernel

end FV3
