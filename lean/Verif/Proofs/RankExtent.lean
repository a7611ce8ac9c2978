import Verif.Model.Partitioner
import Verif.Proofs.Float
import Mathlib.Data.Nat.Prime.Basic

namespace FV3

theorem nShared_cases (d : Dim) : nShared d = 0 ∨ nShared d = 1 := by
  unfold nShared; split <;> simp

theorem round53_small {x : Nat} (h : x < 2 ^ 53) : round53 x = x := by
  simpa using round53_exact (k := x) (s := 0) h

/-- The double-precision computation is exact for float-safe layouts. -/
theorem rankExtent1D_exact (d : Dim) (k n : Nat) (hn : 0 < n) (hs : RecipSafe n)
    (hb : k * n < 2 ^ 51) : rankExtent1D d ((k : Int) * n + nShared d) n = k + nShared d := by
  obtain ⟨c, hc, hc1⟩ : ∃ c : Nat, nShared d = (c : Int) ∧ c ≤ 1 := by
    rcases nShared_cases d with h | h
    · exact ⟨0, by simpa using h, by omega⟩
    · exact ⟨1, by simpa using h, by omega⟩
  unfold rankExtent1D
  simp only [hc]
  have e1 : ((k : Int) * n + c - c) = ((k * n : Nat) : Int) := by push_cast; ring
  rw [e1]
  rw [if_neg (by omega)]
  simp only [Int.toNat_natCast]
  have hkn : k ≤ k * n := Nat.le_mul_of_pos_right k hn
  have ho : F64.ofNat (k * n) = ⟨k * n, 0⟩ := by
    unfold F64.ofNat; rw [round53_small (by omega)]
  have hoc : F64.ofNat c = ⟨c, 0⟩ := by
    unfold F64.ofNat; rw [round53_small (by omega)]
  rw [ho, hoc]
  obtain ⟨m, hm⟩ : ∃ m, m = (F64.recip n).num := ⟨_, rfl⟩
  have hrec : F64.recip n = ⟨m, 53 + n.log2⟩ := by rw [hm]; rfl
  have hup := recip_upper n hn
  rw [← hm] at hup
  unfold RecipSafe at hs
  rw [← hm] at hs
  rw [hrec]
  unfold F64.mul F64.add F64.trunc
  simp only [Nat.zero_add, Nat.add_zero, Nat.pow_zero, Nat.mul_one]
  obtain ⟨S, hS⟩ : ∃ S, S = 53 + n.log2 := ⟨_, rfl⟩
  rw [← hS] at hs hup ⊢
  obtain ⟨U, hU⟩ : ∃ U, S = U + 1 := ⟨S - 1, by omega⟩
  have h2S : 2 ^ S = 2 * 2 ^ U := by rw [hU, Nat.pow_succ]; ring
  have h2U : 2 ^ 52 ≤ 2 ^ U := Nat.pow_le_pow_right (by omega) (by omega)
  -- bounds on the product
  have hkm : k * (n * m) = k * n * m := by ring
  have hlo : k * 2 ^ S ≤ round53 (k * n * m) := by
    rcases Nat.eq_or_lt_of_le (Nat.succ_le_of_lt hn) with h1 | h1
    · -- n = 1
      subst h1
      have hm1 : m = 2 ^ 53 := by rw [hm]; decide +kernel
      have hS1 : S = 53 := by rw [hS]; decide +kernel
      apply le_round53_of_le (by omega)
      rw [hm1, hS1]; simp
    · have hL : 1 ≤ n.log2 := (Nat.le_log2 (by omega)).2 (by omega)
      apply le_round53 (by omega) (by omega)
      calc k * 2 ^ S ≤ k * (n * m + 2 ^ (S - 54)) := Nat.mul_le_mul_left _ hs
        _ = _ := by ring
  have hhi : round53 (k * n * m) ≤ (2 * k + 1) * 2 ^ U := by
    apply round53_le (by omega)
    have h3 : k * (2 * (n * m)) ≤ k * (2 * 2 ^ S + n) := Nat.mul_le_mul_left _ hup
    have e3 : k * (2 * (n * m)) = 2 * (k * n * m) := by ring
    have e4 : k * (2 * 2 ^ S + n) = 4 * (k * 2 ^ U) + k * n := by rw [h2S]; ring
    have e5 : (2 * k + 1) * 2 ^ U = 2 * (k * 2 ^ U) + 2 ^ U := by ring
    omega
  generalize round53 (k * n * m) = p at *
  have hlo2 : (k + c) * 2 ^ S ≤ round53 (p + c * 2 ^ S) := by
    apply le_round53_of_le (by omega)
    rw [Nat.add_mul]; omega
  have hhi2 : round53 (p + c * 2 ^ S) ≤ (2 * (k + c) + 1) * 2 ^ U := by
    apply round53_le (by omega)
    rw [h2S]
    have : (2 * (k + c) + 1) * 2 ^ U = (2 * k + 1) * 2 ^ U + c * (2 * 2 ^ U) := by ring
    omega
  have hdiv : round53 (p + c * 2 ^ S) / 2 ^ S = k + c := by
    apply Nat.div_eq_of_lt_le
    · exact hlo2
    · refine lt_of_le_of_lt hhi2 ?_
      have e6 : (k + c + 1) * 2 ^ S = (2 * (k + c) + 1) * 2 ^ U + 2 ^ U := by rw [h2S]; ring
      rw [e6]
      have : 0 < 2 ^ U := by positivity
      omega
  rw [hdiv]; push_cast; rfl

/-- Conversely, already the extent `n` is divided wrongly when `n` is not float-safe. -/
theorem rankExtent1D_unsafe (n : Nat) (hn : 0 < n) (hb : n < 2 ^ 51) (hs : ¬ RecipSafe n) :
    rankExtent1D .x n n = 0 := by
  unfold rankExtent1D
  have h0 : nShared .x = 0 := by decide
  simp only [h0]
  rw [if_neg (by omega)]
  simp only [Int.sub_zero, Int.toNat_natCast, Int.toNat_zero]
  have ho : F64.ofNat n = ⟨n, 0⟩ := by
    unfold F64.ofNat; rw [round53_small (by omega)]
  have ho0 : F64.ofNat 0 = ⟨0, 0⟩ := by
    unfold F64.ofNat; rw [round53_small (by omega)]
  rw [ho, ho0]
  obtain ⟨m, hm⟩ : ∃ m, m = (F64.recip n).num := ⟨_, rfl⟩
  have hrec : F64.recip n = ⟨m, 53 + n.log2⟩ := by rw [hm]; rfl
  unfold RecipSafe at hs
  rw [← hm] at hs
  rw [hrec]
  unfold F64.mul F64.add F64.trunc
  simp only [Nat.zero_add, Nat.add_zero, Nat.pow_zero, Nat.mul_one, Nat.zero_mul]
  obtain ⟨S, hS⟩ : ∃ S, S = 53 + n.log2 := ⟨_, rfl⟩
  rw [← hS] at hs ⊢
  -- n ≥ 2
  have hn2 : 2 ≤ n := by
    by_contra h
    have : n = 1 := by omega
    subst this
    have hm1 : m = 2 ^ 53 := by rw [hm]; decide +kernel
    have hS1 : S = 53 := by rw [hS]; decide +kernel
    rw [hm1, hS1] at hs; simp at hs
  have hL : 1 ≤ n.log2 := (Nat.le_log2 (by omega)).2 (by simpa using hn2)
  obtain ⟨V, hV⟩ : ∃ V, S = V + 54 := ⟨S - 54, by omega⟩
  have hVn : V = n.log2 - 1 := by omega
  have h2S : 2 ^ S = 2 ^ 54 * 2 ^ V := by rw [hV, Nat.pow_add]; ring
  have h53 : 2 ^ (S - 53) = 2 * 2 ^ V := by
    rw [show S - 53 = V + 1 by omega, Nat.pow_succ]; ring
  rw [show S - 54 = V by omega] at hs
  have hVpos : 0 < 2 ^ V := by positivity
  obtain ⟨x, hx⟩ : ∃ x, x = n * m := ⟨_, rfl⟩
  rw [← hx] at hs ⊢
  have hlt : x < 2 ^ S := by omega
  -- result of the product
  have hprod : ∃ q, q < 2 ^ 53 ∧ ∃ t, round53 x = q * 2 ^ t ∧ q * 2 ^ t < 2 ^ S := by
    by_cases hx52 : x.log2 ≤ 52
    · refine ⟨x, ?_, 0, ?_⟩
      · rcases Nat.eq_zero_or_pos x with h0 | h0
        · subst h0; simp
        · exact (Nat.log2_lt (by omega)).1 (by omega)
      · have : round53 x = x := by unfold round53; rw [if_pos hx52]
        rw [this]; simp [hlt]
    · -- rounding to a multiple of 2^j with j ≤ S-53
      have hx0 : 0 < x := by
        rcases Nat.eq_zero_or_pos x with h0 | h0
        · subst h0; simp at hx52
        · exact h0
      have hlg : x.log2 < S := (Nat.log2_lt (by omega)).2 hlt
      obtain ⟨j, hj⟩ : ∃ j, j = x.log2 - 52 := ⟨_, rfl⟩
      have hjS : j ≤ V + 1 := by omega
      have hr : round53 x = rneDiv x (2 ^ j) * 2 ^ j := by
        unfold round53; rw [if_neg hx52, hj]
      obtain ⟨w, hw⟩ := Nat.exists_eq_add_of_le hjS
      -- 2^S = 2^53 * 2^w * 2^j
      have hSj : 2 ^ S = (2 ^ 53 * 2 ^ w) * 2 ^ j := by
        rw [h2S, Nat.mul_assoc (2 ^ 53), ← Nat.pow_add 2 w, show w + j = V + 1 by omega,
          Nat.pow_succ 2 V]; ring
      have hle : rneDiv x (2 ^ j) ≤ 2 ^ 53 * 2 ^ w - 1 := by
        apply rneDiv_le (by positivity)
        have hw0 : 0 < 2 ^ w := by positivity
        have e1 : 2 * (2 ^ 53 * 2 ^ w - 1) + 1 = 2 ^ 54 * 2 ^ w - 1 := by omega
        rw [e1, Nat.sub_mul, Nat.one_mul]
        have hjle : 2 ^ j ≤ 2 * 2 ^ V := by
          have := Nat.pow_le_pow_right (n := 2) (by omega) hjS
          rw [Nat.pow_succ] at this; omega
        have e2 : 2 ^ 54 * 2 ^ w * 2 ^ j = 2 * 2 ^ S := by rw [hSj]; ring
        rw [e2]; omega
      have hrS : rneDiv x (2 ^ j) * 2 ^ j < 2 ^ S := by
        rw [hSj]
        apply Nat.mul_lt_mul_of_pos_right _ (by positivity)
        have : 0 < 2 ^ 53 * 2 ^ w := by positivity
        omega
      -- the mantissa is at most 2^53
      have hm53 : rneDiv x (2 ^ j) ≤ 2 ^ 53 := by
        apply rneDiv_le (by positivity)
        have := Nat.lt_log2_self (n := x)
        have e : 2 ^ (x.log2 + 1) = 2 ^ 53 * 2 ^ j := by
          rw [← Nat.pow_add]; congr 1; omega
        rw [e] at this
        have e3 : (2 * 2 ^ 53 + 1) * 2 ^ j = 2 * (2 ^ 53 * 2 ^ j) + 2 ^ j := by ring
        rw [e3]; omega
      rcases Nat.lt_or_eq_of_le hm53 with h | h
      · exact ⟨_, h, j, hr, hrS⟩
      · refine ⟨1, by omega, j + 53, ?_, ?_⟩
        · rw [hr, h, Nat.one_mul, Nat.pow_add]; ring
        · rw [Nat.one_mul, Nat.pow_add]; rw [h] at hrS; rw [Nat.mul_comm]; exact hrS
  obtain ⟨q, hq, t, hqt, hqS⟩ := hprod
  rw [hqt, round53_exact hq, Nat.div_eq_of_lt hqS]
  rfl

/-- One-dimensional extents are right for every multiple of `n` iff they are right for
the single extent `n`. -/
theorem recipSafe_iff (n : Nat) (hn : 0 < n) (hb : n < 2 ^ 51) :
    RecipSafe n ↔ rankExtent1D .x n n = 1 := by
  constructor
  · intro h
    have := rankExtent1D_exact .x 1 n hn h (by omega)
    have h0 : nShared .x = 0 := by decide
    simpa [h0] using this
  · intro h
    by_contra hs
    rw [rankExtent1D_unsafe n hn hb hs] at h
    omega

theorem recipSafe_le_48 : ∀ n, 0 < n → n ≤ 48 → RecipSafe n := by
  have : ∀ n : Fin 49, 0 < n.val → RecipSafe n.val := by decide +kernel
  intro n h0 h1
  exact this ⟨n, by omega⟩ h0

/-- Rounded division of doubled numbers. -/
theorem rneDiv_double (x d : Nat) : rneDiv (2 * x) (2 * d) = rneDiv x d := by
  unfold rneDiv
  rw [Nat.mul_mod_mul_left, Nat.mul_div_mul_left _ _ (by decide : 0 < 2)]
  have e1 : (2 * (2 * (x % d)) < 2 * d) = (2 * (x % d) < d) := by apply propext; omega
  have e2 : (2 * (2 * (x % d)) > 2 * d) = (2 * (x % d) > d) := by apply propext; omega
  simp only [e1, e2]

/-- Doubling a layout entry changes nothing. -/
theorem recipSafe_double (n : Nat) (hn : 0 < n) : RecipSafe (2 * n) ↔ RecipSafe n := by
  by_cases h1 : n = 1
  · subst h1; decide +kernel
  · have hl : (2 * n).log2 = n.log2 + 1 := by
      rw [Nat.log2_eq_iff (by omega), Nat.pow_succ, Nat.pow_succ]
      have := log2_spec hn
      rw [Nat.pow_succ] at this
      omega
    have hL : 1 ≤ n.log2 := by
      by_contra h
      have := (log2_spec hn).2
      have h0 : n.log2 = 0 := by omega
      rw [h0] at this
      omega
    have hnum : (F64.recip (2 * n)).num = (F64.recip n).num := by
      show rneDiv (2 ^ (53 + (2 * n).log2)) (2 * n) = rneDiv (2 ^ (53 + n.log2)) n
      rw [hl, show 53 + (n.log2 + 1) = (53 + n.log2) + 1 by omega, Nat.pow_succ, Nat.mul_comm _ 2,
        rneDiv_double]
    unfold RecipSafe
    rw [hnum, hl, show 53 + (n.log2 + 1) = (53 + n.log2) + 1 by omega,
      show 53 + n.log2 + 1 - 54 = (53 + n.log2 - 54) + 1 by omega, Nat.pow_succ, Nat.pow_succ, Nat.mul_assoc]
    omega

/-- Multiplying a layout entry by a power of two changes nothing. -/
theorem recipSafe_two_pow (n k : Nat) (hn : 0 < n) : RecipSafe (2 ^ k * n) ↔ RecipSafe n := by
  induction k with
  | zero => simp
  | succ k ih =>
    rw [Nat.pow_succ, Nat.mul_comm (2 ^ k) 2, Nat.mul_assoc, recipSafe_double _ (by positivity), ih]

/-- The remainder test: `n` is safe iff the rounding of `1/n` goes up or the remainder it drops is
at most half of the largest power of two in `n`. -/
theorem recipSafe_iff_mod (n : Nat) (hn : 2 ≤ n) :
    RecipSafe n ↔ ¬ (2 ^ n.log2 < 2 * (2 ^ (53 + n.log2) % n) ∧ 2 * (2 ^ (53 + n.log2) % n) < n) := by
  have hL : 1 ≤ n.log2 := by
    by_contra h
    have := (log2_spec (by omega : 0 < n)).2
    have h0 : n.log2 = 0 := by omega
    rw [h0] at this
    omega
  have hdm := Nat.div_add_mod (2 ^ (53 + n.log2)) n
  have hlt := Nat.mod_lt (2 ^ (53 + n.log2)) (by omega : n > 0)
  have hpow : 2 ^ n.log2 = 2 * 2 ^ (53 + n.log2 - 54) := by
    rw [Nat.mul_comm, ← Nat.pow_succ]; congr 1; omega
  unfold RecipSafe
  show 2 ^ (53 + n.log2) ≤ n * rneDiv (2 ^ (53 + n.log2)) n + _ ↔ _
  unfold rneDiv
  generalize hX : 2 ^ (53 + n.log2) = X at *
  generalize hP : 2 ^ (53 + n.log2 - 54) = P at *
  rw [hpow]
  have hsucc : n * (X / n + 1) = n * (X / n) + n := by ring
  split
  · constructor
    · intro h; omega
    · intro h; omega
  · split
    · rw [hsucc]
      constructor
      · intro h; omega
      · intro h; omega
    · have htie : 2 * (X % n) = n := by omega
      have hle : n ≤ 2 * P + (2 * P) - 1 := by
        have := (log2_spec (by omega : 0 < n)).2
        rw [Nat.pow_succ, hpow] at this
        omega
      exfalso
      -- a tie would make `n` a power of two, which divides `X`
      have hdiv : n ∣ 2 * X := ⟨2 * (X / n) + 1, by
        have : n * (2 * (X / n) + 1) = 2 * (n * (X / n)) + n := by ring
        omega⟩
      rw [← hX, Nat.mul_comm, ← Nat.pow_succ] at hdiv
      obtain ⟨j, hj, hnj⟩ := (Nat.dvd_prime_pow Nat.prime_two).1 hdiv
      have hjl : n.log2 = j := by rw [hnj]; exact Nat.log2_two_pow
      have : n ∣ X := by
        rw [← hX, hnj]
        exact pow_dvd_pow 2 (by rw [Nat.log2_two_pow]; omega)
      have := Nat.mod_eq_zero_of_dvd this
      omega

end FV3
