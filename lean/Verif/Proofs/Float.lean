import Verif.Model.Float
import Mathlib.Tactic.Linarith
import Mathlib.Tactic.Ring

namespace FV3

/-- `rneDiv` is at least every integer strictly nearer (or tied and even). -/
theorem le_rneDiv {x d y : Nat} (hd : 0 < d)
    (h : 2 * y * d < 2 * x + d ∨ (2 * y * d = 2 * x + d ∧ y % 2 = 0)) : y ≤ rneDiv x d := by
  have e := Nat.div_add_mod x d
  have hr := Nat.mod_lt x hd
  generalize hq : x / d = q at *
  generalize hr' : x % d = r at *
  unfold rneDiv
  rw [hq, hr']
  -- y ≤ q + 1 always
  have key : y ≤ q + 1 := by
    by_contra hc
    have : q + 2 ≤ y := by omega
    have h3 : (q + 2) * d ≤ y * d := Nat.mul_le_mul_right d this
    have : 2 * y * d = 2 * (y * d) := by ring
    have : (q + 2) * d = d * q + 2 * d := by ring
    omega
  have hy : y = q + 1 → (q + 1) * d = d * q + d := fun _ => by ring
  rcases Nat.lt_or_eq_of_le key with hlt | heq
  · split_ifs <;> omega
  · subst heq
    have h1 : 2 * (q + 1) * d = 2 * (d * q) + 2 * d := by ring
    split_ifs <;> omega

theorem rneDiv_le {x d y : Nat} (hd : 0 < d) (h : 2 * x < (2 * y + 1) * d) :
    rneDiv x d ≤ y := by
  have e := Nat.div_add_mod x d
  have hr := Nat.mod_lt x hd
  generalize hq : x / d = q at *
  generalize hr' : x % d = r at *
  unfold rneDiv
  rw [hq, hr']
  have hqy : q ≤ y := by
    by_contra hc
    have : y + 1 ≤ q := by omega
    have h3 : (y + 1) * d ≤ q * d := Nat.mul_le_mul_right d this
    have : (y + 1) * d = y * d + d := by ring
    have : (2 * y + 1) * d = 2 * (y * d) + d := by ring
    have : q * d = d * q := by ring
    omega
  rcases Nat.lt_or_eq_of_le hqy with hlt | heq
  · split_ifs <;> omega
  · subst heq
    have h1 : (2 * q + 1) * d = 2 * (d * q) + d := by ring
    split_ifs <;> omega

theorem rneDiv_mul {y d : Nat} (hd : 0 < d) : rneDiv (y * d) d = y := by
  unfold rneDiv
  simp [Nat.mul_div_cancel _ hd, hd]

theorem log2_spec {x : Nat} (h : 0 < x) : 2 ^ x.log2 ≤ x ∧ x < 2 ^ (x.log2 + 1) :=
  ⟨Nat.log2_self_le (by omega), Nat.lt_log2_self⟩

/-- Multiples `k * 2^s` with `k < 2^53` are representable. -/
theorem round53_exact {k s : Nat} (hk : k < 2 ^ 53) : round53 (k * 2 ^ s) = k * 2 ^ s := by
  unfold round53
  split_ifs with h
  · rfl
  · have hk0 : 0 < k := by
      rcases Nat.eq_zero_or_pos k with h0 | h0
      · subst h0; simp at h
      · exact h0
    have hl : (k * 2 ^ s).log2 - 52 ≤ s := by
      have : (k * 2 ^ s).log2 < 53 + s := by
        rw [Nat.log2_lt (by positivity)]
        rw [Nat.pow_add]
        exact Nat.mul_lt_mul_of_pos_right hk (by positivity)
      omega
    obtain ⟨t, ht⟩ := Nat.exists_eq_add_of_le hl
    have e : k * 2 ^ s = (k * 2 ^ t) * 2 ^ ((k * 2 ^ s).log2 - 52) := by
      conv_lhs => rw [ht, Nat.pow_add]
      ring
    generalize (k * 2 ^ s).log2 - 52 = j at *
    rw [e, rneDiv_mul (by positivity)]

theorem pow_dvd_of_le {k s j : Nat} (h : j ≤ s) : ∃ t, k * 2 ^ s = t * 2 ^ j := by
  obtain ⟨t, ht⟩ := Nat.exists_eq_add_of_le h
  exact ⟨k * 2 ^ t, by rw [ht, Nat.pow_add]; ring⟩

/-- Rounding is bounded above by representable upper bounds. -/
theorem round53_le {x k s : Nat} (hk : k < 2 ^ 53) (hx : x ≤ k * 2 ^ s) :
    round53 x ≤ k * 2 ^ s := by
  unfold round53
  split_ifs with h
  · exact hx
  · have hx0 : 0 < x := by
      rcases Nat.eq_zero_or_pos x with h0 | h0
      · subst h0; simp at h
      · exact h0
    have hj : x.log2 - 52 ≤ s := by
      have h1 : x.log2 < 53 + s := by
        rw [Nat.log2_lt (by omega), Nat.pow_add]
        exact lt_of_le_of_lt hx (Nat.mul_lt_mul_of_pos_right hk (by positivity))
      omega
    obtain ⟨t, ht⟩ := pow_dvd_of_le (k := k) hj
    rw [ht] at hx ⊢
    apply Nat.mul_le_mul_right
    have hd : 0 < 2 ^ (x.log2 - 52) := by positivity
    apply rneDiv_le hd
    generalize 2 ^ (x.log2 - 52) = d at *
    have : (2 * t + 1) * d = 2 * (t * d) + d := by ring
    omega

/-- Rounding is monotone with respect to representable lower bounds. -/
theorem le_round53_of_le {x k s : Nat} (hk : k < 2 ^ 53) (hge : k * 2 ^ s ≤ x) :
    k * 2 ^ s ≤ round53 x := by
  unfold round53
  split_ifs with h
  · exact hge
  · have hx0 : 0 < x := by
      rcases Nat.eq_zero_or_pos x with h0 | h0
      · subst h0; simp at h
      · exact h0
    obtain ⟨hl1, hl2⟩ := log2_spec hx0
    by_cases hj : x.log2 - 52 ≤ s
    · obtain ⟨t, ht⟩ := pow_dvd_of_le (k := k) hj
      rw [ht] at hge ⊢
      apply Nat.mul_le_mul_right
      apply le_rneDiv (by positivity)
      left
      have hd : 0 < 2 ^ (x.log2 - 52) := by positivity
      generalize 2 ^ (x.log2 - 52) = d at *
      have : 2 * t * d = 2 * (t * d) := by ring
      omega
    · have e : 2 ^ x.log2 = 2 ^ 52 * 2 ^ (x.log2 - 52) := by
        rw [← Nat.pow_add]; congr 1; omega
      have e2 : 2 ^ (s + 1) ≤ 2 ^ (x.log2 - 52) := Nat.pow_le_pow_right (by omega) (by omega)
      rw [Nat.pow_succ] at e2
      have hd : 0 < 2 ^ (x.log2 - 52) := by positivity
      have h1 : 2 ^ 52 ≤ rneDiv x (2 ^ (x.log2 - 52)) := by
        apply le_rneDiv hd
        left
        generalize 2 ^ (x.log2 - 52) = d at *
        generalize 2 ^ x.log2 = D at *
        omega
      generalize 2 ^ (x.log2 - 52) = d at *
      generalize 2 ^ s = S at *
      calc k * S ≤ 2 ^ 53 * S := Nat.mul_le_mul_right _ (by omega)
        _ ≤ 2 ^ 52 * d := by omega
        _ ≤ _ := Nat.mul_le_mul_right _ h1

/-- Rounding is bounded below by a representable `k·2^s` whenever the argument is below
it by at most `2^-54` of it (in particular whenever it is at least `k·2^s`). -/
theorem le_round53 {x k s : Nat} (hk : k < 2 ^ 53) (hs : 54 ≤ s)
    (hx : k * 2 ^ s ≤ x + k * 2 ^ (s - 54)) : k * 2 ^ s ≤ round53 x := by
  rcases Nat.eq_zero_or_pos k with hk0 | hk0
  · subst hk0; simp
  obtain ⟨c, hc⟩ : ∃ c, c = k.log2 := ⟨_, rfl⟩
  obtain ⟨hc1, hc2⟩ := log2_spec hk0
  rw [← hc] at hc1 hc2
  have hc53 : c ≤ 52 := by
    have := (Nat.log2_lt (by omega : k ≠ 0)).2 hk
    omega
  -- abbreviations
  obtain ⟨u, hu⟩ : ∃ u, s = u + 54 := ⟨s - 54, by omega⟩
  subst hu
  simp only [Nat.add_sub_cancel] at hx
  have hp : 2 ^ (u + 54) = 2 ^ 54 * 2 ^ u := by rw [Nat.pow_add]; ring
  have hP : 0 < 2 ^ u := by positivity
  have hx0 : 0 < x := by
    by_contra h0
    have : x = 0 := by omega
    subst this
    rw [hp] at hx
    have : k * (2 ^ 54 * 2 ^ u) = 2 ^ 54 * (k * 2 ^ u) := by ring
    have : 0 < k * 2 ^ u := by positivity
    omega
  obtain ⟨hl1, hl2⟩ := log2_spec hx0
  by_cases hge : k * 2 ^ (u + 54) ≤ x
  · exact le_round53_of_le hk hge
  · have hlt : x < k * 2 ^ (u + 54) := by omega
    -- 2^(c+u+53) ≤ x
    have hlow : 2 ^ (c + u + 53) ≤ x := by
      have e1 : 2 ^ (c + u + 53) = 2 ^ c * (2 ^ 53 * 2 ^ u) := by
        rw [Nat.pow_add, Nat.pow_add]; ring
      have h2 : 2 ^ c * (2 ^ 53 * 2 ^ u) ≤ k * (2 ^ 53 * 2 ^ u) := Nat.mul_le_mul_right _ hc1
      have e3 : k * (2 ^ 53 * 2 ^ u) = 2 ^ 53 * (k * 2 ^ u) := by ring
      have e4 : k * 2 ^ (u + 54) = 2 ^ 54 * (k * 2 ^ u) := by rw [hp]; ring
      omega
    have hlog_lo : c + u + 53 ≤ x.log2 := (Nat.le_log2 (by omega)).2 hlow
    have hlog_hi : x.log2 < c + 1 + (u + 54) := by
      rw [Nat.log2_lt (by omega), Nat.pow_add]
      exact lt_of_lt_of_le hlt (Nat.mul_le_mul_right _ (by omega))
    unfold round53
    rw [if_neg (by omega)]
    have hkd : k * 2 ^ u < 2 ^ (c + u + 1) := by
      rw [show c + u + 1 = (c + 1) + u by omega, Nat.pow_add]
      exact Nat.mul_lt_mul_of_pos_right hc2 hP
    rcases (by omega : x.log2 = c + u + 54 ∨ x.log2 = c + u + 53) with hlog | hlog
    · -- same binade
      have hj : x.log2 - 52 = c + u + 2 := by omega
      rw [hj]
      obtain ⟨t, ht⟩ := pow_dvd_of_le (k := k) (by omega : c + u + 2 ≤ u + 54)
      rw [ht] at hx ⊢
      apply Nat.mul_le_mul_right
      apply le_rneDiv (by positivity)
      left
      have e : 2 ^ (c + u + 2) = 2 * 2 ^ (c + u + 1) := by
        rw [Nat.pow_succ]; ring
      have : 2 * t * 2 ^ (c + u + 2) = 2 * (t * 2 ^ (c + u + 2)) := by ring
      omega
    · have hj : x.log2 - 52 = c + u + 1 := by omega
      rw [hj]
      -- x < 2^(c+u+54) ≤ k*2^s, so k = 2^c
      have hup : x < 2 ^ (c + u + 54) := by rw [hlog] at hl2; exact hl2
      have hk2 : k = 2 ^ c := by
        by_contra hne
        have h1 : 2 ^ c + 1 ≤ k := by omega
        have h2 : (2 ^ c + 1) * 2 ^ (u + 54) ≤ k * 2 ^ (u + 54) := Nat.mul_le_mul_right _ h1
        have e1 : (2 ^ c + 1) * 2 ^ (u + 54) = 2 ^ (c + u + 54) + 2 ^ (u + 54) := by
          rw [Nat.add_mul, Nat.one_mul, ← Nat.pow_add, show c + (u + 54) = c + u + 54 by omega]
        have h3 : 2 ^ (c + u + 1) ≤ 2 ^ (u + 54) := Nat.pow_le_pow_right (by omega) (by omega)
        omega
      have e0 : k * 2 ^ u = 2 ^ (c + u) := by rw [hk2, Nat.pow_add]
      have e1 : k * 2 ^ (u + 54) = 2 ^ 53 * 2 ^ (c + u + 1) := by
        rw [hk2, ← Nat.pow_add, ← Nat.pow_add, show c + (u + 54) = 53 + (c + u + 1) by omega]
      have e2 : 2 ^ (c + u + 1) = 2 * 2 ^ (c + u) := by rw [Nat.pow_succ]; ring
      rw [e0] at hx
      rw [e1] at hx ⊢
      apply Nat.mul_le_mul_right
      apply le_rneDiv (by positivity)
      have : 2 * 2 ^ 53 * 2 ^ (c + u + 1) = 2 * (2 ^ 53 * 2 ^ (c + u + 1)) := by ring
      omega

/-- `n` is safe when `n · fl(1/n) ≥ 1 - 2^-54`. -/
def RecipSafe (n : Nat) : Prop :=
  2 ^ (53 + n.log2) ≤ n * (F64.recip n).num + 2 ^ (53 + n.log2 - 54)

instance (n : Nat) : Decidable (RecipSafe n) := by unfold RecipSafe; infer_instance

/-- `n · fl(1/n)` exceeds 1 by at most half an ulp of `1/n` times `n`. -/
theorem recip_upper (n : Nat) (hn : 0 < n) :
    2 * (n * (F64.recip n).num) ≤ 2 * 2 ^ (53 + n.log2) + n := by
  show 2 * (n * rneDiv (2 ^ (53 + n.log2)) n) ≤ _
  generalize 2 ^ (53 + n.log2) = P
  have e := Nat.div_add_mod P n
  have hr := Nat.mod_lt P hn
  unfold rneDiv
  generalize P / n = q at *
  generalize P % n = r at *
  have : n * (q + 1) = n * q + n := by ring
  split_ifs <;> omega

end FV3
