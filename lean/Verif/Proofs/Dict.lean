import Verif.Model.Dict
import Mathlib.Data.List.Nodup

/-! # Facts about dictionaries -/

namespace FV3.Dict
variable {K V : Type} [DecidableEq K]

theorem get?_set (d : Dict K V) (k : K) (v : V) (k' : K) :
    (d.set k v).get? k' = if k' = k then some v else d.get? k' := by
  induction d with
  | nil => simp [set, get?]
  | cons p d ih =>
    obtain ⟨a, b⟩ := p
    unfold set
    by_cases e : k = a
    · subst e
      simp only [if_true, get?]
      split <;> rfl
    · simp only [if_neg e, get?]
      by_cases e' : k' = a
      · subst e'
        simp [Ne.symm e]
      · simp only [if_neg e', ih]

theorem get?_set_self (d : Dict K V) (k : K) (v : V) : (d.set k v).get? k = some v := by
  rw [get?_set, if_pos rfl]

theorem get?_set_ne (d : Dict K V) {k k' : K} (v : V) (h : k' ≠ k) :
    (d.set k v).get? k' = d.get? k' := by
  rw [get?_set, if_neg h]

theorem get?_eq_none_iff (d : Dict K V) (k : K) : d.get? k = none ↔ k ∉ d.keys := by
  induction d with
  | nil => simp [get?, keys]
  | cons p d ih =>
    obtain ⟨a, b⟩ := p
    unfold get?
    by_cases e : k = a
    · simp [e, keys]
    · rw [if_neg e, ih]
      simp [keys, e]

theorem mem_keys_iff (d : Dict K V) (k : K) : k ∈ d.keys ↔ ∃ v, d.get? k = some v := by
  have := get?_eq_none_iff d k
  constructor
  · intro h
    cases e : d.get? k with
    | none => exact absurd h (this.1 e)
    | some v => exact ⟨v, rfl⟩
  · rintro ⟨v, hv⟩
    by_contra hn
    rw [this.2 hn] at hv
    exact absurd hv (by simp)

theorem keys_set (d : Dict K V) (k : K) (v : V) :
    (d.set k v).keys = if k ∈ d.keys then d.keys else d.keys ++ [k] := by
  induction d with
  | nil => simp [set, keys]
  | cons p d ih =>
    obtain ⟨a, b⟩ := p
    unfold set
    by_cases e : k = a
    · simp [e, keys]
    · rw [if_neg e]
      show a :: keys (set d k v) = if k ∈ a :: keys d then a :: keys d else (a :: keys d) ++ [k]
      rw [ih]
      by_cases hk : k ∈ keys d
      · simp [hk]
      · simp [hk, e]

theorem nodup_set (d : Dict K V) (k : K) (v : V) (h : d.keys.Nodup) : (d.set k v).keys.Nodup := by
  rw [keys_set]
  split
  · exact h
  · rename_i hk
    refine List.nodup_append.2 ⟨h, List.nodup_singleton _, ?_⟩
    intro x hx y hy e
    rw [List.mem_singleton.1 hy] at e
    exact hk (e ▸ hx)

theorem keys_del_sublist (d : Dict K V) (k : K) : (d.del k).keys.Sublist d.keys := by
  induction d with
  | nil => exact List.Sublist.refl _
  | cons p d ih =>
    obtain ⟨a, b⟩ := p
    unfold del
    split
    · exact List.sublist_cons_self _ _
    · exact ih.cons_cons a

theorem keys_del (d : Dict K V) (k : K) : (d.del k).keys = d.keys.erase k := by
  induction d with
  | nil => rfl
  | cons p d ih =>
    obtain ⟨a, b⟩ := p
    unfold del
    by_cases e : k = a
    · subst e
      simp [keys]
    · rw [if_neg e]
      show a :: keys (del d k) = (a :: keys d).erase k
      rw [ih, List.erase_cons_tail (by simpa using Ne.symm e)]

theorem nodup_del (d : Dict K V) (k : K) (h : d.keys.Nodup) : (d.del k).keys.Nodup :=
  h.sublist (keys_del_sublist d k)

theorem get?_del (d : Dict K V) (h : d.keys.Nodup) (k k' : K) :
    (d.del k).get? k' = if k' = k then none else d.get? k' := by
  induction d with
  | nil => simp [del, get?]
  | cons p d ih =>
    obtain ⟨a, b⟩ := p
    have hn : a ∉ keys d := (List.nodup_cons.1 h).1
    have hd : (keys d).Nodup := (List.nodup_cons.1 h).2
    unfold del
    by_cases e : k = a
    · subst e
      rw [if_pos rfl]
      by_cases e' : k' = k
      · subst e'
        rw [if_pos rfl, get?_eq_none_iff]
        exact hn
      · rw [if_neg e']
        simp [get?, e']
    · rw [if_neg e]
      show (if k' = a then some b else get? (del d k) k') = _
      rw [ih hd]
      by_cases e' : k' = a
      · subst e'
        simp [get?, Ne.symm e]
      · simp [get?, e']

theorem nil_iff (d : Dict K V) : d = [] ↔ ∀ k, d.get? k = none := by
  constructor
  · rintro rfl k; rfl
  · intro h
    cases d with
    | nil => rfl
    | cons p d =>
      have := h p.1
      simp [get?] at this

end FV3.Dict
