import Verif.Proofs.Dict

/-!
# Filling a dictionary in a loop
-/

namespace FV3.Dict
variable {K V P : Type} [DecidableEq K]

/-- Assign the item `h p`, if any, for every `p` of a list. -/
def putAll (h : P → Option (K × V)) (l : List P) (d : Dict K V) : Dict K V :=
  l.foldl (fun d p => match h p with
    | some x => Dict.set d x.1 x.2
    | none => d) d

theorem putAll_cons (h : P → Option (K × V)) (p : P) (l : List P) (d : Dict K V) :
    putAll h (p :: l) d = putAll h l (match h p with
      | some x => Dict.set d x.1 x.2
      | none => d) := rfl

/-- Where a value comes from. -/
theorem putAll_sound (h : P → Option (K × V)) (l : List P) (k : K) (y : V) : ∀ d : Dict K V,
    Dict.get? (putAll h l d) k = some y → Dict.get? d k = some y ∨ ∃ p ∈ l, h p = some (k, y) := by
  induction l with
  | nil => intro d hd; exact Or.inl hd
  | cons p l ih =>
    intro d hd
    rw [putAll_cons] at hd
    rcases ih _ hd with hd | ⟨q, hq, e⟩
    · cases hp : h p with
      | none => rw [hp] at hd; exact Or.inl hd
      | some x =>
        rw [hp] at hd
        dsimp only at hd
        rw [get?_set] at hd
        split at hd
        · rename_i hk
          cases hd
          refine Or.inr ⟨p, by simp, ?_⟩
          rw [hp, hk]
        · exact Or.inl hd
    · exact Or.inr ⟨q, by simp [hq], e⟩

/-- Keys not assigned keep their value. -/
theorem putAll_other (h : P → Option (K × V)) (l : List P) (k : K) : ∀ d : Dict K V,
    (∀ p ∈ l, ∀ v, h p ≠ some (k, v)) → Dict.get? (putAll h l d) k = Dict.get? d k := by
  induction l with
  | nil => intro d _; rfl
  | cons p l ih =>
    intro d hd
    rw [putAll_cons, ih _ fun q hq => hd q (by simp [hq])]
    cases hp : h p with
    | none => rfl
    | some x =>
      dsimp only
      rw [get?_set, if_neg]
      rintro rfl
      exact hd p (by simp) x.2 hp

/-- A key to which only one value is assigned. -/
theorem putAll_unique (h : P → Option (K × V)) (l : List P) (k : K) (x : V) : ∀ d : Dict K V,
    (∀ p ∈ l, ∀ v, h p = some (k, v) → v = x) → (∃ p ∈ l, h p = some (k, x)) →
    Dict.get? (putAll h l d) k = some x := by
  induction l with
  | nil => rintro d _ ⟨p, hp, _⟩; cases hp
  | cons p l ih =>
    intro d hu hex
    rw [putAll_cons]
    by_cases hl : ∃ p ∈ l, h p = some (k, x)
    · exact ih _ (fun q hq => hu q (by simp [hq])) hl
    · have hp : h p = some (k, x) := by
        obtain ⟨q, hq, e⟩ := hex
        rcases List.mem_cons.1 hq with rfl | hq
        · exact e
        · exact absurd ⟨q, hq, e⟩ hl
      rw [putAll_other h l k _ fun q hq v e => hl ⟨q, hq, by rw [e, hu q (by simp [hq]) v e]⟩, hp]
      exact get?_set_self _ _ _

/-- The last assignment wins. -/
theorem putAll_last (h : P → Option (K × V)) (l r : List P) (p : P) (k : K) (x : V) (d : Dict K V)
    (hp : h p = some (k, x)) (hr : ∀ q ∈ r, ∀ v, h q ≠ some (k, v)) :
    Dict.get? (putAll h (l ++ p :: r) d) k = some x := by
  unfold putAll
  rw [List.foldl_append, List.foldl_cons, hp]
  exact (putAll_other h r k _ hr).trans (get?_set_self _ _ _)

theorem putAll_nodup (h : P → Option (K × V)) (l : List P) : ∀ d : Dict K V, (Dict.keys d).Nodup →
    (Dict.keys (putAll h l d)).Nodup := by
  induction l with
  | nil => intro d hd; exact hd
  | cons p l ih =>
    intro d hd
    rw [putAll_cons]
    apply ih
    cases h p with
    | none => exact hd
    | some x => exact nodup_set d x.1 x.2 hd

/-- Membership and lookup. -/
theorem get?_of_mem {d : Dict K V} (hd : (Dict.keys d).Nodup) {k : K} {v : V} (h : (k, v) ∈ d) :
    Dict.get? d k = some v := by
  induction d with
  | nil => cases h
  | cons p d ih =>
    obtain ⟨a, b⟩ := p
    have hd' : a ∉ Dict.keys d ∧ (Dict.keys d).Nodup := by simpa [Dict.keys] using hd
    rcases List.mem_cons.1 h with e | h2
    · cases e; simp [Dict.get?]
    · have : k ≠ a := by
        rintro rfl
        exact hd'.1 (List.mem_map_of_mem (f := Prod.fst) h2)
      simp only [Dict.get?, if_neg this]
      exact ih hd'.2 h2

theorem mem_of_get? {d : Dict K V} {k : K} {v : V} (h : Dict.get? d k = some v) : (k, v) ∈ d := by
  induction d with
  | nil => cases h
  | cons p d ih =>
    obtain ⟨a, b⟩ := p
    simp only [Dict.get?] at h
    split at h
    · rename_i e; cases h; subst e; simp
    · exact List.mem_cons_of_mem _ (ih h)

theorem mem_iff {d : Dict K V} (hd : (Dict.keys d).Nodup) {k : K} {v : V} :
    (k, v) ∈ d ↔ Dict.get? d k = some v := ⟨get?_of_mem hd, mem_of_get?⟩

/-- Filtering by the key. -/
theorem get?_filter (d : Dict K V) (hd : (Dict.keys d).Nodup) (f : K × V → Bool) (k : K) (v : V) :
    Dict.get? (d.filter f) k = some v ↔ Dict.get? d k = some v ∧ f (k, v) = true := by
  have hs : (Dict.keys (d.filter f)).Nodup := hd.sublist ((List.filter_sublist).map _)
  rw [← mem_iff hs, ← mem_iff hd, List.mem_filter]

end FV3.Dict
