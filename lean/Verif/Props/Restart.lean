import Verif.Model.RestartTable
import Verif.Spec.RestartFile
import Verif.Proofs.DictFold
import Verif.Proofs.NDLemmas
import Verif.Props.Views
import Verif.Props.Coupler
import Verif.Proofs.Partition

/-!
# C42 Restart variables keep their identity; C43 names of restart files
-/

namespace FV3.Restart
variable {α V : Type}

/-! ### C42: merging tables -/

theorem mergeTables_eq (tracer builtin : Table) :
    mergeTables tracer builtin = Dict.putAll (fun p : String × Props => some (p.1, p.2)) builtin tracer := rfl

/-- **C42.**  Built-in properties override tracer properties; other tracers keep theirs. -/
theorem C42_builtin_overrides (tracer builtin : Table) (h : (Dict.keys builtin).Nodup) (n : String) :
    Dict.get? (mergeTables tracer builtin) n =
      match Dict.get? builtin n with
      | some p => some p
      | none => Dict.get? tracer n := by
  rw [mergeTables_eq]
  cases hb : Dict.get? builtin n with
  | some p =>
    apply Dict.putAll_unique
    · intro q hq v e
      cases e
      have := Dict.get?_of_mem h hq
      rw [hb] at this; cases this; rfl
    · exact ⟨(n, p), Dict.mem_of_get? hb, rfl⟩
  | none =>
    apply Dict.putAll_other
    intro q hq v e
    cases e
    exact (Dict.get?_eq_none_iff builtin q.1).1 hb (List.mem_map_of_mem (f := Prod.fst) hq)

/-! ### C42: names -/

theorem standardNames_eq (t : Table) :
    standardNames t = Dict.putAll (fun p : String × Props => some (p.2.restartName, p.1)) t [] := rfl

theorem standardNames_nodup (t : Table) : (Dict.keys (standardNames t)).Nodup := by
  rw [standardNames_eq]
  exact Dict.putAll_nodup _ _ _ (by simp [Dict.keys])

/-- The name under which a variable of the file appears in the state. -/
def nameOf (names : Dict String String) (v : String) : String := (Dict.get? names v).getD v

theorem mapKeys_eq (old : Dict String V) (m : Dict String String) :
    mapKeys old m = Dict.putAll (fun p : String × V => some (p.1, p.2))
      (old.filter fun p => !Dict.has m p.1)
      (Dict.putAll (fun p : String × String => (Dict.get? old p.1).map fun v => (p.2, v)) m []) := by
  unfold mapKeys Dict.putAll
  dsimp only
  congr 2
  funext d p
  cases Dict.get? old p.1 <;> rfl

theorem has_eq {B : Type} (m : Dict String B) (k : String) : Dict.has m k = true ↔ k ∈ Dict.keys m := by
  rw [Dict.mem_keys_iff]
  unfold Dict.has
  rw [Option.isSome_iff_exists]

/-- Everything in the result is a variable of the file under its proper name. -/
theorem mapKeys_sound (F : Dict String V) (hF : (Dict.keys F).Nodup) (m : Dict String String)
    (hm : (Dict.keys m).Nodup) (n : String) (x : V) (h : Dict.get? (mapKeys F m) n = some x) :
    ∃ v, nameOf m v = n ∧ Dict.get? F v = some x := by
  rw [mapKeys_eq] at h
  rcases Dict.putAll_sound _ _ _ _ _ h with h | ⟨p, hp, e⟩
  · rcases Dict.putAll_sound _ _ _ _ _ h with h | ⟨p, hp, e⟩
    · cases h
    · obtain ⟨v, hv, e⟩ := Option.map_eq_some_iff.1 e
      cases e
      refine ⟨p.1, ?_, hv⟩
      unfold nameOf
      rw [Dict.get?_of_mem hm (show (p.1, p.2) ∈ m from hp)]; rfl
  · cases e
    obtain ⟨hp, hnot⟩ := List.mem_filter.1 hp
    refine ⟨p.1, ?_, Dict.get?_of_mem hF hp⟩
    unfold nameOf
    have : Dict.get? m p.1 = none := by
      rw [Dict.get?_eq_none_iff, ← has_eq]
      simpa using hnot
    rw [this]; rfl

/-- **C42.**  If no two variables of the file get the same name, every variable is in the state
under its name: the standard name if its restart name is known, its own name otherwise.  Nothing
else is in the state. -/
theorem C42_names (F : Dict String V) (hF : (Dict.keys F).Nodup) (m : Dict String String)
    (hm : (Dict.keys m).Nodup)
    (inj : ∀ v w, v ∈ Dict.keys F → w ∈ Dict.keys F → nameOf m v = nameOf m w → v = w)
    (n : String) (x : V) :
    Dict.get? (mapKeys F m) n = some x ↔ ∃ v, nameOf m v = n ∧ Dict.get? F v = some x := by
  constructor
  · exact mapKeys_sound F hF m hm n x
  · rintro ⟨v, rfl, hv⟩
    have hvF : v ∈ Dict.keys F := (Dict.mem_keys_iff F v).2 ⟨x, hv⟩
    rw [mapKeys_eq]
    cases hmv : Dict.get? m v with
    | some s =>
      have hn : nameOf m v = s := by unfold nameOf; rw [hmv]; rfl
      rw [Dict.putAll_other]
      · apply Dict.putAll_unique
        · intro p hp y e
          obtain ⟨y', hy', e⟩ := Option.map_eq_some_iff.1 e
          obtain ⟨e1, e2⟩ := Prod.mk.inj e
          have e2 : y' = y := e2
          subst e2
          have hp1 : Dict.get? m p.1 = some p.2 := Dict.get?_of_mem hm hp
          have : p.1 = v := inj p.1 v ((Dict.mem_keys_iff F p.1).2 ⟨y', hy'⟩) hvF (by
            rw [hn]; unfold nameOf; rw [hp1]
            rw [Option.getD_some, e1, hn])
          rw [this, hv] at hy'
          exact (Option.some.inj hy').symm
        · exact ⟨(v, s), Dict.mem_of_get? hmv, by rw [hv, hn]; rfl⟩
      · intro p hp y e
        obtain ⟨h1, _⟩ := Prod.mk.inj (Option.some.inj e)
        obtain ⟨hp, hnot⟩ := List.mem_filter.1 hp
        have hnone : Dict.get? m p.1 = none := by
          rw [Dict.get?_eq_none_iff, ← has_eq]
          simpa using hnot
        have hname : nameOf m p.1 = p.1 := by unfold nameOf; rw [hnone]; rfl
        have : p.1 = v := inj p.1 v (List.mem_map_of_mem (f := Prod.fst) hp) hvF (by rw [hname, h1])
        rw [this, hmv] at hnone
        cases hnone
    | none =>
      have hn : nameOf m v = v := by unfold nameOf; rw [hmv]; rfl
      rw [hn]
      apply Dict.putAll_unique
      · intro p hp y e
        obtain ⟨h1, h2⟩ := Prod.mk.inj (Option.some.inj e)
        have := Dict.get?_of_mem hF (show (p.1, p.2) ∈ F from (List.mem_filter.1 hp).1)
        rw [h1, h2, hv] at this
        exact (Option.some.inj this).symm
      · refine ⟨(v, x), List.mem_filter.2 ⟨Dict.mem_of_get? hv, ?_⟩, rfl⟩
        have : ¬ Dict.has m v = true := by
          rw [has_eq, ← Dict.get?_eq_none_iff]; exact hmv
        simpa using this

/-- **C42.**  The name given to a file variable: the standard name whose restart name it is, if the
restart names of the table are distinct. -/
theorem C42_standard_name (t : Table) (ht : (Dict.keys t).Nodup)
    (inj : ∀ a b p q, Dict.get? t a = some p → Dict.get? t b = some q → p.restartName = q.restartName → a = b)
    (v : String) :
    (∀ std p, Dict.get? t std = some p → p.restartName = v → nameOf (standardNames t) v = std) ∧
    ((∀ std p, Dict.get? t std = some p → p.restartName ≠ v) → nameOf (standardNames t) v = v) := by
  rw [standardNames_eq]
  constructor
  · intro std p hp hv
    have : Dict.get? (Dict.putAll (fun p : String × Props => some (p.2.restartName, p.1)) t []) v = some std := by
      apply Dict.putAll_unique
      · intro q hq s e
        cases e
        exact inj q.1 std q.2 p (Dict.get?_of_mem ht hq) hp hv.symm
      · exact ⟨(std, p), Dict.mem_of_get? hp, by rw [hv]⟩
    unfold nameOf
    rw [this]; rfl
  · intro h
    have : Dict.get? (Dict.putAll (fun p : String × Props => some (p.2.restartName, p.1)) t []) v = none := by
      rw [Dict.putAll_other]
      · rfl
      · intro q hq s e
        cases e
        exact h q.1 q.2 (Dict.get?_of_mem ht hq) rfl
    unfold nameOf
    rw [this]; rfl

/-! ### C42: loading -/

/-- The dimensions after renaming the last ones. -/
def renamed (dims new : List Dim) : List Dim :=
  dims.take (dims.length - new.length) ++ new.take (min dims.length new.length)

/-- The array of a file variable at the first time, with the dimensions and units of the table. -/
def described (t : Table) (name : String) (da : DataArray α) : DataArray α :=
  match Dict.get? t name with
  | none => da
  | some p => { da with dims := renamed da.dims p.dims, units := some p.units }

theorem applyOne_ok (t : Table) (name : String) (da : DataArray α)
    (h : ∀ p, Dict.get? t name = some p → (renamed da.dims p.dims).Nodup) :
    applyOne t name da = .ok (described t name da) := by
  unfold applyOne described
  cases hp : Dict.get? t name with
  | none => rfl
  | some p =>
    have hh := h p hp
    unfold applyDims
    unfold renamed at hh ⊢
    dsimp only
    rw [if_pos hh]
    rfl

theorem applyMetadata_ok (t : Table) (s : Dict String (DataArray α))
    (h : ∀ name da p, (name, da) ∈ s → Dict.get? t name = some p → (renamed da.dims p.dims).Nodup) :
    applyMetadata t s = .ok (s.map fun x => (x.1, described t x.1 x.2)) := by
  induction s with
  | nil => rfl
  | cons x s ih =>
    obtain ⟨name, da⟩ := x
    simp only [applyMetadata, bind, Except.bind]
    rw [applyOne_ok t name da fun p hp => h name da p (by simp) hp,
      ih fun n d p hn hp => h n d p (by simp [hn]) hp]
    rfl

/-- A quantity made of a whole array. -/
def wholeQuantity (da : DataArray α) : Quantity α :=
  ⟨da.data, da.dims, da.units.getD "", List.replicate da.dims.length 0,
    da.data.shape.map fun n : Nat => (n : Int)⟩

theorem fromDataArray_ok (da : DataArray α) (hu : da.units.isSome) (hl : da.dims.length = da.data.shape.length) :
    Quantity.fromDataArray da = .ok (wholeQuantity da) := by
  obtain ⟨u, hu⟩ := Option.isSome_iff_exists.1 hu
  have hz : ∀ l : List Nat, List.zipWith (fun (length : Nat) (start : Int) =>
      (length : Int) - start) l (List.replicate l.length 0) = l.map (fun n : Nat => (n : Int)) := by
    intro l
    induction l with
    | nil => rfl
    | cons n l ih => simp [List.replicate_succ, ih]
  unfold Quantity.fromDataArray Quantity.mk? validateLengths wholeQuantity
  rw [hu]
  simp only [Option.getD_none, Option.getD_some, hl]
  simp [hz]

/-- The value stored in the state. -/
def valueOf (name : String) (da : DataArray α) : Value α :=
  if name = "time" then .array da else .quantity (wholeQuantity da)

theorem toValues_ok (s : Dict String (DataArray α))
    (h : ∀ name da, (name, da) ∈ s → (name = "time" ∨ da.units.isSome) ∧ da.dims.length = da.data.shape.length) :
    toValues s = .ok (s.map fun x => (x.1, valueOf x.1 x.2)) := by
  induction s with
  | nil => rfl
  | cons x s ih =>
    obtain ⟨name, da⟩ := x
    simp only [toValues, bind, Except.bind]
    rw [ih fun n d hn => h n d (by simp [hn])]
    by_cases hn : name = "time"
    · simp [hn, valueOf, pure, Except.pure]
    · have := h name da (by simp)
      rw [if_neg hn, fromDataArray_ok da (this.1.resolve_left hn) this.2]
      simp [hn, valueOf, pure, Except.pure, Except.map]

theorem get?_map {A B : Type} (s : Dict String A) (f : String → A → B) (n : String) :
    Dict.get? (s.map fun x => (x.1, f x.1 x.2)) n = (Dict.get? s n).map (f n) := by
  induction s with
  | nil => rfl
  | cons x s ih =>
    obtain ⟨a, b⟩ := x
    simp only [List.map_cons, Dict.get?]
    split
    · rename_i e; subst e; rfl
    · exact ih

theorem mapKeys_nodup (F : Dict String V) (m : Dict String String) : (Dict.keys (mapKeys F m)).Nodup := by
  rw [mapKeys_eq]
  exact Dict.putAll_nodup _ _ _ (Dict.putAll_nodup _ _ _ (by simp [Dict.keys]))

/-- The name is requested. -/
def Requested (onlyNames : Option (List String)) (n : String) : Prop :=
  ∀ l, onlyNames = some l → n ∈ l

theorem wanted_iff (onlyNames : Option (List String)) (n : String) (da : DataArray α) :
    wanted onlyNames n da = true ↔ (n = "time" ∨ da.units.isSome) ∧ Requested onlyNames n := by
  unfold wanted Requested
  cases onlyNames <;> simp

theorem isel0_lens (da : DataArray α) (d : Dim) (h : da.dims.length = da.data.shape.length) :
    (da.isel0 d).dims.length = (da.isel0 d).data.shape.length := by
  unfold DataArray.isel0
  split
  · rename_i hd
    have := List.idxOf_lt_length_of_mem hd
    dsimp only
    rw [List.length_eraseIdx, List.length_eraseIdx, if_pos this, if_pos (by omega), h]
  · exact h

theorem renamed_length (dims new : List Dim) : (renamed dims new).length = dims.length := by
  unfold renamed
  rw [List.length_append, List.length_take, List.length_take]
  omega

theorem mem_sizes {file : Dict String (DataArray α)} (hF : (Dict.keys file).Nodup) {p : String × Nat} :
    p ∈ StateFile.sizes file ↔ ∃ (v : String) (da : DataArray α) (k : Nat), Dict.get? file v = some da ∧ (da.dims.map StateFile.dimName)[k]? = some p.1 ∧
      da.data.shape[k]? = some p.2 := by
  unfold StateFile.sizes
  rw [List.mem_flatMap]
  constructor
  · rintro ⟨x, hx, hp⟩
    obtain ⟨k, hk, e⟩ := List.mem_iff_getElem.1 hp
    rw [List.getElem_zip] at e
    rw [List.length_zip] at hk
    refine ⟨x.1, x.2, k, Dict.get?_of_mem hF hx, ?_, ?_⟩
    · rw [← e, List.getElem?_eq_getElem (by omega)]
    · rw [← e, List.getElem?_eq_getElem (by omega)]
  · rintro ⟨v, da, k, h1, h2, h3⟩
    refine ⟨(v, da), Dict.mem_of_get? h1, List.mem_iff_getElem?.2 ⟨k, ?_⟩⟩
    rw [List.getElem?_zip_eq_some]
    exact ⟨h2, h3⟩

theorem isDimension_iff {file : Dict String (DataArray α)} (hF : (Dict.keys file).Nodup)
    (hl : ∀ v da, Dict.get? file v = some da → da.dims.length = da.data.shape.length) (n : String) :
    IsDimension file n ↔ ∃ q ∈ StateFile.sizes file, q.1 = n := by
  constructor
  · rintro ⟨v, da, h1, d, h2, rfl⟩
    obtain ⟨k, hk, e⟩ := List.mem_iff_getElem.1 h2
    have hk' : k < da.data.shape.length := by have := hl v da h1; omega
    refine ⟨(StateFile.dimName d, da.data.shape[k]), (mem_sizes hF).2 ⟨v, da, k, h1, ?_, ?_⟩, rfl⟩
    · rw [List.getElem?_map, List.getElem?_eq_getElem hk, e]; rfl
    · rw [List.getElem?_eq_getElem hk']
  · rintro ⟨q, hq, rfl⟩
    obtain ⟨v, da, k, h1, h2, -⟩ := (mem_sizes hF).1 hq
    rw [List.getElem?_map, Option.map_eq_some_iff] at h2
    obtain ⟨d, h3, h4⟩ := h2
    exact ⟨v, da, h1, d, List.mem_of_getElem? h3, h4⟩

theorem dimName_time {d : Dim} (h : StateFile.dimName d = "Time") : d = .other "Time" := by
  cases d <;> first | (exfalso; revert h; decide) | exact congrArg Dim.other h

theorem firstLevel_ok {file : Dict String (DataArray α)} (hF : (Dict.keys file).Nodup)
    (hl : ∀ v da, Dict.get? file v = some da → da.dims.length = da.data.shape.length) (hT : HasTime file) :
    firstLevel file = .ok ((file.filter fun p => decide (∀ q ∈ StateFile.sizes file, q.1 ≠ p.1)).map fun p =>
      (p.1, p.2.isel0 (.other "Time"))) := by
  unfold firstLevel
  dsimp only
  obtain ⟨q, hq, e⟩ := (isDimension_iff hF hl _).1 hT.used
  cases hf : (StateFile.sizes file).find? fun p => p.1 = "Time" with
  | none =>
    have := List.find?_eq_none.1 hf q hq
    simp [e] at this
  | some p =>
    dsimp only
    have h1 := List.find?_some hf
    simp only [decide_eq_true_eq] at h1
    obtain ⟨v, da, k, a1, a2, a3⟩ := (mem_sizes hF).1 (List.mem_of_find?_eq_some hf)
    rw [List.getElem?_map, Option.map_eq_some_iff] at a2
    obtain ⟨d, a4, a5⟩ := a2
    have a6 := dimName_time (a5.trans h1)
    subst a6
    have := hT.level v da k a1 a4
    rw [List.getD_eq_getElem?_getD, a3, Option.getD_some] at this
    rw [if_neg (by omega), if_neg]
    rw [Bool.not_eq_false]
    exact (has_eq file "Time").2 hT.axis

/-- **C42.**  Loading a file with time levels: if no two variables get the same name (and the dimension names of the
table fit), the state contains exactly the requested variables, other than the descriptions of axes, whose units are
known (from the table or the file), each as the first time level of its variable, with the dimensions and units of
the table for known variables and its own otherwise. -/
theorem C42_load (file : Dict String (DataArray α)) (hF : (Dict.keys file).Nodup) (t : Table)
    (onlyNames : Option (List String))
    (hl : ∀ v da, Dict.get? file v = some da → da.dims.length = da.data.shape.length) (hT : HasTime file)
    (inj : ∀ v w, v ∈ Dict.keys file → w ∈ Dict.keys file → ¬ IsDimension file v → ¬ IsDimension file w →
      nameOf (standardNames t) v = nameOf (standardNames t) w → v = w)
    (fit : ∀ v da p, Dict.get? file v = some da → ¬ IsDimension file v →
      Dict.get? t (nameOf (standardNames t) v) = some p →
      (renamed (da.isel0 (.other "Time")).dims p.dims).Nodup) :
    ∃ s, loadPartialState file t onlyNames = .ok s ∧ (Dict.keys s).Nodup ∧
      ∀ n x, Dict.get? s n = some x ↔ ∃ v da, ¬ IsDimension file v ∧ Dict.get? file v = some da ∧
        nameOf (standardNames t) v = n ∧ Requested onlyNames n ∧
        (n = "time" ∨ (described t n (da.isel0 (.other "Time"))).units.isSome) ∧
        x = valueOf n (described t n (da.isel0 (.other "Time"))) := by
  set m := standardNames t with hm
  have hmn : (Dict.keys m).Nodup := standardNames_nodup t
  set vars := (file.filter fun p => decide (∀ q ∈ StateFile.sizes file, q.1 ≠ p.1)).map fun p => (p.1, p.2.isel0 (.other "Time")) with hv
  have hvk : Dict.keys vars = Dict.keys (file.filter fun p => decide (∀ q ∈ StateFile.sizes file, q.1 ≠ p.1)) := by
    rw [hv]; unfold Dict.keys; rw [List.map_map]; rfl
  have hfn : (Dict.keys (file.filter fun p => decide (∀ q ∈ StateFile.sizes file, q.1 ≠ p.1))).Nodup := hF.sublist (List.filter_sublist.map _)
  have hvn : (Dict.keys vars).Nodup := by rw [hvk]; exact hfn
  have hget : ∀ v x, Dict.get? vars v = some x ↔ ¬ IsDimension file v ∧ ∃ da, Dict.get? file v = some da ∧
      x = da.isel0 (.other "Time") := by
    intro v x
    rw [hv, get?_map _ (fun _ d => DataArray.isel0 (.other "Time") d), Option.map_eq_some_iff]
    constructor
    · rintro ⟨da, h, rfl⟩
      rw [Dict.get?_filter _ hF] at h
      exact ⟨fun hd => by
        obtain ⟨q, hq, e⟩ := (isDimension_iff hF hl v).1 hd
        exact of_decide_eq_true h.2 q hq e, da, h.1, rfl⟩
    · rintro ⟨h1, da, h2, rfl⟩
      exact ⟨da, by rw [Dict.get?_filter _ hF]; exact ⟨h2, decide_eq_true fun q hq e =>
        h1 ((isDimension_iff hF hl v).2 ⟨q, hq, e⟩)⟩, rfl⟩
  have hkeys : ∀ v, v ∈ Dict.keys vars → v ∈ Dict.keys file ∧ ¬ IsDimension file v := by
    intro v h
    obtain ⟨x, hx⟩ := (Dict.mem_keys_iff vars v).1 h
    obtain ⟨h1, da, h2, _⟩ := (hget v x).1 hx
    exact ⟨(Dict.mem_keys_iff file v).2 ⟨da, h2⟩, h1⟩
  have hnames := fun n x => C42_names vars hvn m hmn (fun v w hv hw e =>
    inj v w (hkeys v hv).1 (hkeys w hw).1 (hkeys v hv).2 (hkeys w hw).2 e) n x
  have hmk : (Dict.keys (mapKeys vars m)).Nodup := mapKeys_nodup vars m
  have e1 : applyMetadata t (mapKeys vars m)
      = .ok ((mapKeys vars m).map fun x => (x.1, described t x.1 x.2)) := by
    apply applyMetadata_ok
    intro name da p hin hp
    obtain ⟨v, hvn', hvv⟩ := (hnames name da).1 (Dict.get?_of_mem hmk hin)
    obtain ⟨h1, da0, h2, rfl⟩ := (hget v da).1 hvv
    exact fit v da0 p h2 h1 (by rw [hvn']; exact hp)
  set state := (mapKeys vars m).map fun x => (x.1, described t x.1 x.2) with hst
  have hsk : (Dict.keys state).Nodup := by
    rw [hst]; unfold Dict.keys; rw [List.map_map]; exact hmk
  have hlen : ∀ n x, Dict.get? (mapKeys vars m) n = some x → x.dims.length = x.data.shape.length := by
    intro n x h
    obtain ⟨v, _, hvv⟩ := (hnames n x).1 h
    obtain ⟨_, da0, h2, rfl⟩ := (hget v x).1 hvv
    exact isel0_lens da0 _ (hl v da0 h2)
  have hdl : ∀ (n : String) (x : DataArray α), x.dims.length = x.data.shape.length →
      (described t n x).dims.length = (described t n x).data.shape.length := by
    intro n x hx
    unfold described
    split
    · exact hx
    · dsimp only
      rw [renamed_length]; exact hx
  have hsn : (Dict.keys (state.filter fun p => wanted onlyNames p.1 p.2)).Nodup :=
    hsk.sublist (List.filter_sublist.map _)
  have hsg : ∀ n y, Dict.get? (state.filter fun p => wanted onlyNames p.1 p.2) n = some y ↔
      ∃ x, Dict.get? (mapKeys vars m) n = some x ∧ y = described t n x ∧ wanted onlyNames n y = true := by
    intro n y
    rw [Dict.get?_filter _ hsk, hst, get?_map _ (fun n d => described t n d), Option.map_eq_some_iff]
    constructor
    · rintro ⟨⟨x, h1, rfl⟩, h2⟩; exact ⟨x, h1, rfl, h2⟩
    · rintro ⟨x, h1, rfl, h2⟩; exact ⟨⟨x, h1, rfl⟩, h2⟩
  have e2 : toValues (state.filter fun p => wanted onlyNames p.1 p.2)
      = .ok ((state.filter fun p => wanted onlyNames p.1 p.2).map fun x => (x.1, valueOf x.1 x.2)) := by
    apply toValues_ok
    intro name da hin
    obtain ⟨x, h1, rfl, h2⟩ := (hsg name da).1 (Dict.get?_of_mem hsn hin)
    exact ⟨((wanted_iff _ _ _).1 h2).1, hdl name x (hlen name x h1)⟩
  refine ⟨(state.filter fun p => wanted onlyNames p.1 p.2).map fun x => (x.1, valueOf x.1 x.2), ?_, ?_, ?_⟩
  · unfold loadPartialState
    simp only [bind, Except.bind]
    rw [firstLevel_ok hF hl hT]
    dsimp only
    rw [← hm, ← hv, e1]
    exact e2
  · unfold Dict.keys at hsn ⊢
    rw [List.map_map]
    exact hsn
  · intro n x
    rw [get?_map _ (fun n d => valueOf n d), Option.map_eq_some_iff]
    constructor
    · rintro ⟨y, hy, rfl⟩
      obtain ⟨x, h1, rfl, h2⟩ := (hsg n y).1 hy
      obtain ⟨v, h3, h4⟩ := (hnames n x).1 h1
      obtain ⟨h5, da, h6, rfl⟩ := (hget v x).1 h4
      obtain ⟨h7, h8⟩ := (wanted_iff _ _ _).1 h2
      exact ⟨v, da, h5, h6, h3, h8, h7, rfl⟩
    · rintro ⟨v, da, h1, h2, h3, h4, h5, rfl⟩
      exact ⟨_, (hsg n _).2 ⟨_, (hnames n _).2 ⟨v, h3, (hget v _).2 ⟨h1, da, h2, rfl⟩⟩, rfl,
        (wanted_iff _ _ _).2 ⟨h5, h4⟩⟩, rfl⟩

/-- **C42.**  A file without time levels cannot be loaded: ValueError without a dimension "Time" or without a variable
of that name. -/
theorem C42_no_time (file : Dict String (DataArray α)) (hF : (Dict.keys file).Nodup) (t : Table)
    (onlyNames : Option (List String))
    (hl : ∀ v da, Dict.get? file v = some da → da.dims.length = da.data.shape.length)
    (h : ¬ IsDimension file "Time" ∨ ("Time" ∉ Dict.keys file ∧
      ∀ v da k, Dict.get? file v = some da → da.dims[k]? = some (.other "Time") → 0 < da.data.shape.getD k 0)) :
    loadPartialState file t onlyNames = .error .valueError := by
  suffices firstLevel file = .error .valueError by
    unfold loadPartialState
    simp only [bind, Except.bind, this]
  unfold firstLevel
  dsimp only
  cases hf : (StateFile.sizes file).find? fun p => p.1 = "Time" with
  | none => rfl
  | some p =>
    dsimp only
    have h1 := List.find?_some hf
    simp only [decide_eq_true_eq] at h1
    rcases h with h | ⟨h2, h3⟩
    · exact absurd ((isDimension_iff hF hl _).2 ⟨p, List.mem_of_find?_eq_some hf, h1⟩) h
    · obtain ⟨v, da, k, a1, a2, a3⟩ := (mem_sizes hF).1 (List.mem_of_find?_eq_some hf)
      rw [List.getElem?_map, Option.map_eq_some_iff] at a2
      obtain ⟨d, a4, a5⟩ := a2
      have a6 := dimName_time (a5.trans h1)
      subst a6
      have := h3 v da k a1 a4
      rw [List.getD_eq_getElem?_getD, a3, Option.getD_some] at this
      rw [if_neg (by omega), if_pos]
      rw [← Bool.not_eq_true, has_eq]
      exact h2

/-! ### C42: the shipped table -/

theorem shipped_nodup : (Dict.keys shippedTable).Nodup := by decide +kernel

/-- **C42.**  In the shipped table no variable has a dimension twice, and every variable with a horizontal
dimension has exactly one x-type and one y-type dimension (so that it can be scattered and gathered, C25,
C26); a file variable with that many axes gets exactly these dimensions. -/
theorem C42_shipped_dims (n : String) (p : Props) (h : Dict.get? shippedTable n = some p) :
    p.dims.Nodup ∧ ((∀ d ∈ p.dims, ¬ IsX d ∧ ¬ IsY d) ∨ ∃ ky kx, HAxes p.dims ky kx) ∧
      ∀ dims : List Dim, dims.length = p.dims.length → renamed dims p.dims = p.dims := by
  have all : ∀ x ∈ shippedTable, x.2.dims ∈ ([[.zI], [.y, .x], [.z, .y, .x], [.z, .y, .xI], [.z, .yI, .x],
      [.zI, .y, .x], [.zSoil, .y, .x], [.y, .zI, .x]] : List (List Dim)) := by decide +kernel
  have hp := all _ (Dict.mem_of_get? h)
  have nd : ∀ l ∈ ([[.zI], [.y, .x], [.z, .y, .x], [.z, .y, .xI], [.z, .yI, .x],
      [.zI, .y, .x], [.zSoil, .y, .x], [.y, .zI, .x]] : List (List Dim)), l.Nodup := by decide
  refine ⟨nd _ hp, ?_, ?_⟩
  · have chk : ∀ (l : List Dim) (ky kx : Nat), ky < l.length → kx < l.length →
        (∀ k < l.length, (IsY (l.getD k .z) ↔ k = ky) ∧ (IsX (l.getD k .z) ↔ k = kx)) → HAxes l ky kx := by
      intro l ky kx h1 h2 h3
      refine ⟨fun k d hk => ?_, fun k d hk => ?_, h1, h2⟩ <;>
      · have hlt : k < l.length := (List.getElem?_eq_some_iff.1 hk).1
        have e : l.getD k .z = d := by rw [List.getD_eq_getElem?_getD, hk]; rfl
        have := h3 k hlt
        rw [e] at this
        first | exact this.1 | exact this.2
    simp only [List.mem_cons, List.not_mem_nil, or_false] at hp
    rcases hp with e | e | e | e | e | e | e | e <;> rw [e]
    · exact Or.inl (by decide)
    · exact Or.inr ⟨0, 1, chk _ _ _ (by decide) (by decide) (by decide)⟩
    · exact Or.inr ⟨1, 2, chk _ _ _ (by decide) (by decide) (by decide)⟩
    · exact Or.inr ⟨1, 2, chk _ _ _ (by decide) (by decide) (by decide)⟩
    · exact Or.inr ⟨1, 2, chk _ _ _ (by decide) (by decide) (by decide)⟩
    · exact Or.inr ⟨1, 2, chk _ _ _ (by decide) (by decide) (by decide)⟩
    · exact Or.inr ⟨1, 2, chk _ _ _ (by decide) (by decide) (by decide)⟩
    · exact Or.inr ⟨0, 2, chk _ _ _ (by decide) (by decide) (by decide)⟩
  · intro dims hl
    unfold renamed
    rw [hl]
    simp

/-- The standard names that lose their restart name to another one. -/
def shadowed (t : Table) : List String :=
  (t.filter fun p => nameOf (standardNames t) p.2.restartName ≠ p.1).map (·.1)

/-- **C42, limit.**  In the shipped table four restart names are claimed by several standard names;
nine standard names are never loaded. -/
theorem C42_shipped_shadowed : shadowed shippedTable =
    ["clear_sky_downward_longwave_flux_at_surface", "clear_sky_downward_shortwave_flux_at_surface",
     "clear_sky_upward_longwave_flux_at_surface", "clear_sky_upward_longwave_flux_at_top_of_atmosphere",
     "clear_sky_upward_shortwave_flux_at_surface", "clear_sky_upward_shortwave_flux_at_top_of_atmosphere",
     "total_sky_downward_longwave_flux_at_surface", "total_sky_downward_shortwave_flux_at_surface",
     "total_sky_downward_shortwave_flux_at_top_of_atmosphere"] := by
  decide +kernel

/-- **C42, limit.**  Whatever a file contains (unless it uses that very name for a variable), no
shadowed standard name is loaded from it. -/
theorem C42_shadowed_lost (file : Dict String V) (hF : (Dict.keys file).Nodup) (t : Table)
    (ht : (Dict.keys t).Nodup) (n : String) (hn : n ∈ shadowed t) (hk : n ∉ Dict.keys file) :
    Dict.get? (mapKeys file (standardNames t)) n = none := by
  cases h : Dict.get? (mapKeys file (standardNames t)) n with
  | none => rfl
  | some x =>
    exfalso
    obtain ⟨v, h1, h2⟩ := mapKeys_sound file hF _ (standardNames_nodup t) n x h
    obtain ⟨p, hp, rfl⟩ := List.mem_map.1 hn
    obtain ⟨hp, hs⟩ := List.mem_filter.1 hp
    unfold nameOf at h1
    cases hm : Dict.get? (standardNames t) v with
    | none =>
      rw [hm] at h1
      cases h1
      exact hk ((Dict.mem_keys_iff file _).2 ⟨x, h2⟩)
    | some s =>
      rw [hm] at h1
      have h1 : s = p.1 := h1
      subst h1
      rw [standardNames_eq] at hm
      rcases Dict.putAll_sound _ _ _ _ _ hm with hh | ⟨q, hq, e⟩
      · cases hh
      · obtain ⟨hqv, hqp⟩ := Prod.mk.inj (Option.some.inj e)
        have e1 := Dict.get?_of_mem ht (show (q.1, q.2) ∈ t from hq)
        have e2 := Dict.get?_of_mem ht (show (p.1, p.2) ∈ t from hp)
        rw [hqp, e2] at e1
        have e1 := Option.some.inj e1
        rw [← e1] at hqv
        subst hqv
        have : nameOf (standardNames t) p.2.restartName = p.1 := by
          unfold nameOf
          rw [standardNames_eq, hm]; rfl
        simp [this] at hs

/-! ### C43: names of files -/

open Text

theorem dec_inj {m n : Nat} (h : dec m = dec n) : m = n := by
  have := congrArg (fun s => Nat.ofDigitChars 10 s 0) h
  simpa only [dec, Nat.ofDigitChars_ten_toDigits] using this

theorem dec4_inj {m n : Nat} (h : dec4 m = dec4 n) : m = n := by
  have := congrArg (fun s => Nat.ofDigitChars 10 s 0) h
  simpa only [dec4, dec, Nat.ofDigitChars_append, Nat.ofDigitChars_replicate_zero, Nat.mul_zero,
    Nat.ofDigitChars_ten_toDigits] using this

theorem dec_isDigit (n : Nat) : ∀ c ∈ dec n, c.isDigit = true := Coupler.isDigit_toDigits n

/-- Digits followed by a dot: both parts are determined. -/
theorem digits_dot {a b r s : List Char} (ha : ∀ c ∈ a, c.isDigit = true) (hb : ∀ c ∈ b, c.isDigit = true)
    (h : a ++ '.' :: r = b ++ '.' :: s) : a = b ∧ r = s := by
  induction a generalizing b with
  | nil =>
    cases b with
    | nil => simpa using h
    | cons c b =>
      simp only [List.nil_append, List.cons_append, List.cons.injEq] at h
      have := hb c (by simp)
      rw [← h.1] at this
      exact absurd this (by decide)
  | cons c a ih =>
    cases b with
    | nil =>
      simp only [List.nil_append, List.cons_append, List.cons.injEq] at h
      have := ha c (by simp)
      rw [h.1] at this
      exact absurd this (by decide)
    | cons c' b =>
      simp only [List.cons_append, List.cons.injEq] at h
      obtain ⟨h1, h2⟩ := ih (fun x hx => ha x (by simp [hx])) (fun x hx => hb x (by simp [hx])) h.2
      exact ⟨by rw [h.1, h1], h2⟩

theorem getRankSuffix_eq (n r : Int) (hn : 0 < n) (h0 : 0 ≤ r) :
    getRankSuffix r (6 * n) = .ok (if 6 * n > 6 then
        ".tile".toList ++ (dec (r / n + 1).toNat ++ '.' :: ("nc.".toList ++ dec4 (r % n).toNat))
      else ".tile".toList ++ (dec (r / n + 1).toNat ++ '.' :: "nc".toList)) := by
  have hm : pymod (6 * n) 6 = 0 := by rw [pymod_pos _ (by decide)]; omega
  have hd : pydiv (6 * n) 6 = n := by rw [pydiv_pos _ (by decide)]; omega
  have ht : getTileIndex r (6 * n) = .ok (r / n) := by
    unfold getTileIndex
    rw [hm, hd, if_neg (by simp), if_neg (by omega), pydiv_pos _ hn]
  have hq : 0 ≤ r / n := Int.ediv_nonneg h0 (by omega)
  unfold getRankSuffix
  rw [hm, if_neg (by simp), hd, ht]
  simp only [bind, Except.bind, pure, Except.pure]
  rw [pymod_pos _ hn]
  have hdi : decInt (r / n + 1) = dec (r / n + 1).toNat := by
    unfold decInt
    rw [if_neg (by omega)]
  rw [hdi]
  split <;> simp

/-- **C43.**  Different ranks have different suffixes, for every number of ranks. -/
theorem C43_suffix_injective (n r r' : Int) (hn : 0 < n) (h0 : 0 ≤ r) (h0' : 0 ≤ r') (h : r < 6 * n)
    (h' : r' < 6 * n) (s : List Char) (e : getRankSuffix r (6 * n) = .ok s)
    (e' : getRankSuffix r' (6 * n) = .ok s) : r = r' := by
  have E := e.trans e'.symm
  rw [getRankSuffix_eq n r hn h0, getRankSuffix_eq n r' hn h0'] at E
  have E := Except.ok.inj E
  have hq : 0 ≤ r / n := Int.ediv_nonneg h0 (by omega)
  have hq' : 0 ≤ r' / n := Int.ediv_nonneg h0' (by omega)
  have hm := Int.emod_nonneg r (show n ≠ 0 by omega)
  have hm' := Int.emod_nonneg r' (show n ≠ 0 by omega)
  have f := Int.emod_add_mul_ediv r n
  have f' := Int.emod_add_mul_ediv r' n
  by_cases hbig : 6 * n > 6
  · rw [if_pos hbig, if_pos hbig] at E
    have E := List.append_cancel_left E
    obtain ⟨E1, E2⟩ := digits_dot (dec_isDigit _) (dec_isDigit _) E
    have E1 := dec_inj E1
    have E2 := dec4_inj (List.append_cancel_left E2)
    have g1 : r / n = r' / n := by omega
    have g2 : r % n = r' % n := by omega
    rw [← f, ← f', g1, g2]
  · have hn1 : n = 1 := by omega
    subst hn1
    rw [if_neg hbig, if_neg hbig] at E
    have E := List.append_cancel_left E
    obtain ⟨E1, _⟩ := digits_dot (dec_isDigit _) (dec_isDigit _) E
    have E1 := dec_inj E1
    omega

/-- `w` is the number `v` in decimal, with zeros in front up to the width. -/
structure Numeral (w : List Char) (v width : Nat) : Prop where
  digits : ∀ c ∈ w, c.isDigit = true
  value : Nat.ofDigitChars 10 w 0 = v
  wide : width ≤ w.length
  short : width < w.length → 10 ^ (w.length - 1) ≤ v

theorem dec_numeral (n : Nat) : Numeral (dec n) n 1 := by
  refine ⟨dec_isDigit n, by simp [dec, Nat.ofDigitChars_ten_toDigits], Nat.length_toDigits_pos, fun h => ?_⟩
  by_contra hc
  have := (Nat.length_toDigits_le_iff (b := 10) (n := n) (k := (dec n).length - 1) (by decide) (by omega)).2 (by omega)
  unfold dec at *
  omega

theorem dec4_numeral (n : Nat) : Numeral (dec4 n) n 4 := by
  have D := dec_numeral n
  have hl : (dec4 n).length = (4 - (dec n).length) + (dec n).length := by simp [dec4]
  refine ⟨fun c hc => ?_, ?_, by omega, fun h => ?_⟩
  · unfold dec4 at hc
    rcases List.mem_append.1 hc with h | h
    · rw [(List.mem_replicate.1 h).2]; decide
    · exact D.digits c h
  · simp only [dec4, dec, Nat.ofDigitChars_append, Nat.ofDigitChars_replicate_zero, Nat.mul_zero,
      Nat.ofDigitChars_ten_toDigits]
  · rw [hl] at h ⊢
    have e : 4 - (dec n).length + (dec n).length = (dec n).length := by omega
    rw [e] at h ⊢
    exact D.short (by omega)

/-- **C43.**  The text of the suffix: `.tile<number of the tile, from 1>.nc`, followed, if a tile has more
than one rank, by a dot and the position of the rank in its tile, in at least four digits. -/
theorem C43_suffix_text (n r : Int) (hn : 0 < n) (h0 : 0 ≤ r) :
    ∃ tile, Numeral tile (r / n + 1).toNat 1 ∧
      (n = 1 → getRankSuffix r (6 * n) = .ok (".tile".toList ++ tile ++ ".nc".toList)) ∧
      (1 < n → ∃ position, Numeral position (r % n).toNat 4 ∧
        getRankSuffix r (6 * n) = .ok (".tile".toList ++ tile ++ ".nc.".toList ++ position)) := by
  refine ⟨dec (r / n + 1).toNat, dec_numeral _, fun h => ?_, fun h => ⟨dec4 (r % n).toNat, dec4_numeral _, ?_⟩⟩
  · rw [getRankSuffix_eq n r hn h0, if_neg (by omega)]
    simp
  · rw [getRankSuffix_eq n r hn h0, if_pos (by omega)]
    simp

/-- **C43.**  A suffix exists for every positive multiple of 6, and any other number of ranks raises
ValueError. -/
theorem C43_suffix_defined (total r : Int) (ht : 0 < total) (h0 : 0 ≤ r) :
    (6 ∣ total → ∃ s, getRankSuffix r total = .ok s) ∧
    (¬ 6 ∣ total → getRankSuffix r total = .error .valueError) := by
  constructor
  · rintro ⟨n, rfl⟩
    exact ⟨_, getRankSuffix_eq n r (by omega) h0⟩
  · intro h
    unfold getRankSuffix
    rw [if_pos]
    rw [pymod_pos _ (by decide)]
    omega

/-- **C43.**  The files read for a tile, in order: every required one, and exactly the optional ones
that exist. -/
theorem C43_filenames (isFile exists_ : List Char → Bool) (dirname : List Char) (tileIndex : Int)
    (label : Option (List Char)) :
    let name := restartFilename dirname tileIndex label
    restartFilenames isFile exists_ dirname tileIndex label =
      [name "fv_core.res".toList, name "fv_srf_wnd.res".toList, name "fv_tracer.res".toList] ++
      ([name "sfc_data".toList, name "phy_data".toList].filter fun f => isFile f || exists_ f) := by
  intro name
  unfold restartFilenames
  have h1 : ("sfc_data".toList ∈ restartNames) = False := by decide +kernel
  have h2 : ("phy_data".toList ∈ restartNames) = False := by decide +kernel
  have h3 : ("fv_core.res".toList ∈ restartNames) = True := by decide +kernel
  have h4 : ("fv_srf_wnd.res".toList ∈ restartNames) = True := by decide +kernel
  have h5 : ("fv_tracer.res".toList ∈ restartNames) = True := by decide +kernel
  have : restartNames ++ optionalNames = ["fv_core.res".toList, "fv_srf_wnd.res".toList,
    "fv_tracer.res".toList, "sfc_data".toList, "phy_data".toList] := rfl
  rw [this]
  simp only [List.filter_cons, List.filter_nil, h1, h2, h3, h4, h5, decide_true, decide_false,
    Bool.true_or, Bool.false_or, if_true]
  split <;> split <;> simp_all [name]

/-- The names within a directory. -/
theorem pathJoin_inj (dir a b : List Char) (ha : a.head? ≠ some '/') (hb : b.head? ≠ some '/')
    (h : pathJoin dir a = pathJoin dir b) : a = b := by
  unfold pathJoin at h
  rw [if_neg ha, if_neg hb] at h
  split at h
  · exact List.append_cancel_left h
  · exact (List.cons.inj (List.append_cancel_left h)).2

theorem tail_inj (i j : Nat) (a b : List Char)
    (ha : a ∈ restartNames ++ optionalNames) (hb : b ∈ restartNames ++ optionalNames)
    (h : a ++ (".tile".toList ++ dec i ++ ".nc".toList) = b ++ (".tile".toList ++ dec j ++ ".nc".toList)) :
    a = b ∧ i = j := by
  have hab : a = b := by
    have hlen : ∀ x ∈ restartNames ++ optionalNames, 4 ≤ x.length := by decide +kernel
    have hdiff : ∀ x ∈ restartNames ++ optionalNames, ∀ y ∈ restartNames ++ optionalNames,
        x.take 4 = y.take 4 → x = y := by decide +kernel
    have k := congrArg (List.take 4) h
    rw [List.take_append_of_le_length (hlen a ha), List.take_append_of_le_length (hlen b hb)] at k
    exact hdiff a ha b hb k
  refine ⟨hab, ?_⟩
  subst hab
  have h := List.append_cancel_left h
  rw [List.append_assoc, List.append_assoc] at h
  have h := List.append_cancel_left h
  exact dec_inj (digits_dot (dec_isDigit i) (dec_isDigit j) (r := "nc".toList) (s := "nc".toList) h).1

/-- **C43.**  Different tiles and different kinds of files have different names. -/
theorem C43_filenames_distinct (dirname : List Char) (label : Option (List Char))
    (hlabel : ∀ l, label = some l → l.head? ≠ some '/') (i j : Int) (hi : 0 ≤ i) (hj : 0 ≤ j) (a b : List Char)
    (ha : a ∈ restartNames ++ optionalNames) (hb : b ∈ restartNames ++ optionalNames)
    (h : restartFilename dirname i label a = restartFilename dirname j label b) : a = b ∧ i = j := by
  have hdi : decInt (i + 1) = dec (i + 1).toNat := by unfold decInt; rw [if_neg (by omega)]
  have hdj : decInt (j + 1) = dec (j + 1).toNat := by unfold decInt; rw [if_neg (by omega)]
  have hslash : ∀ x ∈ restartNames ++ optionalNames, x.head? ≠ some '/' ∧ x ≠ [] := by decide +kernel
  have hhead : ∀ x ∈ restartNames ++ optionalNames, ∀ y : List Char,
      (prependLabel x label ++ y).head? ≠ some '/' := by
    intro x hx y
    obtain ⟨h1, h2⟩ := hslash x hx
    have hx1 : (x ++ y).head? ≠ some '/' := by
      cases x with
      | nil => exact absurd rfl h2
      | cons c x => simpa using h1
    unfold prependLabel
    cases label with
    | none => exact hx1
    | some l =>
      dsimp only
      split
      · rename_i hlen
        have := hlabel l rfl
        cases l with
        | nil => simp at hlen
        | cons c l => simpa using this
      · exact hx1
  unfold restartFilename at h
  have h := pathJoin_inj _ _ _ (hhead a ha _) (hhead b hb _) h
  rw [hdi, hdj] at h
  have key : a ++ (".tile".toList ++ dec (i + 1).toNat ++ ".nc".toList)
      = b ++ (".tile".toList ++ dec (j + 1).toNat ++ ".nc".toList) := by
    unfold prependLabel at h
    cases label with
    | none => exact h
    | some l =>
      dsimp only at h
      split at h
      · rw [List.append_assoc, List.append_assoc l] at h
        have h := List.append_cancel_left h
        exact (List.cons.inj h).2
      · exact h
  obtain ⟨h1, h2⟩ := tail_inj _ _ a b ha hb key
  exact ⟨h1, by omega⟩

/-- **C43.**  The name of a restart file, spelled out: directory, slash, label, dot, name, `.tile`, number of the tile
counted from 1, `.nc`; without label (or with an empty one) there is no dot either. -/
theorem C43_filename (dirname : List Char) (hdir : dirname ≠ []) (hend : dirname.getLast? ≠ some '/') (i : Nat)
    (name : List Char) (hname : name ∈ restartNames ++ optionalNames) (label : List Char) (hlabel : label.head? ≠ some '/') :
    restartFilename dirname i (some label) name =
      dirname ++ "/".toList ++ (if label = [] then [] else label ++ ".".toList) ++ name ++ ".tile".toList ++ dec (i + 1) ++ ".nc".toList ∧
    restartFilename dirname i none name = dirname ++ "/".toList ++ name ++ ".tile".toList ++ dec (i + 1) ++ ".nc".toList := by
  have hd : decInt ((i : Int) + 1) = dec (i + 1) := by unfold decInt; rw [if_neg (by omega)]; rfl
  have hslash : ∀ x ∈ restartNames ++ optionalNames, x.head? ≠ some '/' ∧ x ≠ [] := by decide +kernel
  have hx : ∀ y : List Char, (name ++ y).head? ≠ some '/' := by
    intro y
    obtain ⟨h1, h2⟩ := hslash name hname
    cases name with
    | nil => exact absurd rfl h2
    | cons c x => simpa using h1
  have hjoin : ∀ f : List Char, f.head? ≠ some '/' → pathJoin dirname f = dirname ++ '/' :: f := by
    intro f hf
    unfold pathJoin
    rw [if_neg hf, if_neg (by rintro (h | h); exacts [hdir h, hend h])]
  refine ⟨?_, ?_⟩
  · unfold restartFilename prependLabel
    rw [hd]
    dsimp only
    by_cases hl : label = []
    · subst hl
      rw [if_neg (by simp), if_pos rfl, hjoin _ (hx _)]
      simp
    · have : 0 < label.length := List.length_pos_of_ne_nil hl
      rw [if_pos this, if_neg hl, hjoin]
      · simp
      · cases label with
        | nil => exact absurd rfl hl
        | cons c x => simpa using hlabel
  · unfold restartFilename prependLabel
    rw [hd, hjoin _ (hx _)]
    simp

/-! ### examples -/

example : restartFilename "RESTART".toList (0 : Nat) (some "20160801.001500".toList) "fv_core.res".toList =
    "RESTART/20160801.001500.fv_core.res.tile1.nc".toList := by decide +kernel

/-- A small table and file meeting the hypotheses of `C42_load`. -/
def exTable : Table := [("air_temperature", ⟨[.y, .x], "T", "degK"⟩), ("x_wind", ⟨[.yI, .x], "u", "m/s"⟩)]
def exFile : Dict String (DataArray Nat) :=
  [("xaxis_1", ⟨⟨[3], fun i => i.getD 0 0⟩, [.other "xaxis_1"], some "none"⟩),
   ("Time", ⟨⟨[1], fun _ => 0⟩, [.other "Time"], none⟩),
   ("T", ⟨⟨[1, 2, 3], fun i => i.getD 1 0 * 3 + i.getD 2 0⟩,
     [.other "Time", .other "yaxis_1", .other "xaxis_1"], none⟩),
   ("own", ⟨⟨[1, 3], fun i => i.getD 1 0⟩, [.other "Time", .other "k"], some "kg"⟩),
   ("nounits", ⟨⟨[3], fun i => i.getD 0 0⟩, [.other "k"], none⟩)]

/-- What the loaded state contains. -/
def exShow (s : Py (Dict String (Value Nat))) : List (String × List Dim × String × List Nat × Nat) :=
  match s with
  | .error _ => []
  | .ok s => s.map fun x => match x.2 with
    | .quantity q => (x.1, q.dims, q.units, q.data.shape, q.data.get [1, 2])
    | .array a => (x.1, a.dims, "", a.data.shape, 0)

example : exShow (loadPartialState exFile exTable none) =
    [("air_temperature", [.y, .x], "degK", [2, 3], 5), ("own", [.other "k"], "kg", [3], 1)] := by
  decide +kernel
example : exShow (loadPartialState exFile exTable (some ["own", "x_wind"])) =
    [("own", [.other "k"], "kg", [3], 1)] := by
  decide +kernel
example : (Dict.keys exFile).Nodup ∧
    (∀ v ∈ Dict.keys exFile, ∀ w ∈ Dict.keys exFile,
      nameOf (standardNames exTable) v = nameOf (standardNames exTable) w → v = w) ∧
    (∀ x ∈ exFile, ∀ p ∈ exTable, nameOf (standardNames exTable) x.1 = p.1 →
      (renamed (x.2.isel0 (.other "Time")).dims p.2.dims).Nodup) := by
  decide +kernel
example : HasTime exFile := by
  refine ⟨by decide, ⟨"Time", _, rfl, _, List.mem_singleton_self _, rfl⟩, fun v da k hv hk => ?_⟩
  have all : ∀ x ∈ exFile, ∀ k < 3, x.2.dims[k]? = some (.other "Time") → 0 < x.2.data.shape.getD k 0 := by decide +kernel
  have len : ∀ x ∈ exFile, x.2.dims.length ≤ 3 := by decide +kernel
  have hm := Dict.mem_of_get? hv
  have := (List.getElem?_eq_some_iff.1 hk).1
  exact all _ hm k (by have := len _ hm; dsimp only at this; omega) hk

example : getRankSuffix 13 24 = .ok ".tile4.nc.0001".toList := by decide +kernel
example : getRankSuffix 59999 60000 = .ok ".tile6.nc.9999".toList := by decide +kernel

end FV3.Restart
