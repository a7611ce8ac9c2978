import Verif.Model.StateFile
import Verif.Props.Nudging
import Verif.Props.Restart

/-!
# C50 State files round-trip
-/

namespace FV3.StateFile
variable {α T : Type}

/-- The compute domain of a quantity as a quantity of its own. -/
structure ComputeCopy (q q' : Quantity α) : Prop where
  dims : q'.dims = q.dims
  units : q'.units = q.units
  origin : ∀ k, q'.o k = 0
  extent : q'.extent = q.extent
  shape : ∀ k, k < q.ndim → q'.n k = q.e k
  lens : q'.Lens
  values : ∀ idx, q.InCompute idx → q'.data.get (relIdx q.origin idx) = q.data.get idx

/-- `view[:]` for any number of axes. -/
theorem view_all (q : Quantity α) (hq : q.WF) :
    ∃ r, q.viewGet (.one (.slice .full)) = .ok r ∧ r.shape = q.extent.map Int.toNat ∧
      ∀ idx, InB r.shape idx → r.get idx = q.data.get (absIdx q.origin idx) := by
  by_cases h : 0 < q.ndim
  · exact C29_view_all q hq h
  · have hn : q.ndim = 0 := by omega
    have ho : q.origin = [] := List.length_eq_zero_iff.1 (by rw [hq.origin, hn])
    have he : q.extent = [] := List.length_eq_zero_iff.1 (by rw [hq.extent, hn])
    have hs : q.data.shape = [] := List.length_eq_zero_iff.1 (by rw [hq.shape, hn])
    refine ⟨q.data, ?_, by rw [hs, he]; rfl, ?_⟩
    · unfold Quantity.viewGet
      rw [ho]
      simp [Quantity.zeroDimGet]
    · intro idx hi
      rw [hs] at hi
      cases idx with
      | nil => rw [ho]; rfl
      | cons _ _ => exact absurd hi id

theorem dataArray_ok (q : Quantity α) (hq : q.WF) :
    ∃ a, q.dataArray = .ok a ∧ a.dims = q.dims ∧ a.units = some q.units ∧
      a.data.shape = q.extent.map Int.toNat ∧
      ∀ idx, InB a.data.shape idx → a.data.get idx = q.data.get (absIdx q.origin idx) := by
  obtain ⟨r, h1, h2, h3⟩ := view_all q hq
  refine ⟨⟨r, q.dims, some q.units⟩, ?_, rfl, rfl, h2, h3⟩
  unfold Quantity.dataArray
  rw [h1]; rfl

/-- The array written for a quantity. -/
def Written (q : Quantity α) (a : DataArray α) : Prop :=
  a.dims = q.dims ∧ a.units = some q.units ∧ a.data.shape = q.extent.map Int.toNat ∧
  (∀ idx, InB a.data.shape idx → a.data.get idx = q.data.get (absIdx q.origin idx)) ∧
  q.dataArray = .ok a

/-- The array holds the compute domain of a quantity. -/
def Stored (q : Quantity α) (a : DataArray α) : Prop :=
  a.dims = q.dims ∧ a.units = some q.units ∧ a.data.shape = q.extent.map Int.toNat ∧
  (∀ idx, InB a.data.shape idx → a.data.get idx = q.data.get (absIdx q.origin idx))

theorem Written.stored {q : Quantity α} {a : DataArray α} (h : Written q a) : Stored q a :=
  ⟨h.1, h.2.1, h.2.2.1, h.2.2.2.1⟩

theorem Stored.copy {q : Quantity α} (hq : q.WF) {a : DataArray α} (h : Stored q a) :
    ∃ q', Quantity.fromDataArray a = .ok q' ∧ ComputeCopy q q' := by
  obtain ⟨h1, h2, h3, h4⟩ := h
  have hl : a.dims.length = a.data.shape.length := by
    rw [h1, h3, List.length_map, hq.extent]; rfl
  refine ⟨_, Restart.fromDataArray_ok a (by rw [h2]; rfl) hl, ?_⟩
  have hext : (Restart.wholeQuantity a).extent = q.extent := by
    show a.data.shape.map (fun n : Nat => (n : Int)) = q.extent
    rw [h3]; exact Nudge.toNat_back q hq
  refine ⟨h1, ?_, ?_, hext, ?_, ⟨?_, ?_, ?_⟩, ?_⟩
  · show a.units.getD "" = q.units
    rw [h2]; rfl
  · intro k
    show (List.replicate a.dims.length (0 : Int)).getD k 0 = 0
    by_cases hk : k < a.dims.length
    · rw [getD_lt _ (by simpa using hk)]; simp
    · rw [getD_ge _ (by simpa using hk)]
  · intro k hk
    have hk' : k < q.extent.length := by rw [hq.extent]; exact hk
    show ((a.data.shape.getD k 0 : Nat) : Int) = q.e k
    rw [h3, getD_lt _ (by simpa using hk'), List.getElem_map]
    have := (hq.inside k hk).2.1
    unfold Quantity.e at this ⊢
    rw [getD_lt _ hk'] at this ⊢
    omega
  · show a.data.shape.length = a.dims.length
    exact hl.symm
  · show (List.replicate a.dims.length (0 : Int)).length = a.dims.length
    simp
  · show (a.data.shape.map (fun n : Nat => (n : Int))).length = a.dims.length
    simp [hl]
  · intro idx hin
    show a.data.get (relIdx q.origin idx) = _
    rw [h4 _ (by rw [h3]; exact Nudge.relIn q hq idx hin), Nudge.absRel q hq idx hin]

/-- A dimension name of a variable of the state. -/
def IsDimName (s : State α T) (n : String) : Prop :=
  ∃ name q d, Dict.get? s.vars name = some q ∧ d ∈ q.dims ∧ dimName d = n

/-- A state that can be written: the compute domains are inside the arrays, a dimension has the same
extent in all variables, and no variable (nor "time") has the name of a dimension. -/
structure Writable (s : State α T) : Prop where
  nodup : (Dict.keys s.vars).Nodup
  wf : ∀ name q, Dict.get? s.vars name = some q → q.WF
  sizes : ∀ n q n' q' k k', Dict.get? s.vars n = some q → Dict.get? s.vars n' = some q' →
    k < q.ndim → k' < q'.ndim → dimName (q.d k) = dimName (q'.d k') → q.e k = q'.e k'
  names : ∀ name, name ∈ Dict.keys s.vars → ¬ IsDimName s name
  time : ¬ IsDimName s "time"

theorem dataArrays_ok (l : Dict String (Quantity α)) (h : ∀ x ∈ l, x.2.WF) :
    ∃ v, dataArrays l = .ok v ∧ Dict.keys v = Dict.keys l ∧
      (∀ x ∈ v, ∃ q, (x.1, q) ∈ l ∧ Written q x.2) ∧
      (∀ x ∈ l, ∃ a, (x.1, a) ∈ v ∧ Written x.2 a) := by
  induction l with
  | nil => exact ⟨[], rfl, rfl, by simp, by simp⟩
  | cons x l ih =>
    obtain ⟨name, q⟩ := x
    obtain ⟨v, e, hk, h1, h2⟩ := ih fun x hx => h x (by simp [hx])
    obtain ⟨a, ea, w1, w2, w3, w4⟩ := dataArray_ok q (h (name, q) (by simp))
    have hw : Written q a := ⟨w1, w2, w3, w4, ea⟩
    refine ⟨(name, a) :: v, ?_, ?_, ?_, ?_⟩
    · simp only [dataArrays, ea, e, bind, Except.bind, pure, Except.pure]
    · simp only [Dict.keys, List.map_cons] at hk ⊢; rw [hk]
    · intro x hx
      rcases List.mem_cons.1 hx with rfl | hx
      · exact ⟨q, by simp, hw⟩
      · obtain ⟨q', h3, h4⟩ := h1 x hx
        exact ⟨q', by simp [h3], h4⟩
    · intro x hx
      rcases List.mem_cons.1 hx with rfl | hx
      · exact ⟨a, by simp, hw⟩
      · obtain ⟨a', h3, h4⟩ := h2 x hx
        exact ⟨a', by simp [h3], h4⟩

theorem mem_zip {a : List String} {b : List Nat} {x : String × Nat} (h : x ∈ a.zip b) :
    ∃ k, k < a.length ∧ k < b.length ∧ x = (a.getD k "", b.getD k 0) := by
  obtain ⟨k, hk, e⟩ := List.getElem_of_mem h
  rw [List.length_zip] at hk
  refine ⟨k, by omega, by omega, ?_⟩
  rw [← e, List.getElem_zip, getD_lt _ (by omega), getD_lt _ (by omega)]

/-- The sizes of the dataset of a writable state. -/
theorem sizes_mem (s : State α T) (W : Writable s) (v : Dict String (DataArray α))
    (hv : ∀ x ∈ v, ∃ q, (x.1, q) ∈ s.vars ∧ Written q x.2) (p : String × Nat) (hp : p ∈ sizes v) :
    ∃ name q k, Dict.get? s.vars name = some q ∧ k < q.ndim ∧ p.1 = dimName (q.d k) ∧ (p.2 : Int) = q.e k := by
  unfold sizes at hp
  obtain ⟨x, hx, hp⟩ := List.mem_flatMap.1 hp
  obtain ⟨q, hq, h1, h2, h3, h4, _⟩ := hv x hx
  obtain ⟨k, hk1, hk2, rfl⟩ := mem_zip hp
  have hg := Dict.get?_of_mem W.nodup hq
  have wf := W.wf _ _ hg
  have hk : k < q.ndim := by rw [List.length_map, h1] at hk1; exact hk1
  refine ⟨x.1, q, k, hg, hk, ?_, ?_⟩
  · show (x.2.dims.map dimName).getD k "" = dimName (q.dims.getD k .x)
    rw [h1, getD_lt _ (by rw [List.length_map]; exact hk), List.getElem_map, getD_lt _ hk]
    rfl
  · have hk' : k < q.extent.length := by rw [wf.extent]; exact hk
    show ((x.2.data.shape.getD k 0 : Nat) : Int) = q.e k
    rw [h3, getD_lt _ (by simpa using hk'), List.getElem_map]
    have := (wf.inside k hk).2.1
    unfold Quantity.e at this ⊢
    rw [getD_lt _ hk'] at this ⊢
    omega

theorem isDimName_of (s : State α T) {name : String} {q : Quantity α} {k : Nat}
    (h : Dict.get? s.vars name = some q) (hk : k < q.ndim) : IsDimName s (dimName (q.d k)) := by
  refine ⟨name, q, q.d k, h, ?_, rfl⟩
  unfold Quantity.d
  rw [getD_lt _ hk]
  exact List.getElem_mem _

theorem toDataset_ok (s : State α T) (W : Writable s) :
    ∃ v, toDataset s = .ok ⟨v, s.time.map .time⟩ ∧ Dict.keys v = Dict.keys s.vars ∧
      (∀ x ∈ v, ∃ q, (x.1, q) ∈ s.vars ∧ Written q x.2) ∧
      (∀ x ∈ v, ∀ q ∈ sizes v, q.1 ≠ x.1) := by
  obtain ⟨v, e, hk, h1, _⟩ := dataArrays_ok s.vars fun x hx =>
    W.wf x.1 x.2 (Dict.get?_of_mem W.nodup hx)
  have hnames : ∀ x ∈ v, ∀ q ∈ sizes v, q.1 ≠ x.1 := by
    intro x hx p hp hpx
    obtain ⟨name, q, k, hq, hkk, e1, _⟩ := sizes_mem s W v h1 p hp
    refine W.names x.1 ?_ ?_
    · rw [← hk]; exact List.mem_map_of_mem (f := Prod.fst) hx
    · rw [← hpx, e1]; exact isDimName_of s hq hkk
  refine ⟨v, ?_, hk, h1, hnames⟩
  unfold toDataset
  rw [e]
  show mkDataset v s.time = _
  unfold mkDataset
  rw [if_neg, if_neg, if_neg]
  · rintro ⟨_, p, hp, e0⟩
    obtain ⟨name, q, k, hq, hkk, e1, _⟩ := sizes_mem s W v h1 p hp
    exact W.time (by rw [← e0, e1]; exact isDimName_of s hq hkk)
  · rw [Bool.not_eq_false, List.all_eq_true]
    intro x hx
    simp only [decide_eq_true_eq]
    rintro ⟨p, hp, e0⟩
    exact absurd e0 (hnames x hx p hp)
  · rw [Bool.not_eq_false, List.all_eq_true]
    intro p hp
    rw [List.all_eq_true]
    intro p' hp'
    simp only [decide_eq_true_eq]
    intro e0
    obtain ⟨n, q, k, hq, hkk, e1, e2⟩ := sizes_mem s W v h1 p hp
    obtain ⟨n', q', k', hq', hkk', e1', e2'⟩ := sizes_mem s W v h1 p' hp'
    have := W.sizes n q n' q' k k' hq hq' hkk hkk' (by rw [← e1, ← e1', e0])
    omega

theorem quantities_ok (v : Dict String (DataArray α)) (s : Dict String (Quantity α))
    (wf : ∀ x ∈ s, x.2.WF) (h : ∀ x ∈ v, ∃ q, (x.1, q) ∈ s ∧ Stored q x.2) :
    ∃ l, quantities v = .ok l ∧ Dict.keys l = Dict.keys v ∧
      ∀ x ∈ l, ∃ q, (x.1, q) ∈ s ∧ ComputeCopy q x.2 := by
  induction v with
  | nil => exact ⟨[], rfl, rfl, by simp⟩
  | cons x v ih =>
    obtain ⟨name, a⟩ := x
    obtain ⟨l, e, hk, h1⟩ := ih fun x hx => h x (by simp [hx])
    obtain ⟨q, hq, hw⟩ := h (name, a) (by simp)
    obtain ⟨q', e', hc⟩ := hw.copy (wf _ hq)
    refine ⟨(name, q') :: l, ?_, ?_, ?_⟩
    · simp only [quantities, e, e', bind, Except.bind, pure, Except.pure]
    · simp only [Dict.keys, List.map_cons] at hk ⊢; rw [hk]
    · intro x hx
      rcases List.mem_cons.1 hx with rfl | hx
      · exact ⟨q, hq, hc⟩
      · exact h1 x hx

theorem encode_error {codec : DataArray α → Py (DataArray α)} {v : Dict String (DataArray α)} {e : PyErr}
    (h : encode codec v = .error e) : ∃ x ∈ v, codec x.2 = .error e := by
  induction v with
  | nil => cases h
  | cons x v ih =>
    obtain ⟨name, a⟩ := x
    unfold encode at h
    cases h1 : codec a with
    | error e' =>
      rw [h1] at h
      cases h
      exact ⟨_, .head _, h1⟩
    | ok b =>
      rw [h1] at h
      cases h2 : encode codec v with
      | error e' =>
        obtain ⟨x, hx, hc⟩ := ih (by rw [h2]; rw [h2] at h; cases h; rfl)
        exact ⟨x, .tail _ hx, hc⟩
      | ok l =>
        rw [h2] at h
        cases h

theorem encode_ok {codec : DataArray α → Py (DataArray α)} {v w : Dict String (DataArray α)}
    (h : encode codec v = .ok w) : ∀ x ∈ v, ∃ a, codec x.2 = .ok a := by
  induction v generalizing w with
  | nil => exact fun x hx => by cases hx
  | cons x v ih =>
    obtain ⟨name, a⟩ := x
    unfold encode at h
    cases h1 : codec a with
    | error e' => rw [h1] at h; cases h
    | ok b =>
      rw [h1] at h
      cases h2 : encode codec v with
      | error e' => rw [h2] at h; cases h
      | ok l =>
        intro x hx
        rcases List.mem_cons.1 hx with rfl | hx
        · exact ⟨b, h1⟩
        · exact ih h2 x hx


/-- The quantity with a function applied to its values. -/
def mapQ (ρ : α → α) (q : Quantity α) : Quantity α := { q with data := ⟨q.data.shape, fun i => ρ (q.data.get i)⟩ }

/-- The array with a function applied to its values. -/
def mapA (ρ : α → α) (a : DataArray α) : DataArray α := { a with data := ⟨a.data.shape, fun i => ρ (a.data.get i)⟩ }

theorem encode_map {codec : DataArray α → Py (DataArray α)} {ρ : String → α → α} {v : Dict String (DataArray α)}
    (h : ∀ x ∈ v, codec x.2 = .ok (mapA (ρ x.1) x.2)) :
    encode codec v = .ok (v.map fun x => (x.1, mapA (ρ x.1) x.2)) := by
  induction v with
  | nil => rfl
  | cons x v ih =>
    obtain ⟨name, a⟩ := x
    have h1 : codec a = .ok (mapA (ρ name) a) := h (name, a) (.head _)
    unfold encode
    rw [h1, ih fun x hx => h x (.tail _ hx)]
    rfl

theorem mapA_id (a : DataArray α) : mapA (fun z => z) a = a := rfl

theorem mapQ_id (q : Quantity α) : mapQ (fun z => z) q = q := rfl

theorem sizes_map (ρ : String → α → α) (v : Dict String (DataArray α)) :
    sizes (v.map fun x => (x.1, mapA (ρ x.1) x.2)) = sizes v := by
  unfold sizes
  rw [List.flatMap_map]
  rfl

/-- **C50.**  Writing a state with a time and reading the file gives the same names, the same time, and
for every name a quantity with the same dimensions, units and extent, the compute-domain data of which are what the
netCDF layer makes of the values (rounded to the type of the file, say, or with missing values replaced). -/
theorem C50_stored (codec : DataArray α → Py (DataArray α)) (s : State α T) (W : Writable s) (ρ : String → α → α)
    (stores : ∀ name q a, Dict.get? s.vars name = some q → q.dataArray = .ok a →
      codec a = .ok { a with data := ⟨a.data.shape, fun i => ρ name (a.data.get i)⟩ })
    (t : T) (ht : s.time = some t) (filename : String) (fs : Files α T) :
    ∃ fs', writeState codec s filename fs = (fs', none) ∧
      (∀ f, f ≠ filename → Dict.get? fs' f = Dict.get? fs f) ∧
      ∃ s', readState filename fs' = .ok s' ∧ s'.time = some t ∧ Dict.keys s'.vars = Dict.keys s.vars ∧
        ∀ name q, Dict.get? s.vars name = some q →
          ∃ q', Dict.get? s'.vars name = some q' ∧
            ComputeCopy { q with data := ⟨q.data.shape, fun i => ρ name (q.data.get i)⟩ } q' := by
  obtain ⟨v, e, hk, h1, h2⟩ := toDataset_ok s W
  have hc : encode codec v = .ok (v.map fun x => (x.1, mapA (ρ x.1) x.2)) := encode_map fun x hx => by
    obtain ⟨q, hq, hw⟩ := h1 x hx
    exact stores x.1 q x.2 (Dict.get?_of_mem W.nodup hq) hw.2.2.2.2
  have hks : Dict.keys (v.map fun x => (x.1, mapA (ρ x.1) x.2)) = Dict.keys s.vars := by
    rw [← hk]; unfold Dict.keys; rw [List.map_map]; rfl
  have hss := sizes_map ρ v
  have h1' : ∀ x ∈ v.map fun x => (x.1, mapA (ρ x.1) x.2), ∃ q,
      (x.1, q) ∈ (s.vars.map fun x => (x.1, mapQ (ρ x.1) x.2)) ∧ Stored q x.2 := by
    intro x hx
    obtain ⟨y, hy, rfl⟩ := List.mem_map.1 hx
    obtain ⟨q, hq, w1, w2, w3, w4, -⟩ := h1 y hy
    exact ⟨_, List.mem_map.2 ⟨_, hq, rfl⟩, w1, w2, w3, fun idx hi => congrArg (ρ y.1) (w4 idx hi)⟩
  generalize hv' : (v.map fun x => (x.1, mapA (ρ x.1) x.2)) = v' at hc hks hss h1'
  refine ⟨Dict.set fs filename (.whole ⟨v', some (.time t)⟩), ?_, ?_, ?_⟩
  · unfold writeState writeSteps
    rw [ht] at e ⊢
    rw [if_neg (by simp), e]
    dsimp only
    rw [hc]; rfl
  · intro f hf
    exact Dict.get?_set_ne fs _ hf
  · have hdv : dataVars (⟨v', some (.time t)⟩ : Dataset α T) = v' := by
      unfold dataVars
      rw [List.filter_eq_self]
      intro x hx
      simp only [decide_eq_true_eq]
      rw [hss]
      subst hv'
      obtain ⟨y, hy, rfl⟩ := List.mem_map.1 hx
      exact fun q hq => h2 y hy q hq
    obtain ⟨l, e', hk', h3⟩ := quantities_ok v' (s.vars.map fun x => (x.1, mapQ (ρ x.1) x.2)) (fun x hx => by
      obtain ⟨y, hy, rfl⟩ := List.mem_map.1 hx
      have := W.wf y.1 y.2 (Dict.get?_of_mem W.nodup hy)
      exact ⟨⟨this.shape, this.origin, this.extent⟩, this.inside⟩) h1'
    refine ⟨⟨l, some t⟩, ?_, rfl, by rw [hk', hks], ?_⟩
    · unfold readState
      rw [Dict.get?_set_self]
      dsimp only
      rw [hdv, e']
      rfl
    · intro name q hq
      have hmem : name ∈ Dict.keys l := by
        rw [hk', hks]; exact (Dict.mem_keys_iff _ _).2 ⟨q, hq⟩
      obtain ⟨q', hq'⟩ := (Dict.mem_keys_iff l name).1 hmem
      obtain ⟨q0, h4, h5⟩ := h3 _ (Dict.mem_of_get? hq')
      obtain ⟨y, hy, hy2⟩ := List.mem_map.1 h4
      obtain ⟨rfl, rfl⟩ := Prod.mk.injEq .. ▸ hy2
      have := Dict.get?_of_mem W.nodup hy
      rw [hq] at this
      cases this
      exact ⟨q', hq', h5⟩

/-- **C50.**  Writing a state with a time and reading the file gives the same names, the same time, and
for every name a quantity with the same dimensions, units and compute-domain data, provided the netCDF
layer stores the arrays of this state faithfully. -/
theorem C50_roundtrip (codec : DataArray α → Py (DataArray α)) (s : State α T) (W : Writable s)
    (faithful : ∀ name q a, Dict.get? s.vars name = some q → q.dataArray = .ok a → codec a = .ok a)
    (t : T) (ht : s.time = some t) (filename : String) (fs : Files α T) :
    ∃ fs', writeState codec s filename fs = (fs', none) ∧
      (∀ f, f ≠ filename → Dict.get? fs' f = Dict.get? fs f) ∧
      ∃ s', readState filename fs' = .ok s' ∧ s'.time = some t ∧ Dict.keys s'.vars = Dict.keys s.vars ∧
        ∀ name q, Dict.get? s.vars name = some q →
          ∃ q', Dict.get? s'.vars name = some q' ∧ ComputeCopy q q' :=
  C50_stored codec s W (fun _ z => z) faithful t ht filename fs

/-- **C50.**  A state without time raises ValueError and no file is created or changed. -/
theorem C50_no_time (codec : DataArray α → Py (DataArray α)) (s : State α T) (ht : s.time = none)
    (filename : String) (fs : Files α T) : writeState codec s filename fs = (fs, some .valueError) := by
  unfold writeState writeSteps
  rw [ht]; rfl

/-- **C50.**  If writing raises an exception, no file is created or changed, except when the netCDF layer cannot store
one of the variables: then the file is damaged and the others are as before. -/
theorem C50_error_files (codec : DataArray α → Py (DataArray α)) (s : State α T) (filename : String)
    (fs fs' : Files α T) (e : PyErr) (h : writeState codec s filename fs = (fs', some e)) :
    fs' = fs ∨ (∃ ds x, toDataset s = .ok ds ∧ x ∈ ds.vars ∧ codec x.2 = .error e) ∧
      Dict.get? fs' filename = some .damaged ∧ ∀ f, f ≠ filename → Dict.get? fs' f = Dict.get? fs f := by
  unfold writeState writeSteps at h
  split at h
  · cases h; exact .inl rfl
  · split at h
    · cases h; exact .inl rfl
    · next ds hd =>
      dsimp only at h
      split at h
      · next e' he =>
        cases h
        obtain ⟨x, hx, hc⟩ := encode_error he
        exact .inr ⟨⟨ds, x, hd, hx, hc⟩, Dict.get?_set_self .., fun f hf => Dict.get?_set_ne fs _ hf⟩
      · cases h

/-- **C50.**  Wherever `write_state` is interrupted, the other files are as before, and its file is as before, or
damaged, or what a complete `write_state` leaves. -/
theorem C50_crash (codec : DataArray α → Py (DataArray α)) (s : State α T) (filename : String) (fs : Files α T) :
    ∀ fs' ∈ (writeSteps codec s filename fs).1, (∀ f, f ≠ filename → Dict.get? fs' f = Dict.get? fs f) ∧
      (Dict.get? fs' filename = Dict.get? fs filename ∨ Dict.get? fs' filename = some .damaged ∨
        fs' = (writeState codec s filename fs).1) := by
  intro fs' h
  unfold writeState
  unfold writeSteps at h ⊢
  split at h
  · next ht =>
    rcases List.mem_singleton.1 h with rfl
    exact ⟨fun _ _ => rfl, .inl rfl⟩
  · next ht =>
    rw [if_neg ht]
    split at h
    · rcases List.mem_singleton.1 h with rfl
      exact ⟨fun _ _ => rfl, .inl rfl⟩
    · next ds hd =>
      dsimp only at h
      split at h
      · next e' he =>
        rcases List.mem_cons.1 h with rfl | h
        · exact ⟨fun _ _ => rfl, .inl rfl⟩
        · rcases List.mem_singleton.1 h with rfl
          exact ⟨fun f hf => Dict.get?_set_ne fs _ hf, .inr (.inl (Dict.get?_set_self ..))⟩
      · next vars he =>
        rcases List.mem_cons.1 h with rfl | h
        · exact ⟨fun _ _ => rfl, .inl rfl⟩
        rcases List.mem_cons.1 h with rfl | h
        · exact ⟨fun f hf => Dict.get?_set_ne fs _ hf, .inr (.inl (Dict.get?_set_self ..))⟩
        · rcases List.mem_singleton.1 h with rfl
          exact ⟨fun f hf => Dict.get?_set_ne fs _ hf, .inr (.inr rfl)⟩

/-- **C50, limit.**  Writing to a file that holds a state is not atomic: if the process is killed at the wrong moment, or
if the netCDF layer cannot store one of the variables, the earlier state is lost as well. -/
theorem C50_not_atomic (codec : DataArray α → Py (DataArray α)) (s : State α T) (ds : Dataset α T)
    (hd : toDataset s = .ok ds) (ht : s.time ≠ none) (filename : String) (fs : Files α T) :
    (∃ fs' ∈ (writeSteps codec s filename fs).1, Dict.get? fs' filename = some .damaged) ∧
    ∀ x e, x ∈ ds.vars → codec x.2 = .error e → ∃ fs' e', writeState codec s filename fs = (fs', some e') ∧
      Dict.get? fs' filename = some .damaged := by
  have ht : ¬ (s.time.isNone = true) := by
    cases h : s.time with
    | none => exact absurd h ht
    | some _ => simp
  unfold writeState writeSteps
  rw [if_neg ht, hd]
  dsimp only
  refine ⟨?_, fun x e hx hc => ?_⟩
  · cases encode codec ds.vars with
    | error e => exact ⟨_, .tail _ (.head _), Dict.get?_set_self ..⟩
    | ok v => exact ⟨_, .tail _ (.head _), Dict.get?_set_self ..⟩
  · cases h : encode codec ds.vars with
    | error e => exact ⟨_, e, rfl, Dict.get?_set_self ..⟩
    | ok v =>
      obtain ⟨a, ha⟩ := encode_ok h x hx
      rw [hc] at ha
      cases ha

/-- The loop over the variables reads them all, under their names, if every one can be read. -/
theorem quantities_all (v : Dict String (DataArray α))
    (h : ∀ x ∈ v, ∃ q, Quantity.fromDataArray x.2 = .ok q) :
    ∃ l, quantities v = .ok l ∧ Dict.keys l = Dict.keys v := by
  induction v with
  | nil => exact ⟨[], rfl, rfl⟩
  | cons x v ih =>
    obtain ⟨name, a⟩ := x
    obtain ⟨l, e, hk⟩ := ih fun x hx => h x (by simp [hx])
    obtain ⟨q, e'⟩ := h (name, a) (by simp)
    refine ⟨(name, q) :: l, ?_, ?_⟩
    · simp only [quantities, e, e', bind, Except.bind, pure, Except.pure]
    · simp only [Dict.keys, List.map_cons] at hk ⊢; rw [hk]

/-- **C50.**  Reading a file whose variables can all be read: the time decides.  A scalar time is
returned; a scalar that is not a time, and an array that is not a coordinate, raise ValueError. -/
theorem C50_read_time (filename : String) (fs : Files α T) (ds : Dataset α T)
    (hf : Dict.get? fs filename = some (.whole ds))
    (hv : ∀ x ∈ ds.vars, ∃ q, Quantity.fromDataArray x.2 = .ok q) :
    (∀ t, ds.time = some (.time t) → ∃ s, readState filename fs = .ok s ∧ s.time = some t) ∧
    (ds.time = some .otherScalar → readState filename fs = .error .valueError) ∧
    (∀ dims, ds.time = some (.array dims) → dims ≠ ["time"] →
      readState filename fs = .error .valueError) := by
  obtain ⟨l, e, -⟩ := quantities_all (dataVars ds) fun x hx => hv x (List.mem_of_mem_filter hx)
  refine ⟨fun t ht => ⟨⟨l, some t⟩, ?_, rfl⟩, fun ht => ?_, fun dims ht hd => ?_⟩ <;>
    unfold readState <;> rw [hf] <;> dsimp only <;> rw [e] <;> unfold timeVar <;> rw [ht]
  · rfl
  · rfl
  · dsimp only
    rw [if_neg hd]
    rfl

/-- **C50, limit.**  A file with no time, and a file whose time is an array along the dimension
"time", are read without error, and the state has no time. -/
theorem C50_read_without_time (filename : String) (fs : Files α T) (ds : Dataset α T)
    (hf : Dict.get? fs filename = some (.whole ds))
    (hv : ∀ x ∈ ds.vars, ∃ q, Quantity.fromDataArray x.2 = .ok q)
    (ht : ds.time = none ∨ ds.time = some (.array ["time"])) :
    ∃ s, readState filename fs = .ok s ∧ s.time = none := by
  obtain ⟨l, e, -⟩ := quantities_all (dataVars ds) fun x hx => hv x (List.mem_of_mem_filter hx)
  refine ⟨⟨l, none⟩, ?_, rfl⟩
  rcases ht with ht | ht <;>
    unfold readState <;> rw [hf] <;> dsimp only <;> rw [e] <;> unfold timeVar <;> rw [ht] <;> rfl

/-- **C50.**  Reading a file that does not exist raises FileNotFoundError. -/
theorem C50_missing_file (filename : String) (fs : Files α T) (hf : Dict.get? fs filename = none) :
    readState filename fs = .error .osError := by
  unfold readState
  rw [hf]

/-- **C50, limit.**  A one-dimensional variable with the name of its dimension becomes a coordinate and
is not read back. -/
theorem C50_coordinate_lost (q : Quantity α) (hq : q.WF) (name : String) (hd : q.dims = [.other name])
    (hn : name ≠ "time") (t : T) (filename : String) (fs : Files α T) :
    ∃ fs', writeState .ok ⟨[(name, q)], some t⟩ filename fs = (fs', none) ∧
      readState filename fs' = .ok ⟨[], some t⟩ := by
  obtain ⟨a, e, h1, h2, h3, h4⟩ := dataArray_ok q hq
  have hnd : q.ndim = 1 := by unfold Quantity.ndim; rw [hd]; rfl
  obtain ⟨m, hm⟩ : ∃ m, a.data.shape = [m] := by
    have : a.data.shape.length = 1 := by rw [h3, List.length_map, hq.extent, hnd]
    exact List.length_eq_one_iff.1 this
  have hs : sizes [(name, a)] = [(name, m)] := by
    simp [sizes, h1, hd, hm, dimName]
  have hds : toDataset (⟨[(name, q)], some t⟩ : State α T) = .ok ⟨[(name, a)], some (.time t)⟩ := by
    unfold toDataset
    simp only [dataArrays, e, bind, Except.bind, pure, Except.pure]
    unfold mkDataset
    rw [hs]
    simp [h1, hd, dimName, hn]
  refine ⟨Dict.set fs filename (.whole ⟨[(name, a)], some (.time t)⟩), ?_, ?_⟩
  · unfold writeState writeSteps
    rw [if_neg (by simp), hds]
    rfl
  · unfold readState
    rw [Dict.get?_set_self]
    have : dataVars (⟨[(name, a)], some (.time t)⟩ : Dataset α T) = [] := by
      unfold dataVars
      rw [hs]
      simp
    dsimp only
    rw [this]
    rfl

/-- A state meeting the hypotheses. -/
def exState : State Nat Nat :=
  { vars := [("T", ⟨⟨[4, 3], fun i => i.getD 0 0 * 3 + i.getD 1 0⟩, [.y, .x], "K", [1, 0], [2, 3]⟩),
             ("p", ⟨⟨[2], fun i => i.getD 0 0⟩, [.y], "Pa", [0], [2]⟩),
             ("c", ⟨⟨[], fun _ => 7⟩, [], "", [], []⟩)]
    time := some 5 }

/-- What is read back: names, dims, units, extents, and some values. -/
def exShow (s : Py (State Nat Nat)) : List (String × List String × String × List Int × Nat) × Option Nat :=
  match s with
  | .error _ => ([], none)
  | .ok s => (s.vars.map fun x => (x.1, x.2.dims.map dimName, x.2.units, x.2.extent, x.2.data.get [1, 2]), s.time)

set_option synthInstance.maxSize 1024 in
set_option synthInstance.maxHeartbeats 80000 in
example : exShow (readState "f" (writeState .ok exState "f" []).1) =
    ([("T", ["y", "x"], "K", [2, 3], 8), ("p", ["y"], "Pa", [2], 1), ("c", [], "", [], 7)], some 5) := by
  decide +kernel

theorem exState_writable : Writable exState := by
  have hwf : ∀ x ∈ exState.vars, x.2.WF := by
    intro x hx
    rcases List.mem_cons.1 hx with rfl | hx
    on_goal 2 => rcases List.mem_cons.1 hx with rfl | hx
    on_goal 3 => rcases List.mem_singleton.1 hx with rfl
    · exact ⟨⟨rfl, rfl, rfl⟩, by decide⟩
    · exact ⟨⟨rfl, rfl, rfl⟩, by decide⟩
    · exact ⟨⟨rfl, rfl, rfl⟩, by decide⟩
  have hdim : ∀ n, IsDimName exState n → n = "y" ∨ n = "x" := by
    rintro n ⟨name, q, d, hq, hd, rfl⟩
    have hx := Dict.mem_of_get? hq
    rcases List.mem_cons.1 hx with e | hx
    on_goal 2 => rcases List.mem_cons.1 hx with e | hx
    on_goal 3 => have e := List.mem_singleton.1 hx
    all_goals cases e
    · have : d = .y ∨ d = .x := by simpa using hd
      rcases this with rfl | rfl
      · exact Or.inl rfl
      · exact Or.inr rfl
    · have : d = .y := by simpa using hd
      subst this; exact Or.inl rfl
    · cases hd
  refine ⟨by decide, fun name q h => hwf _ (Dict.mem_of_get? h), ?_, ?_, ?_⟩
  · have H : ∀ x ∈ exState.vars, ∀ y ∈ exState.vars, ∀ k, k < x.2.ndim → ∀ k', k' < y.2.ndim →
        dimName (x.2.d k) = dimName (y.2.d k') → x.2.e k = y.2.e k' := by decide +kernel
    intro n q n' q' k k' h h' hk hk' e
    exact H _ (Dict.mem_of_get? h) _ (Dict.mem_of_get? h') k hk k' hk' e
  · intro name hn h
    have : name = "T" ∨ name = "p" ∨ name = "c" := by simpa [exState, Dict.keys] using hn
    rcases hdim name h with h | h <;> rcases this with h' | h' | h' <;> (rw [h] at h'; exact absurd h' (by decide))
  · intro h
    rcases hdim _ h with h | h <;> exact absurd h (by decide)

/-- A file with one variable and a time array along another dimension. -/
def exTimes (dims : List String) : Dataset Nat Nat :=
  { vars := [("T", ⟨⟨[2, 3], fun i => i.getD 0 0⟩, [.y, .x], some "K"⟩)], time := some (.array dims) }

theorem exTimes_readable (dims : List String) :
    ∀ x ∈ (exTimes dims).vars, ∃ q, Quantity.fromDataArray x.2 = .ok q := by
  intro x hx
  rcases List.mem_singleton.1 hx with rfl
  exact ⟨_, rfl⟩

example : readState "f" [("f", .whole (exTimes ["n"]))] = .error .valueError :=
  (C50_read_time "f" _ _ rfl (exTimes_readable _)).2.2 ["n"] rfl (by decide)

example : ∃ s, readState "f" [("f", .whole (exTimes ["time"]))] = .ok s ∧ s.time = none :=
  C50_read_without_time "f" _ _ rfl (exTimes_readable _) (Or.inr rfl)

/-- A netCDF layer which stores no arrays without axes. -/
def exCodec (a : DataArray Nat) : Py (DataArray Nat) := if a.dims = [] then .error .valueError else .ok a

/-- The third variable of the state cannot be stored: the file, which held another state, is damaged. -/
example : ∃ fs' e', writeState exCodec exState "f" [("f", .whole ⟨[], some (.time 4)⟩)] = (fs', some e') ∧
    Dict.get? fs' "f" = some .damaged := by
  obtain ⟨v, h, hk, h1, -⟩ := toDataset_ok exState exState_writable
  have hc : "c" ∈ Dict.keys v := by
    rw [hk]
    exact .tail _ (.tail _ (.head _))
  obtain ⟨x, hx, e⟩ := List.mem_map.1 hc
  obtain ⟨q, hq, hw, -⟩ := h1 x hx
  refine (C50_not_atomic exCodec exState _ h (by simp [exState]) "f" _).2 x .valueError hx ?_
  unfold exCodec
  rw [if_pos ?_]
  rw [hw]
  rw [e] at hq
  simp only [exState, List.mem_cons, Prod.mk.injEq, List.not_mem_nil, or_false] at hq
  rcases hq with ⟨h, -⟩ | ⟨h, -⟩ | ⟨-, rfl⟩
  · exact absurd h (by decide)
  · exact absurd h (by decide)
  · rfl

/-- Where the process can be killed while the state is written to a new file: there is no file, a damaged file, or the
complete one. -/
example : (writeSteps .ok exState "f" []).1.map (fun fs => (fs.map Prod.fst, (Dict.get? fs "f").map fun
    | .whole d => Dict.keys d.vars
    | .damaged => ["?"])) = [([], none), (["f"], some ["?"]), (["f"], some ["T", "p", "c"])] := by decide +kernel

example : ∀ fs' ∈ (writeSteps exCodec exState "f" [("g", .whole ⟨[], some (.time 4)⟩)]).1,
    Dict.get? fs' "g" = some (.whole ⟨[], some (.time 4)⟩) := fun fs' h =>
  ((C50_crash exCodec exState "f" _ fs' h).1 "g" (by decide)).trans rfl

/-- A file format that keeps multiples of ten. -/
example : ∃ s', readState "f" (writeState (fun a => .ok { a with data := ⟨a.data.shape, fun i => a.data.get i / 10 * 10⟩ })
    exState "f" []).1 = .ok s' ∧ Dict.keys s'.vars = Dict.keys exState.vars := by
  obtain ⟨fs', h1, -, s', h2, -, h3, -⟩ := C50_stored _ exState exState_writable (fun _ z => z / 10 * 10)
    (fun _ _ _ _ _ => rfl) _ rfl "f" []
  exact ⟨s', by rw [h1]; exact h2, h3⟩

end FV3.StateFile
