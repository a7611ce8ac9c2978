import Verif.Props.StateFile

/-!
# C68: quantities and data arrays of xarray
-/

namespace FV3
variable {α : Type}

/-- **C68**: a data array without the attribute "units" is rejected with ValueError, whatever else is given. -/
theorem C68_units_required (a : DataArray α) (origin extent : Option (List Int)) (h : a.units = none) :
    Quantity.fromDataArray a origin extent = .error .valueError := by
  unfold Quantity.fromDataArray
  rw [h]

/-- **C68**: with units, a quantity results exactly if the array has as many dimension names as axes and origin and extent
(if given) have an entry for each; otherwise ValueError is raised.  It has the values, dimensions and units of the array,
and the origin and extent given; by default the compute domain begins at the first points and ends with the array. -/
theorem C68_from_data_array (a : DataArray α) (units : String) (hu : a.units = some units)
    (origin extent : Option (List Int)) :
    (∀ q, Quantity.fromDataArray a origin extent = .ok q →
      q.data = a.data ∧ q.dims = a.dims ∧ q.units = units ∧ q.Lens ∧
      (∀ o, origin = some o → q.origin = o) ∧ (∀ e, extent = some e → q.extent = e) ∧
      (origin = none → ∀ k, k < q.ndim → q.o k = 0) ∧
      (extent = none → ∀ k, k < q.ndim → q.o k + q.e k = q.n k)) ∧
    (∀ e, Quantity.fromDataArray a origin extent = .error e → e = .valueError) ∧
    ((∃ q, Quantity.fromDataArray a origin extent = .ok q) ↔
      a.dims.length = a.data.shape.length ∧
      (∀ o, origin = some o → o.length = a.data.shape.length) ∧
      (∀ e, extent = some e → e.length = a.data.shape.length)) := by
  have h : Quantity.fromDataArray a origin extent = Quantity.mk? a.data a.dims units origin extent := by
    unfold Quantity.fromDataArray
    rw [hu]
  rw [h]
  exact C28_metadata a.data a.dims units origin extent

/-- **C68**: `data_array` is the compute domain: same dimensions and units, one point for each point of the compute domain
and none of the halo. -/
theorem C68_data_array (q : Quantity α) (hq : q.WF) :
    ∃ a, q.dataArray = .ok a ∧ a.dims = q.dims ∧ a.units = some q.units ∧ a.data.shape = q.extent.map Int.toNat ∧
      ∀ idx, q.InCompute idx → a.data.get (relIdx q.origin idx) = q.data.get idx := by
  obtain ⟨a, h1, h2, h3, h4, h5⟩ := StateFile.dataArray_ok q hq
  refine ⟨a, h1, h2, h3, h4, fun idx hi => ?_⟩
  rw [h5 _ (by rw [h4]; exact Nudge.relIn q hq idx hi), Nudge.absRel q hq idx hi]

/-- **C68**: `from_data_array(quantity.data_array)` is the compute domain of the quantity, as a quantity without halo; and
its data array is the same again. -/
theorem C68_round_trip (q : Quantity α) (hq : q.WF) :
    ∃ a q' a', q.dataArray = .ok a ∧ Quantity.fromDataArray a = .ok q' ∧ StateFile.ComputeCopy q q' ∧
      q'.dataArray = .ok a' ∧ a'.dims = a.dims ∧ a'.units = a.units ∧ a'.data.Eqv a.data := by
  obtain ⟨a, h1, h2, h3, h4, h5⟩ := StateFile.dataArray_ok q hq
  obtain ⟨q', e, hc⟩ := StateFile.Stored.copy hq (a := a) ⟨h2, h3, h4, h5⟩
  have F := (C68_from_data_array a q.units h3 none none).1 q' e
  have hnd : q'.ndim = q.ndim := by show q'.dims.length = _; rw [hc.dims]; rfl
  have hwf : q'.WF := by
    refine ⟨hc.lens, fun k hk => ?_⟩
    rw [hnd] at hk
    have h6 : q'.e k = q.e k := by unfold Quantity.e; rw [hc.extent]
    have := hc.shape k hk
    have := (hq.inside k hk).2.1
    have := hc.origin k
    omega
  obtain ⟨a', g1, g2, g3, g4, g5⟩ := StateFile.dataArray_ok q' hwf
  refine ⟨a, q', a', h1, e, hc, g1, by rw [g2, hc.dims, h2], by rw [g3, hc.units, h3], by rw [g4, h4, hc.extent],
    fun idx hi => ?_⟩
  rw [g5 idx hi, F.1]
  congr 1
  have e1 : q'.origin.length = idx.length := by
    rw [hwf.origin, ← hwf.extent, ((inB_iff _ _).1 hi).1, g4, List.length_map]
  refine List.ext_getElem (by simp [absIdx, e1]) fun k k1 k2 => ?_
  have := hc.origin k
  unfold Quantity.o at this
  rw [← getD_lt 0 k1, absIdx, getD_tab _ _ (by omega), this, getD_lt _ k2]
  omega

/-! ### A concrete case -/

/-- A quantity with a halo point around two by two points. -/
def exHalo : Quantity Int := ⟨⟨[4, 4], fun i => i.getD 0 0 * 10 + i.getD 1 0⟩, [.y, .x], "m", [1, 1], [2, 2]⟩

theorem exHalo_wf : exHalo.WF := by
  refine ⟨⟨rfl, rfl, rfl⟩, fun k hk => ?_⟩
  have hk : k < 2 := hk
  have : k = 0 ∨ k = 1 := by omega
  rcases this with rfl | rfl <;> decide

example : ∃ a q' a', exHalo.dataArray = .ok a ∧ Quantity.fromDataArray a = .ok q' ∧ StateFile.ComputeCopy exHalo q' ∧
    q'.dataArray = .ok a' ∧ a'.dims = a.dims ∧ a'.units = a.units ∧ a'.data.Eqv a.data :=
  C68_round_trip exHalo exHalo_wf

/-- With an origin and without an extent. -/
example : ∃ q, Quantity.fromDataArray (⟨exHalo.data, [.y, .x], some "K"⟩ : DataArray Int) (some [1, 2]) = .ok q ∧
    q.extent = [3, 2] ∧ q.units = "K" := ⟨_, rfl, rfl, rfl⟩

end FV3
