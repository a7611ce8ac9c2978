# Formal model of fv3gfs-util in Lean 4

Source: `/repo` (fv3gfs-util 0.6.0, pinned commit), Python. Model and proofs:
`/verif/lean/Verif`. Build: `cd /verif/lean && lake build`.

## Layout of the development

* `Verif/Model/*.lean` - the model: total functions mirroring the Python, branch by
  branch, exceptions as values (`Except PyErr`). Each definition cites the file and lines
  it models; library behaviour (numpy, CPython, MPI, zarr) is defined there too and cites
  the place where the code relies on it.
* `Verif/Spec/*.lean` - small independent specifications: the geometry of a cube
  (`Cube`), what a halo update should deliver (`Halo`, `HaloResult`), what "owns a point"
  means (`Partition`), completed executions (`Net`, `ZarrWorld`), history summaries
  (`Timer`), the contents of a recording (`Zarr`), ... The theorem statements
  use these, not the helpers of the proofs.
* `Verif/Proofs/*.lean` - helper lemmas.
* `Verif/Props/*.lean` - the property theorems `Cnn_...`, each with `example`s
  showing a concrete non-trivial instance of its hypotheses.
* `Verif/Cases/*.lean` - more such `example`s: each applies a theorem to concrete arguments
  and shows all of its hypotheses.

## Trusted base

* Lean 4.33.0's kernel; axioms at most `propext`, `Classical.choice`, `Quot.sound`
  (listing at the end). No `sorry`, no own axioms, no `native_decide`/`bv_decide`.
  `decide +kernel` is used for closed, finite evaluations (concrete instances,
  counterexamples, the shipped restart table, the 48 small layouts of C05).
* The reading of the Python: the model is hand-written from the source text, nothing
  was executed.
* Behaviour of third-party code, taken from its documentation or source:
  * numpy basic indexing, slice assignment, `rot90`, `flip`, `transpose`, `arange`,
    `where`, broadcasting in assignments and arithmetic (C63).
  * CPython `slice` resolution, dict order, floor division, `str.split`, `str.strip`,
    `int()` of ASCII digits.
  * IEEE-754 double rounding (only for `1/layout * extent`, C05).
  * MPI: reliable, non-overtaking channels keyed by (source, destination, tag); a send
    completes when received or, at MPI's choice, earlier (`Buffering` is universally
    quantified); collectives are point-to-point messages with the root (`bcast`, `Scatter`,
    `Gather`), `barrier` waits for all. Every interleaving of the ranks is considered.
  * zarr: an array is metadata (shape, chunk shape, attributes) and a map from chunk index
    to contents; a store into a region reads and rewrites each chunk it intersects, as
    separate steps that can be interleaved with other ranks.
  * POSIX descriptors: `dup`, `dup2`, temporary files (C47). xarray `isel`, `rename`,
    `Dataset` conflicts and coordinates (C42, C50). netCDF is assumed to store a
    dataset faithfully (explicit hypothesis of C50).

## General modelling decisions

* Python ints are `Int`/`Nat` (numpy int64 overflow not modelled).
* Arrays are `NDArray`: a shape and a total function from index lists to values; only
  in-bounds indices are meaningful. Values are of an arbitrary type (with negation
  where vectors are rotated, a field in C46); rounding of field data is modelled only for nudging (C46).
  That memory layout (strides, contiguous copies, flat messages) does not matter is C56,
  where arrays are views of memory.
* Dimension names are an inductive type with one constructor per reserved name and
  `other s` for any other string.
* Objects whose identity matters are addressed explicitly: quantities by handle
  (communicator), boundary objects (C11), buffers (C35/C36), queue entries (C48).

## What is modelled, file by file

| file | modelled | not modelled |
|---|---|---|
| `partitioner.py` | everything except: | `from_namelist` of the partitioners, abstract base class |
| `boundary.py` | everything | logging |
| `_boundary_utils.py` | everything | |
| `rotate.py` | everything | |
| `quantity.py` | everything; memory sharing, storages, `values` in C58; index arrays in C76 | index arrays with several axes, assignment through index arrays; `__repr__`, `data_as_xarray` deprecation warnings |
| `communicator.py` | halo updates, vector halo updates, interface synchronisation (start, wait, blocking), scatter, gather, scatter_state, gather_state, the tile communicators (MPI `Split`; made at first use, C70), the timer (C53), `_Send`/`_Recv` (C56), whole runs (C55, C65) | GPU copies, deprecated `finish_*` |
| `_corners.py` | everything | |
| `zarr_monitor.py` | everything for numpy data | cupy fallback, logging |
| `buffer.py` | everything (the timer calls in C53) | |
| `_timing.py` | everything | |
| `testing/dummy_comm.py` | Send, Isend, Recv, Irecv, bcast, Gather, Scatter, Split | contiguity checks |
| `initialization/*` | everything | gt4py itself, dtypes |
| `_legacy_restart.py`, `_properties.py` | everything, including the whole shipped table | remote file systems |
| `io.py`, `_xarray.py`, `time.py` | everything except: | netCDF encoding; calendar computation of `datetime` |
| `nudging.py` | everything, exact and rounded arithmetic | overflow, NaN |
| `units.py`, `constants.py`, `_exceptions.py` | everything | |
| `_capture_stream.py` | everything | |
| `utils.py` | everything | cupy arrays, gt4py storages |
| `filesystem.py`, `types.py`, `_optional_imports.py`, `testing/gt4py_*.py` | - | all (thin wrappers over libraries) |

## Disagreements between the code and what a user would expect

Found while proving; each is a theorem unless marked (reading).

1. `rank_extent_from_tile_metadata` computes `int(1/n * extent)` in doubles: wrong for layout 49
   (C05_refuted).
2. `view[1:-1]` selects the wrong points when the origin is not zero (C29_idiom_iff, C29_negative_halo).
3. `Boundary.rotate` corrupts the data for one and does nothing for three rotations (C34).
4. A halo update with `n_points > extent - overlap` silently sends halo points
   (C12_send_may_leave_compute_domain).
5. `synchronize_vector_interfaces` reverses the wrong axis unless the horizontal axes come first
   (C20_axis_order_refuted).
6. `OutOfBoundsError` can be raised after some sends have been posted (C18; those sends
   are never received, nor mistaken for others: C66). If a call is rejected on one rank only, its
   neighbours can block for ever (C66_limit_some_ranks).
7. When the root raises in `scatter`, the other ranks wait for ever (C25_root_error_hangs).
8. `gather_state` matches variables by position only (C27_gather_by_position).
9. An exception inside `recv_buffer`/`array_buffer` drops the buffer; a body that receives nothing
   copies stale data (C36_recv_stale).
10. An exception inside `Timer.clock` leaves the timer running (C37_clock_exception).
11. `ZarrMonitor.store`: a mismatch of units, dimensions or calendar is raised on rank 0 only, the others wait
    for ever; the rejected step is stored in part: arrays up to the bad one in alphabetical order are one step
    longer than the rest (C41_rejected); a retry of the failed call stores the data; a first state without
    "time" shifts times against data (C41_limit_*). Variables without horizontal dimensions are written to the same
    chunk by all ranks of a tile; which value is kept depends on the schedule (C40_limit_shared). (Reading: shapes are
    not compared.)
12. In the shipped restart table four restart names are claimed by several standard names, so nine standard
    names are never produced (C42_shipped_shadowed).
13. Nudging a quantity without axes modifies it and then raises AttributeError (C46_scalar_limit).
14. `capture_stream` does not restore the stream when the body raises and leaks a descriptor per block
    (C47_exception, C47_leak).
15. `DummyComm`'s gather buffer is never cleared (C48_gather_stale); receiving from an exhausted queue raises
    IndexError instead of ConcurrencyError.
16. A state file variable named like its only dimension is lost (C50_coordinate_lost).
17. If a tile's restart files cannot be loaded, its root raises in `open_restart` and the other ranks of the
    tile wait for ever (C52_load_failure).
18. One OutOfBoundsError in a halo update leaves the communicator's own timer running, so that every later
    halo update of that communicator raises ValueError (C53_failure_is_final).
19. Requests waited for in different orders by different ranks deadlock when sends are not buffered
    (C23_limit_rendezvous); waiting twice for a request blocks for ever (C23_limit_wait_twice).
20. Halo updates started in different orders by different ranks exchange the data of different quantities
    without an error (C23_limit_start_order).
21. While an interface synchronisation and a vector halo update of the same winds are outstanding, the halos
    depend on when MPI reads the arrays it is given (C54_limit_race).
22. A `Quantity` can never be constructed from a list or a number: the branch for it reads `self._data` before
    it is set and raises AttributeError (C28_no_lists).
23. `DummyComm.Split` remembers communicators per object, so that with one object per rank every rank becomes
    rank 0 of a communicator of size 1 (C48_split_limit); tags are ignored.
24. `read_state` of a file whose time is an array along the dimension "time" raises nothing and returns a state
    without time, although the code has a check for it: the variable is a coordinate and the loop does not see
    it (C50_read_without_time).
25. A new `ZarrMonitor` can not append to a store in which its variables exist: with mode "a" or "r+" the first
    `store` raises ValueError on rank 0 and all other ranks wait for ever (C41_existing, C41_resume).
26. A `ZarrMonitor` without `mpi_comm` acts as rank 0 whatever the rank of the process: only rank 0's part of
    the first tile is ever written (C39_default_comm).
27. `Quantity.transpose` gives a quantity that shares memory with the original if it has no gt4py backend, and an
    independent copy if it has one (C58_transpose_shared, C58_transpose_private).
28. Reading the property `values` of a quantity without axes makes the quantity's own data, and the array it was
    made from, read-only for ever: `view[:]` returns the data itself there (C58_limit_values, C58_same_object).
29. The storages of `QuantityFactory.from_backend` always have default origin 0: the factory passes the quantity's
    origin as a keyword, the wrapper passes zeros by position, and the resulting TypeError is taken to mean that the
    argument is not supported (C32_limit_default_origin; gt4py's argument order is from reading).
30. Nudging with the timestep equal to the timescale does not always give the reference: the order of the operations
    (divide by the timescale, then multiply by the timestep) loses a bit for 49 s (C46_rounded_limit).
31. `datetime64_to_datetime` computes with seconds in double precision: from 2106 on (2242 for times in microseconds) results
    can be a microsecond off (C60_limit).
32. Two communicator objects made from one MPI communicator use the same tags: updates outstanding on both at the same
    time exchange the data of different quantities without an error if they are waited for in another order than
    started (C61_limit_outstanding).
33. The only barrier of `ZarrMonitor.store` is inside the writer of `time`, i.e. in the middle of the alphabet, and the array of
    times is lengthened before the values of that step are complete: of a killed run the last two steps can be incomplete
    although the array of times has them (C62_limit).
34. `apply_nudging` accepts a reference of another shape if numpy can broadcast it (C46_reference_shape); `gather` does not
    always reject a receive quantity of the wrong size: it can repeat each rank's point (C26_broadcast_limit).
35. `DummyComm.Recv` into an array without axes raises IndexError and loses the message (C48_delivery).
36. Reading the property `communicator.tile` for the first time is a collective operation: if only the ranks of some tiles do
    it, they wait for ever (C70_limit).
37. Nothing compares the dimension order of a quantity between ranks: if one rank has it in another order, `gather` returns a
    scrambled field without an exception (C71_limit_gather).
38. The example in docs/utilities.rst calls `ZarrMonitor(partitioner, store, ...)` with a `TilePartitioner`: the arguments of
    the constructor are in the other order and it needs a `CubedSpherePartitioner`; the same page exchanges what `read_state`
    and `write_state` do (from reading; not theorems).
39. `DummyComm` ignores tags: two outstanding updates waited for in another order than they were started exchange their
    data without an exception, which MPI does not do (C72_limit_order); a test that overlaps updates can fail, or pass,
    for that reason alone.
40. `DummyComm.Gather` has one slot for each rank and never clears it: `gather_state` with two or more variables, called on
    root after the others, silently has the other ranks' last variable in all of them (C73_gather_state,
    C73_limit_gather_state), and a `gather` on root before the others silently has the values of the round before
    (C73_limit_gather_order).
41. Over `DummyComm` the `tile` communicator of every rank has one rank: its `gather` for a larger layout returns
    uninitialised memory without an exception (C73_limit_tile).
42. Every halo update takes a new MPI tag and tags are never taken again, although all messages of finished updates have
    been received: after `MPI_TAG_UB` updates (MPI guarantees 32767 tags; some libraries have 2^20 or 2^22) every rank
    raises an exception (C74_exhausted). A new communicator object from time to time avoids it (C74_renewed).
43. Views take a mask for the numbers 0 and 1 (C76_mask_limit), a list for a tuple of indices (C76_list_limit), negative
    numbers in an array for halo points (C76_array), and return the last axis with its halo when there is a new axis in
    the index (C76_newaxis_limit), all without an exception; an ellipsis is a TypeError (C76_rejects).
44. `view[mask] = value` assigns to points 0 and 1 of the axis, not where the mask is true (C77_mask_limit);
    `view[None] = x` overwrites halo points (C77_newaxis_limit). Neither raises an exception.
45. `write_state` opens the file, which empties it, before the netCDF layer has accepted the variables: a crash, or a
    variable which cannot be stored, destroys the state that the file held (C50_not_atomic).

## Properties: model and proof

| id | property | model and proof | status | theorems |
|---|---|---|---|---|
| C01 | Ranks are in bijection with (tile, subtile-y, subtile-x) | Model `get_tile_index`, `subtile_index`, `tile_root_rank` over `Int`. Theorem: explicit inverse; div/mod arithmetic. | proved | `C01_rank_bijection`, `C01_tile_root_rank`, `C01_tile_index_errors` |
| C02 | Non-overlapping subtile slices partition the tile | Model `list_by_dims`, `_index_generator`, `subtile_slice` over dimension lists; exists-unique rank per index, by induction on the dimension list + division arithmetic. | proved | `C02_slices_partition` |
| C03 | Overlapping subtile slices cover the tile and share exactly the interface points | Same model, overlap=True. | proved | `C03_overlap_shape_and_cover`, `C03_overlap_sharing` |
| C04 | CubedSphere subtile slices partition the cube | Cube wrapper on top of C02. | proved | `C04_cube_slices_partition`, `C04_cube_slice_error` |
| C05 | Global and subtile extents are inverse | Executable model of IEEE-754 binary64 round-to-nearest-even on naturals (unbounded exponent range). Positive theorem for float-safe layouts and all extents < 2^51; refutation at layout 49 by kernel evaluation. | partial | `C05_subtile_of_global_partial`, `C05_global_of_subtile_partial`, `C05_safe_iff`, `C05_safe_up_to_48`, `C05_refuted`, `C05_safe_powers`, `C05_safe_iff_remainder`, `C05_refuted_powers`, `C05_arithmetic` |
| C06 | Tile boundaries are doubly periodic and reciprocal | Model of `TilePartitioner._*_edge/_corner`; step on (j,i) modulo layout. | proved | `C06_tile_boundary_periodic` |
| C07 | Cube boundaries are closed and absent exactly at tile corners | Model of `CubedSpherePartitioner` edges/corners branch by branch; closed form in (tile,j,i). | proved | `C07_nonsquare_raises`, `C07_cube_boundary_closed` |
| C08 | Cube boundaries are reciprocal with opposite rotation | From the closed form; case analysis over parity and position. | proved | `C08_boundary_reciprocal` |
| C09 | A rank's boundaries lead to pairwise different ranks | From the closed form. | proved | `C09_distinct_neighbours` |
| C10 | Cube boundaries agree with the geometry of a cube | Independent spec: integer cube in Z^3 with six face frames (`Spec/Cube.lean`), folding over an edge. | proved | `C10_cube_geometry` |
| C11 | boundary() is immune to mutation of its results | State machine: heap of boundary objects, memo table, ops call/mutate. Invariant by induction on history. | proved | `C11_memo_transparent`, `C11_objects_private` |
| C12 | Boundary slices stay inside the array and separate halo from compute domain | Model of `get_boundary_slice` over dimension lists. | proved | `C12_slice_or_error`, `C12_recv_outside_disjoint`, `C12_send_inside`, `C12_in_bounds`, `C12_send_may_leave_compute_domain` |
| C13 | Scalar rotation is an action of the rotation group | n-d array model (shape + index function), numpy `rot90`, `flip`, slicing with step -1. | proved | `C13_rotate_turns`, `C13_rotation_action`, `C13_rotation_identity` |
| C14 | Vector rotation is an action of the rotation group on vectors | Same, with values in a type with involutive negation. | proved | `C14_vector_turns`, `C14_vector_action` |
| C15 | Scalar halo update fills halos with the geometric neighbours | Whole pipeline: boundaries, slices, rotation, message passing, unpack. Theorem against the cube geometry spec, for every schedule and buffering; bulk step (all ranks at once) + schedule independence. | proved | `C15_halo_update`, `C15_halo_update_field` |
| C16 | Halo update changes nothing else | Frame theorem of the same pipeline. | proved | `C16_only_halo_changed` |
| C17 | Halo updates are layout independent and idempotent | Layout independence: corollaries of C15 and C19. Repetition: what an update sends is not changed by it (C24), and storing the same arrays twice is storing them once (deliver_both). | proved | `C17_idempotent`, `C17_layout_independent`, `C17_repeat`, `C17_vector_layout_independent` |
| C18 | Halo update argument errors | Error branches of `start_halo_update` in the model; also as executions of all ranks. | proved | `C18_zero_points`, `C18_out_of_bounds`, `C18_out_of_bounds_vector`, `C18_out_of_bounds_net` |
| C19 | Vector halo update fills halos with unfolded vector components | As C15 with 3-d vectors and unfolded components. | proved | `C19_vector_halo_update`, `C19_vector_halo_update_field` |
| C20 | synchronize_vector_interfaces makes shared edges agree | Model of `_Isend/_Irecv_vector_shared_boundary`; theorem when x/y is the leading remaining axis; refutation for z-first order. | proved | `C20_synchronize`, `C20_not_cgrid`, `C20_axis_order_refuted` |
| C21 | Message passing outcome is schedule independent | Process calculus (send / recv / send-completion) with FIFO channels; diamond property. | proved | `C21_schedule_independent`, `C21_unique_outcome`, `C21_no_deadlock` |
| C22 | Blocking halo updates never deadlock | One explicit complete schedule for any SPMD sequence + C21, for every buffering. | proved | `C22_blocking_calls`, `C22_same_order` |
| C23 | Outstanding halo updates do not mix | As C22 with per-rank wait orders, eager mode. | proved | `C23_outstanding`, `C23_as_alone`, `C23_halos`, `C23_limit_rendezvous`, `C23_limit_only_buffering`, `C23_limit_wait_twice`, `C23_limit_start_order` |
| C24 | Zero-copy sends are safe | Arrays that would be packed after any of the update's own receives have been stored equal those packed at the start; from the disjointness of C12. | proved | `C24_sends_unchanged`, `C24_across_updates` |
| C25 | Scatter delivers each rank its subtile | scatter as process program of each rank; every schedule and buffering completes with the stated quantities; data via C03. | proved | `C25_scatter`, `C25_root_needs_quantity`, `C25_root_error_hangs` |
| C26 | Gather inverts scatter | gather as process program; highest owning rank wins; composition with C25. | proved | `C26_gather`, `C26_round_trip`, `C26_broadcast_limit` |
| C27 | State scatter and gather act variable by variable | Program over association-list states; induction on names. | proved | `C27_scatter_state`, `C27_root_needs_state`, `C27_gather_state`, `C27_round_trip`, `C27_gather_by_position` |
| C28 | Quantity metadata is consistent | Constructor model with validation, for arrays and integers (Model/Quantity) and for any arguments (Model/QuantityInit). | proved | `C28_metadata`, `C28_array`, `C28_items`, `C28_errors`, `C28_default_extent`, `C28_no_lists` |
| C29 | view indexing is relative to the compute domain | Python slice resolution + `shift_slice`; negative slice ends reduced to non-negative ones; `view[1:-1]` characterised exactly. | proved | `C29_view_reads_compute_domain`, `C29_view_all`, `C29_view_writes_compute_domain`, `C29_negative_reads`, `C29_negative_writes`, `C29_idiom_iff`, `C29_negative_halo`, `C29_limits`, `C29_scalar` |
| C30 | Corner and interior views are relative to their corner | Same for `BoundaryArrayView`. | proved | `C30_corner_reads`, `C30_corner_writes`, `C30_corner_box`, `C30_corner_element` |
| C31 | transpose permutes names, origin, extent and data together | transpose on n-d arrays; `_collapse_dims` error branches. | proved | `C31_transpose_defined`, `C31_transpose_by_name`, `C31_transpose_back` |
| C32 | QuantityFactory arrays leave room for halos | Sizer model; combined with C12 and C03. | proved | `C32_allocate`, `C32_one_shape`, `C32_unknown_dim`, `C32_from_tile_params`, `C32_from_namelist`, `C32_extents`, `C32_halo_ready`, `C32_halo_update`, `Mem.C32_backend`, `Mem.C32_limit_default_origin` |
| C33 | Corner filling continues stencils across the third edge | Model of the eight assignments; geometry via Spec/Cube. | proved | `C33_fill`, `C33_continues`, `C33_continues_field`, `C33_errors` |
| C34 | Boundary.rotate rotates vectors in place | Model with in-place aliasing; refutation + what does hold (0 and 2 rotations). | partial | `C34_rotate_refuted`, `C34_rotate_partial`, `C34_rotate_odd` |
| C35 | Buffer cache never hands one buffer to two users | State machine over histories; invariant. | proved | `Buf.C35_exclusive`, `Buf.C35_exit_succeeds` |
| C36 | send_buffer and recv_buffer are transparent | Model of contexts around a communication action. | proved | `Buf.C36_send`, `Buf.C36_recv`, `Buf.C36_recv_contiguous`, `Buf.C36_untouched`, `Buf.C36_recv_stale` |
| C37 | Timer accounting | State machine with explicit clock readings; refinement to a history summary. | proved | `C37_accounting`, `C37_outcomes`, `C37_programs`, `C37_clock`, `C37_clock_exception` |
| C38 | NullTimer records nothing | Same machine with overridden methods. | proved | `C38_null_timer` |
| C39 | ZarrMonitor stores the global state of every step | Each rank is a program over metadata reads/writes, chunk reads/writes and collectives; ranks interleave arbitrarily. Proof: per-rank run relation with signals at collectives, an ownership map of chunks and metadata, a single-order completion lemma and commutation. For the default communicator the same run relation determines the sequential execution of rank 0. | proved | `Zarr.C39_recording`, `Zarr.C39_every_rank`, `Zarr.C39_default_comm` |
| C40 | Ranks never write to the same zarr chunk | The accesses of an interleaved execution are collected; every chunk that is accessed has one owner, computed from the chunk index. | proved | `Zarr.C40_chunks_disjoint`, `Zarr.C40_limit_shared` |
| C41 | ZarrMonitor rejects inconsistent states | Same world as C39: names check for any reachable monitor; attribute check of a writer; the whole run of k good steps and one bad state (also with states of other names mixed in and caught, and on stores with earlier contents; rank 0 runs to the exception, each other rank to a collective that rank 0 never calls; a general theorem turns this into the fate of every schedule); the limits as concrete executions, or for every continuation (others wait). | proved | `Zarr.C41_names`, `Zarr.C41_attrs`, `Zarr.C41_rejected`, `Zarr.C41_skipped`, `Zarr.C41_existing`, `Zarr.C41_resume`, `Zarr.C41_limit_retry`, `Zarr.C41_limit_others_wait`, `Zarr.C41_limit_first_without_time` |
| C42 | Restart variables keep their identity | Association-list models; table collisions by kernel evaluation over the whole shipped table. | proved | `Restart.C42_builtin_overrides`, `Restart.C42_names`, `Restart.C42_standard_name`, `Restart.C42_load`, `Restart.C42_no_time`, `Restart.C42_shipped_dims`, `Restart.C42_shipped_shadowed`, `Restart.C42_shadowed_lost` |
| C43 | Restart file names identify tile and rank | String model of suffix (decimal digits), injectivity. | proved | `Restart.C43_suffix_text`, `Restart.C43_suffix_injective`, `Restart.C43_suffix_defined`, `Restart.C43_filenames`, `Restart.C43_filenames_distinct`, `Restart.C43_filename`, `Restart.C43_coupler_filename` |
| C44 | coupler.res parsing inverts its format | Character-list tokeniser; print/parse. | proved | `Coupler.C44_parse`, `Coupler.C44_calendars`, `Coupler.C44_unknown_calendar`, `Coupler.C44_too_short`, `Coupler.C44_not_integer`, `Coupler.C44_no_calendar`, `Coupler.C44_bad_calendar` |
| C45 | Units comparison is an equivalence insensitive to surrounding whitespace | Character-list strip. | proved | `Units.C45_equal_iff`, `Units.C45_equivalence`, `Units.C45_blanks`, `Units.C45_distinct`, `Units.C45_ensure`, `Units.C45_whitespace` |
| C46 | Nudging relaxes towards the reference | The functions are modelled for any number type. Statements about values: for an ordered field (exact), and for numbers whose operations round to nearest in any format (Model/NudgingRounded, Spec/Rounding), from monotonicity and exactness on the format; the error bound from the relative error of doubles. No overflow, NaN. | proved | `Nudge.C46_nudge`, `Nudge.C46_missing`, `Nudge.C46_missing_key`, `Nudge.C46_reaches`, `Nudge.C46_between`, `Nudge.C46_contracts`, `Nudge.C46_scalar_limit`, `Nudge.C46_rounded_fixed`, `Nudge.C46_rounded_zero`, `Nudge.C46_rounded_towards`, `Nudge.C46_rounded_monotone`, `Nudge.C46_rounded_error`, `Nudge.C46_double_error`, `Nudge.C46_rounded_limit`, `Nudge.C46_broadcast`, `Nudge.C46_reference_shape` |
| C47 | capture_stream restores the stream | File-descriptor-table machine. | proved | `Capture.C47_capture`, `Capture.C47_exception`, `Capture.C47_leak` |
| C48 | DummyComm delivers point-to-point messages in order | Buffer-dictionary machine for messages; call-count machine for bcast and Scatter; slots for Gather; per-object lists for Split. | proved | `Dummy.C48_delivery`, `Dummy.C48_bcast`, `Dummy.C48_scatter`, `Dummy.C48_gather`, `Dummy.C48_gather_stale`, `Dummy.C48_split_limit`, `Dummy.C48_split_one_object`, `Dummy.C48_split_sizes` |
| C49 | Subtile rank transforms are permutations | np.where/arange/reshape model on the n-d array type. | proved | `C49_transforms_positions`, `C49_transforms_permute`, `C49_errors` |
| C50 | State files round-trip | to_dataset / from_data_array / read_state model over a file dictionary; netCDF encoding assumed faithful (hypothesis). The contents of the files while write_state runs, as a list, for crash points; the netCDF layer may also raise. | proved | `StateFile.C50_roundtrip`, `StateFile.C50_stored`, `StateFile.C50_no_time`, `StateFile.C50_error_files`, `StateFile.C50_crash`, `StateFile.C50_not_atomic`, `StateFile.C50_coordinate_lost`, `StateFile.C50_read_time`, `StateFile.C50_read_without_time`, `StateFile.C50_missing_file` |
| C51 | The tile communicator is the ranks of the tile | Split modelled from colours and keys; the six tile networks are embedded in the cube's network, steps of the whole correspond to steps of the parts. | proved | `C51_tile_communicator`, `C51_tiles_independent` |
| C52 | open_restart gives every rank its part of its tile's files | open_restart modelled on top of scatter_state and the loader (C42); loaded state by induction over the files; scatter by C27 on each tile and C51. | proved | `Restart.C52_loaded`, `Restart.C52_open_restart`, `Restart.C52_load_failure` |
| C53 | Halo updates account their work in the communicator's timer | The methods as programs over the timer of C37 (Model/CommTimer); hits by composition of the blocks, the limit by an invariant: a running pack or unpack clock stays running. | proved | `C53_halo_update`, `C53_vector_halo_update`, `C53_failure_is_final`, `C53_zero`, `C53_synchronize`, `C53_synchronize_after_failure` |
| C54 | Zero-copy sends do not change the outcome | A second network (Model/LateSend) in which a message is a function of the sender's memory, evaluated when the network chooses; simulation by the network of C22/C23 as long as the views sent keep their content, which is an invariant of the communicator's programs (from C24). | proved | `Late.C54_blocking_calls`, `Late.C54_same_order`, `Late.C54_outstanding`, `Late.C54_limit_race` |
| C55 | A whole model run gives the same global field on every layout | The program scatter; calls; gather of all ranks (Model/Driver) as a sequence of three phases: a network that completes its first phase from any state without messages of that phase, and leaves none, completes the sequence (Proofs/Phases). Induction over the time steps with the invariant that the compute domains are a sample of one field. | proved | `C55_model_run`, `C55_halo_of_global`, `C55_time_steps`, `C55_same_on_every_layout` |
| C56 | Messages carry the elements of an array in order, whatever its memory layout | numpy arrays as views of memory (offset, shape, strides), numpy's algorithm for the C_CONTIGUOUS flag, MPI reading and writing consecutive cells (Model/Strided). Induction over the shape: the addresses of the indices in row-major order are a range. | proved | `Strided.C56_contiguous_iff`, `Strided.C56_send`, `Strided.C56_recv`, `Strided.C56_recv_too_long`, `Strided.C56_transfer`, `Strided.C56_views`, `Strided.C56_view_values`, `Strided.C56_scatter_pieces`, `Strided.C56_limit_fortran` |
| C57 | Collectives and halo updates can be mixed in any order on one communicator | A program of the rank is a list of calls on its memory, root's global quantities and the two counters of the communicator (halo tags, collectives) (Model/Session). The specification performs the calls one after the other (Spec/Session). Induction over the calls: tags used by a call are in a range of their own, so the network is clean on the tags of the rest. For updates started and waited for separately (Model/AsyncSession, Spec/AsyncSession) the messages in flight are those of the history of starts and waits without the collectives, which are replaced by computations with the same effect (Proofs/AsyncRun, AsyncPhase); C22 then gives the run of each next call. | proved | `C57_session`, `C57_checkpoint`, `C57_checkpoint_cells`, `C57_async`, `C57_outstanding`, `C57_outstanding_halo`, `C57_outstanding_vector`, `C57_outstanding_sync` |
| C58 | The data, view and storage of a Quantity are one array; who shares memory with whom | Model/Memory has quantities as objects that refer to array objects in one memory, with strided views (Model/Strided); a program is a list of operations. The specification (Spec/Memory) has blocks, which are arrays as values, and windows on them. A simulation relation, kept by every operation, gives refinement for all programs (Proofs/Memory); frame and sharing facts are invariants of runs of the specification (Proofs/MemorySpec) and are transferred. | proved | `Mem.C58_refines`, `Mem.C58_one_array`, `Mem.C58_write`, `Mem.C58_read_only`, `Mem.C58_private`, `Mem.C58_shared`, `Mem.C58_same_object`, `Mem.C58_transpose_shared`, `Mem.C58_transpose_private`, `Mem.C58_values`, `Mem.C58_limit_values`, `Mem.C58_frame`, `Mem.C58_frame_new` |
| C59 | Halo updates do not depend on the order of the axes | Spec/Reorder says what it means that two quantities hold the same field name by name. A scalar or vector field in another order is one again; the value a halo point gets (halo_step_value, vector_step_value) is the same source point, compared by names. For transpose itself, C31 gives Reordered. | proved | `C59_halo_axis_order`, `C59_halo_transpose`, `C59_vector_axis_order` |
| C60 | datetime64_to_datetime is exact to the microsecond | Model/Datetime64 follows the computation step by step with a parameter for the rounding of doubles: conversion of the ticks, division, splitting off of the fraction, product with a million, rounding half to even, carry. The proofs bound the error of each step by half a unit in the last place and show that the sum stays below half a microsecond up to 2^32 s (2^33 s for coarser ticks); the limits are computed for every rounding to nearest. | proved | `Time64.C60_exact`, `Time64.C60_close`, `Time64.C60_monotone`, `Time64.C60_seconds`, `Time64.C60_nat`, `Time64.C60_limit` |
| C61 | Several communicator objects can share an MPI communicator | Model/ManyComm gives a rank a tag counter per communicator object and lets each call run with the counter of its object, on one network. The phases of C57 do not compose by tags any more. Proofs/Shift shows instead that a program which waits for all its sends behaves on a network where all earlier messages have been received as on an empty one: a relation between programs whose send handles differ by an offset, a simulation of networks, and the invariant that every send has been waited for (so received, in an execution without buffering) at the end. The limit is a concrete execution on six ranks. | proved | `C61_several`, `C61_nothing_left`, `C61_limit_outstanding` |
| C62 | A killed recording is complete up to its last two steps | The world of C39 in any reachable state (Spec/ZarrCrash). The runs of single ranks (Proofs/ZarrRun) carry an invariant of the local store and of the collectives still to come; for a recording it says which (step, variable) slots are complete and that the array of times is not longer than the slots begun. A barrier that rank 0 has left has been called by all ranks (Gated); counting collectives then bounds how far behind every other rank can be. | proved | `Zarr.C62_crash`, `Zarr.C62_limit` |
| C63 | Assignments through views broadcast, and reading gives back what was assigned | numpy broadcasting in Model/NDArray (setItem), used by all assignments of the model; Spec/Broadcast states the rule of the documentation, axis by axis from the last one. The element shown at a place of the view is the one that the assignment stores there, because the slots of a resolved index are injective (unview). | proved | `C63_view`, `C63_corner` |
| C64 | Whole states can be checkpointed between any other calls | Model/StateSession adds the two calls to the sessions of C57; the dictionaries are built from numbered quantities before a call and taken apart after it (numbered states for the entry time). The number of messages of scatter_state depends on data, so its tags are taken from the plan of C27 (Proofs/PlanPhase: a plan also runs on a network that is clean on its tags, and leaves the others alone). | proved | `C64_states`, `C64_checkpoint`, `C64_checkpoint_cells` |
| C65 | Model codes with winds compute the same on every layout | A field is a function of the point of the cube's surface, the other indices and (for winds) the direction. The levels say at which points of a rank's arrays the values of the field are: nothing, all of the compute domain but the edges which the synchronisation receives, the compute domain, the halo. Each call raises the level of its field (from C18, C19 and C20); the run itself is C64. Props/FieldModelExample is a case with a scalar, winds, both kinds of halo updates and a synchronisation, with an explicit result. | proved | `C65_model_run`, `C65_same_on_every_layout` |
| C66 | Rejected halo updates harm nothing | Model/Guarded adds try statements to the sessions of C64: what a call had done when it raised stays done. A call does the same with every value of the tag counter (Proofs/TagShift: simulation of networks with shifted tags), a rejected call only sends (C18), with tags which are not used again; so each statement is a phase on a network that is clean for its tags. | proved | `C66_guarded`, `C66_as_if_absent`, `C66_limit_some_ranks` |
| C67 | Tile communicators and the cubed-sphere communicator can be used together | Model/TileSession: calls of the tile communicators are the programs of C25-C27 of a tile, moved to the ranks of the tile and with tags of their own context (Tag.tile t n). Proofs/CollOps runs one collective of any communicator as a plan (Proofs/PlanPhase); Proofs/TilePhase moves plans from the ranks 0, 1, ... of a tile communicator to the ranks of the tile and merges the plans of the six tiles into one (they have no ranks and no tags in common); Proofs/TileSession is the induction over the calls. C67_gather compares place of the two communicators. | proved | `C67_tiles`, `C67_checkpoint`, `C67_checkpoint_cells`, `C67_gather` |
| C68 | Quantities and xarray data arrays convert into each other | Model/DataArray. The constructor is that of C28, reading the view is C29 (any number of axes). | proved | `C68_units_required`, `C68_from_data_array`, `C68_data_array`, `C68_round_trip` |
| C69 | Restart files, gathered quantities and recordings fit together | Composition: gather, zarr and open_restart are all described with Comm.place and the highest rank at a point (HighestAt), which is unique; a part of a tile's variable is at the tile's index of the cube (place_of_tile). | proved | `C69_recorded_is_gathered`, `C69_restart_gathered`, `C69_restart_recorded` |
| C70 | Tile communicators are made when they are first used, which all tiles must do together | C67 with communicator.tile as the lazily initialised property it is: the state has the communicator or none, the first use makes the rank take part in Split. A session until the first use runs as in C67 without tile calls; Split is one collective phase (AllDo); afterwards the programs are those of C67. The limit by an invariant of all schedules: nothing is sent on channels on which the waiting ranks receive (Net.Waits), joined with any other schedule by confluence. | proved | `C70_lazy`, `C70_limit` |
| C71 | MPI compares no shapes of messages, and need not | A second model of the communicators (Model/LooseMpi) in which a receive stores the elements of the message in the order of memory, whatever the shape, and leaves the rest of the buffer as it is; a message that is too long is an error. Both models agree where the strict one raises nothing: the programs are compared as trees (Proc.Agree), in which a branch of the strict program may end in an exception; a network whose programs agree with those of a network that completes without exceptions completes with the same results (Net.Completes.agree). The limit by evaluation of one run. | proved | `C71_lazy`, `C71_async`, `C71_full`, `C71_limit_gather`, `C71_in_order`, `C71_too_long` |
| C72 | The test communicator gives what MPI gives | A model of one process making the calls of all ranks (Model/OneProcess): the programs of Model/Communicator, run to their end against the dictionary of DummyComm, in which a receive takes the oldest message from the sender whatever its tag, or raises an exception. Invariant over the calls made: every rank is in the state of its local run, and the queue between two ranks holds what the sender packed for the receiver in the updates it has started and the receiver not yet waited for, in the order of the starts. The two arrays of an update for the same rank are packed and expected in the same order (proved from the three kinds of updates). Comparison with MPI by uniqueness of the consistent outcome (C22). Shapes: numpy assignment broadcasts, which agrees with the strict model where that raises nothing (as in C71). | proved | `C72_dummy`, `C72_rounds`, `C72_halo`, `C72_limit_blocking`, `C72_limit_order` |
| C73 | Collectives over the test communicator | scatter, gather, scatter_state and gather_state of communicator.py over the entries bcast, scatter and gather of the shared dictionary (Model/OneProcessColl, with the functions of Model/DummyComm). A call on root appends values, a call on another rank reads those at its own count (RootDo, CliDo; closed under sequencing), so a round in which root is first leaves all counts equal to the lengths (Settled), which is the hypothesis of the next round. A gather leaves the data of a rank in its slot; root's result is a function of the slots only. | proved | `C73_new`, `C73_scatter`, `C73_scatter_state`, `C73_gather`, `C73_gather_state`, `C73_gather_state_single`, `C73_round_trip`, `C73_limit_gather_order`, `C73_limit_gather_first`, `C73_limit_scatter_order`, `C73_limit_tile`, `C73_limit_gather_state` |
| C74 | Halo updates use up the tags of MPI | MPI_TAG_UB as a transformation of programs (Proc.bounded, Model/TagBound): a send or receive with a larger tag ends the program with the exception. The tags of a session are at most the number it takes (induction over the calls, with the tags of the outstanding requests as invariant), so with enough tags the transformed program is the program. Otherwise the session is cut before the first call that has no tag: the part before ends on all ranks (C57), and the call only sends until it raises. | proved | `C74_enough`, `C74_exhausted`, `C74_full`, `C74_full_exhausted`, `C74_several`, `C74_renewed` |
| C75 | Complete sessions: updates may be outstanding during any other calls | A session is a list of calls of three kinds (update or computation, collective call of the cubed sphere, calls of the tiles, Model/FullSession); every rank keeps its requests by number, one counter for the cube's collectives and one for its tile's, and the tile communicator once it is made. The invariant joins that of C57 (what has been sent and received under halo tags is what the outstanding requests say) with that of C67 (data of all ranks; keys used by collectives): halo tags and collective keys are disjoint, so each step leaves the part of the other untouched (the new frame conjunct of aop_phase, COp.exec_only). Calls are composed with C20's phases, with no barrier between them. | proved | `C75_full`, `C75_outstanding`, `C75_outstanding_halo`, `C75_outstanding_vector`, `C75_outstanding_sync` |
| C76 | Views indexed with arrays of indices, masks, lists, new axes and ellipsis | Model/FancyView has a second, larger type of index entries; numpy indexing is resolved entry by entry, and the result given by its axes and by the place of each element. C76_same ties it to the model of C29/C30. C76_plain: resolving the shifted entries gives the entries resolved on the compute domain, moved by the origin (relation Sh); lengths, axes and the place of the axis of the arrays do not change. The theorems about one array or one new axis compute the resolved list by induction over the axes. | proved | `Fancy.C76_same`, `Fancy.C76_plain`, `Fancy.C76_array`, `Fancy.C76_array_wraps`, `Fancy.C76_array_outside`, `Fancy.C76_array_domain`, `Fancy.C76_mask_limit`, `Fancy.C76_list_limit`, `Fancy.C76_newaxis_limit`, `Fancy.C76_rejects`, `Fancy.C76_corner_array`, `Fancy.C76_corner_outside` |
| C77 | Assignments through views with arrays of indices, masks, lists and new axes | Model/FancyAssign adds assignment to Model/FancyView: for an element of the data, the last position of the axis of the arrays at which it is shown is looked for, and its place on the other axes computed backwards (unplace). unplace_iff: this is the inverse of the place used in reading; unplace_unique: it does not depend on the position. The specification (Stored) speaks about reading only: an element is shown at a place if reading any data of this shape shows it there. C77_array and C77_mask_limit follow with C76. | proved | `Fancy.C77_view`, `Fancy.C77_corner`, `Fancy.C77_same`, `Fancy.C77_same_error`, `Fancy.C77_array`, `Fancy.C77_array_read_back`, `Fancy.C77_corner_array`, `Fancy.C77_mask_limit`, `Fancy.C77_list_limit`, `Fancy.C77_newaxis_limit` |
| C78 | Rejected starts in complete sessions leave no trace | Model/TrySession adds statements `try: start ... except` to Model/FullSession. Proof: the program with rejected starts is the program without them, with other tags (Proofs/Retag: Proc.Mirror), plus sends on tags which no call of the rest of the program uses; the relabelling of the tags is computed from the program (tagMap) and injective. So its runs are those of the other program under the buffering pulled back along the relabelling, and C75 applies. | proved | `C78_try`, `C78_same`, `C78_outstanding_halo` |
| C79 | Buffers are recycled: memory for messages does not grow | Spec/BufferUse counts, over the histories of Model/Buffer, the calls of the allocator, the open contexts that hold a buffer and those left by an exception. Proof: allocated = waiting in the cache + in use + lost is an invariant, and allocating happens only when none is waiting; for programs of nested with blocks the peak is the nesting depth, by induction on the program. | proved | `Buf.C79_allocated`, `Buf.C79_no_exceptions`, `Buf.C79_nesting`, `Buf.C79_one_after_the_other`, `Buf.C79_limit_exceptions` |
| C80 | Halo updates of quantities that share memory | Model/HeapComm is the communicator over the memory of Model/Memory: messages are packed from, and assigned to, strided arrays which variables share. It is related to the communicator over values (Model/Communicator) as follows: an additional quantity holds all of memory, the quantities of the call hold their elements, and after each call a computation brings all quantities up to date with memory; so programs on memory are computations on values, C22 applies, and the two networks take the same steps (Proc.Mirror). Arrays and variables after a statement do not depend on the contents of memory (Proofs/HeapGrow), so that metadata are known in advance, also those of quantities created later. For transposes, the results of C59 on the order of axes. | proved | `Heap.C80_session`, `Heap.C80_calls`, `Heap.C80_halo`, `Heap.C80_others`, `Heap.C80_shared`, `Heap.C80_alias`, `Heap.C80_transpose`, `Heap.C80_one_outcome` |
| C81 | Updates of quantities that share memory, started and waited for separately | Model/HeapAsync adds to Model/HeapComm the calls that start updates and the waits, with a list of requests. Each is related to a call on quantities as values (Proofs/HeapAsync): a start and a wait are each followed by a computation which brings all quantities up to date with memory, so that C57 applies (without its hypothesis on float operations, which only scatter and gather need), and the two networks take the same steps. The requests on both sides hold the same receives, by an invariant over the updates started so far. C81_halo from the geometry of C07-C09. | proved | `Heap.C81_session`, `Heap.C81_outstanding`, `Heap.C81_halo`, `Heap.C81_one_outcome` |
| C82 | Messages in shared memory that MPI reads late | Model/HeapLate is Model/HeapComm on the network of Model/LateSend, whose memory is any type that arrays can be stored in. Read at once, its programs are those of Model/HeapComm (toHM, Proofs/HeapLate), so that C80 gives the result. That a program does not change what it is sending is carried over from the program on values (C54): the two programs take the same steps and send views with the same contents as long as the quantities have the same values (Tr, Tr.safe). Then C54's simulation of late reading by reading at once applies. | proved | `Heap.C82_session`, `Heap.C82_halo` |
| C83 | Outstanding updates of shared memory that MPI reads late | Model/HeapLateAsync is Model/HeapAsync on the network of Model/LateSend. Read at once, its programs are those of Model/HeapAsync, so that C81 gives the result. An invariant over the operations (FineW) says which views are still being sent, by which outstanding update; starts are carried over from the program on values (Tr.sends), a receive changes only its own cells of memory (fill_cells), which leave the sends of its own update alone by C24 and those of the others by the condition of the theorem. C83_domains derives this condition for updates of halos: they send points of compute domains only, and receive outside them. | proved | `Heap.C83_session`, `Heap.C83_outstanding`, `Heap.C83_halo`, `Heap.C83_domains` |
| C84 | Scatter and gather of quantities that share memory | Model/HeapColl is scatter and gather of Model/Collective on the worlds of Model/Memory, with the MPI collectives of Model/Collective. A simulation (RefC) shows that rank by rank the programs on memory communicate as those on values do, reading before they write, and store what those return; so the plan of communications found for C25 and C26 (AllDo) is also carried out by them (AllH), for one call after the other. Stores outside the compute domain do not happen because the values there do not change (only_compute). Shapes and access do not change during a session (Keeps). | proved | `Heap.C84_session`, `Heap.C84_calls`, `Heap.C84_round_trip` |
| C85 | Updates, scatters and gathers of one communicator, on shared memory | Model/HeapMixed runs the calls of Model/HeapComm (C80) and Model/HeapColl (C84) on one communicator: the tag of the updates and the count of the collectives go on from call to call. Each call is a phase of the network (update_phase, collective_phase) after which the states of updates and collectives are again ones from which any further call can start; induction on the list of calls. C85_field puts this together with what scatter and halo update do to a sampled field (C25, C48). C80_one_outcome, C81_one_outcome, C85_one_outcome (Props/HeapOne, Props/HeapMixedOne): the relations which specify the calls determine the memory of all ranks (memory is unchanged outside cells whose values are given), so an outcome allowed by the specification is the one every schedule ends with. | proved | `Heap.C85_session`, `Heap.C85_calls`, `Heap.C85_field`, `Heap.C85_field_back`, `Heap.C85_wind`, `Heap.C85_one_outcome` |
| C86 | scatter_state and gather_state of quantities that share memory | Model/HeapState is scatter_state and gather_state on the memory of Model/HeapColl: the entries of a state are variables. The loops of the root and of the others are shown equal to sequences of scatters and gathers (rootLoop_eq, clientLoop_eq, gatherLoop_root, gatherLoop_client), whose plans are those of C84, between two broadcasts. C86_parts and C86_global follow by induction on the names: a quantity clear of the memory that changes stays the same (OnlyCells.untouched). | proved | `Heap.C86_scatter_state`, `Heap.C86_gather_state`, `Heap.C86_parts`, `Heap.C86_global`, `Heap.C86_round_trip` |
| C87 | Programs with states, updates, scatters and gathers of one communicator, on shared memory | Model/HeapStates puts the calls of C85 and C86 into one program; a rank also has dictionaries, which scatter_state and gather_state change. Each call is a phase whose messages are of no later phase (mixed_phase of C85, seg_phase for the plans of C86); induction over the calls. The fields: scatters_parts of C86 and part_holds, halo updates by induction on the names (halos_run: an update leaves quantities which are apart alone), gathers_global and gathered_holds. Props/HeapWinds: the same for a list of scalar fields and winds (items_run). C87_one_outcome (Props/HeapStatesOne): the specification determines memory and dictionaries. | proved | `Heap.C87_session`, `Heap.C87_fields`, `Heap.C87_fields_back`, `Heap.C87_winds`, `Heap.C87_winds_back`, `Heap.C87_one_outcome` |
| C88 | Scatters and gathers while updates are outstanding, on shared memory | Model/HeapTogether puts the operations of Model/HeapAsync (C81) and the scatters and gathers of Model/HeapColl (C84) into one program; a scatter or gather leaves the tag and the list of requests as they are. A run is a sequence of phases; the invariant (Past) says that the updates so far have been those of a session as in C81, in which a scatter or gather is replaced by a program on each rank that assigns to memory what the collective does (coll_program), so that a wait after it has what C81 gives, and that the channels of the collectives are empty. C88_outstanding and C88_halo from what a wait does (C81) and that variables keep their data objects through all operations (TRun.keeps); C88_one_outcome from op_one and coll_one. C88_meanwhile (Props/HeapMeanwhile): a scatter between start and wait, also into the quantity that is updated. | proved | `Heap.C88_session`, `Heap.C88_calls`, `Heap.C88_outstanding`, `Heap.C88_halo`, `Heap.C88_meanwhile`, `Heap.C88_one_outcome` |

## Axioms of the theorems

From `#print axioms`; every theorem listed in MANIFEST.json.

* propext, Classical.choice, Quot.sound: `Buf.C36_recv`, `Buf.C36_recv_contiguous`, `Buf.C79_allocated`, `Buf.C79_limit_exceptions`, `Buf.C79_nesting`, `Buf.C79_no_exceptions`, `Buf.C79_one_after_the_other`, `C01_rank_bijection`, `C01_tile_index_errors`, `C02_slices_partition`, `C03_overlap_shape_and_cover`, `C03_overlap_sharing`, `C04_cube_slices_partition`, `C05_arithmetic`, `C05_global_of_subtile_partial`, `C05_refuted`, `C05_refuted_powers`, `C05_safe_iff`, `C05_safe_iff_remainder`, `C05_safe_powers`, `C05_subtile_of_global_partial`, `C06_tile_boundary_periodic`, `C07_cube_boundary_closed`, `C08_boundary_reciprocal`, `C09_distinct_neighbours`, `C10_cube_geometry`, `C12_in_bounds`, `C12_recv_outside_disjoint`, `C12_send_inside`, `C12_slice_or_error`, `C13_rotate_turns`, `C13_rotation_action`, `C13_rotation_identity`, `C14_vector_action`, `C14_vector_turns`, `C15_halo_update`, `C15_halo_update_field`, `C16_only_halo_changed`, `C17_idempotent`, `C17_layout_independent`, `C17_repeat`, `C17_vector_layout_independent`, `C18_out_of_bounds`, `C18_out_of_bounds_net`, `C18_out_of_bounds_vector`, `C19_vector_halo_update`, `C19_vector_halo_update_field`, `C20_axis_order_refuted`, `C20_synchronize`, `C22_blocking_calls`, `C22_same_order`, `C23_as_alone`, `C23_halos`, `C23_limit_only_buffering`, `C23_limit_start_order`, `C23_outstanding`, `C24_across_updates`, `C24_sends_unchanged`, `C25_scatter`, `C26_gather`, `C26_round_trip`, `C27_gather_state`, `C27_round_trip`, `C27_scatter_state`, `C28_array`, `C28_default_extent`, `C28_errors`, `C28_items`, `C28_no_lists`, `C29_idiom_iff`, `C29_negative_halo`, `C29_negative_reads`, `C29_negative_writes`, `C29_view_all`, `C29_view_reads_compute_domain`, `C29_view_writes_compute_domain`, `C30_corner_box`, `C30_corner_element`, `C30_corner_reads`, `C30_corner_writes`, `C31_transpose_back`, `C31_transpose_by_name`, `C31_transpose_defined`, `C32_allocate`, `C32_extents`, `C32_from_namelist`, `C32_from_tile_params`, `C32_halo_ready`, `C32_halo_update`, `C32_one_shape`, `C33_continues`, `C33_continues_field`, `C33_fill`, `C34_rotate_odd`, `C34_rotate_partial`, `C37_outcomes`, `C49_errors`, `C49_transforms_permute`, `C49_transforms_positions`, `C51_tile_communicator`, `C51_tiles_independent`, `C53_failure_is_final`, `C53_halo_update`, `C53_synchronize`, `C53_synchronize_after_failure`, `C53_vector_halo_update`, `C55_halo_of_global`, `C55_model_run`, `C55_same_on_every_layout`, `C55_time_steps`, `C57_async`, `C57_checkpoint`, `C57_checkpoint_cells`, `C57_outstanding`, `C57_outstanding_halo`, `C57_outstanding_sync`, `C57_outstanding_vector`, `C57_session`, `C59_halo_axis_order`, `C59_halo_transpose`, `C59_vector_axis_order`, `C61_limit_outstanding`, `C61_nothing_left`, `C61_several`, `C63_corner`, `C63_view`, `C64_checkpoint`, `C64_checkpoint_cells`, `C64_states`, `C65_model_run`, `C65_same_on_every_layout`, `C66_as_if_absent`, `C66_guarded`, `C67_checkpoint`, `C67_checkpoint_cells`, `C67_gather`, `C67_tiles`, `C68_data_array`, `C68_round_trip`, `C69_recorded_is_gathered`, `C69_restart_gathered`, `C69_restart_recorded`, `C70_lazy`, `C70_limit`, `C71_async`, `C71_full`, `C71_in_order`, `C71_lazy`, `C71_limit_gather`, `C71_too_long`, `C72_dummy`, `C72_halo`, `C72_limit_blocking`, `C72_limit_order`, `C72_rounds`, `C73_gather`, `C73_gather_state`, `C73_gather_state_single`, `C73_limit_gather_first`, `C73_limit_gather_order`, `C73_limit_gather_state`, `C73_limit_tile`, `C73_round_trip`, `C73_scatter`, `C73_scatter_state`, `C74_enough`, `C74_exhausted`, `C74_full`, `C74_full_exhausted`, `C74_renewed`, `C74_several`, `C75_full`, `C75_outstanding`, `C75_outstanding_halo`, `C75_outstanding_sync`, `C75_outstanding_vector`, `C78_outstanding_halo`, `C78_same`, `C78_try`, `Capture.C47_leak`, `Coupler.C44_not_integer`, `Coupler.C44_parse`, `Coupler.C44_too_short`, `Coupler.C44_unknown_calendar`, `Dummy.C48_delivery`, `Fancy.C76_array`, `Fancy.C76_array_domain`, `Fancy.C76_array_outside`, `Fancy.C76_array_wraps`, `Fancy.C76_corner_array`, `Fancy.C76_corner_outside`, `Fancy.C76_mask_limit`, `Fancy.C76_newaxis_limit`, `Fancy.C76_plain`, `Fancy.C76_rejects`, `Fancy.C77_array`, `Fancy.C77_array_read_back`, `Fancy.C77_corner`, `Fancy.C77_corner_array`, `Fancy.C77_mask_limit`, `Fancy.C77_newaxis_limit`, `Fancy.C77_view`, `Heap.C80_alias`, `Heap.C80_calls`, `Heap.C80_halo`, `Heap.C80_one_outcome`, `Heap.C80_others`, `Heap.C80_session`, `Heap.C80_shared`, `Heap.C80_transpose`, `Heap.C81_halo`, `Heap.C81_one_outcome`, `Heap.C81_outstanding`, `Heap.C81_session`, `Heap.C82_halo`, `Heap.C82_session`, `Heap.C83_domains`, `Heap.C83_halo`, `Heap.C83_outstanding`, `Heap.C83_session`, `Heap.C84_calls`, `Heap.C84_round_trip`, `Heap.C84_session`, `Heap.C85_calls`, `Heap.C85_field`, `Heap.C85_field_back`, `Heap.C85_one_outcome`, `Heap.C85_session`, `Heap.C85_wind`, `Heap.C86_gather_state`, `Heap.C86_global`, `Heap.C86_parts`, `Heap.C86_round_trip`, `Heap.C86_scatter_state`, `Heap.C87_fields`, `Heap.C87_fields_back`, `Heap.C87_one_outcome`, `Heap.C87_session`, `Heap.C87_winds`, `Heap.C87_winds_back`, `Heap.C88_calls`, `Heap.C88_halo`, `Heap.C88_meanwhile`, `Heap.C88_one_outcome`, `Heap.C88_outstanding`, `Heap.C88_session`, `Late.C54_blocking_calls`, `Late.C54_limit_race`, `Late.C54_outstanding`, `Late.C54_same_order`, `Mem.C32_backend`, `Mem.C58_frame`, `Mem.C58_frame_new`, `Mem.C58_limit_values`, `Mem.C58_one_array`, `Mem.C58_private`, `Mem.C58_refines`, `Mem.C58_same_object`, `Mem.C58_shared`, `Mem.C58_transpose_private`, `Mem.C58_transpose_shared`, `Mem.C58_values`, `Mem.C58_write`, `Nudge.C46_between`, `Nudge.C46_broadcast`, `Nudge.C46_contracts`, `Nudge.C46_double_error`, `Nudge.C46_nudge`, `Nudge.C46_reaches`, `Nudge.C46_reference_shape`, `Nudge.C46_rounded_error`, `Nudge.C46_rounded_fixed`, `Nudge.C46_rounded_limit`, `Nudge.C46_rounded_monotone`, `Nudge.C46_rounded_towards`, `Nudge.C46_rounded_zero`, `Restart.C42_builtin_overrides`, `Restart.C42_load`, `Restart.C42_names`, `Restart.C42_standard_name`, `Restart.C43_coupler_filename`, `Restart.C43_filename`, `Restart.C43_filenames`, `Restart.C43_filenames_distinct`, `Restart.C43_suffix_defined`, `Restart.C43_suffix_injective`, `Restart.C43_suffix_text`, `Restart.C52_load_failure`, `Restart.C52_loaded`, `Restart.C52_open_restart`, `StateFile.C50_coordinate_lost`, `StateFile.C50_roundtrip`, `StateFile.C50_stored`, `Strided.C56_limit_fortran`, `Strided.C56_recv`, `Strided.C56_scatter_pieces`, `Strided.C56_send`, `Strided.C56_transfer`, `Strided.C56_view_values`, `Strided.C56_views`, `Time64.C60_close`, `Time64.C60_exact`, `Time64.C60_limit`, `Time64.C60_monotone`, `Time64.C60_nat`, `Time64.C60_seconds`, `Units.C45_equivalence`, `Units.C45_whitespace`, `Zarr.C39_default_comm`, `Zarr.C39_every_rank`, `Zarr.C39_recording`, `Zarr.C40_chunks_disjoint`, `Zarr.C40_limit_shared`, `Zarr.C41_existing`, `Zarr.C41_limit_first_without_time`, `Zarr.C41_limit_retry`, `Zarr.C41_names`, `Zarr.C41_rejected`, `Zarr.C41_resume`, `Zarr.C41_skipped`, `Zarr.C62_crash`, `Zarr.C62_limit`
* propext, Quot.sound: `Buf.C35_exclusive`, `Buf.C35_exit_succeeds`, `Buf.C36_send`, `C01_tile_root_rank`, `C04_cube_slice_error`, `C05_safe_up_to_48`, `C11_memo_transparent`, `C11_objects_private`, `C20_not_cgrid`, `C21_no_deadlock`, `C21_schedule_independent`, `C21_unique_outcome`, `C23_limit_rendezvous`, `C23_limit_wait_twice`, `C25_root_error_hangs`, `C27_gather_by_position`, `C28_metadata`, `C29_limits`, `C29_scalar`, `C32_unknown_dim`, `C37_accounting`, `C37_clock`, `C37_clock_exception`, `C37_programs`, `C66_limit_some_ranks`, `C68_from_data_array`, `C73_limit_scatter_order`, `Capture.C47_capture`, `Capture.C47_exception`, `Coupler.C44_bad_calendar`, `Dummy.C48_bcast`, `Dummy.C48_gather`, `Dummy.C48_scatter`, `Dummy.C48_split_one_object`, `Dummy.C48_split_sizes`, `Fancy.C76_list_limit`, `Fancy.C76_same`, `Fancy.C77_list_limit`, `Fancy.C77_same`, `Fancy.C77_same_error`, `Mem.C58_read_only`, `Nudge.C46_missing`, `Nudge.C46_missing_key`, `Nudge.C46_scalar_limit`, `Restart.C42_no_time`, `Restart.C42_shadowed_lost`, `StateFile.C50_crash`, `StateFile.C50_error_files`, `StateFile.C50_not_atomic`, `Strided.C56_contiguous_iff`, `Strided.C56_recv_too_long`, `Units.C45_blanks`, `Units.C45_ensure`, `Units.C45_equal_iff`, `Zarr.C41_attrs`, `Zarr.C41_limit_others_wait`
* propext: `Buf.C36_recv_stale`, `Buf.C36_untouched`, `C07_nonsquare_raises`, `C12_send_may_leave_compute_domain`, `C18_zero_points`, `C25_root_needs_quantity`, `C26_broadcast_limit`, `C27_root_needs_state`, `C33_errors`, `C38_null_timer`, `C53_zero`, `C73_new`, `Coupler.C44_calendars`, `Coupler.C44_no_calendar`, `Mem.C32_limit_default_origin`, `Restart.C42_shipped_dims`, `StateFile.C50_missing_file`, `StateFile.C50_no_time`, `StateFile.C50_read_time`, `StateFile.C50_read_without_time`, `Units.C45_distinct`
* none: `C34_rotate_refuted`, `C68_units_required`, `Dummy.C48_gather_stale`, `Dummy.C48_split_limit`, `Restart.C42_shipped_shadowed`
