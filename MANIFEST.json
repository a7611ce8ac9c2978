{
 "claims": [
  {
   "property": "C01",
   "status": "proved",
   "theorems": [
    "FV3.C01_rank_bijection",
    "FV3.C01_tile_root_rank",
    "FV3.C01_tile_index_errors"
   ],
   "note": ""
  },
  {
   "property": "C02",
   "status": "proved",
   "theorems": [
    "FV3.C02_slices_partition"
   ],
   "note": "dimension lists with one x-type and one y-type axis; float-safe layouts (C05)"
  },
  {
   "property": "C03",
   "status": "proved",
   "theorems": [
    "FV3.C03_overlap_shape_and_cover",
    "FV3.C03_overlap_sharing"
   ],
   "note": ""
  },
  {
   "property": "C04",
   "status": "proved",
   "theorems": [
    "FV3.C04_cube_slices_partition",
    "FV3.C04_cube_slice_error"
   ],
   "note": ""
  },
  {
   "property": "C05",
   "status": "partial",
   "theorems": [
    "FV3.C05_subtile_of_global_partial",
    "FV3.C05_global_of_subtile_partial",
    "FV3.C05_safe_iff",
    "FV3.C05_safe_up_to_48",
    "FV3.C05_refuted",
    "FV3.C05_safe_powers",
    "FV3.C05_safe_iff_remainder",
    "FV3.C05_refuted_powers",
    "FV3.C05_arithmetic"
   ],
   "note": "the full statement is false: C05_refuted (layout 49). Proved for exactly the float-safe layouts (C05_safe_iff, in integers C05_safe_iff_remainder; 2^a m with m \u2264 48 by C05_safe_powers) and extents below 2^51"
  },
  {
   "property": "C06",
   "status": "proved",
   "theorems": [
    "FV3.C06_tile_boundary_periodic"
   ],
   "note": ""
  },
  {
   "property": "C07",
   "status": "proved",
   "theorems": [
    "FV3.C07_nonsquare_raises",
    "FV3.C07_cube_boundary_closed"
   ],
   "note": ""
  },
  {
   "property": "C08",
   "status": "proved",
   "theorems": [
    "FV3.C08_boundary_reciprocal"
   ],
   "note": ""
  },
  {
   "property": "C09",
   "status": "proved",
   "theorems": [
    "FV3.C09_distinct_neighbours"
   ],
   "note": ""
  },
  {
   "property": "C10",
   "status": "proved",
   "theorems": [
    "FV3.C10_cube_geometry"
   ],
   "note": ""
  },
  {
   "property": "C11",
   "status": "proved",
   "theorems": [
    "FV3.C11_memo_transparent",
    "FV3.C11_objects_private"
   ],
   "note": ""
  },
  {
   "property": "C12",
   "status": "proved",
   "theorems": [
    "FV3.C12_slice_or_error",
    "FV3.C12_recv_outside_disjoint",
    "FV3.C12_send_inside",
    "FV3.C12_in_bounds",
    "FV3.C12_send_may_leave_compute_domain"
   ],
   "note": "Slice ranges are the intended ones or OutOfBoundsError; receive regions pairwise disjoint and outside the compute domain; send regions inside it when n <= extent - overlap. The last theorem records that larger n silently sends halo points."
  },
  {
   "property": "C13",
   "status": "proved",
   "theorems": [
    "FV3.C13_rotate_turns",
    "FV3.C13_rotation_action",
    "FV3.C13_rotation_identity"
   ],
   "note": ""
  },
  {
   "property": "C14",
   "status": "proved",
   "theorems": [
    "FV3.C14_vector_turns",
    "FV3.C14_vector_action"
   ],
   "note": "Negation is assumed to be an involution (true of floats)."
  },
  {
   "property": "C15",
   "status": "proved",
   "theorems": [
    "FV3.C15_halo_update",
    "FV3.C15_halo_update_field"
   ],
   "note": ""
  },
  {
   "property": "C16",
   "status": "proved",
   "theorems": [
    "FV3.C16_only_halo_changed"
   ],
   "note": ""
  },
  {
   "property": "C17",
   "status": "proved",
   "theorems": [
    "FV3.C17_idempotent",
    "FV3.C17_layout_independent",
    "FV3.C17_repeat",
    "FV3.C17_vector_layout_independent"
   ],
   "note": ""
  },
  {
   "property": "C18",
   "status": "proved",
   "theorems": [
    "FV3.C18_zero_points",
    "FV3.C18_out_of_bounds",
    "FV3.C18_out_of_bounds_vector",
    "FV3.C18_out_of_bounds_net"
   ],
   "note": "OutOfBoundsError may be raised after some sends have been posted."
  },
  {
   "property": "C19",
   "status": "proved",
   "theorems": [
    "FV3.C19_vector_halo_update",
    "FV3.C19_vector_halo_update_field"
   ],
   "note": ""
  },
  {
   "property": "C20",
   "status": "proved",
   "theorems": [
    "FV3.C20_synchronize",
    "FV3.C20_not_cgrid",
    "FV3.C20_axis_order_refuted"
   ],
   "note": "Proved for quantities whose two horizontal axes come first; for other axis orders the property is false (C20_axis_order_refuted)."
  },
  {
   "property": "C21",
   "status": "proved",
   "theorems": [
    "FV3.C21_schedule_independent",
    "FV3.C21_unique_outcome",
    "FV3.C21_no_deadlock"
   ],
   "note": ""
  },
  {
   "property": "C22",
   "status": "proved",
   "theorems": [
    "FV3.C22_blocking_calls",
    "FV3.C22_same_order"
   ],
   "note": ""
  },
  {
   "property": "C23",
   "status": "proved",
   "theorems": [
    "FV3.C23_outstanding",
    "FV3.C23_as_alone",
    "FV3.C23_halos",
    "FV3.C23_limit_rendezvous",
    "FV3.C23_limit_only_buffering",
    "FV3.C23_limit_wait_twice",
    "FV3.C23_limit_start_order"
   ],
   "note": "Per-rank wait orders need buffered sends: without buffering the ranks can block for ever (C23_limit_rendezvous). Waiting twice for a request blocks (C23_limit_wait_twice); starting in different orders mixes up quantities silently (C23_limit_start_order)."
  },
  {
   "property": "C24",
   "status": "proved",
   "theorems": [
    "FV3.C24_sends_unchanged",
    "FV3.C24_across_updates"
   ],
   "note": "For scalar and vector halo updates and interface synchronisation."
  },
  {
   "property": "C25",
   "status": "proved",
   "theorems": [
    "FV3.C25_scatter",
    "FV3.C25_root_needs_quantity",
    "FV3.C25_root_error_hangs"
   ],
   "note": "Tile and cubed-sphere communicators, all schedules and bufferings of MPI; collectives are modelled as point-to-point messages with root. Quantities have at least one axis besides 'tile'; layouts up to 48 (FloatSafe, see C05). Limit proved: without a quantity on root, TypeError there and the other ranks wait for ever."
  },
  {
   "property": "C26",
   "status": "proved",
   "theorems": [
    "FV3.C26_gather",
    "FV3.C26_round_trip",
    "FV3.C26_broadcast_limit"
   ],
   "note": "One x-type and one y-type axis (otherwise several points of a rank share a place). All schedules and bufferings."
  },
  {
   "property": "C27",
   "status": "proved",
   "theorems": [
    "FV3.C27_scatter_state",
    "FV3.C27_root_needs_state",
    "FV3.C27_gather_state",
    "FV3.C27_round_trip",
    "FV3.C27_gather_by_position"
   ],
   "note": "All schedules and bufferings, any number of variables. gather_state requires the same variables in the same order on all ranks; C27_gather_by_position proves that the code matches them by position only."
  },
  {
   "property": "C28",
   "status": "proved",
   "theorems": [
    "FV3.C28_metadata",
    "FV3.C28_array",
    "FV3.C28_items",
    "FV3.C28_errors",
    "FV3.C28_default_extent",
    "FV3.C28_no_lists"
   ],
   "note": "C28_no_lists: the constructor branch for lists and numbers always raises."
  },
  {
   "property": "C29",
   "status": "proved",
   "theorems": [
    "FV3.C29_view_reads_compute_domain",
    "FV3.C29_view_all",
    "FV3.C29_view_writes_compute_domain",
    "FV3.C29_negative_reads",
    "FV3.C29_negative_writes",
    "FV3.C29_idiom_iff",
    "FV3.C29_negative_halo",
    "FV3.C29_limits",
    "FV3.C29_scalar"
   ],
   "note": "Positive steps. The idiom view[1:-1] holds exactly for zero origin (C29_idiom_iff); C29_negative_halo says what a negative slice end does otherwise; C29_limits: negative steps, indices past the compute domain, too many indices."
  },
  {
   "property": "C30",
   "status": "proved",
   "theorems": [
    "FV3.C30_corner_reads",
    "FV3.C30_corner_writes",
    "FV3.C30_corner_box",
    "FV3.C30_corner_element"
   ],
   "note": ""
  },
  {
   "property": "C31",
   "status": "proved",
   "theorems": [
    "FV3.C31_transpose_defined",
    "FV3.C31_transpose_by_name",
    "FV3.C31_transpose_back"
   ],
   "note": ""
  },
  {
   "property": "C32",
   "status": "proved",
   "theorems": [
    "FV3.C32_allocate",
    "FV3.C32_one_shape",
    "FV3.C32_unknown_dim",
    "FV3.C32_from_tile_params",
    "FV3.C32_from_namelist",
    "FV3.C32_extents",
    "FV3.C32_halo_ready",
    "FV3.C32_halo_update",
    "FV3.Mem.C32_backend",
    "FV3.Mem.C32_limit_default_origin"
   ],
   "note": "numpy, and storages of any gt4py backend (C32_backend). Agreement with the partitioner for float-safe layouts (all up to 48, see C05)."
  },
  {
   "property": "C33",
   "status": "proved",
   "theorems": [
    "FV3.C33_fill",
    "FV3.C33_continues",
    "FV3.C33_continues_field",
    "FV3.C33_errors"
   ],
   "note": "First axis along x, second along y (otherwise ValueError, C33_errors). C33_fill: one rank, any quantity, which points are written and from where, and that nothing else changes; C33_continues: composed with a halo update over all schedules."
  },
  {
   "property": "C34",
   "status": "partial",
   "theorems": [
    "FV3.C34_rotate_refuted",
    "FV3.C34_rotate_partial",
    "FV3.C34_rotate_odd"
   ],
   "note": "The property is false for odd rotation counts (refuted by a concrete witness); proved for even counts; the exact effect for odd counts is given."
  },
  {
   "property": "C35",
   "status": "proved",
   "theorems": [
    "FV3.Buf.C35_exclusive",
    "FV3.Buf.C35_exit_succeeds"
   ],
   "note": ""
  },
  {
   "property": "C36",
   "status": "proved",
   "theorems": [
    "FV3.Buf.C36_send",
    "FV3.Buf.C36_recv",
    "FV3.Buf.C36_recv_contiguous",
    "FV3.Buf.C36_untouched",
    "FV3.Buf.C36_recv_stale"
   ],
   "note": "C36_recv_stale states what happens when nothing is received into the buffer."
  },
  {
   "property": "C37",
   "status": "proved",
   "theorems": [
    "FV3.C37_accounting",
    "FV3.C37_outcomes",
    "FV3.C37_programs",
    "FV3.C37_clock",
    "FV3.C37_clock_exception"
   ],
   "note": "C37_clock_exception: an exception in the body of clock() leaves the timer running."
  },
  {
   "property": "C38",
   "status": "proved",
   "theorems": [
    "FV3.C38_null_timer"
   ],
   "note": ""
  },
  {
   "property": "C39",
   "status": "proved",
   "theorems": [
    "FV3.Zarr.C39_recording",
    "FV3.Zarr.C39_every_rank",
    "FV3.Zarr.C39_default_comm"
   ],
   "note": "Variables with exactly one x-type and one y-type dimension, at least one cell per rank along each axis, layouts for which the float computation of the tile is exact; units and calendar constant during the run. C39_default_comm: what a single process records with the default communicator."
  },
  {
   "property": "C40",
   "status": "proved",
   "theorems": [
    "FV3.Zarr.C40_chunks_disjoint",
    "FV3.Zarr.C40_limit_shared"
   ],
   "note": "Same hypotheses as C39. Without an x- or y-dimension the ranks of a tile do share chunks, and the schedule decides (C40_limit_shared)."
  },
  {
   "property": "C41",
   "status": "proved",
   "theorems": [
    "FV3.Zarr.C41_names",
    "FV3.Zarr.C41_attrs",
    "FV3.Zarr.C41_rejected",
    "FV3.Zarr.C41_skipped",
    "FV3.Zarr.C41_existing",
    "FV3.Zarr.C41_resume",
    "FV3.Zarr.C41_limit_retry",
    "FV3.Zarr.C41_limit_others_wait",
    "FV3.Zarr.C41_limit_first_without_time"
   ],
   "note": "Names are checked on every call (C41_names; C41_skipped: such states, offered in any number on any ranks, leave no trace); an existing store cannot be continued (C41_existing, C41_resume); dimensions and units when the array is extended (C41_attrs). C41_rejected: after any number of good steps, for every schedule, a state with other units, dimensions or calendar makes rank 0 raise ValueError, no stored value changes, and all other ranks wait for ever; it also says exactly which arrays already hold the new step. The refuted parts of the statement are theorems too: a retry stores the values, the other ranks wait forever, a first state without time shifts times."
  },
  {
   "property": "C42",
   "status": "proved",
   "theorems": [
    "FV3.Restart.C42_builtin_overrides",
    "FV3.Restart.C42_names",
    "FV3.Restart.C42_standard_name",
    "FV3.Restart.C42_load",
    "FV3.Restart.C42_no_time",
    "FV3.Restart.C42_shipped_dims",
    "FV3.Restart.C42_shipped_shadowed",
    "FV3.Restart.C42_shadowed_lost"
   ],
   "note": "Proved for tables with distinct restart names. In the shipped table four restart names are claimed by several standard names, so nine standard names are never loaded (C42_shipped_shadowed, C42_shadowed_lost)."
  },
  {
   "property": "C43",
   "status": "proved",
   "theorems": [
    "FV3.Restart.C43_suffix_text",
    "FV3.Restart.C43_suffix_injective",
    "FV3.Restart.C43_suffix_defined",
    "FV3.Restart.C43_filenames",
    "FV3.Restart.C43_filenames_distinct",
    "FV3.Restart.C43_filename",
    "FV3.Restart.C43_coupler_filename"
   ],
   "note": ""
  },
  {
   "property": "C44",
   "status": "proved",
   "theorems": [
    "FV3.Coupler.C44_parse",
    "FV3.Coupler.C44_calendars",
    "FV3.Coupler.C44_unknown_calendar",
    "FV3.Coupler.C44_too_short",
    "FV3.Coupler.C44_not_integer",
    "FV3.Coupler.C44_no_calendar",
    "FV3.Coupler.C44_bad_calendar"
   ],
   "note": ""
  },
  {
   "property": "C45",
   "status": "proved",
   "theorems": [
    "FV3.Units.C45_equal_iff",
    "FV3.Units.C45_equivalence",
    "FV3.Units.C45_blanks",
    "FV3.Units.C45_distinct",
    "FV3.Units.C45_ensure",
    "FV3.Units.C45_whitespace"
   ],
   "note": ""
  },
  {
   "property": "C46",
   "status": "proved",
   "theorems": [
    "FV3.Nudge.C46_nudge",
    "FV3.Nudge.C46_missing",
    "FV3.Nudge.C46_missing_key",
    "FV3.Nudge.C46_reaches",
    "FV3.Nudge.C46_between",
    "FV3.Nudge.C46_contracts",
    "FV3.Nudge.C46_scalar_limit",
    "FV3.Nudge.C46_rounded_fixed",
    "FV3.Nudge.C46_rounded_zero",
    "FV3.Nudge.C46_rounded_towards",
    "FV3.Nudge.C46_rounded_monotone",
    "FV3.Nudge.C46_rounded_error",
    "FV3.Nudge.C46_double_error",
    "FV3.Nudge.C46_rounded_limit",
    "FV3.Nudge.C46_broadcast",
    "FV3.Nudge.C46_reference_shape"
   ],
   "note": "C46_nudge holds for any number type; reaches, between and contracts are for exact arithmetic (a field), the C46_rounded theorems for arithmetic rounded to nearest in any format, without overflow. Quantities without axes are changed and then raise AttributeError (C46_scalar_limit). C46_broadcast: references of other shapes; that others raise ValueError is for a single timescale (C46_reference_shape)."
  },
  {
   "property": "C47",
   "status": "proved",
   "theorems": [
    "FV3.Capture.C47_capture",
    "FV3.Capture.C47_exception",
    "FV3.Capture.C47_leak"
   ],
   "note": "The restoration is false when the body raises (C47_exception); each block leaks one descriptor (C47_leak)."
  },
  {
   "property": "C48",
   "status": "proved",
   "theorems": [
    "FV3.Dummy.C48_delivery",
    "FV3.Dummy.C48_bcast",
    "FV3.Dummy.C48_scatter",
    "FV3.Dummy.C48_gather",
    "FV3.Dummy.C48_gather_stale",
    "FV3.Dummy.C48_split_limit",
    "FV3.Dummy.C48_split_one_object",
    "FV3.Dummy.C48_split_sizes"
   ],
   "note": "C48_gather_stale: the gather buffer is never cleared. C48_split_limit: Split makes every rank the only member of its communicator."
  },
  {
   "property": "C49",
   "status": "proved",
   "theorems": [
    "FV3.C49_transforms_positions",
    "FV3.C49_transforms_permute",
    "FV3.C49_errors"
   ],
   "note": ""
  },
  {
   "property": "C50",
   "status": "proved",
   "theorems": [
    "FV3.StateFile.C50_roundtrip",
    "FV3.StateFile.C50_stored",
    "FV3.StateFile.C50_no_time",
    "FV3.StateFile.C50_error_files",
    "FV3.StateFile.C50_crash",
    "FV3.StateFile.C50_not_atomic",
    "FV3.StateFile.C50_coordinate_lost",
    "FV3.StateFile.C50_read_time",
    "FV3.StateFile.C50_read_without_time",
    "FV3.StateFile.C50_missing_file"
   ],
   "note": "Assumes the netCDF layer stores the arrays of the state faithfully (an explicit hypothesis); a variable with the name of its own dimension is not read back (C50_coordinate_lost). A variable which the netCDF layer cannot store, or a crash, damages the file (C50_not_atomic); what reading a damaged file gives is not modelled."
  },
  {
   "property": "C51",
   "status": "proved",
   "theorems": [
    "FV3.C51_tile_communicator",
    "FV3.C51_tiles_independent"
   ],
   "note": "MPI's Split is modelled (colour, key order). Programs of the model that use only ranks of the tile communicator (a hypothesis, proved for scatter_state in Proofs/CollWithin)."
  },
  {
   "property": "C52",
   "status": "proved",
   "theorems": [
    "FV3.Restart.C52_loaded",
    "FV3.Restart.C52_open_restart",
    "FV3.Restart.C52_load_failure"
   ],
   "note": "Reading a netCDF file is a function from names to variables. Dates and arrays called 'time' are represented by numbers."
  },
  {
   "property": "C53",
   "status": "proved",
   "theorems": [
    "FV3.C53_halo_update",
    "FV3.C53_vector_halo_update",
    "FV3.C53_failure_is_final",
    "FV3.C53_zero",
    "FV3.C53_synchronize",
    "FV3.C53_synchronize_after_failure"
   ],
   "note": "Clock readings are one constant (hits do not depend on them); whether a view is contiguous is a parameter; MPI calls do not raise."
  },
  {
   "property": "C54",
   "status": "proved",
   "theorems": [
    "FV3.Late.C54_blocking_calls",
    "FV3.Late.C54_same_order",
    "FV3.Late.C54_outstanding",
    "FV3.Late.C54_limit_race"
   ],
   "note": "The network reads the view of each send at a time of its own choice between Isend and completion. Programs with several outstanding updates must not themselves change what they are sending (LeavesSends); LeavesSends.of_disjoint and of_halos give simple sufficient conditions; without it the result can depend on the timing (C54_limit_race)."
  },
  {
   "property": "C55",
   "status": "proved",
   "theorems": [
    "FV3.C55_model_run",
    "FV3.C55_halo_of_global",
    "FV3.C55_time_steps",
    "FV3.C55_same_on_every_layout"
   ],
   "note": "The ranks pass quantities with halo as recv_quantity. A computation is an operation on fields (Stencil) if it gives the compute domain of the new field from the compute domain and the halo of the old one; points across the cube corners are not available to it."
  },
  {
   "property": "C56",
   "status": "proved",
   "theorems": [
    "FV3.Strided.C56_contiguous_iff",
    "FV3.Strided.C56_send",
    "FV3.Strided.C56_recv",
    "FV3.Strided.C56_recv_too_long",
    "FV3.Strided.C56_transfer",
    "FV3.Strided.C56_views",
    "FV3.Strided.C56_view_values",
    "FV3.Strided.C56_scatter_pieces",
    "FV3.Strided.C56_limit_fortran"
   ],
   "note": "Addresses count elements, not bytes. numpy's contiguity flags, basic indexing, flip and rot90 are modelled after numpy's implementation; gt4py storages and cupy arrays are not modelled."
  },
  {
   "property": "C57",
   "status": "proved",
   "theorems": [
    "FV3.C57_session",
    "FV3.C57_checkpoint",
    "FV3.C57_checkpoint_cells",
    "FV3.C57_async",
    "FV3.C57_outstanding",
    "FV3.C57_outstanding_halo",
    "FV3.C57_outstanding_vector",
    "FV3.C57_outstanding_sync"
   ],
   "note": "Only root has global quantities; recv_quantity of scatter is given, that of gather is root's global quantity if it has one, else a new one is allocated. For scatter_state and gather_state among the other calls see C64."
  },
  {
   "property": "C58",
   "status": "proved",
   "theorems": [
    "FV3.Mem.C58_refines",
    "FV3.Mem.C58_one_array",
    "FV3.Mem.C58_write",
    "FV3.Mem.C58_read_only",
    "FV3.Mem.C58_private",
    "FV3.Mem.C58_shared",
    "FV3.Mem.C58_same_object",
    "FV3.Mem.C58_transpose_shared",
    "FV3.Mem.C58_transpose_private",
    "FV3.Mem.C58_values",
    "FV3.Mem.C58_limit_values",
    "FV3.Mem.C58_frame",
    "FV3.Mem.C58_frame_new"
   ],
   "note": "gt4py is a parameter: any placement of elements that is injective and inside the memory it takes. Assigned values are broadcast as numpy does it; slices of storages which are storages again are not modelled. Host and device copies of a GPU storage are one memory (managed_memory=True)."
  },
  {
   "property": "C59",
   "status": "proved",
   "theorems": [
    "FV3.C59_halo_axis_order",
    "FV3.C59_halo_transpose",
    "FV3.C59_vector_axis_order"
   ],
   "note": "Dimension names of a quantity must be distinct (as transpose needs). Two quantities are Reordered (Spec/Reorder) if they agree name by name."
  },
  {
   "property": "C60",
   "status": "proved",
   "theorems": [
    "FV3.Time64.C60_exact",
    "FV3.Time64.C60_close",
    "FV3.Time64.C60_monotone",
    "FV3.Time64.C60_seconds",
    "FV3.Time64.C60_nat",
    "FV3.Time64.C60_limit"
   ],
   "note": "For every rounding of reals to nearest doubles. The integer overflow of numpy and the calendar computation of datetime from seconds and microseconds are not modelled. C60_limit: beyond the bounds the result can be a microsecond off."
  },
  {
   "property": "C61",
   "status": "proved",
   "theorems": [
    "FV3.C61_several",
    "FV3.C61_nothing_left",
    "FV3.C61_limit_outstanding"
   ],
   "note": "Blocking calls (halo updates, vector halo updates, synchronisations, scatters, gathers, computations) of any number of communicator objects. C61_limit_outstanding: updates outstanding at the same time on two objects get mixed up."
  },
  {
   "property": "C62",
   "status": "proved",
   "theorems": [
    "FV3.Zarr.C62_crash",
    "FV3.Zarr.C62_limit"
   ],
   "note": "Ranks stop anywhere, each at another point. Writes of single chunks and of metadata are atomic in the model (zarr writes a temporary file and renames it). C62_limit: the last two steps can be incomplete although their times (fill value for the last) are visible."
  },
  {
   "property": "C63",
   "status": "proved",
   "theorems": [
    "FV3.C63_view",
    "FV3.C63_corner"
   ],
   "note": "Values that are arrays or scalars of any shape; quantities with at least one axis (without axes the views raise, C29). Indices with integers and slices of any steps."
  },
  {
   "property": "C64",
   "status": "proved",
   "theorems": [
    "FV3.C64_states",
    "FV3.C64_checkpoint",
    "FV3.C64_checkpoint_cells"
   ],
   "note": "The receive state of scatter_state has all variables (new quantities: C27); that of gather_state those of root's global quantities that exist, the others are allocated. All variables of one call are distinct quantities."
  },
  {
   "property": "C65",
   "status": "proved",
   "theorems": [
    "FV3.C65_model_run",
    "FV3.C65_same_on_every_layout"
   ],
   "note": "Computations are arbitrary functions of a rank's quantities that keep metadata and compute the intended operation on fields from what the levels promise. Halos across the eight corners of the cube hold no value (as in the code). Winds that are synchronised are on a C-grid with the horizontal axes first (see C20)."
  },
  {
   "property": "C66",
   "status": "proved",
   "theorems": [
    "FV3.C66_guarded",
    "FV3.C66_as_if_absent",
    "FV3.C66_limit_some_ranks"
   ],
   "note": "The communicator's timer is disabled, or the exceptions are ValueErrors (an enabled timer keeps a clock running after OutOfBoundsError: C53_failure_is_final). A rejected call is rejected on all ranks; C66_limit_some_ranks: otherwise the neighbours can block."
  },
  {
   "property": "C67",
   "status": "proved",
   "theorems": [
    "FV3.C67_tiles",
    "FV3.C67_checkpoint",
    "FV3.C67_checkpoint_cells",
    "FV3.C67_gather"
   ],
   "note": "The communicators of the tiles exist from the start (their creation at first use: C70; Split itself: C49). All tiles make at most one tile call at a position of the program; None entries give all interleavings, also tiles with programs of different lengths. Messages of a tile communicator are in their own context, as MPI guarantees."
  },
  {
   "property": "C68",
   "status": "proved",
   "theorems": [
    "FV3.C68_units_required",
    "FV3.C68_from_data_array",
    "FV3.C68_data_array",
    "FV3.C68_round_trip"
   ],
   "note": "numpy arrays; attributes other than units and coordinates are not modelled (data_array has none). Sharing of memory: C58 (data_array wraps view[:], from_data_array wraps the values)."
  },
  {
   "property": "C69",
   "status": "proved",
   "theorems": [
    "FV3.C69_recorded_is_gathered",
    "FV3.C69_restart_gathered",
    "FV3.C69_restart_recorded"
   ],
   "note": "Composition of C26, C39 and C52, under their hypotheses. What the files of a tile contain in terms of file contents: C52_loaded."
  },
  {
   "property": "C70",
   "status": "proved",
   "theorems": [
    "FV3.C70_lazy",
    "FV3.C70_limit"
   ],
   "note": "Split is modelled as an exchange of all colours and keys through rank 0, by collectives of the cubed-sphere communicator; the groups, ranks and members are computed from what was received. C70_limit: an unbounded statement about all schedules; after the first use by some tiles only, the other tiles may make halo updates and computations but no collectives (what mismatched collectives do is undefined in MPI). A single access of communicator.tile without a call on it is not a call of the model."
  },
  {
   "property": "C71",
   "status": "proved",
   "theorems": [
    "FV3.C71_lazy",
    "FV3.C71_async",
    "FV3.C71_full",
    "FV3.C71_limit_gather",
    "FV3.C71_in_order",
    "FV3.C71_too_long"
   ],
   "note": "C71_lazy, C71_async and C71_full have the hypotheses and conclusions of C70_lazy, C57_async and C75_full, for every content of the receive buffers. In C71_limit_gather rank 1 alone has its dimensions in another order; a single concrete run is enough there because the limit is an existence statement."
  },
  {
   "property": "C72",
   "status": "proved",
   "theorems": [
    "FV3.C72_dummy",
    "FV3.C72_rounds",
    "FV3.C72_halo",
    "FV3.C72_limit_blocking",
    "FV3.C72_limit_order"
   ],
   "note": "Halo updates, vector halo updates and synchronisations with start and wait as separate calls, and computations. The fin of C72_dummy is the outcome described by Consistent (as in C22, C23): every wait stores what the other ranks packed when they started the update of that number. Collectives over DummyComm: C48. C72_limit_order is one concrete run; the limit is an existence statement."
  },
  {
   "property": "C73",
   "status": "proved",
   "theorems": [
    "FV3.C73_new",
    "FV3.C73_scatter",
    "FV3.C73_scatter_state",
    "FV3.C73_gather",
    "FV3.C73_gather_state",
    "FV3.C73_gather_state_single",
    "FV3.C73_round_trip",
    "FV3.C73_limit_gather_order",
    "FV3.C73_limit_gather_first",
    "FV3.C73_limit_scatter_order",
    "FV3.C73_limit_tile",
    "FV3.C73_limit_gather_state"
   ],
   "note": "C73_gather_state is for states whose variables have the same compute domain; it says which (wrong) values several variables get. C73_limit_gather_state is one concrete run, an existence statement."
  },
  {
   "property": "C74",
   "status": "proved",
   "theorems": [
    "FV3.C74_enough",
    "FV3.C74_exhausted",
    "FV3.C74_full",
    "FV3.C74_full_exhausted",
    "FV3.C74_several",
    "FV3.C74_renewed"
   ],
   "note": "The bound of MPI on tags is a parameter; what happens beyond it is the exception mpi4py raises (an error handler that aborts the program, MPI's default outside mpi4py, ends it as well). C74_enough and C74_exhausted together cover all valid sessions of C57_async, C74_full and C74_full_exhausted those of C75_full."
  },
  {
   "property": "C75",
   "status": "proved",
   "theorems": [
    "FV3.C75_full",
    "FV3.C75_outstanding",
    "FV3.C75_outstanding_halo",
    "FV3.C75_outstanding_vector",
    "FV3.C75_outstanding_sync"
   ],
   "note": "Joins C57 (outstanding updates), C65/C67 (states, tile communicators) and C70 (creation of tile communicators). Valid: waits are for updates started before, each waited for at most once; all tiles take part in the first use of communicator.tile (without this: C70, limit)."
  },
  {
   "property": "C76",
   "status": "proved",
   "theorems": [
    "FV3.Fancy.C76_same",
    "FV3.Fancy.C76_plain",
    "FV3.Fancy.C76_array",
    "FV3.Fancy.C76_array_wraps",
    "FV3.Fancy.C76_array_outside",
    "FV3.Fancy.C76_array_domain",
    "FV3.Fancy.C76_mask_limit",
    "FV3.Fancy.C76_list_limit",
    "FV3.Fancy.C76_newaxis_limit",
    "FV3.Fancy.C76_rejects",
    "FV3.Fancy.C76_corner_array",
    "FV3.Fancy.C76_corner_outside"
   ],
   "note": "getItem is numpy's indexing with integers, slices, new axes, one-dimensional integer arrays (broadcasting of the arrays, place of their axis). C76_array and C76_mask_limit describe the result element by element without it. C76_newaxis_limit is for one new axis and full slices where the wrong cuts fit into the axes."
  },
  {
   "property": "C77",
   "status": "proved",
   "theorems": [
    "FV3.Fancy.C77_view",
    "FV3.Fancy.C77_corner",
    "FV3.Fancy.C77_same",
    "FV3.Fancy.C77_same_error",
    "FV3.Fancy.C77_array",
    "FV3.Fancy.C77_array_read_back",
    "FV3.Fancy.C77_corner_array",
    "FV3.Fancy.C77_mask_limit",
    "FV3.Fancy.C77_list_limit",
    "FV3.Fancy.C77_newaxis_limit"
   ],
   "note": "Assignment is tied to reading: C77_view is about any index that can be read, and C76 says what is read. That of repeated indices the last value stays is numpy's rule. C77_newaxis_limit is for one new axis and full slices where the wrong cuts fit into the axes, and a scalar value."
  },
  {
   "property": "C78",
   "status": "proved",
   "theorems": [
    "FV3.C78_try",
    "FV3.C78_same",
    "FV3.C78_outstanding_halo"
   ],
   "note": "All calls of C75, any number of rejected starts at any place; the data of the whole session equals that of the session without them. A start rejected by some ranks only leaves the others waiting (C66_limit_some_ranks). The timer of the communicator is disabled (C53_failure_is_final otherwise)."
  },
  {
   "property": "C79",
   "status": "proved",
   "theorems": [
    "FV3.Buf.C79_allocated",
    "FV3.Buf.C79_no_exceptions",
    "FV3.Buf.C79_nesting",
    "FV3.Buf.C79_one_after_the_other",
    "FV3.Buf.C79_limit_exceptions"
   ],
   "note": "Arrays are counted when the allocator is called; when Python frees arrays that were lost to exceptions is not modelled."
  },
  {
   "property": "C80",
   "status": "proved",
   "theorems": [
    "FV3.Heap.C80_session",
    "FV3.Heap.C80_calls",
    "FV3.Heap.C80_halo",
    "FV3.Heap.C80_others",
    "FV3.Heap.C80_shared",
    "FV3.Heap.C80_alias",
    "FV3.Heap.C80_transpose",
    "FV3.Heap.C80_one_outcome"
   ],
   "note": "Blocking updates only: for updates that are started and waited for in separate calls see C81. The two quantities of a vector update must not share memory. What an update puts into its quantities is UpdateStep (Spec/Bulk), characterised by C07-C12."
  },
  {
   "property": "C81",
   "status": "proved",
   "theorems": [
    "FV3.Heap.C81_session",
    "FV3.Heap.C81_outstanding",
    "FV3.Heap.C81_halo",
    "FV3.Heap.C81_one_outcome"
   ],
   "note": "A message has the values at the start (the view is read when it is sent); when MPI reads later: C83 (and C54 for quantities which share no memory). The two quantities of a vector update must not share memory with each other."
  },
  {
   "property": "C82",
   "status": "proved",
   "theorems": [
    "FV3.Heap.C82_session",
    "FV3.Heap.C82_halo"
   ],
   "note": "Blocking calls. The two quantities of a vector update must not share memory with each other."
  },
  {
   "property": "C83",
   "status": "proved",
   "theorems": [
    "FV3.Heap.C83_session",
    "FV3.Heap.C83_outstanding",
    "FV3.Heap.C83_halo",
    "FV3.Heap.C83_domains"
   ],
   "note": "That the program leaves alone what it is sending is a condition (HLeavesSends); without it the result depends on the time of reading (C54). C83_domains gives it from the compute domains. The two quantities of a vector update must not share memory with each other."
  },
  {
   "property": "C84",
   "status": "proved",
   "theorems": [
    "FV3.Heap.C84_session",
    "FV3.Heap.C84_calls",
    "FV3.Heap.C84_round_trip"
   ],
   "note": "The quantity to receive into is given; a new one (recv_quantity=None) shares memory with nothing and is covered by C25 and C26. What is visible through other variables follows from C80_others and C80_shared, which are about any change of memory of this form (OnlyCells)."
  },
  {
   "property": "C85",
   "status": "proved",
   "theorems": [
    "FV3.Heap.C85_session",
    "FV3.Heap.C85_calls",
    "FV3.Heap.C85_field",
    "FV3.Heap.C85_field_back",
    "FV3.Heap.C85_wind",
    "FV3.Heap.C85_one_outcome"
   ],
   "note": "Blocking calls (outstanding updates: C81, C83, and with scatters and gathers C88). The quantity to receive into is given, as in C84. The two quantities of a vector update must not share memory with each other."
  },
  {
   "property": "C86",
   "status": "proved",
   "theorems": [
    "FV3.Heap.C86_scatter_state",
    "FV3.Heap.C86_gather_state",
    "FV3.Heap.C86_parts",
    "FV3.Heap.C86_global",
    "FV3.Heap.C86_round_trip"
   ],
   "note": "The states to receive into have all the names that are transferred (new quantities, which share memory with nothing: C27). Round trip: the quantities received into are clear of those of other names; each may share memory with its own global quantity."
  },
  {
   "property": "C87",
   "status": "proved",
   "theorems": [
    "FV3.Heap.C87_session",
    "FV3.Heap.C87_fields",
    "FV3.Heap.C87_fields_back",
    "FV3.Heap.C87_winds",
    "FV3.Heap.C87_winds_back",
    "FV3.Heap.C87_one_outcome"
   ],
   "note": "Blocking calls, as in C85; the states to receive into have all the names that are transferred, as in C86. For the fields: the quantities of a rank do not overlap each other, and the compute domains of those received into do not overlap quantities of other names."
  },
  {
   "property": "C88",
   "status": "proved",
   "theorems": [
    "FV3.Heap.C88_session",
    "FV3.Heap.C88_calls",
    "FV3.Heap.C88_outstanding",
    "FV3.Heap.C88_halo",
    "FV3.Heap.C88_meanwhile",
    "FV3.Heap.C88_one_outcome"
   ],
   "note": "MPI reads the data that are sent when the send is made (later reading: C82, C83). The quantity to receive into is given, as in C84. Every wait is for an update started before it, and no update is waited for twice, as in C81."
  }
 ]
}