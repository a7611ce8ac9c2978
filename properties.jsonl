{"id": "C01", "title": "Ranks are in bijection with (tile, subtile-y, subtile-x)", "statement": "For a cubed-sphere partitioner with layout (ly,lx), rank -> (tile_index(rank), subtile_index(rank)) is a bijection from 0..total_ranks-1 onto {0..5} x {0..ly-1} x {0..lx-1}; tile_root_rank(rank) is the smallest rank with the same tile index; get_tile_index and get_tile_number raise ValueError exactly when total_ranks is not a multiple of 6, and get_tile_number = get_tile_index + 1.", "quantifier": "all positive layouts, all ranks, all total_ranks", "why_tests_cant": "tests enumerate the ranks of four small layouts; the claim is about every layout size", "anchors": ["fv3gfs/util/partitioner.py:get_tile_index", "fv3gfs/util/partitioner.py:get_tile_number", "fv3gfs/util/partitioner.py:subtile_index", "fv3gfs/util/partitioner.py:CubedSpherePartitioner.tile_root_rank"]}
{"id": "C02", "title": "Non-overlapping subtile slices partition the tile", "statement": "With overlap=False the slices returned by TilePartitioner.subtile_slice for all ranks of a tile partition the compute domain: every index of the tile (for any list of dimensions, interface or centre, horizontal or not) lies in the slice of exactly one rank.", "quantifier": "all layouts whose reciprocal is float-safe (see C05), all dimension lists with exactly one x-type and one y-type dimension, any other dimensions in any order, all tile extents divisible by the layout, all indices", "why_tests_cant": "exactly-once coverage is a universally quantified statement over sizes, tests check a dozen literal slices", "anchors": ["fv3gfs/util/partitioner.py:subtile_slice", "fv3gfs/util/partitioner.py:_index_generator", "fv3gfs/util/partitioner.py:_IndexData1D", "fv3gfs/util/partitioner.py:TilePartitioner.subtile_slice"]}
{"id": "C03", "title": "Overlapping subtile slices cover the tile and share exactly the interface points", "statement": "With overlap=True every rank's slice has exactly the length subtile_extent says, the slices cover the domain, a cell-centred index belongs to exactly one rank, and an interface index belongs to two ranks along an axis exactly when it is an internal multiple of the rank's cell count.", "quantifier": "all float-safe layouts, all dimension lists with exactly one x-type and one y-type dimension, all divisible extents, all indices", "why_tests_cant": "quantifies over every size and index", "anchors": ["fv3gfs/util/partitioner.py:subtile_slice", "fv3gfs/util/partitioner.py:TilePartitioner.subtile_extent"]}
{"id": "C04", "title": "CubedSphere subtile slices partition the cube", "statement": "CubedSpherePartitioner.subtile_slice raises NotImplementedError iff the first dimension is not 'tile'; otherwise, without overlap, every (tile, index) of the cube lies in the slice of exactly one of the 6*ly*lx ranks.", "quantifier": "all float-safe layouts, dimension lists with exactly one x-type and one y-type dimension, divisible extents, indices", "why_tests_cant": "quantifies over every size and index", "anchors": ["fv3gfs/util/partitioner.py:CubedSpherePartitioner.subtile_slice", "fv3gfs/util/partitioner.py:CubedSpherePartitioner.subtile_extent"]}
{"id": "C05", "title": "Global and subtile extents are inverse", "statement": "subtile_extent(global_extent(rank extent)) returns the rank extent and global_extent(subtile_extent(tile extent)) returns the tile extent whenever the layout divides it - despite the division being done in double precision with truncation.", "quantifier": "all dimension lists, all extents, all layouts", "why_tests_cant": "the failure depends on floating-point rounding of 1/layout for particular integers; it first appears at layout 49, far outside any tested layout", "anchors": ["fv3gfs/util/partitioner.py:tile_extent_from_rank_metadata", "fv3gfs/util/partitioner.py:rank_extent_from_tile_metadata", "fv3gfs/util/partitioner.py:extent_from_metadata"]}
{"id": "C06", "title": "Tile boundaries are doubly periodic and reciprocal", "statement": "TilePartitioner.boundary(b, rank) always stays on the same tile, has zero rotations, moves the subtile position by the unit step of b modulo the layout, and going back through the opposite boundary returns to rank.", "quantifier": "all positive layouts (square or not), all ranks, all eight boundary types", "why_tests_cant": "tests list ranks for 1x1, 2x2, 3x3", "anchors": ["fv3gfs/util/partitioner.py:TilePartitioner.boundary", "fv3gfs/util/partitioner.py:_get_corner"]}
{"id": "C07", "title": "Cube boundaries are closed and absent exactly at tile corners", "statement": "CubedSpherePartitioner.boundary(b, rank) raises NotImplementedError for the edge types when the layout is not square; for a square layout it returns None iff b is a corner type and rank sits at that corner of its tile, and otherwise a boundary with from_rank=rank and 0<=to_rank<total_ranks.", "quantifier": "all square layouts n>=1, all ranks, all boundary types", "why_tests_cant": "tests cover n=1,2,3 only; negative intermediate ranks and floor-division must work for every n", "anchors": ["fv3gfs/util/partitioner.py:CubedSpherePartitioner.boundary", "fv3gfs/util/partitioner.py:CubedSpherePartitioner._left_edge", "fv3gfs/util/partitioner.py:CubedSpherePartitioner._get_corner"]}
{"id": "C08", "title": "Cube boundaries are reciprocal with opposite rotation", "statement": "If boundary(b, r) leads to r' with k clockwise rotations then r' has exactly one boundary leading back to r; its rotation count is -k modulo 4 and its type is the opposite of b turned by k.", "quantifier": "all square layouts, ranks, boundary types", "why_tests_cant": "every pair must match or a halo update hangs or mis-delivers; only small layouts are tested", "anchors": ["fv3gfs/util/partitioner.py:CubedSpherePartitioner.boundary"]}
{"id": "C09", "title": "A rank's boundaries lead to pairwise different ranks", "statement": "Two different boundary types of one rank never have the same to_rank, and no boundary leads to the rank itself, so a (source, destination, tag) triple identifies at most one message of a halo update.", "quantifier": "all square layouts, ranks, pairs of boundary types", "why_tests_cant": "uniqueness over all layouts; a collision would only show as silently swapped data", "anchors": ["fv3gfs/util/partitioner.py:CubedSpherePartitioner.boundary", "fv3gfs/util/communicator.py:CubedSphereCommunicator.boundaries"]}
{"id": "C10", "title": "Cube boundaries agree with the geometry of a cube", "statement": "Embedding the six tiles as the faces of a cube in 3-space, the subtile reached by boundary(b, r) is the one that touches r's subtile across that edge or corner, and n_clockwise_rotations is the rotation between the two faces' axes after unfolding.", "quantifier": "all square layouts, ranks, boundary types", "why_tests_cant": "tests were recorded from a paper cube for 2x2 only", "anchors": ["fv3gfs/util/partitioner.py:CubedSpherePartitioner.boundary", "tests/test_partitioner_boundaries.py"]}
{"id": "C11", "title": "boundary() is immune to mutation of its results", "statement": "Any history of boundary() calls interleaved with callers mutating the returned objects yields, at every call, the same value a fresh partitioner would return (the memoised object never escapes).", "quantifier": "all histories of calls and mutations, all partitioners", "why_tests_cant": "history-dependent aliasing through lru_cache", "anchors": ["fv3gfs/util/partitioner.py:TilePartitioner._cached_boundary", "fv3gfs/util/partitioner.py:CubedSpherePartitioner._cached_boundary"]}
{"id": "C12", "title": "Boundary slices stay inside the array and separate halo from compute domain", "statement": "get_boundary_slice either raises OutOfBoundsError exactly when some axis range leaves the array, or returns in-bounds ranges; the receive ranges lie outside the compute domain and are pairwise disjoint across the eight boundary types; the send ranges lie inside the compute domain when n_points <= extent - overlap. (Limit, proved: for larger n_points the request is not rejected and the message contains halo points.)", "quantifier": "all dims, origins, extents, shapes, n_points, boundary types", "why_tests_cant": "quantifies over all geometries; overlap of a receive range with the compute domain would corrupt data silently", "anchors": ["fv3gfs/util/_boundary_utils.py:get_boundary_slice", "fv3gfs/util/boundary.py:SimpleBoundary._view"]}
{"id": "C13", "title": "Scalar rotation is an action of the rotation group", "statement": "rotate_scalar_data by a then by b equals rotation by a+b, rotation by 4 is the identity, and the result of one rotation is a quarter turn of the horizontal plane leaving all other axes alone.", "quantifier": "all arrays, shapes, dimension orders with one x and one y dimension, all integers a, b", "why_tests_cant": "tests check a handful of literal arrays", "anchors": ["fv3gfs/util/rotate.py:rotate_scalar_data"]}
{"id": "C14", "title": "Vector rotation is an action of the rotation group on vectors", "statement": "rotate_vector_data by a then b equals a+b, by 4 is the identity; one clockwise rotation maps components (u,v) to (v,-u) together with the quarter turn of positions.", "quantifier": "all arrays and integers", "why_tests_cant": "as C13", "anchors": ["fv3gfs/util/rotate.py:rotate_vector_data"]}
{"id": "C15", "title": "Scalar halo update fills halos with the geometric neighbours", "statement": "After every rank calls halo_update(quantity, n) each halo point within n of the compute domain (not diagonally across a tile corner) holds the value that the owning rank had at the point of the cube surface obtained by folding the tile's grid over the cube edge; for every global field sampled on the ranks this is the field value there.", "quantifier": "all square layouts, rank sizes, halo widths n<=rank size, dimension orders and extra dimensions, origins, centre or fully interface staggering, all data", "why_tests_cant": "tests check depth patterns for 1x1 and 3x3; correctness must hold for every data, size and rank", "anchors": ["fv3gfs/util/communicator.py:CubedSphereCommunicator.halo_update", "fv3gfs/util/communicator.py:CubedSphereCommunicator._Isend_halos", "fv3gfs/util/communicator.py:CubedSphereCommunicator._Irecv_halos"]}
{"id": "C16", "title": "Halo update changes nothing else", "statement": "halo_update leaves the compute domain, halo points beyond n_points, the halo squares diagonally across tile corners, and every point outside the extent of the non-horizontal axes unchanged.", "quantifier": "as C15", "why_tests_cant": "frame condition over all points and data", "anchors": ["fv3gfs/util/communicator.py:CubedSphereCommunicator.halo_update"]}
{"id": "C17", "title": "Halo updates are layout independent and idempotent", "statement": "For the same global field, two different layouts produce the same halo value at the same tile location, for scalars and for vector components; and repeating an update (scalar, vector, or interface synchronisation) any number of times leaves exactly the quantities it leaves when made once.", "quantifier": "all pairs of layouts, fields, locations", "why_tests_cant": "relates two unbounded families of runs", "anchors": ["fv3gfs/util/communicator.py:CubedSphereCommunicator.halo_update"]}
{"id": "C18", "title": "Halo update argument errors", "statement": "start_halo_update and start_vector_halo_update raise ValueError for n_points=0 without sending; requesting more halo points than the array holds raises OutOfBoundsError and never writes to the quantity. (The error may be raised after some of the sends have been posted.)", "quantifier": "all quantities and n_points", "why_tests_cant": "error behaviour over all geometries", "anchors": ["fv3gfs/util/communicator.py:CubedSphereCommunicator.start_halo_update", "fv3gfs/util/_boundary_utils.py:get_boundary_slice"]}
{"id": "C19", "title": "Vector halo update fills halos with unfolded vector components", "statement": "After every rank calls vector_halo_update(x, y, n) each halo point within n holds, in the receiving tile's axes, the components of the neighbour's vector after unfolding the cube across the edge (along-edge component kept, across-edge component turned with the surface), for A-, C- and D-grid staggering.", "quantifier": "all square layouts, sizes, halo widths, vector fields", "why_tests_cant": "signs and component swaps for every tile edge, layout and size", "anchors": ["fv3gfs/util/communicator.py:CubedSphereCommunicator.vector_halo_update", "fv3gfs/util/communicator.py:CubedSphereCommunicator._Isend_vector_halos"]}
{"id": "C20", "title": "synchronize_vector_interfaces makes shared edges agree", "statement": "After synchronize_vector_interfaces the values on the north and east edges equal, as physical vector components, those the neighbour across the edge has on its south or west edge; everything else is unchanged; vectors not on the C-grid staggering raise ValueError. (Refuted when a non-horizontal axis precedes the horizontal ones: for a rotated boundary the code then reverses that axis instead of the edge.)", "quantifier": "all square layouts, sizes, data; quantities with any extra dimensions after the horizontal ones, and a counterexample for the other orders", "why_tests_cant": "the flip axis depends on dimension order: fails for (z, y_interface, x) ordering, which no test uses", "anchors": ["fv3gfs/util/communicator.py:CubedSphereCommunicator.synchronize_vector_interfaces", "fv3gfs/util/communicator.py:on_c_grid"]}
{"id": "C21", "title": "Message passing outcome is schedule independent", "statement": "For any rank programs built from Isend, Recv(source, tag), send-completion waits, any two complete schedules end in the same state, and if one schedule completes no schedule deadlocks.", "quantifier": "all programs, all interleavings, eager and rendezvous sends", "why_tests_cant": "number of interleavings is unbounded", "anchors": ["fv3gfs/util/communicator.py:CubedSphereCommunicator._Isend", "fv3gfs/util/communicator.py:CubedSphereCommunicator._Irecv", "fv3gfs/util/communicator.py:HaloUpdateRequest.wait"]}
{"id": "C22", "title": "Blocking halo updates never deadlock", "statement": "When all ranks perform the same sequence of blocking halo updates, vector halo updates and interface synchronisations, every schedule terminates with every rank finished, even if sends complete only when received (rendezvous).", "quantifier": "all sequences of operations, layouts, schedules", "why_tests_cant": "deadlock depends on interleaving and MPI buffering", "anchors": ["fv3gfs/util/communicator.py:HaloUpdateRequest.wait", "fv3gfs/util/communicator.py:CubedSphereCommunicator.start_halo_update"]}
{"id": "C23", "title": "Outstanding halo updates do not mix", "statement": "If several updates are started before being waited on, in the same start order on all ranks, each wait receives exactly the data of its own update regardless of the order in which each rank waits (buffered sends).", "quantifier": "all numbers of outstanding requests, all per-rank wait orders, all schedules", "why_tests_cant": "tag matching across histories", "anchors": ["fv3gfs/util/communicator.py:CubedSphereCommunicator._get_halo_tag", "fv3gfs/util/communicator.py:HaloUpdateRequest"]}
{"id": "C24", "title": "Zero-copy sends are safe", "statement": "The points a halo update, vector halo update or interface synchronisation sends are never among the points it writes, so a send that aliases the quantity's memory (no copy is made for contiguous data) transmits the same values whenever it is read before completion.", "quantifier": "all geometries with n_points <= extent - overlap, all three operations, all points", "why_tests_cant": "data race, timing dependent", "anchors": ["fv3gfs/util/communicator.py:CubedSphereCommunicator._Isend", "fv3gfs/util/_boundary_utils.py:get_boundary_slice"]}
{"id": "C25", "title": "Scatter delivers each rank its subtile", "statement": "After scatter from the root every rank's compute domain equals the overlap=True subtile slice of the root's compute domain, whatever halo/origin the receive quantity has and without touching the receive quantity outside its compute domain; a missing send quantity on the root raises TypeError. (Limit, proved: when the root raises, the other ranks wait for ever.)", "quantifier": "all float-safe layouts, dimension lists with at least one dimension besides 'tile', extents, origins, data, schedules and bufferings (tile and cube communicators)", "why_tests_cant": "data movement over all sizes", "anchors": ["fv3gfs/util/communicator.py:Communicator.scatter"]}
{"id": "C26", "title": "Gather inverts scatter", "statement": "gather after scatter restores the root's compute domain exactly; gather of arbitrary rank data gives every global point the value of the highest rank that owns it. (Limit, proved: a receive quantity of the wrong size is not always rejected; where the received block can be broadcast it is repeated.)", "quantifier": "all float-safe layouts, dimension lists with one x-type and one y-type dimension, extents, data, schedules and bufferings", "why_tests_cant": "round trip over all sizes and data", "anchors": ["fv3gfs/util/communicator.py:Communicator.gather", "fv3gfs/util/communicator.py:Communicator.scatter"]}
{"id": "C27", "title": "State scatter and gather act variable by variable", "statement": "scatter_state delivers exactly the root's variables to every rank (plus 'time' iff present), reusing given receive quantities; gather_state gives the root one global quantity per variable and keeps unrelated entries; clients need no state of their own. (gather_state needs the same variables in the same order on every rank: it matches them by position only, which is proved.)", "quantifier": "all state dictionaries (gather: same variables in the same order on all ranks), layouts, schedules", "why_tests_cant": "protocol over an arbitrary number of collectives", "anchors": ["fv3gfs/util/communicator.py:Communicator.scatter_state", "fv3gfs/util/communicator.py:Communicator.gather_state"]}
{"id": "C28", "title": "Quantity metadata is consistent", "statement": "Constructing a Quantity succeeds only if dims, origin and extent all have one entry per array axis; defaults put origin at zero and extend to the end of the array. Origins and extents given as floats or strings are converted with int(). (Limit, proved: passing a list or a number instead of an array always raises, although the constructor has a branch for it.)", "quantifier": "all shapes, dims, origins, extents", "why_tests_cant": "quantifies over all inputs", "anchors": ["fv3gfs/util/quantity.py:Quantity.__init__", "fv3gfs/util/quantity.py:_validate_quantity_property_lengths"]}
{"id": "C29", "title": "view indexing is relative to the compute domain", "statement": "quantity.view[i] with non-negative indices and slices addresses data at origin+i; view[:] is exactly the compute domain; assignments through it change exactly those points. A negative slice end -n counts from the end of the compute domain if n is greater than the origin, and otherwise is the n-th halo point before it; so the documented idiom view[1:-1] for 'all but the edges' holds exactly for zero origin.", "quantifier": "all quantities and index tuples", "why_tests_cant": "index arithmetic over all origins and extents; the documented negative-index idiom breaks once a halo exists", "anchors": ["fv3gfs/util/quantity.py:BoundedArrayView.__getitem__", "fv3gfs/util/quantity.py:shift_slice", "fv3gfs/util/quantity.py:shift_index", "docs/state.rst"]}
{"id": "C30", "title": "Corner and interior views are relative to their corner", "statement": "quantity.view.northeast (and the other corners, and interior) index relative to the stated corner of the compute domain on horizontal axes and to the origin on others, for any dimension order.", "quantifier": "all quantities, boundary types, indices", "why_tests_cant": "index arithmetic over all geometries", "anchors": ["fv3gfs/util/quantity.py:BoundaryArrayView", "fv3gfs/util/_boundary_utils.py:shift_boundary_slice_tuple"]}
{"id": "C31", "title": "transpose permutes names, origin, extent and data together", "statement": "q.transpose(dims) raises ValueError for unknown or ambiguous names; otherwise element access by dimension names is unchanged, and transposing back gives the original quantity.", "quantifier": "all quantities, target orders", "why_tests_cant": "all permutations and data", "anchors": ["fv3gfs/util/quantity.py:Quantity.transpose", "fv3gfs/util/quantity.py:_collapse_dims", "fv3gfs/util/quantity.py:transpose_sequence"]}
{"id": "C32", "title": "QuantityFactory arrays leave room for halos", "statement": "Quantities sized by SubtileGridSizer have n_halo points on both sides of the compute domain on horizontal axes, equal shapes for centre and interface variables, extents equal to the partitioner's subtile extents, and so accept halo updates of up to n_halo points. With a gt4py backend the quantity has a storage of that backend, and no two allocated quantities share memory. (Limit, proved: the default origin of such storages is always zero, the origin passed by the factory is dropped.)", "quantifier": "all sizes, halo widths, dimension lists", "why_tests_cant": "relates three independently written size computations", "anchors": ["fv3gfs/util/initialization/sizer.py:SubtileGridSizer", "fv3gfs/util/initialization/allocator.py:QuantityFactory"]}
{"id": "C33", "title": "Corner filling continues stencils across the third edge", "statement": "fill_scalar_corners writes only the corner squares of ranks at tile corners, and after a halo update the value written at a corner point is that of the point reached by continuing the x (or y) grid line from the halo across the edge between the two neighbouring tiles.", "quantifier": "all sizes, halo widths, staggerings (cell centres or the same staggering on both axes for the geometric part), tiles, fields", "why_tests_cant": "geometry at the eight cube vertices for all sizes", "anchors": ["fv3gfs/util/_corners.py:fill_scalar_corners", "fv3gfs/util/_corners.py:_shared_edge_points"]}
{"id": "C34", "title": "Boundary.rotate rotates vectors in place", "statement": "Boundary.rotate(y, x) overwrites the arrays with the components after n_clockwise_rotations. (Refuted: for one rotation the second assignment reads the already overwritten first array, for three rotations only local names are rebound.)", "quantifier": "all data, all rotation counts", "why_tests_cant": "no test calls it", "anchors": ["fv3gfs/util/boundary.py:Boundary.rotate"]}
{"id": "C35", "title": "Buffer cache never hands one buffer to two users", "statement": "At any time no two open array_buffer contexts hold the same array, and an array handed out always has the requested allocator, shape and dtype - after any history of entering, leaving and failing contexts.", "quantifier": "all histories, nestings, keys, crash points", "why_tests_cant": "history property over unbounded interleavings of contexts", "anchors": ["fv3gfs/util/buffer.py:array_buffer"]}
{"id": "C36", "title": "send_buffer and recv_buffer are transparent", "statement": "Sending through send_buffer transmits exactly the array's contents and receiving through recv_buffer leaves exactly the message in the array, whether or not the array is contiguous and whatever stale data the recycled buffer held; an exception inside recv_buffer leaves a non-contiguous target untouched. (Limit, proved: if the body returns without receiving, a non-contiguous target is overwritten with what the recycled buffer held.)", "quantifier": "all arrays, cache histories", "why_tests_cant": "stale buffer content depends on history", "anchors": ["fv3gfs/util/buffer.py:send_buffer", "fv3gfs/util/buffer.py:recv_buffer"]}
{"id": "C37", "title": "Timer accounting", "statement": "hits[name] is the number of start/stop pairs completed while enabled since the last reset, times[name] their total duration; failed calls change nothing; a disabled timer records nothing; times and hits have the same keys. (Limit, proved: an exception inside the body of clock() leaves that timer running, so the next start of the name raises.)", "quantifier": "all histories of start, stop, reset, enable, disable, clock with and without exceptions", "why_tests_cant": "history property", "anchors": ["fv3gfs/util/_timing.py:Timer"]}
{"id": "C38", "title": "NullTimer records nothing", "statement": "Under any history of calls a NullTimer reports enabled=False, empty times and hits, never raises from start/stop and always raises from enable.", "quantifier": "all histories", "why_tests_cant": "history property", "anchors": ["fv3gfs/util/_timing.py:NullTimer"]}
{"id": "C39", "title": "ZarrMonitor stores the global state of every step", "statement": "After all ranks have stored k states, for each variable the zarr array has k time entries and entry t at tile and global index equals the value the unique responsible rank had at step t, for any order in which ranks write within a step; 'time' has k entries. With the default communicator a single process records rank 0's part of every step, in arrays for the whole cube, and nothing else.", "quantifier": "all numbers of steps, layouts (float-safe), positive extents per rank, dimension lists with exactly one x-type and one y-type dimension, constant units and calendar, all interleavings of the ranks' actions", "why_tests_cant": "unbounded history and rank interleaving", "anchors": ["fv3gfs/util/zarr_monitor.py:ZarrMonitor.store", "fv3gfs/util/zarr_monitor.py:_ZarrVariableWriter.append"]}
{"id": "C40", "title": "Ranks never write to the same zarr chunk", "statement": "With the chunk sizes chosen by array_chunks, two different ranks never touch the same chunk when storing a state, so concurrent chunk read-modify-write cannot lose data. (Limit, proved: all ranks of a tile write a variable without horizontal dimensions to the same chunk; if their values differ, the schedule decides which is stored.)", "quantifier": "all float-safe layouts, positive extents per rank, dimension lists with exactly one x-type and one y-type dimension, all interleavings", "why_tests_cant": "data race, depends on alignment for every size", "anchors": ["fv3gfs/util/zarr_monitor.py:array_chunks", "fv3gfs/util/partitioner.py:subtile_slice"]}
{"id": "C41", "title": "ZarrMonitor rejects inconsistent states", "statement": "store raises ValueError when variable names differ from the first stored state, and when units or dims of a variable differ, before data of that variable is written - on every call. (Refuted for a repeated call: the failed call has already grown the array, so the retry skips the check; and a first state without 'time' shifts time against data.) (When rank 0 raises, the other ranks wait for ever in the broadcast, or, for a time of another calendar, in the barrier. Values of earlier steps never change. The arrays which precede the bad one in alphabetical order already hold the new step, and the bad one is already one step longer.) States with other variables than the first one can be offered in any number, between good ones and differently on different ranks: they are rejected on the rank that gets them and leave no trace. A store which already holds the variables (opened with mode 'a' or 'r+') is rejected: ValueError on rank 0 at the first state, the others wait for ever, nothing is changed.", "quantifier": "all histories of stores", "why_tests_cant": "needs a failure followed by a retry", "anchors": ["fv3gfs/util/zarr_monitor.py:ZarrMonitor._check_writers", "fv3gfs/util/zarr_monitor.py:_ZarrVariableWriter._ensure_compatible_attrs"]}
{"id": "C42", "title": "Restart variables keep their identity", "statement": "Loading a restart maps each file variable with known restart name to its standard name, keeps unknown variables under their own name, loses none unless two names collide, and with only_names returns exactly the requested known variables; built-in properties override tracer properties. Variables that describe an axis (named like a dimension of the file) are not loaded, and a file without a time axis raises ValueError. (Refuted for the shipped table: four restart names are claimed by several standard names, so that nine standard names are never produced.)", "quantifier": "all file contents, property tables, name filters", "why_tests_cant": "dictionary algebra over all tables; table collisions are not tested", "anchors": ["fv3gfs/util/_legacy_restart.py:map_keys", "fv3gfs/util/_legacy_restart.py:load_partial_state_from_restart_file", "fv3gfs/util/_properties.py:RESTART_PROPERTIES"]}
{"id": "C43", "title": "Restart file names identify tile and rank", "statement": "get_rank_suffix is injective in the rank for every total number of ranks divisible by 6 and raises ValueError otherwise; restart_filenames lists every required file and exactly the existing optional files, in order. The names are, spelled out, <dirname>/<label>.<name>.tile<tile+1>.nc and <dirname>/<label>.coupler.res; without label, or with an empty one, the label and its dot are missing.", "quantifier": "all ranks, totals, directory contents", "why_tests_cant": "injectivity over all ranks including counts beyond four digits", "anchors": ["fv3gfs/util/_legacy_restart.py:get_rank_suffix", "fv3gfs/util/_legacy_restart.py:restart_filenames"]}
{"id": "C44", "title": "coupler.res parsing inverts its format", "statement": "get_current_date_from_coupler_res applied to a file whose first line starts with the calendar code and whose third line starts with six integers returns exactly that date and calendar, whatever trails on the lines and however the tokens are spaced.", "quantifier": "all dates, calendars, whitespace, trailing text", "why_tests_cant": "parser round trip over all inputs", "anchors": ["fv3gfs/util/io.py:get_current_date_from_coupler_res"]}
{"id": "C45", "title": "Units comparison is an equivalence insensitive to surrounding whitespace", "statement": "units_are_equal is reflexive, symmetric, transitive, and unaffected by leading or trailing whitespace; ensure_equal_units raises exactly when it is false.", "quantifier": "all strings", "why_tests_cant": "universal over strings", "anchors": ["fv3gfs/util/units.py:units_are_equal"]}
{"id": "C46", "title": "Nudging relaxes towards the reference", "statement": "apply_nudging changes exactly the compute domains of the variables with timescales, by (reference-state)/timescale*timestep; it reaches the reference when timestep=timescale, stays between state and reference when 0<=timestep<=timescale, and a missing variable raises before anything is modified. (Limit, proved: a quantity without axes is modified and then raises AttributeError.) In floating point (any format, rounding to nearest): values equal to the reference stay exactly as they are, a zero timestep changes nothing, no value moves away from the reference's side, a larger reference never gives a smaller result, and in double precision the error is at most 1 ulp-type unit (2^-53) of the result plus 4 of the increment. (Limit, proved: with timestep equal to timescale the reference is not always reached exactly.) A reference of another shape is broadcast if it has not more axes and fits the shape of the variable; otherwise ValueError is raised and that variable is not modified.", "quantifier": "all states, references, timescales; exact arithmetic, and arithmetic that rounds to nearest in any format without overflow", "why_tests_cant": "universal over data; atomicity on error", "anchors": ["fv3gfs/util/nudging.py:apply_nudging", "fv3gfs/util/nudging.py:get_nudging_tendencies"]}
{"id": "C47", "title": "capture_stream restores the stream", "statement": "Leaving capture_stream normally reconnects the stream's descriptor to its original file, for any nesting, and the captured bytes are exactly those written inside. (Refuted on exception: the descriptor is not restored. Each block leaks one descriptor.)", "quantifier": "all nestings, crash points", "why_tests_cant": "crash-point property", "anchors": ["fv3gfs/util/_capture_stream.py:capture_stream"]}
{"id": "C48", "title": "DummyComm delivers point-to-point messages in order", "statement": "For any history of Send/Isend/Recv on a shared buffer, the k-th Recv from a source gets a private copy of the k-th value that source sent to this rank, and a Recv before any Send ever raises ConcurrencyError. bcast gives every later caller the root's value; gather on the root returns what the ranks put there. (Limit, proved: the gather buffer is never cleared, so a second gather can return stale data.) Scatter gives the k-th caller its item of the root's k-th array, or raises. (Limit, proved: Split on the ranks' own objects makes each of them rank 0 of a communicator of size 1.) Split calls on one object give the k-th caller with a colour rank k, and all communicators of a colour always have as many ranks as there were calls. A message is stored in an array of its shape, or broadcast to a larger one; if it does not fit, ValueError is raised (IndexError for an array without axes) and the message is lost.", "quantifier": "all histories", "why_tests_cant": "history property", "anchors": ["fv3gfs/util/testing/dummy_comm.py:DummyComm"]}
{"id": "C49", "title": "Subtile rank transforms are permutations", "statement": "rotate_rank, fliplr, flipud and transpose subtile rank transforms return the position of the rank in the transformed layout: they permute the ranks of a tile for square layouts, the flips and transpose are involutions and four rotations are the identity.", "quantifier": "all layouts, ranks", "why_tests_cant": "tests check five literals", "anchors": ["fv3gfs/util/partitioner.py:rotate_subtile_rank", "fv3gfs/util/partitioner.py:transform_subtile_rank"]}
{"id": "C50", "title": "State files round-trip", "statement": "read_state(write_state(state)) returns quantities with the same names, dims, units and compute-domain data, and the same time; writing a state without time raises ValueError and creates no file.  If the netCDF layer changes values when it stores them (rounding, say), what is read back has those values and is otherwise the same. Reading a file whose time is not a scalar time raises ValueError, a missing file FileNotFoundError. (Limits, proved: a variable named like its only dimension is lost on reading, and so is a time that is an array along the dimension time: the state then has no time and no error is raised.) Wherever write_state is interrupted (or raises), all other files are as before, and its own file is as before, damaged, or complete; errors found before the file is opened change nothing. (Limit, proved: overwriting is not atomic: a crash, or a variable the netCDF layer cannot store, destroys the state which the file held.)", "quantifier": "all states (given that the netCDF layer stores a dataset faithfully)", "why_tests_cant": "universal over states", "anchors": ["fv3gfs/util/io.py:write_state", "fv3gfs/util/io.py:read_state"]}
{"id": "C51", "title": "The tile communicator is the ranks of the tile", "statement": "communicator.tile of a rank of the cube contains exactly the ranks of its tile, in order; its rank there is counted from the tile's root rank and it has the same place in the layout. Collective programs on the six tile communicators do not influence each other: if the ranks of each tile, taken alone, return, then so do all ranks of the cube, with the same results, whatever the schedule.", "quantifier": "all layouts, ranks, programs using only ranks of the tile communicator, schedules and bufferings", "why_tests_cant": "tests use a communicator that does not interleave tiles", "anchors": ["fv3gfs/util/communicator.py:CubedSphereCommunicator.tile", "fv3gfs/util/communicator.py:CubedSphereCommunicator._initialize_tile_communicator"]}
{"id": "C52", "title": "open_restart gives every rank its part of its tile's files", "statement": "open_restart on all ranks returns, on every rank, its part of each variable in the restart files of its tile (the last file that has a variable wins; in the quantity of to_state if there is one), the date of coupler.res as time if that file is there and the time is requested, and the other entries of to_state unchanged. (Limit, proved: if a tile's files cannot be loaded, its root raises and the other ranks of the tile wait for ever.)", "quantifier": "all layouts (float-safe), file contents, only_names, tracer tables, labels, to_state dictionaries, schedules and bufferings", "why_tests_cant": "schedule and input property; tests run ranks one after the other", "anchors": ["fv3gfs/util/_legacy_restart.py:open_restart", "fv3gfs/util/_legacy_restart.py:load_partial_state_from_restart_file"]}
{"id": "C53", "title": "Halo updates account their work in the communicator's timer", "statement": "A halo_update on a communicator whose timer is enabled and has no clock of the communicator running leaves no clock running and adds, for each boundary of the rank, two hits of 'pack', one each of 'Isend', 'unpack' and 'Recv', and two more of 'unpack' for each non-contiguous view received into (vector_halo_update: three 'pack', two of each other); other clocks are untouched. (Limit, proved: after an update that raised OutOfBoundsError a clock is left running and every later update on this communicator raises, with ValueError if its arguments are fine.)  The same holds of synchronize_vector_interfaces: on an idle timer it adds two hits of pack, Isend and Recv, two of unpack for each of the two edges that is not contiguous, and nothing else; after a halo update has raised OutOfBoundsError on the communicator it raises ValueError, unless both edges are contiguous and only the clock for unpacking was left running.", "quantifier": "all previous uses of the timer, quantities, layouts, ranks, halo widths, contiguity of the views, and any list of later calls", "why_tests_cant": "history and exception property; no test looks at a timer after an exception", "anchors": ["fv3gfs/util/communicator.py:CubedSphereCommunicator._Isend_halos", "fv3gfs/util/communicator.py:CubedSphereCommunicator._Irecv_halos", "fv3gfs/util/communicator.py:CubedSphereCommunicator._Isend", "fv3gfs/util/buffer.py:recv_buffer", "fv3gfs/util/_timing.py:Timer.clock"]}
{"id": "C54", "title": "Zero-copy sends do not change the outcome", "statement": "Sends pass views of the quantities to MPI, which may read them at any time until the send is complete. For every sequence of blocking updates, and for every program that starts updates and waits later without itself changing what it is sending (updates outstanding together are about different quantities or are both halo updates; computations leave the sent points alone), all ranks finish with the quantities they would have if every message had been copied when it was sent.", "quantifier": "all schedules, all times of reading each message, all bufferings, layouts, contents and programs (same order of starts; waits in the same order, or in any order per rank with buffered sends)", "why_tests_cant": "the time at which MPI reads a buffer cannot be controlled by a test; the test communicator copies", "anchors": ["fv3gfs/util/communicator.py:CubedSphereCommunicator._Isend", "fv3gfs/util/communicator.py:HaloUpdateRequest.wait", "fv3gfs/util/communicator.py:CubedSphereCommunicator.start_halo_update", "fv3gfs/util/communicator.py:CubedSphereCommunicator.start_vector_halo_update", "fv3gfs/util/communicator.py:CubedSphereCommunicator.start_synchronize_vector_interfaces"]}
{"id": "C55", "title": "A whole model run gives the same global field on every layout", "statement": "Scattering a global field with the communicator, performing any number of time steps (halo_update, then a computation on each rank) and gathering the field ends on all ranks, and root gets the global field that the steps produce, whatever the layout, schedule and MPI buffering: if the computation is an operation on fields that needs no more than the halo, two runs on different layouts of the same grid gather the same values. In particular after scatter and halo_update every point of every rank (compute domain or halo, not across a cube corner) holds the value of the global field at that point of the cube, and gather returns the global field.", "quantifier": "all float-safe square layouts, grids, staggerings (equal on both axes), halo widths, global fields, numbers of steps, computations, schedules and bufferings", "why_tests_cant": "layout, schedule and length of a run are unbounded; tests run single operations", "anchors": ["fv3gfs/util/communicator.py:Communicator.scatter", "fv3gfs/util/communicator.py:Communicator.gather", "fv3gfs/util/communicator.py:CubedSphereCommunicator.halo_update"]}
{"id": "C56", "title": "Messages carry the elements of an array in order, whatever its memory layout", "statement": "Halo sends and receives, scatter and gather pass to MPI only memory in which the elements are consecutive in row-major order: is_c_contiguous is true exactly for such arrays, other arrays are copied. So the message of any view (sliced, flipped, rotated, transposed) is its elements in row-major order; receiving it into any view of the same shape gives the same array there and changes no other memory; a message that is too long raises. Part r of the buffer of scatter/gather is what rank r receives/sends. (Limit: arrays in Fortran order are contiguous too, and would arrive permuted if they were not copied.)", "quantifier": "all shapes, strides and memory contents; all views made by basic indexing, flip, rot90 and axis exchange of an array in C order", "why_tests_cant": "universal over memory layouts; a transposed layout goes unnoticed in square test arrays", "anchors": ["fv3gfs/util/buffer.py:send_buffer", "fv3gfs/util/buffer.py:recv_buffer", "fv3gfs/util/utils.py:is_c_contiguous", "fv3gfs/util/utils.py:assign_array", "fv3gfs/util/communicator.py:CubedSphereCommunicator._Isend", "fv3gfs/util/communicator.py:Communicator._Scatter"]}
{"id": "C57", "title": "Collectives and halo updates can be mixed in any order on one communicator", "statement": "Any sequence of scatter, gather, halo_update, vector_halo_update, synchronize_vector_interfaces and computations on one CubedSphereCommunicator, the same on all ranks and with quantities and global quantities of matching grids, ends on all ranks, and its result is that of performing the calls one after the other on all ranks: no message of one call is taken by another, and the given buffers are those that are filled. In particular a field that was gathered comes back to the ranks unchanged when it is scattered later, whatever was called in between. The same holds when updates are started and waited for in separate calls, each waited for at most once, in any order and with any other calls between start and wait: the wait fills the halos (or shared edges) with what the ranks held when the update was started, and leaves everything else as it was just before the wait.", "quantifier": "all float-safe square layouts, sequences of calls, quantities, schedules and bufferings", "why_tests_cant": "the sequences of calls, layouts and schedules are unbounded; tests run one call each", "anchors": ["fv3gfs/util/communicator.py:Communicator.scatter", "fv3gfs/util/communicator.py:Communicator.gather", "fv3gfs/util/communicator.py:CubedSphereCommunicator.halo_update", "fv3gfs/util/communicator.py:CubedSphereCommunicator.vector_halo_update"]}
{"id": "C58", "title": "The data, view and storage of a Quantity are one array; who shares memory with whom", "statement": "In any program that makes arrays, gt4py storages and quantities, indexes, assigns, transposes and reads values: reading quantity.data, quantity.view, the corner views and quantity.storage always shows the same elements, and an assignment through any of them has the effect the value semantics give it. A quantity made from an array without a backend, or from a storage, shares its memory with it for ever; one made with a backend has its own copy: no later operation on other variables changes it and no operation on it changes them. The transpose of a quantity without backend is for ever the transpose of the original's current data, the transpose of a quantity with a backend is a copy. quantity.values follows the view and can never be written. Parts of a program that do not refer to each other's variables never see each other's writes. (Limit, proved: reading values of a quantity without axes makes the quantity's own data, and the array it was made from, read-only for ever.)", "quantifier": "all programs (sequences of operations), memory contents, shapes, index expressions, backends, and storage layouts gt4py may choose", "why_tests_cant": "aliasing depends on the whole history of operations; tests compare one object with one other after one write", "anchors": ["fv3gfs/util/quantity.py:Quantity.__init__", "fv3gfs/util/quantity.py:Quantity._initialize_storage", "fv3gfs/util/quantity.py:Quantity.storage", "fv3gfs/util/quantity.py:Quantity.values", "fv3gfs/util/quantity.py:Quantity.view", "fv3gfs/util/quantity.py:Quantity.data", "fv3gfs/util/quantity.py:Quantity.transpose", "fv3gfs/util/quantity.py:BoundedArrayView"]}
{"id": "C59", "title": "Halo updates do not depend on the order of the axes", "statement": "If all ranks transpose a field to any order of its axes, the same on all ranks, halo_update completes and gives the transposed field the transposed result: transposing and then updating is the same, in every element and all metadata, as updating and then transposing. The same holds for vector_halo_update when both components are transposed the same way. (It does not hold for synchronize_vector_interfaces, see C20.)", "quantifier": "all square layouts, grid sizes, halo widths, quantities with any number of axes, orders of the axes, values, schedules and bufferings", "why_tests_cant": "tests use two or three orders of the axes on one grid; the axes are looked up by name in slicing but turned by position", "anchors": ["fv3gfs/util/communicator.py:CubedSphereCommunicator.halo_update", "fv3gfs/util/communicator.py:CubedSphereCommunicator.vector_halo_update", "fv3gfs/util/quantity.py:Quantity.transpose", "fv3gfs/util/rotate.py:rotate_scalar_data"]}
{"id": "C60", "title": "datetime64_to_datetime is exact to the microsecond", "statement": "datetime64_to_datetime converts every time that is a whole number of microseconds to exactly that time, although it computes with seconds in double precision: for nanosecond times from 1833 to 2106, and for times in microseconds, milliseconds or seconds from 1697 to 2242 (whole seconds: years 1 to 9999, ValueError outside). Other nanosecond times are converted to a datetime less than a microsecond away; the order of times is kept; NaT raises ValueError. (Limit, proved: just after these bounds results are a microsecond off.)", "quantifier": "all times and units, every rounding to nearest doubles", "why_tests_cant": "the rounding error of three operations depends on all bits of a 64-bit integer; tests try a few dates", "anchors": ["fv3gfs/util/time.py:datetime64_to_datetime"]}
{"id": "C61", "title": "Several communicator objects can share an MPI communicator", "statement": "Several CubedSphereCommunicator objects made from the same MPI communicator (each with its own halo tag counter, so that they use the same message tags) do not disturb each other if their calls are blocking: any sequence of blocking calls on any of the objects, the same on all ranks, ends on all ranks and has the effect of the same sequence of calls on one object. When all ranks have finished, every halo message has been received; none is left over for a later user of the MPI communicator. (Limit, proved: updates that are outstanding at the same time on two objects, and waited for in another order than they were started, store the data of one quantity in the halo of the other without an error.)", "quantifier": "all square float-safe layouts, numbers of communicator objects, sequences of blocking calls, memory contents, schedules and bufferings", "why_tests_cant": "whether a reused tag can match an older message depends on the schedule and on the buffering; a test sees one schedule", "anchors": ["fv3gfs/util/communicator.py:CubedSphereCommunicator.__init__", "fv3gfs/util/communicator.py:CubedSphereCommunicator._get_halo_tag", "fv3gfs/util/communicator.py:CubedSphereCommunicator.halo_update", "fv3gfs/util/communicator.py:HaloUpdateRequest.wait"]}
{"id": "C62", "title": "A killed recording is complete up to its last two steps", "statement": "If a run that records with ZarrMonitor is stopped at an arbitrary point (each rank at another one) and the array of times then has n entries, then all but the last two steps are complete in the store, for every variable: at every point of every tile there is the value that the responsible rank had. Of variables that precede 'time' in alphabetical order all but the last step is complete, and so are all times but the last. (Limit, proved: the last two steps can be incomplete although they are visible in the array of times, and the last time can be a fill value.)", "quantifier": "all points at which a run is stopped: all interleavings of the ranks' actions, all prefixes; all layouts (float-safe), numbers of steps, variables, extents, data", "why_tests_cant": "a kill can hit every rank at every instruction; tests only read stores of runs that ended", "anchors": ["fv3gfs/util/zarr_monitor.py:ZarrMonitor.store", "_ZarrVariableWriter.append", "_ZarrTimeWriter.append"]}
{"id": "C63", "title": "Assignments through views broadcast, and reading gives back what was assigned", "statement": "An assignment through Quantity.view, or its corners and interior, with any index that can be read, raises ValueError exactly if the value cannot be broadcast to the shape that the index reads, and then changes nothing. Otherwise the same index afterwards reads the value, broadcast by numpy's rule, and no element which is not shown through that index has changed, nor have dims, units, origin, extent or the shape.", "quantifier": "all quantities with at least one axis, indices (integers, slices with any bounds and steps, tuples), corners, shapes and values", "why_tests_cant": "the index arithmetic combines origin, extent and the signs of bounds and steps; tests try a few slices", "anchors": ["fv3gfs/util/quantity.py:BoundaryArrayView.__setitem__", "fv3gfs/util/quantity.py:BoundedArrayView.__setitem__", "fv3gfs/util/quantity.py:BoundedArrayView._get_compute_index"]}
{"id": "C64", "title": "Whole states can be checkpointed between any other calls", "statement": "Any sequence of scatter_state, gather_state, scatter, gather, halo updates, vector halo updates, synchronisations and computations on one CubedSphereCommunicator, the same on all ranks, ends on all ranks and has the effect of performing the calls one after the other on all ranks; other quantities and other states than those of a call are not changed by it. In particular, gathering a state on the root and scattering it later, after any other calls that do not gather into the same global quantities, gives every rank the compute domain values of all variables back (if the ranks agreed about shared points; always without interface dimensions), and all ranks the time that root had.", "quantifier": "all square float-safe layouts, sequences of calls, numbers and names of variables and states, memory contents, schedules and bufferings", "why_tests_cant": "how many messages scatter_state exchanges is only known from the first message; whether they can be confused with those of other calls depends on the schedule and buffering", "anchors": ["fv3gfs/util/communicator.py:Communicator.scatter_state", "fv3gfs/util/communicator.py:Communicator.gather_state", "fv3gfs/util/communicator.py:Communicator.scatter", "fv3gfs/util/communicator.py:Communicator.gather", "fv3gfs/util/communicator.py:CubedSphereCommunicator.halo_update"]}
{"id": "C65", "title": "Model codes with winds compute the same on every layout", "statement": "A model code scatters a global state, makes any sequence of halo updates of scalars, vector halo updates and interface synchronisations of winds and local computations, and gathers a state. Suppose that its computations are, on every rank, some operation on fields and vector fields on the sphere given that the values they use are there, and that the code updates halos before they are used (and synchronises winds on which the edges shared with other ranks were not computed). Then the run ends on all ranks without an error and the state gathered is the field that results from applying the operations one after the other to the initial fields; winds are components along the axes of each tile. Hence the results on any two layouts of the same grid are equal, also if they update halos at different times. The time of the scattered state is the time of the gathered one.", "quantifier": "all square float-safe layouts, grid sizes, halo widths, numbers of scalars and winds, levels and other axes, sequences of steps, computations and operations, field values, schedules and bufferings", "why_tests_cant": "layout independence of a whole model run combines the rotation of data and of vector components across tile edges, the synchronisation of shared edges, and scattering and gathering; tests compare single calls on one layout", "anchors": ["fv3gfs/util/communicator.py:CubedSphereCommunicator.halo_update", "fv3gfs/util/communicator.py:CubedSphereCommunicator.vector_halo_update", "fv3gfs/util/communicator.py:CubedSphereCommunicator.synchronize_vector_interfaces", "fv3gfs/util/communicator.py:Communicator.scatter_state", "fv3gfs/util/communicator.py:Communicator.gather_state"]}
{"id": "C66", "title": "Rejected halo updates harm nothing", "statement": "A model code that catches exceptions attempts halo updates, vector halo updates and synchronisations, some of which are rejected for their arguments on all ranks (no halo points: ValueError; more halo points than the arrays have: OutOfBoundsError; components not on the C grid: ValueError), among any other calls of the communicator. The program ends on all ranks; every attempt has the outcome due, the same on all ranks; and the effect on all quantities is that of the program without the rejected attempts. The messages that a rejected call had already sent are never received by a later one. (For communicators whose timer is disabled, or with ValueErrors only: see C53. Limit, proved: if a call is rejected on one rank only, its neighbours can wait for ever.)", "quantifier": "all square float-safe layouts, programs, positions and kinds of rejected attempts, memory contents, schedules and bufferings", "why_tests_cant": "whether a message left over by a failed call is mistaken for one of a later call depends on tags, schedule and buffering; tests stop at the exception", "anchors": ["fv3gfs/util/communicator.py:CubedSphereCommunicator.halo_update", "fv3gfs/util/communicator.py:CubedSphereCommunicator.vector_halo_update", "fv3gfs/util/communicator.py:CubedSphereCommunicator.synchronize_vector_interfaces", "fv3gfs/util/communicator.py:CubedSphereCommunicator._get_halo_tag"]}
{"id": "C67", "title": "Tile communicators and the cubed-sphere communicator can be used together", "statement": "Any sequence of calls in which, between calls of the CubedSphereCommunicator (as in C64) and computations, each tile makes calls of its own tile communicator (scatter, gather, scatter_state, gather_state; different tiles different calls, or none) ends on all ranks and has the effect of performing the calls one after the other: a call of a tile communicator has the effect of that collective on the ranks of the tile and changes nothing on the other tiles. In particular, gathering the state of one tile on the tile's root and scattering it later, whatever the other tiles and the cubed-sphere communicator do meanwhile, gives the ranks of the tile the compute domain values of all variables and the root's time back; and what a tile gathers is the part for that tile of what the cubed-sphere communicator gathers.", "quantifier": "all square float-safe layouts, sequences of calls with any choice of tile calls, numbers and names of variables and states, memory contents, schedules and bufferings", "why_tests_cant": "the ranks of different tiles are at different points of their programs and messages of the communicators are under way at the same time; tests use one communicator at a time", "anchors": ["fv3gfs/util/communicator.py:CubedSphereCommunicator.tile", "fv3gfs/util/communicator.py:TileCommunicator", "fv3gfs/util/communicator.py:Communicator.scatter", "fv3gfs/util/communicator.py:Communicator.gather", "fv3gfs/util/communicator.py:Communicator.scatter_state", "fv3gfs/util/communicator.py:Communicator.gather_state"]}
{"id": "C68", "title": "Quantities and xarray data arrays convert into each other", "statement": "quantity.data_array has the dimensions, units and compute domain values of the quantity and nothing of its halo. Quantity.from_data_array raises ValueError for an array without units; otherwise it raises (ValueError) exactly if dimension names, origin or extent do not have one entry per axis, and gives a quantity with the values, dimensions and units of the array and the origin and extent given (default: the whole array). from_data_array(quantity.data_array) is the compute domain of the quantity as a quantity without halo, and its data_array is the same again.", "quantifier": "all quantities with any number of axes, origins, extents and values; all arrays, origins and extents", "why_tests_cant": "universal over ranks, origins, extents and optional arguments", "anchors": ["fv3gfs/util/quantity.py:Quantity.from_data_array", "fv3gfs/util/quantity.py:Quantity.data_array", "fv3gfs/util/quantity.py:Quantity.__init__"]}
{"id": "C69", "title": "Restart files, gathered quantities and recordings fit together", "statement": "The zarr array of a variable holds, at every step, exactly what gather returns on root for the quantities the ranks stored in that step (also at interface points where ranks disagree). The variables which the ranks load with open_restart, gathered on the cubed-sphere communicator, are the stack of the variables in the files of the six tiles; stored with ZarrMonitor, the array has for each tile what the files of the tile have.", "quantifier": "all float-safe layouts, numbers of steps, variables, dimension lists with one x-type and one y-type dimension, file contents, schedules and bufferings", "why_tests_cant": "three components with their own decomposition code must agree about the place of every point for all layouts; tests check each with small arrays of its own", "anchors": ["fv3gfs/util/zarr_monitor.py:ZarrMonitor.store", "fv3gfs/util/_legacy_restart.py:open_restart", "fv3gfs/util/communicator.py:Communicator.gather", "fv3gfs/util/communicator.py:Communicator.scatter_state"]}
{"id": "C70", "title": "Tile communicators are made when they are first used, which all tiles must do together", "statement": "communicator.tile creates the tile communicator when it is used for the first time, with a collective call of all ranks of the cubed sphere. If the ranks of all tiles use it in the call in which it is first used, any sequence of calls as in C67 ends on all ranks with the effect of C67, although nothing was set up in advance. Limit, proved: if at the first use only some tiles use it, and the others make no collective call later (they may update halos), the ranks that use it never return, in any schedule and for any buffering.", "quantifier": "all square float-safe layouts, sequences of calls with any choice of tile calls, memory contents, schedules and bufferings", "why_tests_cant": "whether the ranks get through the creation depends on what all other ranks do later; a test which hangs says nothing about other schedules, and a test with communicators made in advance does not meet the creation", "anchors": ["fv3gfs/util/communicator.py:CubedSphereCommunicator.tile", "fv3gfs/util/communicator.py:CubedSphereCommunicator._initialize_tile_communicator", "fv3gfs/util/communicator.py:TileCommunicator"]}
{"id": "C71", "title": "MPI compares no shapes of messages, and need not", "statement": "MPI checks only that a message is not longer than the buffer it is received in: the elements are stored one after the other whatever the shapes on both sides are, and a short message leaves the rest of the buffer as it was. Nevertheless, in any sequence of valid calls (as in C70: halo updates, synchronization, scatter, gather, states, tile communicators; as in C57: updates that are started and waited for in separate calls; as in C75: both together) every message has exactly the shape of its destination, and what was in the receive buffers before never gets into a result. Limit, proved: if one rank has its quantity with the dimensions in another order and the same number of elements, gather returns on all ranks without an exception and the part of that rank is scrambled.", "quantifier": "all square float-safe layouts, sequences of calls, memory contents, contents of the receive buffers, schedules and bufferings", "why_tests_cant": "a wrong shape is silent: only the values show it, and only if the test compares every point, for layouts, dimension orders and halo widths for which the shapes differ", "anchors": ["fv3gfs/util/communicator.py:Communicator.gather", "fv3gfs/util/communicator.py:Communicator.scatter", "fv3gfs/util/communicator.py:HaloUpdateRequest.wait", "fv3gfs/util/communicator.py:Communicator._Irecv", "fv3gfs/util/buffer.py:recv_buffer"]}
{"id": "C72", "title": "The test communicator gives what MPI gives", "statement": "The tests of the package, and of model codes, run all ranks in one process over DummyComm objects, which neither wait nor look at tags. If all ranks start the same updates (halo updates, vector halo updates, synchronisations) and wait for them in the order of the starts, with computations in between, and the process makes the calls of the ranks in any order in which no rank waits for an update before all ranks have started it (for instance each call for all ranks before the next call), then no call raises an exception and every rank ends with the quantities it ends with under MPI; in particular halos are filled. Limits, proved: the blocking halo_update raises ConcurrencyError on the first rank; two outstanding updates that are waited for in the opposite order silently exchange their data, whereas under MPI they do not.", "quantifier": "all square layouts, updates, numbers of outstanding updates, computations, memory contents, orders of the calls in the process; schedules and bufferings of MPI", "why_tests_cant": "it is about what tests with the test communicator can tell: the messages between two ranks are matched by order only, and whether that is right depends on the order in which boundaries are visited on both sides and on the interleaving of the calls", "anchors": ["fv3gfs/util/testing/dummy_comm.py:DummyComm", "fv3gfs/util/communicator.py:CubedSphereCommunicator.start_halo_update", "fv3gfs/util/communicator.py:CubedSphereCommunicator.start_vector_halo_update", "fv3gfs/util/communicator.py:CubedSphereCommunicator.start_synchronize_vector_interfaces", "fv3gfs/util/communicator.py:HaloUpdateRequest.wait"]}
{"id": "C73", "title": "Collectives over the test communicator", "statement": "In one process over DummyComm, after any earlier rounds of calls: scatter and scatter_state called on rank 0 and then on the other ranks in any order return on every rank what they return under MPI (its part of root's compute domain, in the given or a new quantity); gather called on rank 0 after the others, in any order of these, returns what it returns under MPI, whatever earlier gathers left behind; a scatter followed by a gather gives root's compute domain back. Limits: another rank called before root in scatter raises IndexError; root called first in gather raises ConcurrencyError the first time, and later silently uses what the others gathered in the round before; gather_state returns, for every variable, root's own values but the other ranks' values of the last variable of their states (right only for one variable); the tile communicator of a cubed-sphere communicator over DummyComm has one rank, and gather on it succeeds for larger layouts with uninitialised memory in the parts of the other ranks.", "quantifier": "all layouts, quantities, states, orders of the ranks other than root, histories of earlier rounds", "why_tests_cant": "the tests of the package use one round on new communicators and states with one variable", "anchors": ["fv3gfs/util/communicator.py:Communicator.scatter", "fv3gfs/util/communicator.py:Communicator.gather", "fv3gfs/util/communicator.py:Communicator.scatter_state", "fv3gfs/util/communicator.py:Communicator.gather_state", "fv3gfs/util/testing/dummy_comm.py:DummyComm"]}
{"id": "C74", "title": "Halo updates use up the tags of MPI", "statement": "A communicator takes a new message tag for every halo update and every synchronisation of interfaces, and two for every vector halo update; MPI has tags up to a largest one, which is at least 32767. Any valid sequence of calls (as in C57 and C75, with updates outstanding or not, with collectives and tile communicators) that takes at most as many tags as MPI has does what it does without such a bound. Limit: one that takes more ends with an exception on every rank, in every schedule; no rank hangs. The tags are counted for each communicator object: with a new object after every k calls, on the same MPI communicator, any number of blocking calls works with every MPI that has 2k tags.", "quantifier": "all largest tags, square float-safe layouts, valid sequences of calls of any length, memory contents, schedules and bufferings", "why_tests_cant": "tests make a few updates; the failure needs more than 32767 of them, and depends on the MPI library", "anchors": ["fv3gfs/util/communicator.py:CubedSphereCommunicator._get_halo_tag", "fv3gfs/util/communicator.py:CubedSphereCommunicator.start_halo_update", "fv3gfs/util/communicator.py:CubedSphereCommunicator.start_vector_halo_update", "fv3gfs/util/communicator.py:CubedSphereCommunicator.start_synchronize_vector_interfaces"]}
{"id": "C75", "title": "Complete sessions: updates may be outstanding during any other calls", "statement": "Any sequence of calls of a cubed-sphere communicator and its tile communicators returns on all ranks: updates of halos and interfaces started and waited for in separate calls, computations, scatter, gather, scatter_state and gather_state of the cubed sphere, and the same of the tile communicators, where the tiles may make different calls, and the first of them creates the tile communicators. All of these may happen while updates are outstanding. The effect is that of the calls one after the other on all ranks, where a wait stores what the ranks had when the update was started and changes nothing else: after the wait the halo (or interface) holds the values the owners of the points had at the start, and everything else is as it was just before the wait, whatever was gathered, scattered or computed in between.", "quantifier": "all square float-safe layouts, valid sequences of calls with any number of outstanding updates, memory contents, global quantities, schedules and bufferings", "why_tests_cant": "whether messages of outstanding updates, of two kinds of collective communicators and of the creation of communicators can meet depends on the schedule; tests complete each call before the next", "anchors": ["fv3gfs/util/communicator.py:HaloUpdateRequest.wait", "fv3gfs/util/communicator.py:CubedSphereCommunicator.start_halo_update", "fv3gfs/util/communicator.py:CubedSphereCommunicator.start_vector_halo_update", "fv3gfs/util/communicator.py:CubedSphereCommunicator.start_synchronize_vector_interfaces", "fv3gfs/util/communicator.py:CubedSphereCommunicator.tile", "fv3gfs/util/communicator.py:Communicator.scatter_state", "fv3gfs/util/communicator.py:Communicator.gather_state"]}
{"id": "C76", "title": "Views indexed with arrays of indices, masks, lists, new axes and ellipsis", "statement": "With integers, slices and one-dimensional integer arrays which name points of the compute domain counted from 0, view[index] is numpy indexing of the compute domain: the same result, or IndexError for both. An array on one axis selects those points in the given order; in corner views it counts from the corner; a number outside the data raises IndexError. Limits, proved: negative numbers in an array are points of the halo before the compute domain, not counted from its end (and beyond the halo they wrap around to the end of the data); a mask is silently taken for the numbers 0 and 1 (the result is as long as the mask and holds points 0 and 1 only); a list is taken for a tuple, view[[i, j]] being view[i, j]; a new axis (None) shifts the origins and extents of the later axes by one, so that the last axis is returned with its halo (corner views raise TypeError); an ellipsis, or a list inside a tuple, raises TypeError; None together with an index for every axis raises AttributeError.", "quantifier": "all quantities with their compute domain inside the data, all index expressions of these kinds, all axes, lengths and contents of arrays and masks", "why_tests_cant": "tests index views with a few integers and slices; the wrong results are silent and have plausible values, and depend on origins, extents and position of the entry", "anchors": ["fv3gfs/util/quantity.py:BoundedArrayView.__getitem__", "fv3gfs/util/quantity.py:BoundedArrayView._get_compute_index", "fv3gfs/util/quantity.py:BoundaryArrayView._get_array_index", "fv3gfs/util/_boundary_utils.py:_shift_boundary_slice"]}
{"id": "C77", "title": "Assignments through views with arrays of indices, masks, lists and new axes", "statement": "view[index] = value, with any index that can be read (integers, slices, one-dimensional integer arrays, masks, lists, new axes; also through corner views), raises ValueError if the value cannot be broadcast to the shape that view[index] has, and otherwise gives every element shown by view[index] the element of the broadcast value at that place, at the last place if an element is shown more than once; all other elements, the halo points among them, and the metadata stay. With distinct numbers in an array the same index then reads the value. An index that raises when read raises the same when assigned to. Limits, proved: view[mask] = value does not assign where the mask is true but to the points 0 and 1 of the axis, and nothing else can change; view[[i, j]] = value is view[i, j] = value; view[None] = x also overwrites halo points of the last axis.", "quantifier": "all quantities with their compute domain inside the data, all index expressions of these kinds, all values and shapes of values, all axes, lengths and contents of arrays and masks", "why_tests_cant": "tests assign through slices only; a wrong assignment is silent, and which elements change depends on origins, extents, repeated numbers and broadcasting", "anchors": ["fv3gfs/util/quantity.py:BoundedArrayView.__setitem__", "fv3gfs/util/quantity.py:BoundedArrayView._get_compute_index", "fv3gfs/util/quantity.py:BoundaryArrayView.__setitem__", "fv3gfs/util/_boundary_utils.py:_shift_boundary_slice"]}
{"id": "C78", "title": "Rejected starts in complete sessions leave no trace", "statement": "In a program that uses a cubed-sphere communicator and its tile communicators in any way (updates started and waited for separately, collectives of the cube and of the tiles, computations), starts of updates which are rejected for their arguments (no halo points, more halo points than the arrays hold, components that are not on the C grid) and whose exception is caught leave no trace: the exception is the same on all ranks, the program ends on all ranks, and all quantities, gathered quantities and times are those of the program without the rejected starts, although a rejected start can already have sent messages and used a tag. In particular an update that is outstanding while other starts are rejected is completed with what the ranks held when it was started.", "quantifier": "all programs of such calls in which every start is valid or rejected on all ranks, all positions of the rejected starts, float-safe square layouts, data, schedules and bufferings", "why_tests_cant": "the messages of a rejected start stay in MPI for ever; whether a later receive can match one of them depends on all the tags used in the rest of the program", "anchors": ["fv3gfs/util/communicator.py:CubedSphereCommunicator._get_halo_tag", "fv3gfs/util/communicator.py:CubedSphereCommunicator.start_halo_update", "fv3gfs/util/communicator.py:CubedSphereCommunicator.start_vector_halo_update", "fv3gfs/util/communicator.py:CubedSphereCommunicator.start_synchronize_vector_interfaces", "fv3gfs/util/communicator.py:HaloUpdateRequest.wait"]}
{"id": "C79", "title": "Buffers are recycled: memory for messages does not grow", "statement": "However long the program, the number of arrays that array_buffer, send_buffer and recv_buffer allocate for an allocator, shape and dtype is the largest number of them in use at the same time, if no block is left by an exception; a program of nested with blocks allocates as many as such blocks are nested in each other; in particular all the receives of a model run together allocate one array for each shape and dtype of the views that are not contiguous, and none for contiguous ones. With exceptions it is at most that plus the number of blocks which were left by one (limit, proved: these do not give their buffers back to the cache).", "quantifier": "all histories of blocks (entered and left in any order, with exceptions), all programs of nested blocks, all allocators, shapes and dtypes", "why_tests_cant": "a test can count the allocations of one program; a leak that shows after thousands of updates, or with an unusual nesting or shape, is not seen", "anchors": ["fv3gfs/util/_boundary_utils.py:array_buffer", "fv3gfs/util/_boundary_utils.py:send_buffer", "fv3gfs/util/_boundary_utils.py:recv_buffer", "fv3gfs/util/communicator.py:CubedSphereCommunicator._Irecv"]}
{"id": "C80", "title": "Halo updates of quantities that share memory", "statement": "In a program in which quantities, arrays, storages, views of them and transposed quantities share memory in any way, a sequence of halo updates, vector halo updates, interface synchronisations and statements of the program ends on all ranks and has the effect of doing one thing after the other, where an update changes memory exactly where the data of its quantities is, to what the update is defined to put there. So an update is seen through every variable which shares the memory of the quantity and through no other; the quantities of different updates may share memory; they may be created, or assigned to through other variables, between the updates. A halo update of quantity.transpose(dims) fills the halo of the quantity itself, if it has no backend, and changes nothing else.", "quantifier": "all programs on objects as in C58, on each rank its own, all sequences of blocking updates between them whose quantities have fitting shapes, can be written and (within one update) do not share memory, all square layouts, schedules and bufferings", "why_tests_cant": "the tests use one freshly made quantity per update; whether an update of one object reaches another object, and only that one, depends on who shares which memory, which a program can arrange in unlimited ways", "anchors": ["fv3gfs/util/communicator.py:CubedSphereCommunicator.halo_update", "fv3gfs/util/communicator.py:CubedSphereCommunicator.vector_halo_update", "fv3gfs/util/communicator.py:CubedSphereCommunicator.synchronize_vector_interfaces", "fv3gfs/util/communicator.py:CubedSphereCommunicator._Irecv", "fv3gfs/util/quantity.py:Quantity.transpose", "fv3gfs/util/quantity.py:Quantity.data"]}
{"id": "C81", "title": "Updates of quantities that share memory, started and waited for separately", "statement": "In a program as in C80 in which updates are started and waited for in separate calls, with other updates and statements of the program between them in any order: all ranks end; starting an update changes nothing in memory; waiting for it stores what the ranks had when it was started, in the places of memory where the data of its quantities is at the time of the wait, and nowhere else. In particular after the wait for a halo update the halo of the quantity holds the values which the owners of the points had at the start, and memory outside this halo is as it was just before the wait, although the same memory may have been changed through other variables meanwhile, and other outstanding updates may be of quantities which are views of the same memory.", "quantifier": "all programs on objects as in C58, on each rank its own, all sequences of starts, waits (each for an update started before, once) and statements, in which the quantities of an update fit when it is started, all square layouts, schedules and bufferings", "why_tests_cant": "the tests start and wait for one update of a fresh quantity; which value of a shared array an outstanding update delivers, and through which variables it is seen, depends on an unlimited number of orders of starts, waits and assignments", "anchors": ["fv3gfs/util/communicator.py:CubedSphereCommunicator.start_halo_update", "fv3gfs/util/communicator.py:CubedSphereCommunicator.start_vector_halo_update", "fv3gfs/util/communicator.py:CubedSphereCommunicator.start_synchronize_vector_interfaces", "fv3gfs/util/communicator.py:HaloUpdateRequest.wait", "fv3gfs/util/quantity.py:Quantity.data"]}
{"id": "C82", "title": "Messages in shared memory that MPI reads late", "statement": "For contiguous data the communicator gives MPI the memory of the quantity and not a copy; this memory may also be that of arrays, storages, transposed quantities and other variables. At whatever time MPI reads each element, between the start of the send and its completion, every execution of a program as in C80 (blocking halo updates, vector halo updates and interface synchronisations, mixed with statements that create quantities and assign to memory through any variable) ends with all ranks finished, and memory is then as after doing one thing after the other. For one halo update: the halo holds what the owners of the points had at the beginning, and nothing else in memory has changed.", "quantifier": "all programs on objects as in C58, on each rank its own, all sequences of blocking updates between them whose quantities fit when the call is made, all square layouts, schedules, bufferings and times of reading", "why_tests_cant": "a test has no control over the time at which MPI reads memory, and the forms of sharing are unlimited", "anchors": ["fv3gfs/util/communicator.py:CubedSphereCommunicator.halo_update", "fv3gfs/util/communicator.py:CubedSphereCommunicator.vector_halo_update", "fv3gfs/util/communicator.py:CubedSphereCommunicator.synchronize_vector_interfaces", "fv3gfs/util/communicator.py:CubedSphereCommunicator._Isend", "fv3gfs/util/communicator.py:HaloUpdateRequest.wait", "fv3gfs/util/quantity.py:Quantity.data"]}
{"id": "C83", "title": "Outstanding updates of shared memory that MPI reads late", "statement": "In a program as in C81 (updates started and waited for in separate calls, with statements of the program and other updates between them, on quantities that share memory in any way), MPI reads each element that is sent from the memory of the sender at any time between the start of the send and its completion. If the program does not change what it is sending while the update is outstanding (directly, through another variable with the same memory, or by waiting for another update that receives into it), every execution ends with all ranks finished, and memory is then as after doing one thing after the other; in particular the halo holds after the wait what the owners of the points had at the start. For updates of halos it is enough that statements leave the compute domains of the outstanding quantities alone, and that of two updates outstanding at the same time the halo of one is not in the compute domain of the other: so a quantity and its transpose, or two updates of one quantity, can be outstanding together, and a program may change halos and everything else meanwhile.", "quantifier": "all programs on objects as in C58, on each rank its own, all sequences of starts, waits (each for an update started before, once) and statements, in which the quantities of an update fit when it is started and what is being sent is left alone, all square layouts, schedules, bufferings and times of reading", "why_tests_cant": "a test has no control over the time at which MPI reads memory; whether a statement changes something that is being sent depends on who shares memory with whom", "anchors": ["fv3gfs/util/communicator.py:CubedSphereCommunicator.start_halo_update", "fv3gfs/util/communicator.py:CubedSphereCommunicator.start_vector_halo_update", "fv3gfs/util/communicator.py:CubedSphereCommunicator.start_synchronize_vector_interfaces", "fv3gfs/util/communicator.py:CubedSphereCommunicator._Isend", "fv3gfs/util/communicator.py:HaloUpdateRequest.wait", "fv3gfs/util/quantity.py:Quantity.data"]}
{"id": "C84", "title": "Scatter and gather of quantities that share memory", "statement": "In a program in which quantities, arrays, storages and views of them share memory in any way, a sequence of scatters and gathers (of a tile or cubed-sphere communicator, into given quantities) and statements of the program ends on all ranks and has the effect of doing one thing after the other. The quantity that is sent and the one that is received into may share memory, or be the same object: scatter gives every rank its part of what root's quantity held before the call, gather gives root what the ranks held before the call (at points which several ranks have, the value of the highest rank); memory changes in the compute domain of the quantity that is received into and nowhere else, and gather does not change memory on the other ranks. In particular gather into the quantity that was scattered gives its compute domain back, although the scatter may have overwritten a part of it.", "quantifier": "all programs on objects as in C58, on each rank its own, all sequences of scatters, gathers and statements whose quantities have fitting shapes when the call is made and can be written where they are received into, all sharing of memory, float-safe layouts, schedules and bufferings", "why_tests_cant": "the tests use freshly made quantities; whether data is read after it was overwritten in shared memory depends on who shares which memory, which a program can arrange in unlimited ways", "anchors": ["fv3gfs/util/communicator.py:Communicator.scatter", "fv3gfs/util/communicator.py:Communicator.gather", "fv3gfs/util/quantity.py:Quantity.view", "fv3gfs/util/quantity.py:Quantity.data"]}
{"id": "C85", "title": "Updates, scatters and gathers of one communicator, on shared memory", "statement": "In a program in which quantities, arrays, storages and views of them share memory in any way, any sequence of blocking halo updates, vector updates, interface synchronisations, scatters and gathers of one cubed-sphere communicator, and statements of the program, ends on all ranks and leaves memory as doing one thing after the other would: no message of an update is taken for one of a collective or of another update. In particular, if root's global quantity holds a field on the cube, then after a scatter and a halo update the quantities of all ranks hold that field, halos included (up to the corners of the cube), even if they share memory with the global quantity; a gather then makes the global quantity a sample of the field again. The same holds for the two components of a wind after two scatters and a vector halo update, if the first scatter does not overwrite the second global quantity.", "quantifier": "all programs on objects as in C58, on each rank its own, all sequences of calls and statements whose quantities fit when the call is made, all sharing of memory, float-safe square layouts, fields, halo widths, schedules and bufferings", "why_tests_cant": "the tests make each kind of call alone on fresh quantities with a dummy communicator; orders of calls, schedules and the sharing of memory are unlimited", "anchors": ["fv3gfs/util/communicator.py:Communicator.scatter", "fv3gfs/util/communicator.py:Communicator.gather", "fv3gfs/util/communicator.py:CubedSphereCommunicator.halo_update", "fv3gfs/util/communicator.py:CubedSphereCommunicator.vector_halo_update", "fv3gfs/util/communicator.py:CubedSphereCommunicator.synchronize_vector_interfaces", "fv3gfs/util/quantity.py:Quantity.view"]}
{"id": "C86", "title": "scatter_state and gather_state of quantities that share memory", "statement": "If the quantities of states share memory in any way, scatter_state and gather_state return on all ranks, and memory is then as after scatters or gathers of the quantities one after the other, in the order of the root's state (scatter_state) or of the states sent (gather_state); the entries of the returned states are those of the states given, apart from the time: scatter_state gives all ranks the root's time (or removes theirs if it has none), gather_state gives the root's state the root's time if it sent one. If the quantities that are received into do not overlap each other or the quantities sent under other names, every one of them has what was sent under its name before the call, also if it shares memory with the quantity that is sent under its own name, and memory changes in the compute domains of these quantities and nowhere else. gather_state of what scatter_state has returned then gives the root's state its time and the compute domains of its quantities back.", "quantifier": "all programs on objects as in C58, on each rank its own, all states whose quantities fit, all sharing of memory, float-safe layouts, schedules and bufferings", "why_tests_cant": "the tests use fresh quantities; which quantities of a state share memory, and so whether a later scatter sends what an earlier one has overwritten, a program can arrange in unlimited ways", "anchors": ["fv3gfs/util/communicator.py:Communicator.scatter_state", "fv3gfs/util/communicator.py:Communicator.gather_state", "fv3gfs/util/communicator.py:Communicator.scatter", "fv3gfs/util/communicator.py:Communicator.gather", "fv3gfs/util/quantity.py:Quantity.view"]}
{"id": "C87", "title": "Programs with states, updates, scatters and gathers of one communicator, on shared memory", "statement": "In a program in which quantities, arrays, storages and views of them share memory in any way and dictionaries (states) refer to such quantities, any sequence of blocking halo updates, vector updates, interface synchronisations, scatters, gathers, scatter_state and gather_state of one cubed-sphere communicator, and statements of the program, ends on all ranks and leaves memory and the dictionaries as doing one thing after the other would. In particular, if the quantities of the root's state are samples of fields on the cube, then after scatter_state and a halo update of each quantity received every rank's quantities hold the fields, halos included (up to the corners of the cube), and its state has the root's time, even if the quantities share memory with the global ones of the same name; gather_state into the state that was scattered then leaves that state as it was, with quantities that are samples of the fields. The same holds of a state with any mixture of scalar fields and winds (two quantities each), if the halos of the winds are updated as vectors.", "quantifier": "all programs on objects as in C58, on each rank its own, all sequences of calls and statements whose arguments fit when the call is made, all sharing of memory, all states (any number of names, with or without a time), float-safe square layouts, fields, halo widths, schedules and bufferings", "why_tests_cant": "the tests make each kind of call alone on fresh quantities with a dummy communicator; orders of calls, schedules and the sharing of memory are unlimited", "anchors": ["fv3gfs/util/communicator.py:Communicator.scatter_state", "fv3gfs/util/communicator.py:Communicator.gather_state", "fv3gfs/util/communicator.py:Communicator.scatter", "fv3gfs/util/communicator.py:Communicator.gather", "fv3gfs/util/communicator.py:CubedSphereCommunicator.halo_update", "fv3gfs/util/communicator.py:CubedSphereCommunicator.vector_halo_update", "fv3gfs/util/communicator.py:CubedSphereCommunicator.synchronize_vector_interfaces", "fv3gfs/util/quantity.py:Quantity.view"]}
{"id": "C88", "title": "Scatters and gathers while updates are outstanding, on shared memory", "statement": "In a program in which quantities, arrays, storages and views of them share memory in any way, updates of one cubed-sphere communicator (halo updates, vector halo updates, interface synchronisations) are started and waited for in separate calls, and any scatters, gathers, other updates and statements of the program are made while they are outstanding. Every execution ends with all ranks finished, and memory is then as after doing one thing after the other: a scatter or gather uses what is in memory when it is called, does not disturb the outstanding updates and takes none of their messages; a wait stores what the ranks had when the update was started, even if a scatter has overwritten the quantity since, and changes only the quantities of the update. For a halo update: after the wait the halo holds what the owners of the points had at the start, and everything else in memory is as just before the wait. What memory is at the end does not depend on the schedule or the buffering.", "quantifier": "all programs on objects as in C58, on each rank its own, all sequences of starts, waits (each for an update started before it and not yet waited for), scatters, gathers and statements whose arguments fit when the call is made, all sharing of memory, float-safe square layouts, schedules and bufferings", "why_tests_cant": "the tests wait for every update before they make another call, and run one order of events; orders of calls, schedules and the sharing of memory are unlimited", "anchors": ["fv3gfs/util/communicator.py:CubedSphereCommunicator.start_halo_update", "fv3gfs/util/communicator.py:CubedSphereCommunicator.start_vector_halo_update", "fv3gfs/util/communicator.py:CubedSphereCommunicator.start_synchronize_vector_interfaces", "fv3gfs/util/communicator.py:HaloUpdateRequest.wait", "fv3gfs/util/communicator.py:Communicator.scatter", "fv3gfs/util/communicator.py:Communicator.gather", "fv3gfs/util/quantity.py:Quantity.view"]}
