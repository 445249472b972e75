{"id": "C01", "title": "Every tile and element has exactly one owner", "statement": "For any valid distribution, each global tile (and each global element) is owned by exactly one process of the grid, that process lies in the grid, and exactly that process reports a valid local index for it (all other processes report -1).", "quantifier": "all matrix sizes, block sizes, tile sizes dividing the block, grid sizes, source ranks, element offsets and all tile/element indices", "why_tests_cant": "ownership must partition an unbounded index space for every combination of seven parameters; tests sample a table of literals", "anchors": ["include/dlaf/matrix/util_distribution.h: rank_global_tile, local_tile_from_global_tile", "include/dlaf/matrix/distribution.h: Distribution::rank_global_tile, rank_global_element"]}
{"id": "C02", "title": "Global and local tile indices are inverse", "statement": "Converting a local tile index to global and back, on the same process, returns it unchanged; converting an owned global tile index to local and back returns it unchanged; and the global tile index obtained from a valid local index is owned by that process and lies inside the matrix.", "quantifier": "all valid distributions, all ranks, all local tile indices below the local number of tiles, all owned global tiles", "why_tests_cant": "a round trip over an unbounded five-parameter family", "anchors": ["include/dlaf/matrix/util_distribution.h: global_tile_from_local_tile, local_tile_from_global_tile", "include/dlaf/matrix/distribution.h"]}
{"id": "C03", "title": "Element indices decompose and recompose exactly", "statement": "Splitting a (global or local) element index into tile index and index inside the tile, and recombining, gives the element back; the index inside the tile is non-negative and smaller than the size of that tile; conversely every (tile, in-range tile element) pair is produced by exactly one element. Global and local element indices owned by a rank are inverse to each other.", "quantifier": "all valid distributions and offsets, all elements, all tiles", "why_tests_cant": "the first tile may be cut by any offset and the last by any size; all residues matter", "anchors": ["include/dlaf/matrix/util_distribution.h: tile_from_element, tile_element_from_element, element_from_tile_and_tile_element", "include/dlaf/matrix/distribution.h: global_element_index, local_element_from_global_element"]}
{"id": "C04", "title": "Local sizes count what the rank owns and add up to the matrix", "statement": "The local number of tiles reported by a rank equals the number of global tiles it owns, the local size equals the number of elements it owns, and summed over all ranks of the grid they give the global number of tiles and the global size.", "quantifier": "all valid distributions, all ranks", "why_tests_cant": "counting statement over unbounded sets; the closed formula has several corner cases (partial first block, partial last tile)", "anchors": ["src/matrix/distribution.cpp: compute_local_nr_tiles_and_local_size, compute_local_size, compute_global_nr_tiles"]}
{"id": "C05", "title": "Next local tile counts the owned tiles before a global tile", "statement": "next_local_tile_from_global_tile(t) equals the number of tiles with index < t owned by the rank; so looping local indices from next_local(a) to next_local(b) visits exactly the owned tiles t with a <= t < b, in increasing global order.", "quantifier": "all valid distributions, ranks, and tile positions including one past the last", "why_tests_cant": "every distributed algorithm uses it as loop bound; correctness is a counting statement for all positions", "anchors": ["include/dlaf/matrix/util_distribution.h: next_local_tile_from_global_tile", "include/dlaf/factorization/cholesky/impl.h: loop bounds"]}
{"id": "C06", "title": "Tile sizes are positive, bounded and sum to the matrix size", "statement": "Each tile of a matrix has size between 1 and the tile size, only the first and last can be smaller, the sizes of all tiles sum to the matrix size (globally, and locally to the local size), and the local and global query return the same size for the same tile.", "quantifier": "all valid distributions, all tile indices", "why_tests_cant": "sum over unboundedly many tiles with two boundary cases that can coincide", "anchors": ["include/dlaf/matrix/distribution.h: tile_size_of, global_tile_size_of, local_tile_size_of"]}
{"id": "C07", "title": "A sub-distribution keeps every element where it is", "statement": "The distribution of a sub-matrix (origin, size) assigns element (i,j) of the sub-matrix to the same rank, and to the same position inside the same memory tile, as the parent assigns element origin+(i,j); taking a sub-distribution of a sub-distribution equals taking it once with the summed origin.", "quantifier": "all parents, all origins and sizes inside the parent, all ranks", "why_tests_cant": "offset normalisation (carry into the source rank) must be right for all residues", "anchors": ["src/matrix/distribution.cpp: Distribution(Distribution, SubDistributionSpec), normalize_source_rank_and_offset", "include/dlaf/matrix/matrix_ref.h"]}
{"id": "C08", "title": "Linear index and 2D coordinates are inverse", "statement": "For row-major and column-major ordering, computing the linear index of an in-range 2D index and converting it back gives the index; all linear indices in [0, rows*cols) are hit exactly once.", "quantifier": "all 2D sizes, both orderings", "why_tests_cant": "bijection over unbounded sizes; product overflow is a model assumption", "anchors": ["include/dlaf/common/index2d.h: computeCoords, computeLinearIndex"]}
{"id": "C09", "title": "2D range iteration visits each index exactly once in column-major order", "statement": "Iterating a 2D range [begin,end) visits exactly the indices of the rectangle, each once, in column-major order, and visits nothing when the range is empty in either dimension.", "quantifier": "all begin/end pairs including empty in one dimension only", "why_tests_cant": "iteration arithmetic (modulo by leading dimension, empty guards) for all rectangles", "anchors": ["include/dlaf/common/range2d.h: IteratorRange2D, IterableRange2D, iterate_range2d"]}
{"id": "C10", "title": "Interleaved split points are exactly the union of the two grids", "statement": "interleaveSplits(len, block, o1, o2) returns a strictly increasing list that starts with 0 and ends with len and contains between them exactly the points of the grids {o1 + k*block} and {o2 + k*block} that lie strictly inside (0,len).", "quantifier": "all len>0, block>0, offsets in [0,block]", "why_tests_cant": "loop invariant with two moving fronts", "anchors": ["include/dlaf/util_math.h: interleaveSplits"]}
{"id": "C11", "title": "Matrix memory layouts never alias and stay inside the allocation", "statement": "For each allocation layout (ColMajor, Blocks, Tiles) and leading-dimension policy, two different local elements of a matrix have different addresses, and every address lies inside the allocated buffer.", "quantifier": "all distributions accepted by the constructors, all layouts, all ld policies, all pairs of local elements", "why_tests_cant": "aliasing is a statement about all pairs of elements; padding arithmetic has many cases", "anchors": ["include/dlaf/matrix/matrix.h: compute_ld, set_up_non_preallocated_tiles", "include/dlaf/matrix/col_major_layout.h"]}
{"id": "C12", "title": "User column-major buffers are addressed as ScaLAPACK does", "statement": "For a matrix created from a user's column-major local buffer with leading dimension ld, global element (i,j) is stored by process (INDXG2P) at buffer position INDXG2L(i)+INDXG2L(j)*ld, i.e. the C API sees exactly the ScaLAPACK block-cyclic layout.", "quantifier": "all sizes, block sizes, grids, source ranks, ld >= max(1, local rows)", "why_tests_cant": "interoperability contract for every descriptor", "anchors": ["include/dlaf/matrix/col_major_layout.h", "src/c_api/utils.cpp: make_grid/dist helpers", "include/dlaf/matrix/create_matrix.h"]}
{"id": "C13", "title": "Disjoint sub-tile specifications never share an element", "statement": "When splitTileDisjoint accepts a list of sub-tile specifications, no element of the tile belongs to two of the returned sub-tiles, each sub-tile addresses exactly the elements of its rectangle, inside the parent tile; if two non-empty specifications share an element they are rejected.", "quantifier": "all tiles, leading dimensions, lists of sub-tile specs", "why_tests_cant": "soundness and completeness of an overlap test over all pairs of rectangles", "anchors": ["include/dlaf/matrix/tile.h: subTileSpecsOverlap, splitTileDisjoint, createMemoryViewForSubtile"]}
{"id": "C14", "title": "Retiled views cover each element exactly once", "statement": "A view of a matrix with smaller tiles (retiled sub-pipeline, tiles_per_block) has the same size and element ownership, each new tile lies inside exactly one original tile, and each element of the matrix is in exactly one new tile at the same memory address.", "quantifier": "all matrices, all tiles_per_block accepted by the code", "why_tests_cant": "must hold for partial boundary tiles and all divisors; acceptance of non-dividing factors is part of the claim", "anchors": ["include/dlaf/matrix/matrix_base.h: MatrixBase(dist, tiles_per_block)", "include/dlaf/matrix/matrix.h: retiledSubPipeline"]}
{"id": "C15", "title": "Asynchronous tile access is deterministic under every schedule", "statement": "If tasks access tiles through read()/readwrite() requested in program order, then for every scheduler interleaving that respects the pipelines' grant rules, every task sees the tile contents it would see in sequential program order and the final matrix contents equal those of sequential execution.", "quantifier": "all task programs, all tile sets, all schedules", "why_tests_cant": "the number of interleavings is unbounded; stress tests sample a few", "anchors": ["include/dlaf/common/pipeline.h", "include/dlaf/matrix/internal/tile_pipeline.h", "include/dlaf/matrix/matrix.h: read, readwrite"]}
{"id": "C16", "title": "Tile pipelines grant many readers or one writer, in request order", "statement": "At any moment a tile is held either by any number of readers or by a single writer; a writer is granted only after all earlier requests are released, a reader only after all earlier writers are released; every request is eventually grantable once the earlier ones are released.", "quantifier": "all request/grant/release histories", "why_tests_cant": "safety and progress over unbounded histories", "anchors": ["include/dlaf/common/pipeline.h: Pipeline", "include/dlaf/matrix/internal/tile_pipeline.h: TilePipeline"]}
{"id": "C17", "title": "Sub-pipelines act as a single access of the parent", "statement": "All accesses through a sub-pipeline (of a tile or of a communicator) happen after all accesses requested on the parent before it was created and before all accesses requested on the parent after it, whenever they were requested on the sub-pipeline.", "quantifier": "all histories of sub-pipeline creation, requests and releases", "why_tests_cant": "nesting depth and histories unbounded", "anchors": ["include/dlaf/common/pipeline.h: sub_pipeline, release_parent_pipeline", "include/dlaf/matrix/matrix.h: subPipeline"]}
{"id": "C18", "title": "Process grid coordinates match the requested ordering", "statement": "A communicator grid assigns every rank of the input communicator exactly one grid position, given by the ordering; ranks in a row communicator share the row and are numbered by column, ranks in a column communicator share the column and are numbered by row, and the full communicator's numbering of positions is the one rankFullCommunicator returns.", "quantifier": "all grid shapes that fit in the communicator, both orderings, all ranks", "why_tests_cant": "depends on MPI_Comm_split key ordering for all sizes", "anchors": ["src/communication/communicator_grid.cpp", "include/dlaf/communication/communicator_grid.h"]}
{"id": "C19", "title": "Panel broadcast delivers the owner's tiles to everyone", "statement": "After broadcasting a panel (and its transposed panel) from the owning row/column, on every rank each panel tile in range equals the root rank's tile for that global index, and each transposed panel tile j in range equals the panel tile j.", "quantifier": "all square grids shapes and non-square, all distributions, all ranges, all contents", "why_tests_cant": "who sends to whom depends on the diagonal owner for each tile and grid shape", "anchors": ["include/dlaf/communication/broadcast_panel.h: broadcast(rank_root, panel, panelT, ...)"]}
{"id": "C20", "title": "Redistribution copies every tile to the right place", "statement": "copy(src, dst, grid) leaves in dst exactly the contents of src, for any two distributions of the same size and tiles on the same grid, whatever order non-blocking messages are issued in.", "quantifier": "all pairs of distributions, all message orderings permitted by MPI", "why_tests_cant": "message matching by tag under all schedules", "anchors": ["include/dlaf/matrix/copy.h"]}
{"id": "C21", "title": "Local matrix and tile copies are exact and leave the rest unchanged", "statement": "Copying between two matrices with the same distribution copies every element and changes no other memory, for any pair of leading dimensions.", "quantifier": "all sizes, tile sizes, leading dimensions of two matrices with the same distribution", "why_tests_cant": "frame condition over all memory cells", "anchors": ["include/dlaf/matrix/copy.h", "include/dlaf/matrix/copy_tile.h", "include/dlaf/common/data.h: copy"]}
{"id": "C22", "title": "Strided buffers are described faithfully", "statement": "A data descriptor normalised to blocks/blocksize/stride describes exactly the elements the tile covers, contiguity is reported only when the elements are contiguous, and copying between two descriptors of the same shape transfers element k to element k.", "quantifier": "all sizes, strides and shapes, both contiguous/strided combinations", "why_tests_cant": "all shapes incl. degenerate one-column tiles", "anchors": ["include/dlaf/common/data_descriptor.h", "include/dlaf/common/data.h", "include/dlaf/communication/message.h"]}
{"id": "C23", "title": "Temporary communication buffers are transparent", "statement": "Running an operation on a tile through a temporary (copy-in/copy-out, contiguous or device buffers) has the same effect on the tile as running it on the tile directly, for the copy-in/out flags used by send, receive, reduce and broadcast kernels.", "quantifier": "all non-empty tiles (matrix tiles are never empty, C06), all operations, all flag combinations used in the code", "why_tests_cant": "equivalence for all operations", "anchors": ["include/dlaf/sender/with_temporary_tile.h", "include/dlaf/communication/kernels"]}
{"id": "C24", "title": "C API grid handles are unique and stable", "statement": "A handle returned by dlaf_create_grid designates the grid created by that call until it is freed; creating or freeing other grids never changes which grid a live handle designates.", "quantifier": "all histories of create/free/lookup calls", "why_tests_cant": "history property: the failing history needs a free between creates", "anchors": ["src/c_api/grid.cpp"]}
{"id": "C25", "title": "Initialisation and finalisation are properly bracketed", "statement": "The library can be initialised again after finalise, double initialisation and double finalisation are rejected, and each configuration parameter takes the value of the highest-precedence source that sets it (command line over environment over user-supplied over default).", "quantifier": "all histories of init/finalize calls; all combinations of sources", "why_tests_cant": "history property and all combinations of optional sources", "anchors": ["src/init.cpp", "src/c_api/init.cpp"]}
{"id": "C26", "title": "A reused panel behaves like a fresh one", "statement": "After reset() and setting its range, a workspace panel gives the same tile sizes, ranges and storage for any later sequence of calls as a newly constructed panel with that range would; every tile of the range has exactly the elements of the corresponding matrix tile from the range start on.", "quantifier": "all sequences of setRange/setWidth/setTile/read/readwrite/reset calls", "why_tests_cant": "history property; stale state shows only for certain sequences", "anchors": ["include/dlaf/matrix/panel.h"]}
{"id": "C27", "title": "Sub-matrix references address the parent's elements", "statement": "Reading/writing tile (i,j), element (a,b) through a matrix reference (origin, size) addresses the parent's element origin + position, and no element outside the referenced rectangle is reachable.", "quantifier": "all parents, origins, sizes, tiles", "why_tests_cant": "partial first and last tiles for all offsets", "anchors": ["include/dlaf/matrix/matrix_ref.h"]}
{"id": "C28", "title": "HDF5 write then read is the identity", "statement": "Writing a distributed matrix to a file and reading it with any other grid, tile size and source rank reproduces every element.", "quantifier": "all sizes, two arbitrary distributions, all leading dimensions", "why_tests_cant": "two independent distributions and hyperslab arithmetic", "anchors": ["include/dlaf/matrix/hdf5.h"]}
{"id": "C29", "title": "Blocked Cholesky computes the Cholesky factor", "statement": "The local lower (upper) factorisation overwrites the lower (upper) triangle of A with a triangular L (U) such that L L^H = A (U^H U = A) given that the tile kernels satisfy their specifications; the other triangle of tiles is not modified.", "quantifier": "all matrix sizes, tile sizes, and contents over any commutative star ring/field (exact arithmetic)", "why_tests_cant": "algebraic identity for all sizes", "anchors": ["include/dlaf/factorization/cholesky/impl.h: call_L, call_U"]}
{"id": "C30", "title": "Distributed algorithms equal their local counterpart", "statement": "The distributed Cholesky factorisation leaves on every rank exactly the tiles the local algorithm computes, for every grid shape, source rank and tile size, and every rank issues the same sequence of collective operations on each shared communicator.", "quantifier": "all grids, distributions, sizes, contents", "why_tests_cant": "SPMD control flow differs per rank; must agree for all grids", "anchors": ["include/dlaf/factorization/cholesky/impl.h: call_L(grid,...)", "include/dlaf/communication/broadcast_panel.h"]}
{"id": "C31", "title": "Triangular solve solves", "statement": "For each of the eight side/uplo/op combinations the blocked algorithm returns X with op(A) X = alpha B (X op(A) = alpha B), also for alpha = 0, reading only the selected triangle of A.", "quantifier": "all sizes, tile sizes, alpha, contents (exact arithmetic, kernels satisfying their specs)", "why_tests_cant": "algebraic identity for all sizes", "anchors": ["include/dlaf/solver/triangular/impl.h"]}
{"id": "C32", "title": "Triangular, general and Hermitian multiplication multiply", "statement": "The blocked in-place triangular multiply returns alpha op(A) B (or alpha B op(A)); general and Hermitian multiply return alpha A B + beta C, for all sizes, with every tile updated exactly the required number of times.", "quantifier": "all sizes, tile counts, alpha, beta, contents", "why_tests_cant": "in-place update order must be right for all sizes", "anchors": ["include/dlaf/multiplication/triangular/impl.h", "include/dlaf/multiplication/general/impl.h", "include/dlaf/multiplication/hermitian/impl.h"]}
{"id": "C33", "title": "Inverse from the Cholesky factor and triangular inverse", "statement": "The blocked triangular inverse returns the inverse of the triangular matrix and the Cholesky-based inverse returns the inverse of A in the selected triangle.", "quantifier": "all sizes and contents (exact arithmetic)", "why_tests_cant": "in-place algorithm; algebraic identity for all sizes", "anchors": ["include/dlaf/inverse/triangular/impl.h", "include/dlaf/inverse/cholesky/impl.h"]}
{"id": "C34", "title": "Index permutation utilities are permutations and inverses", "statement": "Initialising, sorting (merging), applying and inverting index vectors in the tridiagonal solver yields permutations: sort returns a permutation that orders the values, inverse undoes apply, for every sub-range.", "quantifier": "all sizes, all values, all split points", "why_tests_cant": "permutation property for all inputs", "anchors": ["include/dlaf/eigensolver/tridiag_solver/index_manipulation.h"]}
{"id": "C35", "title": "Deflation partition orders eigenvectors by type", "statement": "The deflation partition returns permutations of 0..n-1: the first k entries are the non-deflated indices in the given order, the remaining ones the deflated indices sorted by eigenvalue; the by-type permutation groups upper, dense, lower, deflated with the counts returned.", "quantifier": "all type vectors, eigenvalues and input permutations", "why_tests_cant": "in-place insertion and counting sort for all inputs", "anchors": ["include/dlaf/eigensolver/tridiag_solver/merge.h: stablePartitionIndexForDeflationArrays"]}
{"id": "C36", "title": "Permutation of a matrix moves whole rows/columns", "statement": "permutations::permute writes to column (row) i of the output the column (row) perm[i] of the input, for the selected tile range, leaving everything outside unchanged, locally and distributed.", "quantifier": "all distributions, ranges, permutations", "why_tests_cant": "packing/unpacking and message counts for all permutations and grids", "anchors": ["include/dlaf/permutations/general/impl.h"]}
{"id": "C37", "title": "Band size choice divides the tile size", "statement": "The band size chosen for the reduction to band divides the tile size and is the smallest divisor not below the tuning minimum (or the tile size itself).", "quantifier": "all tile sizes and tuning values", "why_tests_cant": "number-theoretic for all inputs", "anchors": ["include/dlaf/eigensolver/internal/get_band_size.h"]}
{"id": "C38", "title": "Max norm is the maximum over the selected entries", "statement": "The max norm returned on the requested rank is the maximum absolute value over the lower triangle (or the whole) of the distributed matrix, 0 for an empty matrix.", "quantifier": "all distributions, contents, ranks", "why_tests_cant": "reduction over ranks with empty local parts", "anchors": ["include/dlaf/auxiliary/norm/mc.h", "include/dlaf/auxiliary/norm.h"]}
{"id": "C39", "title": "Invalid distribution parameters are rejected, valid ones accepted", "statement": "Constructing a distribution succeeds exactly for non-negative sizes, positive tile/block/grid sizes with tile dividing block, and ranks inside the grid; the resulting internal offset lies in [0, block) and the source rank in the grid.", "quantifier": "all integer parameters including negative ones", "why_tests_cant": "the rejected set is infinite", "anchors": ["src/matrix/distribution.cpp: constructors"]}
{"id": "C40", "title": "Distribution helpers for other ranks agree with those ranks", "statement": "Each on-rank helper (owner queries, local sizes, local/global conversions for an explicit rank) evaluated on any process returns what that rank itself would report.", "quantifier": "all distributions, pairs of ranks, indices", "why_tests_cant": "relational property between processes", "anchors": ["include/dlaf/matrix/distribution_extensions.h"]}
{"id": "C41", "title": "Reductions combine every rank's contribution once", "statement": "Tile reduce, all-reduce and the point-to-point all-sum return, on the ranks that should get it, the sum of all ranks' tiles, with the data of non-receiving ranks unchanged.", "quantifier": "all communicator sizes, non-empty tiles, contents, in-place and out-of-place variants", "why_tests_cant": "for all communicator sizes; commutative-monoid reasoning", "anchors": ["include/dlaf/communication/kernels/internal/all_reduce.h", "include/dlaf/communication/kernels/internal/p2p_allsum.h", "include/dlaf/communication/kernels/internal/reduce.h"]}
{"id": "C42", "title": "Standardising a generalised eigenproblem is the exact congruence", "statement": "gen_to_std overwrites the selected triangle of A with inv(L) A inv(L)^H (inv(U)^H A inv(U)), for all sizes.", "quantifier": "all sizes and contents (exact arithmetic)", "why_tests_cant": "two-sided in-place update with partial hermitian tiles", "anchors": ["include/dlaf/eigensolver/gen_to_std/impl.h"]}
{"id": "C43", "title": "The result of a distributed computation does not depend on process timing", "statement": "If the processes of a grid, each issuing its tile operations and collectives in program order, can run to the end under one schedule, then under every schedule they run to the end, without deadlock or abort, with the same final contents on every process.", "quantifier": "all programs made of local operations and broadcasts/reductions on row and column communicators, all interleavings", "why_tests_cant": "the number of interleavings is unbounded; a test sees a few", "anchors": ["include/dlaf/communication/communicator_pipeline.h: exclusive", "include/dlaf/communication/broadcast_panel.h", "src/communication/kernels/broadcast.cpp"]}
{"id": "C44", "title": "The T factor represents the product of the reflectors, whatever the workers do", "statement": "computeTFactor on a panel of k Householder reflectors leaves in T an upper triangular tile with I - V T V^H = H_0 H_1 ... H_{k-1}, for every split of the panel in tiles, number of workers, interleaving of the workers, and (distributed) distribution of the rows over the ranks.", "quantifier": "all panel heights and widths, tile splits, numbers of workers and ranks, schedules of the worker threads, contents (exact arithmetic)", "why_tests_cant": "threads share tiles between barriers: interleavings unbounded; partial sums over any number of workers and ranks", "anchors": ["include/dlaf/factorization/qr/t_factor_impl.h", "include/dlaf/factorization/qr.h"]}
{"id": "C45", "title": "Back-transformation of the reduction to band applies exactly the stored reflectors", "statement": "bt_reduction_to_band overwrites C with H_0 H_1 ... H_{r-1} C, r = m - b - 1, where H_j = I - tau_j v_j v_j^H and v_j is stored below the b-th subdiagonal of V; the elements of V on and above that subdiagonal are not used, and nothing else changes.", "quantifier": "all sizes, band widths b (multiple of the tile size or not), tile sizes, numbers of columns, numbers of worker threads, contents (exact arithmetic)", "why_tests_cant": "partial tiles where the reflector diagonal crosses tile boundaries, for all sizes", "anchors": ["include/dlaf/eigensolver/bt_reduction_to_band/impl.h", "include/dlaf/eigensolver/bt_reduction_to_band.h"]}
{"id": "C46", "title": "Reduction to band computes a unitary similarity, for every thread schedule", "statement": "For a Hermitian matrix given by its lower triangle, reduction_to_band returns reflectors stored below the b-th subdiagonal and taus such that Q = H_0 H_1 ... H_{n-b-2} is unitary and the Hermitian band matrix left in the lower band equals Q^H A Q; the strictly upper triangle is not touched; the threads that reduce a panel end in the same state under every schedule, without deadlock; band widths below 2 or not dividing the tile size are refused.", "quantifier": "all orders, tile sizes, band widths, numbers of worker threads, interleavings of the panel threads, real and complex contents incl. zero columns and signed zeros (exact arithmetic)", "why_tests_cant": "tests compare a few sizes up to a tolerance under the schedules that happened", "anchors": ["include/dlaf/eigensolver/reduction_to_band/impl.h", "include/dlaf/eigensolver/reduction_to_band.h", "include/dlaf/eigensolver/internal/get_red2band_panel_nworkers.h"]}
{"id": "C47", "title": "Band to tridiagonal: every schedule of the sweeps gives the documented Q^H B Q, without races or deadlock", "statement": "band_to_tridiagonal on a local matrix, whose sweeps run concurrently as tasks synchronized by counting semaphores and a bounded number of workers, ends under every schedule, in the same state; the returned real tridiagonal matrix equals Q^H B Q, where B is the Hermitian matrix given by the lower band and Q the unitary product of the reflectors in the documented storage; no two tasks ever access the same memory concurrently, no access leaves the allocated buffers, and nothing else in the output matrices changes.", "quantifier": "all orders, tile sizes, band widths, numbers of threads, interleavings of the tasks, real and complex contents (exact arithmetic), all larfg that satisfy LAPACK's contract", "why_tests_cant": "the number of interleavings is astronomical and races show up rarely; tests compare few sizes up to a tolerance", "anchors": ["include/dlaf/eigensolver/band_to_tridiag/mc.h", "include/dlaf/eigensolver/band_to_tridiag/api.h", "include/dlaf/eigensolver/band_to_tridiag.h"]}
{"id": "C48", "title": "Back-transformation from tridiagonal to band form applies exactly the documented Q", "statement": "bt_band_to_tridiagonal on local memory replaces E by Q E, where Q is the product of the reflectors in the documented compact storage (the Q of band_to_tridiagonal), although it applies them in blocks across sweeps, last block column first and steps first to last, and in groups through WY representations; it never aborts on valid sizes, does not depend on previous workspace contents or on the group size, and changes nothing outside E. So eigenvectors of the tridiagonal matrix become eigenvectors of the band matrix, with the same scalar products.", "quantifier": "all orders, numbers of columns, tile sizes, band widths, group sizes, contents of the reflectors and of the workspaces, real and complex (exact arithmetic), all larft that satisfy LAPACK's contract", "why_tests_cant": "the reordering is valid only because certain reflectors never overlap, for every size; edge blocks (last sweep, size-1 reflectors, partial groups) depend on arithmetic relations between five sizes", "anchors": ["include/dlaf/eigensolver/bt_band_to_tridiag/impl.h", "include/dlaf/eigensolver/bt_band_to_tridiag.h", "include/dlaf/eigensolver/band_to_tridiag/api.h"]}
{"id": "C49", "title": "The Hermitian eigensolver returns eigenpairs for every input and schedule", "statement": "hermitian_eigensolver on local memory, lower triangle: no stage fails and no schedule blocks; A = U diag(lambda) U^H with U unitary, all eigenvalues ascending, and the requested eigenvectors (the first ones) are the first columns of U; if the tridiagonal eigensolver has an error, the Gram matrix of the residuals is exactly that of the tridiagonal problem; nothing outside the lower triangle of A, the eigenvalues and the eigenvectors changes. Violated preconditions and the upper triangle abort.", "quantifier": "all orders, tile sizes at least 2, minimal band widths, numbers of requested eigenvectors, Hermitian matrices, numbers of workers, schedules, previous workspace contents; real and complex (exact arithmetic)", "why_tests_cant": "the composition of five stages must agree on storage conventions of two families of reflectors for all sizes, and one stage is a concurrent program", "anchors": ["include/dlaf/eigensolver/eigensolver.h", "include/dlaf/eigensolver/eigensolver/impl.h", "include/dlaf/eigensolver/internal/get_band_size.h"]}
{"id": "C50", "title": "The generalized Hermitian eigensolver returns B-orthonormal eigenpairs", "statement": "hermitian_generalized_eigensolver on local memory, lower triangle: for positive definite B there is W with A W = B W diag(lambda), W^H B W = 1, eigenvalues ascending, whose first columns are the requested eigenvectors; mat_b holds the Cholesky factor afterwards (or is unchanged if it was given factorized); if B is not positive definite the call fails instead of returning a result; nothing else changes.", "quantifier": "all orders, tile sizes at least 2, numbers of requested eigenvectors, Hermitian A, Hermitian B, schedules, previous workspace contents; real and complex (exact arithmetic)", "why_tests_cant": "infinitely many matrices and schedules; the failure mode must hold for every indefinite B", "anchors": ["include/dlaf/eigensolver/gen_eigensolver.h", "include/dlaf/eigensolver/gen_eigensolver/impl.h"]}
{"id": "C51", "title": "The rank-one update solver returns orthonormal eigenpairs under every thread schedule", "statement": "The parallel solver of a merge step of the tridiagonal divide-and-conquer eigensolver: for ascending distinct d, z without zeros and rho > 0 it returns all eigenpairs of diag(d) + rho z z^T, eigenvalues ascending, eigenvectors orthonormal with their rows in the requested order, touches nothing outside the non-deflated block, and every schedule of the worker threads between barriers gives the same result and terminates.", "quantifier": "all sizes, numbers of non-deflated eigenvalues, tiles, workers, data, permutations and thread schedules; exact arithmetic", "why_tests_cant": "infinitely many inputs and interleavings; races depend on the split of columns among workers", "anchors": ["include/dlaf/eigensolver/tridiag_solver/merge.h: solveRank1Problem"]}
{"id": "C52", "title": "Deflation keeps the rank-one update problem up to the stated tolerance", "statement": "Deflation of diag(d) + rho z z^T in the tridiagonal divide-and-conquer eigensolver: d, z and the columns of the eigenvector matrix are all transformed by one and the same orthogonal matrix, which changes diag(d) into a diagonal matrix up to 2(n-1) tol in the operator norm; the entries kept are strictly ascending in the given order, at least one is kept and if two or more are kept each has |rho z| > tol; entries dropped have |rho z| <= tol; and the column types returned describe the zero halves of the transformed matrix.", "quantifier": "all sizes, thresholds tol >= 0, rho, vectors d and z, permutations of ascending d and column matrices; exact arithmetic", "why_tests_cant": "the sequence of rotations depends on the data in exponentially many ways; wrong types or a wrong sign only show for rare ties", "anchors": ["include/dlaf/eigensolver/tridiag_solver/merge.h: applyDeflationToArrays", "include/dlaf/eigensolver/tridiag_solver/rot.h: applyGivensRotationsToMatrixColumns"]}
{"id": "C53", "title": "Divide-and-conquer tridiagonal eigensolver solves the eigenproblem", "statement": "tridiagonal_eigensolver (local) on a real symmetric tridiagonal matrix T returns ascending eigenvalues and an exactly orthogonal matrix Z of eigenvectors; the residual T Z - Z diag(lambda) and the distance of every eigenvalue to the corresponding eigenvalue of T are bounded, in the operator norm, by max(1, A+4E) ((1+32 m eps)^ceil(log2(number of tiles)) - 1), i.e. only the deflation tolerances of the merges contribute (zero if eps = 0). Consequently hermitian_eigensolver with it returns orthonormal eigenvectors and eigenvalues of the given Hermitian matrix up to that bound with A = E = ||A||.", "quantifier": "all orders, tile sizes, diagonals and off-diagonals (including zero couplings and ties), number of workers, previous contents of outputs and work space; exact arithmetic; LAPACK's laed4 and stedc by their documentation", "why_tests_cant": "the merge tree, deflation pattern, column types and sort order depend on the data in unboundedly many ways; wrong offsets in the multiplication of the parts only show for particular type counts", "anchors": ["include/dlaf/eigensolver/tridiag_solver/impl.h: TridiagSolver::call (local)", "include/dlaf/eigensolver/tridiag_solver/merge.h: mergeSubproblems, assembleZVec, calcTolerance, multiplyEigenvectors", "include/dlaf/eigensolver/tridiag_solver/kernels.h: cuppensDecomp, assembleRank1UpdateVectorTile", "include/dlaf/multiplication/general/impl.h: GeneralSub/callNN on MatrixRef"]}
{"id": "C54", "title": "Distributed general multiplication computes alpha A B + beta C on every grid and schedule", "statement": "For matrices, or sub-matrices starting at any element of a distributed matrix, distributed over the same grid, with the rows of A and C and the columns of B and C distributed alike and the same inner tile boundaries in A and B, the distributed generalMatrix ends without abort or deadlock under every schedule of the processes; every process then holds its tiles of alpha A B + beta C (the matrix the local multiplication computes, also if the inner dimension or C is empty), A and B are unchanged, and all members of a communicator perform the same sequence of collectives. (The library does not check that the source ranks agree: if they do not, the preconditions hold and the result is wrong.)", "quantifier": "all grids, source ranks, sizes, tile sizes, offsets, alpha, beta, contents, and all interleavings of the processes and communications; exact arithmetic", "why_tests_cant": "tests run a few grids and one interleaving; a wrong owner, a missing tile in a panel or mismatching collectives only show for particular sizes, source ranks and schedules", "anchors": ["include/dlaf/multiplication/general/impl.h: General::callNN (distributed)", "include/dlaf/multiplication/general.h: generalMatrix", "include/dlaf/matrix/panel.h", "include/dlaf/communication/broadcast_panel.h", "include/dlaf/util_matrix.h: multipliable"]}
{"id": "C55", "title": "Distributed triangular multiplication computes alpha A B or alpha B A on every grid and schedule", "statement": "For a square matrix A and a matrix B distributed over the same grid, the lines of B multiplied with A distributed like those of A, the distributed triangular_multiplication with op = NoTrans ends without abort or deadlock under every schedule of the processes, for every side, uplo, diag and alpha; every process then holds its tiles of alpha A B (side Left) or alpha B A (side Right), A being the triangle selected by uplo and diag (the other entries of the matrix are irrelevant, and so is the uninitialised memory of panel tiles that the code broadcasts); A is unchanged; all members of a communicator perform the same sequence of collectives. With op = Trans or ConjTrans (documented, not implemented) every process aborts.", "quantifier": "all grids, source ranks, sizes, tile sizes, sides, uplos, diags, alpha, contents (also of uninitialised workspaces), and all interleavings of the processes and communications; exact arithmetic", "why_tests_cant": "tests run a few grids and one interleaving; a wrong owner, range of a panel or a read of an unset panel tile only shows for particular sizes, source ranks, memory contents and schedules", "anchors": ["include/dlaf/multiplication/triangular/impl.h: Triangular::call_LLN, call_LUN, call_RLN, call_RUN (distributed)", "include/dlaf/multiplication/triangular.h: triangular_multiplication", "include/dlaf/matrix/panel.h", "include/dlaf/communication/broadcast_panel.h"]}
{"id": "C56", "title": "Distributed triangular solver solves op(A) X = alpha B or X op(A) = alpha B on every grid and schedule", "statement": "For a square matrix A whose selected triangle is nonsingular and a matrix B distributed over the same grid, the lines of B coupled with A distributed like those of A, the distributed triangular_solver ends without abort or deadlock under every schedule of the processes, for every side, uplo, op, diag and alpha (also 0); every process then holds its tiles of the solution X of op(A) X = alpha B (side Left) or X op(A) = alpha B (side Right), A being the triangle selected by uplo and diag (the other entries of the matrix are irrelevant, and so is the uninitialised memory of panel tiles that the code broadcasts); A is unchanged; all members of a communicator perform the same sequence of collectives.", "quantifier": "all grids, source ranks, sizes, tile sizes, sides, uplos, ops, diags, alpha, contents (also of uninitialised workspaces), and all interleavings of the processes and communications; exact arithmetic", "why_tests_cant": "tests run a few grids and one interleaving; a wrong owner, range of a panel, root of a reduction or a contribution counted twice only shows for particular sizes, source ranks, memory contents and schedules", "anchors": ["include/dlaf/solver/triangular/impl.h: Triangular::call_LLN, call_LLT, call_LUN, call_LUT, call_RLN, call_RLT, call_RUN, call_RUT (distributed)", "include/dlaf/solver/triangular.h: triangular_solver", "include/dlaf/matrix/panel.h", "include/dlaf/communication/kernels/internal/reduce.h"]}
{"id": "C57", "title": "Distributed Hermitian multiplication computes alpha A B + beta C on every grid and schedule", "statement": "For a square matrix A and matrices B, C distributed over the same grid, the rows of A, B and C and the columns of B and C distributed alike, the distributed hermitian_multiplication with side Left and uplo Lower ends without abort or deadlock under every schedule of the processes; every process then holds its tiles of alpha A B + beta C, A being the Hermitian matrix given by the lower triangle (the strictly upper entries are irrelevant); A and B are unchanged; all members of a communicator perform the same sequence of collectives. With any other side or uplo (documented, not implemented) every process aborts.", "quantifier": "all grids, source ranks, sizes, tile sizes, alpha, beta, contents, and all interleavings of the processes and communications; exact arithmetic", "why_tests_cant": "tests run a few grids and one interleaving; a wrong owner or range of a panel, a wrong root of the reduction or a contribution counted twice only shows for particular sizes, source ranks and schedules", "anchors": ["include/dlaf/multiplication/hermitian/impl.h: Hermitian::call_LL (distributed)", "include/dlaf/multiplication/hermitian.h: hermitian_multiplication", "include/dlaf/matrix/panel.h", "include/dlaf/communication/broadcast_panel.h", "include/dlaf/communication/kernels/internal/reduce.h"]}
{"id": "C58", "title": "Distributed triangular inverse inverts the triangle on every grid and schedule", "statement": "For a square matrix A distributed over a grid whose relevant triangle (uplo Lower or Upper, diag Unit or NonUnit) is invertible, the distributed triangular_inverse ends without abort or deadlock under every schedule of the processes; every process then holds its tiles of the matrix whose relevant triangle is the inverse of the given triangular matrix and whose other triangle is unchanged, i.e. the same tiles the local algorithm produces; all members of a communicator perform the same sequence of collectives.", "quantifier": "all grids, source ranks, sizes, tile sizes, contents, uplo, diag, and all interleavings of the processes and communications; exact arithmetic", "why_tests_cant": "tests run a few grids and one interleaving; a wrong owner, panel range or broadcast root, or a tile updated before another process has read it, only shows for particular sizes, source ranks and schedules", "anchors": ["include/dlaf/inverse/triangular/impl.h: Triangular::call_L, Triangular::call_U (distributed)", "include/dlaf/inverse/triangular.h: triangular_inverse", "include/dlaf/matrix/panel.h", "include/dlaf/communication/broadcast_panel.h"]}
{"id": "C59", "title": "Distributed inverse from the Cholesky factor is the inverse of the factored matrix on every grid and schedule", "statement": "If the uplo triangle of a square matrix distributed over a grid holds the Cholesky factor of a Hermitian matrix A, the distributed inverse_from_cholesky_factor ends without abort or deadlock under every schedule of the processes; every process then holds its tiles of the matrix whose uplo triangle is that of the inverse of A and whose other triangle is unchanged, i.e. the same tiles the local algorithm produces; distributed cholesky_factorization followed by this call inverts the matrix; all members of a communicator perform the same sequence of collectives, although only the processes of one row or column take part in the second broadcast.", "quantifier": "all grids, source ranks, sizes, tile sizes, contents, uplo, and all interleavings of the processes and communications; exact arithmetic", "why_tests_cant": "tests run a few grids and one interleaving; a wrong owner, panel range, broadcast root or transposed panel, or a tile overwritten before another process has read it, only shows for particular sizes, source ranks and schedules", "anchors": ["include/dlaf/inverse/cholesky/impl.h: AssembleCholeskyInverse::call_L, AssembleCholeskyInverse::call_U (distributed)", "include/dlaf/inverse/cholesky.h: inverse_from_cholesky_factor", "include/dlaf/matrix/panel.h", "include/dlaf/communication/broadcast_panel.h"]}
{"id": "C60", "title": "Distributed transformation to standard form reproduces the local one on every grid and schedule", "statement": "If the uplo triangle of mat_b, distributed like mat_a over a grid, holds a nonsingular triangular factor and mat_a has a real diagonal, the distributed generalized_to_standard ends without abort or deadlock under every schedule of the processes; every process then holds its tiles of the matrix whose uplo triangle is that of the Hermitian X with L X L^H = A (U^H X U = A), the other triangle and mat_b being unchanged, i.e. the same tiles the local algorithm produces although the two perform the updates in a different order; all members of a communicator perform the same sequence of collectives.", "quantifier": "all grids, source ranks, sizes, tile sizes, contents, uplo, and all interleavings of the processes and communications; exact arithmetic", "why_tests_cant": "tests run a few grids and one interleaving; a wrong owner, panel range, broadcast root, or a panel reused before another process has read it, only shows for particular sizes, source ranks and schedules", "anchors": ["include/dlaf/eigensolver/gen_to_std/impl.h: GenToStd::call_L, GenToStd::call_U (distributed)", "include/dlaf/eigensolver/gen_to_std.h: generalized_to_standard", "include/dlaf/matrix/panel.h", "include/dlaf/communication/broadcast_panel.h"]}
{"id": "C61", "title": "Distributed back-transformation of the reduction to band applies every reflector once, on every grid and schedule", "statement": "If mat_v of order n (distributed over a grid) stores Householder reflectors below the b-th subdiagonal and mat_taus their factors in the distribution produced by the reduction to band, and the rows of mat_c are distributed as those of mat_v, the distributed bt_reduction_to_band ends without abort or deadlock under every schedule of the processes, whatever the workspaces contain and for any number of workers; every process then holds its tiles of H_0 H_1 ... H_{n-b-2} C, the same matrix the local call computes; mat_v is unchanged; all members of a communicator perform the same sequence of collectives.", "quantifier": "all grids, source ranks, orders, numbers of columns, tile sizes, band widths (also not multiples of the tile size), contents, worker numbers and all interleavings of the processes and communications; exact arithmetic", "why_tests_cant": "tests run a few grids, sizes and one interleaving; a wrong sub-tile offset, a missing all-reduce, a panel reused too early or a wrong owner only shows for particular sizes, source ranks and schedules", "anchors": ["include/dlaf/eigensolver/bt_reduction_to_band/impl.h: BackTransformationReductionToBand::call (distributed)", "include/dlaf/eigensolver/bt_reduction_to_band.h: bt_reduction_to_band", "include/dlaf/factorization/qr/t_factor_impl.h: QR_Tfactor::call (distributed)", "include/dlaf/matrix/views.h: SubMatrixView, SubPanelView", "include/dlaf/matrix/panel.h"]}
{"id": "C62", "title": "ScaLAPACK p?potrf and p?potri act on the block-cyclic matrix in the user's buffers, and on nothing else in them", "statement": "For every order, block size, process grid, source process, legal leading dimensions and contents of the local buffers, and both triangles: if the triangle of the matrix stored block-cyclically (as ScaLAPACK defines it: owner, local index, leading dimension) in the users' buffers is that of a Hermitian matrix with Cholesky factor F, a collective call of dlaf_p?potrf is accepted on every process and ends under every schedule without abort or deadlock, the triangle of the matrix in the buffers is then F, and every other location of every buffer is unchanged; likewise dlaf_p?potri turns a Cholesky factor of A into the triangle of the inverse of A, so that potrf followed by potri on the same buffers inverts the Hermitian matrix. Calls that are not refused (Debug) have a dense descriptor, ia = ja = 1, a non-negative order, square blocks, a source process on the grid.", "quantifier": "all orders, block sizes, grids, source processes, leading dimensions, buffer contents, both triangles and all four characters, all interleavings of the processes", "why_tests_cant": "tests compare a few layouts on a few grids with a reference and do not examine the padding between columns, other triangles or all interleavings", "anchors": ["src/c_api/factorization/cholesky.h:pxpotrf", "src/c_api/inverse/cholesky.h:pxpotri", "src/c_api/utils.cpp:make_dlaf_descriptor, make_layout", "include/dlaf_c/desc.h", "include/dlaf/matrix/matrix.h", "include/dlaf/blas/enum_parse.h"]}
{"id": "C63", "title": "Memory is freed exactly once, when its last owner goes; live views are inside live memory", "statement": "For every history of constructions, copies, sub-views, moves, assignments (also to itself) and destructions of MemoryChunk and MemoryView objects: no pointer is given to the allocator twice, and never one of the user; an allocation is freed exactly when no live chunk owns it and no live view addresses it, so nothing is left when all objects are gone; if the documented preconditions hold, every element of every live view is inside a block that is not freed; copies, moves and sub-views address the memory of the view they are made from, and no operation changes the addresses of the views it does not write.", "quantifier": "all finite histories of operations on any number of chunks and views, all sizes and offsets", "why_tests_cant": "tests run a few short histories; ownership errors show only in particular orders of moves and destructions", "anchors": ["include/dlaf/memory/memory_chunk.h:MemoryChunk", "include/dlaf/memory/memory_view.h:MemoryView"]}
{"id": "C64", "title": "Distributed reduction to band: unitary similarity, on every grid, under every schedule", "statement": "reduction_to_band(grid, A, band_size) for a Hermitian matrix A of order n given by its lower triangle, distributed over any grid with any source rank and tile size (without offset), band_size at least 2 and a divisor of the tile size, and a grid with at least two pipelines per communicator: under every interleaving of the processes the call returns on every process without abort or deadlock, always in the same state, for any numbers of workers per process and any contents of workspaces; the tiles then hold a matrix A' and the returned vector holds taus such that the product Q of the reflectors stored below the band_size-th subdiagonal of A' with these taus is unitary, the band of A' is Q^H A Q, and the strictly upper triangle is unchanged. Band sizes below two, not dividing the tile size, or grids with one pipeline are refused on all processes.", "quantifier": "all orders, tile sizes, band sizes, grid shapes, source ranks, matrices, worker counts per process, workspace contents, and all interleavings of the processes", "why_tests_cant": "tests run a few grids of 6 processes and a few sizes, compare with a tolerance and see one interleaving per run; errors in the ranges of the transposed panels or in the participation in a reduction show only for particular positions of the panel relative to the grid, or as a deadlock under some interleavings", "anchors": ["include/dlaf/eigensolver/reduction_to_band/impl.h:ReductionToBand::call (grid)", "include/dlaf/eigensolver/reduction_to_band/impl.h:red2band::distributed::computePanelReflectors", "include/dlaf/eigensolver/reduction_to_band/impl.h:red2band::distributed::hemmComputeX", "include/dlaf/eigensolver/reduction_to_band/impl.h:red2band::distributed::her2kUpdateTrailingMatrix", "include/dlaf/communication/broadcast_panel.h:broadcast"]}
{"id": "C65", "title": "Distributed Givens rotations: the block times the product of the rotations, on every grid, under every schedule", "statement": "Applying a list of Givens rotations to the columns of the square block of the tiles [i_begin, i_end) of a distributed matrix allocated in column-major layout (any order, tile size, grid and source rank, no offset), with indices inside the block and the two indices of every rotation different: under every interleaving of the processes and of the messages the call ends on every process without abort or deadlock, always in the same state; the block is then the old block times the product of the rotations in the order given, which is what the local version computes, and no other element of the matrix has changed. The two processes of every pair make the same number of exchanges with each other and there is no other communication. The access through one pointer per column across tiles is right because column-major memory has consecutive local rows at consecutive addresses; with the other two layouts the library can be configured to use it is not.", "quantifier": "all orders, tile sizes, grid shapes, source ranks, tile ranges, lists of rotations, matrices, and all interleavings of the processes", "why_tests_cant": "the deflation rotations of a test depend on a few matrices; which processes own the two columns, which tiles of the range they own and how often two processes meet is different for every grid, range and list; a mismatch deadlocks or silently combines the wrong columns only for some of them", "anchors": ["include/dlaf/eigensolver/tridiag_solver/rot.h:applyGivensRotationsToMatrixColumns (distributed)", "include/dlaf/eigensolver/tridiag_solver/tile_collector.h:TileCollector", "include/dlaf/tune.h:default_allocation_layout", "include/dlaf/matrix/allocation.h:getDefaultAllocationLayout"]}
{"id": "C66", "title": "Distributed back-transformation from tridiagonal to band form: Q times the matrix, on every grid, under every schedule", "statement": "The distributed bt_band_to_tridiagonal, for any order, number of columns, tile sizes, band width (at least 2, dividing the tile size of the reflectors), grid, source ranks, real or complex type, group size, workspace contents and any larft that satisfies LAPACK's contract: under every interleaving of the processes and of the messages the call ends on every process without abort or deadlock, always in the same state; every process then holds its tiles of Q C, where Q is the documented product of the stored reflectors (the Q of the local band_to_tridiagonal), which is what the local version computes; the reflectors are unchanged. The blocks are applied in a different order than locally, and a block can lie in two tile rows of two processes; both give the same product. All members of a row communicator make the same sequence of broadcasts with the same roots, and the two processes of every pair the same sequence of messages with the same tags. A wrong band width, or a grid with fewer than two communicator pipelines when there is work to do, is refused on every process.", "quantifier": "all orders, numbers of columns, tile sizes, band widths, grid shapes, source ranks, group sizes, matrices, workspace contents, and all interleavings of the processes", "why_tests_cant": "which blocks cross process rows, which panel slot they use, and the order of the blocks along the diagonals depend on order, tile size, band width and grid together; a wrong slot or a mismatched message shows up only for some combinations and schedules, as a deadlock or as eigenvectors that are slightly not orthogonal", "anchors": ["include/dlaf/eigensolver/bt_band_to_tridiag.h:bt_band_to_tridiagonal (grid)", "include/dlaf/eigensolver/bt_band_to_tridiag/impl.h:BackTransformationT2B::call (grid)", "include/dlaf/eigensolver/bt_band_to_tridiag/impl.h:TileAccessHelper", "include/dlaf/eigensolver/bt_band_to_tridiag/impl.h:DistIndexing", "include/dlaf/communication/kernels/p2p_allsum.h:schedule_sum_p2p"]}
{"id": "C67", "title": "Distributed deflation partition: every process column sorted by type, the same permutations on every process", "statement": "When eigenvalue problems are merged on a grid, the sorted eigenvectors are partitioned by deflation. For every distribution of the columns, all column types and eigenvalues, every sorting permutation and any content of the output arrays, no access is out of bounds; index_sorted is the non-deflated columns in sorted order and then the deflated ones by ascending eigenvalue; index_sorted_coltype is a permutation that moves no column to another process and lists on every process the upper, dense, lower and deflated columns, each in sorted order; i5_lc is the part of the calling process in local indices and a permutation of its columns; k and k_lc count the non-deflated columns globally and locally; the three bounds delimit the types; i4, i6 and the inverse are permutations that connect the orders as documented; all processes get the same global permutations.", "quantifier": "all numbers of columns, tile sizes, grid widths, source ranks, offsets, calling processes, type vectors, eigenvalues, permutations and previous contents", "why_tests_cant": "the permutations depend on which columns are deflated and on where the columns lie in the grid; a column sent to the wrong process or a wrong bound appears only for particular deflation patterns with particular tile sizes and grids, as a wrong product of matrices or a deadlock of the permutation", "anchors": ["include/dlaf/eigensolver/tridiag_solver/merge.h:stablePartitionIndexForDeflationArrays (dist_sub)"]}
{"id": "C68", "title": "Distributed rank-one eigensolver: every schedule computes the eigenpairs, all processes agree", "statement": "The secular problem of a merge is solved on a grid: every process computes the roots of its columns, the eigenvalues are broadcast, the weights are reduced along the rows of the grid and the norms along its columns. For every grid and distribution, every order, deflation and assignment of columns, every number of workers (which may differ between processes) and every schedule: no process aborts or deadlocks, all members of a communicator call the same collectives in the same order, and in the end every process holds all eigenvalues, ascending along the places of the columns, the deflated ones being the entries of d, and the local elements of the columns are exactly the entries of the orthonormal eigenvectors of diag(d) + rho z z^T; nothing else is changed. The index vectors of the distributed partition (C67) meet the precondition.", "quantifier": "all grids, tile sizes, source ranks, offsets, orders, numbers of non-deflated columns, index vectors that fit, worker counts, initial contents, and all schedules", "why_tests_cant": "weights, norms and eigenvalues are assembled from contributions of all processes; a process without non-deflated columns, a diagonal entry owned by another process, or a reduction over the wrong number of entries matters only for particular grids and deflation patterns, and collectives in different orders only for particular schedules", "anchors": ["include/dlaf/eigensolver/tridiag_solver/merge.h:solveRank1ProblemDist"]}
{"id": "C69", "title": "Distributed back-multiplication of the merge: every schedule gives the eigenvectors in the sub-matrix and leaves the rest alone", "statement": "The eigenvectors of a merged sub-problem are computed on a grid from the grouped eigenvectors of the two halves (E1) and those of the rank-one problem (E2): two distributed products of sub-matrices that skip the zero blocks, and a local copy of the deflated columns. For every grid, source process and tile size, every position and size of the sub-problem (also inside tiles), every grouping of the columns that the distributed partition (C67) produces, any previous contents of the result and every schedule: no process aborts or deadlocks, all members of a communicator call the same collectives although the number of deflated columns differs between processes, and in the end every process holds, in its part of the sub-matrix, E1 E2 in the non-deflated and E1 in the deflated columns; all elements outside of the sub-matrix and E1, E2 are unchanged.", "quantifier": "all grids, tile sizes, source ranks, matrix sizes, sub-problem positions and sizes, groupings of columns, matrices with the zero blocks of the merge, and all schedules", "why_tests_cant": "the sub-matrices start at arbitrary elements and end inside tiles, the numbers a, b, c depend on the data, and the first column to copy differs between processes; a wrong boundary shows only for particular deflation patterns, positions and grids", "anchors": ["include/dlaf/eigensolver/tridiag_solver/merge.h:multiplyEigenvectors", "include/dlaf/matrix/matrix_ref.h:MatrixRef", "include/dlaf/matrix/copy.h:copy"]}
{"id": "C70", "title": "Distributed rank-one vector of the merge: every schedule gives every process the whole vector", "statement": "The vector z of the rank-one update that joins two sub-problems is assembled on a grid from the last row of the eigenvectors of the first and the first row of those of the second sub-problem: for each tile of z the process that owns the tile of the eigenvectors computes it and broadcasts it over the full communicator. For every grid, source process, tile size, every two adjacent sub-problems, every rho and every schedule: no process aborts or deadlocks, all processes call the same broadcasts with the same roots, and in the end every process holds the whole vector, with the sign of the first part changed if rho is negative, divided by the square root of 2; its entries outside of the sub-problems and the eigenvectors are unchanged.", "quantifier": "all grids, tile sizes, source ranks, matrix sizes, positions of the two sub-problems, values of the eigenvectors and of rho, and all schedules", "why_tests_cant": "the root of each broadcast is computed from the distribution of two different tile indices and linearized with the order of the full communicator; a wrong root or a swapped order deadlocks or mixes tiles only on particular grids and positions", "anchors": ["include/dlaf/eigensolver/tridiag_solver/merge.h:assembleDistZVec", "include/dlaf/eigensolver/tridiag_solver/kernels.h:assembleRank1UpdateVectorTile", "include/dlaf/communication/communicator_pipeline.h:rank_full_communicator"]}
{"id": "C71", "title": "Distributed leaves of divide & conquer: every schedule gives every process the eigenvalues of all diagonal blocks and its part of their eigenvectors", "statement": "The distributed divide & conquer solver starts by tearing the tridiagonal matrix at all tile boundaries; the owner of each diagonal tile solves that block with stedc and broadcasts the tile of the tridiagonal matrix (now the eigenvalues) over the full communicator. For every grid, source process, tile size, order and tridiagonal matrix and every schedule: no process aborts or deadlocks, all processes call the same broadcasts with the same roots, and in the end every process holds the eigenvalues, in ascending order per block, of all the blocks of the torn matrix, and the eigenvector matrix distributed over the grid is block diagonal with the orthonormal eigenvectors of the blocks, the same as in the local algorithm, whatever the work space contained.", "quantifier": "all grids, tile sizes, source ranks, orders (with and without a partial last tile), tridiagonal matrices, initial contents of the eigenvectors, contents that stedc leaves in the off-diagonal, and all schedules", "why_tests_cant": "a received tile overwrites the off-diagonal with the remains of stedc of another process, which must not reach blocks that are still to be solved; the owners and the roots depend on the grid and source rank", "anchors": ["include/dlaf/eigensolver/tridiag_solver/impl.h:solveDistLeaf", "include/dlaf/eigensolver/tridiag_solver/impl.h:cuppensDecomposition", "include/dlaf/eigensolver/tridiag_solver/impl.h:TridiagSolver::call"]}
{"id": "C72", "title": "Distributed merge of divide & conquer, steps 2 to 4: every schedule gives all processes the same eigenvalues, their order, and their parts of the eigenvectors", "statement": "After deflation the distributed merge partitions the columns by type, reorders the local columns of every process, solves the rank-one problem, multiplies its eigenvectors with those of the two sub-problems and sorts the eigenvalues. For every grid, source process, tile size, position and sizes of the two sub-problems, types of the columns, eigenvalues, rank-one vector and number of workers, and every schedule: no process aborts or deadlocks, all members of a communicator call the same collectives in the same order, and in the end all processes hold the same eigenvalues and the same permutation that sorts them, and the window of the eigenvector matrix, distributed over the grid, has orthonormal columns that are the exact eigenvectors of Q (D + rho z zT) QT for these eigenvalues, where Q holds the eigenvectors before and the deflated entries of z count as zero. The rest of the matrix is unchanged and the contents of the work spaces before do not matter.", "quantifier": "all grids, source ranks, tile sizes, windows, sizes n1 and n2, column types, permutations, eigenvalues, rank-one vectors and coupling rho > 0, initial contents of the work spaces, numbers of workers per process, and all schedules", "why_tests_cant": "the local order of the columns differs per process column while four index vectors are shared, every process has another number of non-deflated columns, and the steps communicate over different communicators", "anchors": ["include/dlaf/eigensolver/tridiag_solver/merge.h:mergeDistSubproblems", "include/dlaf/eigensolver/tridiag_solver/merge.h:stablePartitionIndexForDeflation", "include/dlaf/eigensolver/tridiag_solver/merge.h:multiplyEigenvectors", "include/dlaf/permutations/general/impl.h:permute"]}
