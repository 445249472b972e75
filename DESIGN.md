# Formal model of eth-cscs/DLA-Future in Lean 4 — design

The C++ code is read as text and re-expressed as small total functions in Lean 4 (`lean/Verif/`).
Each definition of `Model/` cites the file and lines of `/repo` it models.

| layer | content |
|-------|---------|
| `Model/*`  | the code: index arithmetic in `Int` with C++ truncating division, assertion failure / undefined behaviour as `none`, loops as recursion or folds, asynchronous and distributed execution as transition systems |
| `Spec/*`   | small independent specifications (block-cyclic definition, ScaLAPACK tools, elements of a matrix over a grid, kernel contracts, mathematical matrix equations) |
| `Lemmas/*` | helper lemmas |
| `Props/*`  | the property theorems `Cnn_*`, each followed by an `example` (or a theorem `*_exists`) showing that its hypotheses can be met |

`MANIFEST.json` lists theorem names per property.  `seeded/LOG.jsonl` records the mutation tests of the model.

## 1. Trusted base

1. **Lean 4.33.0 kernel**, and the axioms `propext`, `Classical.choice`, `Quot.sound`.  No other axioms; no compiled
   evaluation (`decide` is kernel reduction).  Mathlib is used for algebra, finite sums and lists.
2. **The transcription** of C++ into `Model/*`: read by eye, one comment per definition.
3. **Contracts of code that is not in `/repo`**, as stated in the model:
   * pika `async_rw_mutex` (Model/Async): request order, readers/writer, release on destruction of the wrapper;
   * MPI: `MPI_Comm_split` (Model/Grid); point-to-point matching by (source, destination, tag) with non-overtaking
     (Model/Redistribute); the n-th collectives on a communicator match, non-blocking collectives do not wait for the
     others (Model/Spmd); `MPI_SUM`/`MPI_MAX` reductions deliver the element-wise result (Model/Reduce, Model/Norm);
     `MPI_Alltoallv` moves the packed pieces (Model/Permute);
   * BLAS/LAPACK: `gemm`, `herk`, `her2k`, `hemm`, `trmm`, `scal`, `axpy`, `lacpy`, `laset` are defined by their
     mathematical meaning (Model/Kernels); `trsm`, `potrf`, `trtri`, `lauum`, `hegst` are parameters with the contracts
     `LapackSpec` (Spec/Kernels), shown satisfiable in Lemmas/LapackExists (`lapack_spec`); `lange`/`lantr` with the max
     norm (Model/Norm);
   * HDF5 hyperslab transfers (Model/Hdf5); allocators (a fresh chunk per allocation, Model/Memory); `std::merge`,
     `std::sort`, the `std` string-to-number parsers (as total functions with their specification).

## 2. Simplifications (valid for all theorems)

* `SizeType`, `int` and MPI tags are unbounded integers: overflow is not modelled.
* Element arithmetic is exact, in a field with an involution (`star` = conjugation).  No rounding, no NaN/Inf.  C42
  needs `2 ≠ 0` (the code multiplies by -0.5); `herk`'s zeroing of imaginary parts of the diagonal is not modelled;
  `-1/alpha` for `alpha = 0` is an arbitrary value (the theorems hold for every value).
* CPU back end only.  The GPU paths (`#ifdef DLAF_WITH_GPU`, cuda/hip kernels, device pools) are not modelled except the
  memory-pool configuration of C25.
* A process is a sequential program of tile operations and collectives: justified by C15–C17 (every schedule of the tasks of one
  process gives the sequential result).  Interleaving *between* processes is arbitrary (C43).
* Assertion levels: `DLAF_ASSERT` always on; `DLAF_ASSERT_MODERATE`/`HEAVY` only if a Boolean parameter says Debug.
* A panel tile that is read before being written since the last `reset` aborts in the model.  The parent-distribution
  equality assertion of the two-panel broadcast and the debug HDF5 dump are not modelled.
* Permutations: pack, exchange, unpack are phases (the tasks of one phase in any order).

## 3. What is modelled

| model file | code |
|---|---|
| UtilDist, Dist | `matrix/util_distribution.h`, `matrix/distribution.{h,cpp}`, `matrix/distribution_extensions.h` |
| Index | `common/index2d.h`, `common/range2d.h`, `util_math.h` (`interleaveSplits`) |
| Memory, Retile, MatrixRef | `memory/memory_view.h`, `matrix/tile.h`, `matrix/col_major_layout.h`, `matrix/matrix.h` (set-up, retiling), `matrix/matrix_base.h`, `matrix/matrix_ref.h` |
| Async | `common/pipeline.h`, `matrix/internal/tile_pipeline.h`, sub-pipelines of `matrix/matrix.h`, `communication/communicator_pipeline.h` |
| Data, Reduce | `common/data*.h`, `communication/message.h`, `matrix/copy_tile.h`, `matrix/copy.h`, `sender/with_temporary_tile.h`, `communication/kernels/internal/*`, `kernels/p2p_allsum.h` |
| Redistribute | `matrix/copy.h` (redistribution) |
| Grid, Init | `communication/communicator_grid.{h,cpp}`, `src/init.cpp`, `src/c_api/{init,grid}.cpp`, `tune.{h,cpp}` |
| Panel, DistPanel, Spmd | `matrix/panel.h`, `communication/broadcast_panel.h`, collectives and communicator pipelines |
| Kernels | `blas/tile.h`, `blas/tile_extensions.h`, `lapack/tile.h`, `util_blas.h` |
| Cholesky, DistCholesky | `factorization/cholesky/impl.h` local and distributed, lower and upper |
| Triangular | `solver/triangular/impl.h`, `multiplication/triangular/impl.h` (local, all variants) |
| Multiplication | `multiplication/{general,hermitian}/impl.h` (local) |
| Inverse | `inverse/{triangular,cholesky}/impl.h` (local) |
| GenToStd | `eigensolver/gen_to_std/impl.h` (local) |
| Tridiag | `eigensolver/tridiag_solver/index_manipulation.h`, deflation partition of `merge.h`, `internal/get_band_size.h`, `get_1d_block_size.h` |
| Permute | `permutations/general/impl.h` local and distributed |
| Norm | `auxiliary/norm/mc.h` |
| Hdf5 | `matrix/hdf5.h` |
| Threads, TFactor | `pika::barrier` bulk workers, `factorization/qr/t_factor_impl.h` |
| Views, BtRedBand | `matrix/views.h`, `eigensolver/bt_reduction_to_band/impl.h` (local) |
| RedBand | `eigensolver/reduction_to_band/impl.h` (local, CPU), `eigensolver/internal/get_red2band_panel_nworkers.h` |
| SemThreads, BandTridiag | `eigensolver/band_to_tridiag/mc.h` (local, input on CPU), `band_to_tridiag/api.h` |
| BtBandTridiag | `eigensolver/bt_band_to_tridiag/impl.h` (local, MC/CPU), `bt_band_to_tridiag.h` |
| Eigensolver, GenEigensolver | `eigensolver/eigensolver{.h,/impl.h}`, `eigensolver/gen_eigensolver{.h,/impl.h}` (local) |
| Model/Rank1.lean | merge.h:797-972 solveRank1Problem | laed4 by LAPACK's documentation in exact arithmetic (existence proved: C51_laed4); tiles of evecs seen as element windows |
| Model/Deflate.lean | merge.h:697-763 applyDeflationToArrays, rot.h:156-200 (local) | exact arithmetic; hypot is sqrt of the sum of squares |
| Model/MatWin.lean | MatrixRef multiplication and copy of windows as used by merge.h:974-1085 | windows of elements cut into pieces of the tile grid |
| Model/DivConq.lean | tridiag_solver/impl.h:50-246 (local), merge.h:190-270, 668-684, 974-1224, kernels.h:73-108, index_manipulation.h | exact arithmetic; tasks in submission order; stedc and laed4 by LAPACK's documentation |
| Model/DistAlg.lean | matrix/panel.h:251-276 (setWidth/setHeight), common/round_robin.h, tasks on tiles and links of tiles into panels of a process | reader/writer dependencies of tiles (C15) replaced by program order |
| Model/DistMultiplication.lean | multiplication/general/impl.h:64-150 | exact arithmetic |
| Model/DistTriangular.lean | multiplication/triangular/impl.h:400-725, solver/triangular/impl.h:481-575, 664-755, 845-936, 1026-1118, multiplication/triangular.h:124-182 | the offset into B is computed from the distribution of B (equal to that of A under the preconditions) |
| Model/DistSolver.lean | solver/triangular/impl.h:577-662, 757-844, 938-1025, 1120-1205, solver/triangular.h:84-146, communication/kernels/internal/reduce.h:64-137, util_matrix.h:217-227 | MPI_SUM adds in the order of the ranks; mat_b is a plain matrix, not a MatrixRef with offset |
| Model/DistHermitian.lean | multiplication/hermitian/impl.h:98-213, multiplication/hermitian.h:28-62 | MPI_SUM adds in the order of the ranks |
| Model/DistInverse.lean | inverse/triangular/impl.h:230-363,413-545, inverse/triangular.h:76-88 | CPU path (no replacement of trtri); HDF5 dump not modelled; matrices without offset |
| Model/DistAssemble.lean | inverse/cholesky/impl.h:44-171,225-358,406-540, inverse/cholesky.h:67-82 | CPU path (`replace_lauum` false); HDF5 dump not modelled; matrices without offset |
| Model/DistGenToStd.lean | eigensolver/gen_to_std/impl.h:43-217,285-504,570-768, eigensolver/gen_to_std.h:100-125 | HDF5 dump not modelled; matrices without offset; `mat_a` and `mat_b` with the same distribution (not checked by the code: F29) |
| Model/DistElem.lean | matrix/views.h:32-185, matrix/panel.h, communication/kernels/internal/{broadcast,all_reduce}.h | panels as maps from local tile indices to blocks with a start offset; tiles as element blocks |
| Model/DistBtRedBand.lean | eigensolver/bt_reduction_to_band/impl.h:255-398, factorization/qr/t_factor_impl.h:421-460 | one tile per block, no offset; the two panel buffers of the round robin are not told apart (reuse order: C26, C43); the source rank of the rows of `mat_c` is that of `mat_v` (not checked by the code: F30) |
| Model/CApi.lean | src/c_api/utils.cpp, src/c_api/factorization/cholesky.h:32-79, src/c_api/inverse/cholesky.h:32-83, blas/enum_parse.h, dlaf_c/desc.h | CPU (the matrix mirror is a reference); the grid registry and the suspension of the runtime are not modelled |
| Model/Ownership.lean | memory/memory_chunk.h:44-196, memory/memory_view.h:31-158 | `std::shared_ptr` by its counts (single-threaded history: the counts of the standard library are atomic); the kind of memory of a pointer is not modelled; pointers of the user are not memory of the library |
| Model/DistRedBand.lean | eigensolver/reduction_to_band/impl.h:64-205, 352-452, 577-865, 1150-1516, communication/broadcast_panel.h:107-185 | workers of a panel in sequence; the two pipelines of the column communicator as one communicator; blocking all-reduces as non-blocking ones; trigger of the next panel not modelled |
| Model/DistRot.lean | eigensolver/tridiag_solver/rot.h:47-66, 203-396, eigensolver/tridiag_solver/tile_collector.h:25-65 | column-major layout (see F33); one call with its own tag; real element type; the send and the receive of an exchange start together |
| Model/DistBtBand.lean | eigensolver/bt_band_to_tridiag/impl.h:322-430, 448-500, 719-1029, eigensolver/bt_band_to_tridiag.h:117-137, communication/kernels/p2p_allsum.h | one tile per block, no offset; the two workspaces of every round robin are not told apart (reuse order: C26, C43); source rank of the rows of `mat_e` = that of `mat_hh` (see F34); the send and the receive of the sum start together |
| Model/DistPartition.lean | eigensolver/tridiag_solver/merge.h:430-598 | arrays as lists; `offsets` as a function of process column and place, accessed for process columns of the grid only; arrays written completely from first to last entry are returned as new lists |
| Model/DistRank1.lean | eigensolver/tridiag_solver/merge.h:1268-1689 | exact arithmetic; tiles as windows of the local elements; workers in sequence between two barriers; the broadcast of the eigenvalues completes before the weights; blocking reductions as non-blocking ones |
| Model/DistMultEvecs.lean, Model/SpmdLift.lean | eigensolver/tridiag_solver/merge.h:1691-1804, matrix/matrix_ref.h:58-252, matrix/copy.h:82-117 | the part of a matrix on a process as a function of local element indices; a reference's tiles are read before the call and written back after it (the code works in place: the three references of a call are to different matrices); the sub-pipelines of the communicators are the communicators |
| Model/DistAssembleZ.lean | eigensolver/tridiag_solver/merge.h:1217-1250, eigensolver/tridiag_solver/kernels.h:100-118, communication/communicator_pipeline.h:85-88 | `z` as a function of the element index, with the tile size of the eigenvectors; real arithmetic |
| Model/DistLeaf.lean | eigensolver/tridiag_solver/impl.h:78-100, 300-329, 430-450 | `tridiag` as two functions of the element index; `stedc` by contract, what it leaves in the off-diagonal is arbitrary; CPU version |
| Model/DistMerge.lean, Model/SpmdEmb.lean | eigensolver/tridiag_solver/merge.h:1828-1838, 1886-1936 | steps 2-4 of `mergeDistSubproblems`; step 1 (C70, C52) and the final copy of the index are outside; types, values, `z`, `rho`, the sorted index are parameters equal on all processes; the local column permutation and `set0` are functions of elements; CPU version, copies to the host are the identity |

**Not modelled**: GPU code; the distributed versions of the eigensolver stages other than `reduction_to_band` (C64),
`bt_reduction_to_band` (C61), `bt_band_to_tridiagonal` (C66), permutations (C36), Givens rotations (C65),
the deflation partition (C67), the rank-one solver (C68), the back-multiplication (C69), the rank-one vector (C70), the leaves (C71) and steps 2-4 of a merge (C72); LAPACK's `laed4`, `stedc`, `larfg`, `larft` (by contract); miniapps;
printing; the C API wrappers other than grid handles, initialisation, matrix descriptors (C12) and `potrf`/`potri` (C62);
anything else not listed in the table above.

## 4. Per-property plan

| id | modelled and proved | method |
|----|----------|-------|
| C01–C06, C39, C40 | `Distribution`, per coordinate (exact: every member function is per coordinate) | closed forms under the decomposition `t+off=(L*G+s)*T+r`, counting by induction |
| C07, C27 | sub-distribution constructor, `MatrixRef` index mapping | owner/position of the absolute element |
| C08–C10 | linear index, range iteration, `interleaveSplits` | list induction / loop invariant |
| C11–C14 | memory layouts, ScaLAPACK addressing, sub-tiles, retiling | injectivity and bounds of the address maps |
| C15–C17 | pipelines as transition systems over requests; any program, any schedule | invariants, commutation, refinement to sequential execution |
| C18 | grid construction, `MPI_Comm_split` by contract | ranks sorted by (colour, key) |
| C19, C30, C43 | per-process programs with collectives, every interleaving | confluence (diamond) of the transition system + one canonical schedule, simulation of the local algorithm |
| C20 | message matching | counterexample for tag collisions; positive theorems for the other cases |
| C21–C23, C41 | flat memories, descriptors, temporaries, reductions | frame + pointwise equality |
| C24–C26 | state machines over histories | induction; counterexamples where the code violates the claim |
| C28 | hyperslab position maps composed with memory layouts and distributions; any order of the processes' stores | position maps are injective; all stores to a position carry the same value |
| C29, C31–C33, C42 | blocked algorithms on tiles over a field with involution, kernels with contracts | loop invariants in element form; upper variants by adjoint simulation |
| C34, C35 | index vectors as lists | permutation lemmas |
| C36 | permutation of a tile range, local and distributed | routing of packed pieces: inverse index vectors, packed offsets |
| C37, C38 | small functions; max norm over all processes' local tiles | direct; maximum over owned elements = maximum over elements |
| C44 | `computeTFactor`: worker threads with barriers (every interleaving), all-reduce over ranks | commutation of actions on disjoint slots; induction over reflectors |
| C45 | local back-transformation of the reduction to band, on windows of element matrices | tile windows partition the rows; block reflector = product (C44); induction over blocks |
| C46 | local reduction to band: panel (bulk of worker threads with barriers), T factor, two-sided trailing update | each reflector annihilates its column (norm and sign choice over `ℝ`/`ℂ`), product of reflectors, `A - X Vᴴ - V Xᴴ = Pᴴ A P`, induction over panels; threads by commuting actions between barriers |
| C47 | local band to tridiagonal: compact band storage, kernels, semaphores, workers, copies | invariant on semaphore counters gives the distance between consecutive sweeps; footprints of instructions that may run concurrently are disjoint; confluence to the sequential run; induction over steps and sweeps with the fill-in pattern |
| C48 | local bt_band_to_tridiagonal: expansion of the compact reflectors, groups, T factors (larft by contract), W, application to one or two tile rows, order of blocks | each group is I - V T V^H = product of its reflectors; blocks by descending groups; commutation of reflectors with disjoint supports reorders blocks into sweeps |
| C49 | hermitian_eigensolver (local): assertions, choice of the band width, the five stages of C45-C48 and the tridiagonal eigensolver (by contract) as a relation between input and outcomes | composition of C46, C47, C48, C45: one unitary Q for the tridiagonal matrix and for the eigenvectors; spectral theorem shows the contract satisfiable |
| C50 | hermitian_generalized_eigensolver (local), both factorization modes, as a relation | C29, C42, C49, C31 composed through the cutting of a matrix into tiles |
| C51 | solveRank1Problem (local bulk task with barriers): roots, Gu-Eisenstat weights, normalized vectors, row permutation | roots interlace, weights by Lagrange interpolation equal rho z_i^2, so vectors are exact eigenvectors; workers act on disjoint data between barriers |
| C52 | applyDeflationToArrays and the (local) Givens rotations of the columns | loop invariant over the visited indices; each rotation is orthogonal and changes diag(d) by at most 2 tol in operator norm |
| C53 | local TridiagSolver: splits, leaves, merges (assembly, sort, deflation, partition, permutation, rank-one problem, product, final sort) | the state after each merge is an orthogonal block eigen-decomposition of the split matrix up to an accumulated operator-norm residual; recursion on the interval tree; Weyl's inequality for the eigenvalues |
| C54 | distributed General::callNN, on matrices and on sub-matrices with any offset (MatrixRef): panels with reduced extent, links, broadcasts, updates, on the SPMD machine of C30 | each iteration is a phase of all processes between states described by an abstract invariant (matrices and panel contents); induction over the inner tiles; equality with the tiles of the local algorithm, then C32 |
| C55 | the four distributed NoTrans variants as one parametrised program (TriAlg) on the SPMD machine, with the unset panel tiles holding arbitrary memory | phases as in C54; per iteration the abstract matrices change as in one step of the local algorithm, induction over the lines of A; equality with the tiles of the local algorithm, then C32 |
| C56 | the four NoTrans variants as the program of C55, the eight transposed ones as a second parametrised program: panels of partial sums, set to zero, accumulated locally and reduced to the owners of the line | NoTrans: equality with the tiles of the local solver, then C31. Transposed: invariant over the iterations (solved lines satisfy their equations); the sums over the processes of the sums over their lines are rearranged into the sum over all lines |
| C57 | `Hermitian::call_LL` on a grid as an SPMD program: panels of A, B and of partial sums of C, broadcasts and a reduction per iteration | global view of the distributed state (matrices of tiles, panels by global index); one iteration proved once for all processes, then induction over the iterations: after `k` of them the rows above `k` are final, the others hold the partial sums; the sum over the processes of the sums over their rows is rearranged |
| C58 | `Triangular::call_L/call_U` on a grid as an SPMD program: row and column panel, two broadcasts per iteration, tile trsm/gemm/trtri | global view of the distributed state; one iteration of the program proved to simulate one step of the local algorithm (reordered, with a relation saying which tiles are touched), then induction over the iterations and the theorem about the local algorithm (C33) |
| C59 | `AssembleCholeskyInverse::call_L/call_U` on a grid as an SPMD program (panel and transposed panel, two-panel broadcast, broadcast of the diagonal tile on the processes of one line, gemm/herk/trmm/lauum), after the distributed triangular inverse of C58 | one iteration of the program proved to simulate one step of the local algorithm in the global view of the distributed state; induction over the iterations; chained with C58, C33 and C30 |
| C60 | `GenToStd::call_L/call_U` on a grid as an SPMD program (four panels, one of them transposed, reused three times in an iteration with other ranges; two-panel broadcasts, broadcast of a row of tiles, broadcast of the diagonal tile on the processes of one line) | the local algorithm is right-looking with a delayed solve per column, the distributed one performs the solve row by row: the local loop is first unrolled into a sequence of states in the order of the distributed algorithm (loop frames), then one iteration of the program is proved to simulate one step in the global view; induction over the iterations; chained with C42 |
| C61 | distributed `bt_reduction_to_band` as an SPMD program: panels with start offset (V, W, W2, T), distributed T factor with column-wise all-reduce, row broadcasts of V and T, all-reduce of W2, sub-tile views of the trailing rows | windows of a distributed element matrix; generic broadcast and all-reduce phases on panels of sub-tiles; one iteration computes the block reflector (C44) of the window; induction over the blocks; chained with C45 for equality with the local call |
| C62 | `pxpotrf`, `pxpotri`, `make_dlaf_descriptor`, `make_layout`, `char2uplo` on the memory model of C08 (column-major tiles of a user's buffer) and the SPMD programs of C30 and C59 | element `(x, y)` of the tiles is `buf(owner)[pos]` (C02, C08); distinct elements have distinct positions; the results of C30 and C59 read back through the buffers |
| C63 | `MemoryChunk` and `MemoryView` as operations on a memory with an allocator log and `shared_ptr` control blocks with explicit counts | invariant: owners plus frees of an allocation = 1; references plus handles = count; each operation is a sequence of exchanges between objects and handles; induction over the history |
| C64 | the program of every process as a list of tasks and collectives (`dyn` for the panel, whose number of all-reduces depends on the data), state = local tiles of A and taus, panels, reduction buffers | each phase runs to a state described by global matrices (windows of V, W, X on the panels of each process); the sums of the partial products over the processes are the products; the panel is the local panel algorithm of C46 with one worker; the iteration then follows from the algebra of C46 (`redBand_core`). Which collectives are performed depends on data (`dyn`), so `SameCollectives` cannot be stated; that all schedules end implies that the collectives match |
| C65 | the program of every process as a list of local rotations and pairwise exchanges of columns; state = local tiles, the column buffer | after every rotation all processes hold the rotated matrix (invariant of the loop over the rotations): a rotation with both columns on one process is local, one with columns on two processes exchanges the local parts through the channel of that pair, the others do nothing; pointer access = element access by the contiguity of the column-major layout (C11) |
| C66 | the program of every process: broadcast of the reflectors on the row, message to the partner row, V and W, update of one tile row, of two tile rows of one process, or of two tile rows of two processes with a summing exchange; order of the blocks by diagonals; panel slots with their bound | the blocks in the order of the code are a permutation of the local order that only swaps commuting blocks (disjoint rows), so their product is Q; invariant of the loop over the blocks: every process holds its tiles of the partial product; slots are in range and the two halves of a block give V^H E as a sum |
| C67 | the function on lists: count of non-deflated, partition with insertion, counts per type and process column, partial sums, bins by process column, local index, the three scans, i4, i6, the inverse | the bins of each process column fill its local columns in order of type (invariant of the loop over `index_sorted`: every bin holds the entries seen so far); injectivity of (process, local column) gives the permutation; composition of permutations for i4, i6 |
| C68 | one program per process: deflated eigenvalues, `laed4` per column, broadcasts of the tiles of `evals`, weights per worker, product reduction over the row, sums over the column, normalization | the places of the local columns of all process columns are a permutation of `0 .. k-1`, so the reduced products and sums are those over all places; Löwner's formula (C51) gives the weights; phases composed in the SPMD machine, confluence gives every schedule |
| C69 | one program per process: two calls of the distributed product (C54) on references to windows of the local parts, written back through the references, then the copy of the window from the local column `k_lc` | the elements of a window are those of the tiles of the reference (C27 coordinates, injectivity of local positions), so a product of tiles is a product of windows; C54 with C32 gives the values; the machine of C54 is embedded in the one with the matrices; zero blocks reduce the sums; C67 gives the bounds and the local number |
| C70 | one program per process: per tile, the owner computes and sends, the others receive, over the communicator of all processes with ranks by rows | the tile's owner holds the row (position of an element from its tile, C03); one broadcast phase per tile with the invariant that all processes have the vector of the local merge (C53) for the tiles so far; confluence gives every schedule |
| C71 | one program per process: `set0`, the cuts, then per diagonal tile the owner's `stedc` and a broadcast over the full communicator | invariant: diagonal and off-diagonal from the tile on are those of the local algorithm (C53), the local parts hold its eigenvectors; local positions are injective, so the owner changes only the tile; LAPACK's contract as in C53 (and met, C53_stedc) |
| C72 | one program per process, composed of the programs of C68 (rank-one solver) and C69 (products), the partition of C67, and the local steps | an embedding of a program into a larger state and message type preserves runs (simulation); the phases are composed with the elementwise relation between window, local and global indices; exact eigenpairs by matrix algebra over the permutations of C67, all eigenvalues with multiplicity by the characteristic polynomial; inputs: types and values that all processes share, exact arithmetic, laed4 by contract (met, laed4Std), columns of one half zero in the rows of the other (what deflation keeps) |

Properties beyond C72 are appended to `properties.jsonl` with their own lines in section 6.

## 5. What cannot be expressed

Floating-point accuracy, performance, GPU execution, behaviour of the pika/MPI runtimes beyond their contract, integer overflow,
MPI error paths, numerical convergence of the secular-equation solver.

## 6. Findings (places where the code violates a property or its documentation)

| | finding | theorem |
|-|---------|---------|
| F1 | `Matrix(Distribution, AllocationLayout)` asserts on a moved-from distribution (vacuous), so offset matrices are accepted for Blocks/Tiles | – |
| F2 | `Matrix(Matrix&, SubPipelineTag)` does not initialise `allocation_layout_` | – |
| F3 | retiling checks neither divisibility nor offset | `C14_indivisible_not_rejected`, `C14_offset_not_rejected` |
| F4 | redistribution tags collide on grids with more rows than columns | `C20_tag_collision` |
| F5 | C API grid handle of a live grid can be handed out again after a free; BLACS keeps stale grid | `C24_create_after_free_returns_live_handle`, `C24_blacs_keeps_stale_grid` |
| F6 | `Panel::start_offset_` is stale after `reset`, `reset` keeps the range | `C26_stale_start_offset`, `C26_reset_keeps_range` |
| F7 | number of blocks of an empty matrix with a tile offset is 1 | – |
| F8, F13 | negative element offsets (always) and tile sizes (Release) accepted | `C39_negative_offset_accepted`, `C39_release_negative_tile_accepted` |
| F9 | `get1DBlockSize` returns 1 for a base smaller than the tile | `C37_block_size_1d_small_base` |
| F10 | minor: negative grid sizes with positive product accepted; tune `operator<<` omits a field; `MemoryView` sub-view accepts negative offsets | – |
| F12 | `global_tile_element_distance(n, n)` at the end of the matrix is not 0 | `C40_global_tile_distance_end` |
| F14 | `splitTileDisjoint` checks overlap in Debug only | `C13_release_accepts_overlap` |
| F15, F16 | device pool parameters ignored; tune parameters survive finalize | `C25_device_pool_parameters_ignored`, `C25_tune_not_reset_by_finalize` |
| F17 | tridiagonal solver's raw-pointer vectors break with non-column-major default layouts | `C34_other_layouts_break_pointer` |
| F18 | temporaries of empty tiles abort | `C23_empty_tile_aborts` |
| F19 | matrix copy with different tile sizes not rejected | `C21_tile_size_mismatch_accepted` |
| F20 | empty panel (start == nrTiles) aborts on the rank owning a partial last tile | `C26_empty_panel_aborts` |
| F21 | `Panel<StoreTransposed::Yes>` drops the offset and block size of the distribution | – |
| F22 | lower max norm with different row/column offsets misses elements or aborts | `C38_lower_misses_element`, `C38_lower_aborts` |
| F23 | permute does not reject offset matrices | `C36_offset_not_rejected` |
| F24 | HDF5 read compares only the scalar type: a complex dataset is read as real without its imaginary parts | `C28_complex_dataset_read_as_real` |
| F25 | the eigensolvers abort for tile size 1, which no documented precondition excludes (the band width is then 1) | `C49_tile_size_one_aborts`, `C50_refused` |
| F26 | the tridiagonal solver does not scale the matrix, and its deflation tolerance contains the norm of the (unit) rank-one vector: for matrices of norm comparable to eps the eigenvalues have a relative error of 1 (LAPACK's `stedc` scales) | `C53_small_matrix_wrong` |
| F27 | `multipliable` does not compare source ranks: the distributed multiplication of matrices that start on different processes satisfies all documented and checked preconditions and returns a wrong result | `C54_source_ranks_not_checked` |
| F28 | distributed `triangular_multiplication` documents `op` = Trans and ConjTrans, but aborts for them (`DLAF_UNIMPLEMENTED`), while the local one computes them | `C55_transposed_aborts` |
| F29 | distributed `generalized_to_standard` does not check that `mat_a` and `mat_b` have the same source rank, but uses the distribution of `mat_a` for the tiles of both (gen_to_std.h:100-125, gen_to_std/impl.h:285-504); with different source ranks it would read tiles of `mat_b` at the wrong indices | hypothesis of C60 |
| F30 | distributed `bt_reduction_to_band` asserts equal grids, sizes and block sizes of the rows of `mat_c` and `mat_v` but not equal source ranks (bt_reduction_to_band.h:86-107), and then reads panels that have the distribution of `mat_v` at local row indices of `mat_c` (impl.h:330-390); with different source ranks the tiles would not correspond | hypothesis `PC.row = PV.row` of C61 |
| F31 | the C API accepts the `uplo` character `G`/`g` (BLAS++ `General`, enum_parse.h:20-25): the algorithms branch on `uplo == Lower` only (factorization/cholesky.h:69-73), so a general matrix is silently handled as its upper triangle; also the sizes in the descriptor (`desca[2]`, `desca[3]`) are ignored and `info` is always 0 | theorem `C62_general_is_upper` |
| F32 | `MemoryView(view, offset, size)` asserts only `offset + size <= view.size()` (memory_view.h:89-93): a negative offset is accepted and addresses memory in front of the allocation; `chunk = std::move(chunk)` frees the memory and leaves the chunk empty (memory_chunk.h:129-141) | theorems `C63_negative_offset_accepted`, `C63_chunk_self_move_frees`; hypothesis `Op.Safe` of `C63_live_views_in_live_memory` |
| F33 | the default allocation layout of matrices can be set to Blocks or Tiles (tune.h:66-69, init.cpp:285-288, matrix/allocation.h:69); the matrix `ws.e0` of the tridiagonal solver is allocated with it (tridiag_solver/impl.h:224, 405), but the Givens rotations (rot.h:156-200 local, 218-396 distributed) walk down whole columns through one pointer, which needs the column-major layout; nothing checks it, so `blas::rot` changes elements of other columns or runs past a tile | theorem `C65_other_layouts_not_contiguous` |
| F34 | distributed `bt_band_to_tridiagonal` asserts equal grids, rows and row block sizes of `mat_e` and `mat_hh` but not equal source ranks (bt_band_to_tridiag.h:117-132), while the processes that take part in a block are chosen from the rows of `mat_hh` and then access the tile rows of `mat_e` (impl.h:862, 919-997); with different source ranks they would access tiles of other processes | hypothesis `PC.row = PV.row` of C66 |

