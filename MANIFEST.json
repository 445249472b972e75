{
 "claims": [
  {
   "property": "C01",
   "status": "proved",
   "theorems": [
    "DLAF.C01_element_owner",
    "DLAF.C01_tile_owner",
    "DLAF.C01_create_2d",
    "DLAF.C01_unique_owner_2d"
   ],
   "note": ""
  },
  {
   "property": "C02",
   "status": "proved",
   "theorems": [
    "DLAF.C02_local_global_local",
    "DLAF.C02_global_local_global"
   ],
   "note": ""
  },
  {
   "property": "C03",
   "status": "proved",
   "theorems": [
    "DLAF.C03_global_split",
    "DLAF.C03_global_combine",
    "DLAF.C03_local_split",
    "DLAF.C03_owned_global_local_global",
    "DLAF.C03_local_global_local"
   ],
   "note": ""
  },
  {
   "property": "C04",
   "status": "proved",
   "theorems": [
    "DLAF.C04_local_size_count",
    "DLAF.C04_local_tiles_count",
    "DLAF.C04_sum_local_sizes",
    "DLAF.C04_sum_local_tiles"
   ],
   "note": ""
  },
  {
   "property": "C05",
   "status": "proved",
   "theorems": [
    "DLAF.C05_next_local_count",
    "DLAF.C05_local_range_visits",
    "DLAF.C05_increasing"
   ],
   "note": ""
  },
  {
   "property": "C06",
   "status": "proved",
   "theorems": [
    "DLAF.C06_tile_size_is_extent",
    "DLAF.C06_nr_tiles",
    "DLAF.C06_tile_size_bounds",
    "DLAF.C06_sizes_sum",
    "DLAF.C06_local_sizes_sum",
    "DLAF.C06_local_global_size_agree"
   ],
   "note": ""
  },
  {
   "property": "C07",
   "status": "proved",
   "theorems": [
    "DLAF.C07_sub_is_shift",
    "DLAF.C07_sub_element",
    "DLAF.C07_sub_local_element",
    "DLAF.C07_sub_sub",
    "DLAF.C07_sub_accepts",
    "DLAF.C07_tile_from_sub"
   ],
   "note": ""
  },
  {
   "property": "C08",
   "status": "proved",
   "theorems": [
    "DLAF.C08_linear_then_coords",
    "DLAF.C08_coords_then_linear"
   ],
   "note": ""
  },
  {
   "property": "C09",
   "status": "proved",
   "theorems": [
    "DLAF.C09_iterate_size",
    "DLAF.C09_iterate_end",
    "DLAF.C09_rectangle"
   ],
   "note": ""
  },
  {
   "property": "C10",
   "status": "proved",
   "theorems": [
    "DLAF.C10_interleave_splits"
   ],
   "note": ""
  },
  {
   "property": "C11",
   "status": "proved",
   "theorems": [
    "DLAF.C11_no_alias",
    "DLAF.C11_user_buffer",
    "DLAF.C11_accepted"
   ],
   "note": ""
  },
  {
   "property": "C12",
   "status": "proved",
   "theorems": [
    "DLAF.C12_owner",
    "DLAF.C12_local_index",
    "DLAF.C12_numroc",
    "DLAF.C12_address",
    "DLAF.C12_capi_address"
   ],
   "note": ""
  },
  {
   "property": "C13",
   "status": "partial",
   "theorems": [
    "DLAF.C13_subtile_accepts",
    "DLAF.C13_subtile_addresses",
    "DLAF.C13_overlap_iff",
    "DLAF.C13_split_tiles",
    "DLAF.C13_split_disjoint_partial",
    "DLAF.C13_overlap_rejected_partial",
    "DLAF.C13_release_accepts_overlap"
   ],
   "note": "Disjointness and rejection of overlapping specifications hold when DLAF_ASSERT_MODERATE is enabled (Debug); Release builds accept overlapping specifications (C13_release_accepts_overlap). Addresses, sizes and acceptance of sub-tiles hold in all builds."
  },
  {
   "property": "C14",
   "status": "proved",
   "theorems": [
    "DLAF.C14_same_address",
    "DLAF.C14_same_elements",
    "DLAF.C14_tile_nesting",
    "DLAF.C14_accepted",
    "DLAF.C14_indivisible_not_rejected",
    "DLAF.C14_offset_not_rejected"
   ],
   "note": "For the documented preconditions (one tile per block, no offset, tiles_per_block divides the block). The last two preconditions are not checked by the code (C14_indivisible_not_rejected, C14_offset_not_rejected)."
  },
  {
   "property": "C15",
   "status": "proved",
   "theorems": [
    "DLAF.C15.C15_sees_sequential_contents",
    "DLAF.C15.C15_final_contents_sequential",
    "DLAF.C15.C15_no_deadlock",
    "DLAF.C15.C15_terminates"
   ],
   "note": ""
  },
  {
   "property": "C16",
   "status": "proved",
   "theorems": [
    "DLAF.C16.C16_exclusive",
    "DLAF.C16.C16_writer_after_all_earlier",
    "DLAF.C16.C16_reader_after_earlier_writers",
    "DLAF.C16.C16_grant_iff",
    "DLAF.C16.C16_progress",
    "DLAF.C16.C16_every_request_grantable"
   ],
   "note": ""
  },
  {
   "property": "C17",
   "status": "proved",
   "theorems": [
    "DLAF.C17.C17_sub_access_between_parent_accesses",
    "DLAF.C17.C17_later_parent_access_after_sub",
    "DLAF.C17.C17_earlier_parent_access_before_sub",
    "DLAF.C17.C17_holder_finds_resource",
    "DLAF.C17.C17_value_preserved",
    "DLAF.C17.C17_matrix_sub_pipelines"
   ],
   "note": ""
  },
  {
   "property": "C18",
   "status": "proved",
   "theorems": [
    "DLAF.C18.C18_grid",
    "DLAF.C18.C18_position_unique",
    "DLAF.C18.C18_too_large_rejected"
   ],
   "note": ""
  },
  {
   "property": "C19",
   "status": "proved",
   "theorems": [
    "DLAF.C19_panel_broadcast",
    "DLAF.C19_same_collectives"
   ],
   "note": "Panel and transposed-panel broadcast for square distributions, every grid, source rank, root and range; every schedule."
  },
  {
   "property": "C20",
   "status": "partial",
   "theorems": [
    "DLAF.C20.C20_program_order",
    "DLAF.C20.C20_redistribution_partial",
    "DLAF.C20.C20_tag_collision"
   ],
   "note": "Proved for every message order on grids with no more rows than columns, and on every grid when same-tag messages keep program order; on grids with more rows than columns the tags collide and a legal order gives a wrong result (C20_tag_collision)."
  },
  {
   "property": "C21",
   "status": "proved",
   "theorems": [
    "DLAF.C21_tile_copy",
    "DLAF.C21_range_copy",
    "DLAF.C21_matrix_copy",
    "DLAF.C21_tile_size_mismatch_accepted",
    "DLAF.C21_tile_size_mismatch_debug"
   ],
   "note": "Proved for tiles, index ranges and whole matrices with the same distribution. Matrices with the same size but different tile sizes are not rejected in Release builds and elements are written past destination tiles (C21_tile_size_mismatch_accepted)."
  },
  {
   "property": "C22",
   "status": "proved",
   "theorems": [
    "DLAF.C22_message_elements",
    "DLAF.C22_accepts",
    "DLAF.C22_contiguous_sound",
    "DLAF.C22_contiguous_complete",
    "DLAF.C22_copy",
    "DLAF.C22_copy_rejects",
    "DLAF.C22_tile_message",
    "DLAF.C22_tile_contiguous"
   ],
   "note": ""
  },
  {
   "property": "C23",
   "status": "proved",
   "theorems": [
    "DLAF.C23_send",
    "DLAF.C23_recv",
    "DLAF.C23_reduce_send",
    "DLAF.C23_reduce_in_place",
    "DLAF.C23_all_reduce",
    "DLAF.C23_empty_tile_aborts"
   ],
   "note": "For tiles with at least one row; a tile with zero rows aborts in the temporary path (C23_empty_tile_aborts). Matrix tiles always have at least one row."
  },
  {
   "property": "C24",
   "status": "partial",
   "theorems": [
    "DLAF.C24.C24_live_handle_stable",
    "DLAF.C24.C24_live_handle_stable_history",
    "DLAF.C24.C24_freed_handle_dead",
    "DLAF.C24.C24_create_after_free_returns_live_handle",
    "DLAF.C24.C24_blacs_keeps_stale_grid",
    "DLAF.C24.C24_create_designates_new_iff",
    "DLAF.C24.C24_create_unique_partial"
   ],
   "note": "Uniqueness proved for the histories where grids are freed in stack order; in general it is false: a handle of a freed grid can collide with a live one (C24_create_after_free_returns_live_handle, C24_blacs_keeps_stale_grid)."
  },
  {
   "property": "C25",
   "status": "partial",
   "theorems": [
    "DLAF.C25.C25_precedence",
    "DLAF.C25.C25_finalize_resets",
    "DLAF.C25.C25_double_calls_rejected",
    "DLAF.C25.C25_history_accepted_iff_bracketed",
    "DLAF.C25.C25_tune_precedence_partial",
    "DLAF.C25.C25_layout_precedence",
    "DLAF.C25.C25_tune_not_reset_by_finalize",
    "DLAF.C25.C25_device_pool_parameters_ignored",
    "DLAF.C25.C25_host_pool_parameters",
    "DLAF.C25.C25_c_api_idempotent"
   ],
   "note": "Configuration precedence and reset proved; tune parameters survive finalize (C25_tune_not_reset_by_finalize) and device pool parameters are ignored (C25_device_pool_parameters_ignored)."
  },
  {
   "property": "C26",
   "status": "partial",
   "theorems": [
    "DLAF.Panel.C26_reuse_partial",
    "DLAF.Panel.C26_reuse_element_partial",
    "DLAF.Panel.C26_tile_sizes",
    "DLAF.Panel.C26_stale_start_offset",
    "DLAF.Panel.C26_reset_keeps_range",
    "DLAF.Panel.C26_empty_panel_aborts"
   ],
   "note": "Reuse proved for tile-based ranges after histories whose element starts are tile aligned, and for element-based ranges after any history (if the calls succeed on the reused panel). Full statement is false: start_offset_ and the range survive reset() (C26_stale_start_offset, C26_reset_keeps_range); an empty panel aborts on one rank (C26_empty_panel_aborts). C26_tile_sizes: sizes and storage after any history."
  },
  {
   "property": "C27",
   "status": "proved",
   "theorems": [
    "DLAF.C27_reaches",
    "DLAF.C27_only",
    "DLAF.C27_tiles",
    "DLAF.C27_accepts"
   ],
   "note": ""
  },
  {
   "property": "C28",
   "status": "proved",
   "theorems": [
    "DLAF.C28_write",
    "DLAF.C28_read",
    "DLAF.C28_write_read",
    "DLAF.C28_local_matrix_only_rank_zero",
    "DLAF.C28_distributed_needs_parallel_file",
    "DLAF.C28_complex_dataset_read_as_real"
   ],
   "note": "CPU matrices; any writing distribution (offsets included), memory layouts, element type with 1 or 2 scalars, order of the processes' stores; any reading grid, block size, source rank, layout. HDF5 hyperslab transfers by contract. Reading a complex dataset as real is not rejected (C28_complex_dataset_read_as_real)."
  },
  {
   "property": "C29",
   "status": "proved",
   "theorems": [
    "DLAF.C29_cholesky_lower",
    "DLAF.C29_cholesky_lower_succeeds",
    "DLAF.C29_cholesky_upper",
    "DLAF.C29_cholesky_upper_succeeds",
    "DLAF.C29_lower_is_matrix_equation",
    "DLAF.C29_upper_is_matrix_equation",
    "DLAF.C29_factor_unique",
    "DLAF.C29_succeeds_iff_positive_definite"
   ],
   "note": "Lower and upper, every tile size list, every field with involution (exact arithmetic), any kernels with the LapackSpec contracts (shown consistent by lapack_spec). Soundness, success on every positive definite matrix, other triangle unchanged, matrix-equation form, uniqueness."
  },
  {
   "property": "C30",
   "status": "proved",
   "theorems": [
    "DLAF.C30_distributed_cholesky",
    "DLAF.C30_workspaces_created",
    "DLAF.C30_same_collectives",
    "DLAF.C30_distributed_factor_lower",
    "DLAF.C30_distributed_factor_upper"
   ],
   "note": "Distributed Cholesky, lower and upper, every grid, source rank and tiling; every schedule of the processes (C43); same collectives on every shared communicator."
  },
  {
   "property": "C31",
   "status": "proved",
   "theorems": [
    "DLAF.C31_solve_left",
    "DLAF.C31_solve_right"
   ],
   "note": "Local solver: both sides, lower/upper, NoTrans/Trans/ConjTrans, Unit/NonUnit, alpha = 0 included, every tiling; only the selected triangle (without a Unit diagonal) of A is constrained, so only it is read. Distributed variants: see C30."
  },
  {
   "property": "C32",
   "status": "proved",
   "theorems": [
    "DLAF.C32_hermitian",
    "DLAF.C32_hermitian_unimplemented",
    "DLAF.C32_general",
    "DLAF.C32_general_unimplemented",
    "DLAF.C32_triangular_left",
    "DLAF.C32_triangular_right"
   ],
   "note": "Local algorithms: triangular (all 24 variants), Hermitian (Left/Lower; other variants abort, proved), general (NoTrans/NoTrans, including an empty inner dimension; other variants abort, proved)."
  },
  {
   "property": "C33",
   "status": "proved",
   "theorems": [
    "DLAF.C33_triangular_inverse",
    "DLAF.C33_inverse_from_cholesky",
    "DLAF.C33_factorize_and_invert"
   ],
   "note": "Local algorithms, lower and upper, Unit and NonUnit, every tiling and nonsingular matrix, exact arithmetic, any kernels with the LapackSpec contracts; other triangle unchanged. C33_factorize_and_invert composes with C29."
  },
  {
   "property": "C34",
   "status": "proved",
   "theorems": [
    "DLAF.C34.C34_problem_size",
    "DLAF.C34.C34_init",
    "DLAF.C34.C34_join",
    "DLAF.C34.C34_sort",
    "DLAF.C34.C34_sort_rejects",
    "DLAF.C34.C34_apply",
    "DLAF.C34.C34_invert",
    "DLAF.C34.C34_invert_undoes_apply",
    "DLAF.C34.C34_pointer_reaches_range",
    "DLAF.C34.C34_other_layouts_break_pointer"
   ],
   "note": "Raw-pointer access to the vectors proved for the column-major layout; other default layouts a user can choose break it (C34_other_layouts_break_pointer)."
  },
  {
   "property": "C35",
   "status": "proved",
   "theorems": [
    "DLAF.C35.C35_partition"
   ],
   "note": ""
  },
  {
   "property": "C36",
   "status": "proved",
   "theorems": [
    "DLAF.C36_distributed",
    "DLAF.C36_local_part",
    "DLAF.C36_local",
    "DLAF.C36_offset_not_rejected"
   ],
   "note": "CPU back end. Square tile ranges of matrices with one tile per block and no element offset (the documented precondition; matrices with an offset are not rejected by the code: C36_offset_not_rejected). Distributed: any grid, source rank, range, permutation; all ranks' packing, exchange and unpacking."
  },
  {
   "property": "C37",
   "status": "proved",
   "theorems": [
    "DLAF.C37.C37_band_size",
    "DLAF.C37.C37_band_size_accepts",
    "DLAF.C37.C37_block_size_1d",
    "DLAF.C37.C37_block_size_1d_small_base"
   ],
   "note": "Positive base and sizes; when the configured base is smaller than the tile size the 1D block size is 1 (C37_block_size_1d_small_base)."
  },
  {
   "property": "C38",
   "status": "partial",
   "theorems": [
    "DLAF.C38_max_general",
    "DLAF.C38_max_lower_partial",
    "DLAF.C38_max_upper_unimplemented",
    "DLAF.C38_lower_misses_element",
    "DLAF.C38_lower_aborts"
   ],
   "note": "General: complete. Lower: proved when rows and columns have the same offset; with different offsets the code violates the property (F22: C38_lower_misses_element, C38_lower_aborts). Upper is unimplemented in the code (aborts)."
  },
  {
   "property": "C39",
   "status": "partial",
   "theorems": [
    "DLAF.C39_accepts_iff_valid_partial",
    "DLAF.C39_release_accepts_partial",
    "DLAF.C39_normalised",
    "DLAF.C39_negative_offset_accepted",
    "DLAF.C39_release_negative_tile_accepted"
   ],
   "note": "Negative element offsets are accepted by the code (C39_negative_offset_accepted), and negative tile sizes in Release builds; equivalence proved for offset >= 0."
  },
  {
   "property": "C40",
   "status": "partial",
   "theorems": [
    "DLAF.C40_on_rank_helpers",
    "DLAF.C40_any_rank",
    "DLAF.C40_global_tile_distance_partial",
    "DLAF.C40_global_tile_distance_end",
    "DLAF.C40_local_tile_distance",
    "DLAF.C40_distance_to_adjacent_tile"
   ],
   "note": "All helpers agree; global_tile_element_distance proved except for the empty range at the end of the matrix, where the code returns a wrong value (C40_global_tile_distance_end)."
  },
  {
   "property": "C41",
   "status": "proved",
   "theorems": [
    "DLAF.C41_reduce",
    "DLAF.C41_all_reduce_in_place",
    "DLAF.C41_all_reduce",
    "DLAF.C41_sum_p2p"
   ],
   "note": "MPI reductions are modelled as the sum of the contributions in rank order over a commutative monoid (no floating-point rounding)."
  },
  {
   "property": "C42",
   "status": "proved",
   "theorems": [
    "DLAF.C42_gen_to_std_lower",
    "DLAF.C42_gen_to_std_upper"
   ],
   "note": "Local algorithm, lower and upper, every tiling, nonsingular factor, Hermitian A with real diagonal, exact arithmetic in a field of characteristic other than 2 (the code multiplies by -0.5)."
  },
  {
   "property": "C43",
   "status": "proved",
   "theorems": [
    "DLAF.C43_schedule_independent",
    "DLAF.C43_no_deadlock"
   ],
   "note": ""
  },
  {
   "property": "C44",
   "status": "proved",
   "theorems": [
    "DLAF.C44_t_factor",
    "DLAF.C44_every_schedule",
    "DLAF.C44_workers",
    "DLAF.C44_t_factor_distributed"
   ],
   "note": "CPU back end; one process and distributed (all ranks of the column communicator, all-reduce by C41); worker threads with barriers under every interleaving."
  },
  {
   "property": "C45",
   "status": "proved",
   "theorems": [
    "DLAF.C45_bt_reduction_to_band"
   ],
   "note": "Local version, CPU. Taus given as one element per reflector, in tiles of the block size."
  },
  {
   "property": "C46",
   "status": "proved",
   "theorems": [
    "DLAF.C46_reduction_to_band",
    "DLAF.C46_bad_band_refused",
    "DLAF.C46_panel_every_schedule"
   ],
   "note": "Local version, CPU. Exact arithmetic over R or C (RCLike); tile tasks in program order (their schedules: C43), panel threads under every schedule."
  },
  {
   "property": "C47",
   "status": "proved",
   "theorems": [
    "DLAF.C47_tridiagonal",
    "DLAF.C47_every_schedule",
    "DLAF.C47_race_free",
    "DLAF.C47_footprint",
    "DLAF.C47_frame"
   ],
   "note": "Local version (input on CPU). Exact arithmetic over R or C (RCLike); larfg by LAPACK's contract, shown satisfiable by its own formulas; interleaving semantics at the granularity of kernels, justified by race freedom."
  },
  {
   "property": "C48",
   "status": "proved",
   "theorems": [
    "DLAF.C48_back_transformation",
    "DLAF.C48_bad_band",
    "DLAF.C48_eigenvectors"
   ],
   "note": "Local version. Exact arithmetic over R or C; larft by LAPACK's contract, shown satisfiable by the library's own T factor (C44); tasks in program order (other schedules: C43)."
  },
  {
   "property": "C49",
   "status": "proved",
   "theorems": [
    "DLAF.C49_stages",
    "DLAF.C49_residual",
    "DLAF.C49_eigensolver",
    "DLAF.C49_outcome_exists",
    "DLAF.C49_refused",
    "DLAF.C49_tile_size_one_aborts"
   ],
   "note": "Local version, lower triangle (the upper one is not implemented in the code: proved to abort). The tridiagonal eigensolver enters by contract; C49_residual needs no accuracy of it. F25: tile size 1 aborts (C49_tile_size_one_aborts)."
  },
  {
   "property": "C50",
   "status": "proved",
   "theorems": [
    "DLAF.C50_generalized_eigensolver",
    "DLAF.C50_already_factorized",
    "DLAF.C50_not_positive_definite",
    "DLAF.C50_refused",
    "DLAF.C50_outcome_exists"
   ],
   "note": "Local version, lower triangle. Tile kernels by LAPACK's contracts (C29), tridiagonal eigensolver by contract (C49)."
  },
  {
   "property": "C51",
   "status": "proved",
   "theorems": [
    "DLAF.C51_solved",
    "DLAF.C51_every_schedule",
    "DLAF.C51_laed4"
   ],
   "note": "Local version; laed4 by its documented contract in exact arithmetic."
  },
  {
   "property": "C52",
   "status": "proved",
   "theorems": [
    "DLAF.C52_deflates",
    "DLAF.C52_rejects"
   ],
   "note": "Local version, exact arithmetic."
  },
  {
   "property": "C53",
   "status": "proved",
   "theorems": [
    "DLAF.C53_solves",
    "DLAF.C53_exact",
    "DLAF.C53_eigensolver",
    "DLAF.C53_stedc",
    "DLAF.C53_small_matrix_wrong"
   ],
   "note": "Local version, exact arithmetic except for the deflation tolerance. Finding F26: the tolerance is absolute for matrices of norm below 1."
  },
  {
   "property": "C54",
   "status": "proved",
   "theorems": [
    "DLAF.C54_workspaces_created",
    "DLAF.C54_distributed_general",
    "DLAF.C54_distributed_product",
    "DLAF.C54_same_collectives",
    "DLAF.C54_source_ranks_not_checked"
   ],
   "note": "Source ranks of A, B, C have to agree along the common dimensions: not documented and not checked (finding F27)."
  },
  {
   "property": "C55",
   "status": "proved",
   "theorems": [
    "DLAF.C55_distributed_multiplication",
    "DLAF.C55_workspaces_created",
    "DLAF.C55_distributed_product_left",
    "DLAF.C55_distributed_product_right",
    "DLAF.C55_same_collectives",
    "DLAF.C55_transposed_aborts"
   ],
   "note": "As in C54 the source ranks have to agree (F27). op = Trans/ConjTrans is documented but aborts (F28)."
  },
  {
   "property": "C56",
   "status": "proved",
   "theorems": [
    "DLAF.C56_distributed_solve_left",
    "DLAF.C56_distributed_solve_right",
    "DLAF.C56_workspaces_created",
    "DLAF.C56_same_collectives"
   ],
   "note": "As in C54 the source ranks have to agree (F27). mat_b without offset."
  },
  {
   "property": "C57",
   "status": "proved",
   "theorems": [
    "DLAF.C57_workspaces_created",
    "DLAF.C57_distributed_hermitian",
    "DLAF.C57_same_collectives",
    "DLAF.C57_unimplemented"
   ],
   "note": "As in C54 the source ranks have to agree (F27)."
  },
  {
   "property": "C58",
   "status": "proved",
   "theorems": [
    "DLAF.C58_workspaces_created",
    "DLAF.C58_distributed_triangular_inverse",
    "DLAF.C58_same_as_local",
    "DLAF.C58_same_collectives"
   ],
   "note": "CPU path; tile kernels of LAPACK by their specification, as in C33."
  },
  {
   "property": "C59",
   "status": "proved",
   "theorems": [
    "DLAF.C59_same_as_local",
    "DLAF.C59_distributed_inverse_from_cholesky",
    "DLAF.C59_distributed_factorize_and_invert",
    "DLAF.C59_same_collectives"
   ],
   "note": "CPU path; tile kernels of LAPACK by their specification, as in C33."
  },
  {
   "property": "C60",
   "status": "proved",
   "theorems": [
    "DLAF.C60_workspaces_created",
    "DLAF.C60_same_as_local",
    "DLAF.C60_distributed_gen_to_std_lower",
    "DLAF.C60_distributed_gen_to_std_upper",
    "DLAF.C60_same_collectives"
   ],
   "note": "Same distribution of both matrices (the code does not check the source ranks: F29); tile kernels of LAPACK by their specification, as in C42."
  },
  {
   "property": "C61",
   "status": "proved",
   "theorems": [
    "DLAF.C61_bt_reduction_to_band_distributed",
    "DLAF.C61_same_as_local",
    "DLAF.C61_same_collectives"
   ],
   "note": "Rows of C and V with the same source rank (not checked by the code: F30); larfT and BLAS kernels by their specification, as in C44 and C45."
  },
  {
   "property": "C62",
   "status": "proved",
   "theorems": [
    "DLAF.C62_pxpotrf",
    "DLAF.C62_pxpotri",
    "DLAF.C62_factorize_and_invert",
    "DLAF.C62_accepted_calls_are_legal",
    "DLAF.C62_general_is_upper"
   ],
   "note": "End to end on user buffers; LAPACK/BLAS tile kernels by their specification, exact arithmetic. Finding F31: 'G' accepted and handled as 'U' (C62_general_is_upper)."
  },
  {
   "property": "C63",
   "status": "proved",
   "theorems": [
    "DLAF.Own.C63_freed_at_most_once",
    "DLAF.Own.C63_freed_iff_unowned",
    "DLAF.Own.C63_no_leak",
    "DLAF.Own.C63_live_views_in_live_memory",
    "DLAF.Own.C63_other_views_unchanged",
    "DLAF.Own.C63_new_views",
    "DLAF.Own.C63_assigned_views",
    "DLAF.Own.C63_negative_offset_accepted",
    "DLAF.Own.C63_chunk_self_move_frees"
   ],
   "note": "Finding F32: negative sub-view offsets accepted, self move-assignment of a chunk frees its memory (both proved)."
  },
  {
   "property": "C64",
   "status": "proved",
   "theorems": [
    "DLAF.C64_reduction_to_band_distributed",
    "DLAF.C64_bad_band_refused"
   ],
   "note": ""
  },
  {
   "property": "C65",
   "status": "proved",
   "theorems": [
    "DLAF.C65_rotations_distributed",
    "DLAF.C65_same_as_local",
    "DLAF.C65_same_exchanges",
    "DLAF.C65_columns_contiguous",
    "DLAF.C65_other_layouts_not_contiguous"
   ],
   "note": ""
  },
  {
   "property": "C66",
   "status": "proved",
   "theorems": [
    "DLAF.C66_bt_band_to_tridiagonal_distributed",
    "DLAF.C66_same_as_local",
    "DLAF.C66_refused",
    "DLAF.C66_same_collectives"
   ],
   "note": ""
  },
  {
   "property": "C67",
   "status": "proved",
   "theorems": [
    "DLAF.C67.C67_defined",
    "DLAF.C67.C67_index_sorted",
    "DLAF.C67.C67_sorted_by_type",
    "DLAF.C67.C67_local_indices",
    "DLAF.C67.C67_counts",
    "DLAF.C67.C67_bounds",
    "DLAF.C67.C67_maps",
    "DLAF.C67.C67_rank_independent"
   ],
   "note": ""
  },
  {
   "property": "C68",
   "status": "proved",
   "theorems": [
    "DLAF.C68.C68_solved",
    "DLAF.C68.C68_same_collectives",
    "DLAF.C68.C68_partition_fits"
   ],
   "note": ""
  },
  {
   "property": "C69",
   "status": "proved",
   "theorems": [
    "DLAF.C69_multiply_eigenvectors",
    "DLAF.C69_same_collectives",
    "DLAF.C69_partition"
   ],
   "note": ""
  },
  {
   "property": "C70",
   "status": "proved",
   "theorems": [
    "DLAF.C70_assemble",
    "DLAF.C70_as_local",
    "DLAF.C70_same_collectives"
   ],
   "note": ""
  },
  {
   "property": "C71",
   "status": "proved",
   "theorems": [
    "DLAF.C71_as_local",
    "DLAF.C71_leaves",
    "DLAF.C71_same_collectives"
   ],
   "note": ""
  },
  {
   "property": "C72",
   "status": "proved",
   "theorems": [
    "DLAF.C72_merge",
    "DLAF.C72_all_eigenvalues",
    "DLAF.C72_same_collectives"
   ],
   "note": "Exact arithmetic; the parameters (types, values, z, rho, index) are the same on all processes by assumption."
  }
 ]
}