{
 "claims": [
  {
   "property": "C01",
   "status": "proved",
   "theorems": [
    "SpatialOps.C01_ijkToFlat_spec",
    "SpatialOps.C01_ijkToFlat_intermediates",
    "SpatialOps.C01_ijk_flat_ijk",
    "SpatialOps.C01_flat_ijk_flat"
   ],
   "note": ""
  },
  {
   "property": "C02",
   "status": "proved",
   "theorems": [
    "SpatialOps.C02_flatIndex_injective_inbounds",
    "SpatialOps.C02_inverse_lookups",
    "SpatialOps.C02_fits_accepted",
    "SpatialOps.C02_accepted_not_below",
    "SpatialOps.C02_sanity_check_accepts_overhang",
    "SpatialOps.C02_eq_ops"
   ],
   "note": "The constructor's sanity check does not by itself imply that a window fits; see C02_sanity_check_accepts_overhang."
  },
  {
   "property": "C03",
   "status": "proved",
   "theorems": [
    "SpatialOps.C03_refine_tiles",
    "SpatialOps.C03_refine_balanced",
    "SpatialOps.C03_refine_rejects"
   ],
   "note": ""
  },
  {
   "property": "C04",
   "status": "proved",
   "theorems": [
    "SpatialOps.C04_kth_increment",
    "SpatialOps.C04_reaches_end",
    "SpatialOps.C04_each_cell_once"
   ],
   "note": "Non-empty windows. C05_empty_window_end_is_ub shows end() on an empty window divides by zero."
  },
  {
   "property": "C05",
   "status": "proved",
   "theorems": [
    "SpatialOps.C05_history_independent",
    "SpatialOps.C05_order_and_difference",
    "SpatialOps.C05_index",
    "SpatialOps.C05_empty_window_end_is_ub"
   ],
   "note": ""
  },
  {
   "property": "C06",
   "status": "proved",
   "theorems": [
    "SpatialOps.C06_deref_exact",
    "SpatialOps.C06_before_begin_throws",
    "SpatialOps.C06_index_outside_throws"
   ],
   "note": ""
  },
  {
   "property": "C07",
   "status": "proved",
   "theorems": [
    "SpatialOps.C07_add_finite",
    "SpatialOps.C07_sub_cases",
    "SpatialOps.C07_add_sub_cancel",
    "SpatialOps.C07_infinite_absorbs",
    "SpatialOps.C07_min_glb",
    "SpatialOps.C07_eq_componentwise",
    "SpatialOps.C07_point_to_ghost"
   ],
   "note": ""
  },
  {
   "property": "C08",
   "status": "partial",
   "theorems": [
    "SpatialOps.C08_violated_by_add",
    "SpatialOps.C08_violated_by_sub",
    "SpatialOps.C08_flag_partial"
   ],
   "note": "The code violates the property: the is-infinite flag is not refreshed by + and -. C08_violated_by_add and C08_violated_by_sub are witnesses; C08_flag_partial gives the histories on which the flag is right."
  },
  {
   "property": "C09",
   "status": "proved",
   "theorems": [
    "SpatialOps.C09_field_layout"
   ],
   "note": ""
  },
  {
   "property": "C10",
   "status": "proved",
   "theorems": [
    "SpatialOps.C10_path_independent",
    "SpatialOps.C10_window_is_grown_interior",
    "SpatialOps.C10_reversible",
    "SpatialOps.C10_shrink_accepted",
    "SpatialOps.C10_constructed_field_grown",
    "SpatialOps.C10_inactive_direction_reset_aborts",
    "SpatialOps.C10_growth_not_rejected"
   ],
   "note": "As stated for ghosts in active directions and shrinking or restoring resets. The code aborts for a ghost in an inactive direction and accepts growth that overhangs the allocation; both are proved as C10_inactive_direction_reset_aborts and C10_growth_not_rejected."
  },
  {
   "property": "C11",
   "status": "proved",
   "theorems": [
    "SpatialOps.C11_mask_is_point_list",
    "SpatialOps.C11_outside_point_rejected",
    "SpatialOps.C11_field_mask_region",
    "SpatialOps.C11_inactive_direction_out_of_bounds",
    "SpatialOps.C11_inactive_direction_aliases"
   ],
   "note": "Masks without ghosts in inactive directions. C11_inactive_direction_out_of_bounds and C11_inactive_direction_aliases prove what goes wrong otherwise."
  },
  {
   "property": "C12",
   "status": "proved",
   "theorems": [
    "SpatialOps.C12_history_independent",
    "SpatialOps.C12_iteration_values",
    "SpatialOps.C12_iteration_agrees_with_query",
    "SpatialOps.C12_field_mask_iteration"
   ],
   "note": ""
  },
  {
   "property": "C13",
   "status": "proved",
   "theorems": [
    "SpatialOps.C13_get_fresh_and_large",
    "SpatialOps.C13_put_returns",
    "SpatialOps.C13_block_has_one_size",
    "SpatialOps.C13_double_put_aliases",
    "SpatialOps.C13_destroy"
   ],
   "note": "For clients that return each block at most once; C13_double_put_aliases proves the pool does not defend against a second put."
  },
  {
   "property": "C14",
   "status": "proved",
   "theorems": [
    "SpatialOps.C14_accounting",
    "SpatialOps.C14_allocates_only_if_needed"
   ],
   "note": ""
  },
  {
   "property": "C15",
   "status": "partial",
   "theorems": [
    "SpatialOps.C15_released_exactly_once_partial",
    "SpatialOps.C15_safe_at_every_point_partial",
    "SpatialOps.C15_detach_shared_releases_live_field",
    "SpatialOps.C15_self_assignment_ub",
    "SpatialOps.C15_copy_of_null_ub"
   ],
   "note": "Violated by the code: detach() of a shared handle, self-assignment of the only handle, and copying a null handle. Each has a C15_* witness; C15_released_exactly_once_partial covers all other histories."
  },
  {
   "property": "C16",
   "status": "proved",
   "theorems": [
    "SpatialOps.C16_histories",
    "SpatialOps.C16_live_owner_keeps_memory",
    "SpatialOps.C16_destroy",
    "SpatialOps.C16_copies_own_nothing",
    "SpatialOps.C16_no_leak"
   ],
   "note": "Assumes windows given to the constructor fit and are non-empty and allocators return memory not in use."
  },
  {
   "property": "C17",
   "status": "partial",
   "theorems": [
    "SpatialOps.C17_scratch_geometry_partial",
    "SpatialOps.C17_scratch_memory",
    "SpatialOps.C17_inactive_direction_differs",
    "SpatialOps.C17_reset_prototype_loses_interior"
   ],
   "note": "Proved for prototypes built in the ordinary way, without a boundary flag in a one-cell direction; C17_inactive_direction_differs and C17_reset_prototype_loses_interior are witnesses that the code deviates otherwise."
  },
  {
   "property": "C18",
   "status": "partial",
   "theorems": [
    "SpatialOps.C18_mutable_access_refused_partial",
    "SpatialOps.C18_assignment_refused",
    "SpatialOps.C18_end_gives_mutable_access",
    "SpatialOps.C18_const_access",
    "SpatialOps.C18_interior_refused",
    "SpatialOps.C18_add_consumer_freezes",
    "SpatialOps.C18_refused_consumer_freezes_forever",
    "SpatialOps.C18_copy_stays_read_only"
   ],
   "note": "The non-const end() does not check for read-only: C18_end_gives_mutable_access. All other mutable accessors are proved to throw."
  },
  {
   "property": "C19",
   "status": "proved",
   "theorems": [
    "SpatialOps.C19_assign_all_or_nothing"
   ],
   "note": "Memory blocks of different fields are distinct or equal (no partial overlap of external memory)."
  },
  {
   "property": "C20",
   "status": "partial",
   "theorems": [
    "SpatialOps.C20_call_partial",
    "SpatialOps.C20_call_full_window",
    "SpatialOps.C20_valid_index_aborts",
    "SpatialOps.C20_outside_refused"
   ],
   "note": "The debug assertions compare ijk with the window offset, so valid cells of offset windows abort: C20_valid_index_aborts."
  },
  {
   "property": "C21",
   "status": "proved",
   "theorems": [
    "SpatialOps.C21_never_outside_memory",
    "SpatialOps.C21_reads_only_valid_cells"
   ],
   "note": "C21_never_outside_memory does not assume that the fields of an expression have matching sizes: a mismatch ends in an exception of the debug iterator check. C21_reads_only_valid_cells states the read half as non-interference."
  },
  {
   "property": "C22",
   "status": "proved",
   "theorems": [
    "SpatialOps.C22_assign_pointwise",
    "SpatialOps.C22_interior_assign_pointwise",
    "SpatialOps.C22_undefined_interior_refused",
    "SpatialOps.C22_assign_any_mesh",
    "SpatialOps.C22_interior_assign_flat_refused",
    "SpatialOps.C22_inplace_shift_reads_new_values",
    "SpatialOps.C22_assign_in_place"
   ],
   "note": "Sequential assignment. C22_undefined_interior_refused is the converse (refused before anything is stored). C22_assign_any_mesh covers directions of extent one with nominal ghosts. Two deviations are proved: C22_interior_assign_flat_refused (interior_assign aborts in a direction of extent one with nominal ghosts) and C22_inplace_shift_reads_new_values (reading the destination at other cells sees new values)."
  },
  {
   "property": "C23",
   "status": "proved",
   "theorems": [
    "SpatialOps.C23_parallel_equals_sequential",
    "SpatialOps.C23_parallel_any_mesh",
    "SpatialOps.C23_nonpositive_count_assigns_nothing"
   ],
   "note": "Every interleaving of the individual reads and writes of the worker tasks; sequentially consistent memory. The theorem covers race freedom, progress, termination and equality with the sequential result. A partition count of zero or less assigns nothing (C23_nonpositive_count_assigns_nothing); hypothesis 0 < count excludes it."
  },
  {
   "property": "C24",
   "status": "partial",
   "theorems": [
    "SpatialOps.C24_one_thread_per_column",
    "SpatialOps.C24_gpu_equals_sequential_partial",
    "SpatialOps.C24_gpu_assigns_launched_cells",
    "SpatialOps.C24_reduced_ghosts_miss_interior_cells",
    "SpatialOps.C24_backend_choice"
   ],
   "note": "GPU assignment modelled down to each thread's loads and stores, all interleavings. Equality with the sequential walk needs valid ghosts that were not reduced; the code misses cells otherwise (C24_reduced_ghosts_miss_interior_cells), for which C24_gpu_assigns_launched_cells states the exact region. Single-value operands are assumed not to share memory with the destination (they are read by each thread)."
  },
  {
   "property": "C25",
   "status": "proved",
   "theorems": [
    "SpatialOps.C25_split_fits",
    "SpatialOps.C25_locations_each_once",
    "SpatialOps.C25_parts_cover_exactly_once"
   ],
   "note": ""
  },
  {
   "property": "C26",
   "status": "proved",
   "theorems": [
    "SpatialOps.C26_first_clause_wins",
    "SpatialOps.C26_plain_iff_all_plain",
    "SpatialOps.C26_defined_where_all_parts_are",
    "SpatialOps.C26_assign_cond"
   ],
   "note": ""
  },
  {
   "property": "C27",
   "status": "proved",
   "theorems": [
    "SpatialOps.C27_fold_all_cells",
    "SpatialOps.C27_reduce_all_cells",
    "SpatialOps.C27_max",
    "SpatialOps.C27_min",
    "SpatialOps.C27_sum_and_norm"
   ],
   "note": "Expressions without stencils (a stencil inside a reduction does not compile in the code). Sum and norm in exact arithmetic; fold and reduce for an arbitrary operation, so for floating point as well."
  },
  {
   "property": "C28",
   "status": "partial",
   "theorems": [
    "SpatialOps.C28_interior_fold",
    "SpatialOps.C28_interior_reduce",
    "SpatialOps.C28_interior_sum_and_norm",
    "SpatialOps.C28_interior_of_field_partial",
    "SpatialOps.C28_boundary_cells_left_out"
   ],
   "note": "Holds for fields without extra boundary cells. The extra cells of a field on a plus boundary are left out by the interior reductions (C28_boundary_cells_left_out), although interior iterators and interior_assign include them."
  },
  {
   "property": "C29",
   "status": "proved",
   "theorems": [
    "SpatialOps.C29_exact_on_affine_functions",
    "SpatialOps.C29_apply_to_field"
   ],
   "note": "Exact arithmetic over a field of characteristic zero; all 131 operators registered by build_stencils."
  },
  {
   "property": "C30",
   "status": "proved",
   "theorems": [
    "SpatialOps.C30_register_returns_fresh_id",
    "SpatialOps.C30_retrieve_by_id",
    "SpatialOps.C30_id_keeps_its_operator",
    "SpatialOps.C30_retrieve_without_id",
    "SpatialOps.C30_empty_forgets",
    "SpatialOps.C30_owns_operators",
    "SpatialOps.C30_ids_start_again_after_empty"
   ],
   "note": "Modelled: OpStore and the type-keyed database; the operator type is an arbitrary key. C30_ids_start_again_after_empty records that ids restart after empty_database."
  },
  {
   "property": "C31",
   "status": "proved",
   "theorems": [
    "SpatialOps.C31_each_type_registered_once",
    "SpatialOps.C31_called_twice",
    "SpatialOps.C31_other_types_unchanged",
    "SpatialOps.C31_basic_operators_present"
   ],
   "note": ""
  },
  {
   "property": "C32",
   "status": "proved",
   "theorems": [
    "SpatialOps.C32_operator_gives_value",
    "SpatialOps.C32_outside_refused",
    "SpatialOps.C32_registered_operators",
    "SpatialOps.C32_several_points",
    "SpatialOps.C32_nebo_builder",
    "SpatialOps.C32_nebo_face_points"
   ],
   "note": "Two-point operators with a non-zero coefficient on the cell being set, one cell at a time (any side), several cells, and the Nebo builder with masks. Points that are not in the field are refused."
  },
  {
   "property": "C33",
   "status": "partial",
   "theorems": [
    "SpatialOps.C33_list_is_points_partial",
    "SpatialOps.C33_no_side_differs",
    "SpatialOps.C33_ghost_layers_differ",
    "SpatialOps.C33_direct_list_is_points"
   ],
   "note": "Proved for values set directly (any field) and, for operators, on the minus and plus sides of fields without ghost layers in x and y. The code violates the rest: C33_no_side_differs and C33_ghost_layers_differ are witnesses."
  },
  {
   "property": "C34",
   "status": "proved",
   "theorems": [
    "SpatialOps.C34_exactly_once",
    "SpatialOps.C34_no_task_twice",
    "SpatialOps.C34_policies",
    "SpatialOps.C34_fifo",
    "SpatialOps.C34_lifo",
    "SpatialOps.C34_prio"
   ],
   "note": "All interleavings, any scheduling policy that keeps tasks; order theorems for FIFO, LIFO and priority."
  },
  {
   "property": "C35",
   "status": "proved",
   "theorems": [
    "SpatialOps.C35_no_lost_wakeup",
    "SpatialOps.C35_drains",
    "SpatialOps.C35_zero_pool_never_runs",
    "SpatialOps.C35_shrink_loses_wakeup",
    "SpatialOps.C35_failed_replacement_loses_wakeup",
    "SpatialOps.C35_zero_pool_never_starts"
   ],
   "note": "Under the hypotheses the property names (no shrinking, limit >= 1, replacement threads granted). Four theorems show how each hypothesis is needed: zero-sized pool (one run, and all runs), shrinking, failed replacement."
  },
  {
   "property": "C36",
   "status": "proved",
   "theorems": [
    "SpatialOps.C36_wait_returns_when_idle",
    "SpatialOps.C36_wait_threshold",
    "SpatialOps.C36_counters",
    "SpatialOps.C36_waiters_released",
    "SpatialOps.C36_sleeping_client_has_reason",
    "SpatialOps.C36_clear_forgets_waiters"
   ],
   "note": "Safety unconditionally; release of waiters without shrinking; C36_clear_forgets_waiters shows clear() can leave a waiter asleep."
  },
  {
   "property": "C37",
   "status": "partial",
   "theorems": [
    "SpatialOps.C37_shrink_settles_partial",
    "SpatialOps.C37_grow_settles_partial",
    "SpatialOps.C37_terminate",
    "SpatialOps.C37_shrink_overshoots",
    "SpatialOps.C37_grow_misses_leaving_worker",
    "SpatialOps.C37_failure_keeps_count",
    "SpatialOps.C37_failure_cancels_shrink"
   ],
   "note": "Upper bound after shrinking, exact count after growing with nobody leaving, termination and replacement of workers whose task threw proved. The code violates \"never fewer than requested\": C37_shrink_overshoots, C37_grow_misses_leaving_worker; and a task that throws sets the requested count to the present one, which cancels a shrink: C37_failure_cancels_shrink."
  },
  {
   "property": "C38",
   "status": "proved",
   "theorems": [
    "SpatialOps.C38_semaphore_safe",
    "SpatialOps.C38_semaphore_no_lost_post",
    "SpatialOps.C38_assign_returns_after_all",
    "SpatialOps.C38_every_part_written_once",
    "SpatialOps.C38_assign_returns",
    "SpatialOps.C38_missing_post_blocks"
   ],
   "note": "All interleavings with spurious wake-ups. C38_missing_post_blocks: a task that throws never posts and the assigner never returns."
  },
  {
   "property": "C39",
   "status": "proved",
   "theorems": [
    "SpatialOps.C39_limit_at_start",
    "SpatialOps.C39_beyond_limit_drains",
    "SpatialOps.C39_limit",
    "SpatialOps.C39_raise_not_noticed"
   ],
   "note": "Limit at every start, draining beyond a lowered limit, and the limit at all times if never lowered. C39_raise_not_noticed: raising it wakes nobody."
  },
  {
   "property": "C40",
   "status": "partial",
   "theorems": [
    "SpatialOps.C40_insert",
    "SpatialOps.C40_remove",
    "SpatialOps.C40_unknown",
    "SpatialOps.C40_set_capacity",
    "SpatialOps.C40_capacity_is_target",
    "SpatialOps.C40_capacity_counts_workers",
    "SpatialOps.C40_resize_pool_partial",
    "SpatialOps.C40_capacity_keeps_limit",
    "SpatialOps.C40_no_threads",
    "SpatialOps.C40_resize_pool_return_value",
    "SpatialOps.C40_early_exit_keeps_pool_empty"
   ],
   "note": "insert/remove/unknown/recorded size/target/queries proved. The property's last clause fails in the code: resize_pool returns its argument instead of the size in effect (C40_resize_pool_return_value), and the early exit of set_pool_capacity trusts the record (C40_early_exit_keeps_pool_empty)."
  },
  {
   "property": "C41",
   "status": "proved",
   "theorems": [
    "SpatialOps.C41_exact_on_polynomials",
    "SpatialOps.C41_default_order",
    "SpatialOps.C41_window",
    "SpatialOps.C41_centred",
    "SpatialOps.C41_exact_at_nodes",
    "SpatialOps.C41_lengths_checked",
    "SpatialOps.C41_order_zero_undefined",
    "SpatialOps.C41_too_few_points_undefined"
   ],
   "note": "Interpolation reproduces every polynomial of degree below the number of points used, at any argument; the window of points it picks is the nearest one inside the table. Order 0 and too few points are undefined (proved)."
  },
  {
   "property": "C42",
   "status": "proved",
   "theorems": [
    "SpatialOps.C42_exact_on_polynomials",
    "SpatialOps.C42_same_polynomial"
   ],
   "note": "The derivative returned is the derivative of the same polynomial that interpolate evaluates."
  },
  {
   "property": "C43",
   "status": "partial",
   "theorems": [
    "SpatialOps.C43_deposit_conserves",
    "SpatialOps.C43_interpolates_constants",
    "SpatialOps.C43_deposit_weights_partial",
    "SpatialOps.C43_shares_sum_to_one",
    "SpatialOps.C43_interpolation_weights_partial",
    "SpatialOps.C43_transposed",
    "SpatialOps.C43_uniform_mesh_accepted",
    "SpatialOps.C43_nonuniform_mesh_rejected",
    "SpatialOps.C43_mesh_origin_ignored",
    "SpatialOps.C43_left_overhang_misplaced",
    "SpatialOps.C43_right_overhang_undefined",
    "SpatialOps.C43_no_size_deposits_nothing"
   ],
   "note": "Conservation and constant preservation hold on every mesh whenever the operator returns, for particles with a size; the exact weights, success and transposition on the standard mesh for particles inside it. The code violates the rest: zero-size particles deposit nothing (C43_no_size_deposits_nothing), overhang at either end, the mesh origin is ignored (C43_mesh_origin_ignored)."
  },
  {
   "property": "C44",
   "status": "partial",
   "theorems": [
    "SpatialOps.C44_put_points",
    "SpatialOps.C44_extract_points",
    "SpatialOps.C44_extract_put",
    "SpatialOps.C44_put_extract",
    "SpatialOps.C44_marker_numbers",
    "SpatialOps.C44_marker_list_partial",
    "SpatialOps.C44_wrong_length",
    "SpatialOps.C44_marker_window_differs"
   ],
   "note": "Put, extract, both round trips and the numbering of marker fields are proved. The constructor from a marker field is proved to list the marked cells only when the field's window is all of its memory (C44_marker_list_partial); C44_marker_window_differs exhibits a window where it reads other cells, C44_wrong_length what happens with index lists of the wrong length."
  },
  {
   "property": "C45",
   "status": "proved",
   "theorems": [
    "SpatialOps.C45_exact",
    "SpatialOps.C45_absolute",
    "SpatialOps.C45_relative",
    "SpatialOps.C45_relative_default",
    "SpatialOps.C45_ulps",
    "SpatialOps.C45_windows_differ",
    "SpatialOps.C45_reflexive",
    "SpatialOps.C45_absolute_symmetric",
    "SpatialOps.C45_scalar_ulps",
    "SpatialOps.C45_scalar",
    "SpatialOps.C45_nan_equals_anything",
    "SpatialOps.C45_negative_tolerance_accepts",
    "SpatialOps.C45_absolute_any_values",
    "SpatialOps.C45_relative_any_values",
    "SpatialOps.C45_norm_not_finite_accepts",
    "SpatialOps.C45_tolerance_not_finite_accepts",
    "SpatialOps.C45_relative_not_symmetric"
   ],
   "note": "Stated over exact reals extended with infinities and NaN. C45_nan_equals_anything and C45_negative_tolerance_accepts record corner cases of the code."
  },
  {
   "property": "C46",
   "status": "partial",
   "theorems": [
    "SpatialOps.C46_set_coord_values",
    "SpatialOps.C46_coordinates_partial",
    "SpatialOps.C46_wrong_when_window_is_offset"
   ],
   "note": "Holds when the field's window starts at the first element of its memory (C46_coordinates_partial). In general every coordinate is shifted by the window offset (C46_set_coord_values, C46_wrong_when_window_is_offset)."
  },
  {
   "property": "C47",
   "status": "partial",
   "theorems": [
    "SpatialOps.C47_linear",
    "SpatialOps.C47_sin",
    "SpatialOps.C47_gaussian_partial",
    "SpatialOps.C47_gaussian_dx_wrong",
    "SpatialOps.C47_tanh"
   ],
   "note": "Proved for LinearFunction1D and SinFunction, and for evaluate and d2x of GaussianFunction. GaussianFunction::dx is not the derivative of evaluate: C47_gaussian_dx_wrong proves that for every choice of parameters. HyperTanFunction has no derivatives: its dx and d2x fail an assertion (C47_tanh)."
  },
  {
   "property": "C48",
   "status": "partial",
   "theorems": [
    "SpatialOps.C48_get_coef_partial",
    "SpatialOps.C48_single_coefficient_accepts_index_one",
    "SpatialOps.C48_collections_keep_order",
    "SpatialOps.C48_points_and_coefficients_match"
   ],
   "note": "Holds for two or more coefficients; a collection of one coefficient answers index 1 instead of throwing (C48_single_coefficient_accepts_index_one)."
  },
  {
   "property": "C49",
   "status": "partial",
   "theorems": [
    "SpatialOps.C49_value_permanent",
    "SpatialOps.C49_value_is_result",
    "SpatialOps.C49_wait",
    "SpatialOps.C49_cancelled_stays_unready",
    "SpatialOps.C49_delivers_partial",
    "SpatialOps.C49_cancel_succeeds_after_value",
    "SpatialOps.C49_cancel_strands_waiter"
   ],
   "note": "Single delivery, permanence, wait and cancel-before-ready proved. The code lets cancel() succeed after delivery (C49_cancel_succeeds_after_value) and strands waiters of cancelled futures (C49_cancel_strands_waiter)."
  },
  {
   "property": "C50",
   "status": "proved",
   "theorems": [
    "SpatialOps.C50_componentwise",
    "SpatialOps.C50_choices",
    "SpatialOps.C50_nonzero_dir",
    "SpatialOps.C50_stagger",
    "SpatialOps.C50_faces",
    "SpatialOps.C50_face_staggering",
    "SpatialOps.C50_points_within_one_cell",
    "SpatialOps.C50_reversed_offsets_negated"
   ],
   "note": ""
  },
  {
   "property": "C51",
   "status": "proved",
   "theorems": [
    "SpatialOps.C51_view",
    "SpatialOps.C51_block_mismatch_accepted"
   ],
   "note": "C51_block_mismatch_accepted proves that the constructor does not compare the window's global size with the parent's."
  },
  {
   "property": "C52",
   "status": "partial",
   "theorems": [
    "SpatialOps.C52_single_value_not_enforced",
    "SpatialOps.C52_single_value_partial"
   ],
   "note": "The code's check uses && where || is needed; C52_single_value_not_enforced is the witness."
  },
  {
   "property": "C53",
   "status": "proved",
   "theorems": [
    "SpatialOps.C53_reset_values"
   ],
   "note": ""
  },
  {
   "property": "C54",
   "status": "proved",
   "theorems": [
    "SpatialOps.C54_operator_meaning",
    "SpatialOps.C54_max_min",
    "SpatialOps.C54_assign_operator",
    "SpatialOps.C54_overloads_complete"
   ],
   "note": "The table of overloads (NeboOps/Table.lean) was generated from the text of NeboOperators.h and checked in; scalar operations are uninterpreted."
  },
  {
   "property": "C55",
   "status": "partial",
   "theorems": [
    "SpatialOps.C55_get",
    "SpatialOps.C55_put",
    "SpatialOps.C55_accounting",
    "SpatialOps.C55_release_partial",
    "SpatialOps.C55_mixed_release",
    "SpatialOps.C55_wrong_type_poisons"
   ],
   "note": "Proved for blocks given back with their own memory type, except that the way of release is right only if pinned allocations all succeed or all fail: C55_mixed_release proves that one failure makes the pool delete[] pinned memory. C55_wrong_type_poisons shows what a wrong memory type on return leads to (BitField does this, see C56)."
  },
  {
   "property": "C56",
   "status": "partial",
   "theorems": [
    "SpatialOps.C56_histories_partial",
    "SpatialOps.C56_live_mask_keeps_memory",
    "SpatialOps.C56_no_leak",
    "SpatialOps.C56_copies_own_nothing",
    "SpatialOps.C56_gpu_mask_poisons_pool",
    "SpatialOps.C56_refused_gpu_mask_leaks"
   ],
   "note": "Proved for histories in which GPU masks are not destroyed and carry no points. The destructor returns the memory of a GPU mask to the CPU pool, and the constructor leaks when it refuses points on a GPU: C56_gpu_mask_poisons_pool and C56_refused_gpu_mask_leaks are concrete histories."
  },
  {
   "property": "C57",
   "status": "partial",
   "theorems": [
    "SpatialOps.C57_contents_partial",
    "SpatialOps.C57_originals_current",
    "SpatialOps.C57_available",
    "SpatialOps.C57_originals_careful",
    "SpatialOps.C57_stale_copy_overwrites",
    "SpatialOps.C57_find_consumer",
    "SpatialOps.C57_find_consumer_throws",
    "SpatialOps.C57_has_consumers_misses_devices"
   ],
   "note": "Proved when consumers are added only through masks whose memory is still held (always true of masks that are not copies, C57_originals_careful). Without that restriction it is false: C57_stale_copy_overwrites."
  },
  {
   "property": "C58",
   "status": "partial",
   "theorems": [
    "SpatialOps.C58_histories_partial",
    "SpatialOps.C58_refcount",
    "SpatialOps.C58_held_is_live",
    "SpatialOps.C58_freed_with_last",
    "SpatialOps.C58_raw_untouched",
    "SpatialOps.C58_right_device",
    "SpatialOps.C58_one_device",
    "SpatialOps.C58_get_shared",
    "SpatialOps.C58_invalid_device",
    "SpatialOps.C58_assign_unset_ub",
    "SpatialOps.C58_destructor_leaks",
    "SpatialOps.C58_wrong_device_recorded",
    "SpatialOps.C58_double_wrap_throws"
   ],
   "note": "Proved for all histories in which a default-constructed pointer is not assigned to a set one and raw addresses are handed over once. Full statement fails: that assignment is undefined (C58_assign_unset_ub); the recorded device can be wrong with several devices (C58_wrong_device_recorded); every destructor leaks two host integers (C58_destructor_leaks)."
  },
  {
   "property": "C59",
   "status": "partial",
   "theorems": [
    "SpatialOps.C59_same_values_everywhere_partial",
    "SpatialOps.C59_available_after_add_consumer",
    "SpatialOps.C59_other_fields_unchanged_partial",
    "SpatialOps.C59_write_partial",
    "SpatialOps.C59_stale_on_device",
    "SpatialOps.C59_copy_writes_consumer",
    "SpatialOps.C59_copy_shows_other_field",
    "SpatialOps.C59_has_consumers_partial",
    "SpatialOps.C59_has_consumers_misses_devices"
   ],
   "note": "Proved for histories that respect the discipline of FieldMem.Disciplined (the code does not enforce it). Without it three concrete histories break the property: C59_stale_on_device, C59_copy_writes_consumer, C59_copy_shows_other_field. Views must have the global dimensions of the field they view; writes past the end of a block and the end() loophole of C18 are outside."
  },
  {
   "property": "C60",
   "status": "proved",
   "theorems": [
    "SpatialOps.C60_assign",
    "SpatialOps.C60_view_copies_too_much"
   ],
   "note": "All combinations of memory types. Views with other global dimensions are excluded by Legal; C60_view_copies_too_much shows what happens for them."
  },
  {
   "property": "C61",
   "status": "partial",
   "theorems": [
    "SpatialOps.C61_initial_values_partial",
    "SpatialOps.C61_device_and_cpu_differ"
   ],
   "note": "Full claim for windows that are the whole block, and on the CPU for all windows; on a device the array is taken in memory order (C61_device_and_cpu_differ)."
  },
  {
   "property": "C62",
   "status": "proved",
   "theorems": [
    "SpatialOps.C62_waits_for_all_tasks",
    "SpatialOps.C62_every_task_executed",
    "SpatialOps.C62_waits_for_active_tasks",
    "SpatialOps.C62_immediately",
    "SpatialOps.C62_nothing_runs_afterwards",
    "SpatialOps.C62_shutdown_returns",
    "SpatialOps.C62_task_after_shutdown_is_lost",
    "SpatialOps.C62_task_during_shutdown_is_lost",
    "SpatialOps.C62_empty_pool_hangs",
    "SpatialOps.C62_immediately_still_starts_tasks"
   ],
   "note": "All interleavings; the limits (tasks handed over during or after the shutdown, pools without threads) are refuted by witnesses."
  },
  {
   "property": "C63",
   "status": "proved",
   "theorems": [
    "SpatialOps.C63_pool_unaffected",
    "SpatialOps.C63_true_when_reached",
    "SpatialOps.C63_false_only_when_time_is_up",
    "SpatialOps.C63_returns_when_time_is_up",
    "SpatialOps.C63_false_although_reached"
   ],
   "note": "All interleavings. The documented converse (false means not reached) is refuted by C63_false_although_reached."
  },
  {
   "property": "C64",
   "status": "proved",
   "theorems": [
    "SpatialOps.C64_sides_located",
    "SpatialOps.C64_difference_of_sides",
    "SpatialOps.C64_divergence_theorem",
    "SpatialOps.C64_interior_sum"
   ],
   "note": "two-point operators (gradient, divergence) of the registration table; exact arithmetic"
  },
  {
   "property": "C65",
   "status": "proved",
   "theorems": [
    "SpatialOps.C65_summation_by_parts",
    "SpatialOps.C65_adjoint"
   ],
   "note": "volume types SVol, XVol, YVol, ZVol and their faces; exact arithmetic"
  },
  {
   "property": "C66",
   "status": "proved",
   "theorems": [
    "SpatialOps.C66_bounds"
   ],
   "note": "exact arithmetic over ordered fields"
  },
  {
   "property": "C67",
   "status": "proved",
   "theorems": [
    "SpatialOps.C67_linear"
   ],
   "note": "exact arithmetic"
  },
  {
   "property": "C68",
   "status": "proved",
   "theorems": [
    "SpatialOps.C68_one_at_a_time",
    "SpatialOps.C68_never_fails",
    "SpatialOps.C68_no_sharing",
    "SpatialOps.C68_linearizable",
    "SpatialOps.C68_accounting",
    "SpatialOps.C68_deadlock_free",
    "SpatialOps.C68_calls_finish",
    "SpatialOps.C68_constructor_gets_same_block",
    "SpatialOps.C68_consumer_gets_same_block"
   ],
   "note": "for threads that use the pool through the store only, as the property says; the two refutations show that the restriction is needed"
  },
  {
   "property": "C69",
   "status": "proved",
   "theorems": [
    "SpatialOps.C69_apart",
    "SpatialOps.C69_overlapping_copies_release_early",
    "SpatialOps.C69_overlapping_drops_leak",
    "SpatialOps.C69_overlapping_drops_release_twice"
   ],
   "note": "Positive part for schedules that keep operations on one field apart; the three other theorems show that the restriction is needed."
  },
  {
   "property": "C70",
   "status": "partial",
   "theorems": [
    "SpatialOps.C70_values_partial",
    "SpatialOps.C70_composed_equals_stepwise_partial",
    "SpatialOps.C70_stale_ghosts_used"
   ],
   "note": "Proved where the composed expression has a value at every interior cell. Otherwise the code violates the property: C70_stale_ghosts_used."
  },
  {
   "property": "C71",
   "status": "proved",
   "theorems": [
    "SpatialOps.C71_index_maps",
    "SpatialOps.C71_window",
    "SpatialOps.C71_refine",
    "SpatialOps.C71_field_iterator",
    "SpatialOps.C71_mask_iterator",
    "SpatialOps.C71_limit_is_sharp",
    "SpatialOps.C71_large_field_overflows",
    "SpatialOps.C71_mask_end_overflows",
    "SpatialOps.C71_end_pointer_in_block"
   ],
   "note": "The bound is the one the code has; where it is exceeded the counterexamples are theorems too."
  },
  {
   "property": "C72",
   "status": "partial",
   "theorems": [
    "SpatialOps.C72_built",
    "SpatialOps.C72_assign_partial",
    "SpatialOps.C72_across_refused",
    "SpatialOps.C72_operator_across_refused",
    "SpatialOps.C72_interior_assign_refused",
    "SpatialOps.C72_other_ghosts_refused"
   ],
   "note": "Proved: the constructors build such fields, pointwise assignment, refusal of stencils and operators that lead across. The full claim fails and the negation is proved: interior_assign is refused (C72_interior_assign_refused) and fields with other ghost counts cannot be combined (C72_other_ghosts_refused)."
  },
  {
   "property": "C73",
   "status": "proved",
   "theorems": [
    "SpatialOps.C73_step",
    "SpatialOps.C73_steps",
    "SpatialOps.C73_program",
    "SpatialOps.C73_energy",
    "SpatialOps.C73_equilibrium",
    "SpatialOps.C73_maximum"
   ],
   "note": "The program of test/heatEqn from building its fields to the end of the time loop, on all one-, two- and three-dimensional meshes. Exact arithmetic; sin and cos are arbitrary functions. Nothing is claimed about the ghost cells of the fluxes and of the right-hand side, which the program does not compute. Hypotheses that spacings and rho cp are not zero keep division meaningful."
  },
  {
   "property": "C74",
   "status": "proved",
   "theorems": [
    "SpatialOps.C74_fork_join",
    "SpatialOps.C74_same_result",
    "SpatialOps.C74_comes_to_an_end",
    "SpatialOps.C74_merge_sort",
    "SpatialOps.C74_merge_sort_ends",
    "SpatialOps.C74_merge_precondition",
    "SpatialOps.C74_example_hangs",
    "SpatialOps.C74_race_loses_update"
   ],
   "note": "One client, jobs that do not throw, no resizing while the program runs, accesses sequentially consistent. C74_race_loses_update shows that the condition on the jobs is needed; C74_example_hangs shows that the example as shipped never starts a job, because of the pool it creates."
  },
  {
   "property": "C75",
   "status": "proved",
   "theorems": [
    "SpatialOps.C75_each_caller_as_if_alone",
    "SpatialOps.C75_all_done",
    "SpatialOps.C75_semaphore_outlives_its_users",
    "SpatialOps.C75_no_race",
    "SpatialOps.C75_comes_to_an_end",
    "SpatialOps.C75_can_always_finish",
    "SpatialOps.C75_nested_assignments_never_return"
   ],
   "note": "Callers write disjoint fields (Apart); each assignment is one C22/C23 speak about. Semaphore modelled at the level of mutex and condition variable, with its lifetime. Nested use on the same pool: shown never to return."
  },
  {
   "property": "C76",
   "status": "proved",
   "theorems": [
    "SpatialOps.C76_paired_by_position",
    "SpatialOps.C76_same_extents",
    "SpatialOps.C76_short_source_throws",
    "SpatialOps.C76_shapes_not_compared",
    "SpatialOps.C76_interior_loop_is_interior_assign",
    "SpatialOps.C76_loop_is_assign",
    "SpatialOps.C76_reference_two_point",
    "SpatialOps.C76_reference_four_point",
    "SpatialOps.C76_reference_finite_difference",
    "SpatialOps.C76_reference_null",
    "SpatialOps.C76_reference_box_filter",
    "SpatialOps.C76_new_fields_are_twins",
    "SpatialOps.C76_reference_types"
   ],
   "note": "Loops over whole fields, interiors and parts of fields; equality of memories with <<= and interior_assign; all reference stencils against all registered operators. Meshes with a single cell in a direction are not covered by the comparison with the operators."
  },
  {
   "property": "C77",
   "status": "proved",
   "theorems": [
    "SpatialOps.C77_nearest_even_is_format",
    "SpatialOps.C77_nearest_even",
    "SpatialOps.C77_growth",
    "SpatialOps.C77_assign",
    "SpatialOps.C77_sum",
    "SpatialOps.C77_norm",
    "SpatialOps.C77_operators",
    "SpatialOps.C77_divergence_theorem",
    "SpatialOps.C77_conservation",
    "SpatialOps.C77_difference_of_equal_values",
    "SpatialOps.C77_interpolants_bounded",
    "SpatialOps.C77_filter_changes_constants"
   ],
   "note": "exponent range not modelled (no overflow or underflow); the box filters violate exact reproduction of constants, which is proved as C77_filter_changes_constants; accuracy of pow(x,2) and sqrt is a hypothesis of C77_norm"
  },
  {
   "property": "C78",
   "status": "proved",
   "theorems": [
    "SpatialOps.C78_all_cells",
    "SpatialOps.C78_interior_cells",
    "SpatialOps.C78_file_determines_values",
    "SpatialOps.C78_unopened_not_reported",
    "SpatialOps.C78_failure_destroys_file",
    "SpatialOps.C78_values_not_determined"
   ],
   "note": "Numbers are exact rationals or reals printed with 15 digits; infinities, NaN and negative zero are not modelled. Deviations proved beside it."
  },
  {
   "property": "C79",
   "status": "proved",
   "theorems": [
    "SpatialOps.C79_averages",
    "SpatialOps.C79_derivatives",
    "SpatialOps.C79_directional_derivatives",
    "SpatialOps.C79_averages_attained",
    "SpatialOps.C79_derivatives_attained",
    "SpatialOps.C79_second_derivative"
   ],
   "note": "For operators over exact real arithmetic; rounding is the subject of C77."
  },
  {
   "property": "C80",
   "status": "proved",
   "theorems": [
    "SpatialOps.C80_error",
    "SpatialOps.C80_linear"
   ],
   "note": ""
  },
  {
   "property": "C81",
   "status": "proved",
   "theorems": [
    "SpatialOps.C81_program",
    "SpatialOps.C81_same_result"
   ],
   "note": "Programs of assignments to fields on one mesh, of the kind C22 and C23 treat; reductions run on the calling thread and read what a statement boundary shows."
  },
  {
   "property": "C82",
   "status": "proved",
   "theorems": [
    "SpatialOps.C82_calls",
    "SpatialOps.C82_ends",
    "SpatialOps.C82_engaged",
    "SpatialOps.C82_empty"
   ],
   "note": "Sleeping until a time given in seconds and nanoseconds, and the clock, are assumptions on boost and the system."
  },
  {
   "property": "C83",
   "status": "proved",
   "theorems": [
    "SpatialOps.C83_averages",
    "SpatialOps.C83_derivatives"
   ],
   "note": "Exact arithmetic; CPU fields; the nine fields have separate blocks of memory."
  },
  {
   "property": "C84",
   "status": "proved",
   "theorems": [
    "SpatialOps.C84_step",
    "SpatialOps.C84_program",
    "SpatialOps.C84_attained"
   ],
   "note": "C84_step bounds the error of any smooth data with the explicit constants, C84_program that of the data the program sets, C84_attained shows the constant K0 M4/12 is attained. Exact real arithmetic; rounding is the subject of C77."
  },
  {
   "property": "C85",
   "status": "proved",
   "theorems": [
    "SpatialOps.C85_derivatives",
    "SpatialOps.C85_directional_derivatives",
    "SpatialOps.C85_averages"
   ],
   "note": "C85_averages, C85_derivatives, C85_directional_derivatives. Spacings and coefficients as the program holds them; exponents unbounded (no overflow or underflow), as in C77."
  },
  {
   "property": "C86",
   "status": "partial",
   "theorems": [
    "SpatialOps.C86_gpu_test_assign_partial",
    "SpatialOps.C86_equals_cpu_partial",
    "SpatialOps.C86_rest_is_zeroed",
    "SpatialOps.C86_in_place_differs"
   ],
   "note": "Violated outside the assigned cells: they become zero (C86_rest_is_zeroed), and in-place shifts differ (C86_in_place_differs). Proved for all inputs: what is assigned, what is zeroed and that nothing else changes; and equality with the CPU build when the assigned cells are all of the memory and the destination is not read at other cells. Operands are assumed to have no copy on device 0 yet."
  },
  {
   "property": "C87",
   "status": "partial",
   "theorems": [
    "SpatialOps.C87_reports_current_device",
    "SpatialOps.C87_one_device_partial",
    "SpatialOps.C87_wrong_device",
    "SpatialOps.C87_usage_of_other_device",
    "SpatialOps.C87_snapshot",
    "SpatialOps.C87_zero_before_update",
    "SpatialOps.C87_bad_device_refused",
    "SpatialOps.C87_allocation"
   ],
   "note": "With several devices all report the numbers of the current one; proved for one device, with the negation for more."
  },
  {
   "property": "C88",
   "status": "proved",
   "theorems": [
    "SpatialOps.C88_round_trip",
    "SpatialOps.C88_peer_copy",
    "SpatialOps.C88_memset",
    "SpatialOps.C88_others_untouched",
    "SpatialOps.C88_legal_runs"
   ],
   "note": "Bytes of the blocks over all legal histories."
  },
  {
   "property": "C89",
   "status": "proved",
   "theorems": [
    "SpatialOps.C89_commands",
    "SpatialOps.C89_assign",
    "SpatialOps.C89_program",
    "SpatialOps.C89_values",
    "SpatialOps.C89_accuracy",
    "SpatialOps.C89_same_result"
   ],
   "note": "The program as a list of actions; all divisions and schedules; linked to C73 and C84."
  },
  {
   "property": "C90",
   "status": "partial",
   "theorems": [
    "SpatialOps.C90_every_schedule_partial",
    "SpatialOps.C90_result",
    "SpatialOps.C90_ends_partial",
    "SpatialOps.C90_out_of_bounds",
    "SpatialOps.C90_small_field",
    "SpatialOps.C90_room",
    "SpatialOps.C90_host",
    "SpatialOps.C90_test_inner",
    "SpatialOps.C90_test_boundary",
    "SpatialOps.C90_spacing_ignored"
   ],
   "note": "Small fields are read out of bounds and the second and third spacings are ignored, with witnesses; everything else proved for all other fields and all schedules."
  },
  {
   "property": "C91",
   "status": "partial",
   "theorems": [
    "SpatialOps.C91_vectors_partial",
    "SpatialOps.C91_empty",
    "SpatialOps.C91_test"
   ],
   "note": "Vectors without elements make the host divide by zero (C91_empty); proved for every length from 1 up."
  },
  {
   "property": "C92",
   "status": "proved",
   "theorems": [
    "SpatialOps.C92_accepted",
    "SpatialOps.C92_contents",
    "SpatialOps.C92_indexing",
    "SpatialOps.C92_unsigned_index",
    "SpatialOps.C92_composition",
    "SpatialOps.C92_expressions",
    "SpatialOps.C92_empty_view",
    "SpatialOps.C92_valid_ghosts_reset"
   ],
   "note": "Views without cells are excluded from the traversal: C92_empty_view shows that their end() divides by zero."
  },
  {
   "property": "C93",
   "status": "proved",
   "theorems": [
    "SpatialOps.C93_assignment",
    "SpatialOps.C93_every_box",
    "SpatialOps.C93_unequal_ghosts_displaced",
    "SpatialOps.C93_by_hand"
   ],
   "note": "C93_unequal_ghosts_displaced is the case the statement names: views of fields with different ghost counts."
  },
  {
   "property": "C94",
   "status": "proved",
   "theorems": [
    "SpatialOps.C94_ends",
    "SpatialOps.C94_all_executed",
    "SpatialOps.C94_after_wait",
    "SpatialOps.C94_after_future",
    "SpatialOps.C94_future_of_throwing_task",
    "SpatialOps.C94_empty_pool_never_ends",
    "SpatialOps.C94_empty_pool_hangs",
    "SpatialOps.C94_tutorial_section1",
    "SpatialOps.C94_quickstart",
    "SpatialOps.C94_tutorial_hangs",
    "SpatialOps.C94_nothing_to_do",
    "SpatialOps.C94_compile_tests"
   ],
   "note": "The end is reached and every task executed for every program of the stated form, policy and schedule; the hang of pools created without threads, which includes three of four tutorial sections, is proved too."
  },
  {
   "property": "C95",
   "status": "proved",
   "theorems": [
    "SpatialOps.C95_program",
    "SpatialOps.C95_ends",
    "SpatialOps.C95_forever",
    "SpatialOps.C95_same_result"
   ],
   "note": "C95_program, C95_ends and C95_forever together say that runs on the pool end exactly when the single thread ends; the number of parts may differ at every pass."
  },
  {
   "property": "C96",
   "status": "partial",
   "theorems": [
    "SpatialOps.C96_serial_partial",
    "SpatialOps.C96_answers",
    "SpatialOps.C96_final",
    "SpatialOps.C96_registered_once",
    "SpatialOps.C96_ends",
    "SpatialOps.C96_prepared",
    "SpatialOps.C96_race_on_first_use",
    "SpatialOps.C96_warning_on_first_use"
   ],
   "note": "The first use races for init_ and may print a warning (C96_race_on_first_use, C96_warning_on_first_use); results, registration, progress and the prepared use are proved for all schedules."
  },
  {
   "property": "C97",
   "status": "proved",
   "theorems": [
    "SpatialOps.C97_assign_same",
    "SpatialOps.C97_reductions_same",
    "SpatialOps.C97_access_same",
    "SpatialOps.C97_fields_same",
    "SpatialOps.C97_masks_same",
    "SpatialOps.C97_particles_same",
    "SpatialOps.C97_programs_same",
    "SpatialOps.C97_scratch_differs",
    "SpatialOps.C97_assign_where_defined",
    "SpatialOps.C97_interior_left_unassigned",
    "SpatialOps.C97_interior_assign_wrong_cell",
    "SpatialOps.C97_outside_memory",
    "SpatialOps.C97_element_outside",
    "SpatialOps.C97_mask_wrong_point",
    "SpatialOps.C97_particle_outside",
    "SpatialOps.C97_points_same",
    "SpatialOps.C97_points_too_long",
    "SpatialOps.C97_tables_same",
    "SpatialOps.C97_longer_table",
    "SpatialOps.C97_pool_same"
   ],
   "note": "Every function with a check simulates its debug version (for point operators: on fields in main memory whose windows fit); programs with scratch fields agree on the elements they determine; what the release build does where the debug build refuses is proved in general for assignments, surplus points and surplus table values, and by witnesses elsewhere. Thread-parallel and GPU assignments: see C99."
  },
  {
   "property": "C98",
   "status": "proved",
   "theorems": [
    "SpatialOps.C98_ordered",
    "SpatialOps.C98_debug",
    "SpatialOps.C98_one_stream",
    "SpatialOps.C98_unordered_may_swap",
    "SpatialOps.C98_release_may_use_old_data",
    "SpatialOps.C98_release_may_copy_old_data"
   ],
   "note": "C98_ordered is the general claim (accepted, no race, bounded, never stuck, effect of the statements in order); C98_debug and C98_one_stream are the cases users rely on; C98_unordered_may_swap shows that the condition is needed, and the two witnesses show what release builds may do. The order of CUDA streams is modelled by its documented rules, on one device; the checks of an assignment are those of the debug build."
  },
  {
   "property": "C99",
   "status": "proved",
   "theorems": [
    "SpatialOps.C99_threads_same",
    "SpatialOps.C99_threads",
    "SpatialOps.C99_programs",
    "SpatialOps.C99_gpu_same",
    "SpatialOps.C99_gpu"
   ],
   "note": "`C99_threads_same` and `C99_gpu_same` assume nothing about the fields; `C99_gpu` has the conditions of `C24_gpu_equals_sequential_partial`, since the deviation of C24 is the same in both builds. Exact arithmetic."
  },
  {
   "property": "C100",
   "status": "partial",
   "theorems": [
    "SpatialOps.C100_smaller_refused_partial",
    "SpatialOps.C100_in_order",
    "SpatialOps.C100_longer_correct",
    "SpatialOps.C100_larger_accepted",
    "SpatialOps.C100_parts_change_result"
   ],
   "note": "The full property is false of the code: operands on a larger mesh are accepted (C100_larger_accepted), and the result depends on the number of threads (C100_parts_change_result). Proved: refusal of operands on a smaller mesh, the exact effect when all operands lie on one other mesh with enough cells, and the case in which that effect is the right one."
  },
  {
   "property": "C101",
   "status": "proved",
   "theorems": [
    "SpatialOps.C101_step",
    "SpatialOps.C101_heat",
    "SpatialOps.C101_bounds",
    "SpatialOps.C101_limit",
    "SpatialOps.C101_stable",
    "SpatialOps.C101_converges",
    "SpatialOps.C101_insulated",
    "SpatialOps.C101_order"
   ],
   "note": "The update and the boundary conditions are the user code that the comment at main.cpp:168-171 asks for; boundary conditions are any function on memories that changes the temperature outside the mesh only. Exact arithmetic."
  },
  {
   "property": "C102",
   "status": "proved",
   "theorems": [
    "SpatialOps.C102_accuracy",
    "SpatialOps.C102_waves",
    "SpatialOps.C102_accuracy_attained",
    "SpatialOps.C102_mean",
    "SpatialOps.C102_across_refused",
    "SpatialOps.C102_separable",
    "SpatialOps.C102_affine",
    "SpatialOps.C102_bounds",
    "SpatialOps.C102_chosen",
    "SpatialOps.C102_registered",
    "SpatialOps.C102_test"
   ],
   "note": "Fields on the CPU, debug build, exact arithmetic. Assignment with <<=; the comparison loop of the test is not modelled."
  },
  {
   "property": "C103",
   "status": "proved",
   "theorems": [
    "SpatialOps.C103_rhs",
    "SpatialOps.C103_converges",
    "SpatialOps.C103_steps",
    "SpatialOps.C103_uniform",
    "SpatialOps.C103_order"
   ],
   "note": "All numbers finite: exponents are not bounded, as in C77. The update and the boundary conditions are those of C101."
  },
  {
   "property": "C104",
   "status": "proved",
   "theorems": [
    "SpatialOps.C104_program",
    "SpatialOps.C104_transfer",
    "SpatialOps.C104_same_result",
    "SpatialOps.C104_bounds",
    "SpatialOps.C104_insulated",
    "SpatialOps.C104_steps",
    "SpatialOps.C104_order"
   ],
   "note": "The results of C101 and C103 carry over to every schedule by C104_transfer; C104_bounds, C104_insulated, C104_steps and C104_order spell out four of them."
  },
  {
   "property": "C105",
   "status": "proved",
   "theorems": [
    "SpatialOps.C105_operator_gives_value",
    "SpatialOps.C105_several_points",
    "SpatialOps.C105_registered_operators",
    "SpatialOps.C105_test_accepts",
    "SpatialOps.C105_nebo_builder",
    "SpatialOps.C105_value_can_be_lost"
   ],
   "note": "Any rounding with a relative error bound. C105_value_can_be_lost shows that the term of the other cell is needed."
  },
  {
   "property": "C106",
   "status": "proved",
   "theorems": [
    "SpatialOps.C106_deposit_conserves",
    "SpatialOps.C106_interpolation_close",
    "SpatialOps.C106_deposit_placed",
    "SpatialOps.C106_interpolation_weighted",
    "SpatialOps.C106_on_mesh",
    "SpatialOps.C106_double_is_nearest",
    "SpatialOps.C106_small_particle_lost"
   ],
   "note": "C106_small_particle_lost shows that the drift is needed. The mesh of C106_on_mesh has exact coordinates; the two theorems before it need only cells in order."
  },
  {
   "property": "C107",
   "status": "proved",
   "theorems": [
    "SpatialOps.C107_close_to_polynomial",
    "SpatialOps.C107_linear",
    "SpatialOps.C107_exact_at_points",
    "SpatialOps.C107_constant_not_kept",
    "SpatialOps.C107_total_error",
    "SpatialOps.C107_total_error_linear"
   ],
   "note": "Rounding as in C77: every operation gives the exact result with a relative error of at most u < 1; no overflow or underflow. Conversion of literals is exact. The window is chosen with rounded distances, so it may be another one than in exact arithmetic when x is nearly in the middle; the theorem is about the window that was chosen."
  },
  {
   "property": "C108",
   "status": "proved",
   "theorems": [
    "SpatialOps.C108_programs_within_range",
    "SpatialOps.C108_double",
    "SpatialOps.C108_double_is_limited",
    "SpatialOps.C108_assign",
    "SpatialOps.C108_sum",
    "SpatialOps.C108_operators",
    "SpatialOps.C108_within_range",
    "SpatialOps.C108_overflow",
    "SpatialOps.C108_underflow"
   ],
   "note": "Results of overflow are arbitrary numbers rather than infinities; nothing is claimed where overflow is possible. Operators: the coefficients are those computed in floating point."
  },
  {
   "property": "C109",
   "status": "proved",
   "theorems": [
    "SpatialOps.C109_exact",
    "SpatialOps.C109_assign",
    "SpatialOps.C109_sum",
    "SpatialOps.C109_programs",
    "SpatialOps.C109_double"
   ],
   "note": "C109_exact is the general claim for assignments, C109_assign and C109_sum the case of whole numbers, C109_programs the claim for programs, C109_double the limit of double. Integer formulas have no divisions."
  },
  {
   "property": "C110",
   "status": "proved",
   "theorems": [
    "SpatialOps.C110_programs",
    "SpatialOps.C110_rewrites",
    "SpatialOps.C110_nearest_even",
    "SpatialOps.C110_gradual",
    "SpatialOps.C110_other_rules"
   ],
   "note": "C110_rewrites is the claim for assignments, C110_programs for programs; C110_nearest_even and C110_gradual show that rounding with unbounded exponents and rounding with gradual underflow meet its conditions; C110_other_rules refutes the other rules. Numbers are real numbers: signs of zeros, infinities and NaN are not modelled."
  },
  {
   "property": "C111",
   "status": "proved",
   "theorems": [
    "SpatialOps.C111_operators",
    "SpatialOps.C111_programs",
    "SpatialOps.C111_positive_programs",
    "SpatialOps.C111_moves",
    "SpatialOps.C111_positive",
    "SpatialOps.C111_sum",
    "SpatialOps.C111_nearest_even"
   ],
   "note": "C111_moves and C111_positive are the claims for assignments, C111_sum for sums, C111_nearest_even shows that rounding to nearest even is monotone with and without underflow."
  },
  {
   "property": "C112",
   "status": "proved",
   "theorems": [
    "SpatialOps.C112_difference",
    "SpatialOps.C112_far_not_exact"
   ],
   "note": "Barring overflow; C112_far_not_exact shows that the condition of nearness is needed."
  }
 ]
}