{
 "claims": [
  {
   "property": "C01",
   "status": "proved",
   "theorems": [
    "Verif.C01.C01_contains_int",
    "Verif.C01.C01_contains_range",
    "Verif.C01.C01_intersects",
    "Verif.C01.C01_intersects_comm",
    "Verif.C01.C01_relativeRange",
    "Verif.C01.C01_relativeRange_mem",
    "Verif.C01.C01_contains_empty",
    "Verif.C01.C01_empty_false",
    "Verif.C01.C01_shift"
   ],
   "note": "For non-empty ranges the predicates are set-theoretic; C01_empty_false gives the witnesses where empty ranges deviate."
  },
  {
   "property": "C02",
   "status": "proved",
   "theorems": [
    "Verif.C02.C02_ranges_exact",
    "Verif.C02.C02_net_nonneg",
    "Verif.C02.C02_no_ub",
    "Verif.C02.C02_limit_order"
   ],
   "note": "All histories of add/remove/ranges from the empty object, unbounded integers."
  },
  {
   "property": "C03",
   "status": "proved",
   "theorems": [
    "Verif.C02.C03_add_flag",
    "Verif.C02.C03_remove_flag"
   ],
   "note": ""
  },
  {
   "property": "C04",
   "status": "proved",
   "theorems": [
    "Verif.C02.C04_remove_throws_iff",
    "Verif.C02.C04_remove_strong_guarantee"
   ],
   "note": ""
  },
  {
   "property": "C05",
   "status": "proved",
   "theorems": [
    "Verif.C02.C05_maxCount"
   ],
   "note": ""
  },
  {
   "property": "C06",
   "status": "proved",
   "theorems": [
    "Verif.C02.C06_split_partition",
    "Verif.C02.C06_split_boundaries"
   ],
   "note": ""
  },
  {
   "property": "C07",
   "status": "proved",
   "theorems": [
    "Verif.C07.C07_variables_exact",
    "Verif.C07.C07_lists_cover_unique",
    "Verif.C07.C07_add_flag",
    "Verif.C07.C07_remove_flag",
    "Verif.C07.C07_isDisjointUnion"
   ],
   "note": "Any number of root variables, Euclidean or manifolds whose subvariables are aligned in the three coordinates (hypothesis World)."
  },
  {
   "property": "C08",
   "status": "partial",
   "theorems": [
    "Verif.C08.C08_split_stale",
    "Verif.C08.C08_split_fresh_after_change_partial",
    "Verif.C08.C08_split_first_query_partial"
   ],
   "note": "The full claim is false of the code (C08_split_stale); proved: the list is right when recomputed."
  },
  {
   "property": "C09",
   "status": "proved",
   "theorems": [
    "Verif.C09.C09_order",
    "Verif.C09.C09_no_overflow"
   ],
   "note": "All graphs reachable by addNode/addEdge/removeNode/clear."
  },
  {
   "property": "C10",
   "status": "proved",
   "theorems": [
    "Verif.C09.C10_acyclic_complete",
    "Verif.C09.C10_returns_iff",
    "Verif.C09.C10_throws_iff_cycle",
    "Verif.C09.C10_no_top_throws",
    "Verif.C09.C10_dropped_cycle"
   ],
   "note": "C10_dropped_cycle proves that the unrestricted claim is false of the code; C10_returns_iff gives the exact condition."
  },
  {
   "property": "C100",
   "status": "partial",
   "theorems": [
    "Verif.C100.C100_defined",
    "Verif.C100.C100_partial",
    "Verif.C100.C100_block",
    "Verif.C100.C100_range",
    "Verif.C100.C100_false"
   ],
   "note": "Proved when the columns come one after the other (matrices, blocks, maps with an inner stride). False for maps whose columns overlap or that are transposed by their strides (C100_false). No division by zero for any strides."
  },
  {
   "property": "C101",
   "status": "partial",
   "theorems": [
    "Verif.C101.C101_partial",
    "Verif.C101.C101_slice",
    "Verif.C101.C101_accumulate",
    "Verif.C101.C101_reset",
    "Verif.C101.C101_stated",
    "Verif.C101.C101_raw_false",
    "Verif.C101.C101_ref_false",
    "Verif.C101.C101_constant_false"
   ],
   "note": "Proved for the interface of the class and the const slices. False for the functions inherited from Eigen, which keep the properties (C101_raw_false), and for what is read or stated through a slice that is not const, whose properties are those of the whole matrix (C101_ref_false); the claim to be constant holds since it was made only (C101_constant_false)."
  },
  {
   "property": "C102",
   "status": "partial",
   "theorems": [
    "Verif.C102.C102_reset",
    "Verif.C102.C102_value",
    "Verif.C102.C102_jacobian_partial",
    "Verif.C102.C102_jacobian_false",
    "Verif.C102.C102_velocity_partial",
    "Verif.C102.C102_norm",
    "Verif.C102.C102_velocity_false",
    "Verif.C102.C102_acceleration_partial"
   ],
   "note": "The value and the derivative of its norm are right. The velocity is the derivative of the value iff the error is parallel to it (exact criterion), not in general (C102_velocity_false): the angular velocity is not the derivative of the rotation vector. It is the jacobian times the velocities of the joints for the frames with the orientation of the body only (C102_jacobian_false)."
  },
  {
   "property": "C103",
   "status": "partial",
   "theorems": [
    "Verif.C103.C103_relative",
    "Verif.C103.C103_value",
    "Verif.C103.C103_world",
    "Verif.C103.C103_derivative",
    "Verif.C103.C103_partial",
    "Verif.C103.C103_velocity_false",
    "Verif.C103.C103_dof_false"
   ],
   "note": "The value is proved right. The velocity is the derivative when the orientation is the initial one, the first frame is aligned with the world and does not turn around another point; the derivative is given otherwise (C103_derivative). It is false in general whatever transformError computes (C103_velocity_false): the value is relative, the velocity is in the coordinates of the world; with a partial matrix the value changes while the velocity is null (C103_dof_false)."
  },
  {
   "property": "C104",
   "status": "proved",
   "theorems": [
    "Verif.C104.C104_get",
    "Verif.C104.C104_assign",
    "Verif.C104.C104_allocations",
    "Verif.C104.C104_map",
    "Verif.C104.C104_columns",
    "Verif.C104.C104_keep_false"
   ],
   "note": "Entries are not kept by a resize unless the number of rows is the same and nothing is allocated (C104_columns, C104_keep_false). The reference returned by operator= refers to a temporary and is not modelled."
  },
  {
   "property": "C105",
   "status": "partial",
   "theorems": [
    "Verif.C105.C105_scope",
    "Verif.C105.C105_defined",
    "Verif.C105.C105_macro",
    "Verif.C105.C105_throw_false",
    "Verif.C105.C105_sites_false",
    "Verif.C105.C105_resolution",
    "Verif.C105.C105_first_resolution_false",
    "Verif.C105.C105_failed_update_false"
   ],
   "note": "The last claim is false when the expression throws: the permission stays given and the override stays on the stack (C105_throw_false). With two copies of the flag of Eigen (one per binary), a change from one makes every call from the other fail its assertion (C105_sites_false). The first resolution of a problem by a scheme leaves the allocations allowed and a value in the stack, because the call to restore in createComputationData comes after the return (C105_first_resolution_false); so does an exception in updateComputationData (C105_failed_update_false)."
  },
  {
   "property": "C106",
   "status": "proved",
   "theorems": [
    "Verif.C106.C106_generate",
    "Verif.C106.C106_disabled",
    "Verif.C106.C106_sound"
   ],
   "note": "With dependencies that form a cycle the call either throws or returns a plan that misses updates (C106_sound, C14_cycle_omitted)."
  },
  {
   "property": "C107",
   "status": "partial",
   "theorems": [
    "Verif.C107.C107_notify",
    "Verif.C107.C107_history",
    "Verif.C107.C107_expired_false",
    "Verif.C107.C107_network",
    "Verif.C107.C107_returns",
    "Verif.C107.C107_cycle",
    "Verif.C107.C107_depth",
    "Verif.C107.C107_twice",
    "Verif.C107.C107_single",
    "Verif.C107.C107_answers",
    "Verif.C107.C107_last_words"
   ],
   "note": "The last claim is false: a listener that has ended and had been registered makes every later notification undefined (lock() of the weak pointer is dereferenced without a test), and nothing unregisters it (C107_expired_false). For sources whose listeners notify other sources in answer, who receives what, in which order, and when the notification returns are proved (C107_network, C107_returns); that a listener receives an event once per notification is then false (C107_twice). Whatever the answers at any depth, C107_answers says what a notification that returns may have changed."
  },
  {
   "property": "C108",
   "status": "partial",
   "theorems": [
    "Verif.C108.C108_place",
    "Verif.C108.C108_all",
    "Verif.C108.C108_rigid",
    "Verif.C108.C108_stale",
    "Verif.C108.C108_moves",
    "Verif.C108.C108_shared_false"
   ],
   "note": "The last claim is proved for hulls with distinct objects (C108_all); it is false of two hulls made with the same shared object of sch (C108_shared_false). sch is taken to keep the matrix."
  },
  {
   "property": "C109",
   "status": "proved",
   "theorems": [
    "Verif.C109.C109_configuration",
    "Verif.C109.C109_vector",
    "Verif.C109.C109_order"
   ],
   "note": "The parsing of the file is RBDyn's; values that are not a rotation for a free flyer are not rejected."
  },
  {
   "property": "C11",
   "status": "proved",
   "theorems": [
    "Verif.C09.C11_content",
    "Verif.C09.C11_members",
    "Verif.C09.C11_history_independent",
    "Verif.C09.C11_addEdge_flag",
    "Verif.C09.C11_removeNode_returns"
   ],
   "note": "Any history; children agree as sets."
  },
  {
   "property": "C110",
   "status": "partial",
   "theorems": [
    "Verif.C110.C110_avoidance",
    "Verif.C110.C110_sampled",
    "Verif.C110.C110_second_partial",
    "Verif.C110.C110_second_false"
   ],
   "note": "First order: proved. Second order, with a constant acceleration during the steps: false under the condition xsi dt ≤ di - ds (C110_second_false), proved for 3 xsi dt ≤ di - ds and a gentle entry in the zone (C110_second_partial). Automatic damping: see C45."
  },
  {
   "property": "C111",
   "status": "proved",
   "theorems": [
    "Verif.C111.C111_alone",
    "Verif.C111.C111_solve",
    "Verif.C111.C111_layout",
    "Verif.C111.C111_no_assertion"
   ],
   "note": "Simulation, by induction over the calls; with it each theorem about the histories of one scheme (C49-C63) holds for each scheme. Weighted least squares schemes; the absence of failing assertions is for schemes without automatic damping (see C52) when no resolution throws (see C62)."
  },
  {
   "property": "C112",
   "status": "proved",
   "theorems": [
    "Verif.C112.C112_gains_iff",
    "Verif.C112.C112_sampled_pd",
    "Verif.C112.C112_sampled_critical",
    "Verif.C112.C112_sampled_oneStep",
    "Verif.C112.C112_resolved",
    "Verif.C112.C112_resolved_pd"
   ],
   "note": "From the resolution (C96, C97) to the limit: a linear recurrence of order two, with the exact condition of its stability. Inequality tasks of the second order: C113."
  },
  {
   "property": "C113",
   "status": "proved",
   "theorems": [
    "Verif.C113.C113_pd",
    "Verif.C113.C113_sampled",
    "Verif.C113.C113_sampled_critical",
    "Verif.C113.C113_not_kept",
    "Verif.C113.C113_sampled_not_kept",
    "Verif.C113.C113_resolved"
   ],
   "note": "From the resolution (C96, C97) to all times. C113_not_kept and C113_sampled_not_kept show that the hypotheses on the velocity and on the period are needed. With a resolution every dt the function is affine."
  },
  {
   "property": "C114",
   "status": "proved",
   "theorems": [
    "Verif.C114.C114_feedForward",
    "Verif.C114.C114_clamped",
    "Verif.C114.C114_clamped_straight",
    "Verif.C114.C114_clamped_frozen",
    "Verif.C114.C114_layers",
    "Verif.C114.C114_feedForward_second",
    "Verif.C114.C114_tracking_second",
    "Verif.C114.C114_tracking_limit",
    "Verif.C114.C114_tracking_critical"
   ],
   "note": "From the resolution (C96, C97) to all times. The gain is a scalar or diagonal. C114_clamped_frozen shows that convergence needs nonzero bounds."
  },
  {
   "property": "C115",
   "status": "partial",
   "theorems": [
    "Verif.C115.C115_exact",
    "Verif.C115.C115_valid_partial",
    "Verif.C115.C115_undefined",
    "Verif.C115.C115_links",
    "Verif.C115.C115_valid_false"
   ],
   "note": "False for the primitives of subvariables (C115_valid_false: basePrimitive() of a subvariable has the control block of the super variable); C115_exact says when each pointer is valid."
  },
  {
   "property": "C116",
   "status": "partial",
   "theorems": [
    "Verif.C116.C116_keys",
    "Verif.C116.C116_added_partial",
    "Verif.C116.C116_variables",
    "Verif.C116.C116_counted_false",
    "Verif.C116.C116_vector"
   ],
   "note": "False of add and remove for variables that were removed and destroyed (C116_counted_false). A search in the map is taken to read all the keys; the counterexample has one key."
  },
  {
   "property": "C117",
   "status": "partial",
   "theorems": [
    "Verif.C117.C117_recorded_partial",
    "Verif.C117.C117_fresh_partial",
    "Verif.C117.C117_reads_partial",
    "Verif.C117.C117_keeps",
    "Verif.C117.C117_plain",
    "Verif.C117.C117_plain_false",
    "Verif.C117.C117_twice_false",
    "Verif.C117.C117_throw_false",
    "Verif.C117.C117_event_false"
   ],
   "note": "False when a task is added twice or when an addition throws (C117_twice_false, C117_throw_false, C117_event_false), and of ControlProblem itself (C117_plain says when exactly). C117_keeps needs neither condition, if the program keeps its pointers."
  },
  {
   "property": "C118",
   "status": "partial",
   "theorems": [
    "Verif.C118.C118_visits",
    "Verif.C118.C118_refresh_partial",
    "Verif.C118.C118_run_partial",
    "Verif.C118.C118_update_partial",
    "Verif.C118.C118_inputs_partial",
    "Verif.C118.C118_remove_false",
    "Verif.C118.C118_reference_false",
    "Verif.C118.C118_throw_false",
    "Verif.C118.C118_stale_false"
   ],
   "note": "False when a node removes an input it depends upon, for dependencies by reference to what is not kept, and when an addition to the updater throws after its first output; the plan may be stale after a removal (C118_stale_false). C118_visits tells that the visited sources are all that the construction reads."
  },
  {
   "property": "C119",
   "status": "partial",
   "theorems": [
    "Verif.PB.C119_layout_partial",
    "Verif.PB.C119_no_assertion_partial",
    "Verif.PB.C119_returns_partial",
    "Verif.PB.C119_priority_false",
    "Verif.PB.C119_objective_false",
    "Verif.PB.C119_bound_false",
    "Verif.PB.C119_role_false"
   ],
   "note": "False for changes of the tasks that the solver has (C119_priority_false, C119_objective_false, C119_bound_false, C119_role_false), which are never notified."
  },
  {
   "property": "C12",
   "status": "proved",
   "theorems": [
    "Verif.C09.C12_groupedOrder",
    "Verif.C09.C12_throws_like_order"
   ],
   "note": "Includes correctness of the disjoint-set structure with path compression and union by rank."
  },
  {
   "property": "C120",
   "status": "partial",
   "theorems": [
    "Verif.SB.C120_assignments",
    "Verif.SB.C120_registered",
    "Verif.SB.C120_alive_partial",
    "Verif.SB.C120_key_false",
    "Verif.SB.C120_rows_false",
    "Verif.SB.C120_half_false",
    "Verif.SB.C120_announced",
    "Verif.SB.C120_processed"
   ],
   "note": "False for additions that throw before their first assignment (C120_key_false, C120_rows_false); an addition that makes several assignments and throws in between leaves the first ones (C120_half_false)."
  },
  {
   "property": "C121",
   "status": "partial",
   "theorems": [
    "Verif.IM.C121_distinct",
    "Verif.IM.C121_identity_partial",
    "Verif.IM.C121_map_partial",
    "Verif.IM.C121_null",
    "Verif.IM.C121_self_false",
    "Verif.IM.C121_merged_false",
    "Verif.IM.C121_moved_false",
    "Verif.IM.C121_destroyed_false"
   ],
   "note": "The claim about identifiers is proved except for self-move (C121_self_false); the claim about maps is false when keys are moved, moved from or destroyed while in the map, or null."
  },
  {
   "property": "C122",
   "status": "partial",
   "theorems": [
    "Verif.HLS.C122_build",
    "Verif.HLS.C122_first_partial",
    "Verif.HLS.C122_later_partial",
    "Verif.HLS.C122_again_false",
    "Verif.HLS.C122_levels_false",
    "Verif.HLS.C122_norm_false",
    "Verif.HLS.C122_bounds_false",
    "Verif.HLS.C122_variables_false"
   ],
   "note": "Proved for the first build and exactly characterised for the later ones; false in general for the later ones, and when the variables are destroyed after the build."
  },
  {
   "property": "C123",
   "status": "partial",
   "theorems": [
    "Verif.C123.C123_partial",
    "Verif.C123.C123_tasks_partial",
    "Verif.C123.C123_best_partial",
    "Verif.C123.C123_loop_partial",
    "Verif.C123.C123_proportional_partial",
    "Verif.C123.C123_sampled_partial",
    "Verif.C123.C123_oneStep_partial",
    "Verif.C123.C123_second_partial",
    "Verif.C123.C123_pd_partial"
   ],
   "note": "Partial for the reasons of C98 (infinity is a constant, the priority 0 must be feasible, positive weights)."
  },
  {
   "property": "C124",
   "status": "partial",
   "theorems": [
    "Verif.C124.C124_build",
    "Verif.C124.C124_partial",
    "Verif.C124.C124_default",
    "Verif.C124.C124_one_sided",
    "Verif.C124.C124_other_false",
    "Verif.C124.C124_setter_false",
    "Verif.C124.C124_bounds",
    "Verif.C124.C124_bounds_partial",
    "Verif.C124.C124_bounds_false",
    "Verif.C124.C124_update"
   ],
   "note": "Partial: false for two schemes with different numbers, for a number that is changed after a build, and for bounds when the number of the scheme is smaller than the option of the solver (C124_bounds says exactly what the box means); the negations are proved."
  },
  {
   "property": "C13",
   "status": "proved",
   "theorems": [
    "Verif.C13.C13_reduce",
    "Verif.C13.C13_reduce_order"
   ],
   "note": "Tarjan's algorithm as written, plus the quotient graph."
  },
  {
   "property": "C14",
   "status": "proved",
   "theorems": [
    "Verif.C14.C14_plan_sound",
    "Verif.C14.C14_plan_complete",
    "Verif.C14.C14_update_defined",
    "Verif.C14.C14_add_returns",
    "Verif.C14.C14_cycle_omitted"
   ],
   "note": "All networks and all histories of add/update/clear. C14_cycle_omitted proves that with cyclic dependencies a required update can be silently left out."
  },
  {
   "property": "C15",
   "status": "proved",
   "theorems": [
    "Verif.C14.C15_execute_refreshes",
    "Verif.C14.C15_execute_frame",
    "Verif.C14.C15_execute_fresh"
   ],
   "note": "For update functions that read only the caches of their declared dependencies."
  },
  {
   "property": "C16",
   "status": "proved",
   "theorems": [
    "Verif.C16.C16_declared_sound",
    "Verif.C16.C16_truthful_accepted",
    "Verif.C16.C16_rebuild",
    "Verif.C16.C16_default"
   ],
   "note": "Real square matrices of any size, values that change with the state; also that truthful declarations are never rejected."
  },
  {
   "property": "C17",
   "status": "proved",
   "theorems": [
    "Verif.C16.C17_neg_sound",
    "Verif.C16.C17_neg_total"
   ],
   "note": "Sound for all operands; never throws and is an involution on built objects."
  },
  {
   "property": "C18",
   "status": "proved",
   "theorems": [
    "Verif.C16.C18_add_sound",
    "Verif.C16.C18_sub_sound"
   ],
   "note": ""
  },
  {
   "property": "C19",
   "status": "proved",
   "theorems": [
    "Verif.C16.C19_mul_sound"
   ],
   "note": "Square operands."
  },
  {
   "property": "C20",
   "status": "proved",
   "theorems": [
    "Verif.C16.C20_scale_sound",
    "Verif.C16.C20_scale_false"
   ],
   "note": "The exact set of scalars; the unrestricted claim is proved false."
  },
  {
   "property": "C21",
   "status": "proved",
   "theorems": [
    "Verif.C16.C21_add_throws_iff",
    "Verif.C16.C21_sub_eq",
    "Verif.C16.C21_mul_throws_iff",
    "Verif.C16.C21_scale_throws_iff",
    "Verif.C16.C21_rejects_consistent"
   ],
   "note": "Exact conditions under which each operator throws; the unrestricted claim is proved false."
  },
  {
   "property": "C22",
   "status": "proved",
   "theorems": [
    "Verif.C22.C22_disjoint",
    "Verif.C22.C22_add",
    "Verif.C22.C22_addAndGetIndex",
    "Verif.C22.C22_remove",
    "Verif.C22.C22_removeAt",
    "Verif.C22.C22_clear",
    "Verif.C22.C22_contains",
    "Verif.C22.C22_indexOf",
    "Verif.C22.C22_copy",
    "Verif.C22.C22_move",
    "Verif.C22.C22_self_assign",
    "Verif.C22.C22_moved_from_size",
    "Verif.C22.C22_empty_variable",
    "Verif.C22.C22_addList_not_atomic",
    "Verif.C22.C22_geometry"
   ],
   "note": "For non-empty variables and vectors that were not moved from, in all states that creations, copies, moves, destructions, additions, removals and queries can reach. Outside: self-assignment empties the vector, vectors moved from keep their size, empty variables can be added twice (witnesses)."
  },
  {
   "property": "C23",
   "status": "proved",
   "theorems": [
    "Verif.C22.C23_tiling",
    "Verif.C22.C23_inside"
   ],
   "note": "In all reachable states, for non-empty variables and vectors that were not moved from."
  },
  {
   "property": "C24",
   "status": "proved",
   "theorems": [
    "Verif.C22.C24_query",
    "Verif.C22.C24_moved_from"
   ],
   "note": "Any interleaving over any number of vectors; false for vectors used again after a move (C24_moved_from is the witness)."
  },
  {
   "property": "C25",
   "status": "proved",
   "theorems": [
    "Verif.C22.C25_set",
    "Verif.C22.C25_size",
    "Verif.C22.C25_value",
    "Verif.C22.C25_setZero"
   ],
   "note": "A wrong size is an assertion in the code, not an exception."
  },
  {
   "property": "C26",
   "status": "proved",
   "theorems": [
    "Verif.C26.C26_segment",
    "Verif.C26.C26_subvariable_returns",
    "Verif.C26.C26_view",
    "Verif.C26.C26_set",
    "Verif.C26.C26_set_segment",
    "Verif.C26.C26_contains",
    "Verif.C26.C26_intersects",
    "Verif.C26.C26_equal",
    "Verif.C26.C26_derivative"
   ],
   "note": "Heap model of all variables; contains/intersects/== are characterised for non-empty variables (empty ranges deviate, see C01)."
  },
  {
   "property": "C27",
   "status": "proved",
   "theorems": [
    "Verif.C26.C27_dot_false",
    "Verif.C26.C27_subvariable_false",
    "Verif.C26.C27_dot_exact",
    "Verif.C26.C27_subvariable_exact",
    "Verif.C26.C27_safe"
   ],
   "note": "The claim is false; the negation is proved with witnesses by dot and by subvariable, together with the exact effect and the safe cases."
  },
  {
   "property": "C28",
   "status": "proved",
   "theorems": [
    "Verif.C26.C28_product",
    "Verif.C26.C28_unit",
    "Verif.C26.C28_order",
    "Verif.C26.C28_default_size",
    "Verif.C26.C28_constructors",
    "Verif.C26.C28_typed"
   ],
   "note": "Unit only on sizes: the types SO3 and SE3 are lost in a product with the empty space (C28_unit). Space(Type::Euclidean) without size has size -1 (C28_default_size)."
  },
  {
   "property": "C29",
   "status": "proved",
   "theorems": [
    "Verif.C29.C29_symmetric",
    "Verif.C29.C29_one_mate",
    "Verif.C29.C29_no_ub",
    "Verif.C29.C29_destroy",
    "Verif.C29.C29_moveCtor",
    "Verif.C29.C29_moveAssign",
    "Verif.C29.C29_self_move",
    "Verif.C29.C29_pairWith",
    "Verif.C29.C29_handle",
    "Verif.C29.C29_two_handles",
    "Verif.C29.C29_handle_then_pair",
    "Verif.C29.C29_self_pair",
    "Verif.C29.C29_other"
   ],
   "note": "All histories over any number of tokens. Outside the claim's condition: two handles on one token, or a handle used after pairing, give an asymmetric pair (witnesses)."
  },
  {
   "property": "C30",
   "status": "proved",
   "theorems": [
    "Verif.C30.C30_refines",
    "Verif.C30.C30_isPaired",
    "Verif.C30.C30_run_observes",
    "Verif.C30.C30_run_twice",
    "Verif.C30.C30_dangling_handle"
   ],
   "note": "Refinement of an address-free specification, with the memory moves of std::vector and any number of managers. Callbacks that change the manager while it runs are not modelled. C30_dangling_handle: a handle not converted before the next registration is invalid."
  },
  {
   "property": "C31",
   "status": "proved",
   "theorems": [
    "Verif.EQ.C31_same_tasks",
    "Verif.EQ.C31_same_weights_and_substitutions",
    "Verif.EQ.C31_cancelled",
    "Verif.EQ.C31_emitters_alive"
   ],
   "note": "All legal event histories; the compressed queue and the full history give the same task sets, weights and substitutions."
  },
  {
   "property": "C32",
   "status": "proved",
   "theorems": [
    "Verif.SE.C32_net_differences",
    "Verif.SE.C32_apply",
    "Verif.SE.C32_weight_events",
    "Verif.SE.C32_need_mapping",
    "Verif.SE.C32_objective_data",
    "Verif.SE.C32_readded_objective_keeps_old_data"
   ],
   "note": "All legal notification histories. C32_readded_objective_keeps_old_data: an objective removed then added again in one batch keeps the data it had before."
  },
  {
   "property": "C33",
   "status": "proved",
   "theorems": [
    "Verif.LS.C33_layout",
    "Verif.LS.C33_double_add"
   ],
   "note": "All four solvers, all histories of builds and batches in which a constraint is not added twice; C33_double_add shows what a double addition does."
  },
  {
   "property": "C34",
   "status": "partial",
   "theorems": [
    "Verif.C34.C34_assembled_partial",
    "Verif.C34.C34_frame",
    "Verif.C34.C34_opposite_false",
    "Verif.C34.C34_accepted"
   ],
   "note": "Proved for every source and every target whose right hand side convention is not OPPOSITE on a double sided target fed by a one sided source; for that combination the claim is false (C34_opposite_false). A strict subvariable of a substituted variable is excluded (the code throws)."
  },
  {
   "property": "C35",
   "status": "partial",
   "theorems": [
    "Verif.C34.C35_as_given_partial",
    "Verif.C34.C35_opposite_false",
    "Verif.C34.C35_solvers"
   ],
   "note": "Proved for AS_GIVEN double sided targets; false for OPPOSITE ones (C35_opposite_false). C35_solvers: none of the solver interfaces in the repository uses the failing combination."
  },
  {
   "property": "C36",
   "status": "proved",
   "theorems": [
    "Verif.C36.C36_scaled",
    "Verif.C36.C36_squared",
    "Verif.C36.C36_none",
    "Verif.C36.C36_positive"
   ],
   "note": "Exact arithmetic over an ordered field with an abstract square root."
  },
  {
   "property": "C37",
   "status": "partial",
   "theorems": [
    "Verif.C36.C37_current_partial",
    "Verif.C36.C37_kept",
    "Verif.C36.C37_quiet",
    "Verif.C36.C37_throws_iff",
    "Verif.C36.C37_scalar_false"
   ],
   "note": "Holds for every history unless the resolution has only a scalar change to take into account while an anisotropic weight is in use; then the factors are exactly the old ones (C37_kept, witness C37_scalar_false)."
  },
  {
   "property": "C38",
   "status": "partial",
   "theorems": [
    "Verif.C38.C38_intersection_partial",
    "Verif.C38.C38_identity",
    "Verif.C38.C38_order",
    "Verif.C38.C38_first",
    "Verif.C38.C38_crossed_false",
    "Verif.C38.C38_small_false",
    "Verif.C38.C38_one_sided_false"
   ],
   "note": "Full claim for identity and minus identity Jacobians; for diagonal ones under the condition Fits (sides in order, scaled big beyond the point), with witnesses that the claim is false without it."
  },
  {
   "property": "C39",
   "status": "partial",
   "theorems": [
    "Verif.C34.C39_substituted_partial"
   ],
   "note": "Any number of substitutions at once, all conventions except the failing one of C34."
  },
  {
   "property": "C40",
   "status": "proved",
   "theorems": [
    "Verif.C40.C40_vector",
    "Verif.C40.C40_matrix",
    "Verif.C40.C40_frame",
    "Verif.C40.C40_frame_block",
    "Verif.C40.C40_custom",
    "Verif.C40.C40_wrapper"
   ],
   "note": "For all sizes, contents and template parameters, over any linearly ordered field (not floating point). The custom multiplier has no implementation in the code (C40_custom)."
  },
  {
   "property": "C41",
   "status": "proved",
   "theorems": [
    "Verif.C41.C41_plain",
    "Verif.C41.C41_substituted",
    "Verif.C41.C41_double_iff",
    "Verif.C41.C41_one_sided_throws"
   ],
   "note": "Over the reals with the meaning of the properties proved in C16. For substituted variables the functions substituted do not depend on the first substituted variable (as built by Substitutions); then one sided targets never get an answer: the call throws (C41_one_sided_throws)."
  },
  {
   "property": "C42",
   "status": "partial",
   "theorems": [
    "Verif.C42.C42_make",
    "Verif.C42.C42_lists",
    "Verif.C42.C42_inverse",
    "Verif.C42.C42_nullspace",
    "Verif.C42.C42_postN",
    "Verif.C42.C42_solutions_partial",
    "Verif.C42.C42_range",
    "Verif.C42.C42_row_false",
    "Verif.C42.C42_ub"
   ],
   "note": "A A# A = A, A N = 0 and the product by N hold for every declared structure. S^T A = 0 and the description of the solutions hold when no undeclared index precedes an index declared as zero; otherwise they are false of the code (wrong row selected: C42_row_false; out of range: C42_ub). The constructors accept exactly the valid declarations (C42_make, C42_lists, C42_range)."
  },
  {
   "property": "C43",
   "status": "partial",
   "theorems": [
    "Verif.C43.C43_solutions_partial",
    "Verif.C43.C43_unique",
    "Verif.C43.C43_y",
    "Verif.C43.C43_writeBack_partial",
    "Verif.C43.C43_zero_partial",
    "Verif.C43.C43_index_false",
    "Verif.C43.C43_zero_false",
    "Verif.C43.C43_diagonal",
    "Verif.C43.C43_defined_iff",
    "Verif.C43.C43_single_defined"
   ],
   "note": "The equivalence of the two systems, for any chain of substitutions, any history of updates and any lawful calculators, holds whenever update has no undefined behaviour. Missing: update indexes cIsZero_ (sized by the substituted variables) by constraints and uIsZero_ (sized by the substitutions) by variables; the first gives undefined behaviour, the second a constant wrongly declared zero (both proved). The diagonal calculator is proved lawful (same restriction as C42); C73 proves it of the generic one and of the automatic choice. C43_defined_iff gives the exact condition under which update is defined."
  },
  {
   "property": "C44",
   "status": "proved",
   "theorems": [
    "Verif.C44.C44_greatest",
    "Verif.C44.C44_value",
    "Verif.C44.C44_unchanged",
    "Verif.C44.C44_idempotent",
    "Verif.C44.C44_impl",
    "Verif.C44.C44_constructor"
   ],
   "note": "The factor of the code is the greatest element of the set of the admissible factors, for all vectors and all bounds around zero, and the constructors accept exactly such bounds."
  },
  {
   "property": "C45",
   "status": "proved",
   "theorems": [
    "Verif.C45.C45_safe_first",
    "Verif.C45.C45_safe_second",
    "Verif.C45.C45_noJump",
    "Verif.C45.C45_sharp",
    "Verif.C45.C45_rest",
    "Verif.C45.C45_symmetric",
    "Verif.C45.C45_outside",
    "Verif.C45.C45_stable",
    "Verif.C45.C45_value_first",
    "Verif.C45.C45_value_second",
    "Verif.C45.C45_auto_damping",
    "Verif.C45.C45_safe_auto_first",
    "Verif.C45.C45_safe_auto_second",
    "Verif.C45.C45_auto_continuous",
    "Verif.C45.C45_auto_outward_false",
    "Verif.C45.C45_auto_nan_false",
    "Verif.C45.C45_config",
    "Verif.C45.C45_aniso",
    "Verif.C45.C45_made",
    "Verif.C64.C45_continuous"
   ],
   "note": "Invariant over all trajectories that obey the damper, first and second order, fixed and automatic damping; the condition on the damping is shown necessary; also in continuous time. The _false theorems are about the automatic mode, outside of the claim: entering the zone while moving away forbids rest, and entering it exactly at the safety distance gives NaN."
  },
  {
   "property": "C46",
   "status": "proved",
   "theorems": [
    "Verif.C46.C46_parameters",
    "Verif.C46.C46_first",
    "Verif.C46.C46_second",
    "Verif.C46.C46_first_steps",
    "Verif.C46.C46_second_steps"
   ],
   "note": "The value is the only one for which the Taylor prediction is the right-hand side."
  },
  {
   "property": "C47",
   "status": "partial",
   "theorems": [
    "Verif.C47.C47_critical_partial",
    "Verif.C47.C47_matrix_damping",
    "Verif.C47.C47_matrix",
    "Verif.C47.C47_matrix_false",
    "Verif.C47.C47_setter",
    "Verif.C47.critical_iff"
   ],
   "note": "Proved for scalar and diagonal gains. False for matrix gains: the damping is twice the stiffness, which is critical only for idempotent matrices, and the setter leaves the stiffness unchanged (C47_matrix_false)."
  },
  {
   "property": "C48",
   "status": "partial",
   "theorems": [
    "Verif.C48.C48_first_order",
    "Verif.C48.C48_second_order",
    "Verif.C48.C48_order_zero_partial",
    "Verif.C48.C48_none",
    "Verif.C48.C48_none_double",
    "Verif.C48.C48_proportional_double",
    "Verif.C48.C48_pd",
    "Verif.C48.C48_not_linear",
    "Verif.C48.C48_sides",
    "Verif.C48.C48_accepted",
    "Verif.C48.C48_constant_offset"
   ],
   "note": "Orders 1 and 2 and order 0 without dynamics are proved for every differentiable function and every motion. At order 0 with other dynamics the claim is false for an affine function with an offset (C48_constant_offset): the proved statement is about the linear part. Variables in non-Euclidean spaces are not modelled."
  },
  {
   "property": "C49",
   "status": "proved",
   "theorems": [
    "Verif.PB.C49_sync",
    "Verif.PB.C49_no_throw",
    "Verif.PB.C49_addresses"
   ],
   "note": "Invariant by induction over all sequences of calls, including failing resolutions. A task must not be added while present: C49_double_add shows what happens otherwise."
  },
  {
   "property": "C50",
   "status": "partial",
   "theorems": [
    "Verif.PB.C50_failed_removal_partial",
    "Verif.PB.C50_throws_iff",
    "Verif.PB.C50_failed_removal_false"
   ],
   "note": "False of the code: C50_failed_removal_false. C50_throws_iff characterizes when a removal throws; C50_failed_removal_partial says what is kept (constraints, substitutions) and what is lost (task list, callbacks)."
  },
  {
   "property": "C51",
   "status": "proved",
   "theorems": [
    "Verif.PB.C51_decreasing",
    "Verif.PB.C51_uniform"
   ],
   "note": "The formula for all factors and priorities, and the weights in the solver after any sequence of calls. C51_late_objective: an objective added when none was present at the build has weight 1/factor, as all the others then."
  },
  {
   "property": "C52",
   "status": "proved",
   "theorems": [
    "Verif.PB.C52_announced"
   ],
   "note": "For the problem reached by any sequence of calls. C52_auto_damping_false: with autoDamping and no objective the announced objective rows are not added and an assertion fails."
  },
  {
   "property": "C53",
   "status": "proved",
   "theorems": [
    "Verif.C53.C53_affine",
    "Verif.C53.C53_operators",
    "Verif.C53.C53_elementary",
    "Verif.C53.C53_types",
    "Verif.C53.C53_linear",
    "Verif.C53.C53_incoherent",
    "Verif.C53.C53_lists",
    "Verif.C53.C53_lists_ok",
    "Verif.C53.C53_lists_refused",
    "Verif.C53.C53_nonsquare_identity",
    "Verif.C53.C53_defined"
   ],
   "note": "The operators of the expressions, the constructors of BasicLinearFunction and the evaluation of LinearFunction, over any field. Parts of size zero are excluded. The constructor from lists refuses partial overlaps. Identity matrices that are not square get a wrong shape (C53_nonsquare_identity)."
  },
  {
   "property": "C54",
   "status": "proved",
   "theorems": [
    "Verif.C54.C54_visits",
    "Verif.C54.C54_of_added",
    "Verif.C54.C54_limits"
   ],
   "note": "For a non-empty container of variables of positive size. An empty container with a non-empty partition is undefined behaviour and a variable of size zero throws (C54_limits)."
  },
  {
   "property": "C55",
   "status": "proved",
   "theorems": [
    "Verif.C55.C55_function",
    "Verif.C55.C55_expression"
   ],
   "note": "All ten spellings the operators accept (the two extra ones (f>=l)<=u and (f<=u)>=l included), for a function with any task dynamics (C55_function) and, end to end through the linear function and the linearized constraint, for variables, linear and affine expressions over the reals without dynamics (C55_expression). Vectors of another size are refused by an exception."
  },
  {
   "property": "C56",
   "status": "proved",
   "theorems": [
    "Verif.C56.C56_history",
    "Verif.C56.C56_last",
    "Verif.C56.C56_sources",
    "Verif.C56.C56_kept",
    "Verif.C56.C56_throwing"
   ],
   "note": "For every history, calls that throw included: recorded pairs, sources and sources kept alive are given by the names of the calls, and each call throws exactly if it names a disabled output or something absent. A source whose last output is removed disappears as long as no removal has thrown; C56_throwing shows that a removal that throws may leave a source without outputs, and that an addition by shared pointer that throws may leave a used source that is not kept alive."
  },
  {
   "property": "C57",
   "status": "proved",
   "theorems": [
    "Verif.C57.C57_exclusive",
    "Verif.C57.C57_maps",
    "Verif.C57.C57_stable",
    "Verif.C57.C57_inputs",
    "Verif.C57.C57_update",
    "Verif.C57.C57_unchecked"
   ],
   "note": "For every history of declarations, calls that throw included: the maps are given by the accepted declarations, direct and update dependencies are exclusive, nothing is registered twice or lost, and sources of dependencies are inputs as long as none is removed. C57_unchecked: dependencies on updates that are never registered are accepted, and only the first output of an input dependency is checked and added to the inputs."
  },
  {
   "property": "C58",
   "status": "partial",
   "theorems": [
    "Verif.SA.C58_accepts",
    "Verif.SA.C58_lookup_handled",
    "Verif.SA.C58_construction",
    "Verif.SA.C58_wls",
    "Verif.SA.C58_hls",
    "Verif.SA.C58_zero_levels",
    "Verif.SA.C58_scalarized_levels_false"
   ],
   "note": "The decision of the check is proved for every scheme, level, type and evaluation. The claim that scalarization lets more levels in is false of the weighted least-squares scheme: a priority of two or more ends in std::out_of_range (C58_scalarized_levels_false). C58_zero_levels: with zero levels nothing is rejected for its priority."
  },
  {
   "property": "C59",
   "status": "partial",
   "theorems": [
    "Verif.PB.C59_current_partial",
    "Verif.PB.C59_stale_false",
    "Verif.PB.C59_removal_false"
   ],
   "note": "False of the code: C59_stale_false, C59_removal_false. C59_current_partial: true when the last changes of tasks or substitutions were followed by a resolution that rebuilds the data."
  },
  {
   "property": "C60",
   "status": "partial",
   "theorems": [
    "Verif.LS.C60_current_joint",
    "Verif.LS.C60_current_partial",
    "Verif.LS.C60_no_write_outside_partial",
    "Verif.LS.C60_qld_false",
    "Verif.LS.C60_quadprog_false"
   ],
   "note": "True of LSSOL and LexLS without condition. False of QLD and Quadprog when a batch changes the number of variables together with the rows of inequality constraints (or the presence of bounds) and the number of coefficients stays the same: witnesses. Proved for them otherwise."
  },
  {
   "property": "C61",
   "status": "partial",
   "theorems": [
    "Verif.PB.C61_solver_layout",
    "Verif.PB.C61_supported",
    "Verif.PB.C61_variables_partial",
    "Verif.PB.C61_current",
    "Verif.PB.C61_variables_rebuilt"
   ],
   "note": "Layout and constraints are proved for all sequences of calls. With additional variables of substitutions, the variables are proved when the data was rebuilt since the last change of tasks or substitutions (C61_variables_rebuilt); it is false otherwise (C59_removal_false). Current views are proved for LSSOL and LexLS only (false for QLD and Quadprog, see C60)."
  },
  {
   "property": "C62",
   "status": "partial",
   "theorems": [
    "Verif.PB.C62_first_partial",
    "Verif.PB.C62_lost_events_false",
    "Verif.PB.C62_unbuilt_false",
    "Verif.PB.C62_not_repaired_false"
   ],
   "note": "False of the code after a first resolution (three witnesses); C62_first_partial proves it for an exception at the first resolution."
  },
  {
   "property": "C63",
   "status": "partial",
   "theorems": [
    "Verif.PB.C63_no_assertion",
    "Verif.PB.C63_solve_returns_partial"
   ],
   "note": "Missing: problems whose substitutions have additional variables (false, C59_removal_false) and the option autoDamping (false, C52_auto_damping_false)."
  },
  {
   "property": "C64",
   "status": "proved",
   "theorems": [
    "Verif.C64.C64_proportional",
    "Verif.C64.C64_proportional_limit",
    "Verif.C64.C64_proportional_matrix",
    "Verif.C64.C64_critical",
    "Verif.C64.C64_critical_limit",
    "Verif.C64.C64_no_overshoot",
    "Verif.C64.C64_discrete"
   ],
   "note": "Motions over the reals with right derivatives; exact solutions for scalar and diagonal gains, decrease of the norm for matrix gains of the proportional dynamics."
  },
  {
   "property": "C65",
   "status": "proved",
   "theorems": [
    "Verif.C65.C65_simple_iff",
    "Verif.C65.C65_simple_exact",
    "Verif.C65.C65_simple_sound",
    "Verif.C65.C65_not_exact",
    "Verif.C65.C65_removal_unsound"
   ],
   "note": "C65_not_exact and C65_removal_unsound are witnesses against the documentation of simple(): the flag is shared by all the elements of a root variable, and with removals it can be true for an element that no call ever added."
  },
  {
   "property": "C66",
   "status": "proved",
   "theorems": [
    "Verif.C66.C66_qld",
    "Verif.C66.C66_quadprog",
    "Verif.C66.C66_lssol",
    "Verif.C66.C66_lexls",
    "Verif.C66.C66_big",
    "Verif.C66.C66_big_ds",
    "Verif.C66.C66_flag_qld",
    "Verif.C66.C66_flag_quadprog",
    "Verif.C66.C66_flag_lssol",
    "Verif.C66.C66_flag_lexls"
   ],
   "note": "Entries in an ordered field; what the assignments write is summed up by row. With the Cholesky option the QR factorization is a parameter assumed to give a factor of DᵀD, and Quadprog needs the objectives to determine x when they have as many rows as unknowns. LexLS needs a feasible point."
  },
  {
   "property": "C67",
   "status": "partial",
   "theorems": [
    "Verif.C67.C67_qld_partial",
    "Verif.C67.C67_quadprog_partial",
    "Verif.C67.C67_lssol_partial",
    "Verif.C67.C67_lexls_partial",
    "Verif.C67.C67_cholesky",
    "Verif.C67.C67_junk",
    "Verif.C67.C67_ignored",
    "Verif.C67.C67_mixed"
   ],
   "note": "Proved while the sizes are unchanged and without the Cholesky option. False otherwise, with proofs: empty matrix handed to QLD and Quadprog with Cholesky, uninitialised cost when the number of unknowns changes, objective added afterwards ignored (QLD, Quadprog) or mixed with the norm (LSSOL, LexLS)."
  },
  {
   "property": "C68",
   "status": "partial",
   "theorems": [
    "Verif.C68.C68_partial",
    "Verif.C68.C68_build",
    "Verif.C68.C68_returns",
    "Verif.C68.C68_only_bounds",
    "Verif.C68.C68_damped",
    "Verif.C68.C68_damped_bounds",
    "Verif.C68.C68_feasible",
    "Verif.C68.C68_limit",
    "Verif.C68.C68_not"
   ],
   "note": "Proved for all problems but those with bounds only and the bounds not put in a first level; for these it is false: undefined behaviour without damping (C68_only_bounds), norm and bounds mixed with damping (C68_damped, C68_not)."
  },
  {
   "property": "C69",
   "status": "partial",
   "theorems": [
    "Verif.C69.C69_partial",
    "Verif.C69.C69_pending",
    "Verif.C69.C69_stale",
    "Verif.C69.C69_repair",
    "Verif.C69.C69_priority",
    "Verif.C69.C69_not"
   ],
   "note": "Proved for the histories of calls that return, priorities being changed before the first resolution or out of the problem. False otherwise: after exceptions the former problem is solved (C69_stale, C69_not), a change of priority has no effect (C69_priority). A call about substitutions repairs it (C69_repair)."
  },
  {
   "property": "C70",
   "status": "partial",
   "theorems": [
    "Verif.C70.C70_graph",
    "Verif.C70.C70_uses",
    "Verif.C70.C70_units",
    "Verif.C70.C70_lists",
    "Verif.C70.C70_substitute",
    "Verif.C70.C70_solutions_partial",
    "Verif.C70.C70_values_partial"
   ],
   "note": "The grouping, the order, the lists and substitute are proved for all histories; the equivalence of the systems for updates without the undefined behaviour of C43_index_false and for calculators that meet their law (C43_diagonal and C73_auto prove it of the calculators of the library). Variables are atomic (no sub-variables)."
  },
  {
   "property": "C71",
   "status": "proved",
   "theorems": [
    "Verif.C70.C71_returns",
    "Verif.C70.C71_throws",
    "Verif.C70.C71_undefined"
   ],
   "note": "The theorem is for substitutions accepted by their constructor; atomic variables."
  },
  {
   "property": "C72",
   "status": "partial",
   "theorems": [
    "Verif.C70.C72_partial",
    "Verif.C70.C72_stale",
    "Verif.C70.C72_not"
   ],
   "note": "False of the code: additionalVariables_ is not cleared. Proved: the new variables are exactly those of the new units, the old ones all remain."
  },
  {
   "property": "C73",
   "status": "proved",
   "theorems": [
    "Verif.C73.C73_calculator",
    "Verif.C73.C73_update",
    "Verif.C73.C73_range",
    "Verif.C73.C73_auto"
   ],
   "note": "Exact arithmetic; the QR factorization of Eigen is a parameter with its specification (orthogonal Q, triangular R with a diagonal without zero in the rows of the rank, null rows after, permutation). Atomic variables."
  },
  {
   "property": "C74",
   "status": "partial",
   "theorems": [
    "Verif.C74.C74_eq",
    "Verif.C74.C74_not_told_apart",
    "Verif.C74.C74_not_asymmetric",
    "Verif.C74.C74_false",
    "Verif.C74.C74_partial"
   ],
   "note": "False of the code: the comparison of Contact.h:51 tests r2 == rhs.f2, so identifiers that differ by the ambiguity number are not told apart and the comparison may hold both ways. Proved when no robot has the name of a frame: it is the lexicographic order of the four names."
  },
  {
   "property": "C75",
   "status": "partial",
   "theorems": [
    "Verif.C75.C75_frames",
    "Verif.C75.C75_false",
    "Verif.C75.C75_partial",
    "Verif.C75.C75_translations_partial"
   ],
   "note": "The transforms are right. False of the code for the points: the composition of Contact.cpp:22 is in the wrong order; the points are at the same places iff they commute with the transform between the frames, in particular for translations."
  },
  {
   "property": "C76",
   "status": "partial",
   "theorems": [
    "Verif.C76.C76_returns",
    "Verif.C76.C76_jacobian",
    "Verif.C76.C76_jdot_partial",
    "Verif.C76.C76_jdot_false",
    "Verif.C76.C76_inactive",
    "Verif.C76.C76_twice_undefined"
   ],
   "note": "Proved for the jacobian. The derivative of the jacobian keeps what fresh memory held on the inactive columns (resize without setZero). Naming the free-flyer twice writes out of range. Hypotheses: the first joint alone may have six degrees of freedom as free-flyer, names of joints differ."
  },
  {
   "property": "C77",
   "status": "proved",
   "theorems": [
    "Verif.C77.C77_value",
    "Verif.C77.C77_named",
    "Verif.C77.C77_velocity",
    "Verif.C77.C77_velocity_named",
    "Verif.C77.C77_throw",
    "Verif.C77.C77_throw_changes"
   ],
   "note": "For the velocity the variables are not derivatives of one another (otherwise the values overwrite each other)."
  },
  {
   "property": "C78",
   "status": "partial",
   "theorems": [
    "Verif.C78.C78_jacobian_partial",
    "Verif.C78.C78_jacobian_false",
    "Verif.C78.C78_all",
    "Verif.C78.C78_points",
    "Verif.C78.C78_vacuous",
    "Verif.C78.C78_affine",
    "Verif.C78.C78_velocity",
    "Verif.C78.C78_trajectory_false",
    "Verif.C78.C78_right_refused"
   ],
   "note": "False of the code: the loop of lines 121-135 does not increment the column, so the first column alone is compared; a configuration without a value is skipped and the check may then go through none; line 352 squares the acceleration. Euclidean variables, random numbers are parameters."
  },
  {
   "property": "C79",
   "status": "partial",
   "theorems": [
    "Verif.C79.C79_position",
    "Verif.C79.C79_moves",
    "Verif.C79.C79_consistent",
    "Verif.C79.C79_jacobian_partial",
    "Verif.C79.C79_velocity_partial",
    "Verif.C79.C79_velocity_iff_partial",
    "Verif.C79.C79_false",
    "Verif.C79.C79_accelerates",
    "Verif.C79.C79_acceleration",
    "Verif.C79.C79_normal_partial",
    "Verif.C79.C79_normal_iff_partial",
    "Verif.C79.C79_normal_false"
   ],
   "note": "The position is proved. False of the code for the jacobian (Frame.cpp:64 multiplies the linear rows where it is the angular ones) and the velocity (line 68 applies the transformation to a velocity in the coordinates of the world): exact conditions proved. The normal acceleration is false too (no centripetal term, same mix of coordinates)."
  },
  {
   "property": "C80",
   "status": "partial",
   "theorems": [
    "Verif.C80.C80_moving_point",
    "Verif.C80.C80_point_false",
    "Verif.C80.C80_static_still",
    "Verif.C80.C80_planes",
    "Verif.C80.C80_distance",
    "Verif.C80.C80_jacobian",
    "Verif.C80.C80_derivatives_partial",
    "Verif.C80.C80_velocity_false",
    "Verif.C80.C80_last"
   ],
   "note": "Proved for planes positioned by points and planes that do not move. False after position(normal, offset) on a plane that moves: the point of the plane is stale and the velocity is wrong."
  },
  {
   "property": "C81",
   "status": "proved",
   "theorems": [
    "Verif.C81.C81_count",
    "Verif.C81.C81_generators",
    "Verif.C81.C81_inside",
    "Verif.C81.C81_contains"
   ],
   "note": "Over the reals with the functions of Mathlib; at least three generators for the last one."
  },
  {
   "property": "C82",
   "status": "partial",
   "theorems": [
    "Verif.C82.C82_add",
    "Verif.C82.C82_remove_partial",
    "Verif.C82.C82_remove_false",
    "Verif.C82.C82_equation",
    "Verif.C82.C82_removed_false",
    "Verif.C82.C82_linearized",
    "Verif.C82.C82_no_slip",
    "Verif.C82.C82_free",
    "Verif.C82.C82_reported_undefined",
    "Verif.C82.C82_reported_undefined_common",
    "Verif.C82.C82_reported_free",
    "Verif.C82.C82_reported_partial",
    "Verif.C82.C82_reported_lin_partial",
    "Verif.C82.C82_reported_false",
    "Verif.C82.C82_positive",
    "Verif.C82.C82_contactForce"
   ],
   "note": "Addition, the equation and the cones are proved. False of the code: a removed contact stays in the equation with its last matrices; a contact between two frames of the robot is removed by half; contactForce reads forces_[nrGen * i] (out of range for two points), rotates the forces again, and has the wrong sign for the first frame of a contact by forces."
  },
  {
   "property": "C83",
   "status": "partial",
   "theorems": [
    "Verif.C83.C83_cache",
    "Verif.C83.C83_jacobian",
    "Verif.C83.C83_jacobian_throws",
    "Verif.C83.C83_linear",
    "Verif.C83.C83_add",
    "Verif.C83.C83_write",
    "Verif.C83.C83_split",
    "Verif.C83.C83_remove_false",
    "Verif.C83.C83_empty_false",
    "Verif.C83.C83_addAll"
   ],
   "note": "Proved for variables that are not empty and removals through the variable itself. False of the code otherwise: removeVariable through another object for the same part leaves the jacobian; an empty variable is added twice and half removed. (Matrix properties are not modelled.)"
  },
  {
   "property": "C84",
   "status": "partial",
   "theorems": [
    "Verif.C84.C84_zero",
    "Verif.C84.C84_b",
    "Verif.C84.C84_lu",
    "Verif.C84.C84_setA",
    "Verif.C84.C84_setA1",
    "Verif.C84.C84_setB",
    "Verif.C84.C84_setLU",
    "Verif.C84.C84_sizes",
    "Verif.C84.C84_value",
    "Verif.C84.C84_repeated_false",
    "Verif.C84.C84_euclid_false"
   ],
   "note": "Proved for distinct Euclidean variables. False of the code otherwise: a variable given twice keeps the last matrix instead of the sum; the constructors that allocate accept variables that are not Euclidean, and the value is undefined."
  },
  {
   "property": "C85",
   "status": "partial",
   "theorems": [
    "Verif.C85.C85_bounds",
    "Verif.C85.C85_sizes_partial",
    "Verif.C85.C85_sizes_false",
    "Verif.C85.C85_free_false",
    "Verif.C85.C85_values",
    "Verif.C85.C85_once",
    "Verif.C85.C85_integrates",
    "Verif.C85.C85_skip_false",
    "Verif.C85.C85_velocity_false",
    "Verif.C85.C85_normal",
    "Verif.C85.C85_normal_fixed"
   ],
   "note": "Proved for limits with the sizes of the joints that do not name the free flyer and for one update per advance of the clock. False of the code otherwise: with joints that have more parameters than degrees of freedom the velocity and torque bounds are too long; limits on the free flyer are undefined; several advances before an update make one step; the velocity variable starts at zero whatever the velocity of the robot."
  },
  {
   "property": "C86",
   "status": "partial",
   "theorems": [
    "Verif.C86.C86_value",
    "Verif.C86.C86_rows",
    "Verif.C86.C86_defined",
    "Verif.C86.C86_normal",
    "Verif.C86.C86_velocity_partial",
    "Verif.C86.C86_rate",
    "Verif.C86.C86_jacobian",
    "Verif.C86.C86_time",
    "Verif.C86.C86_acceleration_partial",
    "Verif.C86.C86_frame_false",
    "Verif.C86.C86_three_false",
    "Verif.C86.C86_acceleration_false",
    "Verif.C86.C86_first_false"
   ],
   "note": "Proved for at most two collisions with moving hulls whose frames are those of the bodies (velocity), and for the first collision with one moving hull (normal acceleration). False of the code otherwise: closestPoints_ is indexed by the collision instead of the object (undefined from the third collision on, wrong normal acceleration for a second moving hull); the nearest point is in frame coordinates and used in body coordinates; the first tick gives a spurious speed."
  },
  {
   "property": "C87",
   "status": "partial",
   "theorems": [
    "Verif.C87.C87_contact_partial",
    "Verif.C87.C87_contact_false",
    "Verif.C87.C87_com_value",
    "Verif.C87.C87_com_jacobian",
    "Verif.C87.C87_jdot_false",
    "Verif.C87.C87_position_partial",
    "Verif.C87.C87_position_jacobian",
    "Verif.C87.C87_position_false",
    "Verif.C87.C87_posture_velocity",
    "Verif.C87.C87_posture_partial",
    "Verif.C87.C87_posture_jacobian",
    "Verif.C87.C87_posture_reset",
    "Verif.C87.C87_posture_set",
    "Verif.C87.C87_posture_false"
   ],
   "note": "Proved for contacts between two robots, frames at the bodies, and joints with at most one degree of freedom. False of the code otherwise: with both frames on one robot the second split replaces the first jacobian; CoMFunction::updateJDot overwrites the jacobians; the jacobian of an offset frame is wrong (C79); PostureFunction skips spherical joints (it asks for 4 degrees of freedom) and shifts the rows after them. Values with logarithms of rotations are not modelled."
  },
  {
   "property": "C88",
   "status": "partial",
   "theorems": [
    "Verif.C88.C88_function",
    "Verif.C88.C88_constructor",
    "Verif.C88.C88_constructor_linear",
    "Verif.C88.C88_state",
    "Verif.C88.C88_setA",
    "Verif.C88.C88_setA1",
    "Verif.C88.C88_setB",
    "Verif.C88.C88_derivative",
    "Verif.C88.C88_filled",
    "Verif.C88.C88_identity",
    "Verif.C88.C88_euclid_false",
    "Verif.C88.C88_remove_false",
    "Verif.C88.C88_empty_false"
   ],
   "note": "Proved for functions whose variables are Euclidean and not empty. False of the code: the constructor without data accepts variables that are not Euclidean (the value is then undefined); a constructor given an empty list of matrices is undefined; removing from a Function a variable that it does not have is undefined."
  },
  {
   "property": "C89",
   "status": "partial",
   "theorems": [
    "Verif.C89.C89_numbering",
    "Verif.C89.C89_distinct",
    "Verif.C89.C89_valid",
    "Verif.C89.C89_static",
    "Verif.C89.C89_enabled",
    "Verif.C89.C89_above",
    "Verif.C89.C89_disable",
    "Verif.C89.C89_enable",
    "Verif.C89.C89_lock",
    "Verif.C89.C89_several",
    "Verif.C89.C89_constraint",
    "Verif.C89.C89_above_false",
    "Verif.C89.C89_cast_false",
    "Verif.C89.C89_several_false"
   ],
   "note": "Proved for the outputs of the class given to the last selector. False of the code: for outputs declared above the last selector isOutputEnabled throws and they cannot be disabled; a value that is no output is undefined when converted to an enumeration of the line; a call with several outputs that throws may have changed the first ones."
  },
  {
   "property": "C90",
   "status": "partial",
   "theorems": [
    "Verif.C90.C90_update",
    "Verif.C90.C90_data",
    "Verif.C90.C90_remap",
    "Verif.C90.C90_accept",
    "Verif.C90.C90_defined",
    "Verif.C90.C90_now",
    "Verif.C90.C90_pending",
    "Verif.C90.C90_build",
    "Verif.C90.C90_build_bounds",
    "Verif.C90.C90_run",
    "Verif.C90.C90_bound",
    "Verif.C90.C90_run_bounds",
    "Verif.C90.C90_bound_false",
    "Verif.C90.C90_throw_false"
   ],
   "note": "Proved for constraints, and for bounds with an identity or minus identity Jacobian. False of the code: for a bound with another diagonal Jacobian onUpdatedTarget always calls a null pointer to member, since the temporary vectors have no method; an update of the mapping that throws leaves some columns moved."
  },
  {
   "property": "C91",
   "status": "partial",
   "theorems": [
    "Verif.C91.C91_terminates",
    "Verif.C91.C91_found",
    "Verif.C91.C91_throws",
    "Verif.C91.C91_graph",
    "Verif.C91.C91_output",
    "Verif.C91.C91_covers",
    "Verif.C91.C91_exact_partial",
    "Verif.C91.C91_inputs_logged",
    "Verif.C91.C91_removed_false",
    "Verif.C91.C91_reused_false",
    "Verif.C91.C91_disabled_false"
   ],
   "note": "Search: all logs. Exactness with respect to the nodes is proved for histories without removal, destruction or disabling; it is false of the code otherwise: removed inputs stay in the log, a node at the address of a destroyed one gets the updates of the latter, and an input declared while the logger is off makes the search throw."
  },
  {
   "property": "C92",
   "status": "proved",
   "theorems": [
    "Verif.C92.C92_terminates",
    "Verif.C92.C92_tree",
    "Verif.C92.C92_labels",
    "Verif.C92.C92_logged",
    "Verif.C92.C92_throws",
    "Verif.C92.C92_size",
    "Verif.C92.C92_same",
    "Verif.C92.C92_depth",
    "Verif.C92.C92_graph"
   ],
   "note": "The values and the test are one truth value per output (whether one of its registered values passes)."
  },
  {
   "property": "C93",
   "status": "partial",
   "theorems": [
    "Verif.C93.C93_make",
    "Verif.C93.C93_order",
    "Verif.C93.C93_withCallbacks",
    "Verif.C93.C93_notified",
    "Verif.C93.C93_knows_partial",
    "Verif.C93.C93_default",
    "Verif.C93.C93_constructors",
    "Verif.C93.C93_nonneg_partial",
    "Verif.C93.C93_negative_false",
    "Verif.C93.C93_priority_false",
    "Verif.C93.C93_assign_false",
    "Verif.C93.C93_twice_false"
   ],
   "note": "False in full: changes of the priority level and of the violation evaluation and assignments of requirement objects are not notified; a task added twice and removed once is no longer followed; value(v) accepts negative values."
  },
  {
   "property": "C94",
   "status": "partial",
   "theorems": [
    "Verif.C94.C94_calls_partial",
    "Verif.C94.C94_complete_partial",
    "Verif.C94.C94_fresh_partial",
    "Verif.C94.C94_returns_partial",
    "Verif.C94.C94_tasks",
    "Verif.C94.C94_stale_false",
    "Verif.C94.C94_twice_false"
   ],
   "note": "Proved for the histories that neither add a task that is there nor retry a removal that failed; false for these (negations proved)."
  },
  {
   "property": "C95",
   "status": "partial",
   "theorems": [
    "Verif.C95.C95_qld_partial",
    "Verif.C95.C95_quadprog_partial",
    "Verif.C95.C95_lssol_partial",
    "Verif.C95.C95_lexls_partial"
   ],
   "note": "Proved for all four solvers, with the conditions under which the parts are true: no automatic minimisation of the norm, diagonal bounds within the range of C38, for QLD and Quadprog changes of the number of variables that are steady in the sense of C60, a feasible point for LexLS, and exact square roots and factorizations. The assignments are those that would be built for the present targets (C90 is about those updated)."
  },
  {
   "property": "C96",
   "status": "partial",
   "theorems": [
    "Verif.C96.C96_values",
    "Verif.C96.C96_assembled",
    "Verif.C96.C96_qld_partial",
    "Verif.C96.C96_quadprog_partial",
    "Verif.C96.C96_lssol_partial",
    "Verif.C96.C96_lexls_partial",
    "Verif.C96.C96_called",
    "Verif.C96.C96_skipped_partial",
    "Verif.C96.C96_missing_false",
    "Verif.C96.C96_skipped_false"
   ],
   "note": "Proved for all problems and the four solvers, with the conditions of C95 (solver) and C70 (substitutions). The variables of the additional constraints have to be among the unknowns: the scheme does not always ensure it (C96_missing_false). When the solver is skipped there must be no additional constraint (C96_skipped_false)."
  },
  {
   "property": "C97",
   "status": "proved",
   "theorems": [
    "Verif.C97.C97_task",
    "Verif.C97.C97_resolution",
    "Verif.C97.C97_proportional",
    "Verif.C97.C97_critical",
    "Verif.C97.C97_matrix",
    "Verif.C97.C97_sampled_proportional",
    "Verif.C97.C97_sampled_oneStep",
    "Verif.C97.C97_objectives",
    "Verif.C97.C97_resolved_loop",
    "Verif.C97.C97_resolved_sampled",
    "Verif.C97.C97_resolved_oneStep"
   ],
   "note": "Proved for the values that solve the linear problem in the sense of C96 (`C96.Solves`, the conclusion of the theorems on the four solvers, with their conditions). Tasks of order zero are in C48. The motions have right derivatives, since the values decided may jump between two resolutions; in `Loop` the resolution takes place at every time (continuous time), in `Sampled` every `dt`."
  },
  {
   "property": "C98",
   "status": "partial",
   "theorems": [
    "Verif.C98.C98_partial",
    "Verif.C98.C98_levels_partial",
    "Verif.C98.C98_false"
   ],
   "note": "Proved for all problems when priority 0 can be satisfied (C98_partial), and, when no substitution has an additional constraint, also when it cannot (C98_levels_partial); the conditions are those of C68 (place of the bounds), C38 (limits) and C70 (substitutions). With an additional constraint and a priority 0 that cannot be satisfied the claim is false: the constraint of a substitution is violated (C98_false)."
  },
  {
   "property": "C99",
   "status": "partial",
   "theorems": [
    "Verif.C99.C99_constructors",
    "Verif.C99.C99_change",
    "Verif.C99.C99_conventions",
    "Verif.C99.C99_rows",
    "Verif.C99.C99_halves",
    "Verif.C99.C99_view_partial",
    "Verif.C99.C99_unwritten_false",
    "Verif.C99.C99_zero_false"
   ],
   "note": "Proved, except that the conventions of a linear target are all known (false: the constructor for a bound never writes the one of its right-hand side, C99_unwritten_false) and that changing the data is defined for all targets (false for a zero right-hand side, C99_zero_false)."
  }
 ]
}
