# Axioms used by the theorems of MANIFEST.json

Output of `#print axioms` on each of them, grouped.

## none

* `Verif.C100.C100_false`
* `Verif.C108.C108_stale`
* `Verif.C22.C22_moved_from_size`
* `Verif.C22.C22_empty_variable`
* `Verif.C22.C22_addList_not_atomic`
* `Verif.C26.C28_default_size`
* `Verif.C74.C74_not_told_apart`
* `Verif.C74.C74_not_asymmetric`
* `Verif.C80.C80_static_still`
* `Verif.C84.C84_setLU`
* `Verif.C85.C85_skip_false`
* `Verif.C85.C85_velocity_false`
* `Verif.C88.C88_setB`

## propext

* `Verif.C01.C01_contains_int`
* `Verif.C01.C01_intersects_comm`
* `Verif.C07.C07_lists_cover_unique`
* `Verif.C107.C107_depth`
* `Verif.C107.C107_twice`
* `Verif.C115.C115_valid_false`
* `Verif.IM.C121_self_false`
* `Verif.IM.C121_merged_false`
* `Verif.IM.C121_moved_false`
* `Verif.IM.C121_destroyed_false`
* `Verif.C14.C15_execute_frame`
* `Verif.C22.C22_move`
* `Verif.C22.C24_moved_from`
* `Verif.C22.C25_size`
* `Verif.C26.C27_dot_false`
* `Verif.C26.C27_subvariable_false`
* `Verif.C26.C28_unit`
* `Verif.C26.C28_typed`
* `Verif.C29.C29_two_handles`
* `Verif.C29.C29_handle_then_pair`
* `Verif.C29.C29_self_pair`
* `Verif.C30.C30_dangling_handle`
* `Verif.SE.C32_readded_objective_keeps_old_data`
* `Verif.LS.C33_double_add`
* `Verif.C34.C35_solvers`
* `Verif.C40.C40_wrapper`
* `Verif.LS.C60_quadprog_false`
* `Verif.C74.C74_false`
* `Verif.C75.C75_frames`
* `Verif.C76.C76_jdot_false`
* `Verif.C77.C77_throw_changes`
* `Verif.C79.C79_position`
* `Verif.C79.C79_velocity_partial`
* `Verif.C79.C79_normal_partial`
* `Verif.C80.C80_moving_point`
* `Verif.C83.C83_remove_false`
* `Verif.C84.C84_setA1`
* `Verif.C84.C84_sizes`
* `Verif.C85.C85_free_false`
* `Verif.C87.C87_com_value`
* `Verif.C87.C87_posture_false`
* `Verif.C88.C88_setA1`
* `Verif.C88.C88_empty_false`
* `Verif.C90.C90_bound_false`
* `Verif.C99.C99_constructors`

## propext, Classical.choice, Quot.sound

* `Verif.C01.C01_contains_range`
* `Verif.C01.C01_intersects`
* `Verif.C01.C01_relativeRange`
* `Verif.C01.C01_relativeRange_mem`
* `Verif.C01.C01_contains_empty`
* `Verif.C01.C01_shift`
* `Verif.C02.C02_ranges_exact`
* `Verif.C02.C02_net_nonneg`
* `Verif.C02.C02_no_ub`
* `Verif.C02.C02_limit_order`
* `Verif.C02.C03_add_flag`
* `Verif.C02.C03_remove_flag`
* `Verif.C02.C04_remove_throws_iff`
* `Verif.C02.C04_remove_strong_guarantee`
* `Verif.C02.C05_maxCount`
* `Verif.C02.C06_split_partition`
* `Verif.C02.C06_split_boundaries`
* `Verif.C07.C07_variables_exact`
* `Verif.C07.C07_add_flag`
* `Verif.C07.C07_remove_flag`
* `Verif.C07.C07_isDisjointUnion`
* `Verif.C08.C08_split_fresh_after_change_partial`
* `Verif.C08.C08_split_first_query_partial`
* `Verif.C09.C09_order`
* `Verif.C09.C09_no_overflow`
* `Verif.C09.C10_acyclic_complete`
* `Verif.C09.C10_returns_iff`
* `Verif.C09.C10_throws_iff_cycle`
* `Verif.C09.C10_no_top_throws`
* `Verif.C100.C100_partial`
* `Verif.C100.C100_block`
* `Verif.C101.C101_partial`
* `Verif.C101.C101_slice`
* `Verif.C101.C101_accumulate`
* `Verif.C101.C101_reset`
* `Verif.C101.C101_stated`
* `Verif.C101.C101_raw_false`
* `Verif.C101.C101_ref_false`
* `Verif.C101.C101_constant_false`
* `Verif.C102.C102_reset`
* `Verif.C102.C102_value`
* `Verif.C102.C102_jacobian_partial`
* `Verif.C102.C102_jacobian_false`
* `Verif.C102.C102_velocity_partial`
* `Verif.C102.C102_norm`
* `Verif.C102.C102_velocity_false`
* `Verif.C102.C102_acceleration_partial`
* `Verif.C103.C103_value`
* `Verif.C103.C103_derivative`
* `Verif.C103.C103_partial`
* `Verif.C103.C103_velocity_false`
* `Verif.C103.C103_dof_false`
* `Verif.C104.C104_get`
* `Verif.C104.C104_assign`
* `Verif.C104.C104_allocations`
* `Verif.C104.C104_map`
* `Verif.C104.C104_keep_false`
* `Verif.C105.C105_defined`
* `Verif.C106.C106_generate`
* `Verif.C106.C106_disabled`
* `Verif.C106.C106_sound`
* `Verif.C107.C107_notify`
* `Verif.C107.C107_history`
* `Verif.C107.C107_expired_false`
* `Verif.C107.C107_cycle`
* `Verif.C108.C108_place`
* `Verif.C108.C108_all`
* `Verif.C108.C108_moves`
* `Verif.C108.C108_shared_false`
* `Verif.C109.C109_configuration`
* `Verif.C109.C109_vector`
* `Verif.C109.C109_order`
* `Verif.C09.C11_content`
* `Verif.C09.C11_members`
* `Verif.C09.C11_history_independent`
* `Verif.C09.C11_addEdge_flag`
* `Verif.C09.C11_removeNode_returns`
* `Verif.C110.C110_avoidance`
* `Verif.C110.C110_sampled`
* `Verif.C110.C110_second_partial`
* `Verif.C110.C110_second_false`
* `Verif.C111.C111_alone`
* `Verif.C111.C111_solve`
* `Verif.C111.C111_layout`
* `Verif.C111.C111_no_assertion`
* `Verif.C112.C112_gains_iff`
* `Verif.C112.C112_sampled_pd`
* `Verif.C112.C112_sampled_critical`
* `Verif.C112.C112_sampled_oneStep`
* `Verif.C112.C112_resolved`
* `Verif.C112.C112_resolved_pd`
* `Verif.C113.C113_pd`
* `Verif.C113.C113_sampled`
* `Verif.C113.C113_sampled_critical`
* `Verif.C113.C113_not_kept`
* `Verif.C113.C113_sampled_not_kept`
* `Verif.C113.C113_resolved`
* `Verif.C114.C114_feedForward`
* `Verif.C114.C114_clamped`
* `Verif.C114.C114_clamped_straight`
* `Verif.C114.C114_clamped_frozen`
* `Verif.C114.C114_layers`
* `Verif.C114.C114_feedForward_second`
* `Verif.C114.C114_tracking_second`
* `Verif.C114.C114_tracking_limit`
* `Verif.C114.C114_tracking_critical`
* `Verif.C115.C115_exact`
* `Verif.C115.C115_valid_partial`
* `Verif.C115.C115_undefined`
* `Verif.C115.C115_links`
* `Verif.C116.C116_variables`
* `Verif.C116.C116_vector`
* `Verif.C117.C117_recorded_partial`
* `Verif.C117.C117_fresh_partial`
* `Verif.C117.C117_reads_partial`
* `Verif.C117.C117_keeps`
* `Verif.C117.C117_plain`
* `Verif.C117.C117_twice_false`
* `Verif.C117.C117_throw_false`
* `Verif.C117.C117_event_false`
* `Verif.C118.C118_refresh_partial`
* `Verif.C118.C118_run_partial`
* `Verif.C118.C118_update_partial`
* `Verif.C118.C118_inputs_partial`
* `Verif.PB.C119_layout_partial`
* `Verif.PB.C119_no_assertion_partial`
* `Verif.PB.C119_returns_partial`
* `Verif.PB.C119_priority_false`
* `Verif.PB.C119_objective_false`
* `Verif.PB.C119_bound_false`
* `Verif.PB.C119_role_false`
* `Verif.C09.C12_groupedOrder`
* `Verif.C09.C12_throws_like_order`
* `Verif.SB.C120_assignments`
* `Verif.SB.C120_registered`
* `Verif.SB.C120_alive_partial`
* `Verif.IM.C121_map_partial`
* `Verif.HLS.C122_build`
* `Verif.HLS.C122_first_partial`
* `Verif.HLS.C122_later_partial`
* `Verif.HLS.C122_again_false`
* `Verif.HLS.C122_levels_false`
* `Verif.HLS.C122_norm_false`
* `Verif.HLS.C122_bounds_false`
* `Verif.HLS.C122_variables_false`
* `Verif.C123.C123_partial`
* `Verif.C123.C123_tasks_partial`
* `Verif.C123.C123_best_partial`
* `Verif.C123.C123_loop_partial`
* `Verif.C123.C123_proportional_partial`
* `Verif.C123.C123_sampled_partial`
* `Verif.C123.C123_oneStep_partial`
* `Verif.C123.C123_second_partial`
* `Verif.C123.C123_pd_partial`
* `Verif.C124.C124_build`
* `Verif.C124.C124_partial`
* `Verif.C124.C124_default`
* `Verif.C124.C124_one_sided`
* `Verif.C124.C124_other_false`
* `Verif.C124.C124_setter_false`
* `Verif.C124.C124_bounds`
* `Verif.C124.C124_bounds_partial`
* `Verif.C124.C124_bounds_false`
* `Verif.C124.C124_update`
* `Verif.C13.C13_reduce`
* `Verif.C13.C13_reduce_order`
* `Verif.C14.C14_plan_sound`
* `Verif.C14.C14_plan_complete`
* `Verif.C14.C14_update_defined`
* `Verif.C14.C14_add_returns`
* `Verif.C14.C15_execute_refreshes`
* `Verif.C14.C15_execute_fresh`
* `Verif.C16.C16_declared_sound`
* `Verif.C16.C16_truthful_accepted`
* `Verif.C16.C16_rebuild`
* `Verif.C16.C16_default`
* `Verif.C16.C17_neg_sound`
* `Verif.C16.C17_neg_total`
* `Verif.C16.C18_add_sound`
* `Verif.C16.C18_sub_sound`
* `Verif.C16.C19_mul_sound`
* `Verif.C16.C20_scale_sound`
* `Verif.C16.C20_scale_false`
* `Verif.C16.C21_add_throws_iff`
* `Verif.C16.C21_sub_eq`
* `Verif.C16.C21_mul_throws_iff`
* `Verif.C16.C21_scale_throws_iff`
* `Verif.C16.C21_rejects_consistent`
* `Verif.C22.C22_disjoint`
* `Verif.C22.C22_add`
* `Verif.C22.C22_addAndGetIndex`
* `Verif.C22.C22_remove`
* `Verif.C22.C22_removeAt`
* `Verif.C22.C22_contains`
* `Verif.C22.C22_indexOf`
* `Verif.C22.C22_copy`
* `Verif.C22.C22_geometry`
* `Verif.C22.C23_tiling`
* `Verif.C22.C23_inside`
* `Verif.C22.C24_query`
* `Verif.C22.C25_set`
* `Verif.C22.C25_value`
* `Verif.C22.C25_setZero`
* `Verif.C26.C26_segment`
* `Verif.C26.C26_subvariable_returns`
* `Verif.C26.C26_view`
* `Verif.C26.C26_set`
* `Verif.C26.C26_contains`
* `Verif.C26.C26_intersects`
* `Verif.C26.C26_equal`
* `Verif.C26.C26_derivative`
* `Verif.C26.C27_dot_exact`
* `Verif.C26.C27_subvariable_exact`
* `Verif.C26.C27_safe`
* `Verif.C26.C28_product`
* `Verif.C26.C28_order`
* `Verif.C26.C28_constructors`
* `Verif.C29.C29_symmetric`
* `Verif.C29.C29_one_mate`
* `Verif.C29.C29_no_ub`
* `Verif.C29.C29_destroy`
* `Verif.C29.C29_moveCtor`
* `Verif.C29.C29_moveAssign`
* `Verif.C29.C29_self_move`
* `Verif.C29.C29_pairWith`
* `Verif.C29.C29_handle`
* `Verif.C29.C29_other`
* `Verif.C30.C30_refines`
* `Verif.C30.C30_isPaired`
* `Verif.C30.C30_run_observes`
* `Verif.C30.C30_run_twice`
* `Verif.EQ.C31_same_tasks`
* `Verif.EQ.C31_same_weights_and_substitutions`
* `Verif.EQ.C31_cancelled`
* `Verif.EQ.C31_emitters_alive`
* `Verif.SE.C32_net_differences`
* `Verif.SE.C32_apply`
* `Verif.SE.C32_weight_events`
* `Verif.SE.C32_need_mapping`
* `Verif.SE.C32_objective_data`
* `Verif.LS.C33_layout`
* `Verif.C34.C34_assembled_partial`
* `Verif.C34.C34_frame`
* `Verif.C34.C34_opposite_false`
* `Verif.C34.C34_accepted`
* `Verif.C34.C35_as_given_partial`
* `Verif.C34.C35_opposite_false`
* `Verif.C36.C36_scaled`
* `Verif.C36.C36_squared`
* `Verif.C36.C37_scalar_false`
* `Verif.C38.C38_intersection_partial`
* `Verif.C38.C38_identity`
* `Verif.C38.C38_order`
* `Verif.C38.C38_first`
* `Verif.C38.C38_crossed_false`
* `Verif.C38.C38_small_false`
* `Verif.C34.C39_substituted_partial`
* `Verif.C40.C40_vector`
* `Verif.C40.C40_matrix`
* `Verif.C40.C40_frame`
* `Verif.C40.C40_frame_block`
* `Verif.C40.C40_custom`
* `Verif.C41.C41_plain`
* `Verif.C41.C41_substituted`
* `Verif.C41.C41_double_iff`
* `Verif.C42.C42_lists`
* `Verif.C42.C42_inverse`
* `Verif.C42.C42_nullspace`
* `Verif.C42.C42_postN`
* `Verif.C42.C42_solutions_partial`
* `Verif.C42.C42_range`
* `Verif.C42.C42_row_false`
* `Verif.C43.C43_solutions_partial`
* `Verif.C43.C43_unique`
* `Verif.C43.C43_y`
* `Verif.C43.C43_writeBack_partial`
* `Verif.C43.C43_zero_partial`
* `Verif.C43.C43_index_false`
* `Verif.C43.C43_zero_false`
* `Verif.C43.C43_diagonal`
* `Verif.C43.C43_defined_iff`
* `Verif.C43.C43_single_defined`
* `Verif.C44.C44_greatest`
* `Verif.C44.C44_value`
* `Verif.C44.C44_unchanged`
* `Verif.C44.C44_idempotent`
* `Verif.C44.C44_impl`
* `Verif.C44.C44_constructor`
* `Verif.C45.C45_safe_first`
* `Verif.C45.C45_safe_second`
* `Verif.C45.C45_noJump`
* `Verif.C45.C45_sharp`
* `Verif.C45.C45_rest`
* `Verif.C45.C45_symmetric`
* `Verif.C45.C45_value_first`
* `Verif.C45.C45_value_second`
* `Verif.C45.C45_auto_damping`
* `Verif.C45.C45_safe_auto_first`
* `Verif.C45.C45_safe_auto_second`
* `Verif.C45.C45_auto_continuous`
* `Verif.C45.C45_auto_outward_false`
* `Verif.C45.C45_auto_nan_false`
* `Verif.C45.C45_aniso`
* `Verif.C45.C45_made`
* `Verif.C64.C45_continuous`
* `Verif.C46.C46_first`
* `Verif.C46.C46_second`
* `Verif.C46.C46_first_steps`
* `Verif.C46.C46_second_steps`
* `Verif.C47.C47_critical_partial`
* `Verif.C47.C47_matrix_damping`
* `Verif.C47.C47_matrix`
* `Verif.C47.C47_matrix_false`
* `Verif.C47.critical_iff`
* `Verif.C48.C48_first_order`
* `Verif.C48.C48_second_order`
* `Verif.C48.C48_order_zero_partial`
* `Verif.C48.C48_none`
* `Verif.C48.C48_none_double`
* `Verif.C48.C48_proportional_double`
* `Verif.C48.C48_pd`
* `Verif.C48.C48_not_linear`
* `Verif.C48.C48_sides`
* `Verif.C48.C48_accepted`
* `Verif.C48.C48_constant_offset`
* `Verif.PB.C49_sync`
* `Verif.PB.C49_no_throw`
* `Verif.PB.C49_addresses`
* `Verif.PB.C50_failed_removal_partial`
* `Verif.PB.C50_throws_iff`
* `Verif.PB.C50_failed_removal_false`
* `Verif.PB.C51_decreasing`
* `Verif.PB.C51_uniform`
* `Verif.PB.C52_announced`
* `Verif.C53.C53_affine`
* `Verif.C53.C53_operators`
* `Verif.C53.C53_elementary`
* `Verif.C53.C53_types`
* `Verif.C53.C53_linear`
* `Verif.C53.C53_incoherent`
* `Verif.C53.C53_lists`
* `Verif.C53.C53_lists_ok`
* `Verif.C53.C53_lists_refused`
* `Verif.C53.C53_nonsquare_identity`
* `Verif.C53.C53_defined`
* `Verif.C54.C54_visits`
* `Verif.C54.C54_of_added`
* `Verif.C55.C55_expression`
* `Verif.C56.C56_history`
* `Verif.C56.C56_last`
* `Verif.C56.C56_sources`
* `Verif.C56.C56_kept`
* `Verif.C57.C57_exclusive`
* `Verif.C57.C57_maps`
* `Verif.C57.C57_stable`
* `Verif.C57.C57_inputs`
* `Verif.C57.C57_update`
* `Verif.SA.C58_accepts`
* `Verif.SA.C58_construction`
* `Verif.SA.C58_wls`
* `Verif.SA.C58_hls`
* `Verif.PB.C59_current_partial`
* `Verif.PB.C59_stale_false`
* `Verif.PB.C59_removal_false`
* `Verif.LS.C60_current_joint`
* `Verif.LS.C60_current_partial`
* `Verif.LS.C60_no_write_outside_partial`
* `Verif.PB.C61_solver_layout`
* `Verif.PB.C61_supported`
* `Verif.PB.C61_variables_partial`
* `Verif.PB.C61_current`
* `Verif.PB.C61_variables_rebuilt`
* `Verif.PB.C62_first_partial`
* `Verif.PB.C62_lost_events_false`
* `Verif.PB.C62_unbuilt_false`
* `Verif.PB.C62_not_repaired_false`
* `Verif.PB.C63_no_assertion`
* `Verif.PB.C63_solve_returns_partial`
* `Verif.C64.C64_proportional`
* `Verif.C64.C64_proportional_limit`
* `Verif.C64.C64_proportional_matrix`
* `Verif.C64.C64_critical`
* `Verif.C64.C64_critical_limit`
* `Verif.C64.C64_no_overshoot`
* `Verif.C64.C64_discrete`
* `Verif.C65.C65_simple_iff`
* `Verif.C65.C65_simple_exact`
* `Verif.C65.C65_simple_sound`
* `Verif.C66.C66_qld`
* `Verif.C66.C66_quadprog`
* `Verif.C66.C66_lssol`
* `Verif.C66.C66_lexls`
* `Verif.C66.C66_big`
* `Verif.C66.C66_big_ds`
* `Verif.C66.C66_flag_qld`
* `Verif.C66.C66_flag_quadprog`
* `Verif.C67.C67_qld_partial`
* `Verif.C67.C67_quadprog_partial`
* `Verif.C67.C67_lssol_partial`
* `Verif.C67.C67_lexls_partial`
* `Verif.C67.C67_cholesky`
* `Verif.C67.C67_junk`
* `Verif.C67.C67_ignored`
* `Verif.C67.C67_mixed`
* `Verif.C68.C68_partial`
* `Verif.C68.C68_build`
* `Verif.C68.C68_returns`
* `Verif.C68.C68_only_bounds`
* `Verif.C68.C68_damped`
* `Verif.C68.C68_damped_bounds`
* `Verif.C68.C68_feasible`
* `Verif.C68.C68_limit`
* `Verif.C68.C68_not`
* `Verif.C69.C69_partial`
* `Verif.C69.C69_pending`
* `Verif.C69.C69_stale`
* `Verif.C69.C69_repair`
* `Verif.C69.C69_not`
* `Verif.C70.C70_graph`
* `Verif.C70.C70_uses`
* `Verif.C70.C70_units`
* `Verif.C70.C70_lists`
* `Verif.C70.C70_substitute`
* `Verif.C70.C70_solutions_partial`
* `Verif.C70.C70_values_partial`
* `Verif.C70.C71_returns`
* `Verif.C70.C72_partial`
* `Verif.C70.C72_stale`
* `Verif.C70.C72_not`
* `Verif.C73.C73_calculator`
* `Verif.C73.C73_update`
* `Verif.C73.C73_range`
* `Verif.C73.C73_auto`
* `Verif.C74.C74_partial`
* `Verif.C75.C75_false`
* `Verif.C76.C76_returns`
* `Verif.C76.C76_jacobian`
* `Verif.C76.C76_jdot_partial`
* `Verif.C76.C76_inactive`
* `Verif.C76.C76_twice_undefined`
* `Verif.C77.C77_value`
* `Verif.C77.C77_named`
* `Verif.C77.C77_velocity`
* `Verif.C77.C77_velocity_named`
* `Verif.C78.C78_jacobian_partial`
* `Verif.C78.C78_jacobian_false`
* `Verif.C78.C78_all`
* `Verif.C78.C78_points`
* `Verif.C78.C78_vacuous`
* `Verif.C78.C78_affine`
* `Verif.C78.C78_velocity`
* `Verif.C78.C78_trajectory_false`
* `Verif.C78.C78_right_refused`
* `Verif.C79.C79_moves`
* `Verif.C79.C79_consistent`
* `Verif.C79.C79_false`
* `Verif.C79.C79_accelerates`
* `Verif.C79.C79_acceleration`
* `Verif.C79.C79_normal_false`
* `Verif.C80.C80_point_false`
* `Verif.C80.C80_distance`
* `Verif.C80.C80_jacobian`
* `Verif.C80.C80_derivatives_partial`
* `Verif.C80.C80_velocity_false`
* `Verif.C81.C81_count`
* `Verif.C81.C81_generators`
* `Verif.C81.C81_inside`
* `Verif.C81.C81_contains`
* `Verif.C82.C82_add`
* `Verif.C82.C82_remove_partial`
* `Verif.C82.C82_remove_false`
* `Verif.C82.C82_equation`
* `Verif.C82.C82_removed_false`
* `Verif.C82.C82_linearized`
* `Verif.C82.C82_no_slip`
* `Verif.C82.C82_free`
* `Verif.C82.C82_reported_undefined`
* `Verif.C82.C82_reported_undefined_common`
* `Verif.C82.C82_reported_free`
* `Verif.C82.C82_reported_partial`
* `Verif.C82.C82_reported_lin_partial`
* `Verif.C82.C82_reported_false`
* `Verif.C82.C82_positive`
* `Verif.C82.C82_contactForce`
* `Verif.C83.C83_cache`
* `Verif.C83.C83_jacobian`
* `Verif.C83.C83_jacobian_throws`
* `Verif.C83.C83_linear`
* `Verif.C83.C83_write`
* `Verif.C83.C83_split`
* `Verif.C83.C83_addAll`
* `Verif.C84.C84_zero`
* `Verif.C84.C84_b`
* `Verif.C84.C84_lu`
* `Verif.C84.C84_setA`
* `Verif.C84.C84_setB`
* `Verif.C84.C84_value`
* `Verif.C84.C84_repeated_false`
* `Verif.C84.C84_euclid_false`
* `Verif.C85.C85_bounds`
* `Verif.C85.C85_sizes_partial`
* `Verif.C85.C85_values`
* `Verif.C85.C85_once`
* `Verif.C85.C85_integrates`
* `Verif.C85.C85_normal`
* `Verif.C86.C86_value`
* `Verif.C86.C86_rows`
* `Verif.C86.C86_defined`
* `Verif.C86.C86_normal`
* `Verif.C86.C86_velocity_partial`
* `Verif.C86.C86_rate`
* `Verif.C86.C86_jacobian`
* `Verif.C86.C86_time`
* `Verif.C86.C86_acceleration_partial`
* `Verif.C86.C86_frame_false`
* `Verif.C86.C86_three_false`
* `Verif.C86.C86_acceleration_false`
* `Verif.C86.C86_first_false`
* `Verif.C87.C87_contact_partial`
* `Verif.C87.C87_contact_false`
* `Verif.C87.C87_com_jacobian`
* `Verif.C87.C87_jdot_false`
* `Verif.C87.C87_position_partial`
* `Verif.C87.C87_position_jacobian`
* `Verif.C87.C87_position_false`
* `Verif.C87.C87_posture_velocity`
* `Verif.C87.C87_posture_partial`
* `Verif.C87.C87_posture_jacobian`
* `Verif.C87.C87_posture_reset`
* `Verif.C87.C87_posture_set`
* `Verif.C88.C88_function`
* `Verif.C88.C88_constructor`
* `Verif.C88.C88_constructor_linear`
* `Verif.C88.C88_state`
* `Verif.C88.C88_setA`
* `Verif.C88.C88_derivative`
* `Verif.C88.C88_filled`
* `Verif.C88.C88_identity`
* `Verif.C88.C88_euclid_false`
* `Verif.C89.C89_numbering`
* `Verif.C89.C89_distinct`
* `Verif.C89.C89_enabled`
* `Verif.C89.C89_above`
* `Verif.C89.C89_disable`
* `Verif.C89.C89_enable`
* `Verif.C89.C89_above_false`
* `Verif.C89.C89_cast_false`
* `Verif.C89.C89_several_false`
* `Verif.C90.C90_update`
* `Verif.C90.C90_remap`
* `Verif.C90.C90_accept`
* `Verif.C90.C90_defined`
* `Verif.C90.C90_now`
* `Verif.C90.C90_pending`
* `Verif.C90.C90_run`
* `Verif.C90.C90_run_bounds`
* `Verif.C91.C91_covers`
* `Verif.C91.C91_exact_partial`
* `Verif.C91.C91_inputs_logged`
* `Verif.C93.C93_make`
* `Verif.C93.C93_order`
* `Verif.C93.C93_notified`
* `Verif.C93.C93_knows_partial`
* `Verif.C93.C93_negative_false`
* `Verif.C93.C93_priority_false`
* `Verif.C93.C93_assign_false`
* `Verif.C93.C93_twice_false`
* `Verif.C94.C94_calls_partial`
* `Verif.C94.C94_complete_partial`
* `Verif.C94.C94_fresh_partial`
* `Verif.C94.C94_returns_partial`
* `Verif.C94.C94_tasks`
* `Verif.C95.C95_qld_partial`
* `Verif.C95.C95_quadprog_partial`
* `Verif.C95.C95_lssol_partial`
* `Verif.C95.C95_lexls_partial`
* `Verif.C96.C96_values`
* `Verif.C96.C96_assembled`
* `Verif.C96.C96_qld_partial`
* `Verif.C96.C96_quadprog_partial`
* `Verif.C96.C96_lssol_partial`
* `Verif.C96.C96_lexls_partial`
* `Verif.C96.C96_called`
* `Verif.C96.C96_skipped_partial`
* `Verif.C96.C96_missing_false`
* `Verif.C96.C96_skipped_false`
* `Verif.C97.C97_task`
* `Verif.C97.C97_resolution`
* `Verif.C97.C97_proportional`
* `Verif.C97.C97_critical`
* `Verif.C97.C97_matrix`
* `Verif.C97.C97_sampled_proportional`
* `Verif.C97.C97_sampled_oneStep`
* `Verif.C97.C97_objectives`
* `Verif.C97.C97_resolved_loop`
* `Verif.C97.C97_resolved_sampled`
* `Verif.C97.C97_resolved_oneStep`
* `Verif.C98.C98_partial`
* `Verif.C98.C98_levels_partial`
* `Verif.C98.C98_false`
* `Verif.C99.C99_rows`
* `Verif.C99.C99_halves`

## propext, Quot.sound

* `Verif.C01.C01_empty_false`
* `Verif.C08.C08_split_stale`
* `Verif.C09.C10_dropped_cycle`
* `Verif.C100.C100_defined`
* `Verif.C100.C100_range`
* `Verif.C103.C103_relative`
* `Verif.C103.C103_world`
* `Verif.C104.C104_columns`
* `Verif.C105.C105_scope`
* `Verif.C105.C105_macro`
* `Verif.C105.C105_throw_false`
* `Verif.C105.C105_sites_false`
* `Verif.C105.C105_resolution`
* `Verif.C105.C105_first_resolution_false`
* `Verif.C105.C105_failed_update_false`
* `Verif.C107.C107_network`
* `Verif.C107.C107_returns`
* `Verif.C107.C107_single`
* `Verif.C107.C107_answers`
* `Verif.C107.C107_last_words`
* `Verif.C108.C108_rigid`
* `Verif.C116.C116_keys`
* `Verif.C116.C116_added_partial`
* `Verif.C116.C116_counted_false`
* `Verif.C117.C117_plain_false`
* `Verif.C118.C118_visits`
* `Verif.C118.C118_remove_false`
* `Verif.C118.C118_reference_false`
* `Verif.C118.C118_throw_false`
* `Verif.C118.C118_stale_false`
* `Verif.SB.C120_key_false`
* `Verif.SB.C120_rows_false`
* `Verif.SB.C120_half_false`
* `Verif.SB.C120_announced`
* `Verif.SB.C120_processed`
* `Verif.IM.C121_distinct`
* `Verif.IM.C121_identity_partial`
* `Verif.IM.C121_null`
* `Verif.C14.C14_cycle_omitted`
* `Verif.C22.C22_clear`
* `Verif.C22.C22_self_assign`
* `Verif.C26.C26_set_segment`
* `Verif.C36.C36_none`
* `Verif.C36.C36_positive`
* `Verif.C36.C37_current_partial`
* `Verif.C36.C37_kept`
* `Verif.C36.C37_quiet`
* `Verif.C36.C37_throws_iff`
* `Verif.C38.C38_one_sided_false`
* `Verif.C41.C41_one_sided_throws`
* `Verif.C42.C42_make`
* `Verif.C42.C42_ub`
* `Verif.C45.C45_outside`
* `Verif.C45.C45_stable`
* `Verif.C45.C45_config`
* `Verif.C46.C46_parameters`
* `Verif.C47.C47_setter`
* `Verif.C54.C54_limits`
* `Verif.C55.C55_function`
* `Verif.C56.C56_throwing`
* `Verif.C57.C57_unchecked`
* `Verif.SA.C58_lookup_handled`
* `Verif.SA.C58_zero_levels`
* `Verif.SA.C58_scalarized_levels_false`
* `Verif.LS.C60_qld_false`
* `Verif.C65.C65_not_exact`
* `Verif.C65.C65_removal_unsound`
* `Verif.C66.C66_flag_lssol`
* `Verif.C66.C66_flag_lexls`
* `Verif.C69.C69_priority`
* `Verif.C70.C71_throws`
* `Verif.C70.C71_undefined`
* `Verif.C74.C74_eq`
* `Verif.C75.C75_partial`
* `Verif.C75.C75_translations_partial`
* `Verif.C77.C77_throw`
* `Verif.C79.C79_jacobian_partial`
* `Verif.C79.C79_velocity_iff_partial`
* `Verif.C79.C79_normal_iff_partial`
* `Verif.C80.C80_planes`
* `Verif.C80.C80_last`
* `Verif.C83.C83_add`
* `Verif.C83.C83_empty_false`
* `Verif.C85.C85_sizes_false`
* `Verif.C85.C85_normal_fixed`
* `Verif.C88.C88_remove_false`
* `Verif.C89.C89_valid`
* `Verif.C89.C89_static`
* `Verif.C89.C89_lock`
* `Verif.C89.C89_several`
* `Verif.C89.C89_constraint`
* `Verif.C90.C90_data`
* `Verif.C90.C90_build`
* `Verif.C90.C90_build_bounds`
* `Verif.C90.C90_bound`
* `Verif.C90.C90_throw_false`
* `Verif.C91.C91_terminates`
* `Verif.C91.C91_found`
* `Verif.C91.C91_throws`
* `Verif.C91.C91_graph`
* `Verif.C91.C91_output`
* `Verif.C91.C91_removed_false`
* `Verif.C91.C91_reused_false`
* `Verif.C91.C91_disabled_false`
* `Verif.C92.C92_terminates`
* `Verif.C92.C92_tree`
* `Verif.C92.C92_labels`
* `Verif.C92.C92_logged`
* `Verif.C92.C92_throws`
* `Verif.C92.C92_size`
* `Verif.C92.C92_same`
* `Verif.C92.C92_depth`
* `Verif.C92.C92_graph`
* `Verif.C93.C93_withCallbacks`
* `Verif.C93.C93_default`
* `Verif.C93.C93_constructors`
* `Verif.C93.C93_nonneg_partial`
* `Verif.C94.C94_stale_false`
* `Verif.C94.C94_twice_false`
* `Verif.C99.C99_change`
* `Verif.C99.C99_conventions`
* `Verif.C99.C99_view_partial`
* `Verif.C99.C99_unwritten_false`
* `Verif.C99.C99_zero_false`
