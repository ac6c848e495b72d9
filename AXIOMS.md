# Axioms of the property theorems

Generated by tools/axioms.py from `#print axioms`.

## no axioms

C47_swaps, C47_line, C47_arc_reverse

## propext

C14_wrong_length, C15_sum, C15_entries, C23_gradient_frame, C23_jacobian_frame, C26_not_descent, C47_arc, C55_point_add, C55_set_x, C55_set_y, C63_stairs_empty, C66_circle_empty, C67_primitive_setters, C67_constraint_setters, C67_unvalidated, C70_circle_adjacent, C95_newton_moves

## propext, Quot.sound

C02_errors, C06_refuted_by_delete, C06_refuted_by_set_start, C07_absent, C07_present, C10_add_constraint, C11_dofs, C11_lengths, C12_layout, C13_write_back, C14_frame, C23_gradient_finite, C23_gradient_independent, C23_gradient_idempotent, C23_jacobian_independent, C30_stop, C34_gn_stop, C34_lm_stop, C34_gn_leads, C34_lm_leads, C35_solver_frame, C35_world, C36_gd_stays, C36_bfgs_stays, C40_sorted, C40_positive, C40_circles, C40_nothing_lost, C44_drawn, C47_closed, C54_restores, C54_restores_on_panic, C55_prim_set_data, C55_constructors, C55_unchecked, C58_queries, C58_guard_clash, C67_methods, C67_frame, C67_other_losses, C67_is_a_call, C67_targets, C68_desired_distance, C68_desired_angle, C70_ring_eq, C95_gd_resume, C110_step, C110_history, C110_jacobian

## propext, Classical.choice, Quot.sound

C01_ids_increase, C01_new_id_never_used, C01_returned_id, C02_ok_iff, C02_ok_effect, C03_lookup_iff, C03_found, C03_not_before, C03_deleted, C04_inverse, C04_unique, C05_no_duplicates, C06_closed, C06_closed_without_delete, C07_reachable, C08_actual_effect, C08_spec_iff_empty, C09_add_point2, C09_add_line, C09_add_arc, C10_constrain, C11_count, C12_roundtrip, C12_history, C14_ok_iff, C14_non_finite, C15_nonneg, C15_total_nonneg, C15_zero_iff, C15_finite, C16_euclidean, C16_negative, C16_horizontal, C16_vertical, C17_fix, C17_arc_start, C17_arc_end, C18_horizontal, C18_vertical, C18_equal_length, C18_parallel, C18_perpendicular, C19_angle, C19_short_arm, C19_unsatisfiable, C20_domain, C20_gradient, C20_history, C21_jacobian, C22_panics_iff, C24_row, C24_gradient, C25_constraint, C25_sketch, C26_accepted, C26_failed, C26_not_descent_exact, C26_accepted_exact, C27_stiff, C27_failed_moves, C28_sufficient_decrease, C28_monotone, C29_stop, C29_stop_exact, C30_terminates, C30_stop_exact, C31_positive_definite, C31_descent, C32_secant, C32_run, C33_sufficient_decrease, C33_monotone, C33_stale_step, C34_gn_ok, C34_lm_ok, C34_gn_terminates, C34_lm_terminates, C34_gn_fixed, C34_lm_fixed, C34_gn_stop_exact, C34_lm_stop_exact, C36_bfgs_stays_gradient, C36_gd_stays_exact, C36_bfgs_stays_exact, C37_stuck, C37_ok_not_solved, C38_closed_chain, C39_used_once, C39_count, C40_circle_nonzero, C41_hardest_left_float, C41_turn_finite, C41_direction, C41_lines, C41_none, C41_some, C41_hardest_left, C42_angle_difference, C42_in_range, C43_lines, C43_found, C43_zero_area, C43_way_back_line, C43_way_back_arc, C44_unused, C44_not_in_ring, C44_spur_not_reported, C44_ring_reported, C45_no_panic, C45_exteriors, C45_holes, C45_largest, C45_nested_circles, C46_located, C46_identity, C46_panic, C47_area, C48_lines, C48_face_vanishes, C49_shoelace, C49_closed_polygon, C49_start, C49_affine, C49_triangle, C49_cut, C49_circle, C49_two_points, C49_half_circles, C50_segments, C50_circle, C50_distance, C51_distance, C51_start_gradient, C51_end_gradient, C52_clone, C52_membership_separate, C52_same_view, C52_set_data_visible, C52_all_well_formed, C52_ids_collide, C53_load_ids, C53_load_last, C53_save_load, C53_values, C53_unshared, C53_no_force, C53_loss_frozen, C53_refused, C53_faces, C53_history, C55_line_add, C55_arc_add, C55_circle_add, C56_all_points, C57_translation, C57_rotation, C58_no_clash, C59_gauss_newton, C59_levenberg_marquardt, C59_gradient, C60_step, C60_run, C60_default_not_solved, C61_gd_monotone, C61_bfgs_monotone, C61_nonneg, C61_total_nonneg, C61_fix_underflow, C61_fix_zero, C62_panics_iff, C62_short_line, C62_zero_length, C62_loss_finite, C62_overflow, C63_stairs_build, C63_stairs_error, C63_stairs_zero, C63_stairs_check, C63_stairs_run, C63_stairs_gap, C63_stairs_last, C64_axis_build, C64_axis_error, C64_axis_zero, C64_axis_asserts, C64_axis_gap, C64_axis_run, C65_rotated_build, C65_rotated_zero, C65_rotated_check, C65_rotated_degenerate, C66_circle_build, C66_circle_build_exact, C66_circle_error, C66_circle_zero, C66_circle_check, C66_circle_run, C68_watched, C68_tested, C68_all_tested, C68_solvers, C68_solvers_binary64, C68_search, C68_no_step, C69_either_side, C69_three_segments, C69_three_segments_binary64, C69_wrong_turn, C70_adjacent_edges, C70_mutual, C70_start_matters, C70_one_way, C71_parabola, C71_search, C71_step, C71_gd_fails, C71_direction, C72_converges, C72_enough, C72_stairs, C72_stairs_fails, C73_converges, C73_enough, C73_stairs, C74_converges, C74_enough, C74_distance, C75_step, C75_run, C75_never, C75_five, C75_enough, C75_four, C75_stall, C75_flat, C76_step, C76_run, C76_default_fails, C76_enough, C77_rings, C77_unused, C77_covered, C77_area, C78_order, C78_closing_needed, C79_affine, C79_unused, C79_mirrored, C80_rings, C80_unused, C81_slopes, C81_steps, C81_rest, C81_distances, C82_steep, C82_solved, C82_descent, C82_enough, C82_bfgs, C82_circuit, C83_cut, C83_unused, C83_convex, C84_rings, C84_unused, C85_anywhere, C86_any_order, C87_any_order, C87_gauss_newton, C87_levenberg_marquardt, C88_check, C88_only_constraint, C89_losses, C89_gradient_descent, C89_bfgs, C89_gauss_newton, C89_levenberg_marquardt, C90_gauss_newton_number, C90_levenberg_marquardt_number, C90_small_loss, C90_bfgs, C90_gd, C90_gauss_newton, C90_levenberg_marquardt, C90_default_bfgs, C90_default_gd, C90_default_gauss_newton, C90_default_levenberg_marquardt, C91_reads, C91_writes, C91_either_order, C91_histories, C92_gauss_newton, C92_levenberg_marquardt, C92_gd_couples, C93_conflict, C93_detects, C93_unique, C93_certificate, C93_blind, C94_least, C94_gd, C94_gd_enough, C94_bfgs, C94_losses, C94_highlight, C95_limit, C95_early, C95_where, C95_leftover, C95_gn_resume, C95_lm_resume, C95_bfgs_again, C96_run, C96_stays, C96_free, C97_loss_per_constraint, C97_loss, C97_gradient, C97_jacobian, C97_decrease, C97_bfgs, C97_gd, C98_unused, C98_found, C98_kept, C98_order, C98_rings, C98_list, C98_around, C98_spread, C98_grid, C99_converges, C99_enough, C100_build, C100_error, C100_check, C100_run, C100_descends, C100_solves, C101_gd, C101_bfgs, C101_overshoot, C102_data, C102_gradient, C102_jacobian, C102_write, C102_solvers, C102_domain, C102_derivative, C103_nearest, C103_gd, C103_bfgs, C103_gn, C103_lm, C103_distance, C103_gd_default, C103_bfgs_default, C104_gd, C104_bfgs, C104_gd_default, C105_restated, C105_queries, C106_loss, C106_bfgs, C106_gd, C106_newton, C106_default, C107_losses, C107_gradient_descent, C107_gauss_newton, C107_levenberg_marquardt, C107_too_small, C108_setter, C108_size, C108_loss, C108_moves, C108_same, C108_gd_edit, C108_bfgs_edit, C108_redundant, C108_solvers, C109_travel, C109_forest, C109_solvable, C109_loss, C109_edit, C110_axis, C110_axis_run, C110_axis_descent, C110_outline, C110_asking, C110_near, C110_solved, C111_gradient_descent, C111_bfgs, C111_gauss_newton, C111_levenberg_marquardt, C111_flat_gradient_descent, C111_flat_bfgs, C111_flat_gauss_newton, C111_flat_levenberg_marquardt, C111_triangle, C112_x, C112_y, C112_sketch, C112_lone_fix, C112_rest, C113_pinned, C113_step, C113_rigid, C113_gradient, C114_step, C114_run, C114_grows, C114_apart, C114_collapse, C115_ways, C115_far, C115_default, C115_spread, C116_gn, C116_lm, C116_gn_default, C116_lm_default, C116_gn_run, C116_lm_run, C116_gn_order, C116_lm_order
