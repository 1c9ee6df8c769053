# Axioms of the manifest theorems

Written by `tools/axioms.py` from `#print axioms`.

## none (6)

`K.C10_lineage_unique`, `K.C12_world_unique`, `K.C43_depth_unique`, `K.C45_translation_rotation_commute`, `K.C56_new`, `K.C60_last`

## propext (28)

`K.C02_value`, `K.C02_fixed`, `K.C02_unlimited`, `K.C02_nan`, `K.C07_size_mismatch`, `K.C10_lineage_shape`, `K.C19_empty`, `K.C20_empty_panics`, `K.C30_selected`, `K.C30_split`, `K.C30_count`, `K.Urdf.C33_joint`, `K.Urdf.C33_mimic`, `K.C43_empty_panics`, `K.C53_get`, `K.C53_set`, `K.C53_fixed`, `K.C53_kept`, `K.C56_link_builder`, `K.C56_set_origin`, `K.C73_empty`, `K.C77_empty`, `K.C78_out_of_limit`, `K.C78_fixed`, `K.C78_size`, `K.C79_bounds`, `K.C106_not_given_up`, `K.C111_any_links`

## propext, Quot.sound (139)

`K.C01_ok_effect`, `K.C02_within`, `K.C05_returns`, `K.C05_children_follow`, `K.C05_mimic_child_ignores`, `K.C05_failure`, `K.C06_relation_preserved`, `K.C06_set_mimic_parent`, `K.C07_from_nodes`, `K.C07_joint_positions`, `K.C07_set_effect`, `K.C07_round_trip`, `K.C08_ok_iff`, `K.C08_failure_prefix`, `K.C09_descendants`, `K.C09_from_root`, `K.C09_order`, `K.C11_from_end_to_root`, `K.C12_update_transforms`, `K.C12_cut_chain`, `K.C12_missing_cache_panics`, `K.C12_from_root`, `K.C13_end_transform`, `K.C15_world_transform`, `K.C15_set_origin`, `K.C15_set_joint_position_clamped`, `K.C15_set_joint_position_unchecked`, `K.C18_frame`, `K.C18_clone_frame`, `K.C20_try_new`, `K.C24_success`, `K.C27_only_arm`, `K.C28_too_many`, `K.C29_bound`, `K.C31_remove`, `K.Urdf.C32_bad_limits_panic`, `K.Urdf.C34_value`, `K.C40_second_parent_breaks`, `K.C40_wrong_remove_breaks`, `K.C40_cycle_diverges`, `K.C41_printing_deadlock`, `K.C42_race_deadlock`, `K.C44_find`, `K.C45_builder`, `K.C45_into_node`, `K.C45_connect`, `K.C47_orphan`, `K.C47_mimic_cycle_leaks`, `K.C50_race_panics`, `K.C52_race_poisons`, `K.C52_links_race_poisons`, `K.C54_frozen`, `K.C54_frozen_threads`, `K.C54_chain_data`, `K.C55_set_get`, `K.C55_iter_links`, `K.C55_kept`, `K.C55_iter_joints`, `K.Urdf.C57_link`, `K.C60_solve`, `K.C60_nullspace_unused`, `K.C63_getters`, `K.C63_set_parent`, `K.C63_remove_parent`, `K.C63_set_mimic_parent`, `K.C63_set_origin`, `K.C63_set_link`, `K.C63_unchecked`, `K.C63_clamped`, `K.C65_chain_torn`, `K.C65_mimic_torn`, `K.C65_drops_runs`, `K.C66_two_guards_deadlock`, `K.C66_collect_deadlock`, `K.C76_for_descendants`, `K.C76_for_descendants_threads`, `K.C76_for_ancestors`, `K.C76_collect_descendants`, `K.C76_collect_ancestors`, `K.C76_until`, `K.C77_same`, `K.C77_threads_back`, `K.C77_drops_back`, `K.C77_empty_call`, `K.C79_new`, `K.C79_nan`, `K.C80_spreads`, `K.C81_map`, `K.C81_order`, `K.C81_unknown`, `K.C81_round_trip`, `K.C81_refused`, `K.C82_result`, `K.C82_panic`, `K.C82_progress`, `K.C82_finish`, `K.C82_outside`, `K.C82_poison`, `K.C83_down`, `K.C83_down_alone`, `K.C83_down_poison`, `K.C83_separate`, `K.C86_success_stays`, `K.C86_wider`, `K.Urdf.C90_two_bases`, `K.C93_result`, `K.C93_panic`, `K.C93_finish`, `K.C93_outside`, `K.C94_few`, `K.C94_few_needed`, `K.C96_sequential`, `K.C96_same`, `K.C96_overwritten`, `K.C96_meanwhile`, `K.C96_threads`, `K.C100_build`, `K.C100_sequential`, `K.C100_threads`, `K.C100_find`, `K.C104_same_request`, `K.C106_built`, `K.C106_handles`, `K.C107_beside`, `K.C107_links_noticed`, `K.C107_display_noticed`, `K.C107_update_noticed`, `K.C108_back`, `K.C109_sequential`, `K.C109_call`, `K.C111_sequential`, `K.C111_call`, `K.C111_solve`, `K.C112_sequential`, `K.C112_call`, `K.C112_set_parent`, `K.C112_remove_parent`, `K.C112_attach`, `K.C112_detach`

## propext, Classical.choice, Quot.sound (394)

`K.C01_ok_iff`, `K.C01_err`, `K.C02_idempotent`, `K.C03_limits_along_history`, `K.C03_nan_breaks_limits`, `K.C04_limits_under_interleaving`, `K.C06_chained_mimics_diverge`, `K.C06_clamped_breaks_relation`, `K.C08_not_atomic`, `K.C10_ancestors`, `K.C12_from_end`, `K.C13_from_end`, `K.C13_cut_chain`, `K.C14_rigid`, `K.C15_set_joint_position`, `K.C15_only_updates_fill`, `K.C15_descendants_stale`, `K.C16_never_returns`, `K.C16_blocks`, `K.C16_frame`, `K.C16_fixed`, `K.C17_placed_in_parent_frame`, `K.C17_not_in_own_frame`, `K.C18_independent`, `K.C19_clone`, `K.C19_panics`, `K.C19_order`, `K.C19_path`, `K.C19_order_refuted`, `K.C20_from_root`, `K.C20_path_refused`, `K.C21_jacobian`, `K.C21_from_end`, `K.C22_cut_chain`, `K.C22_missing_cache`, `K.C22_refuted`, `K.C23_center_of_mass`, `K.C23_half_space`, `K.C23_moving_the_origin`, `K.C24_needs_limits`, `K.C25_restores`, `K.C25_refuted_limits`, `K.C25_refuted_mimic`, `K.C26_ignored`, `K.C26_refuted`, `K.C28_precondition`, `K.C28_invalid_name`, `K.C28_hidden_by_limits`, `K.C29_not_converged`, `K.C29_error`, `K.C29_zero_panics`, `K.C31_insert`, `K.C31_duplicate`, `K.Urdf.C32_tree`, `K.Urdf.C32_cycle_dropped`, `K.Urdf.C32_unknown_master_panics`, `K.Urdf.C33_limits_real`, `K.Urdf.C33_limits_nan`, `K.Urdf.C33_axis`, `K.Urdf.C33_zero_axis`, `K.Urdf.C33_mimic_real`, `K.Urdf.C34_link_to_joint`, `K.Urdf.C35_joint_to_link`, `K.Urdf.C35_root_not_base`, `K.Urdf.C35_root_base`, `K.C36_rpy`, `K.C36_isometry`, `K.C37_zero_iff`, `K.C37_exact`, `K.C38_nullspace`, `K.C39_gradient`, `K.C39_lengths`, `K.C40_forest`, `K.C40_links_agree`, `K.C40_queries`, `K.C41_no_deadlock`, `K.C41_panics_do_not_block`, `K.C41_always_finishes`, `K.C41_no_deadlock_printing`, `K.C41_finite`, `K.C43_display`, `K.C43_from_root`, `K.C46_moving_the_origin`, `K.C47_alive`, `K.C47_parent`, `K.C47_only_reachable`, `K.C47_all_freed`, `K.C47_tree_alive_iff`, `K.C47_drop`, `K.C47_freed_unseen`, `K.C47_api`, `K.C47_api_history`, `K.C47_api_counts`, `K.C48_period`, `K.C48_axis_fixed`, `K.C48_rotation`, `K.C48_linear`, `K.C48_fixed`, `K.C48_add`, `K.C49_no_self_deadlock`, `K.C49_history`, `K.C50_no_race`, `K.C51_away`, `K.C52_never_poisoned`, `K.C52_exact`, `K.C52_alone`, `K.C52_history`, `K.Urdf.C57_energy`, `K.C58_end_velocity`, `K.C59_step`, `K.C59_velocity`, `K.C59_descent`, `K.C60_six`, `K.C60_default`, `K.C60_points`, `K.C61_text`, `K.C61_readable`, `K.C62_relation`, `K.C62_quiescent`, `K.C62_needs_accept`, `K.C64_unchecked`, `K.C64_clamped`, `K.C64_round_trip`, `K.C64_short`, `K.C64_followers_stay`, `K.C65_linearizable`, `K.C65_turns`, `K.C65_drops`, `K.C66_stable`, `K.C66_self_block`, `K.C66_ordered`, `K.C66_ordered_finishes`, `K.C66_collect_ordered`, `K.C67_master`, `K.C67_set_joint_positions`, `K.C67_column_refuted`, `K.C67_ik_leaves_followers`, `K.C68_reach`, `K.C68_unreachable`, `K.C69_contracts`, `K.C69_answer`, `K.C69_sequential`, `K.C69_no_mimic_error`, `K.C70_converges`, `K.C70_fails`, `K.C70_iff`, `K.C70_enough_tries`, `K.C70_bad_multiplier`, `K.C70_default`, `K.C71_still`, `K.C71_contracts`, `K.C71_answer`, `K.C71_update`, `K.Urdf.C72_poses`, `K.C73_solve_iff`, `K.C73_returns_iff`, `K.C73_returns`, `K.C73_kept`, `K.C73_total`, `K.C73_panics`, `K.C73_no_infinite_run`, `K.C74_converges`, `K.C74_full_rank`, `K.C74_swing`, `K.C74_singular_start`, `K.C75_end_transform`, `K.C75_update_transforms`, `K.C75_linear`, `K.C75_solve`, `K.C75_drift`, `K.C75_ok_but_off`, `K.C76_for_descendants_total`, `K.C76_added_removed`, `K.C76_twice`, `K.C76_endless`, `K.C77_threads`, `K.C77_drops`, `K.C77_wrapped`, `K.C77_nodup`, `K.C77_unknown`, `K.C77_three_names`, `K.C77_three_names_call`, `K.C77_torn`, `K.C78_kind`, `K.C78_fields`, `K.C78_mimic_ambiguous`, `K.C79_clamp`, `K.C80_nobody_waits`, `K.C80_confined`, `K.C80_frozen`, `K.C80_later_uses_panic`, `K.C80_poisoned`, `K.C81_default`, `K.C81_seq`, `K.C82_deterministic`, `K.C82_links_needed`, `K.C83_parent_seen`, `K.C83_down_poison_runs`, `K.C83_unseen`, `K.C83_alone`, `K.C83_torn`, `K.C84_jacobian`, `K.C84_derivative`, `K.C84_center_of_mass`, `K.C85_frame`, `K.C85_found_iff`, `K.C85_gantry`, `K.C85_needs_isotropy`, `K.C86_more_tries`, `K.C86_fewer_tries`, `K.C86_at_target`, `K.C86_gantry`, `K.C86_gantry_stays`, `K.C86_at_target_gives_up`, `K.C87_sequential`, `K.C87_threads`, `K.C87_failed`, `K.C87_retry`, `K.C87_tool`, `K.C87_uncomputed`, `K.C87_cut`, `K.C87_gantry`, `K.C88_sequential`, `K.C88_call`, `K.C88_threads`, `K.C88_clone`, `K.C88_solve`, `K.C88_follower`, `K.C88_branch`, `K.C89_sequential`, `K.C89_call`, `K.C89_threads`, `K.C89_gantry`, `K.C89_lookFar`, `K.C89_mixed`, `K.C89_ignored`, `K.Urdf.C90_order`, `K.Urdf.C90_siblings`, `K.Urdf.C90_links`, `K.Urdf.C90_not_file_order`, `K.C91_sequential`, `K.C91_call`, `K.C91_threads`, `K.C91_gantry`, `K.C91_lookAway`, `K.C91_limits`, `K.C91_display`, `K.C91_ignored`, `K.C92_same`, `K.C92_fixed`, `K.C92_stand`, `K.C92_axis`, `K.C92_mimic`, `K.C93_progress`, `K.C93_deterministic`, `K.C93_poison`, `K.C93_known_needed`, `K.C94_every_execution`, `K.C94_threads`, `K.C94_most`, `K.C94_alone`, `K.C94_update_exact`, `K.C95_points`, `K.C95_directions`, `K.C95_set_joint_positions`, `K.C95_solve`, `K.C95_continuous`, `K.C95_jacobian`, `K.C95_tight`, `K.C96_swap`, `K.C97_singular`, `K.C97_cause`, `K.C97_one_try`, `K.C97_redundant`, `K.C97_coaxial`, `K.C97_parallel`, `K.C97_stretched`, `K.C97_planar`, `K.C98_sequential`, `K.C98_call`, `K.C98_threads`, `K.C98_arms`, `K.C98_gantry`, `K.C98_reachOut`, `K.C98_text`, `K.C98_rounded`, `K.C98_upwards`, `K.C99_transforms`, `K.C99_elsewhere`, `K.C99_set`, `K.C99_unchecked`, `K.C99_clamped`, `K.C99_turn`, `K.C99_shift`, `K.C99_center_of_mass`, `K.C99_center_of_mass_rate`, `K.C99_topple`, `K.C99_branch`, `K.C100_listing`, `K.C100_poses`, `K.C100_text`, `K.C100_center_of_mass`, `K.C100_two_arms`, `K.C100_other_arm`, `K.C100_two_parents`, `K.C101_arm`, `K.C101_end`, `K.C101_poses`, `K.C101_jacobian`, `K.C101_center_of_mass`, `K.C101_apart`, `K.C101_third_link`, `K.C101_two_loads`, `K.C102_result`, `K.C102_panic`, `K.C102_progress`, `K.C102_deterministic`, `K.C102_finish`, `K.C102_ends`, `K.C102_poison`, `K.C102_two_rails`, `K.C102_other_objects`, `K.C103_held`, `K.C103_welded`, `K.C103_reference`, `K.C103_gantry`, `K.C103_equal_refuted`, `K.C104_sign`, `K.C104_only_x`, `K.C104_half_turn`, `K.C104_gated`, `K.C105_sequential`, `K.C105_call`, `K.C105_threads`, `K.C105_threads_back`, `K.C105_prefix`, `K.C105_find`, `K.C105_solve`, `K.C105_one_name`, `K.C106_client`, `K.C106_call`, `K.C106_threads`, `K.C106_threads_back`, `K.C106_slide`, `K.C106_two`, `K.C106_two_made`, `K.C106_slide_runs`, `K.C106_two_runs`, `K.C106_clamped`, `K.C106_solve`, `K.C107_alone`, `K.C107_threads`, `K.C107_catch_up`, `K.C107_poison`, `K.C108_execution`, `K.C108_nodes`, `K.C108_limits`, `K.C108_mimic`, `K.C108_halfway`, `K.C109_threads`, `K.C109_threads_back`, `K.C109_same_orientation`, `K.C109_solve`, `K.C109_half_turn`, `K.C109_signedAt`, `K.C109_reported`, `K.C109_mountAndMove`, `K.C109_gated`, `K.C109_passes`, `K.C110_sequential`, `K.C110_call`, `K.C110_threads`, `K.C110_threads_back`, `K.C110_reference`, `K.C110_swing`, `K.C110_turnAndMove`, `K.C110_converges`, `K.C110_limits`, `K.C110_mimic`, `K.C110_solve`, `K.C110_sixty`, `K.C111_threads`, `K.C111_threads_back`, `K.C111_renamed`, `K.C111_shifted`, `K.C111_center_of_mass`, `K.C111_display`, `K.C111_pickUpAndMove`, `K.C112_threads`, `K.C112_threads_back`, `K.C112_moveAndWeigh`, `K.C112_tooled`, `K.C112_listed`, `K.C112_tool_itself`
