# Axioms each theorem depends on

Written by `tools/axioms.py` (`#print axioms`).

| Property | Theorem | Axioms |
|---|---|---|
| C01 | `Verif.BT.c01_rejected_call_has_no_effect` | propext |
| C01 | `Verif.BT.c01_accepted_call_runs_hook` | propext, Quot.sound |
| C02 | `Verif.BT.c02_result_is_state` | propext |
| C03 | `Verif.BT.c03_setup_reaches_all` | propext, Quot.sound |
| C04 | `Verif.BT.c04_shutdown_reaches_all` | propext, Quot.sound |
| C04 | `Verif.BT.c04_shutdown_leaves_nothing_active` | propext, Quot.sound |
| C05 | `Verif.BT.c05_reset_reaches_all_partial` | propext, Quot.sound |
| C05 | `Verif.BT.c05_reset_misses_child` | propext |
| C06 | `Verif.BT.c06_untick_leaves_nothing_running` | propext, Quot.sound |
| C07 | `Verif.BT.c07_one_tick_per_node` | propext, Classical.choice, Quot.sound |
| C07 | `Verif.BT.c07_only_tick_ticks` | propext, Classical.choice, Quot.sound |
| C08 | `Verif.BT.c08_errors_surface_partial` | propext, Quot.sound |
| C08 | `Verif.BT.c08_throttle_success_swallows` | propext |
| C09 | `Verif.BT.c09_past_is_forgotten` | propext, Quot.sound |
| C09 | `Verif.BT.c09_histories_are_forgotten` | propext, Quot.sound |
| C10 | `Verif.BT.c10_failed_call_breaks` | propext, Quot.sound |
| C10 | `Verif.BT.c10_missing_input_breaks` | propext |
| C10 | `Verif.BT.c10_undelivered_output_fails` | propext, Quot.sound |
| C10 | `Verif.BT.c10_broken_is_stuck` | propext, Quot.sound |
| C10 | `Verif.BT.c10_shutdown_recovers` | propext |
| C11 | `Verif.BT.c11_sequence` | propext, Quot.sound |
| C11 | `Verif.BT.c11_sequence_error` | propext, Quot.sound |
| C12 | `Verif.BT.c12_fallback` | propext, Quot.sound |
| C12 | `Verif.BT.c12_fallback_error` | propext, Quot.sound |
| C13 | `Verif.BT.c13_memory_sequence` | propext, Quot.sound |
| C14 | `Verif.BT.c14_memory_fallback_partial` | propext, Quot.sound |
| C14 | `Verif.BT.c14_stale_memory` | propext |
| C15 | `Verif.BT.c15_parallel` | propext, Classical.choice, Quot.sound |
| C15 | `Verif.BT.c15_parallel_terminates` | propext, Classical.choice, Quot.sound |
| C16 | `Verif.BT.c16_parallel_tolerance_partial` | propext, Classical.choice, Quot.sound |
| C16 | `Verif.BT.c16_never_finishes` | propext, Quot.sound |
| C17 | `Verif.BT.c17_switch` | propext, Quot.sound |
| C17 | `Verif.BT.c17_switch_distinct` | propext, Classical.choice, Quot.sound |
| C17 | `Verif.BT.c17_unknown_name_leaves_running` | propext |
| C18 | `Verif.BT.c18_finished_is_quiet_partial` | propext, Classical.choice, Quot.sound |
| C18 | `Verif.BT.c18_calm_root_is_quiet` | propext, Classical.choice, Quot.sound |
| C18 | `Verif.BT.c18_ignore_running` | propext |
| C18 | `Verif.BT.c18_throttle_success` | propext |
| C18 | `Verif.BT.c18_iterate_list` | propext |
| C18 | `Verif.BT.c18_throttle_clock` | propext |
| C19 | `Verif.BT.c19_retry` | propext, Quot.sound |
| C20 | `Verif.BT.c20_repeat` | propext, Quot.sound |
| C21 | `Verif.BT.c21_quota` | propext, Quot.sound |
| C22 | `Verif.BT.c22_table` | propext, Quot.sound |
| C22 | `Verif.BT.c22_watch` | propext, Quot.sound |
| C22 | `Verif.BT.c22_optional` | propext, Quot.sound |
| C23 | `Verif.BT.c23_unusable_child_untouched` | propext, Quot.sound |
| C23 | `Verif.BT.c23_setup_skips_child` | propext, Quot.sound |
| C24 | `Verif.BT.c24_iterate` | propext, Quot.sound |
| C24 | `Verif.BT.c24_never_outside` | propext, Quot.sound |
| C24 | `Verif.BT.c24_shortened_list_fails` | propext |
| C25 | `Verif.Utility.c25_sequence` | propext, Classical.choice, Quot.sound |
| C25 | `Verif.Utility.c25_sequence_tight` | propext, Classical.choice, Quot.sound |
| C25 | `Verif.Utility.c25_sequence_full` | propext, Classical.choice, Quot.sound |
| C25 | `Verif.Utility.c25_trees` | propext, Classical.choice, Quot.sound |
| C26 | `Verif.Utility.c26_fallback` | propext, Classical.choice, Quot.sound |
| C26 | `Verif.Utility.c26_fallback_tight` | propext, Classical.choice, Quot.sound |
| C26 | `Verif.Utility.c26_fallback_full` | propext, Classical.choice, Quot.sound |
| C27 | `Verif.Utility.c27_parallel_partial` | propext, Classical.choice, Quot.sound |
| C27 | `Verif.Utility.c27_parallel_full` | propext, Classical.choice, Quot.sound |
| C27 | `Verif.Utility.c27_parallel_tight` | propext, Classical.choice, Quot.sound |
| C27 | `Verif.Utility.c27_lower_with_more` | propext, Classical.choice, Quot.sound |
| C27 | `Verif.Utility.c27_missing_bound` | propext, Classical.choice, Quot.sound |
| C27 | `Verif.Utility.c27_more_successes` | propext, Classical.choice, Quot.sound |
| C27 | `Verif.Utility.c27_tolerance_ignored` | propext, Classical.choice, Quot.sound |
| C28 | `Verif.Utility.c28_transparent_partial` | propext, Classical.choice, Quot.sound |
| C28 | `Verif.Utility.c28_restarting_partial` | propext, Classical.choice, Quot.sound |
| C28 | `Verif.Utility.c28_optional` | propext, Quot.sound |
| C28 | `Verif.Utility.c28_unsound` | propext, Classical.choice, Quot.sound |
| C29 | `Verif.Edit.c29_links_partial` | propext, Classical.choice, Quot.sound |
| C29 | `Verif.Edit.c29_step_partial` | propext, Classical.choice, Quot.sound |
| C29 | `Verif.Edit.c29_morph_breaks` | propext, Quot.sound |
| C29 | `Verif.Edit.c29_load_breaks` | propext, Quot.sound |
| C30 | `Verif.Edit.c30_no_cycle_partial` | propext, Classical.choice, Quot.sound |
| C30 | `Verif.Edit.c30_move_breaks` | propext, Quot.sound |
| C30 | `Verif.Edit.c30_replace_breaks` | propext, Quot.sound |
| C30 | `Verif.Edit.c30_replace_parent_breaks` | propext, Quot.sound |
| C30 | `Verif.Edit.c30_load_breaks` | propext, Quot.sound |
| C30 | `Verif.Edit.Exactly.c30_move_exact` | propext, Classical.choice, Quot.sound |
| C30 | `Verif.Edit.Exactly.c30_replace_exact` | propext, Classical.choice, Quot.sound |
| C30 | `Verif.Edit.Exactly.c30_replace_all` | propext, Classical.choice, Quot.sound |
| C30 | `Verif.Edit.Exactly.c30_load_exact` | propext, Classical.choice, Quot.sound |
| C30 | `Verif.Edit.Exactly.c30_histories_partial` | propext, Classical.choice, Quot.sound |
| C31 | `Verif.Edit.c31_limits` | propext, Classical.choice, Quot.sound |
| C31 | `Verif.Edit.c31_limits_step` | propext, Classical.choice, Quot.sound |
| C32 | `Verif.Edit.c32_wirings` | propext, Classical.choice, Quot.sound |
| C32 | `Verif.Edit.c32_dict` | propext, Classical.choice, Quot.sound |
| C33 | `Verif.Edit.c33_rejected_partial` | propext, Classical.choice, Quot.sound |
| C33 | `Verif.Edit.c33_add_leaks` | propext, Quot.sound |
| C33 | `Verif.Edit.c33_add_bad_parent_leaks` | propext, Quot.sound |
| C33 | `Verif.Edit.c33_morph_breaks` | propext, Quot.sound |
| C33 | `Verif.Edit.c33_load_clears` | propext, Quot.sound |
| C34 | `Verif.Edit.c34_root` | propext, Quot.sound |
| C34 | `Verif.Edit.c34_empty` | propext, Quot.sound |
| C34 | `Verif.Edit.c34_root_parent` | propext, Quot.sound |
| C35 | `Verif.Edit.c35_move` | propext, Classical.choice, Quot.sound |
| C35 | `Verif.Edit.c35_move_refused` | propext, Classical.choice, Quot.sound |
| C35 | `Verif.Edit.c35_remove` | propext, Classical.choice, Quot.sound |
| C36 | `Verif.Edit.c36_unwire` | propext, Classical.choice, Quot.sound |
| C36 | `Verif.Edit.c36_wire_unwire` | propext, Classical.choice, Quot.sound |
| C36 | `Verif.Edit.c36_unwire_wire` | propext, Classical.choice, Quot.sound |
| C36 | `Verif.Edit.c36_wire_ignore` | propext, Quot.sound |
| C36 | `Verif.Edit.c36_unwire_twice_crashes` | propext, Quot.sound |
| C37 | `Verif.Edit.c37_round_trip` | propext, Classical.choice, Quot.sound |
| C37 | `Verif.Edit.c37_load` | propext, Quot.sound |
| C37 | `Verif.Edit.c37_reload_empties` | propext, Quot.sound |
| C38 | `Verif.Edit.c38_exact_partial` | propext, Classical.choice, Quot.sound |
| C38 | `Verif.Edit.c38_hangs` | propext, Classical.choice, Quot.sound |
| C38 | `Verif.Edit.c38_fuel` | propext, Classical.choice, Quot.sound |
| C38 | `Verif.Edit.c38_add_node_hangs` | propext, Classical.choice, Quot.sound |
| C39 | `Verif.Exec.c39_rejected` | none |
| C39 | `Verif.Exec.c39_edit` | propext |
| C39 | `Verif.Exec.c39_locked` | propext |
| C40 | `Verif.Exec.c40_no_tick_during_edit_partial` | propext, Classical.choice, Quot.sound |
| C40 | `Verif.Exec.c40_states_partial` | propext, Classical.choice, Quot.sound |
| C40 | `Verif.Exec.Race.c40_check_then_tick` | propext |
| C40 | `Verif.Exec.Race.c43_shutdown_while_unticking` | propext |
| C41 | `Verif.Exec.Race.c41_one_edit` | propext, Quot.sound |
| C42 | `Verif.Exec.c42_command` | propext |
| C42 | `Verif.Exec.c42_error_stays` | propext, Classical.choice, Quot.sound |
| C43 | `Verif.Exec.c43_shutdown_partial` | propext, Classical.choice, Quot.sound |
| C43 | `Verif.Exec.Race.c43_shutdown_while_unticking` | propext |
| C44 | `Verif.Exec.c44_recovery_partial` | propext, Classical.choice, Quot.sound |
| C44 | `Verif.Exec.c44_stuck_in_waiting` | propext |
| C45 | `Verif.Exec.c45_story` | propext, Quot.sound |
| C45 | `Verif.Exec.c45_ends` | propext, Quot.sound |
| C45 | `Verif.Exec.c45_periodic` | propext, Classical.choice, Quot.sound |
| C45 | `Verif.Exec.c45_once` | propext |
| C45 | `Verif.Exec.c45_once_works` | propext |
| C45 | `Verif.Exec.c45_multiple` | propext |
| C45 | `Verif.Exec.c45_until_result` | propext, Quot.sound |
| C45 | `Verif.Exec.c45_incomplete_once` | propext |
| C45 | `Verif.Exec.c45_incomplete_multiple` | propext |
| C46 | `Verif.Exec.c46_one_thread_partial` | propext, Classical.choice, Quot.sound |
| C46 | `Verif.Exec.c46_busy` | propext |
| C46 | `Verif.Exec.Race.c46_one_controller_partial` | propext, Quot.sound |
| C46 | `Verif.Exec.Race.c46_two_threads` | propext |
| C47 | `Verif.Data.c47_permitted_partial` | propext, Classical.choice, Quot.sound |
| C47 | `Verif.Data.c47_permitted_noFloat` | propext, Classical.choice, Quot.sound |
| C47 | `Verif.Data.c47_dynamic` | propext, Classical.choice, Quot.sound |
| C47 | `Verif.Data.c47_set` | propext, Classical.choice, Quot.sound |
| C47 | `Verif.Data.c47_accepts` | propext, Classical.choice, Quot.sound |
| C47 | `Verif.Data.c47_default_int` | propext, Classical.choice, Quot.sound |
| C47 | `Verif.Data.c47_nan` | propext, Classical.choice, Quot.sound |
| C47 | `Verif.Data.c47_default_float` | propext, Classical.choice, Quot.sound |
| C47 | `Verif.Data.c47_default_options` | propext, Classical.choice, Quot.sound |
| C47 | `Verif.Data.c47_default_path` | propext, Classical.choice, Quot.sound |
| C47 | `Verif.Data.c47_default_list` | propext, Classical.choice, Quot.sound |
| C47 | `Verif.Data.c47_float_moved` | propext, Classical.choice, Quot.sound |
| C48 | `Verif.Data.c48_locked_partial` | propext, Classical.choice, Quot.sound |
| C48 | `Verif.Data.c48_first_write_partial` | propext, Classical.choice, Quot.sound |
| C48 | `Verif.Data.c48_reset` | propext |
| C48 | `Verif.Data.c48_never_wired` | propext, Classical.choice, Quot.sound |
| C48 | `Verif.Data.c48_after_tick` | propext, Classical.choice, Quot.sound |
| C48 | `Verif.Data.c48_after_default` | propext, Classical.choice, Quot.sound |
| C49 | `Verif.Data.c49_compatible_partial` | propext, Classical.choice, Quot.sound |
| C49 | `Verif.Data.c49_wiring_partial` | propext, Classical.choice, Quot.sound |
| C49 | `Verif.Data.c49_nested` | propext, Classical.choice, Quot.sound |
| C49 | `Verif.Data.c49_options` | propext, Classical.choice, Quot.sound |
| C50 | `Verif.Data.c50_type_partial` | propext, Classical.choice, Quot.sound |
| C50 | `Verif.Data.c50_nested_flattened` | propext, Classical.choice, Quot.sound |
| C50 | `Verif.Data.c50_nested_lost` | propext, Classical.choice, Quot.sound |
| C50 | `Verif.Data.c50_no_options_lost` | propext, Classical.choice, Quot.sound |
| C50 | `Verif.Data.c50_value_partial` | propext, Classical.choice, Quot.sound |
| C50 | `Verif.Data.c50_container_partial` | propext, Classical.choice, Quot.sound |
| C50 | `Verif.Data.c50_dict_raises` | propext, Quot.sound |
| C50 | `Verif.Data.c50_array_raises` | propext, Classical.choice, Quot.sound |
| C51 | `Verif.Data.c51_tick_partial` | propext, Classical.choice, Quot.sound |
| C51 | `Verif.Data.c51_in_sync_partial` | propext, Classical.choice, Quot.sound |
| C51 | `Verif.Data.c51_echo` | propext, Classical.choice, Quot.sound |
| C51 | `Verif.Data.c51_two_sources` | propext, Classical.choice, Quot.sound |
| C52 | `Verif.Data.c52_step_partial` | propext, Classical.choice, Quot.sound |
| C52 | `Verif.Data.c52_stays_partial` | propext, Classical.choice, Quot.sound |
| C52 | `Verif.Data.c52_lost_by_reset` | propext, Classical.choice, Quot.sound |
| C52 | `Verif.Data.c52_lost_in_tick` | propext, Classical.choice, Quot.sound |
| C52 | `Verif.Data.c52_lost_in_subtree` | propext, Classical.choice, Quot.sound |
| C53 | `Verif.Data.c53_succeeds` | propext, Classical.choice, Quot.sound |
| C53 | `Verif.Data.c53_union` | propext, Classical.choice, Quot.sound |
| C53 | `Verif.Data.c53_failure_partial` | propext, Classical.choice, Quot.sound |
| C53 | `Verif.Data.c53_classes` | propext, Classical.choice, Quot.sound |
| C53 | `Verif.Data.c53_half_merged` | none |
| C54 | `Verif.Files.c54_counts` | propext, Classical.choice, Quot.sound |
| C54 | `Verif.Files.c54_starts` | propext |
| C54 | `Verif.Files.c54_different` | propext, Classical.choice, Quot.sound |
| C54 | `Verif.Files.c54_fresh` | propext, Classical.choice, Quot.sound |
| C54 | `Verif.Files.c54_not_injective` | propext, Classical.choice, Quot.sound |
| C54 | `Verif.Files.c54_newline` | propext, Classical.choice, Quot.sound |
| C55 | `Verif.Files.c55_overwrite` | propext, Classical.choice, Quot.sound |
| C55 | `Verif.Files.c55_saved` | propext, Classical.choice, Quot.sound |
| C55 | `Verif.Files.c55_rename` | propext, Classical.choice, Quot.sound |
| C55 | `Verif.Files.c55_refused` | propext |
| C55 | `Verif.Files.c55_rename_works` | propext, Classical.choice, Quot.sound |
| C55 | `Verif.Files.c55_new` | propext |
| C55 | `Verif.Files.c55_overwrite_works` | propext |
| C65 | `Verif.Edit.c65_replace` | propext, Classical.choice, Quot.sound |
| C65 | `Verif.Edit.c65_replace_by_ancestor` | propext, Quot.sound |
| C65 | `Verif.Edit.c65_replace_by_itself` | propext, Quot.sound |
| C65 | `Verif.Edit.c65_replace_without_room` | propext, Quot.sound |
| C66 | `Verif.Edit.c35_morph` | propext, Classical.choice, Quot.sound |
| C66 | `Verif.Edit.c35_set_options` | propext, Classical.choice, Quot.sound |
| C67 | `Verif.Data.c67_created` | propext, Classical.choice, Quot.sound |
| C67 | `Verif.Data.c67_accepted` | propext, Classical.choice, Quot.sound |
| C68 | `Verif.Files.c68_below_partial` | propext, Classical.choice, Quot.sound |
| C68 | `Verif.Files.c68_escape` | propext, Classical.choice, Quot.sound |
| C69 | `Verif.Files.c69_failed_partial` | propext, Classical.choice, Quot.sound |
| C69 | `Verif.Files.c69_truncated` | propext, Classical.choice, Quot.sound |
| C70 | `Verif.Files.c70_ids` | propext, Classical.choice, Quot.sound |
| C70 | `Verif.Files.c70_parents` | propext, Classical.choice, Quot.sound |
| C70 | `Verif.Files.c70_files` | propext, Classical.choice, Quot.sound |
| C56 | `Verif.Ros.Wait.c56_answer` | propext, Classical.choice, Quot.sound |
| C56 | `Verif.Ros.Wait.c56_untick` | propext |
| C56 | `Verif.Ros.Wait.c56_stays` | propext, Classical.choice, Quot.sound |
| C57 | `Verif.Ros.Service.c57_latest` | propext, Classical.choice, Quot.sound |
| C57 | `Verif.Ros.Service.c57_running` | propext, Classical.choice, Quot.sound |
| C57 | `Verif.Ros.Service.c57_outcome` | propext, Classical.choice, Quot.sound |
| C57 | `Verif.Ros.Service.c57_called` | propext, Classical.choice, Quot.sound |
| C57 | `Verif.Ros.Service.c57_once` | propext, Classical.choice, Quot.sound |
| C57 | `Verif.Ros.Service.c57_stopped` | propext, Classical.choice, Quot.sound |
| C58 | `Verif.Ros.Action.c58_watched_partial` | propext, Quot.sound |
| C58 | `Verif.Ros.Action.c58_stopped_partial` | propext, Quot.sound |
| C58 | `Verif.Ros.Action.c58_unanswered` | propext |
| C58 | `Verif.Ros.Action.c58_timed_out` | propext |
| C58 | `Verif.Ros.Action.c58_new_inputs` | propext |
| C59 | `Verif.Ros.Action.c59_latest` | propext, Quot.sound |
| C59 | `Verif.Ros.Action.c59_succeeded_partial` | propext, Quot.sound |
| C59 | `Verif.Ros.Action.c59_aborted` | propext |
| C59 | `Verif.Ros.Action.c59_rejected` | propext |
| C71 | `Verif.Ros.Action.c71_sent_partial` | propext, Quot.sound |
| C71 | `Verif.Ros.Action.c71_running` | propext, Quot.sound |
| C71 | `Verif.Ros.Action.c71_untick` | propext |
| C72 | `Verif.Ros.Action.c72_waits` | propext, Quot.sound |
| C72 | `Verif.Ros.Action.c72_timeout_partial` | propext, Quot.sound |
| C72 | `Verif.Ros.Action.c72_unanswered` | propext |
| C61 | `Verif.Ros.Subscriber.c61_answer` | propext, Quot.sound |
| C61 | `Verif.Ros.Subscriber.c61_once` | propext, Quot.sound |
| C62 | `Verif.Ros.Publisher.c62_publish` | propext, Quot.sound |
| C62 | `Verif.Ros.Publisher.c62_once` | propext, Quot.sound |
| C62 | `Verif.Ros.Publisher.c62_one_publisher` | propext, Quot.sound |
| C62 | `Verif.Ros.Publisher.c62_closed` | propext, Quot.sound |
| C62 | `Verif.Ros.Publisher.c62_settings` | propext, Quot.sound |
| C73 | `Verif.Ros.WaitService.c73_answer` | propext, Quot.sound |
| C73 | `Verif.Ros.WaitService.c73_vanished` | propext |
| C74 | `Verif.Ros.MemorySubscriber.c74_memory_partial` | propext, Quot.sound |
| C74 | `Verif.Ros.MemorySubscriber.c74_never_old` | propext |
| C75 | `Verif.Ros.Subscriber.c75_topic_partial` | propext, Quot.sound |
| C75 | `Verif.Ros.Subscriber.c75_old_topic` | propext |
| C60 | `Verif.BT.c60_throttle` | propext, Quot.sound |
| C60 | `Verif.BT.c60_reset_keeps` | propext |
| C76 | `Verif.BT.c76_failed_partial` | propext, Quot.sound |
| C76 | `Verif.BT.c76_always_failed` | propext, Quot.sound |
| C76 | `Verif.BT.c76_not_passed_on` | propext |
| C63 | `Verif.Nodes.c63_list_item` | propext, Classical.choice, Quot.sound |
| C63 | `Verif.Nodes.c63_dict_item` | propext, Classical.choice, Quot.sound |
| C63 | `Verif.Nodes.c63_dict_items` | propext, Classical.choice, Quot.sound |
| C63 | `Verif.Nodes.c63_attr` | propext, Classical.choice, Quot.sound |
| C63 | `Verif.Nodes.c63_child` | propext, Classical.choice, Quot.sound |
| C63 | `Verif.Nodes.c63_stale` | propext, Classical.choice, Quot.sound |
| C64 | `Verif.Nodes.c64_compare` | propext, Classical.choice, Quot.sound |
| C64 | `Verif.Nodes.c64_new_only` | propext, Classical.choice, Quot.sound |
| C64 | `Verif.Nodes.c64_less` | propext, Classical.choice, Quot.sound |
| C64 | `Verif.Nodes.c64_again` | propext, Classical.choice, Quot.sound |
| C77 | `Verif.Nodes.c77_length` | propext, Classical.choice, Quot.sound |
| C77 | `Verif.Nodes.c77_insert` | propext, Classical.choice, Quot.sound |
| C77 | `Verif.Nodes.c77_append` | propext, Classical.choice, Quot.sound |
| C77 | `Verif.Nodes.c77_set_dict` | propext, Classical.choice, Quot.sound |
| C77 | `Verif.Nodes.c77_is_in` | propext, Classical.choice, Quot.sound |
| C78 | `Verif.Nodes.c78_constant` | propext, Classical.choice, Quot.sound |
| C78 | `Verif.Nodes.c78_passthrough` | propext, Classical.choice, Quot.sound |
| C78 | `Verif.Nodes.c78_concatenate` | propext, Classical.choice, Quot.sound |
| C79 | `Verif.Nodes.c79_random_partial` | propext, Classical.choice, Quot.sound |
| C79 | `Verif.Nodes.c79_all` | propext, Classical.choice, Quot.sound |
| C79 | `Verif.Nodes.c79_equal` | propext, Classical.choice, Quot.sound |
| C80 | `Verif.Nodes.c80_arrives` | propext, Classical.choice, Quot.sound |
| C81 | `Verif.Nodes.c81_set_attr` | propext, Classical.choice, Quot.sound |
| C82 | `Verif.Edit.c82_nodes_partial` | propext, Classical.choice, Quot.sound |
| C82 | `Verif.Edit.c82_load` | propext, Classical.choice, Quot.sound |
| C82 | `Verif.Edit.c82_wirings_lost` | propext, Quot.sound |
| C83 | `Verif.Edit.c83_result_partial` | propext, Classical.choice, Quot.sound |
| C83 | `Verif.Edit.c83_success` | propext, Classical.choice, Quot.sound |
| C83 | `Verif.Edit.c83_closed` | propext, Classical.choice, Quot.sound |
| C83 | `Verif.Edit.c83_parents_missing` | propext, Quot.sound |
| C84 | `Verif.Nodes.c84_integers_partial` | propext, Classical.choice, Quot.sound |
| C84 | `Verif.Nodes.c84_bools` | propext, Classical.choice, Quot.sound |
| C84 | `Verif.Nodes.c84_unary` | propext, Classical.choice, Quot.sound |
| C84 | `Verif.Nodes.c84_not` | propext, Classical.choice, Quot.sound |
| C84 | `Verif.Nodes.c84_sound` | propext, Classical.choice, Quot.sound |
| C84 | `Verif.Nodes.c84_div_integers` | propext, Classical.choice, Quot.sound |
| C84 | `Verif.Nodes.c84_add_bools` | propext, Classical.choice, Quot.sound |
| C84 | `Verif.Nodes.c84_zero` | propext, Classical.choice, Quot.sound |
| C85 | `Verif.Nodes.c85_convert` | propext, Quot.sound |
| C86 | `Verif.Nodes.c86_url` | propext, Classical.choice, Quot.sound |
| C86 | `Verif.Nodes.c86_first_partial` | propext, Classical.choice, Quot.sound |
| C86 | `Verif.Nodes.c86_new_path` | propext, Classical.choice, Quot.sound |
| C86 | `Verif.Nodes.c86_kept` | propext, Classical.choice, Quot.sound |
| C86 | `Verif.Nodes.c86_right_partial` | propext, Classical.choice, Quot.sound |
| C86 | `Verif.Nodes.c86_empty` | propext, Classical.choice, Quot.sound |
| C86 | `Verif.Nodes.c86_package` | propext, Classical.choice, Quot.sound |
| C86 | `Verif.Nodes.c86_lost` | propext, Classical.choice, Quot.sound |
| C87 | `Verif.Nodes.c87_types_partial` | propext, Classical.choice, Quot.sound |
| C87 | `Verif.Nodes.c87_string_package` | propext, Classical.choice, Quot.sound |
| C87 | `Verif.Nodes.c87_interface_partial` | propext, Classical.choice, Quot.sound |
| C87 | `Verif.Nodes.c87_complete` | propext, Classical.choice, Quot.sound |
| C87 | `Verif.Nodes.c87_clash` | propext, Classical.choice, Quot.sound |
| C87 | `Verif.Nodes.c87_unknown` | propext, Classical.choice, Quot.sound |
| C87 | `Verif.Nodes.c87_values_partial` | propext, Classical.choice, Quot.sound |
| C87 | `Verif.Nodes.c87_fields_partial` | propext, Classical.choice, Quot.sound |
| C87 | `Verif.Nodes.c87_message` | propext, Classical.choice, Quot.sound |
| C87 | `Verif.Nodes.c87_round_partial` | propext, Classical.choice, Quot.sound |
| C87 | `Verif.Nodes.c87_infinite` | propext, Classical.choice, Quot.sound |
| C87 | `Verif.Nodes.c87_fixed` | propext, Classical.choice, Quot.sound |
| C87 | `Verif.Nodes.c87_integers` | propext, Classical.choice, Quot.sound |
| C88 | `Verif.Nodes.c88_outputs_partial` | propext, Quot.sound |
| C88 | `Verif.Nodes.c88_refused` | propext |
| C89 | `Verif.Nodes.c89_outputs_partial` | propext, Classical.choice, Quot.sound |
| C89 | `Verif.Nodes.c89_ignored` | propext, Classical.choice, Quot.sound |
| C89 | `Verif.Nodes.c89_lost` | propext, Classical.choice, Quot.sound |
| C89 | `Verif.Nodes.c89_raises` | propext, Classical.choice, Quot.sound |
| C90 | `Verif.Nodes.c90_format_partial` | propext, Classical.choice, Quot.sound |
| C90 | `Verif.Nodes.c90_missing` | propext, Classical.choice, Quot.sound |
| C90 | `Verif.Nodes.c90_unknown` | propext, Classical.choice, Quot.sound |
| C90 | `Verif.Nodes.c90_braces` | propext, Classical.choice, Quot.sound |
| C90 | `Verif.Nodes.c90_conversions` | propext, Classical.choice, Quot.sound |
| C90 | `Verif.Nodes.c90_list` | propext, Classical.choice, Quot.sound |
| C90 | `Verif.Nodes.c90_extension` | propext, Classical.choice, Quot.sound |
| C91 | `Verif.Nodes.c91_param` | propext, Classical.choice, Quot.sound |
| C91 | `Verif.Nodes.c91_default_partial` | propext, Classical.choice, Quot.sound |
| C91 | `Verif.Nodes.c91_missing` | propext, Classical.choice, Quot.sound |
| C91 | `Verif.Nodes.c91_time` | propext, Classical.choice, Quot.sound |
| C92 | `Verif.Data.c92_in_partial` | propext, Classical.choice, Quot.sound |
| C92 | `Verif.Data.c92_out_partial` | propext, Classical.choice, Quot.sound |
| C92 | `Verif.Data.c92_marked` | propext, Classical.choice, Quot.sound |
| C92 | `Verif.Data.c92_interface` | propext, Classical.choice, Quot.sound |
| C92 | `Verif.Data.c92_repeated` | propext, Classical.choice, Quot.sound |
| C92 | `Verif.Data.c92_stale` | propext, Classical.choice, Quot.sound |
| C92 | `Verif.Data.c92_not_reset` | propext, Classical.choice, Quot.sound |
| C92 | `Verif.Data.c92_static` | propext, Classical.choice, Quot.sound |
| C93 | `Verif.Files.c93_message` | none |
| C93 | `Verif.Files.c93_file_partial` | propext, Quot.sound |
| C93 | `Verif.Files.c93_refused` | propext, Quot.sound |
| C93 | `Verif.Files.c93_once` | propext |
| C93 | `Verif.Files.c93_hangs` | propext, Quot.sound |
| C93 | `Verif.Files.c93_second_ignored` | propext, Quot.sound |
| C93 | `Verif.Files.c93_nested_partial` | propext, Quot.sound |
| C93 | `Verif.Files.c93_nested_fails` | propext |
| C93 | `Verif.Files.c93_checked` | propext |
| C93 | `Verif.Files.c93_self` | propext, Quot.sound |
| C93 | `Verif.Files.c93_saved_partial` | propext, Classical.choice, Quot.sound |
| C94 | `Verif.Files.c94_keeps` | propext, Classical.choice, Quot.sound |
| C94 | `Verif.Files.c94_copy` | propext, Classical.choice, Quot.sound |
| C94 | `Verif.Files.c94_inplace_others_partial` | propext, Classical.choice, Quot.sound |
| C94 | `Verif.Files.c94_inplace_partial` | propext, Classical.choice, Quot.sound |
| C94 | `Verif.Files.c94_twice` | propext, Classical.choice, Quot.sound |
| C94 | `Verif.Files.c94_loads` | propext, Classical.choice, Quot.sound |
| C94 | `Verif.Files.c94_abort` | propext |
| C94 | `Verif.Files.c94_lost` | propext, Classical.choice, Quot.sound |
| C95 | `Verif.Exec.Subtrees.c95_add` | propext, Classical.choice, Quot.sound |
| C95 | `Verif.Exec.Subtrees.c95_clear` | propext, Quot.sound |
| C95 | `Verif.Exec.Subtrees.c95_remove` | propext, Classical.choice, Quot.sound |
| C95 | `Verif.Exec.Subtrees.c95_switch` | none |
| C95 | `Verif.Exec.Subtrees.c95_nest` | propext, Quot.sound |
| C95 | `Verif.Exec.Subtrees.c95_flags` | none |
| C95 | `Verif.Exec.Subtrees.c95_off` | none |
| C95 | `Verif.Exec.Subtrees.c95_on` | propext, Classical.choice, Quot.sound |
| C95 | `Verif.Exec.Subtrees.c95_on_once` | propext, Classical.choice, Quot.sound |
| C95 | `Verif.Exec.Subtrees.c95_nodes_partial` | propext, Classical.choice, Quot.sound |
| C95 | `Verif.Exec.Subtrees.c95_tick` | propext, Classical.choice, Quot.sound |
| C95 | `Verif.Exec.Subtrees.c95_setup_and_shutdown` | none |
| C95 | `Verif.Exec.Subtrees.c95_left_over` | propext, Quot.sound |
| C95 | `Verif.Exec.Subtrees.c95_old_data` | propext, Classical.choice, Quot.sound |
| C96 | `Verif.Exec.Diag.c96_transparent_partial` | propext, Classical.choice, Quot.sound |
| C96 | `Verif.Exec.Diag.c96_off` | propext, Classical.choice, Quot.sound |
| C96 | `Verif.Exec.Diag.c96_on_partial` | propext, Classical.choice, Quot.sound |
| C96 | `Verif.Exec.Diag.c96_path` | propext, Quot.sound |
| C96 | `Verif.Exec.Diag.c96_switched_on` | propext |
| C96 | `Verif.Exec.Diag.c96_switched_off` | none |
| C96 | `Verif.Exec.Diag.c96_raised` | propext |
| C96 | `Verif.Exec.Diag.c96_no_pre` | propext |
| C97 | `Verif.Data.c97_lists` | propext, Quot.sound |
| C97 | `Verif.Data.c97_current_partial` | propext, Classical.choice, Quot.sound |
| C97 | `Verif.Data.c97_sound_partial` | propext, Classical.choice, Quot.sound |
| C97 | `Verif.Data.c97_published_partial` | propext, Classical.choice, Quot.sound |
| C97 | `Verif.Data.c97_raises` | propext, Quot.sound |
| C97 | `Verif.Data.c97_dict_raises` | propext, Classical.choice, Quot.sound |
| C97 | `Verif.Data.c97_true_is_one` | propext, Classical.choice, Quot.sound |
| C98 | `Verif.BT.Laws.c98_context` | propext, Quot.sound |
| C98 | `Verif.BT.Laws.c98_flatten` | propext, Quot.sound |
| C98 | `Verif.BT.Laws.c98_de_morgan` | propext, Quot.sound |
| C98 | `Verif.BT.Laws.c98_double_inversion` | propext, Quot.sound |
| C98 | `Verif.BT.Laws.c98_decorators_join` | propext, Quot.sound |
| C98 | `Verif.BT.Laws.c98_decorators_swap` | propext, Quot.sound |
| C98 | `Verif.BT.Laws.c98_nested_first` | propext, Quot.sound |
| C98 | `Verif.BT.Laws.c98_assigned` | propext |
| C99 | `Verif.Exec.Shown.c99_at_rest_partial` | propext, Classical.choice, Quot.sound |
| C99 | `Verif.Exec.Shown.c99_same_runs` | propext |
| C99 | `Verif.Exec.Shown.c99_edit` | propext |
| C99 | `Verif.Exec.Shown.c99_tick` | propext |
| C99 | `Verif.Exec.Shown.c99_command` | propext |
| C99 | `Verif.Exec.Shown.c99_result_stays` | propext |
| C99 | `Verif.Exec.Shown.c99_start_late` | propext |
| C99 | `Verif.Exec.Shown.c99_exception` | propext |
| C100 | `Verif.Exec.Rate.c100_never_zero` | propext, Classical.choice, Quot.sound |
| C100 | `Verif.Exec.Rate.c100_mean_partial` | propext, Classical.choice, Quot.sound |
| C100 | `Verif.Exec.Rate.c100_never_warns` | propext, Classical.choice, Quot.sound |
| C100 | `Verif.Exec.Rate.c100_warns_iff` | propext, Classical.choice, Quot.sound |
| C100 | `Verif.Exec.Rate.c100_not_hertz` | propext, Classical.choice, Quot.sound |
| C100 | `Verif.Exec.Rate.c100_negative_frequency` | propext |
| C101 | `Verif.Exec.Health.c101_levels_partial` | propext, Classical.choice, Quot.sound |
| C101 | `Verif.Exec.Health.c101_sound` | propext, Classical.choice, Quot.sound |
| C101 | `Verif.Exec.Health.c101_nameless` | propext, Quot.sound |
| C101 | `Verif.Exec.Health.c101_old_name` | propext |
| C102 | `Verif.Exec.Log.c102_published` | propext, Classical.choice, Quot.sound |
| C102 | `Verif.Exec.Log.c102_fatal_partial` | propext, Classical.choice, Quot.sound |
| C102 | `Verif.Exec.Log.c102_fatal_lost` | propext |
| C102 | `Verif.Exec.Log.c102_loggers` | propext, Classical.choice, Quot.sound |
| C103 | `Verif.Data.Classes.c103_same_class` | propext, Classical.choice, Quot.sound |
| C103 | `Verif.Data.Classes.c103_list` | propext, Classical.choice, Quot.sound |
| C103 | `Verif.Data.Classes.c103_requested_partial` | propext, Classical.choice, Quot.sound |
| C103 | `Verif.Data.Classes.c103_half_loaded` | propext, Classical.choice, Quot.sound |
| C103 | `Verif.Data.Classes.c103_raised` | propext, Classical.choice, Quot.sound |
| C104 | `Verif.Exec.Meta.c104_given` | propext, Quot.sound |
| C104 | `Verif.Exec.Meta.c104_root_partial` | propext, Classical.choice, Quot.sound |
| C104 | `Verif.Exec.Meta.c104_public_lost` | propext, Classical.choice, Quot.sound |
| C104 | `Verif.Exec.Meta.c104_old_root` | propext |
| C105 | `Verif.BT.Finish.c105_trees_finish` | propext, Classical.choice, Quot.sound |
| C105 | `Verif.BT.Finish.c105_answers` | propext, Classical.choice, Quot.sound |
| C105 | `Verif.BT.Finish.c105_row_is_product` | propext, Quot.sound |
| C105 | `Verif.BT.Finish.c105_bound_reached` | propext |
| C105 | `Verif.BT.Finish.c105_endless` | propext, Quot.sound |
| C105 | `Verif.Exec.Until.c105_until_result_ends` | propext, Classical.choice, Quot.sound |
| C105 | `Verif.Exec.Until.c105_goes_on` | propext |
| C105 | `Verif.Exec.Until.c105_endless_run` | propext, Quot.sound |
| C106 | `Verif.Data.Generic.c106_accepts` | propext, Classical.choice, Quot.sound |
| C106 | `Verif.Data.Generic.c106_holds` | propext, Classical.choice, Quot.sound |
| C106 | `Verif.Data.Generic.c106_meaning` | propext, Classical.choice, Quot.sound |
| C106 | `Verif.Data.Generic.c106_first` | propext, Classical.choice, Quot.sound |
| C106 | `Verif.Data.Generic.c106_second_ignored` | propext, Classical.choice, Quot.sound |
| C106 | `Verif.Data.Generic.c106_compatible` | propext, Classical.choice, Quot.sound |
| C106 | `Verif.Data.Generic.c106_written` | propext, Classical.choice, Quot.sound |
| C106 | `Verif.Data.Generic.c106_options` | propext, Classical.choice, Quot.sound |
| C106 | `Verif.Data.Generic.c106_reversed_limits` | propext, Classical.choice, Quot.sound |
| C106 | `Verif.Data.Generic.c106_unknown_message` | propext, Classical.choice, Quot.sound |
| C106 | `Verif.Data.Generic.c106_own_value_refused` | propext, Classical.choice, Quot.sound |
| C106 | `Verif.Data.Generic.c106_no_options` | propext, Classical.choice, Quot.sound |
| C107 | `Verif.Data.Refs.c107_created` | propext, Classical.choice, Quot.sound |
| C107 | `Verif.Data.Refs.c107_node_partial` | propext, Classical.choice, Quot.sound |
| C107 | `Verif.Data.Refs.c107_saved_partial` | propext, Classical.choice, Quot.sound |
| C107 | `Verif.Data.Refs.c107_unfitting_dropped` | propext, Classical.choice, Quot.sound |
| C107 | `Verif.Data.Refs.c107_empty_value_raises` | propext, Classical.choice, Quot.sound |
| C107 | `Verif.Data.Refs.c107_unbound` | propext, Classical.choice, Quot.sound |
| C108 | `Verif.Ros.Unused.c108_raises_iff` | propext, Quot.sound |
| C108 | `Verif.Ros.Unused.c108_shutdown_partial` | propext, Quot.sound |
| C108 | `Verif.Ros.Unused.c108_ok_iff` | propext, Quot.sound |
| C108 | `Verif.Ros.Unused.c108_forever` | propext, Quot.sound |
| C108 | `Verif.Ros.Unused.c108_failed_setup` | propext, Quot.sound |
| C108 | `Verif.Ros.Unused.c108_hook_called` | propext, Quot.sound |
| C108 | `Verif.Ros.Unused.c108_publisher` | propext |
| C108 | `Verif.Ros.Unused.c108_publisher_failed` | propext |
| C108 | `Verif.Ros.Unused.c108_wait_for_service` | propext |
| C108 | `Verif.Ros.Unused.c108_wait_for_service_failed` | propext |
| C108 | `Verif.Ros.Unused.c108_action` | propext |
| C108 | `Verif.Ros.Unused.c108_action_failed` | propext |
| C108 | `Verif.Ros.Unused.c108_others` | propext |
| C109 | `Verif.Exec.Rest.c109_rest_partial` | propext, Classical.choice, Quot.sound |
| C109 | `Verif.Exec.Rest.c109_failed_shutdown` | propext, Quot.sound |
| C110 | `Verif.Exec.Rest.c110_shutdown_partial` | propext, Classical.choice, Quot.sound |
| C110 | `Verif.Exec.Rest.c110_idle_left` | propext |
| C110 | `Verif.Exec.Rest.c110_error_left` | propext |
| C110 | `Verif.Exec.Rest.c110_raised_left` | propext |
| C111 | `Verif.BT.Alive.c111_no_hidden_broken_partial` | propext, Quot.sound |
| C111 | `Verif.BT.Alive.c111_throttle_success` | propext |
| C111 | `Verif.BT.Alive.c111_broken_root` | propext |
| C112 | `Verif.BT.Single.c112_one_branch_partial` | propext, Classical.choice, Quot.sound |
| C112 | `Verif.BT.Single.c112_ancestors_run_partial` | propext, Classical.choice, Quot.sound |
| C112 | `Verif.BT.Single.c112_sequence` | propext |
| C112 | `Verif.BT.Single.c112_memSequence` | propext |
| C112 | `Verif.BT.Single.c112_switch` | propext |
| C113 | `Verif.BT.Busy.c113_running_waits_partial` | propext, Classical.choice, Quot.sound |
| C113 | `Verif.BT.Busy.c113_gap` | propext |
| C114 | `Verif.Files.Overlap.c114_alone` | propext |
| C114 | `Verif.Files.Overlap.c114_files` | propext, Classical.choice, Quot.sound |
| C114 | `Verif.Files.Overlap.c114_ids_partial` | propext, Classical.choice, Quot.sound |
| C114 | `Verif.Files.Overlap.c114_overlap` | propext, Classical.choice, Quot.sound |
| C115 | `Verif.Nodes.Results.c115_do` | none |
| C115 | `Verif.Nodes.Results.c115_chain` | Quot.sound |
| C115 | `Verif.Nodes.Results.c115_stops` | none |
| C115 | `Verif.Nodes.Results.c115_and_then` | none |
| C115 | `Verif.Nodes.Results.c115_or_else` | none |
| C115 | `Verif.Nodes.Results.c115_equal` | propext |
| C115 | `Verif.Nodes.Results.c115_hooks` | propext, Classical.choice, Quot.sound |
| C116 | `Verif.Utility.Opt.c116_taken` | propext, Classical.choice, Quot.sound |
| C116 | `Verif.Utility.Opt.c116_unusable_partial` | propext, Classical.choice, Quot.sound |
| C116 | `Verif.Utility.Opt.c116_usable_partial` | propext, Classical.choice, Quot.sound |
| C116 | `Verif.Utility.Opt.c116_service` | propext, Classical.choice, Quot.sound |
| C116 | `Verif.Utility.Opt.c116_never` | propext, Classical.choice, Quot.sound |
| C116 | `Verif.Utility.Opt.c116_parallel` | propext, Classical.choice, Quot.sound |
| C116 | `Verif.Utility.Opt.c116_flow` | propext, Classical.choice, Quot.sound |
| C116 | `Verif.Utility.Opt.c116_input` | propext, Classical.choice, Quot.sound |
| C117 | `Verif.Exec.Pool.c117_hangs_iff` | propext, Quot.sound |
| C117 | `Verif.Exec.Pool.c117_goes_on_partial` | propext, Quot.sound |
| C117 | `Verif.Exec.Pool.c117_ends_partial` | propext, Quot.sound |
| C117 | `Verif.Exec.Pool.c117_idle_partial` | propext, Quot.sound |
| C117 | `Verif.Exec.Pool.c117_late` | propext |
| C117 | `Verif.Exec.Pool.c117_forever` | propext, Quot.sound |
| C117 | `Verif.Exec.Pool.c117_hang` | propext, Quot.sound |
| C117 | `Verif.Exec.Pool.c117_hang_any` | propext, Quot.sound |
| C118 | `Verif.Whole.c118_same_tree` | propext, Classical.choice, Quot.sound |
| C118 | `Verif.Whole.c118_no_orphans` | propext, Classical.choice, Quot.sound |
| C118 | `Verif.Whole.c118_rest_partial` | propext, Classical.choice, Quot.sound |
| C118 | `Verif.Whole.c118_removed_partial` | propext, Classical.choice, Quot.sound |
| C118 | `Verif.Whole.c118_unedited_partial` | propext, Classical.choice, Quot.sound |
| C118 | `Verif.Whole.c118_shown_partial` | propext, Classical.choice, Quot.sound |
| C118 | `Verif.Whole.c118_erased` | propext, Quot.sound |
| C118 | `Verif.Whole.c118_stale` | propext, Quot.sound |
| C119 | `Verif.Whole.Process.c119_default` | propext, Classical.choice, Quot.sound |
| C119 | `Verif.Whole.Process.c119_not_loaded` | propext, Classical.choice, Quot.sound |
| C119 | `Verif.Whole.Process.c119_end_partial` | propext, Classical.choice, Quot.sound |
| C119 | `Verif.Whole.Process.c119_left_running` | propext, Quot.sound |
| C120 | `Verif.Files.Lists.c120_packages_partial` | propext, Quot.sound |
| C120 | `Verif.Files.Lists.c120_hidden` | propext |
| C120 | `Verif.Files.Lists.c120_messages_partial` | propext, Quot.sound |
| C120 | `Verif.Files.Lists.c120_start` | propext, Quot.sound |
| C120 | `Verif.Files.Lists.c120_republished` | propext, Quot.sound |
| C120 | `Verif.Files.Lists.c120_durable` | propext, Quot.sound |
| C120 | `Verif.Files.Lists.c120_stale` | propext |
| C120 | `Verif.Files.Lists.c120_channels_partial` | propext, Quot.sound |
| C120 | `Verif.Files.Lists.c120_no_type` | propext |
| C121 | `Verif.Data.Equal.c121_equivalence_partial` | propext, Classical.choice, Quot.sound |
| C121 | `Verif.Data.Equal.c121_alike_partial` | propext, Classical.choice, Quot.sound |
| C121 | `Verif.Data.Equal.c121_updated` | propext, Classical.choice, Quot.sound |
| C121 | `Verif.Data.Equal.c121_nan` | propext, Quot.sound |
| C121 | `Verif.Data.Equal.c121_config` | propext, Classical.choice, Quot.sound |
| C121 | `Verif.Data.Equal.c121_copy_partial` | propext, Classical.choice, Quot.sound |
| C121 | `Verif.Data.Equal.c121_self` | propext, Classical.choice, Quot.sound |
| C121 | `Verif.Data.Equal.c121_never` | propext, Quot.sound |
| C121 | `Verif.Data.Equal.c121_raises` | propext, Classical.choice, Quot.sound |
| C122 | `Verif.Whole.Wires.c122_no_error` | propext, Classical.choice, Quot.sound |
| C122 | `Verif.Whole.Wires.c122_flow_partial` | propext, Classical.choice, Quot.sound |
| C122 | `Verif.Whole.Wires.c122_ticked_partial` | propext, Classical.choice, Quot.sound |
| C122 | `Verif.Whole.Wires.c122_stale` | propext, Quot.sound |
| C123 | `Verif.Nodes.Iterate.c123_item_partial` | propext, Classical.choice, Quot.sound |
| C123 | `Verif.Nodes.Iterate.c123_round_partial` | propext, Classical.choice, Quot.sound |
| C123 | `Verif.Nodes.Iterate.c123_given_partial` | propext, Classical.choice, Quot.sound |
| C123 | `Verif.Nodes.Iterate.c123_unnoticed` | propext, Classical.choice, Quot.sound |
| C124 | `Verif.Whole.Values.c124_at_hooks_partial` | propext, Classical.choice, Quot.sound |
| C124 | `Verif.Whole.Values.c124_at_rest_partial` | propext, Classical.choice, Quot.sound |
| C124 | `Verif.Whole.Values.c124_excluded` | propext, Classical.choice, Quot.sound |
| C124 | `Verif.Whole.Refine.c124_classes_partial` | propext, Classical.choice, Quot.sound |
| C125 | `Verif.Whole.Refine.c125_refines` | propext, Classical.choice, Quot.sound |
| C125 | `Verif.Whole.Refine.c125_no_hidden_broken` | propext, Classical.choice, Quot.sound |
| C125 | `Verif.Whole.Refine.c125_quiet` | propext, Classical.choice, Quot.sound |
| C126 | `Verif.BT.Inline.c126_transparent_partial` | propext, Quot.sound |
| C126 | `Verif.BT.Inline.c126_trees_partial` | propext, Quot.sound |
| C126 | `Verif.BT.Inline.c126_same_partial` | propext, Quot.sound |
| C126 | `Verif.BT.Inline.c126_shutdown_error` | propext |
| C127 | `Verif.Whole.Program.c127_equations_partial` | propext, Classical.choice, Quot.sound |
| C127 | `Verif.Whole.Program.c127_determined_partial` | propext, Classical.choice, Quot.sound |
| C127 | `Verif.Whole.Program.c127_classes_partial` | propext, Classical.choice, Quot.sound |
| C127 | `Verif.Whole.Program.c127_backward` | propext, Classical.choice, Quot.sound |
| C128 | `Verif.Whole.Progress.c128_progress_partial` | propext, Classical.choice, Quot.sound |
| C128 | `Verif.Whole.Progress.c128_correct_partial` | propext, Classical.choice, Quot.sound |
| C128 | `Verif.Whole.Progress.c128_classes_partial` | propext, Classical.choice, Quot.sound |
| C128 | `Verif.Whole.Progress.c128_wire_partial` | propext, Classical.choice, Quot.sound |
| C128 | `Verif.Whole.Progress.c128_refused` | propext, Classical.choice, Quot.sound |
| C128 | `Verif.Whole.Progress.c128_sample` | propext, Classical.choice, Quot.sound |
| C129 | `Verif.BT.Renew.c129_as_new_partial` | propext, Quot.sound |
| C129 | `Verif.BT.Renew.c129_throttle` | propext |
| C129 | `Verif.BT.Renew.c129_no_auto_reset` | propext |
| C130 | `Verif.Ros.Renew.c130_wait` | propext, Classical.choice, Quot.sound |
| C130 | `Verif.Ros.Renew.c130_publisher` | propext, Classical.choice, Quot.sound |
| C130 | `Verif.Ros.Renew.c130_wait_service` | propext, Classical.choice, Quot.sound |
| C130 | `Verif.Ros.Renew.c130_service` | propext, Classical.choice, Quot.sound |
| C130 | `Verif.Ros.Renew.c130_subscriber` | propext, Quot.sound |
| C130 | `Verif.Ros.Renew.c130_memory_subscriber` | propext, Quot.sound |
| C130 | `Verif.Ros.Renew.c130_action` | propext, Classical.choice, Quot.sound |
| C130 | `Verif.Ros.Renew.c130_unnoticed` | propext |
| C131 | `Verif.Data.Shared.c131_contents` | propext, Quot.sound |
| C131 | `Verif.Data.Shared.c131_get` | propext, Quot.sound |
| C131 | `Verif.Data.Shared.c131_set_item` | propext, Quot.sound |
| C131 | `Verif.Data.Shared.c131_without_copies` | propext |
| C131 | `Verif.Data.Shared.copyAll_copies` | propext, Quot.sound |
| C132 | `Verif.Ros.Rpc.c132_answer_partial` | propext, Classical.choice, Quot.sound |
| C132 | `Verif.Ros.Rpc.c132_outstanding_partial` | propext, Classical.choice, Quot.sound |
| C132 | `Verif.Ros.Rpc.c132_called_partial` | propext, Classical.choice, Quot.sound |
| C132 | `Verif.Ros.Rpc.c132_done` | propext, Classical.choice, Quot.sound |
| C132 | `Verif.Ros.Rpc.c132_stale` | propext, Classical.choice, Quot.sound |
| C133 | `Verif.Ros.Goal.c133_goal_partial` | propext, Classical.choice, Quot.sound |
| C133 | `Verif.Ros.Goal.c133_answer_partial` | propext, Classical.choice, Quot.sound |
| C133 | `Verif.Ros.Goal.c133_first_partial` | propext, Classical.choice, Quot.sound |
| C133 | `Verif.Ros.Goal.c133_again_partial` | propext, Classical.choice, Quot.sound |
| C133 | `Verif.Ros.Goal.c133_untick` | propext, Classical.choice, Quot.sound |
| C133 | `Verif.Ros.Goal.c133_stale` | propext, Classical.choice, Quot.sound |
| C134 | `Verif.Exec.Locks.c134_progress` | propext, Classical.choice, Quot.sound |
| C134 | `Verif.Exec.Locks.c134_exclusive` | propext, Quot.sound |
| C134 | `Verif.Exec.Locks.c134_answered_partial` | propext, Classical.choice, Quot.sound |
| C134 | `Verif.Exec.Locks.c134_can_end` | propext, Classical.choice, Quot.sound |
| C134 | `Verif.Exec.Locks.c134_clear_twice` | propext, Classical.choice, Quot.sound |
| C135 | `Verif.BT.Formula.c135_formula` | propext, Classical.choice, Quot.sound |
| C135 | `Verif.BT.Formula.c135_boolean` | propext, Classical.choice, Quot.sound |
| C136 | `Verif.BT.Resume.c136_resume` | propext, Classical.choice, Quot.sound |
| C136 | `Verif.BT.Resume.c136_leftover` | propext, Quot.sound |
| C137 | `Verif.BT.Refactor.c137_refactor` | propext, Classical.choice, Quot.sound |
| C137 | `Verif.BT.Refactor.c137_memory` | propext, Classical.choice, Quot.sound |
| C137 | `Verif.BT.Refactor.rw_sound` | propext |
| C137 | `Verif.BT.Refactor.flatten_conj` | propext |
| C137 | `Verif.BT.Refactor.flatten_disj` | propext |
| C137 | `Verif.BT.Refactor.de_morgan_conj` | propext |
| C137 | `Verif.BT.Refactor.de_morgan_disj` | propext |
| C137 | `Verif.BT.Refactor.inv_inv` | propext |
| C137 | `Verif.BT.Refactor.form_proper` | propext, Quot.sound |
| C137 | `Verif.BT.Refactor.mform_proper` | propext, Quot.sound |
| C137 | `Verif.BT.Refactor.c137_assigned` | propext, Quot.sound |
| C137 | `Verif.BT.Refactor.c137_mixed` | propext |
| C138 | `Verif.BT.Rounds.c138_round` | propext, Classical.choice, Quot.sound |
| C138 | `Verif.BT.Rounds.c138_duration` | propext, Classical.choice, Quot.sound |
| C138 | `Verif.BT.Tolerance.c138_ends_iff` | propext, Classical.choice, Quot.sound |
| C138 | `Verif.BT.Tolerance.c138_safe_options` | propext, Classical.choice, Quot.sound |
| C138 | `Verif.BT.Tolerance.c138_forever` | propext, Classical.choice, Quot.sound |
| C139 | `Verif.BT.Duration.c139_duration` | propext, Classical.choice, Quot.sound |
| C139 | `Verif.BT.Duration.c139_ends` | propext, Classical.choice, Quot.sound |
| C139 | `Verif.BT.Again.c139_rounds` | propext, Classical.choice, Quot.sound |
| C139 | `Verif.BT.Duration.lasts_fin` | propext |
| C139 | `Verif.BT.Duration.lasts_takes` | propext, Classical.choice, Quot.sound |
| C139 | `Verif.BT.Again.due_takes` | propext, Classical.choice, Quot.sound |
| C140 | `Verif.Exec.Takes.c140_setup` | propext, Classical.choice, Quot.sound |
| C140 | `Verif.Exec.Takes.c140_reset` | propext, Classical.choice, Quot.sound |
| C140 | `Verif.Exec.Takes.c140_again` | propext, Classical.choice, Quot.sound |
| C140 | `Verif.Exec.Takes.c140_twice` | propext |
| C141 | `Verif.Exec.Periodic.c141_periodic` | propext, Classical.choice, Quot.sound |
| C141 | `Verif.Exec.Periodic.loop` | propext, Quot.sound |
| C142 | `Verif.Exec.Single.c142_by_hand` | propext, Classical.choice, Quot.sound |
| C142 | `Verif.Exec.Single.c142_first` | propext |
| C142 | `Verif.Exec.Single.c142_until` | propext, Classical.choice, Quot.sound |
| C142 | `Verif.Exec.Single.onces_up` | propext |
| C143 | `Verif.Exec.Restart.c143_until` | propext, Classical.choice, Quot.sound |
| C143 | `Verif.Exec.Restart.c143_periodic` | propext, Classical.choice, Quot.sound |
| C143 | `Verif.Exec.Restart.c143_by_hand` | propext, Classical.choice, Quot.sound |
| C143 | `Verif.Exec.Restart.c143_stop` | propext |
| C143 | `Verif.Exec.Restart.c143_shutdown` | propext, Classical.choice, Quot.sound |
| C143 | `Verif.Exec.Restart.c143_again` | propext, Classical.choice, Quot.sound |
| C144 | `Verif.Exec.Answer.c144_promises_partial` | propext, Quot.sound |
| C144 | `Verif.Exec.Answer.c144_stop_waiting` | propext |
| C144 | `Verif.Exec.Answer.c144_nothing_to_stop` | propext |
| C144 | `Verif.Exec.Answer.c144_empty` | propext |
