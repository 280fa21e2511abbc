{
 "claims": [
  {
   "property": "C01",
   "status": "proved",
   "theorems": [
    "Verif.BT.c01_rejected_call_has_no_effect",
    "Verif.BT.c01_accepted_call_runs_hook"
   ],
   "note": "All trees, all operations."
  },
  {
   "property": "C02",
   "status": "proved",
   "theorems": [
    "Verif.BT.c02_result_is_state"
   ],
   "note": "All trees, all operations."
  },
  {
   "property": "C03",
   "status": "proved",
   "theorems": [
    "Verif.BT.c03_setup_reaches_all"
   ],
   "note": "All trees; nodes below an Optional whose child cannot execute are excepted, as documented."
  },
  {
   "property": "C04",
   "status": "proved",
   "theorems": [
    "Verif.BT.c04_shutdown_reaches_all",
    "Verif.BT.c04_shutdown_leaves_nothing_active"
   ],
   "note": "All trees and histories; nodes inside a never set-up Subtree stay UNINITIALIZED."
  },
  {
   "property": "C05",
   "status": "partial",
   "theorems": [
    "Verif.BT.c05_reset_reaches_all_partial",
    "Verif.BT.c05_reset_misses_child"
   ],
   "note": "The code violates the full statement for RepeatNoAutoReset (witness proved)."
  },
  {
   "property": "C06",
   "status": "proved",
   "theorems": [
    "Verif.BT.c06_untick_leaves_nothing_running"
   ],
   "note": "All trees."
  },
  {
   "property": "C07",
   "status": "proved",
   "theorems": [
    "Verif.BT.c07_one_tick_per_node",
    "Verif.BT.c07_only_tick_ticks"
   ],
   "note": "All trees with distinct node ids."
  },
  {
   "property": "C08",
   "status": "partial",
   "theorems": [
    "Verif.BT.c08_errors_surface_partial",
    "Verif.BT.c08_throttle_success_swallows"
   ],
   "note": "Proved for all trees without ThrottleSuccess; the code violates the full statement for ThrottleSuccess (witness proved)."
  },
  {
   "property": "C09",
   "status": "proved",
   "theorems": [
    "Verif.BT.c09_past_is_forgotten",
    "Verif.BT.c09_histories_are_forgotten"
   ],
   "note": "All trees and pasts that end with every node SHUTDOWN."
  },
  {
   "property": "C10",
   "status": "proved",
   "theorems": [
    "Verif.BT.c10_failed_call_breaks",
    "Verif.BT.c10_missing_input_breaks",
    "Verif.BT.c10_undelivered_output_fails",
    "Verif.BT.c10_broken_is_stuck",
    "Verif.BT.c10_shutdown_recovers"
   ],
   "note": "All trees."
  },
  {
   "property": "C11",
   "status": "proved",
   "theorems": [
    "Verif.BT.c11_sequence",
    "Verif.BT.c11_sequence_error"
   ],
   "note": "All trees, all states."
  },
  {
   "property": "C12",
   "status": "proved",
   "theorems": [
    "Verif.BT.c12_fallback",
    "Verif.BT.c12_fallback_error"
   ],
   "note": "All trees, all states."
  },
  {
   "property": "C13",
   "status": "proved",
   "theorems": [
    "Verif.BT.c13_memory_sequence"
   ],
   "note": "All trees and histories."
  },
  {
   "property": "C14",
   "status": "partial",
   "theorems": [
    "Verif.BT.c14_memory_fallback_partial",
    "Verif.BT.c14_stale_memory"
   ],
   "note": "The code violates the full statement after a finished tick followed by untick (witness proved)."
  },
  {
   "property": "C15",
   "status": "proved",
   "theorems": [
    "Verif.BT.c15_parallel",
    "Verif.BT.c15_parallel_terminates"
   ],
   "note": "All trees and histories."
  },
  {
   "property": "C16",
   "status": "partial",
   "theorems": [
    "Verif.BT.c16_parallel_tolerance_partial",
    "Verif.BT.c16_never_finishes"
   ],
   "note": "Thresholds proved for all trees and histories; the code violates the last clause (witness proved)."
  },
  {
   "property": "C17",
   "status": "proved",
   "theorems": [
    "Verif.BT.c17_switch",
    "Verif.BT.c17_switch_distinct",
    "Verif.BT.c17_unknown_name_leaves_running"
   ],
   "note": "All trees and histories; an unknown name fails without stopping the running child (witness proved)."
  },
  {
   "property": "C18",
   "status": "partial",
   "theorems": [
    "Verif.BT.c18_finished_is_quiet_partial",
    "Verif.BT.c18_calm_root_is_quiet",
    "Verif.BT.c18_ignore_running",
    "Verif.BT.c18_throttle_success",
    "Verif.BT.c18_iterate_list",
    "Verif.BT.c18_throttle_clock"
   ],
   "note": "Proved for all trees whose nodes are clean; the code violates it for IgnoreRunning, ThrottleSuccess, switches with an unknown name, IterateList with an emptied list, Throttle with a clock that jumps back (witnesses proved)."
  },
  {
   "property": "C19",
   "status": "proved",
   "theorems": [
    "Verif.BT.c19_retry"
   ],
   "note": "All trees and histories."
  },
  {
   "property": "C20",
   "status": "proved",
   "theorems": [
    "Verif.BT.c20_repeat"
   ],
   "note": "All trees and histories."
  },
  {
   "property": "C21",
   "status": "proved",
   "theorems": [
    "Verif.BT.c21_quota"
   ],
   "note": "All trees and histories."
  },
  {
   "property": "C22",
   "status": "proved",
   "theorems": [
    "Verif.BT.c22_table",
    "Verif.BT.c22_watch",
    "Verif.BT.c22_optional"
   ],
   "note": "All trees and histories."
  },
  {
   "property": "C23",
   "status": "proved",
   "theorems": [
    "Verif.BT.c23_unusable_child_untouched",
    "Verif.BT.c23_setup_skips_child"
   ],
   "note": "All trees and histories; the child's calculate_utility is an arbitrary oracle."
  },
  {
   "property": "C24",
   "status": "proved",
   "theorems": [
    "Verif.BT.c24_iterate",
    "Verif.BT.c24_never_outside",
    "Verif.BT.c24_shortened_list_fails"
   ],
   "note": "All trees and histories; a list that shrinks without being marked as updated makes the tick fail (witness proved)."
  },
  {
   "property": "C25",
   "status": "proved",
   "theorems": [
    "Verif.Utility.c25_sequence",
    "Verif.Utility.c25_sequence_tight",
    "Verif.Utility.c25_sequence_full",
    "Verif.Utility.c25_trees"
   ],
   "note": "All children, bounds and costs (exact arithmetic); also tight, and for whole trees of Sequences, Fallbacks and transparent decorators."
  },
  {
   "property": "C26",
   "status": "proved",
   "theorems": [
    "Verif.Utility.c26_fallback",
    "Verif.Utility.c26_fallback_tight",
    "Verif.Utility.c26_fallback_full"
   ],
   "note": "All children, bounds and costs (exact arithmetic); also tight."
  },
  {
   "property": "C27",
   "status": "partial",
   "theorems": [
    "Verif.Utility.c27_parallel_partial",
    "Verif.Utility.c27_parallel_full",
    "Verif.Utility.c27_parallel_tight",
    "Verif.Utility.c27_lower_with_more",
    "Verif.Utility.c27_missing_bound",
    "Verif.Utility.c27_more_successes",
    "Verif.Utility.c27_tolerance_ignored"
   ],
   "note": "Sound and tight if every child reports all bounds. The code violates the statement if a child lacks an upper bound, if more children than needed succeed at once, and for ParallelFailureTolerance (witnesses proved)."
  },
  {
   "property": "C28",
   "status": "partial",
   "theorems": [
    "Verif.Utility.c28_transparent_partial",
    "Verif.Utility.c28_restarting_partial",
    "Verif.Utility.c28_optional",
    "Verif.Utility.c28_unsound"
   ],
   "note": "Proved for transparent decorators and Optional, lower bounds for restarting ones. The code violates it for Inverter, IgnoreFailure, IgnoreSuccess, UntilSuccess (witnesses proved)."
  },
  {
   "property": "C29",
   "status": "partial",
   "theorems": [
    "Verif.Edit.c29_links_partial",
    "Verif.Edit.c29_step_partial",
    "Verif.Edit.c29_morph_breaks",
    "Verif.Edit.c29_load_breaks"
   ],
   "note": "All histories of requests with fresh ids, morphs that fit and well-formed messages; the code violates it for a rejected morph_node and for messages with shared children (witnesses proved)."
  },
  {
   "property": "C30",
   "status": "partial",
   "theorems": [
    "Verif.Edit.c30_no_cycle_partial",
    "Verif.Edit.c30_move_breaks",
    "Verif.Edit.c30_replace_breaks",
    "Verif.Edit.c30_replace_parent_breaks",
    "Verif.Edit.c30_load_breaks",
    "Verif.Edit.Exactly.c30_move_exact",
    "Verif.Edit.Exactly.c30_replace_exact",
    "Verif.Edit.Exactly.c30_replace_all",
    "Verif.Edit.Exactly.c30_load_exact",
    "Verif.Edit.Exactly.c30_histories_partial"
   ],
   "note": "All histories of careful requests; the code violates it otherwise (witnesses proved). The theorems of Edit.Exactly say exactly which accepted requests make a cycle: a move of a node to itself, a replacement by the parent, a replacement of a node without parent by a node below its children, and messages that are cyclic themselves; histories without these never make one."
  },
  {
   "property": "C31",
   "status": "proved",
   "theorems": [
    "Verif.Edit.c31_limits",
    "Verif.Edit.c31_limits_step"
   ],
   "note": "All histories of requests."
  },
  {
   "property": "C32",
   "status": "proved",
   "theorems": [
    "Verif.Edit.c32_wirings",
    "Verif.Edit.c32_dict"
   ],
   "note": "All histories of requests."
  },
  {
   "property": "C33",
   "status": "partial",
   "theorems": [
    "Verif.Edit.c33_rejected_partial",
    "Verif.Edit.c33_add_leaks",
    "Verif.Edit.c33_add_bad_parent_leaks",
    "Verif.Edit.c33_morph_breaks",
    "Verif.Edit.c33_load_clears"
   ],
   "note": "The code violates it for add_node with a full or invalid parent, morph_node without room, load_tree (witnesses proved)."
  },
  {
   "property": "C34",
   "status": "proved",
   "theorems": [
    "Verif.Edit.c34_root",
    "Verif.Edit.c34_empty",
    "Verif.Edit.c34_root_parent"
   ],
   "note": "All states."
  },
  {
   "property": "C35",
   "status": "proved",
   "theorems": [
    "Verif.Edit.c35_move",
    "Verif.Edit.c35_move_refused",
    "Verif.Edit.c35_remove"
   ],
   "note": "All histories of careful requests (those that keep the tree well formed, see C29 and C30)."
  },
  {
   "property": "C36",
   "status": "proved",
   "theorems": [
    "Verif.Edit.c36_unwire",
    "Verif.Edit.c36_wire_unwire",
    "Verif.Edit.c36_unwire_wire",
    "Verif.Edit.c36_wire_ignore",
    "Verif.Edit.c36_unwire_twice_crashes"
   ],
   "note": "All states; a request that names one wiring twice raises an exception (witness proved)."
  },
  {
   "property": "C37",
   "status": "proved",
   "theorems": [
    "Verif.Edit.c37_round_trip",
    "Verif.Edit.c37_load",
    "Verif.Edit.c37_reload_empties"
   ],
   "note": "All histories of careful requests, any loading manager; also exact loading of any message that describes a forest. reload_tree itself empties the tree (witness proved)."
  },
  {
   "property": "C38",
   "status": "partial",
   "theorems": [
    "Verif.Edit.c38_exact_partial",
    "Verif.Edit.c38_hangs",
    "Verif.Edit.c38_fuel",
    "Verif.Edit.c38_add_node_hangs"
   ],
   "note": "Exact whenever the search ends; the code does not terminate if a parent chain leads into a cycle that misses the start (witness proved)."
  },
  {
   "property": "C39",
   "status": "proved",
   "theorems": [
    "Verif.Exec.c39_rejected",
    "Verif.Exec.c39_edit",
    "Verif.Exec.c39_locked"
   ],
   "note": "All states, requests and runs, requests handled one after the other; until the next SHUTDOWN refused edits have no effect at all."
  },
  {
   "property": "C40",
   "status": "partial",
   "theorems": [
    "Verif.Exec.c40_no_tick_during_edit_partial",
    "Verif.Exec.c40_states_partial",
    "Verif.Exec.Race.c40_check_then_tick",
    "Verif.Exec.Race.c43_shutdown_while_unticking"
   ],
   "note": "Proved for all runs in which requests are handled one after the other (the tick thread runs in between). The code violates it for overlapping requests, and a SHUTDOWN can overtake the final untick (witnesses proved)."
  },
  {
   "property": "C41",
   "status": "proved",
   "theorems": [
    "Verif.Exec.Race.c41_one_edit"
   ],
   "note": "Any number of service threads, all schedules, nested edit handlers included."
  },
  {
   "property": "C42",
   "status": "proved",
   "theorems": [
    "Verif.Exec.c42_command",
    "Verif.Exec.c42_error_stays"
   ],
   "note": "All trees, all histories, all later commands, edits and thread steps."
  },
  {
   "property": "C43",
   "status": "partial",
   "theorems": [
    "Verif.Exec.c43_shutdown_partial",
    "Verif.Exec.Race.c43_shutdown_while_unticking"
   ],
   "note": "All trees, all histories of commands, edits, errors and exceptions, commands being atomic with respect to the tick thread. The code violates it if the tick thread ends a run between two reads of the tree state (witness proved)."
  },
  {
   "property": "C44",
   "status": "partial",
   "theorems": [
    "Verif.Exec.c44_recovery_partial",
    "Verif.Exec.c44_stuck_in_waiting"
   ],
   "note": "All reachable states except WAITING_FOR_TICK with a root that cannot be unticked; the code violates it there (witness proved: no number of SHUTDOWNs helps)."
  },
  {
   "property": "C45",
   "status": "proved",
   "theorems": [
    "Verif.Exec.c45_story",
    "Verif.Exec.c45_ends",
    "Verif.Exec.c45_periodic",
    "Verif.Exec.c45_once",
    "Verif.Exec.c45_once_works",
    "Verif.Exec.c45_multiple",
    "Verif.Exec.c45_until_result",
    "Verif.Exec.c45_incomplete_once",
    "Verif.Exec.c45_incomplete_multiple"
   ],
   "note": "All operations of the root, all runs, all times of stop requests, errors and exceptions."
  },
  {
   "property": "C46",
   "status": "partial",
   "theorems": [
    "Verif.Exec.c46_one_thread_partial",
    "Verif.Exec.c46_busy",
    "Verif.Exec.Race.c46_one_controller_partial",
    "Verif.Exec.Race.c46_two_threads"
   ],
   "note": "All schedules in which commands do not overlap each other. The code violates it for overlapping commands (witness proved)."
  },
  {
   "property": "C47",
   "status": "partial",
   "theorems": [
    "Verif.Data.c47_permitted_partial",
    "Verif.Data.c47_permitted_noFloat",
    "Verif.Data.c47_dynamic",
    "Verif.Data.c47_set",
    "Verif.Data.c47_accepts",
    "Verif.Data.c47_default_int",
    "Verif.Data.c47_nan",
    "Verif.Data.c47_default_float",
    "Verif.Data.c47_default_options",
    "Verif.Data.c47_default_path",
    "Verif.Data.c47_default_list",
    "Verif.Data.c47_float_moved"
   ],
   "note": "All types and nestings, all histories of assignments, resets and deserializations. The code violates it for NaN and for the initial values of several types (witnesses proved)."
  },
  {
   "property": "C48",
   "status": "partial",
   "theorems": [
    "Verif.Data.c48_locked_partial",
    "Verif.Data.c48_first_write_partial",
    "Verif.Data.c48_reset",
    "Verif.Data.c48_never_wired",
    "Verif.Data.c48_after_tick",
    "Verif.Data.c48_after_default"
   ],
   "note": "As long as the update flags are not reset. The code violates it after the first tick and if the first value equals the default (witnesses proved)."
  },
  {
   "property": "C49",
   "status": "partial",
   "theorems": [
    "Verif.Data.c49_compatible_partial",
    "Verif.Data.c49_wiring_partial",
    "Verif.Data.c49_nested",
    "Verif.Data.c49_options"
   ],
   "note": "All types and nestings at container level, nesting depth one at wiring level. The code violates it for options and for nested lists (witnesses proved)."
  },
  {
   "property": "C50",
   "status": "partial",
   "theorems": [
    "Verif.Data.c50_type_partial",
    "Verif.Data.c50_nested_flattened",
    "Verif.Data.c50_nested_lost",
    "Verif.Data.c50_no_options_lost",
    "Verif.Data.c50_value_partial",
    "Verif.Data.c50_container_partial",
    "Verif.Data.c50_dict_raises",
    "Verif.Data.c50_array_raises"
   ],
   "note": "All types without nested lists and all values without dictionaries and numeric arrays. The code violates it for the excluded ones (witnesses proved)."
  },
  {
   "property": "C51",
   "status": "partial",
   "theorems": [
    "Verif.Data.c51_tick_partial",
    "Verif.Data.c51_in_sync_partial",
    "Verif.Data.c51_echo",
    "Verif.Data.c51_two_sources"
   ],
   "note": "All wiring graphs in which no input has two sources, all values, all executions in which no hook writes the same new value twice in one tick. The code violates it in the excluded cases (witnesses proved)."
  },
  {
   "property": "C52",
   "status": "partial",
   "theorems": [
    "Verif.Data.c52_step_partial",
    "Verif.Data.c52_stays_partial",
    "Verif.Data.c52_lost_by_reset",
    "Verif.Data.c52_lost_in_tick",
    "Verif.Data.c52_lost_in_subtree"
   ],
   "note": "All executions: an update is lost only if an equal value is delivered before the node has been ticked, or if it is delivered during a tick of the node. The code violates it in these cases (witnesses proved)."
  },
  {
   "property": "C53",
   "status": "partial",
   "theorems": [
    "Verif.Data.c53_succeeds",
    "Verif.Data.c53_union",
    "Verif.Data.c53_failure_partial",
    "Verif.Data.c53_classes",
    "Verif.Data.c53_half_merged"
   ],
   "note": "All configurations, and all lists of base classes; success also needs equal max_children. The code violates the last part: a failed merge has copied the keys that do not collide (witness proved)."
  },
  {
   "property": "C54",
   "status": "proved",
   "theorems": [
    "Verif.Files.c54_counts",
    "Verif.Files.c54_starts",
    "Verif.Files.c54_different",
    "Verif.Files.c54_fresh",
    "Verif.Files.c54_not_injective",
    "Verif.Files.c54_newline"
   ],
   "note": "All strings with fewer than 4300 characters (Python's limit for numbers in strings) and all finite sets of taken names."
  },
  {
   "property": "C55",
   "status": "proved",
   "theorems": [
    "Verif.Files.c55_overwrite",
    "Verif.Files.c55_saved",
    "Verif.Files.c55_rename",
    "Verif.Files.c55_refused",
    "Verif.Files.c55_rename_works",
    "Verif.Files.c55_new",
    "Verif.Files.c55_overwrite_works"
   ],
   "note": "All file systems without symbolic links, requests and disk errors, no other program writing at the same time."
  },
  {
   "property": "C65",
   "status": "proved",
   "theorems": [
    "Verif.Edit.c65_replace",
    "Verif.Edit.c65_replace_by_ancestor",
    "Verif.Edit.c65_replace_by_itself",
    "Verif.Edit.c65_replace_without_room"
   ],
   "note": "All histories of careful requests; witnesses show what goes wrong for related nodes."
  },
  {
   "property": "C66",
   "status": "proved",
   "theorems": [
    "Verif.Edit.c35_morph",
    "Verif.Edit.c35_set_options"
   ],
   "note": "All histories of polite requests."
  },
  {
   "property": "C67",
   "status": "proved",
   "theorems": [
    "Verif.Data.c67_created",
    "Verif.Data.c67_accepted"
   ],
   "note": "All classes, given inputs and extra inputs; references between inputs are not modelled."
  },
  {
   "property": "C68",
   "status": "partial",
   "theorems": [
    "Verif.Files.c68_below_partial",
    "Verif.Files.c68_escape"
   ],
   "note": "All relative file paths without '..'. The code violates it for '..' and for absolute paths (witnesses proved)."
  },
  {
   "property": "C69",
   "status": "partial",
   "theorems": [
    "Verif.Files.c69_failed_partial",
    "Verif.Files.c69_truncated"
   ],
   "note": "All failures except an error while writing. The code violates it there: the old content is gone (witness proved)."
  },
  {
   "property": "C70",
   "status": "proved",
   "theorems": [
    "Verif.Files.c70_ids",
    "Verif.Files.c70_parents",
    "Verif.Files.c70_files"
   ],
   "note": "All directory trees, unreadable directories included; no symbolic links that form loops."
  },
  {
   "property": "C56",
   "status": "proved",
   "theorems": [
    "Verif.Ros.Wait.c56_answer",
    "Verif.Ros.Wait.c56_untick",
    "Verif.Ros.Wait.c56_stays"
   ],
   "note": "All histories; the clock may be arbitrary, c56_stays assumes that it does not run backwards."
  },
  {
   "property": "C57",
   "status": "proved",
   "theorems": [
    "Verif.Ros.Service.c57_latest",
    "Verif.Ros.Service.c57_running",
    "Verif.Ros.Service.c57_outcome",
    "Verif.Ros.Service.c57_called",
    "Verif.Ros.Service.c57_once",
    "Verif.Ros.Service.c57_stopped"
   ],
   "note": "All histories, all server behaviours."
  },
  {
   "property": "C58",
   "status": "partial",
   "theorems": [
    "Verif.Ros.Action.c58_watched_partial",
    "Verif.Ros.Action.c58_stopped_partial",
    "Verif.Ros.Action.c58_unanswered",
    "Verif.Ros.Action.c58_timed_out",
    "Verif.Ros.Action.c58_new_inputs"
   ],
   "note": "Holds for goals whose handle the node has; over whole executions every goal sent is closed after a stop if the node is not stopped and gets no new inputs while the server has not answered, and is not stopped between the detection of a timeout and the next tick. In each of these three cases the code loses the goal (counterexamples)."
  },
  {
   "property": "C59",
   "status": "partial",
   "theorems": [
    "Verif.Ros.Action.c59_latest",
    "Verif.Ros.Action.c59_succeeded_partial",
    "Verif.Ros.Action.c59_aborted",
    "Verif.Ros.Action.c59_rejected"
   ],
   "note": "SUCCEEDED always stems from the result of the goal sent last. The code ignores the status of the result and whether the goal was accepted (counterexamples)."
  },
  {
   "property": "C71",
   "status": "partial",
   "theorems": [
    "Verif.Ros.Action.c71_sent_partial",
    "Verif.Ros.Action.c71_running",
    "Verif.Ros.Action.c71_untick"
   ],
   "note": "After setup and reset. After untick the next tick raises TypeError instead (counterexample)."
  },
  {
   "property": "C72",
   "status": "partial",
   "theorems": [
    "Verif.Ros.Action.c72_waits",
    "Verif.Ros.Action.c72_timeout_partial",
    "Verif.Ros.Action.c72_unanswered"
   ],
   "note": "For goals the server has answered to. Without an answer the node waits forever (counterexample)."
  },
  {
   "property": "C61",
   "status": "proved",
   "theorems": [
    "Verif.Ros.Subscriber.c61_answer",
    "Verif.Ros.Subscriber.c61_once"
   ],
   "note": "See C75 for messages of a previous topic."
  },
  {
   "property": "C62",
   "status": "proved",
   "theorems": [
    "Verif.Ros.Publisher.c62_publish",
    "Verif.Ros.Publisher.c62_once",
    "Verif.Ros.Publisher.c62_one_publisher",
    "Verif.Ros.Publisher.c62_closed",
    "Verif.Ros.Publisher.c62_settings"
   ],
   "note": "A change of topic_type alone does not count as new settings."
  },
  {
   "property": "C73",
   "status": "proved",
   "theorems": [
    "Verif.Ros.WaitService.c73_answer",
    "Verif.Ros.WaitService.c73_vanished"
   ],
   "note": "The time is not forgotten when the service becomes available: see c73_vanished."
  },
  {
   "property": "C74",
   "status": "partial",
   "theorems": [
    "Verif.Ros.MemorySubscriber.c74_memory_partial",
    "Verif.Ros.MemorySubscriber.c74_never_old"
   ],
   "note": "Unless a message arrives between the two assignments of a reset (counterexample)."
  },
  {
   "property": "C75",
   "status": "partial",
   "theorems": [
    "Verif.Ros.Subscriber.c75_topic_partial",
    "Verif.Ros.Subscriber.c75_old_topic"
   ],
   "note": "Unless a message arrives while the subscription is being destroyed (counterexample)."
  },
  {
   "property": "C60",
   "status": "proved",
   "theorems": [
    "Verif.BT.c60_throttle",
    "Verif.BT.c60_reset_keeps"
   ],
   "note": "All children, clocks and histories. A reset does not forget the result (c60_reset_keeps)."
  },
  {
   "property": "C76",
   "status": "partial",
   "theorems": [
    "Verif.BT.c76_failed_partial",
    "Verif.BT.c76_always_failed",
    "Verif.BT.c76_not_passed_on"
   ],
   "note": "Only the answer FAILED for a failing child. The code never answers SUCCEEDED or RUNNING (proved for all histories, with a witness)."
  },
  {
   "property": "C63",
   "status": "proved",
   "theorems": [
    "Verif.Nodes.c63_list_item",
    "Verif.Nodes.c63_dict_item",
    "Verif.Nodes.c63_dict_items",
    "Verif.Nodes.c63_attr",
    "Verif.Nodes.c63_child",
    "Verif.Nodes.c63_stale"
   ],
   "note": "For inputs of the right types whose elements fit the output. With a child, once the child has succeeded (c63_child: otherwise its answer is passed on)."
  },
  {
   "property": "C64",
   "status": "proved",
   "theorems": [
    "Verif.Nodes.c64_compare",
    "Verif.Nodes.c64_new_only",
    "Verif.Nodes.c64_less",
    "Verif.Nodes.c64_again"
   ],
   "note": "Equality of Python values is specified by a separate inductive relation."
  },
  {
   "property": "C77",
   "status": "proved",
   "theorems": [
    "Verif.Nodes.c77_length",
    "Verif.Nodes.c77_insert",
    "Verif.Nodes.c77_append",
    "Verif.Nodes.c77_set_dict",
    "Verif.Nodes.c77_is_in"
   ],
   "note": "For results that fit the output."
  },
  {
   "property": "C78",
   "status": "proved",
   "theorems": [
    "Verif.Nodes.c78_constant",
    "Verif.Nodes.c78_passthrough",
    "Verif.Nodes.c78_concatenate"
   ],
   "note": "For results that fit the output."
  },
  {
   "property": "C79",
   "status": "partial",
   "theorems": [
    "Verif.Nodes.c79_random_partial",
    "Verif.Nodes.c79_all",
    "Verif.Nodes.c79_equal"
   ],
   "note": "If the limits differ. With equal limits the tick is an error (c79_equal)."
  },
  {
   "property": "C80",
   "status": "proved",
   "theorems": [
    "Verif.Nodes.c80_arrives"
   ],
   "note": "For all hooks that yield a new value, if no two wirings of the node lead to the same input."
  },
  {
   "property": "C81",
   "status": "partial",
   "theorems": [
    "Verif.Nodes.c81_set_attr"
   ],
   "note": "Violated: every tick of a SetAttr node is an error and puts out nothing (proved for all data)."
  },
  {
   "property": "C82",
   "status": "partial",
   "theorems": [
    "Verif.Edit.c82_nodes_partial",
    "Verif.Edit.c82_load",
    "Verif.Edit.c82_wirings_lost"
   ],
   "note": "Nodes, data and links for all careful histories; the code violates the statement for wirings, which are always dropped (witness proved)."
  },
  {
   "property": "C83",
   "status": "partial",
   "theorems": [
    "Verif.Edit.c83_result_partial",
    "Verif.Edit.c83_success",
    "Verif.Edit.c83_closed",
    "Verif.Edit.c83_parents_missing"
   ],
   "note": "Exact result and exact success condition for all careful histories and orders; the code violates the statement for nodes without near common parent (witness proved)."
  },
  {
   "property": "C84",
   "status": "partial",
   "theorems": [
    "Verif.Nodes.c84_integers_partial",
    "Verif.Nodes.c84_bools",
    "Verif.Nodes.c84_unary",
    "Verif.Nodes.c84_not",
    "Verif.Nodes.c84_sound",
    "Verif.Nodes.c84_div_integers",
    "Verif.Nodes.c84_add_bools",
    "Verif.Nodes.c84_zero"
   ],
   "note": "Integers and bools, all operators but the true quotient, which the code never puts out for integers; division by zero raises (both proved). Floats are left abstract."
  },
  {
   "property": "C85",
   "status": "partial",
   "theorems": [
    "Verif.Nodes.c85_convert"
   ],
   "note": "Violated: a Convert node can never be set up (proved for all inputs)."
  },
  {
   "property": "C86",
   "status": "partial",
   "theorems": [
    "Verif.Nodes.c86_url",
    "Verif.Nodes.c86_first_partial",
    "Verif.Nodes.c86_new_path",
    "Verif.Nodes.c86_kept",
    "Verif.Nodes.c86_right_partial",
    "Verif.Nodes.c86_empty",
    "Verif.Nodes.c86_package",
    "Verif.Nodes.c86_lost"
   ],
   "note": "All files and histories in which a path is not delivered twice in a row. The code violates the statement for empty lists and dictionaries, unknown packages and repeated deliveries (each proved)."
  },
  {
   "property": "C87",
   "status": "partial",
   "theorems": [
    "Verif.Nodes.c87_types_partial",
    "Verif.Nodes.c87_string_package",
    "Verif.Nodes.c87_interface_partial",
    "Verif.Nodes.c87_complete",
    "Verif.Nodes.c87_clash",
    "Verif.Nodes.c87_unknown",
    "Verif.Nodes.c87_values_partial",
    "Verif.Nodes.c87_fields_partial",
    "Verif.Nodes.c87_message",
    "Verif.Nodes.c87_round_partial",
    "Verif.Nodes.c87_infinite",
    "Verif.Nodes.c87_fixed",
    "Verif.Nodes.c87_integers"
   ],
   "note": "All field types, messages and values, except packages named string..., fields named like own inputs, infinite numbers and arrays of a fixed number of numbers. For these the code violates the statement (each proved), and a list of integers for floats is accepted but then raises."
  },
  {
   "property": "C88",
   "status": "partial",
   "theorems": [
    "Verif.Nodes.c88_outputs_partial",
    "Verif.Nodes.c88_refused"
   ],
   "note": "If the node can be made, its outputs are the constants. The code refuses every message that has constants, as it looks for the name of a constant among types (proved)."
  },
  {
   "property": "C89",
   "status": "partial",
   "theorems": [
    "Verif.Nodes.c89_outputs_partial",
    "Verif.Nodes.c89_ignored",
    "Verif.Nodes.c89_lost",
    "Verif.Nodes.c89_raises"
   ],
   "note": "Results, and feedback with the fields of the result. The code builds the feedback outputs from the result, so other feedback is lost or raises (proved)."
  },
  {
   "property": "C90",
   "status": "partial",
   "theorems": [
    "Verif.Nodes.c90_format_partial",
    "Verif.Nodes.c90_missing",
    "Verif.Nodes.c90_unknown",
    "Verif.Nodes.c90_braces",
    "Verif.Nodes.c90_conversions",
    "Verif.Nodes.c90_list",
    "Verif.Nodes.c90_extension"
   ],
   "note": "All templates without !r and !a, all paths. The code ignores the conversions !r and !a, and FormatStringList always fails (both proved). Attribute access and format specifications in fields are left open in the model."
  },
  {
   "property": "C91",
   "status": "partial",
   "theorems": [
    "Verif.Nodes.c91_param",
    "Verif.Nodes.c91_default_partial",
    "Verif.Nodes.c91_missing",
    "Verif.Nodes.c91_time"
   ],
   "note": "The default value is put out for parameters that are declared without a value. If there is no such parameter, the code fails instead (proved)."
  },
  {
   "property": "C92",
   "status": "partial",
   "theorems": [
    "Verif.Data.c92_in_partial",
    "Verif.Data.c92_out_partial",
    "Verif.Data.c92_marked",
    "Verif.Data.c92_interface",
    "Verif.Data.c92_repeated",
    "Verif.Data.c92_stale",
    "Verif.Data.c92_not_reset",
    "Verif.Data.c92_static"
   ],
   "note": "Inputs: for executions in which no value is delivered again before the Subtree node has taken it in. Outputs: if resets of the Subtree node reach its IOOutput nodes. In both other cases the code violates the property, as with static inputs of IOInput nodes (all proved)."
  },
  {
   "property": "C93",
   "status": "partial",
   "theorems": [
    "Verif.Files.c93_message",
    "Verif.Files.c93_file_partial",
    "Verif.Files.c93_refused",
    "Verif.Files.c93_once",
    "Verif.Files.c93_hangs",
    "Verif.Files.c93_second_ignored",
    "Verif.Files.c93_nested_partial",
    "Verif.Files.c93_nested_fails",
    "Verif.Files.c93_checked",
    "Verif.Files.c93_self",
    "Verif.Files.c93_saved_partial"
   ],
   "note": "For files with exactly one tree with nodes of a supported version, whose Subtree nodes do not lead back to the file. Otherwise the code violates the property: files without a tree or with an unsupported version make the load go on forever, a second tree is ignored, a tree that contains itself raises RecursionError (all proved). What the YAML library reads is a parameter."
  },
  {
   "property": "C94",
   "status": "partial",
   "theorems": [
    "Verif.Files.c94_keeps",
    "Verif.Files.c94_copy",
    "Verif.Files.c94_inplace_others_partial",
    "Verif.Files.c94_inplace_partial",
    "Verif.Files.c94_twice",
    "Verif.Files.c94_loads",
    "Verif.Files.c94_abort",
    "Verif.Files.c94_lost"
   ],
   "note": "With --inplace only if no error occurs while writing, which loses the file (proved). A file that is not a mapping ends the program, the files after it are not migrated (proved)."
  },
  {
   "property": "C95",
   "status": "partial",
   "theorems": [
    "Verif.Exec.Subtrees.c95_add",
    "Verif.Exec.Subtrees.c95_clear",
    "Verif.Exec.Subtrees.c95_remove",
    "Verif.Exec.Subtrees.c95_switch",
    "Verif.Exec.Subtrees.c95_nest",
    "Verif.Exec.Subtrees.c95_flags",
    "Verif.Exec.Subtrees.c95_off",
    "Verif.Exec.Subtrees.c95_on",
    "Verif.Exec.Subtrees.c95_on_once",
    "Verif.Exec.Subtrees.c95_nodes_partial",
    "Verif.Exec.Subtrees.c95_tick",
    "Verif.Exec.Subtrees.c95_setup_and_shutdown",
    "Verif.Exec.Subtrees.c95_left_over",
    "Verif.Exec.Subtrees.c95_old_data"
   ],
   "note": "What the manager holds and publishes is shown for all histories. That it matches the Subtree nodes of the tree holds only without SETUP_AND_SHUTDOWN, replacement of a Subtree node by another class, and late construction failures; the others violate the property, as does old data after switching (all proved)."
  },
  {
   "property": "C96",
   "status": "partial",
   "theorems": [
    "Verif.Exec.Diag.c96_transparent_partial",
    "Verif.Exec.Diag.c96_off",
    "Verif.Exec.Diag.c96_on_partial",
    "Verif.Exec.Diag.c96_path",
    "Verif.Exec.Diag.c96_switched_on",
    "Verif.Exec.Diag.c96_switched_off",
    "Verif.Exec.Diag.c96_raised",
    "Verif.Exec.Diag.c96_no_pre"
   ],
   "note": "All nestings of calls; paths for all moments of switching. The code violates the rest if collecting is switched on or off while a node is called (an exception leaves the call, or its end is not reported), if a call raises an exception, and as messages before setup, untick, reset and shutdown do not say what they are about (all proved)."
  },
  {
   "property": "C97",
   "status": "partial",
   "theorems": [
    "Verif.Data.c97_lists",
    "Verif.Data.c97_current_partial",
    "Verif.Data.c97_sound_partial",
    "Verif.Data.c97_published_partial",
    "Verif.Data.c97_raises",
    "Verif.Data.c97_dict_raises",
    "Verif.Data.c97_true_is_one"
   ],
   "note": "All wiring graphs; values that can be written (C50), with the same type on both ends for the second part, executions as in C51 for the first. The code violates it for wired dictionaries of numbers, which cannot be published, and for equal values that are written differently (both proved). The published types are not modelled."
  },
  {
   "property": "C98",
   "status": "proved",
   "theorems": [
    "Verif.BT.Laws.c98_context",
    "Verif.BT.Laws.c98_flatten",
    "Verif.BT.Laws.c98_de_morgan",
    "Verif.BT.Laws.c98_double_inversion",
    "Verif.BT.Laws.c98_decorators_join",
    "Verif.BT.Laws.c98_decorators_swap",
    "Verif.BT.Laws.c98_nested_first",
    "Verif.BT.Laws.c98_assigned"
   ],
   "note": "Behaving alike: same answers, states and names after every sequence of operations, including failing ones; for all trees, trees not yet set up. The inversion of rows is for children that do not answer ASSIGNED or UNASSIGNED (with a counterexample otherwise); a nested Sequence that is not the last child may not be dissolved (counterexample proved)."
  },
  {
   "property": "C99",
   "status": "partial",
   "theorems": [
    "Verif.Exec.Shown.c99_at_rest_partial",
    "Verif.Exec.Shown.c99_same_runs",
    "Verif.Exec.Shown.c99_edit",
    "Verif.Exec.Shown.c99_tick",
    "Verif.Exec.Shown.c99_command",
    "Verif.Exec.Shown.c99_result_stays",
    "Verif.Exec.Shown.c99_start_late",
    "Verif.Exec.Shown.c99_exception"
   ],
   "note": "For all interleavings. Missing because the code violates it (each with a proved witness): after TICK_UNTIL_RESULT the published node states are those before the last untick; TICK_PERIODICALLY is published only after the first tick; after an exception in the tick thread nothing is published."
  },
  {
   "property": "C100",
   "status": "partial",
   "theorems": [
    "Verif.Exec.Rate.c100_never_zero",
    "Verif.Exec.Rate.c100_mean_partial",
    "Verif.Exec.Rate.c100_never_warns",
    "Verif.Exec.Rate.c100_warns_iff",
    "Verif.Exec.Rate.c100_not_hertz",
    "Verif.Exec.Rate.c100_negative_frequency"
   ],
   "note": "Never zero, and the published number is the mean of a window of ten. The rest is violated: the number is not a frequency, the warning about slow ticks is never given for slow ticks, and a negative frequency leaves the tree TICKING without a thread (all proved). Frequencies are rationals, durations natural numbers of nanoseconds."
  },
  {
   "property": "C101",
   "status": "partial",
   "theorems": [
    "Verif.Exec.Health.c101_levels_partial",
    "Verif.Exec.Health.c101_sound",
    "Verif.Exec.Health.c101_nameless",
    "Verif.Exec.Health.c101_old_name"
   ],
   "note": "Levels for all interleavings. The name is missing: the code never puts the name of a loaded tree into the published message (proved)."
  },
  {
   "property": "C102",
   "status": "partial",
   "theorems": [
    "Verif.Exec.Log.c102_published",
    "Verif.Exec.Log.c102_fatal_partial",
    "Verif.Exec.Log.c102_fatal_lost",
    "Verif.Exec.Log.c102_loggers"
   ],
   "note": "Publication and contents for all histories, with any number of subtrees; time stamp, file and line are not modelled. Fatal messages can be turned off with a level above 50 (proved), so that statement is for levels up to 50. Names of loggers: for every notion of word character that excludes the dot and the parenthesis."
  },
  {
   "property": "C103",
   "status": "partial",
   "theorems": [
    "Verif.Data.Classes.c103_same_class",
    "Verif.Data.Classes.c103_list",
    "Verif.Data.Classes.c103_requested_partial",
    "Verif.Data.Classes.c103_half_loaded",
    "Verif.Data.Classes.c103_raised"
   ],
   "note": "For all module graphs (also cyclic), any depth of the stack and all histories. c103_requested_partial: as long as no module changes on disk. Violated (proved): a module that fails half way leaves classes behind that are used even after it has been repaired; exceptions other than ImportError and ValueError are not caught."
  },
  {
   "property": "C104",
   "status": "partial",
   "theorems": [
    "Verif.Exec.Meta.c104_given",
    "Verif.Exec.Meta.c104_root_partial",
    "Verif.Exec.Meta.c104_public_lost",
    "Verif.Exec.Meta.c104_old_root"
   ],
   "note": "Name, path and frequency for all histories; the root for trees with one root. Violated (proved): public inputs and outputs are lost whenever a tree with a root is loaded; without a root the old root stays published."
  },
  {
   "property": "C105",
   "status": "proved",
   "theorems": [
    "Verif.BT.Finish.c105_trees_finish",
    "Verif.BT.Finish.c105_answers",
    "Verif.BT.Finish.c105_row_is_product",
    "Verif.BT.Finish.c105_bound_reached",
    "Verif.BT.Finish.c105_endless",
    "Verif.Exec.Until.c105_until_result_ends",
    "Verif.Exec.Until.c105_goes_on",
    "Verif.Exec.Until.c105_endless_run"
   ],
   "note": "All kinds of nodes and all trees, after any operations. The bound for Sequence and Fallback is a product, since finished children are ticked again; it is reached (c105_bound_reached). The endless runs are proved for all numbers of steps."
  },
  {
   "property": "C106",
   "status": "partial",
   "theorems": [
    "Verif.Data.Generic.c106_accepts",
    "Verif.Data.Generic.c106_holds",
    "Verif.Data.Generic.c106_meaning",
    "Verif.Data.Generic.c106_first",
    "Verif.Data.Generic.c106_second_ignored",
    "Verif.Data.Generic.c106_compatible",
    "Verif.Data.Generic.c106_written",
    "Verif.Data.Generic.c106_options",
    "Verif.Data.Generic.c106_reversed_limits",
    "Verif.Data.Generic.c106_unknown_message",
    "Verif.Data.Generic.c106_own_value_refused",
    "Verif.Data.Generic.c106_no_options"
   ],
   "note": "Acceptance, meaning, compatibility and the round trips are proved for all values. Violated parts, with witnesses: the value an option starts with may be one it does not accept; accepted values with reversed limits or an unknown message make the type request raise; a second assignment answers Ok but is ignored; a message without permitted types raises. The round trip needs limits that are numbers of the described type."
  },
  {
   "property": "C107",
   "status": "partial",
   "theorems": [
    "Verif.Data.Refs.c107_created",
    "Verif.Data.Refs.c107_node_partial",
    "Verif.Data.Refs.c107_saved_partial",
    "Verif.Data.Refs.c107_unfitting_dropped",
    "Verif.Data.Refs.c107_empty_value_raises",
    "Verif.Data.Refs.c107_unbound"
   ],
   "note": "Proved for nodes created directly and, if the target is in the message too, from messages. Violated parts, with witnesses: a reference given without its target stays without type and no error is reported; a static value that does not fit is dropped silently; an empty value for a static input raises. The round trip needs containers whose elements are not nested (references may imitate nested types) and values that the value round trip of C50 covers."
  },
  {
   "property": "C108",
   "status": "partial",
   "theorems": [
    "Verif.Ros.Unused.c108_raises_iff",
    "Verif.Ros.Unused.c108_shutdown_partial",
    "Verif.Ros.Unused.c108_ok_iff",
    "Verif.Ros.Unused.c108_forever",
    "Verif.Ros.Unused.c108_failed_setup",
    "Verif.Ros.Unused.c108_hook_called",
    "Verif.Ros.Unused.c108_publisher",
    "Verif.Ros.Unused.c108_publisher_failed",
    "Verif.Ros.Unused.c108_wait_for_service",
    "Verif.Ros.Unused.c108_wait_for_service_failed",
    "Verif.Ros.Unused.c108_action",
    "Verif.Ros.Unused.c108_action_failed",
    "Verif.Ros.Unused.c108_others"
   ],
   "note": "Proved for trees without nodes that need a setup. Violated otherwise, with an exact characterisation: publishers, actions and nodes that wait for a service raise if they have not been set up; after a setup that fails before such a node every SHUTDOWN raises, forever. The tree model has no Subtree nodes; that `shutdown` calls the hook of an uninitialized node is proved in the full tree model."
  },
  {
   "property": "C109",
   "status": "partial",
   "theorems": [
    "Verif.Exec.Rest.c109_rest_partial",
    "Verif.Exec.Rest.c109_failed_shutdown"
   ],
   "note": "Edits are arbitrary functions on the tree that bring in no node that is set up; for the edit services see C118 (c118_rest_partial). The proviso about failed SHUTDOWNs is needed (witness)."
  },
  {
   "property": "C110",
   "status": "partial",
   "theorems": [
    "Verif.Exec.Rest.c110_shutdown_partial",
    "Verif.Exec.Rest.c110_idle_left",
    "Verif.Exec.Rest.c110_error_left",
    "Verif.Exec.Rest.c110_raised_left"
   ],
   "note": "Proved if the tree is EDITABLE, or ticking or waiting and the SHUTDOWN succeeds. Violated, with witnesses: after STOP or RESET (IDLE) and after an error the method does nothing although SHUTDOWN would work; after an exception in a tick the single SHUTDOWN is refused."
  },
  {
   "property": "C111",
   "status": "partial",
   "theorems": [
    "Verif.BT.Alive.c111_no_hidden_broken_partial",
    "Verif.BT.Alive.c111_throttle_success",
    "Verif.BT.Alive.c111_broken_root"
   ],
   "note": "Proved for trees without ThrottleSuccess, which turns an error of its child into FAILED (witness); not in use are the nodes below an Optional whose child cannot execute. The converse does not hold."
  },
  {
   "property": "C112",
   "status": "partial",
   "theorems": [
    "Verif.BT.Single.c112_one_branch_partial",
    "Verif.BT.Single.c112_ancestors_run_partial",
    "Verif.BT.Single.c112_sequence",
    "Verif.BT.Single.c112_memSequence",
    "Verif.BT.Single.c112_switch"
   ],
   "note": "Proved for trees of nodes that do not leave children RUNNING on their own (the exceptions are the findings of C18) and, for the first part, without Sequence and Fallback, which are documented to keep later children RUNNING. Violated by NameSwitch with a name that belongs to no child (witness)."
  },
  {
   "property": "C113",
   "status": "partial",
   "theorems": [
    "Verif.BT.Busy.c113_running_waits_partial",
    "Verif.BT.Busy.c113_gap"
   ],
   "note": "Proved for all trees in which no ParallelFailureTolerance has needed_successes + tolerate_failures greater than its number of children; with such a gap it can stay RUNNING although all children have finished (witness, see also C16)."
  },
  {
   "property": "C114",
   "status": "partial",
   "theorems": [
    "Verif.Files.Overlap.c114_alone",
    "Verif.Files.Overlap.c114_files",
    "Verif.Files.Overlap.c114_ids_partial",
    "Verif.Files.Overlap.c114_overlap"
   ],
   "note": "Files and parents are right for all interleavings; ids are different unless another listing begins meanwhile, which sets back the shared counter (witness). get_id is taken to be one step."
  },
  {
   "property": "C115",
   "status": "proved",
   "theorems": [
    "Verif.Nodes.Results.c115_do",
    "Verif.Nodes.Results.c115_chain",
    "Verif.Nodes.Results.c115_stops",
    "Verif.Nodes.Results.c115_and_then",
    "Verif.Nodes.Results.c115_or_else",
    "Verif.Nodes.Results.c115_equal",
    "Verif.Nodes.Results.c115_hooks"
   ],
   "note": "Generator expressions without conditions, as they are used; the parts raise no DoException themselves. Seven hooks are compared with the model."
  },
  {
   "property": "C116",
   "status": "partial",
   "theorems": [
    "Verif.Utility.Opt.c116_taken",
    "Verif.Utility.Opt.c116_unusable_partial",
    "Verif.Utility.Opt.c116_usable_partial",
    "Verif.Utility.Opt.c116_service",
    "Verif.Utility.Opt.c116_never",
    "Verif.Utility.Opt.c116_parallel",
    "Verif.Utility.Opt.c116_flow",
    "Verif.Utility.Opt.c116_input"
   ],
   "note": "c116_taken says exactly which children are taken: those that do not depend on ROS. Violated for all nodes with a service, an action, a topic or a parameter (never run), for a Parallel (exception) and for an EnumSwitch (run although not usable)."
  },
  {
   "property": "C117",
   "status": "partial",
   "theorems": [
    "Verif.Exec.Pool.c117_hangs_iff",
    "Verif.Exec.Pool.c117_goes_on_partial",
    "Verif.Exec.Pool.c117_ends_partial",
    "Verif.Exec.Pool.c117_idle_partial",
    "Verif.Exec.Pool.c117_late",
    "Verif.Exec.Pool.c117_forever",
    "Verif.Exec.Pool.c117_hang",
    "Verif.Exec.Pool.c117_hang_any"
   ],
   "note": "Proved for fewer requests at a time than threads of the pool (three), for all schedules. Violated otherwise: three requests that read TICKING at the same moment occupy all threads, the timer that wakes the tick thread cannot run, and nothing is answered any more. c117_hangs_iff says exactly when."
  },
  {
   "property": "C118",
   "status": "partial",
   "theorems": [
    "Verif.Whole.c118_same_tree",
    "Verif.Whole.c118_no_orphans",
    "Verif.Whole.c118_rest_partial",
    "Verif.Whole.c118_removed_partial",
    "Verif.Whole.c118_unedited_partial",
    "Verif.Whole.c118_shown_partial",
    "Verif.Whole.c118_erased",
    "Verif.Whole.c118_stale"
   ],
   "note": "Edit model and execution model combined: the tree that is ticked is read off the edited objects. Proved for careful edits (see C29, C30) and trees without Subtree nodes. Violated by SHUTDOWN of nodes that do not form a tree: it erases all links, reports success and publishes nothing (c118_erased), and the next move may be refused because of the stale adjacency lists (c118_stale). That removed nodes are not set up needs that no SHUTDOWN failed while the tree could be edited (see C109)."
  },
  {
   "property": "C119",
   "status": "partial",
   "theorems": [
    "Verif.Whole.Process.c119_default",
    "Verif.Whole.Process.c119_not_loaded",
    "Verif.Whole.Process.c119_end_partial",
    "Verif.Whole.Process.c119_left_running"
   ],
   "note": "The start is proved for all trees made by careful edits and saved. The end is proved if the tree can be edited; violated otherwise (witness): main never calls TreeNode.shutdown, so an interrupt leaves running nodes as they are. What rclpy does to a tick thread that sleeps when the context ends is not modelled."
  },
  {
   "property": "C120",
   "status": "partial",
   "theorems": [
    "Verif.Files.Lists.c120_packages_partial",
    "Verif.Files.Lists.c120_hidden",
    "Verif.Files.Lists.c120_messages_partial",
    "Verif.Files.Lists.c120_start",
    "Verif.Files.Lists.c120_republished",
    "Verif.Files.Lists.c120_durable",
    "Verif.Files.Lists.c120_stale",
    "Verif.Files.Lists.c120_channels_partial",
    "Verif.Files.Lists.c120_no_type"
   ],
   "note": "Proved if no directory name only begins like /opt/ros, all message classes can be imported, all channels have a type, and nothing is installed after the start. Violated otherwise (witnesses): packages in /opt/ros_ws are hidden; one class that cannot be imported ends the start-up; one channel without type suppresses all channels; later installations are never published. Names of message types (get_interface_name) and the contents of rosidl_runtime_py are not modelled."
  },
  {
   "property": "C121",
   "status": "partial",
   "theorems": [
    "Verif.Data.Equal.c121_equivalence_partial",
    "Verif.Data.Equal.c121_alike_partial",
    "Verif.Data.Equal.c121_updated",
    "Verif.Data.Equal.c121_nan",
    "Verif.Data.Equal.c121_config",
    "Verif.Data.Equal.c121_copy_partial",
    "Verif.Data.Equal.c121_self",
    "Verif.Data.Equal.c121_never",
    "Verif.Data.Equal.c121_raises"
   ],
   "note": "Containers and configurations: proved for values without NaN, equal containers behave alike if both or none of them is updated (else violated, witness). Nodes: violated: two node objects are never equal, as NodeDataMap has no __eq__; comparing raises AttributeError in exactly characterised cases. References, numpy arrays and tags are left out."
  },
  {
   "property": "C122",
   "status": "partial",
   "theorems": [
    "Verif.Whole.Wires.c122_no_error",
    "Verif.Whole.Wires.c122_flow_partial",
    "Verif.Whole.Wires.c122_ticked_partial",
    "Verif.Whole.Wires.c122_stale"
   ],
   "note": "Proved for histories of careful edits in which no SHUTDOWN fails while the tree can be edited; both are needed (c122_stale: a leaf that answers IDLE when shut down leaves a tree that is ticked without any connections). The nested trees of Subtrees are left out."
  },
  {
   "property": "C123",
   "status": "partial",
   "theorems": [
    "Verif.Nodes.Iterate.c123_item_partial",
    "Verif.Nodes.Iterate.c123_round_partial",
    "Verif.Nodes.Iterate.c123_given_partial",
    "Verif.Nodes.Iterate.c123_unnoticed"
   ],
   "note": "Proved unless a list arrives within the child's tick or equals one that is waiting to be noticed (neither can happen if nothing is wired to list); the latter is needed (c123_unnoticed: the mark of a changed list gets lost, C52). The child's own subtree is any sequence of events at other nodes."
  },
  {
   "property": "C124",
   "status": "partial",
   "theorems": [
    "Verif.Whole.Values.c124_at_hooks_partial",
    "Verif.Whole.Values.c124_at_rest_partial",
    "Verif.Whole.Values.c124_excluded",
    "Verif.Whole.Refine.c124_classes_partial"
   ],
   "note": "Proved unless the source is BROKEN or is above the node and in the middle of its tick, for hooks that set an output at most once per tick, only in ticks, and answer with a state in which a tick may end; c124_excluded shows that each of these exclusions is needed in the code as it is. Setup and shutdown of the whole tree are the start and the end of the history; Subtree nodes are not split up."
  },
  {
   "property": "C125",
   "status": "proved",
   "theorems": [
    "Verif.Whole.Refine.c125_refines",
    "Verif.Whole.Refine.c125_no_hidden_broken",
    "Verif.Whole.Refine.c125_quiet"
   ],
   "note": "A refinement of the trees with data by the trees whose nodes get arbitrary answers. c125_no_hidden_broken and c125_quiet carry C111 and C18 over, with the classes excluded there."
  },
  {
   "property": "C126",
   "status": "partial",
   "theorems": [
    "Verif.BT.Inline.c126_transparent_partial",
    "Verif.BT.Inline.c126_trees_partial",
    "Verif.BT.Inline.c126_same_partial",
    "Verif.BT.Inline.c126_shutdown_error"
   ],
   "note": "Proved for operations that make sense in the state of the node, while the Subtree node gets its inputs and can initialize its wirings, and if failures leave the root BROKEN; for trees whose root is not a leaf only shutdown can fail otherwise. Violated then (c126_shutdown_error): after a failed shutdown the Subtree node is BROKEN although its root is SHUTDOWN. c126_same_partial: full exchangeability in any tree, for nested trees that no refused or superfluous call changes. Data: C92."
  },
  {
   "property": "C127",
   "status": "partial",
   "theorems": [
    "Verif.Whole.Program.c127_equations_partial",
    "Verif.Whole.Program.c127_determined_partial",
    "Verif.Whole.Program.c127_classes_partial",
    "Verif.Whole.Program.c127_backward"
   ],
   "note": "Proved for leaves that compute in each tick and set no output twice, with no operation of single nodes besides those of the root; the getters (they answer early when nothing has changed) and nodes that keep something between ticks are left out. Values are compared as containers store them (1 and True are equal). c127_determined_partial: for outputs that are set in each tick."
  },
  {
   "property": "C128",
   "status": "partial",
   "theorems": [
    "Verif.Whole.Progress.c128_progress_partial",
    "Verif.Whole.Progress.c128_correct_partial",
    "Verif.Whole.Progress.c128_classes_partial",
    "Verif.Whole.Progress.c128_wire_partial",
    "Verif.Whole.Progress.c128_refused",
    "Verif.Whole.Progress.c128_sample"
   ],
   "note": "Proved for Sequences over leaves that compute in each tick and whose untick and reset do nothing, in a tree that is not used as a subtree (no wirings from and to a surrounding tree). c128_wire_partial derives that a wiring fits from its acceptance by the editor, under the conditions of C49; c128_refused shows that an output type that is too narrow makes the tick fail."
  },
  {
   "property": "C129",
   "status": "partial",
   "theorems": [
    "Verif.BT.Renew.c129_as_new_partial",
    "Verif.BT.Renew.c129_throttle",
    "Verif.BT.Renew.c129_no_auto_reset"
   ],
   "note": "Violated by Throttle, which keeps its cached answer over a reset (c129_throttle), and by RepeatNoAutoReset, which goes on counting as documented (c129_no_auto_reset). Proved for trees without these two in which every node is in use (no Optional whose child is not run, no Subtree without a tree); both trees get the same answers from the outside world."
  },
  {
   "property": "C130",
   "status": "proved",
   "theorems": [
    "Verif.Ros.Renew.c130_wait",
    "Verif.Ros.Renew.c130_publisher",
    "Verif.Ros.Renew.c130_wait_service",
    "Verif.Ros.Renew.c130_service",
    "Verif.Ros.Renew.c130_subscriber",
    "Verif.Ros.Renew.c130_memory_subscriber",
    "Verif.Ros.Renew.c130_action",
    "Verif.Ros.Renew.c130_unnoticed"
   ],
   "note": "One theorem per class. Requests and goals carry numbers in the model only; where they do, both leaves are taken with the same next number. c130_unnoticed shows that the condition on the inputs is needed: an Action node may otherwise send a goal from before the reset."
  },
  {
   "property": "C131",
   "status": "proved",
   "theorems": [
    "Verif.Data.Shared.c131_contents",
    "Verif.Data.Shared.c131_get",
    "Verif.Data.Shared.c131_set_item",
    "Verif.Data.Shared.c131_without_copies",
    "Verif.Data.Shared.copyAll_copies"
   ],
   "note": "A heap of objects. copy.deepcopy is any function with the contract Copies (old objects stay, the copy is new and has the same value); copyAll_copies shows that there is one. c131_without_copies: without copies the property is violated. This justifies that data are values in the other parts of the model. Objects that contain themselves have no value."
  },
  {
   "property": "C132",
   "status": "partial",
   "theorems": [
    "Verif.Ros.Rpc.c132_answer_partial",
    "Verif.Ros.Rpc.c132_outstanding_partial",
    "Verif.Ros.Rpc.c132_called_partial",
    "Verif.Ros.Rpc.c132_done",
    "Verif.Ros.Rpc.c132_stale"
   ],
   "note": "Proved for executions in which no input gets, between two ticks, a value equal to the one that has arrived since the last tick. c132_stale: otherwise the flag of the input is lost (see C52) and the node answers SUCCEEDED with the response to an old request. c132_called_partial and c132_done: when it calls and when it succeeds."
  },
  {
   "property": "C133",
   "status": "partial",
   "theorems": [
    "Verif.Ros.Goal.c133_goal_partial",
    "Verif.Ros.Goal.c133_answer_partial",
    "Verif.Ros.Goal.c133_first_partial",
    "Verif.Ros.Goal.c133_again_partial",
    "Verif.Ros.Goal.c133_untick",
    "Verif.Ros.Goal.c133_stale"
   ],
   "note": "Proved for executions in which no input gets a value equal to one that has arrived since the last tick, and in which the name of the action does not change around an untick. c133_untick: otherwise the goal for the new action is sent to the old action, because an untick keeps the client. c133_stale: a flag is lost (see C52) and the node answers SUCCEEDED with the result of an old goal."
  },
  {
   "property": "C134",
   "status": "partial",
   "theorems": [
    "Verif.Exec.Locks.c134_progress",
    "Verif.Exec.Locks.c134_exclusive",
    "Verif.Exec.Locks.c134_answered_partial",
    "Verif.Exec.Locks.c134_can_end",
    "Verif.Exec.Locks.c134_clear_twice"
   ],
   "note": "No deadlock, mutual exclusion, and an end of all requests present, for all numbers of threads and interleavings. Missing: code between lock operations is one step that always ends; waiting for the tick thread is left to C46 and C117; a single request may be overtaken for ever if new ones keep coming, since Python locks are not fair."
  },
  {
   "property": "C135",
   "status": "proved",
   "theorems": [
    "Verif.BT.Formula.c135_formula",
    "Verif.BT.Formula.c135_boolean"
   ],
   "note": "For all trees with distinct ids, after every history of operations. Nodes with memory, Parallel, switches, Subtree and leaves are atoms with arbitrary behaviour."
  },
  {
   "property": "C136",
   "status": "proved",
   "theorems": [
    "Verif.BT.Resume.c136_resume",
    "Verif.BT.Resume.c136_leftover"
   ],
   "note": "For all trees with distinct ids. c136_leftover: a setup or reset at the beginning is needed, since an untick does not clear the memory of a MemoryFallback (C14)."
  },
  {
   "property": "C137",
   "status": "proved",
   "theorems": [
    "Verif.BT.Refactor.c137_refactor",
    "Verif.BT.Refactor.c137_memory",
    "Verif.BT.Refactor.rw_sound",
    "Verif.BT.Refactor.flatten_conj",
    "Verif.BT.Refactor.flatten_disj",
    "Verif.BT.Refactor.de_morgan_conj",
    "Verif.BT.Refactor.de_morgan_disj",
    "Verif.BT.Refactor.inv_inv",
    "Verif.BT.Refactor.form_proper",
    "Verif.BT.Refactor.mform_proper",
    "Verif.BT.Refactor.c137_assigned",
    "Verif.BT.Refactor.c137_mixed"
   ],
   "note": "For all trees with distinct ids. form_proper and mform_proper: the side condition of the rules holds for all parts of a tree. c137_assigned: with an atom that answers ASSIGNED, moving an Inverter changes the answer. c137_mixed: why a Sequence may not be dissolved in a MemorySequence."
  },
  {
   "property": "C138",
   "status": "proved",
   "theorems": [
    "Verif.BT.Rounds.c138_round",
    "Verif.BT.Rounds.c138_duration",
    "Verif.BT.Tolerance.c138_ends_iff",
    "Verif.BT.Tolerance.c138_safe_options",
    "Verif.BT.Tolerance.c138_forever"
   ],
   "note": "All children, options, pasts and durations, for rounds in which all ticks answer Ok. c138_duration is for Parallel with at least one needed success; for ParallelFailureTolerance the exact condition is proved."
  },
  {
   "property": "C139",
   "status": "proved",
   "theorems": [
    "Verif.BT.Duration.c139_duration",
    "Verif.BT.Duration.c139_ends",
    "Verif.BT.Again.c139_rounds",
    "Verif.BT.Duration.lasts_fin",
    "Verif.BT.Duration.lasts_takes",
    "Verif.BT.Again.due_takes"
   ],
   "note": "All trees, atoms, durations and pasts; c139_duration is about the round after a setup or reset, c139_rounds about any number of further rounds."
  },
  {
   "property": "C140",
   "status": "proved",
   "theorems": [
    "Verif.Exec.Takes.c140_setup",
    "Verif.Exec.Takes.c140_reset",
    "Verif.Exec.Takes.c140_again",
    "Verif.Exec.Takes.c140_twice"
   ],
   "note": "All trees, atoms, durations and pasts, for runs that nothing disturbs (no exception, no failed wiring, no other command). If the untick at the end fails, the state is ERROR."
  },
  {
   "property": "C141",
   "status": "proved",
   "theorems": [
    "Verif.Exec.Periodic.c141_periodic",
    "Verif.Exec.Periodic.loop"
   ],
   "note": "All trees, atoms, rounds and pasts, for runs that nothing disturbs before the STOP (no exception, no failed wiring, no other command); the STOP comes when the thread is at the head of its loop (any other place: C117)."
  },
  {
   "property": "C142",
   "status": "proved",
   "theorems": [
    "Verif.Exec.Single.c142_by_hand",
    "Verif.Exec.Single.c142_first",
    "Verif.Exec.Single.c142_until",
    "Verif.Exec.Single.onces_up"
   ],
   "note": "All trees, atoms, rounds and pasts, for runs that nothing disturbs (no exception, no failed wiring, no other command), stated for control_execution."
  },
  {
   "property": "C143",
   "status": "proved",
   "theorems": [
    "Verif.Exec.Restart.c143_until",
    "Verif.Exec.Restart.c143_periodic",
    "Verif.Exec.Restart.c143_by_hand",
    "Verif.Exec.Restart.c143_stop",
    "Verif.Exec.Restart.c143_shutdown",
    "Verif.Exec.Restart.c143_again"
   ],
   "note": "Any state of the tree manager, its tick thread and the tree (not only reachable ones), as requests to control_execution. Assumed from the request on: inputs arrive and no exception is raised (as in C140), no node has a missing parent, and the ticks do not fail. c143_stop and c143_again are what the property says about STOP; with a MemoryFallback the latter is wrong (c140_twice). c143_shutdown: if the tree is ticking or no tick thread runs."
  },
  {
   "property": "C144",
   "status": "partial",
   "theorems": [
    "Verif.Exec.Answer.c144_promises_partial",
    "Verif.Exec.Answer.c144_stop_waiting",
    "Verif.Exec.Answer.c144_nothing_to_stop",
    "Verif.Exec.Answer.c144_empty"
   ],
   "note": "Any state, any command. Violated by STOP in WAITING_FOR_TICK: the answer says IDLE, the tree stays WAITING_FOR_TICK (c144_stop_waiting). A manager without nodes answers the ticking commands with success and does nothing (c144_empty). STOP is proved for TICKING; if there is nothing to stop the answer is no success (c144_nothing_to_stop). Commands one after the other (overlapping: C46). The answer to TICK_PERIODICALLY is compared with the state before the new thread's first step."
  }
 ]
}
