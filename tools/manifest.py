#!/usr/bin/env python3
"""Writes MANIFEST.json. One entry per property with the theorems that establish it."""
import json, os

C = []


def claim(prop, status, theorems, note):
    C.append({"property": prop, "status": status,
              "theorems": ["Verif." + t for t in theorems], "note": note})


claim("C01", "proved", ["BT.c01_rejected_call_has_no_effect", "BT.c01_accepted_call_runs_hook"],
      "All trees, all operations.")
claim("C02", "proved", ["BT.c02_result_is_state"], "All trees, all operations.")
claim("C03", "proved", ["BT.c03_setup_reaches_all"],
      "All trees; nodes below an Optional whose child cannot execute are excepted, as documented.")
claim("C04", "proved", ["BT.c04_shutdown_reaches_all", "BT.c04_shutdown_leaves_nothing_active"],
      "All trees and histories; nodes inside a never set-up Subtree stay UNINITIALIZED.")
claim("C05", "partial", ["BT.c05_reset_reaches_all_partial", "BT.c05_reset_misses_child"],
      "The code violates the full statement for RepeatNoAutoReset (witness proved).")
claim("C06", "proved", ["BT.c06_untick_leaves_nothing_running"], "All trees.")
claim("C07", "proved", ["BT.c07_one_tick_per_node", "BT.c07_only_tick_ticks"], "All trees with distinct node ids.")
claim("C08", "partial", ["BT.c08_errors_surface_partial", "BT.c08_throttle_success_swallows"],
      "Proved for all trees without ThrottleSuccess; the code violates the full statement for ThrottleSuccess (witness proved).")
claim("C09", "proved", ["BT.c09_past_is_forgotten", "BT.c09_histories_are_forgotten"],
      "All trees and pasts that end with every node SHUTDOWN.")
claim("C10", "proved", ["BT.c10_failed_call_breaks", "BT.c10_missing_input_breaks",
      "BT.c10_undelivered_output_fails", "BT.c10_broken_is_stuck", "BT.c10_shutdown_recovers"], "All trees.")
claim("C11", "proved", ["BT.c11_sequence", "BT.c11_sequence_error"], "All trees, all states.")
claim("C12", "proved", ["BT.c12_fallback", "BT.c12_fallback_error"], "All trees, all states.")
claim("C13", "proved", ["BT.c13_memory_sequence"], "All trees and histories.")
claim("C14", "partial", ["BT.c14_memory_fallback_partial", "BT.c14_stale_memory"],
      "The code violates the full statement after a finished tick followed by untick (witness proved).")
claim("C15", "proved", ["BT.c15_parallel", "BT.c15_parallel_terminates"], "All trees and histories.")
claim("C16", "partial", ["BT.c16_parallel_tolerance_partial", "BT.c16_never_finishes"],
      "Thresholds proved for all trees and histories; the code violates the last clause (witness proved).")
claim("C17", "proved", ["BT.c17_switch", "BT.c17_switch_distinct", "BT.c17_unknown_name_leaves_running"],
      "All trees and histories; an unknown name fails without stopping the running child (witness proved).")
claim("C18", "partial", ["BT.c18_finished_is_quiet_partial", "BT.c18_calm_root_is_quiet", "BT.c18_ignore_running",
      "BT.c18_throttle_success", "BT.c18_iterate_list", "BT.c18_throttle_clock"],
      "Proved for all trees whose nodes are clean; the code violates it for IgnoreRunning, ThrottleSuccess, switches with an unknown name, IterateList with an emptied list, Throttle with a clock that jumps back (witnesses proved).")
claim("C19", "proved", ["BT.c19_retry"], "All trees and histories.")
claim("C20", "proved", ["BT.c20_repeat"], "All trees and histories.")
claim("C21", "proved", ["BT.c21_quota"], "All trees and histories.")
claim("C22", "proved", ["BT.c22_table", "BT.c22_watch", "BT.c22_optional"], "All trees and histories.")
claim("C23", "proved", ["BT.c23_unusable_child_untouched", "BT.c23_setup_skips_child"],
      "All trees and histories; the child's calculate_utility is an arbitrary oracle.")
claim("C24", "proved", ["BT.c24_iterate", "BT.c24_never_outside", "BT.c24_shortened_list_fails"],
      "All trees and histories; a list that shrinks without being marked as updated makes the tick fail (witness proved).")
claim("C25", "proved", ["Utility.c25_sequence", "Utility.c25_sequence_tight", "Utility.c25_sequence_full", "Utility.c25_trees"],
      "All children, bounds and costs (exact arithmetic); also tight, and for whole trees of Sequences, Fallbacks and transparent decorators.")
claim("C26", "proved", ["Utility.c26_fallback", "Utility.c26_fallback_tight", "Utility.c26_fallback_full"],
      "All children, bounds and costs (exact arithmetic); also tight.")
claim("C27", "partial", ["Utility.c27_parallel_partial", "Utility.c27_parallel_full", "Utility.c27_parallel_tight",
      "Utility.c27_lower_with_more", "Utility.c27_missing_bound", "Utility.c27_more_successes", "Utility.c27_tolerance_ignored"],
      "Sound and tight if every child reports all bounds. The code violates the statement if a child lacks an upper bound, if more children than needed succeed at once, and for ParallelFailureTolerance (witnesses proved).")
claim("C28", "partial", ["Utility.c28_transparent_partial", "Utility.c28_restarting_partial", "Utility.c28_optional", "Utility.c28_unsound"],
      "Proved for transparent decorators and Optional, lower bounds for restarting ones. The code violates it for Inverter, IgnoreFailure, IgnoreSuccess, UntilSuccess (witnesses proved).")
claim("C29", "partial", ["Edit.c29_links_partial", "Edit.c29_step_partial", "Edit.c29_morph_breaks", "Edit.c29_load_breaks"],
      "All histories of requests with fresh ids, morphs that fit and well-formed messages; the code violates it for a rejected morph_node and for messages with shared children (witnesses proved).")
claim("C30", "partial", ["Edit.c30_no_cycle_partial", "Edit.c30_move_breaks", "Edit.c30_replace_breaks",
      "Edit.c30_replace_parent_breaks", "Edit.c30_load_breaks", "Edit.Exactly.c30_move_exact", "Edit.Exactly.c30_replace_exact",
      "Edit.Exactly.c30_replace_all", "Edit.Exactly.c30_load_exact", "Edit.Exactly.c30_histories_partial"],
      "All histories of careful requests; the code violates it otherwise (witnesses proved). The theorems of Edit.Exactly say exactly which accepted requests make a cycle: a move of a node to itself, a replacement by the parent, a replacement of a node without parent by a node below its children, and messages that are cyclic themselves; histories without these never make one.")
claim("C31", "proved", ["Edit.c31_limits", "Edit.c31_limits_step"], "All histories of requests.")
claim("C32", "proved", ["Edit.c32_wirings", "Edit.c32_dict"], "All histories of requests.")
claim("C33", "partial", ["Edit.c33_rejected_partial", "Edit.c33_add_leaks", "Edit.c33_add_bad_parent_leaks", "Edit.c33_morph_breaks", "Edit.c33_load_clears"],
      "The code violates it for add_node with a full or invalid parent, morph_node without room, load_tree (witnesses proved).")
claim("C34", "proved", ["Edit.c34_root", "Edit.c34_empty", "Edit.c34_root_parent"], "All states.")
claim("C35", "proved", ["Edit.c35_move", "Edit.c35_move_refused", "Edit.c35_remove"],
      "All histories of careful requests (those that keep the tree well formed, see C29 and C30).")
claim("C36", "proved", ["Edit.c36_unwire", "Edit.c36_wire_unwire", "Edit.c36_unwire_wire", "Edit.c36_wire_ignore", "Edit.c36_unwire_twice_crashes"],
      "All states; a request that names one wiring twice raises an exception (witness proved).")
claim("C37", "proved", ["Edit.c37_round_trip", "Edit.c37_load", "Edit.c37_reload_empties"],
      "All histories of careful requests, any loading manager; also exact loading of any message that describes a forest. reload_tree itself empties the tree (witness proved).")
claim("C38", "partial", ["Edit.c38_exact_partial", "Edit.c38_hangs", "Edit.c38_fuel", "Edit.c38_add_node_hangs"],
      "Exact whenever the search ends; the code does not terminate if a parent chain leads into a cycle that misses the start (witness proved).")
claim("C39", "proved", ["Exec.c39_rejected", "Exec.c39_edit", "Exec.c39_locked"],
      "All states, requests and runs, requests handled one after the other; until the next SHUTDOWN refused edits have no effect at all.")
claim("C40", "partial", ["Exec.c40_no_tick_during_edit_partial", "Exec.c40_states_partial", "Exec.Race.c40_check_then_tick", "Exec.Race.c43_shutdown_while_unticking"],
      "Proved for all runs in which requests are handled one after the other (the tick thread runs in between). The code violates it for overlapping requests, and a SHUTDOWN can overtake the final untick (witnesses proved).")
claim("C41", "proved", ["Exec.Race.c41_one_edit"], "Any number of service threads, all schedules, nested edit handlers included.")
claim("C42", "proved", ["Exec.c42_command", "Exec.c42_error_stays"], "All trees, all histories, all later commands, edits and thread steps.")
claim("C43", "partial", ["Exec.c43_shutdown_partial", "Exec.Race.c43_shutdown_while_unticking"],
      "All trees, all histories of commands, edits, errors and exceptions, commands being atomic with respect to the tick thread. The code violates it if the tick thread ends a run between two reads of the tree state (witness proved).")
claim("C44", "partial", ["Exec.c44_recovery_partial", "Exec.c44_stuck_in_waiting"],
      "All reachable states except WAITING_FOR_TICK with a root that cannot be unticked; the code violates it there (witness proved: no number of SHUTDOWNs helps).")
claim("C45", "proved", ["Exec.c45_story", "Exec.c45_ends", "Exec.c45_periodic", "Exec.c45_once", "Exec.c45_once_works", "Exec.c45_multiple", "Exec.c45_until_result", "Exec.c45_incomplete_once", "Exec.c45_incomplete_multiple"],
      "All operations of the root, all runs, all times of stop requests, errors and exceptions.")
claim("C46", "partial", ["Exec.c46_one_thread_partial", "Exec.c46_busy", "Exec.Race.c46_one_controller_partial", "Exec.Race.c46_two_threads"],
      "All schedules in which commands do not overlap each other. The code violates it for overlapping commands (witness proved).")
claim("C47", "partial", ["Data.c47_permitted_partial", "Data.c47_permitted_noFloat", "Data.c47_dynamic", "Data.c47_set", "Data.c47_accepts", "Data.c47_default_int",
      "Data.c47_nan", "Data.c47_default_float", "Data.c47_default_options", "Data.c47_default_path", "Data.c47_default_list", "Data.c47_float_moved"],
      "All types and nestings, all histories of assignments, resets and deserializations. The code violates it for NaN and for the initial values of several types (witnesses proved).")
claim("C48", "partial", ["Data.c48_locked_partial", "Data.c48_first_write_partial", "Data.c48_reset", "Data.c48_never_wired", "Data.c48_after_tick", "Data.c48_after_default"],
      "As long as the update flags are not reset. The code violates it after the first tick and if the first value equals the default (witnesses proved).")
claim("C49", "partial", ["Data.c49_compatible_partial", "Data.c49_wiring_partial", "Data.c49_nested", "Data.c49_options"],
      "All types and nestings at container level, nesting depth one at wiring level. The code violates it for options and for nested lists (witnesses proved).")
claim("C50", "partial", ["Data.c50_type_partial", "Data.c50_nested_flattened", "Data.c50_nested_lost", "Data.c50_no_options_lost", "Data.c50_value_partial",
      "Data.c50_container_partial", "Data.c50_dict_raises", "Data.c50_array_raises"],
      "All types without nested lists and all values without dictionaries and numeric arrays. The code violates it for the excluded ones (witnesses proved).")
claim("C51", "partial", ["Data.c51_tick_partial", "Data.c51_in_sync_partial", "Data.c51_echo", "Data.c51_two_sources"],
      "All wiring graphs in which no input has two sources, all values, all executions in which no hook writes the same new value twice in one tick. The code violates it in the excluded cases (witnesses proved).")
claim("C52", "partial", ["Data.c52_step_partial", "Data.c52_stays_partial", "Data.c52_lost_by_reset", "Data.c52_lost_in_tick", "Data.c52_lost_in_subtree"],
      "All executions: an update is lost only if an equal value is delivered before the node has been ticked, or if it is delivered during a tick of the node. The code violates it in these cases (witnesses proved).")
claim("C53", "partial", ["Data.c53_succeeds", "Data.c53_union", "Data.c53_failure_partial", "Data.c53_classes", "Data.c53_half_merged"],
      "All configurations, and all lists of base classes; success also needs equal max_children. The code violates the last part: a failed merge has copied the keys that do not collide (witness proved).")
claim("C54", "proved", ["Files.c54_counts", "Files.c54_starts", "Files.c54_different", "Files.c54_fresh", "Files.c54_not_injective", "Files.c54_newline"],
      "All strings with fewer than 4300 characters (Python's limit for numbers in strings) and all finite sets of taken names.")
claim("C55", "proved", ["Files.c55_overwrite", "Files.c55_saved", "Files.c55_rename", "Files.c55_refused", "Files.c55_rename_works", "Files.c55_new", "Files.c55_overwrite_works"],
      "All file systems without symbolic links, requests and disk errors, no other program writing at the same time.")
claim("C65", "proved", ["Edit.c65_replace", "Edit.c65_replace_by_ancestor", "Edit.c65_replace_by_itself", "Edit.c65_replace_without_room"],
      "All histories of careful requests; witnesses show what goes wrong for related nodes.")
claim("C66", "proved", ["Edit.c35_morph", "Edit.c35_set_options"], "All histories of polite requests.")
claim("C67", "proved", ["Data.c67_created", "Data.c67_accepted"], "All classes, given inputs and extra inputs; references between inputs are not modelled.")
claim("C68", "partial", ["Files.c68_below_partial", "Files.c68_escape"],
      "All relative file paths without '..'. The code violates it for '..' and for absolute paths (witnesses proved).")
claim("C69", "partial", ["Files.c69_failed_partial", "Files.c69_truncated"],
      "All failures except an error while writing. The code violates it there: the old content is gone (witness proved).")
claim("C70", "proved", ["Files.c70_ids", "Files.c70_parents", "Files.c70_files"], "All directory trees, unreadable directories included; no symbolic links that form loops.")
claim("C56", "proved", ["Ros.Wait.c56_answer", "Ros.Wait.c56_untick", "Ros.Wait.c56_stays"], "All histories; the clock may be arbitrary, c56_stays assumes that it does not run backwards.")
claim("C57", "proved", ["Ros.Service.c57_latest", "Ros.Service.c57_running", "Ros.Service.c57_outcome", "Ros.Service.c57_called", "Ros.Service.c57_once", "Ros.Service.c57_stopped"], "All histories, all server behaviours.")
claim("C58", "partial", ["Ros.Action.c58_watched_partial", "Ros.Action.c58_stopped_partial", "Ros.Action.c58_unanswered", "Ros.Action.c58_timed_out", "Ros.Action.c58_new_inputs"],
      "Holds for goals whose handle the node has; over whole executions every goal sent is closed after a stop if the node is not stopped and gets no new inputs while the server has not answered, and is not stopped between the detection of a timeout and the next tick. In each of these three cases the code loses the goal (counterexamples).")
claim("C59", "partial", ["Ros.Action.c59_latest", "Ros.Action.c59_succeeded_partial", "Ros.Action.c59_aborted", "Ros.Action.c59_rejected"],
      "SUCCEEDED always stems from the result of the goal sent last. The code ignores the status of the result and whether the goal was accepted (counterexamples).")
claim("C71", "partial", ["Ros.Action.c71_sent_partial", "Ros.Action.c71_running", "Ros.Action.c71_untick"],
      "After setup and reset. After untick the next tick raises TypeError instead (counterexample).")
claim("C72", "partial", ["Ros.Action.c72_waits", "Ros.Action.c72_timeout_partial", "Ros.Action.c72_unanswered"],
      "For goals the server has answered to. Without an answer the node waits forever (counterexample).")
claim("C61", "proved", ["Ros.Subscriber.c61_answer", "Ros.Subscriber.c61_once"],
      "See C75 for messages of a previous topic.")
claim("C62", "proved", ["Ros.Publisher.c62_publish", "Ros.Publisher.c62_once", "Ros.Publisher.c62_one_publisher",
                        "Ros.Publisher.c62_closed", "Ros.Publisher.c62_settings"],
      "A change of topic_type alone does not count as new settings.")
claim("C73", "proved", ["Ros.WaitService.c73_answer", "Ros.WaitService.c73_vanished"],
      "The time is not forgotten when the service becomes available: see c73_vanished.")
claim("C74", "partial", ["Ros.MemorySubscriber.c74_memory_partial", "Ros.MemorySubscriber.c74_never_old"],
      "Unless a message arrives between the two assignments of a reset (counterexample).")
claim("C75", "partial", ["Ros.Subscriber.c75_topic_partial", "Ros.Subscriber.c75_old_topic"],
      "Unless a message arrives while the subscription is being destroyed (counterexample).")
claim("C60", "proved", ["BT.c60_throttle", "BT.c60_reset_keeps"],
      "All children, clocks and histories. A reset does not forget the result (c60_reset_keeps).")
claim("C76", "partial", ["BT.c76_failed_partial", "BT.c76_always_failed", "BT.c76_not_passed_on"],
      "Only the answer FAILED for a failing child. The code never answers SUCCEEDED or RUNNING (proved for all histories, with a witness).")
claim("C63", "proved", ["Nodes.c63_list_item", "Nodes.c63_dict_item", "Nodes.c63_dict_items", "Nodes.c63_attr", "Nodes.c63_child", "Nodes.c63_stale"],
      "For inputs of the right types whose elements fit the output. With a child, once the child has succeeded (c63_child: otherwise its answer is passed on).")
claim("C64", "proved", ["Nodes.c64_compare", "Nodes.c64_new_only", "Nodes.c64_less", "Nodes.c64_again"],
      "Equality of Python values is specified by a separate inductive relation.")
claim("C77", "proved", ["Nodes.c77_length", "Nodes.c77_insert", "Nodes.c77_append", "Nodes.c77_set_dict", "Nodes.c77_is_in"],
      "For results that fit the output.")
claim("C78", "proved", ["Nodes.c78_constant", "Nodes.c78_passthrough", "Nodes.c78_concatenate"],
      "For results that fit the output.")
claim("C79", "partial", ["Nodes.c79_random_partial", "Nodes.c79_all", "Nodes.c79_equal"],
      "If the limits differ. With equal limits the tick is an error (c79_equal).")
claim("C80", "proved", ["Nodes.c80_arrives"],
      "For all hooks that yield a new value, if no two wirings of the node lead to the same input.")
claim("C81", "partial", ["Nodes.c81_set_attr"],
      "Violated: every tick of a SetAttr node is an error and puts out nothing (proved for all data).")
claim("C82", "partial", ["Edit.c82_nodes_partial", "Edit.c82_load", "Edit.c82_wirings_lost"],
      "Nodes, data and links for all careful histories; the code violates the statement for wirings, which are always dropped (witness proved).")
claim("C83", "partial", ["Edit.c83_result_partial", "Edit.c83_success", "Edit.c83_closed", "Edit.c83_parents_missing"],
      "Exact result and exact success condition for all careful histories and orders; the code violates the statement for nodes without near common parent (witness proved).")
claim("C84", "partial", ["Nodes.c84_integers_partial", "Nodes.c84_bools", "Nodes.c84_unary", "Nodes.c84_not", "Nodes.c84_sound",
                         "Nodes.c84_div_integers", "Nodes.c84_add_bools", "Nodes.c84_zero"],
      "Integers and bools, all operators but the true quotient, which the code never puts out for integers; division by zero raises (both proved). Floats are left abstract.")
claim("C85", "partial", ["Nodes.c85_convert"],
      "Violated: a Convert node can never be set up (proved for all inputs).")
claim("C86", "partial", ["Nodes.c86_url", "Nodes.c86_first_partial", "Nodes.c86_new_path", "Nodes.c86_kept", "Nodes.c86_right_partial",
                         "Nodes.c86_empty", "Nodes.c86_package", "Nodes.c86_lost"],
      "All files and histories in which a path is not delivered twice in a row. The code violates the statement for empty lists and dictionaries, unknown packages and repeated deliveries (each proved).")
claim("C87", "partial", ["Nodes.c87_types_partial", "Nodes.c87_string_package", "Nodes.c87_interface_partial", "Nodes.c87_complete", "Nodes.c87_clash", "Nodes.c87_unknown",
                         "Nodes.c87_values_partial", "Nodes.c87_fields_partial", "Nodes.c87_message", "Nodes.c87_round_partial",
                         "Nodes.c87_infinite", "Nodes.c87_fixed", "Nodes.c87_integers"],
      "All field types, messages and values, except packages named string..., fields named like own inputs, infinite numbers and arrays of a fixed number of numbers. For these the code violates the statement (each proved), and a list of integers for floats is accepted but then raises.")
claim("C88", "partial", ["Nodes.c88_outputs_partial", "Nodes.c88_refused"],
      "If the node can be made, its outputs are the constants. The code refuses every message that has constants, as it looks for the name of a constant among types (proved).")
claim("C89", "partial", ["Nodes.c89_outputs_partial", "Nodes.c89_ignored", "Nodes.c89_lost", "Nodes.c89_raises"],
      "Results, and feedback with the fields of the result. The code builds the feedback outputs from the result, so other feedback is lost or raises (proved).")
claim("C90", "partial", ["Nodes.c90_format_partial", "Nodes.c90_missing", "Nodes.c90_unknown", "Nodes.c90_braces", "Nodes.c90_conversions", "Nodes.c90_list",
                         "Nodes.c90_extension"],
      "All templates without !r and !a, all paths. The code ignores the conversions !r and !a, and FormatStringList always fails (both proved). Attribute access and format specifications in fields are left open in the model.")
claim("C91", "partial", ["Nodes.c91_param", "Nodes.c91_default_partial", "Nodes.c91_missing", "Nodes.c91_time"],
      "The default value is put out for parameters that are declared without a value. If there is no such parameter, the code fails instead (proved).")
claim("C92", "partial", ["Data.c92_in_partial", "Data.c92_out_partial", "Data.c92_marked", "Data.c92_interface", "Data.c92_repeated", "Data.c92_stale",
                         "Data.c92_not_reset", "Data.c92_static"],
      "Inputs: for executions in which no value is delivered again before the Subtree node has taken it in. Outputs: if resets of the Subtree node reach its IOOutput nodes. In both other cases the code violates the property, as with static inputs of IOInput nodes (all proved).")
claim("C93", "partial", ["Files.c93_message", "Files.c93_file_partial", "Files.c93_refused", "Files.c93_once", "Files.c93_hangs", "Files.c93_second_ignored",
                         "Files.c93_nested_partial", "Files.c93_nested_fails", "Files.c93_checked", "Files.c93_self", "Files.c93_saved_partial"],
      "For files with exactly one tree with nodes of a supported version, whose Subtree nodes do not lead back to the file. Otherwise the code violates the property: files without a tree or with an unsupported version make the load go on forever, a second tree is ignored, a tree that contains itself raises RecursionError (all proved). What the YAML library reads is a parameter.")
claim("C94", "partial", ["Files.c94_keeps", "Files.c94_copy", "Files.c94_inplace_others_partial", "Files.c94_inplace_partial", "Files.c94_twice", "Files.c94_loads", "Files.c94_abort", "Files.c94_lost"],
      "With --inplace only if no error occurs while writing, which loses the file (proved). A file that is not a mapping ends the program, the files after it are not migrated (proved).")
claim("C95", "partial", ["Exec.Subtrees.c95_add", "Exec.Subtrees.c95_clear", "Exec.Subtrees.c95_remove", "Exec.Subtrees.c95_switch", "Exec.Subtrees.c95_nest", "Exec.Subtrees.c95_flags", "Exec.Subtrees.c95_off", "Exec.Subtrees.c95_on", "Exec.Subtrees.c95_on_once",
                         "Exec.Subtrees.c95_nodes_partial", "Exec.Subtrees.c95_tick", "Exec.Subtrees.c95_setup_and_shutdown", "Exec.Subtrees.c95_left_over", "Exec.Subtrees.c95_old_data"],
      "What the manager holds and publishes is shown for all histories. That it matches the Subtree nodes of the tree holds only without SETUP_AND_SHUTDOWN, replacement of a Subtree node by another class, and late construction failures; the others violate the property, as does old data after switching (all proved).")
claim("C96", "partial", ["Exec.Diag.c96_transparent_partial", "Exec.Diag.c96_off", "Exec.Diag.c96_on_partial", "Exec.Diag.c96_path", "Exec.Diag.c96_switched_on", "Exec.Diag.c96_switched_off",
                         "Exec.Diag.c96_raised", "Exec.Diag.c96_no_pre"],
      "All nestings of calls; paths for all moments of switching. The code violates the rest if collecting is switched on or off while a node is called (an exception leaves the call, or its end is not reported), if a call raises an exception, and as messages before setup, untick, reset and shutdown do not say what they are about (all proved).")
claim("C97", "partial", ["Data.c97_lists", "Data.c97_current_partial", "Data.c97_sound_partial", "Data.c97_published_partial", "Data.c97_raises", "Data.c97_dict_raises", "Data.c97_true_is_one"],
      "All wiring graphs; values that can be written (C50), with the same type on both ends for the second part, executions as in C51 for the first. The code violates it for wired dictionaries of numbers, which cannot be published, and for equal values that are written differently (both proved). The published types are not modelled.")
claim("C98", "proved", ["BT.Laws.c98_context", "BT.Laws.c98_flatten", "BT.Laws.c98_de_morgan", "BT.Laws.c98_double_inversion", "BT.Laws.c98_decorators_join", "BT.Laws.c98_decorators_swap",
                        "BT.Laws.c98_nested_first", "BT.Laws.c98_assigned"],
      "Behaving alike: same answers, states and names after every sequence of operations, including failing ones; for all trees, trees not yet set up. The inversion of rows is for children that do not answer ASSIGNED or UNASSIGNED (with a counterexample otherwise); a nested Sequence that is not the last child may not be dissolved (counterexample proved).")
claim("C99", "partial", ["Exec.Shown.c99_at_rest_partial", "Exec.Shown.c99_same_runs", "Exec.Shown.c99_edit", "Exec.Shown.c99_tick", "Exec.Shown.c99_command", "Exec.Shown.c99_result_stays", "Exec.Shown.c99_start_late", "Exec.Shown.c99_exception"],
      "For all interleavings. Missing because the code violates it (each with a proved witness): after TICK_UNTIL_RESULT the published node states are those before the last untick; TICK_PERIODICALLY is published only after the first tick; after an exception in the tick thread nothing is published.")
claim("C100", "partial", ["Exec.Rate.c100_never_zero", "Exec.Rate.c100_mean_partial", "Exec.Rate.c100_never_warns", "Exec.Rate.c100_warns_iff", "Exec.Rate.c100_not_hertz", "Exec.Rate.c100_negative_frequency"],
      "Never zero, and the published number is the mean of a window of ten. The rest is violated: the number is not a frequency, the warning about slow ticks is never given for slow ticks, and a negative frequency leaves the tree TICKING without a thread (all proved). Frequencies are rationals, durations natural numbers of nanoseconds.")
claim("C101", "partial", ["Exec.Health.c101_levels_partial", "Exec.Health.c101_sound", "Exec.Health.c101_nameless", "Exec.Health.c101_old_name"],
      "Levels for all interleavings. The name is missing: the code never puts the name of a loaded tree into the published message (proved).")
claim("C102", "partial", ["Exec.Log.c102_published", "Exec.Log.c102_fatal_partial", "Exec.Log.c102_fatal_lost", "Exec.Log.c102_loggers"],
      "Publication and contents for all histories, with any number of subtrees; time stamp, file and line are not modelled. Fatal messages can be turned off with a level above 50 (proved), so that statement is for levels up to 50. Names of loggers: for every notion of word character that excludes the dot and the parenthesis.")
claim("C103", "partial", ["Data.Classes.c103_same_class", "Data.Classes.c103_list", "Data.Classes.c103_requested_partial", "Data.Classes.c103_half_loaded", "Data.Classes.c103_raised"],
      "For all module graphs (also cyclic), any depth of the stack and all histories. c103_requested_partial: as long as no module changes on disk. Violated (proved): a module that fails half way leaves classes behind that are used even after it has been repaired; exceptions other than ImportError and ValueError are not caught.")
claim("C104", "partial", ["Exec.Meta.c104_given", "Exec.Meta.c104_root_partial", "Exec.Meta.c104_public_lost", "Exec.Meta.c104_old_root"],
      "Name, path and frequency for all histories; the root for trees with one root. Violated (proved): public inputs and outputs are lost whenever a tree with a root is loaded; without a root the old root stays published.")
claim("C105", "proved", ["BT.Finish.c105_trees_finish", "BT.Finish.c105_answers", "BT.Finish.c105_row_is_product", "BT.Finish.c105_bound_reached", "BT.Finish.c105_endless", "Exec.Until.c105_until_result_ends", "Exec.Until.c105_goes_on", "Exec.Until.c105_endless_run"],
      "All kinds of nodes and all trees, after any operations. The bound for Sequence and Fallback is a product, since finished children are ticked again; it is reached (c105_bound_reached). The endless runs are proved for all numbers of steps.")
claim("C106", "partial", ["Data.Generic.c106_accepts", "Data.Generic.c106_holds", "Data.Generic.c106_meaning", "Data.Generic.c106_first", "Data.Generic.c106_second_ignored", "Data.Generic.c106_compatible", "Data.Generic.c106_written", "Data.Generic.c106_options", "Data.Generic.c106_reversed_limits", "Data.Generic.c106_unknown_message", "Data.Generic.c106_own_value_refused", "Data.Generic.c106_no_options"],
      "Acceptance, meaning, compatibility and the round trips are proved for all values. Violated parts, with witnesses: the value an option starts with may be one it does not accept; accepted values with reversed limits or an unknown message make the type request raise; a second assignment answers Ok but is ignored; a message without permitted types raises. The round trip needs limits that are numbers of the described type.")
claim("C107", "partial", ["Data.Refs.c107_created", "Data.Refs.c107_node_partial", "Data.Refs.c107_saved_partial", "Data.Refs.c107_unfitting_dropped", "Data.Refs.c107_empty_value_raises", "Data.Refs.c107_unbound"],
      "Proved for nodes created directly and, if the target is in the message too, from messages. Violated parts, with witnesses: a reference given without its target stays without type and no error is reported; a static value that does not fit is dropped silently; an empty value for a static input raises. The round trip needs containers whose elements are not nested (references may imitate nested types) and values that the value round trip of C50 covers.")
claim("C108", "partial", ["Ros.Unused.c108_raises_iff", "Ros.Unused.c108_shutdown_partial", "Ros.Unused.c108_ok_iff", "Ros.Unused.c108_forever", "Ros.Unused.c108_failed_setup", "Ros.Unused.c108_hook_called", "Ros.Unused.c108_publisher", "Ros.Unused.c108_publisher_failed", "Ros.Unused.c108_wait_for_service", "Ros.Unused.c108_wait_for_service_failed", "Ros.Unused.c108_action", "Ros.Unused.c108_action_failed", "Ros.Unused.c108_others"],
      "Proved for trees without nodes that need a setup. Violated otherwise, with an exact characterisation: publishers, actions and nodes that wait for a service raise if they have not been set up; after a setup that fails before such a node every SHUTDOWN raises, forever. The tree model has no Subtree nodes; that `shutdown` calls the hook of an uninitialized node is proved in the full tree model.")
claim("C109", "partial", ["Exec.Rest.c109_rest_partial", "Exec.Rest.c109_failed_shutdown"],
      "Edits are arbitrary functions on the tree that bring in no node that is set up; for the edit services see C118 (c118_rest_partial). The proviso about failed SHUTDOWNs is needed (witness).")
claim("C110", "partial", ["Exec.Rest.c110_shutdown_partial", "Exec.Rest.c110_idle_left", "Exec.Rest.c110_error_left", "Exec.Rest.c110_raised_left"],
      "Proved if the tree is EDITABLE, or ticking or waiting and the SHUTDOWN succeeds. Violated, with witnesses: after STOP or RESET (IDLE) and after an error the method does nothing although SHUTDOWN would work; after an exception in a tick the single SHUTDOWN is refused.")
claim("C111", "partial", ["BT.Alive.c111_no_hidden_broken_partial", "BT.Alive.c111_throttle_success", "BT.Alive.c111_broken_root"],
      "Proved for trees without ThrottleSuccess, which turns an error of its child into FAILED (witness); not in use are the nodes below an Optional whose child cannot execute. The converse does not hold.")
claim("C112", "partial", ["BT.Single.c112_one_branch_partial", "BT.Single.c112_ancestors_run_partial", "BT.Single.c112_sequence", "BT.Single.c112_memSequence", "BT.Single.c112_switch"],
      "Proved for trees of nodes that do not leave children RUNNING on their own (the exceptions are the findings of C18) and, for the first part, without Sequence and Fallback, which are documented to keep later children RUNNING. Violated by NameSwitch with a name that belongs to no child (witness).")
claim("C113", "partial", ["BT.Busy.c113_running_waits_partial", "BT.Busy.c113_gap"],
      "Proved for all trees in which no ParallelFailureTolerance has needed_successes + tolerate_failures greater than its number of children; with such a gap it can stay RUNNING although all children have finished (witness, see also C16).")
claim("C114", "partial", ["Files.Overlap.c114_alone", "Files.Overlap.c114_files", "Files.Overlap.c114_ids_partial", "Files.Overlap.c114_overlap"],
      "Files and parents are right for all interleavings; ids are different unless another listing begins meanwhile, which sets back the shared counter (witness). get_id is taken to be one step.")
claim("C115", "proved", ["Nodes.Results.c115_do", "Nodes.Results.c115_chain", "Nodes.Results.c115_stops", "Nodes.Results.c115_and_then", "Nodes.Results.c115_or_else", "Nodes.Results.c115_equal", "Nodes.Results.c115_hooks"],
      "Generator expressions without conditions, as they are used; the parts raise no DoException themselves. Seven hooks are compared with the model.")
claim("C116", "partial", ["Utility.Opt.c116_taken", "Utility.Opt.c116_unusable_partial", "Utility.Opt.c116_usable_partial", "Utility.Opt.c116_service", "Utility.Opt.c116_never", "Utility.Opt.c116_parallel", "Utility.Opt.c116_flow", "Utility.Opt.c116_input"],
      "c116_taken says exactly which children are taken: those that do not depend on ROS. Violated for all nodes with a service, an action, a topic or a parameter (never run), for a Parallel (exception) and for an EnumSwitch (run although not usable).")
claim("C117", "partial", ["Exec.Pool.c117_hangs_iff", "Exec.Pool.c117_goes_on_partial", "Exec.Pool.c117_ends_partial", "Exec.Pool.c117_idle_partial", "Exec.Pool.c117_late", "Exec.Pool.c117_forever", "Exec.Pool.c117_hang", "Exec.Pool.c117_hang_any"],
      "Proved for fewer requests at a time than threads of the pool (three), for all schedules. Violated otherwise: three requests that read TICKING at the same moment occupy all threads, the timer that wakes the tick thread cannot run, and nothing is answered any more. c117_hangs_iff says exactly when.")
claim("C118", "partial", ["Whole.c118_same_tree", "Whole.c118_no_orphans", "Whole.c118_rest_partial", "Whole.c118_removed_partial", "Whole.c118_unedited_partial", "Whole.c118_shown_partial", "Whole.c118_erased", "Whole.c118_stale"],
      "Edit model and execution model combined: the tree that is ticked is read off the edited objects. Proved for careful edits (see C29, C30) and trees without Subtree nodes. Violated by SHUTDOWN of nodes that do not form a tree: it erases all links, reports success and publishes nothing (c118_erased), and the next move may be refused because of the stale adjacency lists (c118_stale). That removed nodes are not set up needs that no SHUTDOWN failed while the tree could be edited (see C109).")
claim("C119", "partial", ["Whole.Process.c119_default", "Whole.Process.c119_not_loaded", "Whole.Process.c119_end_partial", "Whole.Process.c119_left_running"],
      "The start is proved for all trees made by careful edits and saved. The end is proved if the tree can be edited; violated otherwise (witness): main never calls TreeNode.shutdown, so an interrupt leaves running nodes as they are. What rclpy does to a tick thread that sleeps when the context ends is not modelled.")
claim("C120", "partial", ["Files.Lists.c120_packages_partial", "Files.Lists.c120_hidden", "Files.Lists.c120_messages_partial", "Files.Lists.c120_start", "Files.Lists.c120_republished", "Files.Lists.c120_durable", "Files.Lists.c120_stale", "Files.Lists.c120_channels_partial", "Files.Lists.c120_no_type"],
      "Proved if no directory name only begins like /opt/ros, all message classes can be imported, all channels have a type, and nothing is installed after the start. Violated otherwise (witnesses): packages in /opt/ros_ws are hidden; one class that cannot be imported ends the start-up; one channel without type suppresses all channels; later installations are never published. Names of message types (get_interface_name) and the contents of rosidl_runtime_py are not modelled.")
claim("C121", "partial", ["Data.Equal.c121_equivalence_partial", "Data.Equal.c121_alike_partial", "Data.Equal.c121_updated", "Data.Equal.c121_nan", "Data.Equal.c121_config", "Data.Equal.c121_copy_partial", "Data.Equal.c121_self", "Data.Equal.c121_never", "Data.Equal.c121_raises"],
      "Containers and configurations: proved for values without NaN, equal containers behave alike if both or none of them is updated (else violated, witness). Nodes: violated: two node objects are never equal, as NodeDataMap has no __eq__; comparing raises AttributeError in exactly characterised cases. References, numpy arrays and tags are left out.")
claim("C122", "partial", ["Whole.Wires.c122_no_error", "Whole.Wires.c122_flow_partial", "Whole.Wires.c122_ticked_partial", "Whole.Wires.c122_stale"],
      "Proved for histories of careful edits in which no SHUTDOWN fails while the tree can be edited; both are needed (c122_stale: a leaf that answers IDLE when shut down leaves a tree that is ticked without any connections). The nested trees of Subtrees are left out.")
claim("C123", "partial", ["Nodes.Iterate.c123_item_partial", "Nodes.Iterate.c123_round_partial", "Nodes.Iterate.c123_given_partial", "Nodes.Iterate.c123_unnoticed"],
      "Proved unless a list arrives within the child's tick or equals one that is waiting to be noticed (neither can happen if nothing is wired to list); the latter is needed (c123_unnoticed: the mark of a changed list gets lost, C52). The child's own subtree is any sequence of events at other nodes.")
claim("C124", "partial", ["Whole.Values.c124_at_hooks_partial", "Whole.Values.c124_at_rest_partial", "Whole.Values.c124_excluded", "Whole.Refine.c124_classes_partial"],
      "Proved unless the source is BROKEN or is above the node and in the middle of its tick, for hooks that set an output at most once per tick, only in ticks, and answer with a state in which a tick may end; c124_excluded shows that each of these exclusions is needed in the code as it is. Setup and shutdown of the whole tree are the start and the end of the history; Subtree nodes are not split up.")
claim("C125", "proved", ["Whole.Refine.c125_refines", "Whole.Refine.c125_no_hidden_broken", "Whole.Refine.c125_quiet"],
      "A refinement of the trees with data by the trees whose nodes get arbitrary answers. c125_no_hidden_broken and c125_quiet carry C111 and C18 over, with the classes excluded there.")
claim("C126", "partial", ["BT.Inline.c126_transparent_partial", "BT.Inline.c126_trees_partial", "BT.Inline.c126_same_partial", "BT.Inline.c126_shutdown_error"],
      "Proved for operations that make sense in the state of the node, while the Subtree node gets its inputs and can initialize its wirings, and if failures leave the root BROKEN; for trees whose root is not a leaf only shutdown can fail otherwise. Violated then (c126_shutdown_error): after a failed shutdown the Subtree node is BROKEN although its root is SHUTDOWN. c126_same_partial: full exchangeability in any tree, for nested trees that no refused or superfluous call changes. Data: C92.")
claim("C127", "partial", ["Whole.Program.c127_equations_partial", "Whole.Program.c127_determined_partial", "Whole.Program.c127_classes_partial", "Whole.Program.c127_backward"],
      "Proved for leaves that compute in each tick and set no output twice, with no operation of single nodes besides those of the root; the getters (they answer early when nothing has changed) and nodes that keep something between ticks are left out. Values are compared as containers store them (1 and True are equal). c127_determined_partial: for outputs that are set in each tick.")
claim("C128", "partial", ["Whole.Progress.c128_progress_partial", "Whole.Progress.c128_correct_partial", "Whole.Progress.c128_classes_partial", "Whole.Progress.c128_wire_partial", "Whole.Progress.c128_refused", "Whole.Progress.c128_sample"],
      "Proved for Sequences over leaves that compute in each tick and whose untick and reset do nothing, in a tree that is not used as a subtree (no wirings from and to a surrounding tree). c128_wire_partial derives that a wiring fits from its acceptance by the editor, under the conditions of C49; c128_refused shows that an output type that is too narrow makes the tick fail.")
claim("C129", "partial", ["BT.Renew.c129_as_new_partial", "BT.Renew.c129_throttle", "BT.Renew.c129_no_auto_reset"],
      "Violated by Throttle, which keeps its cached answer over a reset (c129_throttle), and by RepeatNoAutoReset, which goes on counting as documented (c129_no_auto_reset). Proved for trees without these two in which every node is in use (no Optional whose child is not run, no Subtree without a tree); both trees get the same answers from the outside world.")
claim("C130", "proved", ["Ros.Renew.c130_wait", "Ros.Renew.c130_publisher", "Ros.Renew.c130_wait_service", "Ros.Renew.c130_service", "Ros.Renew.c130_subscriber", "Ros.Renew.c130_memory_subscriber", "Ros.Renew.c130_action", "Ros.Renew.c130_unnoticed"],
      "One theorem per class. Requests and goals carry numbers in the model only; where they do, both leaves are taken with the same next number. c130_unnoticed shows that the condition on the inputs is needed: an Action node may otherwise send a goal from before the reset.")
claim("C131", "proved", ["Data.Shared.c131_contents", "Data.Shared.c131_get", "Data.Shared.c131_set_item", "Data.Shared.c131_without_copies", "Data.Shared.copyAll_copies"],
      "A heap of objects. copy.deepcopy is any function with the contract Copies (old objects stay, the copy is new and has the same value); copyAll_copies shows that there is one. c131_without_copies: without copies the property is violated. This justifies that data are values in the other parts of the model. Objects that contain themselves have no value.")
claim("C132", "partial", ["Ros.Rpc.c132_answer_partial", "Ros.Rpc.c132_outstanding_partial", "Ros.Rpc.c132_called_partial", "Ros.Rpc.c132_done", "Ros.Rpc.c132_stale"],
      "Proved for executions in which no input gets, between two ticks, a value equal to the one that has arrived since the last tick. c132_stale: otherwise the flag of the input is lost (see C52) and the node answers SUCCEEDED with the response to an old request. c132_called_partial and c132_done: when it calls and when it succeeds.")
claim("C133", "partial", ["Ros.Goal.c133_goal_partial", "Ros.Goal.c133_answer_partial", "Ros.Goal.c133_first_partial", "Ros.Goal.c133_again_partial", "Ros.Goal.c133_untick", "Ros.Goal.c133_stale"],
      "Proved for executions in which no input gets a value equal to one that has arrived since the last tick, and in which the name of the action does not change around an untick. c133_untick: otherwise the goal for the new action is sent to the old action, because an untick keeps the client. c133_stale: a flag is lost (see C52) and the node answers SUCCEEDED with the result of an old goal.")

claim("C134", "partial",
      ["Exec.Locks.c134_progress", "Exec.Locks.c134_exclusive", "Exec.Locks.c134_answered_partial", "Exec.Locks.c134_can_end", "Exec.Locks.c134_clear_twice"],
      "No deadlock, mutual exclusion, and an end of all requests present, for all numbers of threads and interleavings. Missing: code between lock operations is one step that always ends; waiting for the tick thread is left to C46 and C117; a single request may be overtaken for ever if new ones keep coming, since Python locks are not fair.")

claim("C135", "proved",
      ["BT.Formula.c135_formula", "BT.Formula.c135_boolean"],
      "For all trees with distinct ids, after every history of operations. Nodes with memory, Parallel, switches, Subtree and leaves are atoms with arbitrary behaviour.")

claim("C136", "proved",
      ["BT.Resume.c136_resume", "BT.Resume.c136_leftover"],
      "For all trees with distinct ids. c136_leftover: a setup or reset at the beginning is needed, since an untick does not clear the memory of a MemoryFallback (C14).")

claim("C137", "proved",
      ["BT.Refactor." + x for x in ["c137_refactor", "c137_memory", "rw_sound", "flatten_conj", "flatten_disj", "de_morgan_conj", "de_morgan_disj", "inv_inv", "form_proper", "mform_proper", "c137_assigned", "c137_mixed"]],
      "For all trees with distinct ids. form_proper and mform_proper: the side condition of the rules holds for all parts of a tree. c137_assigned: with an atom that answers ASSIGNED, moving an Inverter changes the answer. c137_mixed: why a Sequence may not be dissolved in a MemorySequence.")

claim("C138", "proved",
      ["BT.Rounds.c138_round", "BT.Rounds.c138_duration", "BT.Tolerance.c138_ends_iff", "BT.Tolerance.c138_safe_options", "BT.Tolerance.c138_forever"],
      "All children, options, pasts and durations, for rounds in which all ticks answer Ok. c138_duration is for Parallel with at least one needed success; for ParallelFailureTolerance the exact condition is proved.")
claim("C139", "proved",
      ["BT.Duration.c139_duration", "BT.Duration.c139_ends", "BT.Again.c139_rounds", "BT.Duration.lasts_fin", "BT.Duration.lasts_takes", "BT.Again.due_takes"],
      "All trees, atoms, durations and pasts; c139_duration is about the round after a setup or reset, c139_rounds about any number of further rounds.")
claim("C140", "proved",
      ["Exec.Takes.c140_setup", "Exec.Takes.c140_reset", "Exec.Takes.c140_again", "Exec.Takes.c140_twice"],
      "All trees, atoms, durations and pasts, for runs that nothing disturbs (no exception, no failed wiring, no other command). If the untick at the end fails, the state is ERROR.")
claim("C141", "proved",
      ["Exec.Periodic.c141_periodic", "Exec.Periodic.loop"],
      "All trees, atoms, rounds and pasts, for runs that nothing disturbs before the STOP (no exception, no failed wiring, no other command); the STOP comes when the thread is at the head of its loop (any other place: C117).")
claim("C142", "proved",
      ["Exec.Single.c142_by_hand", "Exec.Single.c142_first", "Exec.Single.c142_until", "Exec.Single.onces_up"],
      "All trees, atoms, rounds and pasts, for runs that nothing disturbs (no exception, no failed wiring, no other command), stated for control_execution.")

claim("C143", "proved", ["Exec.Restart.c143_until", "Exec.Restart.c143_periodic", "Exec.Restart.c143_by_hand", "Exec.Restart.c143_stop", "Exec.Restart.c143_shutdown", "Exec.Restart.c143_again"],
      "Any state of the tree manager, its tick thread and the tree (not only reachable ones), as requests to control_execution. Assumed from the request on: inputs arrive and no exception is raised (as in C140), no node has a missing parent, and the ticks do not fail. c143_stop and c143_again are what the property says about STOP; with a MemoryFallback the latter is wrong (c140_twice). c143_shutdown: if the tree is ticking or no tick thread runs.")

claim("C144", "partial", ["Exec.Answer.c144_promises_partial", "Exec.Answer.c144_stop_waiting", "Exec.Answer.c144_nothing_to_stop", "Exec.Answer.c144_empty"],
      "Any state, any command. Violated by STOP in WAITING_FOR_TICK: the answer says IDLE, the tree stays WAITING_FOR_TICK (c144_stop_waiting). A manager without nodes answers the ticking commands with success and does nothing (c144_empty). STOP is proved for TICKING; if there is nothing to stop the answer is no success (c144_nothing_to_stop). Commands one after the other (overlapping: C46). The answer to TICK_PERIODICALLY is compared with the state before the new thread's first step.")

here = os.path.dirname(os.path.abspath(__file__))
with open(os.path.join(here, "..", "MANIFEST.json"), "w") as f:
    json.dump({"claims": C}, f, indent=1)
    f.write("\n")
