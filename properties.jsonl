{"id": "C01", "title": "Life-cycle guards", "statement": "A node accepts setup only while it is UNINITIALIZED or SHUTDOWN, and accepts tick, untick and reset only outside UNINITIALIZED, SHUTDOWN and BROKEN. A rejected call returns an error, leaves the reported state of every node of the tree unchanged and calls no user hook.", "quantifier": "for every tree, every node behaviour, every reachable or unreachable combination of node states", "why_tests_cant": "The guard must hold for every combination of states in a tree of any shape, tests sample a handful of states of a single node.", "anchors": ["ros_bt_py/ros_bt_py/node.py:Node.setup", "ros_bt_py/ros_bt_py/node.py:Node.tick", "ros_bt_py/ros_bt_py/node.py:Node.untick", "ros_bt_py/ros_bt_py/node.py:Node.reset"]}
{"id": "C02", "title": "Returned status equals published state", "statement": "Whenever setup/tick/untick/reset/shutdown returns Ok(s), the node's reported state afterwards is s, and s belongs to the set documented for the operation: {IDLE} for setup and reset, {RUNNING, SUCCEEDED, FAILED, ASSIGNED, UNASSIGNED} for tick, {IDLE, PAUSED} for untick, {SHUTDOWN} for shutdown.", "quantifier": "for every tree, every leaf behaviour (including leaves whose hooks return arbitrary states or errors), every state", "why_tests_cant": "User-written leaves may return anything; all combinations of hook results cannot be enumerated.", "anchors": ["ros_bt_py/ros_bt_py/node.py:Node.setup", "ros_bt_py/ros_bt_py/node.py:Node.tick", "ros_bt_py/ros_bt_py/node.py:Node.untick", "ros_bt_py/ros_bt_py/node.py:Node.reset", "ros_bt_py/ros_bt_py/node.py:Node.shutdown"]}
{"id": "C03", "title": "Setup reaches the whole tree", "statement": "If setup of the root returns Ok then every node of the tree is IDLE, except nodes below an Optional decorator whose child cannot be executed.", "quantifier": "for every finite tree of stock control-flow nodes over arbitrary leaves, every pre-state", "why_tests_cant": "Holds by induction over trees of unbounded depth and width.", "anchors": ["ros_bt_py/ros_bt_py/node.py:Node.setup", "ros_bt_py/ros_bt_py/nodes/sequence.py:Sequence._do_setup", "ros_bt_py/ros_bt_py/nodes/decorators.py", "ros_bt_py/ros_bt_py/nodes/parallel.py", "ros_bt_py/ros_bt_py/nodes/fallback.py"]}
{"id": "C04", "title": "Shutdown reaches the whole tree", "statement": "If shutdown of the root returns Ok then every node of the tree is SHUTDOWN, whatever state each node was in before (also BROKEN or never set up); only the nodes nested in a Subtree that has never been set up stay UNINITIALIZED.", "quantifier": "for every finite tree, every pre-state of every node, every leaf behaviour", "why_tests_cant": "The set of pre-states (10^n) and tree shapes is unbounded.", "anchors": ["ros_bt_py/ros_bt_py/node.py:Node.shutdown"]}
{"id": "C05", "title": "Reset reaches the whole tree", "statement": "If reset of the root returns Ok then every node of the tree that has been set up is IDLE again.", "quantifier": "for every finite tree, every state, every leaf behaviour", "why_tests_cant": "Quantifies over all trees and all histories that lead to the reset.", "anchors": ["ros_bt_py/ros_bt_py/node.py:Node.reset", "ros_bt_py/ros_bt_py/nodes/decorators.py:RepeatNoAutoReset._do_reset"]}
{"id": "C06", "title": "Untick leaves nothing running", "statement": "If untick of the root returns Ok then no node of the tree is RUNNING.", "quantifier": "for every finite tree, every state, every leaf behaviour", "why_tests_cant": "Background activity left behind in some corner of an arbitrary tree cannot be excluded by sampling trees.", "anchors": ["ros_bt_py/ros_bt_py/node.py:Node.untick", "ros_bt_py/ros_bt_py/nodes/sequence.py", "ros_bt_py/ros_bt_py/nodes/fallback.py", "ros_bt_py/ros_bt_py/nodes/parallel.py", "ros_bt_py/ros_bt_py/nodes/decorators.py"]}
{"id": "C07", "title": "At most one tick per node and root tick", "statement": "During one tick of the root every node of the tree is ticked at most once.", "quantifier": "for every finite tree with distinct node ids, every leaf behaviour, every state", "why_tests_cant": "Universally quantified over trees and schedules of child results.", "anchors": ["ros_bt_py/ros_bt_py/node.py:Node.tick", "ros_bt_py/ros_bt_py/nodes/sequence.py", "ros_bt_py/ros_bt_py/nodes/fallback.py", "ros_bt_py/ros_bt_py/nodes/parallel.py", "ros_bt_py/ros_bt_py/nodes/decorators.py", "ros_bt_py/ros_bt_py/nodes/list.py:IterateList"]}
{"id": "C08", "title": "Errors are not swallowed", "statement": "If a tick of the root returns Ok, then no tick, untick or reset call made to any node during that tick returned an error; equivalently any descendant error surfaces at the root.", "quantifier": "for every finite tree of stock control-flow nodes, every leaf behaviour, every state", "why_tests_cant": "An error may occur at any depth and any position; tests check single positions.", "anchors": ["ros_bt_py/ros_bt_py/node.py:Node.tick", "ros_bt_py/ros_bt_py/nodes/sequence.py", "ros_bt_py/ros_bt_py/nodes/fallback.py", "ros_bt_py/ros_bt_py/nodes/parallel.py", "ros_bt_py/ros_bt_py/nodes/decorators.py", "ros_bt_py/ros_bt_py/ros_nodes/throttle.py:ThrottleSuccess"]}
{"id": "C09", "title": "Shutdown and setup forget the past", "statement": "After a successful shutdown followed by a successful setup, a control-flow node carries no memory of earlier execution: its next ticks depend only on the inputs and on what its children answer from then on.", "quantifier": "for every tree and any two histories", "why_tests_cant": "Relates two arbitrary executions (a hyperproperty).", "anchors": ["ros_bt_py/ros_bt_py/nodes/sequence.py:MemorySequence", "ros_bt_py/ros_bt_py/nodes/fallback.py:MemoryFallback", "ros_bt_py/ros_bt_py/nodes/decorators.py:Repeat", "ros_bt_py/ros_bt_py/nodes/decorators.py:Retry", "ros_bt_py/ros_bt_py/nodes/parallel.py"]}
{"id": "C10", "title": "A failing error leaves a node that must be shut down", "statement": "If a tick fails because an input is missing, because the node's own tick behaviour reports an error, or because outputs cannot be delivered, the node is BROKEN; a BROKEN node rejects setup and tick until a shutdown has succeeded.", "quantifier": "for every node, every behaviour and every history", "why_tests_cant": "Quantifies over all continuations after the error.", "anchors": ["ros_bt_py/ros_bt_py/node.py:Node.tick", "ros_bt_py/ros_bt_py/node.py:Node.setup", "ros_bt_py/ros_bt_py/node.py:Node.shutdown"]}
{"id": "C11", "title": "Sequence result", "statement": "A Sequence ticks its children in order and stops at the first one that does not succeed; it returns that child's result, or SUCCEEDED if all succeed (also when it has no children); the children after the stopping one are not ticked, and they are unticked unless the stopping one is RUNNING.", "quantifier": "for every number of children, every child behaviour", "why_tests_cant": "Number and results of children are unbounded.", "anchors": ["ros_bt_py/ros_bt_py/nodes/sequence.py:Sequence._do_tick"]}
{"id": "C12", "title": "Fallback result", "statement": "A Fallback ticks its children in order and stops at the first one that succeeds or is running and returns its result; if none does it returns FAILED (also when it has no children); the children after the stopping one are not ticked, and they are unticked unless the stopping one is RUNNING.", "quantifier": "for every number of children, every child behaviour", "why_tests_cant": "Number and results of children are unbounded.", "anchors": ["ros_bt_py/ros_bt_py/nodes/fallback.py:Fallback._do_tick"]}
{"id": "C13", "title": "MemorySequence resumes where it was running", "statement": "After a tick in which a MemorySequence returned RUNNING because of child i, the next tick (without untick/reset in between) does not tick any child before i and starts with child i; after a finished tick, an untick or a reset it starts with child 0.", "quantifier": "for every number of children, every child behaviour, every history of operations", "why_tests_cant": "Histories are unbounded.", "anchors": ["ros_bt_py/ros_bt_py/nodes/sequence.py:MemorySequence"]}
{"id": "C14", "title": "MemoryFallback resumes where it was running", "statement": "After a tick in which a MemoryFallback returned RUNNING because of child i, the next tick does not tick any child before i and starts with child i; after a finished tick or a reset it starts with child 0. An untick does not clear the memory.", "quantifier": "for every number of children, every child behaviour, every history of operations", "why_tests_cant": "Histories are unbounded.", "anchors": ["ros_bt_py/ros_bt_py/nodes/fallback.py:MemoryFallback"]}
{"id": "C15", "title": "Parallel thresholds", "statement": "A Parallel returns SUCCEEDED iff at least needed_successes children have succeeded, otherwise FAILED iff at least n - needed_successes + 1 have failed, otherwise RUNNING; finished children are not ticked again; when it finishes no child is left running; if all children have finished it does not return RUNNING.", "quantifier": "for every number of children and threshold, every child behaviour, every history", "why_tests_cant": "Counting argument over unbounded numbers of children.", "anchors": ["ros_bt_py/ros_bt_py/nodes/parallel.py:Parallel"]}
{"id": "C16", "title": "ParallelFailureTolerance thresholds", "statement": "A ParallelFailureTolerance returns SUCCEEDED iff at least needed_successes children have succeeded, otherwise FAILED iff more than tolerate_failures have failed, otherwise RUNNING; once all children have finished it finishes too.", "quantifier": "for every number of children and both parameters, every child behaviour", "why_tests_cant": "Counting argument over unbounded numbers of children.", "anchors": ["ros_bt_py/ros_bt_py/nodes/parallel.py:ParallelFailureTolerance"]}
{"id": "C17", "title": "Switch nodes run exactly the selected child", "statement": "A NameSwitch ticks exactly the child selected by its input and unticks all other children; with an unknown name it returns FAILED and ticks nothing.", "quantifier": "for every list of children and names (also duplicates), every behaviour", "why_tests_cant": "Quantifies over all child lists.", "anchors": ["ros_bt_py/ros_bt_py/nodes/fallback.py:NameSwitch", "ros_bt_py/ros_bt_py/ros_nodes/enum_switch.py:EnumSwitch"]}
{"id": "C18", "title": "A finished tree has nothing running", "statement": "When a tick of the root returns SUCCEEDED or FAILED, no node of the tree is left RUNNING.", "quantifier": "for every tree of the stock control-flow nodes, every leaf behaviour, every history", "why_tests_cant": "Requires an invariant over all histories and all trees.", "anchors": ["ros_bt_py/ros_bt_py/nodes/sequence.py", "ros_bt_py/ros_bt_py/nodes/fallback.py", "ros_bt_py/ros_bt_py/nodes/parallel.py", "ros_bt_py/ros_bt_py/nodes/decorators.py"]}
{"id": "C19", "title": "Retry attempt bound", "statement": "A Retry with num_retries = n gives up exactly at the (n+1)-th failure of its child since the last setup, reset or give-up: before it answers RUNNING and resets the child, at that failure it answers FAILED.", "quantifier": "for every n, every child behaviour, every history of ticks", "why_tests_cant": "n and histories unbounded.", "anchors": ["ros_bt_py/ros_bt_py/nodes/decorators.py:Retry"]}
{"id": "C20", "title": "Repeat count", "statement": "A Repeat with num_repeats = n answers RUNNING for the first n successes of its child since setup/reset and SUCCEEDED from the next one on; it answers FAILED at the first child failure.", "quantifier": "for every n, every child behaviour, every history of ticks", "why_tests_cant": "n and histories unbounded.", "anchors": ["ros_bt_py/ros_bt_py/nodes/decorators.py:Repeat"]}
{"id": "C21", "title": "RepeatNoAutoReset runs its child a bounded number of times", "statement": "Between two reset requests on its input a RepeatNoAutoReset lets its child succeed at most num_repeats times; after that it answers SUCCEEDED without ticking the child.", "quantifier": "for every num_repeats, every child behaviour, every history", "why_tests_cant": "Histories unbounded.", "anchors": ["ros_bt_py/ros_bt_py/nodes/decorators.py:RepeatNoAutoReset"]}
{"id": "C22", "title": "Decorator result tables", "statement": "IgnoreFailure, IgnoreSuccess, IgnoreRunning, UntilSuccess, Inverter, RepeatAlways, RepeatUntilFail, RepeatIfFail, Watch and Optional map the child's result by their documented table and tick the child exactly once per tick (Watch and Optional: at most once).", "quantifier": "for every child behaviour and every state", "why_tests_cant": "Children are arbitrary subtrees.", "anchors": ["ros_bt_py/ros_bt_py/nodes/decorators.py"]}
{"id": "C23", "title": "Optional never touches a child that cannot execute", "statement": "If at setup the child of an Optional reports that it cannot execute, then until the next setup the child is never set up, ticked, unticked or reset, and the Optional answers SUCCEEDED on every tick.", "quantifier": "for every child, every sequence of operations", "why_tests_cant": "Safety property over unbounded histories.", "anchors": ["ros_bt_py/ros_bt_py/nodes/decorators.py:Optional"]}
{"id": "C24", "title": "IterateList visits every item in order", "statement": "An IterateList whose list input does not change exposes item k to its child for as long as the child runs on it, moves on to item k+1 when the child succeeds, answers SUCCEEDED after the last item, answers FAILED when the child fails, and never reads outside the list.", "quantifier": "for every list, every child behaviour, every history", "why_tests_cant": "List length and histories unbounded.", "anchors": ["ros_bt_py/ros_bt_py/nodes/list.py:IterateList"]}
{"id": "C25", "title": "Sequence utility bounds are sound", "statement": "If every child of a Sequence reports sound cost bounds, then the cost of any execution of the Sequence in which each child is ticked to completion lies within the bounds reported by the Sequence (whenever the corresponding has_* flag is set).", "quantifier": "for every number of children, all bounds and costs", "why_tests_cant": "Arithmetic over unbounded sums.", "anchors": ["ros_bt_py/ros_bt_py/nodes/sequence.py:calculate_utility_sequence"]}
{"id": "C26", "title": "Fallback utility bounds are sound", "statement": "As for Sequence: executions of a Fallback over children with sound bounds have costs within the reported bounds.", "quantifier": "for every number of children, all bounds and costs", "why_tests_cant": "Arithmetic over unbounded sums.", "anchors": ["ros_bt_py/ros_bt_py/nodes/fallback.py:calculate_utility_fallback"]}
{"id": "C27", "title": "Parallel utility bounds are sound", "statement": "If a Parallel reports a (lower or upper) success or failure bound, the accumulated cost of the children that decided the result lies within it.", "quantifier": "for every number of children and threshold, all bounds and costs", "why_tests_cant": "Sorting and selection over unbounded lists.", "anchors": ["ros_bt_py/ros_bt_py/nodes/parallel.py:Parallel._do_calculate_utility", "ros_bt_py/ros_bt_py/nodes/parallel.py:ParallelFailureTolerance._do_calculate_utility"]}
{"id": "C28", "title": "Decorator utility bounds are sound", "statement": "The bounds a decorator reports bound the cost of executions with the decorator's result.", "quantifier": "for every child and all bounds", "why_tests_cant": "Universally quantified over costs.", "anchors": ["ros_bt_py/ros_bt_py/node.py:Decorator._do_calculate_utility", "ros_bt_py/ros_bt_py/nodes/decorators.py:Inverter"]}
{"id": "C29", "title": "Parent and child links agree", "statement": "After any history of edit service calls, every node's parent lists it exactly once as child and every listed child names that node as parent; all links stay within the nodes of the tree.", "quantifier": "for every finite history of edit requests with arbitrary arguments", "why_tests_cant": "Histories and trees unbounded.", "anchors": ["ros_bt_py/ros_bt_py/tree_edit_manager.py", "ros_bt_py/ros_bt_py/node.py:Node.add_child", "ros_bt_py/ros_bt_py/node.py:Node.remove_child"]}
{"id": "C30", "title": "Edits never create cycles", "statement": "After any history of edit service calls starting from the empty tree the parent relation has no cycle.", "quantifier": "for every finite history of edit requests with arbitrary arguments", "why_tests_cant": "Histories unbounded; the interesting arguments (a node and its own descendant) are rare in tests.", "anchors": ["ros_bt_py/ros_bt_py/tree_edit_manager.py:TreeEditManager.move_node", "ros_bt_py/ros_bt_py/tree_edit_manager.py:TreeEditManager.replace_node", "ros_bt_py/ros_bt_py/tree_edit_manager.py:TreeEditManager.find_nodes_in_cycles"]}
{"id": "C31", "title": "Child limits are respected", "statement": "No history of edit requests gives a node more children than its declared maximum.", "quantifier": "for every finite history of edit requests", "why_tests_cant": "Histories unbounded.", "anchors": ["ros_bt_py/ros_bt_py/node.py:Node.add_child", "ros_bt_py/ros_bt_py/tree_edit_manager.py"]}
{"id": "C32", "title": "Wirings connect existing, compatible ends", "statement": "After any history of edit requests, every wiring of the tree connects an existing output of an existing node with an existing input of an existing node, with compatible types.", "quantifier": "for every finite history of edit requests", "why_tests_cant": "Histories unbounded; removal paths must clean up after every earlier edit.", "anchors": ["ros_bt_py/ros_bt_py/tree_edit_manager.py:TreeEditManager.wire_data", "ros_bt_py/ros_bt_py/tree_edit_manager.py:TreeEditManager.remove_node", "ros_bt_py/ros_bt_py/tree_exec_manager.py:TreeExecManager.validate_wiring"]}
{"id": "C33", "title": "Rejected edits change nothing", "statement": "If an edit request is answered with success = False, nodes, links and wirings of the tree are the same as before the request.", "quantifier": "for every tree and every request with arbitrary arguments", "why_tests_cant": "Every failure path at every point of every request.", "anchors": ["ros_bt_py/ros_bt_py/tree_edit_manager.py", "ros_bt_py/ros_bt_py/tree_exec_manager.py:TreeExecManager.load_tree"]}
{"id": "C34", "title": "Root discovery is exact", "statement": "For a non-empty tree the manager reports a root iff exactly one node is no child of any node, and then reports that node.", "quantifier": "for every set of nodes and links (also malformed)", "why_tests_cant": "All graphs.", "anchors": ["ros_bt_py/ros_bt_py/tree_exec_manager.py:TreeExecManager.find_root"]}
{"id": "C35", "title": "Moving and removing keep the rest intact", "statement": "A successful move_node keeps the set of nodes, and the children of all nodes other than the old and new parent; a successful remove_node without remove_children removes exactly that node, with remove_children exactly that node and its descendants.", "quantifier": "for every tree, every request", "why_tests_cant": "All trees and positions.", "anchors": ["ros_bt_py/ros_bt_py/tree_edit_manager.py:TreeEditManager.move_node", "ros_bt_py/ros_bt_py/tree_edit_manager.py:TreeEditManager.remove_node"]}
{"id": "C36", "title": "Wiring and unwiring are inverse", "statement": "Adding wirings and then removing the same wirings restores the previous set of wirings; unwiring reports success only if all given wirings existed.", "quantifier": "for every list of existing wirings and every request", "why_tests_cant": "Lists of any length including duplicates.", "anchors": ["ros_bt_py/ros_bt_py/tree_edit_manager.py:TreeEditManager.wire_data", "ros_bt_py/ros_bt_py/tree_edit_manager.py:TreeEditManager.unwire_data"]}
{"id": "C37", "title": "Publish and load round-trip", "statement": "Loading the structure a tree publishes yields a tree with the same nodes, links and wirings.", "quantifier": "for every well-formed tree", "why_tests_cant": "All trees; traversal order matters.", "anchors": ["ros_bt_py/ros_bt_py/tree_exec_manager.py:TreeExecManager.load_tree", "ros_bt_py/ros_bt_py/tree_exec_manager.py:TreeExecManager.structure_to_msg", "ros_bt_py/ros_bt_py/tree_exec_manager.py:TreeExecManager.reload_tree", "ros_bt_py/ros_bt_py/node.py:Node.get_subtree_msg"]}
{"id": "C38", "title": "Cycle finder", "statement": "The cycle check of the editor terminates and returns exactly the nodes that lie on a parent cycle.", "quantifier": "for every set of nodes and parent links", "why_tests_cant": "Termination on all inputs.", "anchors": ["ros_bt_py/ros_bt_py/tree_edit_manager.py:TreeEditManager.find_nodes_in_cycles"]}
{"id": "C39", "title": "No edit outside EDITABLE", "statement": "An edit request that arrives while the tree is not EDITABLE is answered with success = False and changes nothing.", "quantifier": "for every state and request, in a sequential setting", "why_tests_cant": "All requests in all states.", "anchors": ["ros_bt_py/ros_bt_py/tree_exec_manager.py:is_edit_service"]}
{"id": "C40", "title": "Edits never interleave with ticking", "statement": "No edit request runs its body while the tick thread executes, for every interleaving of service threads and tick thread.", "quantifier": "for every schedule of the three executor threads and the tick thread", "why_tests_cant": "Schedules cannot be enumerated by tests.", "anchors": ["ros_bt_py/ros_bt_py/tree_exec_manager.py:is_edit_service", "ros_bt_py/ros_bt_py/tree_exec_manager.py:TreeExecManager.control_execution", "ros_bt_py/ros_bt_py/tree_node.py"]}
{"id": "C41", "title": "Two edits never interleave", "statement": "At every time at most one service thread is inside the body of an edit request.", "quantifier": "for every schedule", "why_tests_cant": "Schedules.", "anchors": ["ros_bt_py/ros_bt_py/tree_exec_manager.py:is_edit_service"]}
{"id": "C42", "title": "ERROR is left only through SHUTDOWN", "statement": "While the tree is in state ERROR every command other than SHUTDOWN is rejected and leaves tree and nodes unchanged.", "quantifier": "for every command, every tree and every history", "why_tests_cant": "All histories.", "anchors": ["ros_bt_py/ros_bt_py/tree_exec_manager.py:TreeExecManager.control_execution"]}
{"id": "C43", "title": "Successful SHUTDOWN", "statement": "If SHUTDOWN is answered with success on a tree that has a root, then the tree is EDITABLE and every node is SHUTDOWN.", "quantifier": "for every tree, every node state, every tree state, every tick-thread outcome", "why_tests_cant": "All states.", "anchors": ["ros_bt_py/ros_bt_py/tree_exec_manager.py:TreeExecManager._control_execution_shutdown"]}
{"id": "C44", "title": "Recovery by SHUTDOWN", "statement": "From every tree state in which no tick is in progress, at most two SHUTDOWN commands bring the tree to EDITABLE, provided the nodes can be shut down.", "quantifier": "for every reachable manager state", "why_tests_cant": "Liveness from every state.", "anchors": ["ros_bt_py/ros_bt_py/tree_exec_manager.py:TreeExecManager.control_execution"]}
{"id": "C45", "title": "Tick commands", "statement": "TICK_ONCE ticks the root exactly once and ends in WAITING_FOR_TICK; TICK_UNTIL_RESULT ticks until the root first answers SUCCEEDED or FAILED, or a stop is requested, and then unticks the root exactly once; TICK_PERIODICALLY stops only on error or stop request.", "quantifier": "for every sequence of root results and every time of the stop request", "why_tests_cant": "Unbounded loops and arbitrary stop times.", "anchors": ["ros_bt_py/ros_bt_py/tree_exec_manager.py:TreeExecManager.tick", "ros_bt_py/ros_bt_py/tree_exec_manager.py:TreeExecManager._control_execution_tick_once", "ros_bt_py/ros_bt_py/tree_exec_manager.py:TreeExecManager._control_execution_tick_multiple"]}
{"id": "C46", "title": "At most one tick thread", "statement": "At no time are two tick threads alive.", "quantifier": "for every history of commands and thread completions", "why_tests_cant": "Histories and schedules.", "anchors": ["ros_bt_py/ros_bt_py/tree_exec_manager.py:TreeExecManager.control_execution"]}
{"id": "C47", "title": "Data containers hold only permitted values", "statement": "Every value a typed input or output holds after any sequence of set, reset and deserialize operations satisfies the declared type and its range, length and option limits (or the container holds no value).", "quantifier": "for every type, every sequence of operations with arbitrary values", "why_tests_cant": "All values and histories.", "anchors": ["ros_bt_py/ros_bt_py/data_types.py"]}
{"id": "C48", "title": "Static inputs are write-once", "statement": "A static input keeps its first accepted value.", "quantifier": "for every sequence of operations", "why_tests_cant": "Histories.", "anchors": ["ros_bt_py/ros_bt_py/data_types.py:DataContainer.set_value"]}
{"id": "C49", "title": "Compatibility is sound", "statement": "If the editor accepts a wiring, every value the source can hold is accepted by the target.", "quantifier": "for all types and all values", "why_tests_cant": "Infinite set of types (limits, nesting) and values.", "anchors": ["ros_bt_py/ros_bt_py/data_types.py", "ros_bt_py/ros_bt_py/tree_exec_manager.py:TreeExecManager.validate_wiring"]}
{"id": "C50", "title": "Types and values survive serialization", "statement": "Deserializing a serialized type gives an equivalent type, and deserializing a serialized value gives the value back.", "quantifier": "for all types and values", "why_tests_cant": "Infinite.", "anchors": ["ros_bt_py/ros_bt_py/data_types.py"]}
{"id": "C51", "title": "Wired data is delivered", "statement": "After a successful tick of a node every wired target holds the source's output value, and a target whose value changed is marked updated; no other input changes.", "quantifier": "for every wiring graph, every values", "why_tests_cant": "All wiring graphs.", "anchors": ["ros_bt_py/ros_bt_py/data_flow_manager.py:DataFlowManager", "ros_bt_py/ros_bt_py/node.py:Node.tick"]}
{"id": "C52", "title": "No data update is lost", "statement": "An update delivered to a node's input stays flagged until the node has been ticked.", "quantifier": "for every sequence of deliveries and ticks", "why_tests_cant": "Histories.", "anchors": ["ros_bt_py/ros_bt_py/data_types.py:DataContainer.set_value", "ros_bt_py/ros_bt_py/node.py:Node.tick"]}
{"id": "C53", "title": "Extending node configurations", "statement": "Merging two node configurations succeeds iff they have no key in common, and the result has exactly the union of the entries; on failure the original is unchanged.", "quantifier": "for all configurations", "why_tests_cant": "All key sets.", "anchors": ["ros_bt_py/ros_bt_py/node_config.py:NodeConfig.extend"]}
{"id": "C54", "title": "Generated node names are fresh", "statement": "Incrementing a name yields a different name and repeating it eventually avoids any finite set of taken names.", "quantifier": "for every string", "why_tests_cant": "All strings.", "anchors": ["ros_bt_py/ros_bt_py/node.py:increment_name"]}
{"id": "C55", "title": "Saving never overwrites without permission", "statement": "Saving a tree overwrites an existing file only if overwriting was allowed; with renaming allowed an unused file name is chosen.", "quantifier": "for every file system content and request", "why_tests_cant": "All file systems.", "anchors": ["ros_bt_py/ros_bt_py/package_manager.py:PackageManager.save_tree_to_path", "ros_bt_py/ros_bt_py/package_manager.py:make_filepath_unique"]}
{"id": "C56", "title": "Wait", "statement": "A Wait answers RUNNING while less than the duration has passed since its first tick after setup/reset and SUCCEEDED afterwards, also when it was unticked in between.", "quantifier": "for every monotone clock and every history of operations", "why_tests_cant": "Real-time histories.", "anchors": ["ros_bt_py/ros_bt_py/ros_nodes/wait.py:Wait"]}
{"id": "C57", "title": "Service calls end", "statement": "A service node answers RUNNING only while a request it sent is outstanding and its deadline has not passed; every outcome belongs to the most recent request.", "quantifier": "for every server behaviour, clock and history of operations", "why_tests_cant": "Asynchronous schedules.", "anchors": ["ros_bt_py/ros_bt_py/ros_nodes/service.py:ServiceBase"]}
{"id": "C58", "title": "Action goals are not orphaned", "statement": "When an action node is unticked, reset or shut down, the goal it had running is cancelled.", "quantifier": "for every server behaviour and every point in time of the untick", "why_tests_cant": "Asynchronous schedules.", "anchors": ["ros_bt_py/ros_bt_py/ros_nodes/action.py:ActionBase"]}
{"id": "C59", "title": "Action result belongs to its goal", "statement": "An action node answers SUCCEEDED only if the goal it sent last was accepted and completed successfully.", "quantifier": "for every server behaviour and history", "why_tests_cant": "Asynchronous schedules.", "anchors": ["ros_bt_py/ros_bt_py/ros_nodes/action.py:ActionBase"]}
{"id": "C60", "title": "Throttle rate limit", "statement": "After its child finished (SUCCEEDED or FAILED), a Throttle does not tick it again until more than tick_interval has passed, and answers with that result meanwhile; otherwise a tick ticks the child and passes on its answer.", "quantifier": "for every clock, every child and history", "why_tests_cant": "Real-time histories.", "anchors": ["ros_bt_py/ros_bt_py/ros_nodes/throttle.py:Throttle"]}
{"id": "C61", "title": "Subscribers deliver the latest message", "statement": "A topic subscriber node outputs the most recently received message, each at most once, and answers RUNNING while none arrived since the last one.", "quantifier": "for every interleaving of message arrivals and ticks", "why_tests_cant": "Schedules.", "anchors": ["ros_bt_py/ros_bt_py/ros_nodes/topic.py:TopicSubscriber"]}
{"id": "C62", "title": "Publishers publish each update once", "statement": "A topic publisher publishes exactly once per update of its message input; setup and reset count as an update. There is at most one publisher, none after reset or shutdown, and a new one after new settings.", "quantifier": "for every history of updates and ticks", "why_tests_cant": "Histories.", "anchors": ["ros_bt_py/ros_bt_py/ros_nodes/topic.py:TopicPublisher"]}
{"id": "C63", "title": "Getter nodes", "statement": "List, dict and attribute getters answer FAILED exactly when the element does not exist, otherwise output the element; without new data they answer RUNNING unless stale data is allowed.", "quantifier": "for every list/dict and index/key, every update pattern", "why_tests_cant": "All data.", "anchors": ["ros_bt_py/ros_bt_py/nodes/getters.py"]}
{"id": "C64", "title": "Comparison nodes", "statement": "Compare answers SUCCEEDED iff both inputs are equal, else FAILED; CompareNewOnly answers RUNNING until an input is updated; ALessThanB compares strictly.", "quantifier": "for all values and update patterns", "why_tests_cant": "All values.", "anchors": ["ros_bt_py/ros_bt_py/nodes/compare.py"]}
{"id": "C65", "title": "Replacing a node", "statement": "A successful replace_node of a node by another one that lies neither above nor below it removes the old node, puts the new one at its place among the children of its parent, and appends the children of the old node to those of the new one; everything else stays.", "quantifier": "for every tree, every pair of nodes", "why_tests_cant": "All trees and positions, including siblings whose index shifts.", "anchors": ["ros_bt_py/ros_bt_py/tree_edit_manager.py:TreeEditManager.replace_node"]}
{"id": "C66", "title": "Morphing and changing options keep the place in the tree", "statement": "morph_node (with room for the children) and set_options exchange exactly the specification of one node; all parents, all child lists with their order, and all wirings that are still valid are kept.", "quantifier": "for every tree, node and new specification", "why_tests_cant": "All trees and positions.", "anchors": ["ros_bt_py/ros_bt_py/tree_edit_manager.py:TreeEditManager.morph_node", "ros_bt_py/ros_bt_py/tree_edit_manager.py:TreeEditManager.set_options"]}
{"id": "C67", "title": "Inputs of a new node", "statement": "A node that has been created has exactly the inputs its class declares plus those it adds itself; every given input replaces a declared one it is compatible with, the others are as declared. A given input that is not declared, or not compatible, makes the creation fail.", "quantifier": "for every class, every set of given inputs, all extra inputs and outputs", "why_tests_cant": "All configurations.", "anchors": ["ros_bt_py/ros_bt_py/node.py:Node.__init__", "ros_bt_py/ros_bt_py/node_config.py:NodeConfig"]}
{"id": "C68", "title": "Trees are saved below the storage path", "statement": "A tree that is saved ends up below the configured storage path (SaveTree.srv: 'Filepath where to save the tree below the storage path').", "quantifier": "for every file path, storage path and file system content", "why_tests_cant": "All paths.", "anchors": ["ros_bt_py/ros_bt_py/package_manager.py:PackageManager.save_tree_to_path"]}
{"id": "C69", "title": "A failed save destroys nothing", "statement": "If saving a tree fails, every file and directory that existed before is still there unchanged.", "quantifier": "for every file system content, request and kind of failure", "why_tests_cant": "All file systems and failures.", "anchors": ["ros_bt_py/ros_bt_py/package_manager.py:PackageManager.save_tree_to_path"]}
{"id": "C70", "title": "Folder listings", "statement": "A listing of a folder or package shows exactly its files and directories (hidden ones only on request); all item ids differ, and every item names the item that contains it as its parent.", "quantifier": "for every directory tree", "why_tests_cant": "All directory trees.", "anchors": ["ros_bt_py/ros_bt_py/package_manager.py:PackageManager.path_to_dict"]}
{"id": "C71", "title": "Action goals are sent (again)", "statement": "An action node sends the goal given by its inputs at the first tick after setup, reset and untick (ActionBase: 'On untick, reset or shutdown, the goal is cancelled and will be re-sent on the next tick'); the tick that sends a goal answers RUNNING.", "quantifier": "for every server behaviour and history of operations", "why_tests_cant": "Asynchronous schedules.", "anchors": ["ros_bt_py/ros_bt_py/ros_nodes/action.py:ActionBase"]}
{"id": "C72", "title": "Actions time out", "statement": "An action node whose goal has no result after timeout_seconds cancels the goal and answers FAILED; before that it answers RUNNING and lets the goal run.", "quantifier": "for every server behaviour, clock and history of operations", "why_tests_cant": "Asynchronous schedules.", "anchors": ["ros_bt_py/ros_bt_py/ros_nodes/action.py:ActionBase"]}
{"id": "C73", "title": "Waiting for services", "statement": "WaitForService answers SUCCEEDED when the service is available; otherwise it answers RUNNING until wait_for_service_seconds have passed since it first found the service missing (since setup, reset, untick or a change of the name), and FAILED from then on.", "quantifier": "for every clock, availability of the service and history of operations", "why_tests_cant": "Real-time histories.", "anchors": ["ros_bt_py/ros_bt_py/ros_nodes/service.py:WaitForService"]}
{"id": "C74", "title": "Memory subscribers", "statement": "A topic memory subscriber answers RUNNING until it has received a message, FAILED if the newest message is older than memory_delay, and otherwise SUCCEEDED with the newest message as output.", "quantifier": "for every clock and every interleaving of message arrivals, ticks and resets", "why_tests_cant": "Real-time schedules.", "anchors": ["ros_bt_py/ros_bt_py/ros_nodes/topic.py:TopicMemorySubscriber"]}
{"id": "C75", "title": "Subscribers and changes of the topic", "statement": "A message that a topic subscriber outputs was received on the present subscription; messages of a previous topic, or from before a reset, are not output.", "quantifier": "for every interleaving of message arrivals, ticks, resets and changes of the topic", "why_tests_cant": "Schedules.", "anchors": ["ros_bt_py/ros_bt_py/ros_nodes/topic.py:TopicSubscriber"]}
{"id": "C76", "title": "ThrottleSuccess", "statement": "A ThrottleSuccess passes on a SUCCEEDED of its child, then answers FAILED without ticking the child until tick_interval has passed; a RUNNING of the child is passed on.", "quantifier": "for every clock, every child and history", "why_tests_cant": "Real-time histories.", "anchors": ["ros_bt_py/ros_bt_py/ros_nodes/throttle.py:ThrottleSuccess"]}
{"id": "C77", "title": "List and dictionary nodes", "statement": "ListLength, InsertInList, AppendListItem and SetDictItem output the length, the list with the element inserted or appended, the dictionary with the one entry changed; IsInList answers SUCCEEDED iff an equal element is in the list, else FAILED. No input is changed.", "quantifier": "for all lists, dictionaries, indices, keys and elements", "why_tests_cant": "All data.", "anchors": ["ros_bt_py/ros_bt_py/nodes/list.py", "ros_bt_py/ros_bt_py/nodes/setters.py"]}
{"id": "C78", "title": "Nodes that pass values on", "statement": "Constant, the IO nodes and PassthroughNode output their input; StringConcatenation outputs both strings in order.", "quantifier": "for all values", "why_tests_cant": "All values.", "anchors": ["ros_bt_py/ros_bt_py/nodes/constant.py", "ros_bt_py/ros_bt_py/nodes/io.py", "ros_bt_py/ros_bt_py/nodes/passthrough_node.py", "ros_bt_py/ros_bt_py/nodes/format.py"]}
{"id": "C79", "title": "Random numbers", "statement": "RandomInt outputs a number with min <= random_number <= max, and every such number is possible.", "quantifier": "for all limits and every outcome of the random number generator", "why_tests_cant": "A test sees a few random numbers.", "anchors": ["ros_bt_py/ros_bt_py/nodes/random_number.py"]}
{"id": "C80", "title": "Results arrive", "statement": "After a successful tick of a node whose output got a new value, all inputs that are wired to the output hold that value.", "quantifier": "for every tree, wiring, node and data", "why_tests_cant": "All wirings and data.", "anchors": ["ros_bt_py/ros_bt_py/data_flow_manager.py:DataFlowManager.push_outputs", "ros_bt_py/ros_bt_py/node.py:Node.tick"]}
{"id": "C81", "title": "Setting attributes", "statement": "SetAttr outputs the given object with the given attribute changed.", "quantifier": "for all objects, attributes and values", "why_tests_cant": "All data.", "anchors": ["ros_bt_py/ros_bt_py/nodes/setters.py"]}
{"id": "C82", "title": "Extracting a subtree", "statement": "get_subtree for a node answers with a message listing exactly this node and all nodes below it, each once, with their data, children and the wirings between them; it can be loaded into any manager and gives that subtree. For an unknown node there is no success.", "quantifier": "for every history of edit requests and every node", "why_tests_cant": "All trees and histories.", "anchors": ["ros_bt_py/ros_bt_py/tree_edit_manager.py:TreeEditManager.get_subtree", "ros_bt_py/ros_bt_py/node.py:Node.get_subtree_msg"]}
{"id": "C83", "title": "Generating a subtree", "statement": "generate_subtree for existing nodes of a tree with a root answers with a message that lists these nodes and the parents needed to connect them, with children and wirings as in the tree but restricted to the listed nodes; the order in which the other nodes are removed does not matter.", "quantifier": "for every history of edit requests, every list of nodes and every iteration order", "why_tests_cant": "All trees, histories and set iteration orders.", "anchors": ["ros_bt_py/ros_bt_py/tree_edit_manager.py:TreeEditManager.generate_subtree"]}
{"id": "C84", "title": "Calculating", "statement": "Operation and UnaryOperation put out the result of the chosen operation on their operands (sum, difference, product, quotient, floor quotient and remainder, powers, shifts, bit operations; negation, absolute value, factorial, logical not) and answer SUCCEEDED; operands without a result (division by zero) do not stop the tree.", "quantifier": "for all operators, operands and output limits", "why_tests_cant": "All numbers.", "anchors": ["ros_bt_py/ros_bt_py/nodes/maths.py:Operation", "ros_bt_py/ros_bt_py/nodes/maths.py:UnaryOperation"]}
{"id": "C85", "title": "Converting", "statement": "Convert puts out its input, converted to the chosen type.", "quantifier": "for all types and values", "why_tests_cant": "All types and values.", "anchors": ["ros_bt_py/ros_bt_py/nodes/maths.py:Convert"]}
{"id": "C86", "title": "Reading YAML files", "statement": "YamlList and YamlDict read the file their URL (file:// or package://) means: if it holds a list (a dictionary), they answer SUCCEEDED with load_success, the content and its length, otherwise FAILED with load_success false and a message. The file is read at the first tick after setup and reset and whenever there is a new path; the answer and the outputs always belong to the present path.", "quantifier": "for all files, packages, paths and histories of ticks, unticks, resets and data", "why_tests_cant": "All files and histories.", "anchors": ["ros_bt_py/ros_bt_py/nodes/file.py:load_file", "ros_bt_py/ros_bt_py/nodes/file.py:YamlList", "ros_bt_py/ros_bt_py/nodes/file.py:YamlDict"]}
{"id": "C87", "title": "Inputs and outputs from message fields", "statement": "A node that is built from a ROS message, service or action has an input or output for every field with the data type of the field (numbers with their range, strings and sequences with their bounds, fixed lengths). Every value the field can have is accepted; MessageToFields puts out the fields of the message, FieldsToMessage the message made of its inputs, and a message that is taken apart and put together again is the same.", "quantifier": "for all field types, messages and values", "why_tests_cant": "All field types and values.", "anchors": ["ros_bt_py/ros_bt_py/data_types.py:get_message_field_io_type", "ros_bt_py/ros_bt_py/ros_nodes/message_converters.py", "ros_bt_py/ros_bt_py/ros_nodes/service.py:Service.add_extra_inputs", "ros_bt_py/ros_bt_py/node_config.py:NodeConfig.extend"]}
{"id": "C88", "title": "EnumFields exposes constants", "statement": "EnumFields has one output for every constant of the message class, with the type of the constant.", "quantifier": "for all lists of constants", "why_tests_cant": "All message classes.", "anchors": ["ros_bt_py/ros_bt_py/ros_nodes/enum.py:EnumFields"]}
{"id": "C89", "title": "Outputs of an action", "statement": "An Action node has an output result.<field> for every field of the result and feedback.<field> for every field of the feedback, and feedback that arrives is put out.", "quantifier": "for all action types and feedback", "why_tests_cant": "All action types.", "anchors": ["ros_bt_py/ros_bt_py/ros_nodes/action.py:Action.add_extra_outputs", "ros_bt_py/ros_bt_py/ros_nodes/action.py:Action.set_feedback_outputs"]}
{"id": "C90", "title": "Formatted strings", "statement": "FormatString puts out its format string with every {key}, {key!u}, {key!l}, {key!c}, {key!s}, {key!r} and {key!a} replaced by the text of the value (upper case, lower case, capitalised, representation) and doubled braces by single ones; it fails if a key or conversion does not exist. FormatStringList does so for every string of a list. GetFileExtension splits a path into the name and the extension.", "quantifier": "for all templates, dictionaries and paths", "why_tests_cant": "All templates and values.", "anchors": ["ros_bt_py/ros_bt_py/nodes/format.py:FormatString", "ros_bt_py/ros_bt_py/nodes/format.py:FormatStringList", "ros_bt_py/ros_bt_py/nodes/format.py:GetFileExtension"]}
{"id": "C91", "title": "Parameters and time", "statement": "RosParam puts out the value of the parameter, or the default value if there is none. GetTimeNow puts out the current time.", "quantifier": "for all parameters and values", "why_tests_cant": "All parameter servers.", "anchors": ["ros_bt_py/ros_bt_py/ros_nodes/param.py:RosParam", "ros_bt_py/ros_bt_py/ros_nodes/time.py:GetTimeNow"]}
{"id": "C92", "title": "Data through a Subtree node", "statement": "A Subtree node has an input for every IOInput node of its tree and an output for every IOOutput node, with the types of these. Whenever the Subtree node is ticked, the nodes of its tree get the values at its inputs; the values that they put out are at the outputs of the Subtree node, which are marked when they change.", "quantifier": "for all trees, types, values and all sequences of deliveries, ticks, unticks, resets and setups", "why_tests_cant": "All executions of the surrounding and the nested tree.", "anchors": ["ros_bt_py/ros_bt_py/ros_nodes/subtree.py:Subtree", "ros_bt_py/ros_bt_py/data_flow_manager.py:DataFlowManager.push_incoming_data", "ros_bt_py/ros_bt_py/data_flow_manager.py:DataFlowManager.push_outputs"]}
{"id": "C93", "title": "Loading tree files", "statement": "Loading a path loads the one tree that the file holds, with all trees that its Subtree nodes refer to; a tree that has been saved is what loading the saved file gives. A file that cannot be read, holds no tree or more than one, or is of an unsupported version is refused. Loading always ends with an answer.", "quantifier": "for all files, paths, packages, YAML contents, versions and nestings of files", "why_tests_cant": "All file contents; that something does not end cannot be tested.", "anchors": ["ros_bt_py/ros_bt_py/tree_exec_manager.py:load_tree_from_file", "ros_bt_py/ros_bt_py/tree_exec_manager.py:parse_tree_yaml", "ros_bt_py/ros_bt_py/tree_exec_manager.py:TreeExecManager.load_tree", "ros_bt_py/ros_bt_py/ros_nodes/subtree.py:Subtree.load_subtree"]}
{"id": "C94", "title": "Migrating tree files", "statement": "Migrating tree files without --inplace changes no existing file: each file that can be migrated gets a copy under an unused name. With --inplace only the named files change; a file that cannot be migrated stays as it is.", "quantifier": "for all file systems, lists of files and errors", "why_tests_cant": "All file systems and failures.", "anchors": ["ros_bt_py/ros_bt_py/migrate_tree_files.py:main", "ros_bt_py/ros_bt_py/migrate_tree_files.py:migrate_legacy_tree_structure"]}
{"id": "C95", "title": "Subtrees are published", "statement": "With the publishing of subtrees switched on, the published structures, states and data contain one message for each Subtree node, at all depths of nesting, the latest that there is; switched off, none. The switches of the tree hold for all nested trees, whenever these are added.", "quantifier": "for all trees, depths of nesting and sequences of edits, ticks and switches", "why_tests_cant": "All histories and depths.", "anchors": ["ros_bt_py/ros_bt_py/subtree_manager.py:SubtreeManager", "ros_bt_py/ros_bt_py/ros_nodes/subtree.py:Subtree.setup_node", "ros_bt_py/ros_bt_py/tree_exec_manager.py:TreeExecManager.publish_structure"]}
{"id": "C96", "title": "Diagnostics of nodes", "statement": "With the collecting of node diagnostics switched on, each setup, tick, untick, reset and shutdown of a node is reported when it begins and when it ends, in the order of the calls, with the path from the root to the node; switched off, nothing is reported. Collecting and switching do not change what the nodes do.", "quantifier": "for all executions, nestings of calls and moments of switching", "why_tests_cant": "All nestings and interleavings with the switch.", "anchors": ["ros_bt_py/ros_bt_py/debug_manager.py:DebugManager.report_state", "ros_bt_py/ros_bt_py/debug_manager.py:DebugManager.report_tick", "ros_bt_py/ros_bt_py/debug_manager.py:DebugManager.set_collect_node_diagnostics"]}
{"id": "C97", "title": "Published wiring data", "statement": "The published data list each wiring of the tree once, with the value of its output as it is, and say that the value is the current one of the input exactly if the input holds it.", "quantifier": "for all wiring graphs, values and executions", "why_tests_cant": "All values, types and executions.", "anchors": ["ros_bt_py/ros_bt_py/data_flow_manager.py:DataFlowManager.get_wiring_data", "ros_bt_py/ros_bt_py/data_flow_manager.py:DataFlowManager._get_wiring_data", "ros_bt_py/ros_bt_py/data_types.py:DataContainer.serialize_value"]}
{"id": "C98", "title": "Trees that can be rewritten", "statement": "Exchanging subtrees for ones that behave alike does not change the behaviour of a tree. A Sequence at the end of a Sequence can be dissolved (Fallback likewise), an Inverter over a Sequence is a Fallback over Inverters and vice versa, two Inverters over a Sequence or Fallback can be left out, and of Inverter, IgnoreFailure and IgnoreSuccess one above the other only the combined effect on the answer matters.", "quantifier": "for all trees, places, numbers of children and sequences of operations", "why_tests_cant": "All trees and sequences of operations, with errors.", "anchors": ["ros_bt_py/ros_bt_py/nodes/sequence.py:Sequence", "ros_bt_py/ros_bt_py/nodes/fallback.py:Fallback", "ros_bt_py/ros_bt_py/nodes/decorators.py:Inverter", "ros_bt_py/ros_bt_py/nodes/decorators.py:IgnoreFailure", "ros_bt_py/ros_bt_py/nodes/decorators.py:IgnoreSuccess"]}
{"id": "C99", "title": "Published tree state is current", "statement": "What is published about the tree is current: after an edit, after every tick and after every successful STOP, SHUTDOWN, SETUP_AND_SHUTDOWN or RESET the last published message contains the state of the tree and of all nodes as they are; the same whenever no tick thread is running. Publishing has no influence on what happens.", "quantifier": "for all trees, all nodes and all interleavings of commands, edits and steps of the tick thread", "why_tests_cant": "All interleavings with a tick thread.", "anchors": ["ros_bt_py/ros_bt_py/tree_exec_manager.py:TreeExecManager.tick", "ros_bt_py/ros_bt_py/tree_exec_manager.py:TreeExecManager.state", "ros_bt_py/ros_bt_py/tree_exec_manager.py:TreeExecManager.publish_state", "ros_bt_py/ros_bt_py/tree_exec_manager.py:TreeExecManager.control_execution"]}
{"id": "C100", "title": "Tick frequency", "statement": "The tree is ticked with the frequency asked for, which is never zero. After each tick the frequency of the last ticks is published, in Hertz, and there is a warning if a tick took longer than the period.", "quantifier": "for all frequencies, all histories of requests and all durations of ticks", "why_tests_cant": "All durations and frequencies.", "anchors": ["ros_bt_py/ros_bt_py/tree_exec_manager.py:TreeExecManager.tick", "ros_bt_py/ros_bt_py/tree_exec_manager.py:TreeExecManager.control_execution"]}
{"id": "C101", "title": "Diagnostics of the tree", "statement": "The diagnostic message of the tree bears its name; its level is OK exactly if the tree is being ticked, ERROR if it is in the error state and WARN otherwise; with another level than OK no node is being ticked.", "quantifier": "for all trees, names, commands, loads and steps of the tick thread", "why_tests_cant": "All interleavings with a tick thread.", "anchors": ["ros_bt_py/ros_bt_py/tree_exec_manager.py:TreeExecManager.set_diagnostics_name", "ros_bt_py/ros_bt_py/tree_exec_manager.py:TreeExecManager.load_tree"]}
{"id": "C102", "title": "Log messages", "statement": "A log message is published if and only if it is not internal and its level is at least the one that has been asked for last (INFO at first), from whichever tree or subtree it comes; it bears the id and name of node and tree. Fatal messages cannot be turned off. Different trees and nodes have different ROS loggers.", "quantifier": "for all histories of log messages, log levels, trees and subtrees; for all names", "why_tests_cant": "All histories and all names.", "anchors": ["ros_bt_py/ros_bt_py/logging_manager.py:LoggingManager", "ros_bt_py/ros_bt_py/ros_nodes/subtree.py:Subtree.setup_node", "ros_bt_py/ros_bt_py/node.py:Node.logerr"]}
{"id": "C103", "title": "Node classes", "statement": "A node message is instantiated with the class whose module and name it bears, and the message published for the node leads to the same class again at any later time. The list of available nodes contains exactly the usable classes loaded so far, each once, with the inputs and outputs of all its bases, among them those of the requested modules; every listed node can be asked for. Modules that cannot be loaded are answered with an error and leave nothing behind.", "quantifier": "for all modules (with imports, base classes, exceptions) and all histories of requests and changes of modules on disk", "why_tests_cant": "All module graphs and histories.", "anchors": ["ros_bt_py/ros_bt_py/node.py:define_bt_node", "ros_bt_py/ros_bt_py/node.py:load_node_module", "ros_bt_py/ros_bt_py/node.py:Node.from_msg", "ros_bt_py/ros_bt_py/package_manager.py:PackageManager.get_available_nodes"]}
{"id": "C104", "title": "Name, path, root and public data of the published tree", "statement": "The published structure of a tree bears the name, path and tick frequency given last, the id of the root, if there is one, and the public inputs and outputs of the loaded tree.", "quantifier": "for all histories of loads, edits, renamings, commands", "why_tests_cant": "All histories.", "anchors": ["ros_bt_py/ros_bt_py/tree_exec_manager.py:TreeExecManager.structure_to_msg", "ros_bt_py/ros_bt_py/tree_exec_manager.py:TreeExecManager.load_tree", "ros_bt_py/ros_bt_py/tree_exec_manager.py:TreeExecManager.find_root", "ros_bt_py/ros_bt_py/tree_edit_manager.py:TreeEditManager.change_tree_name", "ros_bt_py/ros_bt_py/node.py:Node.get_subtree_msg"]}
{"id": "C105", "title": "Ticking until a result ends", "statement": "A tree whose leaves answer RUNNING at most a known number of times in a row, whose repeat counts and lists are bounded and which contains no decorator meant to repeat without end answers SUCCEEDED, FAILED or an error after a number of ticks computed from these numbers (the product over a Sequence or Fallback, the sum over their memory variants, the maximum over parallel nodes). TICK_UNTIL_RESULT then ends by itself, whatever inputs or exceptions occur; TICK_PERIODICALLY and endless decorators go on for ever.", "quantifier": "for all such trees, after any operations, for all inputs and exceptions", "why_tests_cant": "All trees and bounds; the endless runs are infinite.", "anchors": ["ros_bt_py/ros_bt_py/tree_exec_manager.py:TreeExecManager.tick", "ros_bt_py/ros_bt_py/tree_exec_manager.py:TreeExecManager._control_execution_tick_multiple", "ros_bt_py/ros_bt_py/nodes/sequence.py:Sequence", "ros_bt_py/ros_bt_py/nodes/fallback.py:Fallback", "ros_bt_py/ros_bt_py/nodes/parallel.py:Parallel", "ros_bt_py/ros_bt_py/nodes/decorators.py:Retry", "ros_bt_py/ros_bt_py/nodes/decorators.py:Repeat", "ros_bt_py/ros_bt_py/nodes/list.py:IterateList"]}
{"id": "C106", "title": "Type values are accepted if well formed and mean one type", "statement": "A GenericType option accepts exactly the dictionaries that carry the identifier of one of its permitted types and exactly the parameters of that type, nested element types likewise; it never holds anything else. The container made from an accepted value is that of the described type with the given limits, lengths and elements. An option compatible with another accepts what the other accepts. Type values and lists of permitted types survive saving and loading.", "quantifier": "for all values, permitted types and sequences of assignments", "why_tests_cant": "Type values nest without bound and parameters are unbounded.", "anchors": ["ros_bt_py/ros_bt_py/data_types.py:match_dict_to_valid_types", "ros_bt_py/ros_bt_py/data_types.py:get_iotype_for_dict", "ros_bt_py/ros_bt_py/data_types.py:GenericType", "ros_bt_py/ros_bt_py/data_types.py:serialize_type_map_value", "ros_bt_py/ros_bt_py/data_types.py:deserialize_type_map_value"]}
{"id": "C107", "title": "References take the type that their target names, and inputs survive saving", "statement": "In a node that is created, every input or output that refers to another input behaves like a container of the type that the value of this input names, or of lists or dictionaries of it, with its own flags; inputs and outputs of the class cannot be left without type. The same holds for references given in a message if their target is given there and names a type, wherever it stands in the message. Inputs written to messages and read back accept the same values and have the same static values.", "quantifier": "for all node classes, sets of inputs, values and messages", "why_tests_cant": "The order of inputs, the named types and their nesting are unbounded.", "anchors": ["ros_bt_py/ros_bt_py/data_types.py:ReferenceContainer", "ros_bt_py/ros_bt_py/node_config.py:NodeConfig.extend", "ros_bt_py/ros_bt_py/node.py:Node.__init__", "ros_bt_py/ros_bt_py/node.py:Node.from_msg", "ros_bt_py/ros_bt_py/node.py:Node.to_structure_msg"]}
{"id": "C108", "title": "A tree whose setup failed can be shut down", "statement": "Shutting down a tree reports an error or success but never raises an exception, whether all, some or none of its nodes have been set up. In particular, after a failed setup SHUTDOWN brings every node whose hook succeeds to SHUTDOWN.", "quantifier": "for all trees, whichever of their nodes have been set up, and any number of repeated shutdowns", "why_tests_cant": "Which nodes a failed setup leaves untouched depends on the shape of the tree and on the failing node.", "anchors": ["ros_bt_py/ros_bt_py/node.py:Node.shutdown", "ros_bt_py/ros_bt_py/node.py:Node.setup", "ros_bt_py/ros_bt_py/ros_nodes/topic.py:TopicPublisher._do_shutdown", "ros_bt_py/ros_bt_py/ros_nodes/service.py:WaitForService._do_shutdown", "ros_bt_py/ros_bt_py/ros_nodes/action.py:ActionBase._do_shutdown"]}
{"id": "C109", "title": "No node is set up while the tree can be edited", "statement": "Whenever the tree is EDITABLE, every node is UNINITIALIZED or SHUTDOWN: no node is edited, moved or removed while it is running or holds resources. This holds as long as no SHUTDOWN has failed while the tree was EDITABLE.", "quantifier": "for all trees and all histories of commands, edits, ticks, errors and exceptions", "why_tests_cant": "It is an invariant over arbitrarily long histories that involves every command and the state of every node.", "anchors": ["ros_bt_py/ros_bt_py/tree_exec_manager.py:TreeExecManager.control_execution", "ros_bt_py/ros_bt_py/tree_exec_manager.py:is_edit_service", "ros_bt_py/ros_bt_py/node.py:Node.shutdown"]}
{"id": "C110", "title": "Shutting down the tree node", "statement": "After TreeNode.shutdown, which promises to shut down the tree node in a safe way, no node of the tree is set up any more.", "quantifier": "for all trees and all histories of commands, edits, ticks, errors and exceptions before the call", "why_tests_cant": "The state of the tree at the time of the call depends on the whole history.", "anchors": ["ros_bt_py/ros_bt_py/tree_node.py:TreeNode.shutdown", "ros_bt_py/ros_bt_py/tree_exec_manager.py:TreeExecManager.control_execution"]}
{"id": "C111", "title": "No broken node hides in a working tree", "statement": "Unless the root is UNINITIALIZED, BROKEN or SHUTDOWN, no node of the tree that is in use is: the state of the root tells whether all nodes are set up and none is broken.", "quantifier": "for all trees and all histories of operations with all outcomes, errors included", "why_tests_cant": "A node that swallows the error of a child shows only for one combination of node classes, outcomes and operations.", "anchors": ["ros_bt_py/ros_bt_py/node.py:Node.tick", "ros_bt_py/ros_bt_py/node.py:Node.untick", "ros_bt_py/ros_bt_py/node.py:Node.reset", "ros_bt_py/ros_bt_py/node.py:Node.setup", "ros_bt_py/ros_bt_py/ros_nodes/throttle.py:ThrottleSuccess"]}
{"id": "C112", "title": "One branch at a time", "statement": "In a tree without parallel nodes at most one branch is RUNNING: of two RUNNING nodes one is above the other. In every tree all nodes above a RUNNING node are RUNNING, so that no action goes on unnoticed.", "quantifier": "for all trees and all histories of operations with all outcomes", "why_tests_cant": "Which children are left RUNNING depends on the results of many ticks at all levels of the tree.", "anchors": ["ros_bt_py/ros_bt_py/nodes/sequence.py:MemorySequence", "ros_bt_py/ros_bt_py/nodes/fallback.py:MemoryFallback", "ros_bt_py/ros_bt_py/nodes/fallback.py:NameSwitch", "ros_bt_py/ros_bt_py/ros_nodes/enum_switch.py:EnumSwitch"]}
{"id": "C113", "title": "A RUNNING tree waits for something", "statement": "If the root is RUNNING, there is a reason: a path of RUNNING nodes leads from the root to a leaf, Getter or repeating node that is RUNNING itself. Flow control, decorators and shovables are never RUNNING on their own.", "quantifier": "for all trees and all histories of operations with all outcomes", "why_tests_cant": "A node that stays RUNNING while everything below it has finished shows as a tree that never ends, for particular parameters and outcomes only.", "anchors": ["ros_bt_py/ros_bt_py/nodes/sequence.py:Sequence._do_tick", "ros_bt_py/ros_bt_py/nodes/fallback.py:Fallback._do_tick", "ros_bt_py/ros_bt_py/nodes/parallel.py:Parallel._do_tick", "ros_bt_py/ros_bt_py/nodes/parallel.py:ParallelFailureTolerance._do_tick", "ros_bt_py/ros_bt_py/ros_nodes/throttle.py:Throttle._do_tick"]}
{"id": "C114", "title": "Listings that are made at the same time", "statement": "Folder and package listings that are requested at the same time are correct: each shows its files, and the ids of its items are all different, so that every item has exactly one parent.", "quantifier": "for all directory trees and all interleavings with other listings", "why_tests_cant": "It depends on the timing of requests that are handled by several threads.", "anchors": ["ros_bt_py/ros_bt_py/package_manager.py:PackageManager.path_to_dict", "ros_bt_py/ros_bt_py/package_manager.py:PackageManager.get_id", "ros_bt_py/ros_bt_py/package_manager.py:PackageManager.reset_id", "ros_bt_py/ros_bt_py/tree_node.py:TreeNode.init_package_manager"]}
{"id": "C115", "title": "Results and the do notation", "statement": "A do expression evaluates its parts in order up to the first Err, which is its answer, and evaluates nothing after it; it is the same as nested and_then calls. Exceptions pass through. The hooks of the data nodes that are written as do expressions are the functions that the other properties speak about.", "quantifier": "for all do expressions, with all effects, errors and exceptions of their parts", "why_tests_cant": "Do expressions have any number of parts, with effects; tests check a few of them.", "anchors": ["ros_bt_py/ros_bt_py/vendor/result/result.py:do", "ros_bt_py/ros_bt_py/vendor/result/result.py:Ok", "ros_bt_py/ros_bt_py/vendor/result/result.py:Err", "ros_bt_py/ros_bt_py/nodes/list.py:InsertInList._do_tick", "ros_bt_py/ros_bt_py/nodes/compare.py:Compare._do_tick"]}
{"id": "C116", "title": "Optional runs what can be run", "statement": "An Optional runs its child if the child can be executed (its services and actions are ready, its topics have a publisher, its parameters exist) and leaves it out if it cannot; asking the child raises no exception.", "quantifier": "for all children of any shape, all histories of their nodes before the setup, and everything that may or may not be available", "why_tests_cant": "It depends on the order of setups in trees of any shape and on the servers of a running system.", "anchors": ["ros_bt_py/ros_bt_py/nodes/decorators.py:Optional._do_setup", "ros_bt_py/ros_bt_py/ros_nodes/service.py:ServiceBase._do_calculate_utility", "ros_bt_py/ros_bt_py/ros_nodes/action.py:ActionBase._do_calculate_utility", "ros_bt_py/ros_bt_py/ros_nodes/topic.py:TopicSubscriber._do_calculate_utility", "ros_bt_py/ros_bt_py/ros_nodes/param.py:RosParam._do_calculate_utility", "ros_bt_py/ros_bt_py/ros_nodes/subtree.py:Subtree._do_calculate_utility"]}
{"id": "C117", "title": "Stopping ends", "statement": "A STOP or SHUTDOWN request for a ticking tree is answered, and the tick thread ends and the tree is IDLE, however many requests come at the same time.", "quantifier": "for all pool sizes, all numbers of requests and all interleavings of handlers, timer and tick thread", "why_tests_cant": "Whether the requests block each other depends on the schedule and on the number of threads of the executor.", "anchors": ["ros_bt_py/ros_bt_py/tree_exec_manager.py:TreeExecManager.control_execution", "ros_bt_py/ros_bt_py/tree_exec_manager.py:TreeExecManager.tick", "ros_bt_py/ros_bt_py/tree_node.py:main"]}
{"id": "C118", "title": "What is ticked is what was edited", "statement": "Commands and ticks work on exactly the nodes of the editor, in the structure that was edited and published, and leave that structure alone; a node that can be edited or has been removed is not set up.", "quantifier": "for all histories of edits, commands and steps of the tick thread, all trees, all answers of the outside world", "why_tests_cant": "Tests use short histories; the node objects are shared by editor, manager and published messages, so every pair of actions would have to be tried.", "anchors": ["ros_bt_py/ros_bt_py/tree_exec_manager.py:TreeExecManager.find_root", "ros_bt_py/ros_bt_py/tree_exec_manager.py:TreeExecManager._control_execution_shutdown", "ros_bt_py/ros_bt_py/tree_exec_manager.py:is_edit_service", "ros_bt_py/ros_bt_py/tree_exec_manager.py:TreeExecManager.publish_structure"]}
{"id": "C119", "title": "A process from start to end", "statement": "A saved tree that is given as default tree is there when the process has started, and is ticked as requested; if it cannot be loaded nothing is executed. When the process ends, no node is left set up.", "quantifier": "for all saved trees, all configurations, all histories", "why_tests_cant": "Start-up and interruption are outside of the unit tests; the end depends on everything that happened before.", "anchors": ["ros_bt_py/ros_bt_py/tree_node.py:TreeNode.load_default_tree", "ros_bt_py/ros_bt_py/tree_node.py:main", "ros_bt_py/ros_bt_py/tree_node.py:TreeNode.shutdown"]}
{"id": "C120", "title": "The lists of packages, messages and channels", "statement": "The published lists contain every package outside of the ROS installation, every message type with its fields, every service, every action and every channel with its type; everyone who listens receives the current lists.", "quantifier": "for all installations, all message classes, all orders of listeners, timers and later installations", "why_tests_cant": "Tests run against one installation of ROS, in one directory, with messages that can all be imported.", "anchors": ["ros_bt_py/ros_bt_py/package_manager.py:PackageManager.publish_message_list", "ros_bt_py/ros_bt_py/package_manager.py:PackageManager.publish_packages_list", "ros_bt_py/ros_bt_py/package_manager.py:PackageManager.republish_lists", "ros_bt_py/ros_bt_py/package_manager.py:to_message_type", "ros_bt_py/ros_bt_py/ros_helpers.py:publish_message_channels"]}
{"id": "C121", "title": "Comparing containers, configurations and nodes", "statement": "Two containers, configurations or nodes are equal exactly if they agree in what they hold and accept: equality is an equivalence, equal containers give the same answers from then on, a copy of a configuration is equal to it, nodes with the same attributes are equal, and comparing never raises an exception.", "quantifier": "for all types and nestings, all values, all histories, all heaps of nodes", "why_tests_cant": "The answers after a comparison form an infinite set; nodes are compared along chains of parents of any length.", "anchors": ["ros_bt_py/ros_bt_py/data_types.py:DataContainer.__eq__", "ros_bt_py/ros_bt_py/node_config.py:NodeConfig.__eq__", "ros_bt_py/ros_bt_py/node_config.py:NodeConfig.copy", "ros_bt_py/ros_bt_py/node.py:Node.__eq__"]}
{"id": "C122", "title": "Data flows along the wirings that were edited", "statement": "Whenever the tree is ticked, the connections along which outputs are pushed are exactly the wirings of the structure published last: for every node those that leave it, in their order, and none else; an edit of the wirings takes effect with the next tick, and initialising the data flow never fails.", "quantifier": "for all histories of edits, commands and steps of the tick thread, all trees, all behaviours of nodes", "why_tests_cant": "The connections are a copy made at some ticks only; whether it is current depends on the whole history of edits, commands and failures before.", "anchors": ["ros_bt_py/ros_bt_py/data_flow_manager.py:DataFlowManager.initialize", "ros_bt_py/ros_bt_py/tree_exec_manager.py:TreeExecManager.tick", "ros_bt_py/ros_bt_py/tree_edit_manager.py:TreeEditManager.wire_data", "ros_bt_py/ros_bt_py/tree_edit_manager.py:TreeEditManager.unwire_data"]}
{"id": "C123", "title": "The child of an IterateList works on the items", "statement": "Whenever an IterateList ticks its child, an input wired to list_item holds the item of the list whose number is that of the items the child has already succeeded with in this round; a round begins with a new list, a setup, a reset, and after SUCCEEDED. When the IterateList answers SUCCEEDED after a tick of its child, the child has succeeded with every item of the list exactly once and in order.", "quantifier": "for all lists, all trees around the IterateList, all behaviours of the child and of the node that brings the list, all sequences of ticks, resets and setups", "why_tests_cant": "The item travels along a wiring only when the IterateList's tick has ended, so the hook has to give one tick away for each item; whether it does depends on the counter, the mark of the list and the history of both.", "anchors": ["ros_bt_py/ros_bt_py/nodes/list.py:IterateList._do_tick", "ros_bt_py/ros_bt_py/nodes/list.py:IterateList._do_reset", "ros_bt_py/ros_bt_py/data_flow_manager.py:DataFlowManager.push_outputs", "ros_bt_py/ros_bt_py/node.py:Node.tick"]}
{"id": "C124", "title": "Hooks find the current data in a running tree", "statement": "Let a tree be run with any sequence of tick, untick and reset. Whenever the _do_tick of a node is entered, each wired input of the node holds the value that the output it is wired to holds at this moment, and between two operations of the root all values have arrived.", "quantifier": "for all trees, all wirings in which an input has one source, all hooks (any sequence of calls of children, reads of data and writes of outputs, depending on anything), all sequences of operations and of data from a surrounding tree", "why_tests_cant": "Control flow and data flow meet: which node has been ticked before which other depends on the states of all nodes and on the data itself, so a test sees one order among arbitrarily many.", "anchors": ["ros_bt_py/ros_bt_py/node.py:Node.tick", "ros_bt_py/ros_bt_py/node.py:Node.untick", "ros_bt_py/ros_bt_py/node.py:Node.reset", "ros_bt_py/ros_bt_py/data_flow_manager.py:DataFlowManager.push_outputs", "ros_bt_py/ros_bt_py/data_types.py:DataContainer.set_value"]}
{"id": "C125", "title": "Data adds no behaviour", "statement": "Let a tree be run with nodes that read wired inputs, set outputs and decide by what they find. Whatever the data, the answers of the root and the states of all nodes are such as the control flow alone permits: what holds for a tree whatever its nodes answer (no hidden BROKEN node, silence after untick and shutdown) holds for the tree with its data.", "quantifier": "for all trees, all histories, all wirings, all ways in which nodes use their data, all sequences of operations and of data from a surrounding tree", "why_tests_cant": "Properties of the control flow are tested with leaves that answer from a script; whether a data dependence between nodes can leave that set of behaviours is a question about all data and all trees.", "anchors": ["ros_bt_py/ros_bt_py/node.py:Node.tick", "ros_bt_py/ros_bt_py/node.py:Node.untick", "ros_bt_py/ros_bt_py/node.py:Node.reset", "ros_bt_py/ros_bt_py/data_flow_manager.py:DataFlowManager.push_outputs", "ros_bt_py/ros_bt_py/nodes/getters.py:GetListItem", "ros_bt_py/ros_bt_py/nodes/decorators.py", "ros_bt_py/ros_bt_py/nodes/sequence.py", "ros_bt_py/ros_bt_py/nodes/fallback.py", "ros_bt_py/ros_bt_py/nodes/parallel.py"]}
{"id": "C126", "title": "A Subtree node is its tree", "statement": "A tree that is used through a Subtree node behaves as if its nodes stood in the place of the Subtree node: every operation gets the answer the tree itself would give, the Subtree node is always in the state of the root of the tree, and inside the same happens to the same nodes.", "quantifier": "for all nested trees, of any size and with further Subtree nodes inside, and all sequences of setup, tick, untick, reset and shutdown", "why_tests_cant": "Equality of two systems over all trees and sequences of operations; a test compares single runs.", "anchors": ["ros_bt_py/ros_bt_py/ros_nodes/subtree.py:Subtree._do_setup", "ros_bt_py/ros_bt_py/ros_nodes/subtree.py:Subtree._do_tick", "ros_bt_py/ros_bt_py/ros_nodes/subtree.py:Subtree._do_untick", "ros_bt_py/ros_bt_py/ros_nodes/subtree.py:Subtree._do_reset", "ros_bt_py/ros_bt_py/ros_nodes/subtree.py:Subtree._do_shutdown", "ros_bt_py/ros_bt_py/node.py:Node.shutdown"]}
{"id": "C127", "title": "A Sequence of computing nodes is a program", "statement": "When a Sequence of nodes that compute outputs from inputs (constants, operations, conversions and so on, possibly in further Sequences) has SUCCEEDED, each of them has done its work with the results of this tick: every output is what its node computes from its inputs, and every wired input holds the output it is wired to, if data flows to later nodes only. So the result is determined by the inputs that are not wired and does not depend on what happened before.", "quantifier": "for all trees of Sequences over computing leaves, all functions they compute, all wirings in the order of the tree and all earlier histories of ticks, unticks, resets and data from outside", "why_tests_cant": "Speaks about all programs and all earlier histories; stale values after certain histories are not found by single runs.", "anchors": ["ros_bt_py/ros_bt_py/nodes/sequence.py:Sequence._do_tick", "ros_bt_py/ros_bt_py/node.py:Node.tick", "ros_bt_py/ros_bt_py/data_flow_manager.py:DataFlowManager.push_outputs", "ros_bt_py/ros_bt_py/nodes/constant.py:Constant._do_tick", "ros_bt_py/ros_bt_py/nodes/maths.py:Operation._do_tick"]}
{"id": "C128", "title": "Well-typed programs do not go wrong", "statement": "A Sequence of nodes that compute outputs from inputs (possibly in further Sequences) SUCCEEDS in every tick, and every untick and reset answers IDLE, whatever happened before, if each node is able to compute from inputs of the declared types and its results are of the declared types, wirings lead to later nodes and to inputs that take all values of the output, and all other inputs are static with a value. The result is then the one of the program: every output is what its node computes from its inputs.", "quantifier": "for all trees of Sequences over computing leaves that have been set up, all functions they compute, all well-typed wirings and all earlier histories of ticks, unticks and resets", "why_tests_cant": "Absence of errors after all histories and for all programs; a test finds that single runs succeed.", "anchors": ["ros_bt_py/ros_bt_py/nodes/sequence.py:Sequence._do_tick", "ros_bt_py/ros_bt_py/node.py:Node.tick", "ros_bt_py/ros_bt_py/node.py:Node.untick", "ros_bt_py/ros_bt_py/node.py:Node.reset", "ros_bt_py/ros_bt_py/data_flow_manager.py:DataFlowManager.push_outputs", "ros_bt_py/ros_bt_py/data_flow_manager.py:DataFlowManager.initialize"]}
{"id": "C129", "title": "A reset makes a tree as good as new", "statement": "Take the same tree created twice, with any two pasts that both end in a successful setup or reset. From then on both answer alike and make the same calls to their nodes, whatever is called next: nothing of the past is left. A reset is thus as good as a setup, provided static inputs do not change.", "quantifier": "for all trees of the flow-control node classes, all pairs of pasts and all futures of operations", "why_tests_cant": "Quantifies over pairs of unbounded pasts and all futures; a test compares single runs.", "anchors": ["ros_bt_py/ros_bt_py/node.py:Node.reset", "ros_bt_py/ros_bt_py/node.py:Node.setup", "ros_bt_py/ros_bt_py/nodes/sequence.py:MemorySequence._do_reset", "ros_bt_py/ros_bt_py/nodes/fallback.py:MemoryFallback._do_reset", "ros_bt_py/ros_bt_py/nodes/decorators.py:Repeat._do_reset", "ros_bt_py/ros_bt_py/nodes/decorators.py:Retry._do_reset", "ros_bt_py/ros_bt_py/ros_nodes/throttle.py:Throttle._do_reset", "ros_bt_py/ros_bt_py/nodes/decorators.py:RepeatNoAutoReset._do_reset"]}
{"id": "C130", "title": "A reset makes a ROS leaf as good as new", "statement": "Take a Wait, TopicPublisher, TopicSubscriber, TopicMemorySubscriber, WaitForService, Service or Action node with any past that ends in a successful reset, and another one of the same class with the same time limit and any past that ends in a successful setup or reset. From then on both give the same answers and do the same (subscribe, publish, call, send and cancel goals), whatever happens next, as long as the inputs are not delivered again unchanged before the next tick: no message, response, goal or time from before the reset is left.", "quantifier": "for all pairs of executions of a leaf (operations, messages and answers of servers in any order, including messages during a reset) and all futures", "why_tests_cant": "Quantifies over pairs of unbounded executions with callbacks at any time; tests compare single runs.", "anchors": ["ros_bt_py/ros_bt_py/ros_nodes/wait.py:Wait._do_reset", "ros_bt_py/ros_bt_py/ros_nodes/topic.py:TopicSubscriber._do_reset", "ros_bt_py/ros_bt_py/ros_nodes/topic.py:TopicMemorySubscriber._do_reset", "ros_bt_py/ros_bt_py/ros_nodes/topic.py:TopicPublisher._do_reset", "ros_bt_py/ros_bt_py/ros_nodes/service.py:ServiceBase._do_reset", "ros_bt_py/ros_bt_py/ros_nodes/service.py:WaitForService._do_reset", "ros_bt_py/ros_bt_py/ros_nodes/action.py:ActionBase._do_reset", "ros_bt_py/ros_bt_py/node.py:Node.reset"]}
{"id": "C131", "title": "Nodes do not share data", "statement": "Every input and output holds the value that it was given last, whatever code does later to the object it was given or to objects it has handed out: get_value answers with a new object of this value, no part of which is held by anyone else. A node that changes its inputs in place (SetDictItem) thus computes its output and leaves the data of all other nodes alone.", "quantifier": "for all executions of code that creates objects, changes the objects it has got hold of in place in any way, and calls get_value, set_value and reset_value of any containers; for all objects with nesting and sharing, also shared initial values", "why_tests_cant": "Sharing shows only in particular orders of in-place changes and reads; the property quantifies over all of them and over all shapes of objects.", "anchors": ["ros_bt_py/ros_bt_py/data_types.py:DataContainer.set_value", "ros_bt_py/ros_bt_py/data_types.py:DataContainer.get_value", "ros_bt_py/ros_bt_py/data_types.py:DataContainer.get_value_as", "ros_bt_py/ros_bt_py/data_types.py:DataContainer.reset_value", "ros_bt_py/ros_bt_py/nodes/setters.py:SetDictItem._do_tick"]}
{"id": "C132", "title": "A Service node answers what its inputs ask", "statement": "Whenever a Service node answers SUCCEEDED, the call that it has made last is the one that its current inputs ask for (this service, these values in the request), and its outputs show the response to this very call. In its first tick, and whenever an input has changed, it calls the service anew, drops a call that is still outstanding, and answers RUNNING.", "quantifier": "for all service types and request and response fields; for all histories of setup, tick, untick, reset, shutdown and deliveries of inputs, with failing and raising clients, responses in any tick, timeouts and cancelled calls", "why_tests_cant": "A stale or mixed-up response shows only for particular timings of changed inputs, resets and responses; the property quantifies over all of them.", "anchors": ["ros_bt_py/ros_bt_py/ros_nodes/service.py:ServiceBase._do_tick", "ros_bt_py/ros_bt_py/ros_nodes/service.py:ServiceBase._do_reset", "ros_bt_py/ros_bt_py/ros_nodes/service.py:Service.get_request", "ros_bt_py/ros_bt_py/ros_nodes/service.py:Service.set_outputs"]}
{"id": "C133", "title": "An Action node pursues the goal that its inputs ask for", "statement": "Every goal that an Action node sends goes to the action that its inputs name and has the fields that its inputs ask for. Whenever the node answers SUCCEEDED, the goal sent last is the one that its current inputs ask for, and its outputs show the result of this very goal. It sends a goal in its first tick and, if inputs change after a success, within two ticks.", "quantifier": "for all action types with goal, result and feedback fields; for all histories of setup, tick, untick, reset, shutdown and deliveries of inputs, with raising clients, feedback, results, rejections, cancellations and timeouts at any time", "why_tests_cant": "A goal for the wrong action or with old values shows only for particular orders of changed inputs, unticks and answers of the server; the property quantifies over all of them.", "anchors": ["ros_bt_py/ros_bt_py/ros_nodes/action.py:ActionBase._do_tick", "ros_bt_py/ros_bt_py/ros_nodes/action.py:ActionBase._do_tick_send_new_goal", "ros_bt_py/ros_bt_py/ros_nodes/action.py:ActionBase._do_untick", "ros_bt_py/ros_bt_py/ros_nodes/action.py:Action.get_goal", "ros_bt_py/ros_bt_py/ros_nodes/action.py:Action.set_result_outputs"]}
{"id": "C134", "title": "Requests never wait for each other in a circle", "statement": "However many edit services, publish settings, ticks and message callbacks run at the same time, on the main tree and on nested subtrees to any depth, and however the threads interleave, some of them can always go on as long as one is unfinished: the edit lock, tree lock, subtree manager locks and node locks are taken in an order without cycles, no thread waits for a lock that it holds itself, and two edits of the same tree never overlap. The requests that are there have all been answered after as many steps as they have instructions, unless new ones come, and then no lock is held.", "quantifier": "for all numbers of threads, all places and depths of nested subtrees, all sequences of code that they run, all interleavings", "why_tests_cant": "a deadlock shows up only in particular interleavings of several threads, of which a test sees a few by chance", "anchors": ["ros_bt_py/ros_bt_py/tree_exec_manager.py:93-127", "ros_bt_py/ros_bt_py/tree_exec_manager.py:387-465", "ros_bt_py/ros_bt_py/subtree_manager.py:51-151", "ros_bt_py/ros_bt_py/ros_nodes/subtree.py:86-160", "ros_bt_py/ros_bt_py/ros_nodes/topic.py:81-165", "ros_bt_py/ros_bt_py/ros_nodes/action.py:160-210"]}
{"id": "C135", "title": "A tree is a formula over its atoms", "statement": "A tree of Sequences, Fallbacks, Inverters, IgnoreFailure, IgnoreSuccess, UntilSuccess, RepeatAlways, RepeatUntilFail, RepeatIfFail and Watch nodes means a fixed formula over all its other nodes (the atoms). Whatever has been done with the tree before, a tick of the root that ends without an error answers the value of this formula for the answers that the atoms give in this tick; the atoms that are ticked are exactly those that the formula needs, each one once, from left to right. With Sequence, Fallback and Inverter over conditions that answer SUCCEEDED or FAILED this is ordinary logic with and, or, not.", "quantifier": "for all trees of any depth and width, all histories of setup, tick, untick, reset and shutdown, all kinds and behaviours of the atoms and of what is below them", "why_tests_cant": "tests try a handful of small trees from fresh states; the property is about all nestings of control nodes and all states in which earlier operations leave them", "anchors": ["ros_bt_py/ros_bt_py/nodes/sequence.py:83-117", "ros_bt_py/ros_bt_py/nodes/fallback.py:150-185", "ros_bt_py/ros_bt_py/nodes/decorators.py:40-260", "ros_bt_py/ros_bt_py/nodes/decorators.py:463-577", "ros_bt_py/ros_bt_py/nodes/decorators.py:677-695"]}
{"id": "C136", "title": "A tree with memory works through its formula", "statement": "A tree of MemorySequence, MemoryFallback, Inverter, IgnoreFailure and IgnoreSuccess nodes means a fixed formula over all its other nodes (the atoms), which is evaluated over several ticks. After a successful setup or reset, and any number of rounds of ticks without errors, let the tree be ticked until it finishes. Its final answer is the value of the formula for the final answers of the atoms. In this round exactly the atoms that the formula needs are ticked, one after the other from left to right, each one until it has finished and never again after that. The tree answers RUNNING exactly once for each RUNNING of an atom.", "quantifier": "for all trees of any depth and width, all pasts before the setup or reset, all numbers of rounds and of ticks in a round, all kinds and behaviours of the atoms and of what is below them", "why_tests_cant": "a test fixes the nesting and the tick in which each child finishes; the property is about all nestings of nodes with memory and all durations", "anchors": ["ros_bt_py/ros_bt_py/nodes/sequence.py:184-256", "ros_bt_py/ros_bt_py/nodes/fallback.py:251-319", "ros_bt_py/ros_bt_py/nodes/decorators.py:40-76", "ros_bt_py/ros_bt_py/nodes/decorators.py:144-166", "ros_bt_py/ros_bt_py/nodes/decorators.py:228-254"]}
{"id": "C137", "title": "Rebuilding a tree by the laws of logic keeps its meaning", "statement": "Let two trees be rebuilt into each other by safe changes: a Sequence directly in a Sequence (or a Fallback in a Fallback) is dissolved into its children, an empty Sequence or Fallback is dropped in one, two Inverters in a row are dropped, an Inverter above a Sequence is moved to its children and the Sequence becomes a Fallback, or the other way round, decorators in a row are merged, and all of this at any place in the tree and in any number. If the other nodes (the atoms) that are asked answer the same, RUNNING, SUCCEEDED or FAILED, then a tick of both trees answers the same and asks the same atoms in the same order, whatever happened to each tree before. For trees of nodes with memory the same holds for whole rounds: both take the same number of ticks, answer the same, and tick the same atoms in the same order. A Sequence in a MemorySequence may not be dissolved.", "quantifier": "for all pairs of trees of any depths and widths, all finite chains of changes, all pasts, all answers and durations of the atoms", "why_tests_cant": "a test compares two fixed trees for a few answers; the property is about all trees that the laws connect, for all answers and all pasts", "anchors": ["ros_bt_py/ros_bt_py/nodes/sequence.py:83-117", "ros_bt_py/ros_bt_py/nodes/sequence.py:184-256", "ros_bt_py/ros_bt_py/nodes/fallback.py:150-185", "ros_bt_py/ros_bt_py/nodes/fallback.py:251-319", "ros_bt_py/ros_bt_py/nodes/decorators.py:40-76", "ros_bt_py/ros_bt_py/nodes/decorators.py:144-166", "ros_bt_py/ros_bt_py/nodes/decorators.py:228-254"]}
{"id": "C138", "title": "How long a Parallel takes", "statement": "Let a Parallel or ParallelFailureTolerance begin a new round: it is finished, or none of its children is. Let every child be known by the number of ticks for which it will answer RUNNING and by its result after that. Then every tick of the parallel node answers SUCCEEDED as soon as enough children have succeeded by then, otherwise FAILED as soon as too many have failed by then, otherwise RUNNING; and every child is ticked exactly once per tick until it has its result, and not again. The round of a Parallel always ends, namely with a tick in which one of its children finishes. A ParallelFailureTolerance ends its round in every case exactly if it has at least `needed_successes` + `tolerate_failures` children; with fewer children there are results of the children for which it answers RUNNING forever without ticking any child.", "quantifier": "for all trees below a Parallel or ParallelFailureTolerance, all numbers of children, all options, all pasts, all durations and results of the children, all numbers of ticks", "why_tests_cant": "a test fixes a few children with a few durations; the property is about all combinations of durations and results", "anchors": ["ros_bt_py/ros_bt_py/nodes/parallel.py:72-140", "ros_bt_py/ros_bt_py/nodes/parallel.py:301-374"]}
{"id": "C139", "title": "How long a tree takes", "statement": "Take a tree of MemorySequence, MemoryFallback, Parallel, ParallelFailureTolerance, Inverter, IgnoreFailure and IgnoreSuccess over any other nodes (its atoms), set up or reset after any past, and let every atom be known by the number of ticks for which it will answer RUNNING when it is ticked, and by its result. Then the duration and the result of the tree can be computed from below: children of a MemorySequence add up until one fails, children of a MemoryFallback until one succeeds, children of a parallel node run at the same time until enough have succeeded or too many have failed, decorators rename the result. If its ticks do not fail, the tree answers RUNNING for exactly that many ticks and then gives exactly that result. The same holds round after round if the ticks go on: a finished node with memory or parallel node resets its children when it is ticked again, and the duration of the next round is computed for the atoms as they are then. If all atoms come to a result and every ParallelFailureTolerance has at least `needed_successes` + `tolerate_failures` children, the tree does too.", "quantifier": "for all trees of any depth and width, all atoms, all durations and results, all pasts", "why_tests_cant": "a test runs one tree with fixed durations; the property is about all trees and all durations, which multiply", "anchors": ["ros_bt_py/ros_bt_py/nodes/sequence.py:184-256", "ros_bt_py/ros_bt_py/nodes/fallback.py:251-319", "ros_bt_py/ros_bt_py/nodes/parallel.py:72-152", "ros_bt_py/ros_bt_py/nodes/parallel.py:301-386", "ros_bt_py/ros_bt_py/nodes/decorators.py:49-71", "ros_bt_py/ros_bt_py/nodes/decorators.py:139-161", "ros_bt_py/ros_bt_py/nodes/decorators.py:223-249"]}
{"id": "C140", "title": "How many ticks TICK_UNTIL_RESULT takes", "statement": "Take a tree of MemorySequence, MemoryFallback, Parallel, ParallelFailureTolerance, Inverter, IgnoreFailure and IgnoreSuccess over any other nodes (its atoms), with any past, which is not set up or was just reset by RESET, and let its duration T and its result be computed from those of its atoms as in the property before. If nothing fails and nobody stops the tree, TICK_UNTIL_RESULT sets it up (only if it was not set up), ticks it exactly T + 1 times, of which T are answered RUNNING and the last one with the result, and unticks it once; then the tick thread has ended and the tree is IDLE. Without a RESET it works the same for the next TICK_UNTIL_RESULT unless the tree has a MemoryFallback, which may then begin in the middle of its children.", "quantifier": "for all trees of any depth and width, all atoms, all durations and results, all pasts", "why_tests_cant": "a test waits for one tree with fixed durations; the property is about all trees and durations, and that not one tick more or less is given", "anchors": ["ros_bt_py/ros_bt_py/tree_exec_manager.py:623-748", "ros_bt_py/ros_bt_py/tree_exec_manager.py:1066-1154", "ros_bt_py/ros_bt_py/nodes/sequence.py:184-256", "ros_bt_py/ros_bt_py/nodes/fallback.py:251-319", "ros_bt_py/ros_bt_py/nodes/parallel.py:72-152"]}
{"id": "C141", "title": "TICK_PERIODICALLY runs a tree round after round", "statement": "Take a tree of MemorySequence, MemoryFallback, Parallel, ParallelFailureTolerance, Inverter, IgnoreFailure and IgnoreSuccess over any other nodes (its atoms), with any past, which is not set up, and let the durations and results of its rounds be computed from those of its atoms. If nothing fails, TICK_PERIODICALLY sets the tree up once and then ticks it round after round, with exactly the computed number of RUNNING answers and the computed result in each round, and calls nothing else on it in between. A STOP after any number of rounds unticks it exactly once, ends the tick thread, and is answered with success if this untick succeeds.", "quantifier": "for all trees of any depth and width, all atoms, all numbers, durations and results of rounds, all pasts", "why_tests_cant": "a test looks at a few ticks of one tree; the property is about any number of rounds of all trees", "anchors": ["ros_bt_py/ros_bt_py/tree_exec_manager.py:623-748", "ros_bt_py/ros_bt_py/tree_exec_manager.py:1066-1111", "ros_bt_py/ros_bt_py/tree_exec_manager.py:1229-1317", "ros_bt_py/ros_bt_py/nodes/sequence.py:184-256", "ros_bt_py/ros_bt_py/nodes/fallback.py:251-319", "ros_bt_py/ros_bt_py/nodes/parallel.py:72-152"]}
{"id": "C142", "title": "Ticking by hand gives the same rounds", "statement": "Take a tree of MemorySequence, MemoryFallback, Parallel, ParallelFailureTolerance, Inverter, IgnoreFailure and IgnoreSuccess over any other nodes (its atoms), set up or reset after any past, and let the durations and results of its rounds be computed from those of its atoms. If nothing fails, every request TICK_ONCE is answered with success and ticks the tree exactly once, without unticking or anything else in between, and the answers of these ticks are those that TICK_PERIODICALLY would get: round after round the computed number of RUNNING and then the computed result. The first TICK_ONCE for a tree that is not set up sets it up before its tick. TICK_UNTIL_RESULT does the ticks of one round.", "quantifier": "for all trees of any depth and width, all atoms, all numbers, durations and results of rounds, all pasts", "why_tests_cant": "a test looks at a few ticks of one tree; the property compares whole runs of all trees under different commands", "anchors": ["ros_bt_py/ros_bt_py/tree_exec_manager.py:623-748", "ros_bt_py/ros_bt_py/tree_exec_manager.py:995-1111", "ros_bt_py/ros_bt_py/tree_exec_manager.py:1157-1340", "ros_bt_py/ros_bt_py/nodes/sequence.py:184-256", "ros_bt_py/ros_bt_py/nodes/fallback.py:251-319", "ros_bt_py/ros_bt_py/nodes/parallel.py:72-152"]}
{"id": "C143", "title": "A RESET makes a fresh start whatever happened before", "statement": "Take a tree of MemorySequence, MemoryFallback, Parallel, ParallelFailureTolerance, Inverter, IgnoreFailure and IgnoreSuccess over any other nodes (its atoms), in any state, and a tree manager in any state: the tree may have been stopped in the middle of a round, ticked by hand or have just found its result, and a tick thread may still be at work. If a request RESET is answered with success, a following TICK_UNTIL_RESULT is answered with success and gives exactly the computed number of RUNNING and the computed result, counted from the first child on; nothing of the interrupted round is left. The same holds for the rounds of a following TICK_PERIODICALLY and of following TICK_ONCE requests. In particular, if a STOP of a ticking tree is answered with success, no tick thread is left, and a RESET is answered with success exactly if the reset of the root succeeds. A SHUTDOWN makes a fresh start as well, with one setup before the first tick. If there is no MemoryFallback above the atoms, such a STOP alone is enough for a fresh start with TICK_UNTIL_RESULT.", "quantifier": "for all trees of any depth and width, all atoms, all durations and results, all states of tree, tree manager and tick thread", "why_tests_cant": "a test stops one tree at one point; the property is about every point at which a tree can be interrupted", "anchors": ["ros_bt_py/ros_bt_py/tree_exec_manager.py:623-748", "ros_bt_py/ros_bt_py/tree_exec_manager.py:1066-1154", "ros_bt_py/ros_bt_py/tree_exec_manager.py:1157-1340", "ros_bt_py/ros_bt_py/nodes/sequence.py:184-256", "ros_bt_py/ros_bt_py/nodes/fallback.py:251-319", "ros_bt_py/ros_bt_py/nodes/parallel.py:72-152"]}
{"id": "C144", "title": "A successful answer of control_execution is true", "statement": "If a request to control_execution is answered with success, the tree is in the state that the command promises, and tree_state in the answer is this state: WAITING_FOR_TICK after TICK_ONCE, TICKING after TICK_PERIODICALLY and TICK_UNTIL_RESULT, IDLE after STOP and RESET, EDITABLE after SHUTDOWN and SETUP_AND_SHUTDOWN. After TICK_ONCE, STOP and RESET no tick thread is running; after the other two ticking commands one is.", "quantifier": "for all states of the tree manager, its tick thread and the tree, all commands, all behaviours of the nodes", "why_tests_cant": "a test sends a command in a few states; the property is about every command in every state", "anchors": ["ros_bt_py/ros_bt_py/tree_exec_manager.py:956-1154", "ros_bt_py/ros_bt_py/tree_exec_manager.py:1157-1340"]}
