# Design: formal model of ros_bt_py in Lean 4

Source modelled: `/repo/ros_bt_py/ros_bt_py` (Python).  All paths below are relative to it.

## Trusted base

* The Lean 4.33 kernel. The only axioms in use are `propext`, `Classical.choice`, `Quot.sound`;
  `AXIOMS.md` lists them for every theorem of the manifest (written by `tools/axioms.py` with
  `#print axioms`). No own axioms, no `sorry`, no `native_decide`, no `bv_decide`.
* The translation Python -> Lean, done by hand, function by function. Every definition cites the
  file and lines it models and says where it simplifies.
* Not modelled anywhere: ROS transport (rclpy publishers, services, executors) other than as
  arbitrary ("oracle") behaviour, logging (except C102), YAML parsing, floating point rounding
  (numbers are integers or rationals), Python exceptions that are not turned into `Err`
  (except where a section says so), memory exhaustion.

## Overview of the model

| Part | Files | Python |
|---|---|---|
| Node life cycle and control flow (trees) | `Verif/BT/*` | `node.py`, `nodes/sequence.py`, `nodes/fallback.py`, `nodes/parallel.py`, `nodes/decorators.py`, `nodes/list.py`, `nodes/getters.py` (child handling), `ros_nodes/throttle.py`, `ros_nodes/enum_switch.py`, `ros_nodes/subtree.py` |
| Utility bounds | `Verif/Utility/*` | `calculate_utility*` |
| Editing | `Verif/Edit/*` | `tree_edit_manager.py`, `node.py` links, `tree_exec_manager.py` load/find_root |
| Execution | `Verif/Exec/*` | `tree_exec_manager.py` |
| Data | `Verif/Data/*` | `data_types.py`, `node_config.py`, `data_flow_manager.py` |
| ROS leaves | `Verif/Ros/*` | `ros_nodes/service.py`, `action.py`, `topic.py`, `wait.py` |
| Data nodes | `Verif/Nodes/*` | `nodes/getters.py`, `list.py`, `setters.py`, `compare.py`, `constant.py`, `io.py`, `passthrough_node.py`, `format.py`, `random_number.py` |
| Everything together | `Verif/Whole/*` | the parts above in one system: the tree process (`Process`, `System`, `Claims`, `Wires`), trees with their data (`Values`), their relation to trees without data (`Refine`), Sequences as programs (`Program`) |
| Files and names | `Verif/Files/*` | `package_manager.py`, `node.py:increment_name` |

### Trees

* A hook (`_do_setup`, `_do_tick`, ...) of a control-flow node is a `Prog`: an interaction tree
  whose only effects are "call operation `op` on child `i`", "read the state of child `i`" and
  "finish with memory `m` and result `r`". So the hook text mirrors the Python text, and an
  interpreter gives it meaning over any type of children.
* `Tree 0` is empty and `Tree (n+1)` is a node whose children are `Tree n`; so `∀ n, Tree n` is
  every finite tree. Theorems go by induction on `n`; the induction step is a statement about one
  node over arbitrary children that satisfy the property.
* Leaves, node inputs, clocks, delivery of outputs are an *oracle*: each node has an arbitrary function
  from call number to what the outside world answers in that call. Every concrete execution is
  one such function, so theorems quantify over all behaviours.
* Every operation returns the new node, a result, the list of calls made directly to children, and
  the flat trace of all calls/hook invocations/returns in the subtree. Properties are
  stated over those observables.

### Editing

The state is a finite map from node ids to nodes (links, child limit, inputs and outputs by name and
type), the wirings, and the root name. Every request is one function from state to state and answer; histories
are lists of requests. Fresh ids are given from outside (`uuid4` is trusted not to repeat). What a
node computes does not matter here.

### Execution

Two layers. In `Model.lean` commands are atomic with respect to each other while the tick thread may take
its steps between them; the root is an arbitrary node (any answer to each operation, any exception).
In `Race.lean` the statements of command handlers and tick threads are interleaved one by one; it is
used for the guards, for the number of tick threads, and for the races in the findings. Requests do
overlap: the services are in a `ReentrantCallbackGroup` (tree_node.py 231, 306) of an executor with three
threads (tree_node.py 518).

### Data

Values are booleans, integers, floats (rationals, infinities, NaN; no rounding), strings, bytes, lists, numeric
arrays, dictionaries, ROS messages, ROS types. `deepcopy` in `get_value` and `set_value`
(data_types.py 268, 279) is trusted: values are values and not references. That this is right, given
what `deepcopy` promises, is C131 (`Data/Heap.lean`, a heap of objects). ROS types and
messages are known by name and an abstract field list. JSON text is an abstract syntax tree.
`ReferenceContainer` is modelled in `Edit` as "type given by another input" only.

### ROS leaves

`Frame.lean` has the life cycle of one node with a hook and an arbitrary environment for every
call (clock, inputs updated or not, whether calls to rclpy fail). Callbacks of the executor thread are
further events; where a callback can run in the middle of a hook, the environment says so
(`late`). The trace of requests sent to the middleware and of outputs written is part of the result.

### Data nodes

A hook is a function of the inputs and outputs of one node; exceptions are a separate outcome.
`Pipeline.lean` puts such a node into the data flow model. NaN being "in" a list because it is the
same object is not modelled.

### Properties that the code violates

When the code contradicts a property, the model follows the code; we prove the negation on a
concrete witness and the strongest positive statement found, named `..._partial`.

## Plan per property

| Id | Model | Proof |
|---|---|---|
| C01 | node wrapper `runNode` | case analysis, any children |
| C02 | `runNode` | case analysis; needs no assumption on hooks |
| C03–C06 | trees | induction on depth; loop lemma for "call op on all children" |
| C07 | trees, trace | `Prog` predicate "ticks each child at most once" + induction on depth |
| C08 | trees, trace | `Prog` predicate "stops on error" + induction; ThrottleSuccess is a counterexample |
| C09 | two trees | bisimulation: memory is irrelevant in UNINITIALIZED/SHUTDOWN/BROKEN |
| C10 | `runNode` | case analysis + history |
| C11–C17 | one node over arbitrary children, call log | induction on child list |
| C18 | trees, all histories | invariant "non-running, non-broken node has quiet descendants"; counterexamples for switch, IgnoreRunning, IterateList |
| C19–C24 | one node, history of ticks | refinement to a list function over child results |
| C25–C28 | utility functions over rationals | induction over children; sorting lemma for Parallel; counterexamples |
| C29–C33, C35, C36 | edit manager state (nodes, links, wirings) and each request | invariant over request histories; counterexamples for self-move etc. |
| C34, C38 | `find_root`, cycle search with fuel | direct; non-termination as a theorem about fuel |
| C37 | pre-order message and load loop, aliasing of reload | round trip by induction on forest |
| C39–C46 | manager state machine, with tick thread; interleaving model for locks | invariants over transition systems |
| C47–C50 | type grammar with limits, values | structural induction |
| C51–C53 | containers, wirings, configs | induction over wiring list |
| C96 | nested calls with switches in between | induction over the calls |
| C97 | data flow with texts of values | C50, C51, equality of texts |
| C98 | trees | bisimulation, with Sequence, Fallback and decorators as functions on lists |
| C99–C101 | tree manager with publisher | invariants over all interleavings; C100 over rationals |
| C102 | logging managers | invariants over histories; injectivity of names |
| C103 | modules and classes | invariant of the registry; import by recursion on the depth of the stack |
| C104 | tree manager, names only | invariants over histories |
| C105 | trees with numbers at their nodes; tick thread | measure on tree states, induction over the tree |
| C106 | type values as dictionaries; `GenericType` containers | structural recursion over nested dictionaries, specification as inductive relations |
| C107 | references, creation of nodes from messages, saving of inputs | invariants over both loops of `from_msg`; relation between saved and read inputs |
| C108 | shutdown of trees that are set up in part; first calls of the ROS classes | exact characterisation of raising by induction over trees; monotonicity over repeated shutdowns |
| C109, C110 | execution control with the full tree model; `TreeNode.shutdown` | invariant over histories: tick thread and commands keep trees at rest while EDITABLE |
| C111, C112, C113 | the tree model | invariants over histories: live nodes below live nodes, at most one RUNNING child, a waiting child below each RUNNING node |
| C114 | listings with an environment that changes the counter | mutual induction on directory trees |
| C115 | results, generator expressions and `do` over arbitrary effects | induction on clauses; equality with the hooks of the model |
| C116 | utility of all node kinds before the setup, with exceptions | invariant over all histories of service and action nodes; mutual induction on trees |
| C117 | thread pool of the executor, handlers of STOP/SHUTDOWN, timer and tick thread as a transition system | invariant of all reachable states; measure for termination; induction on the pool size |
| C118 | edit model and execution model combined: node objects with state, tree read off the objects, results written back | invariant of all reachable states; reading after writing is the identity on trees without shared nodes |
| C119 | `load_default_tree`, `main` on top of the combined model of C118 | the start is a history of the combined model; round trip of C37 |
| C120 | `publish_message_list`, `publish_packages_list`, `republish_lists`, `publish_message_channels` | lists characterised by membership; invariant over listeners coming and going |
| C121 | `DataContainer.__eq__`, `NodeConfig.__eq__`, `NodeConfig.copy`, `Node.__eq__` | `==` on values is an equivalence; equal containers are bisimilar; recursion over parents |
| C122 | `DataFlowManager.initialize` within `tick`, together with editing and control (C118) | the manager on marked trees (`Exec/Mark.lean`) simulates the manager; invariant: connections current, or a reason why nothing is ticked |
| C123 | `IterateList._do_tick` (C24's hook) on top of the data flow (C51) | invariant over all interleavings with other nodes' events, with an observer that writes down what the child's input holds |
| C124 | `Whole/Values`: nodes with any hooks over their data, run together with the data flow of C51 | induction over the depth of the tree, the invariant of C51 and of the phases of all nodes |
| C125 | `Whole/Refine`: the classes of `BT/Hooks` with any use of their data | refinement: the answers of the outside world are chosen backwards from the end of the run, node by node; the past is kept by grafting |
| C126 | trees, Subtree node over any tree | the node and its tree run in step; bisimulation for exchange in any place |
| C127 | trees with data, Sequences over computing leaves | equations kept along the loop over the children; the solution is unique by induction along the order |
| C128 | trees with data, Sequences over computing leaves | invariant: data are of their types, static inputs are filled, and inputs fed by earlier children hold values; every move keeps it and answers as expected |
| C129 | trees of flow-control nodes | invariant: the options of a node are those of its static inputs; after a setup or reset all that is left is the options; bisimulation of C09 |
| C130 | ROS leaves | bisimulation per class that ignores attributes nothing depends on (times without a message, a request that is not waited for, what the next tick reads anew) |
| C131 | heap of objects, containers, arbitrary code that changes objects in place | invariant: nothing that can be reached from a container can be reached by other code; contract for `deepcopy` |
| C132 | class `Service` with its inputs, outputs and requests | invariant: an unflagged input has the value of the last request |
| C133 | class `Action` with its inputs, outputs and goals | invariant: an unflagged input has the value of the last goal, a client in the internal state IDLE is of the current name |
| C134 | all locks and the code that takes them, threads and their interleavings | order of the locks, invariant over executions, measure |
| C135 | the tree model; formulas as specification | induction over depth and over loops of hooks; answers of a tick as a stream that the formula reads |
| C136 | the tree model; formulas that wait as specification | invariant: what each node is going to do next; induction over depth, loops and ticks |
| C137 | the formulas of C135 and C136; rewriting rules as specification | soundness by induction over a chain of changes |
| C138 | ticks of the parallel nodes; counting rule over durations as specification | invariant over the ticks of a round |
| C139 | exec semantics of the nodes with memory, the parallel nodes and decorators; computed durations as specification | induction over depth, ticks and rounds |
| C140 | tick thread of the execution model over the trees of C139 | induction over ticks, from C139 |
| C141 | tick thread of the execution model over the rounds of C139 | induction over ticks, from C139 |
| C142 | `control_execution` over the rounds of C139 | induction over requests, from C139 |
| C143 | `control_execution` in any state of manager and thread, then C139 | frame lemmas for the thread's steps, from C139 |
| C144 | `control_execution`, all commands in all states | case analysis, frame lemmas of C143 |
| C95 | tree of managers with dicts | induction over histories and nesting |
| C93–C94 | loop that reads and parses tree files; migration program | induction over rounds, nesting and arguments |
| C92 | a data flow inside a node of another | invariants over executions |
| C54, C55 | strings / file system as finite map | direct |
| C56–C62 | automata with clock, futures, message queues | invariants over event histories |
| C63, C64, C77–C81, C84–C91 | direct functions on node data | case analysis; C80 via C51 |
| C65–C67 | edit model | histories |
| C82, C83 | messages of subtrees; removal in any order | refinement to C35, C37 |
| C68–C70 | file system model | direct, induction on paths and directory trees |
| C71–C76 | as C56–C62 | invariants over event histories |

## Wrong programs

`tools/mutate.py` copies the project to a scratch directory, edits one definition like a plausible
bug, rebuilds, and appends the theorems that fail to `seeded/LOG.jsonl`. Edits that broke no
theorem led to stronger statements (`tightened`) or carry a note saying why the edit makes
no difference.

## Findings

Where the code contradicts its documentation or what a user would expect. Each is proved on the
model with a concrete witness, unless it says "not modelled".

Trees
* Repeat answers SUCCEEDED only after `num_repeats` + 1 successes; the count of Retry survives an untick (C19, C20 state the actual bound).
* RepeatNoAutoReset: a reset does not reach the child (`c05_reset_misses_child`).
* ThrottleSuccess always answers FAILED (`c76_always_failed`, `c76_not_passed_on`), swallows errors of its child (`c08_throttle_success_swallows`) and leaves it running (`c18_throttle_success`).
* Throttle: a reset keeps the cached answer (`c60_reset_keeps`); with a clock that jumps back it finishes with a running child (`c18_throttle_clock`).
* MemoryFallback: the index survives a finished tick followed by an untick (`c14_stale_memory`). So a second TICK_UNTIL_RESULT without a RESET may leave out its first children (`c140_twice`); trees without MemoryFallback do not need the RESET (`c140_again`).
* ParallelFailureTolerance can answer RUNNING forever although all children have finished (`c16_never_finishes`); exactly if it has fewer than `needed_successes` + `tolerate_failures` children (`c138_safe_options`, `c138_forever`).
* IgnoreRunning, IterateList with an emptied list, and switches with an unknown name finish while a child is running (`c18_*`).
* Utility bounds: Parallel with a missing upper bound (`c27_missing_bound`) or with several successes at once (`c27_more_successes`), ParallelFailureTolerance (`c27_tolerance_ignored`), Inverter, IgnoreFailure, IgnoreSuccess, UntilSuccess (`c28_unsound`).

Editing
* `move_node(n, n)` makes a node its own child (`c30_move_breaks`); `replace_node` by a relative makes cycles (`c30_replace_breaks`, `c30_replace_parent_breaks`); `Edit.Exactly` says exactly which requests do.
* `load_tree` accepts cyclic messages and shared children (`c30_load_breaks`, `c29_load_breaks`); a failed load leaves the manager changed (`c33_load_clears`).
* A failed `add_node` leaves the node in the tree (`c33_add_leaks`, `c33_add_bad_parent_leaks`); a rejected `morph_node` leaves the node without its parent (`c29_morph_breaks`, `c33_morph_breaks`).
* `find_nodes_in_cycles` does not end if a parent chain leads into a cycle (`c38_hangs`); then `add_node` hangs (`c38_add_node_hangs`).
* `reload_tree` empties the tree and reports success (C37).
* Naming a wiring twice in an unwire request raises ValueError (C36).
* `get_subtree` drops all wirings (`c82_wirings_lost`; `Node.subscriptions` is never written). `generate_subtree` adds only the direct parents, so that two leaves in different branches are refused (`c83_parents_missing`); asked for no node at all it answers with success and an empty tree (`c83_success`).
* Not modelled: a root that reaches a cycle makes publishing recurse without end.

Execution
* The check "is the tree editable" and the edit are not one step: a tick thread can start in between (`c40_check_then_tick`); two overlapping commands can start two tick threads (`c46_two_threads`).
* A SHUTDOWN between two reads of the tree state answers before the tick thread has unticked (`c43_shutdown_while_unticking`).
* In WAITING_FOR_TICK with a root that cannot be unticked no number of SHUTDOWNs helps (`c44_stuck_in_waiting`).
* A STOP in WAITING_FOR_TICK unticks the root and is answered with IDLE, but nobody sets the state (tree_exec_manager.py 1278-1305): the tree stays WAITING_FOR_TICK (`c144_stop_waiting`).
* Further quirks: `Verif/Exec/Quirks.lean`.

Data
* NaN and several default values violate the limits of their type (`c47_nan`, `c47_default_*`).
* Static inputs can be written again after the first tick or if the first value equals the default (`c48_after_tick`, `c48_after_default`).
* Compatibility of `valid_values` is the wrong way round (`c49_options`); element types of nested lists are not compared (`c49_nested`).
* Nested list types do not survive serialization (`c50_nested_*`), dictionaries and numeric arrays cannot be serialized (`c50_dict_raises`, `c50_array_raises`).
* `updated` is set to "value changed", so pending updates can get lost (`c52_lost_*`); see also `c51_echo`, `c51_two_sources`.
* Subtree nodes (C92): a value that is delivered twice before the Subtree node is ticked does not reach its tree, which goes on with none or an old one (`c92_repeated`, `c92_stale`); if a reset does not reach an IOOutput node, the output of the Subtree node stays empty (`c92_not_reset`); an IOInput node with a static input makes every tick of the Subtree node an error (`c92_static`).
* Loading files (C93): `load_tree_from_file` ignores the error of `parse_tree_yaml` and reads the file again while there are no nodes, so the service never answers for an empty file, a tree without nodes (which can be saved) or a file without version or of a version before 1.0.0 (`c93_hangs`); a second document is ignored though `parse_tree_yaml` calls it an error (`c93_second_ignored`); a file with a Subtree node for itself raises `RecursionError` (`c93_self`).
* Migrating files (C94): an empty file ends the program (`c94_abort`); with `--inplace` an error while writing loses the file (`c94_lost`).
* Published subtrees (C95): SETUP_AND_SHUTDOWN empties the manager, and structures and nested managers are added only by the constructor, so they are not published any more (`c95_setup_and_shutdown`); a Subtree node replaced by another class and a Subtree node whose construction fails late stay published (`c95_left_over`); data of before is published after switching off and on (`c95_old_data`).
* Diagnostics (C96): switching the collecting on while a node is set up, ticked and so on makes `_dict_to_diagnostics_msg` raise `KeyError` out of the call (`c96_switched_on`), in the tick loop for instance if the service is called during a tick; the messages before a setup, untick, reset or shutdown have no `state` (`c96_no_pre`, the strings are there but unused); no message after an exception (`c96_raised`).
* Wiring data (C97): a wired dictionary whose values are not strings cannot be published: with publishing of data switched on, the exception leaves `publish_data` and ends the thread that ticks the tree (`c97_dict_raises`); an input that holds `1` is said not to have the current value `True` (`c97_true_is_one`).
* Rewriting (C98), no violation but easily overlooked: a Sequence inside a Sequence is not the same as the flat one unless it is the last child. It resets its children as soon as it is ticked again after it has succeeded, even if the outer one is still RUNNING, so that e.g. a Retry forgets its attempts (`c98_nested_first`).
* Published tree state (C99): with TICK_UNTIL_RESULT the tree state IDLE is published before the root is unticked, and nothing after it, so that nodes are shown as SUCCEEDED that are IDLE (`c99_result_stays`). TICK_PERIODICALLY is answered with TICKING while EDITABLE stays published until the first tick has ended (`c99_start_late`). After an exception in a node nothing is published any more (`c99_exception`).
* Tick frequency (C100): tree_exec_manager.py 724 compares the wrong way round and with the wrong unit, so that the warning "tick took longer than set period" is never given when a tick takes longer (`c100_never_warns`, `c100_warns_iff`). The published tick frequency is the mean of durations multiplied by 10^9 (`c100_not_hertz`). A negative frequency is accepted; `create_rate` then raises in the service callback, and the state is TICKING without a thread (`c100_negative_frequency`).
* Diagnostics of the tree (C101): `load_tree` sets the name only `if self.publish_diagnostic is None` (line 920), i.e. never when it is published (`c101_nameless`).
* Log levels (C102): "the current system doesn't allow for disabling FATAL" (logging_manager.py 231), but `set_log_level` takes 51 to 255 (`c102_fatal_lost`).
* Node classes (C103): when the import of a module fails, the classes it has defined before the failure stay registered; after the module has been repaired and imported, `define_bt_node` refuses the new class, so that the old one is used until the program is restarted (`c103_half_loaded`). `load_node_module` catches only `ImportError` and `ValueError`: a syntax error in a module or a relative name raises out of the services (`c103_raised`).
* Public data (C104): `structure_to_msg` overwrites `public_inputs` and `public_outputs` with lists made from `Node.subscriptions` and `Node.subscribers`, which are never written to. As every load ends with publishing, they are always lost (`c104_public_lost`). The published `root_id` is not reset when the last node is removed or there are several roots (`c104_old_root`).
* Duration (C105): a Sequence or Fallback ticks its finished children again at every tick, and a child that has been RUNNING on the way can be RUNNING again; a row of children may so need the product, not the sum, of what its children need (`c105_bound_reached`). Nothing bounds UntilSuccess, RepeatAlways, RepeatUntilFail and RepeatIfFail (`c105_endless_run`).
* Type values (C106): `GenericType.set_value` checks only the keys. A value with `min_value` above `max_value` or with the name of a message that does not exist is accepted and stored; `get_value_field` then raises (RuntimeError, or what `get_message` raises), which `get_iotype_for_dict` does not catch (`c106_reversed_limits`, `c106_unknown_message`). `set_value` drops the result of `super().set_value`: the second assignment of a static option answers `Ok` and is ignored (`c106_second_ignored`). `GenericType([list])` starts with a value it would refuse (`c106_own_value_refused`). A message with no `serialized_value_options` raises an IndexError in the constructor (`c106_no_options`).
* Nodes from messages (C107): `Node.from_msg` looks neither at the answer of `deserialize_value` nor at that of `set_type_map`. A static value that does not fit its type is dropped and the node starts with the default (`c107_unfitting_dropped`), and a reference whose target is not in the message stays without type, which makes every later `set_value` fail (`c107_unbound`). An empty `serialized_value` of a static input raises a JSONDecodeError out of `from_msg` (`c107_empty_value_raises`).
* Shutdown without setup (C108): the docstring of `Node.shutdown` says that `_do_shutdown` is not called if the node has not been initialized; it is called (`c108_hook_called`). `TopicPublisher`, `WaitForService` and all action nodes read attributes there that only `_do_setup` creates, so `shutdown` raises an AttributeError (`c108_publisher`, `c108_wait_for_service`, `c108_action`; `_internal_state` of `ActionBase` is only annotated). If a setup fails before such a node is reached, every later SHUTDOWN raises the exception and the tree never leaves its state (`c108_failed_setup`). `ServiceBase` and the subscribers avoid this with class attributes and `getattr`.
* `TreeNode.shutdown` (C110) skips SHUTDOWN in IDLE and ERROR. After STOP, RESET or an error the nodes are set up and stay so, with their subscriptions, clients and goals, although SHUTDOWN would work (`c110_idle_left`, `c110_error_left`). If a tick has raised an exception, the one SHUTDOWN it sends is refused (`c110_raised_left`, compare C44). Besides, `main` never calls the method.
* A failed SHUTDOWN in EDITABLE leaves BROKEN nodes in a tree that can be edited (`c109_failed_shutdown`).
* ThrottleSuccess hides broken children (C111): a child that fails with an error is BROKEN, the ThrottleSuccess and all nodes above it answer FAILED (`c111_throttle_success`).
* NameSwitch with a name that belongs to no child answers FAILED and leaves the child selected before RUNNING, so that two branches can run at a time (`c112_switch`).
* Overlapping listings (C114): all listings share one counter without a lock, which every listing sets back; the services run in three threads and a `ReentrantCallbackGroup` (tree_node.py 231, 518). A listing that begins while another one is made gives the other one ids twice (`c114_overlap`).
* Optional (C116): it asks its child for the utility before the child is set up. Services and actions have a client only between the first tick and the shutdown, so they never "can execute" at that moment and an Optional never runs them, even if the server is ready (`c116_service`, `c116_never`); the same is true for parameters (param.py 99-100) and for topics, because topic.py 231 compares a string with a class (if they were equal, the misspelt keyword in topic.py 241 would raise). An Optional over a Parallel raises `AttributeError` at its first setup (`c116_parallel`), an EnumSwitch is always run (`c116_flow`), and a topic input that is wired but has no value yet makes the setup fail (`c116_input`).
* Stopping (C117): a STOP or SHUTDOWN request waits for the tick thread in a thread of the executor (three of them, tree_node.py 518), and the tick thread sleeps until a timer callback wakes it, which needs a thread of the same executor. The check and the change of the state (tree_exec_manager.py 1190, 1234) are not atomic, so as many requests as there are threads can all read TICKING; then nothing goes on any more (`c117_hang`, `c117_hang_any`). This relies on how rclpy runs `Rate` timers, which is not part of /repo.
* SHUTDOWN of several fragments (C118): `_control_execution_shutdown` (tree_exec_manager.py 962-976) takes nodes that do not form a tree, for example a tree under construction, and erases the links between all of them. It answers success and publishes no structure, so clients still show the tree that is gone (`c118_erased`). `_children` keeps the old links, so that `move_node` then refuses a legitimate move once (`c118_stale`).
* End of the process (C119): `main` (tree_node.py 501-527) catches the interrupt and returns; `TreeNode.shutdown` is not called anywhere. Nodes that are set up or running, for example actions, are left as they are (`c119_left_running`).
* Published lists (C120): `prefix.startswith("/opt/ros")` (package_manager.py 263) also hides packages in directories such as /opt/ros_ws (`c120_hidden`). `get_message` (package_manager.py 231) is outside of the `try` of `to_message_type`, so one message class that cannot be imported ends `main` (`c120_start`). A channel with an empty list of types raises ValueError (ros_helpers.py 104-109) and no channel is published (`c120_no_type`). The lists are never computed again (`c120_stale`).
* Comparing nodes (C121): `Node.__eq__` (node.py 851-864) compares `inputs` and `outputs`, whose class `NodeDataMap` has no `__eq__`, so two node objects are never equal (`c121_never`). A root compared with a node of the same id and name that has a parent raises AttributeError, as None has no `node_id` (`c121_raises`).
* Stale connections (C122): the connections of the data flow are made only if the root is UNINITIALIZED or SHUTDOWN when ticking starts (tree_exec_manager.py 674-677). After a SHUTDOWN that failed while the tree could be edited the root may be in another state; wirings made then are published, but not connected (`c122_stale`).
* An IterateList with an outdated item (C123): if the list changes and the source is reset and puts out the same list again before the IterateList is ticked, the change is not noticed; the output `list_item` shows the new item, but the child is ticked with the old one (`c123_unnoticed`).
* Old data at a hook (C124): a node that sets an output and then answers IDLE, fails, or sets the output to the same new value twice shows a value at its output that the nodes wired to it do not find, the last for good; a parent that sets an output and ticks a child wired to it in the same tick lets the child work with the value of the tick before (`c124_excluded`).
* Subtree nodes and failed shutdowns (C126): if a node inside fails to shut down, the root of the nested tree is SHUTDOWN but the Subtree node BROKEN, so that the two are handled differently afterwards (`c126_shutdown_error`).
* Throttle is not as new after a reset (C129): the first tick may repeat an answer from before it
  (`c129_throttle`). RepeatNoAutoReset is not either (`c129_no_auto_reset`), as its documentation says.
* An Action node keeps `_input_goal` over a reset and a setup (action.py 126-158, 395-404). If its inputs are delivered again unchanged before the
  next tick, they do not count as updated, and it sends the goal from before the reset (C130, `c130_unnoticed`).
* A `Service` node can answer SUCCEEDED with the response to an old request (C132,
  `c132_stale`): when an input gets the same new value twice between two ticks, the second
  delivery clears its flag (C52), so that the node does not notice the change.
* An `Action` node keeps its client over an untick (action.py 380-393). If the name of the
  action changes before the next tick, or has changed just before the untick, the goal is
  sent to the old action (C133, `c133_untick`). As in C132 a lost flag leads to the result of
  an old goal (`c133_stale`).
* The flag `permissive` of the requests LoadTree and LoadTreeFromPath, and the parameter
  `load_default_tree_permissive`, are passed on (`tree_exec_manager.py:807`, `tree_node.py:455`) but
  never read by `load_tree` (seen in the text, no theorem).
* A failed `NodeConfig.extend` has merged half of the keys (`c53_half_merged`).
* `increment_name` and a newline (`c54_newline`), not injective (`c54_not_injective`).

Files
* `save_tree_to_path` accepts `..` and absolute paths (`c68_escape`); an error while writing truncates the old file (`c69_truncated`).

ROS leaves
* Action: goals are lost if the node is stopped, times out or gets new inputs before the server has answered (`c58_*`); aborted and rejected goals count as success (`c59_aborted`, `c59_rejected`); the tick after an untick raises TypeError (`c71_untick`); without an answer to the goal request there is no timeout (`c72_unanswered`).
* Subscribers: a message can arrive while the subscription is being destroyed (`c75_old_topic`); a memory subscriber can hold a message without time stamp, which never gets old (`c74_never_old`).
* WaitForService keeps its timer when the service becomes available (`c73_vanished`).

Data nodes
* Every tick of SetAttr is an error (`c81_set_attr`). RandomInt with min = max is an error (`c79_equal`).
* Operation (C84): `/` on two integers is never a success, since the float does not fit the integer output (`c84_div_integers`); arithmetic on bools neither (`c84_add_bools`); division by zero is an exception that leaves the tick (`c84_zero`).
* Convert (C85): no Convert node can be set up: its setup reads an input `clamp` that the class does not declare (`c85_convert`).
* YamlList, YamlDict (C86): an empty list or dictionary counts as a failure (`c86_empty`); an unknown package raises out of the tick (`c86_package`); a failed load is not tried again until a reset or a new path (`c86_kept`); a path that is delivered twice before the next tick is not noticed, and the old content stays (`c86_lost`).
* Message fields (C87): a message type in a package whose name begins with `string` is taken for a string (`c87_string_package`); a field with the name of an own input of the node makes the node impossible (`c87_clash`); infinite numbers are refused, so a laser scan that hits nothing makes MessageToFields an error (`c87_infinite`); arrays of a fixed number of numbers (numpy) raise out of the tick (`c87_fixed`); a list of integers is accepted as input for a sequence of floats, but FieldsToMessage then raises (`c87_integers`). What the generated message classes accept (`Base.takes`, `Field.store`) is taken from `rosidl_generator_py`, which is not part of the repository.
* EnumFields (C88): the name of a constant is looked up among the types of `GENERIC_TYPE_MAP`, so every message with constants is refused (`c88_refused`).
* Action (C89): the feedback outputs are built from the fields of the result (`c89_ignored`); other feedback is lost without notice (`c89_lost`) or raises (`c89_raises`).
* Formatting (C90): `convert_field` (format.py 70) calls the conversion of Python but returns the value as it was, so `!r` and `!a` do nothing (`c90_conversions`). FormatStringList asks for `list[str]`, for which `isinstance` is a TypeError; the exception is caught and the node fails whatever it is given (`c90_list`). The parser of format strings and `os.path.splitext` belong to Python, not to the repository; they are modelled from their documentation and source.
* RosParam (C91): the default value is not used if there is no such parameter; the node fails (`c91_missing`).
