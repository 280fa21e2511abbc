/-!
# Node states, operations, results and hook programs

Python sources: `/repo/ros_bt_py/ros_bt_py/helpers.py`, `node.py`.
-/

set_option autoImplicit false

namespace Verif.BT

/-- Node states. Models `helpers.py:42-61` (`BTNodeState`), values from
`/repo/ros_bt_py_interfaces/msg/NodeState.msg`. -/
inductive BTState
  | uninitialized | idle | unassigned | assigned | running
  | succeeded | failed | broken | paused | shutdown
  deriving DecidableEq, Repr, Inhabited

/-- The five life-cycle operations of a node. Models the public methods `Node.setup`
(`node.py:334`), `tick` (408), `untick` (515), `reset` (579) and `shutdown` (648). -/
inductive Op
  | setup | tick | untick | reset | shutdown
  deriving DecidableEq, Repr, Inhabited

/-- Result of a life-cycle operation or of a hook: `Ok(state)` or `Err(exception)`.
Models `Result[BTNodeState, BehaviorTreeException]` as used in `node.py:335-713`.
Simplification: the exception text is dropped. -/
inductive Res
  | ok (s : BTState)
  | err
  deriving DecidableEq, Repr, Inhabited

/-- `Result.is_ok()` (`vendor/result/result.py`, class `Ok`/`Err`). -/
def Res.isOk : Res → Bool
  | .ok _ => true
  | .err => false

@[simp] theorem Res.isOk_ok (s : BTState) : (Res.ok s).isOk = true := rfl
@[simp] theorem Res.isOk_err : Res.err.isOk = false := rfl

/-- `Result.map(f)` (`vendor/result/result.py`): used by the decorators, e.g.
`nodes/decorators.py:56`. -/
def Res.map (f : BTState → BTState) : Res → Res
  | .ok s => .ok (f s)
  | .err => .err

/-- What a getter node (`nodes/getters.py:113-149` and its siblings) computes after its child:
error, element missing (FAILED), output written (SUCCEEDED), nothing new (RUNNING). -/
inductive OwnRes
  | err | failed | succeeded | running
  deriving DecidableEq, Repr, Inhabited

/-- The result a getter node returns for its own computation (`nodes/getters.py:134-149`). -/
def OwnRes.toRes : OwnRes → Res
  | .err => .err
  | .failed => .ok .failed
  | .succeeded => .ok .succeeded
  | .running => .ok .running

/-- Everything the outside world answers to one node during one operation call. A node carries
a function `Nat → Env` (call number to answers), so that every concrete execution is an instance.
Sources: `inputsOk` is the check `node.py:435-438`; `pushOk` is `push_outputs`, `node.py:474-480`;
`hook` is what the user hook of a leaf returns; `cfgOk` says whether reading inputs/options inside
a hook succeeds (e.g. `decorators.py:90`, `275`, `412`, `681`, `list.py:190-203`,
`fallback.py:59`, `throttle.py:55-64`, `subtree.py:197-211`); `num`, `num2` are integer options (`num_retries`,
`num_repeats`, `needed_successes`, `tolerate_failures`, `tick_interval`); `flag` is a boolean
input/flag (`running_is_success`, `reset`, "watch updated", "list updated", child
`can_execute`); `key` is the name/case selected by a switch node (`none`: value outside the
enum, `enum_switch.py:122-126`); `now` is the ROS clock; `own` is the computation of a getter;
`listLen` the length of the list input of IterateList; `outOk` whether setting an output succeeds
(`list.py:207`). -/
structure Env where
  inputsOk : Bool := true
  pushOk : Bool := true
  hook : Res := .ok .succeeded
  cfgOk : Bool := true
  num : Int := 1
  num2 : Int := 0
  flag : Bool := false
  key : Option Nat := none
  now : Int := 0
  own : OwnRes := .succeeded
  listLen : Nat := 0
  outOk : Bool := true
  deriving DecidableEq, Repr, Inhabited

/-- The instance attributes that the control-flow nodes keep between calls.
`lastRunning`: `last_running_child` (`sequence.py:185`, `fallback.py:249`);
`count`: `_retry_count`/`_repeat_count` (`decorators.py:274`, `342`);
`limit`: `_retry_limit`/`_num_repeats`/`_tick_interval` (`decorators.py:279`, `347`,
`throttle.py:65`); `needed`, `tolerate`: `parallel.py:77`, `319`;
`runIsSucc`: `decorators.py:94`; `execChild`: `decorators.py:611`;
`childMap`: `fallback.py:49`, `enum_switch.py:104`; `counter`, `outChanged`: `list.py:185-187`;
`lastTick`, `lastRes`: `throttle.py:59-60`, `124`; `rootSet`: `subtree.py:92`, `201`
(`self.root is not None`); `item`: the index of the item that the output `list_item` holds
(`list.py:207`). -/
structure Mem where
  lastRunning : Nat := 0
  count : Int := 0
  limit : Int := 0
  needed : Int := 0
  tolerate : Int := 0
  runIsSucc : Bool := false
  execChild : Bool := false
  childMap : List (Nat × Nat) := []
  counter : Nat := 0
  outChanged : Bool := true
  lastTick : Option Int := none
  lastRes : Res := .ok .failed
  rootSet : Bool := false
  item : Option Nat := none
  deriving DecidableEq, Repr, Inhabited

/-- Node classes that call operations on children, plus `leaf` (any class without children).
Sources: see `Hooks.lean` for the lines of each class. -/
inductive Kind
  | leaf
  | sequence | memSequence | fallback | memFallback
  | nameSwitch | enumSwitch
  | parallel | parallelTol
  | ignoreFailure | ignoreRunning | ignoreSuccess | untilSuccess | inverter
  | retry | repeat | repeatNoAutoReset | repeatAlways | repeatUntilFail | repeatIfFail
  | optional | watch | iterateList | getter | throttle | throttleSuccess | subtree
  deriving DecidableEq, Repr, Inhabited

/-- Body of a hook of a control-flow node: an interaction tree over the effects "call an
operation on the child with this index and look at the returned result", "read the `state`
property of a child" (`parallel.py:108`) and "return". It carries no Python source of its own;
the hooks in `Hooks.lean` are written in it. -/
inductive Prog
  | done (m : Mem) (r : Res)
  | call (op : Op) (i : Nat) (k : Res → Prog)
  | peek (i : Nat) (k : BTState → Prog)

end Verif.BT
