import Verif.BT.Hooks

/-!
# The life-cycle wrapper `Node.setup/tick/untick/reset/shutdown` and trees
-/

set_option autoImplicit false

namespace Verif.BT

/-- Observable events of an execution: an operation is called on a node, its hook is entered,
the operation returns. (Ghost instrumentation of `node.py:334-713`.) -/
inductive Ev
  | call (op : Op) (id : Nat)
  | hook (op : Op) (id : Nat)
  | ret (op : Op) (id : Nat) (r : Res)
  deriving DecidableEq, Repr

/-- A call a node makes to one of its own children, with the answer. -/
structure Call where
  op : Op
  child : Nat
  res : Res
  deriving DecidableEq, Repr

/-- Outcome of an operation on a node: the node afterwards, the returned result, the calls made
to direct children and the trace of the whole subtree. -/
structure Out (N : Type) where
  node : N
  res : Res
  log : List Call
  trace : List Ev

/-- What a node may do with a child: the public operations, the `state` property and the
`name` attribute (`node.py:132-266`). -/
structure Ops (N : Type) where
  run : Op → N → Out N
  state : N → BTState
  name : N → Nat

/-- A node with children of type `N`. Models the attributes set in `node.py:132-266`:
`id` is `node_id`, `name` the name, `kind` the class, `state`, `mem` the attributes of the class,
`children`. `env`/`ctr` is the oracle for the outside world: `env ctr` answers the next call. -/
structure Node (N : Type) where
  id : Nat
  name : Nat
  kind : Kind
  state : BTState
  mem : Mem
  env : Nat → Env
  ctr : Nat
  children : List N

/-- Outcome of running a hook body. -/
structure ExecOut (N : Type) where
  children : List N
  mem : Mem
  res : Res
  log : List Call
  trace : List Ev

/-- Interpreter for hook bodies. (A call to a child that does not exist cannot be written in
Python; the model lets it answer `Err`.) -/
def exec {N : Type} (o : Ops N) : Prog → List N → ExecOut N
  | .done m r, cs => ⟨cs, m, r, [], []⟩
  | .call op i k, cs =>
    match cs[i]? with
    | none => exec o (k .err) cs
    | some c =>
      let out := o.run op c
      let rest := exec o (k out.res) (cs.set i out.node)
      { rest with log := ⟨op, i, out.res⟩ :: rest.log, trace := out.trace ++ rest.trace }
  | .peek i k, cs =>
    match cs[i]? with
    | none => exec o (k .uninitialized) cs
    | some c => exec o (k (o.state c)) cs

/-- `for child in self.children: match child.shutdown(): case Err(e): error = e`.
Models `node.py:688-697`. The Boolean is `error is not None` for this loop. -/
def shutdownAll {N : Type} (o : Ops N) : List N → List N × Bool × List Ev
  | [] => ([], false, [])
  | c :: cs =>
    let out := o.run .shutdown c
    let (cs', e, t) := shutdownAll o cs
    (out.node :: cs', (out.res == .err) || e, out.trace ++ t)

/-- Children that `Node.shutdown` iterates over: all, except for Subtree, whose nested root is
not in `self.children` (`subtree.py:66`, `92`). -/
def visibleChildren (k : Kind) : Bool :=
  match k with
  | .subtree => false
  | _ => true

/-- States in which an operation is accepted. Models the guards `node.py:353-356` (setup),
`423-427` (tick), `531-535` (untick), `593-597` (reset); shutdown is always accepted. -/
def accepts (op : Op) (s : BTState) : Bool :=
  match op with
  | .setup => s = .uninitialized || s = .shutdown
  | .tick | .untick | .reset => !(s = .uninitialized || s = .shutdown || s = .broken)
  | .shutdown => true

/-- Allowed states after an operation. Models the lists given to `check_if_in_invalid_state`,
`node.py:381-383`, `459-466`, `546-547`, `618-620`, `679-681`. -/
def allowedAfter (op : Op) (s : BTState) : Bool :=
  match op with
  | .setup | .reset => s = .idle
  | .tick => s = .running || s = .succeeded || s = .failed || s = .assigned || s = .unassigned
  | .untick => s = .idle || s = .paused
  | .shutdown => s = .shutdown

namespace Node
variable {N : Type}

/-- Attach call/return events. -/
def wrap (op : Op) (nd : Node N) (r : Res) (log : List Call) (t : List Ev) : Out (Node N) :=
  ⟨nd, r, log, .call op nd.id :: (t ++ [.ret op nd.id r])⟩

/-- Run the hook for `op` (`node.py:374`, `444`, `539`, `611`, `672`) and store memory and
children; the node's state is not changed yet. -/
def runHook (o : Ops N) (op : Op) (e : Env) (nd : Node N) : Node N × ExecOut N :=
  let x := exec o (hookProg nd.kind op nd.state nd.mem e (nd.children.map o.name)) nd.children
  ({ nd with mem := x.mem, children := x.children }, x)

/-- `setup`, `untick` and `reset`: guard, hook, `Err` makes the node BROKEN, otherwise the state
is stored and checked. Models `node.py:353-390`, `531-558`, `593-626`. Input/output flags are
modelled separately in `Verif/Data`. -/
def runPlain (o : Ops N) (op : Op) (e : Env) (nd : Node N) : Out (Node N) :=
  if accepts op nd.state then
    let (nd', x) := runHook o op e nd
    let t := .hook op nd.id :: x.trace
    match x.res with
    | .err => wrap op { nd' with state := .broken } .err x.log t
    | .ok s =>
      let nd'' := { nd' with state := s }
      if allowedAfter op s then wrap op nd'' (.ok s) x.log t else wrap op nd'' .err x.log t
  else wrap op nd .err [] []

/-- `tick`. Models `node.py:423-482`: guard, unset inputs, hook, allowed states,
`push_outputs`. -/
def runTick (o : Ops N) (e : Env) (nd : Node N) : Out (Node N) :=
  if accepts .tick nd.state then
    if e.inputsOk then
      let (nd', x) := runHook o .tick e nd
      let t := .hook .tick nd.id :: x.trace
      match x.res with
      | .err => wrap .tick { nd' with state := .broken } .err x.log t
      | .ok s =>
        let nd'' := { nd' with state := s }
        if allowedAfter .tick s then
          if e.pushOk then wrap .tick nd'' (.ok s) x.log t
          else wrap .tick { nd' with state := .broken } .err x.log t
        else wrap .tick nd'' .err x.log t
    else wrap .tick { nd with state := .broken } .err [] []
  else wrap .tick nd .err [] []

/-- Second half of `shutdown`: shut down all children and combine errors.
Models `node.py:688-713`. `nd` already has its new state. -/
def finishShutdown (o : Ops N) (nd : Node N) (log : List Call) (t : List Ev) : Out (Node N) :=
  if visibleChildren nd.kind then
    let (cs, e, t') := shutdownAll o nd.children
    let nd' := { nd with children := cs }
    wrap .shutdown nd' (if e then .err else .ok nd'.state) log (t ++ t')
  else wrap .shutdown nd (.ok nd.state) log t

/-- `shutdown`. Models `node.py:668-713`: the hook runs unless the node is SHUTDOWN already; if
the node is not SHUTDOWN afterwards the method returns before touching the children. -/
def runShutdown (o : Ops N) (e : Env) (nd : Node N) : Out (Node N) :=
  if nd.state = .shutdown then finishShutdown o nd [] []
  else
    let (nd', x) := runHook o .shutdown e nd
    let t := .hook .shutdown nd.id :: x.trace
    match x.res with
    | .err => wrap .shutdown { nd' with state := .broken } .err x.log t
    | .ok s =>
      let nd'' := { nd' with state := s }
      if allowedAfter .shutdown s then finishShutdown o nd'' x.log t
      else wrap .shutdown nd'' .err x.log t

/-- The public operations of a node. Each call consumes one answer of the outside world. -/
def run (o : Ops N) (op : Op) (nd : Node N) : Out (Node N) :=
  let e := nd.env nd.ctr
  let nd := { nd with ctr := nd.ctr + 1 }
  match op with
  | .tick => runTick o e nd
  | .shutdown => runShutdown o e nd
  | op => runPlain o op e nd

/-- Operations of nodes over children with operations `o`. -/
def ops (o : Ops N) : Ops (Node N) where
  run := run o
  state := Node.state
  name := Node.name

end Node

/-- Trees of depth at most `n`. `Tree 0` is empty, so a leaf is a `Tree (n+1)` without
children. Every finite tree is a `Tree n` for some `n`. -/
def Tree : Nat → Type
  | 0 => Empty
  | n + 1 => Node (Tree n)

/-- The public operations on trees. -/
def ops : (n : Nat) → Ops (Tree n)
  | 0 => ⟨fun _ t => Empty.elim t, fun t => Empty.elim t, fun t => Empty.elim t⟩
  | n + 1 => Node.ops (ops n)

/-- Perform a list of operations one after the other, collecting the outcomes. -/
def runs {N : Type} (o : Ops N) : List Op → N → List (Out N) × N
  | [], t => ([], t)
  | op :: rest, t =>
    let out := o.run op t
    let (outs, t') := runs o rest out.node
    (out :: outs, t')

end Verif.BT
