import Verif.BT.Sem

/-! Model of tree execution control: `TreeExecManager.control_execution`, its helpers, the tick thread
and the edit guard (`tree_exec_manager.py`).

The tree is a root node with the operations of `Verif.BT` (or any other implementation of them). The
tick thread is a program with a program counter; it makes one step at a time, commands are executed
in between. A command that joins the tick thread lets it run until it has ended. (Finer interleavings
are in `Verif/Exec/Race.lean`.)

Simplifications: publishing, logging, diagnostics and the tick rate are left out; ROS is not shutting
down (`ok()`); hooks may raise Python exceptions when called by the tick thread, but not when called by
a command; a hook ends. -/

set_option autoImplicit false

namespace Verif.Exec

open Verif.BT (Op Res BTState Ops)

/-- ros_bt_py_interfaces/msg/TreeState.msg -/
inductive TState | idle | editable | ticking | waiting | stopRequested | error
  deriving DecidableEq, Repr

/-- ros_bt_py_interfaces/srv/ControlTreeExecution.srv -/
inductive Cmd | doNothing | tickOnce | tickPeriodically | tickUntilResult | stop | reset | shutdown | setupAndShutdown | unknown
  deriving DecidableEq, Repr

/-- What `find_root` (tree_exec_manager.py 585-621) says about the nodes: `Err`, `Ok(None)`, `Ok(root)`. -/
inductive Topo (N : Type) | bad | empty | root (t : N)

/-- Where the tick thread is in tree_exec_manager.py 623-748. `start`: lines 650-682; `head`: 685-687;
`tick`: 689-703; `result`: 705-716 with the answer of the root; `leave`: 742-743; `untick`: 747-748;
`failed`: 627-633; `ended`: nothing is left but publishing (715, 633). -/
inductive Pc | start | head | tick | result (s : BTState) | leave | untick | failed | ended
  deriving DecidableEq, Repr

/-- `self._tick_thread`: no object, a thread that has not been started, one that runs, one that ended. -/
inductive Thread | absent | fresh | alive (pc : Pc) | dead
  deriving DecidableEq, Repr

/-- What the outside world contributes to one step of the tick thread: does `push_incoming_data` succeed, does the
operation called on the root raise an exception (and what is then left of the tree)? -/
structure World (N : Type) where
  push : Bool := true
  raise : Option (N → N) := none

/-- The manager: nodes, `nodes with missing parents`, `state`, `_tick_thread`, tick threads that run but are no longer
referred to, `_once`, `_stop_after_result`, the world. Ghost variables: `calls` are the operations the tick thread has
called on the root since it was started, with the answers (`none`: exception); `asked` says that a stop has been requested since then,
`broke` that it has reported an error, `single` that it was started for a single tick. -/
structure Mgr (N : Type) where
  tree : Topo N
  orphans : Bool := false
  state : TState := .editable
  thread : Thread := .absent
  lost : List Pc := []
  once : Bool := false
  untilResult : Bool := false
  world : Nat → World N := fun _ => {}
  clock : Nat := 0
  calls : List (Op × Option Res) := []
  asked : Bool := false
  broke : Bool := false
  single : Bool := false

variable {N : Type}

/-- `self._tick_thread.is_alive()` -/
def Thread.isAlive : Thread → Bool
  | .alive _ => true
  | _ => false

/-- The tick thread calls an operation on the root: the manager afterwards, and the answer. -/
def Mgr.call (o : Ops N) (m : Mgr N) (w : World N) (op : Op) (t : N) : Mgr N × Option Res :=
  match w.raise with
  | some f => ({ m with tree := .root (f t), calls := m.calls ++ [(op, none)] }, none)
  | none =>
    let out := o.run op t
    ({ m with tree := .root out.node, calls := m.calls ++ [(op, some out.res)] }, some out.res)

/-- The tick thread goes on at `pc`. -/
def Mgr.goto (m : Mgr N) (pc : Pc) : Mgr N := { m with thread := .alive pc }

/-- The tick thread ends. -/
def Mgr.die (m : Mgr N) : Mgr N := { m with thread := .dead }

/-- tree_exec_manager.py 650-682: checks and setup. An exception ends the thread (`tick_report_exceptions` does not
catch any). -/
def startStep (o : Ops N) (w : World N) (m : Mgr N) : Mgr N :=
  if m.orphans then m.goto .failed
  else
    match m.tree with
    | .bad | .empty => m.goto .failed
    | .root t =>
      if o.state t = .uninitialized ∨ o.state t = .shutdown then
        match m.call o w .setup t with
        | (m, none) => m.die
        | (m, some _) =>
          match m.tree with
          | .root t => if o.state t = .idle then m.goto .head else { m with state := .error }.goto .failed
          | _ => m.goto .failed
      else m.goto .head

/-- tree_exec_manager.py 689-703: pushing inputs and ticking the root. -/
def tickStep (o : Ops N) (w : World N) (m : Mgr N) : Mgr N :=
  if !w.push then m.goto .failed
  else
    match m.tree with
    | .root t =>
      match m.call o w .tick t with
      | (m, none) => m.die
      | (m, some .err) => m.goto .failed
      | (m, some (.ok s)) => m.goto (.result s)
    | _ => m.goto .failed

/-- tree_exec_manager.py 705-716: what happens after a tick. -/
def resultStep (s : BTState) (m : Mgr N) : Mgr N :=
  if m.untilResult ∧ (s = .failed ∨ s = .succeeded) then m.goto .leave
  else if m.once then { m with once := false, state := .waiting }.goto .ended
  else m.goto .head

/-- tree_exec_manager.py 747-748: unticking the root. -/
def untickStep (o : Ops N) (w : World N) (m : Mgr N) : Mgr N :=
  match m.tree with
  | .root t =>
    match m.call o w .untick t with
    | (m, none) => m.die
    | (m, some .err) => m.goto .failed
    | (m, some (.ok _)) => m.die
  | _ => m.goto .failed

/-- One step of the tick thread, tree_exec_manager.py 623-748. -/
def threadStep (o : Ops N) (m : Mgr N) : Mgr N :=
  let w := m.world m.clock
  match m.thread with
  | .alive pc =>
    let m := { m with clock := m.clock + 1 }
    match pc with
    | .start => startStep o w m
    | .head => if m.state = .stopRequested then m.goto .leave else m.goto .tick
    | .tick => tickStep o w m
    | .result s => resultStep s m
    | .leave => { m with state := .idle }.goto .untick
    | .untick => untickStep o w m
    | .failed => { m with state := .error, broke := true }.goto .ended
    | .ended => m.die
  | _ => m

/-- `self._tick_thread.join()`: the thread runs until it has ended; `n` is the number of steps granted. -/
def join (o : Ops N) : Nat → Mgr N → Mgr N
  | 0, m => m
  | n + 1, m => if m.thread.isAlive then join o n (threadStep o m) else m

/-- Steps a tick thread needs at most once it has been told to stop, or for a single tick. -/
def joinSteps : Nat := 8

/-- The response of `control_execution`: `success` and, where it matters, `tree_state`. -/
structure Resp where
  success : Bool
  treeState : Option TState := none
  deriving DecidableEq, Repr

/-- `self._tick_thread = Thread(...)`. A running thread is not stopped by that. -/
def newThread (m : Mgr N) : Mgr N :=
  { m with thread := .fresh, lost := match m.thread with | .alive pc => pc :: m.lost | _ => m.lost }

/-- `self._tick_thread.start()` on a thread that has not been started. -/
def startThread (single : Bool) (m : Mgr N) : Mgr N :=
  { m with thread := .alive .start, calls := [], asked := false, broke := false, single := single }

/-- tree_exec_manager.py 956-992: `_control_execution_shutdown`. (Erasing the links of nodes that do not
form a tree leaves them without a root; a single node with a link to itself is not considered.) -/
def shutdownCmd (o : Ops N) (m : Mgr N) : Mgr N × Resp :=
  match m.tree with
  | .bad => ({ m with orphans := false, state := .editable }, ⟨true, some .editable⟩)
  | .empty => ({ m with state := .editable }, ⟨true, some .editable⟩)
  | .root t =>
    let out := o.run .shutdown t
    let m := { m with tree := .root out.node }
    match out.res with
    | .err => (m, ⟨false, none⟩)
    | .ok _ => ({ m with state := .editable }, ⟨true, some .editable⟩)

/-- tree_exec_manager.py 995-1063: `_control_execution_tick_once`. -/
def tickOnceCmd (o : Ops N) (m : Mgr N) : Mgr N × Resp :=
  if m.thread.isAlive then (m, ⟨false, none⟩)
  else
    match m.tree with
    | .bad => (m, ⟨false, some m.state⟩)
    | .empty => (m, ⟨true, some m.state⟩)
    | .root _ =>
      let m := join o joinSteps (startThread true { m with once := true, untilResult := false, state := .ticking })
      if m.thread.isAlive then (m, ⟨false, some m.state⟩)
      else if m.state = .waiting then (m, ⟨true, some .waiting⟩)
      else (m, ⟨false, none⟩)

/-- tree_exec_manager.py 1066-1111: `_control_execution_tick_multiple`. -/
def tickMultipleCmd (untilResult : Bool) (m : Mgr N) : Mgr N × Resp :=
  if m.thread.isAlive then (m, ⟨false, some m.state⟩)
  else
    match m.tree with
    | .bad => (m, ⟨false, some m.state⟩)
    | .empty => (m, ⟨true, some m.state⟩)
    | .root _ => (startThread false { m with state := .ticking, once := false, untilResult := untilResult }, ⟨true, some .ticking⟩)

/-- tree_exec_manager.py 1114-1154: `_control_execution_reset`. -/
def resetCmd (o : Ops N) (m : Mgr N) : Mgr N × Resp :=
  if m.thread.isAlive then (m, ⟨false, some m.state⟩)
  else
    match m.tree with
    | .bad => (m, ⟨false, some m.state⟩)
    | .empty => ({ m with state := .idle }, ⟨true, some .idle⟩)
    | .root t =>
      let out := o.run .reset t
      let m := { m with tree := .root out.node }
      match out.res with
      | .err => (m, ⟨false, some m.state⟩)
      | .ok _ => ({ m with state := .idle }, ⟨true, some .idle⟩)

/-- tree_exec_manager.py 1233-1312: stopping, the common part of STOP and SHUTDOWN. `some r`: answered already. -/
def stopPart (o : Ops N) (m : Mgr N) : Mgr N × Option Resp :=
  match m.state with
  | .ticking =>
    let m := join o joinSteps { m with state := .stopRequested, asked := true }
    if m.thread.isAlive then (m, some ⟨false, none⟩)
    else if m.state = .idle then (m, none)
    else (m, some ⟨false, none⟩)
  | .waiting =>
    match m.tree with
    | .bad => (m, some ⟨false, none⟩)
    | .empty => (m, none)
    | .root t =>
      let t := (o.run .untick t).node
      let m := { m with tree := .root t }
      if o.state t = .idle ∨ o.state t = .paused then (m, none) else (m, some ⟨false, some .error⟩)
  | _ => (m, none)

/-- The answer to STOP after `stopPart`: lines 1257-1258, 1291-1292, 1304-1305; otherwise `success` is still False. -/
def stopResp (s : TState) : Resp :=
  match s with
  | .ticking | .waiting => ⟨true, some .idle⟩
  | _ => ⟨false, none⟩

/-- tree_exec_manager.py 1229-1317: STOP and SHUTDOWN. -/
def stopCmd (o : Ops N) (down : Bool) (m : Mgr N) : Mgr N × Resp :=
  match stopPart o m with
  | (m', some r) => (m', r)
  | (m', none) => if down then shutdownCmd o m' else (m', stopResp m.state)

/-- tree_exec_manager.py 1190-1340: the part of `control_execution` after the tick thread has been renewed. -/
def dispatch (o : Ops N) (c : Cmd) (m : Mgr N) : Mgr N × Resp :=
  if m.state = .error ∧ c ≠ .shutdown then (m, ⟨false, none⟩)
  else
    match c with
    | .setupAndShutdown =>
      if m.thread.isAlive ∨ m.state = .ticking then (m, ⟨false, some m.state⟩)
      else
        match m.tree with
        | .bad => (m, ⟨false, some m.state⟩)
        | _ => stopCmd o true m
    | .stop => stopCmd o false m
    | .shutdown => stopCmd o true m
    | .tickOnce => tickOnceCmd o m
    | .tickPeriodically => tickMultipleCmd false m
    | .tickUntilResult => tickMultipleCmd true m
    | .reset => resetCmd o m
    | .doNothing => (m, ⟨true, none⟩)
    | .unknown => (m, ⟨false, none⟩)

/-- tree_exec_manager.py 1185-1188: a new thread object if there is none or the old one has ended. -/
def renew (m : Mgr N) : Mgr N := if m.thread.isAlive then m else newThread m

/-- tree_exec_manager.py 1157-1340: `control_execution`. `timely`: a tick thread that is unticking the root ends within
half a second (line 1176). -/
def control (o : Ops N) (timely : Bool) (c : Cmd) (m : Mgr N) : Mgr N × Resp :=
  if m.state = .idle ∧ m.thread.isAlive then
    if timely then dispatch o c (renew (join o joinSteps m)) else (m, ⟨false, none⟩)
  else dispatch o c (renew m)

/-- tree_exec_manager.py 92-124: an edit service; `f` is what its body does to the nodes and links. -/
def edit (f : Topo N × Bool → Topo N × Bool) (m : Mgr N) : Mgr N × Bool :=
  if m.state ≠ .editable then (m, false)
  else
    let r := f (m.tree, m.orphans)
    ({ m with tree := r.1, orphans := r.2 }, true)

/-- What can happen next. -/
inductive Action (N : Type)
  | command (c : Cmd) (timely : Bool)
  | edit (f : Topo N × Bool → Topo N × Bool)
  | think

/-- One action. -/
def step (o : Ops N) : Action N → Mgr N → Mgr N
  | .command c b, m => (control o b c m).1
  | .edit f, m => (edit f m).1
  | .think, m => threadStep o m

/-- A sequence of actions. -/
def run (o : Ops N) (as : List (Action N)) (m : Mgr N) : Mgr N := as.foldl (fun m a => step o a m) m

end Verif.Exec
