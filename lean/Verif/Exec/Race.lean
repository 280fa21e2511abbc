import Verif.Exec.Spec

/-! Service threads and tick threads, interleaved step by step.

The executor runs service handlers in several threads and lets handlers of the same kind overlap (tree_node.py 306, 518). Handlers
share the tree state, the tick thread object and the edit lock; every access is one step here. What the nodes do is left open: the
outcome of each operation on the root is a choice of the schedule. There is a root all the time. -/

set_option autoImplicit false

namespace Verif.Exec.Race

open Verif.Exec (TState Cmd)

/-- Where a tick thread is, as `Exec.Pc`; `fresh`: not started, `dead`: ended. `result b`: the root has answered, `b`: with SUCCEEDED or FAILED.
tree_exec_manager.py 623-748. -/
inductive TPc | fresh | start | head | tick | result (b : Bool) | leave | untick | failed | ended | dead
  deriving DecidableEq, Repr

/-- How an operation on the root, or a wait with a time limit, ends. -/
inductive Outcome | good | final | bad | raised
  deriving DecidableEq, Repr

/-- Where an edit handler is, tree_exec_manager.py 108-122: before the check, before taking the lock, in the body (`d` nested
handlers deep; the lock is reentrant). -/
inductive EPc | check | lock | body (d : Nat)
  deriving DecidableEq, Repr

/-- Where `control_execution` is. `enter`: 1177-1179; `wait`: 1180-1192; `renew`: the test 1196; `make`: 1197; `read`: 1199; `go s`: 1201-1240 with
`tree_state = s`; `stopJoin`: 1236-1246; `stopRead`: 1255-1276; `unticking`: 1278-1305; `down`: 962-984; `downSet`: 988-991;
`alive`: the checks 1000, 1071, 1119; `set`: 1029-1031, 1096-1100; `launch`: 1033, 1106; `onceJoin`: 1034-1043; `onceRead`: 1045-1062;
`resetOp`: 1127-1147; `resetSet`: 1149. -/
inductive CPc
  | enter | wait | renew | make | read | go (s : TState) | stopJoin | stopRead | unticking | down | downSet
  | alive | set | launch | onceJoin | onceRead | resetOp | resetSet
  deriving DecidableEq, Repr

/-- A service thread: it waits for a request, handles an edit, handles a command. `done b`: the request has been answered with `success = b`. -/
inductive Client | done (ok : Bool) | edit (pc : EPc) | control (c : Cmd) (pc : CPc)
  deriving DecidableEq, Repr

/-- Everything that is shared, and the threads. `threads`: all tick thread objects ever made, `cur`: `self._tick_thread`; `holder`: who
has the edit lock. -/
structure Sys where
  state : TState := .editable
  threads : List TPc := []
  cur : Option Nat := none
  holder : Option Nat := none
  once : Bool := false
  untilResult : Bool := false
  clients : List Client
  deriving DecidableEq, Repr

/-- `is_alive()`: started and not ended. -/
def TPc.isAlive : TPc → Bool
  | .fresh | .dead => false
  | _ => true

/-- The thread may still call an operation on the root. -/
def TPc.executes : TPc → Bool
  | .fresh | .failed | .ended | .dead => false
  | _ => true

/-- `self._tick_thread is not None and self._tick_thread.is_alive()` -/
def curAlive (y : Sys) : Bool :=
  match y.cur with
  | none => false
  | some k => match y.threads[k]? with | some pc => pc.isAlive | none => false

/-- Client `i` goes on as `c`. -/
def Sys.goto (y : Sys) (i : Nat) (c : Client) : Sys := { y with clients := y.clients.set i c }

/-- One step of an edit handler, tree_exec_manager.py 108-122. In the body: `good` leaves it (releasing the lock at the outermost level),
`final` calls another edit handler. -/
def editStep (y : Sys) (i : Nat) (w : Outcome) : EPc → Sys
  | .check => if y.state = .editable then y.goto i (.edit .lock) else y.goto i (.done false)
  | .lock => if y.holder = none then { y with holder := some i }.goto i (.edit (.body 0)) else y
  | .body d =>
    match w with
    | .final => if y.state = .editable then y.goto i (.edit (.body (d + 1))) else y
    | _ => match d with
      | 0 => { y with holder := none }.goto i (.done true)
      | d + 1 => y.goto i (.edit (.body d))

/-- One step of `control_execution`, tree_exec_manager.py 1157-1340 with 956-1154. -/
def controlStep (y : Sys) (i : Nat) (c : Cmd) (w : Outcome) : CPc → Sys
  | .enter => if y.cur ≠ none ∧ y.state = .idle ∧ curAlive y then y.goto i (.control c .wait) else y.goto i (.control c .renew)
  | .wait => if curAlive y then (if w = .bad then y.goto i (.done false) else y) else y.goto i (.control c .renew)
  | .renew => if curAlive y then y.goto i (.control c .read) else y.goto i (.control c .make)
  | .make => { y with threads := y.threads ++ [TPc.fresh], cur := some y.threads.length }.goto i (.control c .read)
  | .read => y.goto i (.control c (.go y.state))
  | .go s =>
    if s = .error ∧ c ≠ .shutdown then y.goto i (.done false)
    else match c with
      | .stop | .shutdown | .setupAndShutdown =>
        if c = .setupAndShutdown ∧ (curAlive y ∨ s = .ticking) then y.goto i (.done false)
        else if s = .ticking then { y with state := .stopRequested }.goto i (.control c .stopJoin)
        else if s = .waiting then y.goto i (.control c .unticking)
        else if c = .stop then y.goto i (.done false)
        else y.goto i (.control c .down)
      | .tickOnce | .tickPeriodically | .tickUntilResult | .reset => y.goto i (.control c .alive)
      | .doNothing => y.goto i (.done true)
      | .unknown => y.goto i (.done false)
  | .stopJoin => if curAlive y then y else y.goto i (.control c .stopRead)
  | .stopRead =>
    if y.state = .idle then (if c = .stop then y.goto i (.done true) else y.goto i (.control c .down))
    else y.goto i (.done false)
  | .unticking =>
    match w with
    | .good => if c = .stop then y.goto i (.done true) else y.goto i (.control c .down)
    | _ => y.goto i (.done false)
  | .down => if w = .good then y.goto i (.control c .downSet) else y.goto i (.done false)
  | .downSet => { y with state := .editable }.goto i (.done true)
  | .alive =>
    if curAlive y then y.goto i (.done false)
    else if c = .reset then y.goto i (.control c .resetOp) else y.goto i (.control c .set)
  | .set => { y with state := .ticking, once := decide (c = Cmd.tickOnce), untilResult := decide (c = Cmd.tickUntilResult) }.goto i (.control c .launch)
  | .launch =>
    match y.cur with
    | none => y.goto i (.done false)
    | some k =>
      if y.threads[k]? = some .fresh then
        { y with threads := y.threads.set k TPc.start }.goto i (if c = Cmd.tickOnce then .control c .onceJoin else .done true)
      else y.goto i (.done false)
  | .onceJoin => if curAlive y then y else y.goto i (.control c .onceRead)
  | .onceRead => y.goto i (.done (decide (y.state = .waiting)))
  | .resetOp => if w = .good then y.goto i (.control c .resetSet) else y.goto i (.done false)
  | .resetSet => { y with state := .idle }.goto i (.done true)

/-- Tick thread `k` goes on at `pc`. -/
def Sys.tgoto (y : Sys) (k : Nat) (pc : TPc) : Sys := { y with threads := y.threads.set k pc }

/-- One step of a tick thread, tree_exec_manager.py 623-748. -/
def tickThreadStep (y : Sys) (k : Nat) (w : Outcome) : TPc → Sys
  | .start =>
    match w with
    | .bad => y.tgoto k .failed
    | .final => { y with state := .error }.tgoto k .failed
    | .raised => y.tgoto k .dead
    | .good => y.tgoto k .head
  | .head => if y.state = .stopRequested then y.tgoto k .leave else y.tgoto k .tick
  | .tick =>
    match w with
    | .bad => y.tgoto k .failed
    | .raised => y.tgoto k .dead
    | .final => y.tgoto k (.result true)
    | .good => y.tgoto k (.result false)
  | .result b =>
    if y.untilResult ∧ b then y.tgoto k .leave
    else if y.once then { y with once := false, state := .waiting }.tgoto k .ended
    else y.tgoto k .head
  | .leave => { y with state := .idle }.tgoto k .untick
  | .untick => if w = .bad then y.tgoto k .failed else y.tgoto k .dead
  | .failed => { y with state := .error }.tgoto k .ended
  | .ended => y.tgoto k .dead
  | .fresh | .dead => y

/-- What a request asks for. -/
inductive Request | edit | control (c : Cmd)
  deriving DecidableEq, Repr

/-- One item of a schedule: a request arrives at a service thread that is free, a service thread makes a step, a tick thread makes a step. -/
inductive Turn | request (i : Nat) (r : Request) | client (i : Nat) (w : Outcome) | thread (k : Nat) (w : Outcome)
  deriving DecidableEq, Repr

/-- One step of the system; a step that is not possible changes nothing. -/
def step (y : Sys) : Turn → Sys
  | .request i r =>
    match y.clients[i]? with
    | some (.done _) => y.goto i (match r with | .edit => .edit .check | .control c => .control c .enter)
    | _ => y
  | .client i w =>
    match y.clients[i]? with
    | some (.edit pc) => editStep y i w pc
    | some (.control c pc) => controlStep y i c w pc
    | _ => y
  | .thread k w =>
    match y.threads[k]? with
    | some pc => tickThreadStep y k w pc
    | none => y

/-- A schedule. -/
def run (ts : List Turn) (y : Sys) : Sys := ts.foldl step y

/-- `n` service threads, nothing has happened yet. -/
def start (n : Nat) : Sys := { clients := List.replicate n (.done true) }

/-! ### Specification -/

/-- Service thread `i` is in the body of an edit request. -/
def Editing (y : Sys) (i : Nat) : Prop := ∃ d, y.clients[i]? = some (.edit (.body d))

/-- Tick thread `k` may still call operations on the root. -/
def Executes (y : Sys) (k : Nat) : Prop := ∃ pc, y.threads[k]? = some pc ∧ pc.executes = true

/-- Tick thread `k` is alive. -/
def Alive (y : Sys) (k : Nat) : Prop := ∃ pc, y.threads[k]? = some pc ∧ pc.isAlive = true

/-! ### C41 -/

/-- Who is in a body has the lock. -/
def Locked (y : Sys) : Prop := ∀ i, Editing y i → y.holder = some i

theorem editing_goto {y : Sys} {i j : Nat} {c : Client} (hc : ∀ d, c ≠ .edit (.body d)) (h : Editing (y.goto i c) j) : Editing y j ∧ i ≠ j := by
  obtain ⟨d, h⟩ := h
  by_cases e : i = j
  · subst e
    simp only [Sys.goto, List.getElem?_set, if_true] at h
    split at h
    · exact absurd (Option.some.inj h) (hc d)
    · cases h
  · refine ⟨⟨d, ?_⟩, e⟩
    simpa [Sys.goto, List.getElem?_set, e] using h

theorem locked_goto {y : Sys} {i : Nat} {c : Client} (h : Locked y) (hc : ∀ d, c ≠ .edit (.body d)) : Locked (y.goto i c) :=
  fun j hj => h j (editing_goto hc hj).1

/-- Another holder changes nothing for those who are not the one that leaves. -/
theorem locked_state {y y' : Sys} (h : Locked y) (hc : y'.clients = y.clients) (hh : y'.holder = y.holder) : Locked y' := by
  intro i ⟨d, hd⟩
  rw [hh]
  exact h i ⟨d, by rw [← hc]; exact hd⟩

theorem locked_control {y : Sys} {i : Nat} {c : Cmd} {w : Outcome} {pc : CPc} (h : Locked y) : Locked (controlStep y i c w pc) := by
  have hg : ∀ (y' : Sys) (cl : Client), y'.clients = y.clients → y'.holder = y.holder → (∀ d, cl ≠ .edit (.body d)) → Locked (y'.goto i cl) :=
    fun y' cl h1 h2 h3 => locked_goto (locked_state h h1 h2) h3
  cases pc with
  | launch =>
    unfold controlStep
    dsimp only
    split
    · exact hg _ _ rfl rfl (by simp)
    · split
      · refine hg _ _ rfl rfl ?_
        split <;> simp
      · exact hg _ _ rfl rfl (by simp)
  | _ =>
    unfold controlStep
    dsimp only
    repeat' split
    all_goals first | exact h | exact hg _ _ rfl rfl (by simp)

theorem locked_tick {y : Sys} {k : Nat} {w : Outcome} {pc : TPc} (h : Locked y) : Locked (tickThreadStep y k w pc) := by
  have : (tickThreadStep y k w pc).clients = y.clients ∧ (tickThreadStep y k w pc).holder = y.holder := by
    unfold tickThreadStep
    repeat' split
    all_goals exact ⟨rfl, rfl⟩
  exact locked_state h this.1 this.2

theorem locked_edit {y : Sys} {i : Nat} {w : Outcome} {pc : EPc} (h : Locked y) (hi : y.clients[i]? = some (.edit pc)) : Locked (editStep y i w pc) := by
  cases pc with
  | check =>
    unfold editStep; dsimp only
    split <;> exact locked_goto h (by simp)
  | lock =>
    unfold editStep; dsimp only
    split
    · rename_i hn
      intro j hj
      by_cases e : i = j
      · subst e; rfl
      · obtain ⟨d, hd⟩ := hj
        have : Editing y j := ⟨d, by simpa [Sys.goto, List.getElem?_set, e] using hd⟩
        rw [h j this] at hn; cases hn
    · exact h
  | body d =>
    have hme := h i ⟨d, hi⟩
    have hstay : ∀ d', Locked (y.goto i (.edit (.body d'))) := by
      intro d' j hj
      by_cases e : i = j
      · subst e; exact hme
      · obtain ⟨d, hd⟩ := hj
        exact h j ⟨d, by simpa [Sys.goto, List.getElem?_set, e] using hd⟩
    have hleave : Locked ({ y with holder := none }.goto i (.done true)) := by
      intro j hj
      obtain ⟨h1, h2⟩ := editing_goto (by simp) hj
      have h1 : Editing y j := h1
      have := h j h1
      rw [hme] at this
      exact absurd (Option.some.inj this) h2
    unfold editStep; dsimp only
    cases w with
    | final => dsimp only; split; exact hstay _; exact h
    | good => cases d with | zero => exact hleave | succ d => exact hstay d
    | bad => cases d with | zero => exact hleave | succ d => exact hstay d
    | raised => cases d with | zero => exact hleave | succ d => exact hstay d

theorem locked_step {y : Sys} (t : Turn) (h : Locked y) : Locked (step y t) := by
  cases t with
  | request i r =>
    unfold step; dsimp only
    split
    · cases r <;> exact locked_goto h (by simp)
    · exact h
  | client i w =>
    unfold step; dsimp only
    split
    · rename_i e; exact locked_edit h e
    · exact locked_control h
    · exact h
  | thread k w =>
    unfold step; dsimp only
    split
    · exact locked_tick h
    · exact h

theorem locked_run (ts : List Turn) : ∀ {y : Sys}, Locked y → Locked (run ts y) := by
  induction ts with
  | nil => intro y h; exact h
  | cons t ts ih => intro y h; exact ih (locked_step t h)

/-- C41: for any number of service threads and any schedule, two edit requests never run their bodies at the same time. -/
theorem c41_one_edit (n : Nat) (ts : List Turn) (i j : Nat) (hi : Editing (run ts (start n)) i) (hj : Editing (run ts (start n)) j) : i = j := by
  have h0 : Locked (start n) := by
    intro i ⟨d, hd⟩
    simp only [start, List.getElem?_replicate] at hd
    split at hd <;> cases hd
  have h := locked_run ts h0
  have h1 := h i hi
  rw [h j hj] at h1
  exact (Option.some.inj h1).symm

/-- Three edit requests at the same time; the second one enters when the first one has left. -/
def threeEdits : List Turn :=
  [.request 0 .edit, .request 1 .edit, .request 2 .edit, .client 0 .good, .client 1 .good, .client 2 .good, .client 1 .good, .client 0 .good, .client 1 .final,
   .client 2 .good, .client 1 .good]

example : Editing (run threeEdits (start 3)) 1 ∧ ¬ Editing (run threeEdits (start 3)) 0 ∧ (run threeEdits (start 3)).holder = some 1 ∧
    Editing (run (threeEdits ++ [.client 1 .good, .client 0 .good]) (start 3)) 0 :=
  ⟨⟨0, by decide⟩, fun ⟨d, h⟩ => (by simp [show (run threeEdits (start 3)).clients[0]? = some (.edit .lock) from by decide] at h), by decide, ⟨0, by decide⟩⟩

/-! ### C40, C43, C46: what goes wrong -/

/-- C40 does not hold: an edit request passes the check, then TICK_PERIODICALLY starts the tick thread, then the edit takes place while the
root is ticked. -/
theorem c40_check_then_tick :
    ∃ ts, let y := run ts (start 2)
      Editing y 0 ∧ y.state = .ticking ∧ y.threads = [.tick] :=
  ⟨[.request 0 .edit, .client 0 .good, .request 1 (.control .tickPeriodically), .client 1 .good, .client 1 .good, .client 1 .good, .client 1 .good, .client 1 .good, .client 1 .good, .client 1 .good, .client 1 .good,
    .thread 0 .good, .thread 0 .good, .client 0 .good], ⟨0, by decide⟩, by decide, by decide⟩

/-- C40 and C43 fail even if requests never overlap: TICK_UNTIL_RESULT has been answered; SHUTDOWN looks at the tree state for the first time
while it is still TICKING, then the tick thread sets IDLE and goes on to untick the root, then SHUTDOWN looks at the state for the second
time. It does not wait for the thread, shuts the root down and is answered with success. The tree is EDITABLE and an edit takes place while the
tick thread is unticking the root. -/
theorem c43_shutdown_while_unticking :
    ∃ ts ts', let y := run ts (start 1)
      let y' := run ts' y
      y.clients = [.done true] ∧ y.state = .editable ∧ y.threads = [.untick] ∧
      Editing y' 0 ∧ y'.threads = [.untick] :=
  ⟨[.request 0 (.control .tickUntilResult), .client 0 .good, .client 0 .good, .client 0 .good, .client 0 .good, .client 0 .good, .client 0 .good, .client 0 .good, .client 0 .good,
    .thread 0 .good, .thread 0 .good, .thread 0 .final, .thread 0 .good,
    .request 0 (.control .shutdown), .client 0 .good, .client 0 .good, .thread 0 .good, .client 0 .good, .client 0 .good, .client 0 .good, .client 0 .good],
   [.request 0 .edit, .client 0 .good, .client 0 .good], by decide, by decide, by decide, ⟨0, by decide⟩, by decide⟩

/-- C46 does not hold for overlapping commands: two TICK_PERIODICALLY requests, the second one has seen that no thread
is alive before the first one starts its thread. -/
theorem c46_two_threads :
    ∃ ts, let y := run ts (start 2)
      y.clients = [.done true, .done true] ∧ y.threads = [.tick, .tick] ∧ y.cur = some 1 :=
  ⟨[.request 0 (.control .tickPeriodically), .client 0 .good, .client 0 .good, .client 0 .good, .client 0 .good, .client 0 .good, .client 0 .good, .client 0 .good,
    .request 1 (.control .tickPeriodically), .client 1 .good, .client 1 .good, .client 0 .good, .client 1 .good, .client 1 .good, .client 1 .good, .client 1 .good, .client 1 .good, .client 1 .good,
    .thread 0 .good, .thread 0 .good, .thread 1 .good, .thread 1 .good], by decide⟩

/-! ### C46 with one controlling client -/

/-- Only the current thread is alive; only service thread 0 handles commands; when it is about to make a thread object no thread is alive. -/
structure Solo (y : Sys) : Prop where
  one : ∀ k, Alive y k → y.cur = some k
  zero : ∀ (i : Nat) c pc, y.clients[i]? = some (Client.control c pc) → i = 0
  make : ∀ (i : Nat) c, y.clients[i]? = some (Client.control c .make) → curAlive y = false

theorem curAlive_iff (y : Sys) : curAlive y = true ↔ ∃ k, y.cur = some k ∧ Alive y k := by
  unfold curAlive Alive
  cases hc : y.cur with
  | none => simp
  | some k => cases ht : y.threads[k]? <;> simp [ht]

theorem curAlive_same {y y' : Sys} (h1 : y'.threads = y.threads) (h2 : y'.cur = y.cur) : curAlive y' = curAlive y := by
  unfold curAlive; rw [h1, h2]

theorem solo_goto {y y' : Sys} {i : Nat} {cl : Client} (h : Solo y) (h1 : y'.threads = y.threads) (h2 : y'.cur = y.cur) (h3 : y'.clients = y.clients)
    (h4 : ∀ c pc, cl = Client.control c pc → i = 0) (h5 : ∀ c, cl = Client.control c .make → curAlive y = false) : Solo (y'.goto i cl) := by
  have key : ∀ j x, (y'.goto i cl).clients[j]? = some x → i = j ∧ x = cl ∨ y.clients[j]? = some x := by
    intro j x hx
    by_cases e : i = j
    · subst e
      simp only [Sys.goto, List.getElem?_set, if_true] at hx
      split at hx
      · exact .inl ⟨rfl, (Option.some.inj hx).symm⟩
      · cases hx
    · right
      rw [← h3]
      simpa [Sys.goto, List.getElem?_set, e] using hx
  refine ⟨fun k ⟨pc, hk, ha⟩ => ?_, fun j c pc hj => ?_, fun j c hj => ?_⟩
  · show y'.cur = _
    rw [h2]
    exact h.one k ⟨pc, by rw [← h1]; exact hk, ha⟩
  · rcases key j _ hj with ⟨e, e'⟩ | e
    · rw [← e]; exact h4 c pc e'.symm
    · exact h.zero j c pc e
  · rw [curAlive_same (y := y) (show (y'.goto i cl).threads = _ from h1) h2]
    rcases key j _ hj with ⟨_, e'⟩ | e
    · exact h5 c e'.symm
    · exact h.make j c e

theorem solo_control {y : Sys} {i : Nat} {c : Cmd} {w : Outcome} {pc : CPc} (h : Solo y) (hi : y.clients[i]? = some (.control c pc)) :
    Solo (controlStep y i c w pc) := by
  have hz := h.zero i c pc hi
  have hg : ∀ (y' : Sys) (cl : Client), y'.threads = y.threads → y'.cur = y.cur → y'.clients = y.clients → (∀ c, cl ≠ .control c .make) → Solo (y'.goto i cl) :=
    fun y' cl h1 h2 h3 h4 => solo_goto h h1 h2 h3 (fun _ _ _ => hz) (fun c e => absurd e (h4 c))
  cases pc with
  | renew =>
    unfold controlStep; dsimp only
    split
    · exact hg _ _ rfl rfl rfl (by simp)
    · rename_i hn
      exact solo_goto h rfl rfl rfl (fun _ _ _ => hz) (fun _ _ => by simpa using hn)
  | make =>
    have hn := h.make i c hi
    have hnone : ∀ k, ¬ Alive y k := fun k hk => by
      rw [(curAlive_iff y).2 ⟨k, h.one k hk, hk⟩] at hn; cases hn
    unfold controlStep; dsimp only
    have h' : Solo { y with threads := y.threads ++ [TPc.fresh], cur := some y.threads.length } := by
      refine ⟨fun k ⟨pc, hk, ha⟩ => ?_, h.zero, fun _ _ _ => ?_⟩
      · exfalso
        dsimp only at hk
        rw [List.getElem?_append] at hk
        split at hk
        · exact hnone k ⟨pc, hk, ha⟩
        · have : pc = .fresh := by
            have := List.mem_of_getElem? hk
            simpa using this
          subst this; cases ha
      · unfold curAlive; simp [TPc.isAlive]
    exact solo_goto h' rfl rfl rfl (fun _ _ _ => hz) (by simp)
  | launch =>
    unfold controlStep; dsimp only
    split
    · exact hg _ _ rfl rfl rfl (by simp)
    · rename_i k hk
      split
      · rename_i hf
        have h' : Solo { (y.goto i (.done true)) with threads := y.threads.set k TPc.start } := by
          have hd := hg y (.done true) rfl rfl rfl (by simp)
          refine ⟨fun k' ⟨pc, hk', ha⟩ => ?_, hd.zero, fun j c' hj => ?_⟩
          · dsimp only at hk'
            rw [List.getElem?_set] at hk'
            split at hk'
            · rename_i e; rw [← e]; exact hk
            · exact h.one k' ⟨pc, hk', ha⟩
          · exfalso
            have hj0 := hd.zero j c' .make hj
            subst hz hj0
            have : (y.goto 0 (.done true)).clients[0]? = some (.done true) := by
              simp only [Sys.goto, List.getElem?_set, if_true]
              have : 0 < y.clients.length := (List.getElem?_eq_some_iff.1 hi).1
              simp [this]
            dsimp only at hj
            rw [this] at hj; cases hj
        have e : ∀ cl : Client, ({ y with threads := y.threads.set k TPc.start } : Sys).goto i cl =
            ({ (y.goto i (.done true)) with threads := y.threads.set k TPc.start } : Sys).goto i cl := by
          intro cl; simp [Sys.goto]
        rw [e]
        refine solo_goto h' rfl rfl rfl (fun _ _ _ => hz) ?_
        intro c' hc'
        split at hc' <;> cases hc'
      · exact hg _ _ rfl rfl rfl (by simp)
  | _ =>
    unfold controlStep; dsimp only
    repeat' split
    all_goals first | exact h | exact hg _ _ rfl rfl rfl (by simp)

theorem solo_edit {y : Sys} {i : Nat} {w : Outcome} {pc : EPc} (h : Solo y) : Solo (editStep y i w pc) := by
  unfold editStep
  repeat' split
  all_goals first | exact h | exact solo_goto h rfl rfl rfl (by simp) (by simp)

theorem solo_tick {y : Sys} {k : Nat} {w : Outcome} {pc : TPc} (h : Solo y) (hk : y.threads[k]? = some pc) : Solo (tickThreadStep y k w pc) := by
  by_cases ha : pc.isAlive = true
  · have hc := h.one k ⟨pc, hk, ha⟩
    have hcl : (tickThreadStep y k w pc).clients = y.clients := by
      unfold tickThreadStep
      repeat' split
      all_goals rfl
    have hth : ∃ pc', (tickThreadStep y k w pc).threads = y.threads.set k pc' ∧ (tickThreadStep y k w pc).cur = y.cur := by
      unfold tickThreadStep
      repeat' split
      all_goals first | exact ⟨_, rfl, rfl⟩ | cases ha
    obtain ⟨pc', e1, e2⟩ := hth
    have hca : curAlive y = true := (curAlive_iff y).2 ⟨k, hc, pc, hk, ha⟩
    refine ⟨fun k' ⟨q, hq, hqa⟩ => ?_, ?_, fun j c hj => ?_⟩
    · rw [e2, hc]
      by_cases e : k = k'
      · rw [e]
      · rw [e1, List.getElem?_set_ne e] at hq
        have := h.one k' ⟨q, hq, hqa⟩
        rw [hc] at this; exact this
    · rw [hcl]; exact h.zero
    · rw [hcl] at hj
      have := h.make j c hj
      rw [hca] at this; cases this
  · have : tickThreadStep y k w pc = y := by
      cases pc <;> first | rfl | exact absurd rfl ha
    rw [this]; exact h

/-- C46 if the commands (not the edits) do not overlap, however their steps and those of the tick thread are interleaved: at most one
tick thread is alive. -/
theorem c46_one_controller_partial (n : Nat) (ts : List Turn) (hone : ∀ i c, Turn.request i (.control c) ∈ ts → i = 0) (k k' : Nat)
    (hk : Alive (run ts (start n)) k) (hk' : Alive (run ts (start n)) k') : k = k' := by
  have h0 : Solo (start n) := by
    refine ⟨fun k ⟨pc, h, _⟩ => ?_, fun i c pc h => ?_, fun i c h => ?_⟩
    · cases h
    · simp only [start, List.getElem?_replicate] at h; split at h <;> cases h
    · rfl
  have h : Solo (run ts (start n)) := by
    clear hk hk'
    generalize start n = y at h0
    induction ts generalizing y with
    | nil => exact h0
    | cons t ts ih =>
      refine ih (fun i c hm => hone i c (List.mem_cons_of_mem _ hm)) (step y t) ?_
      cases t with
      | request i r =>
        unfold step; dsimp only
        split
        · cases r with
          | edit => exact solo_goto h0 rfl rfl rfl (by simp) (by simp)
          | control c => exact solo_goto h0 rfl rfl rfl (fun _ _ _ => hone i c (by simp)) (by simp)
        · exact h0
      | client i w =>
        unfold step; dsimp only
        split
        · exact solo_edit h0
        · rename_i e; exact solo_control h0 e
        · exact h0
      | thread k w =>
        unfold step; dsimp only
        split
        · rename_i e; exact solo_tick h0 e
        · exact h0
  have := h.one k hk
  rw [h.one k' hk'] at this
  exact (Option.some.inj this).symm

/-- A tick command while the previous tick thread is about to end: the old thread is still alive when `control_execution` looks for the first
time and has ended when it looks again, so it is not replaced, and starting it a second time raises an exception (RuntimeError). The tree is
TICKING without a tick thread. -/
theorem restart_raises :
    ∃ ts, let y := run ts (start 1)
      y.clients = [.done false] ∧ y.state = .ticking ∧ y.threads = [.dead] :=
  ⟨[.request 0 (.control .tickPeriodically), .client 0 .good, .client 0 .good, .client 0 .good, .client 0 .good, .client 0 .good, .client 0 .good, .client 0 .good, .client 0 .good,
    .thread 0 .bad, .thread 0 .good, .request 0 (.control .shutdown), .client 0 .good, .client 0 .good, .client 0 .good, .client 0 .good, .client 0 .good, .client 0 .good,
    .request 0 (.control .tickPeriodically), .client 0 .good, .client 0 .good, .thread 0 .good, .client 0 .good, .client 0 .good, .client 0 .good, .client 0 .good, .client 0 .good], by decide⟩

example : Alive (run [.request 0 (.control .tickPeriodically), .client 0 .good, .client 0 .good, .client 0 .good, .client 0 .good, .client 0 .good, .client 0 .good, .client 0 .good, .client 0 .good] (start 3)) 0 := ⟨.start, by decide, rfl⟩

end Verif.Exec.Race
