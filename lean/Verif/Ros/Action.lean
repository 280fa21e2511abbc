import Verif.Ros.Frame

/-! C58, C59, C71, C72: actions (`ros_nodes/action.py`, class `ActionBase`). -/

set_option autoImplicit false

namespace Verif.Ros

open Verif.BT (BTState Op Res)

namespace Action

/-- action.py 55-61: `ActionStates`. -/
inductive AState
  | idle | waitAccept | waitAction | requestCancel | waitCancel | finished
  deriving DecidableEq, Repr

/-- What the future of a new goal says (action.py 287-308): done with a goal handle, which knows
whether the server accepted the goal, done with `None`, or cancelled. -/
inductive ReqFut
  | pending | handle (accepted : Bool) | nothing | cancelled
  deriving DecidableEq, Repr

/-- `action_msgs/msg/GoalStatus`: how a goal ended. -/
inductive Status
  | unknown | succeeded | canceled | aborted
  deriving DecidableEq, Repr

/-- What the future of a result says (action.py 171-191). -/
inductive ResFut
  | pending | done (status : Status) (result : Nat) | nothing | cancelled
  deriving DecidableEq, Repr

/-- What the future of a cancellation says (action.py 237-259). -/
inductive CanFut
  | pending | done | cancelled
  deriving DecidableEq, Repr

/-- Effects. Goals are numbered. `accepted n b`: the node takes the handle of goal `n` (`b`: the
server accepted it); `refused n`: there is no handle; `result n`: the result is put to the
outputs; `ended n`: there is no result; `forget n`: the future of the result is cancelled
(the goal itself is not); `cancel n`: the server is asked to cancel the goal. -/
inductive Act
  | create | destroy
  | send (n : Nat) (goal : Nat)
  | accepted (n : Nat) (ok : Bool)
  | refused (n : Nat)
  | result (n : Nat) (status : Status) (result : Nat)
  | ended (n : Nat)
  | forget (n : Nat)
  | cancel (n : Nat)
  deriving DecidableEq, Repr

/-- action.py 126-158 and 193-210: the attributes. `st` is `_internal_state` (`none`: not set
yet), `request`, `handle`, `resultFut`, `cancelFut` are `_new_goal_request_future`,
`_running_goal_handle`, `_running_goal_future`, `_cancel_goal_future` (the number of the goal),
`input` is `_input_goal` (outer `none`: not set yet), `start` is `_running_goal_start_time`,
`client` says whether there is an `_action_client`. `next` numbers the goals (not in the code).
Goals and results are numbers in the model; `_feedback` and `_last_goal_time` are left out: no
answer depends on them. -/
structure Mem where
  st : Option AState := none
  request : Option Nat := none
  handle : Option Nat := none
  resultFut : Option Nat := none
  cancelFut : Option Nat := none
  input : Option (Option Nat) := none
  start : Int := 0
  timeout : Int := 0
  client : Bool := false
  next : Nat := 0
  deriving DecidableEq, Repr

/-- The outside world: is there a ROS node, the input `timeout_seconds`, can type and flags be
read, the goal built from the inputs (`none`: `Err`), can the name be read, does the constructor
of `ActionClient` raise, what do the futures say, what does `set_result_outputs` answer (`none`:
`Err`, otherwise whether SUCCEEDED or FAILED), the clock. -/
structure Env where
  hasRos : Bool := true
  seconds : Option Int := some 30
  typeOk : Bool := true
  flagsOk : Bool := true
  goal : Option Nat := some 0
  nameOk : Bool := true
  createRaises : Bool := false
  req : Nat → ReqFut := fun _ => .pending
  res : Nat → ResFut := fun _ => .pending
  can : Nat → CanFut := fun _ => .pending
  outcome : Option Bool := some true
  now : Int := 0

abbrev Out := HookOut Mem Act

/-- action.py 126-158. `_input_goal` is not initialised here. -/
def doSetup (e : Env) (m : Mem) : Out :=
  if e.hasRos then
    match e.seconds with
    | none => ⟨m, some .err, []⟩
    | some t =>
      let m := { m with timeout := t }
      if e.typeOk then
        ⟨{ m with st := some .idle, request := none, handle := none, resultFut := none, cancelFut := none, client := false },
          some (.ok .idle), []⟩
      else ⟨m, some .err, []⟩
  else ⟨m, some .err, []⟩

/-- action.py 165-212 -/
def waitAction (e : Env) (m : Mem) : Out :=
  match m.handle, m.resultFut with
  | some _, some n =>
    let over := { m with handle := none, resultFut := none, st := some .finished }
    match e.res n with
    | .nothing => ⟨over, some (.ok .failed), [.ended n]⟩
    | .done status r =>
      ⟨over, some (match e.outcome with
        | none => .err
        | some true => .ok .succeeded
        | some false => .ok .failed), [.result n status r]⟩
    | .cancelled => ⟨over, some (.ok .failed), [.ended n]⟩
    | .pending =>
      if m.timeout < e.now - m.start then
        ⟨{ m with resultFut := none, st := some .requestCancel }, some (.ok .running), [.forget n]⟩
      else ⟨m, some (.ok .running), []⟩
  | _, _ => ⟨m, some .err, []⟩

/-- action.py 214-225 -/
def requestCancel (m : Mem) : Out :=
  match m.handle with
  | none => ⟨m, some .err, []⟩
  | some n => ⟨{ m with cancelFut := some n, st := some .waitCancel }, some (.ok .running), [.cancel n]⟩

/-- action.py 227-260 -/
def waitCancel (e : Env) (m : Mem) : Out :=
  match m.cancelFut with
  | none => ⟨{ m with st := some .finished }, some .err, []⟩
  | some n =>
    let over := { m with cancelFut := none, handle := none, resultFut := none, st := some .finished }
    match e.can n with
    | .done =>
      match m.input with
      | none => ⟨m, none, []⟩
      | some (some _) => ⟨over, some (.ok .running), []⟩
      | some none => ⟨over, some (.ok .failed), []⟩
    | .cancelled => ⟨over, some (.ok .failed), []⟩
    | .pending => ⟨m, some (.ok .running), []⟩

/-- action.py 262-273. `send_goal_async(None)` raises `TypeError` (rclpy checks the type of the
goal), reading a missing `_input_goal` raises `AttributeError`. -/
def sendGoal (m : Mem) : Out :=
  if m.client then
    match m.input with
    | some (some g) =>
      ⟨{ m with request := some m.next, input := some none, st := some .waitAccept, next := m.next + 1 },
        some (.ok .running), [.send m.next g]⟩
    | _ => ⟨m, none, []⟩
  else ⟨m, some .err, []⟩

/-- action.py 275-310. `accepted` is not looked at. -/
def waitAccept (e : Env) (m : Mem) : Out :=
  match m.request with
  | none => ⟨{ m with st := some .idle }, some .err, []⟩
  | some n =>
    match e.req n with
    | .handle b =>
      ⟨{ m with handle := some n, request := none, start := e.now, resultFut := some n, st := some .waitAction },
        some (.ok .running), [.accepted n b]⟩
    | .nothing => ⟨{ m with handle := none, request := none, st := some .finished }, some (.ok .failed), [.refused n]⟩
    | .cancelled => ⟨{ m with handle := none, request := none, st := some .finished }, some (.ok .failed), [.refused n]⟩
    | .pending => ⟨m, some (.ok .running), []⟩

/-- action.py 369-378 -/
def finished (state : BTState) (m : Mem) : Out :=
  match m.input with
  | none => ⟨m, none, []⟩
  | some none => ⟨m, some (.ok state), []⟩
  | some (some _) =>
    ⟨{ m with client := false, st := some .idle }, some (.ok .running), if m.client then [.destroy] else []⟩

/-- action.py 312-330: new inputs. -/
def refresh (updated : Bool) (e : Env) (m : Mem) : Out :=
  if e.flagsOk then
    if updated then
      match e.goal with
      | none => ⟨m, some .err, []⟩
      | some g =>
        let m := { m with input := some (some g) }
        match m.st with
        | none => ⟨m, none, []⟩
        | some a =>
          if a = .idle ∨ a = .finished ∨ a = .waitCancel then ⟨m, some (.ok .idle), []⟩
          else ⟨{ m with st := some .requestCancel }, some (.ok .idle), []⟩
    else ⟨m, some (.ok .idle), []⟩
  else ⟨m, some .err, []⟩

/-- action.py 332-343 -/
def connect (e : Env) (m : Mem) : Out :=
  if m.client then ⟨m, some (.ok .idle), []⟩
  else if e.nameOk then
    if e.createRaises then ⟨m, none, []⟩
    else ⟨{ m with client := true }, some (.ok .idle), [.create]⟩
  else ⟨m, some .err, []⟩

/-- action.py 345-367 -/
def dispatch (state : BTState) (e : Env) (m : Mem) : Out :=
  match m.st with
  | none => ⟨m, none, []⟩
  | some .idle => sendGoal m
  | some .waitAccept => waitAccept e m
  | some .waitAction => waitAction e m
  | some .requestCancel => requestCancel m
  | some .waitCancel => waitCancel e m
  | some .finished => finished state m

/-- action.py 312-367 -/
def doTick (state : BTState) (updated : Bool) (e : Env) (m : Mem) : Out :=
  ((refresh updated e m).andThen (connect e)).andThen (dispatch state e)

/-- action.py 386-393 -/
def forgetAll (m : Mem) : Out :=
  ⟨{ m with resultFut := none, handle := none, cancelFut := none, st := some .idle }, some (.ok .idle), []⟩

/-- action.py 380-393 -/
def doUntick (m : Mem) : Out :=
  match m.st with
  | none => ⟨m, none, []⟩
  | some a => if a = .waitAction then (requestCancel m).andThen forgetAll else forgetAll m

/-- action.py 395-404 -/
def doReset (m : Mem) : Out :=
  (doUntick m).andThen fun m => ⟨{ m with client := false }, some (.ok .idle), if m.client then [.destroy] else []⟩

/-- action.py 126-411. `upd ()` says whether the name or the goal fields were updated. -/
def hook (op : Op) (state : BTState) (upd : Unit → Bool) (e : Env) (m : Mem) : Out :=
  match op with
  | .setup => doSetup e m
  | .tick => doTick state (upd ()) e m
  | .untick => doUntick m
  | .reset => doReset m
  | .shutdown => (doReset m).andThen fun m => ⟨m, some (.ok .shutdown), []⟩

/-- action.py 74-428 -/
def cls : Class Mem Unit Env Empty Act := ⟨{}, hook, fun v => v.elim⟩

abbrev Hist := Class.History Unit Env Empty Act

/-! ### What the server sees (effects latest first) -/

/-- The goal that was sent last. -/
def lastSent : List Act → Option Nat
  | [] => none
  | .send n _ :: _ => some n
  | _ :: tr => lastSent tr

/-- The goal the node has a handle of and whose result it waits for. -/
def watched : List Act → Option Nat
  | [] => none
  | .accepted n _ :: _ => some n
  | .create :: tr => watched tr
  | .destroy :: tr => watched tr
  | _ :: _ => none

/-- A goal was sent and the server has not answered. -/
def unanswered : List Act → Bool
  | .send _ _ :: _ => true
  | .create :: tr => unanswered tr
  | .destroy :: tr => unanswered tr
  | _ => false

/-- A goal took too long and was not cancelled yet. -/
def timedOut : List Act → Bool
  | .forget _ :: _ => true
  | .create :: tr => timedOut tr
  | .destroy :: tr => timedOut tr
  | _ => false

/-- The goal is over or was cancelled by the node. -/
def Closed (tr : List Act) (n : Nat) : Prop :=
  Act.refused n ∈ tr ∨ (∃ s r, Act.result n s r ∈ tr) ∨ Act.ended n ∈ tr ∨ Act.cancel n ∈ tr

/-- The timeout read at the last setup. -/
def timeout : Hist → Option Int
  | [] => none
  | (.call .setup e _ _, ⟨some (.ok _), _⟩) :: _ => e.seconds
  | _ :: h => timeout h

/-- Every handle that is taken is that of the goal sent last, every result that of the goal
whose result the node waits for. -/
def Honest : List Act → Prop
  | [] => True
  | .accepted n _ :: tr => lastSent tr = some n ∧ Honest tr
  | .result n _ _ :: tr => watched tr = some n ∧ Honest tr
  | _ :: tr => Honest tr

/-- What the attributes mean. -/
structure Good (tr : List Act) (m : Mem) : Prop where
  honest : Honest tr
  accept : m.st = some .waitAccept → ∃ n, m.request = some n ∧ lastSent tr = some n ∧ m.handle = none
  action : m.st = some .waitAction → ∃ n, m.handle = some n ∧ m.resultFut = some n ∧ watched tr = some n
  idle : m.st = some .idle → m.handle = none
  unset : m.st = none → m.handle = none
  fin : m.st = some .finished → m.handle = none
  input : m.st ≠ some .idle → m.st ≠ none → m.input ≠ none
  client : m.st ≠ some .idle → m.st ≠ none → m.client = true
  cancelling : m.st = some .waitCancel → m.cancelFut ≠ none
  watch : ∀ n, watched tr = some n → (m.st = some .waitAction ∨ m.st = some .requestCancel) ∧ m.handle = some n
  waiting : m.st = some .waitAccept → unanswered tr = true

theorem watched_last {tr : List Act} (h : Honest tr) {n : Nat} (hw : watched tr = some n) : lastSent tr = some n := by
  induction tr with
  | nil => cases hw
  | cons a tr ih => cases a <;> simp_all [watched, lastSent, Honest]

/-- A part of a hook keeps this. -/
def Keeps (k : Mem → Out) : Prop := ∀ tr m, Good tr m → Good ((k m).acts.reverse ++ tr) (k m).mem

theorem Keeps.andThen {f g : Mem → Out} (hf : Keeps f) (hg : Keeps g) : Keeps fun m => (f m).andThen g := by
  intro tr m h
  dsimp only [HookOut.andThen]
  split
  · rw [List.reverse_append, List.append_assoc]
    exact hg _ _ (hf _ _ h)
  · exact hf _ _ h

theorem Good.none_watched {tr : List Act} {m : Mem} (h : Good tr m)
    (hs : m.st ≠ some .waitAction ∧ m.st ≠ some .requestCancel ∨ m.handle = none) : watched tr = none := by
  cases hw : watched tr with
  | none => rfl
  | some n =>
    obtain ⟨h1, h2⟩ := h.watch n hw
    rcases hs with ⟨ha, hb⟩ | hn
    · rcases h1 with h1 | h1
      · exact absurd h1 ha
      · exact absurd h1 hb
    · rw [hn] at h2; cases h2

theorem keeps_refresh (b : Bool) (e : Env) : Keeps (refresh b e) := by
  intro tr m h
  have h' := h
  obtain ⟨h1, h2, h3, h4, h0, h5, h6, h7, h8, h9, h10⟩ := h'
  unfold refresh
  split
  · split
    · split
      · exact h
      · dsimp only
        split
        · exact ⟨h1, h2, h3, h4, h0, h5, by simp, h7, h8, h9, h10⟩
        · rename_i a ha
          have ha : m.st = some a := ha
          split
          · exact ⟨h1, h2, h3, h4, h0, h5, by simp, h7, h8, h9, h10⟩
          · rename_i hna
            refine ⟨h1, by simp, by simp, by simp, by simp, by simp, by simp, fun _ _ => h7 ?_ (by simp [ha]), by simp, ?_, by simp⟩
            · intro hi
              rw [ha] at hi
              exact hna (.inl (Option.some.inj hi))
            · intro n hn
              exact ⟨.inr rfl, (h9 n hn).2⟩
    · exact h
  · exact h

theorem keeps_connect (e : Env) : Keeps (connect e) := by
  intro tr m h
  have h' := h
  obtain ⟨h1, h2, h3, h4, h0, h5, h6, h7, h8, h9, h10⟩ := h'
  unfold connect
  split
  · exact h
  · split
    · split
      · exact h
      · exact ⟨by simpa [Honest] using h1, by simpa [lastSent] using h2, by simpa [watched] using h3, h4, h0, h5, h6, by simp, h8,
          by simpa [watched] using h9, by simpa [unanswered] using h10⟩
    · exact h

theorem keeps_requestCancel : Keeps requestCancel := by
  intro tr m h
  have h' := h
  obtain ⟨h1, h2, h3, h4, h0, h5, h6, h7, h8, h9, h10⟩ := h'
  dsimp only [requestCancel]
  split
  · exact h
  · rename_i n hh
    refine ⟨by simpa [Honest] using h1, by simp, by simp, by simp, by simp, by simp, fun _ _ => ?_, fun _ _ => ?_, by simp,
      by simp [watched], by simp⟩
    · exact h6 (fun hs => by simp [h4 hs] at hh) (fun hs => by simp [h0 hs] at hh)
    · exact h7 (fun hs => by simp [h4 hs] at hh) (fun hs => by simp [h0 hs] at hh)

theorem good_forgetAll {tr : List Act} {m : Mem} (h : Good tr m) (hw : watched tr = none) :
    Good tr (forgetAll m).mem := by
  obtain ⟨h1, h2, h3, h4, h0, h5, h6, h7, h8, h9, h10⟩ := h
  exact ⟨h1, by simp [forgetAll], by simp [forgetAll], by simp [forgetAll], by simp [forgetAll], by simp [forgetAll],
    by simp [forgetAll], by simp [forgetAll], by simp [forgetAll], by simp [hw], by simp [forgetAll]⟩

/-- Between two operations the node waits for the result of `n` whenever it watches `n`. -/
def Settled (tr : List Act) (m : Mem) : Prop := ∀ n, watched tr = some n → m.st = some .waitAction

theorem good_doUntick {tr : List Act} {m : Mem} (h : Good tr m) (hs : Settled tr m) :
    Good ((doUntick m).acts.reverse ++ tr) (doUntick m).mem ∧
    (m.st = none → doUntick m = ⟨m, none, []⟩) ∧
    (m.st ≠ none → (doUntick m).res = some (.ok .idle) ∧ (doUntick m).mem = (forgetAll m).mem ∧
      watched ((doUntick m).acts.reverse ++ tr) = none) ∧
    (∀ n, watched tr = some n → (doUntick m).acts = [.cancel n]) ∧
    (watched tr = none → (doUntick m).acts = []) := by
  unfold doUntick
  split
  · rename_i hn
    refine ⟨h, fun _ => rfl, fun h => absurd hn h, fun n hw => ?_, fun _ => rfl⟩
    have := hs n hw
    rw [hn] at this
    cases this
  · rename_i a ha
    split
    · rename_i haw
      subst haw
      obtain ⟨n, hh, hf, hw⟩ := h.action ha
      have hg := keeps_requestCancel tr m h
      simp only [requestCancel, hh, HookOut.andThen, forgetAll, List.append_nil] at hg ⊢
      refine ⟨?_, by simp [ha], fun _ => ⟨trivial, by simp, by simp [watched]⟩, fun k hk => ?_, fun hk => ?_⟩
      · have := good_forgetAll hg (by simp [watched])
        simpa [forgetAll] using this
      · rw [hw] at hk; cases hk; rfl
      · rw [hw] at hk; cases hk
    · rename_i hna
      have hw : watched tr = none := by
        cases hw : watched tr with
        | none => rfl
        | some n =>
          have := hs n hw
          rw [ha] at this
          exact absurd (Option.some.inj this) hna
      refine ⟨good_forgetAll h hw, by simp [ha], fun _ => ⟨rfl, rfl, hw⟩, fun n hn => ?_, fun _ => rfl⟩
      rw [hw] at hn; cases hn

theorem keeps_dispatch (state : BTState) (e : Env) : Keeps (dispatch state e) := by
  intro tr m h
  have h' := h
  obtain ⟨h1, h2, h3, h4, h0, h5, h6, h7, h8, h9, h10⟩ := h'
  unfold dispatch
  split
  · exact h
  · rename_i hs
    have hh := h4 hs
    unfold sendGoal
    split
    · rename_i hc
      split
      · exact ⟨by simpa [Honest] using h1, by simp [lastSent, hh], by simp, by simp, by simp, by simp, by simp, fun _ _ => hc, by simp,
          by simp [watched], by simp [unanswered]⟩
      · exact h
    · exact h
  · rename_i hs
    obtain ⟨n, hr, hl, hh⟩ := h2 hs
    have hi := h6 (by simp [hs]) (by simp [hs])
    have hc := h7 (by simp [hs]) (by simp [hs])
    unfold waitAccept
    simp only [hr]
    split
    · exact ⟨⟨hl, h1⟩, by simp, by simp [watched], by simp, by simp, by simp, fun _ _ => hi, fun _ _ => hc, by simp, by simp [watched], by simp⟩
    · exact ⟨by simpa [Honest] using h1, by simp, by simp, by simp, by simp, by simp, fun _ _ => hi, fun _ _ => hc, by simp,
        by simp [watched], by simp⟩
    · exact ⟨by simpa [Honest] using h1, by simp, by simp, by simp, by simp, by simp, fun _ _ => hi, fun _ _ => hc, by simp,
        by simp [watched], by simp⟩
    · exact h
  · rename_i hs
    obtain ⟨n, hr, hl, hw⟩ := h3 hs
    have hi := h6 (by simp [hs]) (by simp [hs])
    have hc := h7 (by simp [hs]) (by simp [hs])
    unfold waitAction
    simp only [hr, hl]
    split
    · exact ⟨by simpa [Honest] using h1, by simp, by simp, by simp, by simp, by simp, fun _ _ => hi, fun _ _ => hc, by simp,
        by simp [watched], by simp⟩
    · exact ⟨⟨hw, h1⟩, by simp, by simp, by simp, by simp, by simp, fun _ _ => hi, fun _ _ => hc, by simp, by simp [watched], by simp⟩
    · exact ⟨by simpa [Honest] using h1, by simp, by simp, by simp, by simp, by simp, fun _ _ => hi, fun _ _ => hc, by simp,
        by simp [watched], by simp⟩
    · split
      · exact ⟨by simpa [Honest] using h1, by simp, by simp, by simp, by simp, by simp, fun _ _ => hi, fun _ _ => hc, by simp,
          by simp [watched], by simp⟩
      · exact h
  · exact keeps_requestCancel tr m h
  · rename_i hs
    have hi := h6 (by simp [hs]) (by simp [hs])
    have hc := h7 (by simp [hs]) (by simp [hs])
    have hf := h8 hs
    have hw := h.none_watched (.inl (by simp [hs]))
    unfold waitCancel
    split
    · rename_i hn
      exact absurd hn hf
    · dsimp only
      split
      · split
        · exact h
        · exact ⟨h1, by simp, by simp, by simp, by simp, by simp, fun _ _ => hi, fun _ _ => hc, by simp, by simp [hw], by simp⟩
        · exact ⟨h1, by simp, by simp, by simp, by simp, by simp, fun _ _ => hi, fun _ _ => hc, by simp, by simp [hw], by simp⟩
      · exact ⟨h1, by simp, by simp, by simp, by simp, by simp, fun _ _ => hi, fun _ _ => hc, by simp, by simp [hw], by simp⟩
      · exact h
  · rename_i hs
    have hh := h5 hs
    have hw := h.none_watched (.inl (by simp [hs]))
    unfold finished
    split
    · exact h
    · exact h
    · refine ⟨?_, by simp, by simp, fun _ => hh, fun _ => hh, fun _ => hh, by simp, by simp, by simp, ?_, by simp⟩
      · split
        · exact h1
        · exact h1
      · split
        · simp [watched, hw]
        · simp [hw]

/-- The tick up to the dispatch. -/
def prep (b : Bool) (e : Env) (m : Mem) : Out := (refresh b e m).andThen (connect e)

/-- The attributes at the dispatch. -/
def prepared (b : Bool) (e : Env) (m : Mem) : Mem :=
  { m with
    client := true
    input := if b then some e.goal else m.input
    st := if b = true ∧ m.st ≠ some .idle ∧ m.st ≠ some .finished ∧ m.st ≠ some .waitCancel then some .requestCancel else m.st }

theorem prep_spec {tr : List Act} {m : Mem} (h : Good tr m) (b : Bool) (e : Env) :
    (∃ s, (prep b e m).res = some (.ok s) ∧ e.flagsOk = true ∧ (b = true → ∃ g, e.goal = some g) ∧
      (prep b e m).mem = prepared b e m ∧ (prep b e m).acts = (if m.client then [] else [.create])) ∨
    (∀ s, (prep b e m).res ≠ some (.ok s)) ∧ (prep b e m).acts = [] ∧
      ∃ i, (prep b e m).mem = { m with input := i } ∧ (i = m.input ∨ m.st = none ∨ m.st = some .idle) := by
  have hc := h.client
  clear h
  obtain ⟨st, req, hdl, rf, cf, input, start, timeout, client, next⟩ := m
  cases hfl : e.flagsOk
  · simp [prep, refresh, HookOut.andThen, hfl]
  · cases client
    · have hst : st = none ∨ st = some .idle := by
        rcases st with _ | ⟨_ | _ | _ | _ | _ | _⟩ <;> simp_all
      cases b <;> cases hg : e.goal <;> cases hn : e.nameOk <;> cases hcr : e.createRaises <;>
        rcases hst with rfl | rfl <;>
        simp [prep, refresh, connect, HookOut.andThen, prepared, hfl, hg, hn, hcr]
    · cases b <;> cases hg : e.goal <;> rcases st with _ | ⟨_ | _ | _ | _ | _ | _⟩ <;>
        simp [prep, refresh, connect, HookOut.andThen, prepared, hfl, hg]

theorem tick_spec {tr : List Act} {m : Mem} (h : Good tr m) (state : BTState) (b : Bool) (e : Env) :
    (e.flagsOk = true ∧ (b = true → ∃ g, e.goal = some g) ∧
      doTick state b e m = ⟨(dispatch state e (prepared b e m)).mem, (dispatch state e (prepared b e m)).res,
        (if m.client then [] else [.create]) ++ (dispatch state e (prepared b e m)).acts⟩ ∧
      Good ((if m.client then [] else [.create]) ++ tr) (prepared b e m)) ∨
    (∀ s, (doTick state b e m).res ≠ some (.ok s)) ∧ (doTick state b e m).acts = [] ∧
      (∃ i, (doTick state b e m).mem = { m with input := i } ∧ (i = m.input ∨ m.st = none ∨ m.st = some .idle)) ∧ Good tr (doTick state b e m).mem := by
  have hk := ((keeps_refresh b e).andThen (keeps_connect e)) tr m h
  have hp := prep_spec h b e
  unfold doTick
  change Good ((prep b e m).acts.reverse ++ tr) (prep b e m).mem at hk
  change (_ ∧ _ ∧ (prep b e m).andThen (dispatch state e) = _ ∧ _) ∨
    (∀ s, ((prep b e m).andThen (dispatch state e)).res ≠ _) ∧ ((prep b e m).andThen (dispatch state e)).acts = _ ∧
    (∃ i, ((prep b e m).andThen (dispatch state e)).mem = _ ∧ _) ∧ Good tr ((prep b e m).andThen (dispatch state e)).mem
  rcases hp with ⟨s, h1, h2, h3, h4, h5⟩ | ⟨h1, h2, i, h3, h3'⟩
  · refine .inl ⟨h2, h3, ?_, ?_⟩
    · simp only [HookOut.andThen, h1]
      rw [h4, h5]
    · rw [h4, h5] at hk
      cases hm : m.client <;> simpa [hm] using hk
  · have he : (prep b e m).andThen (dispatch state e) = prep b e m := by
      unfold HookOut.andThen
      split
      · rename_i s hs
        exact absurd hs (h1 s)
      · rfl
    rw [h2] at hk
    rw [he]
    exact .inr ⟨h1, h2, ⟨i, h3, h3'⟩, hk⟩

theorem dispatch_spec {tr : List Act} {m : Mem} (h : Good tr m) (state : BTState) (e : Env) :
    (dispatch state e m).mem.timeout = m.timeout ∧
    (m.st ≠ none → (dispatch state e m).mem.st ≠ none) ∧
    ((dispatch state e m).mem.st = some .requestCancel →
      timedOut ((dispatch state e m).acts.reverse ++ tr) = true ∨ (dispatch state e m).mem.handle = none) ∧
    ((dispatch state e m).res = none → (dispatch state e m).mem = m ∧ (dispatch state e m).acts = []) ∧
    (∀ s, (dispatch state e m).res = some (.ok s) → s = .running ∨ s = .succeeded ∨ s = .failed ∨
      s = state ∧ m.st = some .finished ∧ dispatch state e m = ⟨m, some (.ok s), []⟩) ∧
    ((dispatch state e m).res = some (.ok .succeeded) →
      (dispatch state e m).mem.st = some .finished ∧
      ((∃ n st r, watched tr = some n ∧ e.res n = .done st r ∧ e.outcome = some true ∧
          (dispatch state e m).acts = [.result n st r]) ∨
        state = .succeeded ∧ m.st = some .finished ∧ dispatch state e m = ⟨m, some (.ok .succeeded), []⟩)) := by
  unfold dispatch
  split
  · simp_all
  · rename_i hs
    unfold sendGoal
    split
    · split <;> simp_all
    · simp_all
  · rename_i hs
    obtain ⟨n, hr, hl, hh⟩ := h.accept hs
    unfold waitAccept
    simp only [hr]
    split <;> simp_all
  · rename_i hs
    obtain ⟨n, hr, hl, hw⟩ := h.action hs
    unfold waitAction
    simp only [hr, hl]
    split
    · simp
    · rename_i st r hd
      rcases ho : e.outcome with _ | _ | _ <;> simp [hd, hw]
    · simp
    · split <;> simp [timedOut, hs]
  · rename_i hs
    unfold requestCancel
    split <;> simp_all
  · rename_i hs
    unfold waitCancel
    split
    · simp
    · dsimp only
      split
      · split <;> simp_all
      · simp
      · simp_all
  · rename_i hs
    unfold finished
    split <;> simp_all

theorem stop_spec {tr : List Act} {m : Mem} (h : Good tr m) (hs : Settled tr m) (op : Op)
    (hop : op = .untick ∨ op = .reset ∨ op = .shutdown) (state : BTState) (u : Unit → Bool) (e : Env) :
    (m.st = none → hook op state u e m = ⟨m, none, []⟩) ∧
    (m.st ≠ none →
      (hook op state u e m).res = some (.ok (if op = .shutdown then .shutdown else .idle)) ∧
      (hook op state u e m).mem.st = some .idle ∧ (hook op state u e m).mem.timeout = m.timeout ∧
      watched ((hook op state u e m).acts.reverse ++ tr) = none ∧
      (∀ n, watched tr = some n → .cancel n ∈ (hook op state u e m).acts) ∧
      (∀ a ∈ (hook op state u e m).acts, a = .destroy ∨ ∃ n, watched tr = some n ∧ a = .cancel n) ∧
      Good ((hook op state u e m).acts.reverse ++ tr) (hook op state u e m).mem) := by
  obtain ⟨g1, g2, g3, g4, g5⟩ := good_doUntick h hs
  have hacts : ∀ a ∈ (doUntick m).acts, ∃ n, watched tr = some n ∧ a = .cancel n := by
    intro a ha
    cases hw : watched tr with
    | none => rw [g5 hw] at ha; cases ha
    | some n => rw [g4 n hw] at ha; exact ⟨n, rfl, by simpa using ha⟩
  refine ⟨fun hn => ?_, fun hn => ?_⟩
  · have := g2 hn
    rcases hop with rfl | rfl | rfl <;> simp [hook, doReset, HookOut.andThen, this]
  · obtain ⟨k1, k2, k3⟩ := g3 hn
    have hgood : ∀ (x : List Act), x = [] ∨ x = [.destroy] → ∀ c : Bool,
        Good (x ++ ((doUntick m).acts.reverse ++ tr)) { (doUntick m).mem with client := c } := by
      intro x hx c
      obtain ⟨h1, h2, h3, h4, h0, h5, h6, h7, h8, h9, h10⟩ := g1
      have hst : (doUntick m).mem.st = some .idle := by rw [k2]; rfl
      have hh : (doUntick m).mem.handle = none := by rw [k2]; rfl
      rcases hx with rfl | rfl
      · exact ⟨h1, by simp [hst], by simp [hst], by simp [hh], by simp [hh], by simp [hh], by simp [hst], by simp [hst], by simp [hst],
          by simp [k3], by simp [hst]⟩
      · exact ⟨h1, by simp [hst], by simp [hst], by simp [hh], by simp [hh], by simp [hh], by simp [hst], by simp [hst], by simp [hst],
          by simp [k3, watched], by simp [hst]⟩
    have hcan : ∀ n, watched tr = some n → Act.cancel n ∈ (doUntick m).acts := fun n hn => by rw [g4 n hn]; simp
    rcases hop with rfl | rfl | rfl
    · refine ⟨by simpa [hook] using k1, by simp [hook, k2, forgetAll], by simp [hook, k2, forgetAll], k3, hcan, ?_, g1⟩
      exact fun a ha => .inr (hacts a ha)
    · simp only [hook, doReset, HookOut.andThen, k1]
      refine ⟨by simp, by simp [k2, forgetAll], by simp [k2, forgetAll], ?_, fun n hn => by simp [hcan n hn], ?_, ?_⟩
      · split <;> simp [watched, k3]
      · intro a ha
        rcases List.mem_append.1 ha with ha | ha
        · exact .inr (hacts a ha)
        · left
          split at ha <;> simp_all
      · split
        · simpa using hgood [.destroy] (.inr rfl) false
        · simpa using hgood [] (.inl rfl) false
    · simp only [hook, doReset, HookOut.andThen, k1]
      refine ⟨by simp, by simp [k2, forgetAll], by simp [k2, forgetAll], ?_, fun n hn => by simp [hcan n hn], ?_, ?_⟩
      · split <;> simp [watched, k3]
      · intro a ha
        rw [List.append_nil] at ha
        rcases List.mem_append.1 ha with ha | ha
        · exact .inr (hacts a ha)
        · left
          split at ha <;> simp_all
      · split
        · simpa using hgood [.destroy] (.inr rfl) false
        · simpa using hgood [] (.inl rfl) false

theorem timedOut_watched {tr : List Act} (h : timedOut tr = true) : watched tr = none := by
  induction tr with
  | nil => rfl
  | cons a tr ih => cases a <;> simp_all [timedOut, watched]

/-- What holds between two steps. -/
structure Inv (h : Hist) (l : Leaf Mem Unit) : Prop where
  good : Good (Class.trace h) l.mem
  up : BT.accepts .tick l.state = true → l.mem.st ≠ none ∧ timeout h = some l.mem.timeout
  down : BT.accepts .setup l.state = true → l.mem.st = none ∨ l.mem.st = some .idle
  over : l.mem.st = some .requestCancel → timedOut (Class.trace h) = true ∨ l.mem.handle = none
  succ : l.state = .succeeded → l.mem.st = some .finished ∧
    ∃ n s r, lastSent (Class.trace h) = some n ∧ Act.result n s r ∈ Class.trace h

theorem Inv.settled {h : Hist} {l : Leaf Mem Unit} (hi : Inv h l) : Settled (Class.trace h) l.mem := by
  intro n hn
  obtain ⟨h1 | h1, h2⟩ := hi.good.watch n hn
  · exact h1
  · rcases hi.over h1 with h3 | h3
    · rw [timedOut_watched h3] at hn; cases hn
    · rw [h3] at h2; cases h2

theorem setup_spec {tr : List Act} {m : Mem} (h : Good tr m) (hd : m.st = none ∨ m.st = some .idle) (e : Env) :
    (doSetup e m).acts = [] ∧ Good tr (doSetup e m).mem ∧
    ((doSetup e m).mem.st = none ∨ (doSetup e m).mem.st = some .idle) ∧
    ((doSetup e m).res = some .err ∨ (doSetup e m).res = some (.ok .idle) ∧ (doSetup e m).mem.st = some .idle ∧
      e.seconds = some (doSetup e m).mem.timeout) := by
  have hw : watched tr = none := h.none_watched (.inl (by rcases hd with hd | hd <;> simp [hd]))
  have ht : ∀ t, Good tr { m with timeout := t } := fun t => by
    obtain ⟨h1, h2, h3, h4, h0, h5, h6, h7, h8, h9, h10⟩ := h
    exact ⟨h1, h2, h3, h4, h0, h5, h6, h7, h8, h9, h10⟩
  unfold doSetup
  split
  · split
    · exact ⟨rfl, h, hd, .inl rfl⟩
    · rename_i t hs
      dsimp only
      split
      · refine ⟨rfl, ?_, .inr rfl, .inr ⟨rfl, rfl, hs⟩⟩
        exact ⟨h.honest, by simp, by simp, by simp, by simp, by simp, by simp, by simp, by simp, by simp [hw], by simp⟩
      · exact ⟨rfl, ht t, hd, .inl rfl⟩
  · exact ⟨rfl, h, hd, .inl rfl⟩

theorem timeout_other (h : Hist) (op : Op) (e : Env) (i p : Bool) (o : Seen Act)
    (ho : op ≠ .setup ∨ o.res = some .err ∨ o.res = none) : timeout ((.call op e i p, o) :: h) = timeout h := by
  obtain ⟨r, a⟩ := o
  rcases r with _ | ⟨_ | _⟩ <;> cases op <;> simp_all [timeout]

theorem lastSent_append {x tr : List Act} (hx : ∀ a ∈ x, ∀ n g, a ≠ .send n g) : lastSent (x ++ tr) = lastSent tr := by
  induction x with
  | nil => rfl
  | cons a x ih =>
    have := ih fun b hb => hx b (by simp [hb])
    cases a <;> simp_all [lastSent]

theorem inv_tick {h : Hist} {l : Leaf Mem Unit} (hi : Inv h l) (e : Env) :
    let x := doTick l.state (l.upd ()) e l.mem
    Good (x.acts.reverse ++ Class.trace h) x.mem ∧ x.mem.timeout = l.mem.timeout ∧
    (l.mem.st ≠ none → x.mem.st ≠ none) ∧
    (x.mem.st = some .requestCancel → timedOut (x.acts.reverse ++ Class.trace h) = true ∨ x.mem.handle = none) ∧
    (x.res = some (.ok .succeeded) → x.mem.st = some .finished ∧
      ∃ n s r, lastSent (x.acts.reverse ++ Class.trace h) = some n ∧ Act.result n s r ∈ x.acts.reverse ++ Class.trace h) ∧
    (x.res = none → l.state = .succeeded → x.mem.st = some .finished ∧
      ∃ n s r, lastSent (x.acts.reverse ++ Class.trace h) = some n ∧ Act.result n s r ∈ x.acts.reverse ++ Class.trace h) ∧
    (∀ s, x.res = some (.ok s) → s = .running ∨ s = .succeeded ∨ s = .failed ∨ s = l.state) := by
  dsimp only
  have hsucc := hi.succ
  rcases tick_spec hi.good l.state (l.upd ()) e with ⟨h1, h2, h3, h4⟩ | ⟨h1, h2, ⟨i, h3, -⟩, h4⟩
  · rw [h3]
    have hd := dispatch_spec h4 l.state e
    have hk := keeps_dispatch l.state e _ _ h4
    generalize hx : dispatch l.state e (prepared (l.upd ()) e l.mem) = x at hd hk
    obtain ⟨d1, d2, d3, d4, d5, d6⟩ := hd
    have hacts : (((if l.mem.client then [] else [Act.create]) ++ x.acts).reverse ++ Class.trace h) =
        x.acts.reverse ++ ((if l.mem.client then [] else [.create]) ++ Class.trace h) := by
      cases l.mem.client <;> simp
    have hls : lastSent ((if l.mem.client then [] else [.create]) ++ Class.trace h) = lastSent (Class.trace h) := by
      cases l.mem.client <;> simp [lastSent]
    have hwt : watched ((if l.mem.client then [] else [.create]) ++ Class.trace h) = watched (Class.trace h) := by
      cases l.mem.client <;> simp [watched]
    have hfin : l.mem.st = some .finished → (prepared (l.upd ()) e l.mem).st = some .finished := by
      intro hf; simp [prepared, hf]
    simp only [hacts]
    have hnn : l.mem.st ≠ none → (prepared (l.upd ()) e l.mem).st ≠ none := by
      intro hn
      simp only [prepared]
      split
      · simp
      · exact hn
    refine ⟨hk, by rw [d1]; rfl, fun hn => d2 (hnn hn), d3, ?_, ?_, ?_⟩
    · intro hr
      obtain ⟨hf, ⟨n, st, r, q1, q2, q3, q4⟩ | ⟨q1, q2, q3⟩⟩ := d6 hr
      · refine ⟨hf, n, st, r, ?_, by simp [q4]⟩
        rw [q4]
        have := watched_last h4.honest q1
        simpa [lastSent] using this
      · obtain ⟨-, n, s, r, k1, k2⟩ := hsucc q1
        refine ⟨hf, n, s, r, ?_, by simp [k2]⟩
        rw [q3]
        simpa [hls] using k1
    · intro hr hs
      obtain ⟨k0, n, s, r, k1, k2⟩ := hsucc hs
      obtain ⟨q1, q2⟩ := d4 hr
      rw [q1, q2]
      exact ⟨hfin k0, n, s, r, by simpa [hls] using k1, by simp [k2]⟩
    · intro s hs
      rcases d5 s hs with h | h | h | h
      · exact .inl h
      · exact .inr (.inl h)
      · exact .inr (.inr (.inl h))
      · exact .inr (.inr (.inr h.1))
  · rw [h2, h3]
    refine ⟨by rw [h3] at h4; exact h4, rfl, fun hn => hn, hi.over, fun hr => absurd hr (h1 _), fun _ hs => hsucc hs, fun s hs => absurd hs (h1 s)⟩

theorem inv {h : Hist} {l : Leaf Mem Unit} (hr : cls.Runs h l) : Inv h l := by
  refine Class.Runs.invariant Inv ?_ ?_ hr
  · exact ⟨⟨trivial, by simp [Class.new, cls], by simp [Class.new, cls], by simp [Class.new, cls], by simp [Class.new, cls],
      by simp [Class.new, cls], by simp [Class.new, cls], by simp [Class.new, cls], by simp [Class.new, cls], by simp [watched], by simp [Class.new, cls]⟩,
      by simp [Class.new, BT.accepts], by simp [Class.new, cls], by simp [Class.new, cls], by simp [Class.new]⟩
  intro h l s l' o hr hi hh
  have hst := @stop_spec _ _ hi.good hi.settled
  cases hh with
  | write f b => exact ⟨hi.good, hi.up, hi.down, hi.over, hi.succ⟩
  | event v => exact v.elim
  | refused op e i p hacc =>
    exact ⟨hi.good, by rw [timeout_other _ _ _ _ _ _ (.inr (.inl rfl))]; exact hi.up, hi.down, hi.over, hi.succ⟩
  | again e i p hs =>
    exact ⟨hi.good, by rw [timeout_other _ _ _ _ _ _ (.inl (by simp))]; exact hi.up, hi.down, hi.over, hi.succ⟩
  | unset e p hacc =>
    exact ⟨hi.good, by simp [BT.accepts], by simp [BT.accepts], hi.over, by simp⟩
  | raised op e i p hent _ hres =>
    simp only [cls] at hres ⊢
    have key : op = .tick ∨ op = .setup ∨ (op = .untick ∨ op = .reset ∨ op = .shutdown) := by cases op <;> simp
    rcases key with rfl | rfl | hop
    · obtain ⟨t1, t2, t3, t4, t5, t6, t7⟩ := inv_tick hi e
      simp only [hook, Class.flags] at hres ⊢
      refine ⟨t1, ?_, ?_, t4, fun hs => t6 hres hs⟩
      · rw [timeout_other _ _ _ _ _ _ (.inl (by simp))]
        intro hacc
        obtain ⟨u1, u2⟩ := hi.up hacc
        exact ⟨t3 u1, by rw [t2]; exact u2⟩
      · intro hacc
        cases hl : l.state <;> simp [hl, BT.accepts, Class.entered] at hacc hent
    · obtain ⟨s1, s2, s3, s4⟩ := setup_spec hi.good (hi.down hent) e
      simp only [hook] at hres
      rw [hres] at s4
      simp at s4
    · rcases hn : l.mem.st with _ | a
      · rw [(hst op hop l.state _ e).1 hn]
        refine ⟨hi.good, ?_, hi.down, hi.over, hi.succ⟩
        rw [timeout_other _ _ _ _ _ _ (.inr (.inr rfl))]; exact hi.up
      · rw [((hst op hop l.state _ e).2 (by simp [hn])).1] at hres
        cases hres
  | failed op e i p hent _ hres =>
    simp only [cls] at hres ⊢
    have key : op = .tick ∨ op = .setup ∨ (op = .untick ∨ op = .reset ∨ op = .shutdown) := by cases op <;> simp
    rcases key with rfl | rfl | hop
    · obtain ⟨t1, t2, t3, t4, t5, t6, t7⟩ := inv_tick hi e
      exact ⟨t1, by simp [BT.accepts], by simp [BT.accepts], t4, by simp⟩
    · obtain ⟨s1, s2, s3, s4⟩ := setup_spec hi.good (hi.down hent) e
      simp only [hook]
      refine ⟨by simpa [s1] using s2, by simp [BT.accepts], by simp [BT.accepts], ?_, by simp⟩
      intro hs
      rw [hs] at s3
      simp at s3
    · rcases hn : l.mem.st with _ | a
      · rw [(hst op hop l.state _ e).1 hn] at hres
        cases hres
      · rw [((hst op hop l.state _ e).2 (by simp [hn])).1] at hres
        cases hres
  | undelivered e s hent ha hres =>
    obtain ⟨t1, t2, t3, t4, t5, t6, t7⟩ := inv_tick hi e
    exact ⟨t1, by simp [BT.accepts], by simp [BT.accepts], t4, by simp⟩
  | done op e i p s hent _ _ ha hres =>
    simp only [cls] at hres ⊢
    have key : op = .tick ∨ op = .setup ∨ (op = .untick ∨ op = .reset ∨ op = .shutdown) := by cases op <;> simp
    rcases key with rfl | rfl | hop
    · obtain ⟨t1, t2, t3, t4, t5, t6, t7⟩ := inv_tick hi e
      simp only [hook, Class.flags] at hres ⊢
      have hacc : BT.accepts .tick l.state = true := hent
      refine ⟨t1, ?_, ?_, t4, fun hs => t5 (by rw [hres]; exact congrArg _ (congrArg _ hs))⟩
      · rw [timeout_other _ _ _ _ _ _ (.inl (by simp))]
        intro _
        obtain ⟨u1, u2⟩ := hi.up hacc
        exact ⟨t3 u1, by rw [t2]; exact u2⟩
      · intro hs
        cases s <;> simp [BT.accepts, BT.allowedAfter] at hs ha
    · obtain ⟨s1, s2, s3, s4⟩ := setup_spec hi.good (hi.down hent) e
      simp only [hook] at hres ⊢
      rw [hres] at s4
      obtain ⟨q1, q2, q3⟩ : s = .idle ∧ (doSetup e l.mem).mem.st = some .idle ∧ e.seconds = some (doSetup e l.mem).mem.timeout := by
        simpa using s4
      subst q1
      refine ⟨by simpa [s1] using s2, ?_, by simp [BT.accepts], by simp [q2], by simp⟩
      intro _
      exact ⟨by simp [q2], by simpa [timeout] using q3⟩
    · rcases hn : l.mem.st with _ | a
      · rw [(hst op hop l.state _ e).1 hn] at hres
        cases hres
      · obtain ⟨q1, q2, q3, q4, q5, q6, q7⟩ := (hst op hop l.state (Class.flags op l) e).2 (by simp [hn])
        rw [hres] at q1
        have hss : s = if op = .shutdown then .shutdown else .idle := by simpa using q1
        refine ⟨q7, ?_, ?_, by simp [q2], ?_⟩
        · rw [timeout_other _ _ _ _ _ _ (.inl (by rcases hop with rfl | rfl | rfl <;> simp))]
          intro hacc
          refine ⟨by simp [q2], ?_⟩
          rw [q3]
          refine (hi.up ?_).2
          rcases hop with rfl | rfl | rfl
          · exact hent
          · exact hent
          · simp [hss, BT.accepts] at hacc
        · exact fun _ => .inr q2
        · intro hs
          dsimp only at hs
          rw [hss] at hs
          split at hs <;> cases hs
  | odd op e i p s hent _ ha hres =>
    simp only [cls] at hres ⊢
    have key : op = .tick ∨ op = .setup ∨ (op = .untick ∨ op = .reset ∨ op = .shutdown) := by cases op <;> simp
    rcases key with rfl | rfl | hop
    · obtain ⟨t1, t2, t3, t4, t5, t6, t7⟩ := inv_tick hi e
      simp only [hook, Class.flags] at hres ⊢
      have hacc : BT.accepts .tick l.state = true := hent
      refine ⟨t1, ?_, ?_, t4, fun hs => t5 (by rw [hres]; exact congrArg _ (congrArg _ hs))⟩
      · rw [timeout_other _ _ _ _ _ _ (.inl (by simp))]
        intro _
        obtain ⟨u1, u2⟩ := hi.up hacc
        exact ⟨t3 u1, by rw [t2]; exact u2⟩
      · intro hs
        rcases t7 s hres with rfl | rfl | rfl | rfl
        · simp [BT.accepts] at hs
        · simp [BT.accepts] at hs
        · simp [BT.accepts] at hs
        · cases hl : l.state <;> simp [hl, BT.accepts] at hs hacc
    · obtain ⟨s1, s2, s3, s4⟩ := setup_spec hi.good (hi.down hent) e
      simp only [hook] at hres
      rw [hres] at s4
      obtain ⟨q1, -⟩ : s = .idle ∧ _ := by simpa using s4
      subst q1
      simp [BT.allowedAfter] at ha
    · rcases hn : l.mem.st with _ | a
      · rw [(hst op hop l.state _ e).1 hn] at hres
        cases hres
      · rw [((hst op hop l.state _ e).2 (by simp [hn])).1] at hres
        rcases hop with rfl | rfl | rfl <;> (cases hres; simp [BT.allowedAfter] at ha)

/-! ### C59 -/

theorem watched_accepted {tr : List Act} {n : Nat} (h : watched tr = some n) : ∃ b, Act.accepted n b ∈ tr := by
  induction tr with
  | nil => cases h
  | cons a tr ih =>
    cases a <;> simp only [watched] at h
    · obtain ⟨b, hb⟩ := ih h; exact ⟨b, by simp [hb]⟩
    · obtain ⟨b, hb⟩ := ih h; exact ⟨b, by simp [hb]⟩
    · cases h
    · rename_i k b; cases h; exact ⟨b, by simp⟩
    all_goals cases h

theorem honest_result {tr pre post : List Act} {n : Nat} {s : Status} {r : Nat} (h : Honest tr)
    (ht : tr = pre ++ .result n s r :: post) : watched post = some n ∧ Honest post := by
  induction pre generalizing tr with
  | nil => rw [ht] at h; exact h
  | cons a pre ih =>
    refine ih (tr := pre ++ .result n s r :: post) ?_ rfl
    rw [ht] at h
    cases a <;> simp only [List.cons_append, Honest] at h <;> first | exact h | exact h.2

/-- C59: results are used for the goal they belong to. Whenever the node puts a result to its
outputs, it is the result of the goal that was sent last, and the node has taken its handle. -/
theorem c59_latest {h : Hist} {l : Leaf Mem Unit} (hr : cls.Runs h l) (pre post : List Act) (n : Nat) (s : Status) (r : Nat)
    (ht : Class.trace h = pre ++ .result n s r :: post) : lastSent post = some n ∧ ∃ b, Act.accepted n b ∈ post := by
  obtain ⟨h1, h2⟩ := honest_result (inv hr).good.honest ht
  exact ⟨watched_last h2 h1, watched_accepted h1⟩

theorem step_tick {l : Leaf Mem Unit} {e : Env} {i p : Bool} {s : BTState}
    (h : (cls.step l (.call .tick e i p)).2.res = some (.ok s)) :
    BT.accepts .tick l.state = true ∧ (doTick l.state (l.upd ()) e l.mem).res = some (.ok s) ∧
      cls.step l (.call .tick e i p) =
        (⟨s, (doTick l.state (l.upd ()) e l.mem).mem, fun _ => false⟩, ⟨some (.ok s), (doTick l.state (l.upd ()) e l.mem).acts⟩) := by
  have hh := cls.happens l (.call .tick e i p)
  generalize hstep : cls.step l (.call .tick e i p) = out at hh h ⊢
  obtain ⟨l', o⟩ := out
  simp only at hh h
  cases hh with
  | refused => cases h
  | unset => cases h
  | raised => cases h
  | failed => cases h
  | undelivered => cases h
  | odd => cases h
  | done _ _ _ _ s' hent _ _ ha hres =>
    cases h
    exact ⟨hent, hres, rfl⟩

/-- C59 (partial: the status of the result is not looked at, see `c59_aborted`, nor whether the
server accepted the goal, see `c59_rejected`): a tick answers SUCCEEDED only if the goal that was
sent last has a result, and `set_result_outputs` says so; afterwards the node repeats this answer. -/
theorem c59_succeeded_partial {h : Hist} {l : Leaf Mem Unit} (hr : cls.Runs h l) (e : Env) (i p : Bool)
    (hs : (cls.step l (.call .tick e i p)).2.res = some (.ok .succeeded)) :
    (∃ n s r, lastSent (Class.trace h) = some n ∧ watched (Class.trace h) = some n ∧ e.res n = .done s r ∧
      e.outcome = some true ∧ Act.result n s r ∈ (cls.step l (.call .tick e i p)).2.acts) ∨
    (l.state = .succeeded ∧ (cls.step l (.call .tick e i p)).2.acts = [] ∧
      ∃ n s r, lastSent (Class.trace h) = some n ∧ Act.result n s r ∈ Class.trace h) := by
  have hi := inv hr
  obtain ⟨hacc, h1, h2⟩ := step_tick hs
  rw [h2]
  dsimp only
  rcases tick_spec hi.good l.state (l.upd ()) e with ⟨-, -, h3, h4⟩ | ⟨h3, -, -⟩
  · rw [h3] at h1 ⊢
    have hwt : watched ((if l.mem.client then [] else [.create]) ++ Class.trace h) = watched (Class.trace h) := by
      cases l.mem.client <;> simp [watched]
    obtain ⟨-, -, -, -, -, d6⟩ := dispatch_spec h4 l.state e
    obtain ⟨hf, ⟨n, st, r, q1, q2, q3, q4⟩ | ⟨q1, q2, q3⟩⟩ := d6 h1
    · left
      rw [hwt] at q1
      exact ⟨n, st, r, watched_last hi.good.honest q1, q1, q2, q3, by simp [q4]⟩
    · right
      obtain ⟨k0, k1⟩ := hi.succ q1
      refine ⟨q1, ?_, k1⟩
      rw [q3]
      simp [hi.good.client (by simp [k0]) (by simp [k0])]
  · exact absurd h1 (h3 _)

/-- A goal is sent, accepted, and has a result. -/
def sample (accepted : Bool) (status : Status) : List (Step Unit Env Empty) :=
  [.call .setup { seconds := some 5 } true true,
   .call .tick { goal := some 7, now := 1 } true true,
   .call .tick { now := 2 } true true,
   .call .tick { req := fun _ => .handle accepted, now := 3 } true true,
   .call .tick { now := 4 } true true,
   .call .tick { res := fun _ => .done status 42, now := 5 } true true,
   .call .tick { now := 6 } true true]

example : ((cls.run (sample true .succeeded)).1.map (·.2.res)).reverse =
    [some (.ok .idle), some (.ok .running), some (.ok .running), some (.ok .running), some (.ok .running),
     some (.ok .succeeded), some (.ok .succeeded)] := by decide

example : (Class.trace (cls.run (sample true .succeeded)).1).reverse =
    [.create, .send 0 7, .accepted 0 true, .result 0 .succeeded 42] := by decide

/-- C59 is violated: the node answers SUCCEEDED although the goal was aborted (or cancelled by
someone else). -/
theorem c59_aborted : ∃ h l, cls.Runs h l ∧ l.state = .succeeded ∧ Class.trace h =
    [.result 0 .aborted 42, .accepted 0 true, .send 0 7, .create] :=
  ⟨_, _, cls.runs_run (sample true .aborted), by decide, by decide⟩

/-- C59 is violated: the node answers SUCCEEDED although the server did not accept the goal. -/
theorem c59_rejected : ∃ h l, cls.Runs h l ∧ l.state = .succeeded ∧ Class.trace h =
    [.result 0 .unknown 42, .accepted 0 false, .send 0 7, .create] :=
  ⟨_, _, cls.runs_run (sample false .unknown), by decide, by decide⟩

/-! ### C58 -/

/-- C58 (partial: for goals the node has a handle of and whose result it waits for): the node
asks the server to cancel the goal when it is unticked, reset or shut down. -/
theorem c58_watched_partial {h : Hist} {l : Leaf Mem Unit} (hr : cls.Runs h l) (op : Op) (e : Env) (i p : Bool) (n : Nat)
    (hop : op = .untick ∨ op = .reset ∨ op = .shutdown) (hacc : BT.accepts op l.state = true)
    (hw : watched (Class.trace h) = some n) :
    (cls.step l (.call op e i p)).2.res = some (.ok (if op = .shutdown then .shutdown else .idle)) ∧
      Act.cancel n ∈ (cls.step l (.call op e i p)).2.acts := by
  have hi := inv hr
  have hst := hi.settled n hw
  have hne : l.state ≠ .shutdown := by
    intro hs
    have := hi.down (by simp [hs, BT.accepts])
    rw [hst] at this
    simp at this
  have key := (stop_spec hi.good hi.settled op hop l.state (Class.flags op l) e).2 (by simp [hst])
  obtain ⟨q1, q2, q3, q4, q5, q6, q7⟩ := key
  have q5 := q5 n hw
  rcases hop with rfl | rfl | rfl
  · simp only [Class.step, Class.untick, if_pos hacc, Class.close]
    simp only [Class.flags] at q1 q5
    rw [show cls.hook = hook from rfl, q1]
    exact ⟨rfl, q5⟩
  · simp only [Class.step, Class.reset, if_pos hacc, Class.close]
    simp only [Class.flags] at q1 q5
    rw [show cls.hook = hook from rfl, q1]
    exact ⟨rfl, q5⟩
  · simp only [Class.step, Class.shutdown, if_neg hne, Class.close]
    simp only [Class.flags] at q1 q5
    rw [show cls.hook = hook from rfl, q1]
    exact ⟨rfl, q5⟩

/-- Steps during which no goal gets lost: the node is not stopped, and gets no new inputs, while
it waits for the answer to a goal it sent; and it is not stopped between the tick that finds that
a goal takes too long and the next one. -/
def Calm (tr : List Act) (l : Leaf Mem Unit) : Step Unit Env Empty → Prop
  | .call .untick _ _ _ | .call .reset _ _ _ | .call .shutdown _ _ _ => unanswered tr = false ∧ timedOut tr = false
  | .call .tick _ _ _ => l.upd () = true → unanswered tr = false
  | _ => True

/-- Executions that consist of such steps. -/
inductive CalmRuns : Hist → Leaf Mem Unit → Prop
  | new : CalmRuns [] cls.new
  | step {h l} (s : Step Unit Env Empty) (hc : Calm (Class.trace h) l s) :
    CalmRuns h l → CalmRuns ((s, (cls.step l s).2) :: h) (cls.step l s).1

theorem CalmRuns.runs {h : Hist} {l : Leaf Mem Unit} (hr : CalmRuns h l) : cls.Runs h l := by
  induction hr with
  | new => exact .new
  | step s _ _ ih => exact .step s ih

/-- Every goal is closed or taken care of. -/
def Live (tr : List Act) (m : Mem) : Prop :=
  ∀ n g, Act.send n g ∈ tr → Closed tr n ∨ (m.st = some .waitAccept ∧ m.request = some n) ∨
    ((m.st = some .waitAction ∨ m.st = some .requestCancel) ∧ m.handle = some n)

theorem Closed.mono {tr x : List Act} {n : Nat} (h : Closed tr n) : Closed (x ++ tr) n := by
  rcases h with h | ⟨s, r, h⟩ | h | h
  · exact .inl (by simp [h])
  · exact .inr (.inl ⟨s, r, by simp [h]⟩)
  · exact .inr (.inr (.inl (by simp [h])))
  · exact .inr (.inr (.inr (by simp [h])))

theorem live_quiet {tr x : List Act} {m m' : Mem} (h : Live tr m) (hx : ∀ a ∈ x, ∀ n g, a ≠ .send n g)
    (h1 : m.st = some .waitAccept → (∃ n, m.request = some n ∧ (Closed x n ∨ (m'.st = some .waitAccept ∧ m'.request = some n) ∨
      ((m'.st = some .waitAction ∨ m'.st = some .requestCancel) ∧ m'.handle = some n))))
    (h2 : m.st = some .waitAction ∨ m.st = some .requestCancel → ∀ n, m.handle = some n → Closed x n ∨
      ((m'.st = some .waitAction ∨ m'.st = some .requestCancel) ∧ m'.handle = some n)) : Live (x ++ tr) m' := by
  intro n g hn
  have hn : Act.send n g ∈ tr := by
    rcases List.mem_append.1 hn with hn | hn
    · exact absurd rfl (hx _ hn n g)
    · exact hn
  have happ : Closed x n → Closed (x ++ tr) n := by
    intro hc
    rcases hc with h | ⟨s, r, h⟩ | h | h
    · exact .inl (by simp [h])
    · exact .inr (.inl ⟨s, r, by simp [h]⟩)
    · exact .inr (.inr (.inl (by simp [h])))
    · exact .inr (.inr (.inr (by simp [h])))
  rcases h n g hn with hc | ⟨hs, hq⟩ | ⟨hs, hh⟩
  · exact .inl hc.mono
  · obtain ⟨k, hk, hrest⟩ := h1 hs
    rw [hq] at hk
    cases hk
    rcases hrest with hc | hrest
    · exact .inl (happ hc)
    · exact .inr hrest
  · rcases h2 hs n hh with hc | hrest
    · exact .inl (happ hc)
    · exact .inr (.inr hrest)

theorem live_dispatch {tr : List Act} {m : Mem} (hg : Good tr m) (h : Live tr m) (state : BTState) (e : Env) :
    Live ((dispatch state e m).acts.reverse ++ tr) (dispatch state e m).mem := by
  unfold dispatch
  split
  · exact h
  · rename_i hs
    unfold sendGoal
    split
    · split
      · rename_i g hin
        intro n k hn
        rcases List.mem_append.1 hn with hn | hn
        · have hn : n = m.next ∧ k = g := by simpa using hn
          exact .inr (.inl ⟨rfl, by simp [hn.1]⟩)
        · rcases h n k hn with hc | ⟨hs', -⟩ | ⟨hs', -⟩
          · exact .inl hc.mono
          · rw [hs] at hs'; cases hs'
          · rw [hs] at hs'; rcases hs' with hs' | hs' <;> cases hs'
      · exact h
    · exact h
  · rename_i hs
    obtain ⟨n, hr, hl, hh⟩ := hg.accept hs
    unfold waitAccept
    simp only [hr]
    split
    · exact live_quiet h (by simp) (fun _ => ⟨n, hr, .inr (.inr ⟨.inl rfl, rfl⟩)⟩) (by simp [hs])
    · exact live_quiet h (by simp) (fun _ => ⟨n, hr, .inl (.inl (by simp))⟩) (by simp [hs])
    · exact live_quiet h (by simp) (fun _ => ⟨n, hr, .inl (.inl (by simp))⟩) (by simp [hs])
    · exact h
  · rename_i hs
    obtain ⟨n, hr, hl, hw⟩ := hg.action hs
    have hx : ∀ k, m.handle = some k → k = n := fun k hk => by rw [hr] at hk; exact (Option.some.inj hk).symm
    unfold waitAction
    simp only [hr, hl]
    split
    · exact live_quiet h (by simp) (by simp [hs]) fun _ k hk => .inl (by rw [hx k hk]; exact .inr (.inr (.inl (by simp))))
    · exact live_quiet h (by simp) (by simp [hs]) fun _ k hk => .inl (by rw [hx k hk]; exact .inr (.inl ⟨_, _, by simp; exact ⟨rfl, rfl⟩⟩))
    · exact live_quiet h (by simp) (by simp [hs]) fun _ k hk => .inl (by rw [hx k hk]; exact .inr (.inr (.inl (by simp))))
    · split
      · exact live_quiet h (by simp) (by simp [hs]) fun _ k hk => .inr ⟨.inr rfl, by rw [hx k hk]⟩
      · exact h
  · rename_i hs
    unfold requestCancel
    split
    · exact h
    · rename_i n hh
      exact live_quiet h (by simp) (by simp [hs]) fun _ k hk => .inl (by
        rw [hh] at hk; cases hk; exact .inr (.inr (.inr (by simp))))
  · rename_i hs
    unfold waitCancel
    split
    · exact live_quiet h (by simp) (by simp [hs]) (by simp [hs])
    · dsimp only
      split
      · split
        · exact h
        · exact live_quiet h (by simp) (by simp [hs]) (by simp [hs])
        · exact live_quiet h (by simp) (by simp [hs]) (by simp [hs])
      · exact live_quiet h (by simp) (by simp [hs]) (by simp [hs])
      · exact h
  · rename_i hs
    unfold finished
    split
    · exact h
    · exact h
    · exact live_quiet h (by intro a ha; split at ha <;> simp_all) (by simp [hs]) (by simp [hs])

theorem live_tick {h : Hist} {l : Leaf Mem Unit} (hi : Inv h l) (hl : Live (Class.trace h) l.mem) (e : Env)
    (hc : l.upd () = true → unanswered (Class.trace h) = false) :
    Live ((doTick l.state (l.upd ()) e l.mem).acts.reverse ++ Class.trace h) (doTick l.state (l.upd ()) e l.mem).mem := by
  rcases tick_spec hi.good l.state (l.upd ()) e with ⟨-, -, h3, h4⟩ | ⟨-, h2, ⟨i, h3, -⟩, -⟩
  · rw [h3]
    have hacts : ∀ x : List Act, (((if l.mem.client then [] else [Act.create]) ++ x).reverse ++ Class.trace h) =
        x.reverse ++ ((if l.mem.client then [] else [.create]) ++ Class.trace h) := by
      intro x
      cases l.mem.client <;> simp
    rw [hacts]
    refine live_dispatch h4 ?_ l.state e
    have hnw : l.upd () = true → l.mem.st ≠ some .waitAccept := by
      intro hb hs
      have := hi.good.waiting hs
      rw [hc hb] at this
      cases this
    refine live_quiet hl (by intro a ha; split at ha <;> simp_all) ?_ ?_
    · intro hs
      obtain ⟨n, hr, -, -⟩ := hi.good.accept hs
      refine ⟨n, hr, .inr (.inl ⟨?_, hr⟩)⟩
      cases hb : l.upd () with
      | true => exact absurd hs (hnw hb)
      | false => simp [prepared, hs]
    · intro hs n hn
      refine .inr ⟨?_, hn⟩
      cases hb : l.upd () with
      | true => right; rcases hs with hs | hs <;> simp [prepared, hs]
      | false => simpa [prepared] using hs
  · rw [h2, h3]
    exact hl

theorem live {h : Hist} {l : Leaf Mem Unit} (hr : CalmRuns h l) : Live (Class.trace h) l.mem := by
  induction hr with
  | new => intro n g hn; cases hn
  | @step h l s hc hr ih =>
    have hi := inv hr.runs
    have hh := cls.happens l s
    generalize (cls.step l s).1 = l' at hh ⊢
    generalize (cls.step l s).2 = o at hh ⊢
    have hook_live : ∀ op e i p, Calm (Class.trace h) l (.call op e i p) → Class.entered op l.state = true →
        Live ((hook op l.state (Class.flags op l) e l.mem).acts.reverse ++ Class.trace h)
          (hook op l.state (Class.flags op l) e l.mem).mem := by
      intro op e i p hc hent
      have key : op = .tick ∨ op = .setup ∨ (op = .untick ∨ op = .reset ∨ op = .shutdown) := by cases op <;> simp
      rcases key with rfl | rfl | hop
      · exact live_tick hi ih e hc
      · obtain ⟨s1, s2, s3, s4⟩ := setup_spec hi.good (hi.down hent) e
        simp only [hook, s1]
        have hd := hi.down hent
        exact live_quiet ih (by simp) (by rcases hd with hd | hd <;> simp [hd]) (by rcases hd with hd | hd <;> simp [hd])
      · have hcalm : unanswered (Class.trace h) = false ∧ timedOut (Class.trace h) = false := by
          rcases hop with rfl | rfl | rfl <;> exact hc
        have hst := stop_spec hi.good hi.settled op hop l.state (Class.flags op l) e
        rcases hn : l.mem.st with _ | a
        · rw [hst.1 hn]
          exact ih
        · obtain ⟨q1, q2, q3, q4, q5, q6, q7⟩ := hst.2 (by simp [hn])
          refine live_quiet ih ?_ ?_ ?_
          · intro a ha n g
            rcases q6 a (by simpa using ha) with rfl | ⟨k, -, rfl⟩ <;> simp
          · intro hs
            have := hi.good.waiting hs
            rw [hcalm.1] at this
            cases this
          · intro hs n hh
            left
            rcases hs with hs | hs
            · obtain ⟨k, r1, r2, r3⟩ := hi.good.action hs
              rw [r1] at hh
              cases hh
              exact .inr (.inr (.inr (by simpa using q5 _ r3)))
            · rcases hi.over hs with h3 | h3
              · rw [hcalm.2] at h3; cases h3
              · rw [h3] at hh; cases hh
    cases hh with
    | write => exact ih
    | event v => exact v.elim
    | refused => exact ih
    | again => exact ih
    | unset => exact ih
    | raised op e i p hent => exact hook_live op e i p hc hent
    | failed op e i p hent => exact hook_live op e i p hc hent
    | done op e i p s hent => exact hook_live op e i p hc hent
    | undelivered e s hent => exact hook_live .tick e true false hc hent
    | odd op e i p s hent => exact hook_live op e i p hc hent

/-- C58 (partial: in calm executions): after untick, reset or shutdown, every goal the node has
ever sent was refused, is over, or was cancelled by the node. -/
theorem c58_stopped_partial {h : Hist} {l : Leaf Mem Unit} (hr : CalmRuns h l) (op : Op) (e : Env) (i p : Bool) (s : BTState)
    (hop : op = .untick ∨ op = .reset ∨ op = .shutdown) (hc : Calm (Class.trace h) l (.call op e i p))
    (hs : (cls.step l (.call op e i p)).2.res = some (.ok s)) (n g : Nat)
    (hn : Act.send n g ∈ Class.trace ((.call op e i p, (cls.step l (.call op e i p)).2) :: h)) :
    Closed (Class.trace ((.call op e i p, (cls.step l (.call op e i p)).2) :: h)) n := by
  have hr' := CalmRuns.step _ hc hr
  have hst : (cls.step l (.call op e i p)).1.mem.st = none ∨ (cls.step l (.call op e i p)).1.mem.st = some .idle := by
    have hi := inv hr.runs
    have hh := cls.happens l (.call op e i p)
    generalize (cls.step l (.call op e i p)).1 = l' at hh ⊢
    generalize (cls.step l (.call op e i p)).2 = o at hh hs
    cases hh with
    | refused => cases hs
    | unset => cases hs
    | raised => cases hs
    | failed => cases hs
    | undelivered => cases hs
    | odd => cases hs
    | again _ _ _ hsd => exact hi.down (by simp [hsd, BT.accepts])
    | done op e i p s hent _ _ ha hres =>
      have hst := stop_spec hi.good hi.settled op hop l.state (Class.flags op l) e
      rcases hn : l.mem.st with _ | a
      · simp only [cls] at hres
        rw [hst.1 hn] at hres
        cases hres
      · exact .inr (hst.2 (by simp [hn])).2.1
  rcases live hr' n g hn with hc | ⟨h1, -⟩ | ⟨h1, -⟩
  · exact hc
  · rw [h1] at hst; simp at hst
  · rcases h1 with h1 | h1 <;> (rw [h1] at hst; simp at hst)

instance (tr : List Act) (l : Leaf Mem Unit) (s : Step Unit Env Empty) : Decidable (Calm tr l s) := by
  unfold Calm
  split <;> infer_instance

/-- The node is unticked while the goal runs. -/
def stopped : List (Step Unit Env Empty) :=
  [.call .setup {} true true,
   .call .tick { goal := some 7 } true true,
   .call .tick { req := fun _ => .handle true } true true,
   .call .untick {} true true]

example : watched (Class.trace (cls.run (stopped.take 3)).1) = some 0 := by decide

example : CalmRuns (cls.run stopped).1 (cls.run stopped).2 :=
  .step _ (by decide) (.step _ (by decide) (.step _ (by decide) (.step _ (by decide) .new)))

example : (cls.run stopped).1.map (·.2.acts) = [[.cancel 0], [.accepted 0 true], [.create, .send 0 7], []] := by decide

/-- C58 is violated: a node that is unticked before the server has answered never cancels the
goal, even if the server accepts it and runs it. -/
theorem c58_unanswered : ∃ h l, cls.Runs h l ∧ l.state = .idle ∧ l.mem.handle = none ∧ Class.trace h = [.send 0 7, .create] :=
  ⟨_, _, cls.runs_run [.call .setup {} true true, .call .tick { goal := some 7 } true true, .call .untick {} true true],
    by decide, by decide, by decide⟩

/-- C58 is violated: a node that is unticked after the tick that finds that the goal takes too
long does not cancel the goal. -/
theorem c58_timed_out : ∃ h l, cls.Runs h l ∧ l.state = .idle ∧ l.mem.handle = none ∧
    Class.trace h = [.forget 0, .accepted 0 true, .send 0 7, .create] :=
  ⟨_, _, cls.runs_run [.call .setup { seconds := some 5 } true true, .call .tick { goal := some 7 } true true,
    .call .tick { req := fun _ => .handle true } true true, .call .tick { now := 6 } true true, .call .untick {} true true],
    by decide, by decide, by decide⟩

/-- C58 is violated: new inputs before the server has answered break the node; the goal is not
cancelled, not even by shutdown. -/
theorem c58_new_inputs : ∃ h l, cls.Runs h l ∧ (h.map (·.2.res)).take 2 = [some (.ok .shutdown), some .err] ∧
    Class.trace h = [.destroy, .send 0 7, .create] :=
  ⟨_, _, cls.runs_run [.call .setup {} true true, .call .tick { goal := some 7 } true true, .write () true,
    .call .tick { goal := some 8, req := fun _ => .handle true } true true, .call .shutdown {} true true],
    by decide, by decide⟩

/-! ### C71 -/

/-- What the outside must provide for a goal to be sent. -/
def Sendable (e : Env) (g : Nat) : Prop :=
  e.flagsOk = true ∧ e.goal = some g ∧ e.nameOk = true ∧ e.createRaises = false

/-- C71 (partial: not after untick, see `c71_untick`): the first tick after setup or reset sends
the goal given by the inputs. -/
theorem c71_sent_partial {h : Hist} {l : Leaf Mem Unit} (hr : cls.Runs h l) (op : Op) (e e' : Env) (i p : Bool) (g : Nat)
    (hop : op = .setup ∨ op = .reset) (hs : (cls.step l (.call op e i p)).2.res = some (.ok .idle)) (he : Sendable e' g) :
    (cls.step (cls.step l (.call op e i p)).1 (.call .tick e' true true)).2.res = some (.ok .running) ∧
    ∃ n, Act.send n g ∈ (cls.step (cls.step l (.call op e i p)).1 (.call .tick e' true true)).2.acts := by
  obtain ⟨e1, e2, e3, e4⟩ := he
  have hi := inv hr
  have hl : (cls.step l (.call op e i p)).1.state = .idle ∧ (cls.step l (.call op e i p)).1.mem.st = some .idle ∧
      (cls.step l (.call op e i p)).1.upd () = true := by
    have hh := cls.happens l (.call op e i p)
    generalize (cls.step l (.call op e i p)).1 = l' at hh ⊢
    generalize (cls.step l (.call op e i p)).2 = o at hh hs
    cases hh with
    | refused => cases hs
    | unset => cases hs
    | raised => cases hs
    | failed => cases hs
    | undelivered => cases hs
    | odd => cases hs
    | again _ _ _ hsd => rcases hop with h | h <;> cases h
    | done op e i p s hent _ _ ha hres =>
      cases hs
      rcases hop with rfl | rfl
      · refine ⟨rfl, ?_, rfl⟩
        obtain ⟨-, -, -, s4⟩ := setup_spec hi.good (hi.down hent) e
        simp only [cls, hook] at hres ⊢
        rcases s4 with s4 | s4
        · rw [hres] at s4; cases s4
        · exact s4.2.1
      · refine ⟨rfl, ?_, rfl⟩
        have hst := stop_spec hi.good hi.settled .reset (by simp) l.state (Class.flags .reset l) e
        exact (hst.2 (hi.up hent).1).2.1
  generalize (cls.step l (.call op e i p)).1 = l' at hl ⊢
  obtain ⟨h1, h2, h3⟩ := hl
  obtain ⟨state, ⟨st, req, hdl, rf, cf, input, start, timeout, client, next⟩, upd⟩ := l'
  simp only at h1 h2 h3
  subst h1 h2
  cases client <;>
    simp [Class.step, Class.tick, BT.accepts, BT.allowedAfter, cls, hook, doTick, refresh, connect, dispatch, sendGoal,
      HookOut.andThen, e1, e2, e3, e4, h3]

theorem dispatch_send (state : BTState) (e : Env) (m : Mem) (n g : Nat) (h : Act.send n g ∈ (dispatch state e m).acts) :
    (dispatch state e m).res = some (.ok .running) := by
  revert h
  unfold dispatch
  split
  · simp
  · unfold sendGoal
    split
    · split <;> simp
    · simp
  · unfold waitAccept
    split
    · simp
    · split <;> simp
  · unfold waitAction
    split
    · dsimp only
      split
      · simp
      · simp
      · simp
      · split <;> simp
    · simp
  · unfold requestCancel
    split <;> simp
  · unfold waitCancel
    split
    · simp
    · dsimp only
      split
      · split <;> simp
      · simp
      · simp
  · unfold finished
    split
    · simp
    · simp
    · split <;> simp

/-- C71: the tick that sends a goal answers RUNNING, however fast the server is. -/
theorem c71_running {h : Hist} {l : Leaf Mem Unit} (hr : cls.Runs h l) (e : Env) (n g : Nat)
    (hs : Act.send n g ∈ (cls.step l (.call .tick e true true)).2.acts) :
    (cls.step l (.call .tick e true true)).2.res = some (.ok .running) := by
  have hrun : Act.send n g ∈ (doTick l.state (l.upd ()) e l.mem).acts →
      (doTick l.state (l.upd ()) e l.mem).res = some (.ok .running) := by
    intro ha
    rcases tick_spec (inv hr).good l.state (l.upd ()) e with ⟨-, -, h3, -⟩ | ⟨-, h2, -, -⟩
    · rw [h3] at ha ⊢
      rcases List.mem_append.1 ha with ha | ha
      · split at ha <;> simp at ha
      · exact dispatch_send _ _ _ n g ha
    · rw [h2] at ha; cases ha
  have hh := cls.happens l (.call .tick e true true)
  generalize (cls.step l (.call .tick e true true)).1 = l' at hh
  generalize (cls.step l (.call .tick e true true)).2 = o at hh hs ⊢
  cases hh with
  | refused => cases hs
  | raised _ _ _ _ _ _ hres => have := hrun hs; simp only [cls, hook, Class.flags] at hres; rw [hres] at this; cases this
  | failed _ _ _ _ _ _ hres => have := hrun hs; simp only [cls, hook, Class.flags] at hres; rw [hres] at this; cases this
  | odd _ _ _ _ s _ _ ha hres =>
    have := hrun hs; simp only [cls, hook, Class.flags] at hres; rw [hres] at this; cases this; simp [BT.allowedAfter] at ha
  | done _ _ _ _ s _ _ _ ha hres =>
    have := hrun hs; simp only [cls, hook, Class.flags] at hres; rw [hres] at this; exact this

example : Act.send 0 7 ∈ (cls.step (cls.run (stopped.take 1)).2 (.call .tick { goal := some 7 } true true)).2.acts := by decide

example : Sendable { goal := some 7 } 7 := ⟨rfl, rfl, rfl, rfl⟩

/-- C71 is violated: the documentation of the action nodes says that the goal is sent again at the
next tick after an untick. The node raises `TypeError` instead, as it has forgotten the goal: every
tick raises until the inputs change or the node is reset. -/
theorem c71_untick : ∃ h l, cls.Runs h l ∧ (h.map (·.2.res)).take 1 = [some (.ok .idle)] ∧
    ∀ e : Env, e.flagsOk = true → cls.step l (.call .tick e true true) = (l, ⟨none, []⟩) := by
  refine ⟨_, _, cls.runs_run stopped, by decide, fun e he => ?_⟩
  have hl : (cls.run stopped).2 =
      ⟨.idle, { st := some .idle, input := some none, timeout := 30, client := true, next := 1 }, fun _ => false⟩ := rfl
  rw [hl]
  simp [Class.step, Class.tick, BT.accepts, cls, hook, doTick, refresh, connect, dispatch, sendGoal, HookOut.andThen, he]

/-! ### C72 -/

/-- The effect is that the node takes the handle of a goal. -/
def takes : Act → Bool
  | .accepted _ _ => true
  | _ => false

/-- The time at which the node took the handle of a goal last. -/
def acceptedAt : Hist → Option Int
  | [] => none
  | (.call .tick e _ _, o) :: h => if o.acts.any takes then some e.now else acceptedAt h
  | _ :: h => acceptedAt h

theorem acceptedAt_other (h : Hist) (s : Step Unit Env Empty) (o : Seen Act) (ho : o.acts.any takes = false) :
    acceptedAt ((s, o) :: h) = acceptedAt h := by
  rcases s with ⟨op, e, i, p⟩ | _ | _
  · cases op <;> simp [acceptedAt, ho]
  · rfl
  · rfl

theorem dispatch_start {tr : List Act} {m : Mem} (h : Good tr m) (state : BTState) (e : Env)
    (hs : (dispatch state e m).mem.st = some .waitAction) :
    (m.st = some .waitAction ∧ (dispatch state e m).mem.start = m.start ∧ (dispatch state e m).acts.any takes = false) ∨
    ((dispatch state e m).mem.start = e.now ∧ (dispatch state e m).acts.any takes = true) := by
  unfold dispatch at hs ⊢
  split at hs
  · simp_all
  · unfold sendGoal at hs
    split at hs
    · split at hs <;> simp_all
    · simp_all
  · rename_i hst
    obtain ⟨n, hr, hl, hh⟩ := h.accept hst
    simp only [waitAccept, hr] at hs ⊢
    split at hs
    · rename_i b hb
      right
      simp [takes]
    · simp at hs
    · simp at hs
    · simp [hst] at hs
  · rename_i hst
    obtain ⟨n, hr, hl, hw⟩ := h.action hst
    simp only [waitAction, hr, hl] at hs ⊢
    split at hs
    · simp at hs
    · simp at hs
    · simp at hs
    · rename_i hp
      split at hs
      · simp at hs
      · rename_i hlt
        left
        simp [hlt, hst]
  · rename_i hst
    unfold requestCancel at hs
    split at hs <;> simp_all
  · rename_i hst
    unfold waitCancel at hs
    split at hs
    · simp at hs
    · dsimp only at hs
      split at hs
      · split at hs <;> simp_all
      · simp at hs
      · simp_all
  · rename_i hst
    unfold finished at hs
    split at hs <;> simp_all

theorem start_tick {h : Hist} {l : Leaf Mem Unit} (hi : Inv h l) (e : Env)
    (ih : l.mem.st = some .waitAction → acceptedAt h = some l.mem.start) (i p : Bool) (r : Option Res)
    (hs : (doTick l.state (l.upd ()) e l.mem).mem.st = some .waitAction) :
    acceptedAt ((.call .tick e i p, ⟨r, (doTick l.state (l.upd ()) e l.mem).acts⟩) :: h) =
      some (doTick l.state (l.upd ()) e l.mem).mem.start := by
  rcases tick_spec hi.good l.state (l.upd ()) e with ⟨-, -, h3, h4⟩ | ⟨-, h2, ⟨k, h3, -⟩, -⟩
  · rw [h3] at hs ⊢
    have hany : ∀ x : List Act, ((if l.mem.client then [] else [Act.create]) ++ x).any takes = x.any takes := by
      intro x
      cases l.mem.client <;> simp [takes]
    rcases dispatch_start h4 l.state e hs with ⟨d1, d2, d3⟩ | ⟨d1, d2⟩
    · have hst : l.mem.st = some .waitAction := by
        simp only [prepared] at d1
        split at d1
        · cases d1
        · exact d1
      rw [acceptedAt_other _ _ _ (by simpa only [hany] using d3), ih hst]
      exact congrArg some d2.symm
    · simp only [acceptedAt, hany, d2, if_true]
      exact congrArg some d1.symm
  · rw [h3] at hs
    rw [acceptedAt_other _ _ _ (by simp [h2]), h3]
    exact ih hs

theorem started {h : Hist} {l : Leaf Mem Unit} (hr : cls.Runs h l) :
    l.mem.st = some .waitAction → acceptedAt h = some l.mem.start := by
  refine Class.Runs.invariant (fun h l => l.mem.st = some .waitAction → acceptedAt h = some l.mem.start)
    (by simp [Class.new, cls]) ?_ hr
  intro h l s l' o hr ih hh
  have hi := inv hr
  have other : ∀ op, op ≠ .tick → Class.entered op l.state = true → ∀ e i p r,
      (hook op l.state (Class.flags op l) e l.mem).mem.st = some .waitAction →
      acceptedAt ((.call op e i p, ⟨r, (hook op l.state (Class.flags op l) e l.mem).acts⟩) :: h) =
        some (hook op l.state (Class.flags op l) e l.mem).mem.start := by
    intro op hne hent e i p r hs
    exfalso
    have key : op = .setup ∨ (op = .untick ∨ op = .reset ∨ op = .shutdown) := by cases op <;> simp_all
    rcases key with rfl | hop
    · obtain ⟨-, -, s3, -⟩ := setup_spec hi.good (hi.down hent) e
      simp only [hook] at hs
      rw [hs] at s3
      simp at s3
    · have hst := stop_spec hi.good hi.settled op hop l.state (Class.flags op l) e
      rcases hn : l.mem.st with _ | a
      · rw [hst.1 hn] at hs
        rw [hn] at hs
        cases hs
      · rw [(hst.2 (by simp [hn])).2.1] at hs
        cases hs
  cases hh with
  | write => intro hs; rw [acceptedAt_other _ _ _ rfl]; exact ih hs
  | event v => exact v.elim
  | refused => intro hs; rw [acceptedAt_other _ _ _ rfl]; exact ih hs
  | again => intro hs; rw [acceptedAt_other _ _ _ rfl]; exact ih hs
  | unset => intro hs; rw [acceptedAt_other _ _ _ rfl]; exact ih hs
  | raised op e i p hent =>
    intro hs
    by_cases ht : op = .tick
    · subst ht; exact start_tick hi e ih i p _ hs
    · exact other op ht hent e i p _ hs
  | failed op e i p hent =>
    intro hs
    by_cases ht : op = .tick
    · subst ht; exact start_tick hi e ih i p _ hs
    · exact other op ht hent e i p _ hs
  | done op e i p s hent =>
    intro hs
    by_cases ht : op = .tick
    · subst ht; exact start_tick hi e ih i p _ hs
    · exact other op ht hent e i p _ hs
  | undelivered e s hent => exact start_tick hi e ih true false _
  | odd op e i p s hent =>
    intro hs
    by_cases ht : op = .tick
    · subst ht; exact start_tick hi e ih i p _ hs
    · exact other op ht hent e i p _ hs

theorem sent_tick {tr : List Act} {m : Mem} (hg : Good tr m) (state : BTState) (b : Bool) (e : Env)
    (ih : m.st = some .waitAccept ∨ m.st = some .waitAction → m.input = some none)
    (hs : (doTick state b e m).mem.st = some .waitAccept ∨ (doTick state b e m).mem.st = some .waitAction) :
    (doTick state b e m).mem.input = some none := by
  rcases tick_spec hg state b e with ⟨-, -, h3, h4⟩ | ⟨-, h2, ⟨k, h3, hk⟩, -⟩
  · rw [h3] at hs ⊢
    have hp : (prepared b e m).st = some .waitAccept ∨ (prepared b e m).st = some .waitAction →
        (prepared b e m).input = some none := by
      intro hx
      cases b with
      | false => simp only [prepared] at hx ⊢; simpa using ih (by simpa using hx)
      | true =>
        exfalso
        rcases hst : m.st with _ | ⟨_ | _ | _ | _ | _ | _⟩ <;> simp [prepared, hst] at hx
    generalize prepared b e m = m' at hs h4 hp ⊢
    dsimp only at hs ⊢
    revert hs
    unfold dispatch
    split
    · simp_all
    · unfold sendGoal
      split
      · split <;> simp_all
      · simp_all
    · rename_i hst
      have hin := hp (.inl hst)
      unfold waitAccept
      split
      · simp_all
      · split <;> simp_all
    · rename_i hst
      have hin := hp (.inr hst)
      obtain ⟨n, hr, hl, hw⟩ := h4.action hst
      simp only [waitAction, hr, hl]
      split
      · simp
      · simp
      · simp
      · split <;> simp_all
    · unfold requestCancel
      split <;> simp_all
    · unfold waitCancel
      split
      · simp
      · dsimp only
        split
        · split <;> simp_all
        · simp
        · simp_all
    · unfold finished
      split <;> simp_all
  · rw [h3] at hs ⊢
    dsimp only at hs ⊢
    rcases hk with hk | hk | hk
    · rw [hk]; exact ih hs
    · rw [hk] at hs; simp at hs
    · rw [hk] at hs; simp at hs

theorem sent {h : Hist} {l : Leaf Mem Unit} (hr : cls.Runs h l) :
    l.mem.st = some .waitAccept ∨ l.mem.st = some .waitAction → l.mem.input = some none := by
  refine Class.Runs.invariant (fun _ l => l.mem.st = some .waitAccept ∨ l.mem.st = some .waitAction → l.mem.input = some none)
    (by simp [Class.new, cls]) ?_ hr
  intro h l s l' o hr ih hh
  have hi := inv hr
  have hook_sent : ∀ op e, Class.entered op l.state = true →
      (hook op l.state (Class.flags op l) e l.mem).mem.st = some .waitAccept ∨
        (hook op l.state (Class.flags op l) e l.mem).mem.st = some .waitAction →
      (hook op l.state (Class.flags op l) e l.mem).mem.input = some none := by
    intro op e hent
    have key : op = .tick ∨ op = .setup ∨ (op = .untick ∨ op = .reset ∨ op = .shutdown) := by cases op <;> simp
    rcases key with rfl | rfl | hop
    · exact sent_tick hi.good l.state _ e ih
    · intro hs
      obtain ⟨-, -, s3, -⟩ := setup_spec hi.good (hi.down hent) e
      simp only [hook] at hs
      rcases s3 with s3 | s3 <;> (rw [s3] at hs; simp at hs)
    · have hst := stop_spec hi.good hi.settled op hop l.state (Class.flags op l) e
      rcases hn : l.mem.st with _ | a
      · rw [hst.1 hn]
        exact ih
      · rw [(hst.2 (by simp [hn])).2.1]
        simp
  cases hh with
  | write => exact ih
  | event v => exact v.elim
  | refused => exact ih
  | again => exact ih
  | unset => exact ih
  | raised op e i p hent => exact hook_sent op e hent
  | failed op e i p hent => exact hook_sent op e hent
  | done op e i p s hent => exact hook_sent op e hent
  | undelivered e s hent => exact hook_sent .tick e hent
  | odd op e i p s hent => exact hook_sent op e hent

/-- A tick with unchanged inputs whose flags can be read. -/
theorem tick_unchanged {l : Leaf Mem Unit} (hc : l.mem.client = true) (hacc : BT.accepts .tick l.state = true)
    (hu : l.upd () = false) (e : Env) (he : e.flagsOk = true) {s : BTState} (ha : BT.allowedAfter .tick s = true)
    (hd : (dispatch l.state e l.mem).res = some (.ok s)) :
    cls.step l (.call .tick e true true) =
      (⟨s, (dispatch l.state e l.mem).mem, fun _ => false⟩, ⟨some (.ok s), (dispatch l.state e l.mem).acts⟩) := by
  simp [Class.step, Class.tick, hacc, cls, hook, doTick, refresh, connect, HookOut.andThen, hu, hc, he, hd, ha]

/-- C72: while the result is missing and the time is not over, the node answers RUNNING and lets
the goal run. -/
theorem c72_waits {h : Hist} {l : Leaf Mem Unit} (hr : cls.Runs h l) (n : Nat) (t d : Int) (e : Env)
    (hw : watched (Class.trace h) = some n) (ht : acceptedAt h = some t) (hd : timeout h = some d)
    (hacc : BT.accepts .tick l.state = true) (hu : l.upd () = false) (he : e.flagsOk = true)
    (hp : e.res n = .pending) (hlt : e.now - t ≤ d) :
    (cls.step l (.call .tick e true true)).2 = ⟨some (.ok .running), []⟩ := by
  have hi := inv hr
  have hst := hi.settled n hw
  obtain ⟨k, k1, k2, k3⟩ := hi.good.action hst
  rw [hw] at k3
  cases k3
  have hs := started hr hst
  rw [ht] at hs
  have hto := (hi.up hacc).2
  rw [hd] at hto
  cases hs
  cases hto
  have hdis : dispatch l.state e l.mem = ⟨l.mem, some (.ok .running), []⟩ := by
    simp only [dispatch, hst, waitAction, k1, k2, hp]
    rw [if_neg (by omega)]
  rw [tick_unchanged (hi.good.client (by simp [hst]) (by simp [hst])) hacc hu e he rfl (by rw [hdis]), hdis]

/-- C72 (partial: only for goals the server has accepted, see `c72_unanswered`): if the result is
missing for longer than the timeout, the node cancels the goal at the next tick but one, waits for
the cancellation and answers FAILED. -/
theorem c72_timeout_partial {h : Hist} {l : Leaf Mem Unit} (hr : cls.Runs h l) (n : Nat) (t d : Int) (e₁ e₂ e₃ : Env)
    (hw : watched (Class.trace h) = some n) (ht : acceptedAt h = some t) (hd : timeout h = some d)
    (hacc : BT.accepts .tick l.state = true) (hu : l.upd () = false)
    (h1 : e₁.flagsOk = true) (h2 : e₂.flagsOk = true) (h3 : e₃.flagsOk = true)
    (hp : e₁.res n = .pending) (hlt : d < e₁.now - t) :
    let l₁ := (cls.step l (.call .tick e₁ true true)).1
    let l₂ := (cls.step l₁ (.call .tick e₂ true true)).1
    (cls.step l (.call .tick e₁ true true)).2.res = some (.ok .running) ∧
    (cls.step l₁ (.call .tick e₂ true true)).2 = ⟨some (.ok .running), [.cancel n]⟩ ∧
    (cls.step l₂ (.call .tick e₃ true true)).2 =
      ⟨some (.ok (if e₃.can n = .pending then .running else .failed)), []⟩ := by
  have hi := inv hr
  have hst := hi.settled n hw
  obtain ⟨k, k1, k2, k3⟩ := hi.good.action hst
  rw [hw] at k3
  cases k3
  have hsent := sent hr (.inr hst)
  have hs := started hr hst
  rw [ht] at hs
  have hto := (hi.up hacc).2
  rw [hd] at hto
  cases hs
  cases hto
  have hc := hi.good.client (by simp [hst]) (by simp [hst])
  clear hi hr hw ht hd
  obtain ⟨state, ⟨st, req, hdl, rf, cf, input, start, timeout, client, next⟩, upd⟩ := l
  simp only at hst k1 k2 hsent hc hacc hu hlt
  subst hst k1 k2 hsent hc
  have s1 := tick_unchanged (l := ⟨state, ⟨some .waitAction, req, some n, some n, cf, some none, start, timeout, true, next⟩, upd⟩)
    rfl hacc hu e₁ h1 (s := .running) rfl (by simp [dispatch, waitAction, hp, hlt])
  have s2 := tick_unchanged (l := ⟨.running, ⟨some .requestCancel, req, some n, none, cf, some none, start, timeout, true, next⟩, fun _ => false⟩)
    rfl rfl rfl e₂ h2 (s := .running) rfl (by simp [dispatch, requestCancel])
  have s3 := tick_unchanged (l := ⟨.running, ⟨some .waitCancel, req, some n, none, some n, some none, start, timeout, true, next⟩, fun _ => false⟩)
    rfl rfl rfl e₃ h3 (s := if e₃.can n = .pending then .running else .failed) (by split <;> rfl)
    (by cases hx : e₃.can n <;> simp [dispatch, waitCancel, hx])
  simp only [dispatch, waitAction, hp, if_pos hlt] at s1
  simp only [dispatch, requestCancel] at s2
  rw [s1]
  dsimp only
  rw [s2]
  dsimp only
  rw [s3]
  refine ⟨rfl, rfl, ?_⟩
  cases hx : e₃.can n <;> simp [dispatch, waitCancel, hx]

/-- C72 is violated: if the server never answers to the goal, the node answers RUNNING forever,
whatever the clock says. -/
theorem c72_unanswered : ∃ h l, cls.Runs h l ∧ timeout h = some 5 ∧
    ∀ e : Env, e.flagsOk = true → e.req 0 = .pending →
      cls.step l (.call .tick e true true) = (l, ⟨some (.ok .running), []⟩) := by
  refine ⟨_, _, cls.runs_run ((sample true .succeeded).take 2), rfl, fun e he hp => ?_⟩
  have hl : (cls.run ((sample true .succeeded).take 2)).2 =
      ⟨.running, { st := some .waitAccept, request := some 0, input := some none, timeout := 5, client := true, next := 1 }, fun _ => false⟩ := rfl
  rw [hl]
  simp [Class.step, Class.tick, BT.accepts, BT.allowedAfter, cls, hook, doTick, refresh, connect, dispatch, waitAccept, HookOut.andThen, he, hp]

example : watched (Class.trace (cls.run ((sample true .succeeded).take 5)).1) = some 0 ∧
    acceptedAt (cls.run ((sample true .succeeded).take 5)).1 = some 3 ∧ timeout (cls.run ((sample true .succeeded).take 5)).1 = some 5 ∧
    (cls.run ((sample true .succeeded).take 5)).2.mem.input = some none := by decide

end Action
end Verif.Ros
