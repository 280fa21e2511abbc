import Verif.Ros.Rpc
import Verif.Ros.Action

/-!
# C133: an Action node pursues the goal that its inputs ask for

`Verif/Ros/Action.lean` treats goals and results as numbers and the flags of inputs as given. Here the class `Action` of `ros_nodes/action.py` is
modelled with its inputs and outputs: the goal is made of the inputs, the client is created for the name in the inputs, the result is put to the outputs.
-/

set_option autoImplicit false

namespace Verif.Ros.Goal

open Verif.Data Verif.Nodes
open Verif.BT (BTState Op Res accepts allowedAfter)
open Verif.Ros.Action (AState ReqFut CanFut)
open Verif.Ros.Rpc (Msg Fut Differs)

/-! ### The model -/

/-- An action type: the fields of the goal and the names of the fields of result and feedback (action.py 524-532). -/
structure Typ where
  goal : List (String × Field)
  result : List String
  feedback : List String

/-- An Action node: `state`, `_internal_state` (`none`: not set yet), `_action_client` (here: the name it was created with), `_new_goal_request_future`,
`_running_goal_handle`, `_running_goal_future`, `_cancel_goal_future` (here: the number of the goal), `_input_goal` (outer `none`: not set yet; action.py
86-90, 144-156), the inputs and outputs, and (not in the code) all goals that were sent, with the name of the action. The times are left out, see C72. -/
structure Node where
  state : BTState
  st : Option AState
  client : Option String
  request : Option Nat
  handle : Option Nat
  resultFut : Option Nat
  cancelFut : Option Nat
  input : Option (Option Msg)
  data : NodeData
  sent : List (String × Msg)

/-- The outside world during an operation: `_do_setup` succeeds (126-142), `ActionClient` raises, the futures of goal, result and cancellation, is the time
of the goal over (193-197), the feedback that has arrived, do the outputs reach their targets (node.py 474-480). -/
structure World where
  setupOk : Bool := true
  createRaises : Bool := false
  req : ReqFut := .pending
  res : Fut := .pending
  can : CanFut := .pending
  late : Bool := false
  feedback : Option Msg := none
  pushOk : Bool := true

/-- What a hook leaves behind and answers (`none`: an exception). -/
abbrev Ret := Node × Option Res

/-- `match x: case Err(e): return Err(e); case Ok(_): pass`, then the rest of the hook. -/
def andThen (x : Ret) (k : Node → Ret) : Ret :=
  match x.2 with
  | some (.ok _) => k x.1
  | _ => x

/-- action.py 453-462: `set_result_outputs`. -/
def setResult (K : Typ) (r : Msg) (n : Node) : Ret :=
  match pick r K.result with
  | none => (n, some .err)
  | some l =>
    let o := putAll n.data (l.map fun p => ("result." ++ p.1, p.2)) .succeeded
    ({ n with data := o.data }, o.res)

/-- action.py 165-212. `answer i` is the result of goal `i` (`none`: `None`). -/
def waitAction (K : Typ) (answer : Nat → Option Msg) (w : World) (n : Node) : Ret :=
  match n.handle, n.resultFut with
  | some _, some i =>
    match w.res with
    | .done =>
      match answer i with
      | none => ({ n with handle := none, resultFut := none, st := some .finished }, some (.ok .failed))
      | some r => setResult K r { n with handle := none, resultFut := none, st := some .finished }
    | .cancelled => ({ n with handle := none, resultFut := none, st := some .finished }, some (.ok .failed))
    | .pending =>
      if w.late then ({ n with resultFut := none, st := some .requestCancel }, some (.ok .running))
      else
        match w.feedback with
        | none => (n, some (.ok .running))
        | some f => ({ n with data := (actionFeedback K.feedback f n.data).data }, (actionFeedback K.feedback f n.data).res)
  | _, _ => (n, some .err)

/-- action.py 214-225 -/
def requestCancel (n : Node) : Ret :=
  match n.handle with
  | none => (n, some .err)
  | some i => ({ n with cancelFut := some i, st := some .waitCancel }, some (.ok .running))

/-- action.py 227-260 -/
def waitCancel (w : World) (n : Node) : Ret :=
  match n.cancelFut with
  | none => ({ n with st := some .finished }, some .err)
  | some _ =>
    match w.can with
    | .done =>
      match n.input with
      | none => (n, none)
      | some (some _) => ({ n with cancelFut := none, handle := none, resultFut := none, st := some .finished }, some (.ok .running))
      | some none => ({ n with cancelFut := none, handle := none, resultFut := none, st := some .finished }, some (.ok .failed))
    | .cancelled => ({ n with cancelFut := none, handle := none, resultFut := none, st := some .finished }, some (.ok .failed))
    | .pending => (n, some (.ok .running))

/-- action.py 262-273. `send_goal_async(None)` raises. -/
def sendGoal (n : Node) : Ret :=
  match n.client with
  | none => (n, some .err)
  | some c =>
    match n.input with
    | some (some m) =>
      ({ n with request := some n.sent.length, input := some none, st := some .waitAccept, sent := n.sent ++ [(c, m)] }, some (.ok .running))
    | _ => (n, none)

/-- action.py 275-310 -/
def waitAccept (w : World) (n : Node) : Ret :=
  match n.request with
  | none => ({ n with st := some .idle }, some .err)
  | some i =>
    match w.req with
    | .handle _ => ({ n with handle := some i, request := none, resultFut := some i, st := some .waitAction }, some (.ok .running))
    | .nothing => ({ n with handle := none, request := none, st := some .finished }, some (.ok .failed))
    | .cancelled => ({ n with handle := none, request := none, st := some .finished }, some (.ok .failed))
    | .pending => (n, some (.ok .running))

/-- action.py 369-378 -/
def finished (n : Node) : Ret :=
  match n.input with
  | none => (n, none)
  | some none => (n, some (.ok n.state))
  | some (some _) => ({ n with client := none, st := some .idle }, some (.ok .running))

/-- action.py 313: `"action_name", *self.goal_fields` -/
def keys (K : Typ) : List String := "action_name" :: K.goal.map (·.1)

/-- action.py 312-330 and 438-447 (`get_goal`; the loop is the one of `FieldsToMessage`). -/
def refresh (K : Typ) (n : Node) : Ret :=
  match anyUpdated n.data (keys K) with
  | none => (n, some .err)
  | some true =>
    match fill n.data K.goal with
    | .err => (n, some .err)
    | .raise => (n, none)
    | .vals m =>
      match n.st with
      | none => ({ n with input := some (some m) }, none)
      | some a =>
        if a = .idle ∨ a = .finished ∨ a = .waitCancel then ({ n with input := some (some m) }, some (.ok .idle))
        else ({ n with input := some (some m), st := some .requestCancel }, some (.ok .idle))
  | some false => (n, some (.ok .idle))

/-- action.py 332-343 -/
def connect (w : World) (n : Node) : Ret :=
  match n.client with
  | some _ => (n, some (.ok .idle))
  | none =>
    match valueAs asStr n.data "action_name" with
    | none => (n, some .err)
    | some c => if w.createRaises then (n, none) else ({ n with client := some c }, some (.ok .idle))

/-- action.py 347-367 -/
def dispatch (K : Typ) (answer : Nat → Option Msg) (w : World) (n : Node) : Ret :=
  match n.st with
  | none => (n, none)
  | some .idle => sendGoal n
  | some .waitAccept => waitAccept w n
  | some .waitAction => waitAction K answer w n
  | some .requestCancel => requestCancel n
  | some .waitCancel => waitCancel w n
  | some .finished => finished n

/-- action.py 312-343 -/
def prep (K : Typ) (w : World) (n : Node) : Ret := andThen (refresh K n) (connect w)

/-- action.py 312-367 -/
def doTick (K : Typ) (answer : Nat → Option Msg) (w : World) (n : Node) : Ret := andThen (prep K w n) (dispatch K answer w)

/-- action.py 386-393 -/
def forgetAll (n : Node) : Ret := ({ n with resultFut := none, handle := none, cancelFut := none, st := some .idle }, some (.ok .idle))

/-- action.py 380-393 -/
def doUntick (n : Node) : Ret :=
  match n.st with
  | none => (n, none)
  | some a => if a = .waitAction then andThen (requestCancel n) forgetAll else forgetAll n

/-- action.py 395-404 -/
def doReset (n : Node) : Ret := andThen (doUntick n) fun n => ({ n with client := none }, some (.ok .idle))

/-- The node at the beginning of the hook of `tick` (node.py 440-442). -/
def begin (n : Node) : Node := { n with data := { n.data with outputs := mapAll Cont.resetUpdated n.data.outputs } }

/-- node.py 423-482 -/
def tick (K : Typ) (answer : Nat → Option Msg) (w : World) (n : Node) : Ret :=
  if accepts .tick n.state then
    if n.data.inputs.all (·.2.value.isSome) then
      let x := doTick K answer w (begin n)
      match x.2 with
      | none => x
      | some .err => ({ x.1 with state := .broken }, some .err)
      | some (.ok s) =>
        let m := { x.1 with state := s, data := { x.1.data with inputs := mapAll Cont.resetUpdated x.1.data.inputs } }
        if allowedAfter .tick s then if w.pushOk then (m, some (.ok s)) else ({ m with state := .broken }, some .err) else (m, some .err)
    else ({ n with state := .broken }, some .err)
  else (n, some .err)

/-- The state after the hook of another operation (node.py 374-390, 539-559, 611-626, 672-686). -/
def close (op : Op) (x : Ret) : Ret :=
  match x.2 with
  | none => x
  | some .err => ({ x.1 with state := .broken }, some .err)
  | some (.ok s) => ({ x.1 with state := s }, some (if allowedAfter op s then .ok s else .err))

/-- node.py 353-390 and action.py 126-158. The values of dynamic inputs are forgotten, all inputs are flagged. `_input_goal` is kept. -/
def setup (w : World) (n : Node) : Ret :=
  if accepts .setup n.state then
    let d : NodeData := ⟨mapAll (fun c => c.resetValue.flagUpdated) n.data.inputs, mapAll (fun c => c.resetValue.resetUpdated) n.data.outputs⟩
    close .setup (if w.setupOk then
      ({ n with data := d, st := some .idle, request := none, handle := none, resultFut := none, cancelFut := none, client := none }, some (.ok .idle))
    else ({ n with data := d }, some .err))
  else (n, some .err)

/-- node.py 531-558 -/
def untick (n : Node) : Ret :=
  if accepts .untick n.state then
    let x := close .untick (doUntick n)
    ({ x.1 with data := { x.1.data with outputs := mapAll Cont.resetUpdated x.1.data.outputs } }, x.2)
  else (n, some .err)

/-- node.py 593-626 -/
def reset (n : Node) : Ret :=
  if accepts .reset n.state then
    close .reset (doReset { n with
      data := ⟨mapAll Cont.flagUpdated n.data.inputs, mapAll (fun c => c.resetValue.resetUpdated) n.data.outputs⟩ })
  else (n, some .err)

/-- node.py 668-713 and action.py 406-411 -/
def shutdown (n : Node) : Ret :=
  if n.state = .shutdown then (n, some (.ok .shutdown))
  else close .shutdown (andThen (doReset n) fun n => (n, some (.ok .shutdown)))

/-- The operations. -/
def run (K : Typ) (answer : Nat → Option Msg) (op : Op) (w : World) (n : Node) : Ret :=
  match op with
  | .setup => setup w n
  | .tick => tick K answer w n
  | .untick => untick n
  | .reset => reset n
  | .shutdown => shutdown n

/-- A new node. -/
def new (d : NodeData) : Node := ⟨.uninitialized, none, none, none, none, none, none, none, d, []⟩

/-! ### Specification -/

/-- The inputs of the node ask for the goal `m` of the action `c`: every field of the goal holds what it holds after being assigned the value of the input
of its name. -/
def Asks (K : Typ) (d : NodeData) (c : String) (m : Msg) : Prop :=
  value d "action_name" = some (.str c) ∧ m.map (·.1) = K.goal.map (·.1) ∧
    ∀ q ∈ K.goal.zip m, ∃ v, value d q.1.1 = some v ∧ q.1.2.store v = some q.2.2

/-- The outputs of the node show the result. -/
def Tells (K : Typ) (d : NodeData) (r : Msg) : Prop := ∀ k ∈ K.result, ∃ v, r.lookup k = some v ∧ Shows d ("result." ++ k) v

/-- If the node has a client, it is one of the action that its inputs name. -/
def Connected (n : Node) : Prop := ∀ c, n.client = some c → value n.data "action_name" = some (.str c)

/-- Executions: operations are called, and values are delivered to inputs. `calm`: no value is delivered that equals one that has arrived since the last
tick; the node is not unticked between a change of the name of the action and the moment when it has noticed it, and the name does not change while the
node is unticked. -/
inductive Runs (K : Typ) (answer : Nat → Option Msg) (calm : Bool) : Node → Prop
  | new (d : NodeData) : Runs K answer calm (new d)
  | call {n : Node} (op : Op) (w : World) : Runs K answer calm n → (calm = true → op = .untick → Connected n) →
      Runs K answer calm (run K answer op w n).1
  | deliver {n : Node} (k : String) (v : Val) : Runs K answer calm n →
      (calm = true → Differs n.data k v ∧ (n.state = .idle → Connected { n with data := deliver n.data k v })) →
      Runs K answer calm { n with data := deliver n.data k v }

/-! ### Lemmas -/

/-- The goal that the model makes. -/
def Current (K : Typ) (d : NodeData) (c : String) (m : Msg) : Prop := value d "action_name" = some (.str c) ∧ fill d K.goal = .vals m

theorem current_asks {K : Typ} {d : NodeData} {c : String} {m : Msg} (h : Current K d c m) : Asks K d c m := ⟨h.1, Rpc.fill_asks h.2⟩

theorem name_of {d : NodeData} {c : String} (h : valueAs asStr d "action_name" = some c) : value d "action_name" = some (.str c) := by
  unfold valueAs at h
  cases hv : value d "action_name" with
  | none => rw [hv] at h; cases h
  | some v =>
    rw [hv] at h
    cases v with
    | str s => simp [asStr] at h; rw [h]
    | _ => cases h

theorem current_congr {K : Typ} {d d' : NodeData} (h : ∀ k ∈ keys K, value d' k = value d k) {c : String} {m : Msg} (hc : Current K d c m) :
    Current K d' c m := by
  refine ⟨?_, ?_⟩
  · rw [← hc.1, h _ List.mem_cons_self]
  · rw [← hc.2]
    exact Rpc.fill_congr fun p hp => h _ (List.mem_cons_of_mem _ (List.mem_map_of_mem hp))

theorem tells_congr {K : Typ} {d d' : NodeData} (h : ∀ k, outputValue d' k = outputValue d k) {r : Msg} (ht : Tells K d r) : Tells K d' r := by
  intro k hk
  obtain ⟨v, h1, h2⟩ := ht k hk
  exact ⟨v, h1, Rpc.shows_congr h h2⟩

theorem nodup_prefix (p : String) {ks : List String} (h : ks.Nodup) : (ks.map (p ++ ·)).Nodup := by
  refine List.Pairwise.map _ (fun a b hab he => hab ?_) h
  have := congrArg String.toList he
  simp only [String.toList_append] at this
  exact String.toList_inj.1 (List.append_cancel_left this)

theorem setResult_frame (K : Typ) (r : Msg) (n : Node) : ∃ d : NodeData, d.inputs = n.data.inputs ∧ (setResult K r n).1 = { n with data := d } := by
  unfold setResult
  split
  · exact ⟨n.data, rfl, rfl⟩
  · exact ⟨_, Rpc.putAll_inputs .., rfl⟩

theorem setResult_ok {K : Typ} (hK : K.result.Nodup) {r : Msg} {n : Node} {s : BTState} (h : (setResult K r n).2 = some (.ok s)) :
    s = .succeeded ∧ Tells K (setResult K r n).1.data r := by
  unfold setResult at h ⊢
  split at h
  · cases h
  · rename_i l hl
    obtain ⟨h1, h2⟩ := Rpc.pick_names hl
    have hn : ((l.map fun p => ("result." ++ p.1, p.2)).map (·.1)).Nodup := by
      have := nodup_prefix "result." (h1 ▸ hK : (l.map (·.1)).Nodup)
      simpa [List.map_map, Function.comp_def] using this
    obtain ⟨h3, h4⟩ := Rpc.putAll_ok _ .succeeded hn h
    refine ⟨h3, fun k hk => ?_⟩
    rw [← h1] at hk
    obtain ⟨p, hp, rfl⟩ := List.mem_map.1 hk
    exact ⟨p.2, h2 p hp, h4 ("result." ++ p.1, p.2) (List.mem_map.2 ⟨p, hp, rfl⟩)⟩

theorem feedback_inputs (ks : List String) (f : Msg) (d : NodeData) : (actionFeedback ks f d).data.inputs = d.inputs := by
  unfold actionFeedback
  split
  · rfl
  · exact Rpc.putAll_inputs ..

theorem feedback_ok {ks : List String} {f : Msg} {d : NodeData} {x : Res} (h : (actionFeedback ks f d).res = some x) : x = .ok .running := by
  unfold actionFeedback at h
  split at h
  · cases h; rfl
  · dsimp only at h
    cases hp : (putAll d _ BTState.running).res with
    | none => rw [hp] at h; cases h
    | some y => rw [hp] at h; cases h; rfl

/-! ### The invariant -/

/-- The goal that the node has sent last is the one that its inputs ask for. -/
def Asked (K : Typ) (n : Node) (i : Nat) : Prop := i + 1 = n.sent.length ∧ ∃ c m, n.sent[i]? = some (c, m) ∧ Current K n.data c m

/-- What the node has prepared, sent and put out belongs to its inputs. -/
structure Now (K : Typ) (answer : Nat → Option Msg) (n : Node) : Prop where
  input : ∀ m, n.input = some (some m) → fill n.data K.goal = .vals m
  client : ∀ c, n.client = some c → value n.data "action_name" = some (.str c) ∨ n.st ≠ some .idle
  waits : n.st = some .waitAccept ∨ n.st = some .waitAction → n.input = some none
  request : n.st = some .waitAccept → ∀ i, n.request = some i → Asked K n i
  result : n.st = some .waitAction → ∀ i, n.resultFut = some i → Asked K n i
  told : n.state = .succeeded → n.input = some none → ∃ i r, Asked K n i ∧ answer i = some r ∧ Tells K n.data r

/-- What holds also if inputs are flagged. -/
structure Good (n : Node) : Prop where
  set : n.st ≠ none
  idle : n.state = .idle → n.st = some .idle
  done : n.state = .succeeded → n.st = some .finished
  fresh : n.st = some .idle → n.client ≠ none → n.state = .idle
  name : n.state = .idle → Connected n
  todo : n.st = some .idle → n.state ≠ .idle → ∃ m, n.input = some (some m)

/-- The invariant. -/
structure Inv (K : Typ) (answer : Nat → Option Msg) (n : Node) : Prop where
  good : accepts .tick n.state = true → Good n
  now : accepts .tick n.state = true → anyUpdated n.data (keys K) = some false → Now K answer n

theorem andThen_ok {x : Ret} {k : Node → Ret} {s : BTState} (h : (andThen x k).2 = some (.ok s)) :
    (∃ s', x.2 = some (.ok s')) ∧ andThen x k = k x.1 := by
  unfold andThen at h ⊢
  split at h
  · rename_i s' hs; exact ⟨⟨s', hs⟩, rfl⟩
  · rename_i hx; exact absurd h (hx s)

theorem andThen_cases (x : Ret) (k : Node → Ret) : ((∃ s', x.2 = some (.ok s')) ∧ andThen x k = k x.1) ∨ ((∀ s', x.2 ≠ some (.ok s')) ∧ andThen x k = x) := by
  unfold andThen
  split
  · rename_i s' hs; exact .inl ⟨⟨s', hs⟩, rfl⟩
  · rename_i hx; exact .inr ⟨hx, rfl⟩

theorem now_congr {K : Typ} {answer : Nat → Option Msg} {n : Node} (h : Now K answer n) (d : NodeData) (hv : ∀ k ∈ keys K, value d k = value n.data k)
    (ho : n.state = .succeeded → ∀ k, outputValue d k = outputValue n.data k) : Now K answer { n with data := d } := by
  have hask : ∀ i, Asked K n i → Asked K { n with data := d } i := fun i ⟨h1, c, m, h2, h3⟩ => ⟨h1, c, m, h2, current_congr hv h3⟩
  refine ⟨fun m hm => ?_, fun c hc => ?_, h.waits, fun hs i hi => hask i (h.request hs i hi), fun hs i hi => hask i (h.result hs i hi), fun h1 h2 => ?_⟩
  · rw [← h.input m hm]
    exact Rpc.fill_congr fun p hp => hv _ (List.mem_cons_of_mem _ (List.mem_map_of_mem hp))
  · dsimp only
    rw [hv _ List.mem_cons_self]
    exact h.client c hc
  · obtain ⟨i, r, k1, k2, k3⟩ := h.told h1 h2
    exact ⟨i, r, hask i k1, k2, tells_congr (ho h1) k3⟩

/-- What `refresh` and `connect` leave alone. -/
structure Same' (n n' : Node) : Prop where
  state : n'.state = n.state
  data : n'.data = n.data
  sent : n'.sent = n.sent

theorem refresh_same (K : Typ) (n : Node) : Same' n (refresh K n).1 := by
  unfold refresh
  split
  · exact ⟨rfl, rfl, rfl⟩
  · split
    · exact ⟨rfl, rfl, rfl⟩
    · exact ⟨rfl, rfl, rfl⟩
    · split
      · exact ⟨rfl, rfl, rfl⟩
      · split <;> exact ⟨rfl, rfl, rfl⟩
  · exact ⟨rfl, rfl, rfl⟩

theorem connect_same (w : World) (n : Node) : Same' n (connect w n).1 := by
  unfold connect
  split
  · exact ⟨rfl, rfl, rfl⟩
  · split
    · exact ⟨rfl, rfl, rfl⟩
    · split <;> exact ⟨rfl, rfl, rfl⟩

theorem prep_same (K : Typ) (w : World) (n : Node) : Same' n (prep K w n).1 := by
  unfold prep
  have h1 := refresh_same K n
  rcases andThen_cases (refresh K n) (connect w) with ⟨_, h⟩ | ⟨_, h⟩
  · rw [h]
    have h2 := connect_same w (refresh K n).1
    exact ⟨h2.state.trans h1.state, h2.data.trans h1.data, h2.sent.trans h1.sent⟩
  · rw [h]; exact h1

/-- `refresh` keeps what holds anyway. -/
theorem refresh_good {K : Typ} {n : Node} (h : Good n) : Good (refresh K n).1 := by
  unfold refresh
  split
  · exact h
  · split
    · exact h
    · exact h
    · rename_i m _
      split
      · rename_i hst; exact absurd hst h.set
      · rename_i a hst
        split
        · exact ⟨h.set, h.idle, h.done, h.fresh, h.name, fun _ _ => ⟨m, rfl⟩⟩
        · rename_i ha
          simp only [not_or] at ha
          refine ⟨by simp, fun hs => ?_, fun hs => ?_, fun h' => (by cases h'), h.name, fun h' => (by cases h')⟩
          · have := h.idle hs; rw [hst] at this; cases this; exact absurd rfl ha.1
          · have := h.done hs; rw [hst] at this; cases this; exact absurd rfl ha.2.1
  · exact h

theorem refresh_now {K : Typ} {answer : Nat → Option Msg} {n : Node} (hg : Good n) (hi : anyUpdated n.data (keys K) = some false → Now K answer n)
    {s : BTState} (hs : (refresh K n).2 = some (.ok s)) : Now K answer (refresh K n).1 := by
  unfold refresh at hs ⊢
  split at hs
  · cases hs
  · split at hs
    · cases hs
    · cases hs
    · rename_i m hm
      split at hs
      · cases hs
      · rename_i a hst
        split at hs
        · rename_i ha
          rw [if_pos ha]
          refine ⟨fun m' h' => (by cases h'; exact hm), fun c hc => ?_, fun h' => ?_, fun h' => ?_, fun h' => ?_, fun _ h' => (by cases h')⟩
          · by_cases hidle : n.st = some .idle
            · exact .inl (hg.name (hg.fresh hidle (by rw [show n.client = _ from hc]; simp)) c hc)
            · exact .inr hidle
          · dsimp only at h'; rw [hst] at h'
            rcases ha with rfl | rfl | rfl <;> rcases h' with h' | h' <;> cases h'
          · dsimp only at h'; rw [hst] at h'
            rcases ha with rfl | rfl | rfl <;> cases h'
          · dsimp only at h'; rw [hst] at h'
            rcases ha with rfl | rfl | rfl <;> cases h'
        · rename_i ha
          rw [if_neg ha]
          exact ⟨fun m' h' => (by cases h'; exact hm), fun c hc => .inr (by simp), fun h' => (by rcases h' with h' | h' <;> cases h'), fun h' => (by cases h'),
            fun h' => (by cases h'), fun _ h' => (by cases h')⟩
  · rename_i h; exact hi h

/-- `connect` creates a client for the name in the inputs, or does nothing. -/
theorem connect_good (w : World) (n : Node) : (connect w n).1.st = n.st ∧ (connect w n).1.input = n.input ∧
    ((connect w n).1.client = n.client ∨ n.client = none ∧ ∃ c, (connect w n).1.client = some c ∧ value n.data "action_name" = some (.str c) ∧
      (connect w n).2 = some (.ok .idle)) := by
  unfold connect
  split
  · exact ⟨rfl, rfl, .inl rfl⟩
  · rename_i hc
    split
    · exact ⟨rfl, rfl, .inl rfl⟩
    · rename_i c hn
      split
      · exact ⟨rfl, rfl, .inl rfl⟩
      · exact ⟨rfl, rfl, .inr ⟨hc, c, rfl, name_of hn, rfl⟩⟩

theorem connect_now {K : Typ} {answer : Nat → Option Msg} {w : World} {n : Node} (h : Now K answer n) : Now K answer (connect w n).1 := by
  unfold connect
  split
  · exact h
  · split
    · exact h
    · rename_i c hn
      split
      · exact h
      · exact ⟨h.input, fun c' h' => .inl (by cases h'; exact name_of hn), h.waits, h.request, h.result, h.told⟩

theorem connect_some {w : World} {n : Node} {s : BTState} (hs : (connect w n).2 = some (.ok s)) : (connect w n).1.client ≠ none := by
  unfold connect at hs ⊢
  split
  · rename_i c hc; rw [hc]; simp
  · rename_i hc
    rw [hc] at hs
    dsimp only at hs
    split at hs
    · cases hs
    · split at hs
      · cases hs
      · rename_i hw; rw [if_neg hw]; simp

/-- What holds before the goal is looked after. -/
structure Mid (n : Node) : Prop where
  set : n.st ≠ none
  idle : n.state = .idle → n.st = some .idle
  done : n.state = .succeeded → n.st = some .finished
  name : n.state = .idle → Connected n
  todo : n.st = some .idle → n.state ≠ .idle → ∃ m, n.input = some (some m)

theorem Good.mid {n : Node} (h : Good n) : Mid n := ⟨h.set, h.idle, h.done, h.name, h.todo⟩

theorem connect_mid {w : World} {n : Node} (h : Mid n) : Mid (connect w n).1 := by
  obtain ⟨h1, h2, h3⟩ := connect_good w n
  have h4 := connect_same w n
  refine ⟨by rw [h1]; exact h.set, fun hs => ?_, fun hs => ?_, fun hs c hc => ?_, fun hs hn => ?_⟩
  · rw [h1]; exact h.idle (h4.state ▸ hs)
  · rw [h1]; exact h.done (h4.state ▸ hs)
  · rw [h4.data]
    rcases h3 with h3 | ⟨_, c', h3, h5, _⟩
    · exact h.name (h4.state ▸ hs) c (h3 ▸ hc)
    · rw [h3] at hc; cases hc; exact h5
  · rw [h2]
    exact h.todo (h1 ▸ hs) (by rw [← h4.state]; exact hn)

/-- After a tick that answers. -/
structure After (K : Typ) (answer : Nat → Option Msg) (n n' : Node) (s : BTState) : Prop where
  now : Now K answer { n' with state := s }
  good : Good { n' with state := s }
  inputs : n'.data.inputs = n.data.inputs

/-- A node that is not idle and has no success. -/
theorem good_of {n : Node} (h1 : n.st ≠ none) (h2 : n.st ≠ some .idle) (h3 : n.state ≠ .idle) (h4 : n.state = .succeeded → n.st = some .finished) : Good n :=
  ⟨h1, fun h => absurd h h3, h4, fun h => absurd h h2, fun h => absurd h h3, fun h => absurd h h2⟩

/-- The goal is over or being cancelled. -/
theorem now_over {K : Typ} {answer : Nat → Option Msg} {n : Node} (h1 : ∀ m, n.input = some (some m) → fill n.data K.goal = .vals m)
    (h2 : n.st = some .finished ∨ n.st = some .requestCancel ∨ n.st = some .waitCancel) (h3 : n.state ≠ .succeeded) : Now K answer n := by
  refine ⟨h1, fun c _ => .inr ?_, fun h => ?_, fun h => ?_, fun h => ?_, fun h => absurd h h3⟩
  · rcases h2 with h | h | h <;> rw [h] <;> simp
  · rcases h2 with h2 | h2 | h2 <;> rw [h2] at h <;> rcases h with h | h <;> cases h
  · rcases h2 with h2 | h2 | h2 <;> rw [h2] at h <;> cases h
  · rcases h2 with h2 | h2 | h2 <;> rw [h2] at h <;> cases h

theorem send_after {K : Typ} {answer : Nat → Option Msg} {n : Node} (h : Now K answer n) (hst : n.st = some .idle) {s : BTState}
    (hs : (sendGoal n).2 = some (.ok s)) : After K answer n (sendGoal n).1 s := by
  unfold sendGoal at hs ⊢
  split at hs
  · cases hs
  · rename_i c hc
    split at hs
    · rename_i m hm
      cases hs
      refine ⟨⟨fun m' h' => (by cases h'), fun _ _ => .inr (by simp), fun _ => rfl, fun _ i hi => ?_, fun h' => (by cases h'), fun h' => (by cases h')⟩,
        good_of (by simp) (by simp) (by simp) (fun h' => (by cases h')), rfl⟩
      cases hi
      rcases h.client c hc with h1 | h1
      · exact ⟨by simp, c, m, by simp, h1, h.input m hm⟩
      · exact absurd hst h1
    · cases hs

theorem accept_after {K : Typ} {answer : Nat → Option Msg} {w : World} {n : Node} (h : Now K answer n) (hst : n.st = some .waitAccept) {s : BTState}
    (hs : (waitAccept w n).2 = some (.ok s)) : After K answer n (waitAccept w n).1 s := by
  unfold waitAccept at hs ⊢
  have hin := h.waits (.inl hst)
  split at hs
  · cases hs
  · rename_i i hi
    have hask := h.request hst i hi
    split at hs
    · cases hs
      exact ⟨⟨fun m h' => h.input m h', fun _ _ => .inr (by simp), fun _ => hin, fun h' => (by cases h'), fun _ j hj => (by cases hj; exact hask),
        fun h' => (by cases h')⟩, good_of (by simp) (by simp) (by simp) (fun h' => (by cases h')), rfl⟩
    · cases hs
      exact ⟨now_over (fun m h' => h.input m h') (.inl rfl) (by simp), good_of (by simp) (by simp) (by simp) (fun h' => (by cases h')), rfl⟩
    · cases hs
      exact ⟨now_over (fun m h' => h.input m h') (.inl rfl) (by simp), good_of (by simp) (by simp) (by simp) (fun h' => (by cases h')), rfl⟩
    · cases hs
      exact ⟨⟨h.input, fun _ _ => .inr (by rw [show _ = n.st from rfl, hst]; simp), h.waits, h.request, h.result, fun h' => (by cases h')⟩,
        good_of (by rw [show _ = n.st from rfl, hst]; simp) (by rw [show _ = n.st from rfl, hst]; simp) (by simp) (fun h' => (by cases h')), rfl⟩

theorem value_inputs {d d' : NodeData} (h : d'.inputs = d.inputs) (k : String) : value d' k = value d k := by simp only [value, h]

theorem action_after {K : Typ} (hK : K.result.Nodup) {answer : Nat → Option Msg} {w : World} {n : Node} (h : Now K answer n) (hst : n.st = some .waitAction)
    {s : BTState} (hs : (waitAction K answer w n).2 = some (.ok s)) : After K answer n (waitAction K answer w n).1 s := by
  unfold waitAction at hs ⊢
  have hin := h.waits (.inr hst)
  split at hs
  · rename_i j i _ hi
    have hask := h.result hst i hi
    split at hs
    · split at hs
      · cases hs
        exact ⟨now_over (fun m h' => h.input m h') (.inl rfl) (by simp), good_of (by simp) (by simp) (by simp) (fun h' => (by cases h')), rfl⟩
      · rename_i r hr
        obtain ⟨h1, h2⟩ := setResult_ok hK hs
        subst h1
        obtain ⟨d, h3, h4⟩ := setResult_frame K r { n with handle := none, resultFut := none, st := some .finished }
        rw [h4] at h2 ⊢
        refine ⟨⟨fun m h' => ?_, fun _ _ => .inr (by simp), fun h' => (by rcases h' with h' | h' <;> cases h'), fun h' => (by cases h'),
          fun h' => (by cases h'), fun _ _ => ⟨i, r, ?_, hr, h2⟩⟩, good_of (by simp) (by simp) (by simp) (fun _ => rfl), h3⟩
        · rw [show _ = n.input from rfl, hin] at h'; cases h'
        · obtain ⟨k1, c, m, k2, k3⟩ := hask
          exact ⟨k1, c, m, k2, current_congr (fun k _ => value_inputs h3 k) k3⟩
    · cases hs
      exact ⟨now_over (fun m h' => h.input m h') (.inl rfl) (by simp), good_of (by simp) (by simp) (by simp) (fun h' => (by cases h')), rfl⟩
    · split at hs
      · rename_i hl
        rw [if_pos hl]
        cases hs
        exact ⟨now_over (fun m h' => h.input m h') (.inr (.inl rfl)) (by simp), good_of (by simp) (by simp) (by simp) (fun h' => (by cases h')), rfl⟩
      · rename_i hl
        rw [if_neg hl]
        have hrun : Now K answer { n with state := .running } := ⟨h.input, h.client, h.waits, h.request, h.result, fun h' => (by cases h')⟩
        have hg : ∀ d : NodeData, Good { n with state := .running, data := d } := fun d =>
          good_of (by rw [show _ = n.st from rfl, hst]; simp) (by rw [show _ = n.st from rfl, hst]; simp) (by simp) (fun h' => (by cases h'))
        split at hs
        · cases hs
          exact ⟨hrun, hg _, rfl⟩
        · rename_i f _
          have hx := feedback_ok hs
          cases hx
          have hd := feedback_inputs K.feedback f n.data
          exact ⟨now_congr hrun _ (fun k _ => value_inputs hd k) (fun h' => (by cases h')), hg _, hd⟩
  · cases hs

theorem cancel_after {K : Typ} {answer : Nat → Option Msg} {n : Node} (h : Now K answer n) {s : BTState}
    (hs : (requestCancel n).2 = some (.ok s)) : After K answer n (requestCancel n).1 s := by
  unfold requestCancel at hs ⊢
  split at hs
  · cases hs
  · cases hs
    exact ⟨now_over (fun m h' => h.input m h') (.inr (.inr rfl)) (by simp), good_of (by simp) (by simp) (by simp) (fun h' => (by cases h')), rfl⟩

theorem cancelled_after {K : Typ} {answer : Nat → Option Msg} {w : World} {n : Node} (h : Now K answer n) (hst : n.st = some .waitCancel) {s : BTState}
    (hs : (waitCancel w n).2 = some (.ok s)) : After K answer n (waitCancel w n).1 s := by
  unfold waitCancel at hs ⊢
  split at hs
  · cases hs
  · split at hs
    · split at hs
      · cases hs
      · cases hs
        exact ⟨now_over (fun m h' => h.input m h') (.inl rfl) (by simp), good_of (by simp) (by simp) (by simp) (fun h' => (by cases h')), rfl⟩
      · cases hs
        exact ⟨now_over (fun m h' => h.input m h') (.inl rfl) (by simp), good_of (by simp) (by simp) (by simp) (fun h' => (by cases h')), rfl⟩
    · cases hs
      exact ⟨now_over (fun m h' => h.input m h') (.inl rfl) (by simp), good_of (by simp) (by simp) (by simp) (fun h' => (by cases h')), rfl⟩
    · cases hs
      exact ⟨now_over (fun m h' => h.input m h') (.inr (.inr hst)) (by simp),
        good_of (by rw [show _ = n.st from rfl, hst]; simp) (by rw [show _ = n.st from rfl, hst]; simp) (by simp) (fun h' => (by cases h')), rfl⟩

theorem finished_after {K : Typ} {answer : Nat → Option Msg} {n : Node} (h : Now K answer n) (hm : Mid n) (hst : n.st = some .finished) {s : BTState}
    (hs : (finished n).2 = some (.ok s)) : After K answer n (finished n).1 s := by
  unfold finished at hs ⊢
  split at hs
  · cases hs
  · cases hs
    refine ⟨h, good_of hm.set (by rw [show _ = n.st from rfl, hst]; simp) (fun h' => ?_) hm.done, rfl⟩
    have := hm.idle h'
    rw [hst] at this; cases this
  · rename_i m hi
    cases hs
    refine ⟨⟨fun m' h' => h.input m' h', fun c hc => (by cases hc), fun h' => (by rcases h' with h' | h' <;> cases h'), fun h' => (by cases h'),
      fun h' => (by cases h'), fun h' => (by cases h')⟩, ⟨by simp, fun h' => (by cases h'), fun h' => (by cases h'), fun _ h' => absurd rfl h', fun h' => (by cases h'),
      fun _ _ => ⟨m, hi⟩⟩, rfl⟩

theorem dispatch_after {K : Typ} (hK : K.result.Nodup) {answer : Nat → Option Msg} {w : World} {n : Node} (h : Now K answer n) (hm : Mid n) {s : BTState}
    (hs : (dispatch K answer w n).2 = some (.ok s)) : After K answer n (dispatch K answer w n).1 s := by
  unfold dispatch at hs ⊢
  split at hs
  · cases hs
  · rename_i hst; exact send_after h hst hs
  · rename_i hst; exact accept_after h hst hs
  · rename_i hst; exact action_after hK h hst hs
  · rename_i hst; exact cancel_after h hs
  · rename_i hst; exact cancelled_after h hst hs
  · rename_i hst; exact finished_after h hm hst hs

/-- A hook that raises. -/
theorem dispatch_raised {K : Typ} {answer : Nat → Option Msg} {w : World} {n : Node} (hm : Mid n) (hs : (dispatch K answer w n).2 = none) :
    Good (dispatch K answer w n).1 ∧ (dispatch K answer w n).1.state = n.state ∧ (dispatch K answer w n).1.data.inputs = n.data.inputs ∧
      (Now K answer n → Now K answer (dispatch K answer w n).1) := by
  have same : (n.st = some .idle → n.state = .idle) → Good n := fun h => ⟨hm.set, hm.idle, hm.done, fun h' _ => h h', hm.name, hm.todo⟩
  unfold dispatch at hs ⊢
  split at hs
  · rename_i hst; exact absurd hst hm.set
  · rename_i hst
    unfold sendGoal at hs ⊢
    split at hs
    · cases hs
    · split at hs
      · cases hs
      · rename_i hin
        refine ⟨same fun _ => ?_, rfl, rfl, id⟩
        cases hst' : decide (n.state = .idle) with
        | true => exact of_decide_eq_true hst'
        | false =>
          obtain ⟨m, h⟩ := hm.todo hst (of_decide_eq_false hst')
          exact absurd h (hin m)
  · unfold waitAccept at hs
    split at hs
    · cases hs
    · split at hs <;> cases hs
  · rename_i hst
    have hidle : n.state ≠ .idle := fun h => by have := hm.idle h; rw [hst] at this; cases this
    have hsucc : n.state ≠ .succeeded := fun h => by have := hm.done h; rw [hst] at this; cases this
    unfold waitAction at hs ⊢
    split at hs
    · rename_i i _ _
      split at hs
      · split at hs
        · cases hs
        · rename_i r hr
          obtain ⟨d, h3, h4⟩ := setResult_frame K r { n with handle := none, resultFut := none, st := some .finished }
          rw [h4]
          refine ⟨good_of (by simp) (by simp) hidle (fun _ => rfl), rfl, h3, fun h => now_over (fun m h' => ?_) (.inl rfl) hsucc⟩
          rw [show _ = n.input from rfl, h.waits (.inr hst)] at h'; cases h'
      · cases hs
      · split at hs
        · cases hs
        · rename_i hl
          rw [if_neg hl]
          split at hs
          · cases hs
          · rename_i f _
            have hd := feedback_inputs K.feedback f n.data
            exact ⟨good_of hm.set (by rw [show _ = n.st from rfl, hst]; simp) hidle (fun h => absurd h hsucc), rfl, hd,
              fun h => now_congr h _ (fun k _ => value_inputs hd k) (fun h' => absurd h' hsucc)⟩
    · cases hs
  · unfold requestCancel at hs
    split at hs <;> cases hs
  · rename_i hst
    unfold waitCancel at hs ⊢
    split at hs
    · cases hs
    · split at hs
      · split at hs
        · exact ⟨same fun h => (by rw [hst] at h; cases h), rfl, rfl, id⟩
        · cases hs
        · cases hs
      · cases hs
      · cases hs
  · rename_i hst
    unfold finished at hs ⊢
    split at hs
    · exact ⟨same fun h => (by rw [hst] at h; cases h), rfl, rfl, id⟩
    · cases hs
    · cases hs

theorem dispatch_input {K : Typ} {answer : Nat → Option Msg} {w : World} {n : Node} (h : Now K answer n)
    (hs : (dispatch K answer w n).2 = some (.ok .succeeded)) : (dispatch K answer w n).1.input = some none := by
  unfold dispatch at hs ⊢
  split at hs
  · cases hs
  · unfold sendGoal at hs
    split at hs
    · cases hs
    · split at hs <;> cases hs
  · unfold waitAccept at hs
    split at hs
    · cases hs
    · split at hs <;> cases hs
  · rename_i hst
    have hin := h.waits (.inr hst)
    unfold waitAction at hs ⊢
    split at hs
    · split at hs
      · split at hs
        · cases hs
        · rename_i r hr
          obtain ⟨d, h3, h4⟩ := setResult_frame K r { n with handle := none, resultFut := none, st := some .finished }
          rw [h4]; exact hin
      · cases hs
      · split at hs
        · cases hs
        · split at hs
          · cases hs
          · exact absurd (feedback_ok hs) (by simp)
    · cases hs
  · unfold requestCancel at hs
    split at hs <;> cases hs
  · unfold waitCancel at hs
    split at hs
    · cases hs
    · split at hs
      · split at hs <;> cases hs
      · cases hs
      · cases hs
  · unfold finished at hs ⊢
    split at hs
    · cases hs
    · rename_i hin; exact hin
    · cases hs

/-- Goals are sent in the internal state IDLE only. -/
theorem dispatch_sent (K : Typ) (answer : Nat → Option Msg) (w : World) (n : Node) : (dispatch K answer w n).1.sent = n.sent ∨
    n.st = some .idle ∧ ∃ c m, n.client = some c ∧ n.input = some (some m) ∧ (dispatch K answer w n).1.sent = n.sent ++ [(c, m)] := by
  unfold dispatch
  split
  · exact .inl rfl
  · rename_i hst
    unfold sendGoal
    split
    · exact .inl rfl
    · rename_i c hc
      split
      · rename_i m hm; exact .inr ⟨hst, c, m, hc, hm, rfl⟩
      · exact .inl rfl
  · refine .inl ?_
    unfold waitAccept
    split
    · rfl
    · split <;> rfl
  · refine .inl ?_
    unfold waitAction
    split
    · split
      · split
        · rfl
        · rename_i r hr
          obtain ⟨d, h3, h4⟩ := setResult_frame K r { n with handle := none, resultFut := none, st := some .finished }
          rw [h4]
      · rfl
      · split
        · rfl
        · split <;> rfl
    · rfl
  · refine .inl ?_
    unfold requestCancel
    split <;> rfl
  · refine .inl ?_
    unfold waitCancel
    split
    · rfl
    · split
      · split <;> rfl
      · rfl
      · rfl
  · refine .inl ?_
    unfold finished
    split <;> rfl

theorem prep_ok {K : Typ} {answer : Nat → Option Msg} {w : World} {n : Node} (hg : Good n) (hi : anyUpdated n.data (keys K) = some false → Now K answer n)
    {s : BTState} (hs : (prep K w n).2 = some (.ok s)) : Now K answer (prep K w n).1 ∧ Mid (prep K w n).1 ∧ ∃ b, anyUpdated n.data (keys K) = some b := by
  unfold prep at hs ⊢
  obtain ⟨⟨s1, h1⟩, h2⟩ := andThen_ok hs
  rw [h2] at hs ⊢
  refine ⟨connect_now (refresh_now hg hi h1), connect_mid (refresh_good hg).mid, ?_⟩
  unfold refresh at h1
  split at h1
  · cases h1
  · rename_i h; exact ⟨_, h⟩
  · rename_i h; exact ⟨_, h⟩

theorem prep_raised {K : Typ} {answer : Nat → Option Msg} {w : World} {n : Node} (hg : Good n) (hi : anyUpdated n.data (keys K) = some false → Now K answer n)
    (hs : (prep K w n).2 = none) : Good (prep K w n).1 ∧ (anyUpdated n.data (keys K) = some false → Now K answer (prep K w n).1) := by
  unfold prep at hs ⊢
  rcases andThen_cases (refresh K n) (connect w) with ⟨⟨s, h1⟩, h2⟩ | ⟨_, h2⟩
  · rw [h2] at hs ⊢
    have g := refresh_good (K := K) hg
    refine ⟨?_, fun _ => connect_now (refresh_now hg hi h1)⟩
    unfold connect at hs ⊢
    split
    · exact g
    · rename_i hc
      rw [hc] at hs
      dsimp only at hs
      split at hs
      · cases hs
      · split at hs
        · rename_i hw; rw [if_pos hw]; exact g
        · cases hs
  · rw [h2] at hs ⊢
    refine ⟨refresh_good hg, fun hq => ?_⟩
    simp only [refresh, hq]
    exact hi hq

theorem broken {K : Typ} {answer : Nat → Option Msg} (m : Node) (hm : m.state = .broken) : Inv K answer m :=
  ⟨fun h => (by rw [hm] at h; cases h), fun h => (by rw [hm] at h; cases h)⟩

/-- The beginning of a tick. -/
theorem begin_inv {K : Typ} {answer : Nat → Option Msg} {n : Node} (hi : Inv K answer n) : Inv K answer (begin n) := by
  refine ⟨fun h => ?_, fun h hq => ?_⟩
  · have g := hi.good h
    exact ⟨g.set, g.idle, g.done, g.fresh, g.name, g.todo⟩
  · exact now_congr (hi.now h ((Rpc.anyUpdated_inputs (d := n.data) (d' := { n.data with outputs := mapAll Cont.resetUpdated n.data.outputs }) rfl _).symm.trans hq)) _
      (fun _ _ => rfl) fun _ k => Rpc.output_reset n.data k

theorem good_congr {n : Node} (h : Good n) (d : NodeData) (hd : value d "action_name" = value n.data "action_name") : Good { n with data := d } :=
  ⟨h.set, h.idle, h.done, h.fresh, fun hs c hc => by dsimp only; rw [hd]; exact h.name hs c hc, h.todo⟩

theorem inv_tick {K : Typ} (hK : K.result.Nodup) {answer : Nat → Option Msg} {n : Node} (hi : Inv K answer n) (w : World) : Inv K answer (tick K answer w n).1 := by
  unfold tick
  split
  · rename_i hacc
    split
    · have hb := begin_inv hi
      have hbg := hb.good hacc
      have hbn := hb.now hacc
      generalize begin n = n₀ at hb hbg hbn
      have hpre := prep_same K w n₀
      dsimp only
      split
      · -- an exception
        rename_i hx
        unfold doTick at hx ⊢
        rcases andThen_cases (prep K w n₀) (dispatch K answer w) with ⟨⟨s, h1⟩, h2⟩ | ⟨h1, h2⟩
        · rw [h2] at hx ⊢
          obtain ⟨q1, q2, _⟩ := prep_ok hbg hbn h1
          obtain ⟨r1, r2, r3, r4⟩ := dispatch_raised q2 hx
          exact ⟨fun _ => r1, fun _ _ => r4 q1⟩
        · rw [h2] at hx ⊢
          obtain ⟨q1, q2⟩ := prep_raised hbg hbn hx
          refine ⟨fun _ => q1, fun _ hq => q2 ?_⟩
          rw [← hpre.data]; exact hq
      · exact broken _ rfl
      · rename_i s hx
        unfold doTick at hx ⊢
        obtain ⟨⟨s', h1⟩, h2⟩ := andThen_ok hx
        rw [h2] at hx ⊢
        obtain ⟨q1, q2, _⟩ := prep_ok hbg hbn h1
        obtain ⟨r1, r2, r3⟩ := dispatch_after hK q1 q2 hx
        have hgood : Inv K answer { (dispatch K answer w (prep K w n₀).1).1 with
            state := s,
            data := { (dispatch K answer w (prep K w n₀).1).1.data with inputs := mapAll Cont.resetUpdated (dispatch K answer w (prep K w n₀).1).1.data.inputs } } :=
          ⟨fun _ => good_congr r2 _ (Rpc.value_reset _ _), fun _ _ => now_congr r1 _ (fun k _ => Rpc.value_reset _ k) fun _ _ => rfl⟩
        split
        · split
          · exact hgood
          · exact broken _ rfl
        · exact hgood
    · exact broken _ rfl
  · exact hi

/-- What untick leaves behind. -/
theorem untick_cases (n : Node) : (n.st = none ∧ doUntick n = (n, none)) ∨ (∃ m, doUntick n = (m, some .err)) ∨
    ∃ m : Node, doUntick n = (m, some (.ok .idle)) ∧ m.st = some .idle ∧ m.client = n.client ∧ m.data = n.data ∧ m.input = n.input := by
  unfold doUntick
  split
  · rename_i h; exact .inl ⟨h, rfl⟩
  · split
    · cases hh : n.handle with
      | none => exact .inr (.inl ⟨n, by simp only [requestCancel, hh, andThen]⟩)
      | some i =>
        exact .inr (.inr ⟨{ n with resultFut := none, handle := none, cancelFut := none, st := some .idle },
          by simp only [requestCancel, hh, andThen, forgetAll], rfl, rfl, rfl, rfl⟩)
    · exact .inr (.inr ⟨_, rfl, rfl, rfl, rfl, rfl⟩)

theorem reset_cases (n : Node) : (n.st = none ∧ doReset n = (n, none)) ∨ (∃ m, doReset n = (m, some .err)) ∨
    ∃ m : Node, doReset n = (m, some (.ok .idle)) ∧ m.st = some .idle ∧ m.client = none ∧ m.data = n.data ∧ m.input = n.input := by
  unfold doReset
  rcases untick_cases n with ⟨h1, h2⟩ | ⟨m, h⟩ | ⟨m, h, h1, h2, h3, h4⟩
  · exact .inl ⟨h1, by rw [h2]; rfl⟩
  · exact .inr (.inl ⟨m, by rw [h]; rfl⟩)
  · exact .inr (.inr ⟨{ m with client := none }, by rw [h]; rfl, h1, rfl, h3, h4⟩)

theorem inv_untick {K : Typ} {answer : Nat → Option Msg} {n : Node} (hi : Inv K answer n) (hc : Connected n) : Inv K answer (untick n).1 := by
  unfold untick
  split
  · rename_i hacc
    rcases untick_cases n with ⟨h1, _⟩ | ⟨m, h⟩ | ⟨m, h, h1, h2, h3, h4⟩
    · exact absurd h1 (hi.good hacc).set
    · rw [h]; exact broken _ rfl
    · rw [h]
      have hcon : ∀ c, m.client = some c → value m.data "action_name" = some (.str c) := fun c hm => by rw [h3]; exact hc c (h2 ▸ hm)
      refine ⟨fun _ => ⟨by simp [close, h1], fun _ => h1, fun h' => (by cases h'), fun _ _ => rfl, fun _ c hm => hcon c hm, fun _ h' => absurd rfl h'⟩, fun _ hq => ?_⟩
      have hn := hi.now hacc (by
        rw [← hq, ← h3]
        exact (Rpc.anyUpdated_inputs (d := m.data) (d' := { m.data with outputs := mapAll Cont.resetUpdated m.data.outputs }) rfl _).symm)
      refine ⟨fun m' h' => ?_, fun c hm => .inl (hcon c hm), fun h' => ?_, fun h' => ?_, fun h' => ?_, fun h' => (by cases h')⟩
      · rw [← hn.input m' (h4 ▸ h'), ← h3]; exact Rpc.fill_congr fun _ _ => rfl
      · have h' : m.st = some .waitAccept ∨ m.st = some .waitAction := h'
        rw [h1] at h'; rcases h' with h' | h' <;> cases h'
      · exact absurd (h1.symm.trans h') (by simp)
      · exact absurd (h1.symm.trans h') (by simp)
  · exact hi

theorem flagged {d : NodeData} {f : Cont → Cont} (hf : ∀ c, (f c).updated = true) (os : List (String × Cont)) (K : Typ) :
    anyUpdated ⟨mapAll f d.inputs, os⟩ (keys K) ≠ some false := by
  intro h
  obtain ⟨c, h1, h2⟩ := Rpc.anyUpdated_false h "action_name" List.mem_cons_self
  simp only [lookup_mapAll] at h1
  cases hc : d.inputs.lookup "action_name" with
  | none => rw [hc] at h1; cases h1
  | some c' =>
    rw [hc] at h1
    cases h1
    rw [hf] at h2
    cases h2

/-- A node without client in the internal state IDLE. -/
theorem good_fresh {n : Node} (h1 : n.st = some .idle) (h2 : n.client = none) (h3 : n.state = .idle) : Good n :=
  ⟨by simp [h1], fun _ => h1, fun h => (by rw [h3] at h; cases h), fun _ _ => h3, fun _ c hc => (by rw [h2] at hc; cases hc), fun _ h => absurd h3 h⟩

theorem inv_call {K : Typ} (hK : K.result.Nodup) {answer : Nat → Option Msg} {n : Node} (hi : Inv K answer n) (op : Op) (w : World)
    (hc : op = .untick → Connected n) : Inv K answer (run K answer op w n).1 := by
  cases op with
  | tick => exact inv_tick hK hi w
  | untick => exact inv_untick hi (hc rfl)
  | setup =>
    simp only [run, setup]
    split
    · split
      · exact ⟨fun _ => good_fresh rfl rfl rfl, fun _ hq => absurd hq (flagged (fun _ => rfl) _ K)⟩
      · exact broken _ rfl
    · exact hi
  | reset =>
    simp only [run, reset]
    split
    · rename_i hacc
      rcases reset_cases { n with data := ⟨mapAll Cont.flagUpdated n.data.inputs, mapAll (fun c => c.resetValue.resetUpdated) n.data.outputs⟩ } with
        ⟨h1, _⟩ | ⟨m, h⟩ | ⟨m, h, h1, h2, h3, h4⟩
      · exact absurd h1 (hi.good hacc).set
      · rw [h]; exact broken _ rfl
      · rw [h]
        refine ⟨fun _ => good_fresh h1 h2 rfl, fun _ hq => ?_⟩
        have hq : anyUpdated m.data (keys K) = some false := hq
        rw [h3] at hq
        exact absurd hq (flagged (fun _ => rfl) _ K)
    · exact hi
  | shutdown =>
    simp only [run, shutdown]
    split
    · exact hi
    · rcases reset_cases n with ⟨h1, h⟩ | ⟨m, h⟩ | ⟨m, h, h1, h2, h3, h4⟩
      · rw [h]; exact hi
      · rw [h]; exact broken _ rfl
      · rw [h]; exact ⟨fun h => (by cases h), fun h => (by cases h)⟩

theorem inv_deliver {K : Typ} {answer : Nat → Option Msg} {n : Node} (hi : Inv K answer n) (k : String) (v : Val) (hd : Differs n.data k v)
    (hc : n.state = .idle → Connected { n with data := deliver n.data k v }) : Inv K answer { n with data := deliver n.data k v } := by
  refine ⟨fun hacc => ?_, fun hacc hq => ?_⟩
  · have g := hi.good hacc
    exact ⟨g.set, g.idle, g.done, g.fresh, hc, g.todo⟩
  · obtain ⟨h1, h2⟩ := Rpc.deliver_quiet hd hq
    exact now_congr (hi.now hacc h1) _ h2 fun _ k => by simp only [outputValue, Rpc.deliver_outputs]

theorem inv {K : Typ} (hK : K.result.Nodup) {answer : Nat → Option Msg} {n : Node} (h : Runs K answer true n) : Inv K answer n := by
  induction h with
  | new d => exact ⟨fun h => (by cases h), fun h => (by cases h)⟩
  | call op w _ hc ih => exact inv_call hK ih op w (hc rfl)
  | deliver k v _ hd ih => exact inv_deliver ih k v (hd rfl).1 (hd rfl).2

/-- A tick that answers. -/
theorem tick_ok {K : Typ} {answer : Nat → Option Msg} {n : Node} {w : World} {s : BTState} (hs : (tick K answer w n).2 = some (.ok s)) :
    accepts .tick n.state = true ∧ (∃ s', (prep K w (begin n)).2 = some (.ok s')) ∧ (dispatch K answer w (prep K w (begin n)).1).2 = some (.ok s) ∧
      allowedAfter .tick s = true ∧ (tick K answer w n).1 = { (dispatch K answer w (prep K w (begin n)).1).1 with
        state := s, data := { (dispatch K answer w (prep K w (begin n)).1).1.data with
          inputs := mapAll Cont.resetUpdated (dispatch K answer w (prep K w (begin n)).1).1.data.inputs } } := by
  unfold tick at hs ⊢
  split at hs
  · rename_i hacc
    rw [if_pos hacc]
    split at hs
    · rename_i hin
      rw [if_pos hin]
      dsimp only at hs ⊢
      cases hx : (doTick K answer w (begin n)).2 with
      | none =>
        rw [hx] at hs
        dsimp only at hs
        rw [hx] at hs
        cases hs
      | some r =>
        cases r with
        | err =>
          rw [hx] at hs
          cases hs
        | ok s' =>
          rw [hx] at hs
          dsimp only at hs ⊢
          by_cases ha : allowedAfter .tick s' = true
          · rw [if_pos ha] at hs ⊢
            by_cases hp : w.pushOk = true
            · rw [if_pos hp] at hs ⊢
              cases hs
              unfold doTick at hx ⊢
              obtain ⟨h1, h2⟩ := andThen_ok hx
              rw [h2] at hx ⊢
              exact ⟨hacc, h1, hx, ha, rfl⟩
            · rw [if_neg hp] at hs; cases hs
          · rw [if_neg ha] at hs; cases hs
    · cases hs
  · cases hs

/-! ### C133 -/

/-- C133: a goal that is sent goes to the action that the inputs name and has the fields that the inputs ask for. Missing: executions in which a value is
delivered that equals one that has arrived since the last tick (`c133_stale`), and those in which the name of the action changes around an untick
(`c133_untick`). -/
theorem c133_goal_partial {K : Typ} (hK : K.result.Nodup) {answer : Nat → Option Msg} {n : Node} (h : Runs K answer true n) (w : World)
    (hs : (tick K answer w n).1.sent ≠ n.sent) : ∃ c m, (tick K answer w n).1.sent = n.sent ++ [(c, m)] ∧ Asks K n.data c m := by
  have hi := begin_inv (inv hK h)
  have key : ∀ s, (prep K w (begin n)).2 = some (.ok s) → accepts .tick n.state = true → (dispatch K answer w (prep K w (begin n)).1).1.sent ≠ n.sent →
      ∃ c m, (dispatch K answer w (prep K w (begin n)).1).1.sent = n.sent ++ [(c, m)] ∧ Asks K n.data c m := by
    intro s h1 hacc hne
    obtain ⟨q1, _, _⟩ := prep_ok (hi.good hacc) (hi.now hacc) h1
    have hpre := prep_same K w (begin n)
    rcases dispatch_sent K answer w (prep K w (begin n)).1 with h2 | ⟨h2, c, m, h3, h4, h5⟩
    · exact absurd (h2.trans hpre.sent) hne
    · rw [h5, hpre.sent]
      refine ⟨c, m, rfl, current_asks ?_⟩
      have hcur : Current K (prep K w (begin n)).1.data c m := ⟨(q1.client c h3).resolve_right fun h => h h2, q1.input m h4⟩
      rw [hpre.data] at hcur
      exact current_congr (d := (begin n).data) (d' := n.data) (fun _ _ => rfl) hcur
  have hd : (doTick K answer w (begin n)).1.sent ≠ n.sent → accepts .tick n.state = true →
      ∃ c m, (doTick K answer w (begin n)).1.sent = n.sent ++ [(c, m)] ∧ Asks K n.data c m := by
    intro hne hacc
    unfold doTick at hne ⊢
    rcases andThen_cases (prep K w (begin n)) (dispatch K answer w) with ⟨⟨s, h1⟩, h2⟩ | ⟨_, h2⟩
    · rw [h2] at hne ⊢
      exact key s h1 hacc hne
    · rw [h2] at hne
      exact absurd (prep_same K w (begin n)).sent hne
  unfold tick at hs ⊢
  split at hs
  · rename_i hacc
    rw [if_pos hacc]
    split at hs
    · rename_i hin
      rw [if_pos hin]
      dsimp only at hs ⊢
      split at hs
      · exact hd hs hacc
      · exact hd hs hacc
      · split at hs
        · rename_i ha
          rw [if_pos ha]
          split at hs
          · rename_i hp; rw [if_pos hp]; exact hd hs hacc
          · rename_i hp; rw [if_neg hp]; exact hd hs hacc
        · rename_i ha; rw [if_neg ha]; exact hd hs hacc
    · exact absurd rfl hs
  · exact absurd rfl hs

/-- C133: whenever an Action node answers SUCCEEDED, the goal it has sent last is the one that its inputs ask for now (name of the action and fields), and
its outputs show the result of this goal. -/
theorem c133_answer_partial {K : Typ} (hK : K.result.Nodup) {answer : Nat → Option Msg} {n : Node} (h : Runs K answer true n) (w : World)
    (hs : (tick K answer w n).2 = some (.ok .succeeded)) :
    ∃ i c m r, i + 1 = (tick K answer w n).1.sent.length ∧ (tick K answer w n).1.sent[i]? = some (c, m) ∧ Asks K (tick K answer w n).1.data c m ∧
      answer i = some r ∧ Tells K (tick K answer w n).1.data r := by
  have hi := begin_inv (inv hK h)
  obtain ⟨hacc, ⟨s', h1⟩, h2, _, h4⟩ := tick_ok hs
  obtain ⟨q1, q2, _⟩ := prep_ok (hi.good hacc) (hi.now hacc) h1
  obtain ⟨r1, r2, _⟩ := dispatch_after hK q1 q2 h2
  rw [h4]
  obtain ⟨i, r, ⟨k1, c, m, k2, k3⟩, k4, k5⟩ := (now_congr r1 _ (fun k _ => Rpc.value_reset _ k) fun _ _ => rfl).told rfl (dispatch_input q1 h2)
  exact ⟨i, c, m, r, k1, k2, current_asks k3, k4, k5⟩

theorem asks_current {K : Typ} {d : NodeData} {c : String} {m : Msg} (h : Asks K d c m) : Current K d c m := ⟨h.1, Rpc.asks_fill h.2.1 h.2.2⟩

theorem asks_new {K : Typ} {d : NodeData} {c : String} {m : Msg} (h : Asks K d c m) (hn : New d (keys K)) : anyUpdated d (keys K) = some true := by
  have hl : ∀ k v, value d k = some v → ∃ c, d.inputs.lookup k = some c := by
    intro k v hv
    unfold value at hv
    cases hc : d.inputs.lookup k with
    | none => rw [hc] at hv; cases hv
    | some c => exact ⟨c, rfl⟩
  have hk : ∀ k ∈ keys K, ∃ c, d.inputs.lookup k = some c := by
    intro k hk
    rcases List.mem_cons.1 hk with rfl | hk
    · exact hl _ _ h.1
    · obtain ⟨j, hj, hjk⟩ := List.getElem_of_mem hk
      have hlen : m.length = K.goal.length := by simpa using congrArg List.length h.2.1
      have hj' : j < K.goal.length := by simpa using hj
      obtain ⟨v, h1, _⟩ := h.2.2 (K.goal[j], m[j]'(by omega)) (by
        have := List.getElem_mem (l := K.goal.zip m) (n := j) (by simp; omega)
        simpa using this)
      refine hl k v ?_
      rw [← hjk]
      simpa using h1
  obtain ⟨b, hb⟩ : ∃ b, anyUpdated d (keys K) = some b := by
    revert hk
    generalize keys K = ks
    intro hk
    induction ks with
    | nil => exact ⟨_, rfl⟩
    | cons k ks ih =>
      obtain ⟨c', hc'⟩ := hk k List.mem_cons_self
      obtain ⟨b, hb⟩ := ih fun k hk' => hk k (List.mem_cons_of_mem _ hk')
      exact ⟨c'.updated || b, by simp [anyUpdated, hc', hb]⟩
  rw [hb]
  cases b with
  | true => rfl
  | false =>
    obtain ⟨k, hk, c, h1, h2⟩ := hn
    obtain ⟨c', h3, h4⟩ := Rpc.anyUpdated_false hb k hk
    rw [h1] at h3
    cases h3
    rw [h2] at h4
    cases h4

theorem all_values {n : Node} (hr : ∀ p ∈ n.data.inputs, p.2.value ≠ none) : n.data.inputs.all (·.2.value.isSome) = true := by
  rw [List.all_eq_true]
  intro p hp
  exact Option.isSome_iff_ne_none.2 (hr p hp)

/-- C133: in the first tick after a setup, a reset or an untick, if an input is new, the goal that the inputs ask for is sent, and the node answers RUNNING
(if the world plays along). -/
theorem c133_first_partial {K : Typ} (hK : K.result.Nodup) {answer : Nat → Option Msg} {n : Node} (h : Runs K answer true n) (w : World)
    (hidle : n.state = .idle) (hr : ∀ p ∈ n.data.inputs, p.2.value ≠ none) {c : String} {m : Msg} (ha : Asks K n.data c m)
    (hn : New n.data (keys K)) (hw : w.createRaises = false ∧ w.pushOk = true) :
    (tick K answer w n).2 = some (.ok .running) ∧ (tick K answer w n).1.sent = n.sent ++ [(c, m)] := by
  have hacc : accepts .tick n.state = true := by rw [hidle]; rfl
  have hg := (inv hK h).good hacc
  obtain ⟨hw1, hw2⟩ := hw
  have hvals := all_values hr
  have hcur : Current K (begin n).data c m := current_congr (d := n.data) (d' := (begin n).data) (fun _ _ => rfl) (asks_current ha)
  have hup : anyUpdated (begin n).data (keys K) = some true := (Rpc.anyUpdated_inputs (d := n.data) (d' := (begin n).data) rfl _).trans (asks_new ha hn)
  have hst : (begin n).st = some .idle := hg.idle hidle
  have href : refresh K (begin n) = ({ begin n with input := some (some m) }, some (.ok .idle)) := by
    simp only [refresh, hup, hcur.2, hst, true_or, if_true]
  have hcon : connect w { begin n with input := some (some m) } = ({ begin n with input := some (some m), client := some c }, some (.ok .idle)) := by
    cases hc : n.client with
    | none =>
      have : valueAs asStr (begin n).data "action_name" = some c := by simp [valueAs, hcur.1, asStr]
      simp only [connect, show (begin n).client = n.client from rfl, hc, this, hw1]
      rfl
    | some c' =>
      have h1 := hg.name hidle c' hc
      rw [ha.1] at h1
      cases h1
      simp only [connect, show (begin n).client = n.client from rfl, hc]
  have hdo : doTick K answer w (begin n) = ({ begin n with
      request := some n.sent.length, client := some c, input := some none, st := some .waitAccept, sent := n.sent ++ [(c, m)] }, some (.ok .running)) := by
    have hp : prep K w (begin n) = ({ begin n with input := some (some m), client := some c }, some (.ok .idle)) := by
      unfold prep
      rw [href]
      exact hcon
    unfold doTick
    rw [hp]
    simp only [andThen, dispatch, hst, sendGoal]
    rfl
  simp only [tick, hacc, if_true, hvals, hdo, hw2, show allowedAfter .tick .running = true from rfl]
  exact ⟨trivial, trivial⟩

/-- C133: if an input is new after the node has answered SUCCEEDED, the goal that the inputs then ask for is sent in the second tick; the node answers RUNNING
in both. -/
theorem c133_again_partial {K : Typ} (hK : K.result.Nodup) {answer : Nat → Option Msg} {n : Node} (h : Runs K answer true n) (w w' : World)
    (hsucc : n.state = .succeeded) (hr : ∀ p ∈ n.data.inputs, p.2.value ≠ none) {c : String} {m : Msg} (ha : Asks K n.data c m)
    (hn : New n.data (keys K)) (hw : w.createRaises = false ∧ w.pushOk = true) (hw' : w'.createRaises = false ∧ w'.pushOk = true) :
    (tick K answer w n).2 = some (.ok .running) ∧ (tick K answer w' (tick K answer w n).1).2 = some (.ok .running) ∧
      (tick K answer w' (tick K answer w n).1).1.sent = n.sent ++ [(c, m)] := by
  have hacc : accepts .tick n.state = true := by rw [hsucc]; rfl
  have hg := (inv hK h).good hacc
  have hvals := all_values hr
  have hcur : Current K (begin n).data c m := current_congr (d := n.data) (d' := (begin n).data) (fun _ _ => rfl) (asks_current ha)
  have hup : anyUpdated (begin n).data (keys K) = some true := (Rpc.anyUpdated_inputs (d := n.data) (d' := (begin n).data) rfl _).trans (asks_new ha hn)
  have hst : (begin n).st = some .finished := hg.done hsucc
  have href : refresh K (begin n) = ({ begin n with input := some (some m) }, some (.ok .idle)) := by
    simp only [refresh, hup, hcur.2, hst, true_or, or_true, if_true]
  have hname : valueAs asStr (begin n).data "action_name" = some c := by simp [valueAs, hcur.1, asStr]
  obtain ⟨x, hcon⟩ : ∃ x, connect w { begin n with input := some (some m) } = ({ begin n with input := some (some m), client := x }, some (.ok .idle)) := by
    cases hc : n.client with
    | none =>
      refine ⟨some c, ?_⟩
      simp only [connect, show (begin n).client = n.client from rfl, hc, hname, hw.1]
      rfl
    | some c' =>
      refine ⟨some c', ?_⟩
      simp only [connect, show (begin n).client = n.client from rfl, hc]
  have hdo : doTick K answer w (begin n) = ({ begin n with client := none, input := some (some m), st := some .idle }, some (.ok .running)) := by
    have hp : prep K w (begin n) = ({ begin n with input := some (some m), client := x }, some (.ok .idle)) := by
      unfold prep
      rw [href]
      exact hcon
    unfold doTick
    rw [hp]
    simp only [andThen, dispatch, hst, finished]
  have h1 : tick K answer w n = ({ begin n with
      client := none, input := some (some m), st := some .idle, state := .running,
      data := { (begin n).data with inputs := mapAll Cont.resetUpdated (begin n).data.inputs } }, some (.ok .running)) := by
    simp only [tick, hacc, if_true, hvals, hdo, hw.2, show allowedAfter .tick .running = true from rfl]
  rw [h1]
  refine ⟨rfl, ?_⟩
  generalize hd : ({ (begin n).data with inputs := mapAll Cont.resetUpdated (begin n).data.inputs } : NodeData) = d
  generalize hn1 : ({ begin n with client := none, input := some (some m), st := some .idle, state := .running, data := d } : Node) = n1
  have hv1 : n1.data.inputs.all (·.2.value.isSome) = true := by
    rw [← hn1, ← hd]
    simp only [mapAll, List.all_map]
    simpa [Function.comp_def, Cont.resetUpdated, begin] using hvals
  have hup1 : anyUpdated (begin n1).data (keys K) = some false :=
    Rpc.anyUpdated_isSome (d := (begin n).data) hup (by rw [← hn1, ← hd]; rfl)
  have hname1 : valueAs asStr (begin n1).data "action_name" = some c := by
    rw [← hname, valueAs, valueAs, ← Rpc.value_reset (begin n).data, hd, ← hn1]
    rfl
  have hp : prep K w' (begin n1) = ({ begin n1 with client := some c }, some (.ok .idle)) := by
    have hc1 : (begin n1).client = none := by rw [← hn1]; rfl
    simp only [prep, refresh, hup1, andThen, connect, hc1, hname1, hw'.1]
    rfl
  have hs1 : n1.sent = n.sent := by rw [← hn1]; rfl
  have hdo1 : doTick K answer w' (begin n1) = ({ begin n1 with
      request := some n.sent.length, client := some c, input := some none, st := some .waitAccept, sent := n.sent ++ [(c, m)] }, some (.ok .running)) := by
    have hi1 : (begin n1).input = some (some m) := by rw [← hn1]; rfl
    have hst1 : (begin n1).st = some .idle := by rw [← hn1]; rfl
    unfold doTick
    rw [hp]
    simp only [andThen, dispatch, hst1, sendGoal, hi1, show (begin n1).sent = n1.sent from rfl, hs1]
  have hacc1 : accepts .tick n1.state = true := by rw [← hn1]; rfl
  simp only [tick, hacc1, if_true, hv1, hdo1, hw'.2, show allowedAfter .tick .running = true from rfl]
  exact ⟨trivial, trivial⟩

/-! ### Examples -/

/-- An action with one field in goal and result. -/
def count : Typ := ⟨[("order", .base (.int true 32))], ["last"], ["partial"]⟩

/-- The inputs and outputs of an Action node for it. -/
def countData : NodeData where
  inputs := [("action_type", { ty := .rosType .action 1, allowDynamic := false, value := some (.cls "example_interfaces/action/Count") }),
    ("action_name", { ty := .rosName .action 1, isStatic := false }), ("order", { ty := (Field.base (.int true 32)).ty, isStatic := false })]
  outputs := [("result.last", { ty := (Field.base (.int true 32)).ty, isStatic := false }),
    ("feedback.last", { ty := (Field.base (.int true 32)).ty, isStatic := false })]

/-- The server. -/
def counted (i : Nat) : Option Msg := some [("last", .int (if i = 0 then 2 else 5))]

/-- What happens. -/
inductive Ev
  | call (op : Op) (w : World)
  | deliver (k : String) (v : Val)

/-- One event. -/
def go (n : Node) : Ev → Node
  | .call op w => (run count counted op w n).1
  | .deliver k v => { n with data := deliver n.data k v }

/-- The node is set up, gets its inputs, sends the goal, and the goal is accepted. -/
def pursuing : Node := [.call .setup {}, .deliver "action_name" (.str "/a"), .deliver "order" (.int 3), .call .tick {}, .call .tick { req := .handle true }].foldl go
  (new countData)

/-- The result is there. -/
def reached : Node := go pursuing (.call .tick { res := .done })

theorem differs_of {n : Node} {k : String} {v : Val} (h : ((n.data.inputs.lookup k).map fun c => c.updated && c.value.isSome) ≠ some true) :
    Differs n.data k v := by
  intro c hc hu u hv
  rw [hc] at h
  simp [hu, hv] at h

theorem connected_of {n : Node} (h : n.client = none) : Connected n := fun c hc => by rw [h] at hc; cases hc

theorem pursuing_runs (calm : Bool) : Runs count counted calm pursuing := by
  refine .call .tick _ (.call .tick _ (.deliver "order" _ (.deliver "action_name" _ (.call .setup _ (.new countData) fun _ h => (by cases h)) ?_) ?_)
    fun _ h => (by cases h)) fun _ h => (by cases h)
  · exact fun _ => ⟨differs_of (by decide +kernel), fun _ => connected_of (by decide +kernel)⟩
  · exact fun _ => ⟨differs_of (by decide +kernel), fun _ => connected_of (by decide +kernel)⟩

theorem reached_runs (calm : Bool) : Runs count counted calm reached := .call .tick _ (pursuing_runs calm) fun _ h => (by cases h)

example : pursuing.state = .running ∧ pursuing.st = some .waitAction ∧ pursuing.sent = [("/a", [("order", .int 3)])] :=
  ⟨by decide +kernel, by decide +kernel, rfl⟩

example : (tick count counted { res := .done } pursuing).2 = some (.ok .succeeded) ∧ outputValue reached.data "result.last" = some (.int 2) :=
  ⟨by decide +kernel, rfl⟩

example : ∃ i c m r, i + 1 = reached.sent.length ∧ reached.sent[i]? = some (c, m) ∧ Asks count reached.data c m ∧ counted i = some r ∧ Tells count reached.data r :=
  c133_answer_partial (by decide) (pursuing_runs true) { res := .done } (by decide +kernel)

/-- The name changes after the result: the node drops its client and sends the goal to the other action. -/
def moved : Node := go (go reached (.deliver "action_name" (.str "/b"))) (.call .tick {})

theorem moved_runs : Runs count counted true moved :=
  .call .tick _ (.deliver "action_name" _ (reached_runs true) fun _ => ⟨differs_of (by decide +kernel), fun h => absurd h (by decide +kernel)⟩)
    fun _ h => (by cases h)

example : (tick count counted {} moved).1.sent = [("/a", [("order", .int 3)]), ("/b", [("order", .int 3)])] := rfl

example : ∃ c m, (tick count counted {} moved).1.sent = moved.sent ++ [(c, m)] ∧ Asks count moved.data c m :=
  c133_goal_partial (by decide) moved_runs {} fun h => by
    have := congrArg List.length h
    revert this
    decide +kernel

example : (tick count counted {} moved).1.sent = [("/a", [("order", .int 3)]), ("/b", [("order", .int 3)])] := by
  refine (c133_again_partial (by decide) (n := go reached (.deliver "action_name" (.str "/b"))) (c := "/b") (m := [("order", .int 3)])
    (.deliver "action_name" _ (reached_runs true) fun _ => ⟨differs_of (by decide +kernel), fun h => absurd h (by decide +kernel)⟩)
    {} {} (by decide +kernel) (by decide +kernel) ⟨rfl, by decide, ?_⟩ ?_ ⟨rfl, rfl⟩ ⟨rfl, rfl⟩).2.2
  · intro q hq
    simp only [count, List.zip_cons_cons, List.zip_nil_left, List.mem_cons, List.not_mem_nil, or_false] at hq
    subst hq
    exact ⟨.int 3, rfl, rfl⟩
  · exact ⟨"action_name", by decide, _, rfl, rfl⟩

/-- Before the first tick. -/
def ready : Node := [.call .setup {}, .deliver "action_name" (.str "/a"), .deliver "order" (.int 3)].foldl go (new countData)

example : (tick count counted {} ready).1.sent = [("/a", [("order", .int 3)])] := by
  refine (c133_first_partial (by decide) (n := ready) (c := "/a") (m := [("order", .int 3)]) ?_
    {} (by decide +kernel) (by decide +kernel) ⟨rfl, by decide, ?_⟩ ?_ ⟨rfl, rfl⟩).2
  · refine .deliver "order" _ (.deliver "action_name" _ (.call .setup _ (.new countData) fun _ h => (by cases h)) ?_) ?_
    · exact fun _ => ⟨differs_of (by decide +kernel), fun _ => connected_of (by decide +kernel)⟩
    · exact fun _ => ⟨differs_of (by decide +kernel), fun _ => connected_of (by decide +kernel)⟩
  · intro q hq
    simp only [count, List.zip_cons_cons, List.zip_nil_left, List.mem_cons, List.not_mem_nil, or_false] at hq
    subst hq
    exact ⟨.int 3, rfl, rfl⟩
  · exact ⟨"action_name", by decide, _, rfl, rfl⟩

/-- The node is unticked, then the name changes. -/
def renamed : Node := [.call .untick {}, .deliver "action_name" (.str "/b")].foldl go reached

/-- C133, not so: the goal for the new action is sent to the old one. -/
theorem c133_untick : Runs count counted false renamed ∧ value renamed.data "action_name" = some (.str "/b") ∧
    (tick count counted {} renamed).2 = some (.ok .running) ∧ (tick count counted {} renamed).1.sent = renamed.sent ++ [("/a", [("order", .int 3)])] :=
  ⟨.deliver _ _ (.call .untick _ (reached_runs false) fun h => (by cases h)) fun h => (by cases h), rfl, by decide +kernel, rfl⟩

/-- The same value is delivered twice before the next tick. -/
def again : Node := [.deliver "order" (.int 6), .deliver "order" (.int 6)].foldl go reached

/-- C133, not so: the node then answers SUCCEEDED at once, with the result of the old goal. -/
theorem c133_stale : Runs count counted false again ∧ value again.data "order" = some (.int 6) ∧ (tick count counted {} again).2 = some (.ok .succeeded) ∧
    (tick count counted {} again).1.sent = [("/a", [("order", .int 3)])] :=
  ⟨.deliver _ _ (.deliver _ _ (reached_runs false) fun h => (by cases h)) fun h => (by cases h), rfl, by decide +kernel, rfl⟩

end Verif.Ros.Goal
