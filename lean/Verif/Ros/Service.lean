import Verif.Ros.Frame

/-! C57: service calls (`ros_nodes/service.py`, class `ServiceBase`). -/

set_option autoImplicit false

namespace Verif.Ros

open Verif.BT (BTState Op Res)

namespace Service

/-- What a future says when it is asked (service.py 187-195): `done` with the response
(`none`: the response is `None`), cancelled by somebody else, or neither. -/
inductive Fut
  | pending | done (response : Option Nat) | cancelled
  deriving DecidableEq, Repr

/-- Effects: the client is created and destroyed, a request is called (with its number, content
and time), a future is cancelled, a response is put to the outputs, a future that says it was
cancelled is dropped. -/
inductive Act
  | create | destroy
  | call (n : Nat) (request : Nat) (time : Int)
  | cancel (n : Nat)
  | respond (n : Nat) (response : Nat)
  | drop (n : Nat)
  deriving DecidableEq, Repr

/-- service.py 107-131: the attributes `_service_client`, `_service_request_future` (the number
of the request), `_input_request`, `_last_service_call_time` and `_timeout_seconds`. `next`
numbers the requests (not in the code). Requests and responses are numbers in the model. -/
structure Mem where
  client : Bool := false
  future : Option Nat := none
  input : Option Nat := none
  lastCall : Option Int := none
  timeout : Int := 0
  next : Nat := 0
  deriving DecidableEq, Repr

/-- The outside world: is there a ROS node, the input `wait_for_response_seconds`, can the type
and the flags be read, the request built from the inputs (`none`: `Err`), can the name be read,
does `create_client` raise, does `destroy_client` succeed, what do the futures say, what does
`set_outputs` answer (`none`: `Err`, otherwise whether SUCCEEDED or FAILED), the two clock readings. -/
structure Env where
  hasRos : Bool := true
  seconds : Option Int := some 10
  typeOk : Bool := true
  flagsOk : Bool := true
  request : Option Nat := some 0
  nameOk : Bool := true
  createRaises : Bool := false
  destroyOk : Bool := true
  fut : Nat → Fut := fun _ => .pending
  outcome : Option Bool := some true
  now : Int := 0
  later : Int := 0

/-- service.py 107-131 -/
def doSetup (e : Env) (m : Mem) : HookOut Mem Act :=
  let m := { m with client := false, future := none, input := none }
  match e.seconds with
  | none => ⟨m, some .err, []⟩
  | some t =>
    let m := { m with timeout := t }
    if e.typeOk && e.hasRos then ⟨m, some (.ok .idle), []⟩ else ⟨m, some .err, []⟩

/-- service.py 217-223 -/
def doUntick (m : Mem) : HookOut Mem Act :=
  ⟨{ m with future := none, input := none, lastCall := none }, some (.ok .idle),
    match m.future with
    | some n => [.cancel n]
    | none => []⟩

/-- service.py 225-234 -/
def doReset (e : Env) (m : Mem) : HookOut Mem Act :=
  if m.client then
    if e.destroyOk then
      ⟨(doUntick { m with client := false }).mem, some (.ok .idle), .destroy :: (doUntick m).acts⟩
    else ⟨m, some .err, []⟩
  else doUntick m

/-- service.py 140-150 and 152-161: `match self.get_request()`. -/
def fetch (e : Env) (m : Mem) : HookOut Mem Act :=
  match e.request with
  | none => ⟨m, some .err, []⟩
  | some r => ⟨{ m with input := some r }, some (.ok .idle), []⟩

/-- service.py 140-150 -/
def refresh (updated : Bool) (e : Env) (m : Mem) : HookOut Mem Act :=
  if updated then (doReset e m).andThen (fetch e) else ⟨m, some (.ok .idle), []⟩

/-- service.py 152-161 -/
def first (st : BTState) (e : Env) (m : Mem) : HookOut Mem Act :=
  if st = .idle ∧ m.future = none ∧ m.input = none then fetch e m else ⟨m, some (.ok .idle), []⟩

/-- service.py 163-173 -/
def connect (e : Env) (m : Mem) : HookOut Mem Act :=
  if m.client then ⟨m, some (.ok .idle), []⟩
  else if e.nameOk then
    if e.createRaises then ⟨m, none, []⟩
    else ⟨{ m with client := true }, some (.ok .idle), [.create]⟩
  else ⟨m, some .err, []⟩

/-- service.py 197-215: the timeout. -/
def deadline (e : Env) (n : Nat) (m : Mem) : HookOut Mem Act :=
  let t := m.lastCall.getD e.now
  if m.timeout < e.later - t then ⟨{ m with lastCall := some t, future := none }, some (.ok .failed), [.cancel n]⟩
  else ⟨{ m with lastCall := some t }, some (.ok .running), []⟩

/-- service.py 175-215 -/
def poll (st : BTState) (e : Env) (m : Mem) : HookOut Mem Act :=
  match m.input with
  | some r =>
    ⟨{ m with lastCall := some e.now, future := some m.next, input := none, next := m.next + 1 },
      some (.ok .running), [.call m.next r e.now]⟩
  | none =>
    match m.future with
    | none => ⟨m, some (.ok st), []⟩
    | some n =>
      match e.fut n with
      | .done none => ⟨m, some .err, []⟩
      | .done (some x) =>
        ⟨{ m with future := none },
          some (match e.outcome with
            | none => .err
            | some true => .ok .succeeded
            | some false => .ok .failed), [.respond n x]⟩
      | .cancelled => ⟨{ m with future := none }, some (.ok .failed), [.drop n]⟩
      | .pending => deadline e n m

/-- service.py 133-215 -/
def doTick (st : BTState) (updated : Bool) (e : Env) (m : Mem) : HookOut Mem Act :=
  if e.flagsOk then
    (((refresh updated e m).andThen (first st e)).andThen (connect e)).andThen (poll st e)
  else ⟨m, some .err, []⟩

/-- service.py 107-237. `upd ()` says whether the name or the request fields were updated. -/
def hook (op : Op) (st : BTState) (upd : Unit → Bool) (e : Env) (m : Mem) : HookOut Mem Act :=
  match op with
  | .setup => doSetup e m
  | .tick => doTick st (upd ()) e m
  | .untick => doUntick m
  | .reset => doReset e m
  | .shutdown => (doReset e m).andThen fun m => ⟨m, some (.ok .shutdown), []⟩

/-- service.py 65-261 -/
def cls : Class Mem Unit Env Empty Act := ⟨{}, hook, fun v => v.elim⟩

abbrev Hist := Class.History Unit Env Empty Act

/-! ### What the service sees -/

/-- The request that is outstanding: called, and neither cancelled, answered nor dropped since
(effects latest first). -/
def outstanding : List Act → Option (Nat × Int)
  | [] => none
  | .call n _ t :: _ => some (n, t)
  | .cancel _ :: _ => none
  | .respond _ _ :: _ => none
  | .drop _ :: _ => none
  | _ :: tr => outstanding tr

/-- The number of the request that was called last. -/
def latest : List Act → Option Nat
  | [] => none
  | .call n _ _ :: _ => some n
  | _ :: tr => latest tr

/-- The timeout read at the last setup. -/
def timeout : Hist → Option Int
  | [] => none
  | (.call .setup e _ _, ⟨some (.ok _), _⟩) :: _ => e.seconds
  | _ :: h => timeout h

/-! ### The invariant -/

/-- Every response that was used, and every cancellation, belongs to the request that was
outstanding at that time (effects latest first). -/
def Honest : List Act → Prop
  | [] => True
  | .respond n _ :: tr => (∃ t, outstanding tr = some (n, t)) ∧ Honest tr
  | .cancel n :: tr => (∃ t, outstanding tr = some (n, t)) ∧ Honest tr
  | .drop n :: tr => (∃ t, outstanding tr = some (n, t)) ∧ Honest tr
  | _ :: tr => Honest tr

/-- `_service_request_future` is the outstanding request and `_last_service_call_time` its time. -/
def Good (tr : List Act) (m : Mem) : Prop :=
  m.future = (outstanding tr).map (·.1) ∧ (∀ n t, outstanding tr = some (n, t) → m.lastCall = some t) ∧ Honest tr

theorem Good.some {tr : List Act} {m : Mem} (h : Good tr m) {n : Nat} (hn : m.future = some n) :
    ∃ t, outstanding tr = some (n, t) ∧ m.lastCall = some t := by
  have h1 := h.1
  rw [hn] at h1
  cases ho : outstanding tr with
  | none => simp [ho] at h1
  | some p =>
    obtain ⟨k, t⟩ := p
    simp [ho] at h1
    subst h1
    exact ⟨t, rfl, h.2.1 _ _ ho⟩

/-- A part of a hook keeps this. -/
def Keeps (k : Mem → HookOut Mem Act) : Prop :=
  ∀ tr m, Good tr m → Good ((k m).acts.reverse ++ tr) (k m).mem

theorem Keeps.andThen {f g : Mem → HookOut Mem Act} (hf : Keeps f) (hg : Keeps g) : Keeps fun m => (f m).andThen g := by
  intro tr m h
  dsimp only [HookOut.andThen]
  split
  · rw [List.reverse_append, List.append_assoc]
    exact hg _ _ (hf _ _ h)
  · exact hf _ _ h

theorem keeps_same (r : Option Res) : Keeps fun m => ⟨m, r, []⟩ := fun _ _ h => h

theorem keeps_untick : Keeps doUntick := by
  intro tr m h
  unfold doUntick
  cases hf : m.future with
  | none =>
    have : outstanding tr = none := by
      have := h.1
      rw [hf] at this
      simpa using this.symm
    simp [Good, this, h.2.2]
  | some n =>
    obtain ⟨t, ht, _⟩ := h.some hf
    simp [Good, outstanding, Honest, ht, h.2.2]

theorem keeps_reset (e : Env) : Keeps (doReset e) := by
  intro tr m h
  unfold doReset
  split
  · split
    · have := keeps_untick tr m h
      have hs : ∀ x : List Act, outstanding (x.reverse ++ [Act.destroy] ++ tr) = outstanding (x.reverse ++ tr) := by
        intro x
        generalize x.reverse = y
        induction y with
        | nil => rfl
        | cons a y ih => cases a <;> simp_all [outstanding]
      have hh : ∀ x : List Act, Honest (x.reverse ++ tr) → Honest (x.reverse ++ [Act.destroy] ++ tr) := by
        intro x
        have hs := hs
        generalize hy : x.reverse = y
        have hs : ∀ y : List Act, outstanding (y ++ [Act.destroy] ++ tr) = outstanding (y ++ tr) := fun y => by
          simpa using hs y.reverse
        clear hy
        induction y with
        | nil => exact id
        | cons a y ih =>
          have := hs y
          cases a <;> simp_all [Honest]
      simp only [Good, List.reverse_cons, hs] at this ⊢
      exact ⟨this.1, this.2.1, hh _ this.2.2⟩
    · exact h
  · exact keeps_untick tr m h

theorem keeps_fetch (e : Env) : Keeps (fetch e) := by
  intro tr m h
  unfold fetch
  split <;> exact h

theorem keeps_refresh (b : Bool) (e : Env) : Keeps (refresh b e) := by
  intro tr m h
  unfold refresh
  split
  · exact (keeps_reset e).andThen (keeps_fetch e) tr m h
  · exact h

theorem keeps_first (st : BTState) (e : Env) : Keeps (first st e) := by
  intro tr m h
  unfold first
  split
  · exact keeps_fetch e tr m h
  · exact h

theorem keeps_connect (e : Env) : Keeps (connect e) := by
  intro tr m h
  unfold connect
  split
  · exact h
  · split
    · split
      · exact h
      · simpa [Good, outstanding, Honest] using h
    · exact h

theorem keeps_poll (st : BTState) (e : Env) : Keeps (poll st e) := by
  intro tr m h
  unfold poll
  split
  · simp [Good, outstanding, Honest, h.2.2]
  · split
    · exact h
    · rename_i n hn
      obtain ⟨t, ht, hl⟩ := h.some hn
      split
      · exact h
      · simp [Good, outstanding, Honest, ht, h.2.2]
      · simp [Good, outstanding, Honest, ht, h.2.2]
      · unfold deadline
        dsimp only
        split
        · simp [Good, outstanding, Honest, ht, h.2.2]
        · refine ⟨h.1, fun k t hk => ?_, h.2.2⟩
          rw [h.2.1 k t hk]
          rfl

theorem keeps_tick (st : BTState) (b : Bool) (e : Env) : Keeps (doTick st b e) := by
  intro tr m h
  unfold doTick
  split
  · exact (((keeps_refresh b e).andThen (keeps_first st e)).andThen (keeps_connect e)).andThen (keeps_poll st e) tr m h
  · exact h

theorem keeps_hook (op : Op) (hop : op ≠ .setup) (st : BTState) (u : Unit → Bool) (e : Env) : Keeps (hook op st u e) := by
  cases op with
  | setup => exact absurd rfl hop
  | tick => exact keeps_tick st _ e
  | untick => exact keeps_untick
  | reset => exact keeps_reset e
  | shutdown => exact (keeps_reset e).andThen (keeps_same _)

/-! ### States -/

/-- A part of a hook that answers `Ok` leaves no request outstanding. -/
theorem untick_future (m : Mem) : (doUntick m).mem.future = none := rfl

theorem reset_future (e : Env) (m : Mem) (s : BTState) (h : (doReset e m).res = some (.ok s)) :
    (doReset e m).mem.future = none ∧ s = .idle := by
  unfold doReset at h ⊢
  split at h
  · rename_i hc
    rw [if_pos hc]
    split at h
    · rename_i hd
      rw [if_pos hd]
      cases h
      exact ⟨rfl, rfl⟩
    · cases h
  · rename_i hc
    rw [if_neg hc]
    cases h
    exact ⟨rfl, rfl⟩

/-- The tick before `poll`. -/
def prep (st : BTState) (b : Bool) (e : Env) (m : Mem) : HookOut Mem Act :=
  ((refresh b e m).andThen (first st e)).andThen (connect e)

theorem keeps_prep (st : BTState) (b : Bool) (e : Env) : Keeps (prep st b e) :=
  ((keeps_refresh b e).andThen (keeps_first st e)).andThen (keeps_connect e)

theorem fetch_spec (e : Env) (m : Mem) (h : (fetch e m).res ≠ some .err) :
    e.request ≠ none ∧ (fetch e m).mem = { m with input := e.request } ∧ (fetch e m).acts = [] ∧
      (fetch e m).res = some (.ok .idle) := by
  unfold fetch at h ⊢
  cases hr : e.request with
  | none => simp [hr] at h
  | some r => simp

theorem andThen_cases {M A : Type} (x : HookOut M A) (k : M → HookOut M A) (h : (x.andThen k).res ≠ some .err) :
    (x.res = none ∧ x.andThen k = x) ∨
    ((∃ s, x.res = some (.ok s)) ∧ (k x.mem).res ≠ some .err ∧ x.andThen k = ⟨(k x.mem).mem, (k x.mem).res, x.acts ++ (k x.mem).acts⟩) := by
  unfold HookOut.andThen at h ⊢
  split
  · rename_i s hs
    simp only [hs] at h
    exact .inr ⟨⟨s, hs⟩, h, rfl⟩
  · rename_i hx
    split at h
    · rename_i hs; exact absurd hs (hx _)
    · rcases hr : x.res with _ | _ | _
      · exact .inl ⟨rfl, rfl⟩
      · exact absurd hr (hx _)
      · exact absurd hr h

theorem reset_res (e : Env) (m : Mem) (h : (doReset e m).res ≠ some .err) :
    (doReset e m).res = some (.ok .idle) ∧
      (doReset e m).mem = { m with client := false, future := none, input := none, lastCall := none } := by
  unfold doReset at h ⊢
  cases hc : m.client
  · simp [doUntick, hc]
  · cases hd : e.destroyOk
    · simp [hc, hd] at h
    · simp [doUntick]

theorem refresh_spec (b : Bool) (e : Env) (m : Mem) (h : (refresh b e m).res ≠ some .err) :
    (refresh b e m).res = some (.ok .idle) ∧
    (b = true → e.request ≠ none ∧ (refresh b e m).mem =
      { m with client := false, future := none, input := e.request, lastCall := none }) ∧
    (b = false → refresh b e m = ⟨m, some (.ok .idle), []⟩) := by
  cases b with
  | false => simp [refresh]
  | true =>
    simp only [refresh, if_true] at h ⊢
    rcases andThen_cases _ _ h with ⟨h1, h2⟩ | ⟨⟨s, h1⟩, h2, h3⟩
    · rw [h2] at h
      rw [(reset_res e m h).1] at h1
      cases h1
    · obtain ⟨g1, g2⟩ := reset_res e m (by rw [h1]; simp)
      obtain ⟨f1, f2, f3, f4⟩ := fetch_spec e _ h2
      rw [h3]
      refine ⟨f4, fun _ => ⟨f1, ?_⟩, by simp⟩
      dsimp only
      rw [f2, g2]

theorem first_spec (st : BTState) (e : Env) (m : Mem) (h : (first st e m).res ≠ some .err) :
    (first st e m).res = some (.ok .idle) ∧ (first st e m).acts = [] ∧
    (st = .idle ∧ m.future = none ∧ m.input = none → e.request ≠ none ∧ (first st e m).mem = { m with input := e.request }) ∧
    (¬(st = .idle ∧ m.future = none ∧ m.input = none) → (first st e m).mem = m) := by
  unfold first at h ⊢
  by_cases hc : st = .idle ∧ m.future = none ∧ m.input = none
  · rw [if_pos hc] at h ⊢
    obtain ⟨f1, f2, f3, f4⟩ := fetch_spec e m h
    exact ⟨f4, f3, fun _ => ⟨f1, f2⟩, fun h => absurd hc h⟩
  · rw [if_neg hc]
    exact ⟨rfl, rfl, fun h => absurd h hc, fun _ => rfl⟩

theorem connect_spec (e : Env) (m : Mem) :
    (connect e m).mem.future = m.future ∧ (connect e m).mem.input = m.input ∧ (connect e m).mem.timeout = m.timeout ∧
    (connect e m).mem.lastCall = m.lastCall ∧ (connect e m).mem.next = m.next ∧
    ((connect e m).acts = [] ∨ (connect e m).acts = [.create]) := by
  unfold connect
  split
  · simp
  · split
    · split <;> simp
    · simp

/-- What the tick does before `poll`, unless it fails: with new inputs or after setup, reset or
untick there is a new request; otherwise nothing changes but the client. -/
theorem prep_spec (st : BTState) (b : Bool) (e : Env) (m : Mem) (h : (prep st b e m).res ≠ some .err) :
    (prep st b e m).mem.timeout = m.timeout ∧ (prep st b e m).mem.next = m.next ∧
    ((b = true ∨ st = .idle ∧ m.future = none ∧ m.input = none) →
      e.request ≠ none ∧ (prep st b e m).mem.input = e.request ∧ (prep st b e m).mem.future = none) ∧
    (b = false → ¬(st = .idle ∧ m.future = none ∧ m.input = none) →
      (prep st b e m).mem.input = m.input ∧ (prep st b e m).mem.future = m.future) ∧
    (b = false → (prep st b e m).mem.lastCall = m.lastCall ∧ ((prep st b e m).acts = [] ∨ (prep st b e m).acts = [.create])) := by
  have hx := h
  unfold prep at hx ⊢
  rcases andThen_cases _ _ hx with ⟨h1, h2⟩ | ⟨⟨s, h1⟩, _, h3⟩
  · exfalso
    rcases andThen_cases _ (first st e) (by rw [h1]; simp) with ⟨g1, g2⟩ | ⟨⟨s, g1⟩, g2, g3⟩
    · rw [(refresh_spec b e m (by rw [g1]; simp)).1] at g1
      cases g1
    · rw [g3] at h1
      rw [(first_spec st e _ g2).1] at h1
      cases h1
  · rw [h3]
    rcases andThen_cases (refresh b e m) (first st e) (by rw [h1]; simp) with ⟨g1, g2⟩ | ⟨⟨s', g1⟩, g2, g3⟩
    · rw [g2, g1] at h1
      cases h1
    · rw [g3]
      obtain ⟨r1, r2, r3⟩ := refresh_spec b e m (by rw [g1]; simp)
      obtain ⟨f1, f2, f3, f4⟩ := first_spec st e _ g2
      generalize hm1 : (refresh b e m).mem = m1 at *
      generalize hm2 : (first st e m1).mem = m2 at *
      obtain ⟨c1, c2, c3, c4, c5, c6⟩ := connect_spec e m2
      dsimp only
      rw [c1, c2, c3, c4, c5, f2]
      cases b with
      | true =>
        obtain ⟨q1, q2⟩ := r2 rfl
        have : m2 = m1 := f4 (fun hc => q1 (by rw [q2] at hc; exact hc.2.2))
        subst this
        subst q2
        simp [q1]
      | false =>
        have hm : m1 = m := by rw [← hm1, r3 rfl]
        have ha : (refresh false e m).acts = [] := by rw [r3 rfl]
        subst hm
        rw [ha]
        by_cases hc : st = .idle ∧ m1.future = none ∧ m1.input = none
        · obtain ⟨q1, q2⟩ := f3 hc
          subst q2
          refine ⟨rfl, rfl, fun _ => ⟨q1, rfl, hc.2.1⟩, fun _ h => absurd hc h, fun _ => ⟨rfl, by simpa using c6⟩⟩
        · have := f4 hc
          subst this
          refine ⟨rfl, rfl, fun h => absurd (by simpa using h) hc, fun _ _ => ⟨rfl, rfl⟩, fun _ => ⟨rfl, by simpa using c6⟩⟩

/-- What a tick that answers went through. -/
theorem tick_ok {st : BTState} {b : Bool} {e : Env} {m : Mem} {s : BTState} (h : (doTick st b e m).res = some (.ok s)) :
    (prep st b e m).res ≠ some .err ∧ (poll st e (prep st b e m).mem).res = some (.ok s) ∧
    (doTick st b e m).mem = (poll st e (prep st b e m).mem).mem ∧
    (doTick st b e m).acts = (prep st b e m).acts ++ (poll st e (prep st b e m).mem).acts := by
  unfold doTick at h ⊢
  split at h
  · rename_i hf
    rw [if_pos hf]
    obtain ⟨⟨s', h1⟩, h2, h3, h4⟩ := andThen_ok h
    exact ⟨by unfold prep; rw [h1]; simp, h2, h3, h4⟩
  · cases h

/-- What is true in all executions. RUNNING means that a request is outstanding or about to be
sent; in IDLE and without setup, none is. -/
structure Inv (h : Hist) (l : Leaf Mem Unit) : Prop where
  good : Good (Class.trace h) l.mem
  running : l.state = .running → l.mem.future ≠ none ∨ l.mem.input ≠ none
  quiet : l.state = .idle ∨ l.state = .uninitialized ∨ l.state = .shutdown → l.mem.future = none
  states : l.state ≠ .paused ∧ l.state ≠ .assigned ∧ l.state ≠ .unassigned
  timeout : BT.accepts .tick l.state = true → timeout h = some l.mem.timeout

/-- Possible answers of the last part of a tick. -/
theorem poll_states (st : BTState) (e : Env) (m : Mem) (s : BTState) (h : (poll st e m).res = some (.ok s)) :
    (poll st e m).mem.timeout = m.timeout ∧
    ((m.input ≠ none ∧ s = .running ∧ (poll st e m).mem.future ≠ none) ∨
    (m.input = none ∧ m.future = none ∧ s = st ∧ (poll st e m).mem = m) ∨
    (m.input = none ∧ m.future ≠ none ∧ (s = .running ∧ (poll st e m).mem.future ≠ none ∨ s = .succeeded ∨ s = .failed))) := by
  unfold poll at h ⊢
  split
  · rename_i r hr
    simp only [hr] at h
    cases h
    simp [hr]
  · rename_i hi
    simp only [hi] at h
    split
    · rename_i hf
      simp only [hf] at h
      cases h
      simp [hi, hf]
    · rename_i n hf
      simp only [hf] at h
      split
      · rename_i hd
        simp only [hd] at h
        cases h
      · rename_i x hd
        simp only [hd] at h
        split at h
        · cases h
        · cases h; simp [hi, hf]
        · cases h; simp [hi, hf]
      · rename_i hd
        simp only [hd] at h
        cases h
        simp [hi, hf]
      · rename_i hd
        simp only [hd] at h
        unfold deadline at h ⊢
        dsimp only at h ⊢
        split
        · rename_i hc
          rw [if_pos hc] at h
          cases h
          simp [hi, hf]
        · rename_i hc
          rw [if_neg hc] at h
          cases h
          simp [hi, hf]

theorem untick_good {tr : List Act} {m : Mem} (h : Good tr m) : Good ((doUntick m).acts.reverse ++ tr) (doUntick m).mem :=
  keeps_untick tr m h

theorem hook_timeout (op : Op) (hop : op ≠ .setup) (st : BTState) (u : Unit → Bool) (e : Env) (m : Mem) (s : BTState)
    (h : (hook op st u e m).res = some (.ok s)) : (hook op st u e m).mem.timeout = m.timeout := by
  cases op with
  | setup => exact absurd rfl hop
  | tick =>
    obtain ⟨h1, h2, h3, _⟩ := tick_ok h
    simp only [hook]
    rw [h3, (poll_states _ _ _ _ h2).1, (prep_spec _ _ _ _ h1).1]
  | untick => rfl
  | reset =>
    simp only [hook] at h ⊢
    rw [(reset_res e m (by rw [h]; simp)).2]
  | shutdown =>
    obtain ⟨⟨s', h1⟩, _, h3, _⟩ := andThen_ok h
    simp only [hook]
    rw [h3]
    have := (reset_res e m (by rw [h1]; simp)).2
    dsimp only
    rw [this]

/-- A raised exception comes from `create_client`. -/
theorem hook_raised (op : Op) (st : BTState) (u : Unit → Bool) (e : Env) (m : Mem) (h : (hook op st u e m).res = none) :
    op = .tick ∧ (prep st (u ()) e m).res = none ∧ (hook op st u e m).mem = (prep st (u ()) e m).mem := by
  cases op with
  | setup =>
    exfalso
    simp only [hook, doSetup] at h
    split at h
    · cases h
    · split at h <;> cases h
  | untick => cases h
  | reset =>
    exfalso
    simp only [hook] at h
    rw [(reset_res e m (by rw [h]; simp)).1] at h
    cases h
  | shutdown =>
    exfalso
    simp only [hook] at h
    rcases andThen_none h with ⟨h1, _⟩ | ⟨h1, _⟩
    · rw [(reset_res e m (by rw [h1]; simp)).1] at h1
      cases h1
    · cases h1
  | tick =>
    refine ⟨rfl, ?_⟩
    simp only [hook, doTick] at h ⊢
    split at h
    · rename_i hf
      rw [if_pos hf]
      rcases andThen_none h with ⟨h1, h2⟩ | ⟨h1, _⟩
      · exact ⟨h1, h2⟩
      · exfalso
        unfold poll at h1
        split at h1
        · cases h1
        · split at h1
          · cases h1
          · split at h1
            · cases h1
            · cases h1
            · cases h1
            · unfold deadline at h1
              dsimp only at h1
              split at h1 <;> cases h1
    · cases h

theorem inv {h : Hist} {l : Leaf Mem Unit} (hr : cls.Runs h l) : Inv h l := by
  refine hr.invariant Inv ⟨⟨rfl, (by intro n t h; cases h), trivial⟩, (by intro h; cases h), fun _ => rfl,
    ⟨by simp [Class.new], by simp [Class.new], by simp [Class.new]⟩, (by intro h; cases h)⟩ ?_
  intro h l s l' o _ ih hh
  cases hh with
  | write f b => exact ⟨ih.good, ih.running, ih.quiet, ih.states, ih.timeout⟩
  | event v => exact v.elim
  | refused op e i p hf => exact ⟨ih.good, ih.running, ih.quiet, ih.states, by cases op <;> exact ih.timeout⟩
  | again e i p hf => exact ⟨ih.good, ih.running, ih.quiet, ih.states, ih.timeout⟩
  | unset e p hf => exact ⟨ih.good, by simp, by simp, by simp, by intro h; cases h⟩
  | raised op e i p hen hi hr =>
    obtain ⟨rfl, h1, h2⟩ := hook_raised _ _ _ _ _ hr
    obtain ⟨p1, p2, p3, p4, p5⟩ := prep_spec _ _ _ _ (by rw [h1]; simp : (prep l.state (Class.flags .tick l ()) e l.mem).res ≠ some .err)
    have hg := keeps_hook .tick (by simp) l.state (Class.flags .tick l) e _ _ ih.good
    have h2' : (cls.hook .tick l.state (Class.flags .tick l) e l.mem).mem = (prep l.state (Class.flags .tick l ()) e l.mem).mem := h2
    have hg' : Good (Class.trace ((Step.call .tick e i p, ⟨none, (cls.hook .tick l.state (Class.flags .tick l) e l.mem).acts⟩) :: h)) (cls.hook .tick l.state (Class.flags .tick l) e l.mem).mem := hg
    refine ⟨hg', ?_, ?_, ih.states, ?_⟩
    · intro hs
      dsimp only at hs ⊢
      rw [h2']
      rcases hb : Class.flags .tick l () with _ | _
      · obtain ⟨q1, q2⟩ := p4 hb (by rw [hs]; simp)
        rw [hb] at q1 q2
        rw [q1, q2]
        exact ih.running hs
      · obtain ⟨q0, q1, _⟩ := p3 (.inl hb)
        rw [hb] at q1
        rw [q1]
        exact .inr q0
    · intro hs
      dsimp only at hs ⊢
      rw [h2']
      have hf := ih.quiet hs
      by_cases hc : Class.flags .tick l () = true ∨ l.state = .idle ∧ l.mem.future = none ∧ l.mem.input = none
      · exact (p3 hc).2.2
      · have hb : Class.flags .tick l () = false := by
          cases hb : Class.flags .tick l ()
          · rfl
          · exact absurd (.inl hb) hc
        rw [(p4 hb (fun h => hc (.inr h))).2]
        exact hf
    · intro hs
      dsimp only at hs ⊢
      rw [h2', p1]
      exact ih.timeout hs
  | failed op e i p hen hi hr =>
    refine ⟨?_, by simp, by simp, by simp, by intro h; cases h⟩
    by_cases hop : op = .setup
    · subst hop
      have hf := ih.quiet (.inr (by simpa [Class.entered, BT.accepts] using hen))
      have ho : outstanding (Class.trace h) = none := by simpa [hf] using ih.good.1.symm
      have : (cls.hook .setup l.state (Class.flags .setup l) e l.mem).acts = [] ∧
          (cls.hook .setup l.state (Class.flags .setup l) e l.mem).mem.future = none := by
        simp only [cls, hook, doSetup]
        split
        · exact ⟨rfl, rfl⟩
        · split <;> exact ⟨rfl, rfl⟩
      simp only [Class.trace_cons, this.1]
      exact ⟨by rw [this.2]; simp [ho], (by intro n t hn; simp [ho] at hn), ih.good.2.2⟩
    · exact keeps_hook op hop l.state (Class.flags op l) e _ _ ih.good
  | undelivered e s hen ha hr =>
    exact ⟨keeps_hook .tick (by simp) l.state l.upd e _ _ ih.good, by simp, by simp, by simp, by intro h; cases h⟩
  | odd op e i p s hen hi ha hr =>
    exfalso
    cases op with
    | setup =>
      simp only [cls, hook, doSetup] at hr
      split at hr
      · cases hr
      · split at hr
        · cases hr; cases ha
        · cases hr
    | untick => cases hr; cases ha
    | reset =>
      rw [show cls.hook .reset l.state (Class.flags .reset l) e l.mem = doReset e l.mem from rfl] at hr
      rw [(reset_res e l.mem (by rw [hr]; simp)).1] at hr
      cases hr; cases ha
    | shutdown =>
      obtain ⟨_, h2, _⟩ := andThen_ok hr
      cases h2; cases ha
    | tick =>
      obtain ⟨h1, h2, _⟩ := tick_ok hr
      obtain ⟨p1, p2, p3, p4, p5⟩ := prep_spec _ _ _ _ h1
      rcases (poll_states _ _ _ _ h2).2 with ⟨_, rfl, _⟩ | ⟨q1, q2, hst, _⟩ | ⟨_, _, ⟨rfl, _⟩ | rfl | rfl⟩
      · cases ha
      · subst hst
        have hidle : l.state = .idle → False := by
          intro hs
          have hf := ih.quiet (.inl hs)
          by_cases hb : Class.flags .tick l () = true ∨ l.state = .idle ∧ l.mem.future = none ∧ l.mem.input = none
          · exact (p3 hb).1 (by rw [← (p3 hb).2.1]; exact q1)
          · have hb' : Class.flags .tick l () = false := by
              cases hb' : Class.flags .tick l ()
              · rfl
              · exact absurd (.inl hb') hb
            have := p4 hb' (fun h => hb (.inr h))
            exact hb (.inr ⟨hs, hf, by rw [← this.1]; exact q1⟩)
        have hst := ih.states
        have hall : ∀ x : BTState, Class.entered .tick x = true → BT.allowedAfter .tick x = false → (x = .idle → False) →
            (x ≠ .paused ∧ x ≠ .assigned ∧ x ≠ .unassigned) → False := by
          intro x
          cases x <;> simp [Class.entered, BT.accepts, BT.allowedAfter]
        exact hall _ hen ha hidle hst
      · cases ha
      · cases ha
      · cases ha
  | done op e i p s hen hi hp ha hr =>
    have hgood : Good (Class.trace ((Step.call op e i p, ⟨some (Res.ok s), (cls.hook op l.state (Class.flags op l) e l.mem).acts⟩) :: h))
        (cls.hook op l.state (Class.flags op l) e l.mem).mem := by
      by_cases hop : op = .setup
      · subst hop
        have hf := ih.quiet (.inr (by simpa [Class.entered, BT.accepts] using hen))
        have ho : outstanding (Class.trace h) = none := by simpa [hf] using ih.good.1.symm
        have : (cls.hook .setup l.state (Class.flags .setup l) e l.mem).acts = [] ∧
            (cls.hook .setup l.state (Class.flags .setup l) e l.mem).mem.future = none := by
          simp only [cls, hook, doSetup]
          split
          · exact ⟨rfl, rfl⟩
          · split <;> exact ⟨rfl, rfl⟩
        simp only [Class.trace_cons, this.1]
        exact ⟨by rw [this.2]; simp [ho], (by intro n t hn; simp [ho] at hn), ih.good.2.2⟩
      · exact keeps_hook op hop l.state (Class.flags op l) e _ _ ih.good
    cases op with
    | setup =>
      refine ⟨hgood, ?_, ?_, ?_, ?_⟩
      · simp only [cls, hook, doSetup] at hr
        split at hr
        · cases hr
        · split at hr
          · cases hr; simp
          · cases hr
      · intro _
        simp only [cls, hook, doSetup]
        split
        · rfl
        · split <;> rfl
      · simp only [BT.allowedAfter] at ha
        grind
      · intro _
        simp only [cls, hook, doSetup] at hr ⊢
        split at hr
        · cases hr
        · rename_i t ht
          simp only [timeout, ht]
          split <;> rfl
    | untick =>
      cases hr
      exact ⟨hgood, by simp, fun _ => rfl, by simp, fun _ => ih.timeout hen⟩
    | reset =>
      have hr' : (doReset e l.mem).res = some (.ok s) := hr
      obtain ⟨r1, r2⟩ := reset_res e l.mem (by rw [hr']; simp)
      rw [hr'] at r1
      cases r1
      have r2' : (cls.hook .reset l.state (Class.flags .reset l) e l.mem).mem = _ := r2
      refine ⟨hgood, by simp, fun _ => ?_, by simp, fun _ => ?_⟩
      · dsimp only; rw [r2']
      · dsimp only; rw [r2']; exact ih.timeout hen
    | shutdown =>
      obtain ⟨⟨s', h1⟩, h2, h3, _⟩ := andThen_ok hr
      cases h2
      obtain ⟨r1, r2⟩ := reset_res e l.mem (by rw [h1]; simp)
      refine ⟨hgood, by simp, fun _ => ?_, by simp, by intro h; cases h⟩
      dsimp only
      rw [show (cls.hook .shutdown l.state (Class.flags .shutdown l) e l.mem).mem = _ from h3]
      exact (congrArg Mem.future r2 : _)
    | tick =>
      obtain ⟨h1, h2, h3, _⟩ := tick_ok hr
      have h3' : (cls.hook .tick l.state (Class.flags .tick l) e l.mem).mem = _ := h3
      obtain ⟨p1, p2, p3, p4, p5⟩ := prep_spec _ _ _ _ h1
      obtain ⟨pt, pc⟩ := poll_states _ _ _ _ h2
      refine ⟨hgood, ?_, ?_, ?_, ?_⟩
      · intro hs
        dsimp only at hs ⊢
        rw [h3']
        rcases pc with ⟨_, _, q⟩ | ⟨q1, q2, q3, q4⟩ | ⟨_, _, ⟨_, q⟩ | q | q⟩
        · exact .inl q
        · exfalso
          have hrun : l.state = .running := by rw [← q3]; exact hs
          by_cases hb : Class.flags .tick l () = true
          · exact (p3 (.inl hb)).1 (by rw [← (p3 (.inl hb)).2.1]; exact q1)
          · have := p4 (by simpa using hb) (by rw [hrun]; simp)
            rw [this.1] at q1
            rw [this.2] at q2
            rcases ih.running hrun with h | h
            · exact h q2
            · exact h q1
        · exact .inl q
        · rw [hs] at q; cases q
        · rw [hs] at q; cases q
      · intro hs
        dsimp only at hs
        simp only [BT.allowedAfter] at ha
        grind
      · rcases pc with ⟨_, rfl, _⟩ | ⟨_, _, rfl, _⟩ | ⟨_, _, ⟨rfl, _⟩ | rfl | rfl⟩
        · simp
        · exact ih.states
        · simp
        · simp
        · simp
      · intro _
        dsimp only
        rw [h3', pt, p1]
        exact ih.timeout hen

/-! ### C57 -/

/-- The outstanding request is the one that was called last. -/
theorem outstanding_latest {tr : List Act} {n : Nat} {t : Int} (h : outstanding tr = some (n, t)) : latest tr = some n := by
  induction tr with
  | nil => cases h
  | cons a tr ih => cases a <;> simp_all [outstanding, latest]

theorem honest_mem {tr pre post : List Act} {n x : Nat} (hh : Honest tr) (h : tr = pre ++ .respond n x :: post) :
    ∃ t, outstanding post = some (n, t) := by
  induction pre generalizing tr with
  | nil => subst h; exact hh.1
  | cons a pre ih =>
    subst h
    cases a <;> first | exact ih (And.right hh) rfl | exact ih (tr := pre ++ .respond n x :: post) hh rfl

/-- C57: every response that the node puts to its outputs answers the most recent request, which
was neither cancelled nor answered before. -/
theorem c57_latest {h : Hist} {l : Leaf Mem Unit} (hr : cls.Runs h l) (pre post : List Act) (n x : Nat)
    (ht : Class.trace h = pre ++ .respond n x :: post) :
    latest post = some n ∧ ∃ t, outstanding post = some (n, t) := by
  obtain ⟨t, ht⟩ := honest_mem (inv hr).good.2.2 ht
  exact ⟨outstanding_latest ht, t, ht⟩

theorem step_tick {l : Leaf Mem Unit} {e : Env} {i p : Bool} {s : BTState}
    (h : (cls.step l (.call .tick e i p)).2.res = some (.ok s)) :
    BT.accepts .tick l.state = true ∧ (doTick l.state (l.upd ()) e l.mem).res = some (.ok s) ∧
      (cls.step l (.call .tick e i p)).2.acts = (doTick l.state (l.upd ()) e l.mem).acts := by
  have hh := cls.happens l (.call .tick e i p)
  generalize hl' : (cls.step l (.call .tick e i p)).1 = l' at hh
  generalize ho : (cls.step l (.call .tick e i p)).2 = o at hh h ⊢
  cases hh with
  | done op e i p s' hen _ _ _ hr =>
    cases h
    exact ⟨hen, hr, rfl⟩
  | refused => cases h
  | unset => cases h
  | raised => cases h
  | failed => cases h
  | undelivered => cases h
  | odd => cases h

/-- C57: a tick answers RUNNING only while a request is outstanding: either it was sent in this
tick, or the service has not answered yet and its time is not over. -/
theorem c57_running {h : Hist} {l : Leaf Mem Unit} (hr : cls.Runs h l) (e : Env) (i p : Bool)
    (hs : (cls.step l (.call .tick e i p)).2.res = some (.ok .running)) :
    ∃ n t, outstanding (Class.trace ((.call .tick e i p, (cls.step l (.call .tick e i p)).2) :: h)) = some (n, t) ∧
      ((∃ r, Act.call n r t ∈ (cls.step l (.call .tick e i p)).2.acts ∧ t = e.now) ∨
        outstanding (Class.trace h) = some (n, t) ∧ e.fut n = .pending ∧ ∃ d, timeout h = some d ∧ e.later - t ≤ d) := by
  obtain ⟨hacc, h1, h2⟩ := step_tick hs
  have hi := inv hr
  obtain ⟨p0, p1, p2, p3⟩ := tick_ok h1
  obtain ⟨q1, q2, q3, q4, q5⟩ := prep_spec _ _ _ _ p0
  have hg := keeps_prep l.state (l.upd ()) e _ _ hi.good
  rw [Class.trace_cons, h2, p3, List.reverse_append, List.append_assoc]
  generalize hm : (prep l.state (l.upd ()) e l.mem).mem = m at *
  cases hin : m.input with
  | some r =>
    refine ⟨m.next, e.now, ?_, .inl ⟨r, ?_, rfl⟩⟩
    · simp [poll, hin, outstanding]
    · simp [poll, hin]
  | none =>
    have hb : l.upd () = false := by
      cases hb : l.upd ()
      · rfl
      · obtain ⟨a, b, _⟩ := q3 (.inl hb)
        rw [hin] at b
        exact absurd b.symm a
    have hnf : ¬(l.state = .idle ∧ l.mem.future = none ∧ l.mem.input = none) := by
      intro hc
      obtain ⟨a, b, _⟩ := q3 (.inr hc)
      rw [hin] at b
      exact absurd b.symm a
    obtain ⟨k1, k2⟩ := q4 hb hnf
    obtain ⟨k3, k4⟩ := q5 hb
    have hout : outstanding ((prep l.state (l.upd ()) e l.mem).acts.reverse ++ Class.trace h) = outstanding (Class.trace h) := by
      rw [hb] at k4 ⊢
      rcases k4 with k | k <;> simp [k, outstanding]
    cases hf : m.future with
    | none =>
      exfalso
      simp only [poll, hin, hf] at p1
      have hst : l.state = .running := by simpa using p1
      rcases hi.running hst with a | a
      · exact a (by rw [← k2, hf])
      · exact a (by rw [← k1, hin])
    | some n =>
      obtain ⟨t, ht, hlc⟩ := hg.some hf
      rw [hout] at ht
      cases hfut : e.fut n with
      | done x =>
        exfalso
        cases x with
        | none => simp [poll, hin, hf, hfut] at p1
        | some x =>
          simp only [poll, hin, hf, hfut] at p1
          split at p1 <;> simp at p1
      | cancelled => simp [poll, hin, hf, hfut] at p1
      | pending =>
        simp only [poll, hin, hf, hfut, deadline, hlc, Option.getD_some] at p1 ⊢
        split at p1
        · simp at p1
        · rename_i hd
          rw [if_neg hd]
          refine ⟨n, t, by simpa [hout] using ht, .inr ⟨ht, hfut, m.timeout, ?_, by omega⟩⟩
          rw [q1]
          exact hi.timeout hacc

/-- C57: a tick that ends with SUCCEEDED or FAILED reports the outcome of the outstanding request
(its response, that its future was cancelled, or that its time is over), or repeats the last
outcome if none is outstanding. -/
theorem c57_outcome {h : Hist} {l : Leaf Mem Unit} (hr : cls.Runs h l) (e : Env) (i p : Bool) (s : BTState)
    (hs : (cls.step l (.call .tick e i p)).2.res = some (.ok s)) (hn : s ≠ .running) :
    (s = .succeeded ∨ s = .failed) ∧
    ((∃ n t, outstanding (Class.trace h) = some (n, t) ∧
      ((∃ x, e.fut n = .done (some x) ∧ Act.respond n x ∈ (cls.step l (.call .tick e i p)).2.acts ∧
          e.outcome = some (s == .succeeded)) ∨
        s = .failed ∧ e.fut n = .cancelled ∨
        s = .failed ∧ e.fut n = .pending ∧ Act.cancel n ∈ (cls.step l (.call .tick e i p)).2.acts ∧
          ∃ d, timeout h = some d ∧ d < e.later - t)) ∨
      outstanding (Class.trace h) = none ∧ s = l.state ∧
        ∀ n r t x, Act.call n r t ∉ (cls.step l (.call .tick e i p)).2.acts ∧ Act.respond n x ∉ (cls.step l (.call .tick e i p)).2.acts) := by
  obtain ⟨hacc, h1, h2⟩ := step_tick hs
  have hi := inv hr
  obtain ⟨p0, p1, p2, p3⟩ := tick_ok h1
  obtain ⟨q1, q2, q3, q4, q5⟩ := prep_spec _ _ _ _ p0
  have hg := keeps_prep l.state (l.upd ()) e _ _ hi.good
  rw [h2, p3]
  generalize hm : (prep l.state (l.upd ()) e l.mem).mem = m at *
  cases hin : m.input with
  | some r =>
    simp only [poll, hin] at p1
    cases p1
    exact absurd rfl hn
  | none =>
    have hb : l.upd () = false := by
      cases hb : l.upd ()
      · rfl
      · obtain ⟨a, b, _⟩ := q3 (.inl hb)
        rw [hin] at b
        exact absurd b.symm a
    have hnf : ¬(l.state = .idle ∧ l.mem.future = none ∧ l.mem.input = none) := by
      intro hc
      obtain ⟨a, b, _⟩ := q3 (.inr hc)
      rw [hin] at b
      exact absurd b.symm a
    obtain ⟨k1, k2⟩ := q4 hb hnf
    obtain ⟨k3, k4⟩ := q5 hb
    have hacts : (prep l.state (l.upd ()) e l.mem).acts = [] ∨ (prep l.state (l.upd ()) e l.mem).acts = [.create] := by
      rw [hb] at k4 ⊢
      exact k4
    have hout : outstanding ((prep l.state (l.upd ()) e l.mem).acts.reverse ++ Class.trace h) = outstanding (Class.trace h) := by
      rcases hacts with k | k <;> simp [k, outstanding]
    cases hf : m.future with
    | none =>
      simp only [poll, hin, hf] at p1 ⊢
      cases p1
      have hnone : outstanding (Class.trace h) = none := by
        have := hg.1
        rw [hout, hf] at this
        simpa using this.symm
      refine ⟨?_, .inr ⟨hnone, rfl, ?_⟩⟩
      · have hst := hi.states
        have hidle : l.state = .idle → False := fun hid =>
          hnf ⟨hid, by rw [← k2, hf], by rw [← k1, hin]⟩
        have hall : ∀ x : BTState, BT.accepts .tick x = true → x ≠ .running → (x = .idle → False) →
            (x ≠ .paused ∧ x ≠ .assigned ∧ x ≠ .unassigned) → x = .succeeded ∨ x = .failed := by
          intro x
          cases x <;> simp [BT.accepts]
        exact hall _ hacc hn hidle hst
      · intro n r t x
        rcases hacts with k | k <;> simp [k]
    | some n =>
      obtain ⟨t, ht, hlc⟩ := hg.some hf
      rw [hout] at ht
      cases hfut : e.fut n with
      | done x =>
        cases x with
        | none => simp [poll, hin, hf, hfut] at p1
        | some x =>
          simp only [poll, hin, hf, hfut] at p1 ⊢
          split at p1
          · simp at p1
          · rename_i ho
            simp at p1
            subst p1
            exact ⟨.inl rfl, .inl ⟨n, t, ht, .inl ⟨x, hfut, by simp, by simp [ho]⟩⟩⟩
          · rename_i ho
            simp at p1
            subst p1
            exact ⟨.inr rfl, .inl ⟨n, t, ht, .inl ⟨x, hfut, by simp, by simp [ho]⟩⟩⟩
      | cancelled =>
        simp [poll, hin, hf, hfut] at p1
        subst p1
        exact ⟨.inr rfl, .inl ⟨n, t, ht, .inr (.inl ⟨rfl, hfut⟩)⟩⟩
      | pending =>
        simp only [poll, hin, hf, hfut, deadline, hlc, Option.getD_some] at p1 ⊢
        split at p1
        · rename_i hd
          simp at p1
          subst p1
          rw [if_pos hd]
          refine ⟨.inr rfl, .inl ⟨n, t, ht, .inr (.inr ⟨rfl, hfut, by simp, m.timeout, ?_, hd⟩)⟩⟩
          rw [q1]
          exact hi.timeout hacc
        · simp at p1
          subst p1
          exact absurd rfl hn

/-- C57: with new inputs, and on the first tick after setup, reset or untick, the service is
called (if the inputs can be read and the client can be exchanged). -/
theorem c57_called {h : Hist} {l : Leaf Mem Unit} (hr : cls.Runs h l) (e : Env) (r : Nat)
    (hacc : BT.accepts .tick l.state = true) (hu : l.upd () = true ∨ l.state = .idle)
    (h1 : e.flagsOk = true) (h2 : e.destroyOk = true) (h3 : e.request = some r) (h4 : e.nameOk = true)
    (h5 : e.createRaises = false) :
    (cls.step l (.call .tick e true true)).2.res = some (.ok .running) ∧
      ∃ n r', Act.call n r' e.now ∈ (cls.step l (.call .tick e true true)).2.acts ∧ (l.upd () = true → r' = r) := by
  have hi := inv hr
  have hprep : ∀ x : HookOut Mem Act, x.res = some (.ok .idle) → ∃ s, (x.andThen (connect e)).res = some (.ok s) := by
    intro x hx
    simp only [HookOut.andThen, hx, connect, h4, h5]
    split <;> simp
  have hpres : ∃ s, (prep l.state (l.upd ()) e l.mem).res = some (.ok s) := by
    unfold prep
    apply hprep
    have hfetch : ∀ m, (fetch e m).res = some (.ok .idle) := by simp [fetch, h3]
    have hfirst : ∀ m, (first l.state e m).res = some (.ok .idle) := by
      intro m
      unfold first
      split
      · exact hfetch m
      · rfl
    have hreset : (doReset e l.mem).res = some (.ok .idle) := by
      simp only [doReset, h2, if_true]
      split <;> rfl
    have href : (refresh (l.upd ()) e l.mem).res = some (.ok .idle) := by
      unfold refresh
      split
      · simp only [HookOut.andThen, hreset, hfetch]
      · rfl
    simp only [HookOut.andThen, href, hfirst]
  obtain ⟨s, hs⟩ := hpres
  obtain ⟨q1, q2, q3, q4, q5⟩ := prep_spec l.state (l.upd ()) e l.mem (by rw [hs]; simp)
  have hin : ∃ r', (prep l.state (l.upd ()) e l.mem).mem.input = some r' ∧ (l.upd () = true → r' = r) := by
    by_cases hc : l.upd () = true ∨ l.state = .idle ∧ l.mem.future = none ∧ l.mem.input = none
    · exact ⟨r, by rw [(q3 hc).2.1, h3], fun _ => rfl⟩
    · have hb : l.upd () = false := by
        cases hb : l.upd ()
        · rfl
        · exact absurd (.inl hb) hc
      rw [hb] at hu
      have hid : l.state = .idle := by simpa using hu
      have hf := hi.quiet (.inl hid)
      rw [(q4 hb (fun h => hc (.inr h))).1]
      cases hin : l.mem.input with
      | none => exact absurd (.inr ⟨hid, hf, hin⟩) hc
      | some r' => exact ⟨r', rfl, by rw [hb]; simp⟩
  obtain ⟨r', hr', hr''⟩ := hin
  have htick : doTick l.state (l.upd ()) e l.mem =
      ⟨(poll l.state e (prep l.state (l.upd ()) e l.mem).mem).mem, some (.ok .running),
        (prep l.state (l.upd ()) e l.mem).acts ++ [.call (prep l.state (l.upd ()) e l.mem).mem.next r' e.now]⟩ := by
    unfold doTick
    rw [if_pos h1]
    change (prep l.state (l.upd ()) e l.mem).andThen (poll l.state e) = _
    simp only [HookOut.andThen, hs, poll, hr']
  have hstep : (cls.step l (.call .tick e true true)).2 =
      ⟨some (.ok .running), (doTick l.state (l.upd ()) e l.mem).acts⟩ := by
    simp only [Class.step, Class.tick, if_pos hacc, if_true]
    rw [show cls.hook .tick l.state l.upd e l.mem = doTick l.state (l.upd ()) e l.mem from rfl, htick]
    rfl
  rw [hstep]
  refine ⟨rfl, (prep l.state (l.upd ()) e l.mem).mem.next, r', ?_, hr''⟩
  rw [htick]
  exact List.mem_append_right _ (List.mem_singleton.mpr rfl)

/-- A request that is still to be called is not kept beside an outstanding one. -/
def Once (m : Mem) : Prop := m.future ≠ none → m.input = none

theorem once_andThen {x : HookOut Mem Act} {k : Mem → HookOut Mem Act} (hx : Once x.mem) (hk : ∀ m, Once m → Once (k m).mem) :
    Once (x.andThen k).mem := by
  unfold HookOut.andThen
  split
  · exact hk _ hx
  · exact hx

theorem once_reset (e : Env) (m : Mem) (h : Once m) : Once (doReset e m).mem := by
  unfold doReset
  split
  · split
    · simp [Once, doUntick]
    · exact h
  · simp [Once, doUntick]

theorem once_refresh (b : Bool) (e : Env) (m : Mem) (h : Once m) : Once (refresh b e m).mem := by
  unfold refresh
  split
  · by_cases hr : (doReset e m).res = some .err
    · simp only [HookOut.andThen, hr]
      exact once_reset e m h
    · obtain ⟨h1, h2⟩ := reset_res e m hr
      simp only [HookOut.andThen, h1, h2, fetch]
      split <;> simp [Once]
  · exact h

theorem once_hook (op : Op) (st : BTState) (u : Unit → Bool) (e : Env) (m : Mem) (h : Once m) : Once (hook op st u e m).mem := by
  cases op with
  | setup =>
    simp only [hook, doSetup]
    split
    · simp [Once]
    · split
      · simp [Once]
      · simp [Once]
  | untick => simp [hook, doUntick, Once]
  | reset => exact once_reset e m h
  | shutdown => exact once_andThen (once_reset e m h) fun m h => h
  | tick =>
    simp only [hook, doTick]
    split
    · refine once_andThen (once_andThen (once_andThen (once_refresh _ e m h) ?_) ?_) ?_
      · intro m h
        unfold first
        split
        · rename_i hc
          unfold fetch
          split
          · exact h
          · simp [Once, hc.2.1]
        · exact h
      · intro m h
        unfold connect
        split
        · exact h
        · split
          · split <;> exact h
          · exact h
      · intro m h
        unfold poll
        split
        · simp [Once]
        · rename_i hi
          split
          · exact h
          · split
            · exact h
            · simp [Once]
            · simp [Once]
            · unfold deadline
              dsimp only
              split <;> simp [Once, hi]
    · exact h

theorem once {h : Hist} {l : Leaf Mem Unit} (hr : cls.Runs h l) : Once l.mem := by
  refine Class.Runs.invariant (fun _ l => Once l.mem) (by simp [Once, Class.new, cls]) ?_ hr
  intro h l s l' o _ hi hh
  cases hh with
  | event v => exact v.elim
  | write => exact hi
  | refused => exact hi
  | again => exact hi
  | unset => exact hi
  | raised op e i p => exact once_hook op _ _ e _ hi
  | failed op e i p => exact once_hook op _ _ e _ hi
  | done op e i p => exact once_hook op _ _ e _ hi
  | undelivered e => exact once_hook .tick _ _ e _ hi
  | odd op e i p => exact once_hook op _ _ e _ hi

/-- C57: while a request is outstanding and the inputs are unchanged, ticks call the service not
again. -/
theorem c57_once {h : Hist} {l : Leaf Mem Unit} (hr : cls.Runs h l) (e : Env) (i p : Bool)
    (ho : outstanding (Class.trace h) ≠ none) (hu : l.upd () = false) (n r : Nat) (t : Int) :
    Act.call n r t ∉ (cls.step l (.call .tick e i p)).2.acts := by
  have hf : l.mem.future ≠ none := by
    rw [(inv hr).good.1]
    simpa using ho
  have hin := once hr hf
  have hc : (doTick l.state (l.upd ()) e l.mem).acts = [] ∨ (∃ a, (doTick l.state (l.upd ()) e l.mem).acts = [a] ∧ ∀ n r t, a ≠ .call n r t) ∨
      ∃ a, (doTick l.state (l.upd ()) e l.mem).acts = [.create, a] ∧ ∀ n r t, a ≠ .call n r t := by
    rw [hu]
    obtain ⟨k, hk⟩ : ∃ k, l.mem.future = some k := by
      cases hfu : l.mem.future with
      | none => exact absurd hfu hf
      | some k => exact ⟨k, rfl⟩
    have hp : ∀ m, m.future = some k → m.input = none →
        (poll l.state e m).acts = [] ∨ ∃ a, (poll l.state e m).acts = [a] ∧ ∀ n r t, a ≠ .call n r t := by
      intro m h1 h2
      simp only [poll, h1, h2]
      split
      · exact .inl rfl
      · exact .inr ⟨_, rfl, by simp⟩
      · exact .inr ⟨_, rfl, by simp⟩
      · unfold deadline
        dsimp only
        split
        · exact .inr ⟨_, rfl, by simp⟩
        · exact .inl rfl
    unfold doTick
    split
    · have h1 : (refresh false e l.mem).andThen (first l.state e) = ⟨l.mem, some (.ok .idle), []⟩ := by
        simp [refresh, first, HookOut.andThen, hk]
      rw [h1]
      simp only [HookOut.andThen, connect]
      split
      · rename_i hc
        split at hc
        · rename_i hcl
          rw [if_pos hcl]
          rcases hp l.mem hk hin with hx | ⟨a, hx, ha⟩
          · left; simp [hx]
          · right; left; exact ⟨a, by simp [hx], ha⟩
        · rename_i hcl
          rw [if_neg hcl]
          split
          · split
            · rename_i h3 h4
              simp [h3, h4] at hc
            · rcases hp { l.mem with client := true } hk hin with hx | ⟨a, hx, ha⟩
              · right; left; exact ⟨.create, by simp [hx], by simp⟩
              · right; right; exact ⟨a, by simp [hx], ha⟩
          · rename_i h3
            simp [h3] at hc
      · rename_i hc
        split
        · left; rfl
        · split
          · split
            · left; rfl
            · right; left; exact ⟨.create, rfl, by simp⟩
          · left; rfl
    · exact .inl rfl
  have hacts : (cls.step l (.call .tick e i p)).2.acts = [] ∨
      (cls.step l (.call .tick e i p)).2.acts = (doTick l.state (l.upd ()) e l.mem).acts := by
    have hh := cls.happens l (.call .tick e i p)
    generalize (cls.step l (.call .tick e i p)).1 = l' at hh
    generalize (cls.step l (.call .tick e i p)).2 = o at hh ⊢
    cases hh <;> first | exact .inl rfl | exact .inr rfl
  rcases hacts with h0 | h0
  · rw [h0]; simp
  · rw [h0]
    rcases hc with h1 | ⟨a, h1, h2⟩ | ⟨a, h1, h2⟩
    · rw [h1]; simp
    · rw [h1]
      intro hm
      exact h2 n r t (List.mem_singleton.1 hm).symm
    · rw [h1]
      intro hm
      rcases List.mem_cons.1 hm with hm | hm
      · cases hm
      · exact h2 n r t (List.mem_singleton.1 hm).symm

/-- C57: untick, reset and shutdown leave no request outstanding, unless they fail. -/
theorem c57_stopped {h : Hist} {l : Leaf Mem Unit} (hr : cls.Runs h l) (op : Op) (e : Env) (i p : Bool) (s : BTState)
    (hop : op = .untick ∨ op = .reset ∨ op = .shutdown) (hs : (cls.step l (.call op e i p)).2.res = some (.ok s)) :
    outstanding (Class.trace ((.call op e i p, (cls.step l (.call op e i p)).2) :: h)) = none := by
  have hi := inv (.step (.call op e i p) hr)
  have hst : (cls.step l (.call op e i p)).1.state = .idle ∨ (cls.step l (.call op e i p)).1.state = .shutdown := by
    have hh := cls.happens l (.call op e i p)
    generalize (cls.step l (.call op e i p)).1 = l' at hh ⊢
    generalize (cls.step l (.call op e i p)).2 = o at hh hs
    cases hh with
    | refused => cases hs
    | unset => cases hs
    | raised => cases hs
    | failed => cases hs
    | undelivered => cases hs
    | odd => cases hs
    | again e i p h => exact .inr h
    | done op e i p s' hen _ _ ha hr =>
      rcases hop with rfl | rfl | rfl
      · cases hr; exact .inl rfl
      · simp only [BT.allowedAfter] at ha; exact .inl (by simpa using ha)
      · simp only [BT.allowedAfter] at ha; exact .inr (by simpa using ha)
  have hq := hi.quiet (by rcases hst with h | h <;> simp [h])
  have := hi.good.1
  rw [hq] at this
  simpa using this.symm

/-- A service that is called, answers, is asked again without and with new inputs, and times out. -/
def sample : List (Step Unit Env Empty) :=
  [.call .setup { seconds := some 5 } true true,
   .call .tick { request := some 7, now := 1, later := 1 } true true,
   .call .tick { now := 2, later := 2 } true true,
   .call .tick { fut := fun _ => .done (some 42), now := 3, later := 3 } true true,
   .call .tick { now := 4, later := 4 } true true,
   .write () true,
   .call .tick { request := some 8, now := 5, later := 5 } true true,
   .call .tick { now := 11, later := 11 } true true,
   .call .untick {} true true,
   .call .tick { request := some 9, now := 12, later := 12 } true true]

example : ((cls.run sample).1.map (·.2.res)).reverse =
    [some (.ok .idle), some (.ok .running), some (.ok .running), some (.ok .succeeded), some (.ok .succeeded), none,
     some (.ok .running), some (.ok .failed), some (.ok .idle), some (.ok .running)] := by decide

example : (Class.trace (cls.run sample).1).reverse =
    [.create, .call 0 7 1, .respond 0 42, .destroy, .create, .call 1 8 5, .cancel 1, .call 2 9 12] := by decide

example : outstanding (Class.trace (cls.run sample).1) = some (2, 12) ∧ timeout (cls.run sample).1 = some 5 := by decide

example : (cls.run sample).2.upd () = false := by decide

end Service
end Verif.Ros
