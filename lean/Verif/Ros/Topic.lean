import Verif.Ros.Frame

/-! C61, C74, C75: topic subscribers (`ros_nodes/topic.py`). Messages arrive on another thread: between two
operations (`Step.event`), and also within a tick or reset (`Env.late`, `Env.early`). -/

set_option autoImplicit false

namespace Verif.Ros

open Verif.BT (BTState Op Res)

/-- Effects: the node forgets what it has received, a message is received during the operation, the
topic is (un)subscribed, a message is put to the outputs. -/
inductive TopicAct
  | forget
  | recv (m : Nat)
  | subscribe
  | unsubscribe
  | output (m : Nat)
  deriving DecidableEq, Repr

/-- Everything that happened, latest first. -/
def topicLog {E : Type} : Class.History Unit E Nat TopicAct → List TopicAct
  | [] => []
  | (.event m, _) :: h => .recv m :: topicLog h
  | (_, o) :: h => o.acts.reverse ++ topicLog h

/-- The number of messages in a log. -/
def received : List TopicAct → Nat
  | [] => 0
  | .recv _ :: tr => received tr + 1
  | _ :: tr => received tr

/-- The number of messages that were put to the outputs. -/
def outputs : List TopicAct → Nat
  | [] => 0
  | .output _ :: tr => outputs tr + 1
  | _ :: tr => outputs tr

/-- The node is subscribed and not about to unsubscribe. -/
def listening : List TopicAct → Bool
  | [] => false
  | .subscribe :: _ => true
  | .forget :: _ => false
  | .unsubscribe :: _ => false
  | _ :: tr => listening tr

/-- No message arrives while the node unsubscribes or is not subscribed. -/
def Orderly : List TopicAct → Prop
  | [] => True
  | .recv _ :: tr => listening tr = true ∧ Orderly tr
  | _ :: tr => Orderly tr

/-- A message callback and the other effects of an operation. -/
def recvs : Option Nat → List TopicAct
  | none => []
  | some m => [.recv m]

namespace Subscriber

/-- topic.py 84-89: the attributes `_msg` and whether there is a `_subscriber`. -/
structure Mem where
  msg : Option Nat := none
  sub : Bool := false
  deriving DecidableEq, Repr

/-- The outside world: is there a ROS node, can the flags be read, can the settings be read, does
`create_subscription` raise, does `destroy_subscription` succeed, does `set_value` succeed; which
message arrives while the subscription is being destroyed, which one before the tick takes the
lock. -/
structure Env where
  hasRos : Bool := true
  flagsOk : Bool := true
  settingsOk : Bool := true
  createRaises : Bool := false
  destroyOk : Bool := true
  setOk : Bool := true
  late : Option Nat := none
  early : Option Nat := none
  deriving DecidableEq, Repr

abbrev Out := HookOut Mem TopicAct

/-- topic.py 84-91 -/
def doSetup (e : Env) (m : Mem) : Out :=
  if e.hasRos then ⟨{ msg := none, sub := false }, some (.ok .idle), [.forget]⟩ else ⟨m, some .err, []⟩

/-- topic.py 167-178. The lock is not taken: a callback may run after `_msg = None`. -/
def doReset (e : Env) (m : Mem) : Out :=
  if m.sub then
    if e.destroyOk then ⟨{ msg := e.late, sub := false }, some (.ok .idle), .forget :: (recvs e.late ++ [.unsubscribe])⟩
    else ⟨{ m with msg := e.late }, some .err, .forget :: recvs e.late⟩
  else ⟨{ m with msg := none }, some (.ok .idle), [.forget]⟩

/-- topic.py 98-111 -/
def refresh (updated : Bool) (e : Env) (m : Mem) : Out :=
  if e.flagsOk then
    if updated then doReset e m else ⟨m, some (.ok .idle), []⟩
  else ⟨m, some .err, []⟩

/-- topic.py 113-152 -/
def connect (e : Env) (m : Mem) : Out :=
  if m.sub then ⟨m, some (.ok .idle), []⟩
  else if e.settingsOk then
    if e.createRaises then ⟨m, none, []⟩ else ⟨{ m with sub := true }, some (.ok .idle), [.subscribe]⟩
  else ⟨m, some .err, []⟩

/-- topic.py 93-95: the callback. -/
def hear (e : Env) (m : Mem) : Out :=
  match e.early with
  | none => ⟨m, some (.ok .idle), []⟩
  | some x => ⟨{ m with msg := some x }, some (.ok .idle), [.recv x]⟩

/-- topic.py 154-162 -/
def check (e : Env) (m : Mem) : Out :=
  match m.msg with
  | none => ⟨m, some (.ok .running), []⟩
  | some x => if e.setOk then ⟨{ m with msg := none }, some (.ok .succeeded), [.output x]⟩ else ⟨m, some .err, []⟩

/-- topic.py 97-162 -/
def doTick (updated : Bool) (e : Env) (m : Mem) : Out :=
  (((refresh updated e m).andThen (connect e)).andThen (hear e)).andThen (check e)

/-- topic.py 84-181. `upd ()` says whether one of the settings was updated. -/
def hook (op : Op) (_ : BTState) (upd : Unit → Bool) (e : Env) (m : Mem) : Out :=
  match op with
  | .setup => doSetup e m
  | .tick => doTick (upd ()) e m
  | .untick => ⟨m, some (.ok .idle), []⟩
  | .reset => doReset e m
  | .shutdown => (doReset e m).andThen fun m => ⟨m, some (.ok .shutdown), []⟩

/-- topic.py 70-181 -/
def cls : Class Mem Unit Env Nat TopicAct := ⟨{}, hook, fun v m => { m with msg := some v }⟩

abbrev Hist := Class.History Unit Env Nat TopicAct

/-- The message that was received last, if it was neither forgotten nor put to the outputs. -/
def fresh : List TopicAct → Option Nat
  | [] => none
  | .recv m :: _ => some m
  | .forget :: _ => none
  | .output _ :: _ => none
  | _ :: tr => fresh tr

/-- A part of a hook keeps `_msg` in line with the log. -/
def Keeps (k : Mem → Out) : Prop := ∀ tr m, m.msg = fresh tr → (k m).mem.msg = fresh ((k m).acts.reverse ++ tr)

theorem Keeps.andThen {f g : Mem → Out} (hf : Keeps f) (hg : Keeps g) : Keeps fun m => (f m).andThen g := by
  intro tr m h
  dsimp only [HookOut.andThen]
  split
  · rw [List.reverse_append, List.append_assoc]
    exact hg _ _ (hf _ _ h)
  · exact hf _ _ h

theorem keeps_reset (e : Env) : Keeps (doReset e) := by
  intro tr m h
  unfold doReset
  split
  · split <;> cases e.late <;> simp [recvs, fresh]
  · simp [fresh]

theorem keeps_refresh (b : Bool) (e : Env) : Keeps (refresh b e) := by
  intro tr m h
  unfold refresh
  split
  · split
    · exact keeps_reset e tr m h
    · exact h
  · exact h

theorem keeps_connect (e : Env) : Keeps (connect e) := by
  intro tr m h
  unfold connect
  split
  · exact h
  · split
    · split
      · exact h
      · simpa [fresh] using h
    · exact h

theorem keeps_hear (e : Env) : Keeps (hear e) := by
  intro tr m h
  unfold hear
  split
  · exact h
  · simp [fresh]

theorem keeps_check (e : Env) : Keeps (check e) := by
  intro tr m h
  unfold check
  split
  · exact h
  · split
    · simp [fresh]
    · exact h

theorem keeps_hook (op : Op) (s : BTState) (u : Unit → Bool) (e : Env) : Keeps (hook op s u e) := by
  cases op with
  | setup =>
    intro tr m h
    simp only [hook, doSetup]
    split
    · simp [fresh]
    · exact h
  | tick => exact (((keeps_refresh _ e).andThen (keeps_connect e)).andThen (keeps_hear e)).andThen (keeps_check e)
  | untick => exact fun tr m h => h
  | reset => exact keeps_reset e
  | shutdown => exact (keeps_reset e).andThen fun tr m h => h

/-- `_msg` is the message that is still to be delivered. -/
theorem inv {h : Hist} {l : Leaf Mem Unit} (hr : cls.Runs h l) : l.mem.msg = fresh (topicLog h) := by
  refine Class.Runs.invariant (fun h l => l.mem.msg = fresh (topicLog h)) rfl ?_ hr
  intro h l s l' o _ ih hh
  cases hh with
  | write => simpa [topicLog] using ih
  | event v => rfl
  | refused => simpa [topicLog] using ih
  | again => simpa [topicLog] using ih
  | unset => simpa [topicLog] using ih
  | raised op e i p => exact keeps_hook op _ _ e _ _ ih
  | failed op e i p => exact keeps_hook op _ _ e _ _ ih
  | done op e i p => exact keeps_hook op _ _ e _ _ ih
  | undelivered e => exact keeps_hook .tick _ _ e _ _ ih
  | odd op e i p => exact keeps_hook op _ _ e _ _ ih

/-- The tick before the message is looked at. -/
def prep (b : Bool) (e : Env) (m : Mem) : Out := ((refresh b e m).andThen (connect e)).andThen (hear e)

theorem keeps_prep (b : Bool) (e : Env) : Keeps (prep b e) :=
  ((keeps_refresh b e).andThen (keeps_connect e)).andThen (keeps_hear e)

def NoOut (k : Mem → Out) : Prop := ∀ m x, TopicAct.output x ∉ (k m).acts

theorem NoOut.andThen {f g : Mem → Out} (hf : NoOut f) (hg : NoOut g) : NoOut fun m => (f m).andThen g := by
  intro m x
  dsimp only [HookOut.andThen]
  split
  · intro h
    rcases List.mem_append.1 h with h | h
    · exact hf m x h
    · exact hg _ x h
  · exact hf m x

theorem noOut_reset (e : Env) : NoOut (doReset e) := by
  intro m x
  unfold doReset
  split
  · split <;> cases e.late <;> simp [recvs]
  · simp

theorem noOut_prep (b : Bool) (e : Env) : NoOut (prep b e) := by
  refine NoOut.andThen (NoOut.andThen ?_ ?_) ?_
  · intro m x
    unfold refresh
    split
    · split
      · exact noOut_reset e m x
      · simp
    · simp
  · intro m x
    unfold connect
    split
    · simp
    · split
      · split <;> simp
      · simp
  · intro m x
    unfold hear
    split <;> simp

theorem step_tick {l : Leaf Mem Unit} {e : Env} {i p : Bool} {s : BTState}
    (h : (cls.step l (.call .tick e i p)).2.res = some (.ok s)) :
    BT.accepts .tick l.state = true ∧ (doTick (l.upd ()) e l.mem).res = some (.ok s) ∧
      (cls.step l (.call .tick e i p)).2.acts = (doTick (l.upd ()) e l.mem).acts := by
  have hh := cls.happens l (.call .tick e i p)
  generalize (cls.step l (.call .tick e i p)).1 = l' at hh
  generalize (cls.step l (.call .tick e i p)).2 = o at hh h ⊢
  cases hh with
  | refused => cases h
  | unset => cases h
  | raised => cases h
  | failed => cases h
  | undelivered => cases h
  | odd => cases h
  | done _ _ _ _ s' hent _ _ ha hres =>
    cases h
    exact ⟨hent, hres, rfl⟩

/-- C61: a tick answers SUCCEEDED and outputs the message received last, unless that was put out or
forgotten before; in that case it answers RUNNING and outputs nothing. It never answers FAILED. -/
theorem c61_answer {h : Hist} {l : Leaf Mem Unit} (hr : cls.Runs h l) (e : Env) (i p : Bool) (s : BTState)
    (hs : (cls.step l (.call .tick e i p)).2.res = some (.ok s)) :
    (s = .succeeded ∧ ∃ m rest, topicLog ((.call .tick e i p, (cls.step l (.call .tick e i p)).2) :: h) = .output m :: rest ∧
      fresh rest = some m) ∨
    (s = .running ∧ fresh (topicLog ((.call .tick e i p, (cls.step l (.call .tick e i p)).2) :: h)) = none ∧
      ∀ m, TopicAct.output m ∉ (cls.step l (.call .tick e i p)).2.acts) := by
  obtain ⟨hacc, h1, h2⟩ := step_tick hs
  have hi := inv hr
  change ((prep (l.upd ()) e l.mem).andThen (check e)).res = _ at h1
  change _ = ((prep (l.upd ()) e l.mem).andThen (check e)).acts at h2
  obtain ⟨⟨s', q1⟩, q2, q3, q4⟩ := andThen_ok h1
  have hk := keeps_prep (l.upd ()) e _ _ hi
  have hn := noOut_prep (l.upd ()) e l.mem
  simp only [topicLog, h2, q4]
  generalize prep (l.upd ()) e l.mem = x at *
  rw [List.reverse_append, List.append_assoc]
  revert q2
  unfold check
  split
  · rename_i hm
    intro q2
    cases q2
    refine .inr ⟨rfl, ?_, ?_⟩
    · rw [← hm, hk]; simp
    · simpa using hn
  · rename_i m hm
    split
    · intro q2
      cases q2
      refine .inl ⟨rfl, m, x.acts.reverse ++ topicLog h, by simp, ?_⟩
      rw [← hk, hm]
    · intro q2
      cases q2

/-- Every message in the log that was put to the outputs was fresh. -/
def Fair : List TopicAct → Prop
  | [] => True
  | .output m :: tr => fresh tr = some m ∧ Fair tr
  | _ :: tr => Fair tr

theorem fair_append {x tr : List TopicAct} (hx : ∀ m, TopicAct.output m ∉ x) (h : Fair tr) : Fair (x ++ tr) := by
  induction x with
  | nil => exact h
  | cons a x ih =>
    have := ih fun m hm => hx m (by simp [hm])
    cases a with
    | output m => exact absurd (List.mem_cons_self ..) (hx m)
    | _ => exact this

theorem fair_hook (op : Op) (s : BTState) (u : Unit → Bool) (e : Env) (tr : List TopicAct) (m : Mem) (hm : m.msg = fresh tr)
    (h : Fair tr) : Fair ((hook op s u e m).acts.reverse ++ tr) := by
  cases op with
  | setup =>
    refine fair_append ?_ h
    simp only [hook, doSetup]
    split <;> simp
  | untick => exact h
  | reset => exact fair_append (by simpa [hook] using noOut_reset e m) h
  | shutdown =>
    refine fair_append ?_ h
    have : NoOut fun m => (doReset e m).andThen fun m => ⟨m, some (.ok .shutdown), []⟩ := (noOut_reset e).andThen (by intro m x; simp)
    simpa [hook] using this m
  | tick =>
    change Fair (((prep (u ()) e m).andThen (check e)).acts.reverse ++ tr)
    have h1 := fair_append (x := (prep (u ()) e m).acts.reverse) (by simpa using noOut_prep (u ()) e m) h
    have hk := keeps_prep (u ()) e _ _ hm
    generalize prep (u ()) e m = x at *
    unfold HookOut.andThen
    split
    · dsimp only
      rw [List.reverse_append, List.append_assoc]
      unfold check
      split
      · exact h1
      · rename_i y hy
        split
        · exact ⟨by rw [← hy]; exact hk.symm, h1⟩
        · exact h1
    · exact h1

theorem fair {h : Hist} {l : Leaf Mem Unit} (hr : cls.Runs h l) : Fair (topicLog h) := by
  refine Class.Runs.invariant (fun h _ => Fair (topicLog h)) trivial ?_ hr
  intro h l s l' o hr ih hh
  have hi := inv hr
  cases hh with
  | write => simpa [topicLog] using ih
  | event v => exact ih
  | refused => simpa [topicLog] using ih
  | again => simpa [topicLog] using ih
  | unset => simpa [topicLog] using ih
  | raised op e i p => exact fair_hook op _ _ e _ _ hi ih
  | failed op e i p => exact fair_hook op _ _ e _ _ hi ih
  | done op e i p => exact fair_hook op _ _ e _ _ hi ih
  | undelivered e => exact fair_hook .tick _ _ e _ _ hi ih
  | odd op e i p => exact fair_hook op _ _ e _ _ hi ih

/-- C61: messages are put out at most once: there are never more outputs than received messages. -/
theorem c61_once {h : Hist} {l : Leaf Mem Unit} (hr : cls.Runs h l) : outputs (topicLog h) ≤ received (topicLog h) := by
  have hf := fair hr
  generalize topicLog h = tr at hf
  have : outputs tr + (if (fresh tr).isSome then 1 else 0) ≤ received tr := by
    induction tr with
    | nil => simp [outputs, received, fresh]
    | cons a tr ih =>
      cases a with
      | output m =>
        have h1 := ih hf.2
        rw [hf.1] at h1
        simpa [outputs, received, fresh] using h1
      | recv m =>
        have h1 := ih hf
        simp only [outputs, received, fresh]
        split at h1 <;> simp <;> omega
      | _ =>
        have h1 := ih hf
        simp only [outputs, received, fresh]
        split at h1 <;> simp_all <;> omega
  omega

/-- Subscribing and unsubscribing follow on each other, and the node forgets what it has received
before it unsubscribes. -/
def Ordered : List TopicAct → Prop
  | [] => True
  | .subscribe :: tr => listening tr = false ∧ Ordered tr
  | .unsubscribe :: tr => (Orderly tr → listening tr = false) ∧ Ordered tr
  | _ :: tr => Ordered tr

/-- `Ordered`, and without a subscriber the node does not listen. -/
def Sound (tr : List TopicAct) (m : Mem) : Prop := Ordered tr ∧ (m.sub = false → listening tr = false)

def KeepsSound (k : Mem → Out) : Prop := ∀ tr m, Sound tr m → Sound ((k m).acts.reverse ++ tr) (k m).mem

theorem KeepsSound.andThen {f g : Mem → Out} (hf : KeepsSound f) (hg : KeepsSound g) : KeepsSound fun m => (f m).andThen g := by
  intro tr m h
  dsimp only [HookOut.andThen]
  split
  · rw [List.reverse_append, List.append_assoc]
    exact hg _ _ (hf _ _ h)
  · exact hf _ _ h

theorem sound_reset (e : Env) : KeepsSound (doReset e) := by
  intro tr m h
  unfold doReset
  split
  · split <;> cases e.late <;> simp [recvs, Sound, Ordered, Orderly, listening, h.1]
  · simp [Sound, Ordered, listening, h.1]

theorem sound_hook (op : Op) (s : BTState) (u : Unit → Bool) (e : Env) : KeepsSound (hook op s u e) := by
  have hr := sound_reset e
  cases op with
  | setup =>
    intro tr m h
    simp only [hook, doSetup]
    split
    · simp [Sound, Ordered, listening, h.1]
    · exact h
  | untick => exact fun tr m h => h
  | reset => exact hr
  | shutdown => exact hr.andThen fun tr m h => h
  | tick =>
    refine KeepsSound.andThen (KeepsSound.andThen (KeepsSound.andThen ?_ ?_) ?_) ?_
    · intro tr m h
      unfold refresh
      split
      · split
        · exact hr tr m h
        · exact h
      · exact h
    · intro tr m h
      unfold connect
      split
      · exact h
      · rename_i hn
        split
        · split
          · exact h
          · simp [Sound, Ordered, h.1, h.2 (by simpa using hn)]
        · exact h
    · intro tr m h
      unfold hear
      split
      · exact h
      · simpa [Sound, Ordered, listening] using h
    · intro tr m h
      unfold check
      split
      · exact h
      · split
        · simpa [Sound, Ordered, listening] using h
        · exact h

theorem sound {h : Hist} {l : Leaf Mem Unit} (hr : cls.Runs h l) : Sound (topicLog h) l.mem := by
  refine Class.Runs.invariant (fun h l => Sound (topicLog h) l.mem) ⟨trivial, fun _ => rfl⟩ ?_ hr
  intro h l s l' o hr ih hh
  cases hh with
  | write => simpa [topicLog] using ih
  | event v => exact ih
  | refused => simpa [topicLog] using ih
  | again => simpa [topicLog] using ih
  | unset => simpa [topicLog] using ih
  | raised op e i p => exact sound_hook op _ _ e _ _ ih
  | failed op e i p => exact sound_hook op _ _ e _ _ ih
  | done op e i p => exact sound_hook op _ _ e _ _ ih
  | undelivered e => exact sound_hook .tick _ _ e _ _ ih
  | odd op e i p => exact sound_hook op _ _ e _ _ ih

theorem fresh_listening {tr : List TopicAct} (ho : Orderly tr) (hd : Ordered tr) {m : Nat} (h : fresh tr = some m) :
    listening tr = true ∧ ∃ rest, tr = .recv m :: rest := by
  induction tr with
  | nil => cases h
  | cons a tr ih =>
    cases a with
    | recv k => cases h; exact ⟨ho.1, tr, rfl⟩
    | forget => cases h
    | output k => cases h
    | subscribe =>
      have h2 := (ih ho hd.2 h).1
      rw [hd.1] at h2; cases h2
    | unsubscribe =>
      have h2 := (ih ho hd.2 h).1
      rw [hd.1 ho] at h2; cases h2

theorem fair_mem {tr pre post : List TopicAct} {m : Nat} (h : Fair tr) (ht : tr = pre ++ .output m :: post) :
    fresh post = some m := by
  induction pre generalizing tr with
  | nil => rw [ht] at h; exact h.1
  | cons a pre ih =>
    refine ih (tr := pre ++ .output m :: post) ?_ rfl
    rw [ht] at h
    cases a <;> first | exact h | exact h.2

theorem ordered_append {x tr : List TopicAct} (h : Ordered (x ++ tr)) : Ordered tr := by
  induction x with
  | nil => exact h
  | cons a x ih => cases a <;> first | exact ih h | exact ih h.2

/-- C75 (partial: as long as no message arrives while the node unsubscribes or is not subscribed, see
`c75_old_topic`): a message that is put out is the last that was received, and was received on the
present subscription. -/
theorem c75_topic_partial {h : Hist} {l : Leaf Mem Unit} (hr : cls.Runs h l) (pre post : List TopicAct) (m : Nat)
    (ht : topicLog h = pre ++ .output m :: post) (ho : Orderly post) :
    ∃ rest, post = .recv m :: rest ∧ listening rest = true := by
  have hd : Ordered post := by
    have := (sound hr).1
    rw [ht] at this
    exact ordered_append (x := pre ++ [.output m]) (by simpa using this)
  obtain ⟨h1, rest, rfl⟩ := fresh_listening ho hd (fair_mem (fair hr) ht)
  exact ⟨rest, rfl, ho.1⟩

/-- Messages before and between ticks, and a change of the topic. -/
def sample : List (Step Unit Env Nat) :=
  [.call .setup {} true true,
   .call .tick {} true true,
   .event 1, .event 2,
   .call .tick {} true true,
   .call .tick {} true true,
   .event 3,
   .write () true,
   .call .tick {} true true,
   .call .tick { early := some 4 } true true]

example : ((cls.run sample).1.map (·.2.res)).reverse =
    [some (.ok .idle), some (.ok .running), none, none, some (.ok .succeeded), some (.ok .running), none, none,
     some (.ok .running), some (.ok .succeeded)] := by decide

example : (topicLog (cls.run sample).1).reverse =
    [.forget, .forget, .subscribe, .recv 1, .recv 2, .output 2, .recv 3, .forget, .unsubscribe, .subscribe, .recv 4, .output 4] := by
  decide

example : Orderly (topicLog (cls.run sample).1) := by
  simp [sample, Class.run, Class.step, Class.setup, Class.tick, Class.new, Class.close, BT.accepts, BT.allowedAfter, cls, hook, doSetup,
    doTick, refresh, doReset, connect, hear, check, HookOut.andThen, topicLog, recvs, Orderly, listening]

/-- C75 is violated: the reset of the node (also the one because of a new topic) does not hold the
lock; a message that arrives just before the subscription is destroyed is kept and put out as if it
had been received on the new topic. -/
theorem c75_old_topic : ∃ h l, cls.Runs h l ∧ l.state = .succeeded ∧
    topicLog h = [.output 5, .subscribe, .unsubscribe, .recv 5, .forget, .subscribe, .forget, .forget] :=
  ⟨_, _, cls.runs_run [.call .setup {} true true, .call .tick {} true true, .write () true,
    .call .tick { late := some 5 } true true], by decide, by decide⟩

end Subscriber

namespace MemorySubscriber

/-- topic.py 276-291: the attributes `_msg`, `_msg_timestamp`, `_memory_delay` and whether there is
a `_subscriber`. -/
structure Mem where
  msg : Option Nat := none
  stamp : Option Int := none
  delay : Int := 0
  sub : Bool := false
  deriving DecidableEq, Repr

/-- The outside world, as for `Subscriber`. A message may arrive between the two assignments of
the reset (`between`), while the subscription is being destroyed (`late`) and before the tick takes
the lock (`early`). `now` is the clock. -/
structure Env where
  hasRos : Bool := true
  seconds : Option Int := some 5
  flagsOk : Bool := true
  settingsOk : Bool := true
  createRaises : Bool := false
  destroyOk : Bool := true
  setOk : Bool := true
  between : Option Nat := none
  late : Option Nat := none
  early : Option Nat := none
  now : Int := 0
  deriving DecidableEq, Repr

abbrev Out := HookOut Mem TopicAct

/-- topic.py 276-291 -/
def doSetup (e : Env) (m : Mem) : Out :=
  if e.hasRos then
    match e.seconds with
    | none => ⟨{ m with msg := none, stamp := some e.now, sub := false }, some .err, [.forget]⟩
    | some d => ⟨{ msg := none, stamp := some e.now, delay := d, sub := false }, some (.ok .idle), [.forget]⟩
  else ⟨m, some .err, []⟩

/-- topic.py 293-296: the callback. -/
def callback (x : Option Nat) (now : Int) (m : Mem) : Mem :=
  match x with
  | none => m
  | some x => { m with msg := some x, stamp := some now }

/-- topic.py 372-384. The lock is not taken. -/
def doReset (e : Env) (m : Mem) : Out :=
  if m.sub then
    let m1 := callback e.between e.now { m with msg := none }
    let m2 := callback e.late e.now { m1 with stamp := none }
    if e.destroyOk then
      ⟨{ m2 with sub := false }, some (.ok .idle), .forget :: (recvs e.between ++ (recvs e.late ++ [.unsubscribe]))⟩
    else ⟨m2, some .err, .forget :: (recvs e.between ++ recvs e.late)⟩
  else ⟨{ m with msg := none, stamp := none }, some (.ok .idle), [.forget]⟩

/-- topic.py 299-312 -/
def refresh (updated : Bool) (e : Env) (m : Mem) : Out :=
  if e.flagsOk then
    if updated then doReset e m else ⟨m, some (.ok .idle), []⟩
  else ⟨m, some .err, []⟩

/-- topic.py 314-353 -/
def connect (e : Env) (m : Mem) : Out :=
  if m.sub then ⟨m, some (.ok .idle), []⟩
  else if e.settingsOk then
    if e.createRaises then ⟨m, none, []⟩ else ⟨{ m with sub := true }, some (.ok .idle), [.subscribe]⟩
  else ⟨m, some .err, []⟩

/-- topic.py 293-296 -/
def hear (e : Env) (m : Mem) : Out := ⟨callback e.early e.now m, some (.ok .idle), recvs e.early⟩

/-- topic.py 359-363: a message without a time is not too old. -/
def tooOld (now : Int) (m : Mem) : Bool :=
  match m.stamp with
  | none => false
  | some t => decide (m.delay < now - t)

/-- topic.py 355-366 -/
def check (e : Env) (m : Mem) : Out :=
  match m.msg with
  | none => ⟨m, some (.ok .running), []⟩
  | some x =>
    if tooOld e.now m then ⟨m, some (.ok .failed), []⟩
    else if e.setOk then ⟨m, some (.ok .succeeded), [.output x]⟩ else ⟨m, some .err, []⟩

/-- topic.py 298-366 -/
def doTick (updated : Bool) (e : Env) (m : Mem) : Out :=
  (((refresh updated e m).andThen (connect e)).andThen (hear e)).andThen (check e)

/-- topic.py 276-387. `upd ()` says whether one of the settings was updated (not `topic_type`). -/
def hook (op : Op) (_ : BTState) (upd : Unit → Bool) (e : Env) (m : Mem) : Out :=
  match op with
  | .setup => doSetup e m
  | .tick => doTick (upd ()) e m
  | .untick => ⟨m, some (.ok .idle), []⟩
  | .reset => doReset e m
  | .shutdown => (doReset e m).andThen fun m => ⟨m, some (.ok .shutdown), []⟩

/-- topic.py 262-387. A callback between two operations brings a message and the time. -/
def cls : Class Mem Unit Env (Nat × Int) TopicAct := ⟨{}, hook, fun v m => callback (some v.1) v.2 m⟩

abbrev Hist := Class.History Unit Env (Nat × Int) TopicAct

/-- What a step says about the message: received at a time, or forgotten (latest first within the
operation). -/
def stamped (now : Int) : List TopicAct → Option (Nat × Int) → Option (Nat × Int)
  | [], x => x
  | .recv m :: _, _ => some (m, now)
  | .forget :: _, _ => none
  | _ :: tr, x => stamped now tr x

/-- The message received last since the last setup or reset (or change of the settings), and when. -/
def newest : Hist → Option (Nat × Int)
  | [] => none
  | (.event v, _) :: _ => some v
  | (.call _ e _ _, o) :: h => stamped e.now o.acts.reverse (newest h)
  | _ :: h => newest h

/-- The `memory_delay` read at the last setup. -/
def delay : Hist → Option Int
  | [] => none
  | (.call .setup e _ _, ⟨some (.ok _), _⟩) :: _ => e.seconds
  | _ :: h => delay h

/-- No message arrives between the two assignments of a reset. -/
def Undisturbed : Hist → Prop
  | [] => True
  | (.call _ e _ _, _) :: h => e.between = none ∧ Undisturbed h
  | _ :: h => Undisturbed h

theorem stamped_append (now : Int) (a b : List TopicAct) (x : Option (Nat × Int)) :
    stamped now (a ++ b) x = stamped now a (stamped now b x) := by
  induction a with
  | nil => rfl
  | cons c a ih => cases c <;> simp [stamped, ih]

/-- `_msg` and `_msg_timestamp` are those of the newest message. -/
def Good (x : Option (Nat × Int)) (m : Mem) : Prop := m.msg = x.map (·.1) ∧ ∀ y, x = some y → m.stamp = some y.2

def Keeps (e : Env) (k : Mem → Out) : Prop := ∀ x m, Good x m → Good (stamped e.now (k m).acts.reverse x) (k m).mem

theorem Keeps.andThen {e : Env} {f g : Mem → Out} (hf : Keeps e f) (hg : Keeps e g) : Keeps e fun m => (f m).andThen g := by
  intro tr m h
  dsimp only [HookOut.andThen]
  split
  · rw [List.reverse_append, stamped_append]
    exact hg _ _ (hf _ _ h)
  · exact hf _ _ h

theorem keeps_reset (e : Env) (he : e.between = none) : Keeps e (doReset e) := by
  intro x m h
  unfold doReset
  split
  · dsimp only
    split <;> cases hl : e.late <;> simp [recvs, callback, stamped, Good, he]
  · simp [stamped, Good]

theorem keeps_prep (b : Bool) (e : Env) (he : e.between = none) :
    Keeps e fun m => ((refresh b e m).andThen (connect e)).andThen (hear e) := by
  refine Keeps.andThen (Keeps.andThen ?_ ?_) ?_
  · intro x m h
    unfold refresh
    split
    · split
      · exact keeps_reset e he x m h
      · exact h
    · exact h
  · intro x m h
    unfold connect
    split
    · exact h
    · split
      · split
        · exact h
        · simpa [stamped, Good] using h
      · exact h
  · intro x m h
    unfold hear
    cases e.early with
    | none => exact h
    | some y => simp [recvs, callback, stamped, Good]

theorem keeps_check (e : Env) : Keeps e (check e) := by
  intro x m h
  unfold check
  split
  · exact h
  · split
    · exact h
    · split
      · simpa [stamped] using h
      · exact h

theorem keeps_hook (op : Op) (s : BTState) (u : Unit → Bool) (e : Env) (he : e.between = none) : Keeps e (hook op s u e) := by
  cases op with
  | setup =>
    intro x m h
    simp only [hook, doSetup]
    split
    · split <;> simp [stamped, Good]
    · exact h
  | tick => exact (keeps_prep _ e he).andThen (keeps_check e)
  | untick => exact fun x m h => h
  | reset => exact keeps_reset e he
  | shutdown => exact (keeps_reset e he).andThen fun x m h => h

theorem good {h : Hist} {l : Leaf Mem Unit} (hr : cls.Runs h l) : Undisturbed h → Good (newest h) l.mem := by
  refine Class.Runs.invariant (fun h l => Undisturbed h → Good (newest h) l.mem) (fun _ => ⟨rfl, by simp [newest]⟩) ?_ hr
  intro h l s l' o _ ih hh
  cases hh with
  | write => exact ih
  | event v => intro _; simp [Good, newest, cls, callback]
  | refused => exact fun hu => ih hu.2
  | again => exact fun hu => ih hu.2
  | unset => exact fun hu => ih hu.2
  | raised op e i p => exact fun hu => keeps_hook op _ _ e hu.1 _ _ (ih hu.2)
  | failed op e i p => exact fun hu => keeps_hook op _ _ e hu.1 _ _ (ih hu.2)
  | done op e i p => exact fun hu => keeps_hook op _ _ e hu.1 _ _ (ih hu.2)
  | undelivered e => exact fun hu => keeps_hook .tick _ _ e hu.1 _ _ (ih hu.2)
  | odd op e i p => exact fun hu => keeps_hook op _ _ e hu.1 _ _ (ih hu.2)

theorem callback_delay (x : Option Nat) (t : Int) (m : Mem) : (callback x t m).delay = m.delay := by
  cases x <;> rfl

theorem hook_delay (op : Op) (s : BTState) (u : Unit → Bool) (e : Env) (m : Mem) (hop : op ≠ .setup) :
    (hook op s u e m).mem.delay = m.delay := by
  have hand : ∀ (x : Out) (k : Mem → Out) (d : Int), x.mem.delay = d → (∀ m, m.delay = d → (k m).mem.delay = d) →
      (x.andThen k).mem.delay = d := by
    intro x k d h1 h2
    unfold HookOut.andThen
    split
    · exact h2 _ h1
    · exact h1
  have hreset : ∀ m, (doReset e m).mem.delay = m.delay := by
    intro m
    unfold doReset
    split
    · dsimp only
      split <;> simp [callback_delay]
    · rfl
  cases op with
  | setup => exact absurd rfl hop
  | untick => rfl
  | reset => exact hreset m
  | shutdown => exact hand _ _ _ (hreset m) fun m h => h
  | tick =>
    refine hand _ _ _ (hand _ _ _ (hand _ _ _ ?_ ?_) ?_) ?_
    · unfold refresh
      split
      · split
        · exact hreset m
        · rfl
      · rfl
    · intro m h
      unfold connect
      split
      · exact h
      · split
        · split <;> exact h
        · exact h
    · intro m h
      simpa [hear, callback_delay] using h
    · intro m h
      unfold check
      split
      · exact h
      · split
        · exact h
        · split <;> exact h

theorem delay_other (h : Hist) (op : Op) (e : Env) (i p : Bool) (o : Seen TopicAct)
    (ho : op ≠ .setup ∨ o.res = some .err ∨ o.res = none) : delay ((.call op e i p, o) :: h) = delay h := by
  obtain ⟨r, a⟩ := o
  rcases r with _ | ⟨_ | _⟩ <;> cases op <;> simp_all [delay]

theorem delayed {h : Hist} {l : Leaf Mem Unit} (hr : cls.Runs h l) :
    BT.accepts .tick l.state = true → delay h = some l.mem.delay := by
  refine Class.Runs.invariant (fun h l => BT.accepts .tick l.state = true → delay h = some l.mem.delay)
    (by simp [Class.new, BT.accepts]) ?_ hr
  intro h l s l' o _ ih hh
  have hsetup : ∀ e, (doSetup e l.mem).res = some .err ∨
      (doSetup e l.mem).res = some (.ok .idle) ∧ e.seconds = some (doSetup e l.mem).mem.delay := by
    intro e
    unfold doSetup
    split
    · split
      · exact .inl rfl
      · rename_i d hd
        exact .inr ⟨rfl, hd⟩
    · exact .inl rfl
  have hodd : ∀ op s u e m s', (hook op s u e m).res = some (.ok s') → BT.allowedAfter op s' = true := by
    intro op s u e m s' hres
    have hreset : ∀ m s', (doReset e m).res = some (.ok s') → s' = .idle := by
      intro m s' hres
      unfold doReset at hres
      split at hres
      · dsimp only at hres
        split at hres <;> cases hres
        rfl
      · cases hres; rfl
    cases op with
    | setup =>
      simp only [hook, doSetup] at hres
      split at hres
      · split at hres <;> cases hres
        rfl
      · cases hres
    | untick => cases hres; rfl
    | reset => rw [hreset m s' hres]; rfl
    | shutdown =>
      obtain ⟨_, h2, _, _⟩ := andThen_ok hres
      cases h2; rfl
    | tick =>
      obtain ⟨_, h2, _, _⟩ := andThen_ok hres
      revert h2
      unfold check
      split
      · intro h2; cases h2; rfl
      · split
        · intro h2; cases h2; rfl
        · split
          · intro h2; cases h2; rfl
          · intro h2; cases h2
  cases hh with
  | write => exact ih
  | event v => intro ha; rw [show delay ((Step.event v, ({} : Seen TopicAct)) :: h) = delay h from rfl, ih ha]; simp [cls, callback_delay]
  | refused => intro ha; rw [delay_other _ _ _ _ _ _ (.inr (.inl rfl))]; exact ih ha
  | again => intro ha; rw [delay_other _ _ _ _ _ _ (.inl (by simp))]; exact ih ha
  | unset => simp [BT.accepts]
  | raised op e i p hent hi hres =>
    intro ha
    rw [delay_other _ _ _ _ _ _ (.inr (.inr rfl))]
    by_cases hop : op = .setup
    · subst hop
      rcases hsetup e with h1 | h1
      · simp only [cls, hook] at hres; rw [h1] at hres; cases hres
      · simp only [cls, hook] at hres; rw [h1.1] at hres; cases hres
    · simp only [cls, hook_delay op _ _ e _ hop]
      exact ih ha
  | failed => simp [BT.accepts]
  | undelivered => simp [BT.accepts]
  | odd op e i p s hent hi ha hres => rw [hodd op l.state _ e _ s hres] at ha; cases ha
  | done op e i p s hent hi hp ha hres =>
    intro hacc
    by_cases hop : op = .setup
    · subst hop
      rcases hsetup e with h1 | h1
      · simp only [cls, hook] at hres; rw [h1] at hres; cases hres
      · exact h1.2
    · rw [delay_other _ _ _ _ _ _ (.inl hop)]
      simp only [cls, hook_delay op _ _ e _ hop]
      apply ih
      cases op with
      | setup => exact absurd rfl hop
      | shutdown => simp only [BT.allowedAfter] at ha; simp [BT.accepts] at hacc; simp_all
      | _ => exact hent

theorem step_tick {l : Leaf Mem Unit} {e : Env} {i p : Bool} {s : BTState}
    (h : (cls.step l (.call .tick e i p)).2.res = some (.ok s)) :
    BT.accepts .tick l.state = true ∧ (doTick (l.upd ()) e l.mem).res = some (.ok s) ∧
      (cls.step l (.call .tick e i p)).2.acts = (doTick (l.upd ()) e l.mem).acts := by
  have hh := cls.happens l (.call .tick e i p)
  generalize (cls.step l (.call .tick e i p)).1 = l' at hh
  generalize (cls.step l (.call .tick e i p)).2 = o at hh h ⊢
  cases hh with
  | refused => cases h
  | unset => cases h
  | raised => cases h
  | failed => cases h
  | undelivered => cases h
  | odd => cases h
  | done _ _ _ _ s' hent _ _ ha hres =>
    cases h
    exact ⟨hent, hres, rfl⟩

/-- C74 (partial: unless a message arrives between the two assignments of a reset, see
`c74_never_old`): a memory subscriber answers RUNNING until it has received a message, FAILED if the
newest one is older than `memory_delay`, and otherwise SUCCEEDED with the newest message as output. -/
theorem c74_memory_partial {h : Hist} {l : Leaf Mem Unit} (hr : cls.Runs h l) (hu : Undisturbed h) (e : Env) (i p : Bool)
    (s : BTState) (he : e.between = none) (hs : (cls.step l (.call .tick e i p)).2.res = some (.ok s)) :
    ∃ d, delay h = some d ∧
    match newest ((.call .tick e i p, (cls.step l (.call .tick e i p)).2) :: h) with
    | none => s = .running ∧ ∀ m, TopicAct.output m ∉ (cls.step l (.call .tick e i p)).2.acts
    | some (m, t) =>
      if d < e.now - t then s = .failed ∧ ∀ m, TopicAct.output m ∉ (cls.step l (.call .tick e i p)).2.acts
      else s = .succeeded ∧ TopicAct.output m ∈ (cls.step l (.call .tick e i p)).2.acts := by
  obtain ⟨hacc, h1, h2⟩ := step_tick hs
  refine ⟨l.mem.delay, delayed hr hacc, ?_⟩
  simp only [newest, h2]
  clear h2
  have hd := hook_delay .tick l.state l.upd e l.mem (by simp)
  have hg := good hr hu
  generalize newest h = x0 at hg ⊢
  have hk := keeps_prep (l.upd ()) e he _ _ hg
  have hno : ∀ m, TopicAct.output m ∉ (((refresh (l.upd ()) e l.mem).andThen (connect e)).andThen (hear e)).acts := by
    have hand : ∀ (x : Out) (k : Mem → Out), (∀ m, TopicAct.output m ∉ x.acts) → (∀ y m, TopicAct.output m ∉ (k y).acts) →
        ∀ m, TopicAct.output m ∉ (x.andThen k).acts := by
      intro x k g1 g2 m
      unfold HookOut.andThen
      split
      · intro hm
        rcases List.mem_append.1 hm with hm | hm
        · exact g1 m hm
        · exact g2 _ m hm
      · exact g1 m
    refine hand _ _ (hand _ _ ?_ ?_) ?_
    · intro m
      unfold refresh
      split
      · split
        · unfold doReset
          split
          · dsimp only
            split <;> cases e.between <;> cases e.late <;> simp [recvs]
          · simp
        · simp
      · simp
    · intro y m
      unfold connect
      split
      · simp
      · split
        · split <;> simp
        · simp
    · intro y m
      unfold hear
      cases e.early <;> simp [recvs]
  change (doTick (l.upd ()) e l.mem).mem.delay = _ at hd
  unfold doTick at h1 hd ⊢
  dsimp only at hk
  generalize ((refresh (l.upd ()) e l.mem).andThen (connect e)).andThen (hear e) = x at h1 hk hno hd ⊢
  obtain ⟨⟨s', q1⟩, q2, q3, q4⟩ := andThen_ok h1
  rw [q3] at hd
  rw [q4, List.reverse_append, stamped_append]
  generalize stamped e.now x.acts.reverse x0 = y at hk ⊢
  obtain ⟨g1, g2⟩ := hk
  unfold check at q2 hd ⊢
  cases y with
  | none =>
    simp only [Option.map_none] at g1
    simp only [g1] at q2 ⊢
    cases q2
    exact ⟨rfl, by simpa using hno⟩
  | some y =>
    obtain ⟨m, t⟩ := y
    have g2 := g2 _ rfl
    simp only [Option.map_some] at g1
    simp only [g1, tooOld, g2, decide_eq_true_eq] at q2 hd ⊢
    have hxd : x.mem.delay = l.mem.delay := by
      revert hd
      split
      · exact id
      · split <;> exact id
    rw [hxd] at q2 ⊢
    split at q2
    · rename_i hlt
      cases q2
      simp only [hlt, if_true, List.reverse_nil, stamped]
      exact ⟨trivial, by simpa using hno⟩
    · rename_i hlt
      split at q2
      · rename_i hok
        cases q2
        simp [hlt, hok, stamped]
      · cases q2

/-- A message is received, and gets old. -/
def sample : List (Step Unit Env (Nat × Int)) :=
  [.call .setup { seconds := some 5 } true true,
   .call .tick { now := 1 } true true,
   .event (7, 2),
   .call .tick { now := 3 } true true,
   .call .tick { now := 6 } true true,
   .call .tick { now := 9 } true true,
   .call .tick { early := some 8, now := 10 } true true,
   .call .reset { now := 11 } true true,
   .call .tick { now := 12 } true true]

example : ((cls.run sample).1.map (·.2.res)).reverse =
    [some (.ok .idle), some (.ok .running), none, some (.ok .succeeded), some (.ok .succeeded), some (.ok .failed),
     some (.ok .succeeded), some (.ok .idle), some (.ok .running)] := by decide

example : Undisturbed (cls.run sample).1 ∧ newest (cls.run (sample.take 7)).1 = some (8, 10) := by
  refine ⟨?_, by decide⟩
  simp [sample, Class.run, Undisturbed]

/-- C74 is violated: a message that arrives between the two assignments of a reset is kept without
a time, and is never found to be too old. -/
theorem c74_never_old : ∃ h l, cls.Runs h l ∧ delay h = some 5 ∧
    ∀ t : Int, (cls.step l (.call .tick { now := t } true true)).2 = ⟨some (.ok .succeeded), [.output 7]⟩ := by
  refine ⟨_, _, cls.runs_run [.call .setup { seconds := some 5 } true true, .call .tick { now := 1 } true true, .write () true,
    .call .tick { between := some 7, now := 2 } true true], rfl, fun t => ?_⟩
  rfl

end MemorySubscriber
end Verif.Ros
