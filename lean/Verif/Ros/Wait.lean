import Verif.Ros.Frame

/-! C56: the node `Wait` (`ros_nodes/wait.py`). -/

set_option autoImplicit false

namespace Verif.Ros

open Verif.BT (BTState Op Res)

namespace Wait

/-- wait.py 52-66: the attributes `start_time` and `wait_duration`. Times and durations are exact
integers (nanoseconds) in the model; the code divides by 1e9 and compares floating point numbers. -/
structure Mem where
  start : Option Int := none
  duration : Int := 0
  deriving DecidableEq, Repr

/-- The outside world: is there a ROS node, the input `seconds_to_wait` (`none`: `get_value_as`
answers `Err`) and the two clock readings of `_do_tick` (wait.py 69, 73). -/
structure Env where
  hasRos : Bool := true
  seconds : Option Int := some 0
  now : Int := 0
  later : Int := 0
  deriving DecidableEq, Repr

/-- wait.py 52-66 -/
def doSetup (e : Env) (m : Mem) : HookOut Mem Unit :=
  let m := { m with start := none }
  if e.hasRos then
    match e.seconds with
    | none => ⟨m, some .err, []⟩
    | some t => ⟨{ m with duration := t }, some (.ok .idle), []⟩
  else ⟨m, some .err, []⟩

/-- wait.py 68-78 -/
def doTick (e : Env) (m : Mem) : HookOut Mem Unit :=
  let start := m.start.getD e.now
  ⟨{ m with start := some start },
    some (.ok (if m.duration ≤ e.later - start then .succeeded else .running)), []⟩

/-- wait.py 52-87 -/
def hook (op : Op) (_ : BTState) (_ : Unit → Bool) (e : Env) (m : Mem) : HookOut Mem Unit :=
  match op with
  | .setup => doSetup e m
  | .tick => doTick e m
  | .untick => ⟨m, some (.ok .paused), []⟩
  | .reset => ⟨{ m with start := none }, some (.ok .idle), []⟩
  | .shutdown => ⟨m, some (.ok .shutdown), []⟩

/-- wait.py 46-87 -/
def cls : Class Mem Unit Env Empty Unit := ⟨{}, hook, fun v => v.elim⟩

abbrev Hist := Class.History Unit Env Empty Unit

/-! ### What a user sees -/

/-- The time of the first tick after the last setup or reset, if there was one. -/
def firstTick : Hist → Option Int
  | [] => none
  | (.call .setup _ _ _, ⟨some (.ok _), _⟩) :: _ => none
  | (.call .reset _ _ _, ⟨some (.ok _), _⟩) :: _ => none
  | (.call .tick e _ _, ⟨some (.ok _), _⟩) :: h => some ((firstTick h).getD e.now)
  | _ :: h => firstTick h

/-- The duration at the last setup. -/
def duration : Hist → Option Int
  | [] => none
  | (.call .setup e _ _, ⟨some (.ok _), _⟩) :: _ => e.seconds
  | _ :: h => duration h

/-! ### C56 -/

/-- While the node can be ticked, its attributes are what the history says. -/
def Inv (h : Hist) (l : Leaf Mem Unit) : Prop :=
  (BT.accepts .tick l.state = true → l.mem.start = firstTick h ∧ duration h = some l.mem.duration)

theorem inv {h : Hist} {l : Leaf Mem Unit} (hr : cls.Runs h l) : Inv h l := by
  refine hr.invariant Inv (by intro h; cases h) ?_
  intro h l s l' o _ ih hh
  cases hh with
  | write f b => exact ih
  | event v => exact v.elim
  | refused op e i p hf => cases op <;> exact ih
  | again e i p hf => exact ih
  | unset e p hf => intro ha; cases ha
  | raised op e i p _ _ hr =>
    exfalso; revert hr; cases op <;> simp only [cls, hook, doSetup, doTick] <;> grind
  | failed op e i p _ _ hr => intro ha; cases ha
  | undelivered e s _ _ _ => intro ha; cases ha
  | odd op e i p s _ _ ha hr =>
    exfalso; revert hr ha; cases op <;> simp only [cls, hook, doSetup, doTick] <;> grind [BT.allowedAfter]
  | done op e i p s hen _ _ ha hr =>
    intro hacc
    cases op with
    | setup =>
      simp only [cls, hook, doSetup] at hr ⊢
      split at hr
      · split at hr
        · cases hr
        · rename_i t ht _
          simp_all [firstTick, duration]
      · cases hr
    | tick =>
      obtain ⟨h1, h2⟩ := ih hen
      simp [cls, hook, doTick, firstTick, duration, h1, h2]
    | untick => exact ih hen
    | reset =>
      obtain ⟨h1, h2⟩ := ih hen
      simp [cls, hook, firstTick, duration, h2]
    | shutdown =>
      simp only [cls, hook] at hr
      cases hr
      cases hacc

/-- C56: whenever a Wait is ticked (all inputs set, outputs delivered), it answers. It answers
SUCCEEDED if the duration has passed since the first tick after the last setup or reset, RUNNING
otherwise; what else happened in between, unticks included, does not matter. -/
theorem c56_answer {h : Hist} {l : Leaf Mem Unit} (hr : cls.Runs h l) (e : Env)
    (ha : BT.accepts .tick l.state = true) :
    ∃ d, duration h = some d ∧ (cls.step l (.call .tick e true true)).2.res =
      some (.ok (if e.later - (firstTick h).getD e.now < d then .running else .succeeded)) := by
  obtain ⟨h1, h2⟩ := inv hr ha
  refine ⟨l.mem.duration, h2, ?_⟩
  rw [← h1]
  simp only [Class.step, Class.tick, ha, cls, hook, doTick, if_true]
  by_cases hd : l.mem.duration ≤ e.later - l.mem.start.getD e.now
  · have : ¬ e.later - l.mem.start.getD e.now < l.mem.duration := by omega
    simp [hd, this, BT.allowedAfter]
  · have : e.later - l.mem.start.getD e.now < l.mem.duration := by omega
    simp [hd, this, BT.allowedAfter]

/-- C56: an untick keeps the time that has passed; the node stays ready. -/
theorem c56_untick (h : Hist) (l : Leaf Mem Unit) (e : Env) (i p : Bool)
    (ha : BT.accepts .tick l.state = true) :
    let out := cls.step l (.call .untick e i p)
    out.2.res = some (.ok .paused) ∧ BT.accepts .tick out.1.state = true ∧
      firstTick ((.call .untick e i p, out.2) :: h) = firstTick h := by
  have : BT.accepts .untick l.state = true := ha
  simp only [Class.step, Class.untick, if_pos this, Class.close, cls, hook]
  exact ⟨rfl, rfl, rfl⟩

/-- C56: with a clock that does not go back, a Wait that has succeeded succeeds until the next
setup or reset. -/
theorem c56_stays {h : Hist} {l : Leaf Mem Unit} (hr : cls.Runs h l) (e e' : Env)
    (ha : BT.accepts .tick l.state = true) (hc : e.later ≤ e'.later)
    (hs : (cls.step l (.call .tick e true true)).2.res = some (.ok .succeeded)) :
    let l' := (cls.step l (.call .tick e true true)).1
    (cls.step l' (.call .tick e' true true)).2.res = some (.ok .succeeded) := by
  obtain ⟨d, hd, h1⟩ := c56_answer hr e ha
  have hst : (cls.step l (.call .tick e true true)).1.state = .succeeded := by
    revert hs
    simp only [Class.step, Class.tick, ha, cls, hook, doTick, if_true]
    by_cases hd : l.mem.duration ≤ e.later - l.mem.start.getD e.now <;> simp [hd, BT.allowedAfter]
  obtain ⟨d', hd', h2⟩ := c56_answer (.step (.call .tick e true true) hr) e' (by rw [hst]; rfl)
  dsimp only
  rw [h2]
  have e1 : duration ((Step.call .tick e true true, (cls.step l (.call .tick e true true)).2) :: h) = duration h := by
    simp [duration]
  rw [e1, hd] at hd'
  cases hd'
  have e2 : firstTick ((Step.call .tick e true true, (cls.step l (.call .tick e true true)).2) :: h) =
      some ((firstTick h).getD e.now) := by
    rw [show (cls.step l (.call .tick e true true)).2 = ⟨some (.ok .succeeded), (cls.step l (.call .tick e true true)).2.acts⟩ by
      rw [← hs]]
    simp [firstTick]
  rw [e2]
  rw [h1] at hs
  have : ¬ e.later - (firstTick h).getD e.now < d := by
    intro hlt
    simp [hlt] at hs
  have : ¬ e'.later - (firstTick h).getD e.now < d := by omega
  simp [this]

/-- A Wait of 5 that is ticked at 10, unticked, and ticked at 13, 15 and 16. -/
def sample : List (Step Unit Env Empty) :=
  [.call .setup { seconds := some 5 } true true, .call .tick { now := 10, later := 10 } true true,
   .call .untick {} true true, .call .tick { now := 13, later := 13 } true true,
   .call .tick { now := 14, later := 15 } true true, .call .tick { now := 16, later := 16 } true true]

example : ((cls.run sample).1.map (·.2.res)).reverse =
    [some (.ok .idle), some (.ok .running), some (.ok .paused), some (.ok .running),
     some (.ok .succeeded), some (.ok .succeeded)] := by decide

example : firstTick (cls.run sample).1 = some 10 ∧ duration (cls.run sample).1 = some 5 ∧
    BT.accepts .tick (cls.run sample).2.state = true := by decide

end Wait
end Verif.Ros
