import Verif.Ros.Service

/-! C73: the node `WaitForService` (`ros_nodes/service.py`). -/

set_option autoImplicit false

namespace Verif.Ros

open Verif.BT (BTState Op Res)

namespace WaitService

/-- service.py 374-386: whether the attributes exist, whether there is a `_service_client`, the time
`_last_service_call_time` and `_wait_for_service_seconds` (exact integers in the model). -/
structure Mem where
  made : Bool := false
  client : Bool := false
  start : Option Int := none
  limit : Int := 0
  deriving DecidableEq, Repr

/-- The outside world: is there a ROS node, can the type be read, the input
`wait_for_service_seconds` (`none`: `Err`), can the flag and the name be read, does `create_client`
raise, does `destroy_client` succeed, is the service ready, and the two clock readings
(service.py 416, 418). -/
structure Env where
  hasRos : Bool := true
  typeOk : Bool := true
  seconds : Option Int := some 0
  flagsOk : Bool := true
  nameOk : Bool := true
  createRaises : Bool := false
  destroyOk : Bool := true
  ready : Bool := false
  now : Int := 0
  later : Int := 0
  deriving DecidableEq, Repr

abbrev Out := HookOut Mem Unit

/-- service.py 369-386 -/
def doSetup (e : Env) (m : Mem) : Out :=
  if e.hasRos && e.typeOk then
    match e.seconds with
    | none => ⟨m, some .err, []⟩
    | some t => ⟨{ made := true, client := false, start := none, limit := t }, some (.ok .idle), []⟩
  else ⟨m, some .err, []⟩

/-- service.py 427-429 -/
def doUntick (m : Mem) : Out := ⟨{ m with start := none }, some (.ok .idle), []⟩

/-- service.py 431-436. Without setup the attributes are missing: AttributeError. -/
def doReset (e : Env) (m : Mem) : Out :=
  if m.made then
    if m.client then
      if e.destroyOk then doUntick { m with client := false } else ⟨m, some .err, []⟩
    else doUntick m
  else ⟨m, none, []⟩

/-- service.py 389-399 -/
def refresh (updated : Bool) (e : Env) (m : Mem) : Out :=
  if e.flagsOk then
    if updated then doReset e m else ⟨m, some (.ok .idle), []⟩
  else ⟨m, some .err, []⟩

/-- service.py 401-410 -/
def connect (e : Env) (m : Mem) : Out :=
  if m.client then ⟨m, some (.ok .idle), []⟩
  else if e.nameOk then
    if e.createRaises then ⟨m, none, []⟩ else ⟨{ m with client := true }, some (.ok .idle), []⟩
  else ⟨m, some .err, []⟩

/-- service.py 412-425 -/
def check (e : Env) (m : Mem) : Out :=
  if e.ready then ⟨m, some (.ok .succeeded), []⟩
  else
    let start := m.start.getD e.now
    ⟨{ m with start := some start }, some (.ok (if m.limit < e.later - start then .failed else .running)), []⟩

/-- service.py 388-425 -/
def doTick (updated : Bool) (e : Env) (m : Mem) : Out := ((refresh updated e m).andThen (connect e)).andThen (check e)

/-- service.py 369-439 -/
def hook (op : Op) (_ : BTState) (upd : Unit → Bool) (e : Env) (m : Mem) : Out :=
  match op with
  | .setup => doSetup e m
  | .tick => doTick (upd ()) e m
  | .untick => doUntick m
  | .reset => doReset e m
  | .shutdown => (doReset e m).andThen fun m => ⟨m, some (.ok .shutdown), []⟩

/-- service.py 366-439 -/
def cls : Class Mem Unit Env Empty Unit := ⟨{}, hook, fun v => v.elim⟩

abbrev Hist := Class.History Unit Env Empty Unit

/-! ### What a user sees -/

/-- The service name counts as new since the last tick. -/
def renamed : Hist → Bool
  | [] => false
  | (.write _ b, _) :: _ => b
  | (.call .setup _ _ _, o) :: h => if o.res = some .err then renamed h else true
  | (.call .reset _ _ _, o) :: h => if o.res = some .err then renamed h else true
  | (.call .tick _ _ _, ⟨some (.ok _), _⟩) :: _ => false
  | _ :: h => renamed h

/-- The limit at the last setup. -/
def limit : Hist → Option Int
  | [] => none
  | (.call .setup e _ _, ⟨some (.ok _), _⟩) :: _ => e.seconds
  | _ :: h => limit h

/-- The time at which the service was first found missing since the last setup, reset, untick or
change of the name. -/
def firstMiss : Hist → Option Int
  | [] => none
  | (.call .setup _ _ _, ⟨some (.ok _), _⟩) :: _ => none
  | (.call .reset _ _ _, ⟨some (.ok _), _⟩) :: _ => none
  | (.call .untick _ _ _, ⟨some (.ok _), _⟩) :: _ => none
  | (.call .tick e _ _, ⟨some (.ok _), _⟩) :: h =>
    let before := if renamed h then none else firstMiss h
    if e.ready then before else some (before.getD e.now)
  | (.call .tick _ _ _, ⟨none, _⟩) :: h => if renamed h then none else firstMiss h
  | _ :: h => firstMiss h

/-! ### C73 -/

theorem reset_ok {e : Env} {m : Mem} {s : BTState} (h : (doReset e m).res = some (.ok s)) :
    s = .idle ∧ m.made = true ∧ (doReset e m).mem = { m with client := false, start := none } := by
  obtain ⟨a, b, c, d⟩ := m
  unfold doReset at h ⊢
  cases a <;> cases b <;> cases hd : e.destroyOk <;> simp_all [doUntick]

theorem reset_none {e : Env} {m : Mem} (h : (doReset e m).res = none) : m.made = false := by
  obtain ⟨a, b, c, d⟩ := m
  unfold doReset at h
  cases a <;> cases b <;> cases hd : e.destroyOk <;> simp_all [doUntick]

theorem refresh_ok {b : Bool} {e : Env} {m : Mem} {s : BTState} (h : (refresh b e m).res = some (.ok s)) :
    (refresh b e m).mem.made = m.made ∧ (refresh b e m).mem.limit = m.limit ∧
      (refresh b e m).mem.start = if b then none else m.start := by
  unfold refresh at h ⊢
  split
  · rename_i hf
    simp only [hf, if_true] at h
    split
    · rename_i hb
      simp only [hb, if_true] at h
      rw [(reset_ok h).2.2]
      simp
    · rename_i hb
      simp
  · rename_i hf
    simp [hf] at h

theorem refresh_none {b : Bool} {e : Env} {m : Mem} (h : (refresh b e m).res = none) : m.made = false := by
  unfold refresh at h
  split at h
  · split at h
    · exact reset_none h
    · cases h
  · cases h

theorem connect_keeps (e : Env) (m : Mem) :
    (connect e m).mem.made = m.made ∧ (connect e m).mem.limit = m.limit ∧ (connect e m).mem.start = m.start := by
  unfold connect
  split
  · simp
  · split
    · split <;> simp
    · simp

/-- What a tick does. -/
theorem tick_ok {b : Bool} {e : Env} {m : Mem} {s : BTState} (h : (doTick b e m).res = some (.ok s)) :
    (doTick b e m).mem.made = m.made ∧ (doTick b e m).mem.limit = m.limit ∧
    let before := if b then none else m.start
    (e.ready = true → s = .succeeded ∧ (doTick b e m).mem.start = before) ∧
    (e.ready = false → (doTick b e m).mem.start = some (before.getD e.now) ∧
      s = if m.limit < e.later - before.getD e.now then .failed else .running) := by
  unfold doTick at h ⊢
  obtain ⟨⟨s1, h1⟩, h2, h3, _⟩ := andThen_ok h
  obtain ⟨⟨s2, g1⟩, g2, g3, _⟩ := andThen_ok h1
  obtain ⟨r1, r2, r3⟩ := refresh_ok g1
  obtain ⟨c1, c2, c3⟩ := connect_keeps e (refresh b e m).mem
  rw [h3]
  rw [← g3] at c1 c2 c3
  generalize (refresh b e m).andThen (connect e) = x at *
  unfold check at h2 ⊢
  cases hr : e.ready
  · simp only [hr, Bool.false_eq_true, if_false] at h2 ⊢
    rw [c2, c3, r2, r3] at h2
    simp only [c1, c2, c3, r1, r2, r3]
    simp only [Option.some.injEq, Res.ok.injEq] at h2
    simp [h2]
  · simp only [hr, if_true] at h2 ⊢
    cases h2
    simp [c1, c2, c3, r1, r2, r3]

theorem tick_none {b : Bool} {e : Env} {m : Mem} (h : (doTick b e m).res = none) :
    m.made = false ∨ (doTick b e m).mem.made = m.made ∧ (doTick b e m).mem.limit = m.limit ∧
      (doTick b e m).mem.start = if b then none else m.start := by
  unfold doTick at h ⊢
  have hcheck : ∀ m, (check e m).res ≠ none := by
    intro m
    unfold check
    split <;> simp
  rcases Service.andThen_cases _ (check e) (by rw [h]; simp) with ⟨h1, h2⟩ | ⟨_, _, h3⟩
  · rw [h2]
    rcases Service.andThen_cases _ (connect e) (by rw [h1]; simp) with ⟨g1, g2⟩ | ⟨⟨s, g1⟩, _, g3⟩
    · exact .inl (refresh_none g1)
    · rw [g3]
      right
      obtain ⟨r1, r2, r3⟩ := refresh_ok g1
      obtain ⟨c1, c2, c3⟩ := connect_keeps e (refresh b e m).mem
      dsimp only
      rw [c1, c2, c3]
      exact ⟨r1, r2, r3⟩
  · rw [h3] at h
    exact absurd h (hcheck _)

/-- While the node can be ticked, its attributes are what the history says. -/
def Inv (h : Hist) (l : Leaf Mem Unit) : Prop :=
  BT.accepts .tick l.state = true →
    l.upd () = renamed h ∧ l.mem.made = true ∧ limit h = some l.mem.limit ∧ l.mem.start = firstMiss h

theorem inv {h : Hist} {l : Leaf Mem Unit} (hr : cls.Runs h l) : Inv h l := by
  refine Class.Runs.invariant Inv (by simp [Inv, Class.new, BT.accepts]) ?_ hr
  intro h l s l' o _ ih hh
  have hodd : ∀ op s u e, (cls.hook op l.state u e l.mem).res = some (.ok s) → BT.allowedAfter op s = true := by
    intro op s u e hres
    cases op with
    | setup =>
      simp only [cls, hook, doSetup] at hres
      split at hres
      · split at hres <;> cases hres
        rfl
      · cases hres
    | untick => cases hres; rfl
    | reset => rw [(reset_ok hres).1]; rfl
    | shutdown =>
      obtain ⟨_, h2, _, _⟩ := andThen_ok hres
      cases h2; rfl
    | tick =>
      obtain ⟨_, _, h1, h2⟩ := tick_ok hres
      cases hready : e.ready
      · rw [(h2 hready).2]; generalize Option.getD _ _ = t; split <;> rfl
      · rw [(h1 hready).1]; rfl
  cases hh with
  | write f b =>
    intro ha
    obtain ⟨_, i2, i3, i4⟩ := ih ha
    exact ⟨by simp [renamed], i2, i3, i4⟩
  | event v => exact v.elim
  | refused op e i p hr =>
    intro ha
    obtain ⟨i1, i2, i3, i4⟩ := ih ha
    refine ⟨?_, i2, ?_, ?_⟩ <;> cases op <;> simp_all [renamed, limit, firstMiss]
  | again e i p hs => intro ha; rw [hs] at ha; cases ha
  | unset => simp [Inv, BT.accepts]
  | raised op e i p hent hi hres =>
    intro ha
    obtain ⟨i1, i2, i3, i4⟩ := ih ha
    cases op with
    | setup =>
      simp only [cls, hook, doSetup] at hres
      split at hres
      · split at hres <;> cases hres
      · cases hres
    | untick => cases hres
    | reset => rw [reset_none hres] at i2; cases i2
    | shutdown =>
      rcases andThen_none hres with ⟨h1, _⟩ | ⟨h1, _⟩
      · rw [reset_none h1] at i2; cases i2
      · cases h1
    | tick =>
      rcases tick_none hres with h1 | ⟨h1, h2, h3⟩
      · rw [h1] at i2; cases i2
      · have i1 : Class.flags .tick l () = renamed h := i1
        rw [i1] at h1 h2 h3
        refine ⟨i1, (by simp only [cls, hook]; rw [i1, h1]; exact i2), ?_, ?_⟩
        · simp only [limit, i3, cls, hook]; rw [i1, h2]
        · simp only [firstMiss, cls, hook]; rw [i1, h3, i4]
  | failed => simp [Inv, BT.accepts]
  | undelivered => simp [Inv, BT.accepts]
  | odd op e i p s hent hi ha hres => rw [hodd op s _ e hres] at ha; cases ha
  | done op e i p s hent hi hp ha hres =>
    intro hacc
    cases op with
    | setup =>
      simp only [cls, hook, doSetup] at hres ⊢
      split at hres
      · rename_i h1
        split at hres <;> cases hres
        rename_i t ht
        simp [renamed, limit, firstMiss, Class.flags, Class.cleared, h1, ht]
      · cases hres
    | untick =>
      obtain ⟨i1, i2, i3, i4⟩ := ih hent
      exact ⟨i1, i2, i3, rfl⟩
    | reset =>
      obtain ⟨i1, i2, i3, i4⟩ := ih hent
      simp only [cls, hook]
      rw [(reset_ok hres).2.2]
      exact ⟨by simp [renamed, Class.flags, Class.cleared], i2, i3, rfl⟩
    | shutdown => simp only [BT.allowedAfter] at ha; simp [BT.accepts] at hacc; simp_all
    | tick =>
      obtain ⟨i1, i2, i3, i4⟩ := ih hent
      obtain ⟨h1, h2, h3, h4⟩ := tick_ok hres
      have i1 : Class.flags .tick l () = renamed h := i1
      rw [i1, i4] at h3 h4
      rw [i1] at h1 h2
      refine ⟨rfl, (by simp only [cls, hook]; rw [i1, h1]; exact i2), ?_, ?_⟩
      · simp only [limit, i3, cls, hook]; rw [i1, h2]
      · simp only [firstMiss, cls, hook, i1]
        cases hready : e.ready
        · rw [(h4 hready).1]; simp
        · rw [(h3 hready).2]; simp

/-- C73: a tick that does not fail answers SUCCEEDED exactly if the service is available. Otherwise it
answers RUNNING until the limit has passed since the service was first found missing (after setup,
reset, untick or a new name), and FAILED from then on. -/
theorem c73_answer {h : Hist} {l : Leaf Mem Unit} (hr : cls.Runs h l) (e : Env) (i p : Bool) (s : BTState)
    (hs : (cls.step l (.call .tick e i p)).2.res = some (.ok s)) :
    ∃ d, limit h = some d ∧
    (e.ready = true → s = .succeeded) ∧
    (e.ready = false → ∃ t, firstMiss ((.call .tick e i p, (cls.step l (.call .tick e i p)).2) :: h) = some t ∧
      s = if d < e.later - t then .failed else .running) := by
  have hh := cls.happens l (.call .tick e i p)
  generalize (cls.step l (.call .tick e i p)).1 = l' at hh
  generalize (cls.step l (.call .tick e i p)).2 = o at hh hs ⊢
  cases hh with
  | refused => cases hs
  | unset => cases hs
  | raised => cases hs
  | failed => cases hs
  | undelivered => cases hs
  | odd => cases hs
  | done _ _ _ _ s' hent _ _ ha hres =>
    cases hs
    obtain ⟨i1, i2, i3, i4⟩ := inv hr hent
    obtain ⟨h1, h2, h3, h4⟩ := tick_ok hres
    have i1 : Class.flags .tick l () = renamed h := i1
    rw [i1, i4] at h3 h4
    refine ⟨_, i3, fun hready => (h3 hready).1, fun hready => ?_⟩
    refine ⟨_, by simp [firstMiss, hready]; rfl, ?_⟩
    exact (h4 hready).2

/-- The service is missing, becomes available, then the name is changed. -/
def sample : List (Step Unit Env Empty) :=
  [.call .setup { seconds := some 5 } true true,
   .call .tick { now := 1, later := 1 } true true,
   .call .tick { now := 4, later := 4 } true true,
   .call .tick { now := 7, later := 7 } true true,
   .call .untick {} true true,
   .call .tick { now := 8, later := 8 } true true,
   .call .tick { now := 9, later := 9, ready := true } true true,
   .write () true,
   .call .tick { now := 20, later := 20 } true true]

example : ((cls.run sample).1.map (·.2.res)).reverse =
    [some (.ok .idle), some (.ok .running), some (.ok .running), some (.ok .failed), some (.ok .idle), some (.ok .running),
     some (.ok .succeeded), none, some (.ok .running)] := by decide

/-- A remark on C73: the time of the first miss is kept when the service becomes available. If it vanishes
later, the node answers FAILED at the first tick that finds it missing, without waiting. -/
theorem c73_vanished : ∃ h l, cls.Runs h l ∧ limit h = some 5 ∧ l.state = .succeeded ∧
    (cls.step l (.call .tick { now := 20, later := 20 } true true)).2.res = some (.ok .failed) :=
  ⟨_, _, cls.runs_run (sample.take 7), rfl, rfl, rfl⟩

end WaitService
end Verif.Ros
