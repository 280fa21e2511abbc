import Verif.Ros.Frame

/-! C62: topic publishers (`ros_nodes/topic.py`). -/

set_option autoImplicit false

namespace Verif.Ros

open Verif.BT (BTState Op Res)

namespace Publisher

/-- The groups of inputs whose flags are queried: `topic_name`, `reliable`, `transient_local` and
`depth` together (topic.py 476-478), and `message` (topic.py 531). `topic_type` is not queried. -/
inductive Group
  | settings
  | message
  deriving DecidableEq, Repr

/-- Effects: a publisher is created, destroyed, a message is published. -/
inductive Act
  | create
  | destroy
  | publish (m : Nat)
  deriving DecidableEq, Repr

/-- topic.py 472: `_publisher`; `none` means that the attribute does not exist (no setup yet),
otherwise whether there is a publisher. -/
structure Mem where
  pub : Option Bool := none
  deriving DecidableEq, Repr

/-- The outside world: is there a ROS node, can the flags be read, can the settings be read, does
`create_publisher` raise, does `destroy_publisher` succeed, the input `message` (`none`: `Err`) and
does `publish` raise. -/
structure Env where
  hasRos : Bool := true
  flagsOk : Bool := true
  settingsOk : Bool := true
  createRaises : Bool := false
  destroyOk : Bool := true
  message : Option Nat := some 0
  publishRaises : Bool := false
  deriving DecidableEq, Repr

abbrev Out := HookOut Mem Act

/-- topic.py 466-473 -/
def doSetup (e : Env) (m : Mem) : Out :=
  if e.hasRos then ⟨{ pub := some false }, some (.ok .idle), []⟩ else ⟨m, some .err, []⟩

/-- topic.py 554-562. Without setup the attribute is missing: AttributeError. -/
def doReset (e : Env) (m : Mem) : Out :=
  match m.pub with
  | none => ⟨m, none, []⟩
  | some false => ⟨m, some (.ok .idle), []⟩
  | some true => if e.destroyOk then ⟨{ pub := some false }, some (.ok .idle), [.destroy]⟩ else ⟨m, some .err, []⟩

/-- topic.py 476-489 -/
def refresh (updated : Bool) (e : Env) (m : Mem) : Out :=
  if e.flagsOk then
    if updated then doReset e m else ⟨m, some (.ok .idle), []⟩
  else ⟨m, some .err, []⟩

/-- topic.py 491-527 -/
def connect (e : Env) (m : Mem) : Out :=
  match m.pub with
  | none => ⟨m, none, []⟩
  | some true => ⟨m, some (.ok .idle), []⟩
  | some false =>
    if e.settingsOk then
      if e.createRaises then ⟨m, none, []⟩ else ⟨{ pub := some true }, some (.ok .idle), [.create]⟩
    else ⟨m, some .err, []⟩

/-- topic.py 529-544 -/
def send (updated : Bool) (e : Env) (m : Mem) : Out :=
  if updated then
    match e.message with
    | none => ⟨m, some .err, []⟩
    | some x => if e.publishRaises then ⟨m, none, []⟩ else ⟨m, some (.ok .succeeded), [.publish x]⟩
  else ⟨m, some (.ok .succeeded), []⟩

/-- topic.py 475-544 -/
def doTick (upd : Group → Bool) (e : Env) (m : Mem) : Out :=
  ((refresh (upd .settings) e m).andThen (connect e)).andThen (send (upd .message) e)

/-- topic.py 466-560 -/
def hook (op : Op) (_ : BTState) (upd : Group → Bool) (e : Env) (m : Mem) : Out :=
  match op with
  | .setup => doSetup e m
  | .tick => doTick upd e m
  | .untick => ⟨m, some (.ok .idle), []⟩
  | .reset => doReset e m
  | .shutdown => (doReset e m).andThen fun m => ⟨m, some (.ok .shutdown), []⟩

/-- topic.py 465-566 -/
def cls : Class Mem Group Env Empty Act := ⟨{}, hook, fun v => v.elim⟩

abbrev Hist := Class.History Group Env Empty Act

/-! ### What a user sees -/

/-- The input counts as new: it was written, or the node was set up or reset, since the last tick.
The last write says whether the value changed. -/
def isNew (g : Group) : Hist → Bool
  | [] => false
  | (.write f b, _) :: h => if f = g then b else isNew g h
  | (.call .setup _ _ _, o) :: h => if o.res = some .err then isNew g h else true
  | (.call .reset _ _ _, o) :: h => if o.res = some .err then isNew g h else true
  | (.call .tick _ _ _, ⟨some (.ok _), _⟩) :: _ => false
  | _ :: h => isNew g h

/-- The messages among the effects of an operation. -/
def messages : List Act → List Nat
  | [] => []
  | .publish m :: a => m :: messages a
  | _ :: a => messages a

/-- How often the message became new. -/
def updates : Hist → Nat
  | [] => 0
  | (.write .message true, _) :: h => updates h + 1
  | (.call .setup _ _ _, _) :: h => updates h + 1
  | (.call .reset _ _ _, _) :: h => updates h + 1
  | _ :: h => updates h

/-- There is a publisher (latest effect first). -/
def isOpen : List Act → Bool
  | [] => false
  | .create :: _ => true
  | .destroy :: _ => false
  | _ :: tr => isOpen tr

/-- There is never more than one publisher, and messages are published while there is one. -/
def Orderly : List Act → Prop
  | [] => True
  | .create :: tr => isOpen tr = false ∧ Orderly tr
  | .destroy :: tr => isOpen tr = true ∧ Orderly tr
  | .publish _ :: tr => isOpen tr = true ∧ Orderly tr

/-! ### C62 -/

theorem flagged {h : Hist} {l : Leaf Mem Group} (hr : cls.Runs h l) (g : Group) :
    BT.accepts .tick l.state = true → l.upd g = isNew g h := by
  refine Class.Runs.invariant (fun h l => BT.accepts .tick l.state = true → l.upd g = isNew g h)
    (by simp [Class.new, BT.accepts]) ?_ hr
  intro h l s l' o _ ih hh
  cases hh with
  | write f b =>
    intro ha
    simp only [isNew]
    by_cases hf : g = f
    · simp [hf]
    · simp [hf, Ne.symm hf, ih ha]
  | event v => exact v.elim
  | refused op e i p hr => intro ha; cases op <;> simp_all [isNew]
  | again e i p hs => intro ha; rw [hs] at ha; cases ha
  | unset => simp [BT.accepts]
  | raised op e i p hent hi hres =>
    intro ha
    cases op with
    | setup => simp [isNew, Class.flags]
    | reset => simp [isNew, Class.flags]
    | _ => simpa [isNew, Class.flags] using ih ha
  | failed => simp [BT.accepts]
  | undelivered => simp [BT.accepts]
  | odd op e i p s hent hi ha hres =>
    intro hacc
    exfalso
    have hreset : ∀ e m s', (doReset e m).res = some (.ok s') → s' = .idle := by
      intro e m s' hres
      unfold doReset at hres
      split at hres
      · cases hres
      · cases hres; rfl
      · split at hres <;> cases hres
        rfl
    cases op with
    | setup =>
      simp only [cls, hook, doSetup] at hres
      split at hres <;> cases hres
      cases ha
    | untick => cases hres; cases ha
    | reset => rw [hreset _ _ _ hres] at ha; cases ha
    | shutdown =>
      obtain ⟨_, h2, _, _⟩ := andThen_ok hres
      cases h2; cases ha
    | tick =>
      obtain ⟨_, h2, _, _⟩ := andThen_ok hres
      revert h2
      unfold send
      split
      · split
        · intro h2; cases h2
        · split
          · intro h2; cases h2
          · intro h2; cases h2; cases ha
      · intro h2; cases h2; cases ha
  | done op e i p s hent hi hp ha hres =>
    intro hacc
    cases op with
    | setup => simp [isNew, Class.flags, Class.cleared]
    | reset => simp [isNew, Class.flags, Class.cleared]
    | tick => simp [isNew, Class.cleared]
    | untick => simpa [isNew, Class.flags, Class.cleared] using ih hent
    | shutdown => simp only [BT.allowedAfter] at ha; simp [BT.accepts] at hacc; simp_all

theorem send_spec {b : Bool} {e : Env} {m : Mem} {s : BTState} (h : (send b e m).res = some (.ok s)) :
    s = .succeeded ∧ messages (send b e m).acts = (if b then e.message.toList else []) ∧ (b = true → e.message ≠ none) := by
  unfold send at h ⊢
  cases b with
  | false => cases h; simp [messages]
  | true =>
    simp only [if_true] at h ⊢
    split at h
    · cases h
    · split at h
      · cases h
      · rename_i x hx hp
        cases h
        simp [hx, hp, messages]

theorem messages_append (a b : List Act) : messages (a ++ b) = messages a ++ messages b := by
  induction a with
  | nil => rfl
  | cons c a ih => cases c <;> simp [messages, ih]

theorem reset_silent (e : Env) (m : Mem) : messages (doReset e m).acts = [] := by
  unfold doReset
  split
  · rfl
  · rfl
  · split <;> rfl

theorem prep_silent (b : Bool) (e : Env) (m : Mem) : messages ((refresh b e m).andThen (connect e)).acts = [] := by
  have h1 : messages (refresh b e m).acts = [] := by
    unfold refresh
    split
    · split
      · exact reset_silent e m
      · rfl
    · rfl
  have h2 : ∀ m, messages (connect e m).acts = [] := by
    intro m
    unfold connect
    split
    · rfl
    · rfl
    · split
      · split <;> rfl
      · rfl
  unfold HookOut.andThen
  split
  · dsimp only; rw [messages_append, h1, h2]; rfl
  · exact h1

theorem step_tick {l : Leaf Mem Group} {e : Env} {i p : Bool} {s : BTState}
    (h : (cls.step l (.call .tick e i p)).2.res = some (.ok s)) :
    BT.accepts .tick l.state = true ∧ (doTick l.upd e l.mem).res = some (.ok s) ∧
      (cls.step l (.call .tick e i p)).2.acts = (doTick l.upd e l.mem).acts := by
  have hh := cls.happens l (.call .tick e i p)
  generalize (cls.step l (.call .tick e i p)).1 = l' at hh
  generalize (cls.step l (.call .tick e i p)).2 = o at hh h ⊢
  cases hh with
  | refused => cases h
  | unset => cases h
  | raised => cases h
  | failed => cases h
  | undelivered => cases h
  | odd => cases h
  | done _ _ _ _ s' hent _ _ ha hres =>
    cases h
    exact ⟨hent, hres, rfl⟩

/-- C62: a tick that does not fail answers SUCCEEDED and publishes the current message exactly once
if it is new (it was written, or the node was set up or reset, since the last tick), and
publishes nothing otherwise. -/
theorem c62_publish {h : Hist} {l : Leaf Mem Group} (hr : cls.Runs h l) (e : Env) (i p : Bool) (s : BTState)
    (hs : (cls.step l (.call .tick e i p)).2.res = some (.ok s)) :
    s = .succeeded ∧
    messages (cls.step l (.call .tick e i p)).2.acts = (if isNew .message h then e.message.toList else []) ∧
    (isNew .message h = true → e.message ≠ none) := by
  obtain ⟨hacc, h1, h2⟩ := step_tick hs
  rw [h2, ← flagged hr .message hacc]
  obtain ⟨_, q2, _, q4⟩ := andThen_ok h1
  obtain ⟨g1, g2, g3⟩ := send_spec q2
  refine ⟨g1, ?_, g3⟩
  unfold doTick
  rw [q4, messages_append, prep_silent, g2]
  rfl

theorem send_count (b : Bool) (e : Env) (m : Mem) :
    (messages (send b e m).acts).length ≤ b.toNat ∧
      ((send b e m).res = none ∨ (send b e m).res = some .err → (send b e m).acts = []) := by
  unfold send
  cases b with
  | false => simp [messages]
  | true =>
    simp only [if_true]
    split
    · simp [messages]
    · split <;> simp [messages]

theorem tick_count (u : Group → Bool) (e : Env) (m : Mem) :
    (messages (doTick u e m).acts).length ≤ (u .message).toNat ∧
      ((doTick u e m).res = none ∨ (doTick u e m).res = some .err → messages (doTick u e m).acts = []) := by
  unfold doTick
  have h0 := prep_silent (u .settings) e m
  generalize (refresh (u .settings) e m).andThen (connect e) = x at h0
  unfold HookOut.andThen
  split
  · dsimp only
    obtain ⟨h1, h2⟩ := send_count (u .message) e x.mem
    rw [messages_append, h0]
    refine ⟨h1, fun h => ?_⟩
    rw [h2 h]; rfl
  · rw [h0]; simp

/-- C62: in every execution, also if operations fail, no more messages are published than updates
were made (each setup and each reset counts as one). -/
theorem c62_once {h : Hist} {l : Leaf Mem Group} (hr : cls.Runs h l) : (messages (Class.trace h)).length ≤ updates h := by
  suffices H : (messages (Class.trace h)).length + (l.upd .message).toNat ≤ updates h by omega
  have hlen : ∀ (a : List Act), (messages a.reverse).length = (messages a).length := by
    intro a
    induction a with
    | nil => rfl
    | cons c a ih => cases c <;> simp [messages, messages_append, ih]
  refine Class.Runs.invariant (fun h l => (messages (Class.trace h)).length + (l.upd .message).toNat ≤ updates h)
    (by simp [Class.trace, messages, Class.new, updates]) ?_ hr
  intro h l s l' o _ ih hh
  have hquiet : ∀ op e, op ≠ .tick → ∀ u, messages (hook op l.state u e l.mem).acts = [] := by
    intro op e hop u
    cases op with
    | setup => simp only [hook, doSetup]; split <;> rfl
    | tick => exact absurd rfl hop
    | untick => rfl
    | reset => exact reset_silent e l.mem
    | shutdown =>
      simp only [hook, HookOut.andThen]
      split
      · simpa using reset_silent e l.mem
      · exact reset_silent e l.mem
  have htick := fun e => tick_count l.upd e l.mem
  cases hh with
  | write f b =>
    simp only [Class.trace_cons, List.reverse_nil, List.nil_append]
    cases f <;> cases b <;> simp [updates] at ih ⊢ <;> omega
  | event v => exact v.elim
  | refused op e i p hr => cases op <;> simp [updates] at ih ⊢ <;> omega
  | again e i p hs => simp [updates] at ih ⊢; omega
  | unset => simp [updates] at ih ⊢; omega
  | raised op e i p hent hi hres =>
    simp only [Class.trace_cons, messages_append, List.length_append, hlen]
    cases op with
    | tick =>
      simp only [cls, hook, Class.flags] at hres ⊢
      rw [(htick e).2 (.inl hres)]
      simp [updates] at ih ⊢; omega
    | setup =>
      simp only [cls, hquiet .setup e (by simp)]
      simp [updates, Class.flags] at ih ⊢; omega
    | reset =>
      simp only [cls, hquiet .reset e (by simp)]
      simp [updates, Class.flags] at ih ⊢; omega
    | untick =>
      simp only [cls, hquiet .untick e (by simp)]
      simp [updates, Class.flags] at ih ⊢; omega
    | shutdown =>
      simp only [cls, hquiet .shutdown e (by simp)]
      simp [updates, Class.flags] at ih ⊢; omega
  | failed op e i p hent hi hres =>
    simp only [Class.trace_cons, messages_append, List.length_append, hlen]
    cases op with
    | tick =>
      simp only [cls, hook, Class.flags] at hres ⊢
      rw [(htick e).2 (.inr hres)]
      simp [updates] at ih ⊢; omega
    | setup =>
      simp only [cls, hquiet .setup e (by simp)]
      simp [updates, Class.flags] at ih ⊢; omega
    | reset =>
      simp only [cls, hquiet .reset e (by simp)]
      simp [updates, Class.flags] at ih ⊢; omega
    | untick =>
      simp only [cls, hquiet .untick e (by simp)]
      simp [updates, Class.flags] at ih ⊢; omega
    | shutdown =>
      simp only [cls, hquiet .shutdown e (by simp)]
      simp [updates, Class.flags] at ih ⊢; omega
  | undelivered e s hent ha hres =>
    simp only [Class.trace_cons, messages_append, List.length_append, hlen]
    have := (htick e).1
    simp only [cls, hook, updates]
    simp at ih ⊢
    omega
  | odd op e i p s hent hi ha hres =>
    simp only [Class.trace_cons, messages_append, List.length_append, hlen]
    cases op with
    | tick =>
      have := (htick e).1
      simp only [cls, hook, updates, Class.flags, Class.cleared]
      simp at ih ⊢
      omega
    | setup =>
      simp only [cls, hquiet .setup e (by simp)]
      simp [updates, Class.flags, Class.cleared] at ih ⊢; omega
    | reset =>
      simp only [cls, hquiet .reset e (by simp)]
      simp [updates, Class.flags, Class.cleared] at ih ⊢; omega
    | untick =>
      simp only [cls, hquiet .untick e (by simp)]
      simp [updates, Class.flags, Class.cleared] at ih ⊢; omega
    | shutdown =>
      simp only [cls, hquiet .shutdown e (by simp)]
      simp [updates, Class.flags, Class.cleared] at ih ⊢; omega
  | done op e i p s hent hi hp ha hres =>
    simp only [Class.trace_cons, messages_append, List.length_append, hlen]
    cases op with
    | tick =>
      have := (htick e).1
      simp only [cls, hook, updates, Class.flags, Class.cleared]
      simp at ih ⊢
      omega
    | setup =>
      simp only [cls, hquiet .setup e (by simp)]
      simp [updates, Class.flags, Class.cleared] at ih ⊢; omega
    | reset =>
      simp only [cls, hquiet .reset e (by simp)]
      simp [updates, Class.flags, Class.cleared] at ih ⊢; omega
    | untick =>
      simp only [cls, hquiet .untick e (by simp)]
      simp [updates, Class.flags, Class.cleared] at ih ⊢; omega
    | shutdown =>
      simp only [cls, hquiet .shutdown e (by simp)]
      simp [updates, Class.flags, Class.cleared] at ih ⊢; omega

/-- The attribute agrees with the effects. -/
def Good (tr : List Act) (m : Mem) : Prop := isOpen tr = (m.pub == some true) ∧ Orderly tr

def Keeps (k : Mem → Out) : Prop := ∀ tr m, Good tr m → Good ((k m).acts.reverse ++ tr) (k m).mem

theorem Keeps.andThen {f g : Mem → Out} (hf : Keeps f) (hg : Keeps g) : Keeps fun m => (f m).andThen g := by
  intro tr m h
  dsimp only [HookOut.andThen]
  split
  · rw [List.reverse_append, List.append_assoc]
    exact hg _ _ (hf _ _ h)
  · exact hf _ _ h

theorem keeps_reset (e : Env) : Keeps (doReset e) := by
  intro tr m h
  obtain ⟨p⟩ := m
  unfold doReset
  cases p with
  | none => exact h
  | some p =>
    cases p with
    | false => exact h
    | true =>
      simp only [Good] at h
      cases hd : e.destroyOk <;> simp [Good, isOpen, Orderly] <;> simpa using h

theorem keeps_refresh (b : Bool) (e : Env) : Keeps (refresh b e) := by
  intro tr m h
  unfold refresh
  split
  · split
    · exact keeps_reset e tr m h
    · exact h
  · exact h

theorem keeps_connect (e : Env) : Keeps (connect e) := by
  intro tr m h
  obtain ⟨p⟩ := m
  unfold connect
  cases p with
  | none => exact h
  | some p =>
    cases p with
    | true => exact h
    | false =>
      simp only [Good] at h
      cases hs : e.settingsOk <;> cases hc : e.createRaises <;> simp [Good, isOpen, Orderly] <;> simpa using h

/-- After the first part of a tick there is a publisher. -/
theorem connected (b : Bool) (e : Env) (m : Mem) (s : BTState)
    (h : ((refresh b e m).andThen (connect e)).res = some (.ok s)) :
    ((refresh b e m).andThen (connect e)).mem.pub = some true := by
  obtain ⟨_, h2, h3, _⟩ := andThen_ok h
  rw [h3]
  revert h2
  generalize (refresh b e m).mem = m'
  obtain ⟨p⟩ := m'
  unfold connect
  cases p with
  | none => simp
  | some p =>
    cases p with
    | true => simp
    | false => cases hs : e.settingsOk <;> cases hc : e.createRaises <;> simp

theorem keeps_tick (u : Group → Bool) (e : Env) : Keeps (doTick u e) := by
  intro tr m h
  have hp := (keeps_refresh (u .settings) e).andThen (keeps_connect e) tr m h
  have hc := connected (u .settings) e m
  unfold doTick
  dsimp only at hp
  generalize (refresh (u .settings) e m).andThen (connect e) = x at hp hc
  unfold HookOut.andThen
  split
  · rename_i s hs
    have hc := hc s hs
    rw [List.reverse_append, List.append_assoc]
    generalize x.acts.reverse ++ tr = tr' at hp
    dsimp only [send]
    simp only [Good, hc, beq_self_eq_true] at hp
    split
    · split
      · simpa [Good, hc] using hp
      · split <;> simpa [Good, hc, isOpen, Orderly] using hp
    · simpa [Good, hc] using hp
  · exact hp

/-- The invariant: the attribute agrees with the effects, and there is no publisher in a state that
accepts setup. -/
theorem good {h : Hist} {l : Leaf Mem Group} (hr : cls.Runs h l) :
    Good (Class.trace h) l.mem ∧ (BT.accepts .setup l.state = true → l.mem.pub ≠ some true) := by
  refine Class.Runs.invariant (fun h l => Good (Class.trace h) l.mem ∧ (BT.accepts .setup l.state = true → l.mem.pub ≠ some true))
    ⟨by simp [Good, isOpen, Orderly, Class.new, cls], by simp [Class.new, cls]⟩ ?_ hr
  intro h l s l' o _ ih hh
  obtain ⟨ih, ih'⟩ := ih
  have hk : ∀ op, Class.entered op l.state = true → ∀ u e,
      Good ((cls.hook op l.state u e l.mem).acts.reverse ++ Class.trace h) (cls.hook op l.state u e l.mem).mem := by
    intro op hent u e
    cases op with
    | setup =>
      have hno := ih' hent
      simp only [cls, hook, doSetup]
      split
      · refine ⟨?_, ih.2⟩
        have := ih.1
        rw [show (l.mem.pub == some true) = false by simpa using hno] at this
        simpa using this
      · exact ih
    | tick => exact keeps_tick u e _ _ ih
    | untick => exact ih
    | reset => exact keeps_reset e _ _ ih
    | shutdown =>
      exact (keeps_reset e).andThen (g := fun m => ⟨m, some (.ok .shutdown), []⟩) (fun tr m h => h) _ _ ih
  have hreset : ∀ e s, (doReset e l.mem).res = some (.ok s) → (doReset e l.mem).mem.pub ≠ some true := by
    intro e s hres
    unfold doReset at hres ⊢
    split
    · rename_i hp; simp [hp]
    · rename_i hp; simp [hp]
    · rename_i hp
      simp only [hp] at hres
      split at hres
      · rename_i hd; simp [hd]
      · cases hres
  have hstate : ∀ op s u e, (cls.hook op l.state u e l.mem).res = some (.ok s) → BT.accepts .setup s = true →
      (cls.hook op l.state u e l.mem).mem.pub ≠ some true := by
    intro op s u e hres ha
    cases op with
    | setup =>
      simp only [cls, hook, doSetup] at hres
      split at hres <;> cases hres
      cases ha
    | untick => cases hres; cases ha
    | reset => exact hreset e s hres
    | shutdown =>
      obtain ⟨⟨s', h1⟩, _, h3, _⟩ := andThen_ok hres
      simp only [cls, hook]
      rw [h3]
      exact hreset e s' h1
    | tick =>
      obtain ⟨_, h2, _, _⟩ := andThen_ok hres
      rw [(send_spec h2).1] at ha
      cases ha
  cases hh with
  | write => exact ⟨ih, ih'⟩
  | event v => exact v.elim
  | refused => exact ⟨ih, ih'⟩
  | again => exact ⟨ih, ih'⟩
  | unset => exact ⟨ih, by simp [BT.accepts]⟩
  | raised op e i p hent hi hres =>
    refine ⟨hk op hent _ e, fun ha => ?_⟩
    have h0 := ih' ha
    cases op with
    | setup => simp only [cls, hook, doSetup] at hres ⊢; split at hres <;> cases hres
    | tick => simp only [Class.entered, BT.accepts] at hent ha; simp_all
    | untick => cases hres
    | reset => simp only [Class.entered, BT.accepts] at hent ha; simp_all
    | shutdown =>
      rcases andThen_none hres with ⟨h1, h2⟩ | ⟨h1, h2⟩
      · simp only [cls, hook]
        rw [h2]
        unfold doReset at h1 ⊢
        split
        · exact h0
        · exact h0
        · rename_i hp; exact absurd hp h0
      · cases h1
  | failed op e i p hent => exact ⟨hk op hent _ e, by simp [BT.accepts]⟩
  | done op e i p s hent _ _ _ hres => exact ⟨hk op hent _ e, hstate op s _ e hres⟩
  | undelivered e s hent => exact ⟨hk .tick hent _ e, by simp [BT.accepts]⟩
  | odd op e i p s hent _ _ hres => exact ⟨hk op hent _ e, hstate op s _ e hres⟩

/-- C62: there is never more than one publisher, and all messages go to the current one. -/
theorem c62_one_publisher {h : Hist} {l : Leaf Mem Group} (hr : cls.Runs h l) : Orderly (Class.trace h) := (good hr).1.2

/-- C62: after a successful reset or shutdown there is no publisher. -/
theorem c62_closed {h : Hist} {l : Leaf Mem Group} (hr : cls.Runs h l) (op : Op) (hop : op = .reset ∨ op = .shutdown) (e : Env)
    (i p : Bool) (s : BTState) (hs : (cls.step l (.call op e i p)).2.res = some (.ok s)) :
    isOpen (Class.trace ((.call op e i p, (cls.step l (.call op e i p)).2) :: h)) = false := by
  have hg := good (Class.Runs.step (.call op e i p) hr)
  rw [hg.1.1]
  have hreset : ∀ s, (doReset e l.mem).res = some (.ok s) → (doReset e l.mem).mem.pub ≠ some true := by
    intro s hres
    unfold doReset at hres ⊢
    split
    · rename_i hp; simp [hp]
    · rename_i hp; simp [hp]
    · rename_i hp
      simp only [hp] at hres
      split at hres
      · rename_i hd; simp [hd]
      · cases hres
  have hh := cls.happens l (.call op e i p)
  have h2 := (good hr).2
  generalize (cls.step l (.call op e i p)).1 = l' at hh hg ⊢
  generalize (cls.step l (.call op e i p)).2 = o at hh hs hg
  cases hh with
  | refused => cases hs
  | unset => cases hs
  | raised => cases hs
  | failed => cases hs
  | undelivered => cases hs
  | odd => cases hs
  | again _ _ _ hst =>
    have := h2 (by rw [hst]; rfl)
    simpa using this
  | done _ _ _ _ s' hent _ _ ha hres =>
    simp only [beq_eq_false_iff_ne]
    rcases hop with rfl | rfl
    · exact hreset _ hres
    · obtain ⟨⟨s', h1⟩, _, h3, _⟩ := andThen_ok hres
      simp only [cls, hook]
      rw [h3]
      exact hreset s' h1

/-- C62: new settings are used: the tick creates a new publisher. -/
theorem c62_settings {h : Hist} {l : Leaf Mem Group} (hr : cls.Runs h l) (e : Env) (i p : Bool) (s : BTState)
    (hs : (cls.step l (.call .tick e i p)).2.res = some (.ok s)) (hn : isNew .settings h = true) :
    Act.create ∈ (cls.step l (.call .tick e i p)).2.acts := by
  obtain ⟨hacc, h1, h2⟩ := step_tick hs
  rw [h2]
  rw [← flagged hr .settings hacc] at hn
  obtain ⟨⟨s1, q1⟩, _, _, q4⟩ := andThen_ok h1
  unfold doTick
  rw [q4]
  obtain ⟨⟨s2, r1⟩, r2, _, r4⟩ := andThen_ok q1
  rw [r4]
  refine List.mem_append_left _ (List.mem_append_right _ ?_)
  have hp : (refresh (l.upd .settings) e l.mem).mem.pub ≠ some true := by
    rw [hn] at r1 ⊢
    generalize l.mem = m at r1 ⊢
    obtain ⟨p⟩ := m
    unfold refresh doReset at r1 ⊢
    cases hf : e.flagsOk
    · simp [hf] at r1
    · cases p with
      | none => simp
      | some p =>
        cases p with
        | false => simp
        | true => cases hd : e.destroyOk <;> simp [hd, hf] at r1 ⊢
  generalize (refresh (l.upd .settings) e l.mem).mem = m at hp r2 ⊢
  obtain ⟨p⟩ := m
  unfold connect at r2 ⊢
  cases p with
  | none => cases r2
  | some p =>
    cases p with
    | true => exact absurd rfl hp
    | false => cases hset : e.settingsOk <;> cases hcr : e.createRaises <;> simp_all

/-- A publisher is set up, publishes, is ticked again, gets a new message and a new topic. -/
def sample : List (Step Group Env Empty) :=
  [.call .setup {} true true,
   .call .tick { message := some 1 } true true,
   .call .tick { message := some 1 } true true,
   .write .message true,
   .call .tick { message := some 2 } true true,
   .write .settings true,
   .call .tick { message := some 2 } true true,
   .call .reset {} true true,
   .call .tick { message := some 2 } true true,
   .call .shutdown {} true true]

example : (Class.trace (cls.run sample).1).reverse =
    [.create, .publish 1, .publish 2, .destroy, .create, .destroy, .create, .publish 2, .destroy] := by decide

example : isNew .message (cls.run (sample.take 4)).1 = true ∧ isNew .settings (cls.run (sample.take 6)).1 = true ∧
    updates (cls.run sample).1 = 3 := by decide

/-- A publisher that was never set up cannot be shut down: AttributeError. -/
example : (cls.run [.call .shutdown {} true true]).1.map (·.2.res) = [none] := by decide

end Publisher
end Verif.Ros
