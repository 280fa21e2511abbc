import Verif.BT.Sem

/-!
# Leaf nodes with attributes, input flags and effects on the outside world

`Verif/BT` treats the answers of a leaf as arbitrary. Here leaves are opened: a class is given by
its hooks (`_do_setup`, `_do_tick`, ...) over its own attributes. The life cycle around the hooks
is that of `node.py:334-713`. `frame_refines` shows that every execution of such a leaf is an
execution of a leaf of `Verif/BT` for suitable answers.
-/

set_option autoImplicit false

namespace Verif.Ros

open Verif.BT (BTState Op Res accepts allowedAfter)

/-- A leaf: `state`, the attributes of the class and the `updated` flags of the inputs
(`node.py:132-262`, `data_types.py:65-110`). Inputs that a class always queries together share a
flag (`F` is the type of these groups). -/
structure Leaf (M F : Type) where
  state : BTState
  mem : M
  upd : F → Bool

/-- What a hook leaves behind: the attributes, the returned result (`none`: a Python exception
leaves the hook) and what it did to the outside world, in order. -/
structure HookOut (M A : Type) where
  mem : M
  res : Option Res
  acts : List A := []

/-- `match x: case Err(e): return Err(e); case Ok(_): pass`, then the rest of the hook
(e.g. service.py 141-145). The value inside `Ok` of the first part is not used. -/
def HookOut.andThen {M A : Type} (x : HookOut M A) (k : M → HookOut M A) : HookOut M A :=
  match x.res with
  | some (.ok _) => ⟨(k x.mem).mem, (k x.mem).res, x.acts ++ (k x.mem).acts⟩
  | _ => x

theorem andThen_ok {M A : Type} {x : HookOut M A} {k : M → HookOut M A} {s : BTState}
    (h : (x.andThen k).res = some (.ok s)) :
    (∃ s', x.res = some (.ok s')) ∧ (k x.mem).res = some (.ok s) ∧ (x.andThen k).mem = (k x.mem).mem ∧
      (x.andThen k).acts = x.acts ++ (k x.mem).acts := by
  unfold HookOut.andThen at h ⊢
  split at h
  · rename_i s' hs
    exact ⟨⟨s', hs⟩, h, rfl, rfl⟩
  · rename_i hx
    exact absurd h (hx s)

theorem andThen_none {M A : Type} {x : HookOut M A} {k : M → HookOut M A} (h : (x.andThen k).res = none) :
    (x.res = none ∧ (x.andThen k).mem = x.mem) ∨ (k x.mem).res = none ∧ (x.andThen k).mem = (k x.mem).mem := by
  unfold HookOut.andThen at h ⊢
  split
  · rename_i s' hs
    simp only [hs] at h
    exact .inr ⟨h, rfl⟩
  · rename_i hx
    split at h
    · rename_i hs
      exact absurd hs (hx _)
    · exact .inl ⟨h, rfl⟩

/-- A node class: attributes of a new object, hooks, and what callbacks from ROS do to the
attributes. `E` are the answers of the outside world during an operation, `V` the callbacks,
`A` the effects. -/
structure Class (M F E V A : Type) where
  init : M
  hook : Op → BTState → (F → Bool) → E → M → HookOut M A
  event : V → M → M

/-- What can happen to a leaf: an operation is called (`inputsOk`: all inputs have a value,
`node.py:435-438`; `pushOk`: `push_outputs` succeeds, `node.py:474-480`), the `updated` flag of
an input changes because data arrives (`data_types.py:set_value`), a callback runs. -/
inductive Step (F E V : Type)
  | call (op : Op) (env : E) (inputsOk pushOk : Bool)
  | write (f : F) (b : Bool)
  | event (v : V)

/-- What the outside sees of a step: the answer of the operation (`none`: an exception, or the
step was no operation) and the effects. -/
structure Seen (A : Type) where
  res : Option Res := none
  acts : List A := []

namespace Class
variable {M F E V A : Type} [DecidableEq F] (c : Class M F E V A)

/-- A new object (`node.py:132-262`: state UNINITIALIZED). -/
def new : Leaf M F := ⟨.uninitialized, c.init, fun _ => false⟩

/-- `self.state = ...` after the hook of `setup`, `untick`, `reset` or `shutdown`
(`node.py:374-390`, `539-559`, `611-626`, `672-686`). -/
def close (op : Op) (l : Leaf M F) (x : HookOut M A) : Leaf M F × Seen A :=
  match x.res with
  | none => ({ l with mem := x.mem }, ⟨none, x.acts⟩)
  | some .err => ({ l with mem := x.mem, state := .broken }, ⟨some .err, x.acts⟩)
  | some (.ok s) =>
    ({ l with mem := x.mem, state := s }, ⟨some (if allowedAfter op s then .ok s else .err), x.acts⟩)

/-- `setup` (`node.py:353-390`): all inputs are flagged (`365-367`). -/
def setup (e : E) (l : Leaf M F) : Leaf M F × Seen A :=
  if accepts .setup l.state then
    let l := { l with upd := fun _ => true }
    close .setup l (c.hook .setup l.state l.upd e l.mem)
  else (l, ⟨some .err, []⟩)

/-- `tick` (`node.py:423-482`). The input flags are cleared after the hook (`455-456`), not if it
fails. -/
def tick (e : E) (inputsOk pushOk : Bool) (l : Leaf M F) : Leaf M F × Seen A :=
  if accepts .tick l.state then
    if inputsOk then
      let x := c.hook .tick l.state l.upd e l.mem
      match x.res with
      | none => ({ l with mem := x.mem }, ⟨none, x.acts⟩)
      | some .err => ({ l with mem := x.mem, state := .broken }, ⟨some .err, x.acts⟩)
      | some (.ok s) =>
        if allowedAfter .tick s then
          if pushOk then (⟨s, x.mem, fun _ => false⟩, ⟨some (.ok s), x.acts⟩)
          else (⟨.broken, x.mem, fun _ => false⟩, ⟨some .err, x.acts⟩)
        else (⟨s, x.mem, fun _ => false⟩, ⟨some .err, x.acts⟩)
    else ({ l with state := .broken }, ⟨some .err, []⟩)
  else (l, ⟨some .err, []⟩)

/-- `untick` (`node.py:531-558`). -/
def untick (e : E) (l : Leaf M F) : Leaf M F × Seen A :=
  if accepts .untick l.state then close .untick l (c.hook .untick l.state l.upd e l.mem)
  else (l, ⟨some .err, []⟩)

/-- `reset` (`node.py:593-626`): all inputs are flagged (`603-604`). -/
def reset (e : E) (l : Leaf M F) : Leaf M F × Seen A :=
  if accepts .reset l.state then
    let l := { l with upd := fun _ => true }
    close .reset l (c.hook .reset l.state l.upd e l.mem)
  else (l, ⟨some .err, []⟩)

/-- `shutdown` of a node without children (`node.py:668-713`). -/
def shutdown (e : E) (l : Leaf M F) : Leaf M F × Seen A :=
  if l.state = .shutdown then (l, ⟨some (.ok .shutdown), []⟩)
  else close .shutdown l (c.hook .shutdown l.state l.upd e l.mem)

/-- One step of a leaf. -/
def step (l : Leaf M F) : Step F E V → Leaf M F × Seen A
  | .call .setup e _ _ => c.setup e l
  | .call .tick e i p => c.tick e i p l
  | .call .untick e _ _ => c.untick e l
  | .call .reset e _ _ => c.reset e l
  | .call .shutdown e _ _ => c.shutdown e l
  | .write f b => (⟨l.state, l.mem, fun g => if g = f then b else l.upd g⟩, {})
  | .event v => ({ l with mem := c.event v l.mem }, {})

/-- What has happened to a leaf, latest first. -/
abbrev History (F E V A : Type) := List (Step F E V × Seen A)

/-- All effects, latest first. -/
def trace (h : History F E V A) : List A := h.flatMap fun p => p.2.acts.reverse

/-- All executions of a leaf from its creation: the history and the leaf after it. -/
inductive Runs : History F E V A → Leaf M F → Prop
  | new : Runs [] c.new
  | step {h l} (s : Step F E V) : Runs h l → Runs ((s, (c.step l s).2) :: h) (c.step l s).1

/-- Perform a list of steps, latest history first (for examples). -/
def run (steps : List (Step F E V)) : History F E V A × Leaf M F :=
  steps.foldl (fun p s => ((s, (c.step p.2 s).2) :: p.1, (c.step p.2 s).1)) ([], c.new)

omit [DecidableEq F] in
@[simp] theorem trace_nil : trace ([] : History F E V A) = [] := rfl

omit [DecidableEq F] in
@[simp] theorem trace_cons (s : Step F E V) (o : Seen A) (h : History F E V A) :
    trace ((s, o) :: h) = o.acts.reverse ++ trace h := rfl

theorem runs_run (steps : List (Step F E V)) : c.Runs (c.run steps).1 (c.run steps).2 := by
  suffices h : ∀ (ss : List (Step F E V)) (p : History F E V A × Leaf M F), c.Runs p.1 p.2 →
      c.Runs (ss.foldl (fun p s => ((s, (c.step p.2 s).2) :: p.1, (c.step p.2 s).1)) p).1
        (ss.foldl (fun p s => ((s, (c.step p.2 s).2) :: p.1, (c.step p.2 s).1)) p).2 from
    h steps _ .new
  intro ss
  induction ss with
  | nil => exact fun p h => h
  | cons s ss ih => exact fun p h => ih _ (.step s h)

/-- The flags the hook of an operation sees (`node.py:365-367`, `603-604`). -/
def flags (op : Op) (l : Leaf M F) : F → Bool :=
  match op with
  | .setup | .reset => fun _ => true
  | _ => l.upd

/-- The flags after a hook that did not fail (`node.py:455-456`). -/
def cleared (op : Op) (u : F → Bool) : F → Bool :=
  match op with
  | .tick => fun _ => false
  | _ => u

/-- The hook of the operation is run in this state. -/
def entered (op : Op) (s : BTState) : Bool :=
  match op with
  | .shutdown => !(s = .shutdown)
  | op => accepts op s

/-- All that can happen in a step, case by case (proof device, see `happens`). -/
inductive Happens (l : Leaf M F) : Step F E V → Leaf M F → Seen A → Prop
  | write (f : F) (b : Bool) : Happens l (.write f b) ⟨l.state, l.mem, fun g => if g = f then b else l.upd g⟩ {}
  | event (v : V) : Happens l (.event v) { l with mem := c.event v l.mem } {}
  | refused (op : Op) (e : E) (i p : Bool) (h : accepts op l.state = false) :
    Happens l (.call op e i p) l ⟨some .err, []⟩
  | again (e : E) (i p : Bool) (h : l.state = .shutdown) :
    Happens l (.call .shutdown e i p) l ⟨some (.ok .shutdown), []⟩
  | unset (e : E) (p : Bool) (h : accepts .tick l.state = true) :
    Happens l (.call .tick e false p) { l with state := .broken } ⟨some .err, []⟩
  | raised (op : Op) (e : E) (i p : Bool) (h : entered op l.state = true) (hi : op = .tick → i = true)
    (hr : (c.hook op l.state (flags op l) e l.mem).res = none) :
    Happens l (.call op e i p) ⟨l.state, (c.hook op l.state (flags op l) e l.mem).mem, flags op l⟩
      ⟨none, (c.hook op l.state (flags op l) e l.mem).acts⟩
  | failed (op : Op) (e : E) (i p : Bool) (h : entered op l.state = true) (hi : op = .tick → i = true)
    (hr : (c.hook op l.state (flags op l) e l.mem).res = some .err) :
    Happens l (.call op e i p) ⟨.broken, (c.hook op l.state (flags op l) e l.mem).mem, flags op l⟩
      ⟨some .err, (c.hook op l.state (flags op l) e l.mem).acts⟩
  | done (op : Op) (e : E) (i p : Bool) (s : BTState) (h : entered op l.state = true)
    (hi : op = .tick → i = true) (hp : op = .tick → p = true) (ha : allowedAfter op s = true)
    (hr : (c.hook op l.state (flags op l) e l.mem).res = some (.ok s)) :
    Happens l (.call op e i p)
      ⟨s, (c.hook op l.state (flags op l) e l.mem).mem, cleared op (flags op l)⟩
      ⟨some (.ok s), (c.hook op l.state (flags op l) e l.mem).acts⟩
  | undelivered (e : E) (s : BTState) (h : entered .tick l.state = true) (ha : allowedAfter .tick s = true)
    (hr : (c.hook .tick l.state l.upd e l.mem).res = some (.ok s)) :
    Happens l (.call .tick e true false) ⟨.broken, (c.hook .tick l.state l.upd e l.mem).mem, fun _ => false⟩
      ⟨some .err, (c.hook .tick l.state l.upd e l.mem).acts⟩
  | odd (op : Op) (e : E) (i p : Bool) (s : BTState) (h : entered op l.state = true)
    (hi : op = .tick → i = true) (ha : allowedAfter op s = false)
    (hr : (c.hook op l.state (flags op l) e l.mem).res = some (.ok s)) :
    Happens l (.call op e i p)
      ⟨s, (c.hook op l.state (flags op l) e l.mem).mem, cleared op (flags op l)⟩
      ⟨some .err, (c.hook op l.state (flags op l) e l.mem).acts⟩

theorem close_happens (op : Op) (e : E) (i p : Bool) (l : Leaf M F) (hn : op ≠ .tick) (h : entered op l.state = true) :
    c.Happens l (.call op e i p)
      (close op { l with upd := flags op l } (c.hook op l.state (flags op l) e l.mem)).1
      (close op { l with upd := flags op l } (c.hook op l.state (flags op l) e l.mem)).2 := by
  unfold close
  split
  · rename_i hr
    exact .raised op e i p h (fun h => absurd h hn) hr
  · rename_i hr
    exact .failed op e i p h (fun h => absurd h hn) hr
  · rename_i s hr
    have hc : cleared op (flags op l) = flags op l := by
      unfold cleared
      cases op <;> first | rfl | exact absurd rfl hn
    by_cases ha : allowedAfter op s = true
    · have := Happens.done (c := c) (l := l) op e i p s h (fun h => absurd h hn) (fun h => absurd h hn) ha hr
      rw [hc] at this
      simpa [ha] using this
    · have := Happens.odd (c := c) (l := l) op e i p s h (fun h => absurd h hn) (by simpa using ha) hr
      rw [hc] at this
      simpa [ha] using this

/-- The cases are complete. -/
theorem happens (l : Leaf M F) (s : Step F E V) : c.Happens l s (c.step l s).1 (c.step l s).2 := by
  rcases s with ⟨op, e, i, p⟩ | ⟨f, b⟩ | v
  · cases op
    · simp only [step, setup]
      by_cases h : accepts .setup l.state = true
      · rw [if_pos h]; exact c.close_happens .setup e i p l (by simp) h
      · rw [if_neg h]; exact .refused _ _ _ _ (by simpa using h)
    · simp only [step, tick]
      by_cases h : accepts .tick l.state = true
      · rw [if_pos h]
        cases i with
        | false => exact .unset _ _ h
        | true =>
          simp only [if_true]
          split
          · rename_i hr; exact .raised .tick e true p h (fun _ => rfl) hr
          · rename_i hr; exact .failed .tick e true p h (fun _ => rfl) hr
          · rename_i s hr
            by_cases ha : allowedAfter .tick s = true
            · rw [if_pos ha]
              cases p with
              | false => exact .undelivered e s h ha hr
              | true => exact .done .tick e true true s h (fun _ => rfl) (fun _ => rfl) ha hr
            · rw [if_neg ha]
              exact .odd .tick e true p s h (fun _ => rfl) (by simpa using ha) hr
      · rw [if_neg h]; exact .refused _ _ _ _ (by simpa using h)
    · simp only [step, untick]
      by_cases h : accepts .untick l.state = true
      · rw [if_pos h]; exact c.close_happens .untick e i p l (by simp) h
      · rw [if_neg h]; exact .refused _ _ _ _ (by simpa using h)
    · simp only [step, reset]
      by_cases h : accepts .reset l.state = true
      · rw [if_pos h]; exact c.close_happens .reset e i p l (by simp) h
      · rw [if_neg h]; exact .refused _ _ _ _ (by simpa using h)
    · simp only [step, shutdown]
      by_cases h : l.state = .shutdown
      · rw [if_pos h]; exact .again _ _ _ h
      · rw [if_neg h]; exact c.close_happens .shutdown e i p l (by simp) (by simpa [entered] using h)
  · exact .write f b
  · exact .event v

/-- Invariants of all executions. -/
theorem Runs.invariant {c : Class M F E V A} (P : History F E V A → Leaf M F → Prop)
    (h0 : P [] c.new)
    (hs : ∀ h l s l' o, c.Runs h l → P h l → c.Happens l s l' o → P ((s, o) :: h) l')
    {h : History F E V A} {l : Leaf M F} (hr : c.Runs h l) : P h l := by
  induction hr with
  | new => exact h0
  | step s hr ih => exact hs _ _ s _ _ hr ih (c.happens _ s)

/-- The answers of `Verif/BT` that describe an operation on a leaf: the hook answers what the
class answers. -/
def answers (l : Leaf M F) (op : Op) (e : E) (inputsOk pushOk : Bool) : BT.Env :=
  let flags := match op with
    | .setup | .reset => fun _ => true
    | _ => l.upd
  { inputsOk := inputsOk, pushOk := pushOk, hook := ((c.hook op l.state flags e l.mem).res).getD .err }

/-- Every operation on such a leaf that does not raise is an operation on a leaf of `Verif/BT`:
same answer, same state afterwards. -/
theorem frame_refines (l : Leaf M F) (op : Op) (e : E) (i p : Bool) {N : Type} (o : BT.Ops N)
    (nd : BT.Node N) (hk : nd.kind = .leaf) (hc : nd.children = []) (hs : nd.state = l.state)
    (hr : (c.step l (.call op e i p)).2.res ≠ none) :
    let nd := { nd with env := fun _ => c.answers l op e i p }
    (c.step l (.call op e i p)).2.res = some (BT.Node.run o op nd).res ∧
      (c.step l (.call op e i p)).1.state = (BT.Node.run o op nd).node.state := by
  obtain ⟨id, name, kind, state, m, env, ctr, children⟩ := nd
  simp only at hk hc hs
  subst hk hc hs
  cases op <;>
    simp only [step, setup, tick, untick, reset, shutdown, close, answers, BT.Node.run, BT.Node.runPlain,
      BT.Node.runTick, BT.Node.runShutdown, BT.Node.runHook, BT.hookProg, BT.setupHook, BT.tickHook,
      BT.untickHook, BT.resetHook, BT.shutdownHook, BT.exec, BT.Node.wrap, BT.Node.finishShutdown,
      BT.visibleChildren, BT.shutdownAll] at hr ⊢ <;>
    grind

end Class
end Verif.Ros
