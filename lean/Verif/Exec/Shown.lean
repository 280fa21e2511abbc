import Verif.Exec.Calls

/-! C99: what is published about the state of the tree (`publish_state`, tree_exec_manager.py 550-563) while it is controlled, ticked and edited.

The model is the one of `Verif/Exec/Model.lean`, together with the message published last. There is a callback for publishing. The message is made
of the state of the tree and the states of its nodes (`state_to_msg`, tree_exec_manager.py 1457-1461), i.e. of `state` and `tree`. -/

set_option autoImplicit false

namespace Verif.Exec.Shown

open Verif.BT (Op Res BTState Ops)

variable {N : Type} {o : Ops N}

/-! ### The model -/

/-- The manager and the message published last. -/
structure View (N : Type) where
  mgr : Mgr N
  shown : TState × Topo N

/-- tree_exec_manager.py 550-563: `publish_state`. -/
def View.publish (v : View N) : View N := { v with shown := (v.mgr.state, v.mgr.tree) }

/-- Something is done that publishes nothing. -/
def View.quiet (f : Mgr N → Mgr N) (v : View N) : View N := { v with mgr := f v.mgr }

/-- Does the tick thread publish something at the end of its step at `pc`? tree_exec_manager.py 681: after a setup that failed; 703: after a tick
(`publish_data`, 582); 715: after a single tick; 743: when it leaves the loop; 633: after an error. -/
def publishesAt (o : Ops N) (m : Mgr N) : Pc → Bool
  | .start =>
    match m.tree with
    | .root t => !m.orphans && (o.state t = .uninitialized || o.state t = .shutdown) && (m.world m.clock).raise.isNone &&
        o.state (o.run .setup t).node ≠ .idle
    | _ => false
  | .tick =>
    match m.tree with
    | .root t => (m.world m.clock).push && (m.world m.clock).raise.isNone && (o.run .tick t).res ≠ .err
    | _ => false
  | .result s => !(m.untilResult && (s = .failed || s = .succeeded)) && m.once
  | .leave => true
  | .failed => true
  | _ => false

/-- Does it publish something at the end of its next step? -/
def publishes (o : Ops N) (m : Mgr N) : Bool :=
  match m.thread with
  | .alive pc => publishesAt o m pc
  | _ => false

/-- One step of the tick thread. -/
def think (o : Ops N) (v : View N) : View N :=
  if publishes o v.mgr then (v.quiet (threadStep o)).publish else v.quiet (threadStep o)

/-- `self._tick_thread.join()`, as `Verif.Exec.join` -/
def joinV (o : Ops N) : Nat → View N → View N
  | 0, v => v
  | n + 1, v => if v.mgr.thread.isAlive then joinV o n (think o v) else v

/-- tree_exec_manager.py 1233-1310, as `stopPart`. -/
def stopPartV (o : Ops N) (v : View N) : View N :=
  if v.mgr.state = .ticking then joinV o joinSteps (v.quiet fun m => { m with state := .stopRequested, asked := true })
  else v.quiet fun m => (stopPart o m).1

/-- tree_exec_manager.py 1229-1317: STOP and SHUTDOWN. -/
def stopV (o : Ops N) (down : Bool) (v : View N) : View N :=
  match (stopPart o v.mgr).2 with
  | some _ => stopPartV o v
  | none => if down then ((stopPartV o v).publish.quiet fun m => (shutdownCmd o m).1).publish else (stopPartV o v).publish

/-- tree_exec_manager.py 995-1063, as `tickOnceCmd`. -/
def tickOnceV (o : Ops N) (v : View N) : View N :=
  if v.mgr.thread.isAlive then v
  else
    match v.mgr.tree with
    | .root _ => joinV o joinSteps (v.quiet fun m => startThread true { m with once := true, untilResult := false, state := .ticking })
    | _ => v

/-- tree_exec_manager.py 1190-1340, as `dispatch`. -/
def dispatchV (o : Ops N) (c : Cmd) (v : View N) : View N :=
  if v.mgr.state = .error ∧ c ≠ .shutdown then v
  else
    match c with
    | .setupAndShutdown =>
      if v.mgr.thread.isAlive ∨ v.mgr.state = .ticking then v
      else
        match v.mgr.tree with
        | .bad => v.publish
        | _ => stopV o true v
    | .stop => stopV o false v
    | .shutdown => stopV o true v
    | .tickOnce => tickOnceV o v
    | .tickPeriodically => v.quiet fun m => (tickMultipleCmd false m).1
    | .tickUntilResult => v.quiet fun m => (tickMultipleCmd true m).1
    | .reset => (v.quiet fun m => (resetCmd o m).1).publish
    | .doNothing => v
    | .unknown => v

/-- tree_exec_manager.py 1157-1340: `control_execution`. -/
def controlV (o : Ops N) (timely : Bool) (c : Cmd) (v : View N) : View N :=
  if v.mgr.state = .idle ∧ v.mgr.thread.isAlive then
    if timely then dispatchV o c ((joinV o joinSteps v).quiet renew) else v.publish
  else dispatchV o c (v.quiet renew)

/-- tree_exec_manager.py 92-124: an edit service; at its end, whatever happens in it, it publishes the structure and with it the state (548). -/
def editV (f : Topo N × Bool → Topo N × Bool) (v : View N) : View N :=
  if v.mgr.state ≠ .editable then v else (v.quiet fun m => (edit f m).1).publish

/-- One action, as `step`. -/
def stepV (o : Ops N) : Action N → View N → View N
  | .command c b, v => controlV o b c v
  | .edit f, v => editV f v
  | .think, v => think o v

/-- A sequence of actions. -/
def runV (o : Ops N) (as : List (Action N)) (v : View N) : View N := as.foldl (fun v a => stepV o a v) v

/-- tree_exec_manager.py 377, 380: a manager publishes its state when it is created. -/
def fresh (m : Mgr N) : View N := { mgr := m, shown := (m.state, m.tree) }

/-! ### What is wanted -/

/-- The published message is up to date. -/
def View.Exact (v : View N) : Prop := v.shown = (v.mgr.state, v.mgr.tree)

/-- The second tree is what unticking has made of the first one. -/
inductive Unticked (o : Ops N) (a : Topo N) : Topo N → Prop
  | none : Unticked o a a
  | again (t : N) : Unticked o a (.root t) → Unticked o a (.root (o.run .untick t).node)

/-- The published state of the tree is up to date, and the published states of the nodes are, but for an untick. -/
def View.Current (o : Ops N) (v : View N) : Prop := v.shown.1 = v.mgr.state ∧ Unticked o v.shown.2 v.mgr.tree

/-! ### Publishing changes nothing -/

theorem publish_mgr (v : View N) : v.publish.mgr = v.mgr := rfl

theorem quiet_mgr (f : Mgr N → Mgr N) (v : View N) : (v.quiet f).mgr = f v.mgr := rfl

theorem think_mgr (v : View N) : (think o v).mgr = threadStep o v.mgr := by
  unfold think; split <;> rfl

theorem joinV_mgr (n : Nat) : ∀ v : View N, (joinV o n v).mgr = join o n v.mgr := by
  induction n with
  | zero => intro v; rfl
  | succ n ih =>
    intro v
    unfold joinV join
    split
    · rw [ih, think_mgr]
    · rfl

theorem stopPart_ticking {m : Mgr N} (h : m.state = .ticking) :
    (stopPart o m).1 = join o joinSteps { m with state := .stopRequested, asked := true } := by
  unfold stopPart
  rw [h]
  dsimp only
  split
  · rfl
  · split <;> rfl

theorem stopPart_waiting {m : Mgr N} (h : m.state = .waiting) {t : N} (ht : m.tree = .root t) :
    (stopPart o m).1 = { m with tree := .root (o.run .untick t).node } := by
  unfold stopPart
  rw [h, ht]
  dsimp only
  split <;> rw [← h]

theorem stopPart_else {m : Mgr N} (h : m.state ≠ .ticking) (hw : ¬ (m.state = .waiting ∧ ∃ t, m.tree = .root t)) : (stopPart o m).1 = m := by
  unfold stopPart
  split
  · rename_i e; exact absurd e h
  · rename_i e
    split
    · rfl
    · rfl
    · rename_i t e2; exact absurd ⟨e, t, e2⟩ hw
  · rfl

theorem stopPartV_mgr (v : View N) : (stopPartV o v).mgr = (stopPart o v.mgr).1 := by
  unfold stopPartV
  split
  · rename_i h; rw [joinV_mgr, stopPart_ticking h]; rfl
  · rfl

theorem stopV_mgr (d : Bool) (v : View N) : (stopV o d v).mgr = (stopCmd o d v.mgr).1 := by
  unfold stopV stopCmd
  have h := stopPartV_mgr (o := o) v
  cases hp : stopPart o v.mgr with
  | mk m' r =>
    rw [hp] at h
    cases r with
    | some r => exact h
    | none =>
      dsimp only
      cases d with
      | true => simp only [if_true]; rw [publish_mgr, quiet_mgr, publish_mgr, h]
      | false => exact h

theorem tickOnceV_mgr (v : View N) : (tickOnceV o v).mgr = (tickOnceCmd o v.mgr).1 := by
  unfold tickOnceV tickOnceCmd
  split
  · rfl
  · cases ht : v.mgr.tree with
    | bad => rfl
    | empty => rfl
    | root t =>
      dsimp only
      rw [joinV_mgr, quiet_mgr]
      split
      · rw [← ht]
      · split
        · rw [← ht]
        · rw [← ht]

theorem dispatchV_mgr (c : Cmd) (v : View N) : (dispatchV o c v).mgr = (dispatch o c v.mgr).1 := by
  unfold dispatchV dispatch
  split
  · rfl
  · cases c with
    | setupAndShutdown =>
      dsimp only
      split
      · rfl
      · cases ht : v.mgr.tree with
        | bad => rfl
        | _ => exact stopV_mgr true v
    | stop => exact stopV_mgr false v
    | shutdown => exact stopV_mgr true v
    | tickOnce => exact tickOnceV_mgr v
    | _ => rfl

theorem controlV_mgr (b : Bool) (c : Cmd) (v : View N) : (controlV o b c v).mgr = (control o b c v.mgr).1 := by
  unfold controlV control
  split
  · split
    · rw [dispatchV_mgr, quiet_mgr, joinV_mgr]
    · rfl
  · rw [dispatchV_mgr, quiet_mgr]

theorem stepV_mgr (a : Action N) (v : View N) : (stepV o a v).mgr = step o a v.mgr := by
  cases a with
  | command c b => exact controlV_mgr b c v
  | edit f =>
    show (editV f v).mgr = (edit f v.mgr).1
    unfold editV
    split
    · rename_i h; unfold edit; rw [if_pos h]
    · rfl
  | think => exact think_mgr v

/-- C99: what is published has no influence on what happens. -/
theorem c99_same_runs (as : List (Action N)) : ∀ v : View N, (runV o as v).mgr = run o as v.mgr := by
  induction as with
  | nil => intro v; rfl
  | cons a as ih => intro v; show (runV o as (stepV o a v)).mgr = run o as (step o a v.mgr); rw [ih, stepV_mgr]

/-! ### The invariant -/

/-- When the tick thread does nothing more that is published. -/
def Late (t : Thread) : Prop := t = .alive .untick ∨ t = .alive .ended

structure Good (o : Ops N) (v : View N) : Prop where
  rest : v.mgr.thread.isAlive = false → Raised v.mgr.calls ∨ v.Current o ∧ v.mgr.state ≠ .ticking
  late : Late v.mgr.thread → v.Current o ∧ v.mgr.state ≠ .ticking

theorem current_publish (v : View N) : v.publish.Current o := ⟨rfl, .none⟩

theorem good_publish {v : View N} (h : Good o v) : Good o v.publish :=
  ⟨fun a => (h.rest a).imp id fun b => ⟨current_publish v, b.2⟩, fun a => ⟨current_publish v, (h.late a).2⟩⟩

/-- The thread is at a place where nothing is claimed. -/
theorem good_busy {v : View N} {pc : Pc} (h : v.mgr.thread = .alive pc) (h1 : pc ≠ .untick) (h2 : pc ≠ .ended) : Good o v := by
  refine ⟨fun a => ?_, fun a => ?_⟩
  · rw [h] at a; cases a
  · rcases a with a | a <;> rw [h] at a <;> cases a
    · exact absurd rfl h1
    · exact absurd rfl h2

theorem raised_last (l : List (Op × Option Res)) (op : Op) : Raised (l ++ [(op, none)]) := ⟨op, by simp⟩

theorem good_think {v : View N} (h : Good o v) : Good o (think o v) := by
  cases ht : v.mgr.thread with
  | alive pc =>
    have hm := moves (o := o) v.mgr ht
    have e : (think o v).mgr = threadStep o v.mgr := think_mgr v
    have hp : publishes o v.mgr = true → (think o v).Current o := by
      intro hp; unfold think; rw [if_pos hp]; exact current_publish _
    have hq : publishes o v.mgr = false → (think o v).shown = v.shown := by
      intro hq; unfold think; rw [if_neg (by simp [hq])]; rfl
    have hd : publishes o v.mgr = publishesAt o v.mgr pc := by unfold publishes; rw [ht]
    generalize think o v = v' at e hp hq
    generalize threadStep o v.mgr = m' at e hm
    subst e
    generalize hm' : v'.mgr = m' at hm
    have dead : m'.thread = .dead → Raised m'.calls ∨ v'.Current o ∧ m'.state ≠ .ticking → Good o v' := by
      intro a b
      rw [← hm'] at a b
      exact ⟨fun _ => b, fun c => by rcases c with c | c <;> rw [a] at c <;> cases c⟩
    have late : v'.Current o ∧ m'.state ≠ .ticking → (∃ pc, m'.thread = .alive pc) → Good o v' := by
      intro a ⟨pc, b⟩
      rw [← hm'] at a b
      exact ⟨fun c => (by rw [b] at c; cases c), fun _ => a⟩
    have busy : ∀ pc, m'.thread = .alive pc → pc ≠ .untick → pc ≠ .ended → Good o v' :=
      fun pc a => good_busy (by rw [hm']; exact a)
    cases hm with
    | startFail => exact busy _ rfl (by simp) (by simp)
    | startRaise t f => exact dead rfl (.inl (raised_last _ _))
    | startSetup t => exact busy _ rfl (by simp) (by simp)
    | startBad t => exact busy _ rfl (by simp) (by simp)
    | startGo => exact busy _ rfl (by simp) (by simp)
    | headStop => exact busy _ rfl (by simp) (by simp)
    | headGo => exact busy _ rfl (by simp) (by simp)
    | tickFail => exact busy _ rfl (by simp) (by simp)
    | tickRaise t f => exact dead rfl (.inl (raised_last _ _))
    | tickErr t => exact busy _ rfl (by simp) (by simp)
    | tickOk t s => exact busy _ rfl (by simp) (by simp)
    | resLeave s => exact busy _ rfl (by simp) (by simp)
    | resOnce s h1 h2 =>
      refine late ⟨hp ?_, by simp⟩ ⟨_, rfl⟩
      rw [hd]
      unfold publishesAt
      rw [h2]
      cases hu : v.mgr.untilResult with
      | false => rfl
      | true =>
        have h3 := h1 hu
        have h4 : ¬ s = .failed := fun e => h3 (.inr e)
        have h5 : ¬ s = .succeeded := fun e => h3 (.inl e)
        simp [h4, h5]
    | resGo s => exact busy _ rfl (by simp) (by simp)
    | leave => exact late ⟨hp (by rw [hd]; rfl), by simp⟩ ⟨_, rfl⟩
    | untickNone h1 => exact busy _ rfl (by simp) (by simp)
    | untickRaise t f => exact dead rfl (.inl (raised_last _ _))
    | untickErr t => exact busy _ rfl (by simp) (by simp)
    | untickOk t s h1 h2 =>
      refine dead rfl (.inr ⟨?_, (h.late (.inl ht)).2⟩)
      have hc := (h.late (.inl ht)).1
      have hs := hq (by rw [hd]; rfl)
      refine ⟨?_, ?_⟩
      · rw [hs, hm']; exact hc.1
      · rw [hs, hm']
        have := hc.2
        rw [h1] at this
        exact .again t this
    | failed => exact late ⟨hp (by rw [hd]; rfl), by simp⟩ ⟨_, rfl⟩
    | ended =>
      refine dead rfl (.inr ⟨?_, (h.late (.inr ht)).2⟩)
      have hc := (h.late (.inr ht)).1
      have hs := hq (by rw [hd]; rfl)
      refine ⟨?_, ?_⟩
      · rw [hs, hm']; exact hc.1
      · rw [hs, hm']; exact hc.2
  | _ =>
    have hpub : publishes o v.mgr = false := by unfold publishes; rw [ht]
    have hst : threadStep o v.mgr = v.mgr := threadStep_still _ (by rw [ht]; rfl)
    unfold think View.quiet
    rw [hpub, hst]
    exact h

theorem good_joinV (n : Nat) : ∀ {v : View N}, Good o v → Good o (joinV o n v) := by
  induction n with
  | zero => intro v h; exact h
  | succ n ih =>
    intro v h
    unfold joinV
    split
    · exact ih (good_think h)
    · exact h

/-- Nothing that counts has changed. -/
theorem good_same {v v' : View N} (h : Good o v) (e1 : v'.shown = v.shown) (e2 : v'.mgr.state = v.mgr.state) (e3 : v'.mgr.tree = v.mgr.tree)
    (e4 : v'.mgr.calls = v.mgr.calls) (e5 : v'.mgr.thread.isAlive = false → v.mgr.thread.isAlive = false)
    (e6 : Late v'.mgr.thread → Late v.mgr.thread) : Good o v' := by
  have c : v.Current o → v'.Current o := fun a => by unfold View.Current; rw [e1, e2, e3]; exact a
  refine ⟨fun a => ?_, fun a => ?_⟩
  · rw [e4, e2]; exact (h.rest (e5 a)).imp id fun b => ⟨c b.1, b.2⟩
  · rw [e2]; exact ⟨c (h.late (e6 a)).1, (h.late (e6 a)).2⟩

theorem good_renew {v : View N} (h : Good o v) : Good o (v.quiet renew) := by
  have hr : renew v.mgr = v.mgr ∨ v.mgr.thread.isAlive = false ∧ renew v.mgr = newThread v.mgr := by
    unfold renew
    split
    · exact .inl rfl
    · rename_i a; exact .inr ⟨by simpa using a, rfl⟩
  rcases hr with e | ⟨a, e⟩
  · refine good_same h rfl ?_ ?_ ?_ ?_ ?_ <;> rw [quiet_mgr, e] <;> first | rfl | exact id
  · refine good_same h rfl ?_ ?_ ?_ (fun _ => a) ?_ <;> rw [quiet_mgr, e] <;> first | rfl | skip
    intro b
    rcases b with b | b <;> cases b

theorem good_stopPartV {v : View N} (h : Good o v) : Good o (stopPartV o v) := by
  unfold stopPartV
  split
  · rename_i hs
    refine good_joinV _ ⟨fun a => ?_, fun a => ?_⟩
    · exact .inl ((h.rest a).resolve_right fun b => b.2 hs)
    · exact absurd hs (h.late a).2
  · rename_i hs
    by_cases hw : v.mgr.state = .waiting ∧ ∃ t, v.mgr.tree = .root t
    · obtain ⟨hw, t, ht⟩ := hw
      have e : (v.quiet fun m => (stopPart o m).1) = { v with mgr := { v.mgr with tree := .root (o.run .untick t).node } } := by
        unfold View.quiet; dsimp only; rw [stopPart_waiting hw ht]
      rw [e]
      have c : v.Current o → ({ v with mgr := { v.mgr with tree := .root (o.run .untick t).node } } : View N).Current o := by
        intro a
        have := a.2
        rw [ht] at this
        exact ⟨a.1, .again t this⟩
      exact ⟨fun a => (h.rest a).imp id fun b => ⟨c b.1, b.2⟩, fun a => ⟨c (h.late a).1, (h.late a).2⟩⟩
    · have e : (v.quiet fun m => (stopPart o m).1) = v := by
        unfold View.quiet; dsimp only; rw [stopPart_else hs hw]
      rw [e]; exact h

/-- A command that does not touch the thread and ends with publishing. -/
theorem good_done {v : View N} (h : Good o v) (f : Mgr N → Mgr N) (e1 : (f v.mgr).thread = v.mgr.thread) (e2 : (f v.mgr).calls = v.mgr.calls)
    (e3 : v.mgr.state ≠ .ticking → (f v.mgr).state ≠ .ticking) : Good o ((v.quiet f).publish) := by
  refine ⟨fun a => ?_, fun a => ?_⟩
  · rw [publish_mgr, quiet_mgr, e1] at a
    rw [publish_mgr, quiet_mgr, e2]
    exact (h.rest a).imp id fun b => ⟨current_publish _, e3 b.2⟩
  · rw [publish_mgr, quiet_mgr, e1] at a
    exact ⟨current_publish _, e3 (h.late a).2⟩

theorem shutdown_frame (m : Mgr N) : (shutdownCmd o m).1.thread = m.thread ∧ (shutdownCmd o m).1.calls = m.calls ∧
    (m.state ≠ .ticking → (shutdownCmd o m).1.state ≠ .ticking) := by
  unfold shutdownCmd
  cases m.tree with
  | bad => exact ⟨rfl, rfl, by simp⟩
  | empty => exact ⟨rfl, rfl, by simp⟩
  | root t =>
    dsimp only
    cases (o.run .shutdown t).res with
    | err => exact ⟨rfl, rfl, id⟩
    | ok s => exact ⟨rfl, rfl, by simp⟩

theorem reset_frame (m : Mgr N) : (resetCmd o m).1.thread = m.thread ∧ (resetCmd o m).1.calls = m.calls ∧
    (m.state ≠ .ticking → (resetCmd o m).1.state ≠ .ticking) := by
  unfold resetCmd
  split
  · exact ⟨rfl, rfl, id⟩
  · cases m.tree with
    | bad => exact ⟨rfl, rfl, id⟩
    | empty => exact ⟨rfl, rfl, by simp⟩
    | root t =>
      dsimp only
      cases (o.run .reset t).res with
      | err => exact ⟨rfl, rfl, id⟩
      | ok s => exact ⟨rfl, rfl, by simp⟩

theorem good_stopV (d : Bool) {v : View N} (h : Good o v) : Good o (stopV o d v) := by
  unfold stopV
  split
  · exact good_stopPartV h
  · split
    · have f := shutdown_frame (o := o) (stopPartV o v).publish.mgr
      exact good_done (good_publish (good_stopPartV h)) _ f.1 f.2.1 f.2.2
    · exact good_publish (good_stopPartV h)

theorem good_tickOnceV {v : View N} (h : Good o v) : Good o (tickOnceV o v) := by
  unfold tickOnceV
  split
  · exact h
  · split
    · exact good_joinV _ (good_busy (pc := .start) rfl (by simp) (by simp))
    · exact h

theorem multiple_cases (u : Bool) (m : Mgr N) : (tickMultipleCmd u m).1 = m ∨ (tickMultipleCmd u m).1.thread = .alive .start := by
  unfold tickMultipleCmd
  split
  · exact .inl rfl
  · cases m.tree with
    | bad => exact .inl rfl
    | empty => exact .inl rfl
    | root t => exact .inr rfl

theorem good_multiple (u : Bool) {v : View N} (h : Good o v) : Good o (v.quiet fun m => (tickMultipleCmd u m).1) := by
  rcases multiple_cases u v.mgr with e | e
  · have : (v.quiet fun m => (tickMultipleCmd u m).1) = v := by unfold View.quiet; dsimp only; rw [e]
    rw [this]; exact h
  · exact good_busy (pc := .start) e (by simp) (by simp)

theorem good_dispatchV (c : Cmd) {v : View N} (h : Good o v) : Good o (dispatchV o c v) := by
  unfold dispatchV
  split
  · exact h
  · cases c with
    | setupAndShutdown =>
      dsimp only
      split
      · exact h
      · split
        · exact good_publish h
        · exact good_stopV true h
    | stop => exact good_stopV false h
    | shutdown => exact good_stopV true h
    | tickOnce => exact good_tickOnceV h
    | tickPeriodically => exact good_multiple false h
    | tickUntilResult => exact good_multiple true h
    | reset =>
      have f := reset_frame (o := o) v.mgr
      exact good_done h _ f.1 f.2.1 f.2.2
    | doNothing => exact h
    | unknown => exact h

theorem good_stepV (a : Action N) {v : View N} (h : Good o v) : Good o (stepV o a v) := by
  cases a with
  | command c b =>
    show Good o (controlV o b c v)
    unfold controlV
    split
    · split
      · exact good_dispatchV c (good_renew (good_joinV _ h))
      · exact good_publish h
    · exact good_dispatchV c (good_renew h)
  | edit f =>
    show Good o (editV f v)
    unfold editV
    split
    · exact h
    · refine good_done h _ ?_ ?_ ?_ <;> unfold edit <;> split <;> first | rfl | exact id
  | think => exact good_think h

theorem good_runV (as : List (Action N)) : ∀ {v : View N}, Good o v → Good o (runV o as v) := by
  induction as with
  | nil => intro v h; exact h
  | cons a as ih => intro v h; exact ih (good_stepV a h)

theorem good_fresh {m : Mgr N} (h : Start m) : Good o (fresh m) := by
  refine ⟨fun _ => .inr ⟨⟨rfl, .none⟩, ?_⟩, fun a => ?_⟩
  · show m.state ≠ .ticking
    rw [h.1]; simp
  · have : m.thread = .absent := h.2.1
    rcases a with a | a <;> · rw [show (fresh m).mgr.thread = m.thread from rfl, this] at a; cases a

/-! ### The properties -/

/-- C99: whenever no tick thread is running, the published state of the tree is its state, and the published states of the nodes are theirs, or were
theirs before an untick; except that an exception ended the tick thread. -/
theorem c99_at_rest_partial (m : Mgr N) (h : Start m) (as : List (Action N)) (ha : (runV o as (fresh m)).mgr.thread.isAlive = false)
    (hr : ¬ Raised (runV o as (fresh m)).mgr.calls) : (runV o as (fresh m)).Current o :=
  (((good_runV as (good_fresh h)).rest ha).resolve_left hr).1

/-- C99: an edit is published at once, with the tree it leads to. -/
theorem c99_edit (f : Topo N × Bool → Topo N × Bool) (v : View N) (h : v.mgr.state = .editable) :
    (stepV o (.edit f) v).shown = (.editable, (f (v.mgr.tree, v.mgr.orphans)).1) := by
  show (editV f v).shown = _
  unfold editV
  rw [if_neg (by simp [h])]
  show ((edit f v.mgr).1.state, (edit f v.mgr).1.tree) = _
  unfold edit
  rw [if_neg (by simp [h])]
  dsimp only
  rw [h]

/-- C99: every answer of the root to a tick is published, with the states the nodes have then. -/
theorem c99_tick (v : View N) (h : v.mgr.thread = .alive .tick) (s : BTState) (hs : (stepV o .think v).mgr.thread = .alive (.result s)) :
    (stepV o .think v).Exact := by
  have hm := moves (o := o) v.mgr h
  change (think o v).mgr.thread = _ at hs
  show (think o v).Exact
  rw [think_mgr] at hs
  have hp : publishes o v.mgr = true := by
    unfold publishes
    rw [h]
    unfold publishesAt
    dsimp only
    unfold threadStep at hs
    rw [h] at hs
    dsimp only at hs
    unfold tickStep at hs
    cases hb : (v.mgr.world v.mgr.clock).push with
    | false => rw [hb] at hs; cases hs
    | true =>
      rw [hb] at hs
      simp only [Bool.not_true, Bool.false_eq_true, if_false] at hs
      cases ht : v.mgr.tree with
      | bad => rw [ht] at hs; cases hs
      | empty => rw [ht] at hs; cases hs
      | root t =>
        rw [ht] at hs
        dsimp only at hs ⊢
        unfold Mgr.call at hs
        cases hw : (v.mgr.world v.mgr.clock).raise with
        | some f => rw [hw] at hs; cases hs
        | none =>
          rw [hw] at hs
          dsimp only at hs
          cases hr : (o.run .tick t).res with
          | err => rw [hr] at hs; cases hs
          | ok s => simp
  unfold think
  rw [if_pos hp]
  rfl

theorem stopCmd_ok (m : Mgr N) (d : Bool) (h : (stopCmd o d m).2.success = true) : (stopPart o m).2 = none := by
  unfold stopCmd at h
  cases hp : stopPart o m with
  | mk m' r =>
    cases r with
    | none => rfl
    | some r =>
      rw [hp] at h
      have := stopPart_some (o := o) m r (by rw [hp])
      rw [this] at h; cases h

theorem stopV_exact (v : View N) (d : Bool) (h : (stopCmd o d v.mgr).2.success = true) : (stopV o d v).Exact := by
  unfold stopV
  rw [stopCmd_ok v.mgr d h]
  dsimp only
  split <;> rfl

/-- C99: when STOP, SHUTDOWN, SETUP_AND_SHUTDOWN or RESET has been successful, the published message is up to date. -/
theorem c99_command (v : View N) (b : Bool) (c : Cmd) (hc : c = .stop ∨ c = .shutdown ∨ c = .setupAndShutdown ∨ c = .reset)
    (h : (control o b c v.mgr).2.success = true) : (stepV o (.command c b) v).Exact := by
  have key : ∀ v' : View N, (dispatch o c v'.mgr).2.success = true → (dispatchV o c v').Exact := by
    intro v' h
    unfold dispatch at h
    unfold dispatchV
    by_cases he : v'.mgr.state = .error ∧ c ≠ .shutdown
    · rw [if_pos he] at h; cases h
    · rw [if_neg he] at h ⊢
      rcases hc with e | e | e | e <;> subst e
      · exact stopV_exact v' false h
      · exact stopV_exact v' true h
      · dsimp only at h ⊢
        split at h
        · cases h
        · rename_i hn
          rw [if_neg hn]
          cases ht : v'.mgr.tree with
          | bad => rfl
          | _ => rw [ht] at h; exact stopV_exact v' true h
      · rfl
  show (controlV o b c v).Exact
  unfold control at h
  unfold controlV
  split at h
  · rename_i hi
    rw [if_pos hi]
    cases b with
    | false => cases h
    | true =>
      simp only [if_true] at h ⊢
      refine key _ ?_
      rw [quiet_mgr, joinV_mgr]; exact h
  · rename_i hi
    rw [if_neg hi]
    exact key _ h

/-! ### What is missing -/

/-- The state of the root. -/
def rootState (o : Ops N) : Topo N → Option BTState
  | .root t => some (o.state t)
  | _ => none

/-- C99: a leaf that has succeeded after TICK_UNTIL_RESULT. Nothing is running any more and it is IDLE again, but SUCCEEDED is what has been
published. -/
theorem c99_result_stays :
    let m : Mgr (BT.Tree 1) := { tree := .root (BT.mkLeaf 0 1 [.ok .idle, .ok .succeeded, .ok .idle]) }
    let v := runV (BT.ops 1) (.command .tickUntilResult true :: List.replicate 9 .think) (fresh m)
    Start m ∧ v.mgr.thread = .dead ∧ (∀ c ∈ v.mgr.calls, c.2 ≠ none) ∧ v.mgr.state = .idle ∧
    rootState (BT.ops 1) v.shown.2 = some .succeeded ∧ rootState (BT.ops 1) v.mgr.tree = some .idle := by
  refine ⟨⟨rfl, rfl, rfl⟩, ?_⟩
  decide

/-- C99: TICK_PERIODICALLY has been answered with TICKING, but until the first tick has ended EDITABLE is what is published. -/
theorem c99_start_late :
    let m : Mgr BTState := { tree := .root .uninitialized }
    let v := stepV toy (.command .tickPeriodically true) (fresh m)
    (control toy true .tickPeriodically m).2 = ⟨true, some .ticking⟩ ∧ v.mgr.state = .ticking ∧ v.shown.1 = .editable := by decide

/-- C99: after an exception nothing is running, the state of the tree is TICKING for ever, and what is published may be anything. -/
theorem c99_exception :
    let v := runV toy [.command .tickPeriodically true, .think, .think, .think] (fresh toyRaises)
    v.mgr.thread = .dead ∧ v.mgr.state = .ticking ∧ v.shown.1 = .editable := by decide

/-! ### Examples -/

/-- Two ticks, then STOP, then SHUTDOWN: what is published after each action. -/
example :
    let m : Mgr BTState := { tree := .root .uninitialized }
    let as : List (Action BTState) := .command .tickPeriodically true :: List.replicate 8 .think ++ [.command .stop true, .command .shutdown true]
    (List.range 12).map (fun n => (runV toy (as.take n) (fresh m)).shown.1) = [.editable, .editable, .editable, .editable, .ticking, .ticking, .ticking, .ticking, .ticking, .ticking, .idle, .editable] := by
  decide

/-- Nothing is running after STOP, and nothing has been raised. -/
example :
    let m : Mgr BTState := { tree := .root .uninitialized }
    let v := runV toy (.command .tickPeriodically true :: List.replicate 8 .think ++ [.command .stop true]) (fresh m)
    Start m ∧ v.mgr.thread.isAlive = false ∧ (∀ c ∈ v.mgr.calls, c.2 ≠ none) ∧ v.mgr.state = .idle := by
  refine ⟨⟨rfl, rfl, rfl⟩, ?_⟩
  decide

end Verif.Exec.Shown
