import Verif.Exec.Spec

/-! Invariants of execution control. -/

set_option autoImplicit false

namespace Verif.Exec

open Verif.BT (Op Res BTState Ops)

variable {N : Type} {o : Ops N}

/-! ### The steps of the tick thread, one by one -/

/-- All ways in which the tick thread can go on from `pc`. -/
inductive Moves (o : Ops N) (m : Mgr N) : Pc → Mgr N → Prop
  | startFail : Moves o m .start { m with clock := m.clock + 1, thread := .alive .failed }
  | startRaise (t : N) (f : N → N) : m.tree = .root t → (m.world m.clock).raise = some f →
      Moves o m .start { m with clock := m.clock + 1, tree := .root (f t), calls := m.calls ++ [(.setup, none)], thread := .dead }
  | startSetup (t : N) : m.tree = .root t → o.state (o.run .setup t).node = .idle →
      Moves o m .start { m with clock := m.clock + 1, tree := .root (o.run .setup t).node,
                                calls := m.calls ++ [(.setup, some (o.run .setup t).res)], thread := .alive .head }
  | startBad (t : N) : m.tree = .root t →
      Moves o m .start { m with clock := m.clock + 1, tree := .root (o.run .setup t).node,
                                calls := m.calls ++ [(.setup, some (o.run .setup t).res)], state := .error, thread := .alive .failed }
  | startGo : Moves o m .start { m with clock := m.clock + 1, thread := .alive .head }
  | headStop : m.state = .stopRequested → Moves o m .head { m with clock := m.clock + 1, thread := .alive .leave }
  | headGo : m.state ≠ .stopRequested → Moves o m .head { m with clock := m.clock + 1, thread := .alive .tick }
  | tickFail : Moves o m .tick { m with clock := m.clock + 1, thread := .alive .failed }
  | tickRaise (t : N) (f : N → N) : m.tree = .root t → (m.world m.clock).raise = some f →
      Moves o m .tick { m with clock := m.clock + 1, tree := .root (f t), calls := m.calls ++ [(.tick, none)], thread := .dead }
  | tickErr (t : N) : m.tree = .root t → (o.run .tick t).res = .err →
      Moves o m .tick { m with clock := m.clock + 1, tree := .root (o.run .tick t).node, calls := m.calls ++ [(.tick, some .err)],
                               thread := .alive .failed }
  | tickOk (t : N) (s : BTState) : m.tree = .root t → (o.run .tick t).res = .ok s →
      Moves o m .tick { m with clock := m.clock + 1, tree := .root (o.run .tick t).node, calls := m.calls ++ [(.tick, some (.ok s))],
                               thread := .alive (.result s) }
  | resLeave (s : BTState) : m.untilResult = true → Final s → Moves o m (.result s) { m with clock := m.clock + 1, thread := .alive .leave }
  | resOnce (s : BTState) : (m.untilResult = true → ¬ Final s) → m.once = true →
      Moves o m (.result s) { m with clock := m.clock + 1, once := false, state := .waiting, thread := .alive .ended }
  | resGo (s : BTState) : (m.untilResult = true → ¬ Final s) → m.once = false →
      Moves o m (.result s) { m with clock := m.clock + 1, thread := .alive .head }
  | leave : Moves o m .leave { m with clock := m.clock + 1, state := .idle, thread := .alive .untick }
  | untickNone : (∀ t, m.tree ≠ .root t) → Moves o m .untick { m with clock := m.clock + 1, thread := .alive .failed }
  | untickRaise (t : N) (f : N → N) : m.tree = .root t → (m.world m.clock).raise = some f →
      Moves o m .untick { m with clock := m.clock + 1, tree := .root (f t), calls := m.calls ++ [(.untick, none)], thread := .dead }
  | untickErr (t : N) : m.tree = .root t → (o.run .untick t).res = .err →
      Moves o m .untick { m with clock := m.clock + 1, tree := .root (o.run .untick t).node, calls := m.calls ++ [(.untick, some .err)],
                                 thread := .alive .failed }
  | untickOk (t : N) (s : BTState) : m.tree = .root t → (o.run .untick t).res = .ok s →
      Moves o m .untick { m with clock := m.clock + 1, tree := .root (o.run .untick t).node, calls := m.calls ++ [(.untick, some (.ok s))],
                                 thread := .dead }
  | failed : Moves o m .failed { m with clock := m.clock + 1, state := .error, broke := true, thread := .alive .ended }
  | ended : Moves o m .ended { m with clock := m.clock + 1, thread := .dead }

theorem moves (m : Mgr N) {pc : Pc} (h : m.thread = .alive pc) : Moves o m pc (threadStep o m) := by
  obtain ⟨tree, orphans, state, thread, lost, once, untilResult, world, clock, calls, asked, broke, single⟩ := m
  dsimp only at h
  subst h
  cases pc with
  | start =>
    dsimp only [threadStep]
    unfold startStep
    dsimp only
    split
    · exact .startFail
    · cases tree with
      | bad => exact .startFail
      | empty => exact .startFail
      | root t =>
        dsimp only
        split
        · unfold Mgr.call
          cases hw : (world clock).raise with
          | some f => exact .startRaise t f rfl hw
          | none =>
            dsimp only
            split
            · exact .startSetup t rfl (by assumption)
            · exact .startBad t rfl
        · exact .startGo
  | head =>
    dsimp only [threadStep]
    split
    · exact .headStop (by assumption)
    · exact .headGo (by assumption)
  | tick =>
    dsimp only [threadStep]
    unfold tickStep
    dsimp only
    split
    · exact .tickFail
    · cases tree with
      | bad => exact .tickFail
      | empty => exact .tickFail
      | root t =>
        dsimp only
        unfold Mgr.call
        cases hw : (world clock).raise with
        | some f => exact .tickRaise t f rfl hw
        | none =>
          dsimp only
          cases hr : (o.run .tick t).res with
          | err => exact .tickErr t rfl hr
          | ok s => exact .tickOk t s rfl hr
  | result s =>
    dsimp only [threadStep]
    unfold resultStep
    dsimp only
    split
    · rename_i hh; exact .resLeave s hh.1 hh.2.symm
    · rename_i hh
      have hf : untilResult = true → ¬ Final s := fun a b => hh ⟨a, b.symm⟩
      split
      · exact .resOnce s hf (by assumption)
      · rename_i h1; exact .resGo s hf (by simpa using h1)
  | leave => exact .leave
  | untick =>
    dsimp only [threadStep]
    unfold untickStep
    dsimp only
    cases tree with
    | bad => exact .untickNone (by intro t h; cases h)
    | empty => exact .untickNone (by intro t h; cases h)
    | root t =>
      dsimp only
      unfold Mgr.call
      cases hw : (world clock).raise with
      | some f => exact .untickRaise t f rfl hw
      | none =>
        dsimp only
        cases hr : (o.run .untick t).res with
        | err => exact .untickErr t rfl hr
        | ok s => exact .untickOk t s rfl hr
  | failed => exact .failed
  | ended => exact .ended

theorem threadStep_still (m : Mgr N) (h : m.thread.isAlive = false) : threadStep o m = m := by
  unfold threadStep
  cases ht : m.thread with
  | alive pc => rw [ht] at h; cases h
  | _ => rfl

/-- What every step of the thread keeps is kept by `join`. -/
theorem join_keeps (P : Mgr N → Prop) (h : ∀ m, P m → P (threadStep o m)) (n : Nat) : ∀ m, P m → P (join o n m) := by
  induction n with
  | zero => intro m hm; exact hm
  | succ n ih =>
    intro m hm
    unfold join
    split
    · exact ih _ (h m hm)
    · exact hm

theorem join_still (n : Nat) (m : Mgr N) (h : m.thread.isAlive = false) : join o n m = m := by
  cases n with
  | zero => rfl
  | succ n => unfold join; rw [h]; rfl

/-- A thread that makes progress at every step ends. -/
theorem join_ends (R : Nat → Mgr N → Prop) (h : ∀ k m pc, R k m → m.thread = .alive pc → ∃ j, j < k ∧ R j (threadStep o m)) (n : Nat) :
    ∀ k m, k ≤ n → R k m → (join o n m).thread.isAlive = false ∧ ∃ j, R j (join o n m) := by
  induction n with
  | zero =>
    intro k m hk hr
    unfold join
    cases ht : m.thread with
    | alive pc =>
      obtain ⟨j, hj, _⟩ := h k m pc hr ht
      omega
    | _ => exact ⟨rfl, k, hr⟩
  | succ n ih =>
    intro k m hk hr
    cases ht : m.thread with
    | alive pc =>
      obtain ⟨j, hj, hr'⟩ := h k m pc hr ht
      have e : join o (n + 1) m = join o n (threadStep o m) := by
        conv => lhs; unfold join
        rw [ht]; rfl
      rw [e]
      exact ih j _ (by omega) hr'
    | _ => rw [join_still _ _ (by rw [ht]; rfl), ht]; exact ⟨rfl, k, hr⟩

/-! ### States -/

/-- What the tree state says about the tick thread. -/
structure Inv (m : Mgr N) : Prop where
  lost : m.lost = []
  quiet : m.state ≠ .ticking → m.state ≠ .idle → ¬ Executing m.thread
  idle : m.state = .idle → ∀ pc, m.thread = .alive pc → pc = .untick ∨ pc = .failed ∨ pc = .ended

/-- The invariant while a command waits for the thread to end: a stop may have been requested. -/
structure Inv' (m : Mgr N) : Prop where
  lost : m.lost = []
  quiet : m.state ≠ .ticking → m.state ≠ .stopRequested → m.state ≠ .idle → ¬ Executing m.thread
  idle : m.state = .idle → ∀ pc, m.thread = .alive pc → pc = .untick ∨ pc = .failed ∨ pc = .ended

theorem Inv.weak {m : Mgr N} (h : Inv m) : Inv' m := ⟨h.lost, fun a _ c => h.quiet a c, h.idle⟩

theorem notExec {t : Thread} (h : t.isAlive = false) : ¬ Executing t := by
  rintro ⟨pc, rfl, _⟩; cases h

theorem Inv'.strong {m : Mgr N} (h : Inv' m) (hd : m.thread.isAlive = false) : Inv m :=
  ⟨h.lost, fun _ _ => notExec hd, h.idle⟩

theorem exec_alive {pc : Pc} : Executing (.alive pc) ↔ pc ≠ .failed ∧ pc ≠ .ended :=
  ⟨fun ⟨_, h, a, b⟩ => by cases h; exact ⟨a, b⟩, fun ⟨a, b⟩ => ⟨pc, rfl, a, b⟩⟩

theorem inv'_thread {m : Mgr N} (h : Inv' m) : Inv' (threadStep o m) := by
  cases ht : m.thread with
  | absent | fresh | dead => rw [threadStep_still _ (by rw [ht]; rfl)]; exact h
  | alive pc =>
    obtain ⟨h1, h2, h3⟩ := h
    have mv := moves (o := o) m ht
    generalize threadStep o m = m' at mv
    rw [ht, exec_alive] at h2
    have h3' : m.state = .idle → pc = .untick ∨ pc = .failed ∨ pc = .ended := fun a => h3 a pc ht
    cases mv <;> refine ⟨h1, ?_, ?_⟩ <;> simp_all [Executing]

theorem inv_thread {m : Mgr N} (h : Inv m) : Inv (threadStep o m) := by
  cases ht : m.thread with
  | absent | fresh | dead => rw [threadStep_still _ (by rw [ht]; rfl)]; exact h
  | alive pc =>
    obtain ⟨h1, h2, h3⟩ := h
    have mv := moves (o := o) m ht
    generalize threadStep o m = m' at mv
    rw [ht, exec_alive] at h2
    have h3' : m.state = .idle → pc = .untick ∨ pc = .failed ∨ pc = .ended := fun a => h3 a pc ht
    cases mv <;> refine ⟨h1, ?_, ?_⟩ <;> simp_all [Executing]

/-! ### Waiting for a thread that has been told to stop -/

/-- Steps left to a thread that finds a stop request. -/
def stopRank : Thread → Nat
  | .alive .tick => 7
  | .alive (.result _) => 6
  | .alive .start => 6
  | .alive .head => 5
  | .alive .leave => 4
  | .alive .untick => 3
  | .alive .failed => 2
  | .alive .ended => 1
  | _ => 0

/-- The thread is on its way out. -/
def Stopping (k : Nat) (m : Mgr N) : Prop :=
  Inv' m ∧ (∀ pc, m.thread = .alive pc → m.state = .stopRequested ∨ pc = .untick ∨ pc = .failed ∨ pc = .ended) ∧
  stopRank m.thread = k

theorem stopping_step (k : Nat) (m : Mgr N) (pc : Pc) (h : Stopping k m) (ht : m.thread = .alive pc) :
    ∃ j, j < k ∧ Stopping j (threadStep o m) := by
  obtain ⟨hi, h, hk⟩ := h
  have hi' := inv'_thread (o := o) hi
  have hs := h pc ht
  have mv := moves (o := o) m ht
  generalize threadStep o m = m' at mv hi'
  subst hk
  cases mv <;> refine ⟨_, ?_, hi', ?_, rfl⟩ <;> simp_all [stopRank]

theorem stopping_join (m : Mgr N) (hi : Inv' m)
    (h : ∀ pc, m.thread = .alive pc → m.state = .stopRequested ∨ pc = .untick ∨ pc = .failed ∨ pc = .ended) :
    (join o joinSteps m).thread.isAlive = false ∧ Inv (join o joinSteps m) := by
  have hk : stopRank m.thread ≤ joinSteps := by
    unfold stopRank joinSteps
    split <;> omega
  obtain ⟨hd, j, hj⟩ := join_ends (o := o) Stopping stopping_step joinSteps _ m hk ⟨hi, h, rfl⟩
  exact ⟨hd, hj.1.strong hd⟩

/-! ### Waiting for a single tick -/

/-- Steps left to a thread that ticks once. -/
def onceRank : Thread → Nat
  | .alive .start => 5
  | .alive .head => 4
  | .alive .tick => 3
  | .alive (.result _) => 2
  | .alive .failed => 2
  | .alive .ended => 1
  | _ => 0

/-- The thread is making a single tick. -/
def Single (k : Nat) (m : Mgr N) : Prop :=
  Inv' m ∧ (∀ pc, m.thread = .alive pc → pc ≠ .leave ∧ pc ≠ .untick ∧
    (pc = .failed ∨ pc = .ended ∨ m.state = .ticking ∧ m.once = true ∧ m.untilResult = false)) ∧ onceRank m.thread = k

theorem single_step (k : Nat) (m : Mgr N) (pc : Pc) (h : Single k m) (ht : m.thread = .alive pc) :
    ∃ j, j < k ∧ Single j (threadStep o m) := by
  obtain ⟨hi, h, hk⟩ := h
  have hi' := inv'_thread (o := o) hi
  obtain ⟨hl, hu, hs⟩ := h pc ht
  have mv := moves (o := o) m ht
  generalize threadStep o m = m' at mv hi'
  subst hk
  cases mv <;> refine ⟨_, ?_, hi', ?_, rfl⟩ <;> simp_all [onceRank]

/-! ### Commands -/

theorem inv_renew {m : Mgr N} (h : Inv m) (hd : m.thread.isAlive = false) : Inv (newThread m) := by
  refine ⟨?_, fun _ _ => ?_, ?_⟩
  · unfold newThread
    cases ht : m.thread with
    | alive pc => rw [ht] at hd; cases hd
    | _ => exact h.lost
  · exact notExec rfl
  · intro _ pc hp; cases hp

theorem inv_shutdown {m : Mgr N} (h : Inv m) (hq : ¬ Executing m.thread) : Inv (shutdownCmd o m).1 := by
  unfold shutdownCmd
  cases m.tree with
  | bad => exact ⟨h.lost, fun _ _ => hq, by simp⟩
  | empty => exact ⟨h.lost, fun _ _ => hq, by simp⟩
  | root t =>
    dsimp only
    split
    · exact ⟨h.lost, h.quiet, h.idle⟩
    · exact ⟨h.lost, fun _ _ => hq, by simp⟩

theorem inv_stopPart {m : Mgr N} (h : Inv m) (hd : m.state = .idle → m.thread.isAlive = false) :
    Inv (stopPart o m).1 ∧ ¬ Executing (stopPart o m).1.thread := by
  unfold stopPart
  cases hs : m.state with
  | ticking =>
    dsimp only
    have hj := stopping_join (o := o) { m with state := .stopRequested, asked := true }
      ⟨h.lost, by simp, by simp⟩ (fun _ _ => .inl rfl)
    generalize join o joinSteps { m with state := .stopRequested, asked := true } = m' at hj
    have : Inv m' ∧ ¬ Executing m'.thread := ⟨hj.2, notExec hj.1⟩
    split
    · exact this
    · split <;> exact this
  | waiting =>
    have hq := h.quiet (by simp [hs]) (by simp [hs])
    dsimp only
    cases m.tree with
    | bad => exact ⟨h, hq⟩
    | empty => exact ⟨h, hq⟩
    | root t =>
      dsimp only
      split <;> exact ⟨⟨h.lost, fun _ _ => hq, fun e => by cases e⟩, hq⟩
  | idle => exact ⟨h, notExec (hd hs)⟩
  | _ => exact ⟨h, h.quiet (by simp [hs]) (by simp [hs])⟩

theorem inv_stopCmd {m : Mgr N} (down : Bool) (h : Inv m) (hd : m.state = .idle → m.thread.isAlive = false) :
    Inv (stopCmd o down m).1 := by
  have := inv_stopPart (o := o) h hd
  unfold stopCmd
  cases hp : stopPart o m with
  | mk m' r =>
    rw [hp] at this
    cases r with
    | some r => exact this.1
    | none =>
      dsimp only
      split
      · exact inv_shutdown this.1 this.2
      · exact this.1

theorem once_join (m : Mgr N) (hl : m.lost = []) :
    (join o joinSteps (startThread true { m with once := true, untilResult := false, state := .ticking })).thread.isAlive = false ∧
    Inv (join o joinSteps (startThread true { m with once := true, untilResult := false, state := .ticking })) := by
  have hs : Single 5 (startThread true { m with once := true, untilResult := false, state := .ticking }) := by
    refine ⟨⟨hl, ?_, ?_⟩, ?_, rfl⟩
    · intro a; exact absurd rfl a
    · intro a; cases a
    · intro pc hp; cases hp; exact ⟨by simp, by simp, .inr (.inr ⟨rfl, rfl, rfl⟩)⟩
  obtain ⟨hd, j, hj⟩ := join_ends (o := o) Single single_step joinSteps 5 _ (by decide) hs
  exact ⟨hd, hj.1.strong hd⟩

theorem inv_tickOnce {m : Mgr N} (h : Inv m) : Inv (tickOnceCmd o m).1 := by
  unfold tickOnceCmd
  split
  · exact h
  · have hj := once_join (o := o) m h.lost
    cases ht : m.tree with
    | bad => exact h
    | empty => exact h
    | root t =>
      dsimp only
      rw [← ht]
      split
      · exact hj.2
      · split <;> exact hj.2

theorem inv_tickMultiple {m : Mgr N} (u : Bool) (h : Inv m) : Inv (tickMultipleCmd u m).1 := by
  unfold tickMultipleCmd
  split
  · exact h
  · split
    · exact h
    · exact h
    · exact ⟨h.lost, fun a => absurd rfl a, fun a => by cases a⟩

theorem inv_reset {m : Mgr N} (h : Inv m) : Inv (resetCmd o m).1 := by
  unfold resetCmd
  split
  · exact h
  · rename_i hd
    have hd : m.thread.isAlive = false := by simpa using hd
    cases m.tree with
    | bad => exact h
    | empty => exact ⟨h.lost, fun _ _ => notExec hd, fun _ pc hp => by simp_all [Thread.isAlive]⟩
    | root t =>
      dsimp only
      split
      · exact ⟨h.lost, h.quiet, h.idle⟩
      · exact ⟨h.lost, fun _ _ => notExec hd, fun _ pc hp => by simp_all [Thread.isAlive]⟩

theorem inv_dispatch {m : Mgr N} (c : Cmd) (h : Inv m) (hd : m.state = .idle → m.thread.isAlive = false) :
    Inv (dispatch o c m).1 := by
  unfold dispatch
  split
  · exact h
  · cases c with
    | setupAndShutdown =>
      dsimp only
      split
      · exact h
      · split
        · exact h
        · exact inv_stopCmd true h hd
    | stop => exact inv_stopCmd false h hd
    | shutdown => exact inv_stopCmd true h hd
    | tickOnce => exact inv_tickOnce h
    | tickPeriodically => exact inv_tickMultiple _ h
    | tickUntilResult => exact inv_tickMultiple _ h
    | reset => exact inv_reset h
    | doNothing => exact h
    | unknown => exact h

/-- What is dispatched: the manager after waiting for a thread that is leaving, with a thread object that can be used. -/
def ready (o : Ops N) (m : Mgr N) : Mgr N :=
  renew (if m.state = .idle ∧ m.thread.isAlive then join o joinSteps m else m)

theorem idle_join {m : Mgr N} (h : Inv m) (hs : m.state = .idle) :
    (join o joinSteps m).thread.isAlive = false ∧ Inv (join o joinSteps m) :=
  stopping_join m h.weak fun pc hp => .inr (h.idle hs pc hp)

theorem inv_ready {m : Mgr N} (h : Inv m) : Inv (ready o m) ∧ ((ready o m).state = .idle → (ready o m).thread.isAlive = false) := by
  unfold ready renew
  split
  · rename_i hh
    have hj := idle_join (o := o) h hh.1
    rw [if_neg (by simp [hj.1])]
    exact ⟨inv_renew hj.2 hj.1, fun _ => rfl⟩
  · rename_i hh
    split
    · rename_i ha
      exact ⟨h, fun hs => by exfalso; exact hh ⟨hs, ha⟩⟩
    · rename_i ha
      exact ⟨inv_renew h (by simpa using ha), fun _ => rfl⟩

theorem control_eq (m : Mgr N) (b : Bool) (c : Cmd) :
    control o b c m = dispatch o c (ready o m) ∨
    control o b c m = (m, ⟨false, none⟩) ∧ b = false ∧ m.state = .idle ∧ m.thread.isAlive = true := by
  unfold control ready
  split
  · rename_i hh
    cases b with
    | false => exact .inr ⟨rfl, rfl, hh⟩
    | true => exact .inl rfl
  · exact .inl rfl

theorem inv_control {m : Mgr N} (b : Bool) (c : Cmd) (h : Inv m) : Inv (control o b c m).1 := by
  rcases control_eq (o := o) m b c with e | ⟨e, _⟩
  · rw [e]
    have := inv_ready (o := o) h
    exact inv_dispatch c this.1 this.2
  · rw [e]; exact h

theorem inv_edit {m : Mgr N} (f : Topo N × Bool → Topo N × Bool) (h : Inv m) : Inv (edit f m).1 := by
  unfold edit
  split
  · exact h
  · exact ⟨h.lost, h.quiet, h.idle⟩

theorem inv_step {m : Mgr N} (a : Action N) (h : Inv m) : Inv (step o a m) := by
  cases a with
  | command c b => exact inv_control b c h
  | edit f => exact inv_edit f h
  | think => exact inv_thread h

theorem inv_run (as : List (Action N)) : ∀ {m : Mgr N}, Inv m → Inv (run o as m) := by
  induction as with
  | nil => intro m h; exact h
  | cons a as ih => intro m h; exact ih (inv_step a h)

theorem inv_start {m : Mgr N} (h : Start m) : Inv m :=
  ⟨h.2.2, fun _ _ => notExec (by rw [h.2.1]; rfl), fun hs => by rw [h.1] at hs; cases hs⟩

theorem inv_reached {m : Mgr N} (h : Start m) (as : List (Action N)) : Inv (run o as m) := inv_run as (inv_start h)

end Verif.Exec
