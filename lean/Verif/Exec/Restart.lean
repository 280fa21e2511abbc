import Verif.Exec.Single
import Verif.Exec.Down

/-!
# C143: a RESET makes a fresh start, whatever happened before

C140 to C142 begin with a tree manager whose tick thread is not running. Here the request RESET comes at any
time: the tree may have been stopped in the middle of a round, ticked by hand, or have just found its result.
-/

set_option autoImplicit false

namespace Verif.Exec.Restart

open Verif.BT (Op Res BTState Ops Tree Out ops runs ops_sound Sound)
open Verif.BT.Again (Series c139_rounds)
open Verif.BT.Duration (Lasts lasts_takes takes_runs)
open Until Takes Single Periodic

variable {N : Type}

/-! ### What the tick thread leaves alone -/

/-- The same outside world, and no more nodes with missing parents. -/
def Same (m m' : Mgr N) : Prop := m'.world = m.world ∧ m'.orphans = m.orphans

theorem Same.trans {a b c : Mgr N} (h : Same a b) (h' : Same b c) : Same a c :=
  ⟨h'.1.trans h.1, h'.2.trans h.2⟩

theorem call_same (o : Ops N) (m : Mgr N) (w : World N) (op : Op) (t : N) : Same m (m.call o w op t).1 := by
  unfold Mgr.call
  split <;> exact ⟨rfl, rfl⟩

theorem start_same (o : Ops N) (w : World N) (m : Mgr N) : Same m (startStep o w m) := by
  unfold startStep
  split
  · exact ⟨rfl, rfl⟩
  · split
    · exact ⟨rfl, rfl⟩
    · exact ⟨rfl, rfl⟩
    · rename_i t _
      split
      · have h := call_same o m w .setup t
        generalize m.call o w .setup t = q at h
        obtain ⟨m', r⟩ := q
        cases r with
        | none => exact h
        | some r =>
          simp only
          split
          · split
            · exact h
            · exact h
          · exact h
      · exact ⟨rfl, rfl⟩

theorem tick_same (o : Ops N) (w : World N) (m : Mgr N) : Same m (tickStep o w m) := by
  unfold tickStep
  split
  · exact ⟨rfl, rfl⟩
  · split
    · rename_i t _
      have h := call_same o m w .tick t
      generalize m.call o w .tick t = q at h
      obtain ⟨m', r⟩ := q
      cases r with
      | none => exact h
      | some r => cases r <;> exact h
    · exact ⟨rfl, rfl⟩

theorem untick_same (o : Ops N) (w : World N) (m : Mgr N) : Same m (untickStep o w m) := by
  unfold untickStep
  split
  · rename_i t _
    have h := call_same o m w .untick t
    generalize m.call o w .untick t = q at h
    obtain ⟨m', r⟩ := q
    cases r with
    | none => exact h
    | some r => cases r <;> exact h
  · exact ⟨rfl, rfl⟩

theorem thread_same (o : Ops N) (m : Mgr N) : Same m (threadStep o m) := by
  unfold threadStep
  simp only
  split
  · split
    · exact start_same o _ { m with clock := m.clock + 1 }
    · split <;> exact ⟨rfl, rfl⟩
    · exact tick_same o _ { m with clock := m.clock + 1 }
    · unfold resultStep
      split
      · exact ⟨rfl, rfl⟩
      · split <;> exact ⟨rfl, rfl⟩
    · exact ⟨rfl, rfl⟩
    · exact untick_same o _ { m with clock := m.clock + 1 }
    · exact ⟨rfl, rfl⟩
    · exact ⟨rfl, rfl⟩
  · exact ⟨rfl, rfl⟩

theorem join_same (o : Ops N) : ∀ (k : Nat) (m : Mgr N), Same m (join o k m) := by
  intro k
  induction k with
  | zero => intro m; exact ⟨rfl, rfl⟩
  | succ k ih =>
    intro m
    unfold join
    split
    · exact (thread_same o m).trans (ih _)
    · exact ⟨rfl, rfl⟩

theorem renew_same (m : Mgr N) : Same m (renew m) := by
  unfold renew
  split <;> exact ⟨rfl, rfl⟩

/-- What a request is dispatched on. -/
theorem control_same (o : Ops N) (b : Bool) (c : Cmd) (m : Mgr N) (h : (control o b c m).2.success = true) :
    ∃ m', Same m m' ∧ control o b c m = dispatch o c m' := by
  unfold control at h ⊢
  split
  · rename_i h1
    rw [if_pos h1] at h
    split
    · exact ⟨_, (join_same o _ m).trans (renew_same _), rfl⟩
    · rename_i h2
      rw [if_neg h2] at h
      cases h
  · exact ⟨_, renew_same m, rfl⟩

/-! ### RESET -/

/-- A RESET that was answered with success has reset the root, and no tick thread runs. -/
theorem reset_done (o : Ops N) (b : Bool) (m : Mgr N) (start : N) (hw : Undisturbed m)
    (hor : m.orphans = false) (hs : (control o b .reset m).2.success = true)
    (ht : (control o b .reset m).1.tree = .root start) :
    Resting (control o b .reset m).1 start ∧ (control o b .reset m).1.state = .idle ∧
    ∃ t, start = (o.run .reset t).node ∧ (o.run .reset t).res.isOk = true := by
  obtain ⟨m', hsame, e⟩ := control_same o b .reset m hs
  rw [e] at hs ht ⊢
  clear e
  unfold dispatch at hs ht ⊢
  by_cases he : m'.state = .error ∧ Cmd.reset ≠ .shutdown
  · rw [if_pos he] at hs; cases hs
  · rw [if_neg he] at hs ht ⊢
    simp only at hs ht ⊢
    unfold resetCmd at hs ht ⊢
    by_cases ha : m'.thread.isAlive = true
    · rw [if_pos ha] at hs; cases hs
    · rw [if_neg ha] at hs ht ⊢
      cases htr : m'.tree with
      | bad => rw [htr] at hs; cases hs
      | empty => rw [htr] at ht; simp only at ht; cases ht
      | root t =>
        rw [htr] at hs ht
        simp only at hs ht ⊢
        cases hr : (o.run .reset t).res with
        | err => rw [hr] at hs; cases hs
        | ok a =>
          rw [hr] at ht
          simp only at ht ⊢
          have hst : (o.run .reset t).node = start := by injection ht
          refine ⟨⟨ht, by simpa using ha, hsame.2.trans hor, fun i => ?_, fun h => nomatch h⟩, by trivial, t, hst.symm, by
            rw [hr]; rfl⟩
          show (m'.world i).raise = none ∧ (m'.world i).push = true
          rw [hsame.1]
          exact hw i

/-- The tick thread of TICK_PERIODICALLY or TICK_UNTIL_RESULT at the head of its loop, for a tree that is set up. -/
theorem begin_head (o : Ops N) (k : Nat) (u : Bool) (m : Mgr N) (t : N) (h : Resting m t)
    (hst : ¬ (o.state t = .uninitialized ∨ o.state t = .shutdown)) :
    (tickMultipleCmd u m).2.success = true ∧
    join o (k + 1) (tickMultipleCmd u m).1 =
      join o k ((after (startThread false { m with state := .ticking, once := false, untilResult := u })
        (m.clock + 1) t []).goto .head) := by
  obtain ⟨h1, h2, h3, _, _⟩ := h
  have e : tickMultipleCmd u m = (startThread false { m with
      state := .ticking, once := false, untilResult := u }, ⟨true, some .ticking⟩) := by
    unfold tickMultipleCmd
    rw [h2, h1]
    rfl
  rw [e]
  refine ⟨rfl, ?_⟩
  rw [join_step _ _ _ rfl]
  congr 1
  simp only [threadStep, startThread, startStep, h3, h1]
  rw [if_neg (by decide), if_neg hst]
  simp only [after, Mgr.goto]

theorem reset_up (n : Nat) (t : Tree n) (h : ((ops n).run .reset t).res.isOk = true) :
    ¬ ((ops n).state ((ops n).run .reset t).node = .uninitialized ∨
      (ops n).state ((ops n).run .reset t).node = .shutdown) := by
  cases hr : ((ops n).run .reset t).res with
  | err => rw [hr] at h; cases h
  | ok a =>
    have hsound := ops_sound n .reset t a hr
    rw [hsound.1]
    have := hsound.2
    revert this
    cases a <;> decide

theorem answers_rounds (n : Nat) (t : Tree n) (ps : List (Nat × BTState))
    (hr : ((ops n).run .reset t).res.isOk = true) (hl : Series n ((ops n).run .reset t).node ps)
    (hok : ∀ out ∈ (runs (ops n) (List.replicate (BT.Again.ticks ps) .tick)
      ((ops n).run .reset t).node).1, out.res.isOk = true) :
    (runs (ops n) (List.replicate (BT.Again.ticks ps) .tick) ((ops n).run .reset t).node).1.map
      (fun out => ((.tick, some out.res) : Op × Option Res)) = rounds ps := by
  have hc := c139_rounds n t [] .reset (Or.inr rfl) ps hr hl hok
  have e2 : ∀ l : List (Out (Tree n)), l.map (fun out => ((Op.tick, some out.res) : Op × Option Res)) =
      (l.map Out.res).map fun r => (.tick, some r) := by
    intro l
    rw [List.map_map]
    rfl
  rw [e2]
  refine (congrArg (List.map fun r => ((Op.tick, some r) : Op × Option Res)) hc).trans ?_
  unfold rounds
  rw [List.map_flatMap]
  congr 1
  funext p
  rw [List.map_append, List.map_replicate]
  rfl

/-! ### STOP without a RESET -/

/-- The tick thread sets the state IDLE just before it unticks the root; if it has ended and the state is
IDLE, the untick has succeeded. -/
def Leaving (o : Ops N) (m : Mgr N) : Prop :=
  m.state = .idle → m.thread = .alive .untick ∨ m.thread = .alive .failed ∨
    (m.thread.isAlive = false ∧ ∃ x, m.tree = .root (o.run .untick x).node ∧
      (o.run .untick x).res.isOk = true)

theorem call_state (o : Ops N) (m : Mgr N) (w : World N) (op : Op) (t : N) :
    (m.call o w op t).1.state = m.state := by
  unfold Mgr.call
  split <;> rfl

theorem start_idle (o : Ops N) (w : World N) (m : Mgr N) (h : (startStep o w m).state = .idle) :
    m.state = .idle := by
  unfold startStep at h
  split at h
  · exact h
  · split at h
    · exact h
    · exact h
    · rename_i t _
      split at h
      · have hc := call_state o m w .setup t
        generalize m.call o w .setup t = q at h hc
        obtain ⟨m', r⟩ := q
        rw [← hc]
        cases r with
        | none => exact h
        | some r =>
          simp only at h
          split at h
          · split at h
            · exact h
            · cases h
          · exact h
      · exact h

theorem tick_idle (o : Ops N) (w : World N) (m : Mgr N) (h : (tickStep o w m).state = .idle) :
    m.state = .idle := by
  unfold tickStep at h
  split at h
  · exact h
  · split at h
    · rename_i t _
      have hc := call_state o m w .tick t
      generalize m.call o w .tick t = q at h hc
      obtain ⟨m', r⟩ := q
      rw [← hc]
      cases r with
      | none => exact h
      | some r => cases r <;> exact h
    · exact h

theorem result_idle (s : BTState) (m : Mgr N) (h : (resultStep s m).state = .idle) : m.state = .idle := by
  unfold resultStep at h
  split at h
  · exact h
  · split at h
    · cases h
    · exact h

theorem leaving_step (o : Ops N) (m : Mgr N) (hw : Undisturbed m) (h : Leaving o m) :
    Leaving o (threadStep o m) := by
  cases hth : m.thread with
  | alive pc =>
    have no : pc ≠ .untick → pc ≠ .failed → m.state ≠ .idle := by
      intro h1 h2 hi
      rcases h hi with h3 | h3 | h3
      · rw [hth] at h3; injection h3 with h3; exact h1 h3
      · rw [hth] at h3; injection h3 with h3; exact h2 h3
      · rw [hth] at h3; cases h3.1
    unfold threadStep
    rw [hth]
    simp only
    cases pc with
    | start => exact fun hi => absurd (start_idle o _ _ hi) (no (by simp) (by simp))
    | head =>
      intro hi
      refine absurd ?_ (no (by simp) (by simp))
      simp only at hi
      split at hi <;> exact hi
    | tick => exact fun hi => absurd (tick_idle o _ _ hi) (no (by simp) (by simp))
    | result s => exact fun hi => absurd (result_idle s _ hi) (no (by simp) (by simp))
    | leave => exact fun _ => Or.inl rfl
    | untick =>
      intro _
      simp only [untickStep]
      split
      · rename_i t _
        simp only [Mgr.call, (hw m.clock).1]
        cases hr : (o.run .untick t).res with
        | err => exact Or.inr (Or.inl rfl)
        | ok a => exact Or.inr (Or.inr ⟨rfl, t, rfl, by rw [hr]; rfl⟩)
      · exact Or.inr (Or.inl rfl)
    | failed => intro hi; cases hi
    | ended => exact fun hi => absurd hi (no (by simp) (by simp))
  | absent => simpa only [threadStep, hth] using h
  | fresh => simpa only [threadStep, hth] using h
  | dead => simpa only [threadStep, hth] using h

theorem leaving_join (o : Ops N) : ∀ (k : Nat) (m : Mgr N), Undisturbed m → Leaving o m →
    Leaving o (join o k m) := by
  intro k
  induction k with
  | zero => intro m _ h; exact h
  | succ k ih =>
    intro m hw h
    unfold join
    split
    · refine ih _ (fun i => ?_) (leaving_step o m hw h)
      rw [(thread_same o m).1]
      exact hw i
    · exact h

/-- A STOP of a ticking tree that was answered with success. -/
theorem stop_done (o : Ops N) (b : Bool) (m : Mgr N) (hst : m.state = .ticking)
    (hs : (control o b .stop m).2.success = true) :
    (control o b .stop m).1 = join o joinSteps { renew m with state := .stopRequested, asked := true } ∧
    (control o b .stop m).1.thread.isAlive = false ∧ (control o b .stop m).1.state = .idle := by
  have hst' : (renew m).state = .ticking := by
    have : (renew m).state = m.state := by unfold renew; split <;> rfl
    rw [this, hst]
  have hc : control o b .stop m = stopCmd o false (renew m) := by
    unfold control
    rw [if_neg (by rw [hst]; rintro ⟨h, _⟩; cases h)]
    unfold dispatch
    rw [if_neg (by rintro ⟨h, _⟩; rw [hst'] at h; cases h)]
  rw [hc] at hs ⊢
  unfold stopCmd stopPart at hs ⊢
  rw [hst'] at hs ⊢
  simp only at hs ⊢
  generalize join o joinSteps { renew m with state := .stopRequested, asked := true } = j at hs ⊢
  by_cases h1 : j.thread.isAlive = true
  · rw [if_pos h1] at hs; cases hs
  · rw [if_neg h1] at hs ⊢
    by_cases h2 : j.state = .idle
    · rw [if_pos h2]
      exact ⟨rfl, by simpa using h1, h2⟩
    · rw [if_neg h2] at hs; cases hs

/-- It has unticked the root. -/
theorem stop_unticked (o : Ops N) (b : Bool) (m : Mgr N) (start : N) (hw : Undisturbed m)
    (hor : m.orphans = false) (hst : m.state = .ticking) (hs : (control o b .stop m).2.success = true)
    (ht : (control o b .stop m).1.tree = .root start) :
    Resting (control o b .stop m).1 start ∧
    ∃ x, start = (o.run .untick x).node ∧ (o.run .untick x).res.isOk = true := by
  obtain ⟨e, ha, hi⟩ := stop_done o b m hst hs
  rw [e] at ht ha hi ⊢
  have hsame : Same m (join o joinSteps { renew m with state := .stopRequested, asked := true }) :=
    (renew_same m).trans (join_same o joinSteps { renew m with state := .stopRequested, asked := true })
  have hw' : ∀ m' : Mgr N, Same m m' → Undisturbed m' := fun m' h i => by rw [h.1]; exact hw i
  have hl := leaving_join o joinSteps { renew m with state := .stopRequested, asked := true }
    (hw' _ (renew_same m)) (fun h => nomatch h)
  generalize join o joinSteps { renew m with state := .stopRequested, asked := true } = j at ht ha hi hsame hl
  refine ⟨⟨ht, ha, hsame.2.trans hor, hw' _ hsame, by rw [hi]; decide⟩, ?_⟩
  rcases hl hi with h | h | ⟨_, x, hx, hr⟩
  · rw [h] at ha; cases ha
  · rw [h] at ha; cases ha
  · rw [ht] at hx
    exact ⟨x, by injection hx, hr⟩

/-! ### SHUTDOWN -/

/-- Stopping leaves no tick thread. -/
theorem part_done (o : Ops N) (m m' : Mgr N) (h : m.state = .ticking ∨ m.thread.isAlive = false)
    (hp : stopPart o m = (m', none)) : Same m m' ∧ m'.thread.isAlive = false := by
  unfold stopPart at hp
  cases hs : m.state with
  | ticking =>
    rw [hs] at hp
    simp only at hp
    have hj := join_same o joinSteps { m with state := .stopRequested, asked := true }
    generalize join o joinSteps { m with state := .stopRequested, asked := true } = j at hp hj
    by_cases h1 : j.thread.isAlive = true
    · rw [if_pos h1] at hp; cases hp
    · rw [if_neg h1] at hp
      by_cases h2 : j.state = .idle
      · rw [if_pos h2] at hp
        injection hp with hp
        rw [← hp]
        exact ⟨hj, by simpa using h1⟩
      · rw [if_neg h2] at hp; cases hp
  | waiting =>
    have ha : m.thread.isAlive = false := h.resolve_left (by rw [hs]; decide)
    rw [hs] at hp
    simp only at hp
    cases ht : m.tree with
    | bad => rw [ht] at hp; cases hp
    | empty =>
      rw [ht] at hp
      injection hp with hp
      rw [← hp]
      exact ⟨⟨rfl, rfl⟩, ha⟩
    | root t =>
      rw [ht] at hp
      simp only at hp
      split at hp
      · injection hp with hp
        rw [← hp]
        exact ⟨⟨rfl, rfl⟩, ha⟩
      · cases hp
  | idle | editable | stopRequested | error =>
    have ha : m.thread.isAlive = false := h.resolve_left (by rw [hs]; decide)
    rw [hs] at hp
    injection hp with hp
    rw [← hp]
    exact ⟨⟨rfl, rfl⟩, ha⟩

/-- A SHUTDOWN that was answered with success has shut the root down, and no tick thread runs. -/
theorem shutdown_done (o : Ops N) (b : Bool) (m : Mgr N) (now : N) (hw : Undisturbed m)
    (hor : m.orphans = false) (hst : m.state = .ticking ∨ m.thread.isAlive = false)
    (hs : (control o b .shutdown m).2.success = true)
    (ht : (control o b .shutdown m).1.tree = .root now) :
    Resting (control o b .shutdown m).1 now ∧ (control o b .shutdown m).1.state = .editable ∧
    ∃ t, now = (o.run .shutdown t).node ∧ (o.run .shutdown t).res.isOk = true := by
  have e : control o b .shutdown m = stopCmd o true (renew m) := by
    unfold control
    rw [if_neg (by
      rintro ⟨h1, h2⟩
      rcases hst with h | h
      · rw [h] at h1; cases h1
      · rw [h] at h2; cases h2)]
    unfold dispatch
    rw [if_neg (fun h => h.2 rfl)]
  have hn : (renew m).state = .ticking ∨ (renew m).thread.isAlive = false := by
    unfold renew
    split
    · exact hst
    · exact Or.inr rfl
  have h0 := renew_same m
  rw [e] at hs ht ⊢
  unfold stopCmd at hs ht ⊢
  cases hp : stopPart o (renew m) with
  | mk m' r =>
    rw [hp] at hs ht
    cases r with
    | some r =>
      have := stopPart_some (o := o) (renew m) r (by rw [hp])
      simp only at hs
      rw [this] at hs
      cases hs
    | none =>
      simp only [if_true] at hs ht ⊢
      obtain ⟨h1, ha⟩ := part_done o _ _ hn hp
      have hsame := h0.trans h1
      unfold shutdownCmd at hs ht ⊢
      cases htr : m'.tree with
      | bad => rw [htr] at ht; simp only at ht; cases ht
      | empty => rw [htr] at ht; simp only at ht; cases ht
      | root t =>
        rw [htr] at hs ht
        simp only at hs ht ⊢
        cases hr : (o.run .shutdown t).res with
        | err => rw [hr] at hs; cases hs
        | ok a =>
          rw [hr] at ht
          simp only at ht ⊢
          have hnow : (o.run .shutdown t).node = now := by injection ht
          refine ⟨⟨ht, ha, hsame.2.trans hor, fun i => ?_, fun h => nomatch h⟩, by trivial, t, hnow.symm, by
            rw [hr]; rfl⟩
          show (m'.world i).raise = none ∧ (m'.world i).push = true
          rw [hsame.1]
          exact hw i

/-! ### C143 -/

/-- **C143, RESET and TICK_UNTIL_RESULT.** In any state of the tree manager and of the tree, with a tick thread
or without, let a request RESET be answered with success. Let the tree then have the duration `T` and the
result `s`, computed from its atoms, and let its ticks not fail. Then TICK_UNTIL_RESULT is answered with
success, and its thread ticks the root exactly `T + 1` times with the computed answers, unticks it and ends. -/
theorem c143_until (n : Nat) (b b' : Bool) (m : Mgr (Tree n)) (start : Tree n) (T : Nat) (s : BTState) :
    let reset := control (ops n) b .reset m
    Undisturbed m → m.orphans = false → reset.2.success = true → reset.1.tree = .root start →
    Lasts n start T s →
    (∀ out ∈ (runs (ops n) (List.replicate (T + 1) .tick) start).1, out.res.isOk = true) →
    let answer := control (ops n) b' .tickUntilResult reset.1
    answer.2.success = true ∧ Ended (ops n) [] T s start (join (ops n) (enough T) answer.1) := by
  intro reset hw hor hs ht hl hok answer
  obtain ⟨hrest, _, t, rfl, hr⟩ := reset_done (ops n) b m start hw hor hs ht
  have hst := reset_up n t hr
  have e : answer = tickMultipleCmd true (newThread reset.1) := control_until (ops n) b' _ _ hrest
  have hc := BT.Duration.c139_duration n t [] .reset (Or.inr rfl) T s hr hl hok
  rw [e]
  have h' := resting_new _ _ hrest
  obtain ⟨h1, h2⟩ := begin_head (ops n) (enough T - 1) true _ _ h' hst
  refine ⟨h1, ?_⟩
  have e2 : enough T - 1 + 1 = enough T := by unfold enough; omega
  rw [e2] at h2
  rw [h2]
  exact work_head (ops n) s (BT.Duration.lasts_fin n _ _ _ hl) 0 T _ _ rfl rfl h'.2.2.2.1 rfl rfl rfl hc

/-- **C143, RESET and TICK_PERIODICALLY.** The same with the durations and results of several rounds: the
thread ticks the root round after round with the computed answers and calls nothing else on it. -/
theorem c143_periodic (n : Nat) (b b' : Bool) (m : Mgr (Tree n)) (start : Tree n) (ps : List (Nat × BTState)) :
    let reset := control (ops n) b .reset m
    Undisturbed m → m.orphans = false → reset.2.success = true → reset.1.tree = .root start →
    Series n start ps →
    (∀ out ∈ (runs (ops n) (List.replicate (BT.Again.ticks ps) .tick) start).1, out.res.isOk = true) →
    let answer := control (ops n) b' .tickPeriodically reset.1
    let e := join (ops n) (steps (BT.Again.ticks ps)) answer.1
    answer.2.success = true ∧ e.thread = .alive .head ∧ e.state = .ticking ∧ e.calls = rounds ps ∧
    e.tree = .root (runs (ops n) (List.replicate (BT.Again.ticks ps) .tick) start).2 := by
  intro reset hw hor hs ht hl hok answer e
  obtain ⟨hrest, _, t, rfl, hr⟩ := reset_done (ops n) b m start hw hor hs ht
  have hst := reset_up n t hr
  have ea : answer = tickMultipleCmd false (newThread reset.1) := control_periodically (ops n) b' _ _ hrest
  have h' := resting_new _ _ hrest
  obtain ⟨h1, h2⟩ := begin_head (ops n) (3 * BT.Again.ticks ps) false _ _ h' hst
  obtain ⟨⟨g1, g2, _, g4, _, _⟩, gc⟩ := loop (ops n) (BT.Again.ticks ps) ((after (startThread false
      { newThread reset.1 with state := .ticking, once := false, untilResult := false })
      ((newThread reset.1).clock + 1) ((ops n).run .reset t).node []).goto .head) _
    ⟨rfl, rfl, h'.2.2.2.1, rfl, rfl, rfl⟩ hok
  have ee : e = join (ops n) (3 * BT.Again.ticks ps + 1) (tickMultipleCmd false (newThread reset.1)).1 := by
    show join (ops n) (steps (BT.Again.ticks ps)) answer.1 = _
    rw [ea]
    rfl
  rw [ee, h2, ea]
  exact ⟨h1, g1, g4, gc.trans (answers_rounds n t ps hr hl hok), g2⟩

/-- **C143, RESET and TICK_ONCE.** The same for ticks by hand: every request is answered with success, ticks
the root exactly once and calls nothing else on it, and the answers are the computed ones. -/
theorem c143_by_hand (n : Nat) (b b' : Bool) (m : Mgr (Tree n)) (start : Tree n) (ps : List (Nat × BTState)) :
    let reset := control (ops n) b .reset m
    Undisturbed m → m.orphans = false → reset.2.success = true → reset.1.tree = .root start →
    Series n start ps →
    (∀ out ∈ (runs (ops n) (List.replicate (BT.Again.ticks ps) .tick) start).1, out.res.isOk = true) →
    (onces (ops n) b' (BT.Again.ticks ps) reset.1).1 = (rounds ps).map fun c => (true, [c]) := by
  intro reset hw hor hs ht hl hok
  obtain ⟨hrest, _, t, rfl, hr⟩ := reset_done (ops n) b m start hw hor hs ht
  exact c142_by_hand n t [] .reset (Or.inr rfl) b' reset.1 ps hrest hr hl hok

/-- **C143, after a STOP.** Let the tree be ticking, at whatever place, and let STOP be answered with success.
Then no tick thread runs, and RESET is answered with success exactly if the reset of the root succeeds; it
resets the root once. -/
theorem c143_stop (n : Nat) (b b' : Bool) (m : Mgr (Tree n)) (t : Tree n) :
    let stop := control (ops n) b .stop m
    m.state = .ticking → stop.2.success = true → stop.1.tree = .root t →
    let reset := control (ops n) b' .reset stop.1
    stop.1.thread.isAlive = false ∧ stop.1.state = .idle ∧
    reset.2.success = ((ops n).run .reset t).res.isOk ∧
    reset.1.tree = .root ((ops n).run .reset t).node := by
  intro stop hst hs ht reset
  have hd := (stop_done (ops n) b m hst hs).2
  refine ⟨hd.1, hd.2, ?_⟩
  have hr : reset = resetCmd (ops n) (newThread stop.1) := by
    show control (ops n) b' .reset stop.1 = _
    unfold control renew
    rw [hd.1, if_neg (by simp), if_neg (by decide)]
    unfold dispatch
    rw [if_neg (by
      rintro ⟨h, _⟩
      have : stop.1.state = .error := h
      rw [hd.2] at this
      cases this)]
  rw [hr]
  have hn : (newThread stop.1).tree = .root t := ht
  unfold resetCmd
  rw [if_neg (by rintro ⟨⟩), hn]
  simp only
  cases ((ops n).run .reset t).res <;> exact ⟨rfl, rfl⟩

/-- **C143, SHUTDOWN.** Let the tree be ticking, at whatever place, or let no tick thread be running, and let
SHUTDOWN be answered with success. Let the next setup succeed, and let the tree then have the duration `T` and
the result `s`. Then TICK_UNTIL_RESULT sets the tree up once, ticks the root exactly `T + 1` times with the
computed answers, unticks it and ends. -/
theorem c143_shutdown (n : Nat) (b b' : Bool) (m : Mgr (Tree n)) (now : Tree n) (T : Nat) (s : BTState) :
    let down := control (ops n) b .shutdown m
    let start := (ops n).run .setup now
    Undisturbed m → m.orphans = false → m.state = .ticking ∨ m.thread.isAlive = false →
    down.2.success = true → down.1.tree = .root now →
    start.res.isOk = true → Lasts n start.node T s →
    (∀ out ∈ (runs (ops n) (List.replicate (T + 1) .tick) start.node).1, out.res.isOk = true) →
    let answer := control (ops n) b' .tickUntilResult down.1
    answer.2.success = true ∧
    Ended (ops n) [(.setup, some start.res)] T s start.node (join (ops n) (enough T) answer.1) := by
  intro down start hw hor hst hs ht hset hl hok answer
  obtain ⟨hrest, _, x, hx, hr⟩ := shutdown_done (ops n) b m now hw hor hst hs ht
  have hdown : (ops n).state now = .uninitialized ∨ (ops n).state now = .shutdown := by
    cases ha : ((ops n).run .shutdown x).res with
    | err => rw [ha] at hr; cases hr
    | ok a =>
      have hsound := ops_sound n .shutdown x a ha
      rw [hx, hsound.1]
      have := hsound.2
      revert this
      cases a <;> decide
  exact c142_until n now [] b' down.1 T s hrest hdown hset hl hok

/-- **C143, STOP and go on.** Let the tree be ticking, at whatever place, and let STOP be answered with
success. If there is no MemoryFallback above its atoms, no RESET is needed for a fresh start: with the duration
`T` and the result `s` that are computed for the stopped tree, TICK_UNTIL_RESULT ticks the root exactly `T + 1`
times with the computed answers, unticks it and ends. -/
theorem c143_again (n : Nat) (b b' : Bool) (m : Mgr (Tree n)) (start : Tree n) (T : Nat) (s : BTState) :
    let stop := control (ops n) b .stop m
    Undisturbed m → m.orphans = false → m.state = .ticking → stop.2.success = true →
    stop.1.tree = .root start → Takes.Steady n start → Lasts n start T s →
    (∀ out ∈ (runs (ops n) (List.replicate (T + 1) .tick) start).1, out.res.isOk = true) →
    let answer := control (ops n) b' .tickUntilResult stop.1
    answer.2.success = true ∧ Ended (ops n) [] T s start (join (ops n) (enough T) answer.1) := by
  intro stop hw hor hst hs ht hsteady hl hok answer
  obtain ⟨hrest, x, rfl, hr⟩ := stop_unticked (ops n) b m start hw hor hst hs ht
  cases ha : ((ops n).run .untick x).res with
  | err => rw [ha] at hr; cases hr
  | ok a =>
    have hup : ¬ ((ops n).state ((ops n).run .untick x).node = .uninitialized ∨
        (ops n).state ((ops n).run .untick x).node = .shutdown) := by
      have hsound := ops_sound n .untick x a ha
      rw [hsound.1]
      have := hsound.2
      revert this
      cases a <;> decide
    have hc := takes_runs (ops n) s T _ (lasts_takes n _ T s (begin_untick n x a hsteady ha) hl) hok
    have e : answer = tickMultipleCmd true (newThread stop.1) := control_until (ops n) b' _ _ hrest
    rw [e]
    have h' := resting_new _ _ hrest
    obtain ⟨h1, h2⟩ := begin_head (ops n) (enough T - 1) true _ _ h' hup
    refine ⟨h1, ?_⟩
    have e2 : enough T - 1 + 1 = enough T := by unfold enough; omega
    rw [e2] at h2
    rw [h2]
    exact work_head (ops n) s (BT.Duration.lasts_fin n _ _ _ hl) 0 T _ _ rfl rfl h'.2.2.2.1 rfl rfl rfl hc

/-! ### Example -/

/-- A MemorySequence of two leaves that are stopped in the middle of a round, and are then reset. -/
def sampleTree : Tree 2 := BT.mk 1 1 .memSequence
  [BT.mkLeaf 0 2 [.ok .idle, .ok .succeeded, .ok .idle, .ok .idle, .ok .running, .ok .succeeded, .ok .idle],
   BT.mkLeaf 0 3 [.ok .idle, .ok .running, .ok .idle, .ok .idle, .ok .succeeded, .ok .idle]]

/-- TICK_PERIODICALLY has ticked it once. -/
def sampleBusy : Mgr (Tree 2) := join (ops 2) (steps 1) (tickMultipleCmd false { tree := .root sampleTree }).1

/-- It has been stopped. -/
def sampleStopped : Mgr (Tree 2) := (control (ops 2) true .stop sampleBusy).1

example : sampleBusy.state = .ticking ∧ sampleBusy.thread = .alive .head ∧
    (control (ops 2) true .stop sampleBusy).2.success = true ∧
    (control (ops 2) true .reset sampleStopped).2.success = true := by
  decide +kernel

/-- The tree after these requests. -/
def sampleReset : Tree 2 := (runs (ops 2) [.setup, .tick, .untick, .reset] sampleTree).2

example : Undisturbed sampleStopped ∧ sampleStopped.orphans = false ∧
    (control (ops 2) true .reset sampleStopped).1.tree = .root sampleReset :=
  ⟨fun _ => ⟨rfl, rfl⟩, rfl, rfl⟩

/-- Both of its leaves are worked through again. -/
theorem sample_lasts : Lasts 2 sampleReset 1 .succeeded := by
  refine ⟨[(1, .succeeded), (0, .succeeded)], ⟨by decide +kernel, ?_⟩, by decide⟩
  intro j c p hc hp
  match j with
  | 0 =>
    cases hc
    cases hp
    exact ⟨BT.Duration.takes_of_runs (ops 1) _ 1 _ (by decide +kernel), Or.inl rfl⟩
  | 1 =>
    cases hc
    cases hp
    exact ⟨BT.Duration.takes_of_runs (ops 1) _ 0 _ (by decide +kernel), Or.inl rfl⟩
  | j + 2 => cases hp

example : (join (ops 2) (enough 1)
    (control (ops 2) true .tickUntilResult (control (ops 2) true .reset sampleStopped).1).1).calls =
      work 1 .succeeded (.ok .idle) := by
  decide +kernel

example : (onces (ops 2) true 2 (control (ops 2) true .reset sampleStopped).1).1 =
    (rounds [(1, .succeeded)]).map fun c => (true, [c]) := by
  decide +kernel

/-- The tree after TICK_PERIODICALLY and STOP, without a RESET. -/
def sampleUnticked : Tree 2 := (runs (ops 2) [.setup, .tick, .untick]
  (BT.mk 1 1 .memSequence
    [BT.mkLeaf 0 2 [.ok .idle, .ok .succeeded, .ok .idle, .ok .running, .ok .failed, .ok .idle],
     BT.mkLeaf 0 3 [.ok .idle, .ok .running, .ok .idle, .ok .succeeded]])).2

/-- It begins with its first child, which fails in the second tick. -/
theorem sample_unticked : Takes.Steady 2 sampleUnticked ∧ Lasts 2 sampleUnticked 1 .failed := by
  have key : ∀ (j : Nat) (c : Tree 1), (BT.Node.children (N := Tree 1) sampleUnticked)[j]? = some c →
      Takes.Steady 1 c := by
    intro j c hc
    match j with
    | 0 => cases hc; exact ⟨by decide, fun h => absurd rfl h⟩
    | 1 => cases hc; exact ⟨by decide, fun h => absurd rfl h⟩
    | j + 2 => cases hc
  refine ⟨⟨by decide, fun _ c hc => ?_⟩, [(1, .failed), (0, .succeeded)], ⟨by decide +kernel, ?_⟩, by decide⟩
  · obtain ⟨j, hj⟩ := List.mem_iff_getElem?.1 hc
    exact key j c hj
  · intro j c p hc hp
    match j with
    | 0 =>
      cases hc
      cases hp
      exact ⟨BT.Duration.takes_of_runs (ops 1) _ 1 _ (by decide +kernel), Or.inr rfl⟩
    | 1 =>
      cases hc
      cases hp
      exact ⟨BT.Duration.takes_of_runs (ops 1) _ 0 _ (by decide +kernel), Or.inl rfl⟩
    | j + 2 => cases hp

/-- A tree that is shut down while it is ticking, and is then used again. -/
def sampleDown : Mgr (Tree 2) := join (ops 2) (steps 1)
  (tickMultipleCmd false { tree := .root (BT.mk 1 1 .memSequence
  [BT.mkLeaf 0 2 [.ok .idle, .ok .succeeded, .ok .idle, .ok .shutdown, .ok .idle, .ok .failed, .ok .idle, .ok .idle],
   BT.mkLeaf 0 3 [.ok .idle, .ok .running, .ok .idle, .ok .shutdown, .ok .idle, .ok .idle, .ok .idle, .ok .idle]]) }).1

example : sampleDown.state = .ticking ∧ (control (ops 2) true .shutdown sampleDown).2.success = true ∧
    (join (ops 2) (enough 0) (control (ops 2) true .tickUntilResult
      (control (ops 2) true .shutdown sampleDown).1).1).calls =
        (.setup, some (.ok .idle)) :: work 0 .failed (.ok .idle) := by
  decide +kernel

end Verif.Exec.Restart
