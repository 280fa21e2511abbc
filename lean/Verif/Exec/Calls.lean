import Verif.Exec.Down

/-! What the tick commands do to the root (C45). -/

set_option autoImplicit false

namespace Verif.Exec

open Verif.BT (Op Res BTState Ops)

variable {N : Type} {o : Ops N}

theorem ticks_append (a b : List BTState) : ticks (a ++ b) = ticks a ++ ticks b := by simp [ticks]

/-- Why a thread unticks the root. -/
def Reason (m : Mgr N) (ss : List BTState) : Prop :=
  m.asked = true ∨ m.untilResult = true ∧ ∃ s, ss.getLast? = some s ∧ Final s

/-- The calls of the thread tell a story. -/
def Told (m : Mgr N) : Prop := ∃ l ss e, Story m.untilResult m.asked l ss e ∧ m.calls = l ++ ticks ss ++ e

/-- What the tick thread has done so far, by its position. -/
def Reached (m : Mgr N) : Pc → Prop
  | .start => m.calls = []
  | .head | .tick => ∃ l ss, Opening l ∧ m.calls = l ++ ticks ss ∧ (m.untilResult = true → ∀ s ∈ ss, ¬ Final s)
  | .result s => ∃ l ss, Opening l ∧ m.calls = l ++ ticks (ss ++ [s]) ∧ (m.untilResult = true → ∀ s ∈ ss, ¬ Final s)
  | .leave | .untick => ∃ l ss, Opening l ∧ m.calls = l ++ ticks ss ∧ (m.untilResult = true → ∀ s ∈ ss.dropLast, ¬ Final s) ∧ Reason m ss
  | .failed => Told m
  | .ended => Told m ∧ (m.broke = true ∨ m.single = true)

/-- The thread is over, properly or not. -/
def Over (m : Mgr N) : Prop :=
  Told m ∧ (m.broke = true ∨ m.single = true ∨ Raised m.calls ∨ ∃ l ss s, Opening l ∧ m.calls = l ++ ticks ss ++ [(Op.untick, some (.ok s))] ∧
    (m.untilResult = true → ∀ s ∈ ss.dropLast, ¬ Final s) ∧ Reason m ss)

/-- The invariant. -/
def Track (m : Mgr N) : Prop :=
  (∀ pc, m.thread = .alive pc → (m.state = .stopRequested → m.asked = true) ∧ (m.single = false → m.once = false) ∧ Reached m pc) ∧
  (m.thread.isAlive = false → Over m ∨ m.calls = [] ∧ m.thread ≠ .dead)

theorem told_simple {m : Mgr N} {l : List (Op × Option Res)} {ss : List BTState} (hl : Opening l) (hc : m.calls = l ++ ticks ss)
    (he : m.untilResult = true → ∀ s ∈ ss.dropLast, ¬ Final s) : Told m :=
  ⟨l, ss, [], ⟨.inl hl, he, .inl rfl⟩, by simp [hc]⟩

theorem nonfinal_dropLast {u : Bool} {ss : List BTState} (h : u = true → ∀ s ∈ ss, ¬ Final s) : u = true → ∀ s ∈ ss.dropLast, ¬ Final s :=
  fun hu s hs => h hu s (List.dropLast_subset ss hs)

theorem track_thread {m : Mgr N} (h : Track m) : Track (threadStep o m) := by
  cases ht : m.thread with
  | absent | fresh | dead => rw [threadStep_still _ (by rw [ht]; rfl)]; exact h
  | alive pc =>
    have mv := moves (o := o) m ht
    obtain ⟨hask, hone, hr⟩ := h.1 pc ht
    generalize threadStep o m = m' at mv
    cases mv with
    | startFail =>
      refine ⟨fun pc' e => ?_, fun e => by cases e⟩
      cases e
      exact ⟨hask, hone, told_simple (l := []) (ss := []) (.inl rfl) hr (by simp)⟩
    | startRaise t f =>
      refine ⟨(fun pc' e => by cases e), fun _ => .inl ?_⟩
      have : m.calls ++ [(Op.setup, none)] = [(Op.setup, none)] := by rw [show m.calls = [] from hr]; rfl
      exact ⟨⟨[(Op.setup, none)], [], [], ⟨.inr ⟨rfl, rfl, rfl⟩, by simp, .inl rfl⟩, this⟩, .inr (.inr (.inl ⟨.setup, by simp⟩))⟩
    | startSetup t =>
      refine ⟨fun pc' e => ?_, fun e => by cases e⟩
      cases e
      exact ⟨hask, hone, [(Op.setup, some (o.run .setup t).res)], [], .inr ⟨_, rfl⟩, by rw [show m.calls = [] from hr]; rfl, by simp⟩
    | startBad t =>
      refine ⟨fun pc' e => ?_, fun e => by cases e⟩
      cases e
      exact ⟨by simp, hone, told_simple (l := [(Op.setup, some (o.run .setup t).res)]) (ss := []) (.inr ⟨_, rfl⟩) (by rw [show m.calls = [] from hr]; rfl) (by simp)⟩
    | startGo =>
      refine ⟨fun pc' e => ?_, fun e => by cases e⟩
      cases e
      exact ⟨hask, hone, [], [], .inl rfl, hr, by simp⟩
    | headStop hs =>
      refine ⟨fun pc' e => ?_, fun e => by cases e⟩
      cases e
      obtain ⟨l, ss, h1, h2, h3⟩ := hr
      exact ⟨hask, hone, l, ss, h1, h2, nonfinal_dropLast h3, .inl (hask hs)⟩
    | headGo =>
      refine ⟨fun pc' e => ?_, fun e => by cases e⟩
      cases e
      exact ⟨hask, hone, hr⟩
    | tickFail =>
      refine ⟨fun pc' e => ?_, fun e => by cases e⟩
      cases e
      obtain ⟨l, ss, h1, h2, h3⟩ := hr
      exact ⟨hask, hone, told_simple h1 h2 (nonfinal_dropLast h3)⟩
    | tickRaise t f =>
      refine ⟨(fun pc' e => by cases e), fun _ => .inl ?_⟩
      obtain ⟨l, ss, h1, h2, h3⟩ := hr
      exact ⟨⟨l, ss, [(Op.tick, none)], ⟨.inl h1, nonfinal_dropLast h3, .inr (.inl ⟨.inl rfl, h3⟩)⟩, by rw [← h2]⟩,
        .inr (.inr (.inl ⟨.tick, by simp⟩))⟩
    | tickErr t =>
      refine ⟨fun pc' e => ?_, fun e => by cases e⟩
      cases e
      obtain ⟨l, ss, h1, h2, h3⟩ := hr
      exact ⟨hask, hone, l, ss, [(Op.tick, some .err)], ⟨.inl h1, nonfinal_dropLast h3, .inr (.inl ⟨.inr rfl, h3⟩)⟩, by rw [← h2]⟩
    | tickOk t s =>
      refine ⟨fun pc' e => ?_, fun e => by cases e⟩
      cases e
      obtain ⟨l, ss, h1, h2, h3⟩ := hr
      exact ⟨hask, hone, l, ss, h1, by rw [ticks_append, ← List.append_assoc, ← h2]; rfl, h3⟩
    | resLeave s hu hf =>
      refine ⟨fun pc' e => ?_, fun e => by cases e⟩
      cases e
      obtain ⟨l, ss, h1, h2, h3⟩ := hr
      exact ⟨hask, hone, l, ss ++ [s], h1, h2, by simpa using h3, .inr ⟨hu, s, by simp, hf⟩⟩
    | resOnce s hf ho =>
      refine ⟨fun pc' e => ?_, fun e => by cases e⟩
      cases e
      obtain ⟨l, ss, h1, h2, h3⟩ := hr
      refine ⟨by simp, fun _ => rfl, told_simple h1 h2 (by simpa using h3), .inr ?_⟩
      cases hsg : m.single with
      | true => rfl
      | false => rw [hone hsg] at ho; cases ho
    | resGo s hf =>
      refine ⟨fun pc' e => ?_, fun e => by cases e⟩
      cases e
      obtain ⟨l, ss, h1, h2, h3⟩ := hr
      refine ⟨hask, hone, l, ss ++ [s], h1, h2, fun hu x hx => ?_⟩
      rcases List.mem_append.1 hx with hx | hx
      · exact h3 hu x hx
      · rw [List.mem_singleton.1 hx]; exact hf hu
    | leave =>
      refine ⟨fun pc' e => ?_, fun e => by cases e⟩
      cases e
      exact ⟨by simp, hone, hr⟩
    | untickNone =>
      refine ⟨fun pc' e => ?_, fun e => by cases e⟩
      cases e
      obtain ⟨l, ss, h1, h2, h3, h4⟩ := hr
      exact ⟨hask, hone, told_simple h1 h2 h3⟩
    | untickRaise t f =>
      refine ⟨(fun pc' e => by cases e), fun _ => .inl ?_⟩
      obtain ⟨l, ss, h1, h2, h3, h4⟩ := hr
      exact ⟨⟨l, ss, [(Op.untick, none)], ⟨.inl h1, h3, .inr (.inr ⟨⟨_, rfl⟩, h4⟩)⟩, by rw [← h2]⟩, .inr (.inr (.inl ⟨.untick, by simp⟩))⟩
    | untickErr t =>
      refine ⟨fun pc' e => ?_, fun e => by cases e⟩
      cases e
      obtain ⟨l, ss, h1, h2, h3, h4⟩ := hr
      exact ⟨hask, hone, l, ss, [(Op.untick, some .err)], ⟨.inl h1, h3, .inr (.inr ⟨⟨_, rfl⟩, h4⟩)⟩, by rw [← h2]⟩
    | untickOk t s =>
      refine ⟨(fun pc' e => by cases e), fun _ => .inl ?_⟩
      obtain ⟨l, ss, h1, h2, h3, h4⟩ := hr
      exact ⟨⟨l, ss, [(Op.untick, some (.ok s))], ⟨.inl h1, h3, .inr (.inr ⟨⟨_, rfl⟩, h4⟩)⟩, by rw [← h2]⟩,
        .inr (.inr (.inr ⟨l, ss, s, h1, by rw [← h2], h3, h4⟩))⟩
    | failed =>
      refine ⟨fun pc' e => ?_, fun e => by cases e⟩
      cases e
      exact ⟨by simp, hone, hr, .inl rfl⟩
    | ended =>
      refine ⟨(fun pc' e => by cases e), fun _ => .inl ⟨hr.1, ?_⟩⟩
      rcases hr.2 with h | h
      · exact .inl h
      · exact .inr (.inl h)

theorem track_join {m : Mgr N} (n : Nat) (h : Track m) : Track (join o n m) := join_keeps Track (fun _ => track_thread) n m h

/-- Only the ghost variables, the thread and its options matter. -/
theorem track_same {m m' : Mgr N} (h : Track m) (e1 : m'.thread = m.thread) (e2 : m'.calls = m.calls) (e3 : m'.asked = m.asked)
    (e4 : m'.untilResult = m.untilResult) (e5 : m'.broke = m.broke) (e6 : m'.single = m.single) (e7 : m'.once = m.once)
    (e8 : m'.state = m.state ∨ m'.state ≠ .stopRequested) : Track m' := by
  obtain ⟨tree, orphans, state, thread, lost, once, untilResult, world, clock, calls, asked, broke, single⟩ := m
  obtain ⟨tree', orphans', state', thread', lost', once', untilResult', world', clock', calls', asked', broke', single'⟩ := m'
  dsimp only at e1 e2 e3 e4 e5 e6 e7 e8
  subst e1 e2 e3 e4 e5 e6 e7
  refine ⟨fun pc hp => ?_, h.2⟩
  have := h.1 pc hp
  refine ⟨?_, this.2.1, ?_⟩
  · intro hs
    rcases e8 with e | e
    · subst e; exact this.1 hs
    · exact absurd hs e
  · exact this.2.2

/-- Asking for a stop. -/
theorem track_ask {m : Mgr N} (h : Track m) : Track { m with state := .stopRequested, asked := true } := by
  have story : ∀ {u a : Bool} {l ss e}, Story u a l ss e → Story u true l ss e := by
    intro u a l ss e h
    refine ⟨h.first, h.early, ?_⟩
    rcases h.last with h | h | h
    · exact .inl h
    · exact .inr (.inl h)
    · exact .inr (.inr ⟨h.1, .inl rfl⟩)
  have told : Told m → Told { m with state := .stopRequested, asked := true } := fun ⟨l, ss, e, h1, h2⟩ => ⟨l, ss, e, story h1, h2⟩
  refine ⟨fun pc hp => ?_, fun hd => ?_⟩
  · have := h.1 pc hp
    refine ⟨fun _ => rfl, this.2.1, ?_⟩
    have hr := this.2.2
    cases pc with
    | leave => obtain ⟨l, ss, h1, h2, h3, _⟩ := hr; exact ⟨l, ss, h1, h2, h3, .inl rfl⟩
    | untick => obtain ⟨l, ss, h1, h2, h3, _⟩ := hr; exact ⟨l, ss, h1, h2, h3, .inl rfl⟩
    | failed => exact told hr
    | ended => exact ⟨told hr.1, hr.2⟩
    | _ => exact hr
  · rcases h.2 hd with h | h
    · refine .inl ⟨told h.1, ?_⟩
      rcases h.2 with h | h | h | ⟨l, ss, s, h1, h2, h3, h4⟩
      · exact .inl h
      · exact .inr (.inl h)
      · exact .inr (.inr (.inl h))
      · exact .inr (.inr (.inr ⟨l, ss, s, h1, h2, h3, .inl rfl⟩))
    · exact .inr h

theorem track_stopPart {m : Mgr N} (h : Track m) : Track (stopPart o m).1 := by
  unfold stopPart
  cases hs : m.state with
  | ticking =>
    dsimp only
    have := track_join (o := o) joinSteps (track_ask h)
    split
    · exact this
    · split <;> exact this
  | waiting =>
    dsimp only
    cases m.tree with
    | bad => exact h
    | empty => exact h
    | root t =>
      dsimp only
      split <;> exact track_same h rfl rfl rfl rfl rfl rfl rfl (.inl hs.symm)
  | _ => exact h

theorem track_shutdown {m : Mgr N} (h : Track m) : Track (shutdownCmd o m).1 := by
  unfold shutdownCmd
  cases m.tree with
  | bad => exact track_same h rfl rfl rfl rfl rfl rfl rfl (.inr (by simp))
  | empty => exact track_same h rfl rfl rfl rfl rfl rfl rfl (.inr (by simp))
  | root t =>
    dsimp only
    split
    · exact track_same h rfl rfl rfl rfl rfl rfl rfl (.inl rfl)
    · exact track_same h rfl rfl rfl rfl rfl rfl rfl (.inr (by simp))

theorem track_stopCmd {m : Mgr N} (down : Bool) (h : Track m) : Track (stopCmd o down m).1 := by
  have := track_stopPart (o := o) h
  unfold stopCmd
  cases hp : stopPart o m with
  | mk m' r =>
    rw [hp] at this
    cases r with
    | some r => exact this
    | none =>
      dsimp only
      split
      · exact track_shutdown this
      · exact this

theorem track_started (single : Bool) (m : Mgr N) (hs : m.state ≠ .stopRequested) (h : single = false → m.once = false) :
    Track (startThread single m) :=
  ⟨fun pc e => by cases e; exact ⟨fun e => absurd e hs, h, rfl⟩, fun e => by cases e⟩

theorem track_dispatch {m : Mgr N} (c : Cmd) (h : Track m) : Track (dispatch o c m).1 := by
  have hm : ∀ u, Track (tickMultipleCmd u m).1 := by
    intro u
    unfold tickMultipleCmd
    split
    · exact h
    · split
      · exact h
      · exact h
      · exact track_started false _ (by simp) (fun _ => rfl)
  unfold dispatch
  split
  · exact h
  · cases c with
    | setupAndShutdown =>
      dsimp only
      split
      · exact h
      · split
        · exact h
        · exact track_stopCmd true h
    | stop => exact track_stopCmd false h
    | shutdown => exact track_stopCmd true h
    | tickOnce =>
      dsimp only
      unfold tickOnceCmd
      split
      · exact h
      · have := track_join (o := o) joinSteps
          (track_started true { m with once := true, untilResult := false, state := .ticking } (by simp) (by simp))
        cases ht : m.tree with
        | bad => exact h
        | empty => exact h
        | root t =>
          dsimp only
          rw [← ht]
          split
          · exact this
          · split <;> exact this
    | tickPeriodically => exact hm false
    | tickUntilResult => exact hm true
    | reset =>
      dsimp only
      unfold resetCmd
      split
      · exact h
      · cases m.tree with
        | bad => exact h
        | empty => exact track_same h rfl rfl rfl rfl rfl rfl rfl (.inr (by simp))
        | root t =>
          dsimp only
          split
          · exact track_same h rfl rfl rfl rfl rfl rfl rfl (.inl rfl)
          · exact track_same h rfl rfl rfl rfl rfl rfl rfl (.inr (by simp))
    | doNothing => exact h
    | unknown => exact h

theorem track_renew {m : Mgr N} (h : Track m) : Track (renew m) := by
  unfold renew
  split
  · exact h
  · rename_i hd
    have hd : m.thread.isAlive = false := by simpa using hd
    refine ⟨(fun pc e => by cases e), fun _ => ?_⟩
    rcases h.2 hd with h | h
    · exact .inl h
    · exact .inr ⟨h.1, by simp [newThread]⟩

theorem track_ready {m : Mgr N} (h : Track m) : Track (ready o m) := by
  unfold ready
  split
  · exact track_renew (track_join joinSteps h)
  · exact track_renew h

theorem track_step {m : Mgr N} (a : Action N) (h : Track m) : Track (step o a m) := by
  cases a with
  | command c b =>
    show Track (control o b c m).1
    rcases control_eq (o := o) m b c with e | ⟨e, _⟩
    · rw [e]; exact track_dispatch c (track_ready h)
    · rw [e]; exact h
  | edit f =>
    show Track (edit f m).1
    unfold edit
    split
    · exact h
    · exact track_same h rfl rfl rfl rfl rfl rfl rfl (.inl rfl)
  | think => exact track_thread h

theorem track_run (as : List (Action N)) : ∀ {m : Mgr N}, Track m → Track (run o as m) := by
  induction as with
  | nil => intro m h; exact h
  | cons a as ih => intro m h; exact ih (track_step a h)

theorem track_start {m : Mgr N} (h : Start m) (hc : m.calls = []) : Track m :=
  ⟨(fun pc e => by rw [h.2.1] at e; cases e), fun _ => .inr ⟨hc, by rw [h.2.1]; simp⟩⟩

/-- C45: whatever the tick thread is told and whatever it meets, the operations it calls on the root are: perhaps a setup, then ticks, then
at most one untick. With TICK_UNTIL_RESULT the ticks end with the first result SUCCEEDED or FAILED. The untick comes only after such a
result or after a stop request. -/
theorem c45_story (m : Mgr N) (h : Start m) (hc : m.calls = []) (as : List (Action N)) :
    ∃ l ss e, Story (run o as m).untilResult (run o as m).asked l ss e ∧ (run o as m).calls = l ++ ticks ss ++ e := by
  have ht := track_run (o := o) as (track_start h hc)
  generalize run o as m = m' at ht
  have hs : ∀ {l ss}, Opening l → m'.calls = l ++ ticks ss → (m'.untilResult = true → ∀ s ∈ ss.dropLast, ¬ Final s) → Told m' :=
    fun h1 h2 h3 => told_simple h1 h2 h3
  cases hth : m'.thread with
  | alive pc =>
    have := (ht.1 pc hth).2.2
    cases pc with
    | start => exact hs (l := []) (ss := []) (.inl rfl) this (by simp)
    | head => obtain ⟨l, ss, h1, h2, h3⟩ := this; exact hs h1 h2 (nonfinal_dropLast h3)
    | tick => obtain ⟨l, ss, h1, h2, h3⟩ := this; exact hs h1 h2 (nonfinal_dropLast h3)
    | result s => obtain ⟨l, ss, h1, h2, h3⟩ := this; exact hs h1 h2 (by simpa using h3)
    | leave => obtain ⟨l, ss, h1, h2, h3, _⟩ := this; exact hs h1 h2 h3
    | untick => obtain ⟨l, ss, h1, h2, h3, _⟩ := this; exact hs h1 h2 h3
    | failed => exact this
    | ended => exact this.1
  | _ =>
    rcases ht.2 (by rw [hth]; rfl) with h | h
    · exact h.1
    · exact hs (l := []) (ss := []) (.inl rfl) h.1 (by simp)

/-- C45: a tick thread of TICK_PERIODICALLY or TICK_UNTIL_RESULT that has ended without an error and without an exception has unticked the root
exactly once, as the last thing, after a stop request or (TICK_UNTIL_RESULT) after the first SUCCEEDED or FAILED. -/
theorem c45_ends (m : Mgr N) (h : Start m) (hc : m.calls = []) (as : List (Action N)) (hd : (run o as m).thread = .dead)
    (hb : (run o as m).broke = false) (hr : ¬ Raised (run o as m).calls) (hs : (run o as m).single = false) :
    ∃ l ss s, Opening l ∧ (run o as m).calls = l ++ ticks ss ++ [(Op.untick, some (.ok s))] ∧
      ((run o as m).untilResult = true → ∀ s ∈ ss.dropLast, ¬ Final s) ∧
      ((run o as m).asked = true ∨ (run o as m).untilResult = true ∧ ∃ s, ss.getLast? = some s ∧ Final s) := by
  have ht := track_run (o := o) as (track_start h hc)
  generalize run o as m = m' at ht hd hb hr hs
  rcases ht.2 (by rw [hd]; rfl) with h | h
  · rcases h.2 with h | h | h | h
    · rw [hb] at h; cases h
    · rw [hs] at h; cases h
    · exact absurd h hr
    · exact h
  · exact absurd hd h.2

/-- C45: TICK_PERIODICALLY goes on until a stop is requested, an error is reported or an exception is raised. -/
theorem c45_periodic (m : Mgr N) (h : Start m) (hc : m.calls = []) (as : List (Action N)) (hd : (run o as m).thread = .dead)
    (hu : (run o as m).untilResult = false) (hs : (run o as m).single = false) :
    (run o as m).broke = true ∨ Raised (run o as m).calls ∨ (run o as m).asked = true := by
  cases hb : (run o as m).broke with
  | true => exact .inl rfl
  | false =>
    by_cases hr : Raised (run o as m).calls
    · exact .inr (.inl hr)
    · obtain ⟨_, _, _, _, _, _, h4⟩ := c45_ends m h hc as hd hb hr hs
      rcases h4 with h4 | h4
      · exact .inr (.inr h4)
      · rw [hu] at h4; cases h4.1

/-! ### TICK_ONCE -/

/-- What a single tick has done so far. -/
def OnceAt (m : Mgr N) : Pc → Prop
  | .start => m.calls = []
  | .head | .tick => Opening m.calls
  | .result s => ∃ l, Opening l ∧ m.calls = l ++ ticks [s]
  | .ended => m.state = .waiting → ∃ l s, Opening l ∧ m.calls = l ++ ticks [s]
  | .failed => True
  | _ => False

/-- The invariant of a single tick. -/
def Once (m : Mgr N) : Prop :=
  (∀ pc, m.thread = .alive pc → (pc = .ended ∨ pc = .failed ∨ m.state = .ticking) ∧ m.untilResult = false ∧
    (pc = .ended ∨ pc = .failed ∨ m.once = true) ∧ OnceAt m pc) ∧
  (m.thread.isAlive = false → m.state = .waiting → ∃ l s, Opening l ∧ m.calls = l ++ ticks [s])

theorem once_thread {m : Mgr N} (h : Once m) : Once (threadStep o m) := by
  cases ht : m.thread with
  | absent | fresh | dead => rw [threadStep_still _ (by rw [ht]; rfl)]; exact h
  | alive pc =>
    have mv := moves (o := o) m ht
    obtain ⟨h1, h2, h3, hr⟩ := h.1 pc ht
    generalize threadStep o m = m' at mv
    cases mv with
    | startFail => exact ⟨fun pc' e => (by cases e; exact ⟨.inr (.inl rfl), h2, .inr (.inl rfl), trivial⟩), fun e => by cases e⟩
    | startRaise t f =>
      exact ⟨(fun pc' e => by cases e), fun _ hs => (by simp at h1 hs; rw [h1] at hs; cases hs)⟩
    | startSetup t =>
      refine ⟨fun pc' e => ?_, fun e => by cases e⟩
      cases e
      exact ⟨by simpa using h1, h2, by simpa using h3, .inr ⟨_, by rw [show m.calls = [] from hr]; rfl⟩⟩
    | startBad t => exact ⟨fun pc' e => (by cases e; exact ⟨.inr (.inl rfl), h2, .inr (.inl rfl), trivial⟩), fun e => by cases e⟩
    | startGo =>
      refine ⟨fun pc' e => ?_, fun e => by cases e⟩
      cases e
      exact ⟨by simpa using h1, h2, by simpa using h3, .inl hr⟩
    | headStop hs => simp [hs] at h1
    | headGo =>
      refine ⟨fun pc' e => ?_, fun e => by cases e⟩
      cases e
      exact ⟨by simpa using h1, h2, by simpa using h3, hr⟩
    | tickFail => exact ⟨fun pc' e => (by cases e; exact ⟨.inr (.inl rfl), h2, .inr (.inl rfl), trivial⟩), fun e => by cases e⟩
    | tickRaise t f =>
      exact ⟨(fun pc' e => by cases e), fun _ hs => (by simp at h1 hs; rw [h1] at hs; cases hs)⟩
    | tickErr t => exact ⟨fun pc' e => (by cases e; exact ⟨.inr (.inl rfl), h2, .inr (.inl rfl), trivial⟩), fun e => by cases e⟩
    | tickOk t s =>
      refine ⟨fun pc' e => ?_, fun e => by cases e⟩
      cases e
      exact ⟨by simpa using h1, h2, by simpa using h3, m.calls, hr, rfl⟩
    | resLeave s hu => rw [h2] at hu; cases hu
    | resOnce s =>
      refine ⟨fun pc' e => ?_, fun e => by cases e⟩
      cases e
      obtain ⟨l, h4, h5⟩ := hr
      exact ⟨.inl rfl, h2, .inl rfl, fun _ => ⟨l, s, h4, h5⟩⟩
    | resGo s _ ho => simp [ho] at h3
    | failed =>
      refine ⟨fun pc' e => ?_, fun e => by cases e⟩
      cases e
      exact ⟨.inl rfl, h2, .inl rfl, fun hs => by cases hs⟩
    | ended => exact ⟨(fun pc' e => by cases e), fun _ => hr⟩
    | _ => exact hr.elim

/-- C45: a successful TICK_ONCE on a tree with a root has ticked the root exactly once (and has perhaps set it up before); the tick thread
has ended and the tree state is WAITING_FOR_TICK. -/
theorem c45_once (m : Mgr N) (b : Bool) (hr : (control o b .tickOnce m).1.tree ≠ .empty)
    (hs : (control o b .tickOnce m).2.success = true) :
    (control o b .tickOnce m).1.state = .waiting ∧ (control o b .tickOnce m).1.thread.isAlive = false ∧
    ∃ l s, Opening l ∧ (control o b .tickOnce m).1.calls = l ++ ticks [s] := by
  rcases control_eq (o := o) m b .tickOnce with e | ⟨e, _⟩
  · rw [e] at hs hr ⊢
    generalize ready o m = m at hs hr
    unfold dispatch at hs hr ⊢
    by_cases hc : m.state = .error ∧ Cmd.tickOnce ≠ .shutdown
    · rw [if_pos hc] at hs; cases hs
    · rw [if_neg hc] at hs hr ⊢
      dsimp only at hs hr ⊢
      unfold tickOnceCmd at hs hr ⊢
      by_cases ha : m.thread.isAlive = true
      · rw [if_pos ha] at hs; cases hs
      · rw [if_neg ha] at hs hr ⊢
        cases ht : m.tree with
        | bad => rw [ht] at hs; cases hs
        | empty => rw [ht] at hr; exact absurd ht hr
        | root t =>
          rw [ht] at hs
          dsimp only at hs ⊢
          rw [← ht] at hs ⊢
          have ho : Once (startThread true { m with once := true, untilResult := false, state := .ticking }) :=
            ⟨fun pc e => (by cases e; exact ⟨.inr (.inr rfl), rfl, .inr (.inr rfl), rfl⟩), fun e => by cases e⟩
          have hj := join_keeps (o := o) Once (fun _ => once_thread) joinSteps _ ho
          generalize join o joinSteps (startThread true { m with once := true, untilResult := false, state := .ticking }) = j at hs hj
          by_cases h1 : j.thread.isAlive = true
          · rw [if_pos h1] at hs; cases hs
          · rw [if_neg h1] at hs ⊢
            by_cases h2 : j.state = .waiting
            · rw [if_pos h2]
              exact ⟨h2, by simpa using h1, hj.2 (by simpa using h1) h2⟩
            · rw [if_neg h2] at hs; cases hs
  · rw [e] at hs; cases hs

/-- C45: TICK_ONCE succeeds if nothing goes wrong: no tick thread is running, the tree has a root that is set up or can be set up,
its inputs can be pushed and its tick is answered. -/
theorem c45_once_works (m : Mgr N) (b : Bool) (t : N) (hs : m.state ≠ .error) (ha : m.thread.isAlive = false) (ho : m.orphans = false)
    (ht : m.tree = .root t) (hw : ∀ i, (m.world i).push = true ∧ (m.world i).raise = none)
    (t1 : N) (h1 : if o.state t = .uninitialized ∨ o.state t = .shutdown then t1 = (o.run .setup t).node ∧ o.state t1 = .idle else t1 = t)
    (s : BTState) (h2 : (o.run .tick t1).res = .ok s) :
    (control o b .tickOnce m).2 = ⟨true, some .waiting⟩ ∧ (control o b .tickOnce m).1.state = .waiting ∧
    (control o b .tickOnce m).1.tree = .root (o.run .tick t1).node := by
  obtain ⟨tree, orphans, state, thread, lost, once, untilResult, world, clock, calls, asked, broke, single⟩ := m
  dsimp only at hs ha ho ht hw
  subst ho ht
  unfold control
  dsimp only
  rw [if_neg (by simp [ha])]
  unfold renew
  dsimp only
  rw [if_neg (by simp [ha])]
  unfold dispatch
  rw [if_neg (by simp [newThread, hs])]
  dsimp only [newThread, tickOnceCmd, Thread.isAlive]
  split at h1
  · rename_i hst
    obtain ⟨e1, e2⟩ := h1
    subst e1
    simp [joinSteps, join, startThread, threadStep, startStep, tickStep, resultStep, Mgr.call, Mgr.goto, Mgr.die, Thread.isAlive, hst, hw, e2, h2]
  · rename_i hst
    subst h1
    simp [joinSteps, join, startThread, threadStep, startStep, tickStep, resultStep, Mgr.call, Mgr.goto, Mgr.die, Thread.isAlive, hst, hw, h2]

/-! ### TICK_PERIODICALLY and TICK_UNTIL_RESULT -/

theorem threadStep_flags (m : Mgr N) :
    (threadStep o m).untilResult = m.untilResult ∧ (threadStep o m).asked = m.asked ∧ (threadStep o m).single = m.single := by
  cases hth : m.thread with
  | alive pc =>
    have h := moves (o := o) m hth
    generalize threadStep o m = m' at h
    cases h <;> exact ⟨rfl, rfl, rfl⟩
  | _ => unfold threadStep; rw [hth]; exact ⟨rfl, rfl, rfl⟩

/-- C45: if TICK_PERIODICALLY or TICK_UNTIL_RESULT is answered with success and there is a tree, a tick thread has just been started that
will tick until a stop is requested or, for TICK_UNTIL_RESULT only, there is a result. -/
theorem c45_multiple (m : Mgr N) (b u : Bool) (c : Cmd) (hc : c = if u then .tickUntilResult else .tickPeriodically)
    (hr : (control o b c m).1.tree ≠ .empty) (hs : (control o b c m).2.success = true) :
    (control o b c m).1.state = .ticking ∧ (control o b c m).1.thread = .alive .start ∧ (control o b c m).1.untilResult = u ∧
    (control o b c m).1.once = false ∧ (control o b c m).1.single = false ∧ (control o b c m).1.asked = false ∧
    (control o b c m).1.calls = [] := by
  rcases control_eq (o := o) m b c with e | ⟨e, _⟩
  · rw [e] at hs hr ⊢
    generalize ready o m = m at hs hr
    have hd : (dispatch o c m) = if m.state = .error then (m, ⟨false, none⟩) else tickMultipleCmd u m := by
      subst hc
      cases u <;> simp [dispatch]
    rw [hd] at hs hr ⊢
    split at hs
    · cases hs
    · rename_i hne
      rw [if_neg hne] at hr ⊢
      unfold tickMultipleCmd at hs hr ⊢
      split at hs
      · cases hs
      · rename_i ha
        rw [if_neg ha] at hr ⊢
        cases ht : m.tree with
        | bad => rw [ht] at hs; cases hs
        | empty => rw [ht] at hr; exact absurd ht hr
        | root t => exact ⟨rfl, rfl, rfl, rfl, rfl, rfl, rfl⟩
  · rw [e] at hs; cases hs

/-- C45: TICK_UNTIL_RESULT ticks until there is a result: when the thread it started has ended without an error and no stop was requested, the
last tick, and no other, has returned SUCCEEDED or FAILED, and the root has been unticked. -/
theorem c45_until_result (m : Mgr N) (h : Start m) (hc : m.calls = []) (as : List (Action N)) (b : Bool) (n : Nat)
    (hr : (control o b .tickUntilResult (run o as m)).1.tree ≠ .empty)
    (hs : (control o b .tickUntilResult (run o as m)).2.success = true) (m' : Mgr N)
    (hm : m' = run o (as ++ .command .tickUntilResult b :: List.replicate n .think) m)
    (hd : m'.thread = .dead) (hb : m'.broke = false) (hx : ¬ Raised m'.calls) :
    ∃ l ss s s', Opening l ∧ m'.calls = l ++ ticks (ss ++ [s]) ++ [(Op.untick, some (.ok s'))] ∧ Final s ∧ ∀ s ∈ ss, ¬ Final s := by
  obtain ⟨_, _, f1, _, f2, f3, _⟩ := c45_multiple (o := o) (run o as m) b true .tickUntilResult rfl hr hs
  have hf : m'.untilResult = true ∧ m'.asked = false ∧ m'.single = false := by
    have hrun : m' = run o (List.replicate n .think) (control o b .tickUntilResult (run o as m)).1 := by
      rw [hm]; simp [run, step]
    rw [hrun]
    clear hrun hm hd hb hx hr hs
    generalize (control o b .tickUntilResult (run o as m)).1 = k at f1 f2 f3
    induction n generalizing k with
    | zero => exact ⟨f1, f3, f2⟩
    | succ n ih =>
      obtain ⟨g1, g2, g3⟩ := threadStep_flags (o := o) k
      exact ih (threadStep o k) (g1.trans f1) (g3.trans f2) (g2.trans f3)
  rw [hm] at hf hd hb hx ⊢
  obtain ⟨l, ss, s', h1, h2, h3, h4⟩ := c45_ends m h hc _ hd hb hx hf.2.2
  rcases h4 with h4 | ⟨h4, s, h5, h6⟩
  · rw [hf.2.1] at h4; cases h4
  · obtain ⟨ss', rfl⟩ : ∃ ss', ss = ss' ++ [s] := by
      rw [List.getLast?_eq_some_iff] at h5
      exact h5
    exact ⟨l, ss', s, s', h1, h2, h6, by simpa using h3 h4⟩

/-- C46: while the tick thread is at work, every command that would start ticking, reset or set up the tree is refused and has no effect. -/
theorem c46_busy (m : Mgr N) (b : Bool) (c : Cmd) (ha : m.thread.isAlive = true) (hi : m.state ≠ .idle)
    (hc : c = .tickOnce ∨ c = .tickPeriodically ∨ c = .tickUntilResult ∨ c = .reset ∨ c = .setupAndShutdown) :
    (control o b c m).1 = m ∧ (control o b c m).2.success = false := by
  unfold control renew
  rw [if_neg (by simp [hi]), if_pos ha]
  unfold dispatch
  split
  · exact ⟨rfl, rfl⟩
  · rcases hc with rfl | rfl | rfl | rfl | rfl <;> simp [tickOnceCmd, tickMultipleCmd, resetCmd, ha]

/-- C45: a tree in which nodes lack their parents is not executed: TICK_ONCE fails, no operation is called, the state is ERROR. -/
theorem c45_incomplete_once (m : Mgr N) (b : Bool) (t : N) (hs : m.state ≠ .error) (ha : m.thread.isAlive = false) (ho : m.orphans = true)
    (ht : m.tree = .root t) :
    (control o b .tickOnce m).2.success = false ∧ (control o b .tickOnce m).1.state = .error ∧ (control o b .tickOnce m).1.calls = [] ∧
    (control o b .tickOnce m).1.tree = .root t := by
  obtain ⟨tree, orphans, state, thread, lost, once, untilResult, world, clock, calls, asked, broke, single⟩ := m
  dsimp only at hs ha ho ht
  subst ho ht
  unfold control
  dsimp only
  rw [if_neg (by simp [ha])]
  unfold renew
  dsimp only
  rw [if_neg (by simp [ha])]
  unfold dispatch
  rw [if_neg (by simp [newThread, hs])]
  dsimp only [newThread, tickOnceCmd, Thread.isAlive]
  simp [joinSteps, join, startThread, threadStep, startStep, Mgr.goto, Mgr.die, Thread.isAlive]

/-- C45: the same for the commands that tick more than once: the thread they start ends with an error and has called nothing. -/
theorem c45_incomplete_multiple (m : Mgr N) (b u : Bool) (t : N) (hs : m.state ≠ .error) (ha : m.thread.isAlive = false) (ho : m.orphans = true)
    (ht : m.tree = .root t) :
    let m' := run o [.command (if u then .tickUntilResult else .tickPeriodically) b, .think, .think, .think] m
    m'.state = .error ∧ m'.thread = .dead ∧ m'.calls = [] ∧ m'.tree = .root t := by
  obtain ⟨tree, orphans, state, thread, lost, once, untilResult, world, clock, calls, asked, broke, single⟩ := m
  dsimp only at hs ha ho ht
  subst ho ht
  have e : ∀ c : Cmd, control o b c ⟨.root t, true, state, thread, lost, once, untilResult, world, clock, calls, asked, broke, single⟩ =
      dispatch o c (newThread ⟨.root t, true, state, thread, lost, once, untilResult, world, clock, calls, asked, broke, single⟩) := by
    intro c
    unfold control
    dsimp only
    rw [if_neg (by simp [ha])]
    unfold renew
    dsimp only
    rw [if_neg (by simp [ha])]
  cases u <;>
    simp [run, step, e, dispatch, newThread, hs, tickMultipleCmd, startThread, threadStep, startStep, Mgr.goto, Mgr.die, Thread.isAlive]

/-! ### Examples -/

/-- The toy is ticked twice, then a stop is requested. -/
example :
    let m : Mgr BTState := { tree := .root .uninitialized }
    let as : List (Action BTState) := .command .tickPeriodically true :: List.replicate 8 .think ++ [.command .stop true]
    Start m ∧ (run toy as m).thread = .dead ∧ (run toy as m).broke = false ∧ (run toy as m).single = false ∧ (run toy as m).asked = true ∧
    (run toy as m).calls = [(.setup, some (.ok .idle)), (.tick, some (.ok .running)), (.tick, some (.ok .running)), (.tick, some (.ok .running)),
      (.untick, some (.ok .idle))] := by decide

/-- TICK_ONCE on a tree that has not been set up. -/
example : (control toy true .tickOnce { tree := .root .uninitialized }).2 = ⟨true, some .waiting⟩ ∧
    (control toy true .tickOnce { tree := .root .uninitialized }).1.calls = [(.setup, some (.ok .idle)), (.tick, some (.ok .running))] := by decide

/-- TICK_UNTIL_RESULT on a leaf that succeeds at the second tick. -/
example :
    let m : Mgr (BT.Tree 1) := { tree := .root (BT.mkLeaf 0 1 [.ok .idle, .ok .running, .ok .succeeded, .ok .idle]) }
    let as : List (Action (BT.Tree 1)) := .command .tickUntilResult true :: List.replicate 9 .think
    (run (BT.ops 1) as m).thread = .dead ∧ (run (BT.ops 1) as m).state = .idle ∧ (run (BT.ops 1) as m).asked = false ∧
    (run (BT.ops 1) as m).calls = [(.setup, some (.ok .idle)), (.tick, some (.ok .running)), (.tick, some (.ok .succeeded)), (.untick, some (.ok .idle))] := by
  decide

/-- A second command while the tree is being ticked. -/
example :
    let m : Mgr BTState := run toy (.command .tickPeriodically true :: List.replicate 4 .think) { tree := .root .uninitialized }
    m.thread.isAlive = true ∧ m.state ≠ .idle ∧ (control toy true .reset m).2.success = false := by decide

end Verif.Exec
