import Verif.Exec.Model
import Verif.BT.Finished

/-!
# C105: ticking until a result comes to an end
-/

set_option autoImplicit false

namespace Verif.Exec.Until

open Verif.BT (Op Res BTState Ops Tree ops runs Fresh)
open Verif.BT.Finish

variable {N : Type}

/-- The tick thread has ended. -/
def Over (m : Mgr N) : Prop := m.thread.isAlive = false

theorem join_over (o : Ops N) (n : Nat) (m : Mgr N) (h : Over m) : join o n m = m := by
  cases n with
  | zero => rfl
  | succ n => unfold join; rw [h]; rfl

theorem join_step (o : Ops N) (n : Nat) (m : Mgr N) (h : m.thread.isAlive = true) : join o (n + 1) m = join o n (threadStep o m) := by
  rw [join, h]; rfl

theorem join_le (o : Ops N) : ∀ (n k : Nat) (m : Mgr N), n ≤ k → Over (join o n m) → Over (join o k m) := by
  intro n
  induction n with
  | zero => intro k m _ h; rw [join_over o k m h]; exact h
  | succ n ih =>
    intro k m hk h
    cases k with
    | zero => omega
    | succ k =>
      by_cases ha : m.thread.isAlive = true
      · rw [join_step o _ m ha] at h ⊢
        exact ih k _ (by omega) h
      · have : Over m := by simpa [Over] using ha
        rw [join_over o _ m this]
        exact this

theorem over_failed (o : Ops N) (m : Mgr N) (h : m.thread = .alive .failed) : Over (join o 2 m) := by
  simp [join, h, Thread.isAlive, threadStep, Mgr.goto, Mgr.die, Over]

theorem over_untick (o : Ops N) (m : Mgr N) (h : m.thread = .alive .untick) : Over (join o 3 m) := by
  rw [join_step o 2 m (by rw [h]; rfl)]
  have e : threadStep o m = untickStep o (m.world m.clock) { m with clock := m.clock + 1 } := by simp only [threadStep, h]
  rw [e]
  have hd : ∀ m : Mgr N, Over (join o 2 m.die) := fun m => by
    have d : Over m.die := rfl
    rw [join_over o 2 _ d]; exact d
  unfold untickStep
  split
  · split
    · exact hd _
    · exact over_failed o _ rfl
    · exact hd _
  · exact over_failed o _ rfl

theorem over_leave (o : Ops N) (m : Mgr N) (h : m.thread = .alive .leave) : Over (join o 4 m) := by
  rw [join_step o 3 m (by rw [h]; rfl)]
  have e : threadStep o m = ({ m with clock := m.clock + 1, state := .idle } : Mgr N).goto .untick := by simp only [threadStep, h]
  rw [e]
  exact over_untick o _ rfl

/-- The loop of the tick thread ends after a bounded number of rounds. -/
theorem over_head (o : Ops N) : ∀ (b : Nat) (m : Mgr N) (t : N), m.thread = .alive .head → m.tree = .root t → m.untilResult = true →
    (∀ h, Plain (o.run .tick (runs o h t).2).res) → Wait o b t → Over (join o (3 * b + 7) m) := by
  intro b
  induction b with
  | zero | succ b ih =>
    intro m t hth htr hu hp hw
    rw [join_step o _ m (by rw [hth]; rfl)]
    have e : threadStep o m = if m.state = .stopRequested then ({ m with clock := m.clock + 1 } : Mgr N).goto .leave else ({ m with clock := m.clock + 1 } : Mgr N).goto .tick := by
      simp only [threadStep, hth]
    rw [e]
    split
    · exact join_le o 4 _ _ (by omega) (over_leave o _ rfl)
    · rw [join_step o _ _ rfl]
      have e2 : threadStep o (({ m with clock := m.clock + 1 } : Mgr N).goto .tick) = tickStep o (m.world (m.clock + 1)) ({ m with clock := m.clock + 1 + 1, thread := .alive .tick } : Mgr N) := rfl
      rw [e2]
      unfold tickStep
      split
      · exact join_le o 2 _ _ (by omega) (over_failed o _ rfl)
      · simp only [htr]
        unfold Mgr.call
        split
        · rename_i h; split at h
          · exact join_le o 0 _ _ (by omega) (show Over (Mgr.die _) from rfl)
          · simp at h
        · exact join_le o 2 _ _ (by omega) (over_failed o _ rfl)
        · rename_i m' s h
          split at h
          · simp at h
          · simp only [Prod.mk.injEq, Option.some.injEq] at h
            obtain ⟨rfl, hr⟩ := h
            rw [join_step o _ _ rfl]
            have e3 : ∀ x : Mgr N, x.thread = .alive (.result s) → threadStep o x = resultStep s { x with clock := x.clock + 1 } := by
              intro x hx; simp only [threadStep, hx]
            rw [e3 _ rfl]
            unfold resultStep
            split
            · exact join_le o 4 _ _ (by omega) (over_leave o _ rfl)
            · rename_i hns
              have hs : s = .running := by
                have := hp []
                simp only [runs, hr] at this
                simp only [Mgr.goto, hu, true_and] at hns
                rcases this with e | e | e | e <;> cases e
                · rfl
                · exact absurd (Or.inr rfl) hns
                · exact absurd (Or.inl rfl) hns
              subst hs
              split
              · rw [join_step o _ _ rfl]
                have : Over (threadStep o ((({ m with clock := m.clock + 1 + 1 + 1 } : Mgr N)).goto .ended)) := rfl
                exact join_le o 0 _ _ (by omega) rfl
              · first
                | exact absurd hr hw
                | exact join_le o (3 * b + 7) _ _ (by omega) (ih _ _ rfl rfl hu (fun l => hp (.tick :: l)) (hw hr))

/-- The steps of a run until a result, from the start of the thread. -/
def enough (b : Nat) : Nat := 3 * b + 8

theorem over_start (o : Ops N) (b : Nat) (m : Mgr N) (t : N) (hth : m.thread = .alive .start) (htr : m.tree = .root t) (hu : m.untilResult = true)
    (hp : Prompt o b t) : Over (join o (enough b) m) := by
  unfold enough
  rw [join_step o _ m (by rw [hth]; rfl)]
  have e : threadStep o m = startStep o (m.world m.clock) { m with clock := m.clock + 1 } := by simp only [threadStep, hth]
  rw [e]
  unfold startStep
  split
  · exact join_le o 2 _ _ (by omega) (over_failed o _ rfl)
  · simp only [htr]
    split
    · unfold Mgr.call
      split
      · exact join_le o 0 _ _ (by omega) (show Over (Mgr.die _) from rfl)
      · rename_i h
        split at h
        · simp at h
        · simp only [Prod.mk.injEq, Option.some.injEq] at h
          obtain ⟨rfl, hr⟩ := h
          dsimp only
          split
          · exact over_head o b _ _ rfl rfl hu (fun l => (hp (.setup :: l)).1) (hp [.setup]).2
          · exact join_le o 2 _ _ (by omega) (over_failed o _ rfl)
    · exact over_head o b _ _ rfl rfl hu (fun l => (hp l).1) (hp []).2

/-- What the state of the tree is while a thread that is to tick more than once comes to its end. -/
def Closing (m : Mgr N) : Prop :=
  m.once = false ∧ (∀ i, (m.world i).raise = none) ∧
  match m.thread with
  | .alive .ended => m.state = .error
  | .alive .untick => m.state = .idle
  | .alive _ => True
  | .fresh | .absent => False
  | .dead => m.state = .idle ∨ m.state = .error

theorem closing_step (o : Ops N) (m : Mgr N) (h : Closing m) : Closing (threadStep o m) := by
  obtain ⟨h1, h2, h3⟩ := h
  unfold threadStep
  split
  · rename_i pc hpc
    rw [hpc] at h3
    dsimp only
    cases pc with
    | start =>
      simp only [startStep, Mgr.call, h2]
      repeat' split
      all_goals first | exact ⟨h1, h2, trivial⟩ | skip
    | head => dsimp only; split <;> exact ⟨h1, h2, trivial⟩
    | tick =>
      simp only [tickStep, Mgr.call, h2]
      repeat' split
      all_goals first | exact ⟨h1, h2, trivial⟩ | skip
      all_goals simp_all
      all_goals first | exact ⟨h1, h2, trivial⟩ | exact ⟨rfl, h2, trivial⟩ | (rename_i h; obtain ⟨rfl, h⟩ := h; exact ⟨rfl, h2, trivial⟩)
    | result s =>
      simp only [resultStep]
      split
      · exact ⟨h1, h2, trivial⟩
      · split
        · rename_i h; rw [h1] at h; cases h
        · exact ⟨h1, h2, trivial⟩
    | leave => exact ⟨h1, h2, rfl⟩
    | untick =>
      simp only [untickStep, Mgr.call, h2]
      repeat' split
      all_goals first | exact ⟨h1, h2, trivial⟩ | exact ⟨h1, h2, Or.inl h3⟩ | skip
      all_goals simp_all
      all_goals (rename_i h; obtain ⟨rfl, h⟩ := h; first | exact ⟨rfl, h2, trivial⟩ | exact ⟨rfl, h2, Or.inl rfl⟩)
    | failed => exact ⟨h1, h2, rfl⟩
    | ended => exact ⟨h1, h2, Or.inr h3⟩
  · exact ⟨h1, h2, h3⟩

theorem closing_join (o : Ops N) : ∀ (n : Nat) (m : Mgr N), Closing m → Closing (join o n m) := by
  intro n
  induction n with
  | zero => intro m h; exact h
  | succ n ih =>
    intro m h
    unfold join
    split
    · exact ih _ (closing_step o m h)
    · exact h

/-- **C105, TICK_UNTIL_RESULT ends.** Take a tree of known pace after any operations, with no thread running, and ask
for a result. Whatever inputs arrive, fail to arrive, and whatever exceptions are raised: after a number of steps
known in advance the thread has ended. Without exceptions the tree is then IDLE or in ERROR. -/
theorem c105_until_result_ends (β : Nat → Nat) (n : Nat) (t : Tree n) (hf : Fresh n t) (ht : TameTree β n t) (h : List Op)
    (m : Mgr (Tree n)) (hm : m.tree = .root (runs (ops n) h t).2) (ha : m.thread.isAlive = false) :
    let e := join (ops n) (enough (bound β n t)) (tickMultipleCmd true m).1
    e.thread.isAlive = false ∧ ((∀ i, (m.world i).raise = none) → e.state = .idle ∨ e.state = .error) := by
  have hp := tree_prompt β n t (ready_of_fresh β n t hf ht)
  have runs_append : ∀ (h l : List Op) (t : Tree n), (runs (ops n) l (runs (ops n) h t).2).2 = (runs (ops n) (h ++ l) t).2 := by
    intro h
    induction h with
    | nil => intro l t; rfl
    | cons op h ih => intro l t; exact ih l _
  have hp' : Prompt (ops n) (bound β n t) (runs (ops n) h t).2 := by
    intro l; rw [runs_append]; exact hp (h ++ l)
  have e1 : ∃ m', (tickMultipleCmd true m).1 = m' ∧ m'.thread = .alive .start ∧ m'.tree = .root (runs (ops n) h t).2 ∧ m'.untilResult = true ∧
      m'.once = false ∧ m'.world = m.world := by
    refine ⟨_, rfl, ?_⟩
    unfold tickMultipleCmd
    rw [ha, hm]
    simp [startThread]
  obtain ⟨m', e, h1, h2, h3, h4, h5⟩ := e1
  rw [e]
  have ho : Over (join (ops n) (enough (bound β n t)) m') := over_start (ops n) _ m' _ h1 h2 h3 hp'
  refine ⟨ho, fun hc => ?_⟩
  have hcl := (closing_join (ops n) (enough (bound β n t)) m' ⟨h4, (by rw [h5]; exact hc), (by rw [h1]; trivial)⟩).2.2
  revert ho hcl
  generalize join (ops n) (enough (bound β n t)) m' = x
  intro ho hcl
  unfold Over at ho
  revert ho hcl
  cases x.thread with
  | absent => intro _ h; exact h.elim
  | fresh => intro _ h; exact h.elim
  | alive pc => intro h; cases h
  | dead => intro _ h; exact h

/-! ### Runs that do not end -/

/-- The tick thread is in its loop and nothing makes it leave. -/
def Looping (o : Ops N) (m : Mgr N) : Prop :=
  m.once = false ∧ (∀ i, (m.world i).raise = none ∧ (m.world i).push = true) ∧ m.state = .ticking ∧
  ∃ t, m.tree = .root t ∧
    (∀ k, ∃ s, answer o k t = .ok s ∧ (m.untilResult = true → s ≠ .succeeded ∧ s ≠ .failed)) ∧
    (m.thread = .alive .head ∨ m.thread = .alive .tick ∨ ∃ s, m.thread = .alive (.result s) ∧ (m.untilResult = true → s ≠ .succeeded ∧ s ≠ .failed))

theorem looping_step (o : Ops N) (m : Mgr N) (h : Looping o m) : Looping o (threadStep o m) := by
  obtain ⟨h1, h2, h3, t, h4, h5, h6⟩ := h
  rcases h6 with h6 | h6 | ⟨s, h6, h7⟩
  · have e : threadStep o m = ({ m with clock := m.clock + 1 } : Mgr N).goto .tick := by simp [threadStep, h6, h3]
    rw [e]
    exact ⟨h1, h2, h3, t, h4, h5, .inr (.inl rfl)⟩
  · obtain ⟨s, hs, hs'⟩ := h5 0
    have hs : (o.run .tick t).res = .ok s := hs
    have e : threadStep o m = ({ m with clock := m.clock + 1, tree := .root (o.run .tick t).node, calls := m.calls ++ [(.tick, some (o.run .tick t).res)] } : Mgr N).goto (.result s) := by
      simp only [threadStep, h6, tickStep, h4, Mgr.call, (h2 _).1, (h2 _).2, hs]
      rfl
    rw [e]
    exact ⟨h1, h2, h3, _, rfl, fun k => h5 (k + 1), .inr (.inr ⟨s, rfl, hs'⟩)⟩
  · have e : threadStep o m = ({ m with clock := m.clock + 1 } : Mgr N).goto .head := by
      have h8 : ¬ (m.untilResult = true ∧ (s = .failed ∨ s = .succeeded)) := by
        rintro ⟨a, b | b⟩
        · exact (h7 a).2 b
        · exact (h7 a).1 b
      simp only [threadStep, h6, resultStep, h1]
      rw [if_neg h8]
      rfl
    rw [e]
    exact ⟨h1, h2, h3, t, h4, h5, .inl rfl⟩

theorem looping_join (o : Ops N) : ∀ (n : Nat) (m : Mgr N), Looping o m → (join o n m).thread.isAlive = true := by
  intro n
  induction n with
  | zero =>
    rintro m ⟨_, _, _, _, _, _, h | h | ⟨s, h, _⟩⟩ <;> (show m.thread.isAlive = true; rw [h]; rfl)
  | succ n ih =>
    intro m h
    have ha : m.thread.isAlive = true := by
      obtain ⟨_, _, _, _, _, _, h | h | ⟨s, h, _⟩⟩ := h <;> rw [h] <;> rfl
    rw [join_step o n m ha]
    exact ih _ (looping_step o m h)

/-- **C105, otherwise it goes on.** A set up tree that answers no error keeps the thread of TICK_PERIODICALLY busy for
ever, and one that answers RUNNING for ever keeps that of TICK_UNTIL_RESULT busy for ever, unless somebody stops it. -/
theorem c105_goes_on (o : Ops N) (u : Bool) (m : Mgr N) (t : N) (hm : m.tree = .root t) (ha : m.thread.isAlive = false) (hor : m.orphans = false)
    (hs : o.state t ≠ .uninitialized ∧ o.state t ≠ .shutdown) (hw : ∀ i, (m.world i).raise = none ∧ (m.world i).push = true)
    (hk : ∀ k, ∃ s, answer o k t = .ok s ∧ (u = true → s ≠ .succeeded ∧ s ≠ .failed)) (n : Nat) :
    (join o n (tickMultipleCmd u m).1).thread.isAlive = true := by
  have e : (tickMultipleCmd u m).1 = startThread false { m with state := .ticking, once := false, untilResult := u } := by
    unfold tickMultipleCmd
    rw [ha, hm]
    simp [startThread]
  rw [e]
  cases n with
  | zero => rfl
  | succ n =>
    rw [join_step o n _ rfl]
    apply looping_join
    have e2 : threadStep o (startThread false { m with state := .ticking, once := false, untilResult := u }) =
        ({ startThread false { m with state := .ticking, once := false, untilResult := u } with clock := m.clock + 1 } : Mgr N).goto .head := by
      simp [threadStep, startThread, startStep, hor, hm, hs]
    rw [e2]
    exact ⟨rfl, hw, rfl, t, hm, hk, .inl rfl⟩

/-- **C105, endless decorators.** Asked for a result, a tree of UntilSuccess, RepeatIfFail, RepeatUntilFail or
RepeatAlways over a child that is never RUNNING can keep the thread busy for ever. -/
theorem c105_endless_run (k : BT.Kind) (hk : k ∈ [BT.Kind.untilSuccess, .repeatIfFail, .repeatUntilFail, .repeatAlways]) :
    ∃ t : Tree 2, Fresh 2 t ∧ BT.Node.kind (N := Tree 1) t = k ∧ (∀ c ∈ BT.Node.children (N := Tree 1) t, TameTree (fun _ => 0) 1 c) ∧
      ∀ m : Mgr (Tree 2), m.tree = .root (runs (ops 2) [.setup] t).2 → m.thread.isAlive = false → m.orphans = false →
        (∀ i, (m.world i).raise = none ∧ (m.world i).push = true) → ∀ n, (join (ops 2) n (tickMultipleCmd true m).1).thread.isAlive = true := by
  obtain ⟨t, h1, h2, h3, h0, h4⟩ := c105_endless k hk
  refine ⟨t, h1, h2, h3, fun m hm ha hor hw n => ?_⟩
  exact c105_goes_on (ops 2) true m _ hm ha hor (by rw [h0]; exact ⟨by decide, by decide⟩) hw (fun j => ⟨.running, h4 j, fun _ => ⟨by decide, by decide⟩⟩) n

/-- A manager with a tree and nothing else. -/
def quiet (n : Nat) (t : Tree n) : Mgr (Tree n) := { tree := .root t, world := fun _ => {} }

example : let m := quiet 2 (runs (ops 2) [.setup] slowSeq).2
    m.tree = .root (runs (ops 2) [.setup] slowSeq).2 ∧ m.thread.isAlive = false ∧ m.orphans = false ∧ ∀ i, (m.world i).raise = none ∧ (m.world i).push = true :=
  ⟨rfl, rfl, rfl, fun _ => ⟨rfl, rfl⟩⟩

/-- A leaf under a decorator: the leaf is RUNNING once, and unticking it is answered IDLE. -/
def once : Tree 2 := BT.mk 1 1 .inverter [BT.mk 0 2 .leaf [] fun i => { hook := if i = 1 then .ok .running else if i = 2 then .ok .succeeded else .ok .idle }]

example : let m := (join (ops 2) (enough 1) (tickMultipleCmd true (quiet 2 once)).1)
    m.state = .idle ∧ m.thread.isAlive = false ∧ m.calls = [(.setup, some (.ok .idle)), (.tick, some (.ok .running)), (.tick, some (.ok .failed)), (.untick, some (.ok .idle))] := by
  decide +kernel

end Verif.Exec.Until
