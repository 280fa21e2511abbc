import Verif.BT.Sample
import Verif.BT.Loops

/-!
# C01, C02, C10: life cycle of a single node (over arbitrary children)
-/

set_option autoImplicit false

namespace Verif.BT

variable {N : Type}

theorem accepts_iff (op : Op) (s : BTState) : accepts op s = true ↔ Allowed op s := by
  cases op <;> cases s <;> simp [accepts, Allowed]

theorem allowedAfter_iff (op : Op) (s : BTState) : allowedAfter op s = true ↔ Documented op s := by
  cases op <;> cases s <;> simp [allowedAfter, Documented]

/-- Result and state agree and the state is documented. -/
def Sound (o : Ops N) : Prop :=
  ∀ op t s, (o.run op t).res = .ok s → o.state (o.run op t).node = s ∧ allowedAfter op s = true

theorem runPlain_sound (o : Ops N) (op : Op) (e : Env) (nd : Node N) (s : BTState)
    (h : (nd.runPlain o op e).res = .ok s) :
    (nd.runPlain o op e).node.state = s ∧ allowedAfter op s = true := by
  unfold Node.runPlain at h ⊢
  split at h
  · rename_i ha
    simp only [ha, if_true]
    dsimp only at h ⊢
    split at h
    · simp [Node.wrap] at h
    · rename_i s' hs
      split at h
      · rename_i hal
        simp [Node.wrap] at h
        subst h
        simp [hal, Node.wrap]
      · simp [Node.wrap] at h
  · simp [Node.wrap] at h

theorem runTick_sound (o : Ops N) (e : Env) (nd : Node N) (s : BTState)
    (h : (nd.runTick o e).res = .ok s) :
    (nd.runTick o e).node.state = s ∧ allowedAfter .tick s = true := by
  unfold Node.runTick at h ⊢
  dsimp only at h ⊢
  split at h <;> rename_i ha
  · simp only [ha, if_true]
    split at h <;> rename_i hi
    · simp only [hi, if_true]
      split at h
      · simp [Node.wrap] at h
      · rename_i s' hs
        split at h <;> rename_i hal
        · split at h <;> rename_i hp
          · simp [Node.wrap] at h
            subst h
            simp [hal, hp, Node.wrap]
          · simp [Node.wrap] at h
        · simp [Node.wrap] at h
    · simp [Node.wrap] at h
  · simp [Node.wrap] at h

theorem finishShutdown_sound (o : Ops N) (nd : Node N) (hs : nd.state = .shutdown) (l t s)
    (h : (nd.finishShutdown o l t).res = .ok s) :
    (nd.finishShutdown o l t).node.state = s ∧ s = .shutdown := by
  unfold Node.finishShutdown at h ⊢
  split at h <;> rename_i hv
  · simp only [hv, if_true]
    dsimp only [Node.wrap] at h ⊢
    split at h
    · simp at h
    · simp [hs] at h
      simp [← h, hs]
  · simp only [hv]
    simp [Node.wrap, hs] at h ⊢
    simp [← h]

theorem runShutdown_sound (o : Ops N) (e : Env) (nd : Node N) (s : BTState)
    (h : (nd.runShutdown o e).res = .ok s) :
    (nd.runShutdown o e).node.state = s ∧ s = .shutdown := by
  unfold Node.runShutdown at h ⊢
  dsimp only at h ⊢
  split at h <;> rename_i hst
  · simp only [hst, if_true]
    exact finishShutdown_sound o nd hst [] [] s h
  · simp only [hst, if_false]
    split at h
    · simp [Node.wrap] at h
    · rename_i s' hs
      split at h <;> rename_i hal
      · simp only [hal, if_true]
        refine finishShutdown_sound o _ ?_ _ _ s h
        simpa [allowedAfter] using hal
      · simp [Node.wrap] at h

theorem node_sound (o : Ops N) : Sound (Node.ops o) := by
  intro op t s h
  cases op
  · exact runPlain_sound o .setup _ _ s h
  · exact runTick_sound o _ _ s h
  · exact runPlain_sound o .untick _ _ s h
  · exact runPlain_sound o .reset _ _ s h
  · obtain ⟨h1, h2⟩ := runShutdown_sound o _ _ s h
    exact ⟨h1, by simp [allowedAfter, h2]⟩

theorem ops_sound (n : Nat) : Sound (ops n) := by
  cases n with
  | zero => intro op t; exact Empty.elim t
  | succ n => exact node_sound (ops n)

/-- **C02.** Whenever an operation on a node of any tree answers `Ok(s)`, the node's state is `s` and
`s` is documented for that operation. -/
theorem c02_result_is_state (n : Nat) (op : Op) (t : Tree n) (s : BTState)
    (h : ((ops n).run op t).res = .ok s) :
    (ops n).state ((ops n).run op t).node = s ∧ Documented op s := by
  obtain ⟨h1, h2⟩ := ops_sound n op t s h
  exact ⟨h1, (allowedAfter_iff op s).1 h2⟩

example : let t := ((ops 3).run .setup sampleSeq).node
    ((ops 3).run .tick t).res = .ok .running := by decide

theorem run_rejected (o : Ops N) (op : Op) (nd : Node N) (h : accepts op nd.state = false) :
    nd.run o op = Node.wrap op { nd with ctr := nd.ctr + 1 } .err [] [] := by
  cases op with
  | setup => simp [Node.run, Node.runPlain, h]
  | tick => simp [Node.run, Node.runTick, h]
  | untick => simp [Node.run, Node.runPlain, h]
  | reset => simp [Node.run, Node.runPlain, h]
  | shutdown => simp [accepts] at h

/-- **C01, rejection.** An operation outside its documented states answers `Err`, leaves the
published state of every node of the tree as it was, and enters no hook and calls no child. -/
theorem c01_rejected_call_has_no_effect (n : Nat) (op : Op) (t : Tree n)
    (h : ¬ Allowed op ((ops n).state t)) :
    ((ops n).run op t).res = .err ∧
    nodeStates n ((ops n).run op t).node = nodeStates n t ∧
    (∀ ev ∈ ((ops n).run op t).trace, ev.isHook = false) ∧
    ((ops n).run op t).log = [] := by
  cases n with
  | zero => exact Empty.elim t
  | succ n =>
    have ha : accepts op ((ops (n + 1)).state t) = false := by
      rw [← accepts_iff] at h
      simpa using h
    have hr : (ops (n + 1)).run op t = _ := run_rejected (ops n) op t ha
    rw [hr]
    refine ⟨rfl, rfl, ?_, rfl⟩
    intro ev hev
    simp [Node.wrap] at hev
    rcases hev with rfl | rfl <;> rfl

/-- A tree that is set up may not be set up again; here it is in the middle of a tick cycle. -/
example : ¬ Allowed .setup ((ops 3).state (runs (ops 3) [.setup, .tick] sampleSeq).2) := by
  rw [← accepts_iff]; decide

/-- The outside world's answers for the next operation on the root. -/
def nextEnv (n : Nat) (t : Tree (n + 1)) : Env :=
  Node.env (N := Tree n) t (Node.ctr (N := Tree n) t)

/-- Id of the root. -/
def rootId (n : Nat) (t : Tree (n + 1)) : Nat := Node.id (N := Tree n) t

theorem finishShutdown_trace (o : Ops N) (nd : Node N) (l t) (ev : Ev) (h : ev ∈ t) :
    ev ∈ (nd.finishShutdown o l t).trace := by
  unfold Node.finishShutdown
  split <;> simp [Node.wrap, h]

theorem run_hook_event (o : Ops N) (op : Op) (nd : Node N)
    (ha : accepts op nd.state = true)
    (hin : op = .tick → (nd.env nd.ctr).inputsOk = true)
    (hsd : op = .shutdown → nd.state ≠ .shutdown) :
    Ev.hook op nd.id ∈ (nd.run o op).trace := by
  cases op with
  | setup | untick | reset =>
    simp only [Node.run, Node.runPlain, ha, if_true]
    split
    · simp [Node.wrap]
    · split <;> simp [Node.wrap]
  | tick =>
    have hin' : (nd.env nd.ctr).inputsOk = true := hin rfl
    simp only [Node.run, Node.runTick, ha, if_true, hin']
    split
    · simp [Node.wrap]
    · split
      · split <;> simp [Node.wrap]
      · simp [Node.wrap]
  | shutdown =>
    have hsd' : nd.state ≠ .shutdown := hsd rfl
    simp only [Node.run, Node.runShutdown, hsd', if_false]
    split
    · simp [Node.wrap]
    · split
      · apply finishShutdown_trace; simp
      · simp [Node.wrap]

/-- **C01, acceptance.** In its documented states an operation does run the node's hook, except that
`tick` needs all inputs to be set and `shutdown` does nothing on a node that is
SHUTDOWN already. -/
theorem c01_accepted_call_runs_hook (n : Nat) (op : Op) (t : Tree (n + 1))
    (h : Allowed op ((ops (n + 1)).state t))
    (hin : op = .tick → (nextEnv n t).inputsOk = true)
    (hsd : op = .shutdown → (ops (n + 1)).state t ≠ .shutdown) :
    Ev.hook op (rootId n t) ∈ ((ops (n + 1)).run op t).trace :=
  run_hook_event (ops n) op t ((accepts_iff _ _).2 h) hin hsd

example : let t := (runs (ops 3) [.setup, .tick] sampleSeq).2
    Allowed .tick ((ops 3).state t) ∧ (nextEnv 2 t).inputsOk = true :=
  ⟨(accepts_iff _ _).1 (by decide), by decide⟩

end Verif.BT
